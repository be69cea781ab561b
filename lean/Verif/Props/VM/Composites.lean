import Verif.Proof.VM.Composites

/-!
# C37: composites
-/

namespace DuckLisp.VM

open DuckLisp DuckLisp.Spec

/-- C37: `make-instance` makes a new composite of exactly the given type, value and function, and
changes nothing the program could see before. -/
theorem C37_make_instance (env : Env) (bc : Nat) (st nx : CodePtr) (vm : VM) (hg : Good vm)
    (a b c t : Nat) (x f : Obj) (ha : operand vm a = some (.type t)) (ht : 20 ≤ t)
    (hb : operand vm b = some x) (hc : operand vm c = some f) :
    (∃ vm' r, exec env bc st nx (.makeInstance a b c) vm = .ok (.goto nx) vm' ∧
        vm'.stack = vm.stack ++ [.composite (some r)] ∧ ¬ Reachable vm r ∧ IsComposite vm' r t x f ∧
        Untouched vm vm' [] ∧ Good vm') ∨
    ∃ vm', exec env bc st nx (.makeInstance a b c) vm = .err .outOfMemory vm' ∧
      Untouched vm vm' [] ∧ Good vm' := by
  rcases exec_plain_post (i := .makeInstance a b c) trivial (post_makeInstance hg ha ht hb hc) with
    ⟨vm', he, r, h1, h2, h3, h4, h5, -⟩ | ⟨e, vm', he, rfl, h1, h2⟩
  · exact .inl ⟨vm', r, he, h5, fun h => h3 (traced_of_reachable hg.sound hg.finished h), h4,
      h2.untouched hg, h1⟩
  · exact .inr ⟨vm', he, h2.untouched hg, h1⟩

/-- C37: an instance of a built-in type cannot be made; the attempt changes nothing. -/
theorem C37_no_builtin_instance (env : Env) (bc : Nat) (st nx : CodePtr) (vm : VM)
    (a b c t : Nat) (ha : operand vm a = some (.type t)) (ht : t < 20) :
    exec env bc st nx (.makeInstance a b c) vm = .err .invalidValue vm := by
  refine exec_plain_err trivial ?_
  show iMakeInstance a b c vm = _
  unfold iMakeInstance
  rw [M.bind_ok (getArg_some ha)]
  simp only
  rw [if_pos (by simpa [typeLast] using ht)]
  rfl

/-- C37: reading the parts of a composite gives what it was made of. -/
theorem C37_parts (env : Env) (bc : Nat) (st nx : CodePtr) (vm : VM) (a r t : Nat) (x f : Obj)
    (ha : operand vm a = some (.composite (some r))) (hr : IsComposite vm r t x f) :
    exec env bc st nx (.compositeValue a) vm = .ok (.goto nx) (pushed vm x) ∧
    exec env bc st nx (.compositeFunction a) vm = .ok (.goto nx) (pushed vm f) ∧
    exec env bc st nx (.typeof a) vm = .ok (.goto nx) (pushed vm (.type t)) := by
  obtain ⟨v, w, hcell, hv, hw⟩ := hr
  refine ⟨exec_plain_ok trivial ?_, exec_plain_ok trivial ?_,
    exec_plain_ok trivial (unary_ok _ ha ?_)⟩
  · show iCompositeValue a vm = _
    unfold iCompositeValue
    rw [M.bind_ok (getArg_some ha)]
    simp only
    rw [M.bind_ok (compositeParts_some hcell)]
    simp only [pushPtr]
    rw [M.bind_ok (readCell_some hv)]
    rfl
  · show iCompositeFunction a vm = _
    unfold iCompositeFunction
    rw [M.bind_ok (getArg_some ha)]
    simp only
    rw [M.bind_ok (compositeParts_some hcell)]
    simp only [pushPtr]
    rw [M.bind_ok (readCell_some hw)]
    rfl
  · simp only [typeValue]
    rw [M.bind_ok (compositeParts_some hcell)]
    rfl

/-- C37: setting the value part changes the value part of that composite and nothing else, whoever
else holds the composite. -/
theorem C37_set_value (env : Env) (bc : Nat) (st nx : CodePtr) (vm : VM) (hg : Good vm)
    (a b r t : Nat) (x x0 f0 : Obj) (ha : operand vm a = some (.composite (some r)))
    (hb : operand vm b = some x) (hr : IsComposite vm r t x0 f0) :
    (∃ vm', exec env bc st nx (.setCompositeValue a b) vm = .ok (.goto nx) vm' ∧
        vm'.stack = vm.stack ++ [.composite (some r)] ∧ IsComposite vm' r t x f0 ∧
        Untouched vm vm' [r] ∧ Good vm') ∨
    ∃ vm', exec env bc st nx (.setCompositeValue a b) vm = .err .outOfMemory vm' ∧
      Untouched vm vm' [] ∧ Good vm' := by
  obtain ⟨v, w, hcell, hv, hw⟩ := hr
  rcases exec_plain_post (i := .setCompositeValue a b) trivial (post_setCompositeValue hg ha hb hcell) with
    ⟨vm', he, h1, h2, ⟨p, h3, h3', h3''⟩, h4, -⟩ | ⟨e, vm', he, rfl, h1, h2⟩
  · exact .inl ⟨vm', he, h4, ⟨p, w, h3, h3', (h3'' w rfl).trans hw⟩, h2, h1⟩
  · exact .inr ⟨vm', he, h2.untouched hg, h1⟩

/-- C37: setting the function part changes the function part of that composite and nothing else. -/
theorem C37_set_function (env : Env) (bc : Nat) (st nx : CodePtr) (vm : VM) (hg : Good vm)
    (a b r t : Nat) (f x0 f0 : Obj) (ha : operand vm a = some (.composite (some r)))
    (hb : operand vm b = some f) (hr : IsComposite vm r t x0 f0) :
    (∃ vm', exec env bc st nx (.setCompositeFunction a b) vm = .ok (.goto nx) vm' ∧
        vm'.stack = vm.stack ++ [.composite (some r)] ∧ IsComposite vm' r t x0 f ∧
        Untouched vm vm' [r] ∧ Good vm') ∨
    ∃ vm', exec env bc st nx (.setCompositeFunction a b) vm = .err .outOfMemory vm' ∧
      Untouched vm vm' [] ∧ Good vm' := by
  obtain ⟨v, w, hcell, hv, hw⟩ := hr
  rcases exec_plain_post (i := .setCompositeFunction a b) trivial
    (post_setCompositeFunction hg ha hb hcell) with
    ⟨vm', he, h1, h2, ⟨p, h3, h3', h3''⟩, h4, -⟩ | ⟨e, vm', he, rfl, h1, h2⟩
  · exact .inl ⟨vm', he, h4, ⟨v, p, h3, (h3'' v rfl).trans hv, h3'⟩, h2, h1⟩
  · exact .inr ⟨vm', he, h2.untouched hg, h1⟩

/-- A machine with a composite of user type 20 on the stack, and room for more. -/
def compositeVM : VM :=
  { heap := [.internalComposite 20 (some 1) (some 2), .integer 5, .function 6, .none, .none, .none]
    free := [3, 4, 5]
    stack := [.composite (some 0), .integer 7, .type 20]
    upStack := [none, none, none], callStack := [], globals := [], currentBytecode := none,
    nextUserType := 21, nextSerial := 0 }

theorem compositeVM_good : Good compositeVM := by
  have l0 : Live compositeVM 0 .parts := ⟨by decide, _, rfl, rfl⟩
  have l1 : Live compositeVM 1 .value := ⟨by decide, _, rfl, rfl⟩
  have l2 : Live compositeVM 2 .value := ⟨by decide, _, rfl, rfl⟩
  refine ⟨⟨by decide, by decide, ?_, by decide, ?_, by simp [compositeVM], by simp [compositeVM],
    by simp [compositeVM], by simp [compositeVM], ?_⟩, ?_⟩
  · intro r hr o ho
    simp [compositeVM] at hr
    rcases hr with rfl | rfl | rfl <;> (simp [compositeVM] at ho; subst ho; simp [OwnsBlock])
  · intro o ho
    simp [compositeVM] at ho
    rcases ho with rfl | rfl | rfl
    · exact ⟨0, rfl, l0⟩
    · exact ⟨by decide, by decide⟩
    · trivial
  · intro r o ho hf
    match r with
    | 0 =>
        simp [compositeVM] at ho; subst ho
        exact ⟨fun _ h => (by cases h; exact l1), fun _ h => (by cases h; exact l2)⟩
    | 1 => simp [compositeVM] at ho; subst ho; exact ⟨by decide, by decide⟩
    | 2 => simp [compositeVM] at ho; subst ho; trivial
    | 3 => exact absurd (by decide) hf
    | 4 => exact absurd (by decide) hf
    | 5 => exact absurd (by decide) hf
    | n + 6 => simp [compositeVM] at ho
  · intro r o ho hf
    match r with
    | 0 => simp [compositeVM] at ho; subst ho; simp [UnderConstruction]
    | 1 => simp [compositeVM] at ho; subst ho; simp [UnderConstruction]
    | 2 => simp [compositeVM] at ho; subst ho; simp [UnderConstruction]
    | 3 => exact absurd (by decide) hf
    | 4 => exact absurd (by decide) hf
    | 5 => exact absurd (by decide) hf
    | n + 6 => simp [compositeVM] at ho

example : operand compositeVM 3 = some (.composite (some 0)) ∧ operand compositeVM 1 = some (.type 20) ∧
    IsComposite compositeVM 0 20 (.integer 5) (.function 6) := ⟨rfl, rfl, _, _, rfl, rfl, rfl⟩
example : ∃ vm', exec plainEnv 0 ⟨0, 0, 0⟩ ⟨0, 0, 1⟩ (.makeInstance 1 2 3) compositeVM =
    .ok (.goto ⟨0, 0, 1⟩) vm' := ⟨_, rfl⟩

#print axioms C37_make_instance
#print axioms C37_no_builtin_instance
#print axioms C37_parts
#print axioms C37_set_value
#print axioms C37_set_function

end DuckLisp.VM
