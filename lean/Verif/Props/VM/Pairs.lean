import Verif.Proof.VM.Pairs

/-!
# C30: pairs
-/

namespace DuckLisp.VM

open DuckLisp DuckLisp.Spec

/-- C30: `cons` of any two values makes a new pair of exactly these, and changes nothing the program
could see before; if there is no memory for it, that is reported, and nothing has changed either. -/
theorem C30_cons (env : Env) (bc : Nat) (st nx : CodePtr) (vm : VM) (hg : Good vm) (a b : Nat)
    (x y : Obj) (ha : operand vm a = some x) (hb : operand vm b = some y) :
    (∃ vm' r, exec env bc st nx (.cons a b) vm = .ok (.goto nx) vm' ∧
        vm'.stack = vm.stack ++ [.list (some r)] ∧ ¬ Reachable vm r ∧ IsPair vm' r x y ∧
        (∀ p xs, y = .list p → ListOf vm p xs → ListOf vm' (some r) (x :: xs)) ∧
        Untouched vm vm' [] ∧ Good vm') ∨
    ∃ vm', exec env bc st nx (.cons a b) vm = .err .outOfMemory vm' ∧ Untouched vm vm' [] ∧
      Good vm' := by
  rcases exec_plain_post (i := .cons a b) trivial (post_cons hg ha hb) with
    ⟨vm', he, r, h1, h2, h3, h4, h5, -, h6⟩ | ⟨e, vm', he, rfl, h1, h2⟩
  · refine .inl ⟨vm', r, he, h5, fun h => h3 (traced_of_reachable hg.sound hg.finished h), h4,
      fun p xs hy hl => ?_, h2.untouched hg, h1⟩
    obtain ⟨a, d, hc, hx, -⟩ := h4
    obtain ⟨a', hc'⟩ := h6 p hy
    rw [hc] at hc'
    cases hc'
    refine .cons hc hx (listOf_keeps hl (fun c hc => h2.heap c hc) fun c hc => ?_)
    subst hc
    exact pinned_stack hg.sound (operand_mem hb) c (hy ▸ .list)
  · exact .inr ⟨vm', he, h2.untouched hg, h1⟩

/-- C30: `car` of a pair is its first half. -/
theorem C30_car (env : Env) (bc : Nat) (st nx : CodePtr) (vm : VM) (a r : Nat) (x y : Obj)
    (ha : operand vm a = some (.list (some r))) (hr : IsPair vm r x y) :
    exec env bc st nx (.car a) vm = .ok (.goto nx) (pushed vm x) := by
  obtain ⟨p, d, hcell, hp, -⟩ := hr
  refine exec_plain_ok trivial (unary_ok _ ha ?_)
  simp only [carValue]
  rw [M.bind_ok (readCell_some hcell)]
  exact partValue_eq hp

/-- C30: `cdr` of a pair is its second half. -/
theorem C30_cdr (env : Env) (bc : Nat) (st nx : CodePtr) (vm : VM) (a r : Nat) (x y : Obj)
    (ha : operand vm a = some (.list (some r))) (hr : IsPair vm r x y) :
    exec env bc st nx (.cdr a) vm = .ok (.goto nx) (pushed vm y) := by
  obtain ⟨p, d, hcell, -, hd⟩ := hr
  refine exec_plain_ok trivial (unary_ok _ ha ?_)
  simp only [cdrValue]
  rw [M.bind_ok (readCell_some hcell)]
  exact partValue_eq hd

/-- C30: `car` and `cdr` of the empty list are the empty list. -/
theorem C30_nil (env : Env) (bc : Nat) (st nx : CodePtr) (vm : VM) (a : Nat)
    (ha : operand vm a = some (.list none)) :
    exec env bc st nx (.car a) vm = .ok (.goto nx) (pushed vm (.list none)) ∧
    exec env bc st nx (.cdr a) vm = .ok (.goto nx) (pushed vm (.list none)) :=
  ⟨exec_plain_ok trivial (unary_ok _ ha rfl), exec_plain_ok trivial (unary_ok _ ha rfl)⟩

/-- C30: every list on the stack of a machine in order is empty or a pair of two values, so the
theorems about pairs apply to it. -/
theorem C30_lists_are_pairs (vm : VM) (hg : Good vm) (a : Nat) (p : Option Nat)
    (ha : operand vm a = some (.list p)) : p = none ∨ ∃ r x y, p = some r ∧ IsPair vm r x y := by
  cases p with
  | none => exact .inl rfl
  | some r =>
      obtain ⟨x, y, h⟩ := pair_operand hg ha
      exact .inr ⟨r, x, y, rfl, h⟩

/-- C30: `set-car` changes the first half of that pair and nothing else.  Whoever holds the same
pair sees the change, since it is made in the pair itself. -/
theorem C30_set_car (env : Env) (bc : Nat) (st nx : CodePtr) (vm : VM) (hg : Good vm) (a b r : Nat)
    (x x0 y0 : Obj) (ha : operand vm a = some x) (hb : operand vm b = some (.list (some r)))
    (hr : IsPair vm r x0 y0) :
    (∃ vm', exec env bc st nx (.setCar a b) vm = .ok (.goto nx) vm' ∧
        vm'.stack = vm.stack ++ [.list (some r)] ∧ IsPair vm' r x y0 ∧ Untouched vm vm' [r] ∧
        Good vm') ∨
    ∃ vm', exec env bc st nx (.setCar a b) vm = .err .outOfMemory vm' ∧ Untouched vm vm' [] ∧
      Good vm' := by
  rcases exec_plain_post (i := .setCar a b) trivial (post_setCar_pair hg ha hb hr) with
    ⟨vm', he, h1, h2, h3, h4, -⟩ | ⟨e, vm', he, rfl, h1, h2⟩
  · exact .inl ⟨vm', he, h4, h3, h2, h1⟩
  · exact .inr ⟨vm', he, h2.untouched hg, h1⟩

/-- C30: `set-cdr` changes the second half of that pair and nothing else. -/
theorem C30_set_cdr (env : Env) (bc : Nat) (st nx : CodePtr) (vm : VM) (hg : Good vm) (a b r : Nat)
    (y x0 y0 : Obj) (ha : operand vm a = some y) (hb : operand vm b = some (.list (some r)))
    (hr : IsPair vm r x0 y0) :
    (∃ vm', exec env bc st nx (.setCdr a b) vm = .ok (.goto nx) vm' ∧
        vm'.stack = vm.stack ++ [.list (some r)] ∧ IsPair vm' r x0 y ∧ Untouched vm vm' [r] ∧
        Good vm') ∨
    ∃ vm', exec env bc st nx (.setCdr a b) vm = .err .outOfMemory vm' ∧ Untouched vm vm' [] ∧
      Good vm' := by
  rcases exec_plain_post (i := .setCdr a b) trivial (post_setCdr_pair hg ha hb hr) with
    ⟨vm', he, h1, h2, h3, h4, -⟩ | ⟨e, vm', he, rfl, h1, h2⟩
  · exact .inl ⟨vm', he, h4, h3, h2, h1⟩
  · exact .inr ⟨vm', he, h2.untouched hg, h1⟩

/-- C30: on the empty list, `set-car` and `set-cdr` are errors that change nothing. -/
theorem C30_set_nil (env : Env) (bc : Nat) (st nx : CodePtr) (vm : VM) (a b : Nat) (x : Obj)
    (ha : operand vm a = some x) (hb : operand vm b = some (.list none)) :
    exec env bc st nx (.setCar a b) vm = .err .invalidValue vm ∧
    exec env bc st nx (.setCdr a b) vm = .err .invalidValue vm := by
  refine ⟨exec_plain_err trivial ?_, exec_plain_err trivial ?_⟩
  · show iSetCar a b vm = _
    unfold iSetCar
    rw [M.bind_ok (getArg_some ha), M.bind_ok (getArg_some hb)]
    rfl
  · show iSetCdr a b vm = _
    unfold iSetCdr
    rw [M.bind_ok (getArg_some ha), M.bind_ok (getArg_some hb)]
    rfl

/-- A machine with the list `(5 . 6)` and the number 7 on its stack, and one cell to spare. -/
def pairVM : VM :=
  { heap := [.cons (some 1) (some 2), .integer 5, .integer 6, .none]
    free := [3]
    stack := [.list (some 0), .integer 7]
    upStack := [none, none], callStack := [], globals := [], currentBytecode := none, nextSerial := 0 }

theorem pairVM_good : Good pairVM := by
  have l0 : Live pairVM 0 .pair := ⟨by decide, _, rfl, rfl⟩
  have l1 : Live pairVM 1 .value := ⟨by decide, _, rfl, rfl⟩
  have l2 : Live pairVM 2 .value := ⟨by decide, _, rfl, rfl⟩
  refine ⟨⟨by decide, by decide, ?_, by decide, ?_, by simp [pairVM], by simp [pairVM], by simp [pairVM],
    by simp [pairVM], ?_⟩, ?_⟩
  · intro r hr o ho
    simp [pairVM] at hr; subst hr; simp [pairVM] at ho; subst ho; simp [OwnsBlock]
  · intro o ho
    simp [pairVM] at ho
    rcases ho with rfl | rfl
    · exact l0
    · exact ⟨by decide, by decide⟩
  · intro r o ho hf
    match r with
    | 0 => simp [pairVM] at ho; subst ho; exact ⟨.inl l1, .inl l2⟩
    | 1 => simp [pairVM] at ho; subst ho; exact ⟨by decide, by decide⟩
    | 2 => simp [pairVM] at ho; subst ho; exact ⟨by decide, by decide⟩
    | 3 => exact absurd (by decide) hf
    | n + 4 => simp [pairVM] at ho
  · intro r o ho hf
    match r with
    | 0 => simp [pairVM] at ho; subst ho; simp [UnderConstruction]
    | 1 => simp [pairVM] at ho; subst ho; simp [UnderConstruction]
    | 2 => simp [pairVM] at ho; subst ho; simp [UnderConstruction]
    | 3 => exact absurd (by decide) hf
    | n + 4 => simp [pairVM] at ho

example : operand pairVM 2 = some (.list (some 0)) ∧ operand pairVM 1 = some (.integer 7) ∧
    IsPair pairVM 0 (.integer 5) (.integer 6) :=
  ⟨rfl, rfl, _, _, rfl, .value rfl (by simp), .value rfl (by simp)⟩
example : ∃ vm', exec plainEnv 0 ⟨0, 0, 0⟩ ⟨0, 0, 1⟩ (.setCar 1 2) pairVM = .ok (.goto ⟨0, 0, 1⟩) vm' :=
  ⟨_, rfl⟩
/-- With one cell left, `(cons l l)` succeeds and `(cons 7 l)` runs out of memory. -/
example : ∃ vm', exec plainEnv 0 ⟨0, 0, 0⟩ ⟨0, 0, 1⟩ (.cons 2 2) pairVM = .ok (.goto ⟨0, 0, 1⟩) vm' :=
  ⟨_, rfl⟩
example : (match exec plainEnv 0 ⟨0, 0, 0⟩ ⟨0, 0, 1⟩ (.cons 1 2) pairVM with
    | .err .outOfMemory _ => true
    | _ => false) = true := by decide +kernel

#print axioms C30_cons
#print axioms C30_car
#print axioms C30_cdr
#print axioms C30_nil
#print axioms C30_lists_are_pairs
#print axioms C30_set_car
#print axioms C30_set_cdr
#print axioms C30_set_nil

end DuckLisp.VM
