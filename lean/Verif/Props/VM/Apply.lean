import Verif.Proof.VM.Apply
import Verif.Proof.VM.Closures

/-!
# C39: apply
-/

namespace DuckLisp.VM

open DuckLisp DuckLisp.Spec

section

/-! The theorems hold whatever the rule about where functions may start, see `Spec.Entries`. -/

variable [Entries]

/-- C39: applying a function without a rest parameter, with as many arguments and list elements together
as it has parameters, goes on at the start of its code with the elements on the stack in place of the
list.  The direct call of the function on the machine with the elements there does the same. -/
theorem C39_fixed_partial (env : Env) (bc : Nat) (st nx ip : CodePtr) (vm : VM) (hg : Good vm)
    (hl : vm.upStack.length = vm.stack.length) (a c u : Nat) (f : Obj) (pos : Int) (arity : UInt8) (us : UpArray)
    (below args xs : List Obj) (p : Option Nat) (hst : vm.stack = below ++ args ++ [.list p])
    (hx : ListOf vm p xs) (hn : args.length + xs.length = arity.toNat)
    (ha : operand vm a = some f) (hf : Callee vm f (.closure pos (some c) (some u) arity false))
    (hc : IsCode vm c pos ip) (hu : IsCaptures vm u us) :
    ∃ vm', exec env bc st nx (.apply a args.length) vm = .ok (.goto ip) vm' ∧
      Called (spreadOut vm xs) vm' bc nx us ∧
      (spreadOut vm xs).stack = below ++ args ++ xs ∧
      ∀ b, operand (spreadOut vm xs) b = some f →
        exec env bc st nx (.funcall b (args ++ xs).length) (spreadOut vm xs) = .ok (.goto ip) vm' := by
  obtain ⟨rest, -, -, -, h⟩ := apply_eq (bc := bc) (n := args.length) (nx := nx) hg ha hf hst hl hx
  rw [if_neg (by simp), if_neg (by omega), List.take_of_length_le (by omega)] at h
  obtain ⟨vm', h1, h2⟩ := enter_eq (vm := spreadOut vm xs) (bc := bc) (nx := nx) (isCode_keeps hc rfl)
    (isCaptures_keeps hu rfl)
  refine ⟨vm', ?_, h2, by simp [spreadOut, hst], fun b hb => ?_⟩
  · simp only [exec]
    rw [M.bind_ok (show iApply bc nx a args.length vm = .ok ip vm' from h.trans h1)]
    rfl
  · obtain ⟨vm'', h3, h4⟩ := C38_fixed env bc st nx ip (spreadOut vm xs) b (args ++ xs).length c u f pos arity us hb
      (callee_heap (s := spreadOut vm xs) (vm := vm) rfl hf) (by simpa using hn) (isCode_keeps hc rfl) (isCaptures_keeps hu rfl)
    rw [h3, h4, ← h2]

/-- C39: too few arguments and elements are an error, for any function of the language, and so are more
arguments than a function without a rest parameter has. -/
theorem C39_wrong_count_partial (env : Env) (bc : Nat) (st nx : CodePtr) (vm : VM) (hg : Good vm)
    (hl : vm.upStack.length = vm.stack.length) (a : Nat) (f : Obj) (pos : Int) (code ups : Option Nat)
    (arity : UInt8) (variadic : Bool) (below args xs : List Obj) (p : Option Nat)
    (hst : vm.stack = below ++ args ++ [.list p]) (hx : ListOf vm p xs)
    (hn : args.length + xs.length < arity.toNat ∨ variadic = false ∧ arity.toNat < args.length)
    (ha : operand vm a = some f) (hf : Callee vm f (.closure pos code ups arity variadic)) :
    ∃ vm', exec env bc st nx (.apply a args.length) vm = .err .invalidValue vm' := by
  obtain ⟨rest, -, -, -, h⟩ := apply_eq (bc := bc) (n := args.length) (nx := nx) hg ha hf hst hl hx
  refine ⟨spreadOut vm (xs.take (arity.toNat - args.length)), ?_⟩
  have : iApply bc nx a args.length vm =
      .err .invalidValue (spreadOut vm (xs.take (arity.toNat - args.length))) := by
    rw [h]
    cases variadic with
    | true =>
      rw [if_pos rfl, if_pos (by simp at hn; omega)]
      rfl
    | false =>
      rw [if_neg (by simp), if_pos (by simp at hn; omega)]
      rfl
  simp only [exec]
  rw [M.bind_err this]

/-- C39, violated: when there are more elements than parameters, the surplus is dropped without an error;
the direct call with all of them is an error. -/
theorem C39_surplus_is_dropped (env : Env) (bc : Nat) (st nx ip : CodePtr) (vm : VM) (hg : Good vm)
    (hl : vm.upStack.length = vm.stack.length) (a c u : Nat) (f : Obj) (pos : Int) (arity : UInt8) (us : UpArray)
    (below args xs : List Obj) (p : Option Nat) (hst : vm.stack = below ++ args ++ [.list p])
    (hx : ListOf vm p xs) (hn : args.length ≤ arity.toNat) (hm : arity.toNat < args.length + xs.length)
    (ha : operand vm a = some f) (hf : Callee vm f (.closure pos (some c) (some u) arity false))
    (hc : IsCode vm c pos ip) (hu : IsCaptures vm u us) :
    (∃ vm', exec env bc st nx (.apply a args.length) vm = .ok (.goto ip) vm' ∧
      Called (spreadOut vm (xs.take (arity.toNat - args.length))) vm' bc nx us) ∧
    ∀ b, operand (spreadOut vm xs) b = some f →
      exec env bc st nx (.funcall b (args ++ xs).length) (spreadOut vm xs) = .err .invalidValue (spreadOut vm xs) := by
  obtain ⟨rest, -, -, -, h⟩ := apply_eq (bc := bc) (n := args.length) (nx := nx) hg ha hf hst hl hx
  rw [if_neg (by simp), if_neg (by omega)] at h
  obtain ⟨vm', h1, h2⟩ := enter_eq (vm := spreadOut vm (xs.take (arity.toNat - args.length))) (bc := bc) (nx := nx)
    (isCode_keeps hc rfl) (isCaptures_keeps hu rfl)
  refine ⟨⟨vm', ?_, h2⟩, fun b hb => ?_⟩
  · simp only [exec]
    rw [M.bind_ok (show iApply bc nx a args.length vm = .ok ip vm' from h.trans h1)]
    rfl
  · exact C38_wrong_count env bc st nx (spreadOut vm xs) b _ f pos (some c) (some u) arity false hb
      (callee_heap (s := spreadOut vm xs) (vm := vm) rfl hf) (by simp; omega)

/-- C39: applying a function with a rest parameter: its other parameters get the first of the arguments
and elements, in order, and the rest parameter is a list of all the others, in order.  The arguments and elements
themselves stay what they are. -/
theorem C39_variadic (env : Env) (bc : Nat) (st nx ip : CodePtr) (vm : VM) (hg : Good vm)
    (hl : vm.upStack.length = vm.stack.length) (a c u : Nat) (f : Obj) (pos : Int) (arity : UInt8) (us : UpArray)
    (below args xs : List Obj) (p : Option Nat) (hst : vm.stack = below ++ args ++ [.list p])
    (hx : ListOf vm p xs) (hn : arity.toNat ≤ args.length + xs.length)
    (ha : operand vm a = some f) (hf : Callee vm f (.closure pos (some c) (some u) arity true))
    (hc : IsCode vm c pos ip) (hu : IsCaptures vm u us) :
    (∃ vm1 vm' q, exec env bc st nx (.apply a args.length) vm = .ok (.goto ip) vm' ∧
        Called vm1 vm' bc nx us ∧ vm1.stack = below ++ (args ++ xs).take arity.toNat ++ [.list q] ∧
        vm1.upStack.length = vm1.stack.length ∧
        (∀ i r, vm1.upStack[i]? = some (some r) ↔ i ≤ below.length + arity.toNat ∧ vm.upStack.dropLast[i]? = some (some r)) ∧
        ListOf vm1 q ((args ++ xs).drop arity.toNat) ∧
        Untouched (spreadOut vm (xs.take (arity.toNat - args.length))) vm1 [] ∧ Good vm1 ∧
        ∀ x ∈ args ++ xs, ∀ r, Used vm x r → vm1.heap[r]? = vm.heap[r]?) ∨
    ∃ vm', exec env bc st nx (.apply a args.length) vm = .err .outOfMemory vm' ∧
      Untouched (spreadOut vm (xs.take (arity.toNat - args.length))) vm' [] := by
  obtain ⟨rest, hrest, hvrest, hvx, h⟩ := apply_eq (bc := bc) (n := args.length) (nx := nx) hg ha hf hst hl hx
  rw [if_pos rfl, if_neg (by omega)] at h
  generalize hs : spreadOut vm (xs.take (arity.toNat - args.length)) = s at *
  have hgs : Good s := hs ▸ spreadOut_good hg fun x hx => hvx x (List.mem_of_mem_take hx)
  have hheap : s.heap = vm.heap := hs ▸ rfl
  have hfree : s.free = vm.free := hs ▸ rfl
  have hls : s.upStack.length = s.stack.length := by
    subst hs
    simp [spreadOut, hl]
  -- the first `arity` of all values, and those after them that are on the stack
  have hsplit : s.stack = (below ++ (args ++ xs).take arity.toNat) ++ args.drop arity.toNat := by
    subst hs
    show vm.stack.dropLast ++ _ = _
    rw [hst, List.dropLast_concat, List.take_append]
    by_cases hle : args.length ≤ arity.toNat
    · rw [List.take_of_length_le hle, List.drop_eq_nil_of_le hle]
      simp
    · rw [show arity.toNat - args.length = 0 by omega]
      simp
  have hcount : args.length + min (arity.toNat - args.length) xs.length - arity.toNat =
      (args.drop arity.toNat).length := by
    rw [List.length_drop]
    omega
  have hall : args.drop arity.toNat ++ xs.drop (arity.toNat - args.length) = (args ++ xs).drop arity.toNat := by
    rw [List.drop_append]
  rw [hcount] at h
  have hp := post_collectRest (U := False) (E := fun e s' => e = .outOfMemory ∧ Untouched s s' []) hgs hls
    (fun s' h => ⟨rfl, h⟩) hsplit (tail := rest) (xs := xs.drop (arity.toNat - args.length))
    (by subst hs; exact hvrest) (by subst hs; exact listOf_heap hrest rfl)
  rw [hall] at hp
  have hmem : f ∈ s.stack := by
    have := operand_mem ha
    rw [hst] at this
    rcases List.mem_append.1 this with this | this
    · subst hs
      show f ∈ vm.stack.dropLast ++ _
      rw [hst, List.dropLast_concat]
      exact List.mem_append_left _ this
    · simp at this
      subst this
      exact (callee_ne_list hf).elim
  have ht := callee_traced hgs (callee_heap hheap hf) (fun r hr => pinned_stack hgs.sound hmem r hr)
  rcases hp.cases with ⟨_, s', h1, q, h2, h3, h4, h5, h6, h7, h8⟩ | ⟨e, s', h1, rfl, h2⟩
  · obtain ⟨vm', h9, h10⟩ := enter_eq (vm := s') (bc := bc) (nx := nx)
      (isCode_keeps hc ((h7 c (ht c .code)).1.trans (congrArg (·[_]?) hheap)))
      (isCaptures_keeps hu ((h7 u (ht u .captured)).1.trans (congrArg (·[_]?) hheap)))
    refine .inl ⟨s', vm', q, ?_, h10, h2, ?_, ?_, h4, h5, h6, fun x hx r hr => ?_⟩
    · simp only [exec]
      rw [M.bind_ok (show iApply bc nx a args.length vm = .ok ip vm' from h.trans ((M.bind_ok h1).trans h9))]
      rfl
    · rw [h3, h2]
      have : s.upStack.length = (below ++ (args ++ xs).take arity.toNat).length + (args.drop arity.toNat).length := by
        rw [hls, hsplit, List.length_append]
      simp at this ⊢
      omega
    · intro i r
      have hlen : (below ++ (args ++ xs).take arity.toNat).length = below.length + arity.toNat := by
        rw [List.length_append, List.length_take, List.length_append, Nat.min_eq_left hn]
      have hnone : ∀ l : List Obj, (l.map fun _ => (none : Option Nat)) = List.replicate l.length none := fun l => by
        rw [List.map_const']
      rw [h3, hlen, List.getElem?_take]
      have hs' : s.upStack = vm.upStack.dropLast ++ (xs.take (arity.toNat - args.length)).map fun _ => none := by
        subst hs; rfl
      split
      · rw [show s.upStack ++ [none] = s.upStack ++ List.replicate 1 none from rfl, append_none_iff, hs', hnone,
          append_none_iff]
        exact ⟨fun h => ⟨by omega, h⟩, fun h => h.2⟩
      · exact ⟨fun h => (nomatch h), fun h => by omega⟩
    · have hr' : Used s x r := used_congr hr fun _ _ => by rw [hheap]
      rw [← hheap]
      have hin : x ∈ s.stack ∨ x ∈ xs.drop (arity.toNat - args.length) := by
        rcases List.mem_append.1 hx with hx | hx
        · left
          subst hs
          show x ∈ vm.stack.dropLast ++ _
          rw [hst, List.dropLast_concat]
          exact List.mem_append_left _ (List.mem_append_right _ hx)
        · rw [← List.take_append_drop (arity.toNat - args.length) xs] at hx
          rcases List.mem_append.1 hx with hx | hx
          · left
            subst hs
            exact List.mem_append_right _ hx
          · exact .inr hx
      rcases hin with hin | hin
      · exact h5.cells r (reachable_used hin hr') (by simp)
      · exact h8 r (used_element (by subst hs; exact listOf_heap hrest rfl) hin hr')
  · refine .inr ⟨s', ?_, h2⟩
    simp only [exec]
    rw [M.bind_err (show iApply bc nx a args.length vm = .err .outOfMemory s' from h.trans (M.bind_err h1))]

/-- C39, violated: a function of the host can be called, but not applied; nor can anything else that is
not a function of the language. -/
theorem C39_only_closures (env : Env) (bc : Nat) (st nx : CodePtr) (vm : VM) (a n : Nat) (f g : Obj)
    (ha : operand vm a = some f) (hf : Callee vm f g)
    (h2 : ∀ pos code ups arity variadic, g ≠ .closure pos code ups arity variadic) :
    exec env bc st nx (.apply a n) vm = .err .invalidValue vm := by
  have : iApply bc nx a n vm = .err .invalidValue vm := by
    unfold iApply
    rw [M.bind_ok (getArg_some ha), M.bind_ok (show unwrapFuel vm = .ok _ vm from rfl),
      M.bind_ok (unwrap_callee hf)]
    cases g <;> first | rfl | exact absurd rfl (h2 _ _ _ _ _)
  simp only [exec]
  rw [M.bind_err this]

/-- C39: something on top of the stack that is not a list is an error. -/
theorem C39_not_a_list (env : Env) (bc : Nat) (st nx : CodePtr) (vm : VM)
    (hl : vm.upStack.length = vm.stack.length) (a n : Nat) (f : Obj) (below : List Obj) (x : Obj)
    (hst : vm.stack = below ++ [x]) (hx : ∀ p, x ≠ .list p) (pos : Int) (code ups : Option Nat)
    (arity : UInt8) (variadic : Bool) (ha : operand vm a = some f)
    (hf : Callee vm f (.closure pos code ups arity variadic)) :
    ∃ vm', exec env bc st nx (.apply a n) vm = .err .invalidValue vm' := by
  refine ⟨spreadOut vm [], ?_⟩
  have : iApply bc nx a n vm = .err .invalidValue (spreadOut vm []) := by
    unfold iApply
    rw [M.bind_ok (getArg_some ha), M.bind_ok (show unwrapFuel vm = .ok _ vm from rfl),
      M.bind_ok (unwrap_callee hf)]
    dsimp only
    rw [M.bind_ok (popStack_top hst hl)]
    cases x <;> first | rfl | exact absurd rfl (hx _)
  simp only [exec]
  rw [M.bind_err this]

end

/-! ### Examples -/

/-- A machine with a function of two parameters, or, if `variadic`, of two and a rest parameter, below the
integer 3 and the list `(4 5)`. -/
def applyVM (variadic : Bool) : VM where
  heap := [.bytecode (some ⟨0, [76, 1, 2, 162, 2]⟩) 5, .upvalueArray none 0, .cons (some 3) (some 4), .integer 4,
    .cons (some 5) none, .integer 5, .integer 0, .integer 0]
  free := [6, 7]
  stack := [.closure 0 (some 0) (some 1) 2 variadic, .integer 3, .list (some 2)]
  upStack := [none, none, none]
  callStack := []
  upArrays := []
  globals := []
  currentBytecode := some 0
  nextUserType := 100
  nextSerial := 1

theorem applyVM_good (v : Bool) : Good (applyVM v) := by
  have l0 : Live (applyVM v) 0 (.code (some ⟨0, [76, 1, 2, 162, 2]⟩)) := ⟨by simp [applyVM], _, rfl, rfl⟩
  have l1 : Live (applyVM v) 1 (.captures 0) := ⟨by simp [applyVM], _, rfl, rfl⟩
  have l2 : Live (applyVM v) 2 .pair := ⟨by simp [applyVM], _, rfl, rfl⟩
  have l3 : Live (applyVM v) 3 .value := ⟨by simp [applyVM], _, rfl, rfl⟩
  have l4 : Live (applyVM v) 4 .pair := ⟨by simp [applyVM], _, rfl, rfl⟩
  have l5 : Live (applyVM v) 5 .value := ⟨by simp [applyVM], _, rfl, rfl⟩
  refine ⟨⟨by cases v <;> decide, by cases v <;> decide, ?_, by cases v <;> decide, ?_, by simp [applyVM],
    by simp [applyVM], by simp [applyVM], ?_, ?_⟩, ?_⟩
  · intro r hr o ho
    simp [applyVM] at hr
    rcases hr with rfl | rfl <;>
    · simp [applyVM] at ho
      subst ho
      simp [OwnsBlock]
  · intro o ho
    simp [applyVM] at ho
    rcases ho with rfl | rfl | rfl
    · exact ⟨_, _, _, rfl, rfl, ⟨_, l0, trivial⟩, l1⟩
    · exact ⟨by decide, by decide⟩
    · exact l2
  · rintro r h
    cases h
    exact ⟨_, l0⟩
  · intro r o ho hf
    match r with
    | 0 => simp [applyVM] at ho; subst ho; exact ⟨_, rfl, rfl⟩
    | 1 => simp [applyVM] at ho; subst ho; exact ⟨rfl, by simp⟩
    | 2 => simp [applyVM] at ho; subst ho; exact ⟨.inl l3, .inr l4⟩
    | 3 => simp [applyVM] at ho; subst ho; exact ⟨by decide, by decide⟩
    | 4 => simp [applyVM] at ho; subst ho; exact ⟨.inl l5, trivial⟩
    | 5 => simp [applyVM] at ho; subst ho; exact ⟨by decide, by decide⟩
    | 6 => simp [applyVM] at hf
    | 7 => simp [applyVM] at hf
    | n + 8 => simp [applyVM] at ho
  · intro r o ho
    match r with
    | 0 => simp [applyVM] at ho; subst ho; simp [UnderConstruction]
    | 1 => simp [applyVM] at ho; subst ho; simp [UnderConstruction]
    | 2 => simp [applyVM] at ho; subst ho; simp [UnderConstruction]
    | 3 => simp [applyVM] at ho; subst ho; simp [UnderConstruction]
    | 4 => simp [applyVM] at ho; subst ho; simp [UnderConstruction]
    | 5 => simp [applyVM] at ho; subst ho; simp [UnderConstruction]
    | 6 => simp [applyVM] at ho; subst ho; simp [UnderConstruction]
    | 7 => simp [applyVM] at ho; subst ho; simp [UnderConstruction]
    | n + 8 => simp [applyVM] at ho

theorem applyVM_list (v : Bool) : ListOf (applyVM v) (some 2) [.integer 4, .integer 5] :=
  .cons rfl (.value rfl (by simp)) (.cons rfl (.value rfl (by simp)) .nil)

example (v : Bool) : operand (applyVM v) 3 = some (.closure 0 (some 0) (some 1) 2 v) ∧
    IsCode (applyVM v) 0 0 ⟨0, 0, 0⟩ ∧ IsCaptures (applyVM v) 1 ⟨none, 0⟩ ∧
    (applyVM v).upStack.length = (applyVM v).stack.length ∧
    (applyVM v).stack = [.closure 0 (some 0) (some 1) 2 v] ++ [.integer 3] ++ [.list (some 2)] :=
  ⟨rfl, ⟨_, _, rfl, rfl⟩, ⟨_, _, rfl, rfl⟩, rfl, rfl⟩

/-- `(apply f 3 '(4 5))` where `f` has two parameters: the 5 is dropped. -/
example : (match exec plainEnv 0 ⟨0, 0, 0⟩ ⟨0, 0, 3⟩ (.apply 3 1) (applyVM false) with
    | .ok (.goto ip) vm' => decide (ip = ⟨0, 0, 0⟩ ∧
        vm'.stack = [.closure 0 (some 0) (some 1) 2 false, .integer 3, .integer 4])
    | _ => false) = true := by decide +kernel

/-- `(apply f '(4 5))` calls it with 4 and 5. -/
example : (match exec plainEnv 0 ⟨0, 0, 0⟩ ⟨0, 0, 3⟩ (.apply 3 0) (applyVM false) with
    | .ok (.goto ip) vm' => decide (ip = ⟨0, 0, 0⟩ ∧
        vm'.stack = [.closure 0 (some 0) (some 1) 2 false, .integer 3, .integer 4, .integer 5])
    | _ => false) = true := by decide +kernel

/-- `(apply f 3 '(4 5))` where `f` has two parameters and a rest parameter. -/
example : (match exec plainEnv 0 ⟨0, 0, 0⟩ ⟨0, 0, 3⟩ (.apply 3 1) (applyVM true) with
    | .ok (.goto ip) vm' => decide (ip = ⟨0, 0, 0⟩ ∧
        vm'.stack = [.closure 0 (some 0) (some 1) 2 true, .integer 3, .integer 4, .list (some 4)])
    | _ => false) = true := by decide +kernel

#print axioms C39_fixed_partial
#print axioms C39_wrong_count_partial
#print axioms C39_surplus_is_dropped
#print axioms C39_variadic
#print axioms C39_only_closures
#print axioms C39_not_a_list

end DuckLisp.VM
