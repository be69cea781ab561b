import Verif.Proof.PrintObj
import Verif.Proof.PrintObjSafe
import Verif.Proof.PrintObjEnds
import Verif.Props.VM.Pairs
import Verif.Props.VM.Safety

/-!
# C58: printed objects show what they are
-/

namespace DuckLisp.Props

open DuckLisp DuckLisp.VM DuckLisp.Spec DuckLisp.PrintObj

/-- The object is printed as the text `t`, if calls may be nested deep enough.  `flag` says what a part of objects that
is never written happens to be. -/
def PrintedAs (flag : Where → Bool) (vm : VM) (w : Where) (o : Obj) (t : Bytes) : Prop :=
  ∃ k, ∀ n, k ≤ n → PrintObj.print flag vm n w o = .text t

/-- The object is never printed, however deep calls may be nested. -/
def NeverPrinted (flag : Where → Bool) (vm : VM) (w : Where) (o : Obj) : Prop :=
  ∀ n t, PrintObj.print flag vm n w o ≠ .text t

/-- C58: all data is printed: numbers, texts, symbols, lists and vectors of data, and instances
of data. -/
theorem C58_ends (flag : Where → Bool) (vm : VM) (w : Where) (o : Obj) (d : Content) (h : Carries vm o d) :
    ∃ t, PrintedAs flag vm w o t := by
  obtain ⟨v, ⟨k, hk⟩, _⟩ := (carries_prints (flag := flag) h).1
  refine ⟨full (.mk (flag w) v), k + 1, fun n hn => ?_⟩
  obtain ⟨n, rfl⟩ : ∃ m, n = m + 1 := ⟨n - 1, by omega⟩
  exact print_value (hk n (by omega))

/-- C58: what is printed for data determines the data, up to the values of numbers with a fraction, and where it ends,
whatever machines the objects are in and whatever follows the texts.

Missing: numbers with a fraction and functions, which are not shown (`C58_floats_hidden`, `C58_code_hidden`). -/
theorem C58_determined_partial (flag flag' : Where → Bool) (vm vm' : VM) (w w' : Where) (o o' : Obj) (d d' : Content)
    (t t' rest rest' : Bytes) (h : Carries vm o d) (h' : Carries vm' o' d') (ht : PrintedAs flag vm w o t)
    (ht' : PrintedAs flag' vm' w' o' t') (he : t ++ rest = t' ++ rest') :
    d.withoutFloats = d'.withoutFloats ∧ rest = rest' := by
  have key : ∀ {flag : Where → Bool} {vm : VM} {w : Where} {o : Obj} {d : Content} {t : Bytes}, Carries vm o d →
      PrintedAs flag vm w o t → ∃ v, t = full (.mk (flag w) v) ∧ showsV v = d.withoutFloats := by
    intro flag vm w o d t h ⟨l, hl⟩
    obtain ⟨v, ⟨k, hk⟩, hs⟩ := (carries_prints (flag := flag) h).1
    refine ⟨v, ?_, hs⟩
    have h1 := hl (k + l + 1) (by omega)
    rw [print_value (hk (k + l) (by omega))] at h1
    injection h1 with h1
    exact h1.symm
  obtain ⟨v, rfl, h1⟩ := key h ht
  obtain ⟨v', rfl, h2⟩ := key h' ht'
  obtain ⟨h3, h4⟩ := full_inj _ _ _ _ he
  injection h3 with _ h3
  exact ⟨by rw [← h1, ← h2, h3], h4⟩

/-- C58: printing any value of a machine in order reads no memory that is not there and takes nothing for what it is
not, however deep it gets. -/
theorem C58_safe_partial (flag : Where → Bool) (vm : VM) (n : Nat) (w : Where) (o : Obj) (hs : Sound vm)
    (ha : AllCaptured vm) (hk : Linked vm) (hl : Lockstep vm) (ho : ValueOk vm o) : PrintObj.print flag vm n w o ≠ .ub :=
  print_safe hs ha hk hl flag n w o (.inl ho)

/-- C58, violated: whatever has a cycle in it is never printed. -/
theorem C58_cyclic_never (flag : Where → Bool) (vm : VM) (w : Where) (o : Obj) (h : HasCycle vm o) :
    NeverPrinted flag vm w o :=
  fun n t ht => acc_no_cycle (print_acc n w o t ht) h

/-- C58: printing a value of a machine in order ends exactly if there is no cycle in it.

Missing: that it always ends (`C58_cyclic_never`). -/
theorem C58_ends_iff_partial [Entries] (flag : Where → Bool) (vm : VM) (w : Where) (o : Obj) (hs : Sound vm)
    (ha : AllCaptured vm) (hk : Linked vm) (hl : Lockstep vm) (ho : ValueOk vm o) :
    (∃ t, PrintedAs flag vm w o t) ↔ ¬ HasCycle vm o := by
  constructor
  · rintro ⟨t, k, ht⟩ h
    exact C58_cyclic_never flag vm w o h k t (ht k (Nat.le_refl k))
  · intro h
    exact (print_settles hs ha hk hl (acc_of_no_cycle h) (.inl ho)).1 w

/-- C58, violated: one instruction makes such a list of any pair. -/
theorem C58_endless (env : Env) (bc : Nat) (st nx : CodePtr) (vm vm' : VM) (a r : Nat) (x y : Obj) (res : Ctl) (hg : Good vm)
    (ha : operand vm a = some (.list (some r))) (hr : IsPair vm r x y)
    (he : exec env bc st nx (.setCdr a a) vm = .ok res vm') (flag : Where → Bool) (w : Where) :
    NeverPrinted flag vm' w (.list (some r)) := by
  rcases C30_set_cdr env bc st nx vm hg a a r (.list (some r)) x y ha ha hr with ⟨vm'', h1, _, h2, _⟩ | ⟨vm'', h1, _⟩
  · rw [h1] at he
    injection he with _ he
    subst he
    obtain ⟨p, q, h3, _, h4⟩ := h2
    refine C58_cyclic_never flag _ w _ ?_
    cases h4 with
    | pair _ => exact ⟨_, .single (.list h3), .single (.rest h3)⟩
    | value h5 _ => exact ⟨_, .refl, .tail (.single (.list h3)) (.rest h5)⟩
  · rw [h1] at he
    cases he

/-- C58, violated: a function that refers to itself through a variable it captured is never printed, whether the
variable is still on the stack or has moved to a cell of its own. -/
theorem C58_recursive_never (flag : Where → Bool) (vm : VM) (w : Where) (name : Int) (code : Option Nat) (u c : Nat)
    (arity : UInt8) (variadic : Bool) (b : UpBlock) (n : Nat) (v : Upvalue) (hu : vm.heap[u]? = some (.upvalueArray (some b) n))
    (hc : some c ∈ b.ups.take n) (hv : vm.heap[c]? = some (.upvalue v))
    (h : (∃ i : Nat, v = .stackIndex i ∧ vm.stack[i]? = some (.closure name code (some u) arity variadic)) ∨
      (∃ d, v = .heapObject (some d) ∧ vm.heap[d]? = some (.closure name code (some u) arity variadic))) :
    NeverPrinted flag vm w (.closure name code (some u) arity variadic) := by
  refine C58_cyclic_never flag vm w _ ⟨_, .refl, .tail (.single (.closure hu (.capture hc hv))) ?_⟩
  rcases h with ⟨i, rfl, h⟩ | ⟨d, rfl, h⟩
  · exact .slot h
  · exact .own h

/-- C58, violated: the values of numbers with a fraction are not shown. -/
theorem C58_floats_hidden (flag : Where → Bool) (vm : VM) (n : Nat) (w : Where) (x y : UInt64) :
    PrintObj.print flag vm n w (.float x) = PrintObj.print flag vm n w (.float y) := by
  cases n <;> rfl

/-- C58, violated: what functions do is not shown: two functions with code of the same length look the same. -/
theorem C58_code_hidden (flag : Where → Bool) (vm : VM) (n : Nat) (w : Where) (name : Int) (c c' : Nat) (ups : Option Nat)
    (arity : UInt8) (variadic : Bool) (b b' : CodeBlock) (len : Nat) (h : vm.heap[c]? = some (.bytecode (some b) len))
    (h' : vm.heap[c']? = some (.bytecode (some b') len)) :
    PrintObj.print flag vm n w (.closure name (some c) ups arity variadic) =
      PrintObj.print flag vm n w (.closure name (some c') ups arity variadic) := by
  cases n with
  | zero => rfl
  | succ n => simp [PrintObj.print, printValue, printClosure, printCode, h, h']

/-- C58, violated: the text also depends on something that nothing ever writes. -/
theorem C58_flag_unwritten (flag flag' : Where → Bool) (vm vm' : VM) (w w' : Where) (o o' : Obj) (n n' : Nat) (t t' : Bytes)
    (hf : flag w ≠ flag' w') (h : PrintObj.print flag vm n w o = .text t) (h' : PrintObj.print flag' vm' n' w' o' = .text t') :
    t ≠ t' := by
  have key : ∀ {flag : Where → Bool} {vm : VM} {w : Where} {o : Obj} {n : Nat} {t : Bytes},
      PrintObj.print flag vm n w o = .text t →
      ∃ s, t = ascii "(duckVM_object_t) {" ++ (ascii "inUse = " ++ (DlString.fromBool [] (flag w) ++ s)) := by
    intro flag vm w o n t h
    cases n with
    | zero => cases h
    | succ n =>
      rw [PrintObj.print, show (if flag w = true then str "true" else str "false") = .text (DlString.fromBool [] (flag w)) by
        cases flag w <;> decide +kernel] at h
      generalize hx : printValue vm (PrintObj.print flag vm n) n o ++ str "}" = q at h
      cases q with
      | text s => exact ⟨s, by injection h with h; exact h.symm⟩
      | ub => cases h
      | deeper => cases h
  obtain ⟨s, rfl⟩ := key h
  obtain ⟨s', rfl⟩ := key h'
  intro he
  simp only [List.append_cancel_left_eq] at he
  exact hf (bool_before he).1

/-- A machine with the list `(5 "ab\"c")` and the vector `[5 5]`. -/
def printVM : VM :=
  { heap := [.cons (some 1) (some 2), .integer 5, .cons (some 3) none, .string (some 4) 0 4,
      .internalString (some (ascii "ab\"c")) 4, .internalVector (some [.ptr (some 1), .ptr (some 1)]) 2 true]
    free := [] }

/-- The list stands for what it should, and so does its rest; they are told apart. -/
example : Carries printVM (.list (some 0)) (.pair (.int 5) (.pair (.string (ascii "ab\"c")) .nil)) ∧
    Carries printVM (.list (some 2)) (.pair (.string (ascii "ab\"c")) .nil) ∧
    Carries printVM (.vector (some 5) 1) (.vector [.int 5]) := by
  have h1 : Carries printVM (.string (some 4) 0 4) (.string (ascii "ab\"c")) := by
    have h := Carries.string (vm := printVM) (r := 4) (v := some (ascii "ab\"c")) (off := 0) (len := 4) (by decide +kernel)
    rwa [show ((some (ascii "ab\"c")).getD [] |>.take 4).drop 0 = ascii "ab\"c" by decide +kernel] at h
  have h2 : Carries printVM (.list (some 2)) (.pair (.string (ascii "ab\"c")) .nil) :=
    .pair ⟨_, _, rfl, .value rfl (by simp), .empty⟩ h1 .nil
  refine ⟨.pair ⟨_, _, rfl, .value rfl (by simp), .pair rfl⟩ (.int 5) h2, h2, ?_⟩
  refine Carries.vector (off := 1) (xs := [.integer 5, .integer 5]) (ds := [.int 5, .int 5]) ⟨_, 2, rfl, rfl, ?_⟩
    (.cons (.int 5) (.cons (.int 5) .nil))
  intro i hi
  refine ⟨1, ?_⟩
  match i, hi with
  | 0, _ => exact ⟨rfl, rfl⟩
  | 1, _ => exact ⟨rfl, rfl⟩

/-- An instance of type 7 with the value 5 and the function `()`. -/
example : Carries { heap := [.internalComposite 7 (some 1) (some 2), .integer 5, .list none], free := [] } (.composite (some 0))
    (.instance_ 7 (.int 5) .nil) :=
  .instance_ ⟨1, 2, rfl, rfl, rfl⟩ (.int 5) .nil

example (flag : Where → Bool) (hf : ∀ w, flag w = false) : PrintObj.print flag printVM 9 .given (.list (some 2)) =
    .text (ascii ("(duckVM_object_t) {inUse = false(duckVM_list_t) {(duckVM_object_t) {inUse = false(duckVM_cons_t) {" ++
      "(duckVM_object_t) {inUse = false(duckVM_string_t) {\"(duckVM_internalString_t) {value[4] = \"ab\"c\"}\"[0:4]}}" ++
      ".NULL}}}}")) := by
  obtain rfl : flag = fun _ => false := funext hf
  decide +kernel

example : Sound capturingVM ∧ AllCaptured capturingVM ∧ Linked capturingVM ∧ Lockstep capturingVM ∧
    ValueOk capturingVM (.closure 1 (some 0) (some 1) 0 true) := by
  have hs : Sound capturingVM := capturingVM_running.1.sound
  refine ⟨hs, ?_, ⟨?_, ?_⟩, rfl, hs.stack _ (by simp [capturingVM])⟩
  · intro r b n h _
    have hr : r < 7 := (List.getElem?_eq_some_iff.1 h).1
    match r, hr with
    | 0, _ | 2, _ | 3, _ | 4, _ | 5, _ | 6, _ => simp [capturingVM] at h
    | 1, _ =>
      simp [capturingVM] at h
      obtain ⟨rfl, _⟩ := h
      simp
  · intro i c h
    match i with
    | 0 => simp [capturingVM] at h
    | 1 => simp [capturingVM] at h
    | i + 2 => simp [capturingVM] at h
  · intro c i _ h
    have hr : c < 7 := (List.getElem?_eq_some_iff.1 h).1
    match c, hr with
    | 0, _ | 1, _ | 2, _ | 3, _ | 4, _ | 5, _ | 6, _ => simp [capturingVM] at h

/-- There is no cycle in this closure: printing it ends. -/
example : ¬ HasCycle capturingVM (.closure 1 (some 0) (some 1) 0 true) := fun h => by
  have h1 : ∃ t, PrintObj.print (fun _ => false) capturingVM 9 .given (.closure 1 (some 0) (some 1) 0 true) = .text t :=
    ⟨_, rfl⟩
  obtain ⟨t, h1⟩ := h1
  exact C58_cyclic_never _ _ _ _ h 9 t h1

/-- A closure that refers to itself, its variable being on the stack. -/
example (flag : Where → Bool) (w : Where) :
    NeverPrinted flag { heap := [.bytecode (some ⟨0, [165, 161]⟩) 2, .upvalueArray (some ⟨1, [some 2]⟩) 1, .upvalue (.stackIndex 0)]
                        free := [], stack := [.closure 1 (some 0) (some 1) 0 false] }
      w (.closure 1 (some 0) (some 1) 0 false) :=
  C58_recursive_never flag _ w 1 (some 0) 1 2 0 false ⟨1, [some 2]⟩ 1 _ rfl (by simp) rfl (.inl ⟨0, rfl, rfl⟩)

/-- The list of `pairVM` can be made its own rest. -/
example : Good pairVM ∧ operand pairVM 2 = some (.list (some 0)) ∧ IsPair pairVM 0 (.integer 5) (.integer 6) ∧
    ∃ vm', exec plainEnv 0 ⟨0, 0, 0⟩ ⟨0, 0, 1⟩ (.setCdr 2 2) pairVM = .ok (.goto ⟨0, 0, 1⟩) vm' :=
  ⟨pairVM_good, rfl, ⟨_, _, rfl, .value rfl (by simp), .value rfl (by simp)⟩, _, rfl⟩

#print axioms C58_ends
#print axioms C58_determined_partial
#print axioms C58_safe_partial
#print axioms C58_cyclic_never
#print axioms C58_ends_iff_partial
#print axioms C58_endless
#print axioms C58_recursive_never
#print axioms C58_floats_hidden
#print axioms C58_code_hidden
#print axioms C58_flag_unwritten

end DuckLisp.Props
