import Verif.Proof.VM.Numbers

/-!
# C34: comparisons
-/

namespace DuckLisp.VM

open DuckLisp DuckLisp.Spec

/-- C34: of two integers the first is either less than, equal to or greater than the second, and
exactly one of the three instructions answers true.  None of them changes anything else. -/
theorem C34_integers_are_ordered (env : Env) (bc : Nat) (st nx : CodePtr) (vm : VM)
    (a b : Nat) (x y : Int)
    (ha : operand vm a = some (.integer x)) (hb : operand vm b = some (.integer y)) :
    exec env bc st nx (.less a b) vm = .ok (.goto nx) (pushed vm (truth (x < y))) ∧
    exec env bc st nx (.equal a b) vm = .ok (.goto nx) (pushed vm (truth (x = y))) ∧
    exec env bc st nx (.greater a b) vm = .ok (.goto nx) (pushed vm (truth (x > y))) ∧
    ((x < y ∧ x ≠ y ∧ ¬ x > y) ∨ (¬ x < y ∧ x = y ∧ ¬ x > y) ∨ (¬ x < y ∧ x ≠ y ∧ x > y)) := by
  refine ⟨?_, ?_, ?_, by omega⟩ <;> refine exec_plain_ok trivial ?_ <;>
    refine binary_ok _ ha hb ?_
  · exact (boolValue_ok (b := decide (x < y)) rfl).trans (by simp [truth])
  · exact (boolValue_ok (b := decide (x = y)) rfl).trans (by simp [truth])
  · exact (boolValue_ok (b := decide (y < x)) rfl).trans (by simp [truth])

/-- C34: `<` and `>` are converse for all operands, whatever they are: `x < y` and `y > x` have the
same outcome, errors included. -/
theorem C34_less_and_greater_are_converse (env : Env) (bc : Nat) (st nx : CodePtr) (vm : VM)
    (a b : Nat) :
    exec env bc st nx (.less a b) vm = exec env bc st nx (.greater b a) vm := by
  have key : binary a b (fun x y => boolValue (lessValue env.fl x y)) vm =
      binary b a (fun x y => boolValue (greaterValue env.fl x y)) vm := by
    cases ha : operand vm a with
    | none =>
        cases hb : operand vm b with
        | none => unfold binary; rw [M.bind_err (getArg_none ha), M.bind_err (getArg_none hb)]
        | some y =>
            unfold binary
            rw [M.bind_err (getArg_none ha), M.bind_ok (getArg_some hb), M.bind_err (getArg_none ha)]
    | some x =>
        cases hb : operand vm b with
        | none =>
            unfold binary
            rw [M.bind_err (getArg_none hb), M.bind_ok (getArg_some ha), M.bind_err (getArg_none hb)]
        | some y =>
            rw [binary_eq _ ha hb, binary_eq _ hb ha]
            cases x <;> cases y <;> rfl
  show (do plain env bc st (.less a b); return Ctl.goto nx : M Ctl) vm =
    (do plain env bc st (.greater b a); return Ctl.goto nx : M Ctl) vm
  simp only [M.bind_run, plain, key]

/-- C34: on integers, booleans, symbols and strings `=` answers true exactly if the two are the same
number, the same symbol or the same text (values of different kinds never are), and changes nothing
else. -/
theorem C34_equal_decides_sameness (env : Env) (bc : Nat) (st nx : CodePtr) (vm : VM)
    (hs : Sound vm) (a b : Nat) (x y : Obj)
    (ha : operand vm a = some x) (hb : operand vm b = some y)
    (px : IsPlainValue x) (py : IsPlainValue y) :
    (SameValue vm x y →
      exec env bc st nx (.equal a b) vm = .ok (.goto nx) (pushed vm (.bool 1))) ∧
    (¬ SameValue vm x y →
      exec env bc st nx (.equal a b) vm = .ok (.goto nx) (pushed vm (.bool 0))) := by
  obtain ⟨r, hr, hiff⟩ := equalValue_same hs (hs.stack x (operand_mem ha))
    (hs.stack y (operand_mem hb)) px py
  have h2 : exec env bc st nx (.equal a b) vm = .ok (.goto nx) (pushed vm (truth (r = true))) :=
    exec_plain_ok trivial (binary_ok _ ha hb (boolValue_ok hr))
  rw [h2]
  constructor
  · intro h; simp [truth, hiff.mpr h]
  · intro h
    have : r ≠ true := fun h' => h (hiff.mp h')
    simp [truth, this]

/-- Whether `=` answers true for two operands. -/
def AnswersEqual (vm : VM) (a b : Nat) : Prop :=
  ∀ env bc st nx, exec env bc st nx (.equal a b) vm = .ok (.goto nx) (pushed vm (.bool 1))

theorem answersEqual_iff {vm : VM} (hs : Sound vm) {a b : Nat} {x y : Obj}
    (ha : operand vm a = some x) (hb : operand vm b = some y)
    (px : IsPlainValue x) (py : IsPlainValue y) : AnswersEqual vm a b ↔ SameValue vm x y := by
  constructor
  · intro h
    refine Classical.byContradiction fun hn => ?_
    have h1 := h plainEnv 0 ⟨0, 0, 0⟩ ⟨0, 0, 0⟩
    have h2 := (C34_equal_decides_sameness plainEnv 0 ⟨0, 0, 0⟩ ⟨0, 0, 0⟩ vm hs a b x y ha hb
      px py).2 hn
    rw [h2] at h1
    simp [pushed] at h1
  · intro h env bc st nx
    exact (C34_equal_decides_sameness env bc st nx vm hs a b x y ha hb px py).1 h

/-- C34: `=` is reflexive, symmetric and transitive on integers, booleans, symbols and strings. -/
theorem C34_equal_is_an_equivalence (vm : VM) (hs : Sound vm) :
    (∀ a x, operand vm a = some x → IsPlainValue x → AnswersEqual vm a a) ∧
    (∀ a b x y, operand vm a = some x → operand vm b = some y → IsPlainValue x → IsPlainValue y →
      AnswersEqual vm a b → AnswersEqual vm b a) ∧
    (∀ a b c x y z, operand vm a = some x → operand vm b = some y → operand vm c = some z →
      IsPlainValue x → IsPlainValue y → IsPlainValue z →
      AnswersEqual vm a b → AnswersEqual vm b c → AnswersEqual vm a c) := by
  refine ⟨?_, ?_, ?_⟩
  · intro a x ha px
    rw [answersEqual_iff hs ha ha px px]
    cases x <;> simp [IsPlainValue] at px <;> simp [SameValue]
  · intro a b x y ha hb px py
    rw [answersEqual_iff hs ha hb px py, answersEqual_iff hs hb ha py px]
    cases x <;> simp [IsPlainValue] at px <;> cases y <;> simp [SameValue] <;> exact Eq.symm
  · intro a b c x y z ha hb hc px py pz
    rw [answersEqual_iff hs ha hb px py, answersEqual_iff hs hb hc py pz,
      answersEqual_iff hs ha hc px pz]
    cases x <;> simp [IsPlainValue] at px <;> cases y <;> simp [IsPlainValue] at py <;>
      cases z <;> simp [SameValue] <;> exact Eq.trans

/-- Two strings with the same text in different storage, one of them a slice. -/
def stringsVM : VM :=
  { heap := [.internalString (some (ascii "xab")) 3, .internalString (some (ascii "ab")) 2]
    free := []
    stack := [.string (some 0) 1 3, .string (some 1) 0 2, .integer 3, .symbol 7 none]
    upStack := [none, none, none, none] }

theorem stringsVM_sound : Sound stringsVM where
  free_nodup := by decide
  free_lt := by simp [stringsVM]
  free_empty := by simp [stringsVM]
  heap_size := by decide
  stack := by
    intro o ho
    simp [stringsVM] at ho
    rcases ho with rfl | rfl | rfl | rfl
    · exact ⟨by decide, by decide, 3, by decide, by simp [stringsVM], _, rfl, rfl⟩
    · exact ⟨by decide, by decide, 2, by decide, by simp [stringsVM], _, rfl, rfl⟩
    · exact ⟨by decide, by decide⟩
    · trivial
  captured := by simp [stringsVM]
  globals := by simp [stringsVM]
  frames := by simp [stringsVM]
  running := by simp [stringsVM]
  cells := by
    intro r o ho _
    match r, ho with
    | 0, ho => cases ho; exact ⟨by decide +kernel, by decide⟩
    | 1, ho => cases ho; exact ⟨by decide +kernel, by decide⟩

example : SameValue stringsVM (.string (some 0) 1 3) (.string (some 1) 0 2) := by
  show text _ _ = text _ _
  decide +kernel
example : AnswersEqual stringsVM 4 3 :=
  (answersEqual_iff (x := .string (some 0) 1 3) (y := .string (some 1) 0 2) stringsVM_sound rfl rfl
    trivial trivial).mpr (by
    show text _ _ = text _ _
    decide +kernel)

#print axioms C34_integers_are_ordered
#print axioms C34_less_and_greater_are_converse
#print axioms C34_equal_decides_sameness
#print axioms C34_equal_is_an_equivalence

end DuckLisp.VM
