import Verif.Proof.VM.Truth
import Verif.Proof.VM.Strings

/-!
# C35: truth values
-/

namespace DuckLisp.VM

open DuckLisp DuckLisp.Spec

/-- The kinds of value branching treats as the property says. -/
def BranchesAsDocumented (vm : VM) : Obj → Prop
  | .bool _ | .integer _ | .float _ | .list _ | .vector .. | .symbol .. | .closure .. | .function _ =>
      True
  | .string p off len => text vm (.string p off len) ≠ []
  | _ => False

/-- C35: a conditional jump removes the operands it is told to remove and is taken exactly if its
operand is not one of the false values.

Partial: this is so for booleans, numbers, lists, vectors, symbols, functions and non-empty strings;
an empty string counts as true, and types and composites count as false, see
`C35_empty_string_is_true` and `C35_types_and_composites_are_false`. -/
theorem C35_branching_partial (env : Env) (bc : Nat) (st nx : CodePtr) (vm : VM) (hs : Sound vm)
    (d : Int) (n : Nat) (o : Obj) (ho : operand vm 1 = some o)
    (h1 : n ≤ vm.stack.length) (h2 : n ≤ vm.upStack.length) (hk : BranchesAsDocumented vm o) :
    (¬ IsFalse vm o → exec env bc st nx (.brnz d n) vm =
      .ok (.goto { nx with off := nx.off + d - 1 }) (popped vm n)) ∧
    (IsFalse vm o → exec env bc st nx (.brnz d n) vm = .ok (.goto nx) (popped vm n)) := by
  have key : ∃ b, truthy o (popped vm n) = .ok b (popped vm n) ∧ (b = true ↔ ¬ IsFalse vm o) := by
    cases o <;> simp only [BranchesAsDocumented] at hk
    case bool b => exact ⟨_, rfl, by simp [IsFalse]⟩
    case integer i => exact ⟨_, rfl, by simp [IsFalse]⟩
    case float x => exact ⟨_, rfl, by simp only [IsFalse, ← isZero_iff]; simp⟩
    case list p => exact ⟨_, rfl, by cases p <;> simp [IsFalse]⟩
    case symbol i p => exact ⟨_, rfl, by simp [IsFalse]⟩
    case closure => exact ⟨_, rfl, by simp [IsFalse]⟩
    case function => exact ⟨_, rfl, by simp [IsFalse]⟩
    case string p off len => exact ⟨true, rfl, by simp [IsFalse, hk]⟩
    case vector p off =>
      obtain ⟨b, hb, hiff⟩ := vectorInRange_spec hs (hs.stack _ (operand_mem ho))
      refine ⟨b, ?_, hiff⟩
      cases p with
      | none => cases hb; rfl
      | some r =>
          obtain ⟨vs, m, i, hr, -⟩ := vector_storage hs (hs.stack _ (operand_mem ho))
          simp only [truthy, vectorInRange] at hb ⊢
          rw [M.bind_ok (readCell_some hr)] at hb
          rw [M.bind_ok (readCell_some (vm := popped vm n) hr)]
          cases hb
          rfl
  obtain ⟨b, hb, hiff⟩ := key
  rw [brnz_eq ho h1 h2 hb]
  constructor
  · intro h; rw [hiff.mpr h]; rfl
  · intro h
    cases b with
    | false => rfl
    | true => exact absurd h (hiff.mp rfl)

/-- The kinds of value `not` handles as the property says. -/
def NegatesAsDocumented (vm : VM) : Obj → Prop
  | .bool _ | .integer _ | .float _ | .list _ => True
  | .vector p off => p = none ∨ ¬ IsFalse vm (.vector p off)
  | _ => False

/-- C35: `not` pushes a value that counts as false exactly if its operand does not, and changes
nothing else.

Partial: it rejects symbols, strings, functions, types and composites (`C35_not_rejects`) and is
wrong for an empty slice of a vector (`C35_not_of_exhausted_slice`). -/
theorem C35_not_inverts_partial (env : Env) (bc : Nat) (st nx : CodePtr) (vm : VM)
    (a : Nat) (o : Obj) (ho : operand vm a = some o) (hk : NegatesAsDocumented vm o) :
    ∃ v, exec env bc st nx (.not a) vm = .ok (.goto nx) (pushed vm v) ∧
      (IsFalse vm v ↔ ¬ IsFalse vm o) := by
  have key : ∃ v, notValue o vm = .ok v vm ∧ (IsFalse vm v ↔ ¬ IsFalse vm o) := by
    cases o <;> simp only [NegatesAsDocumented] at hk
    case bool b =>
      refine ⟨_, rfl, ?_⟩
      by_cases h : b = 0 <;> simp [IsFalse, cBool, h]
    case integer i =>
      refine ⟨_, rfl, ?_⟩
      by_cases h : i = 0 <;> simp [IsFalse, h]
    case float x =>
      refine ⟨_, rfl, ?_⟩
      by_cases h : Float64.isZero x = true
      · simp only [h, if_true, IsFalse]
        rw [isZero_iff] at h
        simp [h, Float64.one]
      · simp only [h, IsFalse]
        rw [isZero_iff] at h
        simp only [h]
        simp [Float64.zero]
    case list p => refine ⟨_, rfl, ?_⟩; cases p <;> simp [IsFalse, cBool]
    case vector p off =>
      refine ⟨_, rfl, ?_⟩
      rcases hk with rfl | hk
      · simp [IsFalse, cBool]
      · cases p with
        | none => simp [IsFalse] at hk
        | some r => simp only [hk]; simp [IsFalse, cBool]
  obtain ⟨v, hv, hiff⟩ := key
  exact ⟨v, exec_plain_ok trivial (unary_ok _ ho hv), hiff⟩

/-- The empty sequences: the empty list, an empty vector, an empty string. -/
def IsEmpty (vm : VM) : Obj → Prop
  | .list p => IsFalse vm (.list p)
  | .vector p off => IsFalse vm (.vector p off)
  | .string p off len => IsFalse vm (.string p off len)
  | _ => False

/-- C35: `null?` pushes true for the empty list, an empty vector and an empty string and false for every
other value, and changes nothing else. -/
theorem C35_null (env : Env) (bc : Nat) (st nx : CodePtr) (vm : VM) (hs : Sound vm)
    (a : Nat) (o : Obj) (ho : operand vm a = some o) :
    (IsEmpty vm o → exec env bc st nx (.nullp a) vm = .ok (.goto nx) (pushed vm (.bool 1))) ∧
    (¬ IsEmpty vm o → exec env bc st nx (.nullp a) vm = .ok (.goto nx) (pushed vm (.bool 0))) := by
  have key : ∃ b, nullValue o vm = .ok b vm ∧ (b = true ↔ IsEmpty vm o) := by
    have hv := hs.stack _ (operand_mem ho)
    cases o
    case list p => exact ⟨_, rfl, by cases p <;> simp [IsEmpty, IsFalse]⟩
    case vector p off =>
      obtain ⟨b, hb, hiff⟩ := vectorInRange_spec hs hv
      refine ⟨!b, ?_, ?_⟩
      · simp only [nullValue]
        rw [M.bind_ok hb]
        rfl
      · show _ ↔ IsFalse vm (.vector p off)
        cases b
        · exact ⟨fun _ => Classical.byContradiction fun h => (nomatch hiff.mpr h), fun _ => rfl⟩
        · exact ⟨fun h => (nomatch h), fun h => absurd h (hiff.mp rfl)⟩
    case string p off len =>
      refine ⟨_, rfl, ?_⟩
      show _ ↔ text vm _ = []
      cases p with
      | none => simp [text]
      | some r =>
        obtain ⟨h0, h1, n, h2, hf, o, h3, h4⟩ := hv
        have hc := hs.cells r o h3 hf
        cases o <;> simp [shape] at h4
        rename_i v m
        obtain ⟨c1, c2⟩ := hc
        have e : off = (off.toNat : Int) := (Int.toNat_of_nonneg h0).symm
        rw [e, text_cell h3]
        have : toSize (off.toNat : Int) = off.toNat := by
          unfold toSize
          omega
        rw [this, List.drop_eq_nil_iff, List.length_take]
        simp
        omega
    all_goals exact ⟨false, rfl, by simp [IsEmpty]⟩
  obtain ⟨b, hb, hiff⟩ := key
  have he : ∀ v, boolValue (nullValue o) vm = .ok v vm →
      exec env bc st nx (.nullp a) vm = .ok (.goto nx) (pushed vm v) := fun v hv =>
    exec_plain_ok trivial (unary_ok _ ho hv)
  have hv : boolValue (nullValue o) vm = .ok (.bool (cBool b)) vm := by
    unfold boolValue
    rw [M.bind_ok hb]
    rfl
  constructor
  · intro h
    rw [hiff.mpr h] at hv
    exact he _ hv
  · intro h
    cases b with
    | false => exact he _ hv
    | true => exact absurd (hiff.mp rfl) h

/-- C35, why it is partial: an empty string counts as true. -/
theorem C35_empty_string_is_true :
    ∃ (vm : VM) (o : Obj), Sound vm ∧ operand vm 1 = some o ∧ IsFalse vm o ∧
      ∀ env bc st nx d, exec env bc st nx (.brnz d 1) vm =
        .ok (.goto { nx with off := nx.off + d - 1 }) (popped vm 1) := by
  refine ⟨{ heap := [], free := [], stack := [.string none 0 0], upStack := [none] },
    .string none 0 0, ?_, rfl, rfl, ?_⟩
  · exact ⟨by simp, by simp, by simp, by simp, by simp [ValueOk], by simp, by simp, by simp, by simp,
      by simp⟩
  · intro env bc st nx d
    exact brnz_eq (b := true) rfl (by simp) (by simp) rfl

/-- C35, why it is partial: every type and every composite counts as false. -/
theorem C35_types_and_composites_are_false (env : Env) (bc : Nat) (st nx : CodePtr) (vm : VM)
    (d : Int) (n : Nat) (o : Obj) (ho : operand vm 1 = some o)
    (h1 : n ≤ vm.stack.length) (h2 : n ≤ vm.upStack.length)
    (hk : (∃ t, o = .type t) ∨ ∃ c, o = .composite c) :
    exec env bc st nx (.brnz d n) vm = .ok (.goto nx) (popped vm n) := by
  rcases hk with ⟨t, rfl⟩ | ⟨c, rfl⟩ <;> exact brnz_eq (b := false) ho h1 h2 rfl

/-- C35, why it is partial: `not` is an error on these values, although branching accepts them. -/
theorem C35_not_rejects (env : Env) (bc : Nat) (st nx : CodePtr) (vm : VM) (a : Nat) (o : Obj)
    (ho : operand vm a = some o)
    (hk : (∃ i p, o = .symbol i p) ∨ (∃ p i n, o = .string p i n) ∨
      (∃ n c u r v, o = .closure n c u r v) ∨ (∃ f, o = .function f) ∨ (∃ t, o = .type t) ∨
      ∃ c, o = .composite c) :
    exec env bc st nx (.not a) vm = .err .invalidValue vm := by
  refine exec_plain_err trivial ?_
  show unary a notValue vm = _
  rw [unary_eq _ ho]
  rcases hk with ⟨_, _, rfl⟩ | ⟨_, _, _, rfl⟩ | ⟨_, _, _, _, _, rfl⟩ | ⟨_, rfl⟩ | ⟨_, rfl⟩ |
    ⟨_, rfl⟩ <;> rfl

/-- A vector of no elements with storage: what `cdr` leaves of a vector truncated by `set-cdr`. -/
def sliceVM : VM :=
  { heap := [.integer 5, .internalVector (some [.ptr (some 0), .ptr (some 0)]) 1 true], free := []
    stack := [.vector (some 1) 0, .vector (some 1) 1], upStack := [none, none] }

theorem sliceVM_sound : Sound sliceVM where
  free_nodup := by decide
  free_lt := by simp [sliceVM]
  free_empty := by simp [sliceVM]
  heap_size := by decide
  stack := by
    intro o ho
    simp [sliceVM] at ho
    rcases ho with rfl | rfl
    · exact ⟨2, ⟨by simp [sliceVM], _, rfl, rfl⟩, by decide, by decide⟩
    · exact ⟨2, ⟨by simp [sliceVM], _, rfl, rfl⟩, by decide, by decide⟩
  captured := by simp [sliceVM]
  globals := by simp [sliceVM]
  frames := by simp [sliceVM]
  running := by simp [sliceVM]
  cells := by
    intro r o ho _
    match r, ho with
    | 0, ho => cases ho; exact ⟨by decide, by decide⟩
    | 1, ho =>
        cases ho
        refine ⟨by decide, by decide, fun _ i hi => ?_⟩
        have : i = 0 := by omega
        subst this
        exact ⟨0, rfl, by simp [sliceVM], _, rfl, rfl⟩

/-- C35, why it is partial: on an empty slice both the branch and `not` answer false. -/
theorem C35_not_of_exhausted_slice (env : Env) (bc : Nat) (st nx : CodePtr) (d : Int) :
    exec env bc st nx (.brnz d 1) sliceVM = .ok (.goto nx) (popped sliceVM 1) ∧
    exec env bc st nx (.not 1) sliceVM = .ok (.goto nx) (pushed sliceVM (.bool 0)) := by
  constructor
  · exact brnz_eq (b := false) (o := .vector (some 1) 1) rfl (by decide) (by decide) rfl
  · exact exec_plain_ok trivial (unary_ok (x := .vector (some 1) 1) _ rfl rfl)

example : operand sliceVM 2 = some (.vector (some 1) 0) ∧
    BranchesAsDocumented sliceVM (.vector (some 1) 0) ∧ ¬ IsFalse sliceVM (.vector (some 1) 0) := by
  refine ⟨rfl, trivial, ?_⟩
  simp [IsFalse, sliceVM]
example : IsFalse sliceVM (.vector (some 1) 1) :=
  Or.inr ⟨1, _, 1, _, rfl, rfl, by decide⟩
example : operand sliceVM 1 = some (.vector (some 1) 1) ∧ IsEmpty sliceVM (.vector (some 1) 1) :=
  ⟨rfl, Or.inr ⟨1, _, 1, _, rfl, rfl, by decide⟩⟩
example : BranchesAsDocumented { heap := [.internalString (some (ascii "xab")) 3], free := [] }
    (.string (some 0) 1 3) := by
  show text _ _ ≠ []
  decide +kernel

#print axioms C35_branching_partial
#print axioms C35_not_inverts_partial
#print axioms C35_null
#print axioms C35_empty_string_is_true
#print axioms C35_types_and_composites_are_false
#print axioms C35_not_rejects
#print axioms C35_not_of_exhausted_slice

end DuckLisp.VM
