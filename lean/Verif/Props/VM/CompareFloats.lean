import Verif.Proof.VM.Numbers
import Verif.Proof.VM.Doubles
import Verif.Props.VM.Numbers

/-!
# C34: comparisons of floats, and of numbers of different kinds
-/

namespace DuckLisp.VM

open DuckLisp DuckLisp.Spec

theorem less_floats {env : Env} {bc : Nat} {st nx : CodePtr} {vm : VM} {a b : Nat} {ox oy : Obj} {x y : UInt64}
    (ha : operand vm a = some ox) (hb : operand vm b = some oy)
    (hx : asDouble env.fl ox = some x) (hy : asDouble env.fl oy = some y) (hf : ox = .float x ∨ oy = .float y) :
    exec env bc st nx (.less a b) vm = .ok (.goto nx) (pushed vm (truth (Float64.lt x y = true))) ∧
    exec env bc st nx (.greater a b) vm = .ok (.goto nx) (pushed vm (truth (Float64.lt y x = true))) := by
  constructor <;> refine exec_plain_ok trivial (binary_ok _ ha hb (boolValue_ok ?_)) <;>
    cases ox <;> cases oy <;> simp [asDouble] at hx hy hf <;> subst hx <;> subst hy <;> rfl

theorem equal_floats {env : Env} {bc : Nat} {st nx : CodePtr} {vm : VM} {a b : Nat} {x y : UInt64}
    (ha : operand vm a = some (.float x)) (hb : operand vm b = some (.float y)) :
    exec env bc st nx (.equal a b) vm = .ok (.goto nx) (pushed vm (truth (Float64.eq x y = true))) :=
  exec_plain_ok trivial (binary_ok _ ha hb (boolValue_ok rfl))

/-- C34: two floats that are neither infinite nor NaN compare as the numbers they stand for.  In particular the two
zeroes are equal, and exactly one of `<`, `=` and `>` answers true. -/
theorem C34_floats_are_ordered (env : Env) (bc : Nat) (st nx : CodePtr) (vm : VM) (a b : Nat) (x y : UInt64)
    (ha : operand vm a = some (.float x)) (hb : operand vm b = some (.float y))
    (fx : IsFinite x) (fy : IsFinite y) :
    exec env bc st nx (.less a b) vm = .ok (.goto nx) (pushed vm (truth (units x < units y))) ∧
    exec env bc st nx (.equal a b) vm = .ok (.goto nx) (pushed vm (truth (units x = units y))) ∧
    exec env bc st nx (.greater a b) vm = .ok (.goto nx) (pushed vm (truth (units x > units y))) := by
  have nx' := number_of_finite fx
  have ny' := number_of_finite fy
  have h := less_floats (env := env) (bc := bc) (st := st) (nx := nx) ha hb rfl rfl (.inl rfl)
  rw [h.1, h.2, equal_floats ha hb, lt_iff nx' ny', lt_iff ny' nx', eq_iff nx' ny']
  simp [truth]

/-- C34: a NaN is not less than, equal to or greater than any number, itself included. -/
theorem C34_nan_compares_false (env : Env) (bc : Nat) (st nx : CodePtr) (vm : VM) (a b : Nat) (x y : UInt64)
    (ha : operand vm a = some (.float x)) (hb : operand vm b = some (.float y))
    (h : IsNotANumber x ∨ IsNotANumber y) :
    exec env bc st nx (.less a b) vm = .ok (.goto nx) (pushed vm (.bool 0)) ∧
    exec env bc st nx (.equal a b) vm = .ok (.goto nx) (pushed vm (.bool 0)) ∧
    exec env bc st nx (.greater a b) vm = .ok (.goto nx) (pushed vm (.bool 0)) := by
  have hl := less_floats (env := env) (bc := bc) (st := st) (nx := nx) ha hb rfl rfl (.inl rfl)
  rw [hl.1, hl.2, equal_floats ha hb]
  rcases h with h | h <;> have h := (isNaN_iff _).2 h <;> simp [truth, Float64.lt, Float64.eq, h]

/-- C34: plus infinity is greater than every finite float and minus infinity less; each is equal to itself only. -/
theorem C34_infinities (env : Env) (bc : Nat) (st nx : CodePtr) (vm : VM) (a b c : Nat) (y : UInt64)
    (ha : operand vm a = some (.float 0x7FF0000000000000)) (hb : operand vm b = some (.float 0xFFF0000000000000))
    (hc : operand vm c = some (.float y)) (fy : IsFinite y) :
    (∀ p q, (p, q) ∈ [(c, a), (b, c), (b, a)] →
      exec env bc st nx (.less p q) vm = .ok (.goto nx) (pushed vm (.bool 1)) ∧
      exec env bc st nx (.equal p q) vm = .ok (.goto nx) (pushed vm (.bool 0)) ∧
      exec env bc st nx (.greater p q) vm = .ok (.goto nx) (pushed vm (.bool 0))) ∧
    (∀ p, p ∈ [a, b] → exec env bc st nx (.equal p p) vm = .ok (.goto nx) (pushed vm (.bool 1))) := by
  have hm := magnitude_parts y
  have hfr := fraction_lt y
  have hn := number_of_finite fy
  unfold IsFinite at fy
  have hmag : Float64.magnitude y < 0x7FF0000000000000 := by omega
  have ra : Float64.rank 0x7FF0000000000000 = 0x7FF0000000000000 := by decide +kernel
  have rb : Float64.rank 0xFFF0000000000000 = -0x7FF0000000000000 := by decide +kernel
  have na : Float64.isNaN 0x7FF0000000000000 = false := by decide +kernel
  have nb : Float64.isNaN 0xFFF0000000000000 = false := by decide +kernel
  have ry : -0x7FF0000000000000 < Float64.rank y ∧ Float64.rank y < 0x7FF0000000000000 := by
    unfold Float64.rank; split <;> omega
  constructor
  · intro p q hpq
    simp only [List.mem_cons, Prod.mk.injEq, List.not_mem_nil, or_false] at hpq
    rcases hpq with ⟨rfl, rfl⟩ | ⟨rfl, rfl⟩ | ⟨rfl, rfl⟩
    · have hl := less_floats (env := env) (bc := bc) (st := st) (nx := nx) hc ha rfl rfl (.inl rfl)
      rw [hl.1, hl.2, equal_floats hc ha]
      refine ⟨?_, ?_, ?_⟩ <;> simp only [truth, Float64.lt, Float64.eq, hn, na, ra] <;> simp [ry.2, Int.not_lt.2 (Int.le_of_lt ry.2), Int.ne_of_lt ry.2]
    · have hl := less_floats (env := env) (bc := bc) (st := st) (nx := nx) hb hc rfl rfl (.inl rfl)
      rw [hl.1, hl.2, equal_floats hb hc]
      refine ⟨?_, ?_, ?_⟩ <;> simp only [truth, Float64.lt, Float64.eq, hn, nb, rb] <;> simp [ry.1, Int.not_lt.2 (Int.le_of_lt ry.1), Int.ne_of_lt ry.1]
    · have hl := less_floats (env := env) (bc := bc) (st := st) (nx := nx) hb ha rfl rfl (.inl rfl)
      rw [hl.1, hl.2, equal_floats hb ha]
      refine ⟨?_, ?_, ?_⟩ <;> simp [truth, Float64.lt, Float64.eq, na, nb, ra, rb]
  · intro p hp
    simp only [List.mem_cons, List.not_mem_nil, or_false] at hp
    rcases hp with rfl | rfl
    · rw [equal_floats ha ha]; simp [truth, Float64.eq, na]
    · rw [equal_floats hb hb]; simp [truth, Float64.eq, nb]

/-- C34: if one of two numbers is a float, `<` and `>` compare it with the other converted to a float; but `=` answers
false, even for `1` and `1.0`. -/
theorem C34_mixed_floats (env : Env) (bc : Nat) (st nx : CodePtr) (vm : VM) (a b : Nat) (ox oy : Obj) (x y : UInt64)
    (ha : operand vm a = some ox) (hb : operand vm b = some oy)
    (hx : asDouble env.fl ox = some x) (hy : asDouble env.fl oy = some y)
    (hf : ox = .float x ∨ oy = .float y) (fx : IsFinite x) (fy : IsFinite y) :
    exec env bc st nx (.less a b) vm = .ok (.goto nx) (pushed vm (truth (units x < units y))) ∧
    exec env bc st nx (.greater a b) vm = .ok (.goto nx) (pushed vm (truth (units x > units y))) ∧
    (¬ (ox = .float x ∧ oy = .float y) →
      exec env bc st nx (.equal a b) vm = .ok (.goto nx) (pushed vm (.bool 0))) := by
  have nx' := number_of_finite fx
  have ny' := number_of_finite fy
  have h := less_floats (env := env) (bc := bc) (st := st) (nx := nx) ha hb hx hy hf
  refine ⟨?_, ?_, fun hn => ?_⟩
  · rw [h.1, lt_iff nx' ny']; simp [truth]
  · rw [h.2, lt_iff ny' nx']; simp [truth]
  · have : exec env bc st nx (.equal a b) vm = .ok (.goto nx) (pushed vm (truth (false = true))) := by
      refine exec_plain_ok trivial (binary_ok _ ha hb (boolValue_ok ?_))
      cases ox <;> cases oy <;> simp [asDouble] at hx hy hf hn <;> first | rfl | (exfalso; simp_all)
    rw [this]; simp [truth]

/-- C34: `<` and `>` take truth values as the numbers 0 and 1 (or whatever number stands for them). -/
theorem C34_truth_values_count_as_numbers (env : Env) (bc : Nat) (st nx : CodePtr) (vm : VM) (a b : Nat)
    (ox oy : Obj) (x y : Int) (ha : operand vm a = some ox) (hb : operand vm b = some oy)
    (hx : asInteger ox = some x) (hy : asInteger oy = some y) :
    exec env bc st nx (.less a b) vm = .ok (.goto nx) (pushed vm (truth (x < y))) ∧
    exec env bc st nx (.greater a b) vm = .ok (.goto nx) (pushed vm (truth (x > y))) := by
  constructor <;>
    cases ox <;> simp only [asInteger, Option.some.injEq, reduceCtorEq] at hx <;> subst hx <;>
    cases oy <;> simp only [asInteger, Option.some.injEq, reduceCtorEq] at hy <;> subst hy <;>
    refine exec_plain_ok trivial (binary_ok _ ha hb ((boolValue_ok rfl).trans ?_)) <;>
    simp [truth, UInt8.lt_iff_toNat_lt]

/-- C34: `<` and `>` refuse everything that is not a number, and change nothing. -/
theorem C34_only_numbers_are_ordered (env : Env) (bc : Nat) (st nx : CodePtr) (vm : VM) (a b : Nat) (ox oy : Obj)
    (ha : operand vm a = some ox) (hb : operand vm b = some oy) (h : ¬ (IsNumber ox ∧ IsNumber oy)) :
    exec env bc st nx (.less a b) vm = .err .invalidValue vm ∧
    exec env bc st nx (.greater a b) vm = .err .invalidValue vm := by
  constructor <;> refine exec_plain_err trivial ((binary_eq _ ha hb).trans ?_) <;>
    cases ox <;> cases oy <;> simp [IsNumber] at h <;> rfl

/-- C34: `=` on lists, vectors and types asks whether they are one and the same: two lists are equal only if they
share their first cell, whatever their elements. -/
theorem C34_equal_asks_identity (env : Env) (bc : Nat) (st nx : CodePtr) (vm : VM) (a b : Nat) :
    (∀ p q, operand vm a = some (.list p) → operand vm b = some (.list q) →
      exec env bc st nx (.equal a b) vm = .ok (.goto nx) (pushed vm (truth (p = q)))) ∧
    (∀ p i q j, operand vm a = some (.vector p i) → operand vm b = some (.vector q j) →
      exec env bc st nx (.equal a b) vm = .ok (.goto nx) (pushed vm (truth (p = q ∧ i = j)))) ∧
    (∀ s t, operand vm a = some (.type s) → operand vm b = some (.type t) →
      exec env bc st nx (.equal a b) vm = .ok (.goto nx) (pushed vm (truth (s = t)))) := by
  refine ⟨fun p q ha hb => ?_, fun p i q j ha hb => ?_, fun s t ha hb => ?_⟩ <;>
    refine exec_plain_ok trivial (binary_ok _ ha hb ((boolValue_ok rfl).trans ?_)) <;> simp [truth]

/-- What `=` can be asked about: its first operand must be one of these. -/
def HasEquality : Obj → Prop
  | .list _ | .symbol .. | .string .. | .float _ | .integer _ | .bool _ | .vector .. | .type _ => True
  | _ => False

/-- The kind of a value that `=` can be asked about. -/
def SameKind : Obj → Obj → Prop
  | .list _, .list _ | .symbol .., .symbol .. | .string .., .string .. | .float _, .float _
  | .integer _, .integer _ | .bool _, .bool _ | .vector .., .vector .. | .type _, .type _ => True
  | _, _ => False

/-- C34: `=` answers false for values of different kinds; but closures, instances of user types and other values are
refused if they are the first operand.  So `=` is not symmetric: of `(= 1 f)` and `(= f 1)`, with `f` a function, the
one is false and the other an error. -/
theorem C34_equal_across_kinds (env : Env) (bc : Nat) (st nx : CodePtr) (vm : VM) (a b : Nat) (ox oy : Obj)
    (ha : operand vm a = some ox) (hb : operand vm b = some oy) :
    (HasEquality ox → ¬ SameKind ox oy →
      exec env bc st nx (.equal a b) vm = .ok (.goto nx) (pushed vm (.bool 0))) ∧
    (¬ HasEquality ox → exec env bc st nx (.equal a b) vm = .err .invalidValue vm) := by
  constructor
  · intro h hk
    have : exec env bc st nx (.equal a b) vm = .ok (.goto nx) (pushed vm (truth (false = true))) := by
      refine exec_plain_ok trivial (binary_ok _ ha hb (boolValue_ok ?_))
      cases ox <;> simp only [HasEquality] at h <;> cases oy <;> simp only [SameKind, not_true] at hk <;> rfl
    rw [this]; simp [truth]
  · intro h
    refine exec_plain_err trivial ((binary_eq _ ha hb).trans ?_)
    cases ox <;> simp only [HasEquality, not_true] at h <;> cases oy <;> rfl

/-- Floats 1.5, -0.0, 0.0, NaN and infinities. -/
def floatsVM : VM :=
  { heap := [], free := [],
    stack := [.float 0x3FF8000000000000, .float 0x8000000000000000, .float 0, .float 0x7FF8000000000000,
      .float 0x7FF0000000000000, .float 0xFFF0000000000000, .bool 1, .integer 3]
    upStack := List.replicate 8 none }

example : IsFinite 0x3FF8000000000000 ∧ IsFinite 0x8000000000000000 ∧ units 0x8000000000000000 = units 0 := by
  refine ⟨?_, ?_, ?_⟩
  · unfold IsFinite; decide +kernel
  · unfold IsFinite; decide +kernel
  · decide +kernel
example : IsNotANumber 0x7FF8000000000000 := by unfold IsNotANumber; decide +kernel
example (env : Env) (bc : Nat) (st nx : CodePtr) :
    exec env bc st nx (.equal 7 6) floatsVM = .ok (.goto nx) (pushed floatsVM (.bool 1)) := by
  rw [(C34_floats_are_ordered env bc st nx floatsVM 7 6 _ _ rfl rfl (by unfold IsFinite; decide +kernel)
    (by unfold IsFinite; decide +kernel)).2.1]
  rw [show truth (units 0x8000000000000000 = units 0) = .bool 1 by decide +kernel]
example : operand floatsVM 4 = some (.float 0x7FF0000000000000) ∧ operand floatsVM 3 = some (.float 0xFFF0000000000000) ∧
    operand floatsVM 8 = some (.float 0x3FF8000000000000) ∧ operand floatsVM 2 = some (.bool 1) := ⟨rfl, rfl, rfl, rfl⟩

example : HasEquality (.integer 1) ∧ ¬ SameKind (.integer 1) (.float 0) ∧ ¬ HasEquality (.composite none) :=
  ⟨trivial, id, id⟩

#print axioms C34_floats_are_ordered
#print axioms C34_nan_compares_false
#print axioms C34_infinities
#print axioms C34_mixed_floats
#print axioms C34_truth_values_count_as_numbers
#print axioms C34_only_numbers_are_ordered
#print axioms C34_equal_asks_identity
#print axioms C34_equal_across_kinds

end DuckLisp.VM
