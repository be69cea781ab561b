import Verif.Spec.Double
import Verif.Model.VM.Float

/-!
# Comparing doubles by their bits
-/

namespace DuckLisp.VM

open DuckLisp DuckLisp.Spec

/-- Exponent and fraction as one number. -/
theorem magnitude_parts (x : UInt64) : Float64.magnitude x = exponent x * 2 ^ 52 + fraction x := by
  unfold Float64.magnitude exponent fraction
  have := x.toNat_lt
  omega

theorem fraction_lt (x : UInt64) : fraction x < 2 ^ 52 := Nat.mod_lt _ (by decide)

theorem scaled_lt {e f e' f' : Nat} (hf : f < 2 ^ 52) (he : e < e') :
    (if e = 0 then f else (2 ^ 52 + f) * 2 ^ (e - 1)) < (if e' = 0 then f' else (2 ^ 52 + f') * 2 ^ (e' - 1)) := by
  rw [if_neg (by omega : ¬ e' = 0)]
  have h1 : 2 ^ 52 * 2 ^ e ≤ (2 ^ 52 + f') * 2 ^ (e' - 1) :=
    Nat.mul_le_mul (by omega) (Nat.pow_le_pow_right (by decide) (by omega))
  refine Nat.lt_of_lt_of_le ?_ h1
  split
  · subst e; simpa using hf
  · obtain ⟨k, rfl⟩ : ∃ k, e = k + 1 := ⟨e - 1, by omega⟩
    rw [Nat.add_sub_cancel, (Nat.pow_succ 2 k : 2 ^ (k + 1) = 2 ^ k * 2), Nat.mul_comm (2 ^ k) 2, ← Nat.mul_assoc]
    exact Nat.mul_lt_mul_of_pos_right (by omega) (Nat.pow_pos (by decide))

theorem scaled_same {e f f' : Nat} (hf : f < f') :
    (if e = 0 then f else (2 ^ 52 + f) * 2 ^ (e - 1)) < (if e = 0 then f' else (2 ^ 52 + f') * 2 ^ (e - 1)) := by
  split
  · exact hf
  · exact Nat.mul_lt_mul_of_pos_right (by omega) (Nat.pow_pos (by decide))

theorem units_lt_of_magnitude {x y : UInt64} (h : Float64.magnitude x < Float64.magnitude y) :
    unsignedUnits x < unsignedUnits y := by
  rw [magnitude_parts, magnitude_parts] at h
  have hx := fraction_lt x
  have hy := fraction_lt y
  unfold unsignedUnits
  by_cases he : exponent x = exponent y
  · rw [he] at h ⊢
    exact scaled_same (by omega)
  · exact scaled_lt hx (by omega)

theorem units_eq_of_magnitude {x y : UInt64} (h : Float64.magnitude x = Float64.magnitude y) :
    unsignedUnits x = unsignedUnits y := by
  rw [magnitude_parts, magnitude_parts] at h
  have hx := fraction_lt x
  have hy := fraction_lt y
  have he : exponent x = exponent y := by omega
  have hf : fraction x = fraction y := by omega
  unfold unsignedUnits
  rw [he, hf]

theorem magnitude_lt_iff {x y : UInt64} :
    Float64.magnitude x < Float64.magnitude y ↔ unsignedUnits x < unsignedUnits y := by
  refine ⟨units_lt_of_magnitude, fun h => ?_⟩
  rcases Nat.lt_trichotomy (Float64.magnitude x) (Float64.magnitude y) with h' | h' | h'
  · exact h'
  · have := units_eq_of_magnitude h'; omega
  · have := units_lt_of_magnitude h'; omega

theorem magnitude_zero_iff {x : UInt64} : Float64.magnitude x = 0 ↔ unsignedUnits x = 0 := by
  have h0 : Float64.magnitude 0 = 0 := rfl
  have h1 : unsignedUnits 0 = 0 := rfl
  have := @magnitude_lt_iff 0 x
  rw [h0, h1] at this
  omega

theorem negative_iff (x : UInt64) : Float64.negative x = true ↔ x.toNat / 2 ^ 63 = 1 := by
  unfold Float64.negative
  have := x.toNat_lt
  simp only [decide_eq_true_eq]
  omega

theorem rank_lt_iff (x y : UInt64) : Float64.rank x < Float64.rank y ↔ units x < units y := by
  have h1 := @magnitude_lt_iff x y
  have h2 := @magnitude_lt_iff y x
  have h3 := @magnitude_zero_iff x
  have h4 := @magnitude_zero_iff y
  unfold Float64.rank units
  simp only [negative_iff]
  split <;> split <;> omega

theorem rank_eq_iff (x y : UInt64) : Float64.rank x = Float64.rank y ↔ units x = units y := by
  have h1 := rank_lt_iff x y
  have h2 := rank_lt_iff y x
  omega

theorem isNaN_iff (x : UInt64) : Float64.isNaN x = true ↔ IsNotANumber x := by
  unfold Float64.isNaN IsNotANumber
  rw [magnitude_parts]
  have hx := fraction_lt x
  have he : exponent x < 2048 := Nat.mod_lt _ (by decide)
  simp only [decide_eq_true_eq]
  omega

theorem number_of_finite {x : UInt64} (h : IsFinite x) : Float64.isNaN x = false := by
  rw [Bool.eq_false_iff]
  intro hn
  have := ((isNaN_iff x).1 hn).1
  unfold IsFinite at h
  omega

theorem lt_iff {x y : UInt64} (hx : Float64.isNaN x = false) (hy : Float64.isNaN y = false) :
    Float64.lt x y = decide (units x < units y) := by
  unfold Float64.lt
  rw [hx, hy]
  simp [rank_lt_iff]

theorem eq_iff {x y : UInt64} (hx : Float64.isNaN x = false) (hy : Float64.isNaN y = false) :
    Float64.eq x y = decide (units x = units y) := by
  unfold Float64.eq
  rw [hx, hy]
  simp [rank_eq_iff]

end DuckLisp.VM
