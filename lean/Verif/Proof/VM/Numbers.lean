import Verif.Proof.VM.Operand
import Verif.Props.DlString

/-!
# Lemmas about arithmetic and comparisons
-/

namespace DuckLisp.VM

open DuckLisp DuckLisp.Spec

set_option linter.unusedSectionVars false

variable [Entries]

theorem ckInt_ok {r : Int} {vm : VM} (h : InRange r) : ckInt r vm = .ok r vm := by
  unfold ckInt
  unfold InRange at h
  rw [if_pos h]
  rfl

theorem ckInt_ub {r : Int} {vm : VM} (h : ¬ InRange r) : ckInt r vm = .ub := by
  unfold ckInt
  unfold InRange at h
  rw [if_neg h]
  rfl

theorem exact_div {x y r : Int} : Exact .div x y r ↔ y ≠ 0 ∧ r = x.tdiv y := by
  unfold Exact
  constructor
  · rintro ⟨hy, m, hx, hm, h1, h2⟩
    refine ⟨hy, ?_⟩
    have e := Int.mul_tdiv_add_tmod x y
    have hlt : (x.tmod y).natAbs < y.natAbs := by
      rw [Int.natAbs_tmod]; exact Nat.mod_lt _ (by omega)
    have hs1 : 0 ≤ x → 0 ≤ x.tmod y := fun h => Int.tmod_nonneg y h
    have hs2 : x ≤ 0 → x.tmod y ≤ 0 := fun h => by
      have := Int.tmod_nonneg y (a := -x) (by omega)
      rw [Int.neg_tmod] at this
      omega
    have hd : y * (r - x.tdiv y) = x.tmod y - m := by rw [Int.mul_sub]; omega
    have habs : (x.tmod y - m).natAbs < y.natAbs := by
      rcases Int.le_total 0 x with h | h
      · have := hs1 h; have := h1 h; omega
      · have := hs2 h; have := h2 h; omega
    rw [← hd, Int.natAbs_mul] at habs
    have : (r - x.tdiv y).natAbs = 0 := by
      rcases Nat.eq_zero_or_pos (r - x.tdiv y).natAbs with h | h
      · exact h
      · have := Nat.le_mul_of_pos_right y.natAbs h
        omega
    omega
  · rintro ⟨hy, rfl⟩
    refine ⟨hy, x.tmod y, (Int.mul_tdiv_add_tmod x y).symm, ?_, fun h => Int.tmod_nonneg y h, ?_⟩
    · rw [Int.natAbs_tmod]; exact Nat.mod_lt _ (by omega)
    · intro h
      have := Int.tmod_nonneg y (a := -x) (by omega)
      rw [Int.neg_tmod] at this
      omega

theorem intArith_exact {op : Arith} {x y r : Int} {vm : VM} (h : Exact op x y r) (hr : InRange r) :
    intArith op x y vm = .ok r vm := by
  cases op with
  | add => cases h; exact ckInt_ok hr
  | sub => cases h; exact ckInt_ok hr
  | mul => cases h; exact ckInt_ok hr
  | div =>
      obtain ⟨hy, rfl⟩ := exact_div.mp h
      simp only [intArith, if_neg hy]
      exact ckInt_ok hr

theorem intArith_overflow {op : Arith} {x y r : Int} {vm : VM} (h : Exact op x y r)
    (hr : ¬ InRange r) : intArith op x y vm = .ub := by
  cases op with
  | add => cases h; exact ckInt_ub hr
  | sub => cases h; exact ckInt_ub hr
  | mul => cases h; exact ckInt_ub hr
  | div =>
      obtain ⟨hy, rfl⟩ := exact_div.mp h
      simp only [intArith, if_neg hy]
      exact ckInt_ub hr

theorem stringSize_eq {off : Int} {len : Nat} (h1 : 0 ≤ off) (h2 : off ≤ len) (h3 : len < 2 ^ 63) :
    stringSize off len = len - off.toNat := by
  unfold stringSize toSize
  rw [Int.emod_eq_of_lt (by omega) (by omega)]
  omega

/-- What a sound string is made of. -/
theorem string_ok {vm : VM} (hs : Sound vm) {p : Option Nat} {off : Int} {len : Nat}
    (h : ValueOk vm (.string p off len)) :
    stringSize off len = (text vm (.string p off len)).length ∧
    (stringSize off len ≠ 0 →
      stringBytes p off (stringSize off len) vm = .ok (text vm (.string p off len)) vm) := by
  cases p with
  | none =>
      obtain ⟨rfl, rfl⟩ := h
      simp [stringSize, toSize, text]
  | some r =>
      obtain ⟨h1, h2, n, hn, hfree, o, ho, hsh⟩ := h
      have hc := hs.cells r o ho hfree
      cases o <;> simp [shape] at hsh
      rename_i v m
      subst hsh
      obtain ⟨hlen, hm⟩ := hc
      rw [stringSize_eq h1 h2 (by omega)]
      cases v with
      | none =>
          simp at hlen
          subst hlen
          simp [text, ho]
          omega
      | some bytes =>
          simp at hlen
          refine ⟨?_, ?_⟩
          · simp [text, ho]
            omega
          · intro hne
            have hr : deref (some r) vm = .ok (.internalString (some bytes) m) vm := deref_some ho
            unfold stringBytes
            rw [M.bind_ok hr]
            simp only [if_neg hne]
            have hb : M.need (some bytes) vm = .ok bytes vm := rfl
            rw [M.bind_ok hb, if_pos (by omega)]
            simp [text, ho, List.drop_take]

theorem equal_string {vm : VM} (hs : Sound vm) {p q : Option Nat} {i j : Int} {m n : Nat}
    (hx : ValueOk vm (.string p i m)) (hy : ValueOk vm (.string q j n)) :
    equalValue (.string p i m) (.string q j n) vm =
      .ok (decide (text vm (.string p i m) = text vm (.string q j n))) vm := by
  obtain ⟨lx, bx⟩ := string_ok hs hx
  obtain ⟨ly, by'⟩ := string_ok hs hy
  simp only [equalValue]
  by_cases ex : stringSize i m = 0
  · by_cases ey : stringSize j n = 0
    · rw [if_pos ⟨ex, ey⟩]
      rw [lx, List.length_eq_zero_iff] at ex
      rw [ly, List.length_eq_zero_iff] at ey
      simp [ex, ey]
    · rw [if_neg (by omega), if_pos (Or.inl ex)]
      rw [lx, List.length_eq_zero_iff] at ex
      rw [ly, List.length_eq_zero_iff] at ey
      simp [ex, Ne.symm ey]
  · by_cases ey : stringSize j n = 0
    · rw [if_neg (by omega), if_pos (Or.inr ey)]
      rw [lx, List.length_eq_zero_iff] at ex
      rw [ly, List.length_eq_zero_iff] at ey
      simp [ex, ey]
    · rw [if_neg (by omega), if_neg (by omega)]
      rw [M.bind_ok (bx ex), M.bind_ok (by' ey), DlString.C07_compare_decides]
      rfl

/-- `=` decides sameness. -/
theorem equalValue_same {vm : VM} (hs : Sound vm) {x y : Obj} (hx : ValueOk vm x)
    (hy : ValueOk vm y) (px : IsPlainValue x) (py : IsPlainValue y) :
    ∃ b : Bool, equalValue x y vm = .ok b vm ∧ (b = true ↔ SameValue vm x y) := by
  cases x <;> simp [IsPlainValue] at px <;> cases y <;> simp [IsPlainValue] at py <;>
    first
      | exact ⟨_, equal_string hs hx hy, by simp [SameValue]⟩
      | exact ⟨_, rfl, by simp [SameValue]⟩

end DuckLisp.VM
