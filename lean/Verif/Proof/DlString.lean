import Verif.Model.DlString
import Verif.Spec.Numeral

namespace DuckLisp.DlString
open DuckLisp.Spec

theorem toNat_ofNat_lt {n : Nat} (h : n < 256) : (UInt8.ofNat n).toNat = n := by
  simp [UInt8.toNat_ofNat']; omega

theorem byte_ext {a b : UInt8} (h : a.toNat = b.toNat) : a = b := UInt8.toNat_inj.1 h

theorem decDigit_iff {c : Byte} {d : Nat} : DecDigit c d ↔ d < 10 ∧ c.toNat = 48 + d := by
  constructor
  · rintro ⟨_, h⟩
    exact ⟨h, toNat_ofNat_lt (by omega)⟩
  · rintro ⟨h, e⟩
    have : c = UInt8.ofNat (48 + d) := byte_ext (by rw [toNat_ofNat_lt (by omega), e])
    rw [this]; exact ⟨d, h⟩

theorem hexDigit_iff {c : Byte} {d : Nat} : HexDigit c d ↔
    (d < 10 ∧ c.toNat = 48 + d) ∨ (10 ≤ d ∧ d < 16 ∧ (c.toNat = 87 + d ∨ c.toNat = 55 + d)) := by
  constructor
  · intro h
    cases h with
    | dec d h => exact Or.inl ⟨h, toNat_ofNat_lt (by omega)⟩
    | lower d h =>
      refine Or.inr ⟨by omega, by omega, Or.inl ?_⟩
      rw [toNat_ofNat_lt (by omega)]; omega
    | upper d h =>
      refine Or.inr ⟨by omega, by omega, Or.inr ?_⟩
      rw [toNat_ofNat_lt (by omega)]; omega
  · rintro (⟨h, e⟩ | ⟨h1, h2, e⟩)
    · have : c = UInt8.ofNat (48 + d) := byte_ext (by rw [toNat_ofNat_lt (by omega), e])
      rw [this]; exact .dec d h
    · obtain ⟨k, rfl⟩ : ∃ k, d = 10 + k := ⟨d - 10, by omega⟩
      rcases e with e | e
      · have : c = UInt8.ofNat (97 + k) := byte_ext (by rw [toNat_ofNat_lt (by omega), e]; omega)
        rw [this]; exact .lower k (by omega)
      · have : c = UInt8.ofNat (65 + k) := byte_ext (by rw [toNat_ofNat_lt (by omega), e]; omega)
        rw [this]; exact .upper k (by omega)

theorem isDigit_iff_toNat {c : Byte} : isDigit c = true ↔ 48 ≤ c.toNat ∧ c.toNat ≤ 57 := by
  simp [isDigit, UInt8.le_iff_toNat_le]

theorem isHexDigit_iff_toNat {c : Byte} : isHexDigit c = true ↔
    (48 ≤ c.toNat ∧ c.toNat ≤ 57) ∨ (97 ≤ c.toNat ∧ c.toNat ≤ 102) ∨
      (65 ≤ c.toNat ∧ c.toNat ≤ 70) := by
  simp [isHexDigit, UInt8.le_iff_toNat_le, or_assoc]

/-- The digit relation that belongs to the flag `hexadecimal`. -/
def DigitOf (hex : Bool) : Byte → Nat → Prop := if hex then HexDigit else DecDigit
def baseOf (hex : Bool) : Nat := if hex then 16 else 10

theorem digit_test (hex : Bool) (c : Byte) :
    ((if hex then isHexDigit c else isDigit c) = true ↔ ∃ d, DigitOf hex c d) ∧
    ∀ d, DigitOf hex c d → digitValue hex c = d := by
  cases hex with
  | false =>
    simp only [DigitOf, Bool.false_eq_true, if_false, isDigit_iff_toNat, decDigit_iff]
    constructor
    · constructor
      · rintro ⟨h1, h2⟩; exact ⟨c.toNat - 48, by omega, by omega⟩
      · rintro ⟨d, h1, h2⟩; omega
    · rintro d ⟨h1, h2⟩
      simp only [digitValue, Bool.false_eq_true, if_false]; omega
  | true =>
    simp only [DigitOf, if_true, isHexDigit_iff_toNat, hexDigit_iff]
    constructor
    · constructor
      · rintro (⟨h1, h2⟩ | ⟨h1, h2⟩ | ⟨h1, h2⟩)
        · exact ⟨c.toNat - 48, Or.inl ⟨by omega, by omega⟩⟩
        · exact ⟨c.toNat - 87, Or.inr ⟨by omega, by omega, by omega⟩⟩
        · exact ⟨c.toNat - 55, Or.inr ⟨by omega, by omega, by omega⟩⟩
      · rintro ⟨d, (⟨h1, h2⟩ | ⟨h1, h2, h3⟩)⟩ <;> omega
    · intro d h
      simp only [digitValue, if_true, Bool.and_eq_true, decide_eq_true_eq, UInt8.le_iff_toNat_le]
      have e48 : (48 : UInt8).toNat = 48 := rfl
      have e57 : (57 : UInt8).toNat = 57 := rfl
      have e97 : (97 : UInt8).toNat = 97 := rfl
      have e102 : (102 : UInt8).toNat = 102 := rfl
      rw [e48, e57, e97, e102]
      split
      · omega
      · split <;> omega

theorem digitLoop_append (hex : Bool) (s t : Bytes) : ∀ acc,
    digitLoop hex acc (s ++ t) = (digitLoop hex acc s >>= fun a => digitLoop hex a t) := by
  induction s with
  | nil => intro acc; rfl
  | cons c cs ih =>
    intro acc
    simp only [List.cons_append, digitLoop]
    generalize (if hex = true then isHexDigit c else isDigit c) = b
    cases b with
    | false => rfl
    | true =>
      simp only [Bool.not_true, Bool.false_eq_true, if_false]
      generalize acc * (if hex = true then 16 else 10) + digitValue hex c = v
      cases chk v with
      | ok a => simp [ih]
      | err e => rfl
      | ub => rfl
      | timeout => rfl

theorem digitLoop_one_digit (hex : Bool) (a d : Nat) (c : Byte) (h : DigitOf hex c d) :
    digitLoop hex (a : Int) [c] =
      if (baseOf hex * a + d : Nat) ≤ ptrdiffMax then .ok ((baseOf hex * a + d : Nat) : Int) else .ub := by
  obtain ⟨h1, h2⟩ := digit_test hex c
  have t : (if hex then isHexDigit c else isDigit c) = true := h1.2 ⟨d, h⟩
  have e : (a : Int) * (if hex = true then 16 else 10) + digitValue hex c =
      ((baseOf hex * a + d : Nat) : Int) := by
    rw [h2 d h]
    cases hex <;> simp [baseOf] <;> omega
  simp only [digitLoop, t, Bool.not_true, Bool.false_eq_true, if_false, e, chk]
  by_cases hc : ((baseOf hex * a + d : Nat) : Int) ≤ ptrdiffMax
  · rw [if_pos hc, if_pos ⟨by unfold ptrdiffMin; omega, hc⟩]; rfl
  · rw [if_neg hc, if_neg (fun h => hc h.2)]; rfl

theorem digitLoop_one_bad (hex : Bool) (a : Int) (c : Byte) (h : ¬ ∃ d, DigitOf hex c d) :
    digitLoop hex a [c] = .err .invalidValue := by
  obtain ⟨h1, _⟩ := digit_test hex c
  have t : (if hex then isHexDigit c else isDigit c) = false := by
    cases hb : (if hex then isHexDigit c else isDigit c) with
    | false => rfl
    | true => exact absurd (h1.1 hb) h
  simp [digitLoop, t]

theorem digitLoop_complete (hex : Bool) {s : Bytes} {n : Nat}
    (h : Digits (DigitOf hex) (baseOf hex) s n) :
    digitLoop hex 0 s = if (n : Int) ≤ ptrdiffMax then .ok (n : Int) else .ub := by
  induction h with
  | nil => rfl
  | @snoc s n c d hs hc ih =>
    rw [digitLoop_append, ih]
    by_cases hn : (n : Int) ≤ ptrdiffMax
    · rw [if_pos hn]
      simp only [Res.bind_ok]
      rw [digitLoop_one_digit hex n d c hc]
    · rw [if_neg hn]
      simp only [Res.bind_ub]
      rw [if_neg]
      have : n ≤ baseOf hex * n + d := by
        cases hex <;> simp [baseOf] <;> omega
      omega

theorem digitLoop_cases (hex : Bool) (s : Bytes) :
    (∃ n : Nat, digitLoop hex 0 s = .ok n ∧ Digits (DigitOf hex) (baseOf hex) s n) ∨
    digitLoop hex 0 s = .err .invalidValue ∨
    (digitLoop hex 0 s = .ub ∧ ∃ p n, p <+: s ∧ Digits (DigitOf hex) (baseOf hex) p n ∧
      p ≠ [] ∧ (n : Int) > ptrdiffMax) := by
  obtain ⟨r, hr⟩ : ∃ r : Bytes, s.reverse = r := ⟨_, rfl⟩
  revert s hr
  induction r with
  | nil =>
    intro s hs
    have : s = [] := by simpa using hs
    subst this
    exact Or.inl ⟨0, rfl, .nil⟩
  | cons c r ih =>
    intro s hs
    obtain rfl : s = r.reverse ++ [c] := by
      have := congrArg List.reverse hs; simpa using this
    rw [digitLoop_append]
    rcases ih r.reverse (by simp) with ⟨n, e, hd⟩ | e | ⟨e, p, n, hp, hd, hne, hn⟩
    · rw [e]; simp only [Res.bind_ok]
      by_cases hc : ∃ d, DigitOf hex c d
      · obtain ⟨d, hc⟩ := hc
        rw [digitLoop_one_digit hex n d c hc]
        by_cases hm : ((baseOf hex * n + d : Nat) : Int) ≤ ptrdiffMax
        · rw [if_pos hm]
          exact Or.inl ⟨_, rfl, hd.snoc hc⟩
        · rw [if_neg hm]
          exact Or.inr (Or.inr ⟨rfl, _, _, List.prefix_rfl, hd.snoc hc, by simp, by omega⟩)
      · rw [digitLoop_one_bad hex _ c hc]
        exact Or.inr (Or.inl rfl)
    · rw [e]; exact Or.inr (Or.inl rfl)
    · rw [e]
      exact Or.inr (Or.inr ⟨rfl, p, n, hp.trans (List.prefix_append _ _), hd, hne, hn⟩)

theorem digits_all {D : Byte → Nat → Prop} {b : Nat} {s : Bytes} {n : Nat} (h : Digits D b s n) :
    ∀ c ∈ s, ∃ d, D c d := by
  induction h with
  | nil => simp
  | snoc hs hc ih =>
    intro x hx
    simp at hx
    rcases hx with hx | rfl
    · exact ih x hx
    · exact ⟨_, hc⟩

theorem isDigit_of_dec {c : Byte} (h : ∃ d, DecDigit c d) : isDigit c = true :=
  (digit_test false c).1.2 h

theorem uNumeral_head {s : Bytes} {n : Nat} (h : UNumeral s n) :
    ∃ c cs, s = c :: cs ∧ isDigit c = true := by
  cases h with
  | dec h hne =>
    cases s with
    | nil => exact absurd rfl hne
    | cons c cs => exact ⟨c, cs, rfl, isDigit_of_dec (digits_all h c (by simp))⟩
  | hex x hx h => exact ⟨48, _, rfl, by decide⟩

theorem unsignedPart_complete {s : Bytes} {n : Nat} (h : UNumeral s n) :
    unsignedPart s = if (n : Int) ≤ ptrdiffMax then .ok (n : Int) else .ub := by
  cases h with
  | dec h hne =>
    have hl := digitLoop_complete false h
    cases s with
    | nil => exact absurd rfl hne
    | cons c cs =>
      have hc : isDigit c = true := isDigit_of_dec (digits_all h c (by simp))
      simp only [unsignedPart, hc, Bool.not_true, Bool.false_eq_true, if_false]
      cases cs with
      | nil => exact hl
      | cons x cs' =>
        have hx : isDigit x = true := isDigit_of_dec (digits_all h x (by simp))
        rw [isDigit_iff_toNat] at hx
        have h1 : ¬ (x = 120) := by
          rintro rfl; have : (120 : UInt8).toNat = 120 := rfl; omega
        have h2 : ¬ (x = 88) := by
          rintro rfl; have : (88 : UInt8).toNat = 88 := rfl; omega
        simp only [h1, h2, decide_false, Bool.or_self, Bool.and_false, Bool.false_eq_true, if_false]
        exact hl
  | @hex s n x hx h =>
    have hl := digitLoop_complete true h
    have hd : isDigit 48 = true := by decide
    simp only [unsignedPart, hd, Bool.not_true, Bool.false_eq_true, if_false]
    rcases hx with rfl | rfl
    · simpa using hl
    · simpa using hl

theorem unsignedPart_cases (s : Bytes) :
    (∃ n : Nat, unsignedPart s = .ok n ∧ UNumeral s n) ∨
    unsignedPart s = .err .invalidValue ∨
    (unsignedPart s = .ub ∧ ∃ p n, p <+: s ∧ UNumeral p n ∧ (n : Int) > ptrdiffMax) := by
  have dec : ∀ s : Bytes, s ≠ [] →
      ((∃ n : Nat, digitLoop false 0 s = .ok n ∧ UNumeral s n) ∨
      digitLoop false 0 s = .err .invalidValue ∨
      (digitLoop false 0 s = .ub ∧ ∃ p n, p <+: s ∧ UNumeral p n ∧ (n : Int) > ptrdiffMax)) := by
    intro s hs
    rcases digitLoop_cases false s with ⟨n, e, h⟩ | e | ⟨e, p, n, hp, hd, hne, hn⟩
    · exact Or.inl ⟨n, e, .dec h hs⟩
    · exact Or.inr (Or.inl e)
    · exact Or.inr (Or.inr ⟨e, p, n, hp, .dec hd hne, hn⟩)
  cases s with
  | nil => exact Or.inr (Or.inl rfl)
  | cons c cs =>
    simp only [unsignedPart]
    cases hc : isDigit c with
    | false => simp
    | true =>
      simp only [Bool.not_true, Bool.false_eq_true, if_false]
      cases cs with
      | nil => exact dec [c] (by simp)
      | cons x cs' =>
        dsimp only
        split
        · rename_i h
          simp at h
          obtain ⟨rfl, hx⟩ := h
          rcases digitLoop_cases true cs' with ⟨n, e, h⟩ | e | ⟨e, p, n, hp, hd, hne, hn⟩
          · exact Or.inl ⟨n, e, .hex x hx h⟩
          · exact Or.inr (Or.inl e)
          · refine Or.inr (Or.inr ⟨e, 48 :: x :: p, n, ?_, .hex x hx hd, hn⟩)
            obtain ⟨t, rfl⟩ := hp
            exact ⟨t, rfl⟩
        · exact dec _ (by simp)

/-! ## Printing -/

theorem revDigitsPos_digits (n : Nat) : Digits DecDigit 10 (revDigitsPos n).reverse n := by
  induction n using Nat.strongRecOn with
  | ind n ih =>
    rw [revDigitsPos]
    by_cases h : (0 : Int) < n
    · rw [if_pos h]
      have e1 : (n : Int).tdiv 10 = ((n / 10 : Nat) : Int) := by
        rw [Int.tdiv_eq_ediv_of_nonneg (by omega)]; omega
      have e2 : (n : Int).tmod 10 = ((n % 10 : Nat) : Int) := by
        rw [Int.tmod_eq_emod_of_nonneg (by omega)]; omega
      rw [e1, e2]
      have := (ih (n / 10) (by omega)).snoc (DecDigit.mk (n % 10) (by omega))
      have e3 : 10 * (n / 10) + n % 10 = n := by omega
      rw [e3] at this
      have e4 : ((48 : Int) + ((n % 10 : Nat) : Int)).toNat = 48 + n % 10 := by omega
      rw [e4]
      simpa using this
    · rw [if_neg h]
      obtain rfl : n = 0 := by omega
      exact .nil

theorem revDigitsNeg_eq (n : Nat) : revDigitsNeg (-(n : Int)) = revDigitsPos n := by
  induction n using Nat.strongRecOn with
  | ind n ih =>
    rw [revDigitsNeg, revDigitsPos]
    by_cases h : (0 : Int) < n
    · rw [if_pos h, if_pos (by omega)]
      have e1 : (n : Int).tdiv 10 = ((n / 10 : Nat) : Int) := by
        rw [Int.tdiv_eq_ediv_of_nonneg (by omega)]; omega
      rw [Int.neg_tdiv, Int.neg_tmod, e1, ih (n / 10) (by omega)]
      rw [show (48 : Int) - -(n : Int).tmod 10 = 48 + (n : Int).tmod 10 by omega]
    · rw [if_neg h, if_neg (by omega)]

theorem revDigitsPos_ne_nil (n : Nat) (h : 0 < n) : (revDigitsPos n).reverse ≠ [] := by
  rw [revDigitsPos, if_pos (by omega)]; simp

theorem zero_numeral : UNumeral [48] 0 :=
  .dec (Digits.snoc (s := []) (n := 0) .nil (DecDigit.mk 0 (by omega))) (by simp)

/-- The text appended for a non-negative number. -/
theorem fromSize_numeral (dest : Bytes) (n : Nat) :
    ∃ t, fromSize dest n = dest ++ t ∧ UNumeral t n := by
  unfold fromSize
  by_cases h : n = 0
  · subst h
    exact ⟨[48], by simp, zero_numeral⟩
  · rw [if_neg h]
    exact ⟨_, rfl, .dec (revDigitsPos_digits n) (revDigitsPos_ne_nil n (by omega))⟩

theorem fromPtrdiff_numeral (dest : Bytes) (n : Int) :
    ∃ t, fromPtrdiff dest n = dest ++ t ∧
      ((0 ≤ n ∧ UNumeral t n.toNat) ∨ (n < 0 ∧ ∃ t', t = 45 :: t' ∧ UNumeral t' (-n).toNat)) := by
  unfold fromPtrdiff
  by_cases h : n = 0
  · subst h
    exact ⟨[48], by simp, Or.inl ⟨by omega, zero_numeral⟩⟩
  · rw [if_neg h]
    by_cases hn : n < 0
    · rw [if_pos hn]
      obtain ⟨m, rfl⟩ : ∃ m : Nat, n = -(m : Int) := ⟨n.natAbs, by omega⟩
      refine ⟨45 :: (revDigitsPos m).reverse, by simp [revDigitsNeg_eq], Or.inr ⟨hn, _, rfl, ?_⟩⟩
      have : (-(-(m : Int))).toNat = m := by omega
      rw [this]
      exact .dec (revDigitsPos_digits m) (revDigitsPos_ne_nil m (by omega))
    · rw [if_neg hn]
      obtain ⟨m, rfl⟩ : ∃ m : Nat, n = (m : Int) := ⟨n.toNat, by omega⟩
      refine ⟨_, rfl, Or.inl ⟨by omega, ?_⟩⟩
      exact .dec (revDigitsPos_digits m) (revDigitsPos_ne_nil m (by omega))

theorem toPtrdiff_unsigned {s : Bytes} {n : Nat} (h : UNumeral s n) :
    toPtrdiff s = if (n : Int) ≤ ptrdiffMax then .ok (n : Int) else .ub := by
  obtain ⟨c, cs, rfl, hc⟩ := uNumeral_head h
  rw [isDigit_iff_toNat] at hc
  have : ¬ (c = 45) := by
    rintro rfl; have : (45 : UInt8).toNat = 45 := rfl; omega
  simp only [toPtrdiff, this, if_false]
  exact unsignedPart_complete h

theorem toPtrdiff_negative {s : Bytes} {n : Nat} (h : UNumeral s n) :
    toPtrdiff (45 :: s) = if (n : Int) ≤ ptrdiffMax then .ok (-(n : Int)) else .ub := by
  simp only [toPtrdiff, if_true]
  rw [unsignedPart_complete h]
  by_cases hn : (n : Int) ≤ ptrdiffMax
  · rw [if_pos hn, if_pos hn]
    simp only [Res.bind_ok, chk]
    rw [if_pos]
    unfold ptrdiffMin ptrdiffMax at *; omega
  · rw [if_neg hn, if_neg hn]; rfl

theorem toPtrdiff_cases (s : Bytes) :
    (∃ v, toPtrdiff s = .ok v ∧ Numeral s v) ∨
    toPtrdiff s = .err .invalidValue ∨
    (toPtrdiff s = .ub ∧ ∃ p v, p <+: s ∧ Numeral p v ∧ ptrdiffMax < v.natAbs) := by
  cases s with
  | nil => exact Or.inr (Or.inl rfl)
  | cons c cs =>
    simp only [toPtrdiff]
    by_cases hc : c = 45
    · subst hc
      simp only [if_true]
      rcases unsignedPart_cases cs with ⟨n, e, h⟩ | e | ⟨e, p, n, hp, hu, hn⟩
      · have h1 := toPtrdiff_negative h
        simp only [toPtrdiff, if_true] at h1
        rw [h1]
        by_cases hn : (n : Int) ≤ ptrdiffMax
        · rw [if_pos hn]; exact Or.inl ⟨_, rfl, .neg h⟩
        · rw [unsignedPart_complete h, if_neg hn] at e; cases e
      · rw [e]; exact Or.inr (Or.inl rfl)
      · rw [e]
        refine Or.inr (Or.inr ⟨rfl, 45 :: p, -(n : Int), ?_, .neg hu, by omega⟩)
        obtain ⟨t, rfl⟩ := hp
        exact ⟨t, rfl⟩
    · simp only [hc, if_false]
      rcases unsignedPart_cases (c :: cs) with ⟨n, e, h⟩ | e | ⟨e, p, n, hp, hu, hn⟩
      · exact Or.inl ⟨n, e, .pos h⟩
      · exact Or.inr (Or.inl e)
      · exact Or.inr (Or.inr ⟨e, p, n, hp, .pos hu, by omega⟩)

/-! ## Comparison -/

theorem compareLoop_ok : ∀ (n : Nat) (s t : Bytes), n ≤ s.length → n ≤ t.length →
    compareLoop n s t = .ok (decide (s.take n = t.take n))
  | 0, _, _, _, _ => by simp [compareLoop]
  | n + 1, [], _, h, _ => by simp at h
  | n + 1, _ :: _, [], _, h => by simp at h
  | n + 1, a :: s, b :: t, h1, h2 => by
    simp only [compareLoop]
    by_cases e : a = b
    · subst e
      simp only [ne_eq, not_true, if_false]
      rw [compareLoop_ok n s t (by simpa using h1) (by simpa using h2)]
      simp
    · simp [e]

theorem compare_ok (s t : Bytes) : compare s t = .ok (decide (s = t)) := by
  unfold compare
  by_cases h : s.length = t.length
  · simp only [h, ne_eq, not_true, if_false]
    rw [compareLoop_ok _ _ _ (by omega) (by omega)]
    rw [List.take_of_length_le (by omega), List.take_of_length_le (by omega)]
  · have : ¬ (s = t) := fun e => h (by rw [e])
    simp [h, this]

end DuckLisp.DlString
