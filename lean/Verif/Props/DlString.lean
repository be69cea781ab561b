import Verif.Proof.DlString

/-! # C04, C05, C07: integers and strings as text -/

namespace DuckLisp.DlString
open DuckLisp.Spec

/-- **C04, printing.** Printing appends, to whatever the destination holds, a numeral that denotes
the integer printed - for every machine integer, the most negative one included. -/
theorem C04_print_denotes (dest : Bytes) (n : Int) :
    ∃ t, fromPtrdiff dest n = dest ++ t ∧ Numeral t n := by
  obtain ⟨t, e, ⟨h, hu⟩ | ⟨h, t', rfl, hu⟩⟩ := fromPtrdiff_numeral dest n
  · refine ⟨t, e, ?_⟩
    have := Numeral.pos hu
    rwa [Int.toNat_of_nonneg h] at this
  · refine ⟨_, e, ?_⟩
    have := Numeral.neg hu
    rwa [Int.toNat_of_nonneg (by omega), Int.neg_neg] at this

/-- **C04, round trip** (partial: the most negative integer is excluded, see
`C04_roundtrip_min_ub`): parsing the printed text gives the integer back. -/
theorem C04_roundtrip_partial (n : Int) (h1 : ptrdiffMin < n) (h2 : n ≤ ptrdiffMax) :
    toPtrdiff (fromPtrdiff [] n) = .ok n := by
  obtain ⟨t, e, ⟨h, hu⟩ | ⟨h, t', rfl, hu⟩⟩ := fromPtrdiff_numeral [] n
  · rw [e, List.nil_append, toPtrdiff_unsigned hu, Int.toNat_of_nonneg h, if_pos h2]
  · rw [e, List.nil_append, toPtrdiff_negative hu, Int.toNat_of_nonneg (by omega), if_pos, Int.neg_neg]
    unfold ptrdiffMin ptrdiffMax at *; omega

/-- The round trip fails for the most negative integer: its digits overflow while being
accumulated, which is undefined behaviour in C. -/
theorem C04_roundtrip_min_ub : toPtrdiff (fromPtrdiff [] ptrdiffMin) = .ub := by
  obtain ⟨t, e, ⟨h, hu⟩ | ⟨h, t', rfl, hu⟩⟩ := fromPtrdiff_numeral [] ptrdiffMin
  · exact absurd h (by decide)
  · rw [e, List.nil_append, toPtrdiff_negative hu, if_neg (by decide)]

/-- **C04, sizes.** Unsigned sizes print as a numeral that denotes them, and come back if they fit
the signed type. -/
theorem C04_size_roundtrip (dest : Bytes) (n : Nat) :
    ∃ t, fromSize dest n = dest ++ t ∧ UNumeral t n ∧
      ((n : Int) ≤ ptrdiffMax → toPtrdiff t = .ok n) := by
  obtain ⟨t, e, h⟩ := fromSize_numeral dest n
  exact ⟨t, e, h, fun hn => by rw [toPtrdiff_unsigned h, if_pos hn]⟩

/-- **C04, bytes.** Bytes print as a numeral that denotes them, and come back. -/
theorem C04_byte_roundtrip (dest : Bytes) (n : UInt8) :
    ∃ t, fromUint8 dest n = dest ++ t ∧ UNumeral t n.toNat ∧ toPtrdiff t = .ok n.toNat := by
  obtain ⟨t, e, h⟩ := fromSize_numeral dest n.toNat
  have hn := n.toNat_lt
  exact ⟨t, e, h, by rw [toPtrdiff_unsigned h, if_pos (by unfold ptrdiffMax; omega)]⟩

example : fromUint8 (ascii "x=") 255 = ascii "x=255" := by decide +kernel
example : fromPtrdiff (ascii "x=") (-9223372036854775808) = ascii "x=-9223372036854775808" := by
  decide +kernel
example : toPtrdiff (fromPtrdiff [] (-9223372036854775807)) = .ok (-9223372036854775807) :=
  C04_roundtrip_partial _ (by decide) (by decide)

/-- **C05, acceptance.** Every numeral whose value has a magnitude in range is accepted with the
value it denotes; larger ones are signed overflow. -/
theorem C05_accepts_numerals (s : Bytes) (v : Int) (h : Numeral s v) :
    toPtrdiff s = if v.natAbs ≤ ptrdiffMax then .ok v else .ub := by
  cases h with
  | pos h => rw [toPtrdiff_unsigned h]; simp
  | neg h => rw [toPtrdiff_negative h]; simp

/-- **C05, rejection.** Whatever is accepted is a numeral and the result is the value it denotes;
everything else is rejected with `invalidValue`, unless a leading part of it is already a numeral
too large for the machine (overflow). -/
theorem C05_accepts_only_numerals (s : Bytes) :
    (∃ v, toPtrdiff s = .ok v ∧ Numeral s v) ∨
    toPtrdiff s = .err .invalidValue ∨
    (toPtrdiff s = .ub ∧ ∃ p v, p <+: s ∧ Numeral p v ∧ ptrdiffMax < v.natAbs) :=
  toPtrdiff_cases s

example : toPtrdiff (ascii "-0xFf") = .ok (-255) := by decide +kernel
example : toPtrdiff (ascii "0x") = .ok 0 := by decide +kernel
example : toPtrdiff (ascii "12a") = .err .invalidValue := by decide +kernel
example : Numeral [45, 49, 50] (-12) :=
  .neg (.dec (n := 12) (Digits.snoc (s := [49]) (n := 1)
    (Digits.snoc (s := []) (n := 0) .nil (DecDigit.mk 1 (by omega)))
    (DecDigit.mk 2 (by omega))) (by simp))

/-- **C07.** Comparison decides equality of byte strings. -/
theorem C07_compare_decides (s t : Bytes) : compare s t = .ok (decide (s = t)) := compare_ok s t

/-- **C07, partial comparison** decides equality of the first `n` bytes, without reading beyond
them. -/
theorem C07_compare_partial_decides (s t : Bytes) (n : Nat) (hs : n ≤ s.length) (ht : n ≤ t.length) :
    comparePartial s t n = .ok (decide (s.take n = t.take n)) := compareLoop_ok n s t hs ht

/-- **C07, booleans.** Booleans survive printing and parsing, and only the two boolean names are
accepted. -/
theorem C07_bool_roundtrip (b : Bool) : toBool (fromBool [] b) = .ok b := by
  cases b <;> decide

theorem C07_bool_accepts_only (s : Bytes) (b : Bool) (h : toBool s = .ok b) :
    s = fromBool [] b := by
  unfold toBool at h
  rw [compare_ok, compare_ok] at h
  simp only [Res.bind_ok] at h
  by_cases h1 : s = [116, 114, 117, 101]
  · subst h1; simp at h; subst h; rfl
  · by_cases h2 : s = [102, 97, 108, 115, 101]
    · subst h2; simp at h; subst h; rfl
    · simp [h1, h2] at h

example : compare (ascii "abc") (ascii "abd") = .ok false := by decide +kernel
example : comparePartial (ascii "abc") (ascii "abd") 2 = .ok true := by decide +kernel

#print axioms C04_print_denotes
#print axioms C04_roundtrip_partial
#print axioms C04_roundtrip_min_ub
#print axioms C04_size_roundtrip
#print axioms C04_byte_roundtrip
#print axioms C05_accepts_numerals
#print axioms C05_accepts_only_numerals
#print axioms C07_compare_decides
#print axioms C07_compare_partial_decides
#print axioms C07_bool_roundtrip
#print axioms C07_bool_accepts_only

end DuckLisp.DlString
