import Verif.Model.Mem

/-! # C06: memory copy is overlap safe -/

namespace DuckLisp.Mem

theorem copyUp_spec : ∀ (n : Nat) (m : Memory) (d s : Nat), (d ≤ s ∨ s + n ≤ d) → ∀ a,
    copyUp n m d s a = if d ≤ a ∧ a < d + n then m (s + (a - d)) else m a
  | 0, m, d, s, _, a => by
    simp only [copyUp]
    rw [if_neg (by omega)]
  | n + 1, m, d, s, h, a => by
    simp only [copyUp]
    rw [copyUp_spec n _ (d + 1) (s + 1) (by omega) a]
    by_cases h1 : d + 1 ≤ a ∧ a < d + 1 + n
    · rw [if_pos h1, if_pos (by omega)]
      have e : s + 1 + (a - (d + 1)) = s + (a - d) := by omega
      rw [e]
      simp only [store]
      rw [if_neg (by omega)]
    · rw [if_neg h1]
      simp only [store]
      by_cases h2 : a = d
      · subst h2
        rw [if_pos rfl, if_pos (by omega)]
        simp
      · rw [if_neg h2, if_neg (by omega)]

theorem copyDown_spec : ∀ (n : Nat) (m : Memory) (d s : Nat), s ≤ d → ∀ a,
    copyDown n m d s a = if d ≤ a ∧ a < d + n then m (s + (a - d)) else m a
  | 0, m, d, s, _, a => by
    simp only [copyDown]
    rw [if_neg (by omega)]
  | n + 1, m, d, s, h, a => by
    simp only [copyDown]
    rw [copyDown_spec n _ d s h a]
    by_cases h1 : d ≤ a ∧ a < d + n
    · rw [if_pos h1, if_pos (by omega)]
      simp only [store]
      rw [if_neg (by omega)]
    · rw [if_neg h1]
      simp only [store]
      by_cases h2 : a = d + n
      · subst h2
        rw [if_pos rfl, if_pos (by omega)]
        congr 1; omega
      · rw [if_neg h2, if_neg (by omega)]

/-- **C06.** After `dl_memcopy` every destination byte is the source byte of the *original* memory,
whatever the overlap, and every other byte is unchanged. -/
theorem C06_memcopy_overlap_safe (m : Memory) (destination source size a : Nat) :
    memcopy m destination source size a =
      if destination ≤ a ∧ a < destination + size then m (source + (a - destination)) else m a := by
  unfold memcopy
  split
  · exact copyDown_spec size m destination source (by omega) a
  · split
    · exact copyUp_spec size m destination source (by omega) a
    · obtain rfl : destination = source := by omega
      split
      · congr 1; omega
      · rfl

/-- **C06, no overlap.** The same for `dl_memcopy_noOverlap` if the ranges are disjoint. -/
theorem C06_memcopy_noOverlap (m : Memory) (destination source size a : Nat)
    (h : destination + size ≤ source ∨ source + size ≤ destination) :
    memcopyNoOverlap m destination source size a =
      if destination ≤ a ∧ a < destination + size then m (source + (a - destination)) else m a := by
  unfold memcopyNoOverlap
  split
  · exact copyUp_spec size m destination source (by omega) a
  · rw [if_neg (by omega)]

/-- `dl_memcopy_noOverlap` does need that: copying one byte upwards smears it. -/
theorem C06_noOverlap_needs_disjoint :
    ∃ (m : Memory) (a : Nat), memcopyNoOverlap m 1 0 2 a ≠
      if 1 ≤ a ∧ a < 3 then m (0 + (a - 1)) else m a :=
  ⟨fun a => if a = 0 then 7 else 8, 2, by decide⟩

theorem clearLoop_spec : ∀ (n : Nat) (m : Memory) (d i a : Nat),
    clearLoop n m d i a = if d + i ≤ a ∧ a < d + i + n then 0 else m a
  | 0, m, d, i, a => by
    simp only [clearLoop]; rw [if_neg (by omega)]
  | n + 1, m, d, i, a => by
    simp only [clearLoop]
    rw [clearLoop_spec n _ d (i + 1) a]
    by_cases h1 : d + (i + 1) ≤ a ∧ a < d + (i + 1) + n
    · rw [if_pos h1, if_pos (by omega)]
    · rw [if_neg h1]
      simp only [store]
      by_cases h2 : a = d + i
      · rw [if_pos h2, if_pos (by omega)]
      · rw [if_neg h2, if_neg (by omega)]

/-- **C06, clearing.** `dl_memclear` zeroes exactly its range. -/
theorem C06_memclear (m : Memory) (destination size a : Nat) :
    memclear m destination size a = if destination ≤ a ∧ a < destination + size then 0 else m a := by
  simpa [memclear] using clearLoop_spec size m destination 0 a

theorem strlenFrom_spec (m : Memory) (string : Nat) : ∀ (fuel i n : Nat), n < i + fuel → i ≤ n →
    m (string + n) = 0 → (∀ j, i ≤ j → j < n → m (string + j) ≠ 0) →
    strlenFrom m string fuel i = some n
  | 0, i, n, h1, h2, _, _ => by omega
  | fuel + 1, i, n, h1, h2, h3, h4 => by
    simp only [strlenFrom]
    by_cases e : i = n
    · subst e; simp [h3]
    · rw [if_pos (h4 i (Nat.le_refl _) (by omega))]
      exact strlenFrom_spec m string fuel (i + 1) n (by omega) (by omega) h3
        (fun j j1 j2 => h4 j (by omega) j2)

/-- **C06, length.** `dl_strlen` returns the number of bytes before the first zero byte. -/
theorem C06_strlen (m : Memory) (string n : Nat) (h0 : m (string + n) = 0)
    (h : ∀ j, j < n → m (string + j) ≠ 0) : strlenFrom m string (n + 1) 0 = some n :=
  strlenFrom_spec m string (n + 1) 0 n (by omega) (by omega) h0 (fun j _ => h j)

/-- An overlapping copy in each direction. -/
example : (List.range 6).map (memcopy (fun a => UInt8.ofNat a) 2 0 4) = [0, 1, 0, 1, 2, 3] := by decide
example : (List.range 6).map (memcopy (fun a => UInt8.ofNat a) 0 2 4) = [2, 3, 4, 5, 4, 5] := by decide

#print axioms C06_memcopy_overlap_safe
#print axioms C06_memcopy_noOverlap
#print axioms C06_noOverlap_needs_disjoint
#print axioms C06_memclear
#print axioms C06_strlen

end DuckLisp.Mem
