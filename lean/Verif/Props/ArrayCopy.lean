import Verif.Model.ArrayCopy

/-! # C02: copies of arrays -/

namespace DuckLisp.DynArray

/-- An array in use: it has a block, and room in it for its elements. -/
structure InUse (m : Blocks) (a : Header) (b : Nat) (bytes : Bytes) : Prop where
  block : a.block = some b
  there : m[b]? = some (some bytes)
  room : a.length * a.elementSize ≤ bytes.length
  size : bytes.length = a.memorySize

/-- An array that can be copied to: it has no block, or one of its own. -/
def Separate (m : Blocks) (a : Header) (b : Nat) : Prop :=
  a.block = none ∨ ∃ d x, a.block = some d ∧ d ≠ b ∧ m[d]? = some (some x)

theorem release_separate {m : Blocks} {a : Header} {b : Nat} (h : Separate m a b) :
    ∃ m1, release m a.block = some m1 ∧ m1.length = m.length ∧ m1[b]? = m[b]? := by
  rcases h with h | ⟨d, x, h, hd, hm⟩
  · exact ⟨m, by rw [h]; rfl, rfl, rfl⟩
  · refine ⟨m.set d none, by rw [h]; simp [release, hm], by simp, ?_⟩
    rw [List.getElem?_set_ne hd]

theorem copy_eq {o : Oracle} {m : Blocks} {dst src : Header} {b : Nat} {bytes : Bytes} {junk : Nat → Byte}
    (hs : InUse m src b bytes) (hd : Separate m dst b) (ho : o src.memorySize = some junk) :
    ∃ m', copy o m dst src = some (m', src, .ok ()) ∧ m'[b]? = some (some bytes) ∧
      ∃ x, m'[m.length]? = some (some x) := by
  obtain ⟨m1, h1, hl, hb⟩ := release_separate hd
  have hlt : b < m.length := (List.getElem?_eq_some_iff.1 hs.there).1
  have hb2 : (m1 ++ [some ((List.range src.memorySize).map junk)])[b]? = some (some bytes) := by
    rw [List.getElem?_append_left (by omega), hb, hs.there]
  have hn2 : (m1 ++ [some ((List.range src.memorySize).map junk)])[m.length]? =
      some (some ((List.range src.memorySize).map junk)) := by
    rw [List.getElem?_append_right (by omega), hl]; simp
  unfold copy
  rw [h1]
  simp only [allocate, ho, copyBlock]
  by_cases hz : src.length * src.elementSize = 0
  · rw [if_pos hz]
    exact ⟨_, rfl, hb2, _, hn2⟩
  · rw [if_neg hz]
    have hr : read (blockOf (m1 ++ [some ((List.range src.memorySize).map junk)]) src.block) 0
        (src.length * src.elementSize) = some (bytes.take (src.length * src.elementSize)) := by
      rw [hs.block]
      simp only [blockOf, Option.bind_some, hb2, Option.join_some, read]
      rw [if_pos (by have := hs.room; omega), List.drop_zero]
    rw [hr]
    have hw : ∃ y, write (blockOf (m1 ++ [some ((List.range src.memorySize).map junk)]) (some m1.length)) 0
        (bytes.take (src.length * src.elementSize)) = some y := by
      rw [hl]
      simp only [blockOf, Option.bind_some, hn2, Option.join_some, write]
      rw [if_pos (by have := hs.size; simp only [List.length_take, List.length_map, List.length_range]; omega)]
      exact ⟨_, rfl⟩
    obtain ⟨y, hw⟩ := hw
    simp only [hw]
    refine ⟨_, rfl, ?_, y, ?_⟩
    · rw [List.getElem?_set_ne (by omega), hb2]
    · rw [← hl, List.getElem?_set_self (by simp)]

/-- C02: a copy has the length and the elements of the array copied, and that array has them still. -/
theorem C02_copy_elements (o : Oracle) (m : Blocks) (dst src : Header) (b : Nat) (bytes : Bytes) (junk : Nat → Byte)
    (hs : InUse m src b bytes) (hd : Separate m dst b) (ho : o src.memorySize = some junk) :
    ∃ m' dst', copy o m dst src = some (m', dst', .ok ()) ∧ dst'.length = src.length ∧
      dst'.elementSize = src.elementSize ∧
      ∀ i, getAt m' dst' i = getAt m src i ∧ getAt m' src i = getAt m src i := by
  obtain ⟨m', h1, h2, -⟩ := copy_eq hs hd ho
  refine ⟨m', src, h1, rfl, rfl, fun i => ?_⟩
  have : getAt m' src i = getAt m src i := by
    unfold getAt
    rw [hs.block]
    simp only [blockOf, Option.bind_some, h2, hs.there]
  exact ⟨this, this⟩

/-- C02, violated: the copy is not an array of its own.  Whatever is set in it afterwards is set in the array that was
copied, too. -/
theorem C02_copy_is_shared (o : Oracle) (m : Blocks) (dst src : Header) (b : Nat) (bytes : Bytes) (junk : Nat → Byte)
    (hs : InUse m src b bytes) (hd : Separate m dst b) (ho : o src.memorySize = some junk)
    (i : Nat) (e : Bytes) (hi : i < src.length) (he : e.length = src.elementSize) :
    ∃ m' dst' m'', copy o m dst src = some (m', dst', .ok ()) ∧ setAt m' dst' i e = .ok (some m'') ∧
      getAt m'' src i = .ok (some e) := by
  obtain ⟨m', h1, h2, -⟩ := copy_eq hs hd ho
  have hlt : b < m'.length := (List.getElem?_eq_some_iff.1 h2).1
  have hfit : i * src.elementSize + src.elementSize ≤ bytes.length := by
    have h3 : (i + 1) * src.elementSize ≤ src.length * src.elementSize := Nat.mul_le_mul_right _ hi
    have := hs.room
    rw [Nat.add_mul, Nat.one_mul] at h3
    omega
  refine ⟨m', src, m'.set b (some (bytes.take (i * src.elementSize) ++ e ++
    bytes.drop (i * src.elementSize + e.length))), h1, ?_, ?_⟩
  · unfold setAt
    rw [if_pos hi, hs.block]
    simp only [blockOf, Option.bind_some, h2, Option.join_some, write]
    rw [if_pos (by omega)]
  · unfold getAt
    rw [if_pos hi, hs.block]
    simp only [blockOf, Option.bind_some, List.getElem?_set_self hlt, Option.join_some, read]
    have hl : (bytes.take (i * src.elementSize)).length = i * src.elementSize := by
      rw [List.length_take]; omega
    rw [if_pos (by simp only [List.length_append, List.length_drop, hl]; omega), List.append_assoc,
      List.drop_left' hl, List.take_left' he]

/-- C02, violated: the memory that was allocated for the copy is lost.  It is still there after both arrays are given
up, and giving up both is undefined: the second one releases memory that was released before. -/
theorem C02_copy_released_twice (o : Oracle) (m : Blocks) (dst src : Header) (b : Nat) (bytes : Bytes)
    (junk : Nat → Byte) (hs : InUse m src b bytes) (hd : Separate m dst b) (ho : o src.memorySize = some junk) :
    ∃ m' dst' m'', copy o m dst src = some (m', dst', .ok ()) ∧ quit m' dst' = some m'' ∧ quit m'' src = none ∧
      ∃ x, m''[m.length]? = some (some x) := by
  obtain ⟨m', h1, h2, x, h3⟩ := copy_eq hs hd ho
  have hlt : b < m'.length := (List.getElem?_eq_some_iff.1 h2).1
  have hlt2 : b < m.length := (List.getElem?_eq_some_iff.1 hs.there).1
  refine ⟨m', src, m'.set b none, h1, ?_, ?_, x, ?_⟩
  · unfold quit release; rw [hs.block]; simp only [h2]
  · unfold quit release; rw [hs.block]; simp only [List.getElem?_set_self hlt]
  · rw [List.getElem?_set_ne (by omega), h3]

/-- C02, violated: if there is no memory for the copy, that is reported, and the destination has lost its elements but
not their number: reading them is undefined. -/
theorem C02_copy_no_memory (o : Oracle) (m : Blocks) (dst src : Header) (b : Nat) (hd : Separate m dst b)
    (ho : o src.memorySize = none) :
    ∃ m' dst', copy o m dst src = some (m', dst', .error .outOfMemory) ∧
      ∀ i, i < dst.length → getAt m' dst' i = .ok none := by
  obtain ⟨m1, h1, -, -⟩ := release_separate hd
  refine ⟨m1, { dst with block := none }, ?_, fun i hi => ?_⟩
  · unfold copy; rw [h1]; simp only [allocate, ho]
  · unfold getAt; rw [if_pos hi]; rfl

/-- C02, violated: copying an array that has elements to itself is undefined. -/
theorem C02_copy_to_itself (o : Oracle) (m : Blocks) (src : Header) (b : Nat) (bytes : Bytes) (junk : Nat → Byte)
    (hs : InUse m src b bytes) (hz : 0 < src.length * src.elementSize) (ho : o src.memorySize = some junk) :
    copy o m src src = none := by
  have hlt : b < m.length := (List.getElem?_eq_some_iff.1 hs.there).1
  unfold copy
  rw [hs.block]
  simp only [release, hs.there, allocate, ho, copyBlock]
  rw [if_neg (by omega)]
  simp only [blockOf, Option.bind_some]
  rw [List.getElem?_append_left (by simpa using hlt), List.getElem?_set_self hlt]
  rfl

example : InUse [some [1, 2, 3, 4], some [9]] ⟨some 0, 2, 2, 4, .fit⟩ 0 [1, 2, 3, 4] ∧
    Separate [some [1, 2, 3, 4], some [9]] ⟨some 1, 1, 1, 1, .fit⟩ 0 :=
  ⟨⟨rfl, rfl, by decide, rfl⟩, .inr ⟨1, [9], rfl, by decide, rfl⟩⟩
example : copy (fun _ => some fun _ => 0) [some [1, 2, 3, 4], some [9]] ⟨some 1, 1, 1, 1, .fit⟩ ⟨some 0, 2, 2, 4, .fit⟩ =
    some ([some [1, 2, 3, 4], none, some [1, 2, 3, 4]], ⟨some 0, 2, 2, 4, .fit⟩, .ok ()) := rfl

#print axioms C02_copy_elements
#print axioms C02_copy_is_shared
#print axioms C02_copy_released_twice
#print axioms C02_copy_no_memory
#print axioms C02_copy_to_itself

end DuckLisp.DynArray
