import Verif.Model.Sort
import Verif.Spec.Order

namespace DuckLisp.Sort
open DuckLisp.Spec

variable {α : Type} {cmp : α → α → Int}

theorem thenUse {p q : Prop} (k : p → q) (h : p) : q := k h

/-- `ys` is a rearrangement of `xs` that differs from it only inside `[lo, hi)`. -/
structure Same (xs ys : List α) (lo hi : Nat) : Prop where
  length : ys.length = xs.length
  perm : ys.Perm xs
  out : ∀ i, (i < lo ∨ hi ≤ i) → ys[i]? = xs[i]?

theorem Same.refl (xs : List α) (lo hi : Nat) : Same xs xs lo hi := ⟨rfl, .refl _, fun _ _ => rfl⟩

theorem Same.trans {xs ys zs : List α} {lo hi : Nat} (h : Same xs ys lo hi) (h' : Same ys zs lo hi) :
    Same xs zs lo hi :=
  ⟨h'.length.trans h.length, h'.perm.trans h.perm, fun i hi => (h'.out i hi).trans (h.out i hi)⟩

theorem Same.mono {xs ys : List α} {lo hi lo' hi' : Nat} (h : Same xs ys lo hi) (h1 : lo' ≤ lo)
    (h2 : hi ≤ hi') : Same xs ys lo' hi' :=
  ⟨h.length, h.perm, fun i hi => h.out i (by omega)⟩

theorem Same.take_eq {xs ys : List α} {lo hi : Nat} (h : Same xs ys lo hi) :
    ys.take lo = xs.take lo := by
  apply List.ext_getElem?
  intro i
  simp only [List.getElem?_take]
  split
  · exact h.out i (Or.inl ‹_›)
  · rfl

theorem Same.drop_eq {xs ys : List α} {lo hi : Nat} (h : Same xs ys lo hi) :
    ys.drop hi = xs.drop hi := by
  apply List.ext_getElem?
  intro i
  simp only [List.getElem?_drop]
  exact h.out _ (Or.inr (by omega))

theorem split3 (xs : List α) (lo n : Nat) : xs = xs.take lo ++ (slice xs lo n ++ xs.drop (lo + n)) := by
  unfold slice
  rw [← List.drop_drop, List.take_append_drop, List.take_append_drop]

theorem Same.slice_perm {xs ys : List α} {lo n : Nat} (h : Same xs ys lo (lo + n)) :
    (slice ys lo n).Perm (slice xs lo n) := by
  have hp := h.perm
  rw [split3 xs lo n, split3 ys lo n, h.take_eq, h.drop_eq] at hp
  exact (List.perm_append_right_iff _).1 ((List.perm_append_left_iff _).1 hp)

theorem mem_slice {xs : List α} {lo n : Nat} {a : α} :
    a ∈ slice xs lo n ↔ ∃ i, lo ≤ i ∧ i < lo + n ∧ xs[i]? = some a := by
  unfold slice
  rw [List.mem_iff_getElem?]
  constructor
  · rintro ⟨i, hi⟩
    rw [List.getElem?_take] at hi
    split at hi
    · rw [List.getElem?_drop] at hi
      exact ⟨lo + i, by omega, by omega, hi⟩
    · cases hi
  · rintro ⟨i, h1, h2, h3⟩
    refine ⟨i - lo, ?_⟩
    rw [List.getElem?_take, if_pos (by omega), List.getElem?_drop]
    rw [show lo + (i - lo) = i by omega]
    exact h3

/-- A property of all elements of a range survives a rearrangement inside that range. -/
theorem Same.forall_range {xs ys : List α} {lo hi : Nat} (h : Same xs ys lo hi) (P : α → Prop)
    (hx : ∀ i a, lo ≤ i → i < hi → xs[i]? = some a → P a) :
    ∀ i a, lo ≤ i → i < hi → ys[i]? = some a → P a := by
  intro i a h1 h2 h3
  obtain ⟨n, rfl⟩ : ∃ n, hi = lo + n := ⟨hi - lo, by omega⟩
  have : a ∈ slice xs lo n := h.slice_perm.mem_iff.1 (mem_slice.2 ⟨i, h1, h2, h3⟩)
  obtain ⟨j, j1, j2, j3⟩ := mem_slice.1 this
  exact hx j a j1 j2 j3

theorem swap_ok (xs : List α) (i j : Nat) (hi : i < xs.length) (hj : j < xs.length) :
    ∃ ys, swap xs i j = .ok ys ∧ ys.length = xs.length ∧ ys.Perm xs ∧
      ∀ k, ys[k]? = if k = j then xs[i]? else if k = i then xs[j]? else xs[k]? := by
  refine ⟨(xs.set i xs[j]).set j xs[i], ?_, by simp, List.set_set_perm hi hj, ?_⟩
  · simp [swap, hi, hj]
  · intro k
    by_cases h1 : k = j
    · subst h1
      simp [hj, hi]
    · by_cases h2 : k = i
      · subst h2
        have : j ≠ k := fun e => h1 e.symm
        simp [hj, hi, h1, this]
      · have : j ≠ k := fun e => h1 e.symm
        have h2' : i ≠ k := fun e => h2 e.symm
        simp [h1, h2, this, h2']

theorem swap_same {xs ys : List α} {i j lo hi : Nat} (hl : ys.length = xs.length) (hp : ys.Perm xs)
    (hk : ∀ k, ys[k]? = if k = j then xs[i]? else if k = i then xs[j]? else xs[k]?)
    (h1 : lo ≤ i) (h2 : i < hi) (h3 : lo ≤ j) (h4 : j < hi) : Same xs ys lo hi :=
  ⟨hl, hp, fun k h => by rw [hk, if_neg (by omega), if_neg (by omega)]⟩

theorem rd_ok {xs : List α} {i : Nat} (h : i < xs.length) : rd xs i = .ok xs[i] := by
  simp [rd, h]

/-! ## Order facts -/

theorem cmp_self (H : IsTotalPreorder cmp) (a : α) : cmp a a ≤ 0 := by
  by_cases h : cmp a a > 0
  · have := (H.flip a a).1 h; omega
  · omega

theorem le_of_not_gt (H : IsTotalPreorder cmp) {a b : α} (h : ¬ cmp a b < 0) : cmp b a ≤ 0 := by
  by_cases h' : cmp b a > 0
  · exact absurd ((H.flip b a).1 h') h
  · omega

theorem le_of_gt (H : IsTotalPreorder cmp) {a b : α} (h : cmp a b > 0) : cmp b a ≤ 0 := by
  have := (H.flip a b).1 h; omega

/-- `LE? cmp x y`: both present and in order. -/
def LE? (cmp : α → α → Int) (x y : Option α) : Prop := ∃ a b, x = some a ∧ y = some b ∧ cmp a b ≤ 0

theorem LE?.trans (H : IsTotalPreorder cmp) {x y z : Option α} (h : LE? cmp x y) (h' : LE? cmp y z) :
    LE? cmp x z := by
  obtain ⟨a, b, rfl, rfl, h1⟩ := h
  obtain ⟨b', c, hb, rfl, h2⟩ := h'
  cases hb
  exact ⟨a, c, rfl, rfl, H.trans _ _ _ h1 h2⟩

/-! ## heapsort -/

/-- `pick` chooses the greater of two candidates. -/
theorem pick_ok (H : IsTotalPreorder cmp) (xs : List α) (length idx largest : Nat)
    (hlen : length ≤ xs.length) (hl : largest < length) :
    ∃ r, pick cmp xs length idx largest = .ok r ∧ r < length ∧ (r = largest ∨ r = idx) ∧
      LE? cmp xs[largest]? xs[r]? ∧ (idx < length → LE? cmp xs[idx]? xs[r]?) ∧
      (idx = largest → r = largest) := by
  unfold pick
  have hlx : largest < xs.length := by omega
  have refl : LE? cmp xs[largest]? xs[largest]? :=
    ⟨xs[largest], xs[largest], by simp [hlx], by simp [hlx], cmp_self H _⟩
  by_cases hi : idx < length
  · have hix : idx < xs.length := by omega
    rw [if_pos hi, rd_ok hix, rd_ok hlx]
    simp only [Res.bind_ok]
    by_cases hc : cmp xs[idx] xs[largest] > 0
    · rw [if_pos hc]
      refine ⟨idx, rfl, hi, Or.inr rfl, ?_, fun _ => ?_, ?_⟩
      · exact ⟨xs[largest], xs[idx], by simp [hlx], by simp [hix], le_of_gt H hc⟩
      · exact ⟨xs[idx], xs[idx], by simp [hix], by simp [hix], cmp_self H _⟩
      · rintro rfl; rfl
    · rw [if_neg hc]
      refine ⟨largest, rfl, hl, Or.inl rfl, refl, fun _ => ?_, fun _ => rfl⟩
      exact ⟨xs[idx], xs[largest], by simp [hix], by simp [hlx], by omega⟩
  · rw [if_neg hi]
    exact ⟨largest, rfl, hl, Or.inl rfl, refl, fun h => absurd h hi, fun _ => rfl⟩

/-- Every node `j` whose parent `j/2` is at least `k` is not greater than its parent. -/
def HeapFrom (cmp : α → α → Int) (xs : List α) (length k : Nat) : Prop :=
  ∀ j, 1 ≤ j → j < length → k ≤ j / 2 → LE? cmp xs[j]? xs[j / 2]?

theorem maxHeapify_ok (H : IsTotalPreorder cmp) (length k : Nat) :
    ∀ (fuel : Nat) (xs : List α) (i : Nat), length ≤ xs.length → i < length → k ≤ i →
      length ≤ i + fuel →
      -- heap everywhere but at `i`
      (∀ j, 1 ≤ j → j < length → k ≤ j / 2 → j / 2 ≠ i → LE? cmp xs[j]? xs[j / 2]?) →
      -- children of `i` are not greater than the parent of `i`
      (∀ j, 1 ≤ j → j < length → j / 2 = i → 1 ≤ i → k ≤ i / 2 → LE? cmp xs[j]? xs[i / 2]?) →
      ∃ ys, maxHeapify cmp fuel xs length i = .ok ys ∧ Same xs ys 0 length ∧
        HeapFrom cmp ys length k := by
  intro fuel
  induction fuel with
  | zero => intro xs i h1 h2 h3 h4; omega
  | succ fuel ih =>
    intro xs i hlen hi hk hfuel hheap hgrand
    obtain ⟨r1, e1, b1, c1, l1, m1, s1⟩ := pick_ok H xs length (2 * i) i hlen hi
    obtain ⟨r2, e2, b2, c2, l2, m2, s2⟩ := pick_ok H xs length (2 * i + 1) r1 hlen b1
    simp only [maxHeapify, e1, e2, Res.bind_ok]
    -- `r2` is at least as great as `i` and both children
    have g0 : LE? cmp xs[i]? xs[r2]? := l1.trans H l2
    have gl : 2 * i < length → LE? cmp xs[2 * i]? xs[r2]? := fun h => (m1 h).trans H l2
    have gr : 2 * i + 1 < length → LE? cmp xs[2 * i + 1]? xs[r2]? := m2
    have gch : ∀ j, j < length → j / 2 = i → LE? cmp xs[j]? xs[r2]? := by
      intro j hj hp
      rcases (by omega : j = 2 * i ∨ j = 2 * i + 1) with rfl | rfl
      · exact gl hj
      · exact gr hj
    by_cases hr : r2 = i
    · rw [if_neg (by simpa using hr)]
      refine ⟨xs, rfl, Same.refl _ _ _, ?_⟩
      intro j j1 j2 j3
      by_cases hp : j / 2 = i
      · rw [hp, ← hr]; exact gch j j2 hp
      · exact hheap j j1 j2 j3 hp
    · rw [if_pos (by simpa using hr)]
      -- the new index is a proper child
      have hri : r2 = 2 * i ∨ r2 = 2 * i + 1 := by
        rcases c2 with h | h
        · rcases c1 with h' | h'
          · omega
          · left; omega
        · right; exact h
      have hgt : i < r2 := by
        rcases hri with h | h
        · rcases Nat.eq_zero_or_pos i with h0 | h0
          · subst h0
            exfalso
            have := s1 (by omega)
            rcases c2 with h' | h' <;> omega
          · omega
        · omega
      have hr1 : r2 / 2 = i := by omega
      obtain ⟨ys, es, yl, yp, yk⟩ := swap_ok xs i r2 (by omega) (by omega)
      have hsame : Same xs ys 0 length := swap_same yl yp yk (by omega) hi (by omega) b2
      rw [es]; simp only [Res.bind_ok]
      refine thenUse ?_ (ih ys r2 (by omega) b2 (by omega) (by omega) ?_ ?_)
      · rintro ⟨zs, ez, hz1, hz2⟩
        exact ⟨zs, ez, hsame.trans hz1, hz2⟩
      · intro j j1 j2 j3 j4
        rw [yk j, yk (j / 2), if_neg j4]
        by_cases ha : j = r2
        · subst ha
          rw [if_pos rfl, if_pos hr1]; exact g0
        · rw [if_neg ha]
          by_cases hb : j = i
          · subst hb
            rw [if_pos rfl, if_neg (by omega)]
            -- value of child r2 against the parent of i
            exact hgrand r2 (by omega) b2 hr1 j1 j3
          · rw [if_neg hb]
            by_cases hc : j / 2 = i
            · rw [if_pos hc]; exact gch j j2 hc
            · rw [if_neg hc]; exact hheap j j1 j2 j3 hc
      · intro j j1 j2 j3 j4 j5
        rw [yk j, yk (r2 / 2), hr1, if_neg (by omega), if_neg (by omega), if_neg (by omega), if_pos rfl]
        have := hheap j j1 j2 (by omega) (by omega)
        rwa [j3] at this

theorem heapifyLoop_ok (H : IsTotalPreorder cmp) (fuel length : Nat) (hf : length ≤ fuel) :
    ∀ (i : Nat) (xs : List α), length ≤ xs.length → i < length → HeapFrom cmp xs length (i + 1) →
      ∃ ys, heapifyLoop cmp fuel length i xs = .ok ys ∧ Same xs ys 0 length ∧
        HeapFrom cmp ys length 0 := by
  intro i
  induction i with
  | zero =>
    intro xs hlen hi hh
    exact maxHeapify_ok H length 0 fuel xs 0 hlen hi (by omega) (by omega)
      (fun j j1 j2 j3 j4 => hh j j1 j2 (by omega)) (fun j _ _ _ h => absurd h (by omega))
  | succ i ih =>
    intro xs hlen hi hh
    obtain ⟨ys, ey, sy, hy⟩ := maxHeapify_ok H length (i + 1) fuel xs (i + 1) hlen hi (by omega)
      (by omega) (fun j j1 j2 j3 j4 => hh j j1 j2 (by omega)) (fun j _ _ _ _ h => by omega)
    obtain ⟨zs, ez, sz, hz⟩ := ih ys (by rw [sy.length]; exact hlen) (by omega) hy
    refine ⟨zs, ?_, sy.trans sz, hz⟩
    simp only [heapifyLoop, ey, Res.bind_ok, ez]

/-- In a heap the root is not less than any node. -/
theorem heap_root {xs : List α} {length : Nat} (H : IsTotalPreorder cmp)
    (h : HeapFrom cmp xs length 0) (hlen : length ≤ xs.length) :
    ∀ j, j < length → LE? cmp xs[j]? xs[0]? := by
  intro j
  induction j using Nat.strongRecOn with
  | ind j ih =>
    intro hj
    rcases Nat.eq_zero_or_pos j with rfl | hp
    · have : 0 < xs.length := by omega
      exact ⟨xs[0], xs[0], by simp [this], by simp [this], cmp_self H _⟩
    · exact (h j hp hj (by omega)).trans H (ih (j / 2) (by omega) (by omega))

theorem heapify_ok (H : IsTotalPreorder cmp) (fuel length : Nat) (xs : List α) (h0 : 0 < length)
    (hlen : length ≤ xs.length) (hf : length ≤ fuel) :
    ∃ ys, heapify cmp fuel xs length = .ok ys ∧ Same xs ys 0 length ∧
      ∀ j, j < length → LE? cmp ys[j]? ys[0]? := by
  unfold heapify
  rw [if_neg (by omega)]
  obtain ⟨ys, e, s, h⟩ := heapifyLoop_ok H fuel length hf ((length - 1) / 2) xs hlen (by omega)
    (fun j j1 j2 j3 => by omega)
  exact ⟨ys, e, s, heap_root H h (by rw [s.length]; exact hlen)⟩

theorem heapsortLoop_ok (H : IsTotalPreorder cmp) (fuel n : Nat) (hf : n ≤ fuel) :
    ∀ (e : Nat) (xs : List α), e < n → n ≤ xs.length →
      -- the first `e + 1` elements are not greater than those after, which are in order
      (∀ i j, i ≤ e → e < j → j < n → LE? cmp xs[i]? xs[j]?) →
      (∀ i j, e < i → i < j → j < n → LE? cmp xs[i]? xs[j]?) →
      (∀ j, j < e + 1 → LE? cmp xs[j]? xs[0]?) →
      ∃ ys, heapsortLoop cmp fuel e xs = .ok ys ∧ Same xs ys 0 n ∧
        ∀ i j, i < j → j < n → LE? cmp ys[i]? ys[j]? := by
  intro e
  induction e with
  | zero =>
    intro xs he hlen h1 h2 h3
    refine ⟨xs, rfl, Same.refl _ _ _, ?_⟩
    intro i j hij hj
    rcases Nat.eq_zero_or_pos i with rfl | hp
    · exact h1 0 j (by omega) (by omega) hj
    · exact h2 i j (by omega) hij hj
  | succ e ih =>
    intro xs he hlen h1 h2 h3
    obtain ⟨ys, es, yl, yp, yk⟩ := swap_ok xs 0 (e + 1) (by omega) (by omega)
    obtain ⟨zs, ez, sz, hz⟩ := heapify_ok H fuel (e + 1) ys (by omega) (by omega) (by omega)
    have sxy : Same xs ys 0 (e + 2) := swap_same yl yp yk (by omega) (by omega) (by omega) (by omega)
    have sxz : Same xs zs 0 (e + 2) := sxy.trans (sz.mono (by omega) (by omega))
    -- elements of the range are in bounds
    have inb : ∀ i, i < n → ∃ a, zs[i]? = some a := fun i hi =>
      ⟨zs[i]'(by rw [sz.length, yl]; omega), by simp⟩
    have zout : ∀ j, e + 1 < j → zs[j]? = xs[j]? := fun j hj => sxz.out j (by omega)
    have ztop : zs[e + 1]? = xs[0]? := by
      rw [sz.out (e + 1) (by omega), yk, if_pos rfl]
    refine thenUse ?_ (ih zs (by omega) (by rw [sz.length, yl]; exact hlen) ?_ ?_ hz)
    · rintro ⟨ws, ew, sw, hw⟩
      refine ⟨ws, ?_, (sxz.mono (Nat.le_refl _) (by omega)).trans sw, hw⟩
      simp only [heapsortLoop, es, Res.bind_ok, ez, ew]
    · intro i j hi hj hjn
      obtain ⟨a, ha⟩ := inb i (by omega)
      by_cases hj' : j = e + 1
      · subst hj'
        -- elements below are among the first e + 2 of xs, each not greater than xs[0]
        rw [ztop, ha]
        refine sxz.forall_range (fun a => LE? cmp (some a) xs[0]?) ?_ i a (by omega) (by omega) ha
        intro k b _ hk hb
        rw [← hb]; exact h3 k (by omega)
      · rw [zout j (by omega), ha]
        refine sxz.forall_range (fun a => LE? cmp (some a) xs[j]?) ?_ i a (by omega) (by omega) ha
        intro k b _ hk hb
        rw [← hb]; exact h1 k j (by omega) (by omega) hjn
    · intro i j hi hij hjn
      rw [zout j (by omega)]
      by_cases hi' : i = e + 1
      · subst hi'
        rw [ztop]; exact h1 0 j (by omega) (by omega) hjn
      · rw [zout i (by omega)]; exact h2 i j (by omega) hij hjn

theorem sortedRange_of {xs ys : List α} {lo n : Nat} (hs : Same xs ys lo (lo + n))
    (h : ∀ i j, lo ≤ i → i < j → j < lo + n → LE? cmp ys[i]? ys[j]?) :
    SortedRange cmp xs ys lo n := by
  refine ⟨hs.length, hs.take_eq, hs.drop_eq, hs.slice_perm, ?_⟩
  rw [List.pairwise_iff_getElem]
  intro i j hi hj hij
  have hlj : j < n := by
    unfold slice at hj; simp only [List.length_take] at hj; omega
  obtain ⟨a, b, ha, hb, hc⟩ := h (lo + i) (lo + j) (by omega) (by omega) (by omega)
  have ea : (slice ys lo n)[i]? = some a := by
    unfold slice; rw [List.getElem?_take, if_pos (by omega), List.getElem?_drop, ha]
  have eb : (slice ys lo n)[j]? = some b := by
    unfold slice; rw [List.getElem?_take, if_pos (by omega), List.getElem?_drop, hb]
  rw [List.getElem?_eq_getElem hi] at ea
  rw [List.getElem?_eq_getElem hj] at eb
  cases ea; cases eb
  exact hc

theorem heapsort_ok (H : IsTotalPreorder cmp) (fuel : Nat) (xs : List α) (n : Nat) (h0 : 0 < n)
    (hn : n ≤ xs.length) (hf : n ≤ fuel) :
    ∃ ys, heapsort cmp fuel xs n = .ok ys ∧ SortedRange cmp xs ys 0 n := by
  obtain ⟨ys, e, s, h⟩ := heapify_ok H fuel n xs h0 hn hf
  obtain ⟨zs, ez, sz, hz⟩ := heapsortLoop_ok H fuel n hf (n - 1) ys (by omega)
    (by rw [s.length]; exact hn) (fun i j _ _ _ => by omega) (fun i j _ _ _ => by omega)
    (fun j hj => h j (by omega))
  refine ⟨zs, ?_, sortedRange_of (by simpa using s.trans sz) (fun i j _ h1 h2 => hz i j h1 (by omega))⟩
  simp only [heapsort, e, Res.bind_ok, ez]

/-! ## Quicksort, Lomuto -/

theorem lomutoLoop_ok (H : IsTotalPreorder cmp) (pivot : α) (low high : Nat) :
    ∀ (n : Nat) (xs : List α) (i idx : Nat), i + n = high → high < xs.length → low ≤ idx → idx ≤ i →
      (∀ k a, low ≤ k → k < idx → xs[k]? = some a → cmp a pivot ≤ 0) →
      (∀ k a, idx ≤ k → k < i → xs[k]? = some a → cmp pivot a ≤ 0) →
      ∃ ys idx', lomutoLoop cmp pivot n xs i idx = .ok (ys, idx') ∧ Same xs ys low high ∧
        low ≤ idx' ∧ idx' ≤ high ∧
        (∀ k a, low ≤ k → k < idx' → ys[k]? = some a → cmp a pivot ≤ 0) ∧
        (∀ k a, idx' ≤ k → k < high → ys[k]? = some a → cmp pivot a ≤ 0) := by
  intro n
  induction n with
  | zero =>
    intro xs i idx h1 h2 h3 h4 h5 h6
    obtain rfl : i = high := by omega
    exact ⟨xs, idx, rfl, Same.refl _ _ _, h3, h4, h5, h6⟩
  | succ n ih =>
    intro xs i idx h1 h2 h3 h4 h5 h6
    have hi : i < xs.length := by omega
    simp only [lomutoLoop, rd_ok hi, Res.bind_ok]
    by_cases hc : cmp xs[i] pivot ≤ 0
    · rw [if_pos hc]
      obtain ⟨ys, es, yl, yp, yk⟩ := swap_ok xs idx i (by omega) hi
      rw [es]; simp only [Res.bind_ok]
      have sxy : Same xs ys low high := swap_same yl yp yk (by omega) (by omega) (by omega) (by omega)
      refine thenUse ?_ (ih ys (i + 1) (idx + 1) (by omega) (by omega) (by omega)
        (by omega) ?_ ?_)
      · rintro ⟨zs, idx', ez, sz, r⟩
        exact ⟨zs, idx', ez, sxy.trans sz, r⟩
      · intro k a k1 k2 k3
        rw [yk] at k3
        by_cases hk : k = idx
        · subst hk
          have : xs[i]? = some a := by
            by_cases hki : k = i
            · rw [if_pos hki] at k3; rw [← hki]; exact k3
            · rwa [if_neg hki, if_pos rfl] at k3
          rw [List.getElem?_eq_getElem hi] at this
          cases this; exact hc
        · rw [if_neg (by omega), if_neg hk] at k3
          exact h5 k a k1 (by omega) k3
      · intro k a k1 k2 k3
        rw [yk] at k3
        by_cases hk : k = i
        · rw [if_pos hk] at k3
          exact h6 idx a (by omega) (by omega) k3
        · rw [if_neg hk, if_neg (by omega)] at k3
          exact h6 k a (by omega) (by omega) k3
    · rw [if_neg hc]
      refine ih xs (i + 1) idx (by omega) h2 h3 (by omega) h5 ?_
      intro k a k1 k2 k3
      by_cases hk : k = i
      · subst hk
        rw [List.getElem?_eq_getElem hi] at k3
        cases k3; exact le_of_gt H (by omega)
      · exact h6 k a k1 (by omega) k3

theorem partitionLomuto_ok (H : IsTotalPreorder cmp) (xs : List α) (low high : Nat)
    (h1 : low < high) (h2 : high < xs.length) :
    ∃ ys p v, partitionLomuto cmp xs low high = .ok (ys, p) ∧ Same xs ys low (high + 1) ∧
      low ≤ p ∧ p ≤ high ∧ ys[p]? = some v ∧
      (∀ k a, low ≤ k → k < p → ys[k]? = some a → cmp a v ≤ 0) ∧
      (∀ k a, p < k → k < high + 1 → ys[k]? = some a → cmp v a ≤ 0) := by
  obtain ⟨ys, idx, e, s, b1, b2, l, g⟩ := lomutoLoop_ok H xs[high] low high (high - low) xs low low
    (by omega) h2 (Nat.le_refl _) (Nat.le_refl _) (fun _ _ _ _ => by omega) (fun _ _ _ _ => by omega)
  obtain ⟨zs, es, zl, zp, zk⟩ := swap_ok ys idx high (by rw [s.length]; omega) (by rw [s.length]; omega)
  have hpiv : ys[high]? = some xs[high] := by rw [s.out high (by omega)]; simp [h2]
  refine ⟨zs, idx, xs[high], ?_, (s.mono (Nat.le_refl _) (by omega)).trans
    (swap_same zl zp zk b1 (by omega) (by omega) (by omega)), b1, b2, ?_, ?_, ?_⟩
  · simp only [partitionLomuto, rd_ok h2, Res.bind_ok, e, es]
  · rw [zk]
    by_cases h : idx = high
    · rw [if_pos h, h, hpiv]
    · rw [if_neg h, if_pos rfl, hpiv]
  · intro k a k1 k2 k3
    rw [zk, if_neg (by omega), if_neg (by omega)] at k3
    exact l k a k1 k2 k3
  · intro k a k1 k2 k3
    rw [zk] at k3
    by_cases hk : k = high
    · rw [if_pos hk] at k3
      exact g idx a (Nat.le_refl _) (by omega) k3
    · rw [if_neg hk, if_neg (by omega)] at k3
      exact g k a (by omega) (by omega) k3

/-- Sortedness of `[lo, hi)` in terms of pairs of indices. -/
def SortedOn (cmp : α → α → Int) (xs : List α) (lo hi : Nat) : Prop :=
  ∀ i j, lo ≤ i → i < j → j < hi → LE? cmp xs[i]? xs[j]?

theorem SortedOn.of_eq {xs ys : List α} {lo hi : Nat} (h : SortedOn cmp xs lo hi)
    (e : ∀ i, lo ≤ i → i < hi → ys[i]? = xs[i]?) : SortedOn cmp ys lo hi := by
  intro i j h1 h2 h3
  rw [e i h1 (by omega), e j (by omega) h3]
  exact h i j h1 h2 h3

theorem quicksortLomuto_aux (H : IsTotalPreorder cmp) :
    ∀ (fuel : Nat) (xs : List α) (low high : Int), 0 ≤ low → high < xs.length → high - low < fuel →
      0 < fuel →
      ∃ ys, quicksortLomuto cmp fuel xs low high = .ok ys ∧
        Same xs ys low.toNat (high + 1).toNat ∧ SortedOn cmp ys low.toNat (high + 1).toNat := by
  intro fuel
  induction fuel with
  | zero => intros; omega
  | succ fuel ih =>
    intro xs low high hlo hhi hf _
    unfold quicksortLomuto
    by_cases hc : low ≥ high ∨ low < 0
    · rw [if_pos hc]
      exact ⟨xs, rfl, Same.refl _ _ _, fun i j _ _ _ => by omega⟩
    · rw [if_neg hc]
      obtain ⟨ys, p, v, e, s, b1, b2, hv, hl, hg⟩ :=
        partitionLomuto_ok H xs low.toNat high.toNat (by omega) (by omega)
      rw [e]; simp only [Res.bind_ok]
      obtain ⟨zs, ez, sz, oz⟩ := ih ys low ((p : Int) - 1) hlo (by rw [s.length]; omega) (by omega) (by omega)
      rw [ez]; simp only [Res.bind_ok]
      obtain ⟨ws, ew, sw, ow⟩ := ih zs ((p : Int) + 1) high (by omega)
        (by rw [sz.length, s.length]; omega) (by omega) (by omega)
      refine ⟨ws, ew, ?_, ?_⟩
      · refine Same.trans (s.mono (Nat.le_refl _) (by omega)) ?_
        exact Same.trans (sz.mono (by omega) (by omega)) (sw.mono (by omega) (by omega))
      · -- everything left of p is ≤ v, everything right is ≥ v
        have hp : ws[p]? = some v := by
          rw [sw.out p (by omega), sz.out p (by omega), hv]
        have hL : ∀ i a, low.toNat ≤ i → i < p → ws[i]? = some a → cmp a v ≤ 0 := by
          intro i a i1 i2 i3
          rw [sw.out i (by omega)] at i3
          exact sz.forall_range (fun a => cmp a v ≤ 0)
            (fun k b k1 k2 k3 => hl k b k1 (by omega) k3) i a i1 (by omega) i3
        have hR : ∀ i a, p < i → i < (high + 1).toNat → ws[i]? = some a → cmp v a ≤ 0 := by
          intro i a i1 i2 i3
          refine sw.forall_range (fun a => cmp v a ≤ 0) ?_ i a (by omega) i2 i3
          intro k b k1 k2 k3
          rw [sz.out k (by omega)] at k3
          exact hg k b (by omega) (by omega) k3
        have inb : ∀ i, i < (high + 1).toNat → ∃ a, ws[i]? = some a := fun i hi =>
          ⟨ws[i]'(by rw [sw.length, sz.length, s.length]; omega), by simp⟩
        intro i j h1 h2 h3
        obtain ⟨a, ha⟩ := inb i (by omega)
        obtain ⟨b, hb⟩ := inb j h3
        rcases Nat.lt_trichotomy i p with hip | hip | hip
        · rcases Nat.lt_trichotomy j p with hjp | hjp | hjp
          · rw [sw.out i (by omega), sw.out j (by omega)]
            exact oz i j h1 h2 (by omega)
          · subst hjp
            exact ⟨a, v, ha, hp, hL i a h1 hip ha⟩
          · exact ⟨a, b, ha, hb, H.trans _ _ _ (hL i a h1 hip ha) (hR j b hjp h3 hb)⟩
        · subst hip
          exact ⟨v, b, hp, hb, hR j b h2 h3 hb⟩
        · exact ow i j (by omega) h2 h3

/-! ## Quicksort, Hoare -/

theorem scanUp_ok (H : IsTotalPreorder cmp) (pivot : α) (xs : List α) (m : Nat) (hm : m < xs.length)
    (hs : ¬ cmp xs[m] pivot < 0) : ∀ (n l : Nat), m = l + n →
    ∃ r, scanUp cmp pivot xs l = .ok r ∧ l ≤ r ∧ r ≤ m ∧
      (∀ k a, l ≤ k → k < r → xs[k]? = some a → cmp a pivot ≤ 0) ∧
      (∀ a, xs[r]? = some a → cmp pivot a ≤ 0) := by
  intro n
  induction n with
  | zero =>
    intro l hl
    obtain rfl : m = l := by omega
    unfold scanUp
    rw [dif_pos hm, if_neg hs]
    refine ⟨m, rfl, Nat.le_refl _, Nat.le_refl _, fun k a _ _ => by omega, ?_⟩
    intro a ha
    rw [List.getElem?_eq_getElem hm] at ha
    cases ha; exact le_of_not_gt H hs
  | succ n ih =>
    intro l hl
    unfold scanUp
    have hlx : l < xs.length := by omega
    rw [dif_pos hlx]
    by_cases hc : cmp xs[l] pivot < 0
    · rw [if_pos hc]
      obtain ⟨r, e, r1, r2, r3, r4⟩ := ih (l + 1) (by omega)
      refine ⟨r, e, by omega, r2, ?_, r4⟩
      intro k a k1 k2 k3
      by_cases hk : k = l
      · subst hk
        rw [List.getElem?_eq_getElem hlx] at k3
        cases k3; omega
      · exact r3 k a (by omega) k2 k3
    · rw [if_neg hc]
      refine ⟨l, rfl, Nat.le_refl _, by omega, fun k a _ _ => by omega, ?_⟩
      intro a ha
      rw [List.getElem?_eq_getElem hlx] at ha
      cases ha; exact le_of_not_gt H hc

theorem scanDown_ok (H : IsTotalPreorder cmp) (pivot : α) (xs : List α) (m : Nat) (hm : m < xs.length)
    (hs : ¬ cmp xs[m] pivot > 0) : ∀ (r : Nat), m ≤ r → r < xs.length →
    ∃ r', scanDown cmp pivot xs r = .ok r' ∧ m ≤ r' ∧ r' ≤ r ∧
      (∀ k a, r' < k → k ≤ r → xs[k]? = some a → cmp pivot a ≤ 0) ∧
      (∀ a, xs[r']? = some a → cmp a pivot ≤ 0) := by
  intro r
  induction r with
  | zero =>
    intro h1 h2
    obtain rfl : m = 0 := by omega
    simp only [scanDown, rd_ok h2, Res.bind_ok]
    rw [if_neg hs]
    refine ⟨0, rfl, Nat.le_refl _, Nat.le_refl _, fun k a _ _ => by omega, ?_⟩
    intro a ha
    rw [List.getElem?_eq_getElem hm] at ha
    cases ha; omega
  | succ r ih =>
    intro h1 h2
    simp only [scanDown, rd_ok h2, Res.bind_ok]
    by_cases hc : cmp xs[r + 1] pivot > 0
    · rw [if_pos hc]
      have hmr : m ≠ r + 1 := by rintro rfl; exact hs hc
      obtain ⟨r', e, r1, r2, r3, r4⟩ := ih (by omega) (by omega)
      refine ⟨r', e, r1, by omega, ?_, r4⟩
      intro k a k1 k2 k3
      by_cases hk : k = r + 1
      · subst hk
        rw [List.getElem?_eq_getElem h2] at k3
        cases k3; exact le_of_gt H hc
      · exact r3 k a k1 (by omega) k3
    · rw [if_neg hc]
      refine ⟨r + 1, rfl, h1, Nat.le_refl _, fun k a _ _ => by omega, ?_⟩
      intro a ha
      rw [List.getElem?_eq_getElem h2] at ha
      cases ha; omega

theorem hoareLoop_ok (H : IsTotalPreorder cmp) (pivot : α) (low high : Nat) :
    ∀ (fuel : Nat) (xs : List α) (l r : Nat), high < xs.length → low ≤ l → r ≤ high → low ≤ r →
      l ≤ r + 1 → r + 1 - l < fuel →
      (∀ k a, low ≤ k → k < l → xs[k]? = some a → cmp a pivot ≤ 0) →
      (∀ k a, r < k → k ≤ high → xs[k]? = some a → cmp pivot a ≤ 0) →
      -- the scans are stopped by some element
      (∃ m, l ≤ m ∧ m ≤ high ∧ (r = high → m < high) ∧ ∃ a, xs[m]? = some a ∧ ¬ cmp a pivot < 0) →
      (∃ m, low ≤ m ∧ m ≤ r ∧ ∃ a, xs[m]? = some a ∧ ¬ cmp a pivot > 0) →
      ∃ ys p, hoareLoop cmp pivot fuel xs l r = .ok (ys, p) ∧ Same xs ys low (high + 1) ∧
        low ≤ p ∧ p < high ∧
        (∀ k a, low ≤ k → k ≤ p → ys[k]? = some a → cmp a pivot ≤ 0) ∧
        (∀ k a, p < k → k ≤ high → ys[k]? = some a → cmp pivot a ≤ 0) := by
  intro fuel
  induction fuel with
  | zero => intros; omega
  | succ fuel ih =>
    intro xs l r hh hl hr hlr hlr1 hf hL hR hmu hmd
    obtain ⟨mu, mu1, mu2, mu4, au, mu3, mu5⟩ := hmu
    obtain ⟨md, md1, md2, ad, md3, md4⟩ := hmd
    have hmux : mu < xs.length := by omega
    have hmdx : md < xs.length := by omega
    rw [List.getElem?_eq_getElem hmux] at mu3
    rw [List.getElem?_eq_getElem hmdx] at md3
    cases mu3; cases md3
    obtain ⟨l', el, l1, l2, l3, l4⟩ := scanUp_ok H pivot xs mu hmux mu5 (mu - l) l (by omega)
    obtain ⟨r', er, r1, r2, r3, r4⟩ := scanDown_ok H pivot xs md hmdx md4 r md2 (by omega)
    simp only [hoareLoop, el, er, Res.bind_ok]
    have hL' : ∀ k a, low ≤ k → k < l' → xs[k]? = some a → cmp a pivot ≤ 0 := by
      intro k a k1 k2 k3
      by_cases hk : k < l
      · exact hL k a k1 hk k3
      · exact l3 k a (by omega) k2 k3
    have hR' : ∀ k a, r' < k → k ≤ high → xs[k]? = some a → cmp pivot a ≤ 0 := by
      intro k a k1 k2 k3
      by_cases hk : r < k
      · exact hR k a hk k2 k3
      · exact r3 k a k1 (by omega) k3
    by_cases hc : l' ≥ r'
    · rw [if_pos hc]
      refine ⟨xs, r', rfl, Same.refl _ _ _, by omega, ?_, ?_, hR'⟩
      · by_cases hrh : r = high
        · have := mu4 hrh; omega
        · omega
      · intro k a k1 k2 k3
        by_cases hk : k = r'
        · subst hk; exact r4 a k3
        · exact hL' k a k1 (by omega) k3
    · rw [if_neg hc]
      obtain ⟨ys, es, yl, yp, yk⟩ := swap_ok xs l' r' (by omega) (by omega)
      rw [es]; simp only [Res.bind_ok]
      have sxy : Same xs ys low (high + 1) :=
        swap_same yl yp yk (by omega) (by omega) (by omega) (by omega)
      have hxl : xs[l']? = some (xs[l']'(by omega)) := List.getElem?_eq_getElem _
      have hxr : xs[r']? = some (xs[r']'(by omega)) := List.getElem?_eq_getElem _
      refine thenUse ?_ (ih ys (l' + 1) (r' - 1) (by omega) (by omega) (by omega)
        (by omega) (by omega) (by omega) ?_ ?_ ?_ ?_)
      · rintro ⟨zs, p, ez, sz, rest⟩
        exact ⟨zs, p, ez, sxy.trans sz, rest⟩
      · intro k a k1 k2 k3
        rw [yk, if_neg (by omega)] at k3
        by_cases hk : k = l'
        · rw [if_pos hk] at k3; exact r4 a k3
        · rw [if_neg hk] at k3; exact hL' k a k1 (by omega) k3
      · intro k a k1 k2 k3
        rw [yk] at k3
        by_cases hk : k = r'
        · rw [if_pos hk] at k3; exact l4 a k3
        · rw [if_neg hk, if_neg (by omega)] at k3
          exact hR' k a (by omega) k2 k3
      · refine ⟨r', by omega, by omega, by omega, xs[l']'(by omega), ?_, ?_⟩
        · rw [yk, if_pos rfl, hxl]
        · intro h
          have h1 := l4 _ hxl
          have := (H.flip pivot _).2 h
          omega
      · refine ⟨l', by omega, by omega, xs[r']'(by omega), ?_, ?_⟩
        · rw [yk, if_neg (by omega), if_pos rfl, hxr]
        · intro h
          have h1 := r4 _ hxr
          omega

theorem partitionHoare_ok (H : IsTotalPreorder cmp) (fuel : Nat) (xs : List α) (low high : Nat)
    (h1 : low < high) (h2 : high < xs.length) (hf : high + 1 - low < fuel) :
    ∃ ys p v, partitionHoare cmp fuel xs low high = .ok (ys, p) ∧ Same xs ys low (high + 1) ∧
      low ≤ p ∧ p < high ∧
      (∀ k a, low ≤ k → k ≤ p → ys[k]? = some a → cmp a v ≤ 0) ∧
      (∀ k a, p < k → k ≤ high → ys[k]? = some a → cmp v a ≤ 0) := by
  have hm : (high + low) / 2 < xs.length := by omega
  have hself := cmp_self H xs[(high + low) / 2]
  have hnot : ¬ cmp xs[(high + low) / 2] xs[(high + low) / 2] < 0 := by
    intro h
    have := (H.flip _ _).2 h
    omega
  obtain ⟨ys, p, e, r⟩ := hoareLoop_ok H xs[(high + low) / 2] low high fuel xs low high h2
    (Nat.le_refl _) (Nat.le_refl _) (by omega) (by omega) (by omega)
    (fun k a _ _ => by omega) (fun k a _ _ => by omega)
    ⟨(high + low) / 2, by omega, by omega, by omega, _, List.getElem?_eq_getElem hm, hnot⟩
    ⟨(high + low) / 2, by omega, by omega, _, List.getElem?_eq_getElem hm, by omega⟩
  refine ⟨ys, p, xs[(high + low) / 2], ?_, r⟩
  simp only [partitionHoare, rd_ok hm, Res.bind_ok, e]

theorem quicksortHoare_aux (H : IsTotalPreorder cmp) :
    ∀ (fuel : Nat) (xs : List α) (low high : Int), 0 ≤ low → high < xs.length →
      high - low + 1 < fuel → 0 < fuel →
      ∃ ys, quicksortHoare cmp fuel xs low high = .ok ys ∧
        Same xs ys low.toNat (high + 1).toNat ∧ SortedOn cmp ys low.toNat (high + 1).toNat := by
  intro fuel
  induction fuel with
  | zero => intros; omega
  | succ fuel ih =>
    intro xs low high hlo hhi hf _
    unfold quicksortHoare
    by_cases hc : 0 ≤ low ∧ 0 ≤ high ∧ low < high
    · rw [if_pos hc]
      obtain ⟨ys, p, v, e, s, b1, b2, hl, hg⟩ :=
        partitionHoare_ok H (fuel + 1) xs low.toNat high.toNat (by omega) (by omega) (by omega)
      rw [e]; simp only [Res.bind_ok]
      obtain ⟨zs, ez, sz, oz⟩ := ih ys low (p : Int) hlo (by rw [s.length]; omega) (by omega) (by omega)
      rw [ez]; simp only [Res.bind_ok]
      obtain ⟨ws, ew, sw, ow⟩ := ih zs ((p : Int) + 1) high (by omega)
        (by rw [sz.length, s.length]; omega) (by omega) (by omega)
      refine ⟨ws, ew, ?_, ?_⟩
      · refine Same.trans (s.mono (Nat.le_refl _) (by omega)) ?_
        exact Same.trans (sz.mono (by omega) (by omega)) (sw.mono (by omega) (by omega))
      · have hL : ∀ i a, low.toNat ≤ i → i ≤ p → ws[i]? = some a → cmp a v ≤ 0 := by
          intro i a i1 i2 i3
          rw [sw.out i (by omega)] at i3
          exact sz.forall_range (fun a => cmp a v ≤ 0)
            (fun k b k1 k2 k3 => hl k b k1 (by omega) k3) i a i1 (by omega) i3
        have hR : ∀ i a, p < i → i < (high + 1).toNat → ws[i]? = some a → cmp v a ≤ 0 := by
          intro i a i1 i2 i3
          refine sw.forall_range (fun a => cmp v a ≤ 0) ?_ i a (by omega) i2 i3
          intro k b k1 k2 k3
          rw [sz.out k (by omega)] at k3
          exact hg k b (by omega) (by omega) k3
        have inb : ∀ i, i < (high + 1).toNat → ∃ a, ws[i]? = some a := fun i hi =>
          ⟨ws[i]'(by rw [sw.length, sz.length, s.length]; omega), by simp⟩
        intro i j h1 h2 h3
        obtain ⟨a, ha⟩ := inb i (by omega)
        obtain ⟨b, hb⟩ := inb j h3
        by_cases hip : i ≤ p
        · by_cases hjp : j ≤ p
          · rw [sw.out i (by omega), sw.out j (by omega)]
            exact oz i j h1 h2 (by omega)
          · exact ⟨a, b, ha, hb, H.trans _ _ _ (hL i a h1 hip ha) (hR j b (by omega) h3 hb)⟩
        · exact ow i j (by omega) h2 h3
    · rw [if_neg hc]
      exact ⟨xs, rfl, Same.refl _ _ _, fun i j _ _ _ => by omega⟩

end DuckLisp.Sort
