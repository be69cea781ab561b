import Verif.Model.VM.Exec
import Verif.Spec.Lists
import Mathlib.Data.Finset.Card

/-!
# Lemmas about the cycle check
-/

namespace DuckLisp.VM

open DuckLisp DuckLisp.Spec

theorem follow_add (heap : List Obj) (p : Option Ref) (m n : Nat) :
    follow heap p (m + n) = follow heap (follow heap p m) n := by
  induction m generalizing p with
  | zero => simp [follow]
  | succ m ih =>
    rw [show m + 1 + n = (m + n) + 1 by omega]
    cases p with
    | none => cases n <;> simp [follow]
    | some r =>
      simp only [follow]
      split
      · exact ih _
      · cases n <;> simp [follow]

theorem follow_succ (heap : List Obj) (p : Option Ref) (n : Nat) :
    follow heap p (n + 1) = follow heap (follow heap p n) 1 := follow_add heap p n 1

theorem follow_one (heap : List Obj) (r : Ref) (h : r < heap.length) :
    nextCons heap r = some (follow heap (some r) 1) := by
  simp only [nextCons, follow]
  rw [List.getElem?_eq_getElem h]
  cases heap[r] <;> rfl

/-- Two equal positions make the list repeat for ever. -/
theorem endless_of_repeat {heap : List Obj} {p : Option Ref} {i d : Nat} (hd : 0 < d)
    (h : follow heap p (i + d) = follow heap p i) (hne : follow heap p i ≠ none) :
    Endless heap p := by
  have key : ∀ k, follow heap p (i + k * d) = follow heap p i := by
    intro k
    induction k with
    | zero => simp
    | succ k ih =>
      rw [show i + (k + 1) * d = (i + d) + k * d by rw [Nat.succ_mul]; omega, follow_add, h,
        ← follow_add, ih]
  intro n hn
  have hbig : n ≤ i + n * d := by
    have : n * 1 ≤ n * d := Nat.mul_le_mul_left n hd
    omega
  have : follow heap p (i + n * d) = none := by
    rw [show i + n * d = n + (i + n * d - n) by omega, follow_add, hn]
    cases i + n * d - n <;> simp [follow]
  rw [key] at this
  exact hne this

/-- In a finite heap an endless list repeats within as many steps as there are cells. -/
theorem endless_repeats {heap : List Obj} {p : Option Ref} (h : Endless heap p)
    (hin : InHeap heap p) : ∃ d, 0 < d ∧ d ≤ heap.length ∧
      ∀ i, heap.length ≤ i → follow heap p (i + d) = follow heap p i := by
  have hsome : ∀ n, ∃ r, follow heap p n = some r := fun n => Option.ne_none_iff_exists'.mp (h n)
  let f : Nat → Nat := fun n => (follow heap p n).getD 0
  have hf : ∀ n, follow heap p n = some (f n) := by
    intro n
    obtain ⟨r, hr⟩ := hsome n
    simp [f, hr]
  obtain ⟨i, hi, j, hj, hij, he⟩ := Finset.exists_ne_map_eq_of_card_lt_of_maps_to
    (s := Finset.range (heap.length + 1)) (t := Finset.range heap.length) (f := f) (by simp)
    (fun n _ => by simp; exact hin n _ (hf n))
  simp at hi hj
  have main : ∀ a b, a < b → b ≤ heap.length → f a = f b → ∃ d, 0 < d ∧ d ≤ heap.length ∧
      ∀ i, heap.length ≤ i → follow heap p (i + d) = follow heap p i := by
    intro a b hab hb hfab
    refine ⟨b - a, by omega, by omega, ?_⟩
    intro i hi
    rw [show i + (b - a) = b + (i - a) by omega, follow_add, hf b, ← hfab, ← hf a, ← follow_add]
    congr 1
    omega
  rcases Nat.lt_or_gt_of_ne hij with h | h
  · exact main i j h (by omega) he
  · exact main j i h (by omega) he.symm

/-- The search ends with the right answer: `slow` at position `p`, `fast` `t` steps further. -/
theorem brent_correct {heap : List Obj} {root : Option Ref} (hin : InHeap heap root) (s : VM)
    (fuel : Nat) : ∀ (p t limit slow fast : Nat),
    follow heap root p = some slow → follow heap root (p + t) = some fast →
    limit = p + 2 → t < limit → p ≤ 2 * heap.length + 2 →
    (∀ j, 0 < j → j ≤ t → follow heap root (p + j) ≠ some slow) →
    3 * heap.length + 4 < fuel + (p + t) →
    ∃ b, brent heap fuel slow fast t limit s = .ok b s ∧ (b = true ↔ Endless heap root) := by
  induction fuel with
  | zero =>
    intro p t limit slow fast hslow hfast hlim ht hp hno hfuel
    exfalso
    -- position too far: the list must be endless or have ended
    have hend : Endless heap root := by
      intro n hn
      -- all positions up to p + t are defined and there are more of them than cells
      by_cases hle : n ≤ p + t
      · have : follow heap root (p + t) = none := by
          rw [show p + t = n + (p + t - n) by omega, follow_add, hn]
          cases p + t - n <;> simp [follow]
        rw [this] at hfast; cases hfast
      · -- a repetition among the first cells
        let f : Nat → Nat := fun n => (follow heap root n).getD 0
        have hf : ∀ n, n ≤ p + t → follow heap root n = some (f n) := by
          intro m hm
          cases hm' : follow heap root m with
          | some r => simp [f, hm']
          | none =>
            exfalso
            have : follow heap root (p + t) = none := by
              rw [show p + t = m + (p + t - m) by omega, follow_add, hm']
              cases p + t - m <;> simp [follow]
            rw [this] at hfast; cases hfast
        obtain ⟨i, hi, j, hj, hij, he⟩ := Finset.exists_ne_map_eq_of_card_lt_of_maps_to
          (s := Finset.range (heap.length + 1)) (t := Finset.range heap.length) (f := f) (by simp)
          (fun n hn => by simp at hn ⊢; exact hin n _ (hf n (by omega)))
        simp at hi hj
        have main : ∀ a b, a < b → b ≤ heap.length → f a = f b → Endless heap root := by
          intro a b hab hb hfab
          refine endless_of_repeat (i := a) (d := b - a) (by omega) ?_ ?_
          · rw [show a + (b - a) = b by omega, hf b (by omega), ← hfab, ← hf a (by omega)]
          · rw [hf a (by omega)]; simp
        rcases Nat.lt_or_gt_of_ne hij with h | h
        · exact main i j h (by omega) he n hn
        · exact main j i h (by omega) he.symm n hn
    obtain ⟨d, hd, hdl, hrep⟩ := endless_repeats hend hin
    by_cases hpN : heap.length ≤ p
    · have : t < d := by
        rcases Nat.lt_or_ge t d with h | h
        · exact h
        · exact absurd ((hrep p hpN).trans hslow) (hno d hd h)
      omega
    · omega
  | succ fuel ih =>
    intro p t limit slow fast hslow hfast hlim ht hp hno hfuel
    have hlt : fast < heap.length := hin _ _ hfast
    rw [brent, follow_one heap fast hlt]
    have hnext : follow heap (some fast) 1 = follow heap root (p + (t + 1)) := by
      rw [← hfast, ← follow_add]; rfl
    rw [hnext]
    cases hn : follow heap root (p + (t + 1)) with
    | none =>
      refine ⟨false, rfl, ?_⟩
      simp only [Bool.false_eq_true, false_iff]
      intro he
      exact he _ hn
    | some next =>
      by_cases hsn : slow = next
      · subst hsn
        refine ⟨true, by simp, ?_⟩
        simp only [true_iff]
        exact endless_of_repeat (i := p) (d := t + 1) (by omega) (hn.trans hslow.symm)
          (by rw [hslow]; simp)
      · have hno' : ∀ j, 0 < j → j ≤ t + 1 → follow heap root (p + j) ≠ some slow := by
          intro j hj hjt
          rcases Nat.lt_or_ge t j with h | h
          · obtain rfl : j = t + 1 := by omega
            rw [hn]
            intro he
            cases he
            exact hsn rfl
          · exact hno j hj h
        by_cases hl : t + 1 = limit
        · simp only [if_neg hsn, if_pos hl]
          refine ih (p + (t + 1)) 0 (limit * 2) next next hn (by simpa using hn) (by omega)
            (by omega) ?_ (by omega) (by omega)
          -- the round was long enough to find a cycle had it started behind it
          by_cases hpN : p < heap.length
          · omega
          · exfalso
            have hend : Endless heap root := by
              intro n hn0
              let f : Nat → Nat := fun n => (follow heap root n).getD 0
              have hf : ∀ n, n ≤ p + t → follow heap root n = some (f n) := by
                intro m hm
                cases hm' : follow heap root m with
                | some r => simp [f, hm']
                | none =>
                  exfalso
                  have : follow heap root (p + t) = none := by
                    rw [show p + t = m + (p + t - m) by omega, follow_add, hm']
                    cases p + t - m <;> simp [follow]
                  rw [this] at hfast; cases hfast
              obtain ⟨i, hi, j, hj, hij, he⟩ := Finset.exists_ne_map_eq_of_card_lt_of_maps_to
                (s := Finset.range (heap.length + 1)) (t := Finset.range heap.length) (f := f)
                (by simp) (fun n hn => by simp at hn ⊢; exact hin n _ (hf n (by omega)))
              simp at hi hj
              have main : ∀ a b, a < b → b ≤ heap.length → f a = f b → Endless heap root := by
                intro a b hab hb hfab
                refine endless_of_repeat (i := a) (d := b - a) (by omega) ?_ ?_
                · rw [show a + (b - a) = b by omega, hf b (by omega), ← hfab, ← hf a (by omega)]
                · rw [hf a (by omega)]; simp
              rcases Nat.lt_or_gt_of_ne hij with h | h
              · exact main i j h (by omega) he n hn0
              · exact main j i h (by omega) he.symm n hn0
            obtain ⟨d, hd, hdl, hrep⟩ := endless_repeats hend hin
            exact hno' d hd (by omega) ((hrep p (by omega)).trans hslow)
        · simp only [if_neg hsn, if_neg hl]
          exact ih p (t + 1) limit slow next hslow hn hlim (by omega) hp hno' (by omega)

theorem listIsCyclic_correct (vm : VM) (p : Option Ref) (hin : InHeap vm.heap p) :
    ∃ b, listIsCyclic p vm = .ok b vm ∧ (b = true ↔ Endless vm.heap p) := by
  cases p with
  | none =>
    refine ⟨false, rfl, ?_⟩
    simp only [Bool.false_eq_true, false_iff]
    intro h
    exact h 0 rfl
  | some r =>
    exact brent_correct hin vm _ 0 0 2 r r rfl rfl rfl (by omega) (by omega) (by omega) (by
      have := hin 0 r rfl
      omega)

/-! ### Counting -/

theorem chain_follow {heap : List Obj} {p t : Option Ref} {cs : List Ref} (h : Chain heap p cs t) :
    ∀ n, (n < cs.length → follow heap p n = cs[n]?) ∧ (n = cs.length → follow heap p n = t) ∧
      (cs.length < n → follow heap p n = none) := by
  induction h with
  | nil =>
    intro n
    cases n <;> simp [follow]
  | @tail r o h ho =>
    intro n
    cases n with
    | zero => simp [follow]
    | succ n =>
      simp only [follow, h, List.length_nil]
      refine ⟨by omega, by omega, fun _ => ?_⟩
      cases o <;> first | rfl | exact absurd rfl (ho _ _)
  | @cons r a d cs t h ht ih =>
    intro n
    cases n with
    | zero => simp [follow]
    | succ n =>
      simp only [follow, h]
      obtain ⟨i1, i2, i3⟩ := ih n
      refine ⟨fun hn => ?_, fun hn => ?_, fun hn => ?_⟩
      · simpa using i1 (by simpa using hn)
      · exact i2 (by simpa using hn)
      · exact i3 (by simpa using hn)

theorem chain_inHeap {heap : List Obj} {p t : Option Ref} {cs : List Ref} (h : Chain heap p cs t) :
    InHeap heap p := by
  induction h with
  | nil => intro n r hr; cases n <;> simp [follow] at hr
  | @tail r o h ho =>
    intro n r' hr
    cases n with
    | zero => simp [follow] at hr; subst hr; exact (List.getElem?_eq_some_iff.mp h).1
    | succ n => simp only [follow, h] at hr; cases o <;> simp at hr; exact absurd rfl (ho _ _)
  | @cons r a d cs t h ht ih =>
    intro n r' hr
    cases n with
    | zero => simp [follow] at hr; subst hr; exact (List.getElem?_eq_some_iff.mp h).1
    | succ n => simp only [follow, h] at hr; exact ih n r' hr

theorem chain_not_endless {heap : List Obj} {p t : Option Ref} {cs : List Ref}
    (h : Chain heap p cs t) : ¬ Endless heap p :=
  fun he => he (cs.length + 1) ((chain_follow h _).2.2 (by omega))

/-- A list that ends is shorter than the heap. -/
theorem chain_length {heap : List Obj} {p t : Option Ref} {cs : List Ref}
    (h : Chain heap p cs t) : cs.length ≤ heap.length := by
  by_contra hgt
  have hin := chain_inHeap h
  have hf := chain_follow h
  obtain ⟨i, hi, j, hj, hij, he⟩ := Finset.exists_ne_map_eq_of_card_lt_of_maps_to
    (s := Finset.range (heap.length + 1)) (t := Finset.range heap.length)
    (f := fun n => (follow heap p n).getD 0) (by simp)
    (fun n hn => by
      simp at hn ⊢
      have := (hf n).1 (by omega)
      rw [List.getElem?_eq_getElem (by omega)] at this
      rw [this]
      exact hin n _ this)
  simp at hi hj
  have hs : ∀ n, n ≤ heap.length → follow heap p n = some ((follow heap p n).getD 0) := by
    intro n hn
    have := (hf n).1 (by omega)
    rw [List.getElem?_eq_getElem (by omega)] at this
    rw [this]; rfl
  have main : ∀ a b, a < b → b ≤ heap.length →
      (follow heap p a).getD 0 = (follow heap p b).getD 0 → False := by
    intro a b hab hb hfab
    refine chain_not_endless h (endless_of_repeat (i := a) (d := b - a) (by omega) ?_ ?_)
    · rw [show a + (b - a) = b by omega, hs b (by omega), ← hfab, ← hs a (by omega)]
    · rw [hs a (by omega)]; simp
  rcases Nat.lt_or_gt_of_ne hij with h' | h'
  · exact main i j h' (by omega) he
  · exact main j i h' (by omega) he.symm

/-- A list inside the heap either never ends or is a chain. -/
theorem chain_of_not_endless {heap : List Obj} {p : Option Ref} (hin : InHeap heap p)
    (h : ¬ Endless heap p) : ∃ cs t, Chain heap p cs t := by
  simp only [Endless, not_forall, not_not] at h
  obtain ⟨n, hn⟩ := h
  induction n generalizing p with
  | zero => simp [follow] at hn; subst hn; exact ⟨[], none, .nil⟩
  | succ n ih =>
    cases p with
    | none => exact ⟨[], none, .nil⟩
    | some r =>
      have hlt := hin 0 r rfl
      have ho := List.getElem?_eq_getElem hlt
      by_cases hc : ∃ a d, heap[r] = .cons a d
      · obtain ⟨a, d, hc⟩ := hc
        rw [hc] at ho
        have hn' : follow heap d n = none := by simpa only [follow, ho] using hn
        obtain ⟨cs, t, hch⟩ := ih (p := d) (fun m r' hr' => hin (m + 1) r' (by
          simp only [follow, ho]; exact hr')) hn'
        exact ⟨r :: cs, t, .cons ho hch⟩
      · exact ⟨[], some r, .tail ho (fun a d h => hc ⟨a, d, h⟩)⟩

theorem countConses_chain {heap : List Obj} {p t : Option Ref} {cs : List Ref} (s : VM)
    (h : Chain heap p cs t) : ∀ fuel, cs.length < fuel →
    countConses heap fuel p s = .ok cs.length s := by
  induction h with
  | nil => intro fuel _; cases fuel <;> rfl
  | @tail r o h ho =>
    intro fuel hf
    cases fuel with
    | zero => omega
    | succ fuel =>
      simp only [countConses, h]
      cases o <;> first | rfl | exact absurd rfl (ho _ _)
  | @cons r a d cs t h ht ih =>
    intro fuel hf
    cases fuel with
    | zero => omega
    | succ fuel =>
      simp only [countConses, h]
      rw [M.bind_ok (ih fuel (by simp at hf; omega))]
      simp [Nat.add_comm]

end DuckLisp.VM
