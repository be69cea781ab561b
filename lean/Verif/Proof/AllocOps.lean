import Verif.Proof.Alloc
import Verif.Spec.Alloc

/-!
# The operations of the allocator keep the blocks in order
-/

namespace DuckLisp.Alloc

open DuckLisp.Spec.Memory (Guarded)

/-- No two neighbouring blocks are free. -/
def Coal : List Seg → Prop
  | a :: b :: r => (a.allocated = true ∨ b.allocated = true) ∧ Coal (b :: r)
  | _ => True

theorem coal_append {l r : List Seg} {g : Seg} :
    Coal (l ++ g :: r) ↔ Coal (l ++ [g]) ∧ Coal (g :: r) := by
  induction l with
  | nil => simp [Coal]
  | cons a l ih =>
    cases l with
    | nil => simp [Coal]
    | cons b l =>
      simp only [List.cons_append, Coal] at ih ⊢
      rw [ih, and_assoc]

theorem Coal.left {l r : List Seg} (h : Coal (l ++ r)) : Coal l := by
  induction l with
  | nil => trivial
  | cons a l ih =>
    cases l with
    | nil => trivial
    | cons b l => exact ⟨h.1, ih h.2⟩

theorem Coal.right {l r : List Seg} (h : Coal (l ++ r)) : Coal r := by
  induction l with
  | nil => exact h
  | cons a l ih =>
    apply ih
    cases hl : l ++ r with
    | nil => trivial
    | cons b x =>
      have h' : Coal (a :: (l ++ r)) := h
      rw [hl] at h'
      exact h'.2

/-- A block that is handed out separates. -/
theorem Coal.between {l r : List Seg} {g : Seg} (hg : g.allocated = true) (hl : Coal l) (hr : Coal r) :
    Coal (l ++ g :: r) := by
  rw [coal_append]
  constructor
  · induction l with
    | nil => trivial
    | cons a l ih =>
      cases l with
      | nil => exact ⟨Or.inr hg, trivial⟩
      | cons b l => exact ⟨hl.1, ih hl.2⟩
  · cases r with
    | nil => trivial
    | cons b r => exact ⟨Or.inl hg, hr⟩

theorem coal_snoc {l : List Seg} {k g : Seg} :
    Coal (l ++ [k, g]) ↔ Coal (l ++ [k]) ∧ (k.allocated = true ∨ g.allocated = true) := by
  rw [coal_append (r := [g])]
  simp [Coal]

/-- Only whether the blocks are handed out matters. -/
theorem coal_congr {l r : List Seg} {g g' : Seg} (hg : g'.allocated = g.allocated)
    (h : Coal (l ++ g :: r)) : Coal (l ++ g' :: r) := by
  induction l with
  | nil =>
    cases r with
    | nil => trivial
    | cons b r => exact ⟨by rw [hg]; exact h.1, h.2⟩
  | cons a l ih =>
    cases l with
    | nil => exact ⟨by rw [hg]; exact h.1, ih h.2⟩
    | cons b l => exact ⟨h.1, ih h.2⟩

/-- The blocks start at multiples of the alignment. -/
def Aligned : Nat → List Seg → Prop
  | _, [] => True
  | off, g :: r => 8 ∣ off ∧ Aligned (off + g.size) r

theorem aligned_append {l r : List Seg} {off : Nat} :
    Aligned off (l ++ r) ↔ Aligned off l ∧ Aligned (off + total l) r := by
  induction l generalizing off with
  | nil => simp [Aligned, total]
  | cons a l ih => simp only [List.cons_append, Aligned, ih, total, Nat.add_assoc, and_assoc]

/-- The blocks that are handed out, with their addresses. -/
def used : Nat → List Seg → List (Nat × Seg)
  | _, [] => []
  | off, g :: r => if g.allocated then (off, g) :: used (off + g.size) r else used (off + g.size) r

theorem used_append {l r : List Seg} {off : Nat} :
    used off (l ++ r) = used off l ++ used (off + total l) r := by
  induction l generalizing off with
  | nil => simp [used, total]
  | cons a l ih =>
    simp only [List.cons_append, used, ih, total, Nat.add_assoc]
    split <;> simp

theorem mem_used {off : Nat} {segs : List Seg} {p : Nat} {g : Seg} :
    (p, g) ∈ used off segs ↔
      g.allocated = true ∧ ∃ l r, segs = l ++ g :: r ∧ p = off + total l := by
  induction segs generalizing off with
  | nil => simp [used]
  | cons a segs ih =>
    have key : (g.allocated = true ∧ ∃ l r, a :: segs = l ++ g :: r ∧ p = off + total l) ↔
        (g.allocated = true ∧ a = g ∧ p = off) ∨
        (g.allocated = true ∧ ∃ l r, segs = l ++ g :: r ∧ p = off + a.size + total l) := by
      constructor
      · rintro ⟨hg, l, r, he, hp⟩
        cases l with
        | nil =>
          simp only [List.nil_append, List.cons.injEq] at he
          exact Or.inl ⟨hg, he.1, by simpa [total] using hp⟩
        | cons b l =>
          simp only [List.cons_append, List.cons.injEq] at he
          refine Or.inr ⟨hg, l, r, he.2, ?_⟩
          rw [hp, he.1]; simp [total]; omega
      · rintro (⟨hg, rfl, rfl⟩ | ⟨hg, l, r, rfl, rfl⟩)
        · exact ⟨hg, [], segs, rfl, by simp [total]⟩
        · exact ⟨hg, a :: l, r, rfl, by simp [total]; omega⟩
    rw [key, used]
    by_cases ha : a.allocated = true
    · rw [if_pos ha, List.mem_cons, ih]
      constructor
      · rintro (h | h)
        · cases h; exact Or.inl ⟨ha, rfl, rfl⟩
        · exact Or.inr h
      · rintro (⟨_, rfl, rfl⟩ | h)
        · exact Or.inl rfl
        · exact Or.inr h
    · rw [if_neg ha, ih]
      constructor
      · exact Or.inr
      · rintro (⟨hg, rfl, _⟩ | h)
        · exact absurd hg ha
        · exact h

/-- The blocks handed out to the caller: all but the table's own. -/
def users (table : Int) (segs : List Seg) : List (Nat × Seg) :=
  (used 0 segs).filter fun x => decide ((x.2.id : Int) ≠ table)

theorem used_ids {off : Nat} {segs : List Seg} {x : Nat × Seg} (h : x ∈ used off segs) :
    x.2.id ∈ segs.map (·.id) := by
  obtain ⟨p, g⟩ := x
  obtain ⟨_, l, r, rfl, _⟩ := mem_used.mp h
  simp

theorem users_eq {l r : List Seg} {g : Seg} (hn : ((l ++ g :: r).map (·.id)).Nodup) :
    users g.id (l ++ g :: r) = used 0 l ++ used (total l + g.size) r := by
  simp only [List.map_append, List.map_cons] at hn
  have h1 := List.nodup_append.mp hn
  have h2 := List.nodup_cons.mp h1.2.1
  have hl : (used 0 l).filter (fun x => decide ((x.2.id : Int) ≠ g.id)) = used 0 l := by
    refine List.filter_eq_self.mpr fun x hx => ?_
    have := used_ids hx
    simp only [decide_eq_true_eq]
    intro hc
    exact h1.2.2 _ this _ (List.mem_cons_self ..) (by omega)
  have hr : ∀ off, (used off r).filter (fun x => decide ((x.2.id : Int) ≠ g.id)) = used off r := by
    intro off
    refine List.filter_eq_self.mpr fun x hx => ?_
    have := used_ids hx
    simp only [decide_eq_true_eq]
    intro hc
    exact h2.1 (by rw [show g.id = x.2.id by omega]; exact this)
  unfold users
  rw [used_append, List.filter_append, hl, used]
  simp only [Nat.zero_add]
  split
  · rw [List.filter_cons, hr]
    simp
  · rw [hr]

/-! ## Room for another entry -/

/-- What no operation changes. -/
structure Frame (s s' : State) : Prop where
  size : s'.size = s.size
  fit : s'.fit = s.fit
  recent : s'.mostRecentBlock = s.mostRecentBlock
  junk : s'.junk = s.junk

theorem Same.frame {s s' : State} (h : Same s s') : Frame s s' := ⟨h.size, h.fit, h.recent, h.junk⟩

theorem Frame.trans {s s' s'' : State} (h : Frame s s') (h' : Frame s' s'') : Frame s s'' :=
  ⟨h'.size.trans h.size, h'.fit.trans h.fit, h'.recent.trans h.recent, h'.junk.trans h.junk⟩

theorem Frame.refl (s : State) : Frame s s := ⟨rfl, rfl, rfl, rfl⟩

theorem grow_ok {s : State} {segs : List Seg} (h : Rep s segs) (left : Nat) :
    ∃ s', growTable left s = .ok () s' ∧ Rep s' segs ∧ s'.table.length = s.table.length + left ∧
      Frame s s' ∧ s'.tableIndex = s.tableIndex ∧ s'.tableOffset = s.tableOffset := by
  refine ⟨_, rfl, ?_, by simp, ⟨rfl, rfl, rfl, rfl⟩, rfl, rfl⟩
  refine ⟨h.chain.congr ?_, h.first, h.nodup, ?_, h.total, h.pos⟩
  · intro g hg
    exact List.getElem?_append_left (h.lt hg)
  · intro i e he
    simp only at he
    rcases Nat.lt_or_ge i s.table.length with hi | hi
    · rw [List.getElem?_append_left hi] at he
      exact h.exact i e he
    · rw [List.getElem?_append_right hi, List.getElem?_map] at he
      have hu : e.unlinked = true := by
        cases hr : (List.range left)[i - s.table.length]? with
        | none => rw [hr] at he; cases he
        | some k =>
          rw [hr] at he
          simp only [Option.map_some, Option.some.injEq] at he
          rw [← he]
      rw [hu]
      constructor
      · intro hc; cases hc
      · intro hc
        obtain ⟨g, hg, rfl⟩ := List.mem_map.mp hc
        have := h.lt hg
        omega

/-- What the table's block has too much becomes a block. -/
theorem trim_ok {s : State} {l r : List Seg} {g : Seg} (h : Rep s (l ++ g :: r))
    (hti : s.tableIndex = g.id) (hl : (l ++ g :: r).length < s.table.length)
    (hs : s.table.length * entrySize ≤ g.size) :
    ∃ s' x, trimTable s = .ok () s' ∧
      Rep s' (l ++ { g with size := s.table.length * entrySize } :: (x ++ r)) ∧ Same s s' ∧
      (x = [] ∧ g.size = s.table.length * entrySize ∨
        ∃ u, x = [⟨u, g.size - s.table.length * entrySize, false⟩]) := by
  have hg := h.at
  have hgl : g.id < s.table.length := h.lt (by simp)
  have hti' : entry s.tableIndex s = .ok (entryOf l g r) s := by rw [hti]; exact entry_ok hg
  unfold trimTable
  rw [bind_ok (show AM.get s = .ok s s from rfl), bind_ok hti']
  have e1 : (entryOf l g r).block = total l := rfl
  have e2 : (entryOf l g r).size = g.size := rfl
  have e3 : (entryOf l g r).nextBlock = headId (-1) r := rfl
  simp only [e1, e2, e3]
  by_cases hbig : g.size > s.table.length * entrySize
  · rw [if_pos hbig]
    obtain ⟨-, u, hu⟩ := h.spare hl
    obtain ⟨eu, heu, huu⟩ := mem_unlinked (Or.inr hu)
    simp only [hu]
    have hul : u < s.table.length := by
      rcases Nat.lt_or_ge u s.table.length with h' | h'
      · exact h'
      · rw [List.getElem?_eq_none h'] at heu; cases heu
    have hnot : u ∉ (l ++ g :: r).map (·.id) := by
      intro hc
      have := (h.exact u eu heu).mpr hc
      rw [huu] at this
      cases this
    have hugne : g.id ≠ u := fun hc => hnot (by simp [hc])
    generalize hidx : s.table.length * entrySize = idx at *
    have h0 : 0 < idx := by rw [← hidx]; unfold entrySize; omega
    obtain ⟨t1, r1, u1⟩ := update_run (s := s) (i := u)
      (f := fun e => { e with block := total l + idx }) hul
    obtain ⟨t2, r2, u2⟩ := update_run (s := { s with table := t1 }) (i := u)
      (f := fun e => { e with size := g.size - idx }) (by show _ < t1.length; rw [u1.1]; exact hul)
    have w2 := u1.trans u2
    obtain ⟨t3, r3, u3⟩ := update_run (s := { s with table := t2 }) (i := g.id)
      (f := fun e => { e with size := idx }) (by show _ < t2.length; rw [w2.1]; exact hgl)
    have w3 := w2.trans u3
    obtain ⟨t4, r4, u4⟩ := update_run (s := { s with table := t3 }) (i := u)
      (f := fun e => { e with nextBlock := headId (-1) r }) (by show _ < t3.length; rw [w3.1]; exact hul)
    have w4 := w3.trans u4
    obtain ⟨t5, r5, u5⟩ := relink (s := { s with table := t4 }) (r := r) (v := (u : Int))
      (by intro q hq; show _ < t4.length; rw [w4.1]; exact h.lt (by simp [hq]))
    have w5 := w4.trans u5
    obtain ⟨t6, r6, u6⟩ := update_run (s := { s with table := t5 }) (i := u)
      (f := fun e => { e with previousBlock := (g.id : Int) }) (by show _ < t5.length; rw [w5.1]; exact hul)
    have w6 := w5.trans u6
    obtain ⟨t7, r7, u7⟩ := update_run (s := { s with table := t6 }) (i := g.id)
      (f := fun e => { e with nextBlock := (u : Int) }) (by show _ < t6.length; rw [w6.1]; exact hgl)
    have w7 := w6.trans u7
    obtain ⟨t8, r8, u8⟩ := update_run (s := { s with table := t7 }) (i := u)
      (f := fun e => { e with unlinked := false }) (by show _ < t7.length; rw [w7.1]; exact hul)
    have w8 := w7.trans u8
    obtain ⟨t9, r9, u9⟩ := update_run (s := { s with table := t8 }) (i := u)
      (f := fun e => { e with allocated := false }) (by show _ < t8.length; rw [w8.1]; exact hul)
    have w9 := w8.trans u9
    have hhu : ¬ headId (-1) r = (u : Int) := by
      cases r with
      | nil => simp
      | cons q' r => exact fun hc => hnot (by simp at hc ⊢; omega)
    have hhg : ¬ headId (-1) r = (g.id : Int) := by
      cases r with
      | nil => simp
      | cons q' r => exact fun hc => h.ids.2 (by simp at hc ⊢; omega)
    refine ⟨{ s with table := t9 }, [⟨u, g.size - idx, false⟩], ?_,
      splitRep h heu huu h0 hbig w9 ?_ ?_ ?_, ⟨rfl, rfl, rfl, rfl, rfl, rfl, w9.1⟩, Or.inr ⟨u, rfl⟩⟩
    · simp only [hti]
      rw [bind_ok r1, bind_ok r2, bind_ok r3, bind_ok r4, bind_ok r5, bind_ok r6, bind_ok r7,
        bind_ok r8, r9]
      simp only [hti]
    · simp [only, hugne.symm, hhu]
    · simp [only, hugne, hhg]
    · intro j e hj hjg
      simp [only, hj, hjg]
  · rw [if_neg hbig]
    have : g.size = s.table.length * entrySize := by omega
    refine ⟨s, [], rfl, ?_, Same.refl s, Or.inl ⟨rfl, this⟩⟩
    rw [← this]
    simpa using h

/-- The table is in order: the blocks tile the memory, one of them holds the table. -/
structure Inv (s : State) (segs : List Seg) : Prop where
  rep : Rep s segs
  aligned : Aligned 0 segs
  table : ∃ l g r, segs = l ++ g :: r ∧ s.tableIndex = g.id ∧ g.allocated = true ∧
    g.size = s.table.length * entrySize ∧ s.tableOffset = total l

/-- The last part of `dl_memory_reserveTableEntries`. -/
def finish (left : Nat) : AM Unit := do
  growTable left
  trimTable
  let s ← AM.get
  update s.tableIndex fun e => { e with allocated := true }

theorem finish_ok {s : State} {l r : List Seg} {g : Seg} {left : Nat} (h : Rep s (l ++ g :: r))
    (ha : Aligned 0 (l ++ g :: r)) (hti : s.tableIndex = g.id) (hto : s.tableOffset = total l)
    (hs : (s.table.length + left) * entrySize ≤ g.size)
    (hl : (l ++ g :: r).length + 2 ≤ s.table.length + left) :
    ∃ s' x, finish left s = .ok () s' ∧
      Inv s' (l ++ { g with size := (s.table.length + left) * entrySize, allocated := true } ::
        (x ++ r)) ∧ Frame s s' ∧ s'.tableIndex = g.id ∧
      (l ++ { g with size := (s.table.length + left) * entrySize, allocated := true } ::
        (x ++ r)).length < s'.table.length ∧
      total x = g.size - (s.table.length + left) * entrySize ∧
      (x = [] ∨ ∃ u n, x = [⟨u, n, false⟩]) := by
  obtain ⟨s1, r1, h1, l1, f1, i1, o1⟩ := grow_ok h left
  obtain ⟨s2, x, r2, h2, m2, hx⟩ := trim_ok h1 (by rw [i1, hti]) (by omega) (by rw [l1]; exact hs)
  rw [l1] at h2 hx
  obtain ⟨s3, r3, h3, m3⟩ := mark_ok h2 true
  have hsx : total x = g.size - (s.table.length + left) * entrySize := by
    rcases hx with ⟨rfl, he⟩ | ⟨u, rfl⟩
    · simp [total]; omega
    · simp [total]
  have hlen : s3.table.length = s.table.length + left := by rw [m3.length, m2.length, l1]
  have hidx : s3.tableIndex = g.id := by rw [m3.index, m2.index, i1, hti]
  refine ⟨s3, x, ?_, ⟨h3, ?_, l, _, x ++ r, rfl, hidx, rfl, ?_, ?_⟩,
    f1.trans (m2.frame.trans m3.frame), hidx, ?_, hsx, ?_⟩
  · unfold finish
    rw [bind_ok r1, bind_ok r2, bind_ok (show AM.get s2 = .ok s2 s2 from rfl)]
    have : s2.tableIndex = ({ g with size := (s.table.length + left) * entrySize } : Seg).id := by
      rw [m2.index, i1, hti]
    rw [this]
    exact r3
  · rw [aligned_append] at ha ⊢
    refine ⟨ha.1, ha.2.1, ?_⟩
    have h40 : 8 ∣ (s.table.length + left) * entrySize := by
      unfold entrySize; omega
    have ha0 : 8 ∣ 0 + total l := ha.2.1
    rcases hx with ⟨rfl, he⟩ | ⟨u, rfl⟩
    · have := ha.2.2
      rw [he] at this
      exact this
    · refine ⟨Nat.dvd_add ha0 h40, ?_⟩
      have := ha.2.2
      have he : 0 + total l + (s.table.length + left) * entrySize +
          (g.size - (s.table.length + left) * entrySize) = 0 + total l + g.size := by omega
      show Aligned (0 + total l + (s.table.length + left) * entrySize +
          (g.size - (s.table.length + left) * entrySize)) r
      rw [he]
      exact this
  · rw [hlen]
  · rw [m3.offset, m2.offset, o1, hto]
  · rw [hlen]
    have : x.length ≤ 1 := by rcases hx with ⟨rfl, _⟩ | ⟨u, rfl⟩ <;> simp
    simp only [List.length_append, List.length_cons] at hl ⊢
    omega
  · rcases hx with ⟨rfl, _⟩ | ⟨u, rfl⟩
    · exact Or.inl rfl
    · exact Or.inr ⟨u, _, rfl⟩

/-- What `dl_memory_reserveTableEntries` guarantees when it succeeds. -/
structure Reserved (s : State) (segs : List Seg) (s' : State) (segs' : List Seg) : Prop where
  inv : Inv s' segs'
  spare : segs'.length < s'.table.length
  users : users s'.tableIndex segs' = users s.tableIndex segs
  coal : Coal segs → Coal segs'
  frame : Frame s s'

/-- The end of reserving, from the free block chosen for the table. -/
theorem finish_reserved {s0 s : State} {segs l r : List Seg} {g : Seg} {left : Nat}
    (h : Rep s (l ++ g :: r)) (ha : Aligned 0 (l ++ g :: r)) (hgf : g.allocated = false)
    (hti : s.tableIndex = g.id) (hto : s.tableOffset = total l)
    (hs : (s.table.length + left) * entrySize ≤ g.size)
    (hl : (l ++ g :: r).length + 2 ≤ s.table.length + left)
    (hu : used 0 (l ++ g :: r) = Alloc.users s0.tableIndex segs)
    (hc : Coal segs → Coal l ∧ Coal (g :: r)) (hf : Frame s0 s) :
    ∃ s' segs', finish left s = .ok () s' ∧ Reserved s0 segs s' segs' := by
  obtain ⟨s', x, hr, hi, hfr, hidx, hsp, htx, hx⟩ := finish_ok h ha hti hto hs hl
  refine ⟨s', _, hr, hi, hsp, ?_, ?_, hf.trans hfr⟩
  · rw [hidx, ← hu]
    have := users_eq hi.rep.nodup
    simp only at this
    rw [this]
    have hux : ∀ off, used off x = [] := by
      intro off
      rcases hx with rfl | ⟨u, n, rfl⟩ <;> rfl
    simp only [used_append, used, hgf, hux, List.nil_append, Nat.zero_add, Bool.false_eq_true,
      if_false]
    congr 2
    omega
  · intro hcs
    obtain ⟨h1, h2⟩ := hc hcs
    refine Coal.between rfl h1 ?_
    rcases hx with rfl | ⟨u, n, rfl⟩
    · exact Coal.right (l := [g]) h2
    · exact coal_congr (l := []) (g := g) (by simp [hgf]) h2

/-- Merging a free block with what follows. -/
theorem mergeAfter_any {s : State} {l r : List Seg} {g : Seg} (h : Rep s (l ++ g :: r))
    (hgf : g.allocated = false) :
    ∃ s' m y r', mergeBlockAfter (g.id : Int) s = .ok m s' ∧
      Rep s' (l ++ { g with size := g.size + y } :: r') ∧ Same s s' ∧
      r.length = r'.length + (if m then 1 else 0) ∧ (m = false → s' = s ∧ r' = r ∧ y = 0) ∧
      used 0 (l ++ { g with size := g.size + y } :: r') = used 0 (l ++ g :: r) ∧
      (Aligned 0 (l ++ g :: r) → Aligned 0 (l ++ { g with size := g.size + y } :: r')) ∧
      (Coal r → Coal ({ g with size := g.size + y } :: r')) := by
  by_cases hk : ∃ k r', r = k :: r' ∧ k.allocated = false
  · obtain ⟨k, r', rfl, hk⟩ := hk
    obtain ⟨s', hr, hrep, hsame, -⟩ := mergeAfter_ok h hk
    refine ⟨s', true, k.size, r', hr, hrep, hsame, by simp, by simp, ?_, ?_, ?_⟩
    · simp [used_append, used, hgf, hk, Nat.add_assoc]
    · simp only [aligned_append, Aligned, Nat.add_assoc]
      rintro ⟨h1, h2, h3, h4⟩
      exact ⟨h1, h2, h4⟩
    · intro hc
      exact coal_congr (l := []) (g := k) (by simp [hgf, hk]) hc
  · refine ⟨s, false, 0, r, mergeAfter_no h ?_, by simpa using h, Same.refl s, by simp, by simp, by simp,
      by simp, ?_⟩
    · intro k r' hr
      cases hka : k.allocated with
      | true => rfl
      | false => exact absurd ⟨k, r', hr, hka⟩ hk
    · intro hc
      cases r with
      | nil => trivial
      | cons k r =>
        refine ⟨Or.inr ?_, hc⟩
        cases hka : k.allocated with
        | true => rfl
        | false => exact absurd ⟨k, r, rfl, hka⟩ hk

/-- Merging a free block with what comes before. -/
theorem mergeBefore_any {s : State} {l r : List Seg} {g : Seg} (h : Rep s (l ++ g :: r))
    (hgf : g.allocated = false) :
    ∃ s' m y l', mergeBlockBefore (g.id : Int) s = .ok m s' ∧
      Rep s' (l' ++ { g with size := g.size + y } :: r) ∧ Same s s' ∧
      l.length = l'.length + (if m then 1 else 0) ∧ (m = false → s' = s ∧ l' = l ∧ y = 0) ∧
      total l = total l' + y ∧
      used 0 (l' ++ { g with size := g.size + y } :: r) = used 0 (l ++ g :: r) ∧
      (Aligned 0 (l ++ g :: r) → Aligned 0 (l' ++ { g with size := g.size + y } :: r)) ∧
      (Coal l → Coal (l' ++ [{ g with size := g.size + y }])) := by
  by_cases hk : ∃ k l', l = l' ++ [k] ∧ k.allocated = false
  · obtain ⟨k, l', rfl, hk⟩ := hk
    have h' : Rep s (l' ++ k :: g :: r) := by simpa using h
    obtain ⟨s', hr, hrep, hsame⟩ := mergeBefore_ok h' hk
    refine ⟨s', true, k.size, l', hr, hrep, hsame, by simp, by simp, by simp [total], ?_, ?_, ?_⟩
    · simp [used_append, used, hgf, hk, total, Nat.add_assoc, Nat.add_comm, Nat.add_left_comm]
    · simp only [aligned_append, Aligned, total_append, total, Nat.add_assoc]
      rintro ⟨⟨h1, h2⟩, h3, h4⟩
      refine ⟨h1, h2.1, ?_⟩
      have : 0 + (total l' + (g.size + k.size)) = 0 + (total l' + (k.size + (0 + g.size))) := by omega
      rw [this]
      exact h4
    · intro hc
      exact coal_congr (g := k) (by simp [hgf, hk]) hc
  · refine ⟨s, false, 0, l, mergeBefore_no h ?_, by simpa using h, Same.refl s, by simp, by simp, by simp,
      by simp, by simp, ?_⟩
    · intro k l' hl
      cases hka : k.allocated with
      | true => rfl
      | false => exact absurd ⟨k, l', hl, hka⟩ hk
    · intro hc
      rcases List.eq_nil_or_concat l with rfl | ⟨l', k, rfl⟩
      · trivial
      · rw [List.concat_eq_append] at hc ⊢
        rw [List.append_assoc]
        exact coal_snoc.mpr ⟨hc, Or.inl (by
          cases hka : k.allocated with
          | true => rfl
          | false => exact absurd ⟨k, l', by simp, hka⟩ hk)⟩

theorem finish_bind (left : Nat) (s : State) :
    (do growTable left
        trimTable
        let s ← AM.get
        update s.tableIndex fun e => { e with allocated := true } : AM Unit) s = finish left s := rfl

/-- Reserving an entry: it fails for want of memory, leaves the table, or succeeds. -/
theorem reserve_ok {s : State} {segs : List Seg} (h : Inv s segs) (hfit : s.fit ≠ .next) :
    reserveTableEntries 1 s = .undefined ∨
      (∃ s', reserveTableEntries 1 s = .error .outOfMemory s' ∧ ¬ Guarded s') ∨
      ∃ s' segs', reserveTableEntries 1 s = .ok () s' ∧ Reserved s segs s' segs' := by
  obtain ⟨l, g, r, rfl, hti, hga, hgs, hto⟩ := h.table
  have hun := h.rep.unlinked
  unfold reserveTableEntries
  rw [bind_ok (show AM.get s = .ok s s from rfl)]
  by_cases hsp : 1 > unlinkedEntries s.table
  case neg =>
    simp only [hsp, if_false, ne_eq, not_true_eq_false]
    refine Or.inr (Or.inr ⟨s, _, rfl, h, by omega, rfl, id, Frame.refl s⟩)
  rw [if_pos hsp, if_pos (by omega)]
  have hu0 : unlinkedEntries s.table = 0 := by omega
  simp only [hu0]
  have hlen : (l ++ g :: r).length = s.table.length := by omega
  obtain ⟨s1, r1, h1, m1⟩ := mark_ok h.rep false
  rw [hti, bind_ok r1, bind_ok (entry_ok (show s1.table[g.id]? = _ from h1.at))]
  have en : (entryOf l { g with allocated := false } r).nextBlock = headId (-1) r := rfl
  rw [en]
  cases r with
  | nil =>
    left
    simp only [headId_nil]
    rw [bind_undefined (show entry (-1) s1 = .undefined by simp [entry])]
  | cons k r =>
    simp only [headId_cons]
    have hk1 : Rep s1 ((l ++ [{ g with allocated := false }]) ++ k :: r) := by simpa using h1
    rw [bind_ok (entry_ok hk1.at)]
    obtain ⟨s2, m, y, r', r2, h2, m2, hrl, hm, hu2, ha2, hc2⟩ := mergeAfter_any h1 rfl
    rw [bind_ok r2]
    have hal1 : Aligned 0 (l ++ { g with allocated := false } :: (k :: r)) := by
      have := h.aligned
      simp only [aligned_append, Aligned] at this ⊢
      exact this
    have hal2 := ha2 hal1
    have hus : used 0 (l ++ { g with allocated := false } :: (k :: r)) =
        Alloc.users s.tableIndex (l ++ g :: k :: r) := by
      rw [hti, users_eq h.rep.nodup]
      simp [used_append, used]
    rw [hus] at hu2
    have hlen2 : s2.table.length = s.table.length := by rw [m2.length, m1.length]
    have hti2 : s2.tableIndex = g.id := by rw [m2.index, m1.index, hti]
    have hto2 : s2.tableOffset = total l := by rw [m2.offset, m1.offset, hto]
    have hf2 : Frame s s2 := m1.frame.trans m2.frame
    have hco : Coal (l ++ g :: k :: r) → Coal l ∧
        Coal (({ g with allocated := false, size := g.size + y } : Seg) :: r') := by
      intro hc
      exact ⟨hc.left, hc2 (Coal.right (l := [g]) hc.right)⟩
    simp only [List.length_append, List.length_cons] at hlen hrl
    have e2 := h2.at
    have hent2 : entry s2.tableIndex s2 =
        .ok (entryOf l { g with allocated := false, size := g.size + y } r') s2 := by
      rw [hti2]; exact entry_ok e2
    have es : (entryOf l { g with allocated := false, size := g.size + y } r').size = g.size + y := rfl
    unfold makeRoom
    by_cases hfitsm : g.size + y < (s2.table.length + 1) * entrySize
    · -- the table moves
      obtain ⟨s3, m', z, l', r3, h3, m3, hll, hm', htot, hu3, ha3, hc3⟩ := mergeBefore_any h2 rfl
      have hal3 := ha3 hal2
      have hlen3 : s3.table.length = s.table.length := by rw [m3.length, hlen2]
      have hf3 : Frame s s3 := hf2.trans m3.frame
      rw [hu2] at hu3
      obtain ⟨left, hleft⟩ : ∃ left, left = (if m' then (if (if m then 1 - 0 + 1 - 1 else 1 - 0 + 1) > 1
        then (if m then 1 - 0 + 1 - 1 else 1 - 0 + 1) - 1 else 0)
        else (if m then 1 - 0 + 1 - 1 else 1 - 0 + 1)) := ⟨_, rfl⟩
      have hroom : ∀ β (f : Nat → AM β), ((do
          let s ← AM.get
          let t ← entry s.tableIndex
          if t.size < (s.table.length + (1 - 0)) * entrySize then moveTable (1 - 0) m
          else pure (1 - 0) : AM Nat) >>= f) s2 =
          match pick ((s3.table.length + left) * entrySize)
            (l' ++ { g with allocated := false, size := g.size + y + z } :: r') with
          | some q => (do
              let b ← entry (q.id : Int)
              AM.modify fun s => { s with tableOffset := b.block, tableIndex := (q.id : Int) }
              f left : AM β) s3
          | none => .error .outOfMemory s3 := by
        intro β f
        have hmove : (do
          let s ← AM.get
          let t ← entry s.tableIndex
          if t.size < (s.table.length + (1 - 0)) * entrySize then moveTable (1 - 0) m
          else pure (1 - 0) : AM Nat) s2 = moveTable (1 - 0) m s2 := by
          rw [bind_ok (show AM.get s2 = .ok s2 s2 from rfl), bind_ok hent2, es, if_pos hfitsm]
        have hmv : moveTable (1 - 0) m s2 = (do
            let newBlock ← findBlock ((s3.table.length + left) * entrySize) s3.fit
            let b ← entry newBlock
            AM.modify fun s => { s with tableOffset := b.block, tableIndex := newBlock }
            pure left : AM Nat) s3 := by
          unfold moveTable
          rw [bind_ok (show AM.get s2 = .ok s2 s2 from rfl), hti2, bind_ok r3,
            bind_ok (show AM.get s3 = .ok s3 s3 from rfl), hleft]
        rw [bind_eq, hmove, hmv, bind_eq]
        rw [findBlock_ok h3 (by rw [hf3.fit]; exact hfit)]
        cases hpk : pick ((s3.table.length + left) * entrySize)
            (l' ++ { g with allocated := false, size := g.size + y + z } :: r') with
        | none => rfl
        | some q =>
          simp only
          obtain ⟨L, R, hseg, hqf, hqs⟩ := pick_some hpk
          rw [hseg] at h3
          rw [bind_ok (entry_ok h3.at), bind_ok (entry_ok h3.at)]
          rfl
      rw [hroom]
      cases hpk : pick ((s3.table.length + left) * entrySize)
          (l' ++ { g with allocated := false, size := g.size + y + z } :: r') with
      | none =>
        refine Or.inr (Or.inl ⟨s3, rfl, ?_⟩)
        rintro ⟨e, -, he, hea⟩
        have hi3 : s3.tableIndex.toNat = g.id := by rw [m3.index, hti2]; rfl
        rw [hi3, show s3.table[g.id]? = _ from h3.at] at he
        cases he
        cases hea
      | some q =>
        simp only
        obtain ⟨L, R, hseg, hqf, hqs⟩ := pick_some hpk
        have hcall : Coal (l ++ g :: k :: r) → Coal (L ++ q :: R) := by
          intro hc
          rw [← hseg, coal_append]
          exact ⟨hc3 (hco hc).1, coal_congr (l := []) (g := { g with allocated := false, size := g.size + y })
            rfl (hco hc).2⟩
        have hlen4 : (L ++ q :: R).length + 2 ≤ s3.table.length + left := by
          rw [← hseg, hlen3]
          simp only [List.length_append, List.length_cons]
          revert hleft hll hrl
          cases m <;> cases m' <;> simp <;> intros <;> omega
        rw [hseg] at h3 hal3 hu3
        rw [bind_ok (entry_ok h3.at)]
        rw [bind_ok (show AM.modify (fun s => { s with
          tableOffset := (entryOf L q R).block, tableIndex := (q.id : Int) }) s3 =
          .ok () { s3 with tableOffset := total L, tableIndex := (q.id : Int) } from rfl), finish_bind]
        obtain ⟨s', segs', hr, hres⟩ := finish_reserved (s0 := s) (segs := l ++ g :: k :: r)
          (s := { s3 with tableOffset := total L, tableIndex := (q.id : Int) }) (left := left)
          ⟨h3.chain, h3.first, h3.nodup, h3.exact, h3.total, h3.pos⟩ hal3 hqf rfl rfl hqs hlen4 hu3
          (fun hc => ⟨(hcall hc).left, (hcall hc).right⟩) ⟨hf3.size, hf3.fit, hf3.recent, hf3.junk⟩
        exact Or.inr (Or.inr ⟨s', segs', hr, hres⟩)
    · -- the table grows in place
      have hmt : m = true := by
        cases m with
        | true => rfl
        | false =>
          have := (hm rfl).2.2
          rw [hlen2, hgs] at hfitsm
          unfold entrySize at hfitsm
          omega
      subst hmt
      have hroom : (do
          let s ← AM.get
          let t ← entry s.tableIndex
          if t.size < (s.table.length + (1 - 0)) * entrySize then moveTable (1 - 0) true
          else pure (1 - 0) : AM Nat) s2 = .ok 1 s2 := by
        rw [bind_ok (show AM.get s2 = .ok s2 s2 from rfl), bind_ok hent2, es, if_neg hfitsm]
        rfl
      rw [bind_ok hroom, finish_bind]
      obtain ⟨s', segs', hr, hres⟩ := finish_reserved (s0 := s) (segs := l ++ g :: k :: r) (left := 1)
        h2 hal2 rfl hti2 hto2 (by show _ ≤ g.size + y; omega)
        (by
          simp only [if_true] at hrl
          simp only [List.length_append, List.length_cons]
          omega)
        hu2 hco hf2
      exact Or.inr (Or.inr ⟨s', segs', hr, hres⟩)

/-! ## Allocating -/

/-- Cutting a free block to size. -/
theorem cut_ok {s : State} {l r : List Seg} {g : Seg} {n : Nat} (h : Rep s (l ++ g :: r))
    (ha : Aligned 0 (l ++ g :: r)) (hl : (l ++ g :: r).length < s.table.length) (h0 : 0 < n)
    (h8 : 8 ∣ n) (hn : n ≤ g.size) :
    ∃ s' x, cut (g.id : Int) n s = .ok () s' ∧
      Rep s' (l ++ { g with size := n } :: (x ++ r)) ∧ Same s s' ∧
      Aligned 0 (l ++ { g with size := n } :: (x ++ r)) ∧
      n + total x = g.size ∧ (x = [] ∨ ∃ u m, x = [⟨u, m, false⟩]) := by
  unfold cut
  rw [bind_ok (entry_ok h.at)]
  have e2 : (entryOf l g r).size = g.size := rfl
  rw [e2]
  by_cases he : g.size ≠ n
  · rw [if_pos he]
    obtain ⟨s', u, hr, hrep, hs⟩ := splitBlock_ok h hl h0 (by omega)
    refine ⟨s', [⟨u, g.size - n, false⟩], hr, hrep, hs, ?_, by simp [total]; omega, Or.inr ⟨u, _, rfl⟩⟩
    rw [aligned_append] at ha ⊢
    refine ⟨ha.1, ha.2.1, Nat.dvd_add ha.2.1 h8, ?_⟩
    have := ha.2.2
    have hsum : 0 + total l + n + (g.size - n) = 0 + total l + g.size := by omega
    show Aligned (0 + total l + n + (g.size - n)) r
    rw [hsum]
    exact this
  · rw [if_neg he]
    have he : g.size = n := by omega
    refine ⟨s, [], rfl, ?_, Same.refl s, ?_, by simp [total, he], Or.inl rfl⟩
    · rw [← he]; exact h
    · rw [← he]; exact ha

theorem rounded_spec {n : Nat} (h : n < 2 ^ 64 - 8) : n < rounded n ∧ 8 ∣ rounded n := by
  unfold rounded alignment
  have : n + (8 - n % 8) < 2 ^ 64 := by omega
  rw [Nat.mod_eq_of_lt this]
  omega

/-- The size rounded up is the next multiple of eight above it. -/
theorem rounded_eq {n : Nat} (h : n < 2 ^ 64 - 8) : rounded n = (n / 8 + 1) * 8 := by
  unfold rounded alignment
  have : n + (8 - n % 8) < 2 ^ 64 := by omega
  rw [Nat.mod_eq_of_lt this]
  omega

/-- The table's block is not a free one. -/
theorem Inv.free_ne {s : State} {l r : List Seg} {g : Seg} (h : Inv s (l ++ g :: r))
    (hg : g.allocated = false) : s.tableIndex ≠ g.id := by
  intro hc
  obtain ⟨l', t, r', he, hti, hta, -, -⟩ := h.table
  have ht : t ∈ l ++ g :: r := by rw [he]; simp
  have hid : t.id = g.id := by omega
  have h1 := h.rep.at
  have h2 : Rep s (l' ++ t :: r') := by rw [← he]; exact h.rep
  have h2 := h2.at
  rw [hid, h1] at h2
  simp only [Option.some.injEq, entryOf, Entry.mk.injEq] at h2
  rw [hg, hta] at h2
  simp at h2

/-- Where the table's block is with respect to another block. -/
theorem Inv.split {s : State} {l r : List Seg} {g : Seg} (h : Inv s (l ++ g :: r))
    (hg : s.tableIndex ≠ g.id) :
    (∃ a t b, l = a ++ t :: b ∧ s.tableIndex = t.id ∧ t.allocated = true ∧
      t.size = s.table.length * entrySize ∧ s.tableOffset = total a) ∨
    ∃ a t b, r = a ++ t :: b ∧ s.tableIndex = t.id ∧ t.allocated = true ∧
      t.size = s.table.length * entrySize ∧ s.tableOffset = total (l ++ g :: a) := by
  obtain ⟨l', t, r', he, hti, hta, hts, hto⟩ := h.table
  rcases List.append_eq_append_iff.mp he with ⟨x, hx, hr⟩ | ⟨x, hx, hl⟩
  · cases x with
    | nil =>
      simp only [List.nil_append, List.cons.injEq] at hr
      rw [hti, hr.1] at hg
      exact absurd rfl hg
    | cons y x =>
      simp only [List.cons_append, List.cons.injEq] at hr
      refine Or.inr ⟨x, t, r', hr.2, hti, hta, hts, ?_⟩
      rw [hto, hx, hr.1]
  · cases x with
    | nil =>
      simp only [List.nil_append, List.cons.injEq] at hl
      rw [hti, ← hl.1] at hg
      exact absurd rfl hg
    | cons y x =>
      simp only [List.cons_append, List.cons.injEq] at hl
      obtain ⟨rfl, hl⟩ := hl
      exact Or.inl ⟨l', t, x, hx, hti, hta, hts, hto⟩

/-- Replacing a block other than the table's by blocks of the same total size keeps the table in
order. -/
theorem Inv.replaced {s s' : State} {l r m : List Seg} {g : Seg} (h : Inv s (l ++ g :: r))
    (hg : s.tableIndex ≠ g.id) (hs : Same s s') (hr : Rep s' (l ++ m ++ r))
    (ha : Aligned 0 (l ++ m ++ r)) (ht : total m = g.size) : Inv s' (l ++ m ++ r) := by
  refine ⟨hr, ha, ?_⟩
  rcases h.split hg with ⟨a, t, b, rfl, hti, hta, hts, hto⟩ | ⟨a, t, b, rfl, hti, hta, hts, hto⟩
  · exact ⟨a, t, b ++ m ++ r, by simp, by rw [hs.index, hti], hta, by rw [hs.length, hts],
      by rw [hs.offset, hto]⟩
  · refine ⟨l ++ m ++ a, t, b, by simp, by rw [hs.index, hti], hta, by rw [hs.length, hts], ?_⟩
    rw [hs.offset, hto]
    simp [total, ht]

theorem users_append {t : Int} {l r : List Seg} :
    users t (l ++ r) = users t l ++
      (used (total l) r).filter fun x => decide ((x.2.id : Int) ≠ t) := by
  unfold users
  rw [used_append, List.filter_append, Nat.zero_add]

/-- What `dl_malloc` does: it fails for want of memory, leaves the table, or hands out a new block. -/
theorem malloc_ok {s : State} {segs : List Seg} (h : Inv s segs) (hfit : s.fit ≠ .next) {n : Nat}
    (hn : n ≠ 0) (hb : n < 2 ^ 64 - 8) :
    malloc n s = .undefined ∨
      (∃ s', malloc n s = .error .outOfMemory s' ∧
        (¬ Guarded s' ∨ ∃ segs', Reserved s segs s' segs' ∧ pick (rounded n) segs' = none)) ∨
      ∃ p s' segs' a g b, malloc n s = .ok p s' ∧ Inv s' segs' ∧ g.size = rounded n ∧
        g.allocated = true ∧ users s.tableIndex segs = a ++ b ∧
        users s'.tableIndex segs' = a ++ (p, g) :: b ∧ (Coal segs → Coal segs') ∧ Frame s s' := by
  obtain ⟨hr0, hr8⟩ := rounded_spec hb
  unfold malloc
  rw [if_neg hn]
  rcases reserve_ok h hfit with hu | ⟨s1, he, hg⟩ | ⟨s1, segs1, hr1, hres⟩
  · exact Or.inl (bind_undefined hu)
  · exact Or.inr (Or.inl ⟨s1, bind_error he, Or.inl hg⟩)
  · rw [bind_ok hr1, bind_ok (show AM.get s1 = .ok s1 s1 from rfl)]
    have hfb := findBlock_ok (size := rounded n) (fit := s1.fit) hres.inv.rep
      (by rw [hres.frame.fit]; exact hfit)
    cases hpk : pick (rounded n) segs1 with
    | none =>
      rw [hpk] at hfb
      exact Or.inr (Or.inl ⟨s1, bind_error hfb, Or.inr ⟨segs1, hres, hpk⟩⟩)
    | some q =>
      rw [hpk] at hfb
      obtain ⟨l, r, rfl, hqf, hqs⟩ := pick_some hpk
      obtain ⟨s2, x, r2, h2, m2, ha2, hx, hxs⟩ := cut_ok hres.inv.rep hres.inv.aligned hres.spare
        (by omega) hr8 hqs
      obtain ⟨s3, r3, h3, m3⟩ := mark_ok h2 true
      have hne := hres.inv.free_ne hqf
      have hinv : Inv s3 (l ++ { q with size := rounded n, allocated := true } :: (x ++ r)) := by
        have := Inv.replaced (m := { q with size := rounded n, allocated := true } :: x) hres.inv hne
          (m2.trans m3) (by simpa using h3)
          (by simpa [aligned_append, Aligned] using ha2)
          (by simp only [total]; exact hx)
        simpa using this
      refine Or.inr (Or.inr ⟨total l, s3, _, users s1.tableIndex l,
        { q with size := rounded n, allocated := true },
        (used (total l + q.size) r).filter (fun x => decide ((x.2.id : Int) ≠ s1.tableIndex)),
        ?_, hinv, rfl, rfl, ?_, ?_, ?_, hres.frame.trans (m2.frame.trans m3.frame)⟩)
      · rw [bind_ok hfb, bind_ok r2, bind_ok r3, bind_ok (entry_ok (show s3.table[q.id]? = _ from h3.at))]
        rfl
      · rw [← hres.users, users_append]
        simp [used, hqf]
      · have hux : ∀ off, used off x = [] := by
          intro off
          rcases hxs with rfl | ⟨u, m, rfl⟩ <;> rfl
        have hidx : s3.tableIndex = s1.tableIndex := by rw [m3.index, m2.index]
        have hne' : ¬ (q.id : Int) = s1.tableIndex := fun hc => hne hc.symm
        rw [users_append, hidx]
        simp only [used, used_append, hux, if_true, List.nil_append]
        rw [List.filter_cons]
        have hsum : total l + rounded n + total x = total l + q.size := by omega
        simp only [ne_eq, hne', not_false_eq_true, decide_true, if_true, hsum]
      · intro hc
        have hc1 := hres.coal hc
        refine Coal.between rfl hc1.left ?_
        rcases hxs with rfl | ⟨u, m, rfl⟩
        · exact Coal.right (l := [q]) hc1.right
        · exact coal_congr (l := []) (g := q) (by simp [hqf]) hc1.right

/-! ## Releasing -/

/-- The table's block is among the blocks handed out. -/
theorem inv_iff {s : State} {segs : List Seg} :
    Inv s segs ↔ Rep s segs ∧ Aligned 0 segs ∧ ∃ t, (s.tableOffset, t) ∈ used 0 segs ∧
      s.tableIndex = t.id ∧ t.size = s.table.length * entrySize := by
  constructor
  · rintro ⟨h1, h2, l, g, r, rfl, h4, h5, h6, h7⟩
    exact ⟨h1, h2, g, mem_used.mpr ⟨h5, l, r, rfl, by omega⟩, h4, h6⟩
  · rintro ⟨h1, h2, t, h3, h4, h5⟩
    obtain ⟨h6, l, r, rfl, h7⟩ := mem_used.mp h3
    exact ⟨h1, h2, l, t, r, rfl, h4, h6, h5, by omega⟩

/-- Marking a block as free and merging it with its neighbours. -/
theorem merge_ok {s : State} {l r : List Seg} {g : Seg} (h : Rep s (l ++ g :: r))
    (ha : Aligned 0 (l ++ g :: r)) (hgf : g.allocated = false) :
    ∃ s' segs', mergeBlocks (g.id : Int) s = .ok () s' ∧ Rep s' segs' ∧ Aligned 0 segs' ∧ Same s s' ∧
      used 0 segs' = used 0 (l ++ g :: r) ∧ (Coal l → Coal r → Coal segs') := by
  obtain ⟨s2, m, y, r', r2, h2, m2, -, -, hu2, ha2, hc2⟩ := mergeAfter_any h hgf
  obtain ⟨s3, m', z, l', r3, h3, m3, -, -, -, hu3, ha3, hc3⟩ := mergeBefore_any h2 hgf
  refine ⟨s3, _, ?_, h3, ha3 (ha2 ha), m2.trans m3, by rw [hu3, hu2], ?_⟩
  · unfold mergeBlocks
    rw [bind_ok r2, bind_ok r3]
    rfl
  · intro hl hr
    rw [coal_append]
    exact ⟨hc3 hl, coal_congr (l := []) (g := { g with size := g.size + y }) rfl (hc2 hr)⟩

/-- Releasing what is not the start of a block handed out. -/
theorem free_no {s : State} {segs : List Seg} {p : Nat} (h : Inv s segs)
    (hp : ∀ g, (p, g) ∉ used 0 segs) : free (some p) s = .error .danglingPointer s := by
  unfold free
  simp only
  by_cases hs : ∃ l g r, segs = l ++ g :: r ∧ total l = p
  · obtain ⟨l, g, r, rfl, rfl⟩ := hs
    rw [bind_ok (pointer_ok h.rep), bind_ok (entry_ok h.rep.at)]
    have : (entryOf l g r).allocated = false := by
      cases hg : g.allocated with
      | false => exact hg
      | true => exact absurd (mem_used.mpr ⟨hg, l, r, rfl, by omega⟩) (hp g)
    rw [if_pos this]
    rfl
  · rw [bind_error (pointer_no h.rep fun l g r he ht => hs ⟨l, g, r, he, ht⟩)]

/-- Releasing a block handed out. -/
theorem free_ok {s : State} {segs : List Seg} {p : Nat} {g : Seg} (h : Inv s segs)
    (hp : (p, g) ∈ used 0 segs) (hne : s.tableIndex ≠ g.id) :
    (free (some p) s = .undefined ∧ p + g.size = s.size) ∨
      ∃ s' segs' a b, free (some p) s = .ok () s' ∧ Inv s' segs' ∧ used 0 segs = a ++ (p, g) :: b ∧
        used 0 segs' = a ++ b ∧ (Coal segs → Coal segs') ∧ Same s s' ∧ p + g.size < s.size := by
  obtain ⟨hga, l, r, rfl, rfl⟩ := mem_used.mp hp
  simp only [Nat.zero_add] at *
  unfold free
  simp only
  rw [bind_ok (pointer_ok h.rep), bind_ok (entry_ok h.rep.at)]
  have hall : ¬ (entryOf l g r).allocated = false := by
    show ¬ g.allocated = false
    rw [hga]; simp
  rw [if_neg hall]
  obtain ⟨s1, r1, h1, m1⟩ := mark_ok h.rep false
  rw [bind_ok r1]
  have en : (entryOf l g r).nextBlock = headId (-1) r := rfl
  rw [en]
  cases r with
  | nil =>
    left
    simp only [headId_nil]
    rw [bind_undefined (show entry (-1) s1 = .undefined by simp [entry])]
    have := h.rep.total
    simp only [total_append, total] at this
    exact ⟨rfl, by omega⟩
  | cons k r =>
    simp only [headId_cons]
    have hk1 : Rep s1 ((l ++ [{ g with allocated := false }]) ++ k :: r) := by simpa using h1
    rw [bind_ok (entry_ok hk1.at)]
    have hal1 : Aligned 0 (l ++ { g with allocated := false } :: (k :: r)) := by
      have := h.aligned
      simp only [aligned_append, Aligned] at this ⊢
      exact this
    obtain ⟨s2, segs2, r2, h2, ha2, m2, hu2, hc2⟩ := merge_ok h1 hal1 rfl
    have hu : used 0 (l ++ g :: k :: r) =
        used 0 l ++ (total l, g) :: used (total l + g.size) (k :: r) := by
      rw [used_append]
      simp only [Nat.zero_add]
      congr 1
      rw [used.eq_2, if_pos hga]
    have hu' : used 0 segs2 = used 0 l ++ used (total l + g.size) (k :: r) := by
      rw [hu2, used_append]
      simp only [Nat.zero_add]
      congr 1
    refine Or.inr ⟨s2, segs2, _, _, r2, ?_, hu, hu', ?_, m1.trans m2, ?_⟩
    · rw [inv_iff]
      obtain ⟨-, -, t, ht, hti, hts⟩ := inv_iff.mp h
      refine ⟨h2, ha2, t, ?_, by rw [(m1.trans m2).index, hti], by rw [(m1.trans m2).length, hts]⟩
      rw [(m1.trans m2).offset, hu']
      rw [hu] at ht
      simp only [List.mem_append, List.mem_cons] at ht ⊢
      rcases ht with ht | ht | ht
      · exact Or.inl ht
      · simp only [Prod.mk.injEq] at ht
        rw [hti, ht.2] at hne
        exact absurd rfl hne
      · exact Or.inr ht
    · intro hc
      exact hc2 hc.left (Coal.right (l := [g]) hc.right)
    · have h1 := h.rep.total
      have h2 := h.rep.pos k (by simp)
      simp only [total_append, total] at h1
      omega

/-! ## Changing the size -/

theorem mem_used_mid {off : Nat} {l r : List Seg} {g : Seg} (hg : g.allocated = true) {x : Nat × Seg} :
    x ∈ used off (l ++ g :: r) ↔
      x = (off + total l, g) ∨ x ∈ used off (l ++ { g with allocated := false } :: r) := by
  simp only [used_append, used, hg, if_true, List.mem_append, List.mem_cons, Bool.false_eq_true, if_false]
  constructor
  · rintro (h | h | h)
    · exact Or.inr (Or.inl h)
    · exact Or.inl h
    · exact Or.inr (Or.inr h)
  · rintro (h | h | h)
    · exact Or.inr (Or.inl h)
    · exact Or.inl h
    · exact Or.inr (Or.inr h)

theorem mem_users {t : Int} {segs : List Seg} {x : Nat × Seg} :
    x ∈ users t segs ↔ x ∈ used 0 segs ∧ (x.2.id : Int) ≠ t := by
  simp [users]

/-- Blocks handed out start at different addresses. -/
theorem used_start {s : State} {segs : List Seg} (h : Rep s segs) {p : Nat} {g g' : Seg}
    (hg : (p, g) ∈ used 0 segs) (hg' : (p, g') ∈ used 0 segs) : g = g' := by
  obtain ⟨_, l, r, he, hp⟩ := mem_used.mp hg
  obtain ⟨_, l', r', he', hp'⟩ := mem_used.mp hg'
  rw [he] at he'
  exact (start_unique he' (by rw [← he]; exact h.pos) (by omega)).2.1

/-- Another block handed out is untouched when one of them is marked as free. -/
theorem used_other {s : State} {l r : List Seg} {g : Seg} (h : Rep s (l ++ g :: r))
    {x : Nat × Seg} (hx : x ∈ used 0 (l ++ { g with allocated := false } :: r)) :
    x.1 ≠ total l := by
  obtain ⟨q, y⟩ := x
  obtain ⟨hy, a, b, he, hq⟩ := mem_used.mp hx
  intro hc
  simp only at hc
  have := start_unique he.symm (l := a) (g := y) (r := b) (by
    rw [← he]
    intro k hk
    simp only [List.mem_append, List.mem_cons] at hk
    rcases hk with hk | rfl | hk
    · exact h.pos k (by simp [hk])
    · exact h.pos g (by simp)
    · exact h.pos k (by simp [hk])) (by omega)
  rw [this.2.1] at hy
  cases hy

/-- Handing out a part of a free block. -/
theorem free_start {s : State} {l r : List Seg} {q : Seg} (h : Rep s (l ++ q :: r))
    (hqf : q.allocated = false) {y : Nat × Seg} {t : Int} (hy : y ∈ users t (l ++ q :: r)) :
    y.1 ≠ total l := by
  refine used_other h ?_
  have : ({ q with allocated := false } : Seg) = q := by cases q; simp_all
  rw [this]
  exact (mem_users.mp hy).1

theorem place_ok {s : State} {l r : List Seg} {q : Seg} {n : Nat} (h : Inv s (l ++ q :: r))
    (hqf : q.allocated = false) (hsp : (l ++ q :: r).length < s.table.length) (h0 : 0 < n) (h8 : 8 ∣ n)
    (hn : n ≤ q.size) :
    ∃ s2 s3 x, cut (q.id : Int) n s = .ok () s2 ∧
      Rep s2 (l ++ { q with size := n } :: (x ++ r)) ∧
      update (q.id : Int) (fun e => { e with allocated := true }) s2 = .ok () s3 ∧
      Inv s3 (l ++ { q with size := n, allocated := true } :: (x ++ r)) ∧ Same s s2 ∧ Same s2 s3 ∧
      ∀ y, y ∈ users s.tableIndex (l ++ { q with size := n, allocated := true } :: (x ++ r)) ↔
        y = (total l, { q with size := n, allocated := true }) ∨
          y ∈ users s.tableIndex (l ++ q :: r) := by
  obtain ⟨s2, x, r2, h2, m2, ha2, hx, hxs⟩ := cut_ok h.rep h.aligned hsp h0 h8 hn
  obtain ⟨s3, r3, h3, m3⟩ := mark_ok h2 true
  have hne := h.free_ne hqf
  refine ⟨s2, s3, x, r2, h2, r3, ?_, m2, m3, ?_⟩
  · have := Inv.replaced (m := { q with size := n, allocated := true } :: x) h hne
      (m2.trans m3) (by simpa using h3)
      (by simpa [aligned_append, Aligned] using ha2)
      (by simp only [total]; exact hx)
    simpa using this
  · intro y
    have hux : ∀ off, used off x = [] := by
      intro off
      rcases hxs with rfl | ⟨u, m, rfl⟩ <;> rfl
    have hne' : ¬ (q.id : Int) = s.tableIndex := fun hc => hne hc.symm
    have hsum : total l + n + total x = total l + q.size := by omega
    rw [mem_users, mem_users, mem_used_mid rfl]
    have : used 0 (l ++ { q with size := n, allocated := false } :: (x ++ r)) = used 0 (l ++ q :: r) := by
      simp [used_append, used, hqf, hux, hsum]
    simp only [Nat.zero_add]
    rw [this]
    constructor
    · rintro ⟨h | h, hh⟩
      · exact Or.inl h
      · exact Or.inr ⟨h, hh⟩
    · rintro (h | h)
      · subst h; exact ⟨Or.inl rfl, hne'⟩
      · exact ⟨Or.inr h.1, h.2⟩

theorem realloc_no {s : State} {segs : List Seg} {p n : Nat} (h : Inv s segs) (hn : n ≠ 0)
    (hp : ∀ g, (p, g) ∉ used 0 segs) : realloc (some p) n s = .error .danglingPointer s := by
  unfold realloc
  simp only
  rw [if_neg hn]
  by_cases hs : ∃ l g r, segs = l ++ g :: r ∧ total l = p
  · obtain ⟨l, g, r, rfl, rfl⟩ := hs
    rw [bind_ok (pointer_ok h.rep), bind_ok (entry_ok h.rep.at)]
    have : (entryOf l g r).allocated = false := by
      cases hg : g.allocated with
      | false => exact hg
      | true => exact absurd (mem_used.mpr ⟨hg, l, r, rfl, by omega⟩) (hp g)
    rw [if_pos this]
    rfl
  · rw [bind_error (pointer_no h.rep fun l g r he ht => hs ⟨l, g, r, he, ht⟩)]

/-- The second half of `dl_realloc`, from the reservation of an entry on. -/
def reallocTail (p size : Nat) (current : Int) (fits : Bool) : AM (Nat × Option Copy) := do
  reserveTableEntries 1
  update current fun e => { e with allocated := false }
  let new ← chooseBlock current size fits
  cut new size
  let n ← entry new
  let c ← entry current
  let s ← AM.get
  require (fits || decide (p + min size c.size ≤ s.size))
  update new fun e => { e with allocated := true }
  pure (n.block, if fits then none else some ⟨n.block, p, min size c.size⟩)

/-- What the second half does to the block `c` that is being changed. -/
theorem reallocTail_ok {s : State} {l r : List Seg} {c : Seg} {p size : Nat} {fits : Bool}
    (h : Inv s (l ++ c :: r)) (hfit : s.fit ≠ .next) (hca : c.allocated = true)
    (hne : s.tableIndex ≠ c.id) (h0 : 0 < size) (h8 : 8 ∣ size) (hf : fits = true → size ≤ c.size) :
    reallocTail p size c.id fits s = .undefined ∨
      (∃ s', reallocTail p size c.id fits s = .error .outOfMemory s') ∨
      ∃ q cp s' segs' g, reallocTail p size c.id fits s = .ok (q, cp) s' ∧ Inv s' segs' ∧
        g.size = size ∧ g.allocated = true ∧
        (∀ y, y ∈ users s'.tableIndex segs' ↔ y = (q, g) ∨
          y ∈ users s.tableIndex (l ++ { c with allocated := false } :: r)) ∧
        (∀ y, y ∈ users s.tableIndex (l ++ { c with allocated := false } :: r) → y.1 ≠ q) ∧
        (fits = true → q = total l ∧ cp = none) ∧
        (fits = false → ∃ b, cp = some ⟨q, p, b⟩ ∧ b ≤ size ∧ min size c.size ≤ b) ∧ Frame s s' := by
  unfold reallocTail
  rcases reserve_ok h hfit with hu | ⟨s1, he, -⟩ | ⟨s1, segs1, hr1, hres⟩
  · exact Or.inl (bind_undefined hu)
  · exact Or.inr (Or.inl ⟨s1, bind_error he⟩)
  rw [bind_ok hr1]
  -- the block is still there
  have hc1 : (total l, c) ∈ users s1.tableIndex segs1 := by
    rw [hres.users, mem_users]
    exact ⟨mem_used.mpr ⟨hca, l, r, rfl, by omega⟩, fun hc => hne hc.symm⟩
  obtain ⟨hc1u, hc1t⟩ := mem_users.mp hc1
  obtain ⟨-, L, R, rfl, hL⟩ := mem_used.mp hc1u
  simp only [Nat.zero_add] at hL
  obtain ⟨s2, r2, h2, m2⟩ := mark_ok hres.inv.rep false
  rw [bind_ok r2]
  have hinv2 : Inv s2 (L ++ { c with allocated := false } :: R) := by
    have := Inv.replaced (m := [{ c with allocated := false }]) hres.inv (fun hc => hc1t hc.symm) m2
      (by simpa using h2) (by
        have := hres.inv.aligned
        simp only [aligned_append, Aligned] at this
        simpa [aligned_append, Aligned] using this) (by simp [total])
    simpa using this
  -- the blocks of the others
  have hothers : ∀ y, y ∈ users s2.tableIndex (L ++ { c with allocated := false } :: R) ↔
      y ∈ users s.tableIndex (l ++ { c with allocated := false } :: r) := by
    intro y
    have h1 : y ∈ users s1.tableIndex (L ++ c :: R) ↔ y ∈ users s.tableIndex (l ++ c :: r) := by
      rw [hres.users]
    rw [mem_users, mem_users, mem_used_mid hca, mem_used_mid hca] at h1
    rw [mem_users, mem_users, m2.index]
    simp only [Nat.zero_add] at h1
    constructor
    · rintro ⟨hy, hyt⟩
      obtain ⟨hy' | hy', hyt'⟩ := h1.mp ⟨Or.inr hy, hyt⟩
      · exact absurd (by rw [hy', hL]) (used_other hres.inv.rep hy)
      · exact ⟨hy', hyt'⟩
    · rintro ⟨hy, hyt⟩
      obtain ⟨hy' | hy', hyt'⟩ := h1.mpr ⟨Or.inr hy, hyt⟩
      · exact absurd (by rw [hy', hL]) (used_other h.rep hy)
      · exact ⟨hy', hyt'⟩
  have hsp2 : (L ++ { c with allocated := false } :: R).length < s2.table.length := by
    rw [m2.length]
    have := hres.spare
    simpa using this
  have hfr2 : Frame s s2 := hres.frame.trans m2.frame
  by_cases hft : fits = true
  · subst hft
    have hch : chooseBlock (c.id : Int) size true s2 = .ok (c.id : Int) s2 := by
      unfold chooseBlock
      rw [bind_ok (show AM.get s2 = .ok s2 s2 from rfl)]
      rfl
    obtain ⟨s3, s4, x, r3, h3, r4, hinv4, m3, m4, hus⟩ := place_ok hinv2 rfl hsp2 h0 h8 (hf rfl)
    refine Or.inr (Or.inr ⟨total L, none, s4, _, { c with size := size, allocated := true }, ?_,
      hinv4, rfl, rfl, ?_, fun y hy => free_start hinv2.rep rfl ((hothers y).mpr hy), ?_, by simp,
      hfr2.trans (m3.frame.trans m4.frame)⟩)
    · rw [bind_ok hch, bind_ok r3, bind_ok (entry_ok (show s3.table[c.id]? = _ from h3.at)),
        bind_ok (entry_ok (show s3.table[c.id]? = _ from h3.at)),
        bind_ok (show AM.get s3 = .ok s3 s3 from rfl),
        bind_ok (show require _ s3 = .ok () s3 from by simp [require]), bind_ok r4]
      rfl
    · intro y
      rw [m4.index, m3.index, hus, hothers]
    · intro _
      exact ⟨hL.symm, rfl⟩
  · have hff : fits = false := by cases fits <;> simp_all
    subst hff
    have hfb := findBlock_ok (size := size) (fit := s2.fit) h2 (by rw [hfr2.fit]; exact hfit)
    have hch : chooseBlock (c.id : Int) size false s2 = findBlock size s2.fit s2 := by
      unfold chooseBlock
      rw [bind_ok (show AM.get s2 = .ok s2 s2 from rfl)]
      rfl
    rw [← hch] at hfb
    cases hpk : pick size (L ++ { c with allocated := false } :: R) with
    | none =>
      rw [hpk] at hfb
      exact Or.inr (Or.inl ⟨s2, bind_error hfb⟩)
    | some q =>
      rw [hpk] at hfb
      obtain ⟨l4, r4', hseg, hqf, hqs⟩ := pick_some hpk
      have hothers' := hothers
      rw [hseg] at hinv2 hsp2 hothers'
      obtain ⟨s3, s4, x, r3, h3, r4, hinv4, m3, m4, hus⟩ := place_ok hinv2 hqf hsp2 h0 h8 hqs
      -- the entry of the old block
      have hcur : ∃ ec, s3.table[c.id]? = some ec ∧ min size c.size ≤ ec.size := by
        have hmem : ({ c with allocated := false } : Seg) ∈ l4 ++ q :: r4' := by rw [← hseg]; simp
        simp only [List.mem_append, List.mem_cons] at hmem
        rcases hmem with hmem | hmem | hmem
        · obtain ⟨a, b, rfl⟩ := List.append_of_mem hmem
          have h3' : Rep s3 (a ++ { c with allocated := false } :: (b ++ { q with size := size } :: (x ++ r4'))) := by
            simpa using h3
          exact ⟨_, h3'.at, Nat.min_le_right _ _⟩
        · have hid : c.id = q.id := by rw [← hmem]
          rw [hid]
          exact ⟨_, h3.at, Nat.min_le_left _ _⟩
        · obtain ⟨a, b, rfl⟩ := List.append_of_mem hmem
          have h3' : Rep s3 ((l4 ++ { q with size := size } :: (x ++ a)) ++ { c with allocated := false } :: b) := by
            simpa using h3
          exact ⟨_, h3'.at, Nat.min_le_right _ _⟩
      obtain ⟨ec, hec, hecs⟩ := hcur
      have hrun : (chooseBlock (c.id : Int) size false >>= fun new => do
          cut new size
          let n ← entry new
          let c ← entry (c.id : Int)
          let s ← AM.get
          require (false || decide (p + min size c.size ≤ s.size))
          update new fun e => { e with allocated := true }
          pure (n.block, if false = true then none else some (Copy.mk n.block p (min size c.size))) :
            AM (Nat × Option Copy)) s2 =
          (if p + min size ec.size ≤ s3.size then
            .ok (total l4, some (Copy.mk (total l4) p (min size ec.size))) s4 else .undefined) := by
        rw [bind_ok hfb, bind_ok r3, bind_ok (entry_ok (show s3.table[q.id]? = _ from h3.at)),
          bind_ok (entry_ok hec), bind_ok (show AM.get s3 = .ok s3 s3 from rfl)]
        by_cases hle : p + min size ec.size ≤ s3.size
        · rw [bind_ok (show require _ s3 = .ok () s3 from by simp [require, hle]), bind_ok r4, if_pos hle]
          rfl
        · rw [bind_undefined (show require _ s3 = .undefined from by simp [require, hle, undefined]), if_neg hle]
      rw [hrun]
      by_cases hle : p + min size ec.size ≤ s3.size
      · rw [if_pos hle]
        refine Or.inr (Or.inr ⟨total l4, _, s4, _, { q with size := size, allocated := true }, rfl,
          hinv4, rfl, rfl, ?_, fun y hy => free_start hinv2.rep hqf ((hothers' y).mpr hy), by simp,
          fun _ => ⟨_, rfl, Nat.min_le_left _ _, ?_⟩, hfr2.trans (m3.frame.trans m4.frame)⟩)
        · intro y
          rw [m4.index, m3.index, hus, hothers']
        · exact Nat.le_min.mpr ⟨Nat.min_le_left _ _, hecs⟩
      · rw [if_neg hle]
        exact Or.inl rfl

/-- What `dl_realloc` does to a block handed out. -/
theorem realloc_ok {s : State} {segs : List Seg} {p n : Nat} {g : Seg} (h : Inv s segs)
    (hfit : s.fit ≠ .next) (hp : (p, g) ∈ used 0 segs) (hne : s.tableIndex ≠ g.id) (hn : n ≠ 0)
    (hb : n < 2 ^ 64 - 8) :
    realloc (some p) n s = .undefined ∨
      (∃ s', realloc (some p) n s = .error .outOfMemory s') ∨
      ∃ (q : Nat) (cp : Option Copy) (s' : State) (segs' : List Seg) (g' : Seg) (u : Nat × Seg → Prop),
        realloc (some p) n s = .ok (q, cp) s' ∧ Inv s' segs' ∧
        g'.size = rounded n ∧ g'.allocated = true ∧
        (∀ y, y ∈ users s.tableIndex segs ↔ y = (p, g) ∨ u y) ∧ (∀ y, u y → y.1 ≠ p ∧ y.1 ≠ q) ∧
        (∀ y, y ∈ users s'.tableIndex segs' ↔ y = (q, g') ∨ u y) ∧
        (cp = none ∧ q = p ∨ ∃ b, cp = some ⟨q, p, b⟩ ∧ b ≤ rounded n ∧ g.size ≤ b) ∧ Frame s s' := by
  obtain ⟨hr0, hr8⟩ := rounded_spec hb
  obtain ⟨hga, l, r, rfl, rfl⟩ := mem_used.mp hp
  simp only [Nat.zero_add] at *
  unfold realloc
  simp only
  rw [if_neg hn, bind_ok (pointer_ok h.rep), bind_ok (entry_ok h.rep.at)]
  have hall : ¬ (entryOf l g r).allocated = false := by
    show ¬ g.allocated = false
    rw [hga]; simp
  rw [if_neg hall]
  obtain ⟨s1, r1, h1, m1⟩ := mark_ok h.rep false
  rw [bind_ok r1]
  have en : (entryOf l g r).nextBlock = headId (-1) r := rfl
  rw [en]
  cases r with
  | nil =>
    left
    simp only [headId_nil]
    rw [bind_undefined (show entry (-1) s1 = .undefined by simp [entry])]
  | cons k r =>
    simp only [headId_cons]
    have hk1 : Rep s1 ((l ++ [{ g with allocated := false }]) ++ k :: r) := by simpa using h1
    rw [bind_ok (entry_ok hk1.at)]
    have hal1 : Aligned 0 (l ++ { g with allocated := false } :: (k :: r)) := by
      have := h.aligned
      simp only [aligned_append, Aligned] at this ⊢
      exact this
    obtain ⟨s2, m, y, r', r2, h2, m2, -, -, hu2, ha2, -⟩ := mergeAfter_any h1 rfl
    rw [bind_ok r2, bind_ok (entry_ok (show s2.table[g.id]? = _ from h2.at))]
    -- the others
    have hu0 : ∀ z, z ∈ users s.tableIndex (l ++ g :: k :: r) ↔ z = (total l, g) ∨
        z ∈ users s.tableIndex (l ++ { g with allocated := false } :: (k :: r)) := by
      intro z
      rw [mem_users, mem_users, mem_used_mid hga]
      simp only [Nat.zero_add]
      constructor
      · rintro ⟨hz | hz, hzt⟩
        · exact Or.inl hz
        · exact Or.inr ⟨hz, hzt⟩
      · rintro (hz | hz)
        · subst hz; exact ⟨Or.inl rfl, fun hc => hne hc.symm⟩
        · exact ⟨Or.inr hz.1, hz.2⟩
    have hstart : ∀ z, z ∈ users s.tableIndex (l ++ { g with allocated := false } :: (k :: r)) →
        z.1 ≠ total l := fun z hz => used_other h.rep (mem_users.mp hz).1
    -- after making the block as large as possible
    have key : ∀ (s3 : State) (l' : List Seg) (w : Nat) (fits : Bool),
        Rep s3 (l' ++ { g with allocated := false, size := g.size + y + w } :: r') → Same s s3 →
        Aligned 0 (l' ++ { g with allocated := false, size := g.size + y + w } :: r') →
        used 0 (l' ++ { g with allocated := false, size := g.size + y + w } :: r') =
          used 0 (l ++ { g with allocated := false } :: (k :: r)) →
        (fits = true → rounded n ≤ g.size + y + w ∧ total l' = total l) →
        (fits = false → g.size < rounded n) →
        let x := (do
          update (g.id : Int) fun e => { e with allocated := true }
          reallocTail (total l) (rounded n) g.id fits : AM (Nat × Option Copy)) s3
        x = .undefined ∨ (∃ s', x = .error .outOfMemory s') ∨
        ∃ (q : Nat) (cp : Option Copy) (s' : State) (segs' : List Seg) (g' : Seg) (u : Nat × Seg → Prop),
          x = .ok (q, cp) s' ∧ Inv s' segs' ∧
          g'.size = rounded n ∧ g'.allocated = true ∧
          (∀ y, y ∈ users s.tableIndex (l ++ g :: k :: r) ↔ y = (total l, g) ∨ u y) ∧
          (∀ y, u y → y.1 ≠ total l ∧ y.1 ≠ q) ∧
          (∀ y, y ∈ users s'.tableIndex segs' ↔ y = (q, g') ∨ u y) ∧
          (cp = none ∧ q = total l ∨ ∃ b, cp = some ⟨q, total l, b⟩ ∧ b ≤ rounded n ∧ g.size ≤ b) ∧
          Frame s s' := by
      intro s3 l' w fits h3 m3 ha3 hu3 hft hff
      obtain ⟨s4, r4, h4, m4⟩ := mark_ok h3 true
      have hinv4 : Inv s4 (l' ++ { g with allocated := true, size := g.size + y + w } :: r') := by
        rw [inv_iff]
        obtain ⟨-, -, t, ht, hti, hts⟩ := inv_iff.mp h
        have hm4 := m3.trans m4
        refine ⟨h4, ?_, t, ?_, by rw [hm4.index, hti], by rw [hm4.length, hts]⟩
        · simp only [aligned_append, Aligned] at ha3 ⊢
          exact ha3
        · rw [hm4.offset, mem_used_mid rfl]
          right
          rw [hu3]
          rcases (mem_used_mid hga).mp ht with ht | ht
          · simp only [Prod.mk.injEq] at ht
            rw [hti, ht.2] at hne
            exact absurd rfl hne
          · exact ht
      have htail := reallocTail_ok (p := total l) (fits := fits) hinv4
        (by rw [m4.fit, m3.fit]; exact hfit) rfl (by rw [m4.index, m3.index]; exact hne)
        (by omega : 0 < rounded n) hr8 (fun hf => (hft hf).1)
      simp only
      rw [bind_ok r4]
      rcases htail with ht | ⟨s5, ht⟩ | ⟨q, cp, s5, segs5, g5, ht, hinv5, hs5, hal5, hus5, hnq5, hf1, hf2, hfr5⟩
      · exact Or.inl ht
      · exact Or.inr (Or.inl ⟨s5, ht⟩)
      · refine Or.inr (Or.inr ⟨q, cp, s5, segs5, g5, _, ht, hinv5, hs5, hal5, hu0, ?_, ?_, ?_,
          (m3.trans m4).frame.trans hfr5⟩)
        · intro z hz
          refine ⟨hstart z hz, hnq5 z ?_⟩
          rw [m4.index, m3.index]
          rw [mem_users] at hz ⊢
          rw [show used 0 (l' ++ ({ g with allocated := false, size := g.size + y + w } : Seg) :: r') = _
            from hu3]
          exact hz
        · intro z
          rw [hus5, m4.index, m3.index, mem_users, mem_users]
          rw [show used 0 (l' ++ ({ g with allocated := false, size := g.size + y + w } : Seg) :: r') = _
            from hu3]
        · cases hfits : fits with
          | true =>
            obtain ⟨hq, hcp⟩ := hf1 hfits
            exact Or.inl ⟨hcp, by rw [hq, (hft hfits).2]⟩
          | false =>
            obtain ⟨b, hcp, hb1, hb2⟩ := hf2 hfits
            refine Or.inr ⟨b, hcp, hb1, ?_⟩
            have := hff hfits
            simp only at hb2
            omega
    have es : (entryOf l { g with allocated := false, size := g.size + y } r').size = g.size + y := rfl
    simp only [es]
    cases hfits : decide (g.size + y ≥ rounded n) with
    | true =>
      have hext : extendDown (g.id : Int) true s2 = .ok () s2 := rfl
      rw [bind_ok hext]
      have := key s2 l 0 true (by simpa using h2) (m1.trans m2) (by simpa using ha2 hal1)
        (by simpa using hu2) (fun _ => ⟨by simpa using hfits, rfl⟩) (by simp)
      exact this
    | false =>
      obtain ⟨s3, m', w, l', r3, h3, m3, -, -, -, hu3, ha3, -⟩ := mergeBefore_any h2 rfl
      have hext : extendDown (g.id : Int) false s2 = .ok () s3 := by
        unfold extendDown
        simp only [Bool.false_eq_true, if_false]
        rw [bind_ok (show mergeBlockBefore (g.id : Int) s2 = _ from r3)]
        rfl
      rw [bind_ok hext]
      have := key s3 l' w false h3 ((m1.trans m2).trans m3) (ha3 (ha2 hal1))
        (by rw [hu3, hu2]) (by simp) (fun _ => by
          simp only [ge_iff_le, decide_eq_false_iff_not] at hfits; omega)
      exact this

end DuckLisp.Alloc
