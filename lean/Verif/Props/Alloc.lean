import Verif.Proof.AllocHistory
import Verif.Spec.Alloc
import Verif.Model.Mem
import Verif.Props.Mem

/-!
# C08: the built-in allocator

`Spec.Memory.History` are the histories of calls: allocating, releasing, changing sizes, in any order
and with any results, as long as sizes can be rounded up in 64 bits, no pointer is the table's own
address and no call left the table's block marked as free.  `C08_success_keeps_the_guard` says that only failing
calls can do that; the theorems at the end show that each of these conditions is needed.
-/

namespace DuckLisp.Props

open DuckLisp.Alloc DuckLisp.Spec.Memory

variable {size : Nat} {fit : Fit} {junk : Nat → Entry} {plain : Bool} {s : State} {live : Live}

/-- **C08, allocations.** Whatever was allocated, released and resized before: every live allocation
lies inside the managed memory, starts at a multiple of eight, does not overlap the allocator's own
table, and no two live allocations overlap.  Missing from the full property: the strategy `next`,
requests near 2^64, and histories in which an allocation has failed in such a way that the table's
block is left marked as free; there the property is false (theorems below). -/
theorem C08_allocations_partial (hfit : fit ≠ .next) (h : History size fit junk plain s live) :
    (∀ p n, (p, n) ∈ live → p + n < size ∧ 8 ∣ p ∧
      Apart p n s.tableOffset (s.table.length * entrySize)) ∧
    s.tableOffset + s.table.length * entrySize ≤ size ∧
    live.Pairwise (fun x y => Apart x.1 x.2 y.1 y.2) := by
  obtain ⟨segs, hg⟩ := history_good hfit h
  have hsize : total segs = size := hg.inv.rep.total.trans hg.bytes
  obtain ⟨-, hal, t, ht, hti, hts⟩ := inv_iff.mp hg.inv
  refine ⟨?_, ?_, ?_⟩
  · intro p n hp
    obtain ⟨g, hu, hgs⟩ := hg.owned p n hp
    have hlt := (rounded_spec (hg.proper p n hp)).1
    have hne := hg.inv.users_ne hu
    have hu := (mem_users.mp hu).1
    have h1 := (used_ge hu).2
    refine ⟨by simp only at h1; omega, ?_, ?_⟩
    · obtain ⟨-, l, r, rfl, rfl⟩ := mem_used.mp hu
      simpa using (aligned_append.mp hal).2.1
    · have := used_apart hu ht (fun hc => hne (by rw [Prod.mk.injEq] at hc; exact hc.1))
      unfold Apart at *
      simp only at this
      omega
  · have := (used_ge ht).2
    simp only at this
    omega
  · have hd := hg.distinct
    rw [List.Nodup, List.pairwise_map] at hd
    refine (hd.imp_of_mem (S := fun x y => Apart x.1 x.2 y.1 y.2)) ?_
    rintro ⟨p, n⟩ ⟨q, m⟩ hp hq hne
    obtain ⟨g, hu, hgs⟩ := hg.owned p n hp
    obtain ⟨g', hu', hgs'⟩ := hg.owned q m hq
    have hl := (rounded_spec (hg.proper p n hp)).1
    have hl' := (rounded_spec (hg.proper q m hq)).1
    have := used_apart (mem_users.mp hu).1 (mem_users.mp hu').1
      (fun hc => hne (by rw [Prod.mk.injEq] at hc; exact hc.1))
    unfold Apart at *
    simp only at this ⊢
    omega

/-- **C08, the table.** The blocks along the links of the table tile the managed memory exactly.  The
blocks marked as handed out are the table's own and those of the live allocations, and these have the
next multiple of eight above the requested size. -/
theorem C08_tiling_partial (hfit : fit ≠ .next) (h : History size fit junk plain s live) :
    Tile 0 (blocks s) size ∧
    (∀ p n, (p, n) ∈ live → ∃ b ∈ blocks s, b.block = p ∧ b.allocated = true ∧ b.size = (n / 8 + 1) * 8) ∧
    (∃ b ∈ blocks s, b.block = s.tableOffset ∧ b.allocated = true ∧ b.size = s.table.length * entrySize) ∧
    (∀ b ∈ blocks s, b.allocated = true → b.block = s.tableOffset ∨ ∃ n, (b.block, n) ∈ live) := by
  obtain ⟨segs, hg⟩ := history_good hfit h
  have hsize : total segs = size := hg.inv.rep.total.trans hg.bytes
  obtain ⟨-, -, t, ht, hti, hts⟩ := inv_iff.mp hg.inv
  have hblk : ∀ p g, (p, g) ∈ used 0 segs → ∃ b ∈ blocks s, b.block = p ∧ b.allocated = true ∧
      b.size = g.size := by
    intro p g hu
    obtain ⟨hga, l, r, he, rfl⟩ := mem_used.mp hu
    rw [blocks_eq hg.inv.rep, he]
    obtain ⟨e, hm, h1, h2, h3⟩ := entries_mem (prev := -1) (off := 0) (l := l) (g := g) (r := r)
    exact ⟨e, hm, h1, by rw [h3, hga], h2⟩
  refine ⟨?_, ?_, ?_, ?_⟩
  · rw [blocks_eq hg.inv.rep, ← hsize]
    simpa using tile_entries (prev := -1) (off := 0) hg.inv.rep.pos
  · intro p n hp
    obtain ⟨g, hu, hgs⟩ := hg.owned p n hp
    obtain ⟨b, h1, h2, h3, h4⟩ := hblk p g (mem_users.mp hu).1
    exact ⟨b, h1, h2, h3, by rw [h4, hgs, rounded_eq (hg.proper p n hp)]⟩
  · obtain ⟨b, h1, h2, h3, h4⟩ := hblk _ _ ht
    exact ⟨b, h1, h2, h3, by rw [h4, hts]⟩
  · intro b hb hba
    rw [blocks_eq hg.inv.rep] at hb
    obtain ⟨l, g, r, he, h1, h2, h3⟩ := mem_entries hb
    have hu : (b.block, g) ∈ used 0 segs := mem_used.mpr ⟨by rw [← h3, hba], l, r, he, h1⟩
    by_cases hc : s.tableIndex = g.id
    · left
      by_cases hne : b.block = s.tableOffset
      · exact hne
      · exact absurd hc (hg.inv.not_table hu hne)
    · exact Or.inr (hg.only _ _ (mem_users.mpr ⟨hu, fun hx => hc hx.symm⟩))

/-- **C08, coalescing.** As long as sizes are not changed, no two neighbouring blocks are free. -/
theorem C08_coalesced_partial (hfit : fit ≠ .next) (h : History size fit junk true s live) :
    Coalesced (blocks s) := by
  obtain ⟨segs, hg⟩ := history_good hfit h
  rw [blocks_eq hg.inv.rep]
  exact coal_entries (hg.coal rfl)

/-- **C08, releasing.** Releasing a live allocation makes exactly its block free, unless its block is
the last one, in which case an entry before the table is read. -/
theorem C08_release_partial (hfit : fit ≠ .next) (h : History size fit junk plain s live) {p n : Nat}
    (hp : (p, n) ∈ live) :
    (p + (n / 8 + 1) * 8 = size ∧ free (some p) s = .undefined) ∨
    (p + (n / 8 + 1) * 8 < size ∧ ∃ s', free (some p) s = .ok () s' ∧
      ∀ a, FreeAt s' a ↔ FreeAt s a ∨ p ≤ a ∧ a < p + (n / 8 + 1) * 8) := by
  obtain ⟨segs, hg⟩ := history_good hfit h
  obtain ⟨g, hu, hgs⟩ := hg.owned p n hp
  rw [rounded_eq (hg.proper p n hp)] at hgs
  obtain ⟨hu, hne⟩ := mem_users.mp hu
  rcases free_ok hg.inv hu (fun hc => hne hc.symm) with
    ⟨hun, hlast⟩ | ⟨s1, segs1, a, b, hr, hi, hu1, hu2, -, hsame, hlt⟩
  · exact Or.inl ⟨by rw [← hgs, hlast, hg.bytes], hun⟩
  · refine Or.inr ⟨by rw [← hgs, ← hg.bytes]; exact hlt, s1, hr, fun x => ?_⟩
    rw [freeAt_iff hi.rep, freeAt_iff hg.inv.rep, hsame.size, ← hgs]
    constructor
    · rintro ⟨h1, h2⟩
      by_cases hx : p ≤ x ∧ x < p + g.size
      · exact Or.inr hx
      · refine Or.inl ⟨h1, fun q k hk => ?_⟩
        rw [hu1] at hk
        simp only [List.mem_append, List.mem_cons] at hk
        rcases hk with hk | hk | hk
        · exact h2 q k (by rw [hu2]; exact List.mem_append.mpr (Or.inl hk))
        · rw [Prod.mk.injEq] at hk
          rw [hk.1, hk.2]
          exact hx
        · exact h2 q k (by rw [hu2]; exact List.mem_append.mpr (Or.inr hk))
    · have hsub : ∀ y : Nat × Seg, y ∈ used 0 segs1 → y ∈ used 0 segs := by
        intro y hy
        rw [hu2] at hy
        rw [hu1]
        simp only [List.mem_append, List.mem_cons] at hy ⊢
        exact hy.elim Or.inl fun h => Or.inr (Or.inr h)
      rintro (⟨h1, h2⟩ | ⟨h1, h2⟩)
      · exact ⟨h1, fun q k hk => h2 q k (hsub _ hk)⟩
      · refine ⟨by omega, fun q k hk => ?_⟩
        have hpg : (p, g) ≠ (q, k) := by
          intro hc
          rw [← hc, hu2] at hk
          have hord := used_order (off := 0) (segs := segs)
          have hpos : 0 < g.size := hg.inv.rep.used_pos hu
          rw [hu1, List.pairwise_append] at hord
          obtain ⟨-, hb, hab⟩ := hord
          obtain ⟨hb, -⟩ := List.pairwise_cons.mp hb
          rcases List.mem_append.mp hk with hk | hk
          · have := hab _ hk _ (List.mem_cons_self ..)
            simp only at this
            omega
          · have := hb _ hk
            simp only at this
            omega
        have := used_apart hu (hsub _ hk) hpg
        unfold Apart at this
        simp only at this
        omega

/-- **C08, wrong pointers.** Releasing or resizing anything that is not a live allocation is refused
and changes nothing. -/
theorem C08_wrong_pointers_partial (hfit : fit ≠ .next) (h : History size fit junk plain s live) {p : Nat}
    (hp : ∀ n, (p, n) ∉ live) (ht : p ≠ s.tableOffset) :
    free (some p) s = .error .danglingPointer s ∧ free none s = .error .nullPointer s ∧
    ∀ n, n ≠ 0 → realloc (some p) n s = .error .danglingPointer s := by
  obtain ⟨segs, hg⟩ := history_good hfit h
  have hno : ∀ g, (p, g) ∉ used 0 segs := by
    intro g hu
    obtain ⟨n, hn⟩ := hg.only p g (mem_users.mpr ⟨hu, fun hc => hg.inv.not_table hu ht hc.symm⟩)
    exact hp n hn
  exact ⟨free_no hg.inv hno, rfl, fun n hn => realloc_no hg.inv hn hno⟩

/-- **C08, exhaustion.** An allocation that fails without leaving the table's block free reports that
memory is exhausted, and indeed there is no free block of the size needed. -/
theorem C08_exhausted_partial (hfit : fit ≠ .next) (h : History size fit junk plain s live) {n : Nat}
    {e : DlError} {s' : State} (h0 : n ≠ 0) (hn : n < 2 ^ 64 - 8) (hm : malloc n s = .error e s')
    (hg : Guarded s') :
    e = .outOfMemory ∧ ∀ b ∈ blocks s', b.allocated = false → b.size < (n / 8 + 1) * 8 := by
  obtain ⟨segs, hgood⟩ := history_good hfit h
  rcases malloc_ok hgood.inv (by rw [hgood.strategy]; exact hfit) h0 hn with
    hu | ⟨s1, he, hng | ⟨segs1, hres, hpk⟩⟩ | ⟨q, s1, segs1, a, g, b, hr, -⟩
  · rw [hu] at hm; cases hm
  · rw [he] at hm; cases hm
    exact absurd hg hng
  · rw [he] at hm; cases hm
    refine ⟨rfl, fun b hb hbf => ?_⟩
    rw [blocks_eq hres.inv.rep] at hb
    obtain ⟨l, g, r, hs, h1, h2, h3⟩ := mem_entries hb
    have := List.find?_eq_none.mp hpk g (by rw [hs]; simp)
    rw [← h3, hbf, rounded_eq hn, ← h2] at this
    simp at this
    omega
  · rw [hr] at hm; cases hm

/-- **C08, outcomes.** After every history, every call ends; an allocation of zero bytes is refused,
every other allocation succeeds, reports that memory is exhausted, or reads an entry before the
table. -/
theorem C08_outcomes_partial (hfit : fit ≠ .next) (h : History size fit junk plain s live) {n : Nat}
    (hn : n < 2 ^ 64 - 8) :
    (malloc 0 s = .error .invalidValue s) ∧
    (n ≠ 0 → malloc n s = .undefined ∨ (∃ s', malloc n s = .error .outOfMemory s') ∨
      ∃ p s', malloc n s = .ok p s') ∧
    ∀ p, p ≠ s.tableOffset → free (some p) s ≠ .endless ∧ realloc (some p) n s ≠ .endless := by
  obtain ⟨segs, hg⟩ := history_good hfit h
  have hf : s.fit ≠ .next := by rw [hg.strategy]; exact hfit
  refine ⟨by simp [malloc, AM.fail], fun h0 => ?_, fun p hp => ?_⟩
  · rcases malloc_ok hg.inv hf h0 hn with hu | ⟨s1, he, -⟩ | ⟨q, s1, segs1, a, g, b, hr, -⟩
    · exact Or.inl hu
    · exact Or.inr (Or.inl ⟨s1, he⟩)
    · exact Or.inr (Or.inr ⟨q, s1, hr⟩)
  · by_cases hu : ∃ g, (p, g) ∈ used 0 segs
    · obtain ⟨g, hu⟩ := hu
      have hne := hg.inv.not_table hu hp
      constructor
      · rcases free_ok hg.inv hu hne with ⟨he, -⟩ | ⟨s1, segs1, a, b, hr, -⟩
        · rw [he]; exact fun h => nomatch h
        · rw [hr]; exact fun h => nomatch h
      · by_cases h0 : n = 0
        · subst h0
          simp [realloc, AM.fail]
        · rcases realloc_ok hg.inv hf hu hne h0 hn with he | ⟨s1, he⟩ | ⟨q, c, s1, segs1, g1, u, hr, -⟩
          · rw [he]; exact fun h => nomatch h
          · rw [he]; exact fun h => nomatch h
          · rw [hr]; exact fun h => nomatch h
    · constructor
      · rw [free_no hg.inv fun g hg => hu ⟨g, hg⟩]; exact fun h => nomatch h
      · by_cases h0 : n = 0
        · subst h0
          simp [realloc, AM.fail]
        · rw [realloc_no hg.inv h0 fun g hg => hu ⟨g, hg⟩]; exact fun h => nomatch h

theorem guard_of_inv {segs : List Seg} (h : Inv s segs) : Guarded s := by
  obtain ⟨l, g, r, rfl, h1, h2, -, -⟩ := h.table
  have := h.rep.at
  exact ⟨entryOf l g r, by omega, by rw [h1]; exact this, h2⟩

/-- **C08, the guard.** Calls that succeed leave the table's block marked as handed out: only failing
allocations and failing changes of size end a history. -/
theorem C08_success_keeps_the_guard (hfit : fit ≠ .next) (h : History size fit junk plain s live) {n : Nat}
    (hn : n < 2 ^ 64 - 8) :
    (∀ p s', malloc n s = .ok p s' → Guarded s') ∧
    ∀ p, p ≠ s.tableOffset →
      (∀ s', free (some p) s = .ok () s' → Guarded s') ∧
      (∀ s' q c, realloc (some p) n s = .ok (q, c) s' → Guarded s') ∧
      (∀ s' e, free (some p) s = .error e s' → s' = s) := by
  obtain ⟨segs, hg⟩ := history_good hfit h
  have hf : s.fit ≠ .next := by rw [hg.strategy]; exact hfit
  refine ⟨fun p s' hm => ?_, fun p hp => ⟨fun s' hm => ?_, fun s' q c hm => ?_, fun s' e hm => ?_⟩⟩
  · by_cases h0 : n = 0
    · subst h0
      simp [malloc, AM.fail] at hm
    · rcases malloc_ok hg.inv hf h0 hn with hu | ⟨s1, he, -⟩ | ⟨q, s1, segs1, a, g, b, hr, hi, -⟩
      · rw [hu] at hm; cases hm
      · rw [he] at hm; cases hm
      · rw [hr] at hm; cases hm
        exact guard_of_inv hi
  · by_cases hu : ∃ g, (p, g) ∈ used 0 segs
    · obtain ⟨g, hu⟩ := hu
      rcases free_ok hg.inv hu (hg.inv.not_table hu hp) with ⟨he, -⟩ | ⟨s1, segs1, a, b, hr, hi, -⟩
      · rw [he] at hm; cases hm
      · rw [hr] at hm; cases hm
        exact guard_of_inv hi
    · rw [free_no hg.inv fun g hg => hu ⟨g, hg⟩] at hm; cases hm
  · by_cases h0 : n = 0
    · subst h0
      simp [realloc, AM.fail] at hm
    · by_cases hu : ∃ g, (p, g) ∈ used 0 segs
      · obtain ⟨g, hu⟩ := hu
        rcases realloc_ok hg.inv hf hu (hg.inv.not_table hu hp) h0 hn with
          he | ⟨s1, he⟩ | ⟨q, c, s1, segs1, g1, u, hr, hi, -⟩
        · rw [he] at hm; cases hm
        · rw [he] at hm; cases hm
        · rw [hr] at hm; cases hm
          exact guard_of_inv hi
      · rw [realloc_no hg.inv h0 fun g hg => hu ⟨g, hg⟩] at hm; cases hm
  · by_cases hu : ∃ g, (p, g) ∈ used 0 segs
    · obtain ⟨g, hu⟩ := hu
      rcases free_ok hg.inv hu (hg.inv.not_table hu hp) with ⟨he, -⟩ | ⟨s1, segs1, a, b, hr, hi, -⟩
      · rw [he] at hm; cases hm
      · rw [hr] at hm; cases hm
    · rw [free_no hg.inv fun g hg => hu ⟨g, hg⟩] at hm; cases hm; rfl

/-- The memory after the copying done by a change of size. -/
def copied (m : Mem.Memory) : Option Copy → Mem.Memory
  | none => m
  | some c => Mem.memcopy m c.destination c.source c.bytes

/-- **C08, changing the size.** After a successful change of size the new block starts with the
contents of the old one, as far as both reach, and all other live allocations have the contents they
had. -/
theorem C08_resize_partial (hfit : fit ≠ .next) (h : History size fit junk plain s live) {p n k q : Nat}
    {c : Option Copy} {s' : State} (hp : (p, n) ∈ live) (hk : k < 2 ^ 64 - 8)
    (hr : realloc (some p) k s = .ok (q, c) s') (m : Mem.Memory) :
    (∀ i, i < n → i < k → copied m c (q + i) = m (p + i)) ∧
    (∀ x l, (x, l) ∈ live → x ≠ p → ∀ i, i < l → copied m c (x + i) = m (x + i)) := by
  obtain ⟨segs, hg⟩ := history_good hfit h
  have hf : s.fit ≠ .next := by rw [hg.strategy]; exact hfit
  have h0 : k ≠ 0 := by
    rintro rfl
    simp [realloc, AM.fail] at hr
  obtain ⟨g, hu, hgs⟩ := hg.owned p n hp
  have hpn := (rounded_spec (hg.proper p n hp)).1
  obtain ⟨hu, hne⟩ := mem_users.mp hu
  rcases realloc_ok hg.inv hf hu (fun hc => hne hc.symm) h0 hk with
    he | ⟨s1, he⟩ | ⟨q', c', s1, segs1, g', u, hrun, hi, hgs', hga', hu1, hu2, hu3, hcp, hfr⟩
  · rw [he] at hr; cases hr
  · rw [he] at hr; cases hr
  · rw [hrun] at hr
    cases hr
    rcases hcp with ⟨rfl, rfl⟩ | ⟨b, rfl, hb1, hb2⟩
    · exact ⟨fun i _ _ => rfl, fun x l _ _ i _ => rfl⟩
    · constructor
      · intro i hi1 hi2
        simp only [copied, Mem.C06_memcopy_overlap_safe]
        rw [if_pos ⟨by omega, by omega⟩]
        congr 1
        omega
      · intro x l hx hxp i hil
        simp only [copied, Mem.C06_memcopy_overlap_safe]
        rw [if_neg]
        obtain ⟨gx, hux, hgx⟩ := hg.owned x l hx
        have hxl := (rounded_spec (hg.proper x l hx)).1
        have hux' : u (x, gx) := by
          rcases (hu1 _).mp hux with hc | hc
          · rw [Prod.mk.injEq] at hc; exact absurd hc.1 hxp
          · exact hc
        have h1 := (mem_users.mp ((hu3 (x, gx)).mpr (Or.inr hux'))).1
        have h2 := (mem_users.mp ((hu3 (q, g')).mpr (Or.inl rfl))).1
        have := used_apart h1 h2 (fun hc => (hu2 _ hux').2 (by rw [Prod.mk.injEq] at hc; exact hc.1))
        unfold Apart at this
        simp only at this
        omega

/-! ## A history -/

/-- Uninitialised bytes read as an entry. -/
def blank : Nat → Entry := fun _ => ⟨0, 0, 0, 0, false, false⟩

instance (s : State) (r : Request) : Decidable (Proper s r) := by
  cases r <;> unfold Proper <;> infer_instance

instance (r : Request) : Decidable r.plain := by
  cases r <;> unfold Request.plain <;> infer_instance

/-- `Guarded`, computed. -/
def guarded (s : State) : Bool :=
  decide (0 ≤ s.tableIndex) && ((s.table[s.tableIndex.toNat]?).map (·.allocated) == some true)

theorem guarded_iff {s : State} (h : guarded s = true) : Guarded s := by
  simp only [guarded, Bool.and_eq_true, decide_eq_true_eq, beq_iff_eq, Option.map_eq_some_iff] at h
  obtain ⟨h1, e, h2, h3⟩ := h
  exact ⟨e, h1, h2, h3⟩

/-- One call of a history, if the conditions are met. -/
def advance (s : State) (live : Live) : Request → Option (State × Live)
  | .allocate n =>
    match malloc n s with
    | .ok p s' => some (s', (p, n) :: live)
    | .error _ s' => some (s', live)
    | _ => none
  | .release (some p) =>
    match free (some p) s with
    | .ok _ s' => some (s', live.filter fun a => a.1 ≠ p)
    | .error _ s' => some (s', live)
    | _ => none
  | .release none => none
  | .resize p n =>
    match realloc (some p) n s with
    | .ok (q, _) s' => some (s', (q, n) :: live.filter fun a => a.1 ≠ p)
    | .error e s' => if e = .outOfMemory then none else some (s', live)
    | _ => none

theorem advance_call {s s' : State} {live live' : Live} {r : Request}
    (h : advance s live r = some (s', live')) : Call s live r s' live' := by
  cases r with
  | allocate n =>
    simp only [advance] at h
    split at h
    · cases h; exact .allocated (by assumption)
    · cases h; exact .refused (by assumption)
    · cases h
  | release p =>
    cases p with
    | none => cases h
    | some p =>
      simp only [advance] at h
      split at h
      · cases h; exact .released (by assumption)
      · cases h; exact .kept (by assumption)
      · cases h
  | resize p n =>
    simp only [advance] at h
    split at h
    · cases h; exact .resized (by assumption)
    · split at h
      · cases h
      · cases h; exact .unchanged (by assumption) (by assumption)
    · cases h

/-- A whole history, if the conditions are met. -/
def advances (plain : Bool) : State → Live → List Request → Option (State × Live)
  | s, live, [] => some (s, live)
  | s, live, r :: rs =>
    match advance s live r with
    | some (s', live') =>
      if Proper s r ∧ (plain = true → r.plain) ∧ guarded s' = true then advances plain s' live' rs else none
    | none => none

theorem advances_history {rs : List Request} {s' : State} {live' : Live}
    (h : History size fit junk plain s live) (hr : advances plain s live rs = some (s', live')) :
    History size fit junk plain s' live' := by
  induction rs generalizing s live with
  | nil => cases hr; exact h
  | cons r rs ih =>
    simp only [advances] at hr
    split at hr
    · split at hr
      · rename_i hadv hc
        exact ih (.call h hc.1 hc.2.1 (advance_call hadv) (guarded_iff hc.2.2)) hr
      · cases hr
    · cases hr

/-- What a history leads to: what is live and where the table is. -/
def outcome (plain : Bool) (size : Nat) (fit : Fit) (rs : List Request) : Option (Live × Nat) :=
  match init size fit blank with
  | .ok s => (advances plain s [] rs).map fun x => (x.2, x.1.tableOffset)
  | _ => none

theorem outcome_history {rs : List Request} {live : Live} {t : Nat}
    (h : outcome plain size fit rs = some (live, t)) :
    ∃ s, History size fit blank plain s live ∧ s.tableOffset = t := by
  unfold outcome at h
  split at h
  · obtain ⟨⟨s', live'⟩, h1, h2⟩ := Option.map_eq_some_iff.mp h
    cases h2
    exact ⟨s', advances_history (.start (by assumption)) h1, rfl⟩
  · cases h

/-- A history in which the table moves, blocks are split, released blocks are merged, one allocation is
refused and one is resized twice, the first time by moving it. -/
example : ∃ s, History 600 .best blank false s [(384, 100), (64, 72), (0, 13)] ∧ s.tableOffset = 144 :=
  outcome_history (rs := [.allocate 20, .allocate 13, .release (some 120), .allocate 40, .allocate 72,
    .allocate 400, .release (some 7), .resize 16 50, .resize 384 100]) (by decide +kernel)

/-- A history without changes of size. -/
example : ∃ s, History 400 .worst blank true s [(0, 8), (120, 13)] ∧ s.tableOffset = 136 :=
  outcome_history (rs := [.allocate 20, .release (some 120), .allocate 13, .allocate 8])
    (by decide +kernel)

/-! ## Where the property fails -/

/-- **C08, violated: the table is handed out.** In 200 bytes, after an allocation that failed, the table's
block counts as free: the next allocation returns the address of the table. -/
theorem C08_table_is_handed_out :
    session 200 .first blank [.allocate 8, .allocate 8, .release (some 120), .allocate 8] =
      some ([.pointer 120, .failed .outOfMemory, .done, .pointer 0], some (0, 120)) := by
  decide +kernel

/-- **C08, violated: too small a block.** Rounding up a size near 2^64 wraps around: the allocation
succeeds in 200 bytes. -/
theorem C08_huge_request_succeeds :
    session 200 .first blank [.allocate (2 ^ 64 - 4)] = some ([.pointer 120], some (0, 120)) := by
  decide +kernel

/-- **C08, violated: the last block.** Releasing the last block reads the entry with index −1, before
the table. -/
theorem C08_releasing_the_last_block :
    session 200 .first blank [.allocate 72, .release (some 120)] = some ([.pointer 120, .undefined], none) := by
  decide +kernel

/-- **C08, violated: next fit.** With the strategy `next`, the search starts after the most recently
used entry even if that no longer belongs to a block: it hands out an address that is refused when it is
released, and hands out memory that overlaps it. -/
theorem C08_next_fit_hands_out_stale_blocks :
    session 400 .next blank [.allocate 20, .release (some 120), .allocate 13, .allocate 8,
      .release (some 336), .release (some 120), .allocate 5, .allocate 10, .allocate 13, .release (some 0),
      .release (some 336), .release (some 248), .allocate 42, .release (some 264)] =
    some ([.pointer 120, .done, .pointer 120, .pointer 336, .done, .done, .pointer 0, .pointer 336,
      .pointer 248, .done, .done, .done, .pointer 264, .failed .danglingPointer], some (8, 240)) := by
  decide +kernel

/-- **C08, violated: a failed change of size loses the block.** The block at 0 stays in the caller's
hands, but the next allocation gets it. -/
theorem C08_failed_resize_loses_the_block :
    session 400 .first blank [.allocate 36, .allocate 14, .allocate 54, .resize 0 48, .allocate 1] =
    some ([.pointer 120, .pointer 0, .pointer 16, .failed .outOfMemory, .pointer 0], some (160, 240)) := by
  decide +kernel

theorem findLoop_fit {n : Nat} {f f' : Fit} (fuel : Nat) (c : Int) (s : State) :
    findLoop n f fuel (-1) false c s = findLoop n f' fuel (-1) false c s := by
  induction fuel generalizing c with
  | zero => unfold findLoop; rfl
  | succ fuel ih =>
    unfold findLoop
    split
    · rfl
    · rename_i hc
      simp only [bind_eq]
      cases he : entry c s with
      | ok e s' =>
        have hs : s' = s := by
          unfold entry at he
          split at he
          · split at he
            · cases he; rfl
            · cases he
          · cases he
        subst hs
        simp only
        split
        · have hcn : c ≠ -1 := by
            intro hx
            subst hx
            exact hc (by decide)
          simp only [beq_self_eq_true, if_true]
          rw [findLoop_found hcn, findLoop_found hcn]
        · exact ih _
      | error e s' => rfl
      | undefined => rfl
      | endless => rfl

/-- **C08, violated: best and worst fit.** The search stops at the first block that is large enough,
whatever the strategy: `best` and `worst` choose the same block as `first`, in every state. -/
theorem C08_best_and_worst_fit_are_first_fit (n : Nat) (s : State) :
    findBlock n .best s = findBlock n .first s ∧ findBlock n .worst s = findBlock n .first s :=
  ⟨findLoop_fit (n := n) (f := .best) (f' := .first) (s.table.length + 1) s.firstBlock s,
    findLoop_fit (n := n) (f := .worst) (f' := .first) (s.table.length + 1) s.firstBlock s⟩

/-- With best fit the first block is taken although there is a smaller one that is large enough: the
block of 104 bytes at 16, not the one of 56 bytes at 344. -/
example : session 400 .best blank [.allocate 20, .allocate 13, .allocate 40] =
    some ([.pointer 120, .pointer 0, .pointer 16], some (144, 240)) := by
  decide +kernel

end DuckLisp.Props

#print axioms DuckLisp.Props.C08_allocations_partial
#print axioms DuckLisp.Props.C08_tiling_partial
#print axioms DuckLisp.Props.C08_coalesced_partial
#print axioms DuckLisp.Props.C08_release_partial
#print axioms DuckLisp.Props.C08_wrong_pointers_partial
#print axioms DuckLisp.Props.C08_exhausted_partial
#print axioms DuckLisp.Props.C08_outcomes_partial
#print axioms DuckLisp.Props.C08_success_keeps_the_guard
#print axioms DuckLisp.Props.C08_resize_partial
#print axioms DuckLisp.Props.C08_table_is_handed_out
#print axioms DuckLisp.Props.C08_huge_request_succeeds
#print axioms DuckLisp.Props.C08_releasing_the_last_block
#print axioms DuckLisp.Props.C08_next_fit_hands_out_stale_blocks
#print axioms DuckLisp.Props.C08_failed_resize_loses_the_block
#print axioms DuckLisp.Props.C08_best_and_worst_fit_are_first_fit
