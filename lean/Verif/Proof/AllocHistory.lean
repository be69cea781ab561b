import Verif.Proof.AllocOps

/-!
# Histories of the allocator

The blocks seen by walking along the table, and what holds after every history.
-/

namespace DuckLisp.Alloc

open DuckLisp.Spec.Memory

/-! ## The blocks along the links -/

/-- The entries of the blocks. -/
def entriesFrom : Int → Nat → List Seg → List Entry
  | _, _, [] => []
  | prev, off, g :: r =>
    ⟨off, prev, headId (-1) r, g.size, g.allocated, false⟩ :: entriesFrom g.id (off + g.size) r

theorem blocksFrom_eq {t : List Entry} {segs : List Seg} {prev : Int} {off fuel : Nat}
    (h : Chain t prev off segs (-1)) (hf : segs.length < fuel) :
    blocksFrom t fuel (headId (-1) segs) = entriesFrom prev off segs := by
  induction segs generalizing prev off fuel with
  | nil =>
    cases fuel with
    | zero => omega
    | succ fuel => rfl
  | cons g r ih =>
    cases fuel with
    | zero => simp at hf
    | succ fuel =>
      have hne : ¬ ((g.id : Int) = -1) := by omega
      simp only [headId_cons, blocksFrom, if_neg hne, Int.toNat_natCast, h.1, entriesFrom]
      rw [ih h.2 (by simpa using hf)]

theorem blocks_eq {s : State} {segs : List Seg} (h : Rep s segs) :
    blocks s = entriesFrom (-1) 0 segs := by
  unfold blocks
  rw [h.first]
  refine blocksFrom_eq h.chain ?_
  have := h.unlinked
  omega

theorem mem_entries {prev : Int} {off : Nat} {segs : List Seg} {e : Entry}
    (h : e ∈ entriesFrom prev off segs) :
    ∃ l g r, segs = l ++ g :: r ∧ e.block = off + total l ∧ e.size = g.size ∧
      e.allocated = g.allocated := by
  induction segs generalizing prev off with
  | nil => simp [entriesFrom] at h
  | cons a r ih =>
    simp only [entriesFrom, List.mem_cons] at h
    rcases h with rfl | h
    · exact ⟨[], a, r, rfl, by simp [total], rfl, rfl⟩
    · obtain ⟨l, g, r', rfl, h1, h2, h3⟩ := ih h
      exact ⟨a :: l, g, r', rfl, by simp only [total]; omega, h2, h3⟩

theorem entries_mem {prev : Int} {off : Nat} {l r : List Seg} {g : Seg} :
    ∃ e ∈ entriesFrom prev off (l ++ g :: r), e.block = off + total l ∧ e.size = g.size ∧
      e.allocated = g.allocated := by
  induction l generalizing prev off with
  | nil => exact ⟨_, List.mem_cons_self .., by simp [total], rfl, rfl⟩
  | cons a l ih =>
    obtain ⟨e, he, h1, h2, h3⟩ := ih (prev := a.id) (off := off + a.size)
    exact ⟨e, List.mem_cons_of_mem _ he, by simp only [total]; omega, h2, h3⟩

theorem tile_entries {prev : Int} {off : Nat} {segs : List Seg} (hp : ∀ g ∈ segs, 0 < g.size) :
    Tile off (entriesFrom prev off segs) (off + total segs) := by
  induction segs generalizing prev off with
  | nil => simp [entriesFrom, Tile, total]
  | cons a r ih =>
    refine ⟨rfl, hp a (List.mem_cons_self ..), ?_⟩
    have := ih (prev := a.id) (off := off + a.size) fun g hg => hp g (List.mem_cons_of_mem _ hg)
    simpa [total, Nat.add_assoc] using this

theorem coal_entries {prev : Int} {off : Nat} {segs : List Seg} (h : Coal segs) :
    Coalesced (entriesFrom prev off segs) := by
  induction segs generalizing prev off with
  | nil => trivial
  | cons a r ih =>
    cases r with
    | nil => trivial
    | cons b r => exact ⟨h.1, ih h.2⟩

/-! ## Blocks handed out do not overlap -/

theorem used_ge {off : Nat} {segs : List Seg} {x : Nat × Seg} (h : x ∈ used off segs) :
    off ≤ x.1 ∧ x.1 + x.2.size ≤ off + total segs := by
  obtain ⟨p, g⟩ := x
  obtain ⟨_, l, r, rfl, rfl⟩ := mem_used.mp h
  simp only [total_append, total]
  omega

theorem used_order {off : Nat} {segs : List Seg} :
    (used off segs).Pairwise fun x y => x.1 + x.2.size ≤ y.1 := by
  induction segs generalizing off with
  | nil => simp [used]
  | cons a r ih =>
    rw [used.eq_2]
    split
    · refine List.pairwise_cons.mpr ⟨fun y hy => ?_, ih⟩
      exact (used_ge hy).1
    · exact ih

theorem users_order {t : Int} {segs : List Seg} :
    (users t segs).Pairwise fun x y => x.1 + x.2.size ≤ y.1 :=
  used_order.filter _

theorem Rep.used_pos {s : State} {segs : List Seg} (h : Rep s segs) {x : Nat × Seg} {off : Nat}
    (hx : x ∈ used off segs) : 0 < x.2.size := by
  obtain ⟨p, g⟩ := x
  obtain ⟨_, l, r, rfl, _⟩ := mem_used.mp hx
  exact h.pos g (by simp)

theorem pairwise_either {α : Type} {R : α → α → Prop} {l : List α} (h : l.Pairwise R) {x y : α}
    (hx : x ∈ l) (hy : y ∈ l) : x = y ∨ R x y ∨ R y x := by
  induction l with
  | nil => cases hx
  | cons a l ih =>
    obtain ⟨h1, h2⟩ := List.pairwise_cons.mp h
    rcases List.mem_cons.mp hx with hx' | hx' <;> rcases List.mem_cons.mp hy with hy' | hy'
    · exact Or.inl (hx'.trans hy'.symm)
    · rw [hx']; exact Or.inr (Or.inl (h1 _ hy'))
    · rw [hy']; exact Or.inr (Or.inr (h1 _ hx'))
    · exact ih h2 hx' hy'

/-- Two different blocks handed out are apart. -/
theorem used_apart {segs : List Seg} {x y : Nat × Seg} (hx : x ∈ used 0 segs) (hy : y ∈ used 0 segs)
    (hne : x ≠ y) : Apart x.1 x.2.size y.1 y.2.size := by
  rcases pairwise_either used_order hx hy with h | h | h
  · exact absurd h hne
  · exact Or.inl h
  · exact Or.inr h

/-! ## The invariant -/

/-- What holds after every history. -/
structure Good (size : Nat) (fit : Fit) (plain : Bool) (s : State) (live : Live) (segs : List Seg) :
    Prop where
  inv : Inv s segs
  bytes : s.size = size
  strategy : s.fit = fit
  owned : ∀ p n, (p, n) ∈ live → ∃ g, (p, g) ∈ users s.tableIndex segs ∧ g.size = rounded n
  only : ∀ p g, (p, g) ∈ users s.tableIndex segs → ∃ n, (p, n) ∈ live
  proper : ∀ p n, (p, n) ∈ live → n < 2 ^ 64 - 8
  distinct : (live.map (·.1)).Nodup
  coal : plain = true → Coal segs

theorem init_good {size : Nat} {fit : Fit} {junk : Nat → Entry} {s : State} {plain : Bool}
    (h : init size fit junk = .ok s) : ∃ segs, Good size fit plain s [] segs := by
  unfold init at h
  split at h
  · cases h
  · split at h
    · cases h
    · cases h
      rename_i h1 h2
      simp only [entrySize] at h1 h2
      refine ⟨[⟨0, 80, true⟩, ⟨1, size - 80, false⟩], ⟨⟨?_, ?_, ?_⟩, rfl, rfl, ?_, ?_, fun _ _ h => (nomatch h), ?_, ?_⟩⟩
      · refine ⟨⟨rfl, rfl, trivial⟩, rfl, by simp, ?_, ?_, ?_⟩
        · intro i e he
          match i with
          | 0 => simp at he; subst he; simp
          | 1 => simp at he; subst he; simp
          | i + 2 => simp at he
        · simp only [total]; omega
        · intro g hg
          simp only [List.mem_cons, List.not_mem_nil, or_false] at hg
          rcases hg with rfl | rfl
          · decide
          · simp only; omega
      · simp only [Aligned]; decide
      · exact ⟨[], ⟨0, 80, true⟩, _, rfl, rfl, rfl, rfl, rfl⟩
      · intro p n hp; cases hp
      · intro p g hg
        simp [users, used] at hg
      · exact List.nodup_nil
      · intro _
        exact ⟨Or.inl rfl, trivial⟩

/-- A block handed out that is not at the table's address is not the table's. -/
theorem Inv.not_table {s : State} {segs : List Seg} (h : Inv s segs) {p : Nat} {g : Seg}
    (hp : (p, g) ∈ used 0 segs) (hne : p ≠ s.tableOffset) : s.tableIndex ≠ g.id := by
  intro hc
  obtain ⟨-, -, t, ht, hti, -⟩ := inv_iff.mp h
  obtain ⟨hg, l, r, he, hpl⟩ := mem_used.mp hp
  obtain ⟨_, l', r', he', hpl'⟩ := mem_used.mp ht
  have hid : t.id = g.id := by omega
  have h1 := h.rep
  rw [he] at h1
  have h2 := h.rep
  rw [he'] at h2
  have e1 := h1.at
  have e2 := h2.at
  rw [hid, e1] at e2
  simp only [Option.some.injEq, entryOf, Entry.mk.injEq] at e2
  omega

/-- The table's own block is not among the others. -/
theorem Inv.users_ne {s : State} {segs : List Seg} (h : Inv s segs) {p : Nat} {g : Seg}
    (hp : (p, g) ∈ users s.tableIndex segs) : p ≠ s.tableOffset := by
  obtain ⟨hu, hne⟩ := mem_users.mp hp
  obtain ⟨-, -, t, ht, hti, -⟩ := inv_iff.mp h
  intro hc
  subst hc
  have := used_start h.rep hu ht
  subst this
  exact hne hti.symm

theorem mem_filter_ne {live : Live} {p : Nat} {x : Nat × Nat} :
    x ∈ live.filter (fun a => decide (a.1 ≠ p)) ↔ x ∈ live ∧ x.1 ≠ p := by
  simp

theorem nodup_filter {live : Live} {f : Nat × Nat → Bool} (h : (live.map (·.1)).Nodup) :
    ((live.filter f).map (·.1)).Nodup :=
  h.sublist (List.Sublist.map _ List.filter_sublist)

theorem call_good {size : Nat} {fit : Fit} {plain : Bool} {s s' : State} {live live' : Live}
    {segs : List Seg} {r : Request} (hfit : fit ≠ .next) (h : Good size fit plain s live segs)
    (hp : Proper s r) (hpl : plain = true → r.plain) (hc : Call s live r s' live')
    (hg : Guarded s') : ∃ segs', Good size fit plain s' live' segs' := by
  have hfit' : s.fit ≠ .next := by rw [h.strategy]; exact hfit
  cases hc with
  | allocated hm =>
    rename_i n p
    by_cases hn : n = 0
    · subst hn
      simp [malloc, AM.fail] at hm
    · rcases malloc_ok h.inv hfit' hn hp with hu | ⟨s1, he, -⟩ | ⟨q, s1, segs1, a, g, b, hr, hi, hgs, hga, hu, hu', hco, hf⟩
      · rw [hu] at hm; cases hm
      · rw [he] at hm; cases hm
      · rw [hr] at hm
        cases hm
        have hord := users_order (t := s'.tableIndex) (segs := segs1)
        have hpos : 0 < g.size := hi.rep.used_pos (off := 0) (x := (p, g))
          (mem_users.mp (by rw [hu']; simp)).1
        rw [hu', List.pairwise_append] at hord
        obtain ⟨-, hb, hab⟩ := hord
        obtain ⟨hb, -⟩ := List.pairwise_cons.mp hb
        have hfresh : ∀ x ∈ a ++ b, x.1 ≠ p := by
          intro x hx
          rcases List.mem_append.mp hx with hx | hx
          · have hxp : 0 < x.2.size := hi.rep.used_pos (off := 0)
              (mem_users.mp (by rw [hu']; simp [hx])).1
            have := hab x hx (p, g) (List.mem_cons_self ..)
            simp only at this
            omega
          · have := hb x hx
            simp only at this
            omega
        refine ⟨segs1, hi, by rw [hf.size, h.bytes], by rw [hf.fit, h.strategy], ?_, ?_, ?_, ?_,
          fun hb => hco (h.coal hb)⟩
        · intro q m hq
          rw [hu']
          rcases List.mem_cons.mp hq with hq | hq
          · cases hq
            exact ⟨g, by simp, hgs⟩
          · obtain ⟨k, hk, hkn⟩ := h.owned q m hq
            rw [hu] at hk
            refine ⟨k, ?_, hkn⟩
            simp only [List.mem_append, List.mem_cons] at hk ⊢
            exact hk.elim Or.inl fun h => Or.inr (Or.inr h)
        · intro q k hk
          rw [hu'] at hk
          simp only [List.mem_append, List.mem_cons] at hk
          have : (q, k) = (p, g) ∨ (q, k) ∈ users s.tableIndex segs := by
            rw [hu, List.mem_append]
            rcases hk with hk | hk | hk
            · exact Or.inr (Or.inl hk)
            · exact Or.inl hk
            · exact Or.inr (Or.inr hk)
          rcases this with hk | hk
          · cases hk
            exact ⟨n, List.mem_cons_self ..⟩
          · obtain ⟨m, hm⟩ := h.only q k hk
            exact ⟨m, List.mem_cons_of_mem _ hm⟩
        · intro q m hq
          rcases List.mem_cons.mp hq with hq | hq
          · cases hq; exact hp
          · exact h.proper q m hq
        · simp only [List.map_cons, List.nodup_cons]
          refine ⟨?_, h.distinct⟩
          intro hmem
          obtain ⟨⟨q, m⟩, hq, hqp⟩ := List.mem_map.mp hmem
          simp only at hqp
          subst hqp
          obtain ⟨k, hk, -⟩ := h.owned q m hq
          rw [hu] at hk
          exact hfresh _ hk rfl
  | refused hm =>
    rename_i n e
    by_cases hn : n = 0
    · subst hn
      simp only [malloc, if_true, AM.fail] at hm
      cases hm
      exact ⟨segs, h⟩
    · rcases malloc_ok h.inv hfit' hn hp with hu | ⟨s1, he, hng | ⟨segs1, hres, -⟩⟩ | ⟨q, s1, segs1, a, g, b, hr, -⟩
      · rw [hu] at hm; cases hm
      · rw [he] at hm; cases hm
        exact absurd hg hng
      · rw [he] at hm; cases hm
        refine ⟨segs1, hres.inv, by rw [hres.frame.size, h.bytes],
          by rw [hres.frame.fit, h.strategy], ?_, ?_, h.proper, h.distinct, fun hb => hres.coal (h.coal hb)⟩
        · rw [hres.users]; exact h.owned
        · rw [hres.users]; exact h.only
      · rw [hr] at hm; cases hm
  | released hm =>
    rename_i p
    by_cases hu : ∃ g, (p, g) ∈ used 0 segs
    · obtain ⟨g, hu⟩ := hu
      have hne : s.tableIndex ≠ g.id := h.inv.not_table hu fun hc => hp (by rw [hc])
      rcases free_ok h.inv hu hne with ⟨hun, -⟩ | ⟨s1, segs1, a, b, hr, hi, hu1, hu2, hco, hsame, -⟩
      · rw [hun] at hm; cases hm
      · rw [hr] at hm
        cases hm
        have hother : ∀ x ∈ a ++ b, x.1 ≠ p := by
          have hord := used_order (off := 0) (segs := segs)
          have hpos : 0 < g.size := h.inv.rep.used_pos hu
          rw [hu1, List.pairwise_append] at hord
          obtain ⟨-, hb, hab⟩ := hord
          obtain ⟨hb, -⟩ := List.pairwise_cons.mp hb
          intro x hx
          rcases List.mem_append.mp hx with hx | hx
          · have hxp : 0 < x.2.size := h.inv.rep.used_pos (off := 0) (by rw [hu1]; simp [hx])
            have := hab x hx (p, g) (List.mem_cons_self ..)
            simp only at this
            omega
          · have := hb x hx
            simp only at this
            omega
        have hmem : ∀ x : Nat × Seg, x ∈ users s'.tableIndex segs1 ↔
            x ∈ users s.tableIndex segs ∧ x.1 ≠ p := by
          intro x
          rw [mem_users, mem_users, hu1, hu2, hsame.index]
          constructor
          · rintro ⟨h1, h2⟩
            refine ⟨⟨?_, h2⟩, hother x h1⟩
            simp only [List.mem_append, List.mem_cons] at h1 ⊢
            exact h1.elim Or.inl fun h => Or.inr (Or.inr h)
          · rintro ⟨⟨h1, h2⟩, h3⟩
            refine ⟨?_, h2⟩
            simp only [List.mem_append, List.mem_cons] at h1 ⊢
            rcases h1 with h1 | h1 | h1
            · exact Or.inl h1
            · rw [h1] at h3; exact absurd rfl h3
            · exact Or.inr h1
        refine ⟨segs1, hi, by rw [hsame.size, h.bytes], by rw [hsame.fit, h.strategy], ?_, ?_,
          fun q m hq => h.proper q m (mem_filter_ne.mp hq).1, nodup_filter h.distinct, fun hb => hco (h.coal hb)⟩
        · intro q m hq
          obtain ⟨hq, hqp⟩ := mem_filter_ne.mp hq
          obtain ⟨k, hk, hkm⟩ := h.owned q m hq
          exact ⟨k, (hmem _).mpr ⟨hk, hqp⟩, hkm⟩
        · intro q k hk
          obtain ⟨hk, hqp⟩ := (hmem _).mp hk
          obtain ⟨m, hm⟩ := h.only q k hk
          exact ⟨m, mem_filter_ne.mpr ⟨hm, hqp⟩⟩
    · rw [free_no h.inv fun g hg => hu ⟨g, hg⟩] at hm
      cases hm
  | kept hm =>
    rename_i p e
    cases p with
    | none =>
      simp only [free, AM.fail] at hm
      cases hm
      exact ⟨segs, h⟩
    | some p =>
      by_cases hu : ∃ g, (p, g) ∈ used 0 segs
      · obtain ⟨g, hu⟩ := hu
        have hne : s.tableIndex ≠ g.id := h.inv.not_table hu fun hc => hp (by rw [hc])
        rcases free_ok h.inv hu hne with ⟨hun, -⟩ | ⟨s1, segs1, a, b, hr, -⟩
        · rw [hun] at hm; cases hm
        · rw [hr] at hm; cases hm
      · rw [free_no h.inv fun g hg => hu ⟨g, hg⟩] at hm
        cases hm
        exact ⟨segs, h⟩
  | resized hm =>
    rename_i p n q c
    by_cases hn : n = 0
    · subst hn
      simp [realloc, AM.fail] at hm
    · by_cases hu : ∃ g, (p, g) ∈ used 0 segs
      · obtain ⟨g, hu⟩ := hu
        have hne : s.tableIndex ≠ g.id := h.inv.not_table hu hp.1
        rcases realloc_ok h.inv hfit' hu hne hn hp.2 with hun | ⟨s1, he⟩ | ⟨q', cp, s1, segs1, g', u, hr, hi, hgs, hga, hu1, hu2, hu3, -, hf⟩
        · rw [hun] at hm; cases hm
        · rw [he] at hm; cases hm
        · rw [hr] at hm
          cases hm
          have hq : (q, g') ∈ users s'.tableIndex segs1 := (hu3 _).mpr (Or.inl rfl)
          refine ⟨segs1, hi, by rw [hf.size, h.bytes], by rw [hf.fit, h.strategy], ?_, ?_, ?_, ?_,
            fun hb => (hpl hb).elim⟩
          · intro x m hx
            rcases List.mem_cons.mp hx with hx | hx
            · cases hx
              exact ⟨g', hq, hgs⟩
            · obtain ⟨hx, hxp⟩ := mem_filter_ne.mp hx
              obtain ⟨k, hk, hkm⟩ := h.owned x m hx
              refine ⟨k, (hu3 _).mpr (Or.inr ?_), hkm⟩
              rcases (hu1 _).mp hk with hk | hk
              · rw [Prod.mk.injEq] at hk; exact absurd hk.1 hxp
              · exact hk
          · intro x k hk
            rcases (hu3 _).mp hk with hk | hk
            · cases hk
              exact ⟨n, List.mem_cons_self ..⟩
            · obtain ⟨m, hm⟩ := h.only x k ((hu1 _).mpr (Or.inr hk))
              exact ⟨m, List.mem_cons_of_mem _ (mem_filter_ne.mpr ⟨hm, (hu2 _ hk).1⟩)⟩
          · intro x m hx
            rcases List.mem_cons.mp hx with hx | hx
            · cases hx; exact hp.2
            · exact h.proper x m (mem_filter_ne.mp hx).1
          · simp only [List.map_cons, List.nodup_cons]
            refine ⟨?_, nodup_filter h.distinct⟩
            intro hmem
            obtain ⟨⟨x, m⟩, hx, hxq⟩ := List.mem_map.mp hmem
            simp only at hxq
            subst hxq
            obtain ⟨hx, hxp⟩ := mem_filter_ne.mp hx
            obtain ⟨k, hk, hkm⟩ := h.owned x m hx
            rcases (hu1 _).mp hk with hk | hk
            · rw [Prod.mk.injEq] at hk; exact absurd hk.1 hxp
            · exact (hu2 _ hk).2 rfl
      · rw [realloc_no h.inv hn fun g hg => hu ⟨g, hg⟩] at hm
        cases hm
  | unchanged hm hne' =>
    rename_i p n e
    by_cases hn : n = 0
    · subst hn
      simp only [realloc, if_true, AM.fail] at hm
      cases hm
      exact ⟨segs, h⟩
    · by_cases hu : ∃ g, (p, g) ∈ used 0 segs
      · obtain ⟨g, hu⟩ := hu
        have hne : s.tableIndex ≠ g.id := h.inv.not_table hu hp.1
        rcases realloc_ok h.inv hfit' hu hne hn hp.2 with hun | ⟨s1, he⟩ | ⟨q', cp, s1, segs1, g', u, hr, -⟩
        · rw [hun] at hm; cases hm
        · rw [he] at hm; cases hm
          exact absurd rfl hne'
        · rw [hr] at hm; cases hm
      · rw [realloc_no h.inv hn fun g hg => hu ⟨g, hg⟩] at hm
        cases hm
        exact ⟨segs, h⟩

theorem history_good {size : Nat} {fit : Fit} {junk : Nat → Entry} {plain : Bool} {s : State}
    {live : Live} (hfit : fit ≠ .next) (h : History size fit junk plain s live) :
    ∃ segs, Good size fit plain s live segs := by
  induction h with
  | start hi => exact init_good hi
  | call _ hp hpl hc hg ih =>
    obtain ⟨segs, hs⟩ := ih
    exact call_good hfit hs hp hpl hc hg

/-! ## Free addresses -/

theorem total_split {segs : List Seg} {a : Nat} (h : a < total segs) :
    ∃ l g r, segs = l ++ g :: r ∧ total l ≤ a ∧ a < total l + g.size := by
  induction segs generalizing a with
  | nil => simp [total] at h
  | cons b r ih =>
    by_cases hb : a < b.size
    · exact ⟨[], b, r, rfl, by simp [total], by simpa [total] using hb⟩
    · simp only [total] at h
      obtain ⟨l, g, r', rfl, h1, h2⟩ := ih (a := a - b.size) (by omega)
      exact ⟨b :: l, g, r', rfl, by simp only [total]; omega, by simp only [total]; omega⟩

/-- Only one block covers an address. -/
theorem cover_unique {l l' r r' : List Seg} {g g' : Seg} {a : Nat}
    (he : l ++ g :: r = l' ++ g' :: r') (h1 : total l ≤ a) (h2 : a < total l + g.size)
    (h3 : total l' ≤ a) (h4 : a < total l' + g'.size) : g = g' ∧ l = l' := by
  induction l generalizing l' a with
  | nil =>
    cases l' with
    | nil => simp at he; exact ⟨he.1, rfl⟩
    | cons b l' =>
      simp only [List.nil_append, List.cons_append, List.cons.injEq] at he
      simp only [total] at *
      rw [← he.1] at h3
      omega
  | cons b l ih =>
    cases l' with
    | nil =>
      simp only [List.nil_append, List.cons_append, List.cons.injEq] at he
      simp only [total] at *
      rw [he.1] at h1
      omega
    | cons b' l' =>
      simp only [List.cons_append, List.cons.injEq] at he
      obtain ⟨rfl, he⟩ := he
      simp only [total] at *
      obtain ⟨hg, hl⟩ := ih (a := a - b.size) he (by omega) (by omega) (by omega) (by omega)
      exact ⟨hg, by rw [hl]⟩

/-- The free addresses are those outside all blocks handed out. -/
theorem freeAt_iff {s : State} {segs : List Seg} (h : Rep s segs) {a : Nat} :
    FreeAt s a ↔ a < s.size ∧ ∀ p g, (p, g) ∈ used 0 segs → ¬ (p ≤ a ∧ a < p + g.size) := by
  unfold FreeAt
  rw [blocks_eq h]
  constructor
  · rintro ⟨e, he, hf, h1, h2⟩
    obtain ⟨l, g, r, hs, hb, hsz, hal⟩ := mem_entries he
    simp only [Nat.zero_add] at hb
    refine ⟨?_, ?_⟩
    · have := h.total
      rw [hs] at this
      simp only [total_append, total] at this
      omega
    · rintro p g' hu ⟨h3, h4⟩
      obtain ⟨hga, l', r', hs', hp⟩ := mem_used.mp hu
      have := cover_unique (a := a) (hs.symm.trans hs') (by omega) (by omega) (by omega) (by omega)
      rw [this.1, hga] at hal
      rw [hal] at hf
      cases hf
  · rintro ⟨h1, h2⟩
    rw [← h.total] at h1
    obtain ⟨l, g, r, rfl, h3, h4⟩ := total_split h1
    obtain ⟨e, he, hb, hsz, hal⟩ := entries_mem (prev := -1) (off := 0) (l := l) (g := g) (r := r)
    refine ⟨e, he, ?_, by omega, by omega⟩
    rw [hal]
    cases hg : g.allocated with
    | false => rfl
    | true => exact absurd ⟨by omega, by omega⟩ (h2 (0 + total l) g (mem_used.mpr ⟨hg, l, r, rfl, rfl⟩))

end DuckLisp.Alloc
