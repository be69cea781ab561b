import Verif.Props.Alloc
import Mathlib.Data.List.Nodup
import Mathlib.Data.List.Perm.Basic
import Mathlib.Algebra.BigOperators.Group.List.Basic

/-!
# C08: what the built-in allocator says is in use
-/

namespace DuckLisp.Alloc

/-- memory.c:916-926 `dl_memory_usage`: the sizes of all entries marked as handed out, whether or not
they are unlinked, added up in 64 bits. -/
def usage (s : State) : Nat :=
  s.table.foldl (fun sum e => if e.allocated then (sum + e.size) % 2 ^ 64 else sum) 0

/-- What the entries that describe no block claim to have handed out. -/
def stale (s : State) : Nat :=
  ((s.table.filter fun e => e.unlinked && e.allocated).map (·.size)).sum

/-- The size of an entry marked as handed out. -/
def claimed (e : Entry) : Nat := if e.allocated then e.size else 0

theorem usage_fold {l : List Entry} {a : Nat} (ha : a < 2 ^ 64) :
    l.foldl (fun sum e => if e.allocated then (sum + e.size) % 2 ^ 64 else sum) a =
      (a + (l.map claimed).sum) % 2 ^ 64 := by
  induction l generalizing a with
  | nil => exact (Nat.mod_eq_of_lt ha).symm
  | cons e l ih =>
    simp only [List.foldl_cons, List.map_cons, List.sum_cons, claimed]
    cases e.allocated
    · simpa [claimed] using ih ha
    · simp only [if_true]
      rw [ih (Nat.mod_lt _ (by decide))]
      simp only [Nat.mod_add_mod, Nat.add_assoc]

theorem claimed_split {l : List Entry} :
    (l.map claimed).sum = (l.map fun e => if e.unlinked then 0 else claimed e).sum +
      ((l.filter fun e => e.unlinked && e.allocated).map (·.size)).sum := by
  induction l with
  | nil => rfl
  | cons e l ih =>
    simp only [List.map_cons, List.sum_cons, List.filter_cons, ih]
    cases hu : e.unlinked <;> cases ha : e.allocated <;> simp [claimed, ha] <;> omega

/-- The linked part of the table, entry by entry. -/
def linkedSize : Option Entry → Nat
  | some e => if e.unlinked then 0 else claimed e
  | none => 0

theorem sum_filter_zero {l : List Nat} {f : Nat → Nat} {p : Nat → Bool} (h : ∀ i ∈ l, p i = false → f i = 0) :
    (l.map f).sum = ((l.filter p).map f).sum := by
  induction l with
  | nil => rfl
  | cons a l ih =>
    have ih := ih fun i hi => h i (List.mem_cons_of_mem _ hi)
    simp only [List.map_cons, List.sum_cons, List.filter_cons]
    cases hp : p a
    · simp [h a (List.mem_cons_self ..) hp, ih]
    · simp [ih]

theorem chain_sum {t : List Entry} {segs : List Seg} {prev next : Int} {off : Nat}
    (h : Chain t prev off segs next) :
    ((segs.map (·.id)).map fun i => linkedSize t[i]?).sum = ((used off segs).map (·.2.size)).sum ∧
    ∀ i ∈ segs.map (·.id), i < t.length := by
  induction segs generalizing prev off with
  | nil => simp [used]
  | cons g r ih =>
    obtain ⟨h1, h2⟩ := h
    obtain ⟨ih1, ih2⟩ := ih h2
    have hlt : g.id < t.length := (List.getElem?_eq_some_iff.mp h1).1
    refine ⟨?_, ?_⟩
    · rw [List.map_cons, List.map_cons, List.sum_cons, ih1, h1, used.eq_2]
      cases hg : g.allocated <;> simp [linkedSize, claimed]
    · intro i hi
      rcases List.mem_cons.mp hi with rfl | hi
      · exact hlt
      · exact ih2 i hi

theorem linked_sum {s : State} {segs : List Seg} (h : Rep s segs) :
    (s.table.map fun e => if e.unlinked then 0 else claimed e).sum =
      ((used 0 segs).map (·.2.size)).sum := by
  obtain ⟨h1, h2⟩ := chain_sum h.chain
  rw [← h1]
  have e1 : (s.table.map fun e => if e.unlinked then 0 else claimed e) =
      (List.range s.table.length).map fun i => linkedSize s.table[i]? := by
    apply List.ext_getElem
    · simp
    · intro i hi _
      have hi : i < s.table.length := by simpa using hi
      simp [linkedSize, List.getElem?_eq_getElem hi]
  rw [e1, sum_filter_zero (p := fun i => decide (i ∈ segs.map (·.id)))]
  · apply List.Perm.sum_eq
    apply List.Perm.map
    rw [List.perm_ext_iff_of_nodup (List.nodup_range.filter _) h.nodup]
    intro i
    simp only [List.mem_filter, List.mem_range, decide_eq_true_eq]
    exact ⟨fun hi => hi.2, fun hi => ⟨h2 i hi, hi⟩⟩
  · intro i hi hp
    have hi : i < s.table.length := List.mem_range.mp hi
    have hp := of_decide_eq_false hp
    have hu : s.table[i].unlinked = true := by
      cases hu : s.table[i].unlinked
      · exact absurd ((h.exact i _ (List.getElem?_eq_getElem hi)).mp hu) hp
      · rfl
    simp [linkedSize, List.getElem?_eq_getElem hi, hu]

theorem used_nodup {s : State} {segs : List Seg} (h : Rep s segs) : (used 0 segs).Nodup := by
  refine List.Pairwise.imp_of_mem ?_ (used_order (off := 0) (segs := segs))
  intro x y hx _ hxy he
  have := h.used_pos hx
  subst he
  omega

theorem used_perm {s : State} {segs : List Seg} (h : Inv s segs) {t : Seg}
    (ht : (s.tableOffset, t) ∈ used 0 segs) (hi : s.tableIndex = t.id) :
    (used 0 segs).Perm ((s.tableOffset, t) :: users s.tableIndex segs) := by
  have hn := used_nodup h.rep
  rw [List.perm_ext_iff_of_nodup hn (List.nodup_cons.mpr
    ⟨fun hc => (mem_users.mp hc).2 hi.symm, hn.filter _⟩)]
  intro ⟨p, g⟩
  rw [List.mem_cons, mem_users]
  constructor
  · intro hx
    by_cases hp : p = s.tableOffset
    · subst hp
      exact Or.inl (by rw [used_start h.rep hx ht])
    · exact Or.inr ⟨hx, fun hc => h.not_table hx hp hc.symm⟩
  · rintro (hx | hx)
    · rw [hx]; exact ht
    · exact hx.1

end DuckLisp.Alloc

namespace DuckLisp.Props

open DuckLisp.Alloc DuckLisp.Spec.Memory

variable {size : Nat} {fit : Fit} {junk : Nat → Entry} {plain : Bool} {s : State} {live : Live}

/-- **C08, the memory in use.** After every history, the number of bytes reported as in use is the
size of the allocator's own table, plus the sizes of the live allocations, each rounded up, plus
whatever the entries that describe no block claim.  Missing from the full property: that last part
should not be there (`C08_usage_counts_junk`). -/
theorem C08_usage_partial (hfit : fit ≠ .next) (h : History size fit junk plain s live) :
    usage s = (s.table.length * entrySize + (live.map fun x => (x.2 / 8 + 1) * 8).sum + stale s) %
      2 ^ 64 := by
  obtain ⟨segs, hg⟩ := history_good hfit h
  obtain ⟨-, -, t, ht, hti, hts⟩ := inv_iff.mp hg.inv
  have hp := used_perm hg.inv ht hti
  have hu : ((users s.tableIndex segs).map fun x => (x.1, x.2.size)).Perm
      (live.map fun x => (x.1, (x.2 / 8 + 1) * 8)) := by
    have n1 : ((users s.tableIndex segs).map fun x => (x.1, x.2.size)).Nodup := by
      refine (List.nodup_map_iff_inj_on ((used_nodup hg.inv.rep).filter _)).mpr ?_
      rintro ⟨p, g⟩ hx ⟨q, k⟩ hy he
      cases (Prod.mk.inj he).1
      rw [used_start hg.inv.rep (mem_users.mp hx).1 (mem_users.mp hy).1]
    have n2 : (live.map fun x => (x.1, (x.2 / 8 + 1) * 8)).Nodup := by
      refine List.Nodup.of_map Prod.fst ?_
      rw [List.map_map]
      exact hg.distinct
    rw [List.perm_ext_iff_of_nodup n1 n2]
    rintro ⟨p, m⟩
    simp only [List.mem_map, Prod.exists, Prod.mk.injEq]
    constructor
    · rintro ⟨q, g, hx, rfl, rfl⟩
      obtain ⟨n, hn⟩ := hg.only q g hx
      obtain ⟨g', hx', hs⟩ := hg.owned q n hn
      rw [used_start hg.inv.rep (mem_users.mp hx).1 (mem_users.mp hx').1, hs,
        rounded_eq (hg.proper q n hn)]
      exact ⟨q, n, hn, rfl, rfl⟩
    · rintro ⟨q, n, hn, rfl, rfl⟩
      obtain ⟨g, hx, hs⟩ := hg.owned q n hn
      exact ⟨q, g, hx, rfl, by rw [hs, rounded_eq (hg.proper q n hn)]⟩
  have hsum := (hu.map Prod.snd).sum_eq
  rw [List.map_map, List.map_map] at hsum
  have hsum : ((users s.tableIndex segs).map (·.2.size)).sum =
      (live.map fun x => (x.2 / 8 + 1) * 8).sum := hsum
  have hall := (hp.map (·.2.size)).sum_eq
  rw [List.map_cons, List.sum_cons, hsum, hts] at hall
  unfold usage stale
  rw [usage_fold (by decide), claimed_split, linked_sum hg.inv.rep, hall, Nat.zero_add]

/-! ## A history, and where the property fails -/

/-- Uninitialised bytes that look like the entry of a block of 1000 bytes that is handed out. -/
def dirty : Nat → Entry := fun _ => ⟨0, 0, 0, 1000, true, false⟩

/-- What a history leads to: what is live and what is reported to be in use. -/
def reported (size : Nat) (fit : Fit) (junk : Nat → Entry) (rs : List Request) : Option (Live × Nat) :=
  match init size fit junk with
  | .ok s => (advances false s [] rs).map fun x => (x.2, usage x.1)
  | _ => none

theorem reported_history {rs : List Request} {u : Nat}
    (h : reported size fit junk rs = some (live, u)) :
    ∃ s, History size fit junk false s live ∧ usage s = u := by
  unfold reported at h
  split at h
  · obtain ⟨⟨s', live'⟩, h1, h2⟩ := Option.map_eq_some_iff.mp h
    cases h2
    exact ⟨s', advances_history (.start (by assumption)) h1, rfl⟩
  · cases h

/-- A history with three live allocations, after which 440 bytes of 600 are in use. -/
example : ∃ s, History 600 .best blank false s [(384, 100), (64, 72), (0, 13)] ∧ usage s = 440 :=
  reported_history (rs := [.allocate 20, .allocate 13, .release (some 120), .allocate 40, .allocate 72,
    .allocate 400, .release (some 7), .resize 16 50, .resize 384 100]) (by decide +kernel)

/-- **C08, violated: uninitialised entries count as memory in use.** An allocation that is refused can
leave the table longer than needed.  Only the mark `unlinked` of the new entry is set, so what the
memory contained before is added: 1216 bytes of 400 are reported to be in use when 8 are live. -/
theorem C08_usage_counts_junk :
    ∃ s, History 400 .first dirty false s [(120, 8)] ∧ usage s = 1216 :=
  reported_history (rs := [.allocate 8, .allocate 300]) (by decide +kernel)

end DuckLisp.Props

#print axioms DuckLisp.Props.C08_usage_partial
#print axioms DuckLisp.Props.C08_usage_counts_junk
