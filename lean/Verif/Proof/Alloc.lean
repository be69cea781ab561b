import Verif.Model.Alloc

/-!
# The allocator's table as a list of blocks

`Seg` is a block as seen by the proofs; `Rep s segs` says that the linked entries of the table are
exactly these blocks, in this order, tiling the managed memory.
-/

namespace DuckLisp.Alloc

/-- A block: the entry describing it, its size, whether it is handed out. -/
structure Seg where
  id : Nat
  size : Nat
  allocated : Bool
deriving DecidableEq, Repr

/-- The bytes the blocks take together. -/
def total : List Seg → Nat
  | [] => 0
  | g :: r => g.size + total r

/-- The entry of the first block, or `d`. -/
def headId (d : Int) : List Seg → Int
  | [] => d
  | g :: _ => g.id

/-- The entry of the last block, or `d`. -/
def lastId (d : Int) : List Seg → Int
  | [] => d
  | g :: r => lastId g.id r

/-- The entries of the table describe these blocks, from `off` on, between `prev` and `next`. -/
def Chain (t : List Entry) : Int → Nat → List Seg → Int → Prop
  | _, _, [], _ => True
  | prev, off, g :: r, next =>
    t[g.id]? = some ⟨off, prev, headId next r, g.size, g.allocated, false⟩ ∧
      Chain t g.id (off + g.size) r next

@[simp] theorem headId_nil (d : Int) : headId d [] = d := rfl
@[simp] theorem headId_cons (d : Int) (g : Seg) (r : List Seg) : headId d (g :: r) = g.id := rfl
@[simp] theorem lastId_nil (d : Int) : lastId d [] = d := rfl
@[simp] theorem lastId_cons (d : Int) (g : Seg) (r : List Seg) :
    lastId d (g :: r) = lastId g.id r := rfl

@[simp] theorem total_append (l r : List Seg) : total (l ++ r) = total l + total r := by
  induction l with
  | nil => simp [total]
  | cons a l ih => simp [total, ih]; omega

@[simp] theorem headId_append_cons (d : Int) (l : List Seg) (g : Seg) (r : List Seg) :
    headId d (l ++ g :: r) = headId g.id l := by cases l <;> rfl

@[simp] theorem lastId_append (d : Int) (l r : List Seg) :
    lastId d (l ++ r) = lastId (lastId d l) r := by
  induction l generalizing d with
  | nil => rfl
  | cons a l ih => simp [lastId, ih]

theorem chain_append {t : List Entry} {l r : List Seg} {prev next : Int} {off : Nat} :
    Chain t prev off (l ++ r) next ↔
      Chain t prev off l (headId next r) ∧ Chain t (lastId prev l) (off + total l) r next := by
  induction l generalizing prev off with
  | nil => simp [Chain, lastId, total]
  | cons a l ih =>
    have hh : headId next (l ++ r) = headId (headId next r) l := by cases l <;> rfl
    simp only [List.cons_append, Chain, ih, lastId, total, hh, Nat.add_assoc, and_assoc]

/-- The chain depends on the entries of its blocks only. -/
theorem Chain.congr {t t' : List Entry} {segs : List Seg} {prev next : Int} {off : Nat}
    (h : Chain t prev off segs next) (ht : ∀ g ∈ segs, t'[g.id]? = t[g.id]?) :
    Chain t' prev off segs next := by
  induction segs generalizing prev off with
  | nil => trivial
  | cons a l ih =>
    refine ⟨?_, ih h.2 fun g hg => ht g (List.mem_cons_of_mem _ hg)⟩
    rw [ht a (List.mem_cons_self ..)]
    exact h.1

/-- The table is the list of blocks. -/
structure Rep (s : State) (segs : List Seg) : Prop where
  chain : Chain s.table (-1) 0 segs (-1)
  first : s.firstBlock = headId (-1) segs
  nodup : (segs.map (·.id)).Nodup
  exact : ∀ (i : Nat) (e : Entry), s.table[i]? = some e → (e.unlinked = false ↔ i ∈ segs.map (·.id))
  total : total segs = s.size
  pos : ∀ g ∈ segs, 0 < g.size

/-- The entry of a block. -/
def entryOf (l : List Seg) (g : Seg) (r : List Seg) : Entry :=
  ⟨total l, lastId (-1) l, headId (-1) r, g.size, g.allocated, false⟩

theorem Rep.at {s : State} {l r : List Seg} {g : Seg} (h : Rep s (l ++ g :: r)) :
    s.table[g.id]? = some (entryOf l g r) := by
  have h1 := (chain_append.mp h.chain).2.1
  simpa [entryOf] using h1

theorem bind_eq {α β : Type} (m : AM α) (f : α → AM β) (s : State) :
    (m >>= f) s = match m s with
      | .ok a s' => f a s'
      | .error e s' => .error e s'
      | .undefined => .undefined
      | .endless => .endless := rfl

theorem bind_ok {α β : Type} {m : AM α} {f : α → AM β} {s s' : State} {a : α}
    (h : m s = .ok a s') : (m >>= f) s = f a s' := by simp [bind_eq, h]

theorem bind_error {α β : Type} {m : AM α} {f : α → AM β} {s s' : State} {e : DlError}
    (h : m s = .error e s') : (m >>= f) s = .error e s' := by simp [bind_eq, h]

theorem bind_undefined {α β : Type} {m : AM α} {f : α → AM β} {s : State}
    (h : m s = .undefined) : (m >>= f) s = .undefined := by simp [bind_eq, h]

@[simp] theorem pure_ap {α : Type} (a : α) (s : State) : (pure a : AM α) s = .ok a s := rfl

theorem entry_ok {i : Nat} {s : State} {e : Entry} (h : s.table[i]? = some e) :
    entry (i : Int) s = .ok e s := by
  simp [entry, h]

theorem update_ok {i : Nat} {f : Entry → Entry} {s : State} {e : Entry} (h : s.table[i]? = some e) :
    update (i : Int) f s = .ok () { s with table := s.table.set i (f e) } := by
  simp [update, h]

theorem get_set {t : List Entry} {i : Nat} {e : Entry} (h : t[i]? = some e) (v : Entry) (j : Nat) :
    (t.set i v)[j]? = if j = i then some v else t[j]? := by
  rw [List.getElem?_set]
  have hi : i < t.length := by
    rcases Nat.lt_or_ge i t.length with h' | h'
    · exact h'
    · rw [List.getElem?_eq_none h'] at h; cases h
  by_cases hji : j = i
  · subst hji; simp [hi]
  · have : ¬ i = j := fun h => hji h.symm
    simp [this, hji]


/-! ## Updates -/

/-- `t'` is `t` with every entry `j` replaced by `F j` of it. -/
def Upd (t t' : List Entry) (F : Nat → Entry → Entry) : Prop :=
  t'.length = t.length ∧ ∀ j, t'[j]? = (t[j]?).map (F j)

/-- Change entry `i` only. -/
def only (i : Nat) (f : Entry → Entry) : Nat → Entry → Entry := fun j e => if j = i then f e else e

theorem Upd.refl (t : List Entry) : Upd t t fun _ e => e := by
  refine ⟨rfl, fun j => ?_⟩
  cases t[j]? <;> rfl

theorem Upd.trans {t t' t'' : List Entry} {F G : Nat → Entry → Entry} (h : Upd t t' F)
    (h' : Upd t' t'' G) : Upd t t'' fun j e => G j (F j e) := by
  refine ⟨by rw [h'.1, h.1], fun j => ?_⟩
  rw [h'.2 j, h.2 j]
  cases t[j]? <;> rfl

theorem update_run {i : Nat} {f : Entry → Entry} {s : State} (h : i < s.table.length) :
    ∃ t', update (i : Int) f s = .ok () { s with table := t' } ∧ Upd s.table t' (only i f) := by
  have he : s.table[i]? = some s.table[i] := List.getElem?_eq_getElem h
  refine ⟨_, update_ok he, by simp, fun j => ?_⟩
  rw [get_set he]
  by_cases hj : j = i
  · subst hj; simp [he, only]
  · simp only [hj, if_false]
    cases s.table[j]? <;> simp [only, hj]

/-- Everything but the table and the first block is as before. -/
structure Same (s s' : State) : Prop where
  size : s'.size = s.size
  fit : s'.fit = s.fit
  recent : s'.mostRecentBlock = s.mostRecentBlock
  offset : s'.tableOffset = s.tableOffset
  index : s'.tableIndex = s.tableIndex
  junk : s'.junk = s.junk
  length : s'.table.length = s.table.length

theorem Same.refl (s : State) : Same s s := ⟨rfl, rfl, rfl, rfl, rfl, rfl, rfl⟩

theorem Same.trans {s s' s'' : State} (h : Same s s') (h' : Same s' s'') : Same s s'' :=
  ⟨h'.size.trans h.size, h'.fit.trans h.fit, h'.recent.trans h.recent, h'.offset.trans h.offset,
    h'.index.trans h.index, h'.junk.trans h.junk, h'.length.trans h.length⟩

/-- A chain whose first block gets another predecessor. -/
theorem chain_prev {t t' : List Entry} {r : List Seg} {p p' next : Int} {off : Nat}
    (h : Chain t p off r next) (hn : (r.map (·.id)).Nodup)
    (ht : ∀ g ∈ r, t'[g.id]? = (t[g.id]?).map fun e =>
      if headId (-1) r = g.id then { e with previousBlock := p' } else e) :
    Chain t' p' off r next := by
  cases r with
  | nil => trivial
  | cons q r =>
    refine ⟨?_, h.2.congr fun g hg => ?_⟩
    · rw [ht q (List.mem_cons_self ..), h.1]; simp [headId]
    · rw [ht g (List.mem_cons_of_mem _ hg)]
      have : ¬ (q.id : Int) = g.id := by
        intro hq
        simp only [List.map_cons, List.nodup_cons] at hn
        exact hn.1 (List.mem_map.mpr ⟨g, hg, by omega⟩)
      simp [headId, this]

theorem lastId_mem {l : List Seg} (d : Int) (hl : l ≠ []) : ∃ g ∈ l, lastId d l = g.id := by
  induction l generalizing d with
  | nil => exact absurd rfl hl
  | cons a l ih =>
    cases l with
    | nil => exact ⟨a, by simp, rfl⟩
    | cons b l =>
      obtain ⟨g, hg, he⟩ := ih (a.id) (by simp)
      exact ⟨g, List.mem_cons_of_mem _ hg, he⟩

theorem lastId_congr {l : List Seg} (d d' : Int) (hl : l ≠ []) : lastId d l = lastId d' l := by
  cases l with
  | nil => exact absurd rfl hl
  | cons a l => rfl

/-- A chain whose last block gets another successor. -/
theorem chain_next {t t' : List Entry} {l : List Seg} {p next next' : Int} {off : Nat}
    (h : Chain t p off l next) (hn : (l.map (·.id)).Nodup)
    (ht : ∀ g ∈ l, t'[g.id]? = (t[g.id]?).map fun e =>
      if lastId (-1) l = g.id then { e with nextBlock := next' } else e) :
    Chain t' p off l next' := by
  induction l generalizing p off with
  | nil => trivial
  | cons q l ih =>
    cases l with
    | nil =>
      refine ⟨?_, trivial⟩
      rw [ht q (by simp), h.1]; simp [lastId, headId]
    | cons b l =>
      have hne : ¬ lastId (-1) (q :: b :: l) = q.id := by
        obtain ⟨g, hg, he⟩ := lastId_mem (l := b :: l) (q.id) (by simp)
        intro hq
        simp only [List.map_cons, List.nodup_cons] at hn
        have : lastId (-1) (q :: b :: l) = lastId q.id (b :: l) := rfl
        rw [this, he] at hq
        exact hn.1 (by
          rw [← List.map_cons]
          exact List.mem_map.mpr ⟨g, hg, by omega⟩)
      refine ⟨?_, ih h.2 (by simp only [List.map_cons, List.nodup_cons] at hn ⊢; exact hn.2) ?_⟩
      · rw [ht q (by simp), h.1]
        simp only [Option.map_some, hne, if_false]
        rfl
      · intro g hg
        rw [ht g (List.mem_cons_of_mem _ hg)]
        rfl

theorem Rep.lt {s : State} {segs : List Seg} (h : Rep s segs) {g : Seg} (hg : g ∈ segs) :
    g.id < s.table.length := by
  obtain ⟨l, r, rfl⟩ := List.append_of_mem hg
  have := h.at
  rcases Nat.lt_or_ge g.id s.table.length with h' | h'
  · exact h'
  · rw [List.getElem?_eq_none h'] at this; cases this

/-- Replacing the blocks `m` in the middle by `m'`. -/
theorem Rep.replace {s s' : State} {l m m' r : List Seg} {F : Nat → Entry → Entry}
    (h : Rep s (l ++ m ++ r)) (hu : Upd s.table s'.table F) (hs : s'.size = s.size)
    (hf : s'.firstBlock = headId (headId (headId (-1) r) m') l)
    (ht : Alloc.total m' = Alloc.total m) (hp : ∀ g ∈ m', 0 < g.size)
    (hm' : (m'.map (·.id)).Nodup)
    (hd : ∀ g ∈ m', g.id ∉ l.map (·.id) ∧ g.id ∉ r.map (·.id))
    (hc : Chain s'.table (lastId (-1) l) (Alloc.total l) m' (headId (-1) r))
    (hl : ∀ g ∈ l, ∀ e, s.table[g.id]? = some e → F g.id e =
      if lastId (-1) l = g.id then { e with nextBlock := headId (headId (-1) r) m' } else e)
    (hr : ∀ g ∈ r, ∀ e, s.table[g.id]? = some e → F g.id e =
      if headId (-1) r = g.id then { e with previousBlock := lastId (lastId (-1) l) m' } else e)
    (hmem : ∀ i e, s.table[i]? = some e → i ∉ l.map (·.id) → i ∉ r.map (·.id) →
      ((F i e).unlinked = false ↔ i ∈ m'.map (·.id))) :
    Rep s' (l ++ m' ++ r) := by
  have hcl := chain_append.mp h.chain
  have hcl2 := chain_append.mp hcl.1
  have hnd := h.nodup
  simp only [List.map_append] at hnd
  have hnd1 := List.nodup_append.mp hnd
  have hnd2 := List.nodup_append.mp hnd1.1
  have hheads : ∀ x y : List Seg, ∀ d, headId d (x ++ y) = headId (headId d y) x := by
    intro x y d; cases x <;> rfl
  have hget : ∀ g : Seg, g ∈ l ++ m ++ r → ∃ e, s.table[g.id]? = some e := by
    intro g hg
    exact ⟨_, List.getElem?_eq_getElem (h.lt hg)⟩
  refine ⟨?_, ?_, ?_, ?_, ?_, ?_⟩
  · rw [chain_append, chain_append]
    refine ⟨⟨?_, ?_⟩, ?_⟩
    · refine chain_next hcl2.1 hnd2.1 ?_
      intro g hg
      obtain ⟨e, he⟩ := hget g (by simp [hg])
      rw [hu.2, he]
      simp only [Option.map_some, hl g hg e he]
    · rw [Nat.zero_add]; exact hc
    · rw [total_append, ht, ← total_append]
      refine chain_prev hcl.2 hnd1.2.1 ?_
      intro g hg
      obtain ⟨e, he⟩ := hget g (by simp [hg])
      rw [hu.2, he, lastId_append]
      simp only [Option.map_some, hr g hg e he]
  · rw [hf, hheads, hheads]
  · simp only [List.map_append]
    refine List.nodup_append.mpr ⟨List.nodup_append.mpr ⟨hnd2.1, hm', ?_⟩, hnd1.2.1, ?_⟩
    · intro a ha b hb hab
      subst hab
      obtain ⟨g, hg, rfl⟩ := List.mem_map.mp hb
      exact (hd g hg).1 ha
    · intro a ha b hb hab
      subst hab
      rcases List.mem_append.mp ha with ha | ha
      · exact hnd1.2.2 a (List.mem_append.mpr (Or.inl ha)) a hb rfl
      · obtain ⟨g, hg, rfl⟩ := List.mem_map.mp ha
        exact (hd g hg).2 hb
  · intro i e' he'
    rw [hu.2] at he'
    cases he : s.table[i]? with
    | none => rw [he] at he'; cases he'
    | some e =>
      rw [he] at he'
      simp only [Option.map_some, Option.some.injEq] at he'
      subst he'
      simp only [List.map_append, List.mem_append]
      by_cases hil : i ∈ l.map (·.id)
      · obtain ⟨g, hg, rfl⟩ := List.mem_map.mp hil
        have hex := (h.exact _ _ he).mpr (by simp only [List.map_append, List.mem_append]; exact Or.inl (Or.inl hil))
        rw [hl g hg e he]
        split <;> simp [hex, hil]
      · by_cases hir : i ∈ r.map (·.id)
        · obtain ⟨g, hg, rfl⟩ := List.mem_map.mp hir
          have hex := (h.exact _ _ he).mpr (by simp only [List.map_append, List.mem_append]; exact Or.inr hir)
          rw [hr g hg e he]
          split <;> simp [hex, hir]
        · rw [hmem i e he hil hir]
          simp [hil, hir]
  · rw [total_append, total_append, ht, ← total_append, ← total_append, h.total, hs]
  · intro g hg
    simp only [List.mem_append] at hg
    rcases hg with (hg | hg) | hg
    · exact h.pos g (by simp [hg])
    · exact hp g hg
    · exact h.pos g (by simp [hg])

/-! ## The operations on the chain -/

/-- Ids of the blocks of a list without repetition. -/
theorem Rep.ids {s : State} {l r : List Seg} {g : Seg} (h : Rep s (l ++ g :: r)) :
    g.id ∉ l.map (·.id) ∧ g.id ∉ r.map (·.id) := by
  have hn := h.nodup
  simp only [List.map_append, List.map_cons] at hn
  have h1 := List.nodup_append.mp hn
  have h2 := List.nodup_cons.mp h1.2.1
  refine ⟨fun hl => h1.2.2 _ hl _ (List.mem_cons_self ..) rfl, h2.1⟩

theorem nat_cast_ne {a b : Nat} (h : a ≠ b) : ¬ (a : Int) = b := by omega

theorem nat_ne_neg (a : Nat) : (a : Int) ≠ -1 := by omega

theorem chain_next_self {t : List Entry} {l : List Seg} {p next : Int} {off : Nat}
    (h : Chain t p off l next) (hn : (l.map (·.id)).Nodup) {g : Seg} (hg : g ∈ l) {e : Entry}
    (he : t[g.id]? = some e) :
    (if lastId (-1) l = g.id then { e with nextBlock := next } else e) = e := by
  split
  case isFalse => rfl
  case isTrue hl =>
    induction l generalizing p off with
    | nil => cases hg
    | cons q l ih =>
      cases l with
      | nil =>
        simp only [List.mem_singleton] at hg
        subst hg
        have h1 := h.1
        rw [he] at h1
        cases h1
        rfl
      | cons b l =>
        have hn' := hn
        simp only [List.map_cons, List.nodup_cons] at hn'
        rcases List.mem_cons.mp hg with rfl | hg
        · obtain ⟨k, hk, hke⟩ := lastId_mem (l := b :: l) (g.id) (by simp)
          have : lastId (-1) (g :: b :: l) = lastId g.id (b :: l) := rfl
          rw [this, hke] at hl
          exact absurd (List.mem_map.mpr ⟨k, hk, by omega⟩) hn'.1
        · exact ih h.2 (by simpa using hn'.2) hg hl

theorem chain_prev_self {t : List Entry} {r : List Seg} {p next : Int} {off : Nat}
    (h : Chain t p off r next) {g : Seg} {e : Entry} (he : t[g.id]? = some e) :
    (if headId (-1) r = g.id then { e with previousBlock := p } else e) = e := by
  split
  case isFalse => rfl
  case isTrue hl =>
    cases r with
    | nil => exact absurd hl (by simp [headId])
    | cons q r =>
      have hq : q.id = g.id := by simp only [headId] at hl; omega
      have h1 := h.1
      rw [hq, he] at h1
      cases h1
      rfl

theorem headId_app (x y : List Seg) (d : Int) : headId d (x ++ y) = headId (headId d y) x := by
  cases x <;> rfl

/-- Replacing the blocks `m` in the middle by `m'` that begin with the same entry. -/
theorem Rep.replaceTail {s s' : State} {l m m' r : List Seg} {F : Nat → Entry → Entry}
    (h : Rep s (l ++ m ++ r)) (hu : Upd s.table s'.table F) (hs : s'.size = s.size)
    (hf : s'.firstBlock = s.firstBlock)
    (hh : headId (headId (-1) r) m' = headId (headId (-1) r) m)
    (ht : Alloc.total m' = Alloc.total m) (hp : ∀ g ∈ m', 0 < g.size)
    (hm' : (m'.map (·.id)).Nodup)
    (hd : ∀ g ∈ m', g.id ∉ l.map (·.id) ∧ g.id ∉ r.map (·.id))
    (hc : Chain s'.table (lastId (-1) l) (Alloc.total l) m' (headId (-1) r))
    (hl : ∀ g ∈ l, ∀ e, s.table[g.id]? = some e → F g.id e = e)
    (hr : ∀ g ∈ r, ∀ e, s.table[g.id]? = some e → F g.id e =
      if headId (-1) r = g.id then { e with previousBlock := lastId (lastId (-1) l) m' } else e)
    (hmem : ∀ i e, s.table[i]? = some e → i ∉ l.map (·.id) → i ∉ r.map (·.id) →
      ((F i e).unlinked = false ↔ i ∈ m'.map (·.id))) :
    Rep s' (l ++ m' ++ r) := by
  refine Rep.replace h hu hs ?_ ht hp hm' hd hc ?_ hr hmem
  · rw [hf, h.first, headId_app, headId_app, hh]
  · intro g hg e he
    rw [hl g hg e he, hh]
    have hn := h.nodup
    simp only [List.map_append] at hn
    exact (chain_next_self (chain_append.mp (chain_append.mp h.chain).1).1
      (List.nodup_append.mp (List.nodup_append.mp hn).1).1 hg he).symm

/-- Marking a block. -/
theorem mark_ok {s : State} {l r : List Seg} {g : Seg} (h : Rep s (l ++ g :: r)) (b : Bool) :
    ∃ s', update (g.id : Int) (fun e => { e with allocated := b }) s = .ok () s' ∧
      Rep s' (l ++ { g with allocated := b } :: r) ∧ Same s s' := by
  have hlt : g.id < s.table.length := h.lt (by simp)
  obtain ⟨t1, h1, u1⟩ := update_run (f := fun e => { e with allocated := b }) hlt
  have hid := h.ids
  refine ⟨_, h1, ?_, ⟨rfl, rfl, rfl, rfl, rfl, rfl, u1.1⟩⟩
  have hre := Rep.replaceTail (s := s) (s' := { s with table := t1 }) (l := l) (m := [g])
    (m' := [{ g with allocated := b }]) (r := r) (F := only g.id fun e => { e with allocated := b })
    (by simpa using h) u1 rfl rfl rfl rfl
    (by simpa using h.pos g (by simp)) (by simp) (by simpa using hid)
    (by
      refine ⟨?_, trivial⟩
      show t1[g.id]? = _
      rw [u1.2, h.at]
      simp [only, entryOf, headId])
    (by
      intro q hq e he
      have hne : q.id ≠ g.id := fun hc => hid.1 (List.mem_map.mpr ⟨q, hq, hc⟩)
      simp [only, hne])
    (by
      intro q hq e he
      have hne : q.id ≠ g.id := fun hc => hid.2 (List.mem_map.mpr ⟨q, hq, hc⟩)
      simp only [only, hne, if_false]
      exact (chain_prev_self (chain_append.mp h.chain).2.2 he).symm)
    (by
      intro i e he hil hir
      have hx := h.exact i e he
      simp only [List.map_append, List.map_cons, List.mem_append, List.mem_cons] at hx
      simp only [List.map_cons, List.map_nil, List.mem_singleton]
      by_cases hi : i = g.id
      · subst hi; simp [only, hx]
      · simp only [only, hi, if_false, hx]
        simp [hi, hil, hir])
  simpa using hre

/-- Giving the block that follows, if there is one, another predecessor. -/
theorem relink {s : State} {r : List Seg} {v : Int} (hr : ∀ q ∈ r, q.id < s.table.length) :
    ∃ t3, setPrevious (headId (-1) r) v s = .ok () { s with table := t3 } ∧
      Upd s.table t3 fun j e => if headId (-1) r = j then { e with previousBlock := v } else e := by
  cases r with
  | nil =>
    refine ⟨s.table, by simp [headId, setPrevious], ?_⟩
    have : ∀ j : Nat, ¬ (-1 : Int) = j := by intro j; omega
    simpa [headId, this] using Upd.refl s.table
  | cons q r =>
    obtain ⟨t3, h3, u3⟩ := update_run (s := s) (i := q.id)
      (f := fun e => { e with previousBlock := v }) (hr q (by simp))
    refine ⟨t3, ?_, ?_⟩
    · show setPrevious (q.id : Int) v s = _
      unfold setPrevious
      rw [if_pos (nat_ne_neg _)]
      exact h3
    · have : (fun (j : Nat) (e : Entry) => if headId (-1) (q :: r) = j then
          { e with previousBlock := v } else e) =
          only q.id fun e => { e with previousBlock := v } := by
        funext j e
        simp only [headId, only]
        by_cases hj : j = q.id
        · subst hj; simp
        · have : ¬ (q.id : Int) = j := by omega
          simp [hj, this]
      rw [this]
      exact u3

/-- Merging with a free block that follows. -/
theorem mergeAfter_ok {s : State} {l r : List Seg} {g k : Seg} (h : Rep s (l ++ g :: k :: r))
    (hk : k.allocated = false) :
    ∃ s', mergeBlockAfter (g.id : Int) s = .ok true s' ∧
      Rep s' (l ++ { g with size := g.size + k.size } :: r) ∧ Same s s' ∧
      s'.firstBlock = s.firstBlock := by
  have hg := h.at
  have hid := h.ids
  have h2 : Rep s ((l ++ [g]) ++ k :: r) := by simpa using h
  have hke := h2.at
  have hkid := h2.ids
  have hgl : g.id < s.table.length := h.lt (by simp)
  have hkl : k.id < s.table.length := h.lt (by simp)
  have hgk : g.id ≠ k.id := fun hc => hid.2 (by simp [hc])
  have hrlt : ∀ q ∈ r, q.id < s.table.length := fun q hq => h.lt (by simp [hq])
  have hrk : ∀ q ∈ r, q.id ≠ k.id := fun q hq hc => hkid.2 (List.mem_map.mpr ⟨q, hq, hc⟩)
  have hrg : ∀ q ∈ r, q.id ≠ g.id := fun q hq hc => hid.2 (by
    simp only [List.map_cons, List.mem_cons]
    exact Or.inr (List.mem_map.mpr ⟨q, hq, hc⟩))
  have hlg : ∀ q ∈ l, q.id ≠ g.id := fun q hq hc => hid.1 (List.mem_map.mpr ⟨q, hq, hc⟩)
  have hlk : ∀ q ∈ l, q.id ≠ k.id := fun q hq hc => hkid.1 (by
    simp only [List.map_append, List.mem_append]
    exact Or.inl (List.mem_map.mpr ⟨q, hq, hc⟩))
  have hlr : ∀ q ∈ l, ∀ q' ∈ r, q.id ≠ q'.id := by
    intro q hq q' hq' hc
    have hn := h.nodup
    simp only [List.map_append, List.map_cons] at hn
    exact (List.nodup_append.mp hn).2.2 _ (List.mem_map.mpr ⟨q, hq, rfl⟩) _
      (List.mem_cons_of_mem _ (List.mem_cons_of_mem _ (List.mem_map.mpr ⟨q', hq', rfl⟩))) hc
  -- the updates
  obtain ⟨t1, h1, u1⟩ := update_run (f := fun e => { e with size := e.size + k.size }) hgl
  obtain ⟨t2, hh2, u2⟩ := update_run (s := { s with table := t1 }) (i := g.id)
    (f := fun e => { e with nextBlock := headId (-1) r }) (by show _ < t1.length; rw [u1.1]; exact hgl)
  have u12 := u1.trans u2
  obtain ⟨t3, h3, u3⟩ := relink (s := { s with table := t2 }) (r := r) (v := (g.id : Int))
    (by intro q hq; show _ < t2.length; rw [u12.1]; exact hrlt q hq)
  have u123 := u12.trans u3
  obtain ⟨t4, h4, u4⟩ := update_run (s := { s with table := t3 }) (i := k.id)
    (f := fun e => { e with unlinked := true }) (by show _ < t3.length; rw [u123.1]; exact hkl)
  have u := u123.trans u4
  refine ⟨{ s with table := t4 }, ?_, ?_, ⟨rfl, rfl, rfl, rfl, rfl, rfl, u.1⟩, rfl⟩
  · unfold mergeBlockAfter
    rw [bind_ok (entry_ok hg)]
    have hn : (entryOf l g (k :: r)).nextBlock = (k.id : Int) := rfl
    simp only [hn]
    rw [if_pos (nat_ne_neg _), bind_ok (entry_ok hke)]
    have hka : (entryOf (l ++ [g]) k r).allocated = false := hk
    have hks : (entryOf (l ++ [g]) k r).size = k.size := rfl
    have hkn : (entryOf (l ++ [g]) k r).nextBlock = headId (-1) r := rfl
    simp only [hka, hks, hkn, Bool.not_false, if_true]
    rw [bind_ok h1, bind_ok hh2, bind_ok h3, bind_ok h4]
    rfl
  · have hhead : ∀ q ∈ l, ¬ headId (-1) r = (q.id : Int) := by
      intro q hq
      cases r with
      | nil => exact fun hc => by simp [headId] at hc
      | cons q' r => exact fun hc => hlr q hq q' (by simp) (by simp [headId] at hc; omega)
    have hheadg : ¬ headId (-1) r = (g.id : Int) := by
      cases r with
      | nil => exact fun hc => by simp [headId] at hc
      | cons q' r => exact fun hc => hrg q' (by simp) (by simp [headId] at hc; omega)
    have hre := Rep.replaceTail (s := s) (s' := { s with table := t4 }) (l := l) (m := [g, k])
      (m' := [{ g with size := g.size + k.size }]) (r := r) (by simpa using h) u rfl rfl rfl
      (by simp [Alloc.total]) (by
        intro q hq; simp only [List.mem_singleton] at hq; subst hq
        have := h.pos g (by simp); show 0 < g.size + k.size; omega)
      (by simp) (by
        intro q hq; simp only [List.mem_singleton] at hq; subst hq
        exact ⟨hid.1, fun hc => hid.2 (by simp only [List.map_cons, List.mem_cons]; exact Or.inr hc)⟩)
      (by
        refine ⟨?_, trivial⟩
        show t4[g.id]? = _
        rw [u.2, hg]
        simp [only, entryOf, hgk, hheadg])
      (by
        intro q hq e he
        simp [only, hlg q hq, hlk q hq, hhead q hq])
      (by
        intro q hq e he
        simp [only, hrg q hq, hrk q hq, lastId])
      (by
        intro i e he hil hir
        have hx := h.exact i e he
        simp only [List.map_append, List.map_cons, List.mem_append, List.mem_cons] at hx
        simp only [List.map_cons, List.map_nil, List.mem_singleton]
        have hi2 : ¬ headId (-1) r = (i : Int) := by
          cases r with
          | nil => exact fun hc => by simp [headId] at hc
          | cons q' r => exact fun hc => hir (by simp [headId] at hc ⊢; omega)
        by_cases hi : i = g.id
        · subst hi; simp [only, hgk, hheadg, hx]
        · by_cases hik : i = k.id
          · simp [only, hik, hgk.symm]
          · simp only [only, hi, hik, if_false, hi2, hx]
            simp [hil, hir])
    simpa using hre

/-- No merging when the block that follows is handed out or there is none. -/
theorem mergeAfter_no {s : State} {l r : List Seg} {g : Seg} (h : Rep s (l ++ g :: r))
    (hr : ∀ k r', r = k :: r' → k.allocated = true) :
    mergeBlockAfter (g.id : Int) s = .ok false s := by
  unfold mergeBlockAfter
  rw [bind_ok (entry_ok h.at)]
  cases r with
  | nil => simp [entryOf, headId]
  | cons k r =>
    have h2 : Rep s ((l ++ [g]) ++ k :: r) := by simpa using h
    have hn : (entryOf l g (k :: r)).nextBlock = (k.id : Int) := rfl
    simp only [hn]
    rw [if_pos (nat_ne_neg _), bind_ok (entry_ok h2.at)]
    have := hr k r rfl
    simp [entryOf, this]

/-- Giving the block before, if there is one, another successor. -/
theorem relinkLeft {s : State} {l : List Seg} {v : Int} (hl : ∀ q ∈ l, q.id < s.table.length) :
    ∃ t3, setNext (lastId (-1) l) v s =
        .ok () { s with table := t3, firstBlock := if l = [] then v else s.firstBlock } ∧
      Upd s.table t3 fun j e => if lastId (-1) l = j then { e with nextBlock := v } else e := by
  by_cases hn : l = []
  · subst hn
    refine ⟨s.table, by simp [setNext, AM.modify], ?_⟩
    have : ∀ j : Nat, ¬ (-1 : Int) = j := by intro j; omega
    simpa [this] using Upd.refl s.table
  · obtain ⟨q, hq, hqe⟩ := lastId_mem (-1) hn
    obtain ⟨t3, h3, u3⟩ := update_run (s := s) (i := q.id)
      (f := fun e => { e with nextBlock := v }) (hl q hq)
    refine ⟨t3, ?_, ?_⟩
    · rw [hqe]
      unfold setNext
      rw [if_neg (nat_ne_neg _), h3]
      simp [hn]
    · rw [hqe]
      have : (fun (j : Nat) (e : Entry) => if (q.id : Int) = j then { e with nextBlock := v } else e) =
          only q.id fun e => { e with nextBlock := v } := by
        funext j e
        simp only [only]
        by_cases hj : j = q.id
        · subst hj; simp
        · have : ¬ (q.id : Int) = j := by omega
          simp [hj, this]
      rw [this]
      exact u3

/-- Merging with a free block before. -/
theorem mergeBefore_ok {s : State} {l r : List Seg} {g k : Seg} (h : Rep s (l ++ k :: g :: r))
    (hk : k.allocated = false) :
    ∃ s', mergeBlockBefore (g.id : Int) s = .ok true s' ∧
      Rep s' (l ++ { g with size := g.size + k.size } :: r) ∧ Same s s' := by
  have hke := h.at
  have hkid := h.ids
  have h2 : Rep s ((l ++ [k]) ++ g :: r) := by simpa using h
  have hg := h2.at
  have hid := h2.ids
  have hgl : g.id < s.table.length := h.lt (by simp)
  have hkl : k.id < s.table.length := h.lt (by simp)
  have hgk : g.id ≠ k.id := fun hc => hkid.2 (by simp [hc])
  have hllt : ∀ q ∈ l, q.id < s.table.length := fun q hq => h.lt (by simp [hq])
  have hrg : ∀ q ∈ r, q.id ≠ g.id := fun q hq hc => hid.2 (List.mem_map.mpr ⟨q, hq, hc⟩)
  have hrk : ∀ q ∈ r, q.id ≠ k.id := fun q hq hc => hkid.2 (by
    simp only [List.map_cons, List.mem_cons]
    exact Or.inr (List.mem_map.mpr ⟨q, hq, hc⟩))
  have hlk : ∀ q ∈ l, q.id ≠ k.id := fun q hq hc => hkid.1 (List.mem_map.mpr ⟨q, hq, hc⟩)
  have hlg : ∀ q ∈ l, q.id ≠ g.id := fun q hq hc => hid.1 (by
    simp only [List.map_append, List.mem_append]
    exact Or.inl (List.mem_map.mpr ⟨q, hq, hc⟩))
  have hlr : ∀ q ∈ l, ∀ q' ∈ r, q.id ≠ q'.id := by
    intro q hq q' hq' hc
    have hn := h.nodup
    simp only [List.map_append, List.map_cons] at hn
    exact (List.nodup_append.mp hn).2.2 _ (List.mem_map.mpr ⟨q, hq, rfl⟩) _
      (List.mem_cons_of_mem _ (List.mem_cons_of_mem _ (List.mem_map.mpr ⟨q', hq', rfl⟩))) hc
  obtain ⟨t1, h1, u1⟩ := update_run (f := fun e => { e with size := e.size + k.size }) hgl
  obtain ⟨t2, hh2, u2⟩ := update_run (s := { s with table := t1 }) (i := g.id)
    (f := fun e => { e with block := e.block - k.size }) (by show _ < t1.length; rw [u1.1]; exact hgl)
  have u12 := u1.trans u2
  obtain ⟨t2', hh2', u2'⟩ := update_run (s := { s with table := t2 }) (i := g.id)
    (f := fun e => { e with previousBlock := lastId (-1) l })
    (by show _ < t2.length; rw [u12.1]; exact hgl)
  have u122 := u12.trans u2'
  obtain ⟨t3, h3, u3⟩ := relinkLeft (s := { s with table := t2' }) (l := l) (v := (g.id : Int))
    (by intro q hq; show _ < t2'.length; rw [u122.1]; exact hllt q hq)
  have u123 := u122.trans u3
  obtain ⟨t4, h4, u4⟩ := update_run
    (s := { s with table := t3, firstBlock := if l = [] then (g.id : Int) else s.firstBlock }) (i := k.id)
    (f := fun e => { e with unlinked := true }) (by show _ < t3.length; rw [u123.1]; exact hkl)
  have u := u123.trans u4
  refine ⟨{ s with table := t4, firstBlock := if l = [] then (g.id : Int) else s.firstBlock }, ?_, ?_,
    ⟨rfl, rfl, rfl, rfl, rfl, rfl, u.1⟩⟩
  · unfold mergeBlockBefore
    rw [bind_ok (entry_ok hg)]
    have hn : (entryOf (l ++ [k]) g r).previousBlock = (k.id : Int) := by simp [entryOf]
    simp only [hn]
    rw [if_pos (nat_ne_neg _), bind_ok (entry_ok hke)]
    have hka : (entryOf l k (g :: r)).allocated = false := hk
    have hks : (entryOf l k (g :: r)).size = k.size := rfl
    have hkn : (entryOf l k (g :: r)).previousBlock = lastId (-1) l := rfl
    have hgb : (entryOf (l ++ [k]) g r).block = Alloc.total l + k.size := by
      simp [entryOf, Alloc.total]
    simp only [hka, hks, hkn, hgb, Bool.not_false, if_true]
    have hreq : require (decide (k.size ≤ Alloc.total l + k.size)) s = .ok () s := by
      simp [require]
    rw [bind_ok hreq, bind_ok h1, bind_ok hh2, bind_ok hh2', bind_ok h3, bind_ok h4]
    rfl
  · have hlastg : ¬ lastId (-1) l = (g.id : Int) := by
      by_cases hn : l = []
      · subst hn; simp
      · obtain ⟨q, hq, hqe⟩ := lastId_mem (-1) hn
        rw [hqe]
        exact nat_cast_ne (hlg q hq)
    have hlastr : ∀ q ∈ r, ¬ lastId (-1) l = (q.id : Int) := by
      intro q' hq'
      by_cases hn : l = []
      · subst hn; simp
      · obtain ⟨q, hq, hqe⟩ := lastId_mem (-1) hn
        rw [hqe]
        exact nat_cast_ne (hlr q hq q' hq')
    have hre := Rep.replace (s := s)
      (s' := { s with table := t4, firstBlock := if l = [] then (g.id : Int) else s.firstBlock })
      (l := l) (m := [k, g])
      (m' := [{ g with size := g.size + k.size }]) (r := r) (by simpa using h) u rfl
      (by
        show (if l = [] then (g.id : Int) else s.firstBlock) = _
        by_cases hn : l = []
        · subst hn; simp
        · rw [if_neg hn, h.first, headId_app]
          cases l with
          | nil => exact absurd rfl hn
          | cons a l => rfl)
      (by simp [Alloc.total]; omega) (by
        intro q hq; simp only [List.mem_singleton] at hq; subst hq
        have := h.pos g (by simp); show 0 < g.size + k.size; omega)
      (by simp) (by
        intro q hq; simp only [List.mem_singleton] at hq; subst hq
        refine ⟨fun hc => hid.1 (by simp only [List.map_append, List.mem_append]; exact Or.inl hc), hid.2⟩)
      (by
        refine ⟨?_, trivial⟩
        show t4[g.id]? = _
        rw [u.2, hg]
        simp [only, entryOf, hgk, hlastg, Alloc.total])
      (by
        intro q hq e he
        simp [only, hlg q hq, hlk q hq])
      (by
        intro q hq e he
        simp only [only, hrg q hq, hrk q hq, hlastr q hq, if_false]
        exact (chain_prev_self (chain_append.mp h.chain).2.2.2 he).symm)
      (by
        intro i e he hil hir
        have hx := h.exact i e he
        simp only [List.map_append, List.map_cons, List.mem_append, List.mem_cons] at hx
        simp only [List.map_cons, List.map_nil, List.mem_singleton]
        have hi2 : ¬ lastId (-1) l = (i : Int) := by
          by_cases hn : l = []
          · subst hn; simp
          · obtain ⟨q, hq, hqe⟩ := lastId_mem (-1) hn
            rw [hqe]
            exact nat_cast_ne (fun hc => hil (List.mem_map.mpr ⟨q, hq, hc⟩))
        by_cases hi : i = g.id
        · subst hi; simp [only, hgk, hlastg, hx]
        · by_cases hik : i = k.id
          · simp [only, hik, hgk.symm]
          · simp only [only, hi, hik, if_false, hi2, hx]
            simp [hil, hir])
    simpa using hre

/-- No merging when the block before is handed out or there is none. -/
theorem mergeBefore_no {s : State} {l r : List Seg} {g : Seg} (h : Rep s (l ++ g :: r))
    (hl : ∀ k l', l = l' ++ [k] → k.allocated = true) :
    mergeBlockBefore (g.id : Int) s = .ok false s := by
  unfold mergeBlockBefore
  rw [bind_ok (entry_ok h.at)]
  rcases List.eq_nil_or_concat l with rfl | ⟨l', k, rfl⟩
  · simp [entryOf]
  · have h2 : Rep s (l' ++ k :: g :: r) := by simpa using h
    have hn : (entryOf (l'.concat k) g r).previousBlock = (k.id : Int) := by simp [entryOf]
    simp only [hn]
    rw [if_pos (nat_ne_neg _), bind_ok (entry_ok h2.at)]
    have := hl k l' (by simp)
    simp [entryOf, this]

/-- Splitting a block: the effect on the list. -/
theorem splitRep {s : State} {t' : List Entry} {F : Nat → Entry → Entry} {l r : List Seg} {g : Seg}
    {u idx : Nat} {eu : Entry} (h : Rep s (l ++ g :: r)) (hu : s.table[u]? = some eu)
    (huu : eu.unlinked = true) (h0 : 0 < idx) (h1 : idx < g.size) (up : Upd s.table t' F)
    (hFu : F u eu = ⟨total l + idx, g.id, headId (-1) r, g.size - idx, false, false⟩)
    (hFg : F g.id (entryOf l g r) = { entryOf l g r with size := idx, nextBlock := u })
    (hF : ∀ j e, j ≠ u → j ≠ g.id → F j e =
      if headId (-1) r = j then { e with previousBlock := (u : Int) } else e) :
    Rep { s with table := t' } (l ++ { g with size := idx } :: ⟨u, g.size - idx, false⟩ :: r) := by
  have hg := h.at
  have hid := h.ids
  have hnot : u ∉ (l ++ g :: r).map (·.id) := by
    intro hc
    have := (h.exact u eu hu).mpr hc
    rw [huu] at this
    cases this
  simp only [List.map_append, List.map_cons, List.mem_append, List.mem_cons, not_or] at hnot
  have hgu : g.id ≠ u := fun hc => hnot.2.1 hc.symm
  have hre := Rep.replaceTail (s := s) (s' := { s with table := t' }) (l := l) (m := [g])
    (m' := [{ g with size := idx }, ⟨u, g.size - idx, false⟩]) (r := r) (by simpa using h) up rfl rfl rfl
    (by simp [Alloc.total]; omega)
    (by
      intro q hq
      simp only [List.mem_cons, List.not_mem_nil, or_false] at hq
      rcases hq with rfl | rfl
      · exact h0
      · show 0 < g.size - idx; omega)
    (by simp [hgu])
    (by
      intro q hq
      simp only [List.mem_cons, List.not_mem_nil, or_false] at hq
      rcases hq with rfl | rfl
      · exact hid
      · exact ⟨hnot.1, hnot.2.2⟩)
    (by
      refine ⟨?_, ?_, trivial⟩
      · show t'[g.id]? = _
        rw [up.2, hg, Option.map_some, hFg]
        simp [entryOf]
      · show t'[u]? = _
        rw [up.2, hu, Option.map_some, hFu]
        simp)
    (by
      intro q hq e he
      have hne : q.id ≠ g.id := fun hc => hid.1 (List.mem_map.mpr ⟨q, hq, hc⟩)
      have hnu : q.id ≠ u := fun hc => hnot.1 (List.mem_map.mpr ⟨q, hq, hc⟩)
      rw [hF q.id e hnu hne, if_neg]
      cases r with
      | nil => simp
      | cons q' r =>
        have hn := h.nodup
        simp only [List.map_append, List.map_cons] at hn
        exact nat_cast_ne fun hc => (List.nodup_append.mp hn).2.2 _ (List.mem_map.mpr ⟨q, hq, rfl⟩) _
          (List.mem_cons_of_mem _ (List.mem_cons_self ..)) hc.symm)
    (by
      intro q hq e he
      have hne : q.id ≠ g.id := fun hc => hid.2 (List.mem_map.mpr ⟨q, hq, hc⟩)
      have hnu : q.id ≠ u := fun hc => hnot.2.2 (List.mem_map.mpr ⟨q, hq, hc⟩)
      rw [hF q.id e hnu hne]
      simp)
    (by
      intro i e he hil hir
      have hx := h.exact i e he
      simp only [List.map_append, List.map_cons, List.mem_append, List.mem_cons] at hx
      simp only [List.map_cons, List.map_nil, List.mem_cons, List.not_mem_nil, or_false]
      by_cases hi : i = u
      · subst hi
        rw [hu] at he; cases he
        rw [hFu]; simp
      · by_cases hig : i = g.id
        · subst hig
          rw [hg] at he; cases he
          rw [hFg]; simp [entryOf]
        · rw [hF i e hi hig]
          have hi2 : ¬ headId (-1) r = (i : Int) := by
            cases r with
            | nil => simp
            | cons q' r => exact fun hc => hir (by simp at hc ⊢; omega)
          rw [if_neg hi2, hx]
          simp [hi, hig, hil, hir])
  simpa using hre

theorem mem_unlinked {t : List Entry} {n : Nat}
    (h : (List.range t.length).find? (fun i =>
      match t[i]? with
      | some e => e.unlinked
      | none => false) = some n ∨
      (List.range t.length).reverse.find? (fun i =>
      match t[i]? with
      | some e => e.unlinked
      | none => false) = some n) :
    ∃ e, t[n]? = some e ∧ e.unlinked = true := by
  have hp : (match t[n]? with
      | some e => e.unlinked
      | none => false) = true := by
    rcases h with h | h
    · have := List.find?_some h; simpa using this
    · have := List.find?_some h; simpa using this
  cases he : t[n]? with
  | none => rw [he] at hp; cases hp
  | some e => rw [he] at hp; exact ⟨e, rfl, hp⟩

theorem exists_unlinked {t : List Entry} {n : Nat} {e : Entry} (h : t[n]? = some e)
    (hu : e.unlinked = true) : (∃ k, firstUnlinked t = some k) ∧ ∃ k, lastUnlinked t = some k := by
  have hn : n < t.length := by
    rcases Nat.lt_or_ge n t.length with h' | h'
    · exact h'
    · rw [List.getElem?_eq_none h'] at h; cases h
  have hmem : n ∈ List.range t.length := List.mem_range.mpr hn
  constructor
  · cases hf : firstUnlinked t with
    | some k => exact ⟨k, rfl⟩
    | none =>
      exact absurd (List.find?_eq_none.mp hf n hmem) (by simp [h, hu])
  · cases hf : lastUnlinked t with
    | some k => exact ⟨k, rfl⟩
    | none =>
      exact absurd (List.find?_eq_none.mp hf n (List.mem_reverse.mpr hmem)) (by simp [h, hu])

theorem filter_indices (t : List Entry) (p : Entry → Bool) :
    (t.filter p).length = ((List.range t.length).filter fun i => (t[i]?).any p).length := by
  induction t with
  | nil => rfl
  | cons a t ih =>
    have hmap : ((List.range t.length).map Nat.succ).filter (fun i => ((a :: t)[i]?).any p) =
        ((List.range t.length).filter fun i => (t[i]?).any p).map Nat.succ := by
      rw [List.filter_map]
      rfl
    rw [List.length_cons, List.range_succ_eq_map, List.filter_cons, List.filter_cons, hmap]
    by_cases hp : p a = true
    · simp [hp, ih]
    · simp [hp, ih]

/-- An entry that is not in use exists when there are more entries than blocks. -/
theorem Rep.unlinked {s : State} {segs : List Seg} (h : Rep s segs) :
    unlinkedEntries s.table + segs.length = s.table.length := by
  unfold unlinkedEntries
  rw [filter_indices]
  have hperm : (segs.map (·.id)).Perm ((List.range s.table.length).filter
      fun i => decide ¬ (s.table[i]?).any (·.unlinked) = true) := by
    rw [List.perm_ext_iff_of_nodup h.nodup (List.Pairwise.filter _ List.nodup_range)]
    intro i
    rw [List.mem_filter, List.mem_range]
    constructor
    · intro hi
      obtain ⟨g, hg, rfl⟩ := List.mem_map.mp hi
      have hlt := h.lt hg
      have he := List.getElem?_eq_getElem hlt
      have := (h.exact _ _ he).mpr hi
      refine ⟨hlt, ?_⟩
      rw [he]
      simp [this]
    · rintro ⟨hlt, hu⟩
      have he := List.getElem?_eq_getElem hlt
      rw [he] at hu
      exact (h.exact _ _ he).mp (by simpa using hu)
  have hlen := hperm.length_eq
  rw [List.length_map] at hlen
  have hsum := List.length_eq_countP_add_countP (fun i => (s.table[i]?).any (·.unlinked))
    (l := List.range s.table.length)
  rw [List.countP_eq_length_filter, List.countP_eq_length_filter, ← hlen, List.length_range] at hsum
  omega

theorem Rep.spare {s : State} {segs : List Seg} (h : Rep s segs) (hl : segs.length < s.table.length) :
    (∃ k, firstUnlinked s.table = some k) ∧ ∃ k, lastUnlinked s.table = some k := by
  have := h.unlinked
  have hpos : 0 < unlinkedEntries s.table := by omega
  unfold unlinkedEntries at hpos
  obtain ⟨e, he⟩ := List.exists_mem_of_length_pos hpos
  obtain ⟨hm, hu⟩ := List.mem_filter.mp he
  obtain ⟨n, hn⟩ := List.getElem?_of_mem hm
  exact exists_unlinked hn hu

/-- memory.c:662-708: splitting when an entry is spare. -/
theorem splitBlock_ok {s : State} {l r : List Seg} {g : Seg} {idx : Nat} (h : Rep s (l ++ g :: r))
    (hl : (l ++ g :: r).length < s.table.length) (h0 : 0 < idx) (h1 : idx < g.size) :
    ∃ s' u, splitBlock (g.id : Int) idx s = .ok () s' ∧
      Rep s' (l ++ { g with size := idx } :: ⟨u, g.size - idx, false⟩ :: r) ∧ Same s s' := by
  obtain ⟨⟨u, hu⟩, -⟩ := h.spare hl
  obtain ⟨eu, heu, huu⟩ := mem_unlinked (Or.inl hu)
  have hg := h.at
  have hul : u < s.table.length := by
    rcases Nat.lt_or_ge u s.table.length with h' | h'
    · exact h'
    · rw [List.getElem?_eq_none h'] at heu; cases heu
  have hgl : g.id < s.table.length := h.lt (by simp)
  have hnot : u ∉ (l ++ g :: r).map (·.id) := by
    intro hc
    have := (h.exact u eu heu).mpr hc
    rw [huu] at this
    cases this
  have hugne : g.id ≠ u := fun hc => hnot (by simp [hc])
  obtain ⟨t1, r1, u1⟩ := update_run (f := fun e => { e with allocated := false }) hul
  have hg1 : t1[g.id]? = some (entryOf l g r) := by rw [u1.2, hg]; simp [only, hugne]
  obtain ⟨t2, r2, u2⟩ := update_run (s := { s with table := t1 }) (i := u)
    (f := fun e => { e with block := total l + idx }) (by show _ < t1.length; rw [u1.1]; exact hul)
  have w2 := u1.trans u2
  obtain ⟨t3, r3, u3⟩ := update_run (s := { s with table := t2 }) (i := u)
    (f := fun e => { e with size := g.size - idx }) (by show _ < t2.length; rw [w2.1]; exact hul)
  have w3 := w2.trans u3
  obtain ⟨t4, r4, u4⟩ := update_run (s := { s with table := t3 }) (i := g.id)
    (f := fun e => { e with size := idx }) (by show _ < t3.length; rw [w3.1]; exact hgl)
  have w4 := w3.trans u4
  obtain ⟨t5, r5, u5⟩ := update_run (s := { s with table := t4 }) (i := u)
    (f := fun e => { e with nextBlock := headId (-1) r }) (by show _ < t4.length; rw [w4.1]; exact hul)
  have w5 := w4.trans u5
  obtain ⟨t6, r6, u6⟩ := relink (s := { s with table := t5 }) (r := r) (v := (u : Int))
    (by intro q hq; show _ < t5.length; rw [w5.1]; exact h.lt (by simp [hq]))
  have w6 := w5.trans u6
  obtain ⟨t7, r7, u7⟩ := update_run (s := { s with table := t6 }) (i := u)
    (f := fun e => { e with previousBlock := (g.id : Int) }) (by show _ < t6.length; rw [w6.1]; exact hul)
  have w7 := w6.trans u7
  obtain ⟨t8, r8, u8⟩ := update_run (s := { s with table := t7 }) (i := g.id)
    (f := fun e => { e with nextBlock := (u : Int) }) (by show _ < t7.length; rw [w7.1]; exact hgl)
  have w8 := w7.trans u8
  obtain ⟨t9, r9, u9⟩ := update_run (s := { s with table := t8 }) (i := u)
    (f := fun e => { e with unlinked := false }) (by show _ < t8.length; rw [w8.1]; exact hul)
  have w9 := w8.trans u9
  have hhu : ¬ headId (-1) r = (u : Int) := by
    cases r with
    | nil => simp
    | cons q' r => exact fun hc => hnot (by simp at hc ⊢; omega)
  have hhg : ¬ headId (-1) r = (g.id : Int) := by
    cases r with
    | nil => simp
    | cons q' r => exact fun hc => h.ids.2 (by simp at hc ⊢; omega)
  refine ⟨{ s with table := t9 }, u, ?_, splitRep h heu huu h0 h1 w9 ?_ ?_ ?_,
    ⟨rfl, rfl, rfl, rfl, rfl, rfl, w9.1⟩⟩
  · unfold splitBlock
    rw [bind_ok (show AM.get s = .ok s s from rfl)]
    simp only [hu]
    rw [bind_ok r1, bind_ok (entry_ok (s := { s with table := t1 }) hg1)]
    have e1 : (entryOf l g r).block = total l := rfl
    have e2 : (entryOf l g r).size = g.size := rfl
    have e3 : (entryOf l g r).nextBlock = headId (-1) r := rfl
    simp only [e1, e2, e3]
    rw [bind_ok r2, bind_ok r3, bind_ok r4, bind_ok r5, bind_ok r6, bind_ok r7, bind_ok r8, r9]
  · simp [only, hugne.symm, hhu]
  · simp [only, hugne, hhg]
  · intro j e hj hjg
    simp [only, hj, hjg]

/-! ## Searching -/

/-- The first free block that is large enough. -/
def pick (size : Nat) (segs : List Seg) : Option Seg :=
  segs.find? fun g => !g.allocated && decide (g.size ≥ size)

theorem findLoop_found {size : Nat} {fit : Fit} {fuel : Nat} {o : Int} {c : Int} {s : State}
    (ho : o ≠ -1) : findLoop size fit fuel o true c s = .ok o s := by
  unfold findLoop
  simp [ho]

theorem findLoop_ok {size : Nat} {fit : Fit} {s : State} {r : List Seg} {p : Int} {off fuel : Nat}
    (hc : Chain s.table p off r (-1)) (hf : r.length ≤ fuel) :
    findLoop size fit fuel (-1) false (headId (-1) r) s =
      match pick size r with
      | some g => .ok (g.id : Int) s
      | none => .error .outOfMemory s := by
  induction r generalizing p off fuel with
  | nil =>
    unfold findLoop
    simp [pick, AM.fail]
  | cons g r ih =>
    cases fuel with
    | zero => simp at hf
    | succ fuel =>
      have hf' : r.length ≤ fuel := by simpa using hf
      unfold findLoop
      have hne : ((false || headId (-1) (g :: r) == -1) = true) = False := by
        simp
      rw [if_neg (by rw [hne]; exact id)]
      simp only [headId_cons]
      rw [bind_ok (entry_ok hc.1)]
      simp only
      by_cases hp : (!g.allocated && decide (g.size ≥ size)) = true
      · rw [if_pos hp]
        simp only [beq_self_eq_true, if_true]
        rw [findLoop_found (nat_ne_neg _)]
        simp [pick, hp]
      · rw [if_neg hp, ih hc.2 hf']
        simp [pick, hp]

theorem findBlock_ok {size : Nat} {fit : Fit} {s : State} {segs : List Seg} (h : Rep s segs)
    (hfit : fit ≠ .next) :
    findBlock size fit s =
      match pick size segs with
      | some g => .ok (g.id : Int) s
      | none => .error .outOfMemory s := by
  have hl : segs.length ≤ s.table.length + 1 := by have := h.unlinked; omega
  unfold findBlock
  have hs : searchStart fit s = .ok s.firstBlock s := by
    unfold searchStart
    rw [bind_ok (show AM.get s = .ok s s from rfl), if_neg hfit]
    rfl
  rw [bind_ok hs, bind_ok (show AM.get s = .ok s s from rfl), h.first]
  exact findLoop_ok h.chain hl

theorem pick_some {size : Nat} {segs : List Seg} {g : Seg} (h : pick size segs = some g) :
    ∃ l r, segs = l ++ g :: r ∧ g.allocated = false ∧ size ≤ g.size := by
  have hp := List.find?_some h
  have hm := List.mem_of_find?_eq_some h
  obtain ⟨l, r, rfl⟩ := List.append_of_mem hm
  simp only [Bool.and_eq_true, Bool.not_eq_true', decide_eq_true_eq] at hp
  exact ⟨l, r, rfl, hp.1, hp.2⟩

theorem start_unique {l l' r r' : List Seg} {g g' : Seg} (he : l ++ g :: r = l' ++ g' :: r')
    (hp : ∀ q ∈ l ++ g :: r, 0 < q.size) (ht : total l = total l') : l = l' ∧ g = g' ∧ r = r' := by
  induction l generalizing l' with
  | nil =>
    cases l' with
    | nil => simp at he; exact ⟨rfl, he.1, he.2⟩
    | cons a l' =>
      simp only [List.nil_append, List.cons_append, List.cons.injEq] at he
      have := hp g (by simp)
      rw [he.1] at this
      simp [total] at ht
      omega
  | cons a l ih =>
    cases l' with
    | nil =>
      have := hp a (by simp)
      simp [total] at ht
      omega
    | cons a' l' =>
      simp only [List.cons_append, List.cons.injEq] at he
      obtain ⟨rfl, he⟩ := he
      simp only [total] at ht
      obtain ⟨rfl, rfl, rfl⟩ := ih he (fun q hq => hp q (by simp at hq ⊢; exact Or.inr hq)) (by omega)
      exact ⟨rfl, rfl, rfl⟩

/-- Linked entries are blocks. -/
theorem Rep.linked {s : State} {segs : List Seg} (h : Rep s segs) {i : Nat} {e : Entry}
    (he : s.table[i]? = some e) (hu : e.unlinked = false) :
    ∃ l g r, segs = l ++ g :: r ∧ g.id = i ∧ e = entryOf l g r := by
  have hi := (h.exact i e he).mp hu
  obtain ⟨g, hg, rfl⟩ := List.mem_map.mp hi
  obtain ⟨l, r, rfl⟩ := List.append_of_mem hg
  have := h.at
  rw [he] at this
  cases this
  exact ⟨l, g, r, rfl, rfl, rfl⟩

/-- The block that starts at `p` is found. -/
theorem pointer_ok {s : State} {l r : List Seg} {g : Seg} (h : Rep s (l ++ g :: r)) :
    pointerToBlock (total l) s = .ok (g.id : Int) s := by
  unfold pointerToBlock
  rw [bind_ok (show AM.get s = .ok s s from rfl)]
  cases hf : (List.range s.table.length).reverse.find? (fun i =>
      match s.table[i]? with
      | some e => !e.unlinked && e.block == total l
      | none => false) with
  | none =>
    have hlt := h.lt (g := g) (by simp)
    have := List.find?_eq_none.mp hf g.id (by simp [hlt])
    simp [h.at, entryOf] at this
  | some i =>
    have hp := List.find?_some hf
    simp only
    cases he : s.table[i]? with
    | none => simp [he] at hp
    | some e =>
      rw [he] at hp
      simp only [Bool.and_eq_true, Bool.not_eq_true', beq_iff_eq] at hp
      obtain ⟨l', g', r', hs, hi, rfl⟩ := h.linked he hp.1
      have := start_unique hs h.pos hp.2.symm
      rw [this.2.1, hi]
      rfl

/-- Nothing is found when no block starts at `p`. -/
theorem pointer_no {s : State} {segs : List Seg} {p : Nat} (h : Rep s segs)
    (hp : ∀ l g r, segs = l ++ g :: r → total l ≠ p) :
    pointerToBlock p s = .error .danglingPointer s := by
  unfold pointerToBlock
  rw [bind_ok (show AM.get s = .ok s s from rfl)]
  cases hf : (List.range s.table.length).reverse.find? (fun i =>
      match s.table[i]? with
      | some e => !e.unlinked && e.block == p
      | none => false) with
  | none => rfl
  | some i =>
    have hq := List.find?_some hf
    cases he : s.table[i]? with
    | none => simp [he] at hq
    | some e =>
      rw [he] at hq
      simp only [Bool.and_eq_true, Bool.not_eq_true', beq_iff_eq] at hq
      obtain ⟨l', g', r', hs, hi, rfl⟩ := h.linked he hq.1
      exact absurd hq.2 (hp l' g' r' hs)

end DuckLisp.Alloc
