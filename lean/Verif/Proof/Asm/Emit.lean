import Verif.Proof.Asm.Insert

/-!
# The code before the addresses are put in

Helper lemmas on the first loop of the assembler.
-/

namespace DuckLisp.Asm

open DuckLisp DuckLisp.VM

/-- The label an instruction names. -/
def names (i : Ins) : Option Nat := (linked i).map (·.1)

/-- The code of one instruction, before its address is known. -/
def Chunk (strip fixed : Bool) (i : Ins) (c : Bytes) : Prop :=
  match linked i with
  | some (_, o, suffix) =>
      c = code o (if fixed then .w32 else .w8) :: ((if fixed then [0, 0, 0, 0] else []) ++ suffix)
  | none =>
      match i with
      | .internalNop | .label _ => c = []
      | i => ∃ prev op args, encode strip prev i = some (op, args) ∧ c = op :: args

/-- The length of the first `k` pieces. -/
def pos (cs : List Bytes) (k : Nat) : Nat := (cs.take k).flatten.length

theorem pos_zero (cs : List Bytes) : pos cs 0 = 0 := rfl

theorem pos_cons (c : Bytes) (cs : List Bytes) (k : Nat) : pos (c :: cs) (k + 1) = c.length + pos cs k := by
  simp [pos]

theorem pos_succ {cs : List Bytes} {k : Nat} {c : Bytes} (h : cs[k]? = some c) :
    pos cs (k + 1) = pos cs k + c.length := by
  unfold pos
  rw [List.take_add_one, h]
  simp

theorem pos_mono (cs : List Bytes) {j k : Nat} (h : j ≤ k) : pos cs j ≤ pos cs k := by
  unfold pos
  rw [show cs.take j = (cs.take k).take j by rw [List.take_take, Nat.min_eq_left h]]
  have := List.take_append_drop j (cs.take k)
  rw [← this]
  simp only [List.flatten_append, List.length_append]
  rw [this]
  omega

theorem pos_le (cs : List Bytes) (k : Nat) : pos cs k ≤ cs.flatten.length := by
  have := pos_mono cs (j := k) (k := max k cs.length) (by omega)
  have h : pos cs (max k cs.length) = cs.flatten.length := by
    unfold pos
    rw [List.take_of_length_le (by omega)]
  omega

/-- The places at which addresses of label `l` go. -/
def sitesOf (l : Nat) : Nat → List Bytes → List Ins → List Nat
  | base, c :: cs, i :: is =>
      (if names i = some l then [base + 1] else []) ++ sitesOf l (base + c.length) cs is
  | _, _, _ => []

/-- What the loop has done. -/
structure Emitting (strip fixed : Bool) (s s' : Emit) (is : List Ins) (cs : List Bytes) : Prop where
  len : cs.length = is.length
  chunk : ∀ (k : Nat) (i : Ins) (c : Bytes), is[k]? = some i → cs[k]? = some c → Chunk strip fixed i c
  bytes : s'.bytes = s.bytes ++ cs.flatten
  labels : s'.labels.length = s.labels.length
  range : ∀ i ∈ is, ∀ l, names i = some l → l < s.labels.length
  sources : ∀ (l : Nat) (b b' : Label), s.labels[l]? = some b → s'.labels[l]? = some b' →
    b'.sources = b.sources ++ sitesOf l s.bytes.length cs is
  target : ∀ (l : Nat) (b' : Label), s'.labels[l]? = some b' → ∀ k : Nat, is[k]? = some (.label l) →
    b'.target = (s.bytes.length + pos cs k : Nat)
  missing : ∀ (l : Nat) (b b' : Label), s.labels[l]? = some b → s'.labels[l]? = some b' → Ins.label l ∉ is →
    b'.target = b.target
  set_ : ∀ (l : Nat) (b : Label), s.labels[l]? = some b → Ins.label l ∈ is → b.target = -1

/-- One instruction. -/
structure EmittingOne (strip fixed : Bool) (s s' : Emit) (i : Ins) (c : Bytes) : Prop where
  chunk : Chunk strip fixed i c
  bytes : s'.bytes = s.bytes ++ c
  labels : s'.labels.length = s.labels.length
  range : ∀ l, names i = some l → l < s.labels.length
  sources : ∀ (l : Nat) (b b' : Label), s.labels[l]? = some b → s'.labels[l]? = some b' →
    b'.sources = b.sources ++ if names i = some l then [s.bytes.length + 1] else []
  target : ∀ (l : Nat) (b' : Label), s'.labels[l]? = some b' → i = .label l → b'.target = (s.bytes.length : Int)
  missing : ∀ (l : Nat) (b b' : Label), s.labels[l]? = some b → s'.labels[l]? = some b' → i ≠ .label l →
    b'.target = b.target
  set_ : ∀ (l : Nat) (b : Label), s.labels[l]? = some b → i = .label l → b.target = -1

theorem emitIns_spec {strip fixed : Bool} {s s' : Emit} {i : Ins}
    (h : emitIns strip fixed s i = .ok s') : ∃ c, EmittingOne strip fixed s s' i c := by
  have plainCase : ∀ (hl : linked i = none) (c : Bytes) (ls : Option UInt8),
      (∀ l, i ≠ .label l) → Chunk strip fixed i c → s' = ⟨s.bytes ++ c, ls, s.labels⟩ →
      EmittingOne strip fixed s s' i c := by
    intro hl c ls hn hc hs
    subst hs
    have hnames : names i = none := by simp [names, hl]
    refine ⟨hc, rfl, rfl, fun l h => by (rw [hnames] at h; cases h), fun l b b' h1 h2 => ?_,
      fun l b' _ h => absurd h (hn l), fun l b b' h1 h2 _ => ?_, fun l b _ h => absurd h (hn l)⟩
    · rw [h1] at h2; cases h2
      rw [hnames]; simp
    · rw [h1] at h2; cases h2; rfl
  unfold emitIns at h
  split at h
  · cases h
    exact ⟨[], plainCase rfl [] s.last (fun l h => by cases h) rfl (by simp)⟩
  · rename_i l
    split at h
    · rename_i b hb
      split at h
      · rename_i ht
        cases h
        refine ⟨[], rfl, by simp, by simp, fun _ h => (by cases h), fun l' b1 b2 h1 h2 => ?_,
          fun l' b2 h2 he => ?_, fun l' b1 b2 h1 h2 hne => ?_, fun l' b1 h1 he => ?_⟩
        · simp only [names, linked, Option.map_none, reduceCtorEq, if_false, List.append_nil]
          rw [List.getElem?_set] at h2
          split at h2
          · rename_i he
            subst he
            rw [hb] at h1
            cases h1
            split at h2 <;> cases h2
            rfl
          · rw [h1] at h2; cases h2; rfl
        · cases he
          rw [List.getElem?_set_self (List.getElem?_eq_some_iff.1 hb).1] at h2
          cases h2
          rfl
        · rw [List.getElem?_set] at h2
          split at h2
          · rename_i he
            subst he
            exact absurd rfl hne
          · rw [h1] at h2; cases h2; rfl
        · cases he
          rw [hb] at h1
          cases h1
          exact ht
      · cases h
    · cases h
  · rename_i hnop hlab
    split at h
    · rename_i l o suffix hlk
      have hnm : names i = some l := by simp [names, hlk]
      split at h
      · rename_i b hb
        cases h
        refine ⟨code o (if fixed then .w32 else .w8) :: ((if fixed then [0, 0, 0, 0] else []) ++ suffix),
          ?_, by simp, by simp, fun l' h => ?_, fun l' b1 b2 h1 h2 => ?_,
          fun l' b2 h2 he => by (subst he; cases hlk), fun l' b1 b2 h1 h2 hne => ?_,
          fun l' b1 h1 he => by (subst he; cases hlk)⟩
        · unfold Chunk; rw [hlk]
        · rw [hnm] at h; cases h; exact (List.getElem?_eq_some_iff.1 hb).1
        · rw [hnm]
          rw [List.getElem?_set] at h2
          split at h2
          · rename_i he
            subst he
            rw [hb] at h1
            cases h1
            split at h2 <;> cases h2
            rw [if_pos rfl]
          · rename_i he
            rw [h1] at h2; cases h2
            rw [if_neg (by simpa using he)]
            simp
        · rw [List.getElem?_set] at h2
          split at h2
          · rename_i he
            subst he
            rw [hb] at h1
            cases h1
            split at h2 <;> cases h2
            rfl
          · rw [h1] at h2; cases h2; rfl
      · cases h
    · rename_i hlk
      split at h
      · rename_i op args he
        cases h
        refine ⟨op :: args, plainCase hlk (op :: args) (some op) (fun l h => hlab l h) ?_ rfl⟩
        unfold Chunk
        rw [hlk]
        cases i <;> first | exact absurd rfl hnop | exact absurd rfl (hlab _) | exact ⟨_, _, _, he, rfl⟩
      · cases h

theorem emitAll_spec {strip fixed : Bool} : ∀ (is : List Ins) (s s' : Emit),
    emitAll strip fixed s is = .ok s' → ∃ cs, Emitting strip fixed s s' is cs
  | [], s, s', h => by
    cases h
    refine ⟨[], rfl, fun k i c h => (by simp at h), by simp, rfl, fun i h => (by cases h),
      fun l b b' h1 h2 => ?_, fun l b' _ k h => (by simp at h), fun l b b' h1 h2 _ => ?_,
      fun l b _ h => by cases h⟩
    · rw [h1] at h2; cases h2; simp [sitesOf]
    · rw [h1] at h2; cases h2; rfl
  | i :: is, s, s', h => by
    unfold emitAll at h
    rcases h1 : emitIns strip fixed s i with s1 | e | _ | _
    · rw [h1] at h
      have h : emitAll strip fixed s1 is = .ok s' := h
      obtain ⟨c, hc⟩ := emitIns_spec h1
      obtain ⟨cs, hcs⟩ := emitAll_spec is s1 s' h
      have hmid : ∀ (l : Nat) (b' : Label), s'.labels[l]? = some b' → ∃ b1, s1.labels[l]? = some b1 := by
        intro l b' hb
        have hl := (List.getElem?_eq_some_iff.1 hb).1
        exact ⟨_, List.getElem?_eq_getElem (by rw [← hcs.labels]; exact hl)⟩
      refine ⟨c :: cs, by simp [hcs.len], ?_, ?_, ?_, ?_, ?_, ?_, ?_, ?_⟩
      · intro k i' c' hi hc'
        cases k with
        | zero =>
          simp only [List.getElem?_cons_zero, Option.some.injEq] at hi hc'
          subst hi hc'
          exact hc.chunk
        | succ k => exact hcs.chunk k i' c' hi hc'
      · rw [hcs.bytes, hc.bytes]; simp
      · rw [hcs.labels, hc.labels]
      · intro i' hi l hl
        rcases List.mem_cons.1 hi with rfl | hi
        · exact hc.range l hl
        · rw [← hc.labels]; exact hcs.range i' hi l hl
      · intro l b b' hb hb'
        obtain ⟨b1, hb1⟩ := hmid l b' hb'
        rw [hcs.sources l b1 b' hb1 hb', hc.sources l b b1 hb hb1, hc.bytes]
        simp only [sitesOf, List.length_append, List.append_assoc]
      · intro l b' hb' k hk
        obtain ⟨b1, hb1⟩ := hmid l b' hb'
        cases k with
        | zero =>
          simp only [List.getElem?_cons_zero, Option.some.injEq] at hk
          subst hk
          rw [pos_zero]
          have h2 := hc.target l b1 hb1 rfl
          have h3 : Ins.label l ∉ is := by
            intro hm
            have := hcs.set_ l b1 hb1 hm
            rw [h2] at this
            omega
          rw [hcs.missing l b1 b' hb1 hb' h3, h2]
          rfl
        | succ k =>
          rw [pos_cons, hcs.target l b' hb' k hk, hc.bytes]
          simp only [List.length_append]
          omega
      · intro l b b' hb hb' hn
        obtain ⟨b1, hb1⟩ := hmid l b' hb'
        rw [List.mem_cons, not_or] at hn
        rw [hcs.missing l b1 b' hb1 hb' hn.2, hc.missing l b b1 hb hb1 (Ne.symm hn.1)]
      · intro l b hb hm
        rcases List.mem_cons.1 hm with he | hm
        · exact hc.set_ l b hb he.symm
        · by_cases he : i = .label l
          · exact hc.set_ l b hb he
          · have hl := (List.getElem?_eq_some_iff.1 hb).1
            have hb1 : s1.labels[l]? = some (s1.labels[l]'(by rw [hc.labels]; exact hl)) :=
              List.getElem?_eq_getElem _
            rw [← hc.missing l b _ hb hb1 he]
            exact hcs.set_ l _ hb1 hm
    all_goals rw [h1] at h; cases h

theorem mem_sitesOf {l : Nat} : ∀ (base : Nat) (cs : List Bytes) (is : List Ins) (x : Nat),
    cs.length = is.length →
    (x ∈ sitesOf l base cs is ↔
      ∃ k i, is[k]? = some i ∧ names i = some l ∧ x = base + pos cs k + 1)
  | base, [], is, x, h => by
    have : is = [] := by cases is with
      | nil => rfl
      | cons => simp at h
    subst this
    simp [sitesOf]
  | base, c :: cs, [], x, h => by simp at h
  | base, c :: cs, i :: is, x, h => by
    have ih := mem_sitesOf (l := l) (base + c.length) cs is x (by simpa using h)
    simp only [sitesOf, List.mem_append, ih]
    constructor
    · rintro (hx | ⟨k, j, h1, h2, h3⟩)
      · split at hx
        · rename_i hn
          rw [List.mem_singleton] at hx
          exact ⟨0, i, rfl, hn, by (rw [hx, pos_zero])⟩
        · cases hx
      · exact ⟨k + 1, j, h1, h2, by (rw [pos_cons]; omega)⟩
    · rintro ⟨k, j, h1, h2, h3⟩
      cases k with
      | zero =>
        simp only [List.getElem?_cons_zero, Option.some.injEq] at h1
        subst h1
        rw [pos_zero] at h3
        left
        rw [if_pos h2, List.mem_singleton]
        omega
      | succ k =>
        right
        rw [pos_cons] at h3
        exact ⟨k, j, h1, h2, by omega⟩

theorem chunk_names_ne {strip fixed : Bool} {i : Ins} {c : Bytes} {l : Nat}
    (h : Chunk strip fixed i c) (hn : names i = some l) : 0 < c.length := by
  unfold Chunk at h
  cases hl : linked i with
  | none => simp [names, hl] at hn
  | some t =>
    rw [hl] at h
    dsimp only at h
    rw [h]
    simp

/-- Different instructions with addresses are at different places. -/
theorem pos_inj {strip fixed : Bool} {is : List Ins} {cs : List Bytes} (hlen : cs.length = is.length)
    (hch : ∀ (k : Nat) (i : Ins) (c : Bytes), is[k]? = some i → cs[k]? = some c → Chunk strip fixed i c) {j k : Nat} {a b : Ins}
    {l m : Nat} (ha : is[j]? = some a) (hb : is[k]? = some b) (hal : names a = some l)
    (hbm : names b = some m) (h : pos cs j = pos cs k) : j = k := by
  have main : ∀ {j k : Nat} {a : Ins} {l : Nat}, is[j]? = some a → names a = some l → j < k →
      pos cs j < pos cs k := by
    intro j k a l ha hal hjk
    have hj : j < cs.length := by rw [hlen]; exact (List.getElem?_eq_some_iff.1 ha).1
    have hc : cs[j]? = some cs[j] := List.getElem?_eq_getElem hj
    have h1 := chunk_names_ne (hch j a _ ha hc) hal
    have h2 := pos_succ hc
    have h3 := pos_mono cs (j := j + 1) (k := k) (by omega)
    omega
  rcases Nat.lt_trichotomy j k with hlt | heq | hgt
  · have := main ha hal hlt; omega
  · exact heq
  · have := main hb hbm hgt; omega

theorem sitesOf_pairwise {strip fixed : Bool} {l : Nat} : ∀ (base : Nat) (cs : List Bytes) (is : List Ins),
    cs.length = is.length → (∀ (k : Nat) (i : Ins) (c : Bytes), is[k]? = some i → cs[k]? = some c → Chunk strip fixed i c) →
    (sitesOf l base cs is).Pairwise (· < ·) ∧ ∀ x ∈ sitesOf l base cs is, base < x
  | base, [], is, _, _ => by simp [sitesOf]
  | base, c :: cs, [], h, _ => by simp at h
  | base, c :: cs, i :: is, h, hch => by
    obtain ⟨h1, h2⟩ := sitesOf_pairwise (l := l) (strip := strip) (fixed := fixed) (base + c.length) cs is
      (by simpa using h) fun k j d hj hd => hch (k + 1) j d hj hd
    simp only [sitesOf]
    split
    · rename_i hn
      have hc := chunk_names_ne (hch 0 i c rfl rfl) hn
      refine ⟨?_, ?_⟩
      · rw [List.singleton_append, List.pairwise_cons]
        refine ⟨fun x hx => ?_, h1⟩
        have := h2 x hx
        omega
      · intro x hx
        rw [List.singleton_append, List.mem_cons] at hx
        rcases hx with rfl | hx
        · omega
        · have := h2 x hx; omega
    · rw [List.nil_append]
      exact ⟨h1, fun x hx => by have := h2 x hx; omega⟩

/-! ### The links -/

/-- The whole loop, from the start. -/
structure Emission (strip fixed : Bool) (n : Nat) (s : Emit) (is : List Ins) (cs : List Bytes) : Prop where
  len : cs.length = is.length
  chunk : ∀ (k : Nat) (i : Ins) (c : Bytes), is[k]? = some i → cs[k]? = some c → Chunk strip fixed i c
  bytes : s.bytes = cs.flatten
  /-- each link is one instruction -/
  link : ∀ o ∈ linksOf s.labels, o.size = 0 ∧ ∃ (k : Nat) (i : Ins) (l : Nat), is[k]? = some i ∧ names i = some l ∧
    o.source = (pos cs k : Int) + 1 ∧ (∀ j : Nat, is[j]? = some (.label l) → o.target = pos cs j) ∧
    (Ins.label l ∉ is → o.target = -1)
  /-- each instruction that names a label is one link -/
  found : ∀ (k : Nat) (i : Ins) (l : Nat), is[k]? = some i → names i = some l →
    ∃ o ∈ linksOf s.labels, o.source = (pos cs k : Int) + 1 ∧
      ∀ j : Nat, is[j]? = some (.label l) → o.target = pos cs j
  apart : (linksOf s.labels).Pairwise fun a b => a.source ≠ b.source

theorem replicate_get {α : Type} {n : Nat} {a b : α} {l : Nat} (h : (List.replicate n a)[l]? = some b) :
    b = a := by
  rw [List.getElem?_replicate] at h
  split at h <;> cases h
  rfl

theorem emission {strip fixed : Bool} {n : Nat} {s : Emit} {is : List Ins}
    (h : emitAll strip fixed (emitStart n) is = .ok s) :
    ∃ cs, Emission strip fixed n s is cs := by
  obtain ⟨cs, hc⟩ := emitAll_spec is _ _ h
  have hst : ∀ (l : Nat) (b : Label), s.labels[l]? = some b → (emitStart n).labels[l]? = some (⟨-1, []⟩ : Label) := by
    intro l b hb
    have hl := (List.getElem?_eq_some_iff.1 hb).1
    rw [hc.labels] at hl
    rw [List.getElem?_eq_getElem hl]
    simp [emitStart]
  have hsrc : ∀ (l : Nat) (b : Label), s.labels[l]? = some b → b.sources = sitesOf l 0 cs is := by
    intro l b hb
    have := hc.sources l _ b (hst l b hb) hb
    simpa [emitStart] using this
  have htgt : ∀ (l : Nat) (b : Label), s.labels[l]? = some b → ∀ j : Nat, is[j]? = some (.label l) → b.target = pos cs j := by
    intro l b hb j hj
    have := hc.target l b hb j hj
    simpa [emitStart] using this
  refine ⟨cs, hc.len, hc.chunk, by simpa [emitStart] using hc.bytes, ?_, ?_, ?_⟩
  · intro o ho
    unfold linksOf at ho
    rw [List.mem_flatMap] at ho
    obtain ⟨b, hb, ho⟩ := ho
    rw [List.mem_map] at ho
    obtain ⟨x, hx, rfl⟩ := ho
    obtain ⟨l, hl, rfl⟩ := List.mem_iff_getElem.1 hb
    have hb' := List.getElem?_eq_getElem hl
    rw [hsrc l _ hb', mem_sitesOf 0 cs is x hc.len] at hx
    obtain ⟨k, i, h1, h2, h3⟩ := hx
    refine ⟨rfl, k, i, l, h1, h2, by simp only; omega, fun j hj => htgt l _ hb' j hj, fun hm => ?_⟩
    exact hc.missing l _ _ (hst l _ hb') hb' hm
  · intro k i l hk hl
    have hr := hc.range i (List.mem_iff_getElem?.2 ⟨k, hk⟩) l hl
    rw [← hc.labels] at hr
    have hb' := List.getElem?_eq_getElem hr
    have hx : pos cs k + 1 ∈ s.labels[l].sources := by
      rw [hsrc l _ hb', mem_sitesOf 0 cs is _ hc.len]
      exact ⟨k, i, hk, hl, by omega⟩
    refine ⟨⟨(pos cs k + 1 : Nat), s.labels[l].target, 0⟩, ?_, by simp, fun j hj => htgt l _ hb' j hj⟩
    unfold linksOf
    rw [List.mem_flatMap]
    exact ⟨_, List.getElem_mem hr, List.mem_map.2 ⟨_, hx, rfl⟩⟩
  · unfold linksOf
    rw [List.pairwise_flatMap]
    refine ⟨fun b hb => ?_, ?_⟩
    · obtain ⟨l, hl, rfl⟩ := List.mem_iff_getElem.1 hb
      rw [List.pairwise_map, hsrc l _ (List.getElem?_eq_getElem hl)]
      refine (sitesOf_pairwise 0 cs is hc.len hc.chunk).1.imp fun {a b} hab => ?_
      simp only [ne_eq]
      omega
    · rw [List.pairwise_iff_getElem]
      intro l m hl hm hlm a ha b hb
      rw [List.mem_map] at ha hb
      obtain ⟨x, hx, rfl⟩ := ha
      obtain ⟨y, hy, rfl⟩ := hb
      rw [hsrc l _ (List.getElem?_eq_getElem hl), mem_sitesOf 0 cs is x hc.len] at hx
      rw [hsrc m _ (List.getElem?_eq_getElem hm), mem_sitesOf 0 cs is y hc.len] at hy
      obtain ⟨k, i, h1, h2, h3⟩ := hx
      obtain ⟨k', i', h1', h2', h3'⟩ := hy
      intro he
      dsimp only at he
      have := pos_inj hc.len hc.chunk h1 h1' h2 h2' (by omega)
      subst this
      rw [h1] at h1'
      cases h1'
      rw [h2] at h2'
      cases h2'
      omega

end DuckLisp.Asm
