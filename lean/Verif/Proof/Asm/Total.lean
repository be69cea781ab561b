import Verif.Proof.Asm.Jumps

/-!
# Well-formed programs can be assembled
-/

namespace DuckLisp.Asm

open DuckLisp DuckLisp.VM DuckLisp.Spec

/-- What the removal of pushes followed by pops does at one place. -/
def Kept (i i' : Ins) : Prop :=
  i' = i ∨ ((i' = .internalNop ∨ ∃ n, i' = .pop n) ∧ (i.onlyPushes = true ∨ ∃ n, i = .pop n))

theorem kept_step (a b : Ins) : Kept a (peepholeStep a b).1 ∧ Kept b (peepholeStep a b).2 := by
  unfold peepholeStep
  split
  · split
    · rename_i h
      refine ⟨.inr ⟨.inl rfl, .inl h⟩, .inr ⟨?_, .inr ⟨_, rfl⟩⟩⟩
      split
      · exact .inl rfl
      · exact .inr ⟨_, rfl⟩
    · split
      · exact ⟨.inr ⟨.inl rfl, .inr ⟨_, rfl⟩⟩, .inr ⟨.inr ⟨_, rfl⟩, .inr ⟨_, rfl⟩⟩⟩
      · exact ⟨.inl rfl, .inl rfl⟩
  · exact ⟨.inl rfl, .inl rfl⟩

theorem kept_trans {a b c : Ins} (h1 : Kept a b) (h2 : Kept b c) : Kept a c := by
  rcases h1 with rfl | ⟨h1, h3⟩
  · exact h2
  · rcases h2 with rfl | ⟨h2, -⟩
    · exact .inr ⟨h1, h3⟩
    · exact .inr ⟨h2, h3⟩

theorem kept_peephole : ∀ (n : Nat) (p : List Ins), p.length = n → (peephole p).length = p.length ∧
    ∀ (k : Nat) (i i' : Ins), p[k]? = some i → (peephole p)[k]? = some i' → Kept i i' := by
  intro n
  induction n with
  | zero =>
    intro p hp
    rw [List.length_eq_zero_iff] at hp
    subst hp
    exact ⟨by simp [peephole], fun k i i' h => by simp at h⟩
  | succ n ih =>
    intro p hp
    match p, hp with
    | [a], _ =>
      rw [peephole]
      refine ⟨rfl, fun k i i' h h' => .inl ?_⟩
      rw [h] at h'
      cases h'
      rfl
    | a :: b :: rest, hp =>
      rw [peephole]
      obtain ⟨h1, h2⟩ := ih ((peepholeStep a b).2 :: rest) (by simp at hp ⊢; omega)
      obtain ⟨k1, k2⟩ := kept_step a b
      refine ⟨by simp [h1], fun k i i' h h' => ?_⟩
      match k with
      | 0 =>
        cases h
        cases h'
        exact k1
      | 1 =>
        cases h
        exact kept_trans k2 (h2 0 _ i' rfl h')
      | k + 2 => exact h2 (k + 1) i i' h h'

theorem kept_get {p : List Ins} {k : Nat} {i' : Ins} (h : (peephole p)[k]? = some i') :
    ∃ i, p[k]? = some i ∧ Kept i i' := by
  obtain ⟨h1, h2⟩ := kept_peephole _ p rfl
  have hk := (List.getElem?_eq_some_iff.1 h).1
  rw [h1] at hk
  exact ⟨_, List.getElem?_eq_getElem hk, h2 k _ _ (List.getElem?_eq_getElem hk) h⟩

theorem inOrder_peephole {n : Nat} {p : List Ins} (h : InOrder n p) : InOrder n (peephole p) := by
  have same : ∀ (k : Nat) (i' : Ins), (peephole p)[k]? = some i' → i' ≠ .internalNop →
      (∀ m, i' ≠ .pop m) → p[k]? = some i' := by
    intro k i' h1 h2 h3
    obtain ⟨i, h4, h5⟩ := kept_get h1
    rcases h5 with rfl | ⟨h5 | ⟨m, h5⟩, _⟩
    · exact h4
    · exact absurd h5 h2
    · exact absurd h5 (h3 m)
  refine ⟨fun i hi l hl => ?_, fun l hl => ?_, fun j j' l h1 h2 => ?_, ?_, fun hr => ?_⟩
  · obtain ⟨k, hk⟩ := List.getElem?_of_mem hi
    have := same k i hk (by rintro rfl; cases hl) (by rintro m rfl; cases hl)
    exact h.named i (List.mem_of_getElem? this) l hl
  · obtain ⟨k, hk⟩ := List.getElem?_of_mem hl
    have := same k _ hk (by simp) (by simp)
    exact h.placed l (List.mem_of_getElem? this)
  · exact h.once j j' l (same j _ h1 (by simp) (by simp)) (same j' _ h2 (by simp) (by simp))
  · obtain ⟨h1, h2⟩ := kept_peephole _ p rfl
    have hh := h.halts
    rw [List.getLast?_eq_getElem?] at hh ⊢
    rw [h1]
    have hk := (List.getElem?_eq_some_iff.1 hh).1
    have hg : (peephole p)[p.length - 1]? = some ((peephole p)[p.length - 1]'(by omega)) :=
      List.getElem?_eq_getElem _
    rw [hg]
    rcases h2 _ _ _ hh hg with h3 | ⟨-, h3 | ⟨m, h3⟩⟩
    · rw [h3]
    · cases h3
    · cases h3
  · obtain ⟨k, hk⟩ := List.getElem?_of_mem hr
    have := same k _ hk (by simp) (by simp)
    exact h.releases (List.mem_of_getElem? this)

theorem encode_some (strip : Bool) (prev : Option UInt8) (i : Ins) (h1 : labelOf i = none)
    (h2 : i ≠ .internalNop) (h3 : ∀ l, i ≠ .label l) (h4 : i ≠ .releaseUpvalues []) :
    ∃ r, encode strip prev i = some r := by
  cases i
  case internalNop => exact absurd rfl h2
  case label l => exact absurd rfl (h3 l)
  case pushClosure | call | jump | brnz => cases h1
  case pushSymbol id len name =>
    simp only [encode]
    split <;> exact ⟨_, rfl⟩
  case return_ n =>
    simp only [encode]
    split <;> exact ⟨_, rfl⟩
  case releaseUpvalues as =>
    simp only [encode]
    cases as with
    | nil => exact absurd rfl h4
    | cons a as =>
      obtain ⟨w, hw⟩ : ∃ w, widthLast (a :: as) = some w := by
        unfold widthLast
        rw [List.getLast?_cons]
        exact ⟨_, rfl⟩
      rw [hw]
      exact ⟨_, rfl⟩
  all_goals exact ⟨_, rfl⟩

theorem emitAll_ok {strip fixed : Bool} {n : Nat} : ∀ (rest done : List Ins) (s : Emit),
    InOrder n (done ++ rest) → s.labels.length = n →
    (∀ (l : Nat) (b : Label), s.labels[l]? = some b → Ins.label l ∉ done → b.target = -1) →
    ∃ s', emitAll strip fixed s rest = .ok s'
  | [], _, s, _, _, _ => ⟨s, rfl⟩
  | i :: rest, done, s, hw, hn, ht => by
    have hmem : i ∈ done ++ i :: rest := by simp
    have step : ∃ s1, emitIns strip fixed s i = .ok s1 ∧ s1.labels.length = n ∧
        ∀ (l : Nat) (b : Label), s1.labels[l]? = some b → Ins.label l ∉ done ++ [i] → b.target = -1 := by
      by_cases h0 : i = .internalNop
      · subst h0
        exact ⟨s, rfl, hn, fun l b h1 h2 => ht l b h1 fun h => h2 (by simp [h])⟩
      by_cases h1 : ∃ l, i = .label l
      · obtain ⟨l, rfl⟩ := h1
        have hl := hw.placed l hmem
        have hg : s.labels[l]? = some (s.labels[l]'(by omega)) := List.getElem?_eq_getElem (by omega)
        generalize s.labels[l]'(by omega) = b at hg
        have hnot : Ins.label l ∉ done := by
          intro hd
          obtain ⟨k, hk⟩ := List.getElem?_of_mem hd
          have hkl := (List.getElem?_eq_some_iff.1 hk).1
          have := hw.once k done.length l (by rw [List.getElem?_append_left hkl]; exact hk) (by simp)
          omega
        refine ⟨{ s with labels := s.labels.set l { b with target := s.bytes.length } }, ?_, by simpa using hn, ?_⟩
        · simp [emitIns, hg, ht l b hg hnot]
        · intro l' b' h1 h2
          rw [List.getElem?_set] at h1
          split at h1
          · rename_i he
            subst he
            exact absurd (by simp) h2
          · exact ht l' b' h1 fun h => h2 (by simp [h])
      have h1' : ∀ l, i ≠ .label l := fun l hl => h1 ⟨l, hl⟩
      cases h2 : linked i with
      | some t =>
        obtain ⟨l, o, suffix⟩ := t
        have hlo : labelOf i = some l := by rw [← names_eq]; simp [names, h2]
        have hl := hw.named i hmem l hlo
        have hg : s.labels[l]? = some (s.labels[l]'(by omega)) := List.getElem?_eq_getElem (by omega)
        generalize s.labels[l]'(by omega) = b at hg
        refine ⟨⟨s.bytes ++ code o (if fixed then .w32 else .w8) :: (if fixed then [0, 0, 0, 0] else []) ++ suffix,
          some (code o (if fixed then .w32 else .w8)),
          s.labels.set l { b with sources := b.sources ++ [s.bytes.length + 1] }⟩, ?_, by simpa using hn, ?_⟩
        · cases i <;> first
            | exact absurd rfl h0
            | exact absurd rfl (h1' _)
            | (simp only [emitIns, h2, hg])
        · intro l' b' h3 h4
          rw [List.getElem?_set] at h3
          have h5 : Ins.label l' ∉ done := fun h => h4 (by simp [h])
          split at h3
          · rename_i he
            subst he
            rw [if_pos (by omega)] at h3
            cases h3
            exact ht l b hg h5
          · exact ht l' b' h3 h5
      | none =>
        have hlo : labelOf i = none := by rw [← names_eq]; simp [names, h2]
        obtain ⟨⟨op, args⟩, hr⟩ := encode_some strip s.last i hlo h0 h1' (by
          rintro rfl
          exact hw.releases hmem)
        refine ⟨{ s with bytes := s.bytes ++ op :: args, last := some op }, ?_, hn, ?_⟩
        · cases i <;> first
            | exact absurd rfl h0
            | exact absurd rfl (h1' _)
            | (cases hlo; done)
            | (simp only [emitIns, linked, hr])
        · exact fun l b h3 h4 => ht l b h3 fun h => h4 (by simp [h])
    obtain ⟨s1, e1, e2, e3⟩ := step
    obtain ⟨s', e4⟩ := emitAll_ok rest (done ++ [i]) s1 (by simpa using hw) e2 e3
    refine ⟨s', ?_⟩
    rw [emitAll, e1]
    exact e4

theorem resolve_ok {strip : Bool} {n : Nat} {s : Emit} {is : List Ins} {cs : List Bytes}
    (he : Emission strip false n s is cs) (hlast : is.getLast? = some .halt) :
    ∃ bytes, resolve s = .ok bytes := by
  have hz : ∀ o ∈ linksOf s.labels, o.size = 0 := fun o ho => (he.link o ho).1
  unfold resolve
  dsimp only
  split
  · exact ⟨_, rfl⟩
  · rename_i hne
    obtain ⟨order, ho, hord⟩ := ordered_sortedEnds (linksOf s.labels)
    rw [ho]
    have hap := apart_of he.apart
    have hlaid := laid_passes hap hord 10 _ (laid_start _ hz)
    have hch := chosen_passes hap hord 9 _ (laid_start _ hz)
    change ∃ bytes, (insertLinks ((linksOf s.labels).zip (passes order 10 (linksOf s.labels)))
      (nodesFrom 0 s.bytes) >>= fun nodes => flatten nodes (nodes.length + 1) (some 0)) = .ok bytes
    generalize hnew : passes order 10 (linksOf s.labels) = new at hlaid
    have hch : ∀ c ∈ new, Chosen c.size := by rw [← hnew]; exact hch
    have hin : ∀ z ∈ (linksOf s.labels).zip new, 0 < z.1.source ∧ z.1.source < s.bytes.length ∧ Chosen z.2.size := by
      intro z hzm
      obtain ⟨h1, h2⟩ := List.of_mem_zip hzm
      obtain ⟨_, k, i, l, hk, hl, hsrc, _, _⟩ := he.link z.1 h1
      have hkl : k < cs.length := by rw [he.len]; exact (List.getElem?_eq_some_iff.1 hk).1
      have hck := List.getElem?_eq_getElem hkl
      have hpos := chunk_names_ne (he.chunk k i _ hk hck) hl
      have h4 := pos_succ hck
      rw [List.getLast?_eq_getElem?] at hlast
      have hlt := (List.getElem?_eq_some_iff.1 hlast).1
      have hne : k ≠ is.length - 1 := by
        rintro rfl
        rw [hlast] at hk
        cases hk
        cases hl
      have hm := pos_mono cs (j := k + 1) (k := is.length - 1) (by rw [he.len] at hkl; omega)
      have hcl : cs[is.length - 1]? = some (cs[is.length - 1]'(by rw [he.len]; exact hlt)) :=
        List.getElem?_eq_getElem _
      have hc := he.chunk _ _ _ hlast hcl
      have h5 := pos_succ hcl
      have h6 := pos_le cs (is.length - 1 + 1)
      have h7 : 0 < (cs[is.length - 1]'(by rw [he.len]; exact hlt)).length := by
        obtain ⟨prev, op, args, _, h⟩ := hc
        rw [h]
        simp
      rw [he.bytes]
      exact ⟨by omega, by omega, hch z.2 h2⟩
    have hsite : Sites s.bytes ((linksOf s.labels).zip new) := fun z hzm => by
      obtain ⟨h1, h2, h3⟩ := hin z hzm
      exact ⟨by omega, by omega, h3⟩
    have hbne : s.bytes ≠ [] := by
      intro hb
      obtain ⟨o, ho⟩ := List.exists_mem_of_ne_nil _ hne
      obtain ⟨b, hb'⟩ := get_zip _ new hlaid.length.symm o ho
      obtain ⟨h1, h2, _⟩ := hin _ hb'
      rw [hb] at h2
      simp only [List.length_nil, Int.natCast_zero] at h1 h2
      omega
    have hd := distinct_zip hlaid.length.symm he.apart
    obtain ⟨nodes, hi⟩ := insertLinks_ok ((linksOf s.labels).zip new) [] _ (held_start s.bytes)
      (by simpa using hd) hsite (fun z hz => (hin z hz).2.1)
    rw [hi]
    exact ⟨_, insert_flatten hbne hd hsite hi⟩

end DuckLisp.Asm
