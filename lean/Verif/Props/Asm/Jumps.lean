import Verif.Proof.Asm.Jumps

/-!
# C24: jumps land on their labels

`assemble` gives the bytecode of a program; `Pieces` cuts it into one piece for each instruction, in
order; `offset` is where a piece starts.
-/

namespace DuckLisp.Props

open DuckLisp DuckLisp.VM DuckLisp.Asm DuckLisp.Spec

/-- The program that is turned into bytecode. -/
def rewritten (opt : Options) (program : List Ins) : List Ins :=
  if opt.pushPops then peephole program else program

theorem chunk_plain {strip fixed : Bool} {i : Ins} {c : Bytes} (h : Chunk strip fixed i c)
    (hl : labelOf i = none) : (i = .internalNop ∨ ∃ l, i = .label l) ∧ c = [] ∨
      ∃ prev op args, encode strip prev i = some (op, args) ∧ c = op :: args := by
  rw [← names_eq] at hl
  unfold Chunk at h
  cases hk : linked i with
  | some t => simp [names, hk] at hl
  | none =>
    rw [hk] at h
    dsimp only at h
    cases i <;> first
      | exact .inl ⟨.inl rfl, h⟩
      | exact .inl ⟨.inr ⟨_, rfl⟩, h⟩
      | exact .inr h

theorem meaning_labelOf {strip : Bool} {i : Ins} {m : Instr} (h : meaning strip i = some m) :
    labelOf i = none := by
  cases i <;> first | rfl | cases h

theorem plain_decodes {strip fixed : Bool} {i : Ins} {c : Bytes} {m : Instr}
    (h : Chunk strip fixed i c) (hm : meaning strip i = some m) (hf : InFormat i)
    (hs : SmallWhereNeeded i) (rest : Bytes) : decode (c ++ rest) = some (m, rest) := by
  rcases chunk_plain h (meaning_labelOf hm) with ⟨h1, _⟩ | ⟨prev, op, args, h1, rfl⟩
  · rcases h1 with rfl | ⟨l, rfl⟩ <;> cases hm
  · obtain ⟨bs, ⟨op', args', h3, rfl⟩, h4⟩ := C21_operands_partial strip prev i m rest hm hf hs
    rw [h1] at h3
    cases h3
    exact h4

theorem pieces_of_emission {strip fixed : Bool} {n : Nat} {s : Emit} {is : List Ins} {cs : List Bytes}
    (he : Emission strip fixed n s is cs) {bytes : Bytes} {pieces : List Bytes}
    (hlen : pieces.length = cs.length) (hfl : pieces.flatten = bytes)
    (hsame : ∀ (k : Nat) (i : Ins) (c : Bytes), is[k]? = some i → cs[k]? = some c →
      labelOf i = none → pieces[k]? = some c) : Pieces strip is bytes pieces := by
  have get : ∀ (k : Nat) (i : Ins), is[k]? = some i → ∃ c, cs[k]? = some c := by
    intro k i hi
    have := (List.getElem?_eq_some_iff.1 hi).1
    exact ⟨_, List.getElem?_eq_getElem (by rw [he.len]; exact this)⟩
  refine ⟨by rw [hlen, he.len], hfl, fun k i p hi hp hn => ?_, fun k i p m hi hp hm hf hs rest => ?_⟩
  · obtain ⟨c, hc⟩ := get k i hi
    have hl : labelOf i = none := by rcases hn with rfl | ⟨l, rfl⟩ <;> rfl
    rw [hsame k i c hi hc hl] at hp
    cases hp
    rcases chunk_plain (he.chunk k i p hi hc) hl with ⟨_, h⟩ | ⟨prev, op, args, h1, _⟩
    · exact h
    · rcases hn with rfl | ⟨l, rfl⟩ <;> cases h1
  · obtain ⟨c, hc⟩ := get k i hi
    rw [hsame k i c hi hc (meaning_labelOf hm)] at hp
    cases hp
    exact plain_decodes (he.chunk k i p hi hc) hm hf hs rest

theorem assemble_split {opt : Options} {labels : Nat} {program : List Ins} {bytes : Bytes}
    (h : assemble opt labels program = .ok bytes) :
    ∃ s, emitAll opt.strip (!opt.jumps) (emitStart labels) (rewritten opt program) = .ok s ∧
      (if opt.jumps then resolve s else .ok (resolveFixed s)) = .ok bytes := by
  unfold assemble at h
  rcases he : emitAll opt.strip (!opt.jumps) (emitStart labels)
    (if opt.pushPops then peephole program else program) with s | e | _ | _
  · rw [he] at h
    exact ⟨s, he, h⟩
  all_goals rw [he] at h; cases h

/-- No address goes into the code of an instruction without label. -/
theorem addrOf_plain {strip fixed : Bool} {n : Nat} {s : Emit} {is : List Ins} {cs : List Bytes}
    (he : Emission strip fixed n s is cs) {new : List Link} {k : Nat} {i : Ins} {c : Bytes}
    (hi : is[k]? = some i) (hc : cs[k]? = some c) {q : Nat} (h1 : pos cs k ≤ q)
    (h2 : q < pos cs k + c.length) (h3 : q = pos cs k → labelOf i = none) :
    addrOf ((linksOf s.labels).zip new) q = none := by
  unfold addrOf
  rw [Option.map_eq_none_iff, List.find?_eq_none]
  intro z hz
  rw [decide_eq_true_eq]
  intro hq
  obtain ⟨_, k', i', l, hk, hl, hsrc, _⟩ := he.link z.1 (List.of_mem_zip hz).1
  have hqq : q = pos cs k' := by omega
  have hkl : k' < cs.length := by rw [he.len]; exact (List.getElem?_eq_some_iff.1 hk).1
  have hck := List.getElem?_eq_getElem hkl
  have hpos := chunk_names_ne (he.chunk k' i' _ hk hck) hl
  have hsucc := pos_succ hck
  have hsucc' := pos_succ hc
  rcases Nat.lt_trichotomy k k' with hlt | heq | hgt
  · have := pos_mono cs (j := k + 1) (k := k') hlt; omega
  · subst heq
    rw [hi] at hk
    cases hk
    rw [names_eq, h3 hqq] at hl
    cases hl
  · have := pos_mono cs (j := k' + 1) (k := k) hgt; omega

/-- What the assembler does about labels, whatever the program and the sizes it chooses: the address
it writes is the right one, reduced to the size chosen. -/
theorem addresses_exact {opt : Options} {labels : Nat} {program : List Ins} {bytes : Bytes}
    (hj : opt.jumps = true) (h : assemble opt labels program = .ok bytes) :
    ∃ pieces, Pieces opt.strip (rewritten opt program) bytes pieces ∧
      (∀ (k : Nat) (i : Ins) (l j : Nat), (rewritten opt program)[k]? = some i → labelOf i = some l →
        InFormat i → (rewritten opt program)[j]? = some (.label l) →
        ∃ p w d m m', pieces[k]? = some p ∧ addressed w (wrapTo w d) i = some m ∧
          (∀ rest, decode (p ++ rest) = some (m, rest)) ∧ addressed w d i = some m' ∧
          landing (offset pieces k) (offset pieces (k + 1)) m' = some (offset pieces j : Int) ∧
          ((∀ (a : Nat) (i' : Ins) (b : Nat), (rewritten opt program)[a]? = some i' →
              labelOf i' = some b → Ins.label b ∈ rewritten opt program) →
            bytes.length ≤ 126 → wrapTo w d = d)) := by
  obtain ⟨s, h1, h2⟩ := assemble_split h
  rw [hj] at h1
  rw [if_pos hj] at h2
  obtain ⟨cs, he⟩ := emission h1
  obtain ⟨new, hlen, hlaid, hch, hshort, rfl⟩ := resolve_spec he h2
  generalize hzs : (linksOf s.labels).zip new = zs at *
  generalize hprog : rewritten opt program = is at *
  have hd : Distinct zs := by rw [← hzs]; exact distinct_zip hlen he.apart
  have hpos1 : ∀ o ∈ linksOf s.labels, 0 < o.source := by
    intro o ho
    obtain ⟨_, k, i, l, _, _, hsrc, _⟩ := he.link o ho
    omega
  have hget : ∀ (k : Nat) (i : Ins), is[k]? = some i → ∃ c, cs[k]? = some c := by
    intro k i hi
    have := (List.getElem?_eq_some_iff.1 hi).1
    exact ⟨_, List.getElem?_eq_getElem (by rw [he.len]; exact this)⟩
  have hoff := offset_finals hd cs
  refine ⟨finals zs 0 cs, pieces_of_emission he (finals_length _ _ _) ?_ ?_, ?_⟩
  · rw [finals_flatten, he.bytes]
  · intro k i c hi hc hl
    rw [finals_get zs 0 cs k c hc, Nat.zero_add, expand_none zs _ c]
    intro q hq1 hq2
    rw [← hzs]
    exact addrOf_plain he hi hc hq1 hq2 fun _ => hl
  · intro k i l j hk hl hf hjl
    obtain ⟨c, hc⟩ := hget k i hk
    have hlk : ∃ o suffix, linked i = some (l, o, suffix) := by
      rw [← names_eq] at hl
      unfold names at hl
      rw [Option.map_eq_some_iff] at hl
      obtain ⟨⟨l', o, suffix⟩, h3, h4⟩ := hl
      cases h4
      exact ⟨o, suffix, h3⟩
    obtain ⟨o, suffix, hlk⟩ := hlk
    have hchunk := he.chunk k i c hk hc
    unfold Chunk at hchunk
    rw [hlk] at hchunk
    dsimp only at hchunk
    rw [if_neg (by decide), if_neg (by decide), List.nil_append] at hchunk
    obtain ⟨lnk, hlm, hsrc, htgt⟩ := he.found k i l hk (by rw [names_eq]; exact hl)
    obtain ⟨nl, hz⟩ := get_zip _ _ hlen lnk hlm
    have hnl := hch nl (List.of_mem_zip hz).2
    obtain ⟨hl1, hl2⟩ := zip_mem_laid hlaid hz
    dsimp only at hl1 hl2
    rw [hsrc, before_eq_inserted hpos1, hzs] at hl1
    rw [before_eq_inserted hpos1, hzs, htgt j hjl] at hl2
    rw [hzs] at hz
    have haddr := addrOf_mem hd hz hsrc
    obtain ⟨w, hw, hcode⟩ := chosen_width hnl
    -- the finished piece
    have hpiece : expand zs (pos cs k) c = code o w :: (bytesOf nl.distance w.bytes ++ suffix) := by
      subst hchunk
      simp only [expand, piece, haddr]
      rw [hcode o (linked_opc hlk), hw, expand_none zs _ suffix, List.cons_append]
      intro q hq1 hq2
      rw [← hzs]
      exact addrOf_plain he hk hc (by omega) (by simp only [List.length_cons]; omega) fun hq => by omega
    have hp : (finals zs 0 cs)[k]? = some (code o w :: (bytesOf nl.distance w.bytes ++ suffix)) := by
      rw [finals_get zs 0 cs k c hc, Nat.zero_add, hpiece]
    have hnext : offset (finals zs 0 cs) (k + 1) = offset (finals zs 0 cs) k + 1 + w.bytes + suffix.length := by
      have := pos_succ hp
      simp only [List.length_cons, List.length_append, bytesOf_length] at this
      show pos _ _ = pos _ _ + 1 + w.bytes + suffix.length
      omega
    obtain ⟨m, hm1, hm2⟩ := decode_addressed hlk hf w nl.distance
    have ho1 := hoff k
    have ho2 := hoff j
    have hdist : nl.distance = nl.target - (nl.source + nl.size) := rfl
    obtain ⟨m', hm1', hm2'⟩ := landing_addressed hlk (w := w) (d := nl.distance)
      (here := (offset (finals zs 0 cs) k : Int)) (next := (offset (finals zs 0 cs) (k + 1) : Int))
      (there := (offset (finals zs 0 cs) j : Int)) (by rw [hnext]; omega)
      (by rw [hdist, hl1, hl2]; omega)
    refine ⟨_, w, nl.distance, m, m', hp, hm1, hm2, hm1', hm2', fun hdef hlen126 => ?_⟩
    -- short code
    have hexp := expand_length hd 0 s.bytes
    simp only [Int.natCast_zero, Int.zero_add] at hexp
    have hsites : ∀ o ∈ linksOf s.labels, 0 < o.source ∧ o.source ≤ s.bytes.length ∧
        0 ≤ o.target ∧ o.target ≤ s.bytes.length := by
      intro o ho
      obtain ⟨_, k', i', l', hk', hl', hsrc', htgt', _⟩ := he.link o ho
      obtain ⟨c', hc'⟩ := hget k' i' hk'
      have h3 := chunk_names_ne (he.chunk k' i' c' hk' hc') hl'
      have h4 := pos_succ hc'
      have h5 := pos_le cs (k' + 1)
      have h6 := hdef k' i' l' hk' (by rw [← names_eq]; exact hl')
      obtain ⟨j', hj'⟩ := List.mem_iff_getElem?.1 h6
      have h7 := htgt' j' hj'
      have h8 := pos_le cs j'
      rw [he.bytes]
      omega
    have hins : (linksOf s.labels).length ≤ inserted zs 0 s.bytes.length := by
      rw [← hzs]
      have : ∀ (as bs : List Link), as.length = bs.length →
          (∀ o ∈ as, 0 < o.source ∧ o.source ≤ s.bytes.length) → (∀ c ∈ bs, Chosen c.size) →
          (as.length : Int) ≤ inserted (as.zip bs) 0 s.bytes.length := by
        intro as
        induction as with
        | nil => intro bs _ _ _; simp [inserted]
        | cons a as ih =>
          intro bs hl ha hb
          cases bs with
          | nil => simp at hl
          | cons b bs =>
            have := ih bs (by simpa using hl) (fun o ho => ha o (List.mem_cons_of_mem _ ho))
              fun c hc => hb c (List.mem_cons_of_mem _ hc)
            have h3 := ha a List.mem_cons_self
            have h4 := hb b List.mem_cons_self
            simp only [inserted, List.zip_cons_cons, List.map_cons, List.sum_cons,
              List.length_cons] at this ⊢
            rw [if_pos h3]
            rcases h4 with h4 | h4 | h4 <;> omega
      exact this _ _ hlen (fun o ho => ⟨(hsites o ho).1, (hsites o ho).2.1⟩) hch
    have hsh : Asm.Short (linksOf s.labels) s.bytes.length := by
      refine ⟨fun o ho => ?_, fun o ho => ?_, by omega⟩
      · have := hsites o ho; omega
      · have := hsites o ho; omega
    have hone := hshort _ hsh nl (by
      rw [← hzs] at hz
      exact (List.of_mem_zip hz).2)
    have hw8 : w = .w8 := by cases w <;> simp [Width.bytes, hone] at hw; rfl
    have hb1 : offset (finals zs 0 cs) j ≤ (expand zs 0 s.bytes).length := by
      have := pos_le (finals zs 0 cs) j
      rw [finals_flatten, ← he.bytes] at this
      exact this
    have hb2 : offset (finals zs 0 cs) (k + 1) ≤ (expand zs 0 s.bytes).length := by
      have := pos_le (finals zs 0 cs) (k + 1)
      rw [finals_flatten, ← he.bytes] at this
      exact this
    rw [wrap_eq, hw8]
    simp only [Width.bytes]
    rw [hdist, hl1, hl2, hone]
    omega

/-- Every label that is named is somewhere in the program. -/
def LabelsDefined (program : List Ins) : Prop :=
  ∀ (k : Nat) (i : Ins) (l : Nat), program[k]? = some i → labelOf i = some l → Ins.label l ∈ program

/-- The distances an address of size `w` can say. -/
def Reach (w : Width) (d : Int) : Prop := -2 ^ (8 * w.bytes - 1) ≤ d ∧ d < 2 ^ (8 * w.bytes - 1)

theorem landing_inj {w : Width} {d d' here next there : Int} {i : Ins} {m m' : Instr}
    (h1 : addressed w d i = some m) (h2 : addressed w d' i = some m')
    (h3 : landing here next m = some there) (h4 : landing here next m' = some there) : d = d' := by
  cases i <;> first
    | (cases h1; cases h2; simp only [landing, Option.some.injEq] at h3 h4; omega)
    | (cases h1; done)

/-- C24, whatever the program, with addresses made as short as possible: an instruction that names a
label takes control to it exactly if the distance to the label can be said in the size the assembler
chose.  Partial: the assembler can choose a size that is too small, see
`C24_jump_misses_its_label`. -/
theorem C24_lands_iff_in_reach_partial (opt : Options) (labels : Nat) (program : List Ins) (bytes : Bytes)
    (hj : opt.jumps = true) (h : assemble opt labels program = .ok bytes) :
    ∃ pieces, Pieces opt.strip (rewritten opt program) bytes pieces ∧
      ∀ (k : Nat) (i : Ins) (l j : Nat), (rewritten opt program)[k]? = some i → labelOf i = some l →
        InFormat i → (rewritten opt program)[j]? = some (.label l) →
        ∃ p w d m m', addressed w d i = some m ∧
          landing (offset pieces k) (offset pieces (k + 1)) m = some (offset pieces j : Int) ∧
          pieces[k]? = some p ∧ addressed w (wrapTo w d) i = some m' ∧
          (∀ rest, decode (p ++ rest) = some (m', rest)) ∧
          (LandsOn pieces k i j ↔ Reach w d) := by
  obtain ⟨pieces, hp, hall⟩ := addresses_exact hj h
  refine ⟨pieces, hp, fun k i l j hk hl hf hjl => ?_⟩
  obtain ⟨p, w, d, m, m', h1, h2, h3, h4, h5, -⟩ := hall k i l j hk hl hf hjl
  refine ⟨p, w, d, m', m, h4, h5, h1, h2, h3, ?_⟩
  unfold Reach
  rw [← wrap_eq]
  constructor
  · rintro ⟨p2, w2, d2, m2, e1, e2, e3, e4⟩
    rw [h1] at e1
    cases e1
    have := (h3 []).symm.trans (e3 [])
    cases this
    obtain ⟨m3, f1, f2⟩ : ∃ m3, addressed w (wrapTo w d) i = some m3 ∧
        landing (offset pieces k) (offset pieces (k + 1)) m3 = some (offset pieces j : Int) :=
      ⟨m, h2, e4⟩
    exact landing_inj f1 h4 f2 h5
  · intro hw
    rw [hw] at h2
    rw [h2] at h4
    cases h4
    exact ⟨p, w, d, m, h1, h2, h3, h5⟩

/-! ### Addresses of four bytes -/

theorem patch_flatten {ds : List Bytes} {k : Nat} {op : UInt8} {four suffix : Bytes} {l : Link}
    (h : ds[k]? = some (op :: (four ++ suffix))) (h4 : four.length = 4)
    (hl : l.source = (pos ds k : Int) + 1) :
    patch ds.flatten l =
      (ds.set k (op :: (bytesOf (l.target - (l.source + 4)) 4 ++ suffix))).flatten := by
  obtain ⟨hk, hke⟩ := List.getElem?_eq_some_iff.1 h
  have hsplit : ds = ds.take k ++ (op :: (four ++ suffix)) :: ds.drop (k + 1) := by
    rw [← hke, List.getElem_cons_drop, List.take_append_drop]
  have hset : ds.set k (op :: (bytesOf (l.target - (l.source + 4)) 4 ++ suffix)) =
      ds.take k ++ (op :: (bytesOf (l.target - (l.source + 4)) 4 ++ suffix)) :: ds.drop (k + 1) := by
    rw [List.set_eq_take_append_cons_drop, if_pos hk]
  have hpos : (ds.take k).flatten.length = pos ds k := rfl
  have hfl : ds.flatten = (ds.take k).flatten ++ op :: (four ++ (suffix ++ (ds.drop (k + 1)).flatten)) := by
    conv => lhs; rw [hsplit]
    simp
  rw [hset]
  generalize hA : (ds.take k).flatten = A at *
  generalize hB : (ds.drop (k + 1)).flatten = B at *
  have hs : l.source.toNat = A.length + 1 := by omega
  unfold patch
  rw [hs, hfl]
  have e1 : (A ++ op :: (four ++ (suffix ++ B))).take (A.length + 1) = A ++ [op] := by
    rw [List.take_append, List.take_of_length_le (by omega)]
    simp
  have e2 : (A ++ op :: (four ++ (suffix ++ B))).drop (A.length + 1 + 4) = suffix ++ B := by
    rw [show A.length + 1 + 4 = (A ++ op :: four).length by simp; omega]
    rw [show A ++ op :: (four ++ (suffix ++ B)) = (A ++ op :: four) ++ (suffix ++ B) by simp]
    rw [List.drop_left]
  rw [e1, e2]
  simp [hA, hB]

theorem pos_congr : ∀ (ds cs : List Bytes), ds.map List.length = cs.map List.length → ∀ k, pos ds k = pos cs k
  | [], [], _, _ => rfl
  | [], _ :: _, h, _ => by simp at h
  | _ :: _, [], h, _ => by simp at h
  | d :: ds, c :: cs, h, 0 => rfl
  | d :: ds, c :: cs, h, k + 1 => by
    simp only [List.map_cons, List.cons.injEq] at h
    rw [pos_cons, pos_cons, h.1, pos_congr ds cs h.2 k]

/-- Some of the addresses have been written. -/
structure Patched (is : List Ins) (cs ds : List Bytes) (done : List Link) : Prop where
  sizes : ds.map List.length = cs.map List.length
  plain : ∀ (k : Nat) (i : Ins), is[k]? = some i → labelOf i = none → ds[k]? = cs[k]?
  todo : ∀ (k : Nat) (i : Ins), is[k]? = some i → (∀ o ∈ done, o.source ≠ (pos cs k : Int) + 1) →
    ds[k]? = cs[k]?
  linked : ∀ o ∈ done, ∀ (k : Nat) (i : Ins) (l : Nat) (opc : Opc) (suffix : Bytes), is[k]? = some i →
    Asm.linked i = some (l, opc, suffix) → o.source = (pos cs k : Int) + 1 →
    ds[k]? = some (code opc .w32 :: (bytesOf (o.target - (o.source + 4)) 4 ++ suffix))

theorem labelOf_linked {i : Ins} {l : Nat} (h : labelOf i = some l) :
    ∃ o suffix, Asm.linked i = some (l, o, suffix) := by
  rw [← names_eq] at h
  unfold names at h
  rw [Option.map_eq_some_iff] at h
  obtain ⟨⟨l', o, suffix⟩, h3, h4⟩ := h
  cases h4
  exact ⟨o, suffix, h3⟩

theorem patch_all {strip : Bool} {n : Nat} {s : Emit} {is : List Ins} {cs : List Bytes}
    (he : Emission strip true n s is cs) : ∀ (todo done : List Link) (ds : List Bytes),
    linksOf s.labels = done ++ todo → Patched is cs ds done →
    ∃ ds', todo.foldl patch ds.flatten = ds'.flatten ∧ Patched is cs ds' (done ++ todo)
  | [], done, ds, _, h => ⟨ds, rfl, by simpa using h⟩
  | o :: todo, done, ds, hl, h => by
    have hom : o ∈ linksOf s.labels := by rw [hl]; simp
    obtain ⟨_, k, i, l, hk, hnm, hsrc, _⟩ := he.link o hom
    have hkl : k < cs.length := by rw [he.len]; exact (List.getElem?_eq_some_iff.1 hk).1
    have hck := List.getElem?_eq_getElem hkl
    have hlo : labelOf i = some l := by rw [← names_eq]; exact hnm
    obtain ⟨opc, suffix, hlk⟩ := labelOf_linked hlo
    have hchunk := he.chunk k i _ hk hck
    unfold Chunk at hchunk
    rw [hlk] at hchunk
    dsimp only at hchunk
    rw [if_pos rfl, if_pos rfl] at hchunk
    have hfree : ∀ o' ∈ done, o'.source ≠ (pos cs k : Int) + 1 := by
      intro o' ho'
      have := he.apart
      rw [hl, List.pairwise_append] at this
      rw [← hsrc]
      exact this.2.2 o' ho' o List.mem_cons_self
    have hd : ds[k]? = some (code opc .w32 :: ([0, 0, 0, 0] ++ suffix)) := by
      rw [h.todo k i hk hfree, hck, hchunk]
    have hkd := (List.getElem?_eq_some_iff.1 hd).1
    have hpk := pos_congr ds cs h.sizes
    have hpatch := patch_flatten hd rfl (l := o) (by rw [hpk]; exact hsrc)
    have uniq : ∀ (k' : Nat) (i' : Ins) (l' : Nat), is[k']? = some i' → labelOf i' = some l' →
        pos cs k' = pos cs k → k' = k := by
      intro k' i' l' h1 h2 h3
      exact pos_inj he.len he.chunk h1 hk (by rw [names_eq]; exact h2) hnm h3
    have hstep : Patched is cs
        (ds.set k (code opc .w32 :: (bytesOf (o.target - (o.source + 4)) 4 ++ suffix))) (done ++ [o]) := by
      refine ⟨?_, fun k' i' h1 h2 => ?_, fun k' i' h1 h2 => ?_, fun o' ho' k' i' l' opc' suf' h1 h2 h3 => ?_⟩
      · rw [List.map_set, ← h.sizes]
        refine List.ext_getElem? fun m => ?_
        rw [List.getElem?_set]
        split
        · rename_i hm
          subst hm
          rw [List.length_map, if_pos hkd, List.getElem?_map, hd]
          simp [bytesOf_length]
          omega
        · rfl
      · have hne : k ≠ k' := by
          rintro rfl
          rw [hk] at h1
          cases h1
          rw [hlo] at h2
          cases h2
        rw [List.getElem?_set_ne hne]
        exact h.plain k' i' h1 h2
      · have hne : k ≠ k' := by
          rintro rfl
          exact h2 o (by simp) hsrc
        rw [List.getElem?_set_ne hne]
        exact h.todo k' i' h1 fun o' ho' => h2 o' (by simp [ho'])
      · have hlo' : labelOf i' = some l' := by rw [← names_eq]; simp [names, h2]
        rw [List.mem_append, List.mem_singleton] at ho'
        rcases ho' with ho' | rfl
        · have hne : k ≠ k' := by
            rintro rfl
            exact hfree o' ho' h3
          rw [List.getElem?_set_ne hne]
          exact h.linked o' ho' k' i' l' opc' suf' h1 h2 h3
        · have := uniq k' i' l' h1 hlo' (by omega)
          subst this
          rw [hk] at h1
          cases h1
          rw [hlk] at h2
          cases h2
          rw [List.getElem?_set_self hkd]
    obtain ⟨ds', e1, e2⟩ := patch_all he todo (done ++ [o]) _ (by rw [hl]; simp) hstep
    refine ⟨ds', ?_, by rw [List.append_cons]; exact e2⟩
    rw [List.foldl_cons, hpatch, e1]

/-- C24 when all addresses have four bytes (`NO_OPTIMIZE_JUMPS`): every jump, branch, call and closure
of a program of less than 2 GiB takes control to its label. -/
theorem C24_fixed_size (opt : Options) (labels : Nat) (program : List Ins) (bytes : Bytes)
    (hj : opt.jumps = false) (h : assemble opt labels program = .ok bytes)
    (hlen : bytes.length < 2 ^ 31) :
    ∃ pieces, Pieces opt.strip (rewritten opt program) bytes pieces ∧
      AllLand (rewritten opt program) pieces := by
  obtain ⟨s, h1, h2⟩ := assemble_split h
  rw [hj] at h1
  rw [if_neg (by rw [hj]; decide)] at h2
  obtain ⟨cs, he⟩ := emission h1
  generalize hprog : rewritten opt program = is at *
  have hstart : Patched is cs cs [] :=
    ⟨rfl, fun _ _ _ _ => rfl, fun _ _ _ _ => rfl, fun _ h => by cases h⟩
  obtain ⟨ds, e1, e2⟩ := patch_all he (linksOf s.labels) [] cs rfl hstart
  cases h2
  rw [List.nil_append] at e2
  have hfl : ds.flatten = resolveFixed s := by rw [← e1, ← he.bytes]; rfl
  rw [← hfl] at hlen
  have hpos := pos_congr ds cs e2.sizes
  refine ⟨ds, pieces_of_emission he (by simpa using congrArg List.length e2.sizes) hfl ?_, ?_⟩
  · intro k i c hi hc hl
    rw [e2.plain k i hi hl, hc]
  · intro k i l j hk hl hf hjl
    obtain ⟨opc, suffix, hlk⟩ := labelOf_linked hl
    obtain ⟨o, hom, hsrc, htgt⟩ := he.found k i l hk (by rw [names_eq]; exact hl)
    have hp := e2.linked o hom k i l opc suffix hk hlk hsrc
    have ht := htgt j hjl
    generalize hd : o.target - (o.source + 4) = d at hp
    obtain ⟨m, hm1, hm2⟩ := decode_addressed hlk hf .w32 d
    have hnext := pos_succ hp
    simp only [List.length_cons, List.length_append, bytesOf_length] at hnext
    have hle1 := pos_le ds (k + 1)
    have hle2 := pos_le ds j
    have hw : wrapTo .w32 d = d := by
      rw [wrap_eq]
      simp only [Width.bytes]
      rw [← hpos] at ht hsrc
      omega
    rw [hw] at hm1
    obtain ⟨m', hm1', hm2'⟩ := landing_addressed hlk (w := .w32) (d := d)
      (here := (offset ds k : Int)) (next := (offset ds (k + 1) : Int)) (there := (offset ds j : Int))
      (by simp only [Width.bytes]; show (pos _ _ : Int) = pos _ _ + 1 + _ + _; omega)
      (by
        simp only [Width.bytes]
        show (pos ds j : Int) = pos ds k + 1 + _ + _
        rw [← hpos] at ht hsrc
        omega)
    rw [hm1] at hm1'
    cases hm1'
    exact ⟨_, .w32, d, m, hp, hm1, hm2, hm2'⟩

/-- C24 for code of at most 126 bytes: every jump, branch, call and closure takes control to its
label.  Partial: longer code can go wrong. -/
theorem C24_short_code_partial (opt : Options) (labels : Nat) (program : List Ins) (bytes : Bytes)
    (hj : opt.jumps = true) (h : assemble opt labels program = .ok bytes)
    (hd : LabelsDefined (rewritten opt program)) (hlen : bytes.length ≤ 126) :
    ∃ pieces, Pieces opt.strip (rewritten opt program) bytes pieces ∧
      AllLand (rewritten opt program) pieces := by
  obtain ⟨pieces, hp, hall⟩ := addresses_exact hj h
  refine ⟨pieces, hp, fun k i l j hk hl hf hjl => ?_⟩
  obtain ⟨p, w, d, m, m', h1, h2, h3, h4, h5, h6⟩ := hall k i l j hk hl hf hjl
  rw [h6 hd hlen, h4] at h2
  cases h2
  exact ⟨p, w, d, m, h1, h4, h3, h5⟩

/-- C24: the size the assembler picks for a distance of at most 32 bits is the least that can say it. -/
theorem C24_size_for_distance (d : Int) (h : -2 ^ 31 ≤ d ∧ d < 2 ^ 31) :
    ∃ w : Width, w.bytes = sizeFor d ∧ Reach w d ∧ ∀ w' : Width, Reach w' d → w.bytes ≤ w'.bytes := by
  unfold sizeFor
  split
  · refine ⟨.w8, rfl, ⟨?_, ?_⟩, fun w' _ => ?_⟩
    · simp [Width.bytes]; omega
    · simp [Width.bytes]; omega
    · cases w' <;> decide
  · split
    · refine ⟨.w16, rfl, ⟨?_, ?_⟩, fun w' hw => ?_⟩
      · simp [Width.bytes]; omega
      · simp [Width.bytes]; omega
      · cases w' with
        | w8 => simp [Reach, Width.bytes] at hw; omega
        | w16 => decide
        | w32 => decide
    · refine ⟨.w32, rfl, ⟨?_, ?_⟩, fun w' hw => ?_⟩
      · simp [Width.bytes]; omega
      · simp [Width.bytes]; omega
      · cases w' with
        | w8 => simp [Reach, Width.bytes] at hw; omega
        | w16 => simp [Reach, Width.bytes] at hw; omega
        | w32 => decide

#print axioms C24_size_for_distance

end DuckLisp.Props
