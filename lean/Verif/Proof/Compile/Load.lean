import Verif.Proof.Compile.Execute

/-!
# Assembling and loading the code of a program
-/

namespace DuckLisp.Compile

open DuckLisp DuckLisp.VM DuckLisp.Asm DuckLisp.Spec DuckLisp.Spec.Eval DuckLisp.Reader DuckLisp.Props Setup

variable [Keys]

/-! ### After the removal of pushes that are popped -/

theorem peephole_pops : ∀ (n : Nat) (p : List Ins), p.length = n → FewPops p → ∀ m, .pop m ∈ peephole p →
    1 ≤ m ∧ m ≤ (p.map pops).sum := by
  intro n
  induction n with
  | zero =>
    intro p hp _ m hm
    rw [List.length_eq_zero_iff] at hp
    subst hp
    simp [peephole] at hm
  | succ n ih =>
    intro p hp hf m hm
    match p, hp with
    | [a], _ =>
      simp only [peephole, List.mem_singleton] at hm
      subst hm
      exact ⟨hf.1 m (by simp), by simp [pops]⟩
    | a :: b :: rest, hp =>
      rw [peephole] at hm
      have pa : ∀ n, a = .pop n → 1 ≤ n := fun n h => hf.1 n (by simp [h])
      have pb : ∀ n, b = .pop n → 1 ≤ n := fun n h => hf.1 n (by simp [h])
      have hrest := pops_nonneg (is := rest) fun n hn => hf.1 n (by simp [hn])
      have hsum := hf.2
      simp only [List.map_cons, List.sum_cons] at hsum ⊢
      have pa0 : 0 ≤ pops a := by
        cases a <;> simp only [pops, Int.le_refl]
        have := pa _ rfl
        omega
      have pb0 : 0 ≤ pops b := by
        cases b <;> simp only [pops, Int.le_refl]
        have := pb _ rfl
        omega
      obtain ⟨f1, f2⟩ := step_pops pa pb (by omega)
      rcases List.mem_cons.1 hm with hm | hm
      · have : (peepholeStep a b).1 = a ∨ (peepholeStep a b).1 = .internalNop := by
          unfold peepholeStep
          split
          · split
            · exact .inr rfl
            · split
              · exact .inr rfl
              · exact .inl rfl
          · exact .inl rfl
        rcases this with h | h
        · rw [h] at hm
          subst hm
          refine ⟨pa m rfl, ?_⟩
          have : pops (.pop m) = m := rfl
          omega
        · rw [h] at hm
          cases hm
      · have hf' : FewPops ((peepholeStep a b).2 :: rest) := by
          refine ⟨fun n hn => ?_, ?_⟩
          · rcases List.mem_cons.1 hn with hn | hn
            · exact f1 n hn.symm
            · exact hf.1 n (by simp [hn])
          · simp only [List.map_cons, List.sum_cons]
            omega
        obtain ⟨h1, h2⟩ := ih _ (by simp at hp ⊢; omega) hf' m hm
        simp only [List.map_cons, List.sum_cons] at h2
        exact ⟨h1, by omega⟩

theorem peephole_format {p : List Ins} (hf : FewPops p) (h : ∀ i ∈ p, InFormat i ∧ SmallWhereNeeded i) :
    ∀ i ∈ peephole p, InFormat i ∧ SmallWhereNeeded i := by
  intro i hi
  obtain ⟨k, hk⟩ := List.getElem?_of_mem hi
  obtain ⟨i0, h1, h2⟩ := kept_get hk
  rcases h2 with rfl | ⟨rfl | ⟨m, rfl⟩, _⟩
  · exact h i (List.mem_of_getElem? h1)
  · exact ⟨trivial, trivial⟩
  · obtain ⟨h3, h4⟩ := peephole_pops _ p rfl hf m hi
    have := hf.2
    exact ⟨⟨by omega, by omega⟩, trivial⟩

omit [Keys] in
theorem peephole_keeps {p : List Ins} {k : Nat} {i : Ins} (h : p[k]? = some i) (h1 : i.onlyPushes = false)
    (h2 : ∀ n, i ≠ .pop n) : (peephole p)[k]? = some i := by
  obtain ⟨e1, e2⟩ := kept_peephole _ p rfl
  have hk := (List.getElem?_eq_some_iff.1 h).1
  have hg : (peephole p)[k]? = some ((peephole p)[k]'(by omega)) := List.getElem?_eq_getElem (by omega)
  rcases e2 k _ _ h hg with h3 | ⟨_, h3 | ⟨n, h3⟩⟩
  · rw [hg, h3]
  · rw [h1] at h3; cases h3
  · exact absurd h3 (h2 n)

omit [Keys] in
theorem labelsDefined_rewritten {p : List Ins} (hp : LabelsDefined p) (opt : Options) :
    LabelsDefined (rewritten opt p) := by
  unfold rewritten
  split
  · intro k i n hi hn
    obtain ⟨i0, h1, h2⟩ := kept_get hi
    have : i0 = i := by
      rcases h2 with rfl | ⟨rfl | ⟨m, rfl⟩, _⟩
      · rfl
      · cases hn
      · cases hn
    subst this
    obtain ⟨j, hj⟩ := List.getElem?_of_mem (hp k i0 n h1 hn)
    exact List.mem_of_getElem? (peephole_keeps hj rfl (by simp))
  · exact hp

theorem labelsDefined_of_own {p : List Ins} {l l' : Nat} (h : Own p l l') (opt : Options) :
    LabelsDefined (rewritten opt p) := by
  refine labelsDefined_rewritten ?_ opt
  intro k i n hi hn
  have := h.named i (List.mem_of_getElem? hi) n hn
  unfold labels at this
  rw [List.mem_filterMap] at this
  obtain ⟨i', h1, h2⟩ := this
  cases i' <;> cases h2
  exact h1

/-! ### The program -/

theorem Code.noRelease {k bs L l code bs' L' l'} (h : Code k bs L l code bs' L' l') :
    ∀ i ∈ code, ∀ as, i ≠ .releaseUpvalues as := by
  have hset : ∀ a b, ∀ i ∈ settleCode a b, ∀ as, i ≠ .releaseUpvalues as := by
    intro a b i hi as
    unfold settleCode at hi
    split at hi
    · cases hi
    · simp only [List.mem_cons, List.not_mem_nil, or_false] at hi
      rcases hi with rfl | rfl <;> simp
  have h1 : ∀ (op : Op1) a as, op.ins a ≠ .releaseUpvalues as := by intro op a as; cases op <;> simp [Op1.ins]
  have h2 : ∀ (op : Op2) a b as, op.ins a b ≠ .releaseUpvalues as := by
    intro op a b as; cases op <;> simp [Op2.ins]
  have h3 : ∀ (op : Op3) a b c as, op.ins a b c ≠ .releaseUpvalues as := by
    intro op a b c as; cases op <;> simp [Op3.ins]
  induction h
  all_goals
    try simp only [List.forall_mem_append, List.forall_mem_cons, List.forall_mem_singleton,
      List.not_mem_nil, false_imp_iff, implies_true, and_true] at *
  case setq => refine ⟨by assumption, ?_⟩; split <;> simp
  case setqGlobal => refine ⟨by assumption, ?_⟩; split <;> simp
  case defGlobal => refine ⟨by assumption, ?_⟩; split <;> simp
  all_goals
    repeat' apply And.intro
  all_goals
    first
    | assumption
    | exact hset _ _
    | exact h1 _ _
    | exact h2 _ _ _
    | exact h3 _ _ _ _
    | (intro as; exact Ins.noConfusion)

section

variable {e : Ast} {code : List Ins} {L l : Nat}

theorem whole_own (hc : Code (.form e) [[]] 0 0 code [[]] L l) : Own (code ++ epilogue L ++ [.halt]) 0 l := by
  rw [List.append_assoc]
  exact hc.own.append epilogue_own

theorem whole_inOrder (hc : Code (.form e) [[]] 0 0 code [[]] L l) :
    InOrder l (code ++ epilogue L ++ [.halt]) := by
  refine inOrder_of_own (whole_own hc) (by simp) fun h => ?_
  rw [List.append_assoc] at h
  rcases List.mem_append.1 h with h | h
  · exact hc.noRelease _ h _ rfl
  · unfold epilogue at h
    split at h <;> simp at h

theorem whole_fewPops (hc : Code (.form e) [[]] 0 0 code [[]] L l)
    (hlen : (code ++ epilogue L ++ [Ins.halt]).length < 2 ^ 31) : FewPops (code ++ epilogue L ++ [.halt]) := by
  have hp : ∀ n, .pop n ∈ epilogue L ++ [Ins.halt] → 1 ≤ n := by
    intro n hn
    unfold epilogue at hn
    split at hn <;> simp at hn
    omega
  refine ⟨fun n hn => ?_, ?_⟩
  · rw [List.append_assoc] at hn
    rcases List.mem_append.1 hn with hn | hn
    · exact hc.pop_pos _ hn n rfl
    · exact hp n hn
  · have h1 := hc.popped_le
    have h2 : popped (epilogue L ++ [.halt]) ≤ ((epilogue L ++ [Ins.halt]).length : Nat) := by
      unfold epilogue
      split <;> simp [popped, pops]
    rw [List.append_assoc] at hlen ⊢
    show popped (code ++ (epilogue L ++ [.halt])) < _
    rw [popped_append]
    rw [List.length_append] at hlen
    omega

end

/-! ### Symbols -/

theorem ids_inj {t : Tables.Symbols} {history : List Bytes} (h : Tables.Holds t history) (name name' : Bytes)
    (id id' : Nat) (h1 : Tables.nameToValue t name = id) (h2 : Tables.nameToValue t name' = id') :
    name = name' ↔ id = id' := by
  have f1 := h.find name
  have f2 := h.find name'
  rw [h1] at f1
  rw [h2] at f2
  by_cases m1 : name ∈ history
  · by_cases m2 : name' ∈ history
    · rw [if_pos m1] at f1
      rw [if_pos m2] at f2
      constructor
      · rintro rfl; omega
      · intro hid
        have e1 := List.getElem_idxOf (List.idxOf_lt_length_of_mem ((Tables.mem_firsts history name).2 m1))
        have e2 := List.getElem_idxOf (List.idxOf_lt_length_of_mem ((Tables.mem_firsts history name').2 m2))
        rw [← e1, ← e2]
        congr 1
        omega
    · rw [if_neg m2] at f2; omega
  · rw [if_neg m1] at f1; omega

theorem ids_symbol {s : CState} (h : AllNumbered [] s) {id len : Int} {name : Bytes}
    (hm : .pushSymbol id len name ∈ s.assembly) (hlen : name.length < 65535) :
    Tables.nameToValue s.symbols name = (id.toNat : Nat) := by
  obtain ⟨⟨history, ht⟩, h⟩ := h
  obtain ⟨whole, h1, h2, h3⟩ := h _ (by simp [hm]) id len name rfl
  have : name = whole := by
    subst h3
    rw [List.length_take] at hlen
    exact List.take_of_length_le (by omega)
  subst this
  have := ht.find name
  rw [h1] at this ⊢
  split at this
  · omega
  · exact absurd this h2

/-! ### Assembling -/

theorem loaded {C : Setup} {e : Ast} {code : List Ins} {L l : Nat} {opt : Options}
    (hc : Code (.form e) [[]] 0 0 code [[]] L l) (hp : C.program = code ++ epilogue L ++ [.halt])
    (ha : assemble opt l C.program = .ok C.bytes) (hs : C.strip = opt.strip)
    {pieces : List Bytes} (h1 : Pieces opt.strip (rewritten opt C.program) C.bytes pieces)
    (h2 : AllLand (rewritten opt C.program) pieces) (ho : ∀ k, C.off k = offset pieces k)
    (hlen : C.program.length < 2 ^ 31) (hfmt : ∀ i ∈ C.program, InFormat i ∧ SmallWhereNeeded i)
    (hg : opt.pushPops = true → NoGarbage opt.strip C.program) :
    C.Loaded (rewritten opt C.program) pieces := by
  have hfew : FewPops C.program := by
    rw [hp] at hlen ⊢
    exact whole_fewPops hc hlen
  have hfmt' : ∀ i ∈ rewritten opt C.program, InFormat i ∧ SmallWhereNeeded i := by
    unfold rewritten
    split
    · exact peephole_format hfew hfmt
    · exact hfmt
  refine ⟨?_, hs ▸ h1, h2, fun i hi => (hfmt' i hi).1, fun i hi => (hfmt' i hi).2, ho⟩
  unfold rewritten
  split
  · rename_i h
    exact .inr ⟨rfl, hs ▸ hg h, hfew⟩
  · exact .inl rfl

/-- Jumps in short code, and those of four bytes, land. -/
theorem jumpsLand {e : Ast} {code : List Ins} {L l : Nat} {opt : Options} {program : List Ins} {bytes : Bytes}
    (hc : Code (.form e) [[]] 0 0 code [[]] L l) (hp : program = code ++ epilogue L ++ [.halt])
    (ha : assemble opt l program = .ok bytes)
    (hj : (opt.jumps = false ∧ bytes.length < 2 ^ 31) ∨ (opt.jumps = true ∧ bytes.length ≤ 126)) :
    JumpsLand opt program bytes := by
  rcases hj with ⟨hj, hb⟩ | ⟨hj, hb⟩
  · exact C24_fixed_size opt l _ _ hj ha hb
  · refine C24_short_code_partial opt l _ _ hj ha ?_ hb
    rw [hp]
    exact labelsDefined_of_own (whole_own hc) opt

theorem rewritten_labels {opt : Options} {program : List Ins} (h : ∀ i ∈ program, labelOf i = none) :
    ∀ i ∈ rewritten opt program, labelOf i = none := by
  unfold rewritten
  split
  · intro i hi
    obtain ⟨k, hk⟩ := List.getElem?_of_mem hi
    obtain ⟨i0, h1, h2⟩ := kept_get hk
    rcases h2 with rfl | ⟨rfl | ⟨m, rfl⟩, _⟩
    · exact h i (List.mem_of_getElem? h1)
    · rfl
    · rfl
  · exact h

/-- Where there are no jumps, none goes wrong. -/
theorem jumpsLand_none {opt : Options} {l : Nat} {program : List Ins} {bytes : Bytes}
    (ha : assemble opt l program = .ok bytes) (h : ∀ i ∈ program, labelOf i = none)
    (hb : opt.jumps = false → bytes.length < 2 ^ 31) : JumpsLand opt program bytes := by
  have hr := rewritten_labels (opt := opt) h
  by_cases hj : opt.jumps = true
  · obtain ⟨pieces, hp, -⟩ := C24_lands_iff_in_reach_partial opt l program bytes hj ha
    exact ⟨pieces, hp, fun k i n j hk hn _ _ => by rw [hr i (List.mem_of_getElem? hk)] at hn; cases hn⟩
  · have hj : opt.jumps = false := by simpa using hj
    exact C24_fixed_size opt l _ _ hj ha (hb hj)

theorem Loaded_nonempty {C : Setup} {target : List Ins} {pieces : List Bytes} (H : C.Loaded target pieces) {k : Nat}
    (hi : C.program[k]? = some .halt) : C.bytes ≠ [] := by
  intro hb
  have ht := H.loud_get hi rfl
  obtain ⟨p, hp⟩ := H.piece ht
  have hd := H.cut.plain k .halt p .halt ht hp rfl trivial trivial []
  have : p = [] := by
    have hf := H.cut.flatten
    rw [hb, List.flatten_eq_nil_iff] at hf
    exact hf p (List.mem_of_getElem? hp)
  subst this
  cases hd

end DuckLisp.Compile
