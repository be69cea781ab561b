import Verif.Model.Tables
import Verif.Spec.Tables
import Verif.Proof.Trie
import Verif.Proof.DynArray
import Verif.Proof.Reader.Limit

/-! Helper lemmas for symbols, generated names and error logs. -/

namespace DuckLisp.Tables

open DuckLisp.Spec DuckLisp.DynArray

/-! ## Symbols -/

theorem mem_firsts {α : Type} [DecidableEq α] (l : List α) (x : α) : x ∈ firsts l ↔ x ∈ l := by
  induction l with
  | nil => simp [firsts]
  | cons y l ih =>
    simp only [firsts, List.mem_cons, List.mem_filter, ih, decide_eq_true_eq]
    by_cases h : x = y <;> simp [h]

theorem nodup_firsts {α : Type} [DecidableEq α] (l : List α) : (firsts l).Nodup := by
  induction l with
  | nil => simp [firsts]
  | cons y l ih =>
    simp only [firsts, List.nodup_cons, List.mem_filter, decide_eq_true_eq]
    exact ⟨fun h => h.2 rfl, ih.filter _⟩

theorem firsts_snoc {α : Type} [DecidableEq α] (l : List α) (x : α) :
    firsts (l ++ [x]) = if x ∈ l then firsts l else firsts l ++ [x] := by
  induction l with
  | nil => simp [firsts]
  | cons y l ih =>
    simp only [List.cons_append, firsts, ih, List.mem_cons]
    by_cases h1 : x = y
    · subst h1
      by_cases h2 : x ∈ l <;> simp [h2]
    · by_cases h2 : x ∈ l <;> simp [h1, h2]

theorem firsts_append_prefix {α : Type} [DecidableEq α] (l l' : List α) : firsts l <+: firsts (l ++ l') := by
  induction h : l'.length generalizing l' with
  | zero => rw [List.length_eq_zero_iff.1 h, List.append_nil]; exact List.prefix_refl _
  | succ n ih =>
    obtain ⟨init, x, rfl⟩ : ∃ init x, l' = init ++ [x] := by
      rcases List.eq_nil_or_concat l' with rfl | ⟨init, x, rfl⟩
      · cases h
      · exact ⟨init, x, by simp⟩
    have := ih init (by simpa using h)
    rw [← List.append_assoc, firsts_snoc]
    split
    · exact this
    · exact this.trans (List.prefix_append _ _)

/-- The table after creating the names `h` in order. -/
structure Holds (t : Symbols) (h : List Bytes) : Prop where
  wf : t.trie.WF
  array : t.array = firsts h
  find : ∀ name, nameToValue t name = if name ∈ h then ((firsts h).idxOf name : Int) else -1

theorem holds_init : Holds .init [] :=
  ⟨Trie.build_WF (-1) [], rfl, fun name => by
    simp only [nameToValue, Symbols.init, Trie.init, Trie.find, List.not_mem_nil, if_false]
    cases name <;> simp [Trie.Node.find, Trie.Kids.find]⟩

theorem holds_create {t : Symbols} {h : List Bytes} (ht : Holds t h) (name : Bytes) :
    Holds (create .enough t name).1 (h ++ [name]) := by
  have hf := ht.find name
  by_cases hm : name ∈ h
  · rw [if_pos hm] at hf
    have hne : nameToValue t name ≠ -1 := by omega
    have e : (create .enough t name).1 = t := by simp only [create]; rw [if_neg hne]
    rw [e]
    refine ⟨ht.wf, ?_, ?_⟩
    · rw [firsts_snoc, if_pos hm]; exact ht.array
    · intro n
      rw [firsts_snoc, if_pos hm, ht.find]
      by_cases hn : n ∈ h
      · simp [hn]
      · have : n ≠ name := fun e => hn (e ▸ hm)
        simp [hn, this]
  · rw [if_neg hm] at hf
    have e : (create .enough t name).1 =
        { trie := Trie.insert t.trie name t.array.length, array := t.array ++ [name] } := by
      simp only [create]; rw [if_pos hf]
    rw [e]
    have hi := Trie.insert_find t.trie name t.array.length ht.wf
    refine ⟨hi.1, ?_, ?_⟩
    · rw [firsts_snoc, if_neg hm, ht.array]
    · intro n
      rw [firsts_snoc, if_neg hm]
      have h1 := hi.2 n
      have h2 := ht.find n
      simp only [nameToValue] at h2 ⊢
      rw [h1]
      by_cases hn : n = name
      · subst hn
        have h3 : n ∉ firsts h := by rwa [mem_firsts]
        rw [if_pos rfl, if_pos (by simp), List.idxOf_append, if_neg h3, ht.array]
        simp
      · rw [if_neg hn, h2]
        by_cases hn' : n ∈ h
        · have h3 : n ∈ firsts h := by rwa [mem_firsts]
          rw [if_pos hn', if_pos (by simp [hn']), List.idxOf_append, if_pos h3]
        · rw [if_neg hn', if_neg (by simp [hn', hn])]

theorem holds_createAll {t : Symbols} {h : List Bytes} (ht : Holds t h) (names : List Bytes) :
    Holds (createAll t names) (h ++ names) := by
  induction names generalizing t h with
  | nil => simpa [createAll] using ht
  | cons n ns ih =>
    have := ih (holds_create ht n)
    simpa [createAll, List.append_assoc] using this

/-! ## Generated names -/

theorem nybble_inj : ∀ a b : Fin 16, nybbleToHexChar (UInt8.ofNat a) = nybbleToHexChar (UInt8.ofNat b) → a = b := by
  decide +kernel

theorem place_toNat (number : UInt64) (i : Nat) (hi : i < 16) :
    ((number >>> (4 * i).toUInt64) &&& 15).toUInt8 = UInt8.ofNat (number.toNat / 16 ^ i % 16) := by
  have h1 : ((number >>> (4 * i).toUInt64) &&& 15).toNat = number.toNat / 16 ^ i % 16 := by
    rw [UInt64.toNat_and, UInt64.toNat_shiftRight]
    have : ((4 * i).toUInt64).toNat % 64 = 4 * i := by
      simp only [Nat.toUInt64_eq, UInt64.toNat_ofNat']
      omega
    rw [this, Nat.shiftRight_eq_div_pow, Nat.pow_mul]
    exact Nat.and_two_pow_sub_one_eq_mod _ 4
  apply UInt8.toNat_inj.1
  rw [UInt64.toNat_toUInt8, h1, UInt8.toNat_ofNat']

theorem hexPlaces_inj (a b : UInt64) : ∀ k, k ≤ 16 → hexPlaces a k = hexPlaces b k →
    a.toNat % 16 ^ k = b.toNat % 16 ^ k
  | 0, _, _ => by simp [Nat.mod_one]
  | k + 1, hk, h => by
    simp only [hexPlaces, List.cons.injEq] at h
    have ih := hexPlaces_inj a b k (by omega) h.2
    rw [place_toNat _ _ (by omega), place_toNat _ _ (by omega)] at h
    have := nybble_inj ⟨a.toNat / 16 ^ k % 16, Nat.mod_lt _ (by decide)⟩
      ⟨b.toNat / 16 ^ k % 16, Nat.mod_lt _ (by decide)⟩ h.1
    have e := Fin.mk.inj this
    rw [Nat.pow_succ, Nat.mod_mul, Nat.mod_mul, ih, e]

theorem gensym_inj {a b : UInt64} (h : (gensym a).1 = (gensym b).1) : a = b := by
  simp only [gensym, List.cons.injEq, true_and] at h
  have := hexPlaces_inj a b 16 (Nat.le_refl _) h
  have ha := a.toNat_lt
  have hb := b.toNat_lt
  apply UInt64.toNat_inj.1
  rw [show (16 : Nat) ^ 16 = 2 ^ 64 by decide] at this
  rwa [Nat.mod_eq_of_lt ha, Nat.mod_eq_of_lt hb] at this

theorem mem_gensyms {w : Bytes} : ∀ (k : Nat) (n : UInt64), w ∈ gensyms k n →
    ∃ j, j < k ∧ w = (gensym (n + j.toUInt64)).1
  | 0, _, h => by simp [gensyms] at h
  | k + 1, n, h => by
    simp only [gensyms, List.mem_cons] at h
    rcases h with h | h
    · exact ⟨0, by omega, by rw [h]; congr 2; simp⟩
    · obtain ⟨j, hj, e⟩ := mem_gensyms k _ h
      refine ⟨j + 1, by omega, ?_⟩
      rw [e]
      congr 2
      simp only [gensym, Nat.toUInt64_eq, UInt64.ofNat_add]
      rw [UInt64.add_assoc]
      congr 1
      rw [UInt64.add_comm]; rfl

theorem nodup_gensyms : ∀ (k : Nat) (n : UInt64), k ≤ 2 ^ 64 → (gensyms k n).Nodup
  | 0, _, _ => by simp [gensyms]
  | k + 1, n, hk => by
    simp only [gensyms, List.nodup_cons]
    refine ⟨?_, nodup_gensyms k _ (by omega)⟩
    intro h
    obtain ⟨j, hj, e⟩ := mem_gensyms k _ h
    have := gensym_inj e
    have h2 := congrArg UInt64.toNat this
    simp only [gensym, Nat.toUInt64_eq, UInt64.toNat_add, UInt64.toNat_ofNat'] at h2
    have hn := n.toNat_lt
    have h1 : (1 : UInt64).toNat = 1 := rfl
    rw [h1] at h2
    omega

/-! ## Logs -/

/-- `log` holds the bytes `l`. -/
def Logs (log : Arr) (l : Bytes) : Prop := Rep log (l.map ([·])) ∧ log.elementSize = 1

theorem flatten_singletons (l : Bytes) : (l.map ([·])).flatten = l := by
  induction l with
  | nil => rfl
  | cons c l ih => simp [ih]

theorem Logs.contents {log : Arr} {l : Bytes} (h : Logs log l) : contents log = l := by
  have h1 := h.1.bytes
  have h2 := h.1.length
  rw [h.2, Nat.mul_one, flatten_singletons] at h1
  simp only [Tables.contents]
  rw [h2]
  exact h1

theorem Logs.length {log : Arr} {l : Bytes} (h : Logs log l) : log.length = l.length := by
  have := h.1.length
  simpa using this

theorem logs_empty : Logs emptyLog [] := ⟨init_rep 1 (by decide) .double, rfl⟩

theorem logs_push {o : Oracle} {log : Arr} {l : Bytes} (h : Logs log l) (ho : ∀ s, o s ≠ none) (text : Bytes) :
    ∃ log', pushElements o log text.length (some (text.map ([·]))) = some (log', .ok []) ∧
      Logs log' (l ++ text) := by
  have := step_spec (o := o) h.1 (.pushMany text.length (some (text.map ([·]))))
    (by rw [h.2]; exact ⟨by simp, by simp⟩)
  rcases this with ⟨a, h1, h2, h3, _⟩ | ⟨_, s, hs⟩
  · refine ⟨a, h1, ?_, h3.trans h.2⟩
    rw [List.map_append]
    exact h2
  · exact absurd hs (ho s)

theorem logs_pushRuntime {o1 o2 : Oracle} {log : Arr} {l : Bytes} (h : Logs log l) (h1 : ∀ s, o1 s ≠ none)
    (h2 : ∀ s, o2 s ≠ none) (message : Bytes) :
    ∃ log', pushRuntime o1 o2 log message = some (log', none) ∧ Logs log' (logged l message) := by
  simp only [pushRuntime]
  by_cases hl : l = []
  · subst hl
    obtain ⟨log', e, hlog⟩ := logs_push h h2 message
    have h0 : ¬ log.length > 0 := by rw [h.length]; simp
    refine ⟨log', ?_, by simpa [logged] using hlog⟩
    rw [if_neg h0, e]
  · obtain ⟨log1, e1, hlog1⟩ := logs_push h h1 [10]
    obtain ⟨log', e, hlog⟩ := logs_push hlog1 h2 message
    have h0 : log.length > 0 := by
      rw [h.length]
      exact List.length_pos_iff.2 hl
    refine ⟨log', ?_, by simpa [logged, hl] using hlog⟩
    rw [if_pos h0, e1]
    simp only []
    rw [e]

theorem logs_pushAll : ∀ (ms : List (Oracle × Oracle × Bytes)) {log : Arr} {l : Bytes}, Logs log l →
    (∀ m ∈ ms, (∀ s, m.1 s ≠ none) ∧ ∀ s, m.2.1 s ≠ none) →
    ∃ log', pushAll log ms = some (log', ms.map fun _ => none) ∧
      Logs log' ((ms.map (·.2.2)).foldl logged l)
  | [], log, l, h, _ => ⟨log, rfl, h⟩
  | (o1, o2, m) :: ms, log, l, h, hall => by
    obtain ⟨h1, h2⟩ := hall (o1, o2, m) (by simp)
    obtain ⟨log1, e1, hlog1⟩ := logs_pushRuntime h h1 h2 m
    obtain ⟨log', e2, hlog'⟩ := logs_pushAll ms hlog1 (fun x hx => hall x (by simp [hx]))
    refine ⟨log', ?_, hlog'⟩
    simp only [pushAll, e1, e2, List.map_cons]

end DuckLisp.Tables

namespace DuckLisp.Reader
open DuckLisp.Spec DuckLisp.DlString

/-- If `m` succeeds its result satisfies `Q`. -/
def Yields {α : Type} (Q : α → Prop) (m : R α) : Prop := ∀ s a s', m s = .ok a s' → Q a

theorem yields_pure {α : Type} {Q : α → Prop} {a : α} (h : Q a) : Yields Q (pure a : R α) :=
  fun _ _ _ e => by cases e; exact h

theorem yields_throw {α : Type} {Q : α → Prop} (e : DlError) : Yields Q (R.throw e : R α) :=
  fun _ _ _ h => by cases h

theorem yields_ub {α : Type} {Q : α → Prop} : Yields Q (R.ub : R α) := fun _ _ _ h => by cases h

theorem yields_diverge {α : Type} {Q : α → Prop} : Yields Q (R.diverge : R α) := fun _ _ _ h => by cases h

theorem yields_bind {α β : Type} {P : α → Prop} {Q : β → Prop} {m : R α} {f : α → R β} (hm : Yields P m)
    (hf : ∀ a, P a → Yields Q (f a)) : Yields Q (m >>= f) := by
  intro s b s' h
  obtain ⟨a, s1, h1, h2⟩ := bind_inv_ok h
  exact hf a (hm s a s1 h1) s1 b s' h2

theorem yields_any {α : Type} (m : R α) : Yields (fun _ => True) m := fun _ _ _ _ => trivial

theorem yields_bind' {α β : Type} {Q : β → Prop} {m : R α} {f : α → R β}
    (hf : ∀ a, Yields Q (f a)) : Yields Q (m >>= f) :=
  yields_bind (yields_any m) (fun a _ => hf a)

theorem yields_ite {α : Type} {Q : α → Prop} {c : Prop} [Decidable c] {m n : R α} (hm : c → Yields Q m)
    (hn : ¬ c → Yields Q n) : Yields Q (if c then m else n) := by
  split
  · exact hm ‹_›
  · exact hn ‹_›

theorem yields_orElse {α : Type} {Q : α → Prop} {m n : R α} (hm : Yields Q m) (hn : Yields Q n) :
    Yields Q (orElse m n) := by
  intro s a s' h
  simp only [orElse] at h
  cases hms : m s with
  | ok b s1 => rw [hms] at h; cases h; exact hm _ _ _ hms
  | err e s1 =>
    rw [hms] at h
    cases e <;> first | (cases h; done) | exact hn _ _ _ h
  | ub => rw [hms] at h; cases h
  | diverge => rw [hms] at h; cases h

mutual
/-- Names of identifiers and callbacks consist of symbol characters. -/
def Clean : Ast → Prop
  | .identifier v => ∀ c ∈ v, isIdentifierSymbol c = true
  | .callback v => ∀ c ∈ v, isIdentifierSymbol c = true
  | .literal es => CleanAll es
  | .expression es => CleanAll es
  | _ => True
/-- All of them. -/
def CleanAll : List Ast → Prop
  | [] => True
  | e :: es => Clean e ∧ CleanAll es
end

theorem cleanAll_snoc {es : List Ast} {e : Ast} (h : CleanAll es) (he : Clean e) : CleanAll (es ++ [e]) := by
  induction es with
  | nil => exact ⟨he, trivial⟩
  | cons x xs ih => exact ⟨h.1, ih h.2⟩

mutual
theorem clean_postprocess : ∀ e, Clean e → Clean (postprocess e)
  | .bool _, h | .float _, h | .int _, h | .string _, h | .identifier _, h | .garbage, h => h
  | .callback _, h => h
  | .literal es, h => by
      simp only [postprocess, Clean] at h ⊢
      exact clean_postprocessAll es h
  | .expression es, h => by
      simp only [postprocess, Clean] at h ⊢
      exact clean_postprocessAll es h
theorem clean_postprocessAll : ∀ es, CleanAll es → CleanAll (postprocessAll es)
  | [], _ => trivial
  | e :: es, h => by
      simp only [postprocessAll]
      exact ⟨clean_postprocess e h.1, clean_postprocessAll es h.2⟩
end

mutual
theorem occurs_clean {w : Bytes} : ∀ e, Clean e → Occurs w e → ∀ c ∈ w, isIdentifierSymbol c = true
  | .bool _, _, h | .float _, _, h | .int _, _, h | .string _, _, h | .garbage, _, h => by
      simp only [Occurs] at h
  | .identifier v, hc, h => by simp only [Occurs] at h; subst h; exact hc
  | .callback v, hc, h => by simp only [Occurs] at h; subst h; exact hc
  | .literal es, hc, h => by
      simp only [Occurs, Clean] at h hc
      exact occursIn_clean es hc h
  | .expression es, hc, h => by
      simp only [Occurs, Clean] at h hc
      exact occursIn_clean es hc h
theorem occursIn_clean {w : Bytes} : ∀ es, CleanAll es → OccursIn w es → ∀ c ∈ w, isIdentifierSymbol c = true
  | [], _, h => by simp only [OccursIn] at h
  | e :: es, hc, h => by
      simp only [OccursIn] at h
      rcases h with h | h
      · exact occurs_clean e hc.1 h
      · exact occursIn_clean es hc.2 h
end

theorem takeWhile_slice (p : Byte → Bool) (src : Bytes) (i : Nat) :
    slice src i (skip p src i) = (src.drop i).takeWhile p := by
  simp only [slice, skip, Nat.add_sub_cancel_left]
  exact (List.prefix_iff_eq_take.1 (List.takeWhile_prefix p)).symm

theorem mem_takeWhile {p : Byte → Bool} {l : Bytes} {c : Byte} (h : c ∈ l.takeWhile p) : p c = true := by
  induction l with
  | nil => simp at h
  | cons x l ih =>
    rw [List.takeWhile_cons] at h
    split at h
    · rcases List.mem_cons.1 h with rfl | h
      · assumption
      · exact ih h
    · simp at h

/-- Readers whose results carry no names. -/
macro "yields_plain" : tactic => `(tactic|
  repeat' first
    | exact yields_throw _
    | exact yields_ub
    | exact yields_diverge
    | exact yields_pure trivial
    | refine yields_ite (fun _ => ?_) (fun _ => ?_)
    | refine yields_bind' (fun _ => ?_)
    | split)

theorem clean_elements {cfg : Config} {src : Bytes} {inner : Nat → R (Ast × Nat)}
    (hin : ∀ i, Yields (fun r => Clean r.1) (inner i)) : ∀ fuel i es, CleanAll es →
    Yields (fun r => CleanAll r.1) (elements cfg src inner fuel i es)
  | 0, _, _, _ => yields_diverge
  | fuel + 1, i, es, he => by
    simp only [elements]
    refine yields_ite (fun _ => yields_bind' fun _ => yields_throw _) (fun _ => ?_)
    refine yields_bind' fun c => yields_ite (fun _ => yields_pure he) (fun _ => ?_)
    refine yields_bind (hin i) (fun r hr => ?_)
    refine yields_bind' fun k => ?_
    exact clean_elements hin fuel k _ (cleanAll_snoc he hr)

theorem clean_compound {cfg : Config} {src : Bytes} (hact : NoActions cfg) : ∀ n i,
    Yields (fun r => Clean r.1) (compound cfg src n i)
  | 0, _ => yields_diverge
  | n + 1, i => by
    have ih := clean_compound (src := src) hact n
    have body : Yields (fun r : Ast × Nat => Clean r.1) (do
        let j ← irrelevant src i
        let (e, k) ← readers cfg src (compound cfg src n) j
        let e ← runAction cfg e
        return (e, k)) := by
      refine yields_bind' fun j => ?_
      have hr : Yields (fun r : Ast × Nat => Clean r.1) (readers cfg src (compound cfg src n) j) := by
        unfold readers
        refine yields_orElse ?_ (yields_orElse ?_ (yields_orElse ?_ (yields_orElse ?_ (yields_orElse ?_
          (yields_orElse ?_ (yields_orElse ?_ ?_))))))
        · unfold parseBool; yields_plain
        · unfold parseFloat; yields_plain
        · unfold parseInt; yields_plain
        · unfold parseString; yields_plain
        · unfold parseLiteral
          refine yields_ite (fun _ => yields_throw _) fun _ => ?_
          refine yields_bind' fun _ => yields_ite (fun _ => yields_throw _) fun _ => ?_
          refine yields_bind' fun _ => yields_ite (fun _ => yields_throw _) fun _ => ?_
          refine yields_bind (clean_elements ih _ _ [] trivial) (fun r hr => ?_)
          exact yields_pure hr
        · unfold parseCallback
          refine yields_ite (fun _ => yields_throw _) fun _ => ?_
          refine yields_bind' fun _ => yields_ite (fun _ => yields_throw _) fun _ => ?_
          refine yields_pure ?_
          simp only [Clean, takeWhile_slice]
          intro c hc
          have := mem_takeWhile hc
          rwa [alnum_symbol] at this
        · unfold parseIdentifier
          refine yields_ite (fun _ => yields_throw _) fun hi => ?_
          refine yields_bind (P := fun c => src[j]? = some c) ?_ fun c hc => yields_ite (fun _ => yields_throw _) fun hs => ?_
          · intro s a s' h
            simp only [byteAt] at h
            cases hb : src[j]? with
            | none => rw [hb] at h; cases h
            | some b => rw [hb] at h; cases h; rfl
          refine yields_pure ?_
          simp only [Clean]
          intro d hd
          have hlt := (List.getElem?_eq_some_iff.1 hc)
          obtain ⟨hlt, hv⟩ := hlt
          have e : slice src j (skip isIdentifierSymbol src (j + 1)) =
              c :: slice src (j + 1) (skip isIdentifierSymbol src (j + 1)) := by
            simp only [slice, skip]
            rw [List.drop_eq_getElem_cons hlt, hv,
              show j + 1 + (List.takeWhile isIdentifierSymbol (List.drop (j + 1) src)).length - j =
                (j + 1 + (List.takeWhile isIdentifierSymbol (List.drop (j + 1) src)).length - (j + 1)) + 1 by omega,
              List.take_succ_cons]
          rw [e, takeWhile_slice] at hd
          rcases List.mem_cons.1 hd with rfl | hd
          · simpa using hs
          · exact mem_takeWhile hd
        · unfold parseExpression
          refine yields_ite (fun _ => yields_throw _) fun _ => ?_
          refine yields_bind' fun _ => yields_ite (fun _ => yields_bind' fun _ => yields_throw _) fun _ => ?_
          refine yields_ite (fun _ => yields_throw _) fun _ => ?_
          refine yields_bind (clean_elements ih _ _ [] trivial) (fun r hr => ?_)
          exact yields_pure hr
      refine yields_bind hr (fun r hr => ?_)
      refine yields_bind (P := fun e => e = r.1) ?_ ?_
      · intro s a s' h
        rw [runAction_none hact] at h
        cases h; rfl
      · rintro _ rfl
        exact yields_pure hr
    rw [compound_succ]
    intro s a s' h
    by_cases hd : s.depth + 1 < cfg.maxDepth
    · rw [counted_run hd] at h
      cases hb : (do
        let j ← irrelevant src i
        let (e, k) ← readers cfg src (compound cfg src n) j
        let e ← runAction cfg e
        return (e, k)) { s with depth := s.depth + 1 } with
      | ok a1 s1 =>
        replace h := (congrArg uncount hb.symm).trans h
        cases h
        exact body _ _ _ hb
      | err e s1 => replace h := (congrArg uncount hb.symm).trans h; cases h
      | ub => replace h := (congrArg uncount hb.symm).trans h; cases h
      | diverge => replace h := (congrArg uncount hb.symm).trans h; cases h
    · simp only [counted] at h
      rw [if_pos (by omega)] at h
      cases hp : pushSyntax cfg src "Max expression recursion depth met." i i { s with depth := s.depth + 1 } with
      | ok a1 s1 => rw [bind_ok hp] at h; cases h
      | err e s1 => rw [bind_err hp] at h; cases h
      | ub => rw [bind_ub hp] at h; cases h
      | diverge => rw [bind_diverge hp] at h; cases h

end DuckLisp.Reader
