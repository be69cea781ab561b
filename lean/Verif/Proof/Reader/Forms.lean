import Verif.Proof.Reader.Names

/-! Helper lemmas: written forms are read, up to the nesting limit. -/

namespace DuckLisp.Reader

open DuckLisp.DlString DuckLisp.Spec

theorem orElse_next {α : Type} {m next : R α} {s s' : RState} (h : m s = .err .invalidValue s') :
    orElse m next s = next s' := by
  simp only [orElse, h]

theorem orElse_ok {α : Type} {m next : R α} {s s' : RState} {a : α} (h : m s = .ok a s') :
    orElse m next s = .ok a s' := by
  simp only [orElse, h]

theorem orElse_overflow {α : Type} {m next : R α} {s s' : RState} (h : m s = .err .bufferOverflow s') :
    orElse m next s = .err .bufferOverflow s' := by
  simp only [orElse, h]

/-- The readers, in the order in which they are tried. -/
def readers (cfg : Config) (src : Bytes) (inner : Nat → R (Ast × Nat)) (j : Nat) : R (Ast × Nat) :=
  orElse (parseBool src j) <| orElse (parseFloat cfg src j) <| orElse (parseInt src j) <|
    orElse (parseString cfg src j) <| orElse (parseLiteral cfg src inner j) <|
    orElse (parseCallback src j) <| orElse (parseIdentifier src j) <|
    parseExpression cfg src inner j

theorem compound_succ (cfg : Config) (src : Bytes) (n i : Nat) :
    compound cfg src (n + 1) i = counted cfg src i (do
      let j ← irrelevant src i
      let (e, k) ← readers cfg src (compound cfg src n) j
      let e ← runAction cfg e
      return (e, k)) := rfl

/-- No parser actions are registered (the default). -/
def NoActions (cfg : Config) : Prop := ∀ name, cfg.action name = none

theorem runAction_none {cfg : Config} (h : NoActions cfg) (e : Ast) (s : RState) :
    runAction cfg e s = .ok e s := by
  unfold runAction
  split
  all_goals (try rw [h])
  all_goals rfl

/-- What is left after the counter is decremented. -/
def uncount {α : Type} : ROut α → ROut α
  | .ok a s' => .ok a { s' with depth := s'.depth - 1 }
  | .err e s' => .err e { s' with depth := s'.depth - 1 }
  | .ub => .ub
  | .diverge => .diverge

theorem counted_run {α : Type} {cfg : Config} {src : Bytes} {i : Nat} {m : R α} {s : RState}
    (hd : s.depth + 1 < cfg.maxDepth) :
    counted cfg src i m s = uncount (m { s with depth := s.depth + 1 }) := by
  simp only [counted]
  rw [if_neg (Nat.not_le.2 hd)]
  rfl

theorem compound_of_readers {cfg : Config} {src sep t : Bytes} (hact : NoActions cfg) (hsep : Sep sep)
    {i n k : Nat} {c : Byte} {e : Ast} {s : RState} (h : src.drop i = sep ++ c :: t) (hc : blank c = false)
    (hc' : c ≠ 59) (hd : s.depth + 1 < cfg.maxDepth)
    (hr : readers cfg src (compound cfg src n) (i + sep.length) { s with depth := s.depth + 1 } =
      .ok (e, k) { s with depth := s.depth + 1 }) :
    compound cfg src (n + 1) i s = .ok (e, k) s := by
  rw [compound_succ, counted_run hd]
  refine (congrArg uncount ?_).trans (show uncount (.ok (e, k) { s with depth := s.depth + 1 }) = _ from rfl)
  refine (bind_ok (irrelevant_sep hsep h hc hc' _)).trans ?_
  refine (bind_ok hr).trans ?_
  exact bind_ok (runAction_none hact e _)

theorem compound_overflow_of_readers {cfg : Config} {src sep t : Bytes} (hsep : Sep sep)
    {i n : Nat} {c : Byte} {s s' : RState} (h : src.drop i = sep ++ c :: t) (hc : blank c = false)
    (hc' : c ≠ 59) (hd : s.depth + 1 < cfg.maxDepth)
    (hr : readers cfg src (compound cfg src n) (i + sep.length) { s with depth := s.depth + 1 } =
      .err .bufferOverflow s') :
    compound cfg src (n + 1) i s = .err .bufferOverflow { s' with depth := s'.depth - 1 } := by
  rw [compound_succ, counted_run hd]
  refine (congrArg uncount ?_).trans (show uncount (.err .bufferOverflow s') = _ from rfl)
  refine (bind_ok (irrelevant_sep hsep h hc hc' _)).trans ?_
  exact bind_err hr

theorem parseLiteral_no {cfg : Config} {src t : Bytes} {inner : Nat → R (Ast × Nat)} {i : Nat} {c : Byte}
    (h : src.drop i = c :: t) (hc : c ≠ 35) (s : RState) :
    parseLiteral cfg src inner i s = .err .invalidValue s := by
  simp only [parseLiteral]
  by_cases hl : src.length ≤ i + 3
  · rw [if_pos hl]; rfl
  · rw [if_neg hl]
    refine (bind_ok (byteAt_of_drop h s)).trans ?_
    rw [if_pos hc]; rfl

theorem parseLiteral_no' {cfg : Config} {src t : Bytes} {inner : Nat → R (Ast × Nat)} {i : Nat} {c : Byte}
    (h : src.drop i = 35 :: c :: t) (hc : c ≠ 40) (s : RState) :
    parseLiteral cfg src inner i s = .err .invalidValue s := by
  simp only [parseLiteral]
  by_cases hl : src.length ≤ i + 3
  · rw [if_pos hl]; rfl
  · rw [if_neg hl]
    refine (bind_ok (byteAt_of_drop h s)).trans ?_
    rw [if_neg (by simp)]
    refine (bind_ok (byteAt_of_drop (drop_succ_of_drop h) s)).trans ?_
    rw [if_pos hc]; rfl

theorem parseFloat_head {cfg : Config} {src t : Bytes} {i : Nat} {c : Byte} (h : src.drop i = c :: t)
    (h1 : decimal c = false) (h2 : c ≠ 45) (h3 : c ≠ 46) (s : RState) :
    parseFloat cfg src i s = .err .invalidValue s := by
  simp only [parseFloat]
  refine (bind_ok (parseSign_none h h2 s)).trans ?_
  refine bind_err ?_
  simp only [parseMantissa]
  refine (bind_ok (byteAt_of_drop h s)).trans ?_
  rw [if_neg h3, if_pos (by rw [isDigit_eq, h1]; decide)]
  rfl

theorem parseInt_head {src t : Bytes} {i : Nat} {c : Byte} (h : src.drop i = c :: t)
    (h1 : decimal c = false) (h2 : c ≠ 45) (s : RState) :
    parseInt src i s = .err .invalidValue s := by
  simp only [parseInt]
  refine (bind_ok (parseSign_none h h2 s)).trans ?_
  refine (bind_ok (byteAt_of_drop h s)).trans ?_
  rw [if_pos (by rw [isDigit_eq, h1]; decide)]
  rfl

/-- At an opening parenthesis only the reader of expressions applies. -/
theorem readers_paren {cfg : Config} {src t : Bytes} {inner : Nat → R (Ast × Nat)} {j : Nat}
    (h : src.drop j = 40 :: t) (s : RState) :
    readers cfg src inner j s = parseExpression cfg src inner j s := by
  unfold readers
  rw [orElse_next (parseBool_head h (by decide) (by decide) s),
    orElse_next (parseFloat_head h (by decide) (by decide) (by decide) s),
    orElse_next (parseInt_head h (by decide) (by decide) s),
    orElse_next (parseString_no h (by decide) s), orElse_next (parseLiteral_no h (by decide) s),
    orElse_next (parseCallback_no h (by decide) s), orElse_next (parseIdentifier_no h (by decide) s)]

/-- At a hash sign literal expressions come first. -/
theorem readers_hash {cfg : Config} {src t : Bytes} {inner : Nat → R (Ast × Nat)} {j : Nat}
    (h : src.drop j = 35 :: t) (s : RState) :
    readers cfg src inner j s =
      orElse (parseLiteral cfg src inner j) (orElse (parseCallback src j) <|
        orElse (parseIdentifier src j) <| parseExpression cfg src inner j) s := by
  unfold readers
  rw [orElse_next (parseBool_head h (by decide) (by decide) s),
    orElse_next (parseFloat_head h (by decide) (by decide) (by decide) s),
    orElse_next (parseInt_head h (by decide) (by decide) s),
    orElse_next (parseString_no h (by decide) s)]

/-! ## Single tokens -/

/-- Forms that are not expressions. -/
def atomic : Ast → Bool
  | .literal _ => false
  | .expression _ => false
  | _ => true

theorem prefix_symbols {p w t : Bytes} {y : Byte} (hp : p <+: w ++ y :: t) (hs : ∀ c ∈ p, delimiter c = false)
    (hy : delimiter y = true) : p <+: w := by
  induction w generalizing p with
  | nil =>
    cases p with
    | nil => exact List.nil_prefix
    | cons c p =>
      rw [List.nil_append, List.cons_prefix_cons] at hp
      have := hs c (by simp)
      rw [hp.1, hy] at this
      cases this
  | cons d w ih =>
    cases p with
    | nil => exact List.nil_prefix
    | cons c p =>
      rw [List.cons_append, List.cons_prefix_cons] at hp
      rw [List.cons_prefix_cons]
      exact ⟨hp.1, ih hp.2 (fun x hx => hs x (by simp [hx]))⟩

theorem floatText_head {w : Bytes} (h : FloatText w) : ∃ c t, w = c :: t ∧ c ≠ 116 ∧ c ≠ 102 := by
  obtain ⟨sign, m, x, a, b, hsign, hm, hx, hab, rfl⟩ := h
  rcases hsign with rfl | rfl
  · cases hm with
    | whole _ hne hd =>
      cases m with
      | nil => exact absurd rfl hne
      | cons d ds =>
        have := decimal_facts (hd d (by simp))
        exact ⟨d, _, rfl, this.2.2.2.2.2.2.2.1, this.2.2.2.2.2.2.2.2.1⟩
    | point ds fs hne hd hfr =>
      cases ds with
      | nil => exact absurd rfl hne
      | cons d ds =>
        have := decimal_facts (hd d (by simp))
        exact ⟨d, _, rfl, this.2.2.2.2.2.2.2.1, this.2.2.2.2.2.2.2.2.1⟩
    | fraction fs hne hfr => exact ⟨46, _, rfl, by decide, by decide⟩
  · exact ⟨45, _, rfl, by decide, by decide⟩

/-- Atoms are read. -/
theorem readers_atom {cfg : Config} {src w post : Bytes} {inner : Nat → R (Ast × Nat)} {e : Ast} {j : Nat}
    (hw : Written cfg.toDouble e w) (ha : atomic e = true) (hp : Stops e post)
    (h : src.drop j = w ++ post) (s : RState) :
    readers cfg src inner j s = .ok (e, j + w.length) s := by
  cases hw with
  | true =>
    obtain ⟨y, t, rfl, hy⟩ := hp
    exact orElse_ok (parseBool_true h s)
  | false =>
    obtain ⟨y, t, rfl, hy⟩ := hp
    exact orElse_ok (parseBool_false h s)
  | int hi hr =>
    obtain ⟨y, t, rfl, hy⟩ := hp
    obtain ⟨c, u, hcu, hc⟩ := numeral_head hi.1
    have h0 : src.drop j = c :: (u ++ y :: t) := by rw [h, hcu]; rfl
    have hc1 : c ≠ 116 ∧ c ≠ 102 := by
      rcases hc with hc | hc
      · exact ⟨(decimal_facts hc).2.2.2.2.2.2.2.1, (decimal_facts hc).2.2.2.2.2.2.2.2.1⟩
      · subst hc; decide
    unfold readers
    rw [orElse_next (parseBool_head h0 hc1.1 hc1.2 s), orElse_next (parseFloat_no h hy (numeral_no_float hi.1) s)]
    exact orElse_ok (parseInt_ok hi hr h hy s)
  | float hf hx =>
    obtain ⟨y, t, rfl, hy⟩ := hp
    obtain ⟨c, u, hcu, hc1, hc2⟩ := floatText_head hf
    have h0 : src.drop j = c :: (u ++ y :: t) := by rw [h, hcu]; rfl
    unfold readers
    rw [orElse_next (parseBool_head h0 hc1 hc2 s)]
    refine orElse_ok ?_
    rw [parseFloat_ok hf h hy s]
    simp only [floatOutcome]
    simp only [Config.toDouble, valueOf] at hx
    cases hd : toDouble cfg.arith w (some 32) with
    | ok x => rw [hd] at hx; cases hx; rfl
    | _ => rw [hd] at hx; cases hx
  | string hb =>
    cases post with
    | nil => exact absurd rfl hp
    | cons y t =>
      rename_i v raw
      have h0 : src.drop j = 34 :: (raw ++ [34] ++ y :: t) := h
      unfold readers
      rw [orElse_next (parseBool_head h0 (by decide) (by decide) s),
        orElse_next (parseFloat_head h0 (by decide) (by decide) (by decide) s),
        orElse_next (parseInt_head h0 (by decide) (by decide) s)]
      exact orElse_ok (parseString_ok hb h s)
  | identifier hn =>
    obtain ⟨y, t, rfl, hy⟩ := hp
    cases w with
    | nil => exact absurd rfl hn.nonempty
    | cons c w =>
      have h0 : src.drop j = c :: (w ++ y :: t) := h
      have hc : delimiter c = false := hn.symbols c (by simp)
      have hc35 : c ≠ 35 := by
        rintro rfl
        exact hn.no_hash rfl
      have hc34 : c ≠ 34 := by rintro rfl; exact absurd hc (by decide)
      have hb1 : ¬ [116, 114, 117, 101] <+: src.drop j := by
        rw [h]
        exact fun hp => hn.no_true (prefix_symbols hp (by decide) hy)
      have hb2 : ¬ [102, 97, 108, 115, 101] <+: src.drop j := by
        rw [h]
        exact fun hp => hn.no_false (prefix_symbols hp (by decide) hy)
      unfold readers
      rw [orElse_next (parseBool_no hb1 hb2 s), orElse_next (parseFloat_no h hy hn.no_float s),
        orElse_next (parseInt_no h hn.symbols hy hn.no_int s), orElse_next (parseString_no h0 hc34 s),
        orElse_next (parseLiteral_no h0 hc35 s), orElse_next (parseCallback_no h0 hc35 s)]
      exact orElse_ok (parseIdentifier_ok h hn.nonempty hn.symbols hy s)
  | callback hne hs =>
    obtain ⟨y, t, rfl, hy⟩ := hp
    rename_i w
    have h0 : src.drop j = 35 :: (w ++ y :: t) := h
    rw [readers_hash h0]
    have hlit : parseLiteral cfg src inner j s = .err .invalidValue s := by
      cases w with
      | cons c w =>
        refine parseLiteral_no' h0 ?_ s
        rintro rfl
        exact absurd (hs 40 (by simp)) (by decide)
      | nil => exact absurd rfl hne
    rw [orElse_next hlit]
    exact orElse_ok (parseCallback_ok h hs hy s)
  | empty => cases ha
  | expression _ => cases ha
  | emptyLiteral => cases ha
  | literal _ => cases ha

/-! ## Expressions -/

/-- The first byte of a form. -/
theorem written_head {toDouble : Bytes → Option UInt64} {e : Ast} {w : Bytes} (h : Written toDouble e w) :
    ∃ c t, w = c :: t ∧ blank c = false ∧ c ≠ 59 ∧ c ≠ 41 := by
  have sym : ∀ {c : Byte}, delimiter c = false → blank c = false ∧ c ≠ 59 ∧ c ≠ 41 := by
    intro c hc
    simp only [delimiter, Bool.or_eq_false_iff, decide_eq_false_iff_not] at hc
    exact ⟨hc.1.1.1.1, hc.2, hc.1.2⟩
  cases h with
  | true => exact ⟨_, _, rfl, by decide⟩
  | false => exact ⟨_, _, rfl, by decide⟩
  | int hi hr =>
    obtain ⟨c, t, e, hc⟩ := numeral_head hi.1
    exact ⟨c, t, e, sym (numeral_symbols hi.1 c (by rw [e]; simp))⟩
  | float hf hx =>
    obtain ⟨sign, m, x, a, b, hsign, hm, hx, hab, rfl⟩ := hf
    rcases hsign with rfl | rfl
    · cases hm with
      | whole _ hne hd =>
        cases m with
        | nil => exact absurd rfl hne
        | cons d ds => exact ⟨d, _, rfl, sym (decimal_facts (hd d (by simp))).1⟩
      | point ds fs hne hd hfr =>
        cases ds with
        | nil => exact absurd rfl hne
        | cons d ds => exact ⟨d, _, rfl, sym (decimal_facts (hd d (by simp))).1⟩
      | fraction fs hne hfr => exact ⟨46, _, rfl, by decide⟩
    · exact ⟨45, _, rfl, by decide⟩
  | string hb => exact ⟨_, _, rfl, by decide⟩
  | identifier hn =>
    cases w with
    | nil => exact absurd rfl hn.nonempty
    | cons c w => exact ⟨c, w, rfl, sym (hn.symbols c (by simp))⟩
  | callback _ hs => exact ⟨_, _, rfl, by decide⟩
  | empty => exact ⟨_, _, rfl, by decide⟩
  | expression _ => exact ⟨_, _, rfl, by decide⟩
  | emptyLiteral => exact ⟨_, _, rfl, by decide⟩
  | literal _ => exact ⟨_, _, rfl, by decide⟩

theorem row_length {toDouble : Bytes → Option UInt64} {es : List Ast} : ∀ {r : Bytes}, Row toDouble es r →
    es.length ≤ r.length := by
  induction es with
  | nil => intro r _; exact Nat.zero_le _
  | cons e es ih =>
    intro r h
    cases h with
    | cons hs hw ha hr =>
      obtain ⟨c, t, rfl, _⟩ := written_head hw
      have := ih hr
      simp only [List.length_append, List.length_cons]
      omega

/-- What follows an element of an expression ends it. -/
theorem stops_of_apart {e : Ast} {r post : Bytes} (h : Apart e r) : Stops e (r ++ 41 :: post) := by
  have h1 : r ++ 41 :: post ≠ [] := by simp
  have h2 : closed e = false → ∃ c t, r ++ 41 :: post = c :: t ∧ delimiter c = true := by
    intro hc
    rcases h with h | rfl | ⟨c, t, rfl, hd⟩
    · rw [hc] at h; cases h
    · exact ⟨41, post, rfl, by decide⟩
    · exact ⟨c, _, rfl, hd⟩
  cases e <;> first | exact trivial | exact h1 | exact h2 rfl

/-- Reading a row of elements up to the closing parenthesis, white space first. -/
def rowFrom (cfg : Config) (src : Bytes) (inner : Nat → R (Ast × Nat)) (fuel i : Nat) (acc : List Ast) :
    R (List Ast × Nat) := do
  let k ← irrelevant src i
  elements cfg src inner fuel k acc

theorem sep_first {sep : Bytes} (h : Sep sep) {c : Byte} {t : Bytes} (e : sep = c :: t) : c ≠ 41 := by
  cases h with
  | nil => cases e
  | blank d hd hs =>
    cases e
    rintro rfl
    exact absurd hd (by decide)
  | comment body d hb hd hs =>
    cases e
    decide

theorem elements_close {cfg : Config} {src post : Bytes} {inner : Nat → R (Ast × Nat)} {i fuel : Nat}
    (h : src.drop i = 41 :: post) (acc : List Ast) (s : RState) :
    elements cfg src inner (fuel + 1) i acc s = .ok (acc, i + 1) s := by
  simp only [elements]
  rw [if_neg (Nat.not_le.2 (lt_of_drop h))]
  refine (bind_ok (byteAt_of_drop h s)).trans ?_
  rw [if_pos rfl]; rfl

theorem elements_step {cfg : Config} {src t : Bytes} {inner : Nat → R (Ast × Nat)} {i j fuel : Nat} {c : Byte}
    {e : Ast} {s s' : RState} (h : src.drop i = c :: t) (hc : c ≠ 41) (hi : inner i s = .ok (e, j) s')
    (acc : List Ast) :
    elements cfg src inner (fuel + 1) i acc s = rowFrom cfg src inner fuel j (acc ++ [e]) s' := by
  simp only [elements]
  rw [if_neg (Nat.not_le.2 (lt_of_drop h))]
  refine (bind_ok (byteAt_of_drop h s)).trans ?_
  rw [if_neg hc]
  exact bind_ok hi

theorem elements_fail {cfg : Config} {src t : Bytes} {inner : Nat → R (Ast × Nat)} {i fuel : Nat} {c : Byte}
    {e : DlError} {s s' : RState} (h : src.drop i = c :: t) (hc : c ≠ 41) (hi : inner i s = .err e s')
    (acc : List Ast) :
    elements cfg src inner (fuel + 1) i acc s = .err e s' := by
  simp only [elements]
  rw [if_neg (Nat.not_le.2 (lt_of_drop h))]
  refine (bind_ok (byteAt_of_drop h s)).trans ?_
  rw [if_neg hc]
  exact bind_err hi

/-- Reading one written form from `i` on, white space first. -/
def ReadsForm (cfg : Config) (src : Bytes) (e : Ast) (w : Bytes) : Prop :=
  ∀ (sep : Bytes), Sep sep → ∀ (i : Nat) (post : Bytes) (n : Nat) (s : RState),
    src.drop i = sep ++ (w ++ post) → Stops e post → s.depth + height e < cfg.maxDepth → height e ≤ n →
    compound cfg src n i s = .ok (e, i + (sep ++ w).length) s

/-- Reading a row of written forms from `i` on. -/
def ReadsRow (cfg : Config) (src : Bytes) (es : List Ast) (r : Bytes) : Prop :=
  ∀ (i : Nat) (post : Bytes) (fuel : Nat) (acc : List Ast) (n : Nat) (s : RState),
    src.drop i = r ++ 41 :: post → s.depth + heightAll es < cfg.maxDepth → heightAll es ≤ n →
    es.length < fuel →
    rowFrom cfg src (compound cfg src n) fuel i acc s = .ok (acc ++ es, i + r.length + 1) s

theorem reads_atom {cfg : Config} {src w : Bytes} {e : Ast} (hact : NoActions cfg)
    (hw : Written cfg.toDouble e w) (ha : atomic e = true) : ReadsForm cfg src e w := by
  intro sep hsep i post n s h hp hd hn
  have hh : height e = 1 := by cases e <;> first | rfl | cases ha
  obtain ⟨n, rfl⟩ : ∃ m, n = m + 1 := ⟨n - 1, by omega⟩
  obtain ⟨c, t, hct, hc, hc', _⟩ := written_head hw
  have h1 := drop_append_of_drop h
  refine compound_of_readers hact hsep (by rw [h, hct]; rfl) hc hc' (by omega) ?_
  rw [readers_atom hw ha hp h1]
  simp only [List.length_append, Nat.add_assoc]

theorem reads_row_nil {cfg : Config} {src r : Bytes} (hs : Sep r) : ReadsRow cfg src [] r := by
  intro i post fuel acc n s h hd hn hf
  obtain ⟨fuel, rfl⟩ : ∃ m, fuel = m + 1 := ⟨fuel - 1, by simp at hf; omega⟩
  simp only [rowFrom]
  refine (bind_ok (irrelevant_sep hs h (by decide) (by decide) s)).trans ?_
  rw [elements_close (drop_append_of_drop h), List.append_nil]

theorem reads_row_cons {cfg : Config} {src sp w r : Bytes} {e : Ast} {es : List Ast} (hs : Sep sp)
    (hw : Written cfg.toDouble e w) (ha : Apart e r) (h1 : ReadsForm cfg src e w) (h2 : ReadsRow cfg src es r) :
    ReadsRow cfg src (e :: es) (sp ++ (w ++ r)) := by
  intro i post fuel acc n s h hd hn hf
  simp only [heightAll] at hd hn
  obtain ⟨fuel, rfl⟩ : ∃ m, fuel = m + 1 := ⟨fuel - 1, by omega⟩
  obtain ⟨c, t, hct, hc, hc', hc''⟩ := written_head hw
  have h0 : src.drop i = sp ++ (c :: (t ++ (r ++ 41 :: post))) := by rw [h, hct]; simp
  simp only [rowFrom]
  refine (bind_ok (irrelevant_sep hs h0 hc hc' s)).trans ?_
  have h3 := drop_append_of_drop h0
  have h4 : src.drop (i + sp.length) = [] ++ (w ++ (r ++ 41 :: post)) := by rw [h3, hct]; rfl
  have hform := h1 [] .nil (i + sp.length) (r ++ 41 :: post) n s h4 (stops_of_apart ha)
      (by omega) (by omega)
  rw [elements_step h3 hc'' hform]
  have h5 := drop_append_of_drop (show src.drop (i + sp.length) = ([] ++ w) ++ (r ++ 41 :: post) by
    rw [h4]; simp)
  rw [h2 _ post _ _ n s h5 (by omega) (by omega) (by simp only [List.length_cons] at hf; omega)]
  simp only [List.append_assoc, List.singleton_append]
  exact congrArg (fun k => ROut.ok (acc ++ e :: es, k) s) (by
    simp only [List.length_append, List.nil_append]; omega)

theorem parseExpression_run {cfg : Config} {src t : Bytes} {inner : Nat → R (Ast × Nat)} {j : Nat} {c : Byte}
    (h : src.drop j = 40 :: c :: t) (s : RState) :
    parseExpression cfg src inner j s =
      (do let (es, k) ← elements cfg src inner (src.length + 1) (j + 1) []
          return (.expression es, k) : R (Ast × Nat)) s := by
  simp only [parseExpression]
  rw [if_neg (Nat.not_le.2 (lt_of_drop h))]
  refine (bind_ok (byteAt_of_drop h s)).trans ?_
  rw [if_neg (by simp), if_neg (Nat.not_le.2 (lt_of_drop (drop_succ_of_drop h)))]

theorem parseLiteral_run {cfg : Config} {src t : Bytes} {inner : Nat → R (Ast × Nat)} {j : Nat} {c d : Byte}
    (h : src.drop j = 35 :: 40 :: c :: d :: t) (s : RState) :
    parseLiteral cfg src inner j s =
      (do let (es, k) ← elements cfg src inner (src.length + 1) (j + 2) []
          return (.literal es, k) : R (Ast × Nat)) s := by
  have hl : ¬ src.length ≤ j + 3 := by
    have := length_of_drop h
    simp only [List.length_cons] at this
    omega
  simp only [parseLiteral]
  rw [if_neg hl]
  refine (bind_ok (byteAt_of_drop h s)).trans ?_
  rw [if_neg (by simp)]
  refine (bind_ok (byteAt_of_drop (drop_succ_of_drop h) s)).trans ?_
  rw [if_neg (by simp)]

/-- Reading an expression, given its elements. -/
theorem reads_expression {cfg : Config} {src body : Bytes} {es : List Ast} (hact : NoActions cfg)
    (hitems : ∀ i post n s, src.drop i = body ++ 41 :: post → s.depth + heightAll es < cfg.maxDepth →
      heightAll es ≤ n →
      elements cfg src (compound cfg src n) (src.length + 1) i [] s = .ok (es, i + body.length + 1) s) :
    ReadsForm cfg src (.expression es) (40 :: (body ++ [41])) := by
  intro sep hsep i post n s h _ hd hn
  simp only [height] at hd hn
  obtain ⟨n, rfl⟩ : ∃ m, n = m + 1 := ⟨n - 1, by omega⟩
  have h0 : src.drop i = sep ++ 40 :: (body ++ 41 :: post) := by rw [h]; simp
  refine compound_of_readers hact hsep h0 (by decide) (by decide) (by omega) ?_
  have h1 := drop_append_of_drop h0
  have h2 := drop_succ_of_drop h1
  rw [readers_paren h1]
  obtain ⟨c, t, hct⟩ : ∃ c t, body ++ 41 :: post = c :: t := by cases body <;> exact ⟨_, _, rfl⟩
  rw [parseExpression_run (by rw [h1, hct])]
  refine (bind_ok (hitems _ post n _ h2 (by simp only []; omega) (by omega))).trans ?_
  exact congrArg (fun k => ROut.ok (Ast.expression es, k) { s with depth := s.depth + 1 }) (by
    simp only [List.length_append, List.length_cons, List.length_nil]; omega)

/-- Reading a literal expression, given its elements. -/
theorem reads_literal {cfg : Config} {src body : Bytes} {es : List Ast} (hact : NoActions cfg)
    (hitems : ∀ i post n s, src.drop i = body ++ 41 :: post → s.depth + heightAll es < cfg.maxDepth →
      heightAll es ≤ n →
      elements cfg src (compound cfg src n) (src.length + 1) i [] s = .ok (es, i + body.length + 1) s) :
    ReadsForm cfg src (.literal es) (35 :: 40 :: (body ++ [41])) := by
  intro sep hsep i post n s h hp hd hn
  simp only [height] at hd hn
  obtain ⟨n, rfl⟩ : ∃ m, n = m + 1 := ⟨n - 1, by omega⟩
  have h0 : src.drop i = sep ++ 35 :: 40 :: (body ++ 41 :: post) := by rw [h]; simp
  refine compound_of_readers hact hsep h0 (by decide) (by decide) (by omega) ?_
  have h1 := drop_append_of_drop h0
  have h2 := drop_succ_of_drop (drop_succ_of_drop h1)
  rw [readers_hash h1]
  obtain ⟨c, d, t, hct⟩ : ∃ c d t, body ++ 41 :: post = c :: d :: t := by
    cases body with
    | nil =>
      cases post with
      | nil => exact absurd rfl hp
      | cons y t => exact ⟨_, _, _, rfl⟩
    | cons x body => cases body <;> exact ⟨_, _, _, rfl⟩
  refine orElse_ok ?_
  rw [parseLiteral_run (by rw [h1, hct])]
  refine (bind_ok (hitems _ post n _ h2 (by simp only []; omega) (by omega))).trans ?_
  exact congrArg (fun k => ROut.ok (Ast.literal es, k) { s with depth := s.depth + 1 }) (by
    simp only [List.length_append, List.length_cons, List.length_nil]; omega)

theorem reads_none {cfg : Config} {src : Bytes} : ∀ i post n s, src.drop i = [] ++ 41 :: post →
    s.depth + heightAll [] < cfg.maxDepth → heightAll [] ≤ n →
    elements cfg src (compound cfg src n) (src.length + 1) i [] s =
      .ok ([], i + ([] : Bytes).length + 1) s :=
  fun _ _ _ s h _ _ => elements_close h [] s

/-- Everything written is read. -/
theorem reads_written {cfg : Config} (src : Bytes) (hact : NoActions cfg) {e : Ast} {w : Bytes}
    (h : Written cfg.toDouble e w) : ReadsForm cfg src e w := by
  refine Written.rec (toDouble := cfg.toDouble) (motive_1 := fun e w _ => ReadsForm cfg src e w)
    (motive_2 := fun es r _ => Row cfg.toDouble es r ∧ ReadsRow cfg src es r ∧
      ∀ e es', es = e :: es' → ∀ i post n s, src.drop i = r ++ 41 :: post →
        s.depth + heightAll es < cfg.maxDepth → heightAll es ≤ n →
        elements cfg src (compound cfg src n) (src.length + 1) i [] s = .ok (es, i + r.length + 1) s)
    ?_ ?_ ?_ ?_ ?_ ?_ ?_ ?_ ?_ ?_ ?_ ?_ ?_ h
  · exact reads_atom hact .true rfl
  · exact reads_atom hact .false rfl
  · exact fun h hr => reads_atom hact (.int h hr) rfl
  · exact fun h hx => reads_atom hact (.float h hx) rfl
  · exact fun h => reads_atom hact (.string h) rfl
  · exact fun h => reads_atom hact (.identifier h) rfl
  · exact fun hne h => reads_atom hact (.callback hne h) rfl
  · exact reads_expression (body := []) hact reads_none
  · exact fun _ ih => reads_expression hact (ih.2.2 _ _ rfl)
  · exact reads_literal (body := []) hact reads_none
  · exact fun _ ih => reads_literal hact (ih.2.2 _ _ rfl)
  · exact fun hs => ⟨.nil hs, reads_row_nil hs, fun _ _ h => by cases h⟩
  · intro e es sp w r hs hw ha hr ih1 ih2
    refine ⟨.cons hs hw ha hr, reads_row_cons hs hw ha ih1 ih2.2.1, ?_⟩
    intro e' es' he i post n s hd h1 h2
    cases he
    have hlen := row_length (.cons hs hw ha hr)
    have hl : (sp ++ (w ++ r) ++ 41 :: post).length ≤ src.length := by
      rw [← hd, List.length_drop]; omega
    simp only [List.length_append, List.length_cons] at hl hlen
    simp only [heightAll] at h1 h2
    have hc : ∃ c t, sp ++ (w ++ r) ++ 41 :: post = c :: t ∧ c ≠ 41 := by
      cases sp with
      | cons c t => exact ⟨c, _, rfl, sep_first hs rfl⟩
      | nil =>
        obtain ⟨c, t, rfl, _, _, hc⟩ := written_head hw
        exact ⟨c, _, rfl, hc⟩
    obtain ⟨c, t, hct, hc⟩ := hc
    have hform := ih1 sp hs i (r ++ 41 :: post) n s (by rw [hd]; simp) (stops_of_apart ha)
      (by omega) (by omega)
    rw [elements_step (by rw [hd, hct]) hc hform]
    have h3 : src.drop (i + (sp ++ w).length) = r ++ 41 :: post :=
      drop_append_of_drop (by rw [hd]; simp)
    rw [ih2.2.1 _ post _ _ n s h3 (by omega) (by omega) (by omega)]
    exact congrArg (fun k => ROut.ok (e :: es, k) s) (by simp only [List.length_append]; omega)

end DuckLisp.Reader
