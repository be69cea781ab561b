import Verif.Proof.Reader.Limit

/-! Helper lemmas: the canonical way to write trees; strings that are read. -/

namespace DuckLisp.Reader

open DuckLisp.DlString DuckLisp.Spec

theorem escape_body (s : Bytes) : StringBody (escape s) s := by
  induction s with
  | nil => exact .nil
  | cons c s ih =>
    simp only [escape]
    by_cases h : c = 34 ∨ c = 92
    · rw [if_pos h]
      refine .escape c ?_ ih
      rintro rfl
      rcases h with h | h <;> exact absurd h (by decide)
    · rw [if_neg h]
      exact .plain c (fun e => h (.inl e)) (fun e => h (.inr e)) ih

theorem intText_of_decimal {t : Bytes} {n : Int} (h : Numeral t n) (hx : ∀ c ∈ t, c ≠ 120 ∧ c ≠ 88) :
    IntText t n := by
  refine ⟨h, ?_⟩
  intro x hx'
  constructor
  · rintro rfl
    have := hx x (by simp)
    rcases hx' with rfl | rfl
    · exact this.1 rfl
    · exact this.2 rfl
  · rintro rfl
    have := hx x (by simp)
    rcases hx' with rfl | rfl
    · exact this.1 rfl
    · exact this.2 rfl

theorem digits_not_x {s : Bytes} {n : Nat} (h : Digits DecDigit 10 s n) : ∀ c ∈ s, c ≠ 120 ∧ c ≠ 88 := by
  intro c hc
  have := decimal_facts (isDigit_of_dec (digits_all h c hc))
  exact ⟨this.2.2.2.2.2.2.2.2.2.1, this.2.2.2.2.2.2.2.2.2.2.1⟩

theorem fromPtrdiff_intText (n : Int) : IntText (fromPtrdiff [] n) n := by
  unfold fromPtrdiff
  by_cases h0 : n = 0
  · subst h0
    rw [if_pos rfl]
    exact intText_of_decimal (.pos zero_numeral) (by decide)
  rw [if_neg h0]
  by_cases hneg : n < 0
  · rw [if_pos hneg]
    obtain ⟨k, hk⟩ : ∃ k : Nat, n = -(k : Int) := ⟨n.natAbs, by omega⟩
    subst hk
    rw [revDigitsNeg_eq]
    have hd := revDigitsPos_digits k
    refine intText_of_decimal (.neg (.dec hd (revDigitsPos_ne_nil k (by omega)))) ?_
    intro c hc
    simp only [List.nil_append, List.singleton_append, List.mem_cons] at hc
    rcases hc with rfl | hc
    · decide
    · exact digits_not_x hd c hc
  · rw [if_neg hneg]
    obtain ⟨k, hk⟩ : ∃ k : Nat, n = (k : Int) := ⟨n.natAbs, by omega⟩
    subst hk
    have hd := revDigitsPos_digits k
    exact intText_of_decimal (.pos (.dec hd (revDigitsPos_ne_nil k (by omega)))) (digits_not_x hd)

mutual
theorem print_written {toDouble : Bytes → Option UInt64} : ∀ e, Printable e →
    Written toDouble e (print (fromPtrdiff []) escape e)
  | .bool true, _ => .true
  | .bool false, _ => .false
  | .int n, h => by
      simp only [Printable] at h
      exact .int (fromPtrdiff_intText n) h
  | .string s, _ => .string (escape_body s)
  | .identifier w, h => by
      simp only [Printable] at h
      exact .identifier h
  | .callback w, h => by
      simp only [Printable] at h
      exact .callback h.1 h.2
  | .expression [], _ => .empty
  | .expression (e :: es), h => by
      simp only [Printable, PrintableAll] at h
      exact .expression (.cons (s := []) .nil (print_written e h.1) (printRow_apart e es) (printRow_row es h.2))
  | .literal [], _ => .emptyLiteral
  | .literal (e :: es), h => by
      simp only [Printable, PrintableAll] at h
      exact .literal (.cons (s := []) .nil (print_written e h.1) (printRow_apart e es) (printRow_row es h.2))
  | .float _, h => by simp only [Printable] at h
  | .garbage, h => by simp only [Printable] at h
theorem printRow_row {toDouble : Bytes → Option UInt64} : ∀ es, PrintableAll es →
    Row toDouble es (printRow (fromPtrdiff []) escape es)
  | [], _ => .nil .nil
  | e :: es, h => by
      simp only [PrintableAll] at h
      exact .cons (s := [32]) (.blank 32 (by decide) .nil) (print_written e h.1) (printRow_apart e es)
        (printRow_row es h.2)
theorem printRow_apart : ∀ (e : Ast) (es : List Ast), Apart e (printRow (fromPtrdiff []) escape es)
  | _, [] => .inr (.inl rfl)
  | _, _ :: _ => .inr (.inr ⟨32, _, rfl, by decide⟩)
end

mutual
theorem postprocess_plain : ∀ e, Plain e → postprocess e = e
  | .bool _, _ | .float _, _ | .int _, _ | .string _, _ | .identifier _, _ | .garbage, _ => rfl
  | .callback _, h => by simp only [Plain] at h
  | .literal _, h => by simp only [Plain] at h
  | .expression es, h => by
      simp only [Plain] at h
      simp only [postprocess, postprocessAll_plain es h]
theorem postprocessAll_plain : ∀ es, PlainAll es → postprocessAll es = es
  | [], _ => rfl
  | e :: es, h => by
      simp only [PlainAll] at h
      simp only [postprocessAll, postprocess_plain e h.1, postprocessAll_plain es h.2]
end

theorem mantissa_first {m : Bytes} {a : Bool} (hm : Mantissa m a) :
    ∃ c t, m = c :: t ∧ (decimal c = true ∨ c = 46) := by
  cases hm with
  | whole _ hne hd =>
    cases m with
    | nil => exact absurd rfl hne
    | cons d ds => exact ⟨d, _, rfl, .inl (hd d (by simp))⟩
  | point ds fs hne hd _ =>
    cases ds with
    | nil => exact absurd rfl hne
    | cons d ds => exact ⟨d, _, rfl, .inl (hd d (by simp))⟩
  | fraction fs _ _ => exact ⟨46, _, rfl, .inr rfl⟩

/-- Names that begin with neither a digit nor `-`, `.` or `#`. -/
theorem name_of_first {c : Byte} {t : Bytes} (hs : ∀ x ∈ c :: t, delimiter x = false) (h1 : decimal c = false)
    (h2 : c ≠ 45) (h3 : c ≠ 46) (h4 : c ≠ 35) (ht : ¬ [116, 114, 117, 101] <+: c :: t)
    (hf : ¬ [102, 97, 108, 115, 101] <+: c :: t) : Name (c :: t) := by
  refine ⟨by simp, hs, by simpa using h4, ht, hf, ?_, ?_⟩
  · rintro p ⟨r, hp⟩ ⟨sign, m, x, a, b, hsign, hm, hx, hab, rfl⟩
    obtain ⟨d, m', rfl, hd⟩ := mantissa_first hm
    rcases hsign with rfl | rfl
    · have hc := (List.cons.inj hp).1
      subst hc
      rcases hd with hd | hd
      · rw [h1] at hd; cases hd
      · exact h3 hd
    · exact h2 (List.cons.inj hp).1.symm
  · intro n h
    obtain ⟨d, r, hd, hc⟩ := numeral_head h.1
    have := (List.cons.inj hd).1
    subst this
    rcases hc with hc | hc
    · rw [h1] at hc; cases hc
    · exact h2 hc

/-! ## Strings that are read -/

theorem scanString_inv : ∀ (k : Nat) (t : Bytes) (n m : Nat), t.length = k → scanString t n = some m →
    m = n + t.length ∨
    ∃ raw v post, StringBody raw v ∧ t = raw ++ 34 :: post ∧ m = n + raw.length + 1 := by
  intro k
  induction k using Nat.strongRecOn with
  | ind k ih =>
    intro t n m hk h
    match t, h with
    | [], h => simp only [scanString, Option.some.injEq] at h; exact .inl (by simp [h])
    | [c], h =>
      simp only [scanString] at h
      split at h
      · cases h
      · cases h; exact .inl rfl
    | c :: d :: cs, h =>
      simp only [scanString] at h
      simp only [List.length_cons] at hk
      by_cases h92 : c = 92
      · rw [if_pos h92] at h
        rcases ih cs.length (by omega) cs (n + 2) m rfl h with h1 | ⟨raw, v, post, hb, rfl, h2⟩
        · left; simp only [List.length_cons]; omega
        · right
          subst h92
          by_cases hd : d = 110
          · subst hd
            exact ⟨92 :: 110 :: raw, 10 :: v, post, .newline hb, rfl, by simp only [List.length_cons]; omega⟩
          · exact ⟨92 :: d :: raw, d :: v, post, .escape d hd hb, rfl, by simp only [List.length_cons]; omega⟩
      · rw [if_neg h92] at h
        by_cases h34 : c = 34
        · rw [if_pos h34] at h
          cases h
          subst h34
          exact .inr ⟨[], [], d :: cs, .nil, rfl, rfl⟩
        · rw [if_neg h34] at h
          rcases ih (d :: cs).length (by simp only [List.length_cons]; omega) (d :: cs) (n + 1) m rfl h with
            h1 | ⟨raw, v, post, hb, h3, h2⟩
          · left; simp only [List.length_cons] at h1 ⊢; omega
          · right
            refine ⟨c :: raw, c :: v, post, .plain c h34 h92 hb, by rw [h3]; rfl, ?_⟩
            simp only [List.length_cons]; omega

/-- If a string is read it was written. -/
theorem parseString_inv {cfg : Config} {src t : Bytes} {i k : Nat} {e : Ast} {s s' : RState}
    (h0 : src.drop i = 34 :: t) (h : parseString cfg src i s = .ok (e, k) s') :
    ∃ raw v post, StringBody raw v ∧ t = raw ++ 34 :: post ∧ post ≠ [] ∧ e = .string v ∧
      k = i + (34 :: (raw ++ [34])).length ∧ s' = s := by
  have h1 := drop_succ_of_drop h0
  have hlen := length_of_drop h0
  simp only [parseString] at h
  rw [if_neg (Nat.not_le.2 (lt_of_drop h0)), bind_ok (byteAt_of_drop h0 s), if_pos rfl, h1] at h
  cases hscan : scanString t 0 with
  | none => rw [hscan] at h; cases h
  | some m =>
    rw [hscan] at h
    simp only [] at h
    by_cases hl : src.length ≤ i + 1 + m
    · rw [if_pos hl] at h
      obtain ⟨s1, hp, _⟩ := pushSyntax_ok cfg "String missing closing quote." (Nat.le_of_lt (lt_of_drop h0)) (-1) s
      rw [bind_ok hp] at h
      cases h
    · rw [if_neg hl] at h
      rcases scanString_inv _ t 0 m rfl hscan with hm | ⟨raw, v, post, hb, rfl, hm⟩
      · omega
      · have hpost : post ≠ [] := by
          rintro rfl
          simp only [List.length_append, List.length_cons, List.length_nil] at hlen
          omega
        cases post with
        | nil => exact absurd rfl hpost
        | cons y t =>
          have := parseString_ok (cfg := cfg) (src := src) (i := i) (t := t) (y := y) hb (by rw [h0]; simp) s
          simp only [parseString] at this
          rw [if_neg (Nat.not_le.2 (lt_of_drop h0)), bind_ok (byteAt_of_drop h0 s), if_pos rfl, h1, hscan] at this
          simp only [] at this
          rw [if_neg hl] at this
          rw [this] at h
          cases h
          exact ⟨raw, v, y :: t, hb, rfl, hpost, rfl, rfl, rfl⟩

/-- At a quote only the reader of strings can succeed. -/
theorem readers_quote_inv {cfg : Config} {src t : Bytes} {inner : Nat → R (Ast × Nat)} {i k : Nat} {e : Ast}
    {s s' : RState} (h0 : src.drop i = 34 :: t) (h : readers cfg src inner i s = .ok (e, k) s') :
    parseString cfg src i s = .ok (e, k) s' := by
  unfold readers at h
  rw [orElse_next (parseBool_head h0 (by decide) (by decide) s),
    orElse_next (parseFloat_head h0 (by decide) (by decide) (by decide) s),
    orElse_next (parseInt_head h0 (by decide) (by decide) s)] at h
  cases hs : parseString cfg src i s with
  | ok a s1 => rw [orElse_ok hs] at h; exact h
  | err er s1 =>
    by_cases he : er = .invalidValue
    · subst he
      rw [orElse_next hs, orElse_next (parseLiteral_no h0 (by decide) s1),
        orElse_next (parseCallback_no h0 (by decide) s1), orElse_next (parseIdentifier_no h0 (by decide) s1)] at h
      simp only [parseExpression] at h
      rw [if_neg (Nat.not_le.2 (lt_of_drop h0)), bind_ok (byteAt_of_drop h0 s1), if_pos (by decide)] at h
      obtain ⟨s2, hp, _⟩ := pushSyntax_ok cfg "Unbalanced parenthesis." (Nat.le_of_lt (lt_of_drop h0)) i s1
      rw [bind_ok hp] at h
      cases h
    · have := (forward_parseString cfg src i s).2 er s1 hs
      exact absurd this he
  | ub => simp only [orElse, hs] at h; cases h
  | diverge => simp only [orElse, hs] at h; cases h

/-- A string at the very end of the text is refused. -/
theorem readers_string_at_end {cfg : Config} {src raw v : Bytes} {inner : Nat → R (Ast × Nat)} {i : Nat}
    (hb : StringBody raw v) (h0 : src.drop i = 34 :: (raw ++ [34])) (s : RState) :
    ∃ s', readers cfg src inner i s = .err .invalidValue s' := by
  have h1 := drop_succ_of_drop h0
  have hlen := length_of_drop h0
  have hscan : ∀ n, scanString (raw ++ [34]) n = some (n + raw.length + 1) := by
    clear h0 h1 hlen
    induction hb with
    | nil => intro n; simp [scanString]
    | plain c h1 h2 hb ih =>
      rename_i raw v
      intro n
      obtain ⟨d, r, hd⟩ : ∃ d r, raw ++ [34] = d :: r := by
        cases raw with
        | nil => exact ⟨_, _, rfl⟩
        | cons d r => exact ⟨_, _, rfl⟩
      have := ih (n + 1)
      rw [hd] at this
      simp only [List.cons_append, hd, scanString, h1, h2, if_false]
      rw [this]
      simp only [List.length_cons]; congr 1; omega
    | newline _ ih =>
      intro n
      simp only [List.cons_append, scanString, if_true]
      rw [ih]
      simp only [List.length_cons]; congr 1; omega
    | escape c h1 _ ih =>
      intro n
      simp only [List.cons_append, scanString, if_true]
      rw [ih]
      simp only [List.length_cons]; congr 1; omega
  have hl : src.length ≤ i + 1 + (0 + raw.length + 1) := by
    simp only [List.length_append, List.length_cons, List.length_nil] at hlen
    omega
  obtain ⟨s1, hp1, _⟩ := pushSyntax_ok cfg "String missing closing quote." (Nat.le_of_lt (lt_of_drop h0)) (-1) s
  obtain ⟨s2, hp2, _⟩ := pushSyntax_ok cfg "Unbalanced parenthesis." (Nat.le_of_lt (lt_of_drop h0)) i s1
  have hs : parseString cfg src i s = .err .invalidValue s1 := by
    simp only [parseString]
    rw [if_neg (Nat.not_le.2 (lt_of_drop h0)), bind_ok (byteAt_of_drop h0 s), if_pos rfl, h1, hscan 0]
    simp only []
    rw [if_pos hl, bind_ok hp1]
    rfl
  refine ⟨s2, ?_⟩
  unfold readers
  rw [orElse_next (parseBool_head h0 (by decide) (by decide) s),
    orElse_next (parseFloat_head h0 (by decide) (by decide) (by decide) s),
    orElse_next (parseInt_head h0 (by decide) (by decide) s), orElse_next hs,
    orElse_next (parseLiteral_no h0 (by decide) s1), orElse_next (parseCallback_no h0 (by decide) s1),
    orElse_next (parseIdentifier_no h0 (by decide) s1)]
  simp only [parseExpression]
  rw [if_neg (Nat.not_le.2 (lt_of_drop h0)), bind_ok (byteAt_of_drop h0 s1), if_pos (by decide), bind_ok hp2]
  rfl

theorem compound_err_of_readers {cfg : Config} {src sep t : Bytes} (hsep : Sep sep)
    {i n : Nat} {c : Byte} {er : DlError} {s s' : RState} (h : src.drop i = sep ++ c :: t) (hc : blank c = false)
    (hc' : c ≠ 59) (hd : s.depth + 1 < cfg.maxDepth)
    (hr : readers cfg src (compound cfg src n) (i + sep.length) { s with depth := s.depth + 1 } =
      .err er s') :
    compound cfg src (n + 1) i s = .err er { s' with depth := s'.depth - 1 } := by
  rw [compound_succ, counted_run hd]
  refine (congrArg uncount ?_).trans (show uncount (.err er s') = _ from rfl)
  refine (bind_ok (irrelevant_sep hsep h hc hc' _)).trans ?_
  exact bind_err hr

end DuckLisp.Reader
