import Verif.Proof.Reader.Tokens

/-! Helper lemmas: integers, strings, names. -/

namespace DuckLisp.Reader

open DuckLisp.DlString DuckLisp.Spec

/-! ## Integers -/

theorem digits_of_all {D : Byte → Nat → Prop} {b : Nat} : ∀ (n : Nat) (s : Bytes), s.length = n →
    (∀ c ∈ s, ∃ d, D c d) → ∃ v, Digits D b s v := by
  intro n
  induction n with
  | zero =>
    intro s hs _
    rw [List.length_eq_zero_iff] at hs
    subst hs
    exact ⟨0, .nil⟩
  | succ n ih =>
    intro s hs h
    rcases List.eq_nil_or_concat s with rfl | ⟨t, c, rfl⟩
    · simp at hs
    · simp only [List.concat_eq_append] at *
      obtain ⟨v, hv⟩ := ih t (by simpa using hs) (fun x hx => h x (by simp [hx]))
      obtain ⟨d, hd⟩ := h c (by simp)
      exact ⟨_, .snoc hv hd⟩

/-- The outcome of converting the numeral found. -/
def intOutcome (w : Bytes) (stop : Nat) (s : RState) : ROut (Ast × Nat) :=
  match toPtrdiff w with
  | .ok n => .ok (.int n, stop) s
  | .err _ => .err .invalidValue s
  | .ub => .ub
  | .timeout => .diverge

/-- The digits of an unsigned integer, as far as the reader is concerned. -/
def intDigits : Bytes → Bool
  | 48 :: x :: v =>
    if x = 120 || x = 88 then v.all isHexDigit && !v.isEmpty
    else isDigit x && v.all isDigit
  | u => u.all isDigit && !u.isEmpty

theorem all_append_delim {p : Byte → Bool} {a : Bytes} : a.all p = true ↔ ∀ c ∈ a, p c = true :=
  List.all_eq_true

theorem symbol_skip {src u t : Bytes} {i : Nat} {y : Byte} (h : src.drop i = u ++ y :: t)
    (hu : ∀ c ∈ u, delimiter c = false) (hy : delimiter y = true) :
    skip isIdentifierSymbol src i = i + u.length := by
  refine skip_of_drop h ?_ ?_
  · intro c hc
    rw [isIdentifierSymbol_eq, hu c hc]; rfl
  · intro c t' e
    cases e
    rw [isIdentifierSymbol_eq, hy]; rfl

theorem parseInt_unsigned {src u t : Bytes} {i j : Nat} {y : Byte} (hs : ∀ s, parseSign src i s = .ok j s)
    (h : src.drop j = u ++ y :: t) (hu : ∀ c ∈ u, delimiter c = false) (hy : delimiter y = true)
    (s : RState) :
    parseInt src i s =
      if intDigits u then intOutcome (slice src i (j + u.length)) (j + u.length) s
      else .err .invalidValue s := by
  have hyf := delimiter_facts hy
  simp only [parseInt]
  refine (bind_ok (hs s)).trans ?_
  cases u with
  | nil =>
    refine (bind_ok (byteAt_of_drop h s)).trans ?_
    rw [if_pos (by rw [isDigit_eq, hyf.1]; decide)]
    rfl
  | cons c u =>
    have h0 : src.drop j = c :: (u ++ y :: t) := h
    have h1 := drop_succ_of_drop h0
    refine (bind_ok (byteAt_of_drop h0 s)).trans ?_
    cases hcd : decimal c with
    | false =>
      rw [if_pos (by rw [isDigit_eq, hcd]; decide), if_neg]
      · rfl
      · have : c ≠ 48 := by rintro rfl; exact absurd hcd (by decide)
        intro hd
        unfold intDigits at hd
        split at hd
        · rename_i heq; cases heq; exact this rfl
        · simp [isDigit_eq, hcd] at hd
    | true =>
      rw [if_neg (by rw [isDigit_eq, hcd]; decide)]
      have hl : j + 1 < src.length := by
        cases u with
        | nil => exact lt_of_drop h1
        | cons d u => exact lt_of_drop h1
      rw [if_pos hl]
      have hu' : ∀ c ∈ u, delimiter c = false := fun x hx => hu x (by simp [hx])
      -- the end of the token, once it is known where the digits start
      have finish : ∀ (pre v : Bytes) (hex : Bool), c :: u = pre ++ v →
          ((if (slice src (j + pre.length) (skip isIdentifierSymbol src (j + pre.length))).all
                (if hex then isHexDigit else isDigit) then
              match toPtrdiff (slice src i (skip isIdentifierSymbol src (j + pre.length))) with
              | .ok n => return (.int n, skip isIdentifierSymbol src (j + pre.length))
              | .err _ => R.invalid
              | .ub => R.ub
              | .timeout => R.diverge
            else R.invalid : R (Ast × Nat))) s =
          if v.all (if hex then isHexDigit else isDigit) then
            intOutcome (slice src i (j + (c :: u).length)) (j + (c :: u).length) s
          else .err .invalidValue s := by
        intro pre v hex hpv
        have hsrc : src.drop j = pre ++ (v ++ y :: t) := by rw [h, hpv]; simp
        have hd := drop_append_of_drop hsrc
        rw [symbol_skip hd (fun x hx => hu x (by rw [hpv]; simp [hx])) hy]
        have e : j + pre.length + v.length = j + (c :: u).length := by
          rw [hpv, List.length_append]; omega
        rw [slice_of_drop hd, e]
        by_cases hall : v.all (if hex then isHexDigit else isDigit) = true
        · rw [if_pos hall, if_pos hall]
          simp only [intOutcome]
          cases toPtrdiff (slice src i (j + (c :: u).length)) <;> rfl
        · rw [if_neg hall, if_neg hall]; rfl
      cases u with
      | nil =>
        refine (bind_ok (byteAt_of_drop h1 s)).trans ?_
        rw [if_neg (by simp [hyf.2.2.2.2.2.1, hyf.2.2.2.2.2.2.1])]
        refine (bind_ok (a := (false, j + 1)) (s' := s) rfl).trans ?_
        refine (finish [c] [] false rfl).trans ?_
        have : intDigits [c] = true := by
          unfold intDigits
          split
          · rename_i heq; cases heq
          · simp [isDigit_eq, hcd]
        rw [if_pos this]; rfl
      | cons x v =>
        have h1' : src.drop (j + 1) = x :: (v ++ y :: t) := h1
        have h2 := drop_succ_of_drop h1'
        refine (bind_ok (byteAt_of_drop h1' s)).trans ?_
        by_cases hx : c = 48 ∧ (x = 120 ∨ x = 88)
        · rw [if_pos (by simpa using hx)]
          have hc48 := hx.1
          subst hc48
          have hi : intDigits (48 :: x :: v) = (v.all isHexDigit && !v.isEmpty) := by
            simp only [intDigits]
            rw [if_pos (by simpa using hx.2)]
          cases v with
          | nil =>
            refine (bind_ok (byteAt_of_drop h2 s)).trans ?_
            rw [if_neg (by rw [hyf.2.1]; decide), hi]
            rfl
          | cons z v =>
            have h2' : src.drop (j + 1 + 1) = z :: (v ++ y :: t) := h2
            refine (bind_ok (byteAt_of_drop h2' s)).trans ?_
            cases hz : isHexDigit z with
            | false =>
              rw [if_neg (by decide), hi]
              simp only [List.all_cons, hz, Bool.false_and, Bool.false_eq_true, if_false]
              rfl
            | true =>
              rw [if_pos rfl]
              refine (bind_ok (a := (true, j + 3)) (s' := s) rfl).trans ?_
              refine (finish [48, x, z] v true rfl).trans ?_
              rw [hi]
              simp only [List.all_cons, hz, Bool.true_and, List.isEmpty_cons, Bool.not_false, Bool.and_true,
                if_true]
        · rw [if_neg (by simpa using hx)]
          refine (bind_ok (a := (false, j + 1)) (s' := s) rfl).trans ?_
          refine (finish [c] (x :: v) false rfl).trans ?_
          have : intDigits (c :: x :: v) = (x :: v).all isDigit := by
            unfold intDigits
            split
            · rename_i heq
              cases heq
              rw [if_neg (by simpa using hx)]
              rfl
            · simp [isDigit_eq, hcd]
          rw [this]
          simp only [Bool.false_eq_true, if_false]

theorem dec_of_isDigit {c : Byte} (h : isDigit c = true) : ∃ d, DecDigit c d := (digit_test false c).1.1 h
theorem hex_of_isHexDigit {c : Byte} (h : isHexDigit c = true) : ∃ d, HexDigit c d := (digit_test true c).1.1 h
theorem isHexDigit_of_hex {c : Byte} (h : ∃ d, HexDigit c d) : isHexDigit c = true := (digit_test true c).1.2 h

/-- The reader takes exactly the unsigned numerals other than a bare `0x`. -/
theorem intDigits_iff (u : Bytes) : intDigits u = true ↔
    (∃ n, UNumeral u n) ∧ ∀ x, (x = 120 ∨ x = 88) → u ≠ [48, x] := by
  constructor
  · intro h
    unfold intDigits at h
    split at h
    · rename_i x v
      by_cases hx : x = 120 ∨ x = 88
      · rw [if_pos (by simpa using hx)] at h
        simp only [Bool.and_eq_true, List.all_eq_true, Bool.not_eq_true', List.isEmpty_eq_false_iff] at h
        obtain ⟨n, hn⟩ := digits_of_all (D := HexDigit) (b := 16) _ v rfl (fun c hc => hex_of_isHexDigit (h.1 c hc))
        refine ⟨⟨n, .hex x hx hn⟩, ?_⟩
        intro z _ e
        simp only [List.cons.injEq, true_and] at e
        exact h.2 e.2
      · rw [if_neg (by simpa using hx)] at h
        simp only [Bool.and_eq_true, List.all_eq_true] at h
        obtain ⟨n, hn⟩ := digits_of_all (D := DecDigit) (b := 10) _ (48 :: x :: v) rfl (by
          intro c hc
          simp only [List.mem_cons] at hc
          rcases hc with rfl | rfl | hc
          · exact dec_of_isDigit (by decide)
          · exact dec_of_isDigit h.1
          · exact dec_of_isDigit (h.2 c hc))
        refine ⟨⟨n, .dec hn (by simp)⟩, ?_⟩
        intro z hz e
        simp only [List.cons.injEq, true_and] at e
        exact hx (e.1 ▸ hz)
    · rename_i hne
      simp only [Bool.and_eq_true, List.all_eq_true, Bool.not_eq_true', List.isEmpty_eq_false_iff] at h
      obtain ⟨n, hn⟩ := digits_of_all (D := DecDigit) (b := 10) _ u rfl (fun c hc => dec_of_isDigit (h.1 c hc))
      refine ⟨⟨n, .dec hn h.2⟩, ?_⟩
      intro z _ e
      exact hne z [] e
  · rintro ⟨⟨n, hn⟩, hbare⟩
    cases hn with
    | dec hd hne =>
      have hall : ∀ c ∈ u, isDigit c = true := fun c hc => isDigit_of_dec (digits_all hd c hc)
      unfold intDigits
      split
      · rename_i x v
        have hx := (decimal_facts (hall x (by simp))).2.2.2.2.2.2.2.2.2
        rw [if_neg (by simp [hx.1, hx.2.1])]
        simp only [Bool.and_eq_true, List.all_eq_true]
        exact ⟨hall x (by simp), fun c hc => hall c (by simp [hc])⟩
      · simp only [Bool.and_eq_true, List.all_eq_true, Bool.not_eq_true', List.isEmpty_eq_false_iff]
        exact ⟨hall, hne⟩
    | hex x hx hd =>
      rename_i v
      simp only [intDigits]
      rw [if_pos (by simpa using hx)]
      simp only [Bool.and_eq_true, List.all_eq_true, Bool.not_eq_true', List.isEmpty_eq_false_iff]
      refine ⟨fun c hc => isHexDigit_of_hex (digits_all hd c hc), ?_⟩
      rintro rfl
      exact hbare x hx rfl

theorem uNumeral_symbols {u : Bytes} {n : Nat} (h : UNumeral u n) : ∀ c ∈ u, delimiter c = false := by
  cases h with
  | dec h _ => exact fun c hc => (decimal_facts (isDigit_of_dec (digits_all h c hc))).1
  | hex x hx h =>
    intro c hc
    simp only [List.mem_cons] at hc
    rcases hc with rfl | rfl | hc
    · decide
    · rcases hx with rfl | rfl <;> decide
    · exact (hex_facts (isHexDigit_of_hex (digits_all h c hc))).1

theorem numeral_head {w : Bytes} {n : Int} (h : Numeral w n) :
    ∃ c t, w = c :: t ∧ (decimal c = true ∨ c = 45) := by
  cases h with
  | pos h =>
    obtain ⟨c, cs, e, hc⟩ := uNumeral_head h
    exact ⟨c, cs, e, .inl hc⟩
  | neg h => exact ⟨45, _, rfl, .inr rfl⟩

theorem numeral_symbols {w : Bytes} {n : Int} (h : Numeral w n) : ∀ c ∈ w, delimiter c = false := by
  cases h with
  | pos h => exact uNumeral_symbols h
  | neg h =>
    intro c hc
    simp only [List.mem_cons] at hc
    rcases hc with rfl | hc
    · decide
    · exact uNumeral_symbols h c hc

/-- A numeral has no floating point number at its beginning. -/
theorem uNumeral_no_float {u : Bytes} {n : Nat} (h : UNumeral u n) {m x : Bytes} {a b : Bool}
    (hm : Mantissa m a) (hx : Exponent x b) (hab : (a || b) = true) : ¬ (m ++ x) <+: u := by
  intro hp
  -- the first byte of the text that is not a digit would be a point or an `e`
  have key : ∃ ds z r, u = ds ++ z :: r ∧ (∀ c ∈ ds, decimal c = true) ∧
      (z = 46 ∨ ((z = 101 ∨ z = 69) ∧ ds ≠ [])) := by
    obtain ⟨r, rfl⟩ := hp
    cases hm with
    | whole _ hne hd =>
      cases hx with
      | none => simp at hab
      | pos e ds he _ _ => exact ⟨m, e, ds ++ r, by simp, hd, .inr ⟨he, hne⟩⟩
      | neg e ds he _ _ => exact ⟨m, e, 45 :: (ds ++ r), by simp, hd, .inr ⟨he, hne⟩⟩
    | point ds fs hne hd hfr => exact ⟨ds, 46, fs ++ (x ++ r), by simp, hd, .inl rfl⟩
    | fraction fs hne hfr => exact ⟨[], 46, _, rfl, by simp, .inl rfl⟩
  obtain ⟨ds, z, r, e, hds, hz⟩ := key
  cases h with
  | dec hd _ =>
    have := isDigit_of_dec (digits_all hd z (by rw [e]; simp))
    rcases hz with rfl | ⟨rfl | rfl, _⟩ <;> exact absurd this (by decide)
  | hex y hy hd =>
    -- the digits can only be the leading zero, so `z` would be the `x`
    cases ds with
    | nil =>
      simp only [List.nil_append, List.cons.injEq] at e
      rcases hz with rfl | ⟨_, h⟩
      · exact absurd e.1 (by decide)
      · exact h rfl
    | cons d ds =>
      simp only [List.cons_append, List.cons.injEq] at e
      cases ds with
      | nil =>
        simp only [List.nil_append, List.cons.injEq] at e
        obtain ⟨_, rfl, _⟩ := e
        rcases hy with rfl | rfl <;> rcases hz with h | ⟨h | h, _⟩ <;> exact absurd h (by decide)
      | cons d' ds =>
        simp only [List.cons_append, List.cons.injEq] at e
        have := hds d' (by simp)
        rw [← e.2.1] at this
        rcases hy with rfl | rfl <;> exact absurd this (by decide)

theorem numeral_no_float {w : Bytes} {n : Int} (h : Numeral w n) : ∀ p, p <+: w → ¬ FloatText p := by
  rintro p hp ⟨sign, m, x, a, b, hsign, hm, hx, hab, rfl⟩
  obtain ⟨d, m', hm', hd⟩ := mantissa_head hm
  cases h with
  | pos h =>
    rcases hsign with rfl | rfl
    · exact uNumeral_no_float h hm hx hab hp
    · obtain ⟨c, cs, rfl, hc⟩ := uNumeral_head h
      simp only [List.cons_append, List.cons_prefix_cons] at hp
      have := (decimal_facts hc).2.2.2.1
      exact this hp.1.symm
  | neg h =>
    rcases hsign with rfl | rfl
    · subst hm'
      simp only [List.nil_append, List.cons_append, List.cons_prefix_cons] at hp
      exact hd hp.1
    · simp only [List.cons_append, List.nil_append, List.cons_prefix_cons] at hp
      exact uNumeral_no_float h hm hx hab hp.2

theorem intOutcome_numeral {w : Bytes} {n : Int} (h : Numeral w n) (hr : n.natAbs < 2 ^ 63) (stop : Nat)
    (s : RState) : intOutcome w stop s = .ok (.int n, stop) s := by
  have : toPtrdiff w = .ok n := by
    cases h with
    | pos h => rw [toPtrdiff_unsigned h, if_pos (by unfold ptrdiffMax; omega)]
    | neg h => rw [toPtrdiff_negative h, if_pos (by unfold ptrdiffMax; omega)]
  simp only [intOutcome, this]

theorem parseInt_ok {src w t : Bytes} {n : Int} (hw : IntText w n) (hr : n.natAbs < 2 ^ 63) {i : Nat}
    {y : Byte} (h : src.drop i = w ++ y :: t) (hy : delimiter y = true) (s : RState) :
    parseInt src i s = .ok (.int n, i + w.length) s := by
  have hsl := slice_of_drop h
  obtain ⟨hn, hbare⟩ := hw
  have ho := intOutcome_numeral hn hr (i + w.length) s
  cases hn with
  | pos hu =>
    obtain ⟨c, cs, hcs, hc⟩ := uNumeral_head hu
    have hs : ∀ s, parseSign src i s = .ok i s :=
      fun s => parseSign_none (by rw [h, hcs]; rfl) (decimal_facts hc).2.2.2.1 s
    rw [parseInt_unsigned hs h (uNumeral_symbols hu) hy,
      if_pos ((intDigits_iff _).2 ⟨⟨_, hu⟩, fun x hx => (hbare x hx).1⟩), hsl, ho]
  | neg hu =>
    rename_i u k
    have h0 : src.drop i = 45 :: (u ++ y :: t) := h
    have hs : ∀ s, parseSign src i s = .ok (i + 1) s := by
      obtain ⟨c, cs, rfl, hc⟩ := uNumeral_head hu
      exact fun s => parseSign_minus h0 s
    rw [parseInt_unsigned hs (drop_succ_of_drop h0) (uNumeral_symbols hu) hy,
      if_pos ((intDigits_iff _).2 ⟨⟨_, hu⟩, fun x hx e => (hbare x hx).2 (by rw [e])⟩)]
    have e : i + 1 + u.length = i + (45 :: u).length := by simp only [List.length_cons]; omega
    rw [e, hsl, ho]

theorem parseInt_no {src w t : Bytes} {i : Nat} {y : Byte} (h : src.drop i = w ++ y :: t)
    (hw : ∀ c ∈ w, delimiter c = false) (hy : delimiter y = true) (hno : ∀ n, ¬ IntText w n) (s : RState) :
    parseInt src i s = .err .invalidValue s := by
  have key : ∀ (j : Nat) (u : Bytes), (∀ s, parseSign src i s = .ok j s) → src.drop j = u ++ y :: t →
      (∀ c ∈ u, delimiter c = false) →
      (∀ n, UNumeral u n → (∀ x, (x = 120 ∨ x = 88) → u ≠ [48, x]) → False) →
      parseInt src i s = .err .invalidValue s := by
    intro j u hs hd hu hn
    rw [parseInt_unsigned hs hd hu hy, if_neg]
    intro hi
    obtain ⟨⟨n, h1⟩, h2⟩ := (intDigits_iff u).1 hi
    exact hn n h1 h2
  cases w with
  | nil =>
    refine key i [] (fun s => parseSign_none h (delimiter_facts hy).2.2.2.2.1 s) h (by simp) ?_
    intro n hn _
    obtain ⟨c, cs, e, _⟩ := uNumeral_head hn
    cases e
  | cons c w =>
    by_cases hc : c = 45
    · subst hc
      have h0 : src.drop i = 45 :: (w ++ y :: t) := h
      have hs : ∀ s, parseSign src i s = .ok (i + 1) s := by
        intro s
        cases w with
        | nil => exact parseSign_minus h0 s
        | cons d w => exact parseSign_minus h0 s
      refine key (i + 1) w hs (drop_succ_of_drop h0) (fun x hx => hw x (by simp [hx])) ?_
      intro n hn hb
      refine hno (-n) ⟨.neg hn, ?_⟩
      intro x hx
      refine ⟨by simp, ?_⟩
      intro e
      simp only [List.cons.injEq, true_and] at e
      exact hb x hx e
    · refine key i (c :: w) (fun s => parseSign_none h hc s) h hw ?_
      intro n hn hb
      refine hno n ⟨.pos hn, ?_⟩
      intro x hx
      refine ⟨hb x hx, ?_⟩
      intro e
      simp only [List.cons.injEq] at e
      exact hc e.1

/-! ## Strings -/

theorem scanString_body {raw v t : Bytes} {y : Byte} (h : StringBody raw v) : ∀ n,
    scanString (raw ++ 34 :: y :: t) n = some (n + raw.length + 1) := by
  induction h with
  | nil => intro n; simp [scanString]
  | plain c h1 h2 hb ih =>
    rename_i raw v
    intro n
    obtain ⟨d, r, hd⟩ : ∃ d r, raw ++ 34 :: y :: t = d :: r := by
      cases raw with
      | nil => exact ⟨_, _, rfl⟩
      | cons d r => exact ⟨_, _, rfl⟩
    have := ih (n + 1)
    rw [hd] at this
    simp only [List.cons_append, hd, scanString, h1, h2, if_false]
    rw [this]
    simp only [List.length_cons]; congr 1; omega
  | newline _ ih =>
    intro n
    simp only [List.cons_append, scanString, if_true]
    rw [ih]
    simp only [List.length_cons]; congr 1; omega
  | escape c h1 _ ih =>
    intro n
    simp only [List.cons_append, scanString, if_true]
    rw [ih]
    simp only [List.length_cons]; congr 1; omega

theorem decode_body {raw v : Bytes} (h : StringBody raw v) : decode false raw = v := by
  induction h with
  | nil => rfl
  | plain c h1 h2 _ ih => simp [decode, h2, ih]
  | newline _ ih => simp [decode, ih]
  | escape c h1 _ ih => simp [decode, h1, ih]

theorem parseString_ok {cfg : Config} {src raw v t : Bytes} {i : Nat} {y : Byte} (hb : StringBody raw v)
    (h : src.drop i = (34 :: (raw ++ [34])) ++ y :: t) (s : RState) :
    parseString cfg src i s = .ok (.string v, i + (34 :: (raw ++ [34])).length) s := by
  have h0 : src.drop i = 34 :: (raw ++ 34 :: y :: t) := by rw [h]; simp
  have h1 := drop_succ_of_drop h0
  have hl : ¬ src.length ≤ i + 1 + (0 + raw.length + 1) := by
    have := congrArg List.length h1
    simp only [List.length_drop, List.length_append, List.length_cons] at this
    omega
  simp only [parseString]
  rw [if_neg (Nat.not_le.2 (lt_of_drop h0))]
  refine (bind_ok (byteAt_of_drop h0 s)).trans ?_
  rw [if_pos rfl, h1, scanString_body hb 0]
  simp only []
  rw [if_neg hl, show i + 1 + (0 + raw.length + 1) - 1 = i + 1 + raw.length by omega, slice_of_drop h1,
    decode_body hb]
  exact congrArg (fun k => ROut.ok (Ast.string v, k) s) (by
    simp only [List.length_cons, List.length_append, List.length_nil]; omega)

theorem parseString_no {cfg : Config} {src t : Bytes} {i : Nat} {c : Byte} (h : src.drop i = c :: t)
    (hc : c ≠ 34) (s : RState) : parseString cfg src i s = .err .invalidValue s := by
  simp only [parseString]
  rw [if_neg (Nat.not_le.2 (lt_of_drop h))]
  refine (bind_ok (byteAt_of_drop h s)).trans ?_
  rw [if_neg hc]; rfl

/-! ## Callbacks and identifiers -/

theorem alnum_symbol (c : Byte) : (isAlpha c || isDigit c || isIdentifierSymbol c) = isIdentifierSymbol c := by
  have := forall_byte (fun c => (isAlpha c || isDigit c || isIdentifierSymbol c) == isIdentifierSymbol c)
    (by decide +kernel) c
  simpa using this

theorem parseCallback_ok {src w t : Bytes} {i : Nat} {y : Byte} (h : src.drop i = (35 :: w) ++ y :: t)
    (hw : ∀ c ∈ w, delimiter c = false) (hy : delimiter y = true) (s : RState) :
    parseCallback src i s = .ok (.callback w, i + (35 :: w).length) s := by
  have h0 : src.drop i = 35 :: (w ++ y :: t) := h
  have h1 := drop_succ_of_drop h0
  simp only [parseCallback]
  rw [if_neg (Nat.not_le.2 (lt_of_drop h0))]
  refine (bind_ok (byteAt_of_drop h0 s)).trans ?_
  simp only [alnum_symbol]
  rw [if_neg (by simp), show (fun c => isIdentifierSymbol c) = isIdentifierSymbol from rfl,
    symbol_skip h1 hw hy, slice_of_drop h1]
  exact congrArg (fun k => ROut.ok (Ast.callback w, k) s) (by simp only [List.length_cons]; omega)

theorem parseCallback_no {src t : Bytes} {i : Nat} {c : Byte} (h : src.drop i = c :: t)
    (hc : c ≠ 35) (s : RState) : parseCallback src i s = .err .invalidValue s := by
  simp only [parseCallback]
  rw [if_neg (Nat.not_le.2 (lt_of_drop h))]
  refine (bind_ok (byteAt_of_drop h s)).trans ?_
  rw [if_pos hc]; rfl

theorem parseIdentifier_ok {src w t : Bytes} {i : Nat} {y : Byte} (h : src.drop i = w ++ y :: t) (hne : w ≠ [])
    (hw : ∀ c ∈ w, delimiter c = false) (hy : delimiter y = true) (s : RState) :
    parseIdentifier src i s = .ok (.identifier w, i + w.length) s := by
  cases w with
  | nil => exact absurd rfl hne
  | cons c w =>
    have h0 : src.drop i = c :: (w ++ y :: t) := h
    have hsl := slice_of_drop h
    simp only [parseIdentifier]
    rw [if_neg (Nat.not_le.2 (lt_of_drop h0))]
    refine (bind_ok (byteAt_of_drop h0 s)).trans ?_
    rw [if_neg (by rw [isIdentifierSymbol_eq, hw c (by simp)]; decide),
      symbol_skip (drop_succ_of_drop h0) (fun x hx => hw x (by simp [hx])) hy]
    have e : i + 1 + w.length = i + (c :: w).length := by simp only [List.length_cons]; omega
    rw [e, hsl]; rfl

theorem parseIdentifier_no {src t : Bytes} {i : Nat} {c : Byte} (h : src.drop i = c :: t)
    (hc : delimiter c = true) (s : RState) : parseIdentifier src i s = .err .invalidValue s := by
  simp only [parseIdentifier]
  rw [if_neg (Nat.not_le.2 (lt_of_drop h))]
  refine (bind_ok (byteAt_of_drop h s)).trans ?_
  rw [if_pos (by rw [isIdentifierSymbol_eq, hc]; decide)]; rfl

end DuckLisp.Reader
