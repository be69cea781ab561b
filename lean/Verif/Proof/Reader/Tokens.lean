import Verif.Proof.Reader.Basic
import Verif.Proof.DlFloat

/-! Helper lemmas: numbers, strings, names. -/

namespace DuckLisp.Reader

open DuckLisp.DlString DuckLisp.Spec

/-- A decidable fact about bytes holds if it holds for all 256 of them. -/
theorem forall_byte (p : Byte → Bool) (h : (List.range 256).all (fun n => p (UInt8.ofNat n)) = true)
    (c : Byte) : p c = true := by
  rw [List.all_eq_true] at h
  have := h c.toNat (List.mem_range.2 (UInt8.toNat_lt c))
  rwa [UInt8.ofNat_toNat] at this

theorem isDigit_eq (c : Byte) : isDigit c = decimal c := rfl

theorem decimal_facts {c : Byte} (h : decimal c = true) :
    delimiter c = false ∧ toLower c ≠ 101 ∧ c ≠ 46 ∧ c ≠ 45 ∧ c ≠ 35 ∧ c ≠ 34 ∧ c ≠ 40 ∧ c ≠ 116 ∧ c ≠ 102 ∧
      c ≠ 120 ∧ c ≠ 88 ∧ isHexDigit c = true := by
  have := forall_byte (fun c => !decimal c || decide (delimiter c = false ∧ toLower c ≠ 101 ∧ c ≠ 46 ∧
    c ≠ 45 ∧ c ≠ 35 ∧ c ≠ 34 ∧ c ≠ 40 ∧ c ≠ 116 ∧ c ≠ 102 ∧ c ≠ 120 ∧ c ≠ 88 ∧ isHexDigit c = true))
    (by decide +kernel) c
  simpa [h] using this

theorem hex_facts {c : Byte} (h : isHexDigit c = true) : delimiter c = false ∧ c ≠ 45 := by
  have := forall_byte (fun c => !isHexDigit c || decide (delimiter c = false ∧ c ≠ 45)) (by decide +kernel) c
  simpa [h] using this

theorem delimiter_facts {c : Byte} (h : delimiter c = true) :
    decimal c = false ∧ isHexDigit c = false ∧ toLower c ≠ 101 ∧ c ≠ 46 ∧ c ≠ 45 ∧ c ≠ 120 ∧ c ≠ 88 ∧
      c ≠ 35 := by
  have := forall_byte (fun c => !delimiter c || decide (decimal c = false ∧ isHexDigit c = false ∧
    toLower c ≠ 101 ∧ c ≠ 46 ∧ c ≠ 45 ∧ c ≠ 120 ∧ c ≠ 88 ∧ c ≠ 35)) (by decide +kernel) c
  simpa [h] using this

theorem exp_iff (c : Byte) : toLower c = 101 ↔ c = 101 ∨ c = 69 := by
  have := forall_byte (fun c => decide (toLower c = 101 ↔ c = 101 ∨ c = 69)) (by decide +kernel) c
  exact of_decide_eq_true this

/-! ## Sign -/

theorem parseSign_none {src t : Bytes} {i : Nat} {c : Byte} (h : src.drop i = c :: t) (hc : c ≠ 45)
    (s : RState) : parseSign src i s = .ok i s := by
  simp only [parseSign]
  rw [if_neg (Nat.not_le.2 (lt_of_drop h))]
  refine (bind_ok (byteAt_of_drop h s)).trans ?_
  rw [if_neg hc]; rfl

theorem parseSign_minus {src t : Bytes} {i : Nat} {c : Byte} (h : src.drop i = 45 :: c :: t)
    (s : RState) : parseSign src i s = .ok (i + 1) s := by
  have hlen := length_of_drop h
  simp only [List.length_cons] at hlen
  simp only [parseSign]
  rw [if_neg (Nat.not_le.2 (lt_of_drop h))]
  refine (bind_ok (byteAt_of_drop h s)).trans ?_
  rw [if_pos rfl, if_neg (by omega)]; rfl

/-! ## Floating point numbers -/

theorem digits_skip {src ds t : Bytes} {i : Nat} {y : Byte} (h : src.drop i = ds ++ y :: t)
    (hd : ∀ c ∈ ds, decimal c = true) (hy : decimal y = false) :
    skip (fun c => isIdentifierSymbol c && toLower c != 101 && isDigit c) src i = i + ds.length := by
  refine skip_of_drop h ?_ ?_
  · intro c hc
    have hf := decimal_facts (hd c hc)
    simp only [isIdentifierSymbol_eq, hf.1, isDigit_eq, hd c hc]
    simp [hf.2.1]
  · intro c t' e
    cases e
    simp [isDigit_eq, hy]

theorem digits_skip' {src ds t : Bytes} {i : Nat} {y : Byte} (h : src.drop i = ds ++ y :: t)
    (hd : ∀ c ∈ ds, decimal c = true) (hy : decimal y = false) :
    skip (fun c => isIdentifierSymbol c && toLower c != 101 && c != 46 && isDigit c) src i = i + ds.length := by
  refine skip_of_drop h ?_ ?_
  · intro c hc
    have hf := decimal_facts (hd c hc)
    simp only [isIdentifierSymbol_eq, hf.1, isDigit_eq, hd c hc]
    simp [hf.2.1, hf.2.2.1]
  · intro c t' e
    cases e
    simp [isDigit_eq, hy]

theorem digits_skip'' {src ds t : Bytes} {i : Nat} {y : Byte} (h : src.drop i = ds ++ y :: t)
    (hd : ∀ c ∈ ds, decimal c = true) (hy : decimal y = false) :
    skip (fun c => isIdentifierSymbol c && isDigit c) src i = i + ds.length := by
  refine skip_of_drop h ?_ ?_
  · intro c hc
    have hf := decimal_facts (hd c hc)
    simp only [isIdentifierSymbol_eq, hf.1, isDigit_eq, hd c hc]
    simp
  · intro c t' e
    cases e
    simp [isDigit_eq, hy]

theorem drop_succ_of_drop {src t : Bytes} {i : Nat} {c : Byte} (h : src.drop i = c :: t) :
    src.drop (i + 1) = t := by
  rw [drop_of_drop h 1]; rfl

theorem drop_append_of_drop {src a b : Bytes} {i : Nat} (h : src.drop i = a ++ b) :
    src.drop (i + a.length) = b := by
  rw [drop_of_drop h, List.drop_left]

theorem mantissa_ok {src m t : Bytes} {a : Bool} (hm : Mantissa m a) {j : Nat} {y : Byte}
    (h : src.drop j = m ++ y :: t) (hy : decimal y = false) (hy' : a = false → y ≠ 46) (s : RState) :
    parseMantissa src j s = .ok (some (j + m.length, a)) s := by
  cases hm with
  | whole _ hne hd =>
    cases m with
    | nil => exact absurd rfl hne
    | cons d ds =>
      have hd' : ∀ c ∈ ds, decimal c = true := fun c hc => hd c (by simp [hc])
      have hf := decimal_facts (hd d (by simp))
      have h1 := drop_succ_of_drop (show src.drop j = d :: (ds ++ y :: t) from h)
      have h2 := drop_append_of_drop h1
      simp only [parseMantissa]
      refine (bind_ok (byteAt_of_drop (show src.drop j = d :: (ds ++ y :: t) from h) s)).trans ?_
      rw [if_neg hf.2.2.1, if_neg (by rw [isDigit_eq, hd d (by simp)]; decide), digits_skip' h1 hd' hy]
      refine (bind_ok (byteAt_of_drop h2 s)).trans ?_
      rw [if_neg (hy' rfl), digits_skip (ds := []) h2 (by simp) hy]
      exact congrArg (fun k => ROut.ok (some (k, false)) s) (by
        simp only [List.length_cons, List.length_nil]; omega)
  | point ds fs hne hd hfr =>
    cases ds with
    | nil => exact absurd rfl hne
    | cons d ds =>
      have hd' : ∀ c ∈ ds, decimal c = true := fun c hc => hd c (by simp [hc])
      have hf := decimal_facts (hd d (by simp))
      have h0 : src.drop j = d :: (ds ++ 46 :: (fs ++ y :: t)) := by rw [h]; simp
      have h1 := drop_succ_of_drop h0
      have h2 := drop_append_of_drop h1
      have h3 := drop_succ_of_drop h2
      have hl : ¬ src.length ≤ j + 1 + ds.length + 1 := by
        have := congrArg List.length h3
        simp only [List.length_drop, List.length_append, List.length_cons] at this
        omega
      simp only [parseMantissa]
      refine (bind_ok (byteAt_of_drop h0 s)).trans ?_
      rw [if_neg hf.2.2.1, if_neg (by rw [isDigit_eq, hd d (by simp)]; decide),
        digits_skip' h1 hd' (by decide)]
      refine (bind_ok (byteAt_of_drop h2 s)).trans ?_
      rw [if_pos rfl, if_neg hl, digits_skip h3 hfr hy]
      exact congrArg (fun k => ROut.ok (some (k, true)) s) (by
        simp only [List.length_append, List.length_cons]; omega)
  | fraction fs hne hfr =>
    cases fs with
    | nil => exact absurd rfl hne
    | cons d ds =>
      have hd' : ∀ c ∈ ds, decimal c = true := fun c hc => hfr c (by simp [hc])
      have h0 : src.drop j = 46 :: (d :: (ds ++ y :: t)) := by rw [h]; simp
      have h1 := drop_succ_of_drop h0
      have h2 := drop_succ_of_drop h1
      simp only [parseMantissa]
      refine (bind_ok (byteAt_of_drop h0 s)).trans ?_
      rw [if_pos rfl, if_neg (Nat.not_le.2 (lt_of_drop h1))]
      refine (bind_ok (byteAt_of_drop h1 s)).trans ?_
      rw [if_neg (by rw [isDigit_eq, hfr d (by simp)]; decide)]
      rw [show j + 2 = j + 1 + 1 from rfl, digits_skip h2 hd' hy]
      exact congrArg (fun k => ROut.ok (some (k, true)) s) (by
        simp only [List.length_cons]; omega)

theorem exponent_ok {src x t : Bytes} {b : Bool} (hx : Exponent x b) {k : Nat} {y : Byte}
    (h : src.drop k = x ++ y :: t) (hy : delimiter y = true) (s : RState) :
    parseExponent src k s = .ok (k + x.length, b) s := by
  have hyf := delimiter_facts hy
  cases hx with
  | none =>
    simp only [parseExponent]
    refine (bind_ok (byteAt_of_drop h s)).trans ?_
    rw [if_neg hyf.2.2.1]; rfl
  | pos e ds he hne hd =>
    cases ds with
    | nil => exact absurd rfl hne
    | cons d ds =>
      have hd' : ∀ c ∈ ds, decimal c = true := fun c hc => hd c (by simp [hc])
      have hf := decimal_facts (hd d (by simp))
      have h0 : src.drop k = e :: (d :: (ds ++ y :: t)) := by rw [h]; simp
      have h1 := drop_succ_of_drop h0
      have h2 := drop_succ_of_drop h1
      simp only [parseExponent]
      refine (bind_ok (byteAt_of_drop h0 s)).trans ?_
      rw [if_pos ((exp_iff e).2 he), if_neg (Nat.not_le.2 (lt_of_drop h1))]
      refine (bind_ok (byteAt_of_drop h1 s)).trans ?_
      rw [if_neg hf.2.2.2.1]
      refine (bind_ok (a := k + 1) (s' := s) rfl).trans ?_
      refine (bind_ok (byteAt_of_drop h1 s)).trans ?_
      rw [if_neg (by rw [isDigit_eq, hd d (by simp)]; decide), digits_skip'' h2 hd' hyf.1]
      exact congrArg (fun k => ROut.ok (k, true) s) (by simp only [List.length_cons]; omega)
  | neg e ds he hne hd =>
    cases ds with
    | nil => exact absurd rfl hne
    | cons d ds =>
      have hd' : ∀ c ∈ ds, decimal c = true := fun c hc => hd c (by simp [hc])
      have h0 : src.drop k = e :: (45 :: (d :: (ds ++ y :: t))) := by rw [h]; simp
      have h1 := drop_succ_of_drop h0
      have h2 := drop_succ_of_drop h1
      have h3 := drop_succ_of_drop h2
      simp only [parseExponent]
      refine (bind_ok (byteAt_of_drop h0 s)).trans ?_
      rw [if_pos ((exp_iff e).2 he), if_neg (Nat.not_le.2 (lt_of_drop h1))]
      refine (bind_ok (byteAt_of_drop h1 s)).trans ?_
      rw [if_pos rfl, if_neg (Nat.not_le.2 (lt_of_drop h2))]
      refine (bind_ok (a := k + 2) (s' := s) rfl).trans ?_
      refine (bind_ok (byteAt_of_drop h2 s)).trans ?_
      rw [if_neg (by rw [isDigit_eq, hd d (by simp)]; decide), show k + 2 + 1 = k + 1 + 1 + 1 from rfl,
        digits_skip'' h3 hd' hyf.1]
      exact congrArg (fun k => ROut.ok (k, true) s) (by simp only [List.length_cons]; omega)

/-- The outcome of converting the number found. -/
def floatOutcome (cfg : Config) (w : Bytes) (stop : Nat) (s : RState) : ROut (Ast × Nat) :=
  match toDouble cfg.arith w (some 32) with
  | .ok bits => .ok (.float bits, stop) s
  | .err _ => .err .invalidValue s
  | .ub => .ub
  | .timeout => .diverge

theorem mantissa_head {m : Bytes} {a : Bool} (hm : Mantissa m a) :
    ∃ c t, m = c :: t ∧ c ≠ 45 := by
  cases hm with
  | whole _ hne hd =>
    cases m with
    | nil => exact absurd rfl hne
    | cons d ds => exact ⟨d, ds, rfl, (decimal_facts (hd d (by simp))).2.2.2.1⟩
  | point ds fs hne hd hfr =>
    cases ds with
    | nil => exact absurd rfl hne
    | cons d ds => exact ⟨d, _, rfl, (decimal_facts (hd d (by simp))).2.2.2.1⟩
  | fraction fs hne hfr => exact ⟨46, fs, rfl, by decide⟩

theorem exponent_head {x t : Bytes} {b : Bool} (hx : Exponent x b) {y : Byte} (hy : delimiter y = true) :
    ∃ z u, x ++ y :: t = z :: u ∧ decimal z = false ∧ z ≠ 46 := by
  cases hx with
  | none => exact ⟨y, t, rfl, (delimiter_facts hy).1, (delimiter_facts hy).2.2.2.1⟩
  | pos e ds he hne hd => exact ⟨e, _, rfl, by rcases he with rfl | rfl <;> decide⟩
  | neg e ds he hne hd => exact ⟨e, _, rfl, by rcases he with rfl | rfl <;> decide⟩

theorem ended_delimiter {y : Byte} (hy : delimiter y = true) : Ended (some y) := by
  refine ⟨y, rfl, (delimiter_facts hy).2.2.2.1, ?_, ?_⟩ <;> (rintro rfl; revert hy; decide)

theorem ended_blank : Ended (some 32) := ended_delimiter (by decide)

theorem parseFloat_unsigned {cfg : Config} {src m x t : Bytes} {a b : Bool} (hm : Mantissa m a)
    (hx : Exponent x b) {i j : Nat} {y : Byte} (hs : ∀ s, parseSign src i s = .ok j s)
    (h : src.drop j = (m ++ x) ++ y :: t) (hy : delimiter y = true) (s : RState) :
    parseFloat cfg src i s =
      if (a || b) = true then floatOutcome cfg (slice src i (j + (m ++ x).length)) (j + (m ++ x).length) s
      else .err .invalidValue s := by
  rw [List.append_assoc] at h
  obtain ⟨z, u, hz, hz1, hz2⟩ := exponent_head (t := t) hx hy
  have h1 := drop_append_of_drop h
  simp only [parseFloat]
  refine (bind_ok (hs s)).trans ?_
  refine (bind_ok (mantissa_ok hm (by rw [h, hz]) hz1 (fun _ => hz2) s)).trans ?_
  refine (bind_ok (exponent_ok hx h1 hy s)).trans ?_
  simp only [List.length_append, ← Nat.add_assoc]
  have hget : src[j + m.length + x.length]? = some y := by
    have := congrArg (fun l => l[0]?) (drop_append_of_drop h1)
    simpa using this
  have hend := fun w => toDouble_ended cfg.arith (ended_delimiter hy) ended_blank w
  rw [hget]
  simp only [hend]
  cases a <;> cases b <;> simp only [Bool.or_false, Bool.or_true, Bool.not_true, Bool.not_false, if_true,
    Bool.false_eq_true, if_false]
  all_goals first
    | rfl
    | (simp only [floatOutcome]; cases toDouble cfg.arith _ _ <;> rfl)

theorem parseFloat_ok {cfg : Config} {src w t : Bytes} (hw : FloatText w) {i : Nat} {y : Byte}
    (h : src.drop i = w ++ y :: t) (hy : delimiter y = true) (s : RState) :
    parseFloat cfg src i s = floatOutcome cfg w (i + w.length) s := by
  have hsl := slice_of_drop h
  obtain ⟨sign, m, x, a, b, hsign, hm, hx, hab, rfl⟩ := hw
  obtain ⟨d, m', hm', hd⟩ := mantissa_head hm
  rcases hsign with rfl | rfl
  · rw [List.nil_append] at *
    rw [parseFloat_unsigned hm hx (j := i) (fun s => parseSign_none (by rw [h, hm']; rfl) hd s) h hy,
      if_pos hab, hsl]
  · have h0 : src.drop i = 45 :: ((m ++ x) ++ y :: t) := by rw [h]; simp
    rw [parseFloat_unsigned hm hx (j := i + 1)
      (fun s => parseSign_minus (by rw [h0, hm']; rfl) s) (drop_succ_of_drop h0) hy, if_pos hab]
    have e : i + 1 + (m ++ x).length = i + ([45] ++ (m ++ x)).length := by
      simp only [List.length_append, List.length_cons, List.length_nil]; omega
    rw [e, hsl]

/-- Digits followed by something else. -/
theorem span_decimal (u : Bytes) : ∃ ds r, u = ds ++ r ∧ (∀ c ∈ ds, decimal c = true) ∧
    (∀ c t, r = c :: t → decimal c = false) := by
  induction u with
  | nil => exact ⟨[], [], rfl, by simp, by simp⟩
  | cons c u ih =>
    by_cases hc : decimal c = true
    · obtain ⟨ds, r, h, h1, h2⟩ := ih
      refine ⟨c :: ds, r, by rw [h]; rfl, ?_, h2⟩
      intro x hx
      simp only [List.mem_cons] at hx
      rcases hx with rfl | hx
      · exact hc
      · exact h1 x hx
    · refine ⟨[], c :: u, rfl, by simp, ?_⟩
      intro x t e
      cases e
      simpa using hc

/-- No unsigned float at the beginning: the reader of floats declines. -/
theorem parseFloat_unsigned_no {cfg : Config} {src u t : Bytes} {i j : Nat} {y : Byte}
    (hs : ∀ s, parseSign src i s = .ok j s) (h : src.drop j = u ++ y :: t) (hy : delimiter y = true)
    (hno : ∀ m x a b, Mantissa m a → Exponent x b → (a || b) = true → ¬ (m ++ x) <+: u) (s : RState) :
    parseFloat cfg src i s = .err .invalidValue s := by
  have hyf := delimiter_facts hy
  simp only [parseFloat]
  refine (bind_ok (hs s)).trans ?_
  cases u with
  | nil =>
    refine bind_err ?_
    simp only [parseMantissa]
    refine (bind_ok (byteAt_of_drop h s)).trans ?_
    rw [if_neg hyf.2.2.2.1, if_pos (by rw [isDigit_eq, hyf.1]; decide)]
    rfl
  | cons c u =>
    have h0 : src.drop j = c :: (u ++ y :: t) := h
    have h1 := drop_succ_of_drop h0
    by_cases hc46 : c = 46
    · -- a leading point
      subst hc46
      refine bind_err ?_
      simp only [parseMantissa]
      refine (bind_ok (byteAt_of_drop h0 s)).trans ?_
      rw [if_pos rfl]
      cases u with
      | nil =>
        rw [if_neg (Nat.not_le.2 (lt_of_drop h1))]
        refine (bind_ok (byteAt_of_drop h1 s)).trans ?_
        rw [if_pos (by rw [isDigit_eq, hyf.1]; decide)]; rfl
      | cons d u =>
        have h1' : src.drop (j + 1) = d :: (u ++ y :: t) := h1
        rw [if_neg (Nat.not_le.2 (lt_of_drop h1'))]
        refine (bind_ok (byteAt_of_drop h1' s)).trans ?_
        by_cases hd : decimal d = true
        · exfalso
          refine hno [46, d] [] true false (.fraction [d] (by simp) (by simpa using hd)) .none rfl ?_
          exact ⟨u, by simp⟩
        · rw [if_pos (by rw [isDigit_eq]; simpa using hd)]; rfl
    · by_cases hcd : decimal c = true
      · obtain ⟨ds, r, hu, hds, hr⟩ := span_decimal u
        have hds' : ∀ x ∈ c :: ds, decimal x = true := by
          intro x hx
          simp only [List.mem_cons] at hx
          rcases hx with rfl | hx
          · exact hcd
          · exact hds x hx
        have hm : Mantissa (c :: ds) false := .whole (c :: ds) (by simp) hds'
        obtain ⟨z, v, hz, hz1, hz2⟩ : ∃ z v, r ++ y :: t = z :: v ∧ decimal z = false ∧ z ≠ 46 := by
          cases r with
          | nil => exact ⟨y, t, rfl, hyf.1, hyf.2.2.2.1⟩
          | cons z r =>
            refine ⟨z, _, rfl, hr z r rfl, ?_⟩
            rintro rfl
            refine hno (c :: ds ++ [46]) [] true false (.point (c :: ds) [] (by simp) hds' (by simp)) .none rfl ?_
            exact ⟨r, by rw [hu]; simp⟩
        have hsrc : src.drop j = (c :: ds) ++ (r ++ y :: t) := by rw [h0, hu]; simp
        refine (bind_ok (mantissa_ok hm (by rw [hsrc, hz]) hz1 (fun _ => hz2) s)).trans ?_
        have h2 := drop_append_of_drop hsrc
        have hdig : ∀ (d : Byte), decimal d = false → (!isDigit d) = true := by
          intro d hd; rw [isDigit_eq, hd]; rfl
        -- the exponent
        have hexp : parseExponent src (j + (c :: ds).length) s =
              .ok (j + (c :: ds).length, false) s ∨
            parseExponent src (j + (c :: ds).length) s = .err .invalidValue s := by
          cases r with
          | nil =>
            left
            simpa using exponent_ok (x := []) .none h2 hy s
          | cons e r =>
            have h2' : src.drop (j + (c :: ds).length) = e :: (r ++ y :: t) := h2
            by_cases he : toLower e = 101
            · right
              have he' := (exp_iff e).1 he
              have h3 := drop_succ_of_drop h2'
              simp only [parseExponent]
              refine (bind_ok (byteAt_of_drop h2' s)).trans ?_
              rw [if_pos he]
              cases r with
              | nil =>
                rw [if_neg (Nat.not_le.2 (lt_of_drop h3))]
                refine (bind_ok (byteAt_of_drop h3 s)).trans ?_
                rw [if_neg hyf.2.2.2.2.1]
                refine (bind_ok (s' := s) rfl).trans ?_
                refine (bind_ok (byteAt_of_drop h3 s)).trans ?_
                rw [if_pos (hdig y hyf.1)]; rfl
              | cons d r =>
                have h3' : src.drop (j + (c :: ds).length + 1) = d :: (r ++ y :: t) := h3
                rw [if_neg (Nat.not_le.2 (lt_of_drop h3'))]
                refine (bind_ok (byteAt_of_drop h3' s)).trans ?_
                by_cases hd45 : d = 45
                · subst hd45
                  have h4 := drop_succ_of_drop h3'
                  rw [if_pos rfl]
                  cases r with
                  | nil =>
                    rw [if_neg (Nat.not_le.2 (lt_of_drop h4))]
                    refine (bind_ok (s' := s) rfl).trans ?_
                    refine (bind_ok (byteAt_of_drop h4 s)).trans ?_
                    rw [if_pos (hdig y hyf.1)]; rfl
                  | cons d r =>
                    have h4' : src.drop (j + (c :: ds).length + 1 + 1) = d :: (r ++ y :: t) := h4
                    rw [if_neg (Nat.not_le.2 (lt_of_drop h4'))]
                    refine (bind_ok (s' := s) rfl).trans ?_
                    refine (bind_ok (byteAt_of_drop h4' s)).trans ?_
                    have hd : decimal d = false := by
                      cases hd : decimal d with
                      | false => rfl
                      | true =>
                        exfalso
                        refine hno (c :: ds) [e, 45, d] false true hm
                          (.neg e [d] he' (by simp) (by simpa using hd)) rfl ?_
                        exact ⟨r, by rw [hu]; simp⟩
                    rw [if_pos (hdig d hd)]; rfl
                · rw [if_neg hd45]
                  refine (bind_ok (s' := s) rfl).trans ?_
                  refine (bind_ok (byteAt_of_drop h3' s)).trans ?_
                  have hd : decimal d = false := by
                    cases hd : decimal d with
                    | false => rfl
                    | true =>
                      exfalso
                      refine hno (c :: ds) [e, d] false true hm
                        (.pos e [d] he' (by simp) (by simpa using hd)) rfl ?_
                      exact ⟨r, by rw [hu]; simp⟩
                  rw [if_pos (hdig d hd)]; rfl
            · left
              simp only [parseExponent]
              refine (bind_ok (byteAt_of_drop h2' s)).trans ?_
              rw [if_neg he]; rfl
        rcases hexp with hexp | hexp
        · refine (bind_ok hexp).trans ?_
          rfl
        · exact bind_err hexp
      · refine bind_err ?_
        simp only [parseMantissa]
        refine (bind_ok (byteAt_of_drop h0 s)).trans ?_
        rw [if_neg hc46, if_pos (by rw [isDigit_eq]; simpa using hcd)]
        rfl

theorem parseFloat_no {cfg : Config} {src w t : Bytes} {i : Nat} {y : Byte}
    (h : src.drop i = w ++ y :: t) (hy : delimiter y = true)
    (hno : ∀ p, p <+: w → ¬ FloatText p) (s : RState) :
    parseFloat cfg src i s = .err .invalidValue s := by
  cases w with
  | nil =>
    refine parseFloat_unsigned_no (u := []) (fun s => parseSign_none h (delimiter_facts hy).2.2.2.2.1 s) h hy ?_ s
    intro m x a b hm hx hab hp
    exact hno _ hp ⟨[], m, x, a, b, .inl rfl, hm, hx, hab, rfl⟩
  | cons c w =>
    by_cases hc : c = 45
    · subst hc
      have h0 : src.drop i = 45 :: (w ++ y :: t) := h
      have h1 := drop_succ_of_drop h0
      have hs : ∀ s, parseSign src i s = .ok (i + 1) s := by
        intro s
        cases w with
        | nil => exact parseSign_minus h0 s
        | cons d w => exact parseSign_minus h0 s
      refine parseFloat_unsigned_no hs h1 hy ?_ s
      intro m x a b hm hx hab hp
      refine hno (45 :: (m ++ x)) ?_ ⟨[45], m, x, a, b, .inr rfl, hm, hx, hab, rfl⟩
      rw [List.cons_prefix_cons]; exact ⟨rfl, hp⟩
    · refine parseFloat_unsigned_no (u := c :: w) (fun s => parseSign_none h hc s) h hy ?_ s
      intro m x a b hm hx hab hp
      exact hno _ hp ⟨[], m, x, a, b, .inl rfl, hm, hx, hab, rfl⟩

end DuckLisp.Reader
