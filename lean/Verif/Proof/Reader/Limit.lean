import Verif.Proof.Reader.Depth

/-! Helper lemmas: what a nesting error says about the text, and that the bound on recursion in the model
does not matter. -/

namespace DuckLisp.Reader

open DuckLisp.DlString DuckLisp.Spec

/-- If `m` succeeds its result satisfies `Q`; if it fails, then with `invalidValue`. -/
def Tok {α : Type} (Q : α → Prop) (m : R α) : Prop := ∀ s,
  (∀ a s', m s = .ok a s' → Q a) ∧ ∀ e s', m s = .err e s' → e = .invalidValue

theorem tok_pure {α : Type} {Q : α → Prop} {a : α} (h : Q a) : Tok Q (pure a : R α) :=
  fun _ => ⟨(fun _ _ e => by cases e; exact h), fun _ _ e => by cases e⟩

theorem tok_invalid {α : Type} {Q : α → Prop} : Tok Q (R.invalid : R α) :=
  fun _ => ⟨(fun _ _ e => by cases e), fun _ _ e => by cases e; rfl⟩

theorem tok_ub {α : Type} {Q : α → Prop} : Tok Q (R.ub : R α) :=
  fun _ => ⟨(fun _ _ e => by cases e), fun _ _ e => by cases e⟩

theorem tok_diverge {α : Type} {Q : α → Prop} : Tok Q (R.diverge : R α) :=
  fun _ => ⟨(fun _ _ e => by cases e), fun _ _ e => by cases e⟩

theorem tok_bind {α β : Type} {P : α → Prop} {Q : β → Prop} {m : R α} {f : α → R β} (hm : Tok P m)
    (hf : ∀ a, P a → Tok Q (f a)) : Tok Q (m >>= f) := by
  intro s
  constructor
  · intro b s' h
    obtain ⟨a, s1, h1, h2⟩ := bind_inv_ok h
    exact (hf a ((hm s).1 a s1 h1) s1).1 b s' h2
  · intro e s' h
    rcases bind_inv_err h with h1 | ⟨a, s1, h1, h2⟩
    · exact (hm s).2 e s' h1
    · exact (hf a ((hm s).1 a s1 h1) s1).2 e s' h2

theorem tok_ite {α : Type} {Q : α → Prop} {c : Prop} [Decidable c] {m n : R α} (hm : c → Tok Q m)
    (hn : ¬ c → Tok Q n) : Tok Q (if c then m else n) := by
  split
  · exact hm ‹_›
  · exact hn ‹_›

theorem tok_byteAt {Q : Byte → Prop} (src : Bytes) (i : Nat) (h : ∀ c, src[i]? = some c → Q c) :
    Tok Q (byteAt src i) := by
  unfold byteAt
  split
  · exact tok_pure (h _ (by assumption))
  · exact tok_ub

theorem tok_byteAt' (src : Bytes) (i : Nat) : Tok (fun _ => True) (byteAt src i) :=
  tok_byteAt src i (fun _ _ => trivial)

theorem tok_pushSyntax (cfg : Config) (src : Bytes) (message : String) (i j : Int) :
    Tok (fun _ => True) (pushSyntax cfg src message i j) := by
  intro s
  refine ⟨fun _ _ _ => trivial, ?_⟩
  intro e s' h
  simp only [pushSyntax] at h
  split at h <;> cases h

theorem le_skip (p : Byte → Bool) (src : Bytes) (i : Nat) : i ≤ skip p src i := Nat.le_add_right _ _

theorem tok_irrelevantLoop (src : Bytes) : ∀ fuel i,
    Tok (fun r => ∀ k, r = some k → i ≤ k) (irrelevantLoop src fuel i) := by
  intro fuel
  induction fuel with
  | zero => exact fun _ => tok_diverge
  | succ fuel ih =>
    intro i
    simp only [irrelevantLoop, skipSpaces, parseComment]
    refine tok_ite (fun _ => tok_pure (by simp)) (fun _ => ?_)
    refine tok_bind (P := fun j => i ≤ j) (tok_ite (fun _ => tok_pure (le_skip _ _ _)) (fun _ => tok_ub)) ?_
    intro j hj
    refine tok_bind (P := fun r => ∀ k, r = some k → j ≤ k) ?_ ?_
    · refine tok_bind (tok_byteAt' _ _) (fun _ _ => tok_ite (fun _ => tok_pure (by simp)) (fun _ => tok_pure ?_))
      intro k hk; cases hk; exact le_skip _ _ _
    · intro r hr
      cases r with
      | none => exact tok_pure (fun k hk => by cases hk; exact hj)
      | some k =>
        have hk := hr k rfl
        have := ih k
        intro s
        exact ⟨fun a s' h k' hk' => Nat.le_trans hj (Nat.le_trans hk ((this s).1 a s' h k' hk')), (this s).2⟩

theorem tok_irrelevant (src : Bytes) (i : Nat) : Tok (fun k => i ≤ k) (irrelevant src i) := by
  unfold irrelevant
  refine tok_bind (tok_irrelevantLoop src _ i) ?_
  intro r hr
  cases r with
  | some k => exact tok_pure (hr k rfl)
  | none => exact tok_pure (Nat.le_refl _)

/-- Readers of tokens end at or after where they start. -/
abbrev Forward (i : Nat) (m : R (Ast × Nat)) : Prop := Tok (fun r => i ≤ r.2) m

theorem compareLoop_cases : ∀ (n : Nat) (a b : Bytes), (∃ r, compareLoop n a b = .ok r) ∨ compareLoop n a b = .ub := by
  intro n
  induction n with
  | zero => exact fun _ _ => .inl ⟨_, rfl⟩
  | succ n ih =>
    intro a b
    cases a with
    | nil => exact .inr rfl
    | cons x a =>
      cases b with
      | nil => exact .inr rfl
      | cons y b =>
        simp only [compareLoop]
        split
        · exact .inl ⟨_, rfl⟩
        · exact ih a b

theorem tok_compare (a b : Bytes) (n : Nat) : Tok (fun _ => True) (R.lift (comparePartial a b n)) := by
  rcases compareLoop_cases n a b with ⟨r, h⟩ | h
  · rw [comparePartial, h]; exact tok_pure trivial
  · rw [comparePartial, h]; exact tok_ub

theorem tok_toBool (s : Bytes) : Tok (fun _ => True) (R.lift (toBool s)) := by
  have : (∃ b, toBool s = .ok b) ∨ toBool s = .err .invalidValue := by
    unfold DlString.toBool
    rw [compare_ok, compare_ok]
    by_cases h1 : s = [116, 114, 117, 101]
    · exact .inl ⟨true, by rw [decide_eq_true h1]; rfl⟩
    · by_cases h2 : s = [102, 97, 108, 115, 101]
      · exact .inl ⟨false, by rw [decide_eq_false h1, decide_eq_true h2]; rfl⟩
      · exact .inr (by rw [decide_eq_false h1, decide_eq_false h2]; rfl)
  rcases this with ⟨b, h⟩ | h
  · rw [h]; exact tok_pure trivial
  · rw [h]; exact tok_invalid

theorem forward_parseBool (src : Bytes) (i : Nat) : Forward i (parseBool src i) := by
  have rest : ∀ stop, i ≤ stop → Forward i (do
      let b ← R.lift (toBool (slice src i stop))
      return (.bool b, stop)) :=
    fun stop h => tok_bind (tok_toBool _) (fun _ _ => tok_pure h)
  unfold parseBool
  refine tok_ite (fun _ => tok_invalid) (fun _ => ?_)
  refine tok_bind (tok_compare _ _ _) (fun _ _ => tok_ite (fun _ => ?_) (fun _ => tok_ite (fun _ => ?_) (fun _ => ?_)))
  · exact tok_bind (P := fun k => i ≤ k) (tok_pure (by omega)) rest
  · exact tok_bind (P := fun k => i ≤ k) tok_invalid rest
  · refine tok_bind (tok_compare _ _ _) (fun _ _ => tok_ite (fun _ => ?_) (fun _ => ?_))
    · exact tok_bind (P := fun k => i ≤ k) (tok_pure (by omega)) rest
    · exact tok_bind (P := fun k => i ≤ k) tok_invalid rest

theorem tok_parseSign (src : Bytes) (i : Nat) : Tok (fun j => i ≤ j) (parseSign src i) := by
  unfold parseSign
  refine tok_ite (fun _ => tok_invalid) (fun _ => tok_bind (tok_byteAt' _ _) (fun _ _ => tok_ite (fun _ => ?_) ?_))
  · exact tok_ite (fun _ => tok_invalid) (fun _ => tok_pure (by omega))
  · exact fun _ => tok_pure (Nat.le_refl _)

theorem forward_parseInt (src : Bytes) (i : Nat) : Forward i (parseInt src i) := by
  unfold parseInt
  refine tok_bind (tok_parseSign _ _) (fun j hj => tok_bind (tok_byteAt' _ _) (fun _ _ =>
    tok_ite (fun _ => tok_invalid) (fun _ => ?_)))
  have rest : ∀ p : Bool × Nat, j ≤ p.2 → Forward i (
      match p with
      | (hex, k) =>
        if (slice src k (skip isIdentifierSymbol src k)).all (if hex then isHexDigit else isDigit) then
          match toPtrdiff (slice src i (skip isIdentifierSymbol src k)) with
          | .ok n => return (.int n, skip isIdentifierSymbol src k)
          | .err _ => R.invalid
          | .ub => R.ub
          | .timeout => R.diverge
        else R.invalid) := by
    rintro ⟨hex, k⟩ hk
    refine tok_ite (fun _ => ?_) (fun _ => tok_invalid)
    split
    · exact tok_pure (Nat.le_trans hj (Nat.le_trans hk (le_skip _ _ _)))
    · exact tok_invalid
    · exact tok_ub
    · exact tok_diverge
  refine tok_ite (fun _ => tok_bind (tok_byteAt' _ _) (fun _ _ => tok_ite (fun _ => ?_) (fun _ => ?_))) (fun _ => ?_)
  · refine tok_bind (tok_byteAt' _ _) (fun _ _ => tok_ite (fun _ => ?_) (fun _ => ?_))
    · exact tok_bind (P := fun p : Bool × Nat => j ≤ p.2) (tok_pure (by simp only []; omega)) rest
    · exact tok_bind (P := fun p : Bool × Nat => j ≤ p.2) tok_invalid rest
  · exact tok_bind (P := fun p : Bool × Nat => j ≤ p.2) (tok_pure (by simp only []; omega)) rest
  · exact tok_bind (P := fun p : Bool × Nat => j ≤ p.2) (tok_pure (by simp only []; omega)) rest

theorem tok_parseMantissa (src : Bytes) (j : Nat) :
    Tok (fun r => ∀ p, r = some p → j ≤ p.1) (parseMantissa src j) := by
  unfold parseMantissa
  refine tok_bind (tok_byteAt' _ _) (fun _ _ => tok_ite (fun _ => ?_) (fun _ => tok_ite (fun _ => tok_invalid) (fun _ => ?_)))
  · refine tok_ite (fun _ => tok_invalid) (fun _ => tok_bind (tok_byteAt' _ _) (fun _ _ =>
      tok_ite (fun _ => tok_invalid) (fun _ => tok_pure ?_)))
    intro p hp
    cases hp
    exact Nat.le_trans (by omega) (le_skip _ _ (j + 2))
  · refine tok_bind (tok_byteAt' _ _) (fun _ _ => tok_ite (fun _ => tok_ite (fun _ => tok_pure (by simp)) (fun _ => tok_pure ?_))
      (fun _ => tok_pure ?_))
    · intro p hp
      cases hp
      exact Nat.le_trans (Nat.le_trans (by omega) (Nat.le_trans (le_skip _ _ (j + 1)) (Nat.le_succ _))) (le_skip _ _ _)
    · intro p hp
      cases hp
      exact Nat.le_trans (Nat.le_trans (by omega) (le_skip _ _ (j + 1))) (le_skip _ _ _)

theorem tok_parseExponent (src : Bytes) (j : Nat) : Tok (fun r => j ≤ r.1) (parseExponent src j) := by
  have rest : ∀ k, j ≤ k → Tok (fun r : Nat × Bool => j ≤ r.1) (do
      if !isDigit (← byteAt src k) then R.invalid
      else return (skip (fun c => isIdentifierSymbol c && isDigit c) src (k + 1), true)) := by
    intro k hk
    refine tok_bind (tok_byteAt' _ _) (fun _ _ => tok_ite (fun _ => tok_invalid) (fun _ => tok_pure ?_))
    exact Nat.le_trans (by omega) (le_skip _ _ (k + 1))
  unfold parseExponent
  refine tok_bind (tok_byteAt' _ _) (fun _ _ => tok_ite (fun _ => ?_) (fun _ => tok_pure (Nat.le_refl _)))
  refine tok_ite (fun _ => tok_invalid) (fun _ => tok_bind (tok_byteAt' _ _) (fun _ _ => tok_ite (fun _ => ?_) (fun _ => ?_)))
  · refine tok_ite (fun _ => ?_) (fun _ => ?_)
    · exact tok_bind (P := fun k => j ≤ k) tok_invalid rest
    · exact tok_bind (P := fun k => j ≤ k) (tok_pure (by omega)) rest
  · exact tok_bind (P := fun k => j ≤ k) (tok_pure (by omega)) rest

theorem forward_parseFloat (cfg : Config) (src : Bytes) (i : Nat) : Forward i (parseFloat cfg src i) := by
  unfold parseFloat
  refine tok_bind (tok_parseSign _ _) (fun j hj => tok_bind (tok_parseMantissa _ _) (fun r hr => ?_))
  cases r with
  | none => exact tok_pure (Nat.le_refl _)
  | some p =>
    obtain ⟨k, point⟩ := p
    have hk : j ≤ k := hr _ rfl
    refine tok_bind (tok_parseExponent _ _) ?_
    rintro ⟨stop, exponent⟩ hs
    have hs : k ≤ stop := hs
    refine tok_ite (fun _ => tok_invalid) (fun _ => ?_)
    split
    · exact tok_pure (by simp only []; omega)
    · exact tok_invalid
    · exact tok_ub
    · exact tok_diverge

theorem forward_parseString (cfg : Config) (src : Bytes) (i : Nat) : Forward i (parseString cfg src i) := by
  unfold parseString
  refine tok_ite (fun _ => tok_invalid) (fun _ => tok_bind (tok_byteAt' _ _) (fun _ _ => tok_ite (fun _ => ?_)
    (fun _ => tok_invalid)))
  split
  · exact tok_invalid
  · refine tok_ite (fun _ => tok_bind (tok_pushSyntax _ _ _ _ _) (fun _ _ => tok_invalid)) (fun _ => tok_pure ?_)
    simp only []; omega

theorem forward_parseCallback (src : Bytes) (i : Nat) : Forward i (parseCallback src i) := by
  unfold parseCallback
  refine tok_ite (fun _ => tok_invalid) (fun _ => tok_bind (tok_byteAt' _ _) (fun _ _ => tok_ite (fun _ => tok_invalid)
    (fun _ => tok_pure ?_)))
  exact Nat.le_trans (by omega) (le_skip _ _ (i + 1))

theorem forward_parseIdentifier (src : Bytes) (i : Nat) : Forward i (parseIdentifier src i) := by
  unfold parseIdentifier
  refine tok_ite (fun _ => tok_invalid) (fun _ => tok_bind (tok_byteAt' _ _) (fun _ _ => tok_ite (fun _ => tok_invalid)
    (fun _ => tok_pure ?_)))
  exact Nat.le_trans (by omega) (le_skip _ _ (i + 1))

/-! ## A nesting error means many parentheses -/

/-- How many opening parentheses there are from `i` on. -/
def parens (src : Bytes) (i : Nat) : Nat := (src.drop i).count 40

theorem parens_le {src : Bytes} {i j : Nat} (h : i ≤ j) : parens src j ≤ parens src i := by
  obtain ⟨d, rfl⟩ := Nat.exists_eq_add_of_le h
  unfold parens
  rw [← List.drop_drop]
  exact List.Sublist.count_le 40 (List.drop_sublist _ _)

theorem parens_step {src : Bytes} {i : Nat} (h : src[i]? = some 40) : parens src i = parens src (i + 1) + 1 := by
  obtain ⟨hi, hv⟩ := List.getElem?_eq_some_iff.1 h
  unfold parens
  rw [List.drop_eq_getElem_cons hi, hv, List.count_cons]
  simp

/-- Success moves forward; failure is `invalidValue`, or `bufferOverflow` with enough parentheses. -/
def Bounded (limit : Nat) (src : Bytes) (i extra : Nat) {α : Type} (pos : α → Nat) (m : R α) : Prop := ∀ s,
  (∀ a s', m s = .ok a s' → i ≤ pos a) ∧
  ∀ e s', m s = .err e s' → e = .invalidValue ∨
    (e = .bufferOverflow ∧ limit ≤ s.depth + extra + parens src i)

theorem Tok.bounded {limit : Nat} {src : Bytes} {i extra : Nat} {m : R (Ast × Nat)} (h : Forward i m) :
    Bounded limit src i extra (·.2) m :=
  fun s => ⟨(h s).1, fun e s' he => .inl ((h s).2 e s' he)⟩

theorem bounded_orElse {limit : Nat} {src : Bytes} {i extra : Nat} {m n : R (Ast × Nat)} (hk : Keeps m)
    (hm : Bounded limit src i extra (·.2) m) (hn : Bounded limit src i extra (·.2) n) :
    Bounded limit src i extra (·.2) (orElse m n) := by
  intro s
  cases h : m s with
  | ok a s1 =>
    rw [orElse_ok h]
    exact ⟨(fun b s' e => by cases e; exact (hm s).1 _ _ h), fun _ _ e => by cases e⟩
  | err e s1 =>
    have hg := (hk s).2 _ _ h
    by_cases he : e = .invalidValue
    · subst he
      rw [orElse_next h]
      have := hn s1
      rw [hg.1] at this
      exact this
    · have : orElse m n s = .err e s1 := by
        simp only [orElse, h]
        cases e <;> first | rfl | exact absurd rfl he
      rw [this]
      exact ⟨(fun b s' e => by cases e), fun b s' e => by cases e; exact (hm s).2 _ _ h⟩
  | ub =>
    have : orElse m n s = .ub := by simp only [orElse, h]
    rw [this]
    exact ⟨(fun b s' e => by cases e), fun b s' e => by cases e⟩
  | diverge =>
    have : orElse m n s = .diverge := by simp only [orElse, h]
    rw [this]
    exact ⟨(fun b s' e => by cases e), fun b s' e => by cases e⟩

theorem bounded_elements {cfg : Config} {src : Bytes} {inner : Nat → R (Ast × Nat)} {limit extra : Nat}
    (hk : ∀ i, Keeps (inner i)) (hin : ∀ i, Bounded limit src i extra (·.2) (inner i)) :
    ∀ fuel i acc, Bounded limit src i extra (·.2) (elements cfg src inner fuel i acc) := by
  intro fuel
  induction fuel with
  | zero => exact fun i acc s => ⟨(fun _ _ h => by cases h), fun _ _ h => by cases h⟩
  | succ fuel ih =>
    intro i acc
    simp only [elements]
    by_cases hi : src.length ≤ i
    · rw [if_pos hi]
      have : Tok (fun r : List Ast × Nat => i ≤ r.2) (do
          pushSyntax cfg src "Unmatched parenthesis." (-1) (-1)
          R.invalid) := tok_bind (tok_pushSyntax _ _ _ _ _) (fun _ _ => tok_invalid)
      exact fun s => ⟨(this s).1, fun e s' h => .inl ((this s).2 e s' h)⟩
    · rw [if_neg hi]
      intro s
      obtain ⟨c, hc⟩ : ∃ c, byteAt src i s = .ok c s := by
        obtain ⟨c, hc⟩ : ∃ c, src[i]? = some c := by
          rw [List.getElem?_eq_getElem (by omega)]; exact ⟨_, rfl⟩
        exact ⟨c, by simp only [byteAt, hc, pure_run]⟩
      rw [bind_ok hc]
      by_cases h41 : c = 41
      · rw [if_pos h41]
        exact ⟨(fun a s' h => by cases h; simp only []; omega), fun _ _ h => by cases h⟩
      · rw [if_neg h41]
        have hb := hin i s
        have hkb := hk i s
        cases hr : inner i s with
        | ub => rw [bind_ub hr]; exact ⟨(fun _ _ h => by cases h), fun _ _ h => by cases h⟩
        | diverge => rw [bind_diverge hr]; exact ⟨(fun _ _ h => by cases h), fun _ _ h => by cases h⟩
        | err e s1 =>
          rw [bind_err hr]
          exact ⟨(fun _ _ h => by cases h), fun _ _ h => by cases h; exact hb.2 _ _ hr⟩
        | ok r s1 =>
          obtain ⟨e, j⟩ := r
          have hj : i ≤ j := hb.1 _ _ hr
          have hd := (hkb.1 _ _ hr).1
          rw [bind_ok hr]
          simp only []
          have hirr := tok_irrelevant src j s1
          have hkirr := keeps_irrelevant src j s1
          cases hq : irrelevant src j s1 with
          | ub => rw [bind_ub hq]; exact ⟨(fun _ _ h => by cases h), fun _ _ h => by cases h⟩
          | diverge => rw [bind_diverge hq]; exact ⟨(fun _ _ h => by cases h), fun _ _ h => by cases h⟩
          | err e s2 =>
            rw [bind_err hq]
            exact ⟨(fun _ _ h => by cases h), fun _ _ h => by cases h; exact .inl (hirr.2 _ _ hq)⟩
          | ok k s2 =>
            rw [bind_ok hq]
            have hjk := hirr.1 _ _ hq
            have hd2 := (hkirr.1 _ _ hq).1
            have := ih k (acc ++ [e]) s2
            refine ⟨fun a s' h => Nat.le_trans hj (Nat.le_trans hjk (this.1 a s' h)), ?_⟩
            intro e s' h
            rcases this.2 e s' h with h1 | ⟨h1, h2⟩
            · exact .inl h1
            · refine .inr ⟨h1, ?_⟩
              have := parens_le (src := src) (Nat.le_trans hj hjk)
              omega

theorem bounded_list {cfg : Config} {src : Bytes} {inner : Nat → R (Ast × Nat)} {limit extra : Nat}
    (hk : ∀ i, Keeps (inner i)) (hin : ∀ i, Bounded limit src i extra (·.2) (inner i)) {i j : Nat} (hij : i ≤ j)
    (hp : parens src j + 1 ≤ parens src i) (f : List Ast → Ast) :
    Bounded limit src i (extra - 1) (·.2) (do
      let (es, k) ← elements cfg src inner (src.length + 1) j []
      return (f es, k)) := by
  intro s
  have hb := bounded_elements (cfg := cfg) hk hin (src.length + 1) j [] s
  cases hr : elements cfg src inner (src.length + 1) j [] s with
  | ub => rw [bind_ub hr]; exact ⟨(fun _ _ h => by cases h), fun _ _ h => by cases h⟩
  | diverge => rw [bind_diverge hr]; exact ⟨(fun _ _ h => by cases h), fun _ _ h => by cases h⟩
  | err e s1 =>
    rw [bind_err hr]
    refine ⟨(fun _ _ h => by cases h), fun _ _ h => ?_⟩
    cases h
    rcases hb.2 _ _ hr with h | ⟨h1, h2⟩
    · exact .inl h
    · exact .inr ⟨h1, by omega⟩
  | ok r s1 =>
    obtain ⟨es, k⟩ := r
    rw [bind_ok hr]
    exact ⟨(fun a s' h => by cases h; exact Nat.le_trans hij (hb.1 _ _ hr)), fun _ _ h => by cases h⟩

theorem bounded_parseExpression {cfg : Config} {src : Bytes} {inner : Nat → R (Ast × Nat)} {limit extra : Nat}
    (hk : ∀ i, Keeps (inner i)) (hin : ∀ i, Bounded limit src i extra (·.2) (inner i)) (i : Nat) :
    Bounded limit src i (extra - 1) (·.2) (parseExpression cfg src inner i) := by
  unfold parseExpression
  intro s
  by_cases hi : src.length ≤ i
  · rw [if_pos hi]
    exact (Tok.bounded (m := R.invalid) tok_invalid) s
  rw [if_neg hi]
  obtain ⟨c, hc⟩ : ∃ c, src[i]? = some c := by
    rw [List.getElem?_eq_getElem (by omega)]; exact ⟨_, rfl⟩
  rw [bind_ok (show byteAt src i s = .ok c s by simp only [byteAt, hc, pure_run])]
  by_cases h40 : c = 40
  · subst h40
    rw [if_neg (by simp)]
    by_cases hi' : src.length ≤ i + 1
    · rw [if_pos hi']; exact (Tok.bounded (m := R.invalid) tok_invalid) s
    · rw [if_neg hi']
      exact bounded_list hk hin (by omega) (by rw [parens_step hc]; omega) Ast.expression s
  · rw [if_pos h40]
    have : Forward i (do
        pushSyntax cfg src "Unbalanced parenthesis." i i
        R.invalid) := tok_bind (tok_pushSyntax _ _ _ _ _) (fun _ _ => tok_invalid)
    exact this.bounded s

theorem bounded_parseLiteral {cfg : Config} {src : Bytes} {inner : Nat → R (Ast × Nat)} {limit extra : Nat}
    (hk : ∀ i, Keeps (inner i)) (hin : ∀ i, Bounded limit src i extra (·.2) (inner i)) (i : Nat) :
    Bounded limit src i (extra - 1) (·.2) (parseLiteral cfg src inner i) := by
  unfold parseLiteral
  intro s
  by_cases hi : src.length ≤ i + 3
  · rw [if_pos hi]
    exact (Tok.bounded (m := R.invalid) tok_invalid) s
  rw [if_neg hi]
  obtain ⟨c, hc⟩ : ∃ c, src[i]? = some c := by
    rw [List.getElem?_eq_getElem (by omega)]; exact ⟨_, rfl⟩
  rw [bind_ok (show byteAt src i s = .ok c s by simp only [byteAt, hc, pure_run])]
  by_cases h35 : c = 35
  · rw [if_neg (by simp [h35])]
    obtain ⟨d, hd⟩ : ∃ d, src[i + 1]? = some d := by
      rw [List.getElem?_eq_getElem (by omega)]; exact ⟨_, rfl⟩
    rw [bind_ok (show byteAt src (i + 1) s = .ok d s by simp only [byteAt, hd, pure_run])]
    by_cases h40 : d = 40
    · subst h40
      rw [if_neg (by simp)]
      refine bounded_list hk hin (by omega) ?_ Ast.literal s
      have := parens_le (src := src) (i := i) (j := i + 1) (by omega)
      have : parens src (i + 1) = parens src (i + 2) + 1 := parens_step hd
      omega
    · rw [if_pos h40]; exact (Tok.bounded (m := R.invalid) tok_invalid) s
  · rw [if_pos h35]; exact (Tok.bounded (m := R.invalid) tok_invalid) s

theorem bounded_compound {cfg : Config} {src : Bytes} (hact : NoActions cfg) : ∀ n i,
    Bounded cfg.maxDepth src i 1 (·.2) (compound cfg src n i) := by
  intro n
  induction n with
  | zero => exact fun i s => ⟨(fun _ _ h => by cases h), fun _ _ h => by cases h⟩
  | succ n ih =>
    intro i s
    have hk := keeps_compound (src := src) hact.keep n
    rw [compound_succ]
    by_cases hlim : cfg.maxDepth ≤ s.depth + 1
    · simp only [counted]
      rw [if_pos hlim]
      have hp := tok_pushSyntax cfg src "Max expression recursion depth met." i i
        { s with depth := s.depth + 1 }
      cases hq : pushSyntax cfg src "Max expression recursion depth met." i i
        { s with depth := s.depth + 1 } with
      | ub => rw [bind_ub hq]; exact ⟨(fun _ _ h => by cases h), fun _ _ h => by cases h⟩
      | diverge => rw [bind_diverge hq]; exact ⟨(fun _ _ h => by cases h), fun _ _ h => by cases h⟩
      | err e s1 =>
        rw [bind_err hq]
        exact ⟨(fun _ _ h => by cases h), fun _ _ h => by cases h; exact .inl (hp.2 _ _ hq)⟩
      | ok _ s1 =>
        rw [bind_ok hq]
        exact ⟨(fun _ _ h => by cases h), fun _ _ h => by cases h; exact .inr ⟨rfl, by omega⟩⟩
    · rw [counted_run (by omega)]
      -- the body, started one level deeper
      have hbody : Bounded cfg.maxDepth src i 0 (·.2) (do
          let j ← irrelevant src i
          let (e, k) ← readers cfg src (compound cfg src n) j
          let e ← runAction cfg e
          return (e, k) : R (Ast × Nat)) := by
        intro s
        have hirr := tok_irrelevant src i s
        have hkirr := keeps_irrelevant src i s
        cases hq : irrelevant src i s with
        | ub => rw [bind_ub hq]; exact ⟨(fun _ _ h => by cases h), fun _ _ h => by cases h⟩
        | diverge => rw [bind_diverge hq]; exact ⟨(fun _ _ h => by cases h), fun _ _ h => by cases h⟩
        | err e s2 =>
          rw [bind_err hq]
          exact ⟨(fun _ _ h => by cases h), fun _ _ h => by cases h; exact .inl (hirr.2 _ _ hq)⟩
        | ok j s1 =>
          rw [bind_ok hq]
          have hij := hirr.1 _ _ hq
          have hd := (hkirr.1 _ _ hq).1
          have hr : Bounded cfg.maxDepth src j 0 (·.2) (readers cfg src (compound cfg src n) j) := by
            unfold readers
            exact bounded_orElse (keeps_parseBool _ _) (forward_parseBool _ _).bounded <|
              bounded_orElse (keeps_parseFloat _ _ _) (forward_parseFloat _ _ _).bounded <|
              bounded_orElse (keeps_parseInt _ _) (forward_parseInt _ _).bounded <|
              bounded_orElse (keeps_parseString _ _ _) (forward_parseString _ _ _).bounded <|
              bounded_orElse (keeps_parseLiteral hk _) (bounded_parseLiteral hk ih j) <|
              bounded_orElse (keeps_parseCallback _ _) (forward_parseCallback _ _).bounded <|
              bounded_orElse (keeps_parseIdentifier _ _) (forward_parseIdentifier _ _).bounded <|
              bounded_parseExpression hk ih j
          have hb := hr s1
          cases hrr : readers cfg src (compound cfg src n) j s1 with
          | ub => rw [bind_ub hrr]; exact ⟨(fun _ _ h => by cases h), fun _ _ h => by cases h⟩
          | diverge => rw [bind_diverge hrr]; exact ⟨(fun _ _ h => by cases h), fun _ _ h => by cases h⟩
          | err e s2 =>
            rw [bind_err hrr]
            refine ⟨(fun _ _ h => by cases h), fun _ _ h => ?_⟩
            cases h
            rcases hb.2 _ _ hrr with h | ⟨h1, h2⟩
            · exact .inl h
            · refine .inr ⟨h1, ?_⟩
              have := parens_le (src := src) hij
              omega
          | ok r s2 =>
            obtain ⟨e, k⟩ := r
            rw [bind_ok hrr]
            have h3 : (do
                let e ← runAction cfg e
                return (e, k) : R (Ast × Nat)) s2 = .ok (e, k) s2 := bind_ok (runAction_none hact e s2)
            refine ⟨fun a s' h => ?_, fun e' s' h => ?_⟩
            · have := h3.symm.trans h
              cases this
              exact Nat.le_trans hij (hb.1 _ _ hrr)
            · have := h3.symm.trans h
              cases this
      have hb := hbody { s with depth := s.depth + 1 }
      revert hb
      generalize (do
          let j ← irrelevant src i
          let (e, k) ← readers cfg src (compound cfg src n) j
          let e ← runAction cfg e
          return (e, k) : R (Ast × Nat)) { s with depth := s.depth + 1 } = out
      intro hb
      cases out with
      | ub => exact ⟨(fun _ _ h => by cases h), fun _ _ h => by cases h⟩
      | diverge => exact ⟨(fun _ _ h => by cases h), fun _ _ h => by cases h⟩
      | ok r s1 => exact ⟨(fun _ _ h => by cases h; exact hb.1 _ _ rfl), fun _ _ h => by cases h⟩
      | err e s1 => exact ⟨(fun _ _ h => by cases h), fun _ _ h => by cases h; exact hb.2 _ _ rfl⟩

/-! ## The bound on recursion -/

theorem orElse_congr {α : Type} {m n1 n2 : R α} {s : RState} (hk : Keeps m)
    (h : ∀ s', s'.depth = s.depth → n1 s' = n2 s') : orElse m n1 s = orElse m n2 s := by
  cases hm : m s with
  | ok a s1 => rw [orElse_ok hm, orElse_ok hm]
  | err e s1 =>
    by_cases he : e = .invalidValue
    · subst he
      rw [orElse_next hm, orElse_next hm]
      exact h s1 ((hk s).2 _ _ hm).1
    · simp only [orElse, hm]
      cases e <;> first | rfl | exact absurd rfl he
  | ub => simp only [orElse, hm]
  | diverge => simp only [orElse, hm]

theorem orElse_congr_left {α : Type} {m1 m2 n : R α} {s : RState} (h : m1 s = m2 s) :
    orElse m1 n s = orElse m2 n s := by
  simp only [orElse, h]

theorem bind_congr_state {α β : Type} {m : R α} {f1 f2 : α → R β} {s : RState} (hk : Keeps m)
    (h : ∀ a s', s'.depth = s.depth → f1 a s' = f2 a s') : (m >>= f1) s = (m >>= f2) s := by
  cases hm : m s with
  | ok a s1 => rw [bind_ok hm, bind_ok hm]; exact h a s1 ((hk s).1 _ _ hm).1
  | err e s1 => rw [bind_err hm, bind_err hm]
  | ub => rw [bind_ub hm, bind_ub hm]
  | diverge => rw [bind_diverge hm, bind_diverge hm]

theorem bind_congr_left {α β : Type} {m1 m2 : R α} {f : α → R β} {s : RState} (h : m1 s = m2 s) :
    (m1 >>= f) s = (m2 >>= f) s := by
  cases hm : m1 s with
  | ok a s1 => rw [bind_ok hm, bind_ok (h ▸ hm)]
  | err e s1 => rw [bind_err hm, bind_err (h ▸ hm)]
  | ub => rw [bind_ub hm, bind_ub (h ▸ hm)]
  | diverge => rw [bind_diverge hm, bind_diverge (h ▸ hm)]

theorem elements_congr {cfg : Config} {src : Bytes} {a b : Nat → R (Ast × Nat)} {d : Nat}
    (hk : ∀ i, Keeps (a i)) (h : ∀ i s, s.depth = d → a i s = b i s) : ∀ fuel i acc s, s.depth = d →
    elements cfg src a fuel i acc s = elements cfg src b fuel i acc s := by
  intro fuel
  induction fuel with
  | zero => exact fun _ _ _ _ => rfl
  | succ fuel ih =>
    intro i acc s hs
    simp only [elements]
    by_cases hi : src.length ≤ i
    · rw [if_pos hi, if_pos hi]
    · rw [if_neg hi, if_neg hi]
      refine bind_congr_state (keeps_byteAt _ _) (fun c s1 h1 => ?_)
      by_cases hc : c = 41
      · rw [if_pos hc, if_pos hc]
      · rw [if_neg hc, if_neg hc, ← bind_congr_left (h i s1 (by omega))]
        refine bind_congr_state (hk i) (fun r s2 h2 => ?_)
        obtain ⟨e, j⟩ := r
        exact bind_congr_state (keeps_irrelevant _ _) (fun k s3 h3 => ih _ _ _ (by omega))

theorem readers_congr {cfg : Config} {src : Bytes} {a b : Nat → R (Ast × Nat)} {d : Nat}
    (hk : ∀ i, Keeps (a i)) (h : ∀ i s, s.depth = d → a i s = b i s) (i : Nat) (s : RState) (hs : s.depth = d) :
    readers cfg src a i s = readers cfg src b i s := by
  unfold readers
  refine orElse_congr (keeps_parseBool _ _) (fun s1 h1 => orElse_congr (keeps_parseFloat _ _ _) (fun s2 h2 =>
    orElse_congr (keeps_parseInt _ _) (fun s3 h3 => orElse_congr (keeps_parseString _ _ _) (fun s4 h4 => ?_))))
  have hl : parseLiteral cfg src a i s4 = parseLiteral cfg src b i s4 := by
    simp only [parseLiteral]
    by_cases hi : src.length ≤ i + 3
    · rw [if_pos hi, if_pos hi]
    rw [if_neg hi, if_neg hi]
    refine bind_congr_state (keeps_byteAt _ _) (fun c s5 h5 => ?_)
    by_cases hc : c ≠ 35
    · rw [if_pos hc, if_pos hc]
    rw [if_neg hc, if_neg hc]
    refine bind_congr_state (keeps_byteAt _ _) (fun c s6 h6 => ?_)
    by_cases hc : c ≠ 40
    · rw [if_pos hc, if_pos hc]
    rw [if_neg hc, if_neg hc]
    exact bind_congr_left (elements_congr hk h _ _ _ _ (by omega))
  rw [← orElse_congr_left hl]
  refine orElse_congr (keeps_parseLiteral hk _) (fun s5 h5 => orElse_congr (keeps_parseCallback _ _) (fun s6 h6 =>
    orElse_congr (keeps_parseIdentifier _ _) (fun s7 h7 => ?_)))
  simp only [parseExpression]
  by_cases hi : src.length ≤ i
  · rw [if_pos hi, if_pos hi]
  rw [if_neg hi, if_neg hi]
  refine bind_congr_state (keeps_byteAt _ _) (fun c s8 h8 => ?_)
  by_cases hc : c ≠ 40
  · rw [if_pos hc, if_pos hc]
  rw [if_neg hc, if_neg hc]
  by_cases hi : src.length ≤ i + 1
  · rw [if_pos hi, if_pos hi]
  rw [if_neg hi, if_neg hi]
  exact bind_congr_left (elements_congr hk h _ _ _ _ (by omega))

/-- As long as the bound on recursion in the model reaches the limit, it has no influence. -/
theorem compound_fuel {cfg : Config} {src : Bytes} (hact : ActionsKeep cfg) : ∀ n m i s,
    1 ≤ n → 1 ≤ m → cfg.maxDepth ≤ s.depth + n → cfg.maxDepth ≤ s.depth + m →
    compound cfg src n i s = compound cfg src m i s := by
  intro n
  induction n with
  | zero => intro m i s h; omega
  | succ n ih =>
    intro m i s _ hm h1 h2
    obtain ⟨m, rfl⟩ : ∃ k, m = k + 1 := ⟨m - 1, by omega⟩
    rw [compound_succ, compound_succ]
    by_cases hlim : cfg.maxDepth ≤ s.depth + 1
    · simp only [counted]
      rw [if_pos hlim, if_pos hlim]
    · rw [counted_run (by omega), counted_run (by omega)]
      refine congrArg uncount ?_
      refine bind_congr_state (keeps_irrelevant _ _) (fun j s1 hs1 => ?_)
      refine bind_congr_left ?_
      refine readers_congr (d := s.depth + 1) (keeps_compound hact n) (fun i s' hs' => ?_) j s1 hs1
      exact ih m i s' (by omega) (by omega) (by omega) (by omega)

end DuckLisp.Reader
