import Verif.Proof.Reader.Forms

/-! Helper lemmas: the recursion counter, the error log, and the nesting limit. -/

namespace DuckLisp.Reader

open DuckLisp.DlString DuckLisp.Spec

/-- The counter is as before and the log has at most grown. -/
def Grown (s s' : RState) : Prop := s'.depth = s.depth ∧ s.errors <+: s'.errors

theorem Grown.refl (s : RState) : Grown s s := ⟨rfl, List.prefix_refl _⟩
theorem Grown.trans {a b c : RState} (h1 : Grown a b) (h2 : Grown b c) : Grown a c :=
  ⟨h2.1.trans h1.1, h1.2.trans h2.2⟩

/-- `m` leaves the counter as it was and only appends to the log, however it ends. -/
def Keeps {α : Type} (m : R α) : Prop := ∀ s,
  (∀ a s', m s = .ok a s' → Grown s s') ∧ ∀ e s', m s = .err e s' → Grown s s'

theorem keeps_pure {α : Type} (a : α) : Keeps (pure a : R α) :=
  fun s => ⟨fun _ _ h => by cases h; exact .refl s, fun _ _ h => by cases h⟩

theorem keeps_throw {α : Type} (e : DlError) : Keeps (R.throw e : R α) :=
  fun s => ⟨(fun _ _ h => by cases h), fun _ _ h => by cases h; exact .refl s⟩

theorem keeps_invalid {α : Type} : Keeps (R.invalid : R α) := keeps_throw _

theorem keeps_ub {α : Type} : Keeps (R.ub : R α) :=
  fun _ => ⟨(fun _ _ h => by cases h), fun _ _ h => by cases h⟩

theorem keeps_diverge {α : Type} : Keeps (R.diverge : R α) :=
  fun _ => ⟨(fun _ _ h => by cases h), fun _ _ h => by cases h⟩

theorem bind_inv_ok {α β : Type} {m : R α} {f : α → R β} {s s' : RState} {b : β}
    (h : (m >>= f) s = .ok b s') : ∃ a s1, m s = .ok a s1 ∧ f a s1 = .ok b s' := by
  cases hm : m s with
  | ok a s1 => rw [bind_ok hm] at h; exact ⟨a, s1, rfl, h⟩
  | err e s1 => rw [bind_err hm] at h; cases h
  | ub => rw [bind_ub hm] at h; cases h
  | diverge => rw [bind_diverge hm] at h; cases h

theorem bind_inv_err {α β : Type} {m : R α} {f : α → R β} {s s' : RState} {e : DlError}
    (h : (m >>= f) s = .err e s') : m s = .err e s' ∨ ∃ a s1, m s = .ok a s1 ∧ f a s1 = .err e s' := by
  cases hm : m s with
  | ok a s1 => rw [bind_ok hm] at h; exact .inr ⟨a, s1, rfl, h⟩
  | err e s1 => rw [bind_err hm] at h; cases h; exact .inl rfl
  | ub => rw [bind_ub hm] at h; cases h
  | diverge => rw [bind_diverge hm] at h; cases h

theorem keeps_bind {α β : Type} {m : R α} {f : α → R β} (hm : Keeps m) (hf : ∀ a, Keeps (f a)) :
    Keeps (m >>= f) := by
  intro s
  constructor
  · intro b s' h
    obtain ⟨a, s1, h1, h2⟩ := bind_inv_ok h
    exact ((hm s).1 a s1 h1).trans ((hf a s1).1 b s' h2)
  · intro e s' h
    rcases bind_inv_err h with h1 | ⟨a, s1, h1, h2⟩
    · exact (hm s).2 e s' h1
    · exact ((hm s).1 a s1 h1).trans ((hf a s1).2 e s' h2)

theorem keeps_ite {α : Type} {c : Prop} [Decidable c] {m n : R α} (hm : Keeps m) (hn : Keeps n) :
    Keeps (if c then m else n) := by
  split
  · exact hm
  · exact hn

theorem keeps_lift {α : Type} (r : Res α) : Keeps (R.lift r) := by
  cases r with
  | ok a => exact keeps_pure a
  | err e => exact keeps_throw e
  | ub => exact keeps_ub
  | timeout => exact keeps_diverge

theorem keeps_byteAt (src : Bytes) (i : Nat) : Keeps (byteAt src i) := by
  unfold byteAt
  split
  · exact keeps_pure _
  · exact keeps_ub

theorem prefix_append_right {a b : Bytes} (c : Bytes) (h : a <+: b) : a <+: b ++ c :=
  h.trans (List.prefix_append b c)

theorem prefix_fromPtrdiff {a b : Bytes} (n : Int) (h : a <+: b) : a <+: fromPtrdiff b n := by
  obtain ⟨t, e, _⟩ := fromPtrdiff_numeral b n
  rw [e]; exact prefix_append_right t h

theorem keeps_pushSyntax (cfg : Config) (src : Bytes) (message : String) (i j : Int) :
    Keeps (pushSyntax cfg src message i j) := by
  intro s
  have key : ∀ s', pushSyntax cfg src message i j s = .ok () s' → Grown s s' := by
    intro s' h
    simp only [pushSyntax] at h
    split at h
    · cases h
    · cases h
      refine ⟨rfl, ?_⟩
      simp only []
      repeat apply prefix_append_right
      apply prefix_fromPtrdiff
      repeat apply prefix_append_right
      apply prefix_fromPtrdiff
      repeat apply prefix_append_right
      split
      · exact List.prefix_append _ _
      · exact List.prefix_refl _
  refine ⟨fun a s' h => key s' (by cases a; exact h), ?_⟩
  intro e s' h
  simp only [pushSyntax] at h
  split at h <;> cases h

theorem pushSyntax_ok (cfg : Config) {src : Bytes} (message : String) {i : Nat} (hi : i ≤ src.length) (j : Int)
    (s : RState) : ∃ s', pushSyntax cfg src message i j s = .ok () s' ∧ Grown s s' := by
  have : ∃ s', pushSyntax cfg src message i j s = .ok () s' := by
    simp only [pushSyntax]
    rw [if_neg (by omega)]
    exact ⟨_, rfl⟩
  obtain ⟨s', h⟩ := this
  exact ⟨s', h, (keeps_pushSyntax cfg src message i j s).1 _ _ h⟩

theorem keeps_orElse {α : Type} {m n : R α} (hm : Keeps m) (hn : Keeps n) : Keeps (orElse m n) := by
  intro s
  cases h : m s with
  | ok a s1 =>
    rw [orElse_ok h]
    exact ⟨fun b s' e => by cases e; exact (hm s).1 _ _ h, fun _ _ e => by cases e⟩
  | err e s1 =>
    have hg := (hm s).2 _ _ h
    by_cases he : e = .invalidValue
    · subst he
      rw [orElse_next h]
      exact ⟨fun b s' e => hg.trans ((hn s1).1 _ _ e), fun b s' e => hg.trans ((hn s1).2 _ _ e)⟩
    · have : orElse m n s = .err e s1 := by
        simp only [orElse, h]
        cases e <;> first | rfl | exact absurd rfl he
      rw [this]
      exact ⟨(fun b s' e => by cases e), fun b s' e => by cases e; exact hg⟩
  | ub =>
    have : orElse m n s = .ub := by simp only [orElse, h]
    rw [this]
    exact ⟨(fun b s' e => by cases e), fun b s' e => by cases e⟩
  | diverge =>
    have : orElse m n s = .diverge := by simp only [orElse, h]
    rw [this]
    exact ⟨(fun b s' e => by cases e), fun b s' e => by cases e⟩

/-- Discharge `Keeps` goals. -/
macro "keeps" : tactic => `(tactic| repeat (first
  | assumption | exact keeps_pure _ | exact keeps_invalid | exact keeps_throw _ | exact keeps_ub | exact keeps_diverge
  | exact keeps_lift _ | exact keeps_byteAt _ _ | exact keeps_pushSyntax _ _ _ _ _
  | apply keeps_ite | (refine keeps_bind ?_ (fun _ => ?_)) | split))

theorem keeps_irrelevantLoop (src : Bytes) : ∀ fuel i, Keeps (irrelevantLoop src fuel i) := by
  intro fuel
  induction fuel with
  | zero => exact fun _ => keeps_diverge
  | succ fuel ih =>
    intro i
    simp only [irrelevantLoop, skipSpaces, parseComment]
    keeps
    all_goals exact ih _

theorem keeps_irrelevant (src : Bytes) (i : Nat) : Keeps (irrelevant src i) := by
  unfold irrelevant
  refine keeps_bind (keeps_irrelevantLoop _ _ _) (fun _ => ?_)
  keeps

theorem keeps_parseBool (src : Bytes) (i : Nat) : Keeps (parseBool src i) := by
  unfold parseBool; keeps

theorem keeps_parseSign (src : Bytes) (i : Nat) : Keeps (parseSign src i) := by
  unfold parseSign; keeps

theorem keeps_parseInt (src : Bytes) (i : Nat) : Keeps (parseInt src i) := by
  unfold parseInt
  refine keeps_bind (keeps_parseSign _ _) (fun _ => ?_)
  keeps

theorem keeps_parseMantissa (src : Bytes) (i : Nat) : Keeps (parseMantissa src i) := by
  unfold parseMantissa; keeps

theorem keeps_parseExponent (src : Bytes) (i : Nat) : Keeps (parseExponent src i) := by
  unfold parseExponent; keeps

theorem keeps_parseFloat (cfg : Config) (src : Bytes) (i : Nat) : Keeps (parseFloat cfg src i) := by
  unfold parseFloat
  refine keeps_bind (keeps_parseSign _ _) (fun _ => keeps_bind (keeps_parseMantissa _ _) (fun _ => ?_))
  split
  · keeps
  · refine keeps_bind (keeps_parseExponent _ _) (fun _ => ?_)
    keeps

theorem keeps_parseString (cfg : Config) (src : Bytes) (i : Nat) : Keeps (parseString cfg src i) := by
  unfold parseString; keeps

theorem keeps_parseCallback (src : Bytes) (i : Nat) : Keeps (parseCallback src i) := by
  unfold parseCallback; keeps

theorem keeps_parseIdentifier (src : Bytes) (i : Nat) : Keeps (parseIdentifier src i) := by
  unfold parseIdentifier; keeps

theorem keeps_elements {cfg : Config} {src : Bytes} {inner : Nat → R (Ast × Nat)} (hin : ∀ i, Keeps (inner i)) :
    ∀ fuel i acc, Keeps (elements cfg src inner fuel i acc) := by
  intro fuel
  induction fuel with
  | zero => exact fun _ _ => keeps_diverge
  | succ fuel ih =>
    intro i acc
    simp only [elements]
    apply keeps_ite
    · keeps
    · refine keeps_bind (keeps_byteAt _ _) (fun _ => ?_)
      apply keeps_ite
      · keeps
      · exact keeps_bind (hin _) (fun _ => keeps_bind (keeps_irrelevant _ _) (fun _ => ih _ _))

theorem keeps_parseLiteral {cfg : Config} {src : Bytes} {inner : Nat → R (Ast × Nat)}
    (hin : ∀ i, Keeps (inner i)) (i : Nat) : Keeps (parseLiteral cfg src inner i) := by
  have := keeps_elements (cfg := cfg) (src := src) hin (src.length + 1) (i + 2) []
  unfold parseLiteral; keeps

theorem keeps_parseExpression {cfg : Config} {src : Bytes} {inner : Nat → R (Ast × Nat)}
    (hin : ∀ i, Keeps (inner i)) (i : Nat) : Keeps (parseExpression cfg src inner i) := by
  have := keeps_elements (cfg := cfg) (src := src) hin (src.length + 1) (i + 1) []
  unfold parseExpression; keeps

theorem keeps_readers {cfg : Config} {src : Bytes} {inner : Nat → R (Ast × Nat)}
    (hin : ∀ i, Keeps (inner i)) (i : Nat) : Keeps (readers cfg src inner i) := by
  unfold readers
  exact keeps_orElse (keeps_parseBool _ _) <| keeps_orElse (keeps_parseFloat _ _ _) <|
    keeps_orElse (keeps_parseInt _ _) <| keeps_orElse (keeps_parseString _ _ _) <|
    keeps_orElse (keeps_parseLiteral hin _) <| keeps_orElse (keeps_parseCallback _ _) <|
    keeps_orElse (keeps_parseIdentifier _ _) <| keeps_parseExpression hin _

/-- The parser actions of the host leave the counter alone and only append to the log. -/
def ActionsKeep (cfg : Config) : Prop := ∀ name f, cfg.action name = some f → ∀ e, Keeps (f e)

theorem keeps_runAction {cfg : Config} (h : ActionsKeep cfg) (e : Ast) : Keeps (runAction cfg e) := by
  unfold runAction
  split
  all_goals try exact keeps_pure _
  all_goals
    rename_i name _
    cases ha : cfg.action name with
    | none => exact keeps_pure _
    | some f => exact h name f ha _

theorem keeps_counted {α : Type} {cfg : Config} {src : Bytes} {i : Nat} {m : R α} (hm : Keeps m) :
    Keeps (counted cfg src i m) := by
  intro s
  have hrun : Keeps (if cfg.maxDepth ≤ s.depth + 1 then (do
      pushSyntax cfg src "Max expression recursion depth met." i i
      R.throw .bufferOverflow) else m : R α) :=
    keeps_ite (keeps_bind (keeps_pushSyntax _ _ _ _ _) (fun _ => keeps_throw _)) hm
  have hrun := hrun { s with depth := s.depth + 1 }
  simp only [counted]
  constructor
  · intro a s' h
    split at h <;> cases h
    rename_i s1 h1
    have := hrun.1 _ _ h1
    exact ⟨by simp only []; rw [this.1]; simp, this.2⟩
  · intro a s' h
    split at h <;> cases h
    rename_i s1 h1
    have := hrun.2 _ _ h1
    exact ⟨by simp only []; rw [this.1]; simp, this.2⟩

theorem keeps_compound {cfg : Config} {src : Bytes} (h : ActionsKeep cfg) : ∀ n i, Keeps (compound cfg src n i) := by
  intro n
  induction n with
  | zero => exact fun _ => keeps_diverge
  | succ n ih =>
    intro i
    rw [compound_succ]
    refine keeps_counted (keeps_bind (keeps_irrelevant _ _) (fun _ => keeps_bind (keeps_readers ih _) (fun _ =>
      keeps_bind (keeps_runAction h _) (fun _ => keeps_pure _))))

theorem NoActions.keep {cfg : Config} (h : NoActions cfg) : ActionsKeep cfg :=
  fun name f hf => by rw [h name] at hf; cases hf

/-! ## Too deep -/

theorem compound_at_limit {cfg : Config} {src : Bytes} {i n : Nat} {s : RState} (hi : i ≤ src.length)
    (hd : cfg.maxDepth ≤ s.depth + 1) :
    ∃ s', compound cfg src (n + 1) i s = .err .bufferOverflow s' := by
  rw [compound_succ]
  obtain ⟨s1, h1, _⟩ := pushSyntax_ok cfg "Max expression recursion depth met." hi (i : Int)
    { s with depth := s.depth + 1 }
  refine ⟨{ s1 with depth := s1.depth - 1 }, ?_⟩
  simp only [counted]
  rw [if_pos hd, bind_ok h1]
  rfl

/-- A form nested too deeply is refused. -/
def Overflows (cfg : Config) (src : Bytes) (e : Ast) (w : Bytes) : Prop :=
  ∀ (sep : Bytes), Sep sep → ∀ (i : Nat) (post : Bytes) (n : Nat) (s : RState),
    src.drop i = sep ++ (w ++ post) → Stops e post → cfg.maxDepth ≤ s.depth + height e → 1 ≤ n →
    cfg.maxDepth ≤ s.depth + n → ∃ s', compound cfg src n i s = .err .bufferOverflow s'

/-- A row with a form nested too deeply is refused. -/
def OverflowsRow (cfg : Config) (src : Bytes) (es : List Ast) (r : Bytes) : Prop :=
  ∀ (i : Nat) (post : Bytes) (fuel : Nat) (acc : List Ast) (n : Nat) (s : RState),
    src.drop i = r ++ 41 :: post → cfg.maxDepth ≤ s.depth + heightAll es → es ≠ [] → 1 ≤ n →
    cfg.maxDepth ≤ s.depth + n → es.length < fuel →
    ∃ s', rowFrom cfg src (compound cfg src n) fuel i acc s = .err .bufferOverflow s'

theorem le_of_drop {src a : Bytes} {i : Nat} {c : Byte} {t : Bytes} (h : src.drop i = a ++ c :: t) :
    i ≤ src.length := by
  have := congrArg List.length h
  simp only [List.length_drop, List.length_append, List.length_cons] at this
  omega

theorem overflows_atom {cfg : Config} {src w : Bytes} {e : Ast} (hw : Written cfg.toDouble e w)
    (ha : atomic e = true) : Overflows cfg src e w := by
  intro sep hsep i post n s h hp hd hn hn'
  have hh : height e = 1 := by cases e <;> first | rfl | cases ha
  obtain ⟨n, rfl⟩ : ∃ m, n = m + 1 := ⟨n - 1, by omega⟩
  obtain ⟨c, t, rfl, _⟩ := written_head hw
  exact compound_at_limit (le_of_drop h) (by omega)

/-- The elements of an expression, one of which is too deep. -/
def OverflowsItems (cfg : Config) (src : Bytes) (es : List Ast) (body : Bytes) : Prop :=
  ∀ (i : Nat) (post : Bytes) (n : Nat) (s : RState), src.drop i = body ++ 41 :: post →
    cfg.maxDepth ≤ s.depth + heightAll es → 1 ≤ n → cfg.maxDepth ≤ s.depth + n →
    ∃ s', elements cfg src (compound cfg src n) (src.length + 1) i [] s = .err .bufferOverflow s'

theorem overflows_expression {cfg : Config} {src body : Bytes} {es : List Ast}
    (hitems : OverflowsItems cfg src es body) : Overflows cfg src (.expression es) (40 :: (body ++ [41])) := by
  intro sep hsep i post n s h hp hd hn hn'
  simp only [height] at hd
  obtain ⟨n, rfl⟩ : ∃ m, n = m + 1 := ⟨n - 1, by omega⟩
  have h0 : src.drop i = sep ++ 40 :: (body ++ 41 :: post) := by rw [h]; simp
  by_cases hlim : cfg.maxDepth ≤ s.depth + 1
  · exact compound_at_limit (le_of_drop h0) hlim
  have h1 := drop_append_of_drop h0
  have h2 := drop_succ_of_drop h1
  obtain ⟨c, t, hct⟩ : ∃ c t, body ++ 41 :: post = c :: t := by cases body <;> exact ⟨_, _, rfl⟩
  obtain ⟨s', h3⟩ := hitems _ post n { s with depth := s.depth + 1 } h2 (by simp only []; omega) (by omega)
    (by simp only []; omega)
  refine ⟨_, compound_overflow_of_readers (s' := s') hsep h0 (by decide) (by decide) (by omega) ?_⟩
  rw [readers_paren h1, parseExpression_run (by rw [h1, hct])]
  exact bind_err h3

theorem overflows_literal {cfg : Config} {src body : Bytes} {es : List Ast}
    (hitems : OverflowsItems cfg src es body) : Overflows cfg src (.literal es) (35 :: 40 :: (body ++ [41])) := by
  intro sep hsep i post n s h hp hd hn hn'
  simp only [height] at hd
  obtain ⟨n, rfl⟩ : ∃ m, n = m + 1 := ⟨n - 1, by omega⟩
  have h0 : src.drop i = sep ++ 35 :: 40 :: (body ++ 41 :: post) := by rw [h]; simp
  by_cases hlim : cfg.maxDepth ≤ s.depth + 1
  · exact compound_at_limit (le_of_drop h0) hlim
  have h1 := drop_append_of_drop h0
  have h2 := drop_succ_of_drop (drop_succ_of_drop h1)
  obtain ⟨c, d, t, hct⟩ : ∃ c d t, body ++ 41 :: post = c :: d :: t := by
    cases body with
    | nil =>
      cases post with
      | nil => exact absurd rfl hp
      | cons y t => exact ⟨_, _, _, rfl⟩
    | cons x body => cases body <;> exact ⟨_, _, _, rfl⟩
  obtain ⟨s', h3⟩ := hitems _ post n { s with depth := s.depth + 1 } h2 (by simp only []; omega) (by omega)
    (by simp only []; omega)
  refine ⟨_, compound_overflow_of_readers (s' := s') hsep h0 (by decide) (by decide) (by omega) ?_⟩
  rw [readers_hash h1]
  refine orElse_overflow ?_
  rw [parseLiteral_run (by rw [h1, hct])]
  exact bind_err h3

theorem overflows_none {cfg : Config} {src : Bytes} {t : Ast} {w : Bytes} (hw : Written cfg.toDouble t w)
    (hh : height t = 1) : Overflows cfg src t w := by
  intro sep hsep i post n s h hp hd hn hn'
  obtain ⟨n, rfl⟩ : ∃ m, n = m + 1 := ⟨n - 1, by omega⟩
  obtain ⟨c, u, rfl, _⟩ := written_head hw
  exact compound_at_limit (le_of_drop h) (by omega)

/-- Everything written with too many levels is refused. -/
theorem overflows_written {cfg : Config} (src : Bytes) (hact : NoActions cfg) {e : Ast} {w : Bytes}
    (h : Written cfg.toDouble e w) : Overflows cfg src e w := by
  refine Written.rec (toDouble := cfg.toDouble) (motive_1 := fun e w _ => Overflows cfg src e w)
    (motive_2 := fun es r _ => OverflowsRow cfg src es r ∧
      ∀ e es', es = e :: es' → OverflowsItems cfg src es r)
    ?_ ?_ ?_ ?_ ?_ ?_ ?_ ?_ ?_ ?_ ?_ ?_ ?_ h
  · exact overflows_atom .true rfl
  · exact overflows_atom .false rfl
  · exact fun h hr => overflows_atom (.int h hr) rfl
  · exact fun h hx => overflows_atom (.float h hx) rfl
  · exact fun h => overflows_atom (.string h) rfl
  · exact fun h => overflows_atom (.identifier h) rfl
  · exact fun hne h => overflows_atom (.callback hne h) rfl
  · exact overflows_none .empty rfl
  · exact fun _ ih => overflows_expression (ih.2 _ _ rfl)
  · exact overflows_none .emptyLiteral rfl
  · exact fun _ ih => overflows_literal (ih.2 _ _ rfl)
  · exact fun hs => ⟨fun _ _ _ _ _ _ _ _ h => absurd rfl h, fun _ _ h => by cases h⟩
  · intro e es sp w r hs hw ha hr ih1 ih2
    obtain ⟨c, t, hct, hc, hc', hc''⟩ := written_head hw
    constructor
    · intro i post fuel acc n s hsrc hd _ hn hn' hf
      simp only [heightAll] at hd
      obtain ⟨fuel, rfl⟩ : ∃ m, fuel = m + 1 := ⟨fuel - 1, by omega⟩
      have h0 : src.drop i = sp ++ (c :: (t ++ (r ++ 41 :: post))) := by rw [hsrc, hct]; simp
      have h3 := drop_append_of_drop h0
      have h4 : src.drop (i + sp.length) = [] ++ (w ++ (r ++ 41 :: post)) := by rw [h3, hct]; rfl
      by_cases hfirst : cfg.maxDepth ≤ s.depth + height e
      · obtain ⟨s', h5⟩ := ih1 [] .nil _ _ n s h4 (stops_of_apart ha) hfirst hn hn'
        refine ⟨s', ?_⟩
        simp only [rowFrom]
        refine (bind_ok (irrelevant_sep hs h0 hc hc' s)).trans ?_
        exact elements_fail h3 hc'' h5 acc
      · have hform := reads_written src hact hw [] .nil _ _ n s h4 (stops_of_apart ha) (by omega) (by omega)
        have h5 := drop_append_of_drop (show src.drop (i + sp.length) = ([] ++ w) ++ (r ++ 41 :: post) by
          rw [h4]; simp)
        have hne : es ≠ [] := by
          rintro rfl
          simp only [heightAll] at hd
          omega
        obtain ⟨s', h6⟩ := ih2.1 _ post fuel (acc ++ [e]) n s h5 (by omega) hne hn hn'
          (by simp only [List.length_cons] at hf; omega)
        refine ⟨s', ?_⟩
        simp only [rowFrom]
        refine (bind_ok (irrelevant_sep hs h0 hc hc' s)).trans ?_
        rw [elements_step h3 hc'' hform]
        exact h6
    · intro e' es' he i post n s hsrc hd hn hn'
      cases he
      simp only [heightAll] at hd
      have hlen := row_length hr
      have hl : (sp ++ (w ++ r) ++ 41 :: post).length ≤ src.length := by
        rw [← hsrc, List.length_drop]; omega
      simp only [List.length_append, List.length_cons] at hl
      have hcc : ∃ c t, sp ++ (w ++ r) ++ 41 :: post = c :: t ∧ c ≠ 41 := by
        cases sp with
        | cons c t => exact ⟨c, _, rfl, sep_first hs rfl⟩
        | nil => rw [hct]; exact ⟨c, _, rfl, hc''⟩
      obtain ⟨c, t, hct, hc⟩ := hcc
      have h4 : src.drop i = sp ++ (w ++ (r ++ 41 :: post)) := by rw [hsrc]; simp
      by_cases hfirst : cfg.maxDepth ≤ s.depth + height e
      · obtain ⟨s', h5⟩ := ih1 sp hs i _ n s h4 (stops_of_apart ha) hfirst hn hn'
        exact ⟨s', elements_fail (by rw [hsrc, hct]) hc h5 []⟩
      · have hform := reads_written src hact hw sp hs i _ n s h4 (stops_of_apart ha) (by omega) (by omega)
        have h5 : src.drop (i + (sp ++ w).length) = r ++ 41 :: post :=
          drop_append_of_drop (by rw [hsrc]; simp)
        have hne : es ≠ [] := by
          rintro rfl
          simp only [heightAll] at hd
          omega
        obtain ⟨s', h6⟩ := ih2.1 _ post src.length ([] ++ [e]) n s h5 (by omega) hne hn hn' (by omega)
        refine ⟨s', ?_⟩
        rw [elements_step (by rw [hsrc, hct]) hc hform]
        exact h6

end DuckLisp.Reader
