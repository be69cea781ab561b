import Verif.Proof.Reader.Forms
import Verif.Spec.Actions

/-! Helper lemmas: reading with parser actions. -/

namespace DuckLisp.Reader

open DuckLisp.DlString DuckLisp.Spec

/-- The outcome of reading, for what the actions give. -/
def settled {α β : Type} (f : α → β) (s : RState) : Except DlError α × Bytes → ROut β
  | (.ok a, log) => .ok (f a) { s with errors := log }
  | (.error er, log) => .err er { s with errors := log }

theorem runAction_performs {cfg : Config} {act : Bytes → Option Action} (h : Performs cfg act) (e : Ast) (s : RState) :
    runAction cfg e s = settled id s (replaced act e s.errors) := by
  have key : ∀ name, firstName e = some name → (match cfg.action name with
      | some f => f e
      | none => (pure e : R Ast)) s = settled id s (replaced act e s.errors) := by
    intro name hn
    unfold replaced
    rw [hn, h name, Option.bind_some]
    cases act name with
    | none => rfl
    | some f =>
      dsimp only [Option.map]
      rcases f e s.errors with ⟨_ | _, _⟩ <;> rfl
  unfold runAction
  split
  · exact key _ rfl
  · exact key _ rfl
  · exact key _ rfl
  · exact key _ rfl
  · have hn : firstName e = none := by
      unfold firstName
      split <;> first | rfl | (exfalso; simp_all)
    unfold replaced
    rw [hn]
    rfl

theorem compound_settled {cfg : Config} {act : Bytes → Option Action} {src sep t : Bytes} (hact : Performs cfg act)
    (hsep : Sep sep) {i n k : Nat} {c : Byte} {e : Ast} {s : RState} {log : Bytes} (h : src.drop i = sep ++ c :: t)
    (hc : blank c = false) (hc' : c ≠ 59) (hd : s.depth + 1 < cfg.maxDepth)
    (hr : readers cfg src (compound cfg src n) (i + sep.length) { s with depth := s.depth + 1 } =
      .ok (e, k) { s with depth := s.depth + 1, errors := log }) :
    compound cfg src (n + 1) i s = settled (fun e' => (e', k)) s (replaced act e log) := by
  rw [compound_succ, counted_run hd]
  have h1 := runAction_performs hact e { s with depth := s.depth + 1, errors := log }
  have h2 : (do
      let j ← irrelevant src i
      let (e, k) ← readers cfg src (compound cfg src n) j
      let e ← runAction cfg e
      return (e, k) : R (Ast × Nat)) { s with depth := s.depth + 1 } =
      settled (fun e' => (e', k)) { s with depth := s.depth + 1 } (replaced act e log) := by
    refine (bind_ok (irrelevant_sep hsep h hc hc' _)).trans ?_
    refine (bind_ok hr).trans ?_
    rcases hx : replaced act e log with ⟨_ | _, _⟩
    · rw [hx] at h1
      exact bind_err h1
    · rw [hx] at h1
      exact bind_ok h1
  rw [h2]
  rcases replaced act e log with ⟨_ | _, _⟩ <;> rfl

theorem compound_failed {cfg : Config} {src sep t : Bytes} (hsep : Sep sep) {i n : Nat} {c : Byte} {er : DlError} {s : RState}
    {log : Bytes} (h : src.drop i = sep ++ c :: t) (hc : blank c = false) (hc' : c ≠ 59) (hd : s.depth + 1 < cfg.maxDepth)
    (hr : readers cfg src (compound cfg src n) (i + sep.length) { s with depth := s.depth + 1 } =
      .err er { s with depth := s.depth + 1, errors := log }) :
    compound cfg src (n + 1) i s = .err er { s with errors := log } := by
  rw [compound_succ, counted_run hd]
  refine (congrArg uncount ((bind_ok (irrelevant_sep hsep h hc hc' _)).trans (bind_err hr))).trans ?_
  rfl

/-- An error that is not taken for something else. -/
def Clear {α : Type} (literals : Prop) (r : Except DlError α × Bytes) : Prop :=
  ∀ log, r = (.error .invalidValue, log) → literals

/-- Reading one written form from `i` on, white space first. -/
def ReadsActed (cfg : Config) (act : Bytes → Option Action) (src : Bytes) (e : Ast) (w : Bytes) : Prop :=
  ∀ (sep : Bytes), Sep sep → ∀ (i : Nat) (post : Bytes) (n : Nat) (s : RState),
    src.drop i = sep ++ (w ++ post) → Stops e post → s.depth + height e < cfg.maxDepth → height e ≤ n →
    Clear (NoLiterals e) (rewritten act e s.errors) →
    compound cfg src n i s = settled (fun e' => (e', i + (sep ++ w).length)) s (rewritten act e s.errors)

/-- Reading a row of written forms from `i` on. -/
def ReadsRowActed (cfg : Config) (act : Bytes → Option Action) (src : Bytes) (es : List Ast) (r : Bytes) : Prop :=
  ∀ (i : Nat) (post : Bytes) (fuel : Nat) (acc : List Ast) (n : Nat) (s : RState),
    src.drop i = r ++ 41 :: post → s.depth + heightAll es < cfg.maxDepth → heightAll es ≤ n →
    es.length < fuel → Clear (NoLiteralsAll es) (rewrittenAll act es s.errors) →
    rowFrom cfg src (compound cfg src n) fuel i acc s =
      settled (fun es' => (acc ++ es', i + r.length + 1)) s (rewrittenAll act es s.errors)

theorem acted_atom {cfg : Config} {act : Bytes → Option Action} {src w : Bytes} {e : Ast} (hact : Performs cfg act)
    (hw : Written cfg.toDouble e w) (ha : atomic e = true) : ReadsActed cfg act src e w := by
  intro sep hsep i post n s h hp hd hn _
  have hh : height e = 1 := by cases e <;> first | rfl | cases ha
  obtain ⟨n, rfl⟩ : ∃ m, n = m + 1 := ⟨n - 1, by omega⟩
  obtain ⟨c, t, hct, hc, hc', _⟩ := written_head hw
  have h1 := drop_append_of_drop h
  refine (compound_settled (log := s.errors) (e := e) (k := i + (sep ++ w).length) hact hsep (by rw [h, hct]; rfl) hc hc'
    (by omega) ?_).trans ?_
  · rw [readers_atom hw ha hp h1]
    simp only [List.length_append, Nat.add_assoc]
  · cases e <;> first | rfl | cases ha

theorem acted_row_nil {cfg : Config} {act : Bytes → Option Action} {src r : Bytes} (hs : Sep r) :
    ReadsRowActed cfg act src [] r := by
  intro i post fuel acc n s h hd hn hf _
  obtain ⟨fuel, rfl⟩ : ∃ m, fuel = m + 1 := ⟨fuel - 1, by simp at hf; omega⟩
  simp only [rowFrom]
  refine (bind_ok (irrelevant_sep hs h (by decide) (by decide) s)).trans ?_
  rw [elements_close (drop_append_of_drop h)]
  simp only [rewrittenAll, settled, List.append_nil]

/-- The first part of a row has been read. -/
theorem elements_acted {cfg : Config} {act : Bytes → Option Action} {src r : Bytes} {e : Ast} {es : List Ast}
    (h2 : ReadsRowActed cfg act src es r) {i j fuel n : Nat} {c : Byte} {t post : Bytes} {acc : List Ast} {s : RState}
    (h : src.drop i = c :: t) (hc : c ≠ 41) (hj : src.drop j = r ++ 41 :: post)
    (hform : compound cfg src n i s = settled (fun e' => (e', j)) s (rewritten act e s.errors))
    (hd : s.depth + heightAll es < cfg.maxDepth) (hn : heightAll es ≤ n) (hf : es.length < fuel)
    (hcl : Clear (NoLiteralsAll (e :: es)) (rewrittenAll act (e :: es) s.errors)) :
    elements cfg src (compound cfg src n) (fuel + 1) i acc s =
      settled (fun es' => (acc ++ es', j + r.length + 1)) s (rewrittenAll act (e :: es) s.errors) := by
  simp only [rewrittenAll] at hcl ⊢
  rcases hx : rewritten act e s.errors with ⟨er | e', log⟩
  · rw [hx] at hform
    exact elements_fail h hc hform acc
  · rw [hx] at hform hcl
    dsimp only at hcl ⊢
    rw [elements_step h hc hform]
    rw [h2 j post fuel _ n { s with errors := log } hj hd hn hf ?_]
    · dsimp only
      rcases rewrittenAll act es log with ⟨er | es', log'⟩
      · rfl
      · simp only [settled, List.append_assoc, List.singleton_append]
    · intro log' hl
      dsimp only at hl
      rw [hl] at hcl
      exact (hcl log' rfl).2

theorem clear_first {act : Bytes → Option Action} {e : Ast} {es : List Ast} {log : Bytes}
    (h : Clear (NoLiteralsAll (e :: es)) (rewrittenAll act (e :: es) log)) : Clear (NoLiterals e) (rewritten act e log) := by
  intro log' hl
  refine (h log' ?_).1
  simp only [rewrittenAll, hl]

theorem acted_row_cons {cfg : Config} {act : Bytes → Option Action} {src sp w r : Bytes} {e : Ast} {es : List Ast} (hs : Sep sp)
    (hw : Written cfg.toDouble e w) (ha : Apart e r) (h1 : ReadsActed cfg act src e w) (h2 : ReadsRowActed cfg act src es r) :
    ReadsRowActed cfg act src (e :: es) (sp ++ (w ++ r)) := by
  intro i post fuel acc n s h hd hn hf hcl
  simp only [heightAll] at hd hn
  obtain ⟨fuel, rfl⟩ : ∃ m, fuel = m + 1 := ⟨fuel - 1, by omega⟩
  obtain ⟨c, t, hct, hc, hc', hc''⟩ := written_head hw
  have h0 : src.drop i = sp ++ (c :: (t ++ (r ++ 41 :: post))) := by rw [h, hct]; simp
  simp only [rowFrom]
  refine (bind_ok (irrelevant_sep hs h0 hc hc' s)).trans ?_
  have h3 := drop_append_of_drop h0
  have h4 : src.drop (i + sp.length) = [] ++ (w ++ (r ++ 41 :: post)) := by rw [h3, hct]; rfl
  have hform := h1 [] .nil (i + sp.length) (r ++ 41 :: post) n s h4 (stops_of_apart ha)
      (by omega) (by omega) (clear_first hcl)
  have h5 := drop_append_of_drop (show src.drop (i + sp.length) = ([] ++ w) ++ (r ++ 41 :: post) by
    rw [h4]; simp)
  rw [elements_acted h2 h3 hc'' h5 hform (by omega) (by omega) (by simp only [List.length_cons] at hf; omega) hcl]
  refine congrArg (fun k => settled (fun es' => (acc ++ es', k)) s _) ?_
  simp only [List.length_append, List.nil_append]
  omega

/-- What is known about the parts of an expression. -/
def ReadsParts (cfg : Config) (act : Bytes → Option Action) (src : Bytes) (es : List Ast) (body : Bytes) : Prop :=
  ∀ i post n s, src.drop i = body ++ 41 :: post → s.depth + heightAll es < cfg.maxDepth → heightAll es ≤ n →
    Clear (NoLiteralsAll es) (rewrittenAll act es s.errors) →
    elements cfg src (compound cfg src n) (src.length + 1) i [] s =
      settled (fun es' => (es', i + body.length + 1)) s (rewrittenAll act es s.errors)

theorem clear_parts {act : Bytes → Option Action} {P : Prop} {es : List Ast} {log : Bytes} {r : Except DlError Ast × Bytes}
    (hr : ∀ er log', rewrittenAll act es log = (.error er, log') → r = (.error er, log')) (h : Clear P r) :
    Clear P (rewrittenAll act es log) :=
  fun log' hl => h log' (hr _ _ hl)

theorem acted_expression {cfg : Config} {act : Bytes → Option Action} {src body : Bytes} {es : List Ast}
    (hact : Performs cfg act) (hitems : ReadsParts cfg act src es body) :
    ReadsActed cfg act src (.expression es) (40 :: (body ++ [41])) := by
  intro sep hsep i post n s h _ hd hn hcl
  simp only [height] at hd hn
  obtain ⟨n, rfl⟩ : ∃ m, n = m + 1 := ⟨n - 1, by omega⟩
  have h0 : src.drop i = sep ++ 40 :: (body ++ 41 :: post) := by rw [h]; simp
  have h1 := drop_append_of_drop h0
  have h2 := drop_succ_of_drop h1
  obtain ⟨c, t, hct⟩ : ∃ c t, body ++ 41 :: post = c :: t := by cases body <;> exact ⟨_, _, rfl⟩
  have hit := hitems _ post n { s with depth := s.depth + 1 } h2 (by simp only []; omega) (by omega)
    (clear_parts (P := NoLiterals (.expression es)) (fun er log' hl => by simp only [rewritten, hl]) hcl)
  simp only [rewritten]
  rcases hx : rewrittenAll act es s.errors with ⟨er | es', log⟩
  · dsimp only
    refine compound_failed hsep h0 (by decide) (by decide) (by omega) ?_
    rw [readers_paren h1, parseExpression_run (by rw [h1, hct])]
    dsimp only at hit
    rw [hx] at hit
    exact bind_err hit
  · dsimp only
    refine compound_settled hact hsep h0 (by decide) (by decide) (by omega) ?_
    rw [readers_paren h1, parseExpression_run (by rw [h1, hct])]
    dsimp only at hit
    rw [hx] at hit
    refine (bind_ok hit).trans ?_
    exact congrArg (fun k => ROut.ok (Ast.expression es', k) { s with depth := s.depth + 1, errors := log }) (by
      simp only [List.length_append, List.length_cons, List.length_nil]; omega)

theorem orElse_other {α : Type} {m next : R α} {s s' : RState} {er : DlError} (h : m s = .err er s')
    (he : er ≠ .invalidValue) : orElse m next s = .err er s' := by
  simp only [orElse, h]
  split
  · rename_i heq
    cases heq
    exact absurd rfl he
  · rfl

theorem acted_literal {cfg : Config} {act : Bytes → Option Action} {src body : Bytes} {es : List Ast}
    (hact : Performs cfg act) (hitems : ReadsParts cfg act src es body) :
    ReadsActed cfg act src (.literal es) (35 :: 40 :: (body ++ [41])) := by
  intro sep hsep i post n s h hp hd hn hcl
  simp only [height] at hd hn
  obtain ⟨n, rfl⟩ : ∃ m, n = m + 1 := ⟨n - 1, by omega⟩
  have h0 : src.drop i = sep ++ 35 :: 40 :: (body ++ 41 :: post) := by rw [h]; simp
  have h1 := drop_append_of_drop h0
  have h2 := drop_succ_of_drop (drop_succ_of_drop h1)
  obtain ⟨c, d, t, hct⟩ : ∃ c d t, body ++ 41 :: post = c :: d :: t := by
    cases body with
    | nil =>
      cases post with
      | nil => exact absurd rfl hp
      | cons y t => exact ⟨_, _, _, rfl⟩
    | cons x body => cases body <;> exact ⟨_, _, _, rfl⟩
  have hcl' : Clear False (rewrittenAll act es s.errors) :=
    clear_parts (P := NoLiterals (.literal es)) (fun er log' hl => by simp only [rewritten, hl]) hcl
  have hit := hitems _ post n { s with depth := s.depth + 1 } h2 (by simp only []; omega) (by omega)
    (fun log hl => (hcl' log hl).elim)
  simp only [rewritten]
  rcases hx : rewrittenAll act es s.errors with ⟨er | es', log⟩
  · dsimp only
    refine compound_failed hsep h0 (by decide) (by decide) (by omega) ?_
    rw [readers_hash h1]
    refine orElse_other ?_ (fun he => hcl' log (by rw [hx, he]))
    rw [parseLiteral_run (by rw [h1, hct])]
    dsimp only at hit
    rw [hx] at hit
    exact bind_err hit
  · dsimp only
    refine compound_settled hact hsep h0 (by decide) (by decide) (by omega) ?_
    rw [readers_hash h1]
    refine orElse_ok ?_
    rw [parseLiteral_run (by rw [h1, hct])]
    dsimp only at hit
    rw [hx] at hit
    refine (bind_ok hit).trans ?_
    exact congrArg (fun k => ROut.ok (Ast.literal es', k) { s with depth := s.depth + 1, errors := log }) (by
      simp only [List.length_append, List.length_cons, List.length_nil]; omega)

theorem acted_none {cfg : Config} {act : Bytes → Option Action} {src : Bytes} : ReadsParts cfg act src [] [] := by
  intro i post n s h _ _ _
  exact elements_close h [] s

/-- Everything written is read, and the actions are called. -/
theorem acted_written {cfg : Config} {act : Bytes → Option Action} (src : Bytes) (hact : Performs cfg act) {e : Ast} {w : Bytes}
    (h : Written cfg.toDouble e w) : ReadsActed cfg act src e w := by
  refine Written.rec (toDouble := cfg.toDouble) (motive_1 := fun e w _ => ReadsActed cfg act src e w)
    (motive_2 := fun es r _ => Row cfg.toDouble es r ∧ ReadsRowActed cfg act src es r ∧
      ∀ e es', es = e :: es' → ReadsParts cfg act src es r)
    ?_ ?_ ?_ ?_ ?_ ?_ ?_ ?_ ?_ ?_ ?_ ?_ ?_ h
  · exact acted_atom hact .true rfl
  · exact acted_atom hact .false rfl
  · exact fun h hr => acted_atom hact (.int h hr) rfl
  · exact fun h hx => acted_atom hact (.float h hx) rfl
  · exact fun h => acted_atom hact (.string h) rfl
  · exact fun h => acted_atom hact (.identifier h) rfl
  · exact fun hne h => acted_atom hact (.callback hne h) rfl
  · exact acted_expression (body := []) hact acted_none
  · exact fun _ ih => acted_expression hact (ih.2.2 _ _ rfl)
  · exact acted_literal (body := []) hact acted_none
  · exact fun _ ih => acted_literal hact (ih.2.2 _ _ rfl)
  · exact fun hs => ⟨.nil hs, acted_row_nil hs, fun _ _ h => by cases h⟩
  · intro e es sp w r hs hw ha hr ih1 ih2
    refine ⟨.cons hs hw ha hr, acted_row_cons hs hw ha ih1 ih2.2.1, ?_⟩
    intro e' es' he i post n s hd h1 h2 hcl
    cases he
    have hlen := row_length (.cons hs hw ha hr)
    have hl : (sp ++ (w ++ r) ++ 41 :: post).length ≤ src.length := by
      rw [← hd, List.length_drop]; omega
    simp only [List.length_append, List.length_cons] at hl hlen
    simp only [heightAll] at h1 h2
    have hc : ∃ c t, sp ++ (w ++ r) ++ 41 :: post = c :: t ∧ c ≠ 41 := by
      cases sp with
      | cons c t => exact ⟨c, _, rfl, sep_first hs rfl⟩
      | nil =>
        obtain ⟨c, t, rfl, _, _, hc⟩ := written_head hw
        exact ⟨c, _, rfl, hc⟩
    obtain ⟨c, t, hct, hc⟩ := hc
    have hform := ih1 sp hs i (r ++ 41 :: post) n s (by rw [hd]; simp) (stops_of_apart ha)
      (by omega) (by omega) (clear_first hcl)
    have h3 : src.drop (i + (sp ++ w).length) = r ++ 41 :: post :=
      drop_append_of_drop (by rw [hd]; simp)
    rw [elements_acted ih2.2.1 (by rw [hd, hct]) hc h3 hform (by omega) (by omega) (by omega) hcl]
    refine congrArg (fun k => settled (fun es' => ([] ++ es', k)) s _) ?_
    simp only [List.length_append]
    omega

end DuckLisp.Reader
