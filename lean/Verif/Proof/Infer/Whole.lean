import Verif.Proof.Infer.Frame

/-! # Inference in whole programs -/

namespace DuckLisp.Infer

open DuckLisp.Reader DuckLisp.Spec DuckLisp.Spec.Inference

variable {σ : Type} {cfg : Config σ}

theorem readText_ok {reader : Reader.Config} {text : Bytes} {e : Ast} {s s' : State σ} :
    readText reader text s = .ok (e, s') ↔ ReadAs reader text e ∧ s = s' := by
  unfold readText ReadAs
  cases Reader.read reader text 0 {} <;> simp

theorem declarePrototype_sound {reader : Reader.Config} {d : Prototype} {s s' : State σ} {u : Unit} {E : Env σ}
    (h : declarePrototype cfg reader d s = .ok (u, s')) (hl : Linked s E) :
    ∃ E', Linked s' E' ∧ ∀ ds E'', Provides cfg (ReadAs reader) ds E' E'' → Provides cfg (ReadAs reader) (d :: ds) E E'' := by
  obtain ⟨x, text, script⟩ := d
  unfold declarePrototype at h
  obtain ⟨t, s1, h1, h2⟩ := bind_ok.1 h
  replace h1 := readText_ok.1 h1
  obtain ⟨h1, rfl⟩ := h1
  split at h2
  · rename_i hs
    simp only at hs
    subst hs
    obtain ⟨sig, E', a1, -, a2, a3⟩ := addDeclaration_sound h2 hl
    exact ⟨E', a3, fun ds E'' h => .plain h1 a1 a2 h⟩
  · rename_i hs
    simp only at hs
    obtain ⟨c, s2, h3, h4⟩ := bind_ok.1 h2
    replace h3 := readText_ok.1 h3
    obtain ⟨h3, rfl⟩ := h3
    obtain ⟨code, s3, h5, h6⟩ := bind_ok.1 h4
    unfold compileScript at h5
    rw [hl.inner] at h5
    rcases hc : cfg.compile c E.inner with ⟨code', i⟩ | _ | _ | _ <;> simp only [hc] at h5
    · simp only [Res.ok.injEq, Prod.mk.injEq] at h5
      obtain ⟨rfl, rfl⟩ := h5
      obtain ⟨sig, E', a1, a2, a3, a4⟩ := addDeclaration_sound (E := { E with inner := i }) h6 ⟨hl.scopes, rfl⟩
      exact ⟨E', a4, fun ds E'' h => .script hs h1 a1 (a2 rfl).1 (a2 rfl).2 h3 hc a3 h⟩
    all_goals simp at h5

theorem declareAll_sound {reader : Reader.Config} : ∀ (ds : List Prototype) {s s' : State σ} {u : Unit} {E : Env σ},
    declareAll cfg reader ds s = .ok (u, s') → Linked s E → ∃ E', Linked s' E' ∧ Provides cfg (ReadAs reader) ds E E'
  | [], s, s', u, E, h, hl => by
    obtain ⟨-, rfl⟩ := pure_ok.1 h
    exact ⟨E, hl, .nil⟩
  | d :: ds, s, s', u, E, h, hl => by
    obtain ⟨_, s1, h1, h2⟩ := bind_ok.1 h
    obtain ⟨E1, a1, a2⟩ := declarePrototype_sound h1 hl
    obtain ⟨E2, b1, b2⟩ := declareAll_sound ds h2 a1
    exact ⟨E2, b1, a2 _ _ b2⟩

theorem declareAll_complete {reader : Reader.Config} {ds : List Prototype} {E E' : Env σ}
    (h : Provides cfg (ReadAs reader) ds E E') : ∀ {s : State σ}, Linked s E →
      ∃ s', declareAll cfg reader ds s = .ok ((), s') ∧ Linked s' E' := by
  induction h with
  | nil => intro s hl; exact ⟨s, rfl, hl⟩
  | plain h1 h2 h3 _ ih =>
    intro s hl
    obtain ⟨s1, a1, a2⟩ := addDeclaration_complete h2 (by simp) h3 hl
    obtain ⟨s2, b1, b2⟩ := ih a2
    refine ⟨s2, ?_, b2⟩
    rw [declareAll, bind_eq (s1 := s1) (a := ()), b1]
    rw [declarePrototype, bind_eq (readText_ok.2 ⟨h1, rfl⟩)]
    exact a1
  | @script x text t script c sig code i ds E E' E'' hs h1 h2 h3 h4 h5 h6 h7 _ ih =>
    intro s hl
    obtain ⟨s1, a1, a2⟩ := addDeclaration_complete (s := ⟨s.scopes, i⟩) h2 (fun _ => ⟨h3, h4⟩) h7 ⟨hl.scopes, rfl⟩
    obtain ⟨s2, b1, b2⟩ := ih a2
    refine ⟨s2, ?_, b2⟩
    rw [declareAll, bind_eq (s1 := s1) (a := ()), b1]
    rw [declarePrototype, bind_eq (readText_ok.2 ⟨h1, rfl⟩)]
    simp only [hs, if_false]
    rw [bind_eq (readText_ok.2 ⟨h5, rfl⟩)]
    simp only [compileAndAdd]
    rw [bind_eq (s1 := ⟨s.scopes, i⟩) (a := code)]
    · exact a1
    · simp only [compileScript, hl.inner, h6]

theorem inferParentheses_ok {reader : Reader.Config} {fuel : Nat} {ds : List Prototype} {inner : σ} {e e' : Ast} :
    inferParentheses cfg reader fuel ds inner e = .ok e' ↔ ∃ s s', declareAll cfg reader (builtin ++ ds) ⟨[.new], inner⟩ = .ok ((), s) ∧
      compound cfg fuel true e s = .ok (e', s') := by
  unfold inferParentheses
  constructor
  · intro h
    split at h
    · rename_i s' hm
      cases h
      obtain ⟨_, s1, h1, h2⟩ := bind_ok.1 hm
      obtain ⟨_, s2, h3, h4⟩ := bind_ok.1 h2
      simp only [pushScope, Res.ok.injEq, Prod.mk.injEq, true_and] at h1
      subst h1
      exact ⟨s2, s', h3, h4⟩
    all_goals cases h
  · rintro ⟨s, s', h1, h2⟩
    rw [bind_eq (show pushScope (⟨[], inner⟩ : State σ) = .ok ((), ⟨[.new], inner⟩) from rfl), bind_eq h1, h2]

theorem linked_new (inner : σ) : Linked (⟨[.new], inner⟩ : State σ) ⟨[[]], inner⟩ := ⟨.cons .new .nil, rfl⟩

theorem further_endless {g : Sig} (hg : g.kind? = none) (e : Ast) (es : List Ast) (s : State σ) :
    ∀ n, further cfg n none g (e :: es) s = .timeout
  | 0 => rfl
  | n + 1 => by
    simp only [further, hg]
    rfl

theorem compound_endless {f : Bytes} {g : Sig} {k : Int} (hg : g.kind? = none) {s : State σ}
    (hf : lookup f s.scopes = some ⟨.variadic [] k g, none⟩) (e : Ast) (es : List Ast) :
    ∀ n, compound cfg n true (.expression (.identifier f :: e :: es)) s = .timeout := by
  have bind_timeout : ∀ {α β : Type} {m : M σ α} {f : α → M σ β} {s : State σ}, m s = .timeout → (m >>= f) s = .timeout := by
    intro α β m f s h
    show M.bind m f s = _
    rw [M.bind, h]
  have hs : ∀ n p, p.index = 0 → p.rest = e :: es → step cfg n true [] (some (k, g)) p s = .timeout := by
    intro n p hp hr
    rcases n with _ | n
    · rfl
    · simp only [step, hp, hr, List.getElem?_nil, List.length_nil, if_true, Bool.not_true, Bool.false_and, Bool.false_eq_true, if_false]
      exact bind_timeout (further_endless hg e es s n)
  have hc : ∀ n, call cfg n f ⟨.variadic [] k g, none⟩ (e :: es) s = .timeout := by
    intro n
    rcases n with _ | _ | n
    · rfl
    · rfl
    · simp only [call, Sig.function?, begin]
      rw [bind_eq (show (pure _ : M σ Progress) s = .ok (_, s) from rfl)]
      apply bind_timeout
      simp only [finish, List.length_nil, Nat.le_refl, if_true]
      exact bind_timeout (hs n _ rfl rfl)
  intro n
  rcases n with _ | n
  · rfl
  · simp only [compound, if_true]
    rw [bind_eq (show find f s = .ok (some _, s) by rw [find, hf])]
    exact hc n

theorem inferParentheses_run {reader : Reader.Config} {ds : List Prototype} {inner : σ} {s : State σ}
    (h : declareAll cfg reader (builtin ++ ds) ⟨[.new], inner⟩ = .ok ((), s)) (fuel : Nat) (e : Ast) :
    inferParentheses cfg reader fuel ds inner e = match compound cfg fuel true e s with
      | .ok (e, _) => .ok e
      | .err e => .err e
      | .ub => .ub
      | .timeout => .timeout := by
  unfold inferParentheses
  rw [bind_eq (show pushScope (⟨[], inner⟩ : State σ) = .ok ((), ⟨[.new], inner⟩) from rfl), bind_eq h]
  cases compound cfg fuel true e s <;> rfl

end DuckLisp.Infer
