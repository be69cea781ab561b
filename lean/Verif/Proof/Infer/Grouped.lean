import Verif.Spec.Infer

/-! # Inference only adds parentheses -/

namespace DuckLisp.Infer

open DuckLisp.Reader DuckLisp.Spec

variable {σ α β : Type}

theorem bind_ok {m : M σ α} {f : α → M σ β} {s : State σ} {r : β × State σ} :
    (m >>= f) s = .ok r ↔ ∃ a s1, m s = .ok (a, s1) ∧ f a s1 = .ok r := by
  show M.bind m f s = .ok r ↔ _
  unfold M.bind
  cases h : m s with
  | ok p => 
    obtain ⟨a, s1⟩ := p
    exact ⟨fun h => ⟨a, s1, rfl, h⟩, fun ⟨_, _, h1, h2⟩ => by cases h1; exact h2⟩
  | err e => simp
  | ub => simp
  | timeout => simp

theorem pure_ok {a b : α} {s s1 : State σ} : (pure a : M σ α) s = .ok (b, s1) ↔ a = b ∧ s = s1 := by
  show Res.ok (a, s) = .ok (b, s1) ↔ _
  simp

theorem err_ok {e : DlError} {s : State σ} {r : α × State σ} : (M.err e : M σ α) s = .ok r ↔ False := by simp [M.err]
theorem ub_ok {s : State σ} {r : α × State σ} : (M.ub : M σ α) s = .ok r ↔ False := by simp [M.ub]
theorem timeout_ok {s : State σ} {r : α × State σ} : (M.timeout : M σ α) s = .ok r ↔ False := by simp [M.timeout]
theorem find_ok {x : Bytes} {s s1 : State σ} {d} : find x s = .ok (d, s1) ↔ lookup x s.scopes = d ∧ s = s1 := by
  simp [find]

theorem _root_.DuckLisp.Spec.Grouped.append {ts es us fs : List Ast} (h : Grouped ts es) (h' : Grouped us fs) : Grouped (ts ++ us) (es ++ fs) := by
  induction h with
  | nil => exact h'
  | same e _ ih => exact .same e ih
  | unmark x _ ih => exact .unmark x ih
  | inside h1 _ _ ih => exact .inside h1 ih
  | unmarkAll h1 _ _ ih => exact .unmarkAll h1 ih
  | group f h1 _ _ ih => simpa using Grouped.group f h1 ih

theorem _root_.DuckLisp.Spec.Grouped.refl (es : List Ast) : Grouped es es := by
  induction es with
  | nil => exact .nil
  | cons e es ih => exact .same e ih

/-- From one state of the inference of a call to the next, arguments have been taken. -/
def Takes (p q : Progress) : Prop := ∃ ws es, p.rest = ws ++ q.rest ∧ q.taken = p.taken ++ es ∧ Grouped ws es

theorem Takes.refl (p : Progress) : Takes p p := ⟨[], [], rfl, by simp, .nil⟩

theorem Takes.trans {p q r : Progress} (h : Takes p q) (h' : Takes q r) : Takes p r := by
  obtain ⟨ws, es, h1, h2, h3⟩ := h
  obtain ⟨ws', es', h1', h2', h3'⟩ := h'
  exact ⟨ws ++ ws', es ++ es', by rw [h1, h1']; simp, by rw [h2', h2]; simp, h3.append h3'⟩

/-- What all functions do with forms, for some fuel. -/
structure Groups (cfg : Config σ) (n : Nat) : Prop where
  compound : ∀ i e s e' s', compound cfg n i e s = .ok (e', s') → Grouped [e] [e']
  call : ∀ x d es s e' s', call cfg n x d es s = .ok (e', s') → Grouped [.expression (.identifier x :: es)] [e']
  argument : ∀ i ts s e r s', argument cfg n i ts s = .ok ((e, r), s') → ∃ ws, ts = ws ++ r ∧ Grouped ws [e]
  arguments : ∀ i ts s es s', arguments cfg n i ts s = .ok (es, s') → Grouped ts es
  begin : ∀ b ps r c p s q s', begin cfg n b ps r c p s = .ok (q, s') → Takes p q
  run : ∀ b ps r c p s q s', run cfg n b ps r c p s = .ok (q, s') → Takes p q
  step : ∀ b ps r p s q s', step cfg n b ps r p s = .ok (q, s') → Takes p q
  further : ∀ c g ts s es r s', further cfg n c g ts s = .ok ((es, r), s') → ∃ ws, ts = ws ++ r ∧ Grouped ws es
  finish : ∀ b ps r p s q s', finish cfg n b ps r p s = .ok (q, s') → Takes p q

theorem groups (cfg : Config σ) : ∀ n, Groups cfg n
  | 0 => by
    constructor <;> intros <;> rename_i h <;>
      simp [Infer.compound, Infer.call, Infer.argument, Infer.arguments, Infer.begin, Infer.run, Infer.step, Infer.further,
        Infer.finish, timeout_ok] at h
  | n + 1 => by
    have ih := groups cfg n
    constructor
    case compound =>
      intro i e s e' s' h
      simp only [Infer.compound] at h
      split at h
      · obtain ⟨rfl, -⟩ := pure_ok.1 h; exact .unmark _ .nil
      · rename_i hd es
        split at h
        · cases hd <;> simp only [headName, ub_ok] at h
          · obtain ⟨fs, s1, h1, h2⟩ := bind_ok.1 h
            obtain ⟨rfl, -⟩ := pure_ok.1 h2
            exact .unmarkAll (.unmark _ (ih.arguments _ _ _ _ _ h1)) .nil
          · obtain ⟨fs, s1, h1, h2⟩ := bind_ok.1 h
            obtain ⟨rfl, -⟩ := pure_ok.1 h2
            exact .unmarkAll (.same _ (ih.arguments _ _ _ _ _ h1)) .nil
        · obtain ⟨rfl, -⟩ := pure_ok.1 h; exact .refl _
      · split at h
        · obtain ⟨fs, s1, h1, h2⟩ := bind_ok.1 h
          obtain ⟨rfl, -⟩ := pure_ok.1 h2
          exact .inside (.unmark _ (ih.arguments _ _ _ _ _ h1)) .nil
        · obtain ⟨rfl, -⟩ := pure_ok.1 h; exact .refl _
      · split at h
        · obtain ⟨d, s1, h1, h2⟩ := bind_ok.1 h
          cases d with
          | some d => exact ih.call _ _ _ _ _ _ h2
          | none =>
            obtain ⟨fs, s1, h1, h2⟩ := bind_ok.1 h2
            simp [err_ok] at h2
        · obtain ⟨rfl, -⟩ := pure_ok.1 h; exact .refl _
      · split at h
        · obtain ⟨_, s1, h1, h2⟩ := bind_ok.1 h
          obtain ⟨fs, s2, h3, h4⟩ := bind_ok.1 h2
          obtain ⟨_, s3, h5, h6⟩ := bind_ok.1 h4
          obtain ⟨rfl, -⟩ := pure_ok.1 h6
          exact .inside (ih.arguments _ _ _ _ _ h3) .nil
        · obtain ⟨rfl, -⟩ := pure_ok.1 h; exact .refl _
      · obtain ⟨rfl, -⟩ := pure_ok.1 h; exact .refl _
    case call =>
      intro x d es s e' s' h
      simp only [Infer.call] at h
      rcases hf : d.sig.function? with _ | ⟨ps, r⟩ <;> rw [hf] at h
      rotate_left
      · obtain ⟨p, s1, h1, h2⟩ := bind_ok.1 h
        obtain ⟨q, s2, h3, h4⟩ := bind_ok.1 h2
        obtain ⟨ws, fs, h5, h6, h7⟩ := (ih.begin _ _ _ _ _ _ _ _ h1).trans (ih.finish _ _ _ _ _ _ _ h3)
        rcases hq : q.rest with _ | ⟨t, ts⟩ <;> rw [hq] at h4
        · obtain ⟨rfl, -⟩ := pure_ok.1 h4
          simp only [hq, List.append_nil] at h5
          subst h5
          rw [h6]
          exact .inside (.same _ h7) .nil
        · simp [err_ok] at h4
      · cases hg : d.sig <;> simp only [hg, err_ok] at h
        obtain ⟨fs, s1, h1, h2⟩ := bind_ok.1 h
        obtain ⟨rfl, -⟩ := pure_ok.1 h2
        exact .inside (.same _ (ih.arguments _ _ _ _ _ h1)) .nil
    case argument =>
      intro i ts s e r s' h
      simp only [Infer.argument] at h
      split at h
      · simp [err_ok] at h
      · rename_i x ts
        have keep : ∀ {s1 : State σ}, (pure (Ast.identifier x, ts) : M σ _) s1 = .ok ((e, r), s') →
            ∃ ws, Ast.identifier x :: ts = ws ++ r ∧ Grouped ws [e] := by
          intro s1 h
          obtain ⟨h, -⟩ := pure_ok.1 h
          cases h
          exact ⟨[_], rfl, .refl _⟩
        obtain ⟨d, s1, h1, h2⟩ := bind_ok.1 h
        cases d with
        | some d =>
          simp only at h2
          split at h2
          · rcases hf : d.sig.function? with _ | ⟨ps, r'⟩ <;> rw [hf] at h2
            rotate_left
            · obtain ⟨p, s2, h3, h4⟩ := bind_ok.1 h2
              obtain ⟨q, s3, h5, h6⟩ := bind_ok.1 h4
              obtain ⟨_, s4, h7, h8⟩ := bind_ok.1 h6
              obtain ⟨h8, -⟩ := pure_ok.1 h8
              cases h8
              obtain ⟨ws, fs, h5, h6, h7⟩ := (ih.begin _ _ _ _ _ _ _ _ h3).trans (ih.finish _ _ _ _ _ _ _ h5)
              refine ⟨.identifier x :: ws, by simp only at h5; simp [h5], ?_⟩
              rw [h6]
              simpa using Grouped.group x h7 .nil
            · exact keep h2
          · exact keep h2
        | none =>
          simp only at h2
          split at h2
          · simp [err_ok] at h2
          · exact keep h2
      · rename_i t ts hne
        obtain ⟨e1, s1, h1, h2⟩ := bind_ok.1 h
        obtain ⟨_, s2, h3, h4⟩ := bind_ok.1 h2
        obtain ⟨h4, -⟩ := pure_ok.1 h4
        cases h4
        exact ⟨[t], rfl, ih.compound _ _ _ _ _ h1⟩
    case arguments =>
      intro i ts s es s' h
      simp only [Infer.arguments] at h
      split at h
      · obtain ⟨rfl, -⟩ := pure_ok.1 h; exact .nil
      · obtain ⟨⟨e, r⟩, s1, h1, h2⟩ := bind_ok.1 h
        obtain ⟨_, s2, h3, h4⟩ := bind_ok.1 h2
        obtain ⟨fs, s3, h5, h6⟩ := bind_ok.1 h4
        obtain ⟨rfl, -⟩ := pure_ok.1 h6
        obtain ⟨ws, h7, h8⟩ := ih.argument _ _ _ _ _ _ h1
        rw [h7]
        exact h8.append (ih.arguments _ _ _ _ _ h5)
    case begin =>
      intro b ps r c p s q s' h
      simp only [Infer.begin] at h
      split at h
      · obtain ⟨rfl, -⟩ := pure_ok.1 h; exact .refl _
      · exact ih.run _ _ _ _ _ _ _ _ h
    case run =>
      intro b ps r c p s q s' h
      simp only [Infer.run] at h
      split at h
      · simp only [Res.ok.injEq, Prod.mk.injEq] at h
        obtain ⟨rfl, -⟩ := h
        exact .refl _
      · simp [err_ok] at h
      · simp [ub_ok] at h
      · simp [timeout_ok] at h
      · obtain ⟨p1, s1, h1, h2⟩ := bind_ok.1 h
        exact (ih.step _ _ _ _ _ _ _ h1).trans (ih.run _ _ _ _ _ _ _ _ h2)
      · obtain ⟨_, s1, h1, h2⟩ := bind_ok.1 h
        exact ih.run _ _ _ _ _ _ _ _ h2
      · obtain ⟨_, s1, h1, h2⟩ := bind_ok.1 h
        exact ih.run _ _ _ _ _ _ _ _ h2
      · obtain ⟨_, s1, h1, h2⟩ := bind_ok.1 h
        exact ih.run _ _ _ _ _ _ _ _ h2
    case step =>
      intro b ps r p s q s' h
      simp only [Infer.step] at h
      cases hg : ps[p.index]? with
      | some g =>
        rw [hg] at h
        cases hk : g.kind? with
        | some k =>
          simp only [hk] at h
          obtain ⟨⟨e, ts⟩, s1, h1, h2⟩ := bind_ok.1 h
          obtain ⟨rfl, -⟩ := pure_ok.1 h2
          obtain ⟨ws, h3, h4⟩ := ih.argument _ _ _ _ _ _ h1
          exact ⟨ws, [e], h3, rfl, h4⟩
        | none => simp [hk, err_ok] at h
      | none =>
        rw [hg] at h
        simp only at h
        split at h
        · split at h
          · obtain ⟨rfl, -⟩ := pure_ok.1 h; exact ⟨[], [], rfl, by simp, .nil⟩
          · split at h
            · simp [err_ok] at h
            · obtain ⟨⟨es, ts⟩, s1, h1, h2⟩ := bind_ok.1 h
              obtain ⟨rfl, -⟩ := pure_ok.1 h2
              obtain ⟨ws, h3, h4⟩ := ih.further _ _ _ _ _ _ _ h1
              exact ⟨ws, es, h3, rfl, h4⟩
        · simp [err_ok] at h
    case further =>
      intro c g ts s es r s' h
      simp only [Infer.further] at h
      split at h
      · obtain ⟨h, -⟩ := pure_ok.1 h
        cases h
        exact ⟨[], rfl, .nil⟩
      · obtain ⟨h, -⟩ := pure_ok.1 h
        cases h
        exact ⟨[], rfl, .nil⟩
      · cases hk : g.kind? with
        | some k =>
          simp only [hk] at h
          obtain ⟨⟨e, ts1⟩, s1, h1, h2⟩ := bind_ok.1 h
          obtain ⟨⟨es1, ts2⟩, s2, h3, h4⟩ := bind_ok.1 h2
          obtain ⟨h4, -⟩ := pure_ok.1 h4
          cases h4
          obtain ⟨ws, h5, h6⟩ := ih.argument _ _ _ _ _ _ h1
          obtain ⟨ws', h7, h8⟩ := ih.further _ _ _ _ _ _ _ h3
          exact ⟨ws ++ ws', by simp only at h7; rw [h5, h7]; simp, h6.append h8⟩
        | none =>
          simp only [hk] at h
          split at h
          · simp [err_ok] at h
          · simp [timeout_ok] at h
    case finish =>
      intro b ps r p s q s' h
      simp only [Infer.finish] at h
      split at h
      · obtain ⟨p1, s1, h1, h2⟩ := bind_ok.1 h
        exact (ih.step _ _ _ _ _ _ _ h1).trans (ih.finish _ _ _ _ _ _ _ h2)
      · obtain ⟨rfl, -⟩ := pure_ok.1 h; exact .refl _

end DuckLisp.Infer
