import Verif.Proof.Infer.Grouped

/-! # What was inferred is inferred again -/

namespace DuckLisp.Infer

open DuckLisp.Reader DuckLisp.Spec

variable {σ α β : Type}

theorem allUnmarked_append {as bs : List Ast} : AllUnmarked (as ++ bs) ↔ AllUnmarked as ∧ AllUnmarked bs := by
  induction as with
  | nil => simp [AllUnmarked]
  | cons a as ih => simp [AllUnmarked, ih, and_assoc]

/-- With enough fuel. -/
def Eventually (P : Nat → Prop) : Prop := ∃ N, ∀ m, N ≤ m → P m

theorem Eventually.all {P : Nat → Prop} (h : ∀ m, P m) : Eventually P := ⟨0, fun m _ => h m⟩

theorem Eventually.succ {P : Nat → Prop} (h : Eventually fun m => P (m + 1)) : Eventually P := by
  obtain ⟨N, h⟩ := h
  refine ⟨N + 1, fun m hm => ?_⟩
  obtain ⟨m, rfl⟩ : ∃ k, m = k + 1 := ⟨m - 1, by omega⟩
  exact h m (by omega)

theorem Eventually.and {P Q : Nat → Prop} (h : Eventually P) (h' : Eventually Q) : Eventually fun m => P m ∧ Q m := by
  obtain ⟨N, h⟩ := h
  obtain ⟨N', h'⟩ := h'
  exact ⟨max N N', fun m hm => ⟨h m (by omega), h' m (by omega)⟩⟩

theorem Eventually.imp {P Q : Nat → Prop} (h : Eventually P) (h' : ∀ m, P m → Q m) : Eventually Q := by
  obtain ⟨N, h⟩ := h
  exact ⟨N, fun m hm => h' m (h m hm)⟩

theorem bind_eq {m : M σ α} {f : α → M σ β} {s s1 : State σ} {a : α} (h : m s = .ok (a, s1)) : (m >>= f) s = f a s1 := by
  show M.bind m f s = _
  rw [M.bind, h]

/-- `e` is the form `h` or an expression. -/
def Similar (h e : Ast) : Prop := e = h ∨ ∃ fs, e = .expression fs

/-- The arguments taken from `p` to `q` are taken again, with parentheses. -/
def Retakes (ps : List Sig) (p q : Progress) (f : Nat → Progress → Res (Progress × State σ)) (s' : State σ) : Prop :=
  ∃ ws es, p.rest = ws ++ q.rest ∧ q.taken = p.taken ++ es ∧ AllUnmarked es ∧ p.index ≤ q.index ∧
    (ps.length < p.index → es = []) ∧ Eventually fun m => ∀ t, (ps.length < q.index → t = []) →
      f m ⟨p.index, p.taken, es ++ t⟩ = .ok (⟨q.index, q.taken, t⟩, s')

theorem Retakes.refl {ps : List Sig} {p : Progress} {f : Nat → Progress → Res (Progress × State σ)} {s' : State σ}
    (h : Eventually fun m => ∀ p, f m p = .ok (p, s')) : Retakes ps p p f s' :=
  ⟨[], [], rfl, by simp, trivial, Nat.le_refl _, fun _ => rfl, h.imp fun _ h t _ => h _⟩

theorem Retakes.trans {ps : List Sig} {p q r : Progress} {f g h : Nat → Progress → Res (Progress × State σ)} {s1 s' : State σ}
    (h1 : Retakes ps p q f s1) (h2 : Retakes ps q r g s')
    (hc : ∀ m es t, q.taken = p.taken ++ es → f m ⟨p.index, p.taken, es ++ t⟩ = .ok (⟨q.index, q.taken, t⟩, s1) →
      h (m + 1) ⟨p.index, p.taken, es ++ t⟩ = g m ⟨q.index, q.taken, t⟩) : Retakes ps p r h s' := by
  obtain ⟨ws, es, a1, a2, a3, a4, a5, a6⟩ := h1
  obtain ⟨ws', es', b1, b2, b3, b4, b5, b6⟩ := h2
  refine ⟨ws ++ ws', es ++ es', by rw [a1, b1]; simp, by rw [b2, a2]; simp, allUnmarked_append.2 ⟨a3, b3⟩, by omega,
    fun hp => by rw [a5 hp, b5 (by omega)]; rfl, .succ ((a6.and b6).imp fun m hm t ht => ?_)⟩
  rw [List.append_assoc, hc m es (es' ++ t) a2 (hm.1 _ fun hq => by rw [b5 hq, ht (by omega)]; rfl), hm.2 t ht]

/-- What all functions do if they are given what they gave, for some fuel. -/
structure Again (cfg : Config σ) (n : Nat) : Prop where
  compound : ∀ i e s e' s', Unmarked e → compound cfg n i e s = .ok (e', s') →
    Unmarked e' ∧ Similar e e' ∧ Eventually fun m => compound cfg m i e' s = .ok (e', s')
  call : ∀ x d es s e' s', AllUnmarked es → call cfg n x d es s = .ok (e', s') →
    ∃ es', e' = .expression (.identifier x :: es') ∧ AllUnmarked es' ∧ Eventually fun m => call cfg m x d es' s = .ok (e', s')
  argument : ∀ i ts s e r s', AllUnmarked ts → argument cfg n i ts s = .ok ((e, r), s') →
    AllUnmarked r ∧ Unmarked e ∧ (∀ h t, ts = h :: t → (∀ x, h ≠ .identifier x) → Similar h e) ∧
      Eventually fun m => ∀ t, argument cfg m i (e :: t) s = .ok ((e, t), s')
  arguments : ∀ i ts s es s', AllUnmarked ts → arguments cfg n i ts s = .ok (es, s') →
    AllUnmarked es ∧ (∀ h t, ts = h :: t → (∀ x, h ≠ .identifier x) → ∃ e1 es1, es = e1 :: es1 ∧ Similar h e1) ∧
      Eventually fun m => arguments cfg m i es s = .ok (es, s')
  begin : ∀ b ps r c p s q s', AllUnmarked p.rest → begin cfg n b ps r c p s = .ok (q, s') →
    Retakes ps p q (fun m p => begin cfg m true ps r c p s) s'
  run : ∀ b ps r c p s q s', AllUnmarked p.rest → run cfg n b ps r c p s = .ok (q, s') →
    Retakes ps p q (fun m p => run cfg m true ps r c p s) s'
  step : ∀ b ps r p s q s', AllUnmarked p.rest → step cfg n b ps r p s = .ok (q, s') →
    Retakes ps p q (fun m p => step cfg m true ps r p s) s'
  further : ∀ c g ts s es r s', AllUnmarked ts → further cfg n c g ts s = .ok ((es, r), s') →
    AllUnmarked es ∧ AllUnmarked r ∧ Eventually fun m => further cfg m none g es s = .ok ((es, []), s')
  finish : ∀ b ps r p s q s', AllUnmarked p.rest → finish cfg n b ps r p s = .ok (q, s') →
    ps.length < q.index ∧ Retakes ps p q (fun m p => finish cfg m true ps r p s) s'

theorem Retakes.rest {ps : List Sig} {p q : Progress} {f : Nat → Progress → Res (Progress × State σ)} {s' : State σ}
    (h : Retakes ps p q f s') (hp : AllUnmarked p.rest) : AllUnmarked q.rest := by
  obtain ⟨ws, es, h1, -⟩ := h
  rw [h1] at hp
  exact (allUnmarked_append.1 hp).2

theorem again (cfg : Config σ) : ∀ n, Again cfg n
  | 0 => by
    constructor <;> intros <;> rename_i h <;>
      simp [Infer.compound, Infer.call, Infer.argument, Infer.arguments, Infer.begin, Infer.run, Infer.step, Infer.further,
        Infer.finish, timeout_ok] at h
  | n + 1 => by
    have ih := again cfg n
    have both : ∀ b ps r c x es s p s1 q s', AllUnmarked es → Infer.begin cfg n b ps r c ⟨0, [.identifier x], es⟩ s = .ok (p, s1) →
        Infer.finish cfg n b ps r p s1 = .ok (q, s') → ∃ es', q.taken = .identifier x :: es' ∧ AllUnmarked es' ∧
          AllUnmarked q.rest ∧ Eventually fun m => (do
            let p ← Infer.begin cfg m true ps r c ⟨0, [.identifier x], es'⟩
            Infer.finish cfg m true ps r p : M σ Progress) s = .ok (⟨q.index, q.taken, []⟩, s') := by
      intro b ps r c x es s p s1 q s' hu h1 h2
      have a1 := ih.begin _ _ _ _ _ _ _ _ hu h1
      obtain ⟨hq, a2⟩ := ih.finish _ _ _ _ _ _ _ (a1.rest hu) h2
      have a3 := a1.trans (h := fun m p => (do
            let p ← Infer.begin cfg (m - 1) true ps r c p
            Infer.finish cfg (m - 1) true ps r p : M σ Progress) s) a2 (fun m es t _ h => by
        simp only [Nat.add_sub_cancel]
        exact bind_eq h)
      obtain ⟨ws, es', b1, b2, b3, -, -, N, b4⟩ := a3
      refine ⟨es', b2, b3, a2.rest (a1.rest hu), N, fun m hm => ?_⟩
      have := b4 (m + 1) (by omega) [] fun _ => rfl
      simpa using this
    constructor
    case compound =>
      intro i e s e' s' hu h
      simp only [Infer.compound] at h
      have keep : ∀ {e}, Unmarked e → (pure e : M σ Ast) s = .ok (e', s') →
          (∀ m, Infer.compound cfg (m + 1) i e = pure e) →
          Unmarked e' ∧ Similar e e' ∧ Eventually fun m => Infer.compound cfg m i e' s = .ok (e', s') := by
        intro e hu h hm
        obtain ⟨rfl, rfl⟩ := pure_ok.1 h
        exact ⟨hu, .inl rfl, .succ (.all fun m => by rw [hm]; rfl)⟩
      split at h
      · exact absurd hu (by simp [Unmarked])
      · exact absurd hu (by simp [Unmarked])
      · exact absurd hu.1 (by simp [Unmarked])
      · rename_i x es
        split at h
        · rename_i hi
          subst hi
          obtain ⟨d, s1, h1, h2⟩ := bind_ok.1 h
          obtain ⟨hd, rfl⟩ := find_ok.1 h1
          cases d with
          | some d =>
            obtain ⟨es', rfl, h3, h4⟩ := ih.call _ _ _ _ _ _ hu.2 h2
            refine ⟨⟨trivial, h3⟩, .inr ⟨_, rfl⟩, .succ (h4.imp fun m h => ?_)⟩
            simp only [Infer.compound, if_true]
            rw [bind_eq h1]
            exact h
          | none =>
            obtain ⟨fs, s1, h1, h2⟩ := bind_ok.1 h2
            simp [err_ok] at h2
        · rename_i hi
          exact keep hu h fun m => by simp [Infer.compound, hi]
      · rename_i hd es hn1 hn2
        split at h
        · rename_i hi
          subst hi
          obtain ⟨_, s1, h1, h2⟩ := bind_ok.1 h
          obtain ⟨fs, s2, h3, h4⟩ := bind_ok.1 h2
          obtain ⟨_, s3, h5, h6⟩ := bind_ok.1 h4
          obtain ⟨rfl, rfl⟩ := pure_ok.1 h6
          obtain ⟨a1, a2, a3⟩ := ih.arguments _ _ _ _ _ hu h3
          obtain ⟨e1, es1, rfl, hs⟩ := a2 _ _ rfl fun x hx => hn2 x hx
          refine ⟨a1, .inr ⟨_, rfl⟩, .succ (a3.imp fun m h => ?_)⟩
          have hb : Infer.compound cfg (m + 1) true (.expression (e1 :: es1)) = (do
              pushScope
              let es ← Infer.arguments cfg m true (e1 :: es1)
              popScope
              return .expression es : M σ Ast) := by
            rcases hs with rfl | ⟨gs, rfl⟩
            · cases e1 <;> simp only [Infer.compound, if_true]
              · exact absurd rfl (hn1 _)
              · exact absurd rfl (hn2 _)
            · simp only [Infer.compound, if_true]
          rw [hb, bind_eq h1, bind_eq h, bind_eq h5]
          rfl
        · rename_i hi
          refine keep hu h fun m => ?_
          cases hd <;> simp [Infer.compound, hi]
      · rename_i h1 h2 h3 h4 h5
        refine keep hu h fun m => ?_
        cases e with
        | literal es => exact absurd hu (by simp [Unmarked])
        | callback x => exact absurd hu (by simp [Unmarked])
        | expression es =>
          cases es with
          | nil => simp [Infer.compound]
          | cons a as => exact absurd rfl (h5 _ _)
        | _ => simp [Infer.compound]
    case call =>
      intro x d es s e' s' hu h
      simp only [Infer.call] at h
      rcases hf : d.sig.function? with _ | ⟨ps, r⟩ <;> rw [hf] at h
      rotate_left
      · obtain ⟨p, s1, h1, h2⟩ := bind_ok.1 h
        obtain ⟨q, s2, h3, h4⟩ := bind_ok.1 h2
        obtain ⟨es', a1, a2, -, a3⟩ := both _ _ _ _ _ _ _ _ _ _ _ hu h1 h3
        rcases hq : q.rest with _ | ⟨t, ts⟩ <;> rw [hq] at h4
        · obtain ⟨rfl, rfl⟩ := pure_ok.1 h4
          refine ⟨es', by rw [a1], a2, .succ (a3.imp fun m h => ?_)⟩
          obtain ⟨p1, s3, h5, h6⟩ := bind_ok.1 h
          simp only [Infer.call, hf]
          rw [bind_eq h5, bind_eq h6]
          rfl
        · simp [err_ok] at h4
      · cases hg : d.sig <;> simp only [hg, err_ok] at h
        obtain ⟨fs, s1, h1, h2⟩ := bind_ok.1 h
        obtain ⟨rfl, rfl⟩ := pure_ok.1 h2
        obtain ⟨a1, -, a2⟩ := ih.arguments _ _ _ _ _ hu h1
        refine ⟨_, rfl, a1, .succ (a2.imp fun m h => ?_)⟩
        simp only [Infer.call, hf]
        simp only [hg]
        rw [bind_eq h]
        rfl
    case argument =>
      intro i ts s e r s' hu h
      simp only [Infer.argument] at h
      split at h
      · simp [err_ok] at h
      · rename_i x ts
        have keep : ∀ {s1 : State σ}, (pure (Ast.identifier x, ts) : M σ _) s1 = .ok ((e, r), s') →
            (∀ m t, Infer.argument cfg (m + 1) i (.identifier x :: t) s = .ok ((.identifier x, t), s1)) →
            AllUnmarked r ∧ Unmarked e ∧ (∀ h t, Ast.identifier x :: ts = h :: t → (∀ x, h ≠ .identifier x) → Similar h e) ∧
              Eventually fun m => ∀ t, Infer.argument cfg m i (e :: t) s = .ok ((e, t), s') := by
          intro s1 h hm
          obtain ⟨h, rfl⟩ := pure_ok.1 h
          cases h
          exact ⟨hu.2, trivial, fun h t ht hn => absurd (List.cons.inj ht).1.symm (hn _), .succ (.all hm)⟩
        obtain ⟨d, s1, h1, h2⟩ := bind_ok.1 h
        cases d with
        | some d =>
          simp only at h2
          split at h2
          · rename_i hi
            subst hi
            rcases hf : d.sig.function? with _ | ⟨ps, r'⟩ <;> rw [hf] at h2
            rotate_left
            · obtain ⟨p, s2, h3, h4⟩ := bind_ok.1 h2
              obtain ⟨q, s3, h5, h6⟩ := bind_ok.1 h4
              obtain ⟨_, s4, h7, h8⟩ := bind_ok.1 h6
              obtain ⟨h8, rfl⟩ := pure_ok.1 h8
              cases h8
              obtain ⟨es', a1, a2, a3, a4⟩ := both _ _ _ _ _ _ _ _ _ _ _ hu.2 h3 h5
              refine ⟨a3, by rw [a1]; exact ⟨trivial, a2⟩, fun h t ht hn => absurd (List.cons.inj ht).1.symm (hn _),
                .succ (.succ (.succ (a4.imp fun m h t => ?_)))⟩
              obtain ⟨p1, s5, h9, h10⟩ := bind_ok.1 h
              have hc : Infer.compound cfg (m + 1 + 1) true (.expression q.taken) s = .ok (.expression q.taken, s3) := by
                rw [a1]
                simp only [Infer.compound, if_true]
                rw [bind_eq h1]
                simp only [Infer.call, hf]
                obtain ⟨-, rfl⟩ := find_ok.1 h1
                rw [bind_eq h9, bind_eq h10]
                simp only [a1]
                rfl
              simp only [Infer.argument]
              rw [bind_eq hc, bind_eq h7]
              rfl
            · refine keep h2 fun m t => ?_
              simp only [Infer.argument]
              rw [bind_eq h1]
              simp only [hf, if_true]
              rfl
          · rename_i hi
            refine keep h2 fun m t => ?_
            simp only [Infer.argument]
            rw [bind_eq h1]
            simp only [hi]
            rfl
        | none =>
          simp only at h2
          split at h2
          · simp [err_ok] at h2
          · rename_i hi
            refine keep h2 fun m t => ?_
            simp only [Infer.argument]
            rw [bind_eq h1]
            simp only [hi]
            rfl
      · rename_i t ts hne
        obtain ⟨e1, s1, h1, h2⟩ := bind_ok.1 h
        obtain ⟨_, s2, h3, h4⟩ := bind_ok.1 h2
        obtain ⟨h4, rfl⟩ := pure_ok.1 h4
        cases h4
        obtain ⟨a1, a2, a3⟩ := ih.compound _ _ _ _ _ hu.1 h1
        refine ⟨hu.2, a1, fun h t ht hn => by cases ht; exact a2, .succ (a3.imp fun m h t' => ?_)⟩
        have hb : Infer.argument cfg (m + 1) i (e :: t') = (do
            let e ← Infer.compound cfg m i e
            interpretDeclare cfg e
            return (e, t') : M σ (Ast × List Ast)) := by
          rcases a2 with rfl | ⟨gs, rfl⟩
          · cases e <;> simp only [Infer.argument]
            exact absurd rfl (hne _)
          · simp only [Infer.argument]
        rw [hb, bind_eq h, bind_eq h3]
        rfl
    case arguments =>
      intro i ts s es s' hu h
      simp only [Infer.arguments] at h
      split at h
      · obtain ⟨rfl, rfl⟩ := pure_ok.1 h
        exact ⟨trivial, nofun, .succ (.all fun m => by simp only [Infer.arguments]; rfl)⟩
      · obtain ⟨⟨e, r⟩, s1, h1, h2⟩ := bind_ok.1 h
        obtain ⟨_, s2, h3, h4⟩ := bind_ok.1 h2
        obtain ⟨fs, s3, h5, h6⟩ := bind_ok.1 h4
        obtain ⟨rfl, rfl⟩ := pure_ok.1 h6
        obtain ⟨a1, a2, a3, a4⟩ := ih.argument _ _ _ _ _ _ hu h1
        obtain ⟨b1, -, b2⟩ := ih.arguments _ _ _ _ _ a1 h5
        refine ⟨⟨a2, b1⟩, fun h t ht hn => ⟨_, _, rfl, a3 h t ht hn⟩, .succ ((a4.and b2).imp fun m h => ?_)⟩
        simp only [Infer.arguments]
        rw [bind_eq (h.1 fs)]
        simp only
        rw [bind_eq h3, bind_eq h.2]
        rfl
    case begin =>
      intro b ps r c p s q s' hu h
      simp only [Infer.begin] at h
      split at h
      · obtain ⟨rfl, rfl⟩ := pure_ok.1 h
        exact .refl (.succ (.all fun m p => by simp only [Infer.begin]; rfl))
      · obtain ⟨ws, es, a1, a2, a3, a4, a5, a6⟩ := ih.run _ _ _ _ _ _ _ _ hu h
        exact ⟨ws, es, a1, a2, a3, a4, a5, .succ (a6.imp fun m h t ht => by simp only [Infer.begin]; exact h t ht)⟩
    case run =>
      intro b ps r c p s q s' hu h
      simp only [Infer.run] at h
      have pass : ∀ {m1 : M σ Unit} {k : Script σ}, (do m1; Infer.run cfg n b ps r k p : M σ Progress) s = .ok (q, s') →
          (∀ m p, Infer.run cfg (m + 1) true ps r c p = (do m1; Infer.run cfg m true ps r k p : M σ Progress)) →
          Retakes ps p q (fun m p => Infer.run cfg m true ps r c p s) s' := by
        intro m1 k h hm
        obtain ⟨_, s1, h1, h2⟩ := bind_ok.1 h
        obtain ⟨ws, es, a1, a2, a3, a4, a5, a6⟩ := ih.run _ _ _ _ _ _ _ _ hu h2
        refine ⟨ws, es, a1, a2, a3, a4, a5, .succ (a6.imp fun m h t ht => ?_)⟩
        show Infer.run cfg (m + 1) true ps r c _ s = _
        rw [hm, bind_eq h1]
        exact h t ht
      split at h
      · simp only [Res.ok.injEq, Prod.mk.injEq] at h
        obtain ⟨rfl, rfl⟩ := h
        exact .refl (.succ (.all fun m p => by simp only [Infer.run]))
      · simp [err_ok] at h
      · simp [ub_ok] at h
      · simp [timeout_ok] at h
      · obtain ⟨p1, s1, h1, h2⟩ := bind_ok.1 h
        have a := ih.step _ _ _ _ _ _ _ hu h1
        refine a.trans (ih.run _ _ _ _ _ _ _ _ (a.rest hu) h2) fun m es t ht h => ?_
        simp only [Infer.run]
        exact bind_eq h
      · exact pass h fun m p => by simp only [Infer.run]
      · exact pass h fun m p => by simp only [Infer.run]
      · exact pass h fun m p => by simp only [Infer.run]
    case step =>
      intro b ps r p s q s' hu h
      simp only [Infer.step] at h
      cases hg : ps[p.index]? with
      | some g =>
        rw [hg] at h
        have hlt : p.index < ps.length := (List.getElem?_eq_some_iff.1 hg).1
        cases hk : g.kind? with
        | some k =>
          simp only [hk] at h
          obtain ⟨⟨e, ts⟩, s1, h1, h2⟩ := bind_ok.1 h
          obtain ⟨rfl, rfl⟩ := pure_ok.1 h2
          obtain ⟨a1, a2, -, a3⟩ := ih.argument _ _ _ _ _ _ hu h1
          obtain ⟨ws, h3, -⟩ := (groups cfg n).argument _ _ _ _ _ _ h1
          refine ⟨ws, [e], h3, rfl, ⟨a2, trivial⟩, by simp, fun hp => by omega, .succ (a3.imp fun m h t _ => ?_)⟩
          simp only [Infer.step, hg, hk, List.cons_append, List.nil_append]
          rw [bind_eq (h t)]
          rfl
        | none => simp [hk, err_ok] at h
      | none =>
        rw [hg] at h
        simp only at h
        split at h
        · rename_i hp
          split at h
          · obtain ⟨rfl, rfl⟩ := pure_ok.1 h
            refine ⟨[], [], rfl, by simp, trivial, by simp, fun _ => rfl, .succ (.all fun m t _ => ?_)⟩
            simp only [Infer.step, hg]
            simp only [hp, if_true]
            rfl
          · rename_i count g
            split at h
            · simp [err_ok] at h
            · obtain ⟨⟨es, ts⟩, s1, h1, h2⟩ := bind_ok.1 h
              obtain ⟨rfl, rfl⟩ := pure_ok.1 h2
              obtain ⟨ws, h3, -⟩ := (groups cfg n).further _ _ _ _ _ _ _ h1
              obtain ⟨a1, -, a2⟩ := ih.further _ _ _ _ _ _ _ hu h1
              refine ⟨ws, es, h3, rfl, a1, by simp, fun hp => by omega, .succ (a2.imp fun m h t ht => ?_)⟩
              obtain rfl := ht (by simp; omega)
              simp only [Infer.step, hg]
              simp only [hp, if_true, Bool.not_true, Bool.false_and, Bool.false_eq_true, if_false, List.append_nil]
              rw [bind_eq h]
              rfl
        · simp [err_ok] at h
    case further =>
      intro c g ts s es r s' hu h
      simp only [Infer.further] at h
      split at h
      · obtain ⟨h, rfl⟩ := pure_ok.1 h
        cases h
        exact ⟨trivial, trivial, .succ (.all fun m => by simp only [Infer.further]; rfl)⟩
      · obtain ⟨h, rfl⟩ := pure_ok.1 h
        cases h
        exact ⟨trivial, hu, .succ (.all fun m => by simp only [Infer.further]; rfl)⟩
      · cases hk : g.kind? with
        | some k =>
          simp only [hk] at h
          obtain ⟨⟨e, ts1⟩, s1, h1, h2⟩ := bind_ok.1 h
          obtain ⟨⟨es1, ts2⟩, s2, h3, h4⟩ := bind_ok.1 h2
          obtain ⟨h4, rfl⟩ := pure_ok.1 h4
          cases h4
          obtain ⟨a1, a2, -, a3⟩ := ih.argument _ _ _ _ _ _ hu h1
          obtain ⟨b1, b2, b3⟩ := ih.further _ _ _ _ _ _ _ a1 h3
          refine ⟨⟨a2, b1⟩, b2, .succ ((a3.and b3).imp fun m h => ?_)⟩
          simp only [Infer.further, hk, Option.map_none]
          rw [bind_eq (h.1 es1), bind_eq h.2]
          rfl
        | none =>
          simp only [hk] at h
          split at h
          · simp [err_ok] at h
          · simp [timeout_ok] at h
    case finish =>
      intro b ps r p s q s' hu h
      simp only [Infer.finish] at h
      split at h
      · rename_i hp
        obtain ⟨p1, s1, h1, h2⟩ := bind_ok.1 h
        have a := ih.step _ _ _ _ _ _ _ hu h1
        obtain ⟨hq, b⟩ := ih.finish _ _ _ _ _ _ _ (a.rest hu) h2
        refine ⟨hq, a.trans b fun m es t ht h => ?_⟩
        simp only [Infer.finish, hp, if_true]
        exact bind_eq h
      · rename_i hp
        obtain ⟨rfl, rfl⟩ := pure_ok.1 h
        refine ⟨by omega, ⟨[], [], rfl, by simp, trivial, Nat.le_refl _, fun _ => rfl, .succ (.all fun m t _ => ?_)⟩⟩
        simp only [Infer.finish, hp, if_false]
        rfl

end DuckLisp.Infer
