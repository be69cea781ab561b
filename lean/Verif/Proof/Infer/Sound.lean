import Verif.Proof.Infer.Rules

/-! # What is inferred follows from the rules -/

namespace DuckLisp.Infer

open DuckLisp.Reader DuckLisp.Spec DuckLisp.Spec.Inference

variable {σ : Type}

/-- The arguments left to be taken. -/
def slotsAt (ps : List Sig) (r : Option (Int × Sig)) (k : Nat) : List Slot :=
  if k ≤ ps.length then (ps.drop k).map .one ++ [match r with | none => .nothing | some (n, s) => .further n s] else []

/-- A call on the way. -/
def Progress.call (ps : List Sig) (r : Option (Int × Sig)) (p : Progress) : Call := ⟨slotsAt ps r p.index, p.taken, p.rest⟩

theorem slots_some {g : Sig} {ps : List Sig} {r : Option (Int × Sig)} (h : g.function? = some (ps, r)) :
    slots g = some (slotsAt ps r 0) := by
  cases g <;> simp only [Sig.function?, Option.some.injEq, Prod.mk.injEq, reduceCtorEq] at h <;> obtain ⟨rfl, rfl⟩ := h <;>
    simp [slots, slotsAt]

theorem slots_none {g : Sig} : g.function? = none ↔ slots g = none := by
  cases g <;> simp [Sig.function?, slots]

theorem kind_iff {g : Sig} {k : Bool} : g.kind? = some k ↔ Kind g k := by
  constructor
  · intro h
    cases g <;> simp only [Sig.kind?, Option.some.injEq, reduceCtorEq] at h <;> subst h
    · exact .literal
    · exact .infer
  · rintro ⟨⟩ <;> rfl

theorem slotsAt_lt {ps : List Sig} {r : Option (Int × Sig)} {k : Nat} {g : Sig} (h : ps[k]? = some g) :
    slotsAt ps r k = .one g :: slotsAt ps r (k + 1) := by
  obtain ⟨hk, rfl⟩ := List.getElem?_eq_some_iff.1 h
  rw [slotsAt.eq_def, slotsAt.eq_def, if_pos (by omega), if_pos (by omega), List.drop_eq_getElem_cons hk]
  rfl

theorem slotsAt_eq (ps : List Sig) (r : Option (Int × Sig)) :
    slotsAt ps r ps.length = [match r with | none => .nothing | some (n, s) => .further n s] := by
  rw [slotsAt.eq_def, if_pos (Nat.le_refl _), List.drop_length]
  rfl

theorem slotsAt_gt {ps : List Sig} {r : Option (Int × Sig)} {k : Nat} (h : ps.length < k) : slotsAt ps r k = [] := by
  rw [slotsAt.eq_def, if_neg (by omega)]

/-- What a script is told. -/
def response (ps : List Sig) (r : Option (Int × Sig)) (p q : Progress) : Ast :=
  if r.isSome ∧ p.index = ps.length then .expression (q.taken.drop p.taken.length) else q.taken.getLastD .garbage

/-- What all functions do follows from the rules, for some fuel. -/
structure Sound (cfg : Config σ) (n : Nat) : Prop where
  compound : ∀ i e s e' s' E, Linked s E → compound cfg n i e s = .ok (e', s') → ∃ E', Linked s' E' ∧ Whole cfg i e E e' E'
  call : ∀ x d es s e' s' E, Linked s E → E.declared x = some d → call cfg n x d es s = .ok (e', s') →
    ∃ E', Linked s' E' ∧ Whole cfg true (.expression (.identifier x :: es)) E e' E'
  argument : ∀ i ts s e rest s' E, Linked s E → argument cfg n i ts s = .ok ((e, rest), s') →
    ∃ E', Linked s' E' ∧ Next cfg i ts E e rest E'
  arguments : ∀ i ts s es s' E, Linked s E → arguments cfg n i ts s = .ok (es, s') →
    ∃ E', Linked s' E' ∧ Every cfg i ts E es E'
  begin : ∀ b ps r c p s q s' E, Linked s E → p.taken ≠ [] → begin cfg n b ps r c p s = .ok (q, s') →
    q.taken ≠ [] ∧ ∃ E', Linked s' E' ∧ Prepare cfg b c (p.call ps r) E (q.call ps r) E'
  run : ∀ b ps r c p s q s' E, Linked s E → p.taken ≠ [] → run cfg n b ps r c p s = .ok (q, s') →
    q.taken ≠ [] ∧ ∃ E', Linked s' E' ∧ Follow cfg b c (p.call ps r) E (q.call ps r) E'
  step : ∀ b ps r p s q s' E, Linked s E → p.taken ≠ [] → step cfg n b ps r p s = .ok (q, s') →
    q.taken ≠ [] ∧ ∃ E', Linked s' E' ∧ Take cfg b (p.call ps r) E (response ps r p q) (q.call ps r) E'
  further : ∀ c g ts s es rest s' E, Linked s E → further cfg n c g ts s = .ok ((es, rest), s') →
    ∃ E', Linked s' E' ∧ match c with
      | none => rest = [] ∧ Further cfg g ts E es E'
      | some k => Number cfg g k ts E es rest E'
  finish : ∀ b ps r p s q s' E, Linked s E → p.taken ≠ [] → finish cfg n b ps r p s = .ok (q, s') →
    ∃ E', Linked s' E' ∧ Fill cfg b (p.call ps r) E q.taken q.rest E'

theorem headName_some {h : Ast} {x : Bytes} : headName h = some x ↔ Names h x := by
  constructor
  · intro hx
    cases h <;> simp only [headName, Option.some.injEq, reduceCtorEq] at hx <;> subst hx
    · exact .marked _
    · exact .plain _
  · rintro ⟨⟩ <;> rfl

theorem sound (cfg : Config σ) : ∀ n, Sound cfg n
  | 0 => by
    constructor <;> intros <;> rename_i h <;>
      simp [Infer.compound, Infer.call, Infer.argument, Infer.arguments, Infer.begin, Infer.run, Infer.step, Infer.further,
        Infer.finish, timeout_ok] at h
  | n + 1 => by
    have ih := sound cfg n
    constructor
    case compound =>
      intro i e s e' s' E hl h
      simp only [Infer.compound] at h
      split at h
      · obtain ⟨rfl, rfl⟩ := pure_ok.1 h
        exact ⟨E, hl, .marked⟩
      · split at h
        · rename_i hi
          subst hi
          rcases hx : headName _ with _ | x <;> rw [hx] at h
          rotate_left
          · obtain ⟨fs, s1, h1, h2⟩ := bind_ok.1 h
            obtain ⟨rfl, rfl⟩ := pure_ok.1 h2
            obtain ⟨E', a1, a2⟩ := ih.arguments _ _ _ _ _ _ hl h1
            exact ⟨E', a1, .literal (headName_some.1 hx) a2⟩
          · simp [ub_ok] at h
        · rename_i hi
          obtain rfl : i = false := by simpa using hi
          obtain ⟨rfl, rfl⟩ := pure_ok.1 h
          exact ⟨E, hl, .keptLiteral⟩
      · split at h
        · rename_i hi
          subst hi
          obtain ⟨fs, s1, h1, h2⟩ := bind_ok.1 h
          obtain ⟨rfl, rfl⟩ := pure_ok.1 h2
          obtain ⟨E', a1, a2⟩ := ih.arguments _ _ _ _ _ _ hl h1
          exact ⟨E', a1, .headMarked a2⟩
        · rename_i hi
          obtain rfl : i = false := by simpa using hi
          obtain ⟨rfl, rfl⟩ := pure_ok.1 h
          exact ⟨E, hl, .kept⟩
      · split at h
        · rename_i hi
          subst hi
          obtain ⟨d, s1, h1, h2⟩ := bind_ok.1 h
          replace h1 := find_ok.1 h1; obtain ⟨h1, rfl⟩ := h1
          rw [hl.lookup] at h1
          cases d with
          | some d => exact ih.call _ _ _ _ _ _ _ hl h1 h2
          | none =>
            obtain ⟨_, _, _, h3⟩ := bind_ok.1 h2
            simp [err_ok] at h3
        · rename_i hi
          obtain rfl : i = false := by simpa using hi
          obtain ⟨rfl, rfl⟩ := pure_ok.1 h
          exact ⟨E, hl, .kept⟩
      · rename_i hd es hc hx
        split at h
        · rename_i hi
          subst hi
          obtain ⟨_, s1, h1, h2⟩ := bind_ok.1 h
          obtain ⟨fs, s2, h3, h4⟩ := bind_ok.1 h2
          obtain ⟨_, s3, h5, h6⟩ := bind_ok.1 h4
          obtain ⟨rfl, rfl⟩ := pure_ok.1 h6
          simp only [pushScope, Res.ok.injEq, Prod.mk.injEq, true_and] at h1
          subst h1
          obtain ⟨E1, a1, a2⟩ := ih.arguments _ _ _ _ _ _ hl.push h3
          obtain ⟨E2, b1, b2⟩ := popScope_sound h5 a1
          exact ⟨E2, b2, .block (by rintro x ⟨⟩; exacts [hx _ rfl, hc _ rfl]) a2 b1⟩
        · rename_i hi
          obtain rfl : i = false := by simpa using hi
          obtain ⟨rfl, rfl⟩ := pure_ok.1 h
          exact ⟨E, hl, .kept⟩
      · rename_i h1 h2 h3 h4 h5
        obtain ⟨rfl, rfl⟩ := pure_ok.1 h
        refine ⟨E, hl, .plain ?_⟩
        cases e with
        | bool => exact .bool _
        | int => exact .int _
        | float => exact .float _
        | string => exact .string _
        | identifier => exact .name _
        | callback x => exact absurd rfl (h1 _)
        | literal es =>
          cases es
          · exact .emptyLiteral
          · exact absurd rfl (h2 _ _)
        | expression es =>
          cases es
          · exact .empty
          · exact absurd rfl (h5 _ _)
        | garbage => exact .garbage
    case call =>
      intro x d es s e' s' E hl hd h
      simp only [Infer.call] at h
      rcases hf : d.sig.function? with _ | ⟨ps, r⟩ <;> rw [hf] at h
      · cases hg : d.sig <;> simp only [hg, err_ok] at h
        obtain ⟨fs, s1, h1, h2⟩ := bind_ok.1 h
        obtain ⟨rfl, rfl⟩ := pure_ok.1 h2
        obtain ⟨E', a1, a2⟩ := ih.arguments _ _ _ _ _ _ hl h1
        exact ⟨E', a1, .variable hd hg a2⟩
      · obtain ⟨p, s1, h1, h2⟩ := bind_ok.1 h
        obtain ⟨q, s2, h3, h4⟩ := bind_ok.1 h2
        rcases hq : q.rest with _ | ⟨t, ts⟩ <;> rw [hq] at h4
        · obtain ⟨rfl, rfl⟩ := pure_ok.1 h4
          obtain ⟨a1, E1, a2, a3⟩ := ih.begin _ _ _ _ _ _ _ _ _ hl (by simp) h1
          obtain ⟨E2, b1, b2⟩ := ih.finish _ _ _ _ _ _ _ _ a2 a1 h3
          rw [hq] at b2
          exact ⟨E2, b1, .call hd (slots_some hf) a3 b2⟩
        · simp [err_ok] at h4
    case argument =>
      intro i ts s e rest s' E hl h
      simp only [Infer.argument] at h
      split at h
      · simp [err_ok] at h
      · rename_i x ts
        obtain ⟨d, s1, h1, h2⟩ := bind_ok.1 h
        replace h1 := find_ok.1 h1; obtain ⟨h1, rfl⟩ := h1
        rw [hl.lookup] at h1
        cases d with
        | some d =>
          simp only at h2
          split at h2
          · rename_i hi
            subst hi
            rcases hf : d.sig.function? with _ | ⟨ps, r⟩ <;> rw [hf] at h2
            · obtain ⟨h2, rfl⟩ := pure_ok.1 h2
              cases h2
              exact ⟨E, hl, .variable h1 (slots_none.1 hf)⟩
            · obtain ⟨p, s2, h3, h4⟩ := bind_ok.1 h2
              obtain ⟨q, s3, h5, h6⟩ := bind_ok.1 h4
              obtain ⟨_, s4, h7, h8⟩ := bind_ok.1 h6
              obtain ⟨h8, rfl⟩ := pure_ok.1 h8
              cases h8
              obtain ⟨a1, E1, a2, a3⟩ := ih.begin _ _ _ _ _ _ _ _ _ hl (by simp) h3
              obtain ⟨E2, b1, b2⟩ := ih.finish _ _ _ _ _ _ _ _ a2 a1 h5
              obtain ⟨E3, c1, c2⟩ := interpretDeclare_sound h7 b1
              exact ⟨E3, c2, .call h1 (slots_some hf) a3 b2 c1⟩
          · rename_i hi
            obtain rfl : i = false := by simpa using hi
            obtain ⟨h2, rfl⟩ := pure_ok.1 h2
            cases h2
            exact ⟨E, hl, .name⟩
        | none =>
          simp only at h2
          split at h2
          · simp [err_ok] at h2
          · rename_i hi
            obtain rfl : i = false := by simpa using hi
            obtain ⟨h2, rfl⟩ := pure_ok.1 h2
            cases h2
            exact ⟨E, hl, .name⟩
      · rename_i t ts hne
        obtain ⟨e1, s1, h1, h2⟩ := bind_ok.1 h
        obtain ⟨_, s2, h3, h4⟩ := bind_ok.1 h2
        obtain ⟨h4, rfl⟩ := pure_ok.1 h4
        cases h4
        obtain ⟨E1, a1, a2⟩ := ih.compound _ _ _ _ _ _ hl h1
        obtain ⟨E2, b1, b2⟩ := interpretDeclare_sound h3 a1
        exact ⟨E2, b2, .form hne a2 b1⟩
    case arguments =>
      intro i ts s es s' E hl h
      simp only [Infer.arguments] at h
      split at h
      · obtain ⟨rfl, rfl⟩ := pure_ok.1 h
        exact ⟨E, hl, .nil⟩
      · obtain ⟨⟨e, r⟩, s1, h1, h2⟩ := bind_ok.1 h
        obtain ⟨_, s2, h3, h4⟩ := bind_ok.1 h2
        obtain ⟨fs, s3, h5, h6⟩ := bind_ok.1 h4
        obtain ⟨rfl, rfl⟩ := pure_ok.1 h6
        obtain ⟨E1, a1, a2⟩ := ih.argument _ _ _ _ _ _ _ hl h1
        obtain ⟨E2, b1, b2⟩ := interpretDeclare_sound h3 a1
        obtain ⟨E3, c1, c2⟩ := ih.arguments _ _ _ _ _ _ b2 h5
        exact ⟨E3, c1, .cons a2 b1 c2⟩
    case begin =>
      intro b ps r c p s q s' E hl hp h
      simp only [Infer.begin] at h
      split at h
      · obtain ⟨rfl, rfl⟩ := pure_ok.1 h
        exact ⟨hp, E, hl, .none⟩
      · obtain ⟨a1, E', a2, a3⟩ := ih.run _ _ _ _ _ _ _ _ _ hl hp h
        rw [hl.inner] at a3
        exact ⟨a1, E', a2, .some a3⟩
    case run =>
      intro b ps r c p s q s' E hl hp h
      simp only [Infer.run] at h
      split at h
      · simp only [Res.ok.injEq, Prod.mk.injEq] at h
        obtain ⟨rfl, rfl⟩ := h
        rename_i i
        exact ⟨hp, { E with inner := i }, .mk (s := { s with inner := i }) hl.scopes rfl, .done⟩
      · simp [err_ok] at h
      · simp [ub_ok] at h
      · simp [timeout_ok] at h
      · rename_i i k
        obtain ⟨p1, s1, h1, h2⟩ := bind_ok.1 h
        obtain ⟨a1, E1, a2, a3⟩ := ih.step _ _ _ _ { s with inner := i } _ _ { E with inner := i } (.mk hl.scopes rfl) hp h1
        obtain ⟨b1, E2, b2, b3⟩ := ih.run _ _ _ _ _ _ _ _ _ a2 a1 h2
        rw [a2.inner] at b3
        exact ⟨b1, E2, b2, .next a3 b3⟩
      · obtain ⟨_, s1, h1, h2⟩ := bind_ok.1 h
        obtain ⟨sig, E1, a1, -, a2, a3⟩ := addDeclaration_sound h1 hl
        obtain ⟨b1, E2, b2, b3⟩ := ih.run _ _ _ _ _ _ _ _ _ a3 hp h2
        exact ⟨b1, E2, b2, .declare a1 a2 b3⟩
      · obtain ⟨_, s1, h1, h2⟩ := bind_ok.1 h
        simp only [pushScope, Res.ok.injEq, Prod.mk.injEq, true_and] at h1
        subst h1
        obtain ⟨b1, E2, b2, b3⟩ := ih.run _ _ _ _ _ _ _ _ _ hl.push hp h2
        exact ⟨b1, E2, b2, .push b3⟩
      · obtain ⟨_, s1, h1, h2⟩ := bind_ok.1 h
        obtain ⟨E1, a1, a2⟩ := popScope_sound h1 hl
        obtain ⟨b1, E2, b2, b3⟩ := ih.run _ _ _ _ _ _ _ _ _ a2 hp h2
        exact ⟨b1, E2, b2, .pop a1 b3⟩
    case step =>
      intro b ps r p s q s' E hl hp h
      simp only [Infer.step] at h
      cases hg : ps[p.index]? with
      | some g =>
        rw [hg] at h
        have hlt : p.index < ps.length := (List.getElem?_eq_some_iff.1 hg).1
        cases hk : g.kind? with
        | some k =>
          simp only [hk] at h
          obtain ⟨⟨e, ts⟩, s1, h1, h2⟩ := bind_ok.1 h
          obtain ⟨rfl, rfl⟩ := pure_ok.1 h2
          obtain ⟨E', a1, a2⟩ := ih.argument _ _ _ _ _ _ _ hl h1
          refine ⟨by simp, E', a1, ?_⟩
          have : response ps r p ⟨p.index + 1, p.taken ++ [e], ts⟩ = e := by
            rw [response, if_neg (by omega)]
            simp
          rw [this]
          simp only [Progress.call]
          rw [slotsAt_lt hg]
          exact .one (kind_iff.1 hk) a2
        | none => simp [hk, err_ok] at h
      | none =>
        rw [hg] at h
        simp only at h
        split at h
        · rename_i hpi
          split at h
          · obtain ⟨rfl, rfl⟩ := pure_ok.1 h
            refine ⟨hp, E, hl, ?_⟩
            simp only [Progress.call, response]
            rw [hpi, slotsAt_eq, slotsAt_gt (Nat.lt_succ_self _)]
            obtain ⟨as, a, ha⟩ : ∃ as a, p.taken = as ++ [a] := ⟨_, _, (List.dropLast_concat_getLast hp).symm⟩
            simp only [Option.isSome_none, Bool.false_eq_true, false_and, if_false, ha]
            simp only [List.getLastD_concat]
            exact .nothing
          · rename_i count g
            split at h
            · simp [err_ok] at h
            · rename_i hb
              obtain ⟨⟨es, ts⟩, s1, h1, h2⟩ := bind_ok.1 h
              obtain ⟨rfl, rfl⟩ := pure_ok.1 h2
              obtain ⟨E', a1, a2⟩ := ih.further _ _ _ _ _ _ _ _ hl h1
              refine ⟨by simp [hp], E', a1, ?_⟩
              simp only [Progress.call, response]
              rw [hpi, slotsAt_eq, slotsAt_gt (Nat.lt_succ_self _)]
              simp only [Option.isSome_some, true_and, if_true, List.drop_left]
              cases b with
              | true =>
                obtain ⟨rfl, a2⟩ := a2
                exact .all a2
              | false =>
                obtain ⟨k, rfl⟩ : ∃ k : Nat, count = k := ⟨count.toNat, by
                  simp only [Bool.not_false, Bool.true_and, decide_eq_true_eq] at hb
                  omega⟩
                exact .some a2
        · simp [err_ok] at h
    case further =>
      intro c g ts s es rest s' E hl h
      simp only [Infer.further] at h
      split at h
      · obtain ⟨h, rfl⟩ := pure_ok.1 h
        cases h
        exact ⟨E, hl, rfl, .nil⟩
      · obtain ⟨h, rfl⟩ := pure_ok.1 h
        cases h
        exact ⟨E, hl, .zero⟩
      · rename_i h1 h2
        cases hk : g.kind? with
        | some k =>
          simp only [hk] at h
          obtain ⟨⟨e, ts1⟩, s1, h3, h4⟩ := bind_ok.1 h
          obtain ⟨⟨es1, ts2⟩, s2, h5, h6⟩ := bind_ok.1 h4
          obtain ⟨h6, rfl⟩ := pure_ok.1 h6
          cases h6
          obtain ⟨E1, a1, a2⟩ := ih.argument _ _ _ _ _ _ _ hl h3
          obtain ⟨E2, b1, b2⟩ := ih.further _ _ _ _ _ _ _ _ a1 h5
          refine ⟨E2, b1, ?_⟩
          rcases c with _ | _ | c
          · exact ⟨b2.1, .cons (kind_iff.1 hk) a2 b2.2⟩
          · first | exact absurd rfl h1 | exact absurd rfl h3
          · exact .succ (kind_iff.1 hk) a2 b2
        | none =>
          simp only [hk] at h
          split at h
          · simp [err_ok] at h
          · simp [timeout_ok] at h
    case finish =>
      intro b ps r p s q s' E hl hp h
      simp only [Infer.finish] at h
      split at h
      · obtain ⟨p1, s1, h1, h2⟩ := bind_ok.1 h
        obtain ⟨a1, E1, a2, a3⟩ := ih.step _ _ _ _ _ _ _ _ hl hp h1
        obtain ⟨E2, b1, b2⟩ := ih.finish _ _ _ _ _ _ _ _ a2 a1 h2
        exact ⟨E2, b1, .take a3 b2⟩
      · obtain ⟨rfl, rfl⟩ := pure_ok.1 h
        refine ⟨E, hl, ?_⟩
        simp only [Progress.call]
        rw [slotsAt_gt (by omega)]
        exact .done

end DuckLisp.Infer
