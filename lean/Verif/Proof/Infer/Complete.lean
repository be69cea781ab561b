import Verif.Proof.Infer.Sound

/-! # What follows from the rules is inferred -/

namespace DuckLisp.Infer

open DuckLisp.Reader DuckLisp.Spec DuckLisp.Spec.Inference

variable {σ : Type} {cfg : Config σ}

theorem find_linked {s : State σ} {E : Env σ} (hl : Linked s E) (x : Bytes) : find x s = .ok (E.declared x, s) := by
  rw [find, hl.lookup]

theorem function_of_slots {g : Sig} {ss : List Slot} (h : slots g = some ss) :
    ∃ ps r, g.function? = some (ps, r) ∧ ss = slotsAt ps r 0 := by
  rcases hf : g.function? with _ | ⟨ps, r⟩
  · rw [slots_none.1 hf] at h
    cases h
  · rw [slots_some hf] at h
    exact ⟨ps, r, rfl, by simpa using h.symm⟩

theorem slotsAt_cases (ps : List Sig) (r : Option (Int × Sig)) (k : Nat) :
    (∃ g, ps[k]? = some g ∧ slotsAt ps r k = .one g :: slotsAt ps r (k + 1)) ∨
    (k = ps.length ∧ ps[k]? = none ∧ slotsAt ps r k = [match r with | none => .nothing | some (n, s) => .further n s]) ∨
    (ps.length < k ∧ slotsAt ps r k = []) := by
  rcases Nat.lt_trichotomy k ps.length with h | h | h
  · have := List.getElem?_eq_getElem h
    exact .inl ⟨_, this, slotsAt_lt this⟩
  · subst h
    exact .inr (.inl ⟨rfl, by simp, slotsAt_eq _ _⟩)
  · exact .inr (.inr ⟨h, slotsAt_gt h⟩)

mutual
theorem whole_complete {i : Bool} {e : Ast} {E : Env σ} {e' : Ast} {E' : Env σ} (h : Whole cfg i e E e' E') (s : State σ)
    (hl : Linked s E) : ∃ s', Linked s' E' ∧ Eventually fun m => compound cfg m i e s = .ok (e', s') := by
  match h with
  | .marked => exact ⟨s, hl, .succ (.all fun m => by simp only [compound]; rfl)⟩
  | .plain h => exact ⟨s, hl, .succ (.all fun m => by cases h <;> simp only [compound] <;> rfl)⟩
  | .kept (h := hd) =>
    refine ⟨s, hl, .succ (.all fun m => ?_)⟩
    cases hd <;> simp only [compound] <;> rfl
  | .keptLiteral => exact ⟨s, hl, .succ (.all fun m => by simp only [compound]; rfl)⟩
  | .literal hn h =>
    obtain ⟨s', a1, a2⟩ := every_complete h s hl
    refine ⟨s', a1, .succ (a2.imp fun m h => ?_)⟩
    simp only [compound, headName_some.2 hn, if_true]
    rw [bind_eq h]
    rfl
  | .headMarked h =>
    obtain ⟨s', a1, a2⟩ := every_complete h s hl
    refine ⟨s', a1, .succ (a2.imp fun m h => ?_)⟩
    simp only [compound, if_true]
    rw [bind_eq h]
    rfl
  | .call (f := f) hd hs h1 h2 =>
    obtain ⟨ps, r, hf, hss⟩ := function_of_slots hs
    obtain ⟨q, s1, a1, a2, a3⟩ := prepare_complete h1 ps r ⟨0, [.identifier f], _⟩ s (by rw [hss]; rfl) hl
    obtain ⟨q', s2, b1, b2, b3, b4⟩ := fill_complete h2 ps r q s1 a1 a2
    refine ⟨s2, b3, .succ (.succ ((a3.and b4).imp fun m h => ?_))⟩
    simp only [compound, if_true]
    rw [bind_eq (find_linked hl _), hd]
    simp only [call, hf]
    rw [bind_eq h.1, bind_eq h.2]
    simp only [b2, b1]
    rfl
  | .variable hd hg h =>
    obtain ⟨s', a1, a2⟩ := every_complete h s hl
    refine ⟨s', a1, .succ (.succ (a2.imp fun m h => ?_))⟩
    simp only [compound, if_true]
    rw [bind_eq (find_linked hl _), hd]
    simp only [call, hg, Sig.function?]
    rw [bind_eq h]
    rfl
  | .block (h := hd) hn h hc =>
    obtain ⟨s', a1, a2⟩ := every_complete h _ hl.push
    obtain ⟨s'', b1, b2⟩ := popScope_complete hc a1
    refine ⟨s'', b2, .succ (a2.imp fun m h => ?_)⟩
    have hx : ∀ x, hd ≠ .identifier x := by
      rintro x rfl
      exact hn x (.plain _)
    have hy : ∀ x, hd ≠ .callback x := by
      rintro x rfl
      exact hn x (.marked _)
    simp only [compound, if_true]
    rw [bind_eq (show pushScope s = .ok ((), _) from rfl), bind_eq h, bind_eq b1]
    rfl
termination_by structural h
theorem next_complete {i : Bool} {ts : List Ast} {E : Env σ} {e : Ast} {rest : List Ast} {E' : Env σ}
    (h : Next cfg i ts E e rest E') (s : State σ) (hl : Linked s E) :
    ∃ s', Linked s' E' ∧ Eventually fun m => argument cfg m i ts s = .ok ((e, rest), s') := by
  match h with
  | .name =>
    refine ⟨s, hl, .succ (.all fun m => ?_)⟩
    simp only [argument]
    rw [bind_eq (find_linked hl _)]
    cases E.declared _ <;> rfl
  | .variable hd hs =>
    refine ⟨s, hl, .succ (.all fun m => ?_)⟩
    simp only [argument]
    rw [bind_eq (find_linked hl _), hd]
    simp only [slots_none.2 hs, if_true]
    rfl
  | .call (f := f) hd hs h1 h2 h3 =>
    obtain ⟨ps, r, hf, hss⟩ := function_of_slots hs
    obtain ⟨q, s1, a1, a2, a3⟩ := prepare_complete h1 ps r ⟨0, [.identifier f], _⟩ s (by rw [hss]; rfl) hl
    obtain ⟨q', s2, rfl, rfl, b3, b4⟩ := fill_complete h2 ps r q s1 a1 a2
    obtain ⟨s3, c1, c2⟩ := interpretDeclare_complete h3 b3
    refine ⟨s3, c2, .succ ((a3.and b4).imp fun m h => ?_)⟩
    simp only [argument]
    rw [bind_eq (find_linked hl _), hd]
    simp only [hf, if_true]
    rw [bind_eq h.1, bind_eq h.2, bind_eq c1]
    rfl
  | .form (e := e1) hn h1 h2 =>
    obtain ⟨s', a1, a2⟩ := whole_complete h1 s hl
    obtain ⟨s'', b1, b2⟩ := interpretDeclare_complete h2 a1
    refine ⟨s'', b2, .succ (a2.imp fun m h => ?_)⟩
    cases e1
    case identifier x => exact absurd rfl (hn x)
    all_goals
      simp only [argument]
      rw [bind_eq h, bind_eq b1]
      rfl
termination_by structural h
theorem every_complete {i : Bool} {ts : List Ast} {E : Env σ} {es : List Ast} {E' : Env σ}
    (h : Every cfg i ts E es E') (s : State σ) (hl : Linked s E) :
    ∃ s', Linked s' E' ∧ Eventually fun m => arguments cfg m i ts s = .ok (es, s') := by
  match h with
  | .nil => exact ⟨s, hl, .succ (.all fun m => by simp only [arguments]; rfl)⟩
  | .cons h1 h2 h3 =>
    obtain ⟨s1, a1, a2⟩ := next_complete h1 s hl
    obtain ⟨s2, b1, b2⟩ := interpretDeclare_complete h2 a1
    obtain ⟨s3, c1, c2⟩ := every_complete h3 s2 b2
    refine ⟨s3, c1, .succ ((a2.and c2).imp fun m h => ?_)⟩
    cases ts with
    | nil => cases h1
    | cons t ts =>
      simp only [arguments]
      rw [bind_eq h.1]
      simp only
      rw [bind_eq b1, bind_eq h.2]
      rfl
termination_by structural h
theorem further_complete {g : Sig} {ts : List Ast} {E : Env σ} {es : List Ast} {E' : Env σ}
    (h : Further cfg g ts E es E') (s : State σ) (hl : Linked s E) :
    ∃ s', Linked s' E' ∧ Eventually fun m => further cfg m none g ts s = .ok ((es, []), s') := by
  match h with
  | .nil => exact ⟨s, hl, .succ (.all fun m => by simp only [further]; rfl)⟩
  | .cons hk h1 h2 =>
    obtain ⟨s1, a1, a2⟩ := next_complete h1 s hl
    obtain ⟨s2, b1, b2⟩ := further_complete h2 s1 a1
    refine ⟨s2, b1, .succ ((a2.and b2).imp fun m h => ?_)⟩
    cases ts with
    | nil => cases h1
    | cons t ts =>
      simp only [further, kind_iff.2 hk, Option.map_none]
      rw [bind_eq h.1, bind_eq h.2]
      rfl
termination_by structural h
theorem number_complete {g : Sig} {k : Nat} {ts : List Ast} {E : Env σ} {es rest : List Ast} {E' : Env σ}
    (h : Number cfg g k ts E es rest E') (s : State σ) (hl : Linked s E) :
    ∃ s', Linked s' E' ∧ Eventually fun m => further cfg m (some k) g ts s = .ok ((es, rest), s') := by
  match h with
  | .zero => exact ⟨s, hl, .succ (.all fun m => by simp only [further]; rfl)⟩
  | .succ hk h1 h2 =>
    obtain ⟨s1, a1, a2⟩ := next_complete h1 s hl
    obtain ⟨s2, b1, b2⟩ := number_complete h2 s1 a1
    refine ⟨s2, b1, .succ ((a2.and b2).imp fun m h => ?_)⟩
    simp only [further, kind_iff.2 hk, Option.map_some, Nat.add_sub_cancel]
    rw [bind_eq h.1, bind_eq h.2]
    rfl
termination_by structural h
theorem take_complete {b : Bool} {c : Call} {E : Env σ} {e : Ast} {c' : Call} {E' : Env σ} (h : Take cfg b c E e c' E')
    (ps : List Sig) (r : Option (Int × Sig)) (p : Progress) (s : State σ) (hc : c = p.call ps r) (hl : Linked s E) :
    ∃ q s', c' = q.call ps r ∧ Linked s' E' ∧ response ps r p q = e ∧
      Eventually fun m => step cfg m b ps r p s = .ok (q, s') := by
  obtain ⟨k, taken, ts⟩ := p
  simp only [Progress.call] at hc
  match h with
  | .one (e := e) (rest := rest) hk h =>
    obtain ⟨s', a1, a2⟩ := next_complete h s hl
    clear h
    rcases slotsAt_cases ps r k with ⟨g, hg, h1⟩ | ⟨rfl, hg, h1⟩ | ⟨h2, h1⟩ <;> rw [h1] at hc
    · cases hc
      refine ⟨⟨k + 1, taken ++ [e], rest⟩, s', rfl, a1, ?_, .succ (a2.imp fun m h => ?_)⟩
      · have := (List.getElem?_eq_some_iff.1 hg).1
        simp only [response]
        rw [if_neg (by omega)]
        simp
      · simp only [step, hg, kind_iff.2 hk]
        rw [bind_eq h]
        rfl
    · cases r <;> cases hc
    · cases hc
  | .all (n := n) (s := g) (taken := taken') (ts := ts') (es := es) h =>
    obtain ⟨s', a1, a2⟩ := further_complete h s hl
    clear h
    rcases slotsAt_cases ps r k with ⟨g, hg, h1⟩ | ⟨rfl, hg, h1⟩ | ⟨h2, h1⟩ <;> rw [h1] at hc
    · cases hc
    · obtain ⟨rfl, rfl, rfl⟩ : r = some (n, g) ∧ taken = taken' ∧ ts = ts' := by
        rcases r with _ | ⟨n', g'⟩ <;> simp_all
      refine ⟨⟨ps.length + 1, taken ++ es, []⟩, s', ?_, a1, ?_, .succ (a2.imp fun m h => ?_)⟩
      · rw [Progress.call, slotsAt_gt (Nat.lt_succ_self _)]
      · simp [response]
      · simp only [step, hg]
        simp only [if_true, Bool.not_true, Bool.false_and, Bool.false_eq_true, if_false]
        rw [bind_eq h]
        rfl
    · cases hc
  | .some (n := n) (s := g) (taken := taken') (ts := ts') (es := es) (rest := rest) h =>
    obtain ⟨s', a1, a2⟩ := number_complete h s hl
    clear h
    rcases slotsAt_cases ps r k with ⟨g, hg, h1⟩ | ⟨rfl, hg, h1⟩ | ⟨h2, h1⟩ <;> rw [h1] at hc
    · cases hc
    · obtain ⟨rfl, rfl, rfl⟩ : r = some ((n : Int), g) ∧ taken = taken' ∧ ts = ts' := by
        rcases r with _ | ⟨n', g'⟩ <;> simp_all
      refine ⟨⟨ps.length + 1, taken ++ es, rest⟩, s', ?_, a1, ?_, .succ (a2.imp fun m h => ?_)⟩
      · rw [Progress.call, slotsAt_gt (Nat.lt_succ_self _)]
      · simp [response]
      · simp only [step, hg]
        have : ¬ ((n : Int) < 0) := by omega
        simp only [if_true, this, decide_false, Bool.and_false, Bool.false_eq_true, if_false, Int.toNat_natCast]
        rw [bind_eq h]
        rfl
    · cases hc
  | .nothing (taken := as) (e := a) (ts := ts') =>
    rcases slotsAt_cases ps r k with ⟨g, hg, h1⟩ | ⟨rfl, hg, h1⟩ | ⟨h2, h1⟩ <;> rw [h1] at hc
    · cases hc
    · obtain ⟨rfl, rfl, rfl⟩ : r = none ∧ taken = as ++ [a] ∧ ts' = ts := by cases r <;> cases hc <;> exact ⟨rfl, rfl, rfl⟩
      refine ⟨⟨ps.length + 1, as ++ [a], ts'⟩, s, ?_, hl, ?_, .succ (.all fun m => ?_)⟩
      · rw [Progress.call, slotsAt_gt (Nat.lt_succ_self _)]
      · simp [response]
      · simp only [step, hg]
        simp only [if_true]
        rfl
    · cases hc
termination_by structural h
theorem fill_complete {b : Bool} {c : Call} {E : Env σ} {es rest : List Ast} {E' : Env σ} (h : Fill cfg b c E es rest E')
    (ps : List Sig) (r : Option (Int × Sig)) (p : Progress) (s : State σ) (hc : c = p.call ps r) (hl : Linked s E) :
    ∃ q s', q.taken = es ∧ q.rest = rest ∧ Linked s' E' ∧ Eventually fun m => finish cfg m b ps r p s = .ok (q, s') := by
  match h with
  | .done (taken := taken') (ts := ts') =>
    obtain ⟨k, taken, ts⟩ := p
    simp only [Progress.call] at hc
    rcases slotsAt_cases ps r k with ⟨g, hg, h1⟩ | ⟨rfl, hg, h1⟩ | ⟨h2, h1⟩ <;> rw [h1] at hc <;> cases hc
    refine ⟨⟨k, taken', ts'⟩, s, rfl, rfl, hl, .succ (.all fun m => ?_)⟩
    simp only [finish]
    rw [if_neg (by omega)]
    rfl
  | .take h1 h2 =>
    obtain ⟨q, s1, a1, a2, -, a3⟩ := take_complete h1 ps r p s hc hl
    obtain ⟨q', s2, b1, b2, b3, b4⟩ := fill_complete h2 ps r q s1 a1 a2
    refine ⟨q', s2, b1, b2, b3, .succ ((a3.and b4).imp fun m h => ?_)⟩
    have hk : p.index ≤ ps.length := by
      subst hc
      rcases slotsAt_cases ps r p.index with ⟨g, hg, -⟩ | ⟨h2, -⟩ | ⟨h2, h3⟩
      · exact Nat.le_of_lt (List.getElem?_eq_some_iff.1 hg).1
      · omega
      · rw [Progress.call, h3] at h1
        cases h1
    simp only [finish]
    rw [if_pos hk, bind_eq h.1, h.2]
termination_by structural h
theorem prepare_complete {b : Bool} {code : Option (σ → Script σ)} {c : Call} {E : Env σ} {c' : Call} {E' : Env σ}
    (h : Prepare cfg b code c E c' E') (ps : List Sig) (r : Option (Int × Sig)) (p : Progress) (s : State σ)
    (hc : c = p.call ps r) (hl : Linked s E) :
    ∃ q s', c' = q.call ps r ∧ Linked s' E' ∧ Eventually fun m => begin cfg m b ps r code p s = .ok (q, s') := by
  match h with
  | .none => exact ⟨p, s, hc, hl, .succ (.all fun m => by simp only [begin]; rfl)⟩
  | .some h =>
    obtain ⟨q, s', a1, a2, a3⟩ := follow_complete h ps r p s hc hl
    refine ⟨q, s', a1, a2, .succ (a3.imp fun m h => ?_)⟩
    simp only [begin]
    rw [hl.inner]
    exact h
termination_by structural h
theorem follow_complete {b : Bool} {code : Script σ} {c : Call} {E : Env σ} {c' : Call} {E' : Env σ}
    (h : Follow cfg b code c E c' E') (ps : List Sig) (r : Option (Int × Sig)) (p : Progress) (s : State σ)
    (hc : c = p.call ps r) (hl : Linked s E) :
    ∃ q s', c' = q.call ps r ∧ Linked s' E' ∧ Eventually fun m => run cfg m b ps r code p s = .ok (q, s') := by
  match h with
  | .done (i := i) =>
    exact ⟨p, { s with inner := i }, hc, .mk hl.scopes rfl, .succ (.all fun m => by simp only [run])⟩
  | .next (i := i) h1 h2 =>
    obtain ⟨q, s1, a1, a2, a4, a3⟩ := take_complete h1 ps r p { s with inner := i } hc (.mk hl.scopes rfl)
    obtain ⟨q', s2, b1, b2, b3⟩ := follow_complete h2 ps r q s1 a1 a2
    refine ⟨q', s2, b1, b2, .succ ((a3.and b3).imp fun m h => ?_)⟩
    simp only [run]
    rw [← h.2, ← a2.inner, ← a4]
    exact bind_eq h.1
  | .declare h1 h2 h3 =>
    obtain ⟨s1, a1, a2⟩ := addDeclaration_complete h1 (by simp) h2 hl
    obtain ⟨q', s2, b1, b2, b3⟩ := follow_complete h3 ps r p s1 hc a2
    refine ⟨q', s2, b1, b2, .succ (b3.imp fun m h => ?_)⟩
    simp only [run]
    rw [bind_eq a1, h]
  | .push h =>
    obtain ⟨q', s2, b1, b2, b3⟩ := follow_complete h ps r p _ hc hl.push
    refine ⟨q', s2, b1, b2, .succ (b3.imp fun m h => ?_)⟩
    simp only [run]
    rw [bind_eq (show pushScope s = .ok ((), _) from rfl), h]
  | .pop h1 h2 =>
    obtain ⟨s1, a1, a2⟩ := popScope_complete h1 hl
    obtain ⟨q', s2, b1, b2, b3⟩ := follow_complete h2 ps r p s1 hc a2
    refine ⟨q', s2, b1, b2, .succ (b3.imp fun m h => ?_)⟩
    simp only [run]
    rw [bind_eq a1, h]
termination_by structural h
end

end DuckLisp.Infer
