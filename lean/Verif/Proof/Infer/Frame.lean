import Verif.Proof.Infer.Complete

/-! # What follows an argument, and whether a call is in parentheses, does not matter -/

namespace DuckLisp.Infer

open DuckLisp.Reader DuckLisp.Spec DuckLisp.Spec.Inference

variable {σ : Type} {cfg : Config σ}

/-- The same call, with something else behind. -/
def put (c : Call) (t : List Ast) : Call := { c with rest := t }

mutual
theorem next_frame {i : Bool} {ts : List Ast} {E : Env σ} {e : Ast} {rest : List Ast} {E' : Env σ}
    (h : Next cfg i ts E e rest E') : ∃ as, ts = as ++ rest ∧ ∀ t, Next cfg i (as ++ t) E e t E' := by
  match h with
  | .name => exact ⟨[_], rfl, fun t => .name⟩
  | .variable hd hs => exact ⟨[_], rfl, fun t => .variable hd hs⟩
  | .call (f := f) hd hs h1 h2 h3 =>
    obtain ⟨as, a1, -, a2⟩ := prepare_frame h1 (.inl rfl)
    obtain ⟨bs, b1, b2⟩ := fill_frame h2 (.inl rfl)
    refine ⟨.identifier f :: as ++ bs, ?_, fun t => ?_⟩
    · rw [List.cons_append, List.cons_append, List.append_assoc, ← b1]
      exact congrArg _ a1
    · have := a2 (bs ++ t) false (.inl rfl)
      rw [← List.append_assoc] at this
      exact .call hd hs this (b2 t false (.inl rfl)) h3
  | .form hn h1 h2 => exact ⟨[_], rfl, fun t => .form hn h1 h2⟩
termination_by structural h
theorem number_frame {g : Sig} {k : Nat} {ts : List Ast} {E : Env σ} {es rest : List Ast} {E' : Env σ}
    (h : Number cfg g k ts E es rest E') : ∃ as, ts = as ++ rest ∧ ∀ t, Number cfg g k (as ++ t) E es t E' := by
  match h with
  | .zero => exact ⟨[], rfl, fun t => .zero⟩
  | .succ hk h1 h2 =>
    obtain ⟨as, a1, a2⟩ := next_frame h1
    obtain ⟨bs, b1, b2⟩ := number_frame h2
    refine ⟨as ++ bs, by rw [a1, b1, List.append_assoc], fun t => ?_⟩
    rw [List.append_assoc]
    exact .succ hk (a2 _) (b2 t)
termination_by structural h
theorem take_frame {b : Bool} {c : Call} {E : Env σ} {e : Ast} {c' : Call} {E' : Env σ} (h : Take cfg b c E e c' E')
    (hb : b = false ∨ NoFurther c.slots) : ∃ as, c.rest = as ++ c'.rest ∧ (NoFurther c.slots → NoFurther c'.slots) ∧
      ∀ t b', b' = b ∨ NoFurther c.slots → Take cfg b' (put c (as ++ t)) E e (put c' t) E' := by
  match h with
  | .one hk h =>
    obtain ⟨as, a1, a2⟩ := next_frame h
    exact ⟨as, a1, fun hf n s hm => hf n s (.tail _ hm), fun t b' _ => .one hk (a2 t)⟩
  | .all (n := n) (s := s) h =>
    rcases hb with hb | hb
    · cases hb
    · exact absurd (.head _) (hb n s)
  | .some (n := n) (s := s) h =>
    obtain ⟨as, a1, a2⟩ := number_frame h
    refine ⟨as, a1, fun hf => absurd (.head _) (hf n s), fun t b' hb' => ?_⟩
    rcases hb' with rfl | hb'
    · exact .some (a2 t)
    · exact absurd (.head _) (hb' n s)
  | .nothing => exact ⟨[], rfl, fun _ n s hm => (nomatch hm), fun t b' _ => .nothing⟩
termination_by structural h
theorem fill_frame {b : Bool} {c : Call} {E : Env σ} {es rest : List Ast} {E' : Env σ} (h : Fill cfg b c E es rest E')
    (hb : b = false ∨ NoFurther c.slots) : ∃ as, c.rest = as ++ rest ∧
      ∀ t b', b' = b ∨ NoFurther c.slots → Fill cfg b' (put c (as ++ t)) E es t E' := by
  match h with
  | .done => exact ⟨[], rfl, fun t b' _ => .done⟩
  | .take h1 h2 =>
    obtain ⟨as, a1, a2, a3⟩ := take_frame h1 hb
    obtain ⟨bs, b1, b2⟩ := fill_frame h2 (hb.imp id a2)
    refine ⟨as ++ bs, by rw [a1, b1, List.append_assoc], fun t b' hb' => ?_⟩
    rw [List.append_assoc]
    exact .take (a3 _ b' hb') (b2 t b' (hb'.imp id a2))
termination_by structural h
theorem prepare_frame {b : Bool} {code : Option (σ → Script σ)} {c : Call} {E : Env σ} {c' : Call} {E' : Env σ}
    (h : Prepare cfg b code c E c' E') (hb : b = false ∨ NoFurther c.slots) :
    ∃ as, c.rest = as ++ c'.rest ∧ (NoFurther c.slots → NoFurther c'.slots) ∧
      ∀ t b', b' = b ∨ NoFurther c.slots → Prepare cfg b' code (put c (as ++ t)) E (put c' t) E' := by
  match h with
  | .none => exact ⟨[], rfl, id, fun t b' _ => .none⟩
  | .some h =>
    obtain ⟨as, a1, a2, a3⟩ := follow_frame h hb
    exact ⟨as, a1, a2, fun t b' hb' => .some (a3 t b' hb')⟩
termination_by structural h
theorem follow_frame {b : Bool} {code : Script σ} {c : Call} {E : Env σ} {c' : Call} {E' : Env σ}
    (h : Follow cfg b code c E c' E') (hb : b = false ∨ NoFurther c.slots) :
    ∃ as, c.rest = as ++ c'.rest ∧ (NoFurther c.slots → NoFurther c'.slots) ∧
      ∀ t b', b' = b ∨ NoFurther c.slots → Follow cfg b' code (put c (as ++ t)) E (put c' t) E' := by
  match h with
  | .done => exact ⟨[], rfl, id, fun t b' _ => .done⟩
  | .next h1 h2 =>
    obtain ⟨as, a1, a2, a3⟩ := take_frame h1 hb
    obtain ⟨bs, b1, b2, b3⟩ := follow_frame h2 (hb.imp id a2)
    refine ⟨as ++ bs, by rw [a1, b1, List.append_assoc], fun hf => b2 (a2 hf), fun t b' hb' => ?_⟩
    rw [List.append_assoc]
    exact .next (a3 _ b' hb') (b3 t b' (hb'.imp id a2))
  | .declare h1 h2 h3 =>
    obtain ⟨as, a1, a2, a3⟩ := follow_frame h3 hb
    exact ⟨as, a1, a2, fun t b' hb' => .declare h1 h2 (a3 t b' hb')⟩
  | .push h =>
    obtain ⟨as, a1, a2, a3⟩ := follow_frame h hb
    exact ⟨as, a1, a2, fun t b' hb' => .push (a3 t b' hb')⟩
  | .pop h1 h2 =>
    obtain ⟨as, a1, a2, a3⟩ := follow_frame h2 hb
    exact ⟨as, a1, a2, fun t b' hb' => .pop h1 (a3 t b' hb')⟩
termination_by structural h
end

theorem noFurther_fixed {ps : List Sig} : NoFurther (ps.map .one ++ [.nothing]) := by
  intro n s h
  simp at h

/-- A call of a function with a fixed number of arguments, with and without parentheses. -/
theorem next_parentheses {f : Bytes} {d : Decl σ} {ps : List Sig} {E : Env σ} (hd : E.declared f = some d)
    (hs : d.sig = .fixed ps) {as rest : List Ast} {e : Ast} {E' : Env σ} :
    Next cfg true (.identifier f :: as ++ rest) E e rest E' ↔
      Next cfg true (.expression (.identifier f :: as) :: rest) E e rest E' := by
  have hss : slots d.sig = some (ps.map .one ++ [.nothing]) := by rw [hs]; rfl
  constructor
  · intro h
    rw [List.cons_append] at h
    generalize hts : as ++ rest = ts at h
    cases h with
    | «variable» hd' hs' =>
      rw [hd] at hd'
      cases hd'
      rw [hss] at hs'
      cases hs'
    | call hd' hs' h1 h2 h3 =>
      rw [hd] at hd'
      cases hd'
      rw [hss] at hs'
      cases hs'
      obtain ⟨as1, a1, a2, a3⟩ := prepare_frame h1 (.inl rfl)
      obtain ⟨bs1, b1, b2⟩ := fill_frame h2 (.inl rfl)
      have hp := a2 noFurther_fixed
      simp only at a1
      rw [← hts, b1, ← List.append_assoc, List.append_cancel_right_eq] at a1
      subst a1
      have h4 := a3 bs1 true (.inr noFurther_fixed)
      have h5 := b2 [] true (.inr hp)
      rw [List.append_nil] at h5
      exact .form nofun (.call hd hss h4 h5) h3
    | form hn => exact absurd rfl (hn f)
  · intro h
    cases h with
    | form hn h1 h2 =>
      cases h1 with
      | plain h => cases h
      | «variable» hd' hs' =>
        rw [hd] at hd'
        cases hd'
        rw [hs] at hs'
        cases hs'
      | block hn => exact absurd (.plain f) (hn f)
      | call hd' hs' h3 h4 =>
        rw [hd] at hd'
        cases hd'
        rw [hss] at hs'
        cases hs'
        obtain ⟨as1, a1, a2, a3⟩ := prepare_frame h3 (.inr noFurther_fixed)
        have hp := a2 noFurther_fixed
        obtain ⟨bs1, b1, b2⟩ := fill_frame h4 (.inr hp)
        simp only at a1
        rw [b1, List.append_nil] at a1
        subst a1
        have h5 := a3 (bs1 ++ rest) false (.inr noFurther_fixed)
        have h6 := b2 rest false (.inr hp)
        rw [← List.append_assoc] at h5
        exact .call hd hss h5 h6 h2

end DuckLisp.Infer
