import Verif.Proof.Infer.Again
import Verif.Proof.Trie
import Mathlib.Data.List.Forall2

/-! # Inference follows the rules -/

namespace DuckLisp.Infer

open DuckLisp.Reader DuckLisp.Spec DuckLisp.Spec.Inference

variable {σ : Type}

/-! ### Types -/

theorem symbol_ok {x : Bytes} {s : Sig} : symbol x = .ok s ↔ x = ascii "L" ∧ s = .literal ∨ x = ascii "I" ∧ s = .infer := by
  unfold symbol
  split
  · rename_i h
    subst h
    have : ascii "L" ≠ ascii "I" := by decide +kernel
    constructor
    · intro h
      cases h
      exact .inl ⟨rfl, rfl⟩
    · rintro (⟨-, rfl⟩ | ⟨h, -⟩)
      · rfl
      · exact absurd h this
  · rename_i h
    split
    · rename_i h1
      constructor
      · intro h
        cases h
        exact .inr ⟨h1, rfl⟩
      · rintro (⟨h1, -⟩ | ⟨-, rfl⟩)
        · exact absurd h1 h
        · rfl
    · rename_i h1
      simp [h, h1]

theorem isRest_iff {e : Ast} : isRest e = true ↔ Names e (ascii "&rest") := by
  constructor
  · intro h
    cases e <;> simp [isRest] at h
    · subst h
      exact .marked _
    · subst h
      exact .plain _
  · intro h
    cases h <;> simp [isRest]

theorem Res.bind_ok {α β : Type} {m : Res α} {f : α → Res β} {r : β} : (m >>= f) = .ok r ↔ ∃ a, m = .ok a ∧ f a = .ok r := by
  show Res.bind m f = _ ↔ _
  cases m <;> simp [Res.bind]

mutual
theorem denotes_of_fromAst : ∀ (e : Ast) (s : Sig), fromAst e = .ok s → Denotes e s
  | .identifier x, s, h => by
    rw [fromAst, symbol_ok] at h
    rcases h with ⟨rfl, rfl⟩ | ⟨rfl, rfl⟩
    · exact .literal (.plain _)
    · exact .infer (.plain _)
  | .callback x, s, h => by
    rw [fromAst, symbol_ok] at h
    rcases h with ⟨rfl, rfl⟩ | ⟨rfl, rfl⟩
    · exact .literal (.marked _)
    · exact .infer (.marked _)
  | .expression es, s, h => by
    simp only [fromAst] at h
    obtain ⟨⟨ps, r⟩, h1, h2⟩ := Res.bind_ok.1 h
    have := denotes_of_fromAll es ps r h1
    cases r with
    | none =>
      cases h2
      exact .fixed this
    | some r =>
      obtain ⟨n, s⟩ := r
      cases h2
      obtain ⟨es, m, e, rfl, h1, h2, h3⟩ := this
      exact .variadic h1 h2 h3
  | .literal _, s, h => by simp [fromAst] at h
  | .bool _, s, h => by simp [fromAst] at h
  | .int _, s, h => by simp [fromAst] at h
  | .float _, s, h => by simp [fromAst] at h
  | .string _, s, h => by simp [fromAst] at h
  | .garbage, s, h => by simp [fromAst] at h
theorem denotes_of_fromAll : ∀ (es : List Ast) (ps : List Sig) (r : Option (Int × Sig)), fromAll es = .ok (ps, r) →
    match r with
    | none => DenoteAll es ps
    | some (n, s) => ∃ es' m e, es = es' ++ [m, .int n, e] ∧ DenoteAll es' ps ∧ Names m (ascii "&rest") ∧ Denotes e s
  | [], ps, r, h => by
    simp only [fromAll] at h
    cases h
    exact .nil
  | e :: es, ps, r, h => by
    simp only [fromAll] at h
    split at h
    · rename_i hm
      obtain ⟨n, e', s, rfl, rfl, rfl, h'⟩ := denotes_of_fromRest es ps r h
      exact ⟨[], e, e', rfl, .nil, isRest_iff.1 hm, h'⟩
    · obtain ⟨s, h1, h2⟩ := Res.bind_ok.1 h
      obtain ⟨⟨ps', r'⟩, h3, h4⟩ := Res.bind_ok.1 h2
      cases h4
      have a := denotes_of_fromAst e s h1
      have b := denotes_of_fromAll es ps' r' h3
      cases r' with
      | none => exact .cons a b
      | some r =>
        obtain ⟨n, s⟩ := r
        obtain ⟨es', m, e', rfl, b1, b2, b3⟩ := b
        exact ⟨e :: es', m, e', rfl, .cons a b1, b2, b3⟩
theorem denotes_of_fromRest : ∀ (es : List Ast) (ps : List Sig) (r : Option (Int × Sig)), fromRest es = .ok (ps, r) →
    ∃ n e s, es = [.int n, e] ∧ ps = [] ∧ r = some (n, s) ∧ Denotes e s
  | [.int n, t], ps, r, h => by
    simp only [fromRest] at h
    obtain ⟨s, h1, h2⟩ := Res.bind_ok.1 h
    cases h2
    exact ⟨n, t, s, rfl, rfl, rfl, denotes_of_fromAst t s h1⟩
  | [], ps, r, h => by simp [fromRest] at h
  | [e], ps, r, h => by
    rw [fromRest] at h
    · cases h
    · rintro n t ⟨⟩
  | .bool _ :: _ :: es, ps, r, h => by simp [fromRest] at h
  | .float _ :: _ :: es, ps, r, h => by simp [fromRest] at h
  | .string _ :: _ :: es, ps, r, h => by simp [fromRest] at h
  | .callback _ :: _ :: es, ps, r, h => by simp [fromRest] at h
  | .identifier _ :: _ :: es, ps, r, h => by simp [fromRest] at h
  | .literal _ :: _ :: es, ps, r, h => by simp [fromRest] at h
  | .expression _ :: _ :: es, ps, r, h => by simp [fromRest] at h
  | .garbage :: _ :: es, ps, r, h => by simp [fromRest] at h
  | .int _ :: _ :: _ :: es, ps, r, h => by simp [fromRest] at h
end

theorem fromAst_of_names {e : Ast} {x : Bytes} (h : Names e x) : fromAst e = symbol x := by
  cases h <;> rw [fromAst]

theorem not_rest {e : Ast} {s : Sig} (h : fromAst e = .ok s) : isRest e = false := by
  by_cases hr : isRest e = true
  · have := fromAst_of_names (isRest_iff.1 hr)
    rw [h] at this
    rcases symbol_ok.1 this.symm with ⟨h, -⟩ | ⟨h, -⟩ <;> exact absurd h (by decide +kernel)
  · simpa using hr

mutual
theorem fromAst_of_denotes {e : Ast} {s : Sig} (h : Denotes e s) : fromAst e = .ok s := by
  cases h with
  | literal h => rw [fromAst_of_names h, symbol_ok]; exact .inl ⟨rfl, rfl⟩
  | infer h => rw [fromAst_of_names h, symbol_ok]; exact .inr ⟨rfl, rfl⟩
  | fixed h =>
    have := fromAll_of_denotes h [] ([], none) rfl
    simp only [fromAst]
    exact Res.bind_ok.2 ⟨_, by simpa using this, rfl⟩
  | @variadic es ss m n e s h hm h2 =>
    have := fromAst_of_denotes h2
    have := fromAll_of_denotes h [m, .int n, e] ([], some (n, s)) (by
      rw [fromAll, if_pos (isRest_iff.2 hm), fromRest]
      exact Res.bind_ok.2 ⟨_, this, rfl⟩)
    simp only [fromAst]
    exact Res.bind_ok.2 ⟨_, this, by simp⟩
theorem fromAll_of_denotes {es : List Ast} {ss : List Sig} (h : DenoteAll es ss) (t : List Ast) (r : List Sig × Option (Int × Sig))
    (ht : fromAll t = .ok r) : fromAll (es ++ t) = .ok (ss ++ r.1, r.2) := by
  cases h with
  | nil => simpa using ht
  | cons h1 h2 =>
    have a := fromAst_of_denotes h1
    have b := fromAll_of_denotes h2 t r ht
    simp only [List.cons_append, fromAll, not_rest a]
    exact Res.bind_ok.2 ⟨_, a, Res.bind_ok.2 ⟨_, b, rfl⟩⟩
end

/-! ### Declarations -/

/-- A scope of the model and one of the specification. -/
structure ScopeOf (c : Scope σ) (l : List (Bytes × Decl σ)) : Prop where
  order : c.names.WF
  bound : ∀ x i, Trie.find c.names x = .ofNat i → i < c.types.length
  same : ∀ x, c.find x = l.lookup x

/-- A state of the model and one of the specification. -/
structure Linked (s : State σ) (E : Env σ) : Prop where
  scopes : List.Forall₂ ScopeOf s.scopes E.scopes
  inner : s.inner = E.inner

theorem ScopeOf.new : ScopeOf (.new : Scope σ) [] where
  order := Trie.init_WF _
  bound x i h := by
    have : Trie.find (Trie.init (-1)) x = -1 := by
      cases x <;> simp [Trie.find, Trie.init, Trie.Node.find, Trie.Kids.find, Trie.scan]
    rw [show (Scope.new : Scope σ).names = Trie.init (-1) from rfl, this] at h
    cases h
  same x := by
    have : Trie.find (Trie.init (-1)) x = -1 := by
      cases x <;> simp [Trie.find, Trie.init, Trie.Node.find, Trie.Kids.find, Trie.scan]
    rw [Scope.find, show (Scope.new : Scope σ).names = Trie.init (-1) from rfl, this]
    rfl

theorem ScopeOf.add {c : Scope σ} {l : List (Bytes × Decl σ)} (h : ScopeOf c l) (x : Bytes) (d : Decl σ) :
    ScopeOf (c.add x d) ((x, d) :: l) := by
  obtain ⟨h1, h2⟩ := Trie.insert_find c.names x c.types.length h.order
  refine ⟨h1, fun y i hi => ?_, fun y => ?_⟩
  · simp only [Scope.add, h2] at hi ⊢
    rw [List.length_append, List.length_singleton]
    split at hi
    · cases hi
      omega
    · have := h.bound _ _ hi
      omega
  · have := h.same y
    simp only [Scope.find, Scope.add, h2] at this ⊢
    by_cases hy : y = x
    · subst hy
      simp
    · rw [if_neg hy, List.lookup_cons, show (y == x) = false by simpa using hy, ← this]
      simp only
      rcases hf : Trie.find c.names y with i | i
      · have := h.bound y i hf
        simp only
        rw [List.getElem?_append_left this]
      · rfl

theorem Linked.lookup {s : State σ} {E : Env σ} (h : Linked s E) (x : Bytes) : Infer.lookup x s.scopes = E.declared x := by
  obtain ⟨h, -⟩ := h
  obtain ⟨cs, i⟩ := s
  obtain ⟨ls, j⟩ := E
  simp only [Env.declared] at h ⊢
  induction h with
  | nil => rfl
  | cons h1 _ ih =>
    rw [Infer.lookup, ih, h1.same, List.flatten_cons, List.lookup_append]

theorem Linked.push {s : State σ} {E : Env σ} (h : Linked s E) : Linked { s with scopes := .new :: s.scopes } E.open_ :=
  ⟨.cons .new h.scopes, h.inner⟩

theorem popScope_sound {s s' : State σ} {E : Env σ} {u : Unit} (h : popScope s = .ok (u, s')) (hl : Linked s E) :
    ∃ E', E.Close E' ∧ Linked s' E' := by
  obtain ⟨cs, i⟩ := s
  obtain ⟨ls, j⟩ := E
  obtain ⟨h1, rfl⟩ := hl
  cases cs with
  | nil => simp [popScope] at h
  | cons c cs =>
    cases h1 with
    | cons h1 h2 =>
      simp only [popScope, Res.ok.injEq, Prod.mk.injEq] at h
      obtain ⟨-, rfl⟩ := h
      exact ⟨_, .mk, h2, rfl⟩

theorem popScope_complete {s : State σ} {E E' : Env σ} (h : E.Close E') (hl : Linked s E) :
    ∃ s', popScope s = .ok ((), s') ∧ Linked s' E' := by
  obtain ⟨cs, i⟩ := s
  obtain ⟨h1, h2⟩ := hl
  cases h
  cases h1 with
  | cons h1 h3 => exact ⟨_, rfl, h3, h2⟩

theorem addDeclaration_sound {x : Bytes} {t : Ast} {c : Option (σ → Script σ)} {s s' : State σ} {E : Env σ} {u : Unit}
    (h : addDeclaration x t c s = .ok (u, s')) (hl : Linked s E) :
    ∃ sig E', Denotes t sig ∧ (c.isSome → sig ≠ .literal ∧ sig ≠ .infer) ∧ Env.Declare x ⟨sig, c⟩ E E' ∧ Linked s' E' := by
  obtain ⟨cs, i⟩ := s
  obtain ⟨ls, j⟩ := E
  obtain ⟨h1, rfl⟩ := hl
  cases cs with
  | nil => simp [addDeclaration] at h
  | cons c cs =>
    cases h1 with
    | cons h1 h2 =>
      simp only [addDeclaration] at h
      rcases hf : fromAst t with sig | e | _ | _ <;> simp only [hf] at h
      · split at h
        · simp at h
        · rename_i hc
          simp only [Res.ok.injEq, Prod.mk.injEq] at h
          obtain ⟨-, rfl⟩ := h
          refine ⟨sig, _, denotes_of_fromAst _ _ hf, fun hs => ⟨?_, ?_⟩, .mk, .cons (h1.add x _) h2, rfl⟩ <;> rintro rfl <;>
            exact hc ⟨rfl, hs⟩
      all_goals simp at h

theorem addDeclaration_complete {x : Bytes} {t : Ast} {sig : Sig} {c : Option (σ → Script σ)} {s : State σ} {E E' : Env σ}
    (h : Denotes t sig) (hc : c.isSome → sig ≠ .literal ∧ sig ≠ .infer) (hd : Env.Declare x ⟨sig, c⟩ E E') (hl : Linked s E) :
    ∃ s', addDeclaration x t c s = .ok ((), s') ∧ Linked s' E' := by
  obtain ⟨cs, i⟩ := s
  obtain ⟨h1, h2⟩ := hl
  cases hd
  cases h1 with
  | cons h1 h3 =>
    simp only [addDeclaration, fromAst_of_denotes h]
    refine ⟨_, if_neg ?_, .cons (h1.add x _) h3, h2⟩
    rintro ⟨h4, h5⟩
    obtain ⟨h6, h7⟩ := hc h5
    cases sig <;> simp_all [Sig.function?]

theorem isDeclare_iff {k : Bytes} : isDeclare k = true ↔ Keyword k := by
  simp [isDeclare, Keyword, or_comm]

theorem interpretDeclare_sound {cfg : Config σ} {e : Ast} {s s' : State σ} {E : Env σ} {u : Unit}
    (h : interpretDeclare cfg e s = .ok (u, s')) (hl : Linked s E) : ∃ E', Declares cfg e E E' ∧ Linked s' E' := by
  unfold interpretDeclare at h
  split at h
  · rename_i k x t
    split at h
    · rename_i hk
      obtain ⟨sig, E', h1, -, h2, h3⟩ := addDeclaration_sound h hl
      exact ⟨E', .plain (isDeclare_iff.1 hk) h1 h2, h3⟩
    · rename_i hk
      obtain ⟨-, rfl⟩ := pure_ok.1 h
      exact ⟨E, .other (by rintro ⟨⟩; rename_i h; exact hk (isDeclare_iff.2 h)), hl⟩
  · rename_i k x t c
    split at h
    · rename_i hk
      obtain ⟨code, s1, h1, h2⟩ := bind_ok.1 h
      unfold compileScript at h1
      rw [hl.inner] at h1
      rcases hc : cfg.compile c E.inner with ⟨code', i⟩ | _ | _ | _ <;> simp only [hc] at h1
      · simp only [Res.ok.injEq, Prod.mk.injEq] at h1
        obtain ⟨rfl, rfl⟩ := h1
        obtain ⟨sig, E', h3, h4, h5, h6⟩ := addDeclaration_sound (E := { E with inner := i }) h2 ⟨hl.scopes, rfl⟩
        exact ⟨E', .script (isDeclare_iff.1 hk) h3 (h4 rfl).1 (h4 rfl).2 hc h5, h6⟩
      all_goals simp at h1
    · rename_i hk
      obtain ⟨-, rfl⟩ := pure_ok.1 h
      exact ⟨E, .other (by rintro ⟨⟩; rename_i h; exact hk (isDeclare_iff.2 h)), hl⟩
  · rename_i h1 h2
    obtain ⟨-, rfl⟩ := pure_ok.1 h
    exact ⟨E, .other (by rintro ⟨⟩; exacts [h1 _ _ _ rfl, h2 _ _ _ _ rfl]), hl⟩

theorem interpretDeclare_complete {cfg : Config σ} {e : Ast} {s : State σ} {E E' : Env σ} (h : Declares cfg e E E')
    (hl : Linked s E) : ∃ s', interpretDeclare cfg e s = .ok ((), s') ∧ Linked s' E' := by
  cases h with
  | other h =>
    refine ⟨s, ?_, hl⟩
    unfold interpretDeclare
    split
    · rw [if_neg fun hk => h (.plain _ _ _ (isDeclare_iff.1 hk))]; rfl
    · rw [if_neg fun hk => h (.script _ _ _ _ (isDeclare_iff.1 hk))]; rfl
    · rfl
  | plain hk ht hd =>
    simp only [interpretDeclare, isDeclare_iff.2 hk, if_true, compileAndAdd]
    exact addDeclaration_complete ht (by simp) hd hl
  | @script k x t c sig code i _ _ hk ht h1 h2 hc hd =>
    simp only [interpretDeclare, isDeclare_iff.2 hk, if_true, compileAndAdd]
    obtain ⟨s', h3, h4⟩ := addDeclaration_complete (s := ⟨s.scopes, i⟩) ht (fun _ => ⟨h1, h2⟩) hd ⟨hl.scopes, rfl⟩
    refine ⟨s', ?_, h4⟩
    rw [bind_eq (s1 := ⟨s.scopes, i⟩) (a := code)]
    · exact h3
    · simp only [compileScript, hl.inner, hc]

end DuckLisp.Infer
