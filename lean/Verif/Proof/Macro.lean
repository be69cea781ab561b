import Verif.Proof.Compile.Agree

/-!
# The compiler with macros agrees with the compiler without
-/

namespace DuckLisp.Macro

open DuckLisp.Asm DuckLisp.Reader DuckLisp.Compile

theorem keep_agrees : Concur (pure () : CM Unit) keep := by
  rintro ⟨⟩ hs
  obtain rfl := hs
  exact .inr ⟨rfl, fun a s' h => (Still.pure ()) _ _ _ h⟩

theorem replaced_agrees (e : Ast) : Concur (pure e : CM Ast) (replaced e) := by
  intro s hs
  refine .inr ⟨?_, Still.pure e s⟩
  show COut.ok _ s = COut.ok _ s
  rw [hs]

/-- What is put after a part. -/
theorem after_agrees {α : Type} {m m' : CM Unit} (h : Concur m m') (a : α) :
    Concur (m >>= fun _ => (pure a : CM α)) (m' >>= fun _ => keep >>= fun _ => pure a) := by
  refine Concur.bind h fun _ => ?_
  exact Concur.bind (f := fun _ => (pure a : CM α)) keep_agrees fun _ => Concur.of_still (Still.pure a)

theorem generate_agrees (c : Setting) {r r' : Rec} (hr : ConcurRec r r') (n : Nat) (es : List Ast) (g : Gen) :
    Concur (Compile.generate r n es g) (generate c r' n es g) := by
  cases g
  case defmacro => exact Concur.outside
  case comptime => exact Concur.outside
  all_goals exact Concur.generate hr _ _ _

theorem CM.bind_assoc {α β γ : Type} (m : CM α) (f : α → CM β) (g : β → CM γ) :
    (m >>= f) >>= g = m >>= fun a => f a >>= g := by
  funext s
  show CM.bind (CM.bind m f) g s = CM.bind m (fun a => CM.bind (f a) g) s
  unfold CM.bind
  rcases m s with ⟨a, s1⟩ | _ | _ | _ | _ <;> rfl

theorem get_agrees {α : Type} {f f' : CState → CM α} (h : ∀ s, Concur (f s) (f' s)) :
    Concur (get >>= f) (get >>= f') := Concur.bind (Concur.of_still Still.get) h

theorem dispatch_agrees (cfg : Compile.Config) (c : Setting) {r r' : Rec} (hr : ConcurRec r r') (n : Nat) (name : Bytes)
    (es : List Ast) :
    Concur (Compile.dispatch cfg r n name es >>= fun _ => (pure none : CM (Option Int)))
      (dispatch cfg c r' n name es) := by
  unfold Compile.dispatch dispatch
  rw [CM.bind_assoc]
  refine get_agrees fun s => ?_
  dsimp only
  by_cases h1 : functionType name s.scopes.current = functionTypeMacro
  · rw [if_pos h1, if_pos h1]
    exact fun _ _ => .inl rfl
  · rw [if_neg h1, if_neg h1]
    split
    · exact after_agrees (Concur.genCall hr _ _) none
    · split
      · exact after_agrees (m := Pure.pure ()) (m' := Pure.pure ()) (Concur.of_still (Still.pure _)) none
      · split
        · exact after_agrees (Concur.genCallback hr _ _) none
        · rcases hg : generator name with _ | g
          · exact after_agrees (Concur.genCall hr _ _) none
          · exact after_agrees (generate_agrees c hr _ _ _) none

theorem variable_still (name : Bytes) (b : Bool) : Still (genVariable name b) := by still genVariable

/-- The parts that are not expressions. -/
theorem leaf_still (cfg : Compile.Config) (n depth : Nat) (e : Ast) (he : ∀ es, e ≠ .expression es) (b : Bool) :
    Still (Compile.compound cfg (n + 1) depth e b) := by
  cases e <;> simp only [Compile.compound]
  case expression es => exact absurd rfl (he es)
  all_goals repeat' first | exact variable_still _ _ | still1

mutual
theorem compound_agrees (cfg : Compile.Config) (c : Setting) : ∀ n depth e b,
    Concur (Compile.compound cfg n depth e b) (compound cfg c n depth e b)
  | 0, _, _, _ => by
    simp only [Compile.compound, compound]
    exact Concur.of_still Still.timeout
  | n + 1, depth, e, b => by
    by_cases he : ∃ es, e = .expression es
    · obtain ⟨es, rfl⟩ := he
      simp only [Compile.compound, compound]
      split
      · exact Concur.of_still (Still.fail _)
      · have h := expression_agrees cfg c n (depth + 1) es
        have h1 := Concur.bind (f := fun o => match o with
            | some index => (pure (some index) : CM (Option Int))
            | none => localsLength >>= fun l => pure (some ((l : Int) - 1))) h fun o => Concur.of_still (by repeat' still1)
        rw [CM.bind_assoc] at h1
        exact h1
    · have he' : ∀ es, e ≠ .expression es := fun es h => he ⟨es, h⟩
      have h := leaf_still cfg n depth e he' b
      have h1 : Concur (Compile.compound cfg (n + 1) depth e b)
          (if depth + 1 ≥ cfg.maxDepth then CM.fail .bufferOverflow
            else Compile.compound cfg (n + 1) depth e b >>= fun index => keep >>= fun _ => pure index) := by
        split
        · rename_i hd
          have : Compile.compound cfg (n + 1) depth e b = CM.fail .bufferOverflow := by
            unfold Compile.compound
            rw [if_pos hd]
          rw [this]
          exact Concur.of_still (Still.fail _)
        · have h2 := Concur.bind (f := fun i => (pure () : CM Unit) >>= fun _ => (pure i : CM (Option Int))) (Concur.of_still h)
            fun i => Concur.bind (f' := fun _ => (pure i : CM (Option Int))) keep_agrees
              fun _ => Concur.of_still (Still.pure i)
          have h3 : (Compile.compound cfg (n + 1) depth e b >>= fun i => (pure () : CM Unit) >>= fun _ => (pure i : CM (Option Int)))
              = Compile.compound cfg (n + 1) depth e b := by
            funext s
            show CM.bind _ _ s = _
            unfold CM.bind
            rcases Compile.compound cfg (n + 1) depth e b s with ⟨a, s1⟩ | _ | _ | _ | _ <;> rfl
          rw [h3] at h2
          exact h2
      cases e <;> first | exact absurd rfl (he' _) | skip
      all_goals simp only [compound]; exact h1
theorem expression_agrees (cfg : Compile.Config) (c : Setting) : ∀ n depth es,
    Concur (Compile.expression cfg n depth es >>= fun _ => (pure none : CM (Option Int))) (expression cfg c n depth es)
  | 0, _, _ => by
    simp only [Compile.expression, expression]
    exact fun s _ => .inr ⟨rfl, nofun⟩
  | n + 1, depth, es => by
    have hr : ConcurRec ⟨Compile.compound cfg n depth, Compile.expression cfg n depth, Pure.pure⟩
        ⟨compound cfg c n depth, fun es => expression cfg c n depth es >>= fun _ => Pure.pure (), replaced⟩ := by
      refine ⟨compound_agrees cfg c n depth, fun es => ?_, replaced_agrees⟩
      have h := Concur.bind (expression_agrees cfg c n depth es) (f := fun _ => (Pure.pure () : CM Unit))
        (f' := fun _ => Pure.pure ()) fun _ => Concur.of_still (Still.pure _)
      rw [CM.bind_assoc] at h
      intro s hs
      have h := h s hs
      have : (Compile.expression cfg n depth es >>= fun _ => (Pure.pure none : CM (Option Int)) >>= fun _ => (Pure.pure () : CM Unit)) s
          = Compile.expression cfg n depth es s := by
        show CM.bind _ _ s = _
        unfold CM.bind
        rcases Compile.expression cfg n depth es s with ⟨a, s1⟩ | _ | _ | _ | _ <;> rfl
      rw [this] at h
      exact h
    unfold Compile.expression expression
    dsimp only
    rcases es with _ | ⟨e, es⟩
    · exact after_agrees (Concur.of_still (by repeat' still1)) none
    · cases e
      case identifier => exact dispatch_agrees cfg c hr _ _ _
      all_goals first
        | exact after_agrees (Concur.genExpression hr _ _) none
        | exact after_agrees (m := Pure.pure ()) (m' := Pure.pure ()) (Concur.of_still (Still.pure _)) none
end

theorem compileAST_agrees (cfg : Compile.Config) (c : Setting) (n : Nat) (e : Ast) :
    Concur (Compile.compileAST cfg n e) (compileAST cfg c n e) := by
  unfold Compile.compileAST compileAST
  repeat' first | exact compound_agrees cfg c _ _ _ _ | agrees1

theorem compileProgram_agrees (cfg : Load.Config) (c : Setting) (e : Ast) (s : Load.State)
    (h : Load.compileProgram cfg e s ≠ .outside) :
    compileProgram cfg c e s = Load.compileProgram cfg e s ∧
      ∀ bytes s', Load.compileProgram cfg e s = .code bytes s' → s'.compiler.machine = s.compiler.machine := by
  unfold compileProgram Load.compileProgram at *
  rcases compileAST_agrees cfg.compiler c cfg.fuel e s.compiler.renew rfl with h1 | ⟨h1, h2⟩
  · rw [h1] at h
    exact absurd rfl h
  · rw [h1]
    refine ⟨rfl, fun bytes s' => ?_⟩
    intro e2
    rcases e1 : Compile.compileAST cfg.compiler cfg.fuel e s.compiler.renew with ⟨a, s1⟩ | _ | _ | _ | _ <;>
      rw [e1] at e2 <;> dsimp only at e2 <;> try cases e2
    have h3 := (h2 a s1 e1).machine
    rcases e4 : Asm.assemble cfg.assembler s1.scopes.runtime.labelNumber s1.assembly with _ | _ | _ | _ <;>
      rw [e4] at e2 <;> dsimp only at e2 <;> cases e2
    exact h3

end DuckLisp.Macro
