import Verif.Proof.Compile.State

/-!
# The counter of generated names never goes back, and no name is forgotten
-/

namespace DuckLisp.Compile

open DuckLisp.Asm DuckLisp.Reader

/-- The counter does not go back, and the tables of names grow. -/
structure Le (s s' : CState) : Prop where
  gensym : s.gensymNumber ≤ s'.gensymNumber
  tables : ∀ h, Tabled s h → ∃ more, Tabled s' (h ++ more)

theorem Le.refl (s : CState) : Le s s := ⟨Nat.le_refl _, fun h ht => ⟨[], by simpa using ht⟩⟩

theorem Le.trans {a b c : CState} (h : Le a b) (g : Le b c) : Le a c := by
  refine ⟨Nat.le_trans h.gensym g.gensym, fun hist ht => ?_⟩
  obtain ⟨m, hm⟩ := h.tables hist ht
  obtain ⟨m', hm'⟩ := g.tables _ hm
  exact ⟨m ++ m', by rwa [← List.append_assoc]⟩

/-- The counter and the tables are the same. -/
structure SameTables (s s' : CState) : Prop where
  gensym : s'.gensymNumber = s.gensymNumber
  symbols : s'.symbols = s.symbols
  runtime : s'.runtimeGlobals = s.runtimeGlobals
  comptime : s'.comptimeGlobals = s.comptimeGlobals

theorem SameTables.le {s s' : CState} (h : SameTables s s') : Le s s' :=
  ⟨Nat.le_of_eq h.gensym.symm, fun hist ht => ⟨[], by
    refine ⟨?_, ?_, ?_⟩
    · rw [h.symbols]; simpa using ht.made
    · rw [h.symbols, h.runtime]; exact ht.runtime
    · rw [h.symbols, h.comptime]; exact ht.comptime⟩⟩

/-- A part of the compiler that does not set the counter back and forgets no name. -/
def Mono {α : Type} (m : CM α) : Prop := ∀ s a s', m s = .ok a s' → Le s s'

theorem Mono.bind {α β : Type} {m : CM α} {f : α → CM β} (h : Mono m) (g : ∀ a, Mono (f a)) : Mono (m >>= f) := by
  intro s b s' e
  obtain ⟨a, s1, e1, e2⟩ := CM.bind_inv e
  exact (h s a s1 e1).trans (g a s1 b s' e2)

theorem Mono.pure {α : Type} (a : α) : Mono (pure a : CM α) := by
  intro s b s' e
  obtain ⟨-, rfl⟩ := CM.pure_inv e
  exact Le.refl _

theorem Mono.fail {α : Type} (e : DlError) : Mono (CM.fail e : CM α) := by intro s b s' h; cases h
theorem Mono.outside {α : Type} : Mono (CM.outside : CM α) := by intro s b s' h; cases h
theorem Mono.ub {α : Type} : Mono (CM.ub : CM α) := by intro s b s' h; cases h
theorem Mono.timeout {α : Type} : Mono (CM.timeout : CM α) := by intro s b s' h; cases h
theorem Mono.get : Mono get := by intro s b s' h; cases h; exact Le.refl _

theorem Mono.modify {f : CState → CState} (h : ∀ s, SameTables s (f s)) : Mono (modify f) := by
  intro s b s' e
  cases e
  exact (h s).le

theorem Mono.localsLength : Mono localsLength := by intro s b s' h; cases h; exact Le.refl _

theorem Mono.gensym : Mono gensym := by
  intro s b s' h
  cases h
  exact ⟨Nat.le_succ _, fun hist ht => ⟨[], by simpa using ht.1, ht.2, ht.3⟩⟩

theorem Mono.closeScope : Mono closeScope := by
  intro s b s' h
  unfold Compile.closeScope at h
  split at h <;> cases h
  exact SameTables.le ⟨rfl, rfl, rfl, rfl⟩

theorem Mono.intern (name : Bytes) : Mono (intern name) := by
  intro s b s' h
  refine ⟨?_, fun hist ht => ⟨_, (intern_tables ht h).1⟩⟩
  unfold Compile.intern at h
  split at h <;> cases h
  exact Nat.le_refl _

theorem Mono.addGlobal (name : Bytes) : Mono (addGlobal name) := by
  intro s b s' h
  refine ⟨?_, fun hist ht => ⟨_, (addGlobal_tables ht h).1⟩⟩
  obtain ⟨k, s1, e1, e2⟩ := CM.bind_inv h
  have h1 := (Mono.intern name s k s1 e1).gensym
  obtain ⟨_, s2, e3, e4⟩ := CM.bind_inv e2
  obtain ⟨-, rfl⟩ := CM.pure_inv e4
  unfold Compile.modify at e3
  cases e3
  dsimp only
  split <;> exact h1

theorem Mono.globalFromName (name : Bytes) : Mono (globalFromName name) := by
  intro s b s' h
  cases h
  exact Le.refl _

theorem Mono.place (fo : Bool) (name : Bytes) : Mono (place fo name) := by
  intro s b s' h
  unfold Compile.place at h
  dsimp only at h
  split at h
  · cases h; exact Le.refl _
  · split at h <;> cases h <;> exact SameTables.le ⟨rfl, rfl, rfl, rfl⟩

theorem Mono.put (i : Ins) : Mono (put i) := by
  refine Mono.modify fun s => ?_
  split <;> exact ⟨rfl, rfl, rfl, rfl⟩

/-- One step of a proof of `Mono`. -/
syntax "mono1" : tactic
macro_rules | `(tactic| mono1) => `(tactic| first
  | (with_reducible assumption) | (with_reducible refine Mono.bind ?_ fun _ => ?_) | split
  | exact Mono.modify fun _ => ⟨rfl, rfl, rfl, rfl⟩ | exact Mono.modify fun _ => by split <;> exact ⟨rfl, rfl, rfl, rfl⟩
  | dsimp only)
macro_rules | `(tactic| mono1) => `(tactic| with_reducible exact Mono.pure _)
macro_rules | `(tactic| mono1) => `(tactic| with_reducible exact Mono.fail _)
macro_rules | `(tactic| mono1) => `(tactic| with_reducible exact Mono.outside)
macro_rules | `(tactic| mono1) => `(tactic| with_reducible exact Mono.ub)
macro_rules | `(tactic| mono1) => `(tactic| with_reducible exact Mono.timeout)
macro_rules | `(tactic| mono1) => `(tactic| with_reducible exact Mono.get)
macro_rules | `(tactic| mono1) => `(tactic| with_reducible exact Mono.localsLength)
macro_rules | `(tactic| mono1) => `(tactic| with_reducible exact Mono.gensym)
macro_rules | `(tactic| mono1) => `(tactic| with_reducible exact Mono.closeScope)
macro_rules | `(tactic| mono1) => `(tactic| with_reducible exact Mono.intern _)
macro_rules | `(tactic| mono1) => `(tactic| with_reducible exact Mono.globalFromName _)
macro_rules | `(tactic| mono1) => `(tactic| with_reducible exact Mono.place _ _)
macro_rules | `(tactic| mono1) => `(tactic| with_reducible exact Mono.put _)

/-- A proof of `Mono` for a definition that is given. -/
macro "mono" d:ident : tactic => `(tactic| (unfold $d; repeat' mono1))

theorem Mono.setLocalsLength (n : Nat) : Mono (setLocalsLength n) := by mono Compile.setLocalsLength
macro_rules | `(tactic| mono1) => `(tactic| with_reducible exact Mono.setLocalsLength _)
theorem Mono.increment : Mono (increment) := by mono Compile.increment
macro_rules | `(tactic| mono1) => `(tactic| with_reducible exact Mono.increment)
theorem Mono.decrease (n : Nat) : Mono (decrease n) := by mono Compile.decrease
macro_rules | `(tactic| mono1) => `(tactic| with_reducible exact Mono.decrease _)
theorem Mono.operand (i : Int) : Mono (operand i) := by mono Compile.operand
macro_rules | `(tactic| mono1) => `(tactic| with_reducible exact Mono.operand _)
theorem Mono.emitPush (i : Ins) : Mono (emitPush i) := by mono Compile.emitPush
macro_rules | `(tactic| mono1) => `(tactic| with_reducible exact Mono.emitPush _)
theorem Mono.emitUnary (f : Int → Ins) (a : Int) : Mono (emitUnary f a) := by mono Compile.emitUnary
macro_rules | `(tactic| mono1) => `(tactic| with_reducible exact Mono.emitUnary _ _)
theorem Mono.emitBinary (f : Int → Int → Ins) (a b : Int) : Mono (emitBinary f a b) := by mono Compile.emitBinary
macro_rules | `(tactic| mono1) => `(tactic| with_reducible exact Mono.emitBinary _ _ _)
theorem Mono.emitTernary (f : Int → Int → Int → Ins) (a b c : Int) : Mono (emitTernary f a b c) := by mono Compile.emitTernary
macro_rules | `(tactic| mono1) => `(tactic| with_reducible exact Mono.emitTernary _ _ _ _)
theorem Mono.emitNil : Mono (emitNil) := by mono Compile.emitNil
macro_rules | `(tactic| mono1) => `(tactic| with_reducible exact Mono.emitNil)
theorem Mono.emitNop : Mono (emitNop) := by mono Compile.emitNop
macro_rules | `(tactic| mono1) => `(tactic| with_reducible exact Mono.emitNop)
theorem Mono.emitVector (is : List Int) : Mono (emitVector is) := by mono Compile.emitVector
macro_rules | `(tactic| mono1) => `(tactic| with_reducible exact Mono.emitVector _)
theorem Mono.emitReturn (n : Nat) : Mono (emitReturn n) := by mono Compile.emitReturn
macro_rules | `(tactic| mono1) => `(tactic| with_reducible exact Mono.emitReturn _)
theorem Mono.emitExit : Mono (emitExit) := by mono Compile.emitExit
macro_rules | `(tactic| mono1) => `(tactic| with_reducible exact Mono.emitExit)
theorem Mono.emitPop (n : Nat) : Mono (emitPop n) := by mono Compile.emitPop
macro_rules | `(tactic| mono1) => `(tactic| with_reducible exact Mono.emitPop _)
theorem Mono.emitSetStatic (a b : Int) : Mono (emitSetStatic a b) := by mono Compile.emitSetStatic
macro_rules | `(tactic| mono1) => `(tactic| with_reducible exact Mono.emitSetStatic _ _)
theorem Mono.emitMove (a b : Int) : Mono (emitMove a b) := by mono Compile.emitMove
macro_rules | `(tactic| mono1) => `(tactic| with_reducible exact Mono.emitMove _ _)
theorem Mono.emitPushString (s : Bytes) : Mono (emitPushString s) := by mono Compile.emitPushString
macro_rules | `(tactic| mono1) => `(tactic| with_reducible exact Mono.emitPushString _)
theorem Mono.emitPushSymbol (i : Int) (s : Bytes) : Mono (emitPushSymbol i s) := by mono Compile.emitPushSymbol
macro_rules | `(tactic| mono1) => `(tactic| with_reducible exact Mono.emitPushSymbol _ _)
theorem Mono.emitPushClosure (v : Bool) (l a : Nat) (c : List Int) : Mono (emitPushClosure v l a c) := by mono Compile.emitPushClosure
macro_rules | `(tactic| mono1) => `(tactic| with_reducible exact Mono.emitPushClosure _ _ _ _)
theorem Mono.emitReleaseUpvalues (c : List Int) : Mono (emitReleaseUpvalues c) := by mono Compile.emitReleaseUpvalues
macro_rules | `(tactic| mono1) => `(tactic| with_reducible exact Mono.emitReleaseUpvalues _)
theorem Mono.emitPushIndex (a : Int) : Mono (emitPushIndex a) := by mono Compile.emitPushIndex
macro_rules | `(tactic| mono1) => `(tactic| with_reducible exact Mono.emitPushIndex _)
theorem Mono.emitSetUpvalue (a b : Int) : Mono (emitSetUpvalue a b) := by mono Compile.emitSetUpvalue
macro_rules | `(tactic| mono1) => `(tactic| with_reducible exact Mono.emitSetUpvalue _ _)
theorem Mono.emitFuncall (a : Int) (b : Nat) : Mono (emitFuncall a b) := by mono Compile.emitFuncall
macro_rules | `(tactic| mono1) => `(tactic| with_reducible exact Mono.emitFuncall _ _)
theorem Mono.emitApply (a : Int) (b : Nat) : Mono (emitApply a b) := by mono Compile.emitApply
macro_rules | `(tactic| mono1) => `(tactic| with_reducible exact Mono.emitApply _ _)
theorem Mono.labelNumber (s : Bytes) : Mono (labelNumber s) := by mono Compile.labelNumber
macro_rules | `(tactic| mono1) => `(tactic| with_reducible exact Mono.labelNumber _)
theorem Mono.emitBrnz (s : Bytes) (p : Int) : Mono (emitBrnz s p) := by mono Compile.emitBrnz
macro_rules | `(tactic| mono1) => `(tactic| with_reducible exact Mono.emitBrnz _ _)
theorem Mono.emitJump (s : Bytes) : Mono (emitJump s) := by mono Compile.emitJump
macro_rules | `(tactic| mono1) => `(tactic| with_reducible exact Mono.emitJump _)
theorem Mono.emitLabel (s : Bytes) : Mono (emitLabel s) := by mono Compile.emitLabel
macro_rules | `(tactic| mono1) => `(tactic| with_reducible exact Mono.emitLabel _)
theorem Mono.initialized (i : Option Int) : Mono (initialized i) := by mono Compile.initialized
macro_rules | `(tactic| mono1) => `(tactic| with_reducible exact Mono.initialized _)
theorem Mono.checkArgs (es : List Ast) (n : Nat) (v : Bool) : Mono (checkArgs es n v) := by mono Compile.checkArgs
macro_rules | `(tactic| mono1) => `(tactic| with_reducible exact Mono.checkArgs _ _ _)
theorem Mono.register (s : Bytes) : Mono (register s) := by mono Compile.register
macro_rules | `(tactic| mono1) => `(tactic| with_reducible exact Mono.register _)
theorem Mono.openScope (b : Bool) : Mono (openScope b) := by mono Compile.openScope
macro_rules | `(tactic| mono1) => `(tactic| with_reducible exact Mono.openScope _)
macro_rules | `(tactic| mono1) => `(tactic| with_reducible exact Mono.addGlobal _)
theorem Mono.globalKey (s : Bytes) : Mono (globalKey s) := by mono Compile.globalKey
macro_rules | `(tactic| mono1) => `(tactic| with_reducible exact Mono.globalKey _)
theorem Mono.topScope : Mono (topScope) := by mono Compile.topScope
macro_rules | `(tactic| mono1) => `(tactic| with_reducible exact Mono.topScope)
theorem Mono.addVariable (s : Bytes) : Mono (addVariable s) := by mono Compile.addVariable
macro_rules | `(tactic| mono1) => `(tactic| with_reducible exact Mono.addVariable _)
theorem Mono.addFunction (s : Bytes) : Mono (addFunction s) := by mono Compile.addFunction
macro_rules | `(tactic| mono1) => `(tactic| with_reducible exact Mono.addFunction _)
theorem Mono.settle (n : Nat) : Mono (settle n) := by mono Compile.settle
macro_rules | `(tactic| mono1) => `(tactic| with_reducible exact Mono.settle _)
theorem Mono.settleBranch (n : Nat) : Mono (settleBranch n) := by mono Compile.settleBranch
macro_rules | `(tactic| mono1) => `(tactic| with_reducible exact Mono.settleBranch _)

theorem Mono.pushAgain : ∀ n, Mono (pushAgain n)
  | 0 => Mono.pure _
  | n + 1 => by
    have := Mono.pushAgain n
    mono Compile.pushAgain
macro_rules | `(tactic| mono1) => `(tactic| with_reducible exact Mono.pushAgain _)

mutual
theorem Mono.quoteTree (e : Ast) : Mono (quoteTree e) := by
  cases e with
  | expression es =>
    have := Mono.quoteElements es
    mono Compile.quoteTree
  | _ => mono Compile.quoteTree
theorem Mono.quoteElements (es : List Ast) : Mono (quoteElements es) := by
  cases es with
  | nil => mono Compile.quoteElements
  | cons e es =>
    have h1 := Mono.quoteElements es
    have h2 := Mono.quoteTree e
    mono Compile.quoteElements
end
macro_rules | `(tactic| mono1) => `(tactic| with_reducible exact Mono.quoteTree _)

theorem Mono.addParameters : ∀ es b, Mono (addParameters es b)
  | [], b => Mono.pure _
  | e :: es, b => by
    have := Mono.addParameters es
    cases e
    case identifier name =>
      unfold Compile.addParameters
      repeat' first | exact this _ | mono1
    all_goals mono Compile.addParameters
macro_rules | `(tactic| mono1) => `(tactic| with_reducible exact Mono.addParameters _ _)

/-! ## What a generator calls -/

/-- Both callees are so. -/
structure MonoRec (r : Rec) : Prop where
  compound : ∀ e b, Mono (r.compound e b)
  expression : ∀ es, Mono (r.expression es)
  left : ∀ e, Mono (r.left e)

macro_rules | `(tactic| mono1) => `(tactic| with_reducible first | exact MonoRec.compound ‹_› _ _ | exact MonoRec.expression ‹_› _ | exact MonoRec.left ‹_› _)

section
variable {r : Rec} (hr : MonoRec r)
include hr

theorem Mono.genListLoop : ∀ es i, Mono (genListLoop r es i)
  | [], _ => Mono.pure _
  | e :: es, i => by
    have := Mono.genListLoop es
    unfold Compile.genListLoop
    repeat' first | exact this _ | mono1

theorem Mono.genVectorLoop : ∀ es is, Mono (genVectorLoop r es is)
  | [], _ => Mono.pure _
  | e :: es, i => by
    have := Mono.genVectorLoop es
    unfold Compile.genVectorLoop
    repeat' first | exact this _ | mono1

theorem Mono.genArguments : ∀ es, Mono (genArguments r es)
  | [] => Mono.pure _
  | e :: es => by
    have := Mono.genArguments es
    unfold Compile.genArguments
    repeat' first | exact this | mono1

theorem Mono.createVar (es : List Ast) : Mono (createVar r es) := by mono Compile.createVar
macro_rules | `(tactic| mono1) => `(tactic| with_reducible exact Mono.createVar ‹_› _)
theorem Mono.genDefun (es : List Ast) : Mono (genDefun r es) := by mono Compile.genDefun
macro_rules | `(tactic| mono1) => `(tactic| with_reducible exact Mono.genDefun ‹_› _)

theorem Mono.afterForm {inner : List Ast → CM Unit} (hi : ∀ es, Mono (inner es)) (f : Ast) (start : Nat)
    (last : Bool) : Mono (afterForm r inner f start last) := by
  unfold Compile.afterForm
  repeat' first | exact hi _ | mono1

theorem Mono.noscopeForms {inner : List Ast → CM Unit} (hi : ∀ es, Mono (inner es)) :
    ∀ es, Mono (noscopeForms r inner es)
  | [] => Mono.pure _
  | e :: es => by
    have := Mono.noscopeForms hi es
    unfold Compile.noscopeForms
    repeat' first | exact this | exact Mono.afterForm hr hi _ _ _ | mono1

theorem Mono.noscope : ∀ n es, Mono (noscope r n es)
  | 0, _ => Mono.timeout
  | n + 1, es => by
    have := Mono.noscope n
    unfold Compile.noscope
    repeat' first | exact Mono.noscopeForms hr this _ | mono1
macro_rules | `(tactic| mono1) => `(tactic| with_reducible exact Mono.noscope ‹_› _ _)

theorem Mono.genExpression (n : Nat) (es : List Ast) : Mono (genExpression r n es) := by mono Compile.genExpression
macro_rules | `(tactic| mono1) => `(tactic| with_reducible exact Mono.genExpression ‹_› _ _)
theorem Mono.genLambda (n : Nat) (es : List Ast) : Mono (genLambda r n es) := by mono Compile.genLambda
theorem Mono.genCondition (c : Ast) : Mono (genCondition r c) := by mono Compile.genCondition
macro_rules | `(tactic| mono1) => `(tactic| with_reducible exact Mono.genCondition ‹_› _)
theorem Mono.genIfCondition (c : Ast) : Mono (genIfCondition r c) := by mono Compile.genIfCondition
macro_rules | `(tactic| mono1) => `(tactic| with_reducible exact Mono.genIfCondition ‹_› _)
macro_rules | `(tactic| mono1) => `(tactic| with_reducible exact Mono.genArguments ‹_› _)
macro_rules | `(tactic| mono1) => `(tactic| with_reducible exact Mono.genListLoop ‹_› _ _)
macro_rules | `(tactic| mono1) => `(tactic| with_reducible exact Mono.genVectorLoop ‹_› _ _)
theorem Mono.genCall (name : Bytes) (es : List Ast) : Mono (genCall r name es) := by mono Compile.genCall
theorem Mono.genCallback (name : Bytes) (es : List Ast) : Mono (genCallback r name es) := by mono Compile.genCallback

theorem Mono.generate (n : Nat) (es : List Ast) (g : Gen) : Mono (generate r n es g) := by
  cases g <;> simp only [Compile.generate]
  case funcall => mono Compile.genFuncall
  case apply => mono Compile.genApply
  case global => mono Compile.genGlobal
  case setq => mono Compile.genSetq
  case op1 => mono Compile.genUnary
  case op2 => mono Compile.genBinary
  case op3 => mono Compile.genTernary
  case while_ => mono Compile.genWhile
  case if_ => mono Compile.genIf
  case when_ => mono Compile.genWhen
  case unless_ => mono Compile.genUnless
  case lambda => exact Mono.genLambda hr _ _
  case quote => mono Compile.genQuote
  case list => mono Compile.genList
  case vector => mono Compile.genVector
  all_goals repeat' mono1

theorem Mono.dispatch (cfg : Config) (n : Nat) (name : Bytes) (es : List Ast) : Mono (dispatch cfg r n name es) := by
  unfold Compile.dispatch
  repeat' first | exact Mono.genCall hr _ _ | exact Mono.genCallback hr _ _ | exact Mono.generate hr _ _ _ | mono1

end

theorem Mono.genVariable (name : Bytes) (b : Bool) : Mono (genVariable name b) := by mono Compile.genVariable

mutual
theorem Mono.compound (cfg : Config) : ∀ n depth e b, Mono (compound cfg n depth e b)
  | 0, _, _, _ => Mono.timeout
  | n + 1, depth, e, b => by
    have := Mono.expression cfg n
    cases e <;> simp only [Compile.compound]
    all_goals repeat' first | exact this _ _ | exact Mono.genVariable _ _ | mono1
theorem Mono.expression (cfg : Config) : ∀ n depth es, Mono (expression cfg n depth es)
  | 0, _, _ => Mono.timeout
  | n + 1, depth, es => by
    have hr : MonoRec ⟨Compile.compound cfg n depth, Compile.expression cfg n depth, Pure.pure⟩ :=
      ⟨Mono.compound cfg n depth, Mono.expression cfg n depth, fun _ => Mono.pure _⟩
    unfold Compile.expression
    repeat' first | exact Mono.dispatch hr _ _ _ _ | exact Mono.genExpression hr _ _ | mono1
end

end DuckLisp.Compile
