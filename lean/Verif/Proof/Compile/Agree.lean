import Verif.Model.Macro
import Verif.Proof.Compile.Mono

/-!
# The compiler without macros agrees with the compiler
-/

namespace DuckLisp.Compile

open DuckLisp.Asm DuckLisp.Reader

/-! ## Parts that do not run code -/

/-- What only macros and compile-time code use stays as it is. -/
structure Untouched (s s' : CState) : Prop where
  machine : s'.machine = s.machine
  expansion : s'.expansion = s.expansion

theorem Untouched.refl (s : CState) : Untouched s s := ⟨rfl, rfl⟩

theorem Untouched.trans {a b c : CState} (h : Untouched a b) (g : Untouched b c) : Untouched a c :=
  ⟨g.machine.trans h.machine, g.expansion.trans h.expansion⟩

/-- A part of the compiler that leaves it as it is. -/
def Still {α : Type} (m : CM α) : Prop := ∀ s a s', m s = .ok a s' → Untouched s s'

theorem Still.bind {α β : Type} {m : CM α} {f : α → CM β} (h : Still m) (g : ∀ a, Still (f a)) : Still (m >>= f) := by
  intro s b s' e
  obtain ⟨a, s1, e1, e2⟩ := CM.bind_inv e
  exact (h s a s1 e1).trans (g a s1 b s' e2)

theorem Still.pure {α : Type} (a : α) : Still (pure a : CM α) := by
  intro s b s' e
  obtain ⟨-, rfl⟩ := CM.pure_inv e
  exact Untouched.refl _

theorem Still.fail {α : Type} (e : DlError) : Still (CM.fail e : CM α) := by intro s b s' h; cases h
theorem Still.outside {α : Type} : Still (CM.outside : CM α) := by intro s b s' h; cases h
theorem Still.ub {α : Type} : Still (CM.ub : CM α) := by intro s b s' h; cases h
theorem Still.timeout {α : Type} : Still (CM.timeout : CM α) := by intro s b s' h; cases h
theorem Still.get : Still get := by intro s b s' h; cases h; exact Untouched.refl _

theorem Still.modify {f : CState → CState} (h : ∀ s, Untouched s (f s)) : Still (modify f) := by
  intro s b s' e
  cases e
  exact h s

theorem Still.localsLength : Still localsLength := by intro s b s' h; cases h; exact Untouched.refl _

theorem Still.gensym : Still gensym := by intro s b s' h; cases h; exact ⟨rfl, rfl⟩

theorem Still.closeScope : Still closeScope := by
  intro s b s' h
  unfold Compile.closeScope at h
  split at h <;> cases h
  exact ⟨rfl, rfl⟩

theorem Still.intern (name : Bytes) : Still (intern name) := by
  intro s b s' h
  unfold Compile.intern at h
  split at h <;> cases h
  exact ⟨rfl, rfl⟩

theorem Still.globalFromName (name : Bytes) : Still (globalFromName name) := by
  intro s b s' h
  cases h
  exact Untouched.refl _

theorem Still.place (fo : Bool) (name : Bytes) : Still (place fo name) := by
  intro s b s' h
  unfold Compile.place at h
  dsimp only at h
  split at h
  · cases h; exact Untouched.refl _
  · split at h <;> cases h <;> exact ⟨rfl, rfl⟩

theorem Still.put (i : Ins) : Still (put i) := by
  refine Still.modify fun s => ?_
  split <;> exact ⟨rfl, rfl⟩

/-- One step of a proof of `Still`. -/
syntax "still1" : tactic
macro_rules | `(tactic| still1) => `(tactic| first
  | (with_reducible assumption) | (with_reducible refine Still.bind ?_ fun _ => ?_) | split
  | exact Still.modify fun _ => ⟨rfl, rfl⟩ | exact Still.modify fun _ => by split <;> exact ⟨rfl, rfl⟩
  | dsimp only)
macro_rules | `(tactic| still1) => `(tactic| with_reducible exact Still.pure _)
macro_rules | `(tactic| still1) => `(tactic| with_reducible exact Still.fail _)
macro_rules | `(tactic| still1) => `(tactic| with_reducible exact Still.outside)
macro_rules | `(tactic| still1) => `(tactic| with_reducible exact Still.ub)
macro_rules | `(tactic| still1) => `(tactic| with_reducible exact Still.timeout)
macro_rules | `(tactic| still1) => `(tactic| with_reducible exact Still.get)
macro_rules | `(tactic| still1) => `(tactic| with_reducible exact Still.localsLength)
macro_rules | `(tactic| still1) => `(tactic| with_reducible exact Still.gensym)
macro_rules | `(tactic| still1) => `(tactic| with_reducible exact Still.closeScope)
macro_rules | `(tactic| still1) => `(tactic| with_reducible exact Still.intern _)
macro_rules | `(tactic| still1) => `(tactic| with_reducible exact Still.globalFromName _)
macro_rules | `(tactic| still1) => `(tactic| with_reducible exact Still.place _ _)
macro_rules | `(tactic| still1) => `(tactic| with_reducible exact Still.put _)

/-- A proof of `Still` for a definition that is given. -/
macro "still" d:ident : tactic => `(tactic| (unfold $d; repeat' still1))

theorem Still.setLocalsLength (n : Nat) : Still (setLocalsLength n) := by still Compile.setLocalsLength
macro_rules | `(tactic| still1) => `(tactic| with_reducible exact Still.setLocalsLength _)
theorem Still.increment : Still (increment) := by still Compile.increment
macro_rules | `(tactic| still1) => `(tactic| with_reducible exact Still.increment)
theorem Still.decrease (n : Nat) : Still (decrease n) := by still Compile.decrease
macro_rules | `(tactic| still1) => `(tactic| with_reducible exact Still.decrease _)
theorem Still.operand (i : Int) : Still (operand i) := by still Compile.operand
macro_rules | `(tactic| still1) => `(tactic| with_reducible exact Still.operand _)
theorem Still.emitPush (i : Ins) : Still (emitPush i) := by still Compile.emitPush
macro_rules | `(tactic| still1) => `(tactic| with_reducible exact Still.emitPush _)
theorem Still.emitUnary (f : Int → Ins) (a : Int) : Still (emitUnary f a) := by still Compile.emitUnary
macro_rules | `(tactic| still1) => `(tactic| with_reducible exact Still.emitUnary _ _)
theorem Still.emitBinary (f : Int → Int → Ins) (a b : Int) : Still (emitBinary f a b) := by still Compile.emitBinary
macro_rules | `(tactic| still1) => `(tactic| with_reducible exact Still.emitBinary _ _ _)
theorem Still.emitTernary (f : Int → Int → Int → Ins) (a b c : Int) : Still (emitTernary f a b c) := by still Compile.emitTernary
macro_rules | `(tactic| still1) => `(tactic| with_reducible exact Still.emitTernary _ _ _ _)
theorem Still.emitNil : Still (emitNil) := by still Compile.emitNil
macro_rules | `(tactic| still1) => `(tactic| with_reducible exact Still.emitNil)
theorem Still.emitNop : Still (emitNop) := by still Compile.emitNop
macro_rules | `(tactic| still1) => `(tactic| with_reducible exact Still.emitNop)
theorem Still.emitVector (is : List Int) : Still (emitVector is) := by still Compile.emitVector
macro_rules | `(tactic| still1) => `(tactic| with_reducible exact Still.emitVector _)
theorem Still.emitReturn (n : Nat) : Still (emitReturn n) := by still Compile.emitReturn
macro_rules | `(tactic| still1) => `(tactic| with_reducible exact Still.emitReturn _)
theorem Still.emitExit : Still (emitExit) := by still Compile.emitExit
macro_rules | `(tactic| still1) => `(tactic| with_reducible exact Still.emitExit)
theorem Still.emitPop (n : Nat) : Still (emitPop n) := by still Compile.emitPop
macro_rules | `(tactic| still1) => `(tactic| with_reducible exact Still.emitPop _)
theorem Still.emitSetStatic (a b : Int) : Still (emitSetStatic a b) := by still Compile.emitSetStatic
macro_rules | `(tactic| still1) => `(tactic| with_reducible exact Still.emitSetStatic _ _)
theorem Still.emitMove (a b : Int) : Still (emitMove a b) := by still Compile.emitMove
macro_rules | `(tactic| still1) => `(tactic| with_reducible exact Still.emitMove _ _)
theorem Still.emitPushString (s : Bytes) : Still (emitPushString s) := by still Compile.emitPushString
macro_rules | `(tactic| still1) => `(tactic| with_reducible exact Still.emitPushString _)
theorem Still.emitPushSymbol (i : Int) (s : Bytes) : Still (emitPushSymbol i s) := by still Compile.emitPushSymbol
macro_rules | `(tactic| still1) => `(tactic| with_reducible exact Still.emitPushSymbol _ _)
theorem Still.emitPushClosure (v : Bool) (l a : Nat) (c : List Int) : Still (emitPushClosure v l a c) := by still Compile.emitPushClosure
macro_rules | `(tactic| still1) => `(tactic| with_reducible exact Still.emitPushClosure _ _ _ _)
theorem Still.emitReleaseUpvalues (c : List Int) : Still (emitReleaseUpvalues c) := by still Compile.emitReleaseUpvalues
macro_rules | `(tactic| still1) => `(tactic| with_reducible exact Still.emitReleaseUpvalues _)
theorem Still.emitPushIndex (a : Int) : Still (emitPushIndex a) := by still Compile.emitPushIndex
macro_rules | `(tactic| still1) => `(tactic| with_reducible exact Still.emitPushIndex _)
theorem Still.emitSetUpvalue (a b : Int) : Still (emitSetUpvalue a b) := by still Compile.emitSetUpvalue
macro_rules | `(tactic| still1) => `(tactic| with_reducible exact Still.emitSetUpvalue _ _)
theorem Still.emitFuncall (a : Int) (b : Nat) : Still (emitFuncall a b) := by still Compile.emitFuncall
macro_rules | `(tactic| still1) => `(tactic| with_reducible exact Still.emitFuncall _ _)
theorem Still.emitApply (a : Int) (b : Nat) : Still (emitApply a b) := by still Compile.emitApply
macro_rules | `(tactic| still1) => `(tactic| with_reducible exact Still.emitApply _ _)
theorem Still.labelNumber (s : Bytes) : Still (labelNumber s) := by still Compile.labelNumber
macro_rules | `(tactic| still1) => `(tactic| with_reducible exact Still.labelNumber _)
theorem Still.emitBrnz (s : Bytes) (p : Int) : Still (emitBrnz s p) := by still Compile.emitBrnz
macro_rules | `(tactic| still1) => `(tactic| with_reducible exact Still.emitBrnz _ _)
theorem Still.emitJump (s : Bytes) : Still (emitJump s) := by still Compile.emitJump
macro_rules | `(tactic| still1) => `(tactic| with_reducible exact Still.emitJump _)
theorem Still.emitLabel (s : Bytes) : Still (emitLabel s) := by still Compile.emitLabel
macro_rules | `(tactic| still1) => `(tactic| with_reducible exact Still.emitLabel _)
theorem Still.initialized (i : Option Int) : Still (initialized i) := by still Compile.initialized
macro_rules | `(tactic| still1) => `(tactic| with_reducible exact Still.initialized _)
theorem Still.checkArgs (es : List Ast) (n : Nat) (v : Bool) : Still (checkArgs es n v) := by still Compile.checkArgs
macro_rules | `(tactic| still1) => `(tactic| with_reducible exact Still.checkArgs _ _ _)
theorem Still.register (s : Bytes) : Still (register s) := by still Compile.register
macro_rules | `(tactic| still1) => `(tactic| with_reducible exact Still.register _)
theorem Still.openScope (b : Bool) : Still (openScope b) := by still Compile.openScope
macro_rules | `(tactic| still1) => `(tactic| with_reducible exact Still.openScope _)
theorem Still.addGlobal (s : Bytes) : Still (addGlobal s) := by still Compile.addGlobal
macro_rules | `(tactic| still1) => `(tactic| with_reducible exact Still.addGlobal _)
theorem Still.globalKey (s : Bytes) : Still (globalKey s) := by still Compile.globalKey
macro_rules | `(tactic| still1) => `(tactic| with_reducible exact Still.globalKey _)
theorem Still.topScope : Still (topScope) := by still Compile.topScope
macro_rules | `(tactic| still1) => `(tactic| with_reducible exact Still.topScope)
theorem Still.addVariable (s : Bytes) : Still (addVariable s) := by still Compile.addVariable
macro_rules | `(tactic| still1) => `(tactic| with_reducible exact Still.addVariable _)
theorem Still.addFunction (s : Bytes) : Still (addFunction s) := by still Compile.addFunction
macro_rules | `(tactic| still1) => `(tactic| with_reducible exact Still.addFunction _)
theorem Still.settle (n : Nat) : Still (settle n) := by still Compile.settle
macro_rules | `(tactic| still1) => `(tactic| with_reducible exact Still.settle _)
theorem Still.settleBranch (n : Nat) : Still (settleBranch n) := by still Compile.settleBranch
macro_rules | `(tactic| still1) => `(tactic| with_reducible exact Still.settleBranch _)

theorem Still.pushAgain : ∀ n, Still (pushAgain n)
  | 0 => Still.pure _
  | n + 1 => by
    have := Still.pushAgain n
    still Compile.pushAgain
macro_rules | `(tactic| still1) => `(tactic| with_reducible exact Still.pushAgain _)

mutual
theorem Still.quoteTree (e : Ast) : Still (quoteTree e) := by
  cases e with
  | expression es =>
    have := Still.quoteElements es
    still Compile.quoteTree
  | _ => still Compile.quoteTree
theorem Still.quoteElements (es : List Ast) : Still (quoteElements es) := by
  cases es with
  | nil => still Compile.quoteElements
  | cons e es =>
    have h1 := Still.quoteElements es
    have h2 := Still.quoteTree e
    still Compile.quoteElements
end
macro_rules | `(tactic| still1) => `(tactic| with_reducible exact Still.quoteTree _)

theorem Still.addParameters : ∀ es b, Still (addParameters es b)
  | [], b => Still.pure _
  | e :: es, b => by
    have := Still.addParameters es
    cases e
    case identifier name =>
      unfold Compile.addParameters
      repeat' first | exact this _ | still1
    all_goals still Compile.addParameters
macro_rules | `(tactic| still1) => `(tactic| with_reducible exact Still.addParameters _ _)

/-! ## The relation -/

/-- `m'` does what `m` does, except where `m` is not covered. -/
def Concur {α : Type} (m m' : CM α) : Prop := ∀ s, s.expansion = none →
  m s = .outside ∨ m' s = m s ∧ ∀ a s', m s = .ok a s' → Untouched s s'

theorem Concur.of_still {α : Type} {m : CM α} (h : Still m) : Concur m m := fun s _ => .inr ⟨rfl, h s⟩

theorem Concur.outside {α : Type} {m : CM α} : Concur CM.outside m := fun _ _ => .inl rfl

theorem Concur.bind {α β : Type} {m m' : CM α} {f f' : α → CM β} (h : Concur m m') (g : ∀ a, Concur (f a) (f' a)) :
    Concur (m >>= f) (m' >>= f') := by
  intro s hs
  show CM.bind m f s = _ ∨ CM.bind m' f' s = CM.bind m f s ∧ ∀ a s', CM.bind m f s = _ → _
  rcases h s hs with h | ⟨h1, h2⟩
  · left
    unfold CM.bind
    rw [h]
  · unfold CM.bind
    rw [h1]
    rcases e : m s with ⟨a, s1⟩ | e | _ | _ | _
    · have h3 := h2 a s1 e
      rcases g a s1 (h3.expansion.trans hs) with g | ⟨g1, g2⟩
      · exact .inl g
      · exact .inr ⟨g1, fun b s' e => h3.trans (g2 b s' e)⟩
    · exact .inr ⟨rfl, nofun⟩
    · exact .inr ⟨rfl, nofun⟩
    · exact .inl rfl
    · exact .inr ⟨rfl, nofun⟩

/-- One step of a proof of `Concur`. -/
syntax "agrees1" : tactic
macro_rules | `(tactic| agrees1) => `(tactic| first
  | (with_reducible assumption) | (with_reducible refine Concur.bind ?_ fun _ => ?_)
  | split | (refine Concur.of_still ?_; (repeat' still1); done) | exact Concur.outside | dsimp only)

/-- A proof of `Concur` for a definition that is given. -/
macro "agrees" d:ident : tactic => `(tactic| (unfold $d; repeat' agrees1))

/-- What the generators of the two compilers call. -/
structure ConcurRec (r r' : Rec) : Prop where
  compound : ∀ e b, Concur (r.compound e b) (r'.compound e b)
  expression : ∀ es, Concur (r.expression es) (r'.expression es)
  left : ∀ e, Concur (r.left e) (r'.left e)

macro_rules | `(tactic| agrees1) => `(tactic| with_reducible first | exact ConcurRec.compound ‹_› _ _ | exact ConcurRec.expression ‹_› _ | exact ConcurRec.left ‹_› _)

section
variable {r r' : Rec} (hr : ConcurRec r r')
include hr

theorem Concur.genListLoop : ∀ es i, Concur (genListLoop r es i) (genListLoop r' es i)
  | [], _ => Concur.of_still (Still.pure _)
  | e :: es, i => by
    have := Concur.genListLoop es
    unfold Compile.genListLoop
    repeat' first | exact this _ | agrees1

theorem Concur.genVectorLoop : ∀ es is, Concur (genVectorLoop r es is) (genVectorLoop r' es is)
  | [], _ => Concur.of_still (Still.pure _)
  | e :: es, i => by
    have := Concur.genVectorLoop es
    unfold Compile.genVectorLoop
    repeat' first | exact this _ | agrees1

theorem Concur.genArguments : ∀ es, Concur (genArguments r es) (genArguments r' es)
  | [] => Concur.of_still (Still.pure _)
  | e :: es => by
    have := Concur.genArguments es
    unfold Compile.genArguments
    repeat' first | exact this | agrees1

theorem Concur.createVar (es : List Ast) : Concur (createVar r es) (createVar r' es) := by agrees Compile.createVar
macro_rules | `(tactic| agrees1) => `(tactic| with_reducible exact Concur.createVar ‹_› _)
theorem Concur.genDefun (es : List Ast) : Concur (genDefun r es) (genDefun r' es) := by agrees Compile.genDefun
macro_rules | `(tactic| agrees1) => `(tactic| with_reducible exact Concur.genDefun ‹_› _)

theorem Concur.afterForm {inner inner' : List Ast → CM Unit} (hi : ∀ es, Concur (inner es) (inner' es)) (f : Ast) (start : Nat)
    (last : Bool) : Concur (afterForm r inner f start last) (afterForm r' inner' f start last) := by
  unfold Compile.afterForm
  repeat' first | exact hi _ | agrees1

theorem Concur.noscopeForms {inner inner' : List Ast → CM Unit} (hi : ∀ es, Concur (inner es) (inner' es)) :
    ∀ es, Concur (noscopeForms r inner es) (noscopeForms r' inner' es)
  | [] => Concur.of_still (Still.pure _)
  | e :: es => by
    have := Concur.noscopeForms hi es
    unfold Compile.noscopeForms
    repeat' first | exact this | exact Concur.afterForm hr hi _ _ _ | agrees1

theorem Concur.noscope : ∀ n es, Concur (noscope r n es) (noscope r' n es)
  | 0, _ => Concur.of_still Still.timeout
  | n + 1, es => by
    have := Concur.noscope n
    unfold Compile.noscope
    repeat' first | exact Concur.noscopeForms hr this _ | agrees1
macro_rules | `(tactic| agrees1) => `(tactic| with_reducible exact Concur.noscope ‹_› _ _)

theorem Concur.genExpression (n : Nat) (es : List Ast) : Concur (genExpression r n es) (genExpression r' n es) := by agrees Compile.genExpression
macro_rules | `(tactic| agrees1) => `(tactic| with_reducible exact Concur.genExpression ‹_› _ _)
theorem Concur.genLambda (n : Nat) (es : List Ast) : Concur (genLambda r n es) (genLambda r' n es) := by agrees Compile.genLambda
theorem Concur.genCondition (c : Ast) : Concur (genCondition r c) (genCondition r' c) := by agrees Compile.genCondition
macro_rules | `(tactic| agrees1) => `(tactic| with_reducible exact Concur.genCondition ‹_› _)
theorem Concur.genIfCondition (c : Ast) : Concur (genIfCondition r c) (genIfCondition r' c) := by agrees Compile.genIfCondition
macro_rules | `(tactic| agrees1) => `(tactic| with_reducible exact Concur.genIfCondition ‹_› _)
macro_rules | `(tactic| agrees1) => `(tactic| with_reducible exact Concur.genArguments ‹_› _)
macro_rules | `(tactic| agrees1) => `(tactic| with_reducible exact Concur.genListLoop ‹_› _ _)
macro_rules | `(tactic| agrees1) => `(tactic| with_reducible exact Concur.genVectorLoop ‹_› _ _)
theorem Concur.genCall (name : Bytes) (es : List Ast) : Concur (genCall r name es) (genCall r' name es) := by agrees Compile.genCall
theorem Concur.genCallback (name : Bytes) (es : List Ast) : Concur (genCallback r name es) (genCallback r' name es) := by agrees Compile.genCallback

theorem Concur.generate (n : Nat) (es : List Ast) (g : Gen) : Concur (generate r n es g) (generate r' n es g) := by
  cases g <;> simp only [Compile.generate]
  case funcall => agrees Compile.genFuncall
  case apply => agrees Compile.genApply
  case global => agrees Compile.genGlobal
  case setq => agrees Compile.genSetq
  case op1 => agrees Compile.genUnary
  case op2 => agrees Compile.genBinary
  case op3 => agrees Compile.genTernary
  case while_ => agrees Compile.genWhile
  case if_ => agrees Compile.genIf
  case when_ => agrees Compile.genWhen
  case unless_ => agrees Compile.genUnless
  case lambda => exact Concur.genLambda hr _ _
  case quote => agrees Compile.genQuote
  case list => agrees Compile.genList
  case vector => agrees Compile.genVector
  all_goals repeat' agrees1

end

end DuckLisp.Compile
