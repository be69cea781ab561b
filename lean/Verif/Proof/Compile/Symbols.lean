import Verif.Proof.Compile.Tables
import Verif.Proof.Compile.State

/-!
# The numbers of the symbols in the code are those of the table of symbols
-/

namespace DuckLisp.Compile

open DuckLisp.Asm DuckLisp.Reader

/-- Not the instruction that pushes a symbol. -/
def notSymbol : Ins → Bool
  | .pushSymbol .. => false
  | _ => true

/-- A symbol is pushed with the number that the table has for its name, which is cut after 65535 bytes. -/
def Numbered (t : Tables.Symbols) (i : Ins) : Prop :=
  ∀ id len name, i = .pushSymbol id len name → ∃ whole, Tables.nameToValue t whole = id ∧ id ≠ -1 ∧
    name = whole.take 65535

/-- All the instructions so far, and some more, are so. -/
def AllNumbered (x : List Ins) (s : CState) : Prop :=
  (∃ history, Tables.Holds s.symbols history) ∧ ∀ i ∈ x ++ (s.assembly ++ s.body.getD []), Numbered s.symbols i

theorem Numbered.plain {t : Tables.Symbols} {i : Ins} (h : notSymbol i = true) : Numbered t i := by
  rintro id len name rfl
  cases h

theorem Numbered.create {t : Tables.Symbols} {history : List Bytes} (ht : Tables.Holds t history) {i : Ins}
    (h : Numbered t i) (name : Bytes) : Numbered (Tables.create .enough t name).1 i := by
  intro id len cut hi
  obtain ⟨whole, h1, h2, h3⟩ := h id len cut hi
  refine ⟨whole, ?_, h2, h3⟩
  have hw : whole ∈ history := by
    have := ht.find whole
    by_cases hw : whole ∈ history
    · exact hw
    · rw [if_neg hw] at this; exact absurd (h1.symm.trans this) h2
  have h4 := (Tables.holds_create ht name).find whole
  have h5 := ht.find whole
  rw [if_pos hw] at h5
  rw [if_pos (List.mem_append_left _ hw)] at h4
  rw [h4, ← h1, h5]
  have hm := (Tables.mem_firsts history whole).2 hw
  obtain ⟨r, hr⟩ := Tables.firsts_append_prefix history [name]
  rw [← hr, List.idxOf_append, if_pos hm]

/-- A part of the compiler that keeps this so. -/
def Keeps {α : Type} (x : List Ins) (m : CM α) : Prop := ∀ s a s', m s = .ok a s' → AllNumbered x s → AllNumbered x s'

variable {x : List Ins}

theorem Keeps.use {α : Type} {m : CM α} {s s' : CState} {a : α} (e : m s = .ok a s') (hs : AllNumbered x s)
    (h : Keeps x m) : AllNumbered x s' := h s a s' e hs

theorem Keeps.bind {α β : Type} {m : CM α} {f : α → CM β} (h : Keeps x m) (g : ∀ a, Keeps x (f a)) :
    Keeps x (m >>= f) := by
  intro s b s' e hs
  obtain ⟨a, s1, e1, e2⟩ := CM.bind_inv e
  exact g a s1 b s' e2 (h s a s1 e1 hs)

theorem Keeps.pure {α : Type} (a : α) : Keeps x (pure a : CM α) := by
  intro s b s' e hs
  obtain ⟨-, rfl⟩ := CM.pure_inv e
  exact hs

theorem Keeps.fail {α : Type} (e : DlError) : Keeps x (CM.fail e : CM α) := by intro s b s' h; cases h
theorem Keeps.outside {α : Type} : Keeps x (CM.outside : CM α) := by intro s b s' h; cases h
theorem Keeps.ub {α : Type} : Keeps x (CM.ub : CM α) := by intro s b s' h; cases h
theorem Keeps.timeout {α : Type} : Keeps x (CM.timeout : CM α) := by intro s b s' h; cases h
theorem Keeps.get : Keeps x get := by intro s b s' h hs; cases h; exact hs

theorem Keeps.modify {f : CState → CState} (h : ∀ s, (f s).symbols = s.symbols ∧ (f s).assembly = s.assembly ∧
    (f s).body = s.body) : Keeps x (modify f) := by
  intro s b s' e hs
  cases e
  unfold AllNumbered
  rw [(h s).1, (h s).2.1, (h s).2.2]
  exact hs

theorem Keeps.localsLength : Keeps x localsLength := by intro s b s' h hs; cases h; exact hs

theorem Keeps.gensym : Keeps x gensym := by intro s b s' h hs; cases h; exact hs

theorem Keeps.closeScope : Keeps x closeScope := by
  intro s b s' h hs
  unfold Compile.closeScope at h
  split at h <;> cases h
  exact hs

theorem Keeps.intern (name : Bytes) : Keeps x (intern name) := by
  intro s b s' h hs
  obtain ⟨⟨history, ht⟩, hn⟩ := hs
  unfold Compile.intern at h
  split at h
  · rename_i t hc
    cases h
    have : t = (Tables.create .enough s.symbols name).1 := by rw [hc]
    subst this
    exact ⟨⟨_, Tables.holds_create ht name⟩, fun i hi => (hn i hi).create ht name⟩
  · cases h

theorem Keeps.globalFromName (name : Bytes) : Keeps x (globalFromName name) := by
  intro s b s' h hs
  cases h
  exact hs

theorem Keeps.place (fo : Bool) (name : Bytes) : Keeps x (place fo name) := by
  intro s b s' h hs
  unfold Compile.place at h
  dsimp only at h
  split at h
  · cases h; exact hs
  · split at h <;> cases h <;> exact hs

theorem allNamed_put {s : CState} {i : Ins} (hs : AllNumbered x s) (hi : Numbered s.symbols i) {s' : CState}
    (e : put i s = .ok () s') : AllNumbered x s' := by
  unfold Compile.put Compile.modify at e
  cases e
  obtain ⟨h1, h2⟩ := hs
  dsimp only
  split
  · rename_i body hb
    refine ⟨h1, fun j hj => ?_⟩
    have : j ∈ x ++ (s.assembly ++ s.body.getD []) ∨ j = i := by
      rw [hb]
      simp only [Option.getD_some, List.mem_append, List.mem_singleton] at hj ⊢
      grind
    rcases this with h | rfl
    · exact h2 j h
    · exact hi
  · rename_i hb
    refine ⟨h1, fun j hj => ?_⟩
    have : j ∈ x ++ (s.assembly ++ s.body.getD []) ∨ j = i := by
      rw [hb]
      dsimp only at hj
      rw [hb] at hj
      simp only [Option.getD_none, List.mem_append, List.mem_singleton] at hj ⊢
      grind
    rcases this with h | rfl
    · exact h2 j h
    · exact hi

theorem Keeps.put (i : Ins) (hi : notSymbol i = true := by first | with_unfolding_all rfl | assumption) : Keeps x (put i) :=
  fun _ _ _ e hs => allNamed_put hs (.plain hi) e

theorem AllNumbered.weaken {y : List Ins} {s : CState} (h : AllNumbered (x ++ y) s) : AllNumbered x s :=
  ⟨h.1, fun i hi => h.2 i (by simp only [List.mem_append] at hi ⊢; grind)⟩

theorem Keeps.restore {outer : Option (List Ins)} : Keeps (x ++ outer.getD [])
    (Compile.modify fun s => { s with assembly := s.assembly ++ s.body.getD [], body := outer }) := by
  intro s a s' e hs
  cases e
  refine ⟨hs.1, fun i hi => hs.2 i ?_⟩
  dsimp only at hi
  simp only [List.mem_append] at hi ⊢
  grind

/-- One step of a proof of `Keeps`. -/
syntax "keeps1" : tactic
macro_rules | `(tactic| keeps1) => `(tactic| first
  | (with_reducible assumption) | (with_reducible refine Keeps.bind ?_ fun _ => ?_) | split
  | exact Keeps.modify fun _ => ⟨rfl, rfl, rfl⟩ | exact Keeps.modify fun _ => by split <;> exact ⟨rfl, rfl, rfl⟩
  | dsimp only)
macro_rules | `(tactic| keeps1) => `(tactic| with_reducible exact Keeps.pure _)
macro_rules | `(tactic| keeps1) => `(tactic| with_reducible exact Keeps.fail _)
macro_rules | `(tactic| keeps1) => `(tactic| with_reducible exact Keeps.outside)
macro_rules | `(tactic| keeps1) => `(tactic| with_reducible exact Keeps.ub)
macro_rules | `(tactic| keeps1) => `(tactic| with_reducible exact Keeps.timeout)
macro_rules | `(tactic| keeps1) => `(tactic| with_reducible exact Keeps.get)
macro_rules | `(tactic| keeps1) => `(tactic| with_reducible exact Keeps.localsLength)
macro_rules | `(tactic| keeps1) => `(tactic| with_reducible exact Keeps.gensym)
macro_rules | `(tactic| keeps1) => `(tactic| with_reducible exact Keeps.closeScope)
macro_rules | `(tactic| keeps1) => `(tactic| with_reducible exact Keeps.intern _)
macro_rules | `(tactic| keeps1) => `(tactic| with_reducible exact Keeps.globalFromName _)
macro_rules | `(tactic| keeps1) => `(tactic| with_reducible exact Keeps.place _ _)
macro_rules | `(tactic| keeps1) => `(tactic| with_reducible exact Keeps.put _)

/-- A proof of `Keeps` for a definition that is given. -/
macro "keeps" d:ident : tactic => `(tactic| (unfold $d; repeat' keeps1))

theorem Keeps.setLocalsLength (n : Nat) : Keeps x (setLocalsLength n) := by keeps Compile.setLocalsLength
macro_rules | `(tactic| keeps1) => `(tactic| with_reducible exact Keeps.setLocalsLength _)
theorem Keeps.increment : Keeps x (increment) := by keeps Compile.increment
macro_rules | `(tactic| keeps1) => `(tactic| with_reducible exact Keeps.increment)
theorem Keeps.decrease (n : Nat) : Keeps x (decrease n) := by keeps Compile.decrease
macro_rules | `(tactic| keeps1) => `(tactic| with_reducible exact Keeps.decrease _)
theorem Keeps.operand (i : Int) : Keeps x (operand i) := by keeps Compile.operand
macro_rules | `(tactic| keeps1) => `(tactic| with_reducible exact Keeps.operand _)
theorem Keeps.emitPush (i : Ins) (hi : notSymbol i = true := by first | with_unfolding_all rfl | assumption) : Keeps x (emitPush i) := by keeps Compile.emitPush
macro_rules | `(tactic| keeps1) => `(tactic| with_reducible exact Keeps.emitPush _)
theorem Keeps.emitUnary (f : Int → Ins) (a : Int) (hi : ∀ a, notSymbol (f a) = true := by first | with_unfolding_all exact fun _ => rfl | assumption) : Keeps x (emitUnary f a) := by unfold Compile.emitUnary; exact Keeps.bind (Keeps.operand _) fun _ => Keeps.emitPush _ (hi _)
macro_rules | `(tactic| keeps1) => `(tactic| with_reducible exact Keeps.emitUnary _ _)
theorem Keeps.emitBinary (f : Int → Int → Ins) (a b : Int) (hi : ∀ a b, notSymbol (f a b) = true := by first | with_unfolding_all exact fun _ _ => rfl | assumption) : Keeps x (emitBinary f a b) := by unfold Compile.emitBinary; exact Keeps.bind (Keeps.operand _) fun _ => Keeps.bind (Keeps.operand _) fun _ => Keeps.emitPush _ (hi _ _)
macro_rules | `(tactic| keeps1) => `(tactic| with_reducible exact Keeps.emitBinary _ _ _)
theorem Keeps.emitTernary (f : Int → Int → Int → Ins) (a b c : Int) (hi : ∀ a b c, notSymbol (f a b c) = true := by first | with_unfolding_all exact fun _ _ _ => rfl | assumption) : Keeps x (emitTernary f a b c) := by unfold Compile.emitTernary; exact Keeps.bind (Keeps.operand _) fun _ => Keeps.bind (Keeps.operand _) fun _ => Keeps.bind (Keeps.operand _) fun _ => Keeps.emitPush _ (hi _ _ _)
macro_rules | `(tactic| keeps1) => `(tactic| with_reducible exact Keeps.emitTernary _ _ _ _)
theorem Keeps.emitNil : Keeps x (emitNil) := by keeps Compile.emitNil
macro_rules | `(tactic| keeps1) => `(tactic| with_reducible exact Keeps.emitNil)
theorem Keeps.emitNop : Keeps x (emitNop) := by keeps Compile.emitNop
macro_rules | `(tactic| keeps1) => `(tactic| with_reducible exact Keeps.emitNop)
theorem Keeps.emitVector (is : List Int) : Keeps x (emitVector is) := by keeps Compile.emitVector
macro_rules | `(tactic| keeps1) => `(tactic| with_reducible exact Keeps.emitVector _)
theorem Keeps.emitReturn (n : Nat) : Keeps x (emitReturn n) := by keeps Compile.emitReturn
macro_rules | `(tactic| keeps1) => `(tactic| with_reducible exact Keeps.emitReturn _)
theorem Keeps.emitExit : Keeps x (emitExit) := by keeps Compile.emitExit
macro_rules | `(tactic| keeps1) => `(tactic| with_reducible exact Keeps.emitExit)
theorem Keeps.emitPop (n : Nat) : Keeps x (emitPop n) := by keeps Compile.emitPop
macro_rules | `(tactic| keeps1) => `(tactic| with_reducible exact Keeps.emitPop _)
theorem Keeps.emitSetStatic (a b : Int) : Keeps x (emitSetStatic a b) := by keeps Compile.emitSetStatic
macro_rules | `(tactic| keeps1) => `(tactic| with_reducible exact Keeps.emitSetStatic _ _)
theorem Keeps.emitMove (a b : Int) : Keeps x (emitMove a b) := by keeps Compile.emitMove
macro_rules | `(tactic| keeps1) => `(tactic| with_reducible exact Keeps.emitMove _ _)
theorem Keeps.emitPushString (s : Bytes) : Keeps x (emitPushString s) := by keeps Compile.emitPushString
macro_rules | `(tactic| keeps1) => `(tactic| with_reducible exact Keeps.emitPushString _)
theorem Keeps.emitPushClosure (v : Bool) (l a : Nat) (c : List Int) : Keeps x (emitPushClosure v l a c) := by keeps Compile.emitPushClosure
macro_rules | `(tactic| keeps1) => `(tactic| with_reducible exact Keeps.emitPushClosure _ _ _ _)
theorem Keeps.emitReleaseUpvalues (c : List Int) : Keeps x (emitReleaseUpvalues c) := by keeps Compile.emitReleaseUpvalues
macro_rules | `(tactic| keeps1) => `(tactic| with_reducible exact Keeps.emitReleaseUpvalues _)
theorem Keeps.emitPushIndex (a : Int) : Keeps x (emitPushIndex a) := by keeps Compile.emitPushIndex
macro_rules | `(tactic| keeps1) => `(tactic| with_reducible exact Keeps.emitPushIndex _)
theorem Keeps.emitSetUpvalue (a b : Int) : Keeps x (emitSetUpvalue a b) := by keeps Compile.emitSetUpvalue
macro_rules | `(tactic| keeps1) => `(tactic| with_reducible exact Keeps.emitSetUpvalue _ _)
theorem Keeps.emitFuncall (a : Int) (b : Nat) : Keeps x (emitFuncall a b) := by keeps Compile.emitFuncall
macro_rules | `(tactic| keeps1) => `(tactic| with_reducible exact Keeps.emitFuncall _ _)
theorem Keeps.emitApply (a : Int) (b : Nat) : Keeps x (emitApply a b) := by keeps Compile.emitApply
macro_rules | `(tactic| keeps1) => `(tactic| with_reducible exact Keeps.emitApply _ _)
theorem Keeps.labelNumber (s : Bytes) : Keeps x (labelNumber s) := by keeps Compile.labelNumber
macro_rules | `(tactic| keeps1) => `(tactic| with_reducible exact Keeps.labelNumber _)
theorem Keeps.emitBrnz (s : Bytes) (p : Int) : Keeps x (emitBrnz s p) := by keeps Compile.emitBrnz
macro_rules | `(tactic| keeps1) => `(tactic| with_reducible exact Keeps.emitBrnz _ _)
theorem Keeps.emitJump (s : Bytes) : Keeps x (emitJump s) := by keeps Compile.emitJump
macro_rules | `(tactic| keeps1) => `(tactic| with_reducible exact Keeps.emitJump _)
theorem Keeps.emitLabel (s : Bytes) : Keeps x (emitLabel s) := by keeps Compile.emitLabel
macro_rules | `(tactic| keeps1) => `(tactic| with_reducible exact Keeps.emitLabel _)
theorem Keeps.initialized (i : Option Int) : Keeps x (initialized i) := by keeps Compile.initialized
macro_rules | `(tactic| keeps1) => `(tactic| with_reducible exact Keeps.initialized _)
theorem Keeps.checkArgs (es : List Ast) (n : Nat) (v : Bool) : Keeps x (checkArgs es n v) := by keeps Compile.checkArgs
macro_rules | `(tactic| keeps1) => `(tactic| with_reducible exact Keeps.checkArgs _ _ _)
theorem Keeps.register (s : Bytes) : Keeps x (register s) := by keeps Compile.register
macro_rules | `(tactic| keeps1) => `(tactic| with_reducible exact Keeps.register _)
theorem Keeps.openScope (b : Bool) : Keeps x (openScope b) := by keeps Compile.openScope
macro_rules | `(tactic| keeps1) => `(tactic| with_reducible exact Keeps.openScope _)
theorem Keeps.addGlobal (s : Bytes) : Keeps x (addGlobal s) := by keeps Compile.addGlobal
macro_rules | `(tactic| keeps1) => `(tactic| with_reducible exact Keeps.addGlobal _)
theorem Keeps.globalKey (s : Bytes) : Keeps x (globalKey s) := by keeps Compile.globalKey
macro_rules | `(tactic| keeps1) => `(tactic| with_reducible exact Keeps.globalKey _)
theorem Keeps.topScope : Keeps x (topScope) := by keeps Compile.topScope
macro_rules | `(tactic| keeps1) => `(tactic| with_reducible exact Keeps.topScope)
theorem Keeps.addVariable (s : Bytes) : Keeps x (addVariable s) := by keeps Compile.addVariable
macro_rules | `(tactic| keeps1) => `(tactic| with_reducible exact Keeps.addVariable _)
theorem Keeps.addFunction (s : Bytes) : Keeps x (addFunction s) := by keeps Compile.addFunction
macro_rules | `(tactic| keeps1) => `(tactic| with_reducible exact Keeps.addFunction _)
theorem Keeps.settle (n : Nat) : Keeps x (settle n) := by keeps Compile.settle
macro_rules | `(tactic| keeps1) => `(tactic| with_reducible exact Keeps.settle _)
theorem Keeps.settleBranch (n : Nat) : Keeps x (settleBranch n) := by keeps Compile.settleBranch
macro_rules | `(tactic| keeps1) => `(tactic| with_reducible exact Keeps.settleBranch _)

theorem Keeps.pushAgain : ∀ n, Keeps x (pushAgain n)
  | 0 => Keeps.pure _
  | n + 1 => by
    have := Keeps.pushAgain n
    keeps Compile.pushAgain
macro_rules | `(tactic| keeps1) => `(tactic| with_reducible exact Keeps.pushAgain _)

mutual
theorem Keeps.quoteTree (e : Ast) : Keeps x (quoteTree e) := by
  cases e with
  | expression es =>
    have := Keeps.quoteElements es
    keeps Compile.quoteTree
  | identifier name =>
    simp only [Compile.quoteTree]
    intro s a s' e hs
    obtain ⟨id, s1, e1, e2⟩ := CM.bind_inv e
    have h1 := (Keeps.intern (x := x) name) s id s1 e1 hs
    unfold Compile.emitPushSymbol Compile.emitPush at e2
    obtain ⟨_, s2, e3, e4⟩ := CM.bind_inv e2
    refine Keeps.increment s2 _ s' e4 (allNamed_put h1 ?_ e3)
    intro id' len cut hi
    cases hi
    unfold Compile.intern at e1
    split at e1
    · rename_i t hc
      cases e1
      obtain ⟨history, ht⟩ := hs.1
      have : t = (Tables.create .enough s.symbols name).1 := by rw [hc]
      subst this
      refine ⟨name, rfl, ?_, rfl⟩
      rw [(Tables.holds_create ht name).find name, if_pos (by simp)]
      exact fun h => by omega
    · cases e1
  | _ => keeps Compile.quoteTree
theorem Keeps.quoteElements (es : List Ast) : Keeps x (quoteElements es) := by
  cases es with
  | nil => keeps Compile.quoteElements
  | cons e es =>
    have h1 := Keeps.quoteElements es
    have h2 := Keeps.quoteTree e
    keeps Compile.quoteElements
end
macro_rules | `(tactic| keeps1) => `(tactic| with_reducible exact Keeps.quoteTree _)

theorem Keeps.addParameters : ∀ es b, Keeps x (addParameters es b)
  | [], b => Keeps.pure _
  | e :: es, b => by
    have := Keeps.addParameters es
    cases e
    case identifier name =>
      unfold Compile.addParameters
      repeat' first | exact this _ | keeps1
    all_goals keeps Compile.addParameters
macro_rules | `(tactic| keeps1) => `(tactic| with_reducible exact Keeps.addParameters _ _)

theorem Op1.notSymbol (op : Op1) : ∀ a, notSymbol (op.ins a) = true := by cases op <;> exact fun _ => rfl
theorem Op2.notSymbol (op : Op2) : ∀ a b, notSymbol (op.ins a b) = true := by cases op <;> exact fun _ _ => rfl
theorem Op3.notSymbol (op : Op3) : ∀ a b c, notSymbol (op.ins a b c) = true := by cases op <;> exact fun _ _ _ => rfl

/-! ## What a generator calls -/

/-- Both callees are so. -/
structure KeepsRec (r : Rec) : Prop where
  compound : ∀ x e b, Keeps x (r.compound e b)
  expression : ∀ x es, Keeps x (r.expression es)
  left : ∀ x e, Keeps x (r.left e)

macro_rules | `(tactic| keeps1) => `(tactic| with_reducible first | exact KeepsRec.compound ‹_› _ _ _ | exact KeepsRec.expression ‹_› _ _ | exact KeepsRec.left ‹_› _ _)

section
variable {r : Rec} (hr : KeepsRec r)
include hr

theorem Keeps.genListLoop : ∀ es i, Keeps x (genListLoop r es i)
  | [], _ => Keeps.pure _
  | e :: es, i => by
    have := Keeps.genListLoop es
    unfold Compile.genListLoop
    repeat' first | exact this _ | keeps1

theorem Keeps.genVectorLoop : ∀ es is, Keeps x (genVectorLoop r es is)
  | [], _ => Keeps.pure _
  | e :: es, i => by
    have := Keeps.genVectorLoop es
    unfold Compile.genVectorLoop
    repeat' first | exact this _ | keeps1

theorem Keeps.genArguments : ∀ es, Keeps x (genArguments r es)
  | [] => Keeps.pure _
  | e :: es => by
    have := Keeps.genArguments es
    unfold Compile.genArguments
    repeat' first | exact this | keeps1

theorem Keeps.createVar (es : List Ast) : Keeps x (createVar r es) := by keeps Compile.createVar
macro_rules | `(tactic| keeps1) => `(tactic| with_reducible exact Keeps.createVar ‹_› _)
theorem Keeps.genDefun (es : List Ast) : Keeps x (genDefun r es) := by keeps Compile.genDefun
macro_rules | `(tactic| keeps1) => `(tactic| with_reducible exact Keeps.genDefun ‹_› _)

theorem Keeps.afterForm {inner : List Ast → CM Unit} (hi : ∀ es, Keeps x (inner es)) (f : Ast) (start : Nat)
    (last : Bool) : Keeps x (afterForm r inner f start last) := by
  unfold Compile.afterForm
  repeat' first | exact hi _ | keeps1

theorem Keeps.noscopeForms {inner : List Ast → CM Unit} (hi : ∀ es, Keeps x (inner es)) :
    ∀ es, Keeps x (noscopeForms r inner es)
  | [] => Keeps.pure _
  | e :: es => by
    have := Keeps.noscopeForms hi es
    unfold Compile.noscopeForms
    repeat' first | exact this | exact Keeps.afterForm hr hi _ _ _ | keeps1

theorem Keeps.noscope : ∀ n es, Keeps x (noscope r n es)
  | 0, _ => Keeps.timeout
  | n + 1, es => by
    have := Keeps.noscope n
    unfold Compile.noscope
    repeat' first | exact Keeps.noscopeForms hr this _ | keeps1
macro_rules | `(tactic| keeps1) => `(tactic| with_reducible exact Keeps.noscope ‹_› _ _)

theorem Keeps.genExpression (n : Nat) (es : List Ast) : Keeps x (genExpression r n es) := by keeps Compile.genExpression
macro_rules | `(tactic| keeps1) => `(tactic| with_reducible exact Keeps.genExpression ‹_› _ _)
set_option maxHeartbeats 1000000 in
theorem Keeps.genLambda (n : Nat) (es : List Ast) : Keeps x (genLambda r n es) := by
  unfold Compile.genLambda
  refine Keeps.bind (Keeps.checkArgs _ _ _) fun _ => ?_
  split
  · rename_i parameters forms
    refine Keeps.bind (Keeps.openScope _) fun _ => ?_
    refine Keeps.bind (Keeps.addVariable _) fun _ => ?_
    refine Keeps.bind (Keeps.addFunction _) fun _ => ?_
    refine Keeps.bind Keeps.increment fun _ => ?_
    refine Keeps.bind (Keeps.openScope _) fun _ => ?_
    refine Keeps.bind Keeps.gensym fun _ => ?_
    refine Keeps.bind (Keeps.register _) fun _ => ?_
    intro s a s' e hs
    obtain ⟨s0, s1, e1, e2⟩ := CM.bind_inv e
    obtain ⟨rfl, rfl⟩ : s = s0 ∧ s = s1 := by cases e1; exact ⟨rfl, rfl⟩
    obtain ⟨_, s2, e3, e4⟩ := CM.bind_inv e2
    cases e3
    refine (Keeps.use (x := x ++ s.body.getD []) e4 ?_ ?_).weaken
    · refine ⟨hs.1, fun i hi => hs.2 i ?_⟩
      simp only [Option.getD_some, List.mem_append, List.append_nil] at hi ⊢
      grind
    · generalize s.body = outer
      repeat' first | (with_reducible exact Keeps.restore) | keeps1
  · exact Keeps.fail _
theorem Keeps.genCondition (c : Ast) : Keeps x (genCondition r c) := by keeps Compile.genCondition
macro_rules | `(tactic| keeps1) => `(tactic| with_reducible exact Keeps.genCondition ‹_› _)
theorem Keeps.genIfCondition (c : Ast) : Keeps x (genIfCondition r c) := by keeps Compile.genIfCondition
macro_rules | `(tactic| keeps1) => `(tactic| with_reducible exact Keeps.genIfCondition ‹_› _)
macro_rules | `(tactic| keeps1) => `(tactic| with_reducible exact Keeps.genArguments ‹_› _)
macro_rules | `(tactic| keeps1) => `(tactic| with_reducible exact Keeps.genListLoop ‹_› _ _)
macro_rules | `(tactic| keeps1) => `(tactic| with_reducible exact Keeps.genVectorLoop ‹_› _ _)
theorem Keeps.genCall (name : Bytes) (es : List Ast) : Keeps x (genCall r name es) := by keeps Compile.genCall
theorem Keeps.genCallback (name : Bytes) (es : List Ast) : Keeps x (genCallback r name es) := by keeps Compile.genCallback

theorem Keeps.generate (n : Nat) (es : List Ast) (g : Gen) : Keeps x (generate r n es g) := by
  cases g <;> simp only [Compile.generate]
  case funcall => keeps Compile.genFuncall
  case apply => keeps Compile.genApply
  case global => keeps Compile.genGlobal
  case setq => keeps Compile.genSetq
  case op1 op => have := Op1.notSymbol op; keeps Compile.genUnary
  case op2 op => have := Op2.notSymbol op; keeps Compile.genBinary
  case op3 op => have := Op3.notSymbol op; keeps Compile.genTernary
  case while_ => keeps Compile.genWhile
  case if_ => keeps Compile.genIf
  case when_ => keeps Compile.genWhen
  case unless_ => keeps Compile.genUnless
  case lambda => exact Keeps.genLambda hr _ _
  case quote => keeps Compile.genQuote
  case list => keeps Compile.genList
  case vector => keeps Compile.genVector
  all_goals repeat' keeps1

theorem Keeps.dispatch (cfg : Config) (n : Nat) (name : Bytes) (es : List Ast) : Keeps x (dispatch cfg r n name es) := by
  unfold Compile.dispatch
  repeat' first | exact Keeps.genCall hr _ _ | exact Keeps.genCallback hr _ _ | exact Keeps.generate hr _ _ _ | keeps1

end

theorem Keeps.genVariable (name : Bytes) (b : Bool) : Keeps x (genVariable name b) := by keeps Compile.genVariable

mutual
theorem Keeps.compound {x : List Ins} (cfg : Config) : ∀ n depth e b, Keeps x (compound cfg n depth e b)
  | 0, _, _, _ => Keeps.timeout
  | n + 1, depth, e, b => by
    have := Keeps.expression (x := x) cfg n
    cases e <;> simp only [Compile.compound]
    all_goals repeat' first | exact this _ _ | exact Keeps.genVariable _ _ | keeps1
theorem Keeps.expression {x : List Ins} (cfg : Config) : ∀ n depth es, Keeps x (expression cfg n depth es)
  | 0, _, _ => Keeps.timeout
  | n + 1, depth, es => by
    have hr : KeepsRec ⟨Compile.compound cfg n depth, Compile.expression cfg n depth, Pure.pure⟩ :=
      ⟨fun _ => Keeps.compound cfg n depth, fun _ => Keeps.expression cfg n depth, fun _ _ => Keeps.pure _⟩
    unfold Compile.expression
    repeat' first | exact Keeps.dispatch hr _ _ _ _ | exact Keeps.genExpression hr _ _ | keeps1
end

end DuckLisp.Compile
