import Verif.Spec.Peephole
import Verif.Spec.Core
import Verif.Spec.Eval
import Verif.Spec.Run
import Verif.Model.Compile.Generate

/-!
# What the compiler keeps in mind about the stack

The compiler counts the values on the machine's stack and remembers at which of them a variable is.  This file says
which states of the compiler there are between two forms, which variables are known then and where, and what it is
for the machine to walk through a piece of code.
-/

namespace DuckLisp.Spec

open DuckLisp DuckLisp.VM DuckLisp.Asm DuckLisp.Compile DuckLisp.Reader

/-- Variables and their places, recorded from the bottom, the innermost scope and the newest variable first. -/
abbrev Table := List (List (Bytes × Nat))

/-- The place of a variable. -/
def Table.place (t : Table) (x : Bytes) : Option Nat := t.flatten.lookup x

/-- A new variable in the innermost scope. -/
def Table.with (t : Table) (x : Bytes) (k : Nat) : Table :=
  match t with
  | [] => [[(x, k)]]
  | scope :: rest => ((x, k) :: scope) :: rest

/-- How many values the compiler thinks there are. -/
def recorded (s : CState) : Nat := s.scopes.current.localsLength

/-- The states of the compiler in the midst of a program of the core language, and which variables it knows. -/
inductive Reached (cfg : Compile.Config) : CState → Table → Prop
  /-- the beginning -/
  | start {s} : Fresh s → Reached cfg s [[]]
  /-- a form was compiled -/
  | form {s t e n depth push i s'} : Reached cfg s t → Form e → compound cfg n depth e push s = .ok i s' →
      s'.gensymNumber ≤ 2 ^ 64 → Reached cfg s' t
  /-- a scope was opened -/
  | scope {s t s'} : Reached cfg s t → openScope false s = .ok () s' → Reached cfg s' ([] :: t)
  /-- a variable was declared -/
  | var {s t name x e n depth s'} : Reached cfg s t → Form e →
      createVar ⟨compound cfg n depth, expression cfg n depth, pure⟩ [.identifier name, .identifier x, e] s = .ok () s' →
      s'.gensymNumber ≤ 2 ^ 64 → Reached cfg s' (t.with x (recorded s))
  /-- values above all variables were dropped -/
  | drop {s t n s'} : Reached cfg s t → (∀ scope ∈ t, ∀ v ∈ scope, v.2 + n < recorded s) →
      emitPop n s = .ok () s' → Reached cfg s' t

/-- The form contains `(setq x …)`. -/
inductive Assigning (x : Bytes) : Ast → Prop
  | setq (name e) : Spelled name "setq" → Assigning x (.expression [.identifier name, .identifier x, e])
  | inside (e es) : e ∈ es → Assigning x e → Assigning x (.expression es)

/-- The places an instruction reads or writes, recorded from the top of the stack, which is 1. -/
def places : Ins → List Int
  | .pushIndex a | .setGlobal a _ | .not a | .car a | .cdr a | .nullp a | .typeof a | .compositeValue a
  | .compositeFunction a | .length a | .symbolString a | .symbolId a | .makeString a => [a]
  | .move a b | .arith _ a b | .equal a b | .greater a b | .less a b | .cons a b | .makeVector a b | .getVecElt a b
  | .setCar a b | .setCdr a b | .setCompositeValue a b | .setCompositeFunction a b | .concatenate a b => [a, b]
  | .setVecElt a b c | .makeInstance a b c | .substring a b c => [a, b, c]
  | .vector _ as => as
  | .brnz _ _ => [1]
  | _ => []

/-- The machine runs instructions `lo` to `hi - 1` of a program, as long as control stays among them. -/
inductive Walk (env : VM.Env) (strip : Bool) (bc cell serial : Nat) (program : List Ins) (lo hi : Nat) :
    Nat × VM → Nat × VM → Prop
  | here {a} : Walk env strip bc cell serial program lo hi a a
  | step {a k vm m vm'} {k' : Nat} : Walk env strip bc cell serial program lo hi a (k, vm) → lo ≤ k → k < hi →
      Indexed strip program k m →
      exec env bc ⟨cell, serial, k⟩ ⟨cell, serial, (k + 1 : Nat)⟩ m vm = .ok (.goto ⟨cell, serial, k'⟩) vm' →
      Walk env strip bc cell serial program lo hi a (k', vm')

/-- Every label is at one place. -/
def LabelsOnce (program : List Ins) : Prop :=
  ∀ (j k l : Nat), program[j]? = some (.label l) → program[k]? = some (.label l) → j = k

/-- Operands are compiled one after the other; a plain variable is used where it is. -/
inductive Operands (cfg : Compile.Config) : CState → List Ast → CState → List Int → Prop
  | nil {s} : Operands cfg s [] s []
  | cons {s n depth e i s1 es s2 is} : compound cfg n depth e false s = .ok (some i) s1 → Operands cfg s1 es s2 is →
      Operands cfg s (e :: es) s2 (i :: is)

/-- The instruction of an operator, given where its operands are. -/
def instruction : String → List Int → Option Ins
  | "make-type", [] => some .makeType
  | "not", [a] => some (.not a)
  | "null?", [a] => some (.nullp a)
  | "car", [a] => some (.car a)
  | "cdr", [a] => some (.cdr a)
  | "type-of", [a] => some (.typeof a)
  | "length", [a] => some (.length a)
  | "make-string", [a] => some (.makeString a)
  | "symbol-string", [a] => some (.symbolString a)
  | "symbol-id", [a] => some (.symbolId a)
  | "composite-value", [a] => some (.compositeValue a)
  | "composite-function", [a] => some (.compositeFunction a)
  | "+", [a, b] => some (.arith .add a b)
  | "-", [a, b] => some (.arith .sub a b)
  | "*", [a, b] => some (.arith .mul a b)
  | "/", [a, b] => some (.arith .div a b)
  | "=", [a, b] => some (.equal a b)
  | "<", [a, b] => some (.less a b)
  | ">", [a, b] => some (.greater a b)
  | "cons", [a, b] => some (.cons a b)
  | "set-car", [a, b] => some (.setCar a b)
  | "set-cdr", [a, b] => some (.setCdr a b)
  | "make-vector", [a, b] => some (.makeVector a b)
  | "get-vector-element", [a, b] => some (.getVecElt a b)
  | "concatenate", [a, b] => some (.concatenate a b)
  | "set-composite-value", [a, b] => some (.setCompositeValue a b)
  | "set-composite-function", [a, b] => some (.setCompositeFunction a b)
  | "set-vector-element", [a, b, c] => some (.setVecElt a b c)
  | "make-instance", [a, b, c] => some (.makeInstance a b c)
  | "substring", [a, b, c] => some (.substring a b c)
  | _, _ => none

open Eval in
/-- The variables of a scope have their values: `base` values are further below on the stack. -/
def HoldingScope (R : Eval.Reading) (vm : VM) (base : Nat) : List (Bytes × Nat) → List (Bytes × Value) → Prop
  | [], [] => True
  | (x, k) :: scope, (y, v) :: values =>
      x = y ∧ (∃ o, vm.stack[base + k]? = some o ∧ Holds R vm o v) ∧ HoldingScope R vm base scope values
  | _, _ => False

/-- The variables of all scopes have their values. -/
def HoldingScopes (R : Eval.Reading) (vm : VM) (base : Nat) : Table → List Eval.Block → Prop
  | [], [] => True
  | scope :: t, values :: env => HoldingScope R vm base scope values ∧ HoldingScopes R vm base t env
  | _, _ => False

/-- All variables and all globals have their values. -/
def Holding (R : Eval.Reading) (vm : VM) (base : Nat) (t : Table) (env : Eval.Env) : Prop :=
  HoldingScopes R vm base t env.blocks ∧ HasGlobals R vm env.globals

open Eval in
/-- Running a piece of code of a program and evaluation come to the same. -/
def ComesTo {α : Type} (env : VM.Env) (strip : Bool) (cell serial : Nat) (program : List Ins) (lo hi : Nat) (vm : VM)
    (r : Result α) (post : α → VM → Prop) : Prop :=
  let reaches := Walk env strip cell cell serial program lo hi (lo, vm)
  let gives (k : Nat) (vm' : VM) (out : Out Ctl) := k < hi ∧ ∃ m, Indexed strip program k m ∧
    exec env cell ⟨cell, serial, k⟩ ⟨cell, serial, (k + 1 : Nat)⟩ m vm' = out
  match r with
  | .ok a => ∃ vm', reaches (hi, vm') ∧ post a vm'
  | .error e => ∃ k vm' s, reaches (k, vm') ∧ gives k vm' (.err e s)
  | .undefined => ∃ k vm', reaches (k, vm') ∧ gives k vm' .ub
  | .unfinished | .outside => True

/-- Running a piece of code of a program gets to where no memory is left. -/
def LacksMemory (env : VM.Env) (strip : Bool) (cell serial : Nat) (program : List Ins) (lo hi : Nat) (vm : VM) : Prop :=
  ∃ k vm', Walk env strip cell cell serial program lo hi (lo, vm) (k, vm') ∧
    (Full vm' ∨ ∃ m s, Indexed strip program k m ∧
      exec env cell ⟨cell, serial, k⟩ ⟨cell, serial, (k + 1 : Nat)⟩ m vm' = .err .outOfMemory s)

end DuckLisp.Spec
