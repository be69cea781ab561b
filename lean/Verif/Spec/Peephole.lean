import Verif.Spec.Asm
import Verif.Model.VM.Exec

/-!
# Running assembly

The machine, run on a program whose code positions are the indices of its instructions: what the
program means before it is turned into bytes.  Instructions in a row that only push a value that is
there already, or pop, are one block; blocks are entered at their beginning, since control goes to
labels and to what follows a call.
-/

namespace DuckLisp.Spec

open DuckLisp DuckLisp.VM DuckLisp.Asm

/-- Pushes one value and needs no memory from the heap. -/
def pushesValue (strip : Bool) : Ins → Bool
  | .nil | .pushBoolean _ | .pushInteger _ | .pushFloat _ | .pushIndex _ | .pushStrippedSymbol ..
  | .pushUpvalue _ | .pushGlobal _ => true
  | .pushSymbol .. => strip
  | _ => false

/-- Pushes something, or makes something on the heap, or a new type, and pushes that. -/
def pushesAnything : Ins → Bool
  | .nil | .pushBoolean _ | .pushInteger _ | .pushFloat _ | .pushIndex _ | .pushStrippedSymbol ..
  | .pushUpvalue _ | .pushGlobal _ | .pushSymbol .. | .pushString .. | .pushClosure .. | .makeType => true
  | _ => false

/-- Does nothing but push and pop values that are there. -/
def quiet (strip : Bool) : Ins → Bool
  | .internalNop | .pop _ => true
  | i => pushesValue strip i

/-- How many values an instruction pops. -/
def pops : Ins → Int
  | .pop n => n
  | _ => 0

/-- All the pops of a program take at least one value, and together less than 2^31. -/
def FewPops (program : List Ins) : Prop :=
  (∀ n, Ins.pop n ∈ program → 1 ≤ n) ∧ (program.map pops).sum < 2 ^ 31

/-- One instruction that does not transfer control. -/
def perform1 (env : Env) (strip : Bool) (bc : Nat) (ip : CodePtr) (i : Ins) : M Unit :=
  match i with
  | .internalNop | .label _ => pure ()
  | i =>
    match meaning strip i with
    | some m => do
        let _ ← exec env bc ip ip m
        pure ()
    | none => M.ub

/-- Instructions in a row. -/
def perform (env : Env) (strip : Bool) (bc : Nat) (ip : CodePtr) : List Ins → M Unit
  | [] => pure ()
  | i :: is => do
      perform1 env strip bc ip i
      perform env strip bc ip is

/-- No push fails. -/
def PushesSucceed (env : Env) (strip : Bool) (bc : Nat) (ip : CodePtr) : List Ins → VM → Prop
  | [], _ => True
  | i :: is, vm =>
      (pushesValue strip i = true → ∃ vm', perform1 env strip bc ip i vm = .ok () vm') ∧
      ∀ vm', perform1 env strip bc ip i vm = .ok () vm' → PushesSucceed env strip bc ip is vm'

/-- No push of an object that is made for it is followed by a pop. -/
def NoGarbage (strip : Bool) (program : List Ins) : Prop :=
  ∀ (k : Nat) (i : Ins) (n : Int), program[k]? = some i → program[k + 1]? = some (.pop n) →
    pushesAnything i = true → pushesValue strip i = true

/-- The machine instruction at index `k`, if positions are indices. -/
def Indexed (strip : Bool) (program : List Ins) (k : Nat) (m : Instr) : Prop :=
  ∃ i, program[k]? = some i ∧
    ((meaning strip i = some m) ∨ (∃ l, i = .label l ∧ m = .nop) ∨
      ∃ (l j : Nat) (d : Int), labelOf i = some l ∧ program[j]? = some (.label l) ∧ addressed .w8 d i = some m ∧
        landing k (k + 1) m = some (j : Int))

/-- One step of the machine on indexed code: a whole block, or one other instruction, which goes on
at an index of the same program. -/
inductive IndexedStep (env : Env) (strip : Bool) (bc cell serial : Nat) (program : List Ins) :
    Nat × VM → Nat × VM → Prop
  | block {before block after : List Ins} {vm vm' : VM}
      (hsplit : program = before ++ block ++ after) (hne : block ≠ [])
      (hq : ∀ i ∈ block, quiet strip i = true)
      (hb : ∀ i, before.getLast? = some i → quiet strip i = false)
      (ha : ∀ i, after.head? = some i → quiet strip i = false)
      (hrun : perform env strip bc ⟨cell, serial, before.length⟩ block vm = .ok () vm') :
      IndexedStep env strip bc cell serial program (before.length, vm) (before.length + block.length, vm')
  | other {k k' : Nat} {i : Ins} {m : Instr} {vm vm' : VM}
      (hi : program[k]? = some i) (hq : quiet strip i = false)
      (hm : Indexed strip program k m)
      (hrun : exec env bc ⟨cell, serial, k⟩ ⟨cell, serial, k + 1⟩ m vm =
        .ok (.goto ⟨cell, serial, k'⟩) vm') :
      IndexedStep env strip bc cell serial program (k, vm) (k', vm')

/-- Any number of steps. -/
inductive IndexedSteps (env : Env) (strip : Bool) (bc cell serial : Nat) (program : List Ins) :
    Nat × VM → Nat × VM → Prop
  | refl {a} : IndexedSteps env strip bc cell serial program a a
  | step {a b c} (h : IndexedStep env strip bc cell serial program a b)
      (hs : IndexedSteps env strip bc cell serial program b c) :
      IndexedSteps env strip bc cell serial program a c

end DuckLisp.Spec
