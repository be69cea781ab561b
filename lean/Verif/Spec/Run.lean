import Verif.Model.VM.Exec
import Verif.Spec.Asm
import Verif.Spec.Eval
import Verif.Spec.Globals
import Verif.Spec.Registry
import Verif.Spec.Sound
import Verif.Spec.Core
import Verif.Spec.Peephole
import Verif.Spec.Tables
import Verif.Model.Compile.Generate
import Verif.Model.Asm.Link

/-!
# Compiling and running programs
-/

namespace DuckLisp.Spec

open DuckLisp DuckLisp.VM

variable [Entries]

/-! ### The compiler -/

/-- A compiler as `duckLisp_loadString` finds it: any symbols and globals from before, the globals under the
numbers of their names, and nothing compiled. -/
structure Fresh (s : Compile.CState) : Prop where
  scopes : s.scopes = Compile.Scopes.init
  assembly : s.assembly = []
  body : s.body = none
  symbols : ∃ history, s.symbols = Tables.createAll .init history
  runtime : Registers s.symbols s.runtimeGlobals
  comptime : Registers s.symbols s.comptimeGlobals

/-- No function of the host has the name of a keyword. -/
def KeywordsFree (cfg : Compile.Config) : Prop :=
  ∀ name, Compile.generator name ≠ none → Trie.find cfg.callbacks name = -1

/-- The names by which functions are called are neither keywords nor names of functions of the host. -/
def CallsFree (cfg : Compile.Config) (D : Dialect) : Prop :=
  ∀ name, D.callable name = true →
    Compile.generator name = none ∧ Eval.keyword name = none ∧ Trie.find cfg.callbacks name = -1

/-- The numbers that a table of symbols has for names. -/
def numbers (t : Tables.Symbols) (name : Bytes) (id : Nat) : Prop := Tables.nameToValue t name = id

/-- Values of a machine without functions. -/
def known (t : Tables.Symbols) : Eval.Reading := ⟨numbers t, fun _ _ _ _ => False⟩

/-- A function with as many parameters, with or without one for all further arguments. -/
def IsFunction (o : Obj) (params : List Bytes) (rest : Option Bytes) (_ : List Reader.Ast) : Prop :=
  ∃ name code ups arity, o = .closure name code ups arity rest.isSome ∧ arity.toNat = params.length

/-- Values of a machine.  A function is one with as many parameters. -/
def reading (t : Tables.Symbols) : Eval.Reading := ⟨numbers t, IsFunction⟩

/-- How many values an instruction may add to the stack: one, and for a function one for each parameter as well. -/
def Ins.room : Asm.Ins → Nat
  | .pushClosure _ _ arity _ => arity.toNat + 1
  | _ => 1

/-- A bound on the number of values that the compiler finds on the stack anywhere in a program. -/
def room (code : List Asm.Ins) : Nat := (code.map Ins.room).sum

/-- Names whose numbers are at least `n`.  A global whose number happens to be the place of the value on the stack is
not set (C19_global_not_set), so programs that set globals are evaluated only if the numbers of the globals are beyond
those places. -/
def NumbersFrom (t : Tables.Symbols) (n : Nat) (assignable : Bytes → Bool) : Prop :=
  ∀ x, assignable x = true → (n : Int) ≤ Tables.nameToValue t x

/-- The assembler got the addresses right: the code can be cut into one piece for each instruction so that every
jump, branch, call and closure takes control to its label. -/
def JumpsLand (opt : Asm.Options) (program : List Asm.Ins) (bytes : Bytes) : Prop :=
  let program := if opt.pushPops then Asm.peephole program else program
  ∃ pieces, Pieces opt.strip program bytes pieces ∧ AllLand program pieces

/-! ### The machine -/

/-- A number of instructions, one after the other: where control is and what the machine is. -/
inductive MachineSteps (env : Env) (bc : Nat) : Nat → CodePtr × VM → CodePtr × VM → Prop
  | refl (a) : MachineSteps env bc 0 a a
  | step {n ip vm ip' vm' b} (h : step env bc ip vm = .ok (.goto ip') vm')
      (hs : MachineSteps env bc n (ip', vm') b) : MachineSteps env bc (n + 1) (ip, vm) b

/-- There is no free cell, not even after a collection. -/
def Full (vm : VM) : Prop := vm.free = [] ∧ ∃ vm', garbageCollect vm = .ok () vm' ∧ vm'.free = []

/-- Executing the code gets to a state in which there is no memory left, or an instruction says so. -/
def MemoryRunsOut (env : Env) (bytes : Bytes) (vm : VM) : Prop :=
  ∃ bc serial vm1 n ip vm',
    pushObject (.bytecode (some ⟨0, bytes⟩) bytes.length) vm = .ok bc vm1 ∧
    codeSerial bc vm1 = .ok serial vm1 ∧
    MachineSteps env bc n (⟨bc, serial, 0⟩, { vm1 with currentBytecode := some bc }) (ip, vm') ∧
    (Full vm' ∨ ∃ s, step env bc ip vm' = .err .outOfMemory s)

open Eval in
/-- The machine has globals with these values. -/
def HasGlobals (R : Reading) (vm : VM) (globals : Block) : Prop :=
  ∀ x v, lookupBlock x globals = some v → ∃ id o, R.number x id ∧ Reads vm id o ∧ Holds R vm o v

open Eval in
/-- What executing the code of a program has to do with what evaluating the program gives.  `F` says
how many loop rounds and calls within calls the evaluator was allowed.
* A value: with enough time the machine comes to a regular end, in order, with everything that was on the
  stack where it was, on top the value, and the globals set.
* An error: with enough time the machine stops with this error.
* Undefined: the machine gets to an instruction whose effect C leaves undefined.
* Too many loop rounds or calls within calls: the machine is not done after as many instructions. -/
def CarriesOut (env : VM.Env) (R : Reading) (F : Nat) (bytes : Bytes) (vm : VM) :
    Result (Value × Block) → Prop
  | .ok (v, globals) => ∃ N vm', (∀ fuel, N ≤ fuel → execute env fuel bytes vm = .ok () vm') ∧
      Good vm' ∧ vm'.upStack.length = vm'.stack.length ∧ vm'.stack.take vm.stack.length = vm.stack ∧
      vm.stack.length < vm'.stack.length ∧ ∃ o, vm'.stack.getLast? = some o ∧ Holds R vm' o v ∧
      HasGlobals R vm' globals
  | .error e => ∃ N vm', ∀ fuel, N ≤ fuel → execute env fuel bytes vm = .err e vm'
  | .undefined => ∃ N, ∀ fuel, N ≤ fuel → execute env fuel bytes vm = .ub
  | .unfinished => ∀ fuel, fuel ≤ F → execute env fuel bytes vm = .diverge
  | .outside => True

/-! ### Several programs -/

/-- Everything about the code of a program that the theorems about whole programs ask for: jumps land, numbers fit
their places in the code, and the numbers of the globals that may be set are beyond the places on the stack. -/
structure Loadable (opt : Asm.Options) (assignable : Bytes → Bool) (s : Compile.CState) (bytes : Bytes) : Prop where
  gensyms : s.gensymNumber ≤ 2 ^ 64
  assembled : Asm.assemble opt s.scopes.runtime.labelNumber s.assembly = .ok bytes
  jumps : JumpsLand opt s.assembly bytes
  short : s.assembly.length < 2 ^ 31
  fits : ∀ i ∈ s.assembly, InFormat i ∧ SmallWhereNeeded i
  garbage : opt.pushPops = true → NoGarbage opt.strip s.assembly
  numbers : NumbersFrom s.symbols (room s.assembly) assignable

/-- One compiler compiles programs, one after the other. -/
inductive CompilesAll (cfg : Compile.Config) (D : Dialect) (n : Nat) (opt : Asm.Options) (assignable : Bytes → Bool) :
    Compile.CState → List Reader.Ast → List Bytes → Compile.CState → Prop
  | nil {s} : CompilesAll cfg D n opt assignable s [] [] s
  | cons {s e s1 bytes es codes s2} : Term D false e → Compile.compileAST cfg n e s.renew = .ok () s1 →
      Loadable opt assignable s1 bytes → CompilesAll cfg D n opt assignable s1 es codes s2 →
      CompilesAll cfg D n opt assignable s (e :: es) (bytes :: codes) s2

open Eval in
/-- The values of programs that are evaluated one after the other, and the globals in the end.  Nothing is said
about the functions of earlier programs. -/
def evaluateAll (S : Setting) (F : Nat) (globals : Block) : List Reader.Ast → Result (List Value × Block)
  | [] => .ok ([], globals)
  | e :: es => do
    let (v, globals) ← program S F globals e
    let (vs, globals) ← evaluateAll S F (globals.map fun (x, v) => (x, v.forget)) es
    .ok (v :: vs, globals)

/-- With enough time the machine comes to a regular end. -/
def Completes (env : VM.Env) (bytes : Bytes) (vm vm' : VM) : Prop :=
  ∃ N, ∀ fuel, N ≤ fuel → execute env fuel bytes vm = .ok () vm'

open Eval in
/-- One machine executes codes, one after the other, and each leaves its value on top of the stack. -/
inductive RunsAll (env : VM.Env) (R : Reading) : VM → List Bytes → List Value → VM → Prop
  | nil {vm} : RunsAll env R vm [] [] vm
  | cons {vm bytes vm1 o v codes vs vm2} : Completes env bytes vm vm1 → vm1.stack.getLast? = some o → Holds R vm1 o v →
      RunsAll env R vm1 codes vs vm2 → RunsAll env R vm (bytes :: codes) (v :: vs) vm2

/-- On the way memory runs out. -/
inductive MemoryRunsOutIn (env : VM.Env) : VM → List Bytes → Prop
  | loading {vm bytes codes} : Full vm → MemoryRunsOutIn env vm (bytes :: codes)
  | running {vm bytes codes} : MemoryRunsOut env bytes vm → MemoryRunsOutIn env vm (bytes :: codes)
  | later {vm bytes vm1 codes} : Completes env bytes vm vm1 → MemoryRunsOutIn env vm1 codes →
      MemoryRunsOutIn env vm (bytes :: codes)

end DuckLisp.Spec
