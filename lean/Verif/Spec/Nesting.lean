import Verif.Spec.Inside
import Verif.Spec.Core

/-!
# How many values a function has on the stack

Every function works on its own part of the stack: its arguments, and what it pushes.  This file counts, from
the instructions alone, how many values a function has there at every position of a block of code, and says
what it means that calls nest: every pending call has its own part of the stack below the parts of the calls
it has made.
-/

namespace DuckLisp.Spec

open DuckLisp DuckLisp.VM DuckLisp.Asm

/-- How many values of its own a function needs for an instruction: operands count from the top, which is 1.
Numbers from `2 ^ 31` on stand for captured variables of the running function, and 0 for the function being made. -/
def atLeast : Instr → Nat
  | .pushIndex a | .setGlobal a _ | .not a | .car a | .cdr a | .nullp a | .typeof a | .compositeValue a
  | .compositeFunction a | .length a | .symbolString a | .symbolId a | .makeString a | .pop a | .setUpvalue _ a => a
  | .move a b | .arith _ a b | .equal a b | .greater a b | .less a b | .cons a b | .makeVector a b | .getVecElt a b
  | .setCar a b | .setCdr a b | .setCompositeValue a b | .setCompositeFunction a b | .concatenate a b
  | .funcall a b => max a b
  | .setVecElt a b c | .makeInstance a b c | .substring a b c => max a (max b c)
  | .vector as | .releaseUpvalues as => as.foldr max 0
  | .pushClosure _ _ _ _ captures => (captures.filter (· < 2 ^ 31)).foldr max 0
  | .apply a n => max a (n + 1)
  | .brnz _ n => max 1 n
  | .return_ n => n + 1
  | .return0 => 1
  | _ => 0

/-- How many values there are after an instruction if there were `h` before it.  A call leaves one value in place
of its arguments; `apply` has a list of further arguments on top of them. -/
def heightAfter (h : Nat) : Instr → Nat
  | .nop | .jump _ | .move .. | .setGlobal .. | .setUpvalue .. | .releaseUpvalues _ | .halt | .return0 | .return_ _ => h
  | .pop n | .brnz _ n => h - n
  | .funcall _ n => h - n + 1
  | .apply _ n => h - (n + 1) + 1
  | _ => h + 1

/-- How many values there are where the instruction makes control land: a function that it makes starts with its
arguments, and a list of the further ones if it takes any. -/
def heightAtLanding (h : Nat) : Instr → Nat
  | .pushClosure variadic _ _ arity _ => arity.toNat + (if variadic then 1 else 0)
  | i => heightAfter h i

/-- `HeightAt code p h`: following the instructions from the first byte on leads to position `p`, with `h` values
of the running function on the stack. -/
inductive HeightAt (code : Bytes) : Int → Nat → Prop
  | start : HeightAt code 0 0
  | next {p h i q} (hp : HeightAt code p h) (hi : CodeAt code p i q) (hg : GoesOn i) : HeightAt code q (heightAfter h i)
  | land {p h i q t} (hp : HeightAt code p h) (hi : CodeAt code p i q) (ht : landing p q i = some t) :
      HeightAt code t (heightAtLanding h i)

/-- The instructions this is about: not the two that call something without saying how many arguments there are. -/
def Countable : Instr → Prop
  | .call _ | .ccall _ => False
  | _ => True

/-- How many values a call takes from the stack. -/
def takes : Instr → Option Nat
  | .funcall _ n => some n
  | .apply _ n => some (n + 1)
  | _ => none

/-- How many values besides its result a function has when it returns. -/
def leavesBehind : Instr → Option Nat
  | .return0 => some 0
  | .return_ n => some n
  | _ => none

/-- Tidy code: at every position it leads to there is an instruction, however one gets there there are equally many
values, as many as the instruction needs, and a function returns with nothing but its result and what it drops. -/
structure Tidy (code : Bytes) : Prop where
  whole : ∀ p h, HeightAt code p h → ∃ i q, CodeAt code p i q ∧ Countable i ∧ atLeast i ≤ h ∧
    ∀ n, leavesBehind i = some n → h = n + 1
  unique : ∀ p h h', HeightAt code p h → HeightAt code p h' → h = h'

/-- Functions start at positions their code leads to with as many values as they have parameters. -/
@[reducible] def byHeight : Entries :=
  ⟨fun blk pos arity variadic => HeightAt blk.bytes pos (arity.toNat + (if variadic then 1 else 0))⟩

/-- At `ip` in the code of `vm` a function has `h` values. -/
def Stands (vm : VM) (ip : CodePtr) (h : Nat) : Prop :=
  ∃ blk n, vm.heap[ip.cell]? = some (.bytecode (some blk) n) ∧ blk.serial = ip.serial ∧ HeightAt blk.bytes ip.off h

/-- The pending calls have their parts of the stack one above the other: `bottom` values are below all of them, and
`base` values are below the part of the running function.  The part of a pending call ends where that of the function it
has called starts; when this function returns, there will be one value more. -/
inductive Pending (vm0 : VM) (bottom : Nat) : List Frame → Nat → Prop
  | none : Pending vm0 bottom [] bottom
  | call {frames f b h base} : Pending vm0 bottom frames b → Stands vm0 f.ip h → b ≤ base → base + 1 = b + h →
      Pending vm0 bottom (frames ++ [f]) base

/-- Calls are nested in the machine `vm` at `ip`: it is in order, runs the code of `vm0`, and on its stack are the
`bottom` values there were at the start, the parts of the pending calls, and from `base` on the `h` values of the running
function. -/
structure Nested (vm0 : VM) (bottom : Nat) (bc : Ref) (vm : VM) (ip : CodePtr) (base h : Nat) : Prop where
  running : @Running byHeight bc vm
  code : ∀ (c : Ref) (blk : CodeBlock) (n : Nat), vm.heap[c]? = some (.bytecode (some blk) n) →
    ∃ m, vm0.heap[c]? = some (.bytecode (some blk) m)
  here : Stands vm0 ip h
  height : vm.stack.length = base + h
  calls : Pending vm0 bottom vm.callStack base

/-- The instruction at `ip` assigns to a captured variable of the running function that lives at place `k` of the stack:
the function that declares the variable has not left its scope yet. -/
def AssignsCaptured (vm : VM) (ip : CodePtr) (k : Nat) : Prop :=
  ∃ j a c, InstructionAt vm ip (.setUpvalue j a) ∧ RunningCapture vm j c ∧ Denotes vm c (.slot k)

/-- On the way from `ip` to `ip'` the program assigns to a captured variable that lives at place `k` of the stack. -/
def AssignedOnTheWay (env : Env) (bc : Ref) (vm0 : VM) (bottom : Nat) (ip : CodePtr) (vm : VM) (ip' : CodePtr) (vm' : VM)
    (k : Nat) : Prop :=
  ∃ ip1 vm1 base1 h1 ip2 vm2, Arrives env bc ip vm ip1 vm1 ∧ Nested vm0 bottom bc vm1 ip1 base1 h1 ∧
    AssignsCaptured vm1 ip1 k ∧ step env bc ip1 vm1 = .ok (.goto ip2) vm2 ∧ Arrives env bc ip2 vm2 ip' vm'

/-- The code does not assign to captured variables. -/
def Unassigning (code : Bytes) : Prop := ∀ p h j a q, HeightAt code p h → ¬ CodeAt code p (.setUpvalue j a) q

/-- No code of the machine assigns to captured variables. -/
def AllUnassigning (vm : VM) : Prop :=
  ∀ (c : Ref) (blk : CodeBlock) (n : Nat), vm.heap[c]? = some (.bytecode (some blk) n) → Unassigning blk.bytes

/-- All code of the machine is tidy. -/
def AllTidy (vm : VM) : Prop :=
  ∀ (c : Ref) (blk : CodeBlock) (n : Nat), vm.heap[c]? = some (.bytecode (some blk) n) → Tidy blk.bytes

/-- Every function of the host takes a fixed number of arguments from the stack and leaves a result in their place. -/
def HostTakes (env : Env) (count : Nat → Nat) : Prop :=
  ∀ cb vm vm', env.host cb vm = .ok () vm' → count cb ≤ vm.stack.length →
    ∃ r, vm'.stack = vm.stack.take (vm.stack.length - count cb) ++ [r]

/-- The program is about to call a function of the host with another number of arguments than it takes. -/
def Miscounts (count : Nat → Nat) (vm : VM) (ip : CodePtr) : Prop :=
  ∃ a n f cb, InstructionAt vm ip (.funcall a n) ∧ operand vm a = some f ∧ Callee vm f (.function cb) ∧ n ≠ count cb

/-- At `ip` there is the instruction `i`, and `next` is the address after it. -/
def ReadAt (vm : VM) (ip : CodePtr) (i : Instr) (next : CodePtr) : Prop :=
  ∃ blk n q, vm.heap[ip.cell]? = some (.bytecode (some blk) n) ∧ blk.serial = ip.serial ∧ CodeAt blk.bytes ip.off i q ∧
    next = { ip with off := q }

/-- The form contains a call with 256 or more arguments: their number is written into the code as one byte.  The list
that a function is applied to is not counted. -/
inductive Crowded (D : Dialect) : Reader.Ast → Prop
  | funcall (name f es) : Spelled name "funcall" → 256 ≤ es.length → Crowded D (.expression (.identifier name :: f :: es))
  | apply (name f es) : Spelled name "apply" → 257 ≤ es.length → Crowded D (.expression (.identifier name :: f :: es))
  | call (name es) : D.callable name = true → 256 ≤ es.length → Crowded D (.expression (.identifier name :: es))
  | inside (e es) : e ∈ es → Crowded D e → Crowded D (.expression es)

/-- The machine runs from `ip` to `ip'` and has more than `k` pending calls all the way, until it arrives. -/
inductive Within (env : Env) (bc : Ref) (k : Nat) : CodePtr → VM → CodePtr → VM → Prop
  | here {ip vm} : Within env bc k ip vm ip vm
  | step {ip vm ip1 vm1 ip2 vm2} : k < vm.callStack.length → step env bc ip vm = .ok (.goto ip1) vm1 →
      Within env bc k ip1 vm1 ip2 vm2 → Within env bc k ip vm ip2 vm2

/-- A machine between programs: it is in order, with functions that start where their code leads to, no call is
pending, and all code is tidy. -/
structure AtRest (vm : VM) : Prop where
  good : @Good byHeight vm
  level : Lockstep vm
  calls : vm.callStack = []
  code : AllTidy vm

end DuckLisp.Spec
