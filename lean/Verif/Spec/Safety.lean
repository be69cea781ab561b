import Verif.Spec.Machine
import Verif.Spec.Data
import Verif.Spec.Calls
import Verif.Spec.Closures
import Verif.Spec.Lockstep

/-!
# Where an instruction can go wrong

The machine does not check everything.  `Faulty` lists, instruction by instruction, the situations in
which an instruction of the C code has no defined behaviour, does not come back, or leaves the
memory of the machine out of order.  Everywhere else it must do neither.
-/

namespace DuckLisp.Spec

open DuckLisp DuckLisp.VM

variable [Entries]

/-- The instructions that work on data: everything but jumps, calls, returns and the instructions for
captured variables. -/
def IsData : Instr → Prop
  | .funcall .. | .apply .. | .call _ | .ccall _ | .jump _ | .brnz .. | .return_ _ | .return0 | .halt
  | .pushUpvalue _ | .setUpvalue .. | .pushClosure .. | .releaseUpvalues _ => False
  | _ => True

/-- Literals that fit the machine; all that can be read from code do. -/
def LiteralsFitMachine : Instr → Prop
  | .pushString s => s.length < 2 ^ 63
  | .pushSymbol _ name => name.length < 2 ^ 63
  | .pushInteger i => InRange i
  | .vector as => as.length < 2 ^ 60
  | _ => True

/-- Integer arithmetic whose result does not exist or does not fit 64 bits, and division of a boolean
by false. -/
def ArithFault (op : Arith) : Obj → Obj → Prop
  | .bool _, .bool y => op = .div ∧ y = 0
  | x, y => ∃ i j, asInteger x = some i ∧ asInteger y = some j ∧ ¬ ∃ r, Exact op i j r ∧ InRange r

/-- The list from `p` on can be read as bytes: it ends, or an element that is not an integer comes
first; no element before that is the empty list. -/
inductive Readable (heap : List Obj) : Option Ref → Prop
  | nil : Readable heap none
  | other {r o} (h : heap[r]? = some o) (hc : ∀ a d, o ≠ .cons a d) (hl : ∀ p, o ≠ .list p) :
      Readable heap (some r)
  | list {r p} (h : heap[r]? = some (.list p)) (hp : Readable heap p) : Readable heap (some r)
  | stop {r c d o} (h : heap[r]? = some (.cons (some c) d)) (hc : heap[c]? = some o)
      (ho : ∀ i, o ≠ .integer i) : Readable heap (some r)
  | cons {r c d i} (h : heap[r]? = some (.cons (some c) d)) (hc : heap[c]? = some (.integer i))
      (hd : Readable heap d) : Readable heap (some r)

/-- Number of elements of the vector stored in cell `r`. -/
def vectorLength (vm : VM) (r : Ref) : Nat :=
  match vm.heap[r]? with
  | some (.internalVector _ n _) => n
  | _ => 0

/-- Number of elements cell `r` has room for. -/
def vectorRoom (vm : VM) (r : Ref) : Nat :=
  match vm.heap[r]? with
  | some (.internalVector vs _ _) => (vs.getD []).length
  | _ => 0

/-- Number of bytes stored in cell `r`. -/
def textLength (vm : VM) (r : Ref) : Nat :=
  match vm.heap[r]? with
  | some (.internalString v _) => (v.getD []).length
  | _ => 0

/-- Strings and symbols. -/
def IsText : Obj → Prop
  | .string .. | .symbol .. => True
  | _ => False

/-- A text `concatenate` cannot read: one without storage, or a slice for which start plus end lies
beyond its storage. -/
def ConcatFault (vm : VM) : Obj → Prop
  | .string none _ _ => True
  | .string (some r) off len => len ≠ 0 ∧ (textLength vm r : Int) < off + len
  | .symbol _ none => True
  | _ => False

/-- Number `j` of the captured variables of the running function is `p`.  There is none if the array has
been freed, or has no such element. -/
def RunningElement (vm : VM) (j : Nat) (p : Option Ref) : Prop :=
  ∃ r serial n ups m, vm.upArrays.getLast? = some ⟨some (r, serial), n⟩ ∧
    vm.heap[r]? = some (.upvalueArray (some ⟨serial, ups⟩) m) ∧ ups[j]? = some p

/-- `LeadsTo vm p e`: the chain of captured variables that starts at `p` ends at `e`, or at a null
pointer (`none`). -/
inductive LeadsTo (vm : VM) : Option Ref → Option Upvalue → Prop
  | null : LeadsTo vm none none
  | here {c u} (h : vm.heap[c]? = some (.upvalue u)) (hu : ∀ l, u ≠ .heapUpvalue l) :
      LeadsTo vm (some c) (some u)
  | link {c l e} (h : vm.heap[c]? = some (.upvalue (.heapUpvalue l))) (hl : LeadsTo vm l e) :
      LeadsTo vm (some c) e

/-- The captured variables of the running function are within reach of the program. -/
def CapturesKept (vm : VM) : Prop :=
  ∀ r serial n, vm.upArrays.getLast? = some ⟨some (r, serial), n⟩ → Reachable vm r

/-- The situations in which an instruction of this machine goes wrong. -/
def Faulty (vm : VM) : Instr → Prop
  -- the operand of `set-global` is not checked
  | .setGlobal a _ => operand vm a = none
  -- overflow and division by zero
  | .arith op a b => ∃ x y, operand vm a = some x ∧ operand vm b = some y ∧ ArithFault op x y
  -- a collection during the construction of a vector loses elements
  | .vector as => vm.free.length ≤ as.length
  -- sizes no memory has room for
  | .makeVector a _ => ∃ n, operand vm a = some (.integer n) ∧ 2 ^ 60 ≤ n
  -- elements of a vector that has no storage, and overflow in adding the start of a slice
  | .getVecElt a b => ∃ p off i, operand vm a = some (.vector p off) ∧
      operand vm b = some (.integer i) ∧ 0 ≤ i ∧ (p = none ∨ 2 ^ 63 ≤ i + off)
  | .setVecElt a b c => ∃ p off i, operand vm a = some (.vector p off) ∧
      operand vm b = some (.integer i) ∧ operand vm c ≠ none ∧ (p = none ∨ 2 ^ 63 ≤ i + off)
  -- the first element of a vector that has no room for one
  | .setCar a b => ∃ r off, operand vm a ≠ none ∧ operand vm b = some (.vector (some r) off) ∧
      (vectorRoom vm r : Int) ≤ off
  -- setting the rest of a slice that starts beyond the end makes the vector longer
  | .setCdr a b => ∃ r off, operand vm b = some (.vector (some r) off) ∧
      (vectorLength vm r : Int) < off
  -- the name of a symbol that came without one
  | .symbolString a => ∃ id, operand vm a = some (.symbol id none)
  -- a number that does not fit the machine: no symbol has one
  | .symbolId a => ∃ id p, operand vm a = some (.symbol id p) ∧ 2 ^ 64 ≤ id
  -- vectors without storage, slices beyond the end, elements that are not integers; lists that are
  -- circular or contain the empty list
  | .makeString a =>
      (∃ off, operand vm a = some (.vector none off)) ∨
      (∃ r off, operand vm a = some (.vector (some r) off) ∧
        ((vectorLength vm r : Int) < off ∨
          ∃ (xs : List Obj) (k : Nat) (x : Obj), IsVector vm r xs ∧ off ≤ (k : Int) ∧ xs[k]? = some x ∧ ∀ i, x ≠ .integer i)) ∨
      (∃ p, operand vm a = some (.list p) ∧ ¬ Readable vm.heap p)
  -- texts without storage, slices
  | .concatenate a b => ∃ x y, operand vm a = some x ∧ operand vm b = some y ∧ IsText x ∧ IsText y ∧
      (ConcatFault vm x ∨ ConcatFault vm y)
  -- composites whose function part leads back to them, and counts of arguments that are not there
  | .funcall a n => ∃ f, operand vm a = some f ∧ ((∀ g, ¬ Callee vm f g) ∨
      ∃ pos code ups arity, Callee vm f (.closure pos code ups arity true) ∧ vm.stack.length < n)
  -- a global that is not a function of the host is called all the same
  | .ccall key => ∃ p, vm.globals.lookup (key : Int) = some p ∧
      ∀ r cb, p = some r → vm.heap[r]? ≠ some (.function cb)
  -- as for `funcall`; and a function with a rest parameter applied to a list that is not proper, the
  -- rest of which need not be a list
  | .apply a n => ∃ f, operand vm a = some f ∧ ((∀ g, ¬ Callee vm f g) ∨
      ∃ pos code ups arity, Callee vm f (.closure pos code ups arity true) ∧ (vm.stack.length ≤ n ∨
        ∃ p, operand vm 1 = some (.list p) ∧ ∀ xs, ¬ ListOf vm p xs))
  -- captured variables that are not there (any more), and circular chains of them
  | .pushUpvalue j => vm.upArrays ≠ [] ∧ ¬ ∃ p e, RunningElement vm j p ∧ LeadsTo vm p e
  | .setUpvalue j a => operand vm a ≠ none ∧ ¬ ∃ p u, RunningElement vm j p ∧ LeadsTo vm p (some u)
  -- a variable to be captured that is a captured variable which is not there; a collection may free
  -- those of the running function
  | .pushClosure _ _ _ _ vs =>
      (∃ v ∈ vs, 2 ^ 31 ≤ v ∧ ∀ p, ¬ RunningElement vm (2 ^ 32 - 1 - v) p) ∨
      ((∃ v ∈ vs, 2 ^ 31 ≤ v) ∧ ¬ CapturesKept vm ∧ vm.free.length ≤ vs.length)
  -- the slot above the top of the stack
  | .releaseUpvalues as => 0 ∈ as
  | _ => False

/-- The instructions that leave a half-built vector behind when they fail. -/
def Builds : Instr → Prop
  | .vector _ | .makeVector .. => True
  | _ => False

/-- The instructions that transfer control. -/
def IsControl : Instr → Prop
  | .funcall .. | .apply .. | .ccall _ | .call _ | .jump _ | .brnz .. | .return_ _ | .return0 | .halt => True
  | _ => False

/-- The instructions for captured variables. -/
def IsVariable : Instr → Prop
  | .pushUpvalue _ | .setUpvalue .. | .pushClosure .. | .releaseUpvalues _ => True
  | _ => False

/-- The instruction that makes a function. -/
def MakesFunction : Instr → Prop
  | .pushClosure .. => True
  | _ => False

/-- A machine in order that is running the code of cell `bc`. -/
structure Running (bc : Ref) (vm : VM) : Prop where
  good : Good vm
  level : Lockstep vm
  current : vm.currentBytecode = some bc

/-- The functions of the host behave: on a machine in order they come back, and they leave it in order,
or they report an error. -/
def HostBehaves (env : Env) (bc : Ref) : Prop :=
  ∀ cb vm, Running bc vm → (∃ vm', env.host cb vm = .ok () vm' ∧ Running bc vm') ∨
    ∃ e vm', env.host cb vm = .err e vm'

/-- `Arrives env bc ip vm ip' vm'`: executing instruction after instruction, the machine gets from
position `ip` and state `vm` to position `ip'` and state `vm'`. -/
inductive Arrives (env : Env) (bc : Ref) : CodePtr → VM → CodePtr → VM → Prop
  | here {ip vm} : Arrives env bc ip vm ip vm
  | step {ip vm ip1 vm1 ip2 vm2} (h : step env bc ip vm = .ok (.goto ip1) vm1)
      (hr : Arrives env bc ip1 vm1 ip2 vm2) : Arrives env bc ip vm ip2 vm2

/-- The instruction at position `ip`: the position is in a block of code that is still there, and the
bytes from there on start with that instruction. -/
def InstructionAt (vm : VM) (ip : CodePtr) (i : Instr) : Prop :=
  ∃ blk n rest, vm.heap[ip.cell]? = some (.bytecode (some blk) n) ∧ blk.serial = ip.serial ∧
    0 ≤ ip.off ∧ ip.off.toNat ≤ blk.bytes.length ∧ decode (blk.bytes.drop ip.off.toNat) = some (i, rest)

/-- A place where the machine may go wrong: there is no whole instruction, the instruction goes wrong as
listed above, or it makes a function, but is not part of the program that has been started: it is part
of a function another program has made. -/
def Pitfall (vm : VM) (ip : CodePtr) : Prop :=
  (¬ ∃ i, InstructionAt vm ip i) ∨
  ∃ i, InstructionAt vm ip i ∧ (Faulty vm i ∨ (MakesFunction i ∧ vm.currentBytecode ≠ some ip.cell))

end DuckLisp.Spec
