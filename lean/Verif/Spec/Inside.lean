import Verif.Spec.Safety
import Verif.Spec.Asm

/-!
# Where control can be

Which positions of a block of code the machine can come to: those that following the instructions from
the first byte on leads to.
-/

namespace DuckLisp.Spec

open DuckLisp DuckLisp.VM DuckLisp.Asm

/-- The bytes of the code from position `p` up to position `q` are instruction `i`; all of it is inside the
code. -/
def CodeAt (code : Bytes) (p : Int) (i : Instr) (q : Int) : Prop :=
  ∃ before bytes after, code = before ++ bytes ++ after ∧ p = before.length ∧
    q = before.length + bytes.length ∧ decode (bytes ++ after) = some (i, after)

/-- Control can go on with the instruction that follows. -/
def GoesOn : Instr → Prop
  | .jump _ | .return_ _ | .return0 | .halt => False
  | _ => True

/-- The positions that following the instructions from the first byte on leads to: over instructions, to the
targets of jumps, branches and calls, and to where the functions start that the instructions make. -/
inductive Flow (code : Bytes) : Int → Prop
  | start : Flow code 0
  | next {p i q} (h : Flow code p) (hi : CodeAt code p i q) (hg : GoesOn i) : Flow code q
  | land {p i q t} (h : Flow code p) (hi : CodeAt code p i q) (ht : landing p q i = some t) : Flow code t

/-- Functions start at positions that their code leads to. -/
@[reducible] def byFlow : Entries := ⟨fun blk pos _ _ => Flow blk.bytes pos⟩

/-- Position `ip` is in a block of code that there is in `vm`, and this code leads to it. -/
def InCode (vm : VM) (ip : CodePtr) : Prop :=
  ∃ blk n, vm.heap[ip.cell]? = some (.bytecode (some blk) n) ∧ blk.serial = ip.serial ∧ Flow blk.bytes ip.off

/-- The machine `vm` at `ip` is confined to the code there was in `vm0`: it is in order, with functions that
start where their code leads to, there is no code that there was not in `vm0`, and control and every pending
call are at positions that this code leads to. -/
structure Confined (vm0 : VM) (bc : Ref) (vm : VM) (ip : CodePtr) : Prop where
  running : @Running byFlow bc vm
  code : ∀ (c : Ref) (blk : CodeBlock) (n : Nat), vm.heap[c]? = some (.bytecode (some blk) n) →
    ∃ m, vm0.heap[c]? = some (.bytecode (some blk) m)
  here : InCode vm0 ip
  frames : ∀ f ∈ vm.callStack, InCode vm0 f.ip

/-- The functions of the host do not load or run code. -/
def HostLeavesCode (env : Env) : Prop :=
  ∀ cb vm vm', env.host cb vm = .ok () vm' → vm'.callStack = vm.callStack ∧
    ∀ (c : Ref) (blk : CodeBlock) (n : Nat), vm'.heap[c]? = some (.bytecode (some blk) n) →
      ∃ m, vm.heap[c]? = some (.bytecode (some blk) m)

/-- Whole code: there is an instruction, wholly inside the code, at every position that the code leads to. -/
def Whole (code : Bytes) : Prop := ∀ p, Flow code p → ∃ i q, CodeAt code p i q

/-- Position `p` is where the code of instruction `k` of the program starts; the machine reads it as `m`. -/
def AtInstruction (program : List Ins) (pieces : List Bytes) (p : Int) (k : Nat) (m : Instr) : Prop :=
  ∃ i piece, program[k]? = some i ∧ pieces[k]? = some piece ∧ piece ≠ [] ∧ p = offset pieces k ∧
    ∀ rest, decode (piece ++ rest) = some (m, rest)

/-- `vm0` is what `vm` becomes when `code` is loaded to be executed: it is in cell `bc`, as block `serial`. -/
def Loaded (code : Bytes) (vm : VM) (bc serial : Nat) (vm0 : VM) : Prop :=
  ∃ vm1, pushObject (.bytecode (some ⟨0, code⟩) code.length) vm = .ok bc vm1 ∧
    vm0 = { vm1 with currentBytecode := some bc } ∧ codeSerial bc vm1 = .ok serial vm1

/-- A machine between programs: it is in order, with functions that start where their code leads to, no call is
pending, and all code is whole. -/
structure Resting (vm : VM) : Prop where
  good : @Good byFlow vm
  level : Lockstep vm
  calls : vm.callStack = []
  code : ∀ (c : Ref) (blk : CodeBlock) (n : Nat), vm.heap[c]? = some (.bytecode (some blk) n) → Whole blk.bytes

end DuckLisp.Spec
