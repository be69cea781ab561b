import Verif.Spec.Data
import Verif.Spec.Machine
import Verif.Spec.Calls
import Verif.Model.VM.Exec

/-!
# Captured variables

A variable lives in a slot of the stack as long as the scope that declares it is active, and after that,
if a closure has captured it, in a cell of its own.
-/

namespace DuckLisp.Spec

open DuckLisp DuckLisp.VM

variable [Entries]

/-- Where a variable lives. -/
inductive Place where
  | slot (i : Nat)
  | cell (r : Nat)
deriving DecidableEq, Repr

/-- The value of the variable that lives there. -/
def contents (vm : VM) : Place → Option Obj
  | .slot i => vm.stack[i]?
  | .cell r => vm.heap[r]?

/-- `Denotes vm c pl`: the captured variable of cell `c` lives in `pl`. -/
inductive Denotes (vm : VM) : Nat → Place → Prop
  | slot {c i : Nat} (h : vm.heap[c]? = some (.upvalue (.stackIndex i))) : Denotes vm c (.slot i)
  | cell {c r : Nat} (h : vm.heap[c]? = some (.upvalue (.heapObject (some r)))) : Denotes vm c (.cell r)
  | link {c c' : Nat} {pl : Place} (h : vm.heap[c]? = some (.upvalue (.heapUpvalue (some c'))))
      (hd : Denotes vm c' pl) : Denotes vm c pl

/-- Number `j` of the captured variables of the running function is that of cell `c`. -/
def RunningCapture (vm : VM) (j c : Nat) : Prop :=
  ∃ r serial n ups m, vm.upArrays.getLast? = some ⟨some (r, serial), n⟩ ∧
    vm.heap[r]? = some (.upvalueArray (some ⟨serial, ups⟩) m) ∧ ups[j]? = some (some c)

/-- `Names vm v pl`: the operand `v` of an instruction that makes a closure names the variable that lives
in `pl`: a variable on the stack, counted down from the place the closure will have itself, or a captured
variable of the running function. -/
inductive Names (vm : VM) : Nat → Place → Prop
  | onStack {v} (h : v < 2 ^ 31) (hv : v ≤ vm.stack.length) : Names vm v (.slot (vm.stack.length - v))
  | captured {j c pl} (hj : j < 2 ^ 31) (h : RunningCapture vm j c) (hd : Denotes vm c pl) :
      Names vm (2 ^ 32 - 1 - j) pl

/-- The operands `vs` name the variables that live in `pls`. -/
inductive NamesAll (vm : VM) : List Nat → List Place → Prop
  | nil : NamesAll vm [] []
  | cons {v vs pl pls} (h : Names vm v pl) (hs : NamesAll vm vs pls) : NamesAll vm (v :: vs) (pl :: pls)

/-- `IsClosureOver vm u pls`: the closures whose captured variables are kept in cell `u` have captured the
variables that live in `pls`. -/
def IsClosureOver (vm : VM) (u : Nat) (pls : List Place) : Prop :=
  ∃ b, vm.heap[u]? = some (.upvalueArray b pls.length) ∧
    ∀ (k : Nat) (pl : Place), pls[k]? = some pl →
      ∃ c, ((b.map UpBlock.ups).getD [])[k]? = some (some c) ∧ Denotes vm c pl

/-- The second stack says of each slot whether it has been captured, and in which cell; no two cells stand
for the same slot, and none for a slot that is not there. -/
structure Linked (vm : VM) : Prop where
  entry : ∀ (i c : Nat), vm.upStack[i]? = some (some c) → vm.heap[c]? = some (.upvalue (.stackIndex i))
  cell : ∀ (c : Nat) (i : Int), c ∉ vm.free → vm.heap[c]? = some (.upvalue (.stackIndex i)) →
    0 ≤ i ∧ vm.upStack[i.toNat]? = some (some c)

/-- Cell `c` is the captured variable of something the program can get at. -/
def InReach (vm : VM) (c : Nat) : Prop := Reachable vm c ∧ ∃ u, vm.heap[c]? = some (.upvalue u)

/-- `Assigns vm i pl x`: instruction `i` assigns `x` to the variable that lives in `pl`, as a captured
variable of the running function or as a variable on the stack. -/
inductive Assigns (vm : VM) : Instr → Place → Obj → Prop
  | captured {j a c pl x} (h : RunningCapture vm j c) (hd : Denotes vm c pl) (hx : operand vm a = some x) :
      Assigns vm (.setUpvalue j a) pl x
  | onStack {a b x} (hb : 0 < b) (hb' : b ≤ vm.stack.length) (hx : operand vm a = some x) :
      Assigns vm (.move a b) (.slot (vm.stack.length - b)) x

/-- Cells `c` and `d` stand for the same variable. -/
def SameVariable (vm : VM) (c d : Nat) : Prop := ∃ pl, Denotes vm c pl ∧ Denotes vm d pl

/-- The value of the captured variable of cell `c`. -/
def HasValue (vm : VM) (c : Nat) (o : Obj) : Prop := ∃ pl, Denotes vm c pl ∧ contents vm pl = some o

/-- The captured variables that are still in reach are the ones there were before: the one that lived in
`pl` lives in `move pl`, and has the same value. -/
structure Follows (vm vm' : VM) (move : Place → Place) : Prop where
  denotes : ∀ c pl, InReach vm c → InReach vm' c → Denotes vm c pl → Denotes vm' c (move pl)
  value : ∀ c pl, InReach vm c → InReach vm' c → Denotes vm c pl → contents vm' (move pl) = contents vm pl
  distinct : ∀ c d pl pl', InReach vm c → InReach vm' c → Denotes vm c pl → InReach vm d → InReach vm' d →
    Denotes vm d pl' → move pl = move pl' → pl = pl'

/-- The second stack records nothing for the slots from height `n` on: none of them is captured. -/
def UncapturedFrom (vm : VM) (n : Nat) : Prop := ∀ (i c : Nat), n ≤ i → vm.upStack[i]? ≠ some (some c)

end DuckLisp.Spec
