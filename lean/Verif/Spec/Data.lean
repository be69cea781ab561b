import Verif.Spec.Sound

/-!
# Data structures in memory

What pairs, vectors, strings and composites hold, and what it means for an instruction to leave the
rest of memory alone.
-/

namespace DuckLisp.Spec

open DuckLisp DuckLisp.VM

variable [Entries]

/-- Everything the program could reach is as it was, except perhaps the cells in `changed`; globals,
pending calls and the count of user types are as they were. -/
structure Untouched (vm vm' : VM) (changed : List Ref) : Prop where
  cells : ∀ c, Reachable vm c → c ∉ changed → vm'.heap[c]? = vm.heap[c]?
  globals : vm'.globals = vm.globals
  callStack : vm'.callStack = vm.callStack
  upArrays : vm'.upArrays = vm.upArrays
  currentBytecode : vm'.currentBytecode = vm.currentBytecode
  nextUserType : vm'.nextUserType = vm.nextUserType

/-- `Part vm p o`: `p`, one half of a pair, stands for the value `o`: nothing is the empty list, a
pair is the list that starts with it, anything else is a copy of the value. -/
inductive Part (vm : VM) : Option Ref → Obj → Prop
  | empty : Part vm none (.list none)
  | pair {c a d} (h : vm.heap[c]? = some (.cons a d)) : Part vm (some c) (.list (some c))
  | value {c o} (h : vm.heap[c]? = some o) (ho : ∀ a d, o ≠ .cons a d) : Part vm (some c) o

/-- Cell `r` is a pair of the values `x` and `y`. -/
def IsPair (vm : VM) (r : Ref) (x y : Obj) : Prop :=
  ∃ a d, vm.heap[r]? = some (.cons a d) ∧ Part vm a x ∧ Part vm d y

/-- `ListOf vm p xs`: the list that starts at `p` ends, and its elements are `xs`. -/
inductive ListOf (vm : VM) : Option Ref → List Obj → Prop
  | nil : ListOf vm none []
  | cons {r a d x xs} (h : vm.heap[r]? = some (.cons a d)) (ha : Part vm a x) (ht : ListOf vm d xs) :
      ListOf vm (some r) (x :: xs)

/-- Cell `r` is the storage of a vector with the elements `xs`. -/
def IsVector (vm : VM) (r : Ref) (xs : List Obj) : Prop :=
  ∃ slots n, vm.heap[r]? = some (.internalVector slots n true) ∧ n = xs.length ∧
    ∀ i, i < n → ∃ c, (slots.getD [])[i]? = some (.ptr (some c)) ∧ vm.heap[c]? = xs[i]?

/-- Cell `r` is a composite of type `t` with value part `x` and function part `f`. -/
def IsComposite (vm : VM) (r : Ref) (t : Nat) (x f : Obj) : Prop :=
  ∃ v w, vm.heap[r]? = some (.internalComposite t (some v) (some w)) ∧
    vm.heap[v]? = some x ∧ vm.heap[w]? = some f

end DuckLisp.Spec
