import Verif.Model.VM.Types

/-!
# The two stacks of the machine

Every slot of the stack has its own entry on the stack of captured variables, which says whether a
closure has captured the variable in that slot.
-/

namespace DuckLisp.Spec

open DuckLisp DuckLisp.VM

/-- The stack and the stack of captured variables have the same height. -/
def Lockstep (vm : VM) : Prop := vm.stack.length = vm.upStack.length

/-- The code that runs outside of any call has no captured variables, and every pending call has its
own set of captured variables on top of that. -/
def CallsLockstep (vm : VM) : Prop :=
  ∃ rest, vm.upArrays = ⟨Option.none, 0⟩ :: rest ∧ rest.length = vm.callStack.length

end DuckLisp.Spec
