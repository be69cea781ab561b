import Verif.Spec.Quote
import Verif.Spec.Run
import Verif.Model.VM.Exec

/-!
# What a call of a macro is
-/

namespace DuckLisp.Spec

open DuckLisp.VM DuckLisp.Reader

/-- If `bytes` are run in `vm`, control gets to a call of the function `f` with one argument for each of the trees: on the
stack are then the values that were there before, and above them the data that the trees stand for, in order. -/
def LeadsToCall (env : VM.Env) (R : Eval.Reading) (bytes : Bytes) (vm : VM) (f : Obj) (trees : List Ast) : Prop :=
  ∃ bc serial vm1 n ip ip' vm2 os a,
    pushObject (.bytecode (some ⟨0, bytes⟩) bytes.length) vm = .ok bc vm1 ∧
    codeSerial bc vm1 = .ok serial vm1 ∧
    MachineSteps env bc n (⟨bc, serial, 0⟩, { vm1 with currentBytecode := some bc }) (ip, vm2) ∧
    Good vm2 ∧ vm2.callStack = vm.callStack ∧
    vm2.stack = vm.stack ++ os ∧ os.length = trees.length ∧
    (∀ (k : Nat) (o : Obj) (e : Ast), os[k]? = some o → trees[k]? = some e → Eval.Holds R vm2 o (quoted e)) ∧
    getArg a vm2 = .ok f vm2 ∧
    step env bc ip vm2 = exec env bc ip ip' (.funcall a trees.length) vm2

end DuckLisp.Spec
