import Verif.Spec.Data
import Verif.Spec.Machine
import Verif.Model.VM.Exec

/-!
# Calls
-/

namespace DuckLisp.Spec

open DuckLisp DuckLisp.VM

/-- `Callee vm f g`: calling `f` is calling `g`: a value that is not a composite stands for itself, a
composite for its function part. -/
inductive Callee (vm : VM) : Obj → Obj → Prop
  | self {f} (h : ∀ c, f ≠ .composite c) : Callee vm f f
  | part {r t x f g} (h : IsComposite vm r t x f) (hg : Callee vm f g) : Callee vm (.composite (some r)) g

/-- The code of cell `c`, at position `pos`. -/
def IsCode (vm : VM) (c : Nat) (pos : Int) (ip : CodePtr) : Prop :=
  ∃ b n, vm.heap[c]? = some (.bytecode (some b) n) ∧ ip = ⟨c, b.serial, pos⟩

/-- The variables a closure has captured, kept in cell `u`. -/
def IsCaptures (vm : VM) (u : Nat) (a : UpArray) : Prop :=
  ∃ b n, vm.heap[u]? = some (.upvalueArray b n) ∧ a = ⟨b.map fun b => (u, b.serial), n⟩

/-- `vm'` is `vm` with one more pending call, which goes on at `back` in the code of cell `bc`. -/
def Called (vm vm' : VM) (bc : Nat) (back : CodePtr) (ups : UpArray) : Prop :=
  vm' = { vm with callStack := vm.callStack ++ [⟨back, some bc⟩], upArrays := vm.upArrays ++ [ups] }

/-- The instruction the compiler ends a function with that has `n` values on the stack besides its
result: its parameters and what else its body has left there. -/
def returning (n : Nat) : Instr := if n = 0 then .return0 else .return_ n

/-- The machine with the value on top of the stack replaced by the values `xs`. -/
def spreadOut (vm : VM) (xs : List Obj) : VM :=
  { vm with stack := vm.stack.dropLast ++ xs, upStack := vm.upStack.dropLast ++ xs.map fun _ => none }

/-- `Runs env bc stop k a b`: in `k` steps the machine goes from state `a` to state `b`, where a state
is a position in the code and a machine, and it is not at `stop` before. -/
inductive Runs (env : Env) (bc stop : Nat) : Nat → CodePtr × VM → CodePtr × VM → Prop
  | refl {a} : Runs env bc stop 0 a a
  | step {k ip vm ip' vm' b} (hne : ip.cell ≠ stop) (h : step env bc ip vm = .ok (.goto ip') vm')
      (hr : Runs env bc stop k (ip', vm') b) : Runs env bc stop (k + 1) (ip, vm) b

end DuckLisp.Spec
