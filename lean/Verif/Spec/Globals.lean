import Verif.Model.VM.Exec
import Verif.Spec.Machine

/-!
# What reading a global gives
-/

namespace DuckLisp.VM

open DuckLisp DuckLisp.Spec

/-- Reading global `k` gives `x`: the instruction `push-global` pushes it. -/
def Reads (vm : VM) (k : Nat) (x : Obj) : Prop :=
  ∀ env bc st nx, exec env bc st nx (.pushGlobal k) vm = .ok (.goto nx) (pushed vm x)

/-- Reading global `k` is an error that changes nothing. -/
def Unset (vm : VM) (k : Nat) : Prop :=
  ∀ env bc st nx, exec env bc st nx (.pushGlobal k) vm = .err .invalidValue vm

end DuckLisp.VM
