import Verif.Model.VM.Api
import Verif.Spec.Sound

/-!
# What can happen to a machine while nothing is stored under a key
-/

namespace DuckLisp.VM

open DuckLisp DuckLisp.Spec

/-- `m` leads from `s` to `s'`, with or without an error. -/
def GetsTo {α : Type} (m : M α) (s s' : VM) : Prop := (∃ a, m s = .ok a s') ∨ ∃ e, m s = .err e s'

/-- The call stores something under key `k`. -/
def HostCall.StoresUnder (k : Nat) : HostCall → Prop
  | .linkCFunction key _ => key = k
  | .setGlobal key => key = k
  | _ => False

/-- `Later k vm vm'`: the machine was in state `vm` and got to state `vm'`, and in between nothing was
stored under key `k`.  Whatever else happened, and whether or not it succeeded: instructions of any
program were executed, the host called the machine, programs were started and ended.  Functions of the
host that were called by a program themselves did only such things. -/
inductive Later (k : Nat) : VM → VM → Prop
  | now {vm} : Later k vm vm
  | instruction {vm vm1 vm2} (env : Env) (bc : Ref) (st nx : CodePtr) (i : Instr)
      (h : Later k vm vm1) (hg : Good vm1) (hi : ∀ a, i ≠ .setGlobal a k)
      (hh : ∀ cb s s', Good s → GetsTo (env.host cb) s s' → Later k s s')
      (he : GetsTo (exec env bc st nx i) vm1 vm2) : Later k vm vm2
  | call {vm vm1 vm2} (env : Env) (c : HostCall) (h : Later k vm vm1) (hg : Good vm1)
      (hp : c.runsCode = false) (hi : ¬ c.StoresUnder k) (he : GetsTo (c.run env) vm1 vm2) : Later k vm vm2
  | load {vm vm1 vm2} (code : Bytes) (h : Later k vm vm1) (hg : Good vm1)
      (he : GetsTo (pushObject (.bytecode (some ⟨0, code⟩) code.length)) vm1 vm2) : Later k vm vm2
  | switch {vm vm1} (r : Option Ref) (h : Later k vm vm1) : Later k vm { vm1 with currentBytecode := r }

end DuckLisp.VM
