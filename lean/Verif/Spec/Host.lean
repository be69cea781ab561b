import Verif.Model.VM.Api
import Verif.Spec.Reach

/-!
# Histories of a host

What can happen to a machine between its creation and now.
-/

namespace DuckLisp.Spec

open DuckLisp DuckLisp.VM

/-- A host made a machine and called it any number of times, whether or not the calls succeeded. -/
inductive AnyHistory (env : Env) : VM → Prop
  | fresh (maxObjects : Nat) : AnyHistory env (init maxObjects)
  | ok {vm vm' : VM} (c : HostCall) (h : AnyHistory env vm) (hc : c.run env vm = .ok () vm') :
      AnyHistory env vm'
  | failed {vm vm' : VM} {e : DlError} (c : HostCall) (h : AnyHistory env vm)
      (hc : c.run env vm = .err e vm') : AnyHistory env vm'

/-- The same, except that no program failed: calls that run no code of the machine may fail. -/
inductive GoodHistory (env : Env) : VM → Prop
  | fresh (maxObjects : Nat) : GoodHistory env (init maxObjects)
  | ok {vm vm' : VM} (c : HostCall) (h : GoodHistory env vm) (hc : c.run env vm = .ok () vm') :
      GoodHistory env vm'
  | refused {vm vm' : VM} {e : DlError} (c : HostCall) (h : GoodHistory env vm)
      (hp : c.runsCode = false) (hc : c.run env vm = .err e vm') : GoodHistory env vm'

/-- A function of the host that keeps `P` whenever it returns without an error. -/
def Keeps (P : VM → Prop) (m : M Unit) : Prop :=
  ∀ s s', P s → m s = .ok () s' → P s'

/-- A function of the host that keeps `P` whenever it returns. -/
def AlwaysKeeps (P : VM → Prop) (m : M Unit) : Prop :=
  Keeps P m ∧ ∀ s e s', P s → m s = .err e s' → P s'

/-- A machine on which nothing is going on: both stacks are empty, no call is pending.  Everything else
is as in `vm`. -/
def idle (vm : VM) : VM :=
  { vm with stack := [], upStack := [], callStack := [], upArrays := [⟨Option.none, 0⟩] }

/-- Cells that can be reached from the global variables. -/
inductive FromGlobals (vm : VM) : Ref → Prop
  | global {k r} (h : (k, some r) ∈ vm.globals) : FromGlobals vm r
  | step {r o r'} (h : FromGlobals vm r) (ho : vm.heap[r]? = some o) (hm : Mentions o r') :
      FromGlobals vm r'

/-- `vm` with its topmost object replaced by `o`. -/
def topSet (vm : VM) (o : Obj) : VM := { vm with stack := vm.stack.dropLast ++ [o] }

/-- The slot a stack index stands for: a negative index counts from the top. -/
def slotNumber (vm : VM) (i : Int) : Int := if i < 0 then vm.stack.length + i else i

/-- The object in that slot, if there is one. -/
def slot (vm : VM) (i : Int) : Option Obj :=
  if 0 ≤ slotNumber vm i then vm.stack[(slotNumber vm i).toNat]? else none

end DuckLisp.Spec
