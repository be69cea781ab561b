import Verif.Props.VM.Globals
import Verif.Props.VM.Calls

/-!
# C38: calls of host functions by their key, and where a run ends

A call by name of a function the host has linked is compiled to an instruction that names the key of the function.
-/

namespace DuckLisp.VM

open DuckLisp DuckLisp.Spec

theorem exec_ccall (env : Env) (bc : Nat) (st nx : CodePtr) (vm : VM) (k : Nat) :
    exec env bc st nx (.ccall k) vm = (do iCcall env k; return Ctl.goto nx : M Ctl) vm := rfl

theorem iCcall_reads {env : Env} {vm : VM} {k : Nat} {x : Obj} (hx : x ≠ .none) (h : Reads vm k x) :
    iCcall env k vm = match x with
      | .function cb => env.host cb vm
      | _ => .ub := by
  rcases reads_iff.mp h with ⟨-, rfl⟩ | ⟨r, hb, hr⟩
  · exact absurd rfl hx
  · unfold iCcall
    rw [M.bind_ok (a := some r) (s' := vm) (by rw [globalGet_eq, hb]),
      M.bind_ok (a := x) (s' := vm) (by
        unfold deref; rw [M.bind_ok (show M.need (some r) vm = .ok r vm from rfl)]; exact readCell_some hr)]
    cases x <;> rfl

/-- C38: a call by key runs the function the host has linked under the key, on the machine as it is, and goes on after
the call, or reports the error of the function. -/
theorem C38_by_key (env : Env) (bc : Nat) (st nx : CodePtr) (vm : VM) (k cb : Nat) (h : Reads vm k (.function cb)) :
    (∀ vm', env.host cb vm = .ok () vm' → exec env bc st nx (.ccall k) vm = .ok (.goto nx) vm') ∧
    ∀ e vm', env.host cb vm = .err e vm' → exec env bc st nx (.ccall k) vm = .err e vm' := by
  have hc := iCcall_reads (env := env) (by simp) h
  simp only at hc
  constructor
  · intro vm' hh
    rw [exec_ccall, M.bind_ok (hc.trans hh)]; rfl
  · intro e vm' hh
    rw [exec_ccall, M.bind_err (hc.trans hh)]

/-- C38: with no function under the key the call is an error, and nothing has changed. -/
theorem C38_by_key_unset (env : Env) (bc : Nat) (st nx : CodePtr) (vm : VM) (k : Nat) (h : Unset vm k) :
    exec env bc st nx (.ccall k) vm = .err .invalidValue vm := by
  have hc : iCcall env k vm = .err .invalidValue vm := by
    unfold iCcall
    rw [M.bind_err (by rw [globalGet_eq, unset_iff.mp h])]
  rw [exec_ccall, M.bind_err hc]

/-- C38, violated: if a program has set the key to anything but a host function, the call by key is undefined: the
machine takes the value for the address of a function. -/
theorem C38_by_key_not_checked (env : Env) (bc : Nat) (st nx : CodePtr) (vm : VM) (k : Nat) (x : Obj) (hx : x ≠ .none)
    (h : Reads vm k x) (hf : ∀ cb, x ≠ .function cb) : exec env bc st nx (.ccall k) vm = .ub := by
  have hc : iCcall env k vm = .ub := by
    rw [iCcall_reads hx h]
    cases x <;> first | rfl | exact absurd rfl (hf _)
  rw [exec_ccall, M.bind_ub hc]

/-- C38: both ways to call a host function do the same. -/
theorem C38_by_key_or_value (env : Env) (bc : Nat) (st nx : CodePtr) (vm : VM) (k cb a n : Nat) (f : Obj)
    (h : Reads vm k (.function cb)) (ha : operand vm a = some f) (hf : Callee vm f (.function cb))
    (hh : (∃ vm', env.host cb vm = .ok () vm') ∨ ∃ e vm', env.host cb vm = .err e vm') :
    exec env bc st nx (.ccall k) vm = exec env bc st nx (.funcall a n) vm := by
  have h1 := C38_by_key env bc st nx vm k cb h
  have h2 := C38_host_function env bc st nx vm a n cb f ha hf
  rcases hh with ⟨vm', hh⟩ | ⟨e, vm', hh⟩
  · rw [h1.1 _ hh, h2.1 _ hh]
  · rw [h1.2 _ _ hh, h2.2 _ _ hh]

/-- C38: a return with no call pending ends the run, as `halt` does: `halt` leaves the machine as it is, a return
without values to drop too. -/
theorem C38_run_ends (env : Env) (bc : Nat) (st nx : CodePtr) (vm : VM) :
    exec env bc st nx .halt vm = .ok .halt vm ∧
    (vm.callStack = [] → exec env bc st nx .return0 vm = .ok .halt vm) := by
  refine ⟨rfl, fun h => ?_⟩
  simp only [exec, leave]
  rw [M.bind_ok (a := none) (s' := vm) (by unfold popFrame; rw [h]; rfl)]
  rfl

/-- A machine with the host function 0 under key 1 and a number under key 2. -/
def keysVM : VM :=
  { heap := [.function 0, .integer 5], free := [], stack := [.function 0], upStack := [none],
    globals := [(1, some 0), (2, some 1)] }

example : Reads keysVM 1 (.function 0) ∧ Reads keysVM 2 (.integer 5) ∧ Unset keysVM 3 :=
  ⟨reads_iff.mpr (.inr ⟨0, rfl, rfl⟩), reads_iff.mpr (.inr ⟨1, rfl, rfl⟩), unset_iff.mpr rfl⟩
example (env : Env) (bc : Nat) (st nx : CodePtr) : exec env bc st nx (.ccall 2) keysVM = .ub :=
  C38_by_key_not_checked env bc st nx keysVM 2 (.integer 5) (by simp) (reads_iff.mpr (.inr ⟨1, rfl, rfl⟩)) (by simp)
example : operand keysVM 1 = some (.function 0) ∧ keysVM.callStack = [] := ⟨rfl, rfl⟩

#print axioms C38_by_key
#print axioms C38_by_key_unset
#print axioms C38_by_key_not_checked
#print axioms C38_by_key_or_value
#print axioms C38_run_ends

end DuckLisp.VM
