import Verif.Props.VM.Lockstep
import Verif.Props.VM.Heap

/-!
# C44: resetting the machine
-/

namespace DuckLisp.Props

open DuckLisp DuckLisp.VM DuckLisp.Spec

/-- C44: resetting a machine whose stacks are in lockstep empties both stacks and drops the pending
calls and what they captured; heap, free cells, globals and the counter of types are kept.  Missing
from the property: machines whose stacks are not in lockstep, see
`C44_failed_program_can_not_be_reset`. -/
theorem C44_soft_reset_partial (vm : VM) (hl : Lockstep vm) (hc : CallsLockstep vm) :
    softReset vm = .ok () (idle vm) := by
  obtain ⟨rest, hr, hn⟩ := hc
  unfold Lockstep at hl
  have hp : popMany vm.stack.length vm = .ok () { vm with stack := [], upStack := [] } := by
    unfold popMany
    rw [if_neg (by omega)]
    simp only
    rw [if_neg (by omega)]
    simp [hl]
  unfold softReset
  rw [M.bind_ok (m := height) (a := vm.stack.length) (s' := vm) rfl, M.bind_ok hp,
    M.bind_ok (m := M.get) rfl]
  unfold dropTop
  simp only
  rw [if_neg (by rw [hr]; simp; omega)]
  simp [M.bind_run, M.orErr, M.set, M.pure, hr, hn, idle]

/-- C44: whatever a host has done with a machine, it can be reset if no program has failed. -/
theorem C44_reset_after_history_partial (env : Env)
    (hhost : ∀ n, Keeps Lockstep (env.host n) ∧ AlwaysKeeps CallsLockstep (env.host n))
    (vm : VM) (h : GoodHistory env vm) : softReset vm = .ok () (idle vm) := by
  refine C44_soft_reset_partial vm (C41_lockstep_partial env (fun n => (hhost n).1) vm h).1 ?_
  refine C41_pending_calls env (fun n => (hhost n).2) vm ?_
  induction h with
  | fresh n => exact .fresh n
  | ok c _ hc ih => exact .ok c ih hc
  | refused c _ _ hc ih => exact .failed c ih hc

/-- C44: nor does a program that has failed prevent it, as long as the instruction that failed was not
`vector`, `make-vector` or `push-closure` and the calls that were pending were in order. -/
theorem C44_reset_after_error_partial (env : Env)
    (hhost : ∀ n, AlwaysKeeps Lockstep (env.host n)) (hhost' : ∀ n, AlwaysKeeps CallsLockstep (env.host n))
    (bc : Nat) (st nx : CodePtr) (i : Instr) (vm vm' : VM) (e : DlError)
    (hl : Lockstep vm) (hc : CallsLockstep vm)
    (hi : (∀ as, i ≠ .vector as) ∧ (∀ a b, i ≠ .makeVector a b) ∧
      ∀ v a b c d, i ≠ .pushClosure v a b c d)
    (he : exec env bc st nx i vm = .err e vm') : softReset vm' = .ok () (idle vm') := by
  refine C44_soft_reset_partial vm' (C41_failed_instruction_partial env hhost bc st nx i vm vm' e hl hi he) ?_
  exact Rel.err (rel_exec callsPrims (fun n => always_callsInStep (hhost' n)) bc st nx i
    (fun _ _ _ _ _ => rel_modify (fun _ => id)) (fun _ s => id) (fun _ => callsPrims')) he hc

/-- C44: after a reset the collector frees every cell that can not be reached from a global variable,
so the whole heap but for the globals is available to the next program. -/
theorem C44_reset_releases_heap (vm vm' : VM) (hrun : vm.currentBytecode = none)
    (h : garbageCollect (idle vm) = .ok () vm') :
    vm'.globals = vm.globals ∧ vm'.heap.length = vm.heap.length ∧
    ∀ r, r < vm.heap.length → ¬ FromGlobals vm r → r ∈ vm'.free := by
  obtain ⟨h1, -, -, h4, -⟩ := C26_collection_reclaims_unreachable h
  have hs := garbageCollect_same h
  refine ⟨by simp_all [idle], h1, fun r hr hn => h4 r hr (fun hreach => hn ?_)⟩
  clear h4 hr hn h1 h hs
  induction hreach with
  | root h =>
    cases h with
    | stack ho _ => simp [idle] at ho
    | captured h => simp [idle] at h
    | global h => exact .global h
    | pending hf _ => simp [idle] at hf
    | running h => simp [idle, hrun] at h
  | step _ ho hm ih => exact .step ih ho hm

/-- C44: no machine has code running between two calls, so the theorem above applies whenever the host
is in control. -/
theorem C44_no_code_running (env : Env) (fuel : Nat) (code : Bytes) (vm vm' : VM)
    (hrun : vm.currentBytecode = none) :
    (execute env fuel code vm = .ok () vm' → vm'.currentBytecode = none) ∧
    ∀ e, execute env fuel code vm = .err e vm' → vm'.currentBytecode = none := by
  have fin : ∀ (m : M Unit) (s : VM), (∀ s', finish m s = .ok () s' → s'.currentBytecode = none) ∧
      ∀ e s', finish m s = .err e s' → s'.currentBytecode = none := by
    intro m s
    unfold finish
    cases m s <;> simp <;> intros <;> subst_vars <;> rfl
  unfold execute executeWithIp
  split
  · exact ⟨(fun h => by cases h), (fun e h => by cases h; exact hrun)⟩
  · rw [M.bind_run]
    cases hp : pushObject (.bytecode (some ⟨0, code⟩) code.length) vm with
    | ok r s1 =>
      simp only [M.bind_run, M.modify]
      exact ⟨fun h => (fin _ _).1 _ h, fun e h => (fin _ _).2 _ _ h⟩
    | err e s1 =>
      refine ⟨fun h => by simp at h, fun e' h => ?_⟩
      simp at h
      obtain ⟨-, -, hg, -⟩ := pushObject_err hp
      have := garbageCollect_same hg
      rw [← h.2]
      simp_all
    | ub => exact ⟨fun h => by simp at h, fun e h => by simp at h⟩
    | diverge => exact ⟨fun h => by simp at h, fun e h => by simp at h⟩

/-- C44 is false of the code: a machine with fewer entries on the stack of captured variables than on
the stack can neither be reset nor be emptied; nothing changes, so trying again does not help. -/
theorem C44_out_of_step_can_not_be_reset (vm : VM) (h : vm.upStack.length < vm.stack.length) :
    softReset vm = .err .bufferUnderflow vm ∧ apiPopAll vm = .err .bufferUnderflow vm := by
  have hp : popMany vm.stack.length vm = .err .bufferUnderflow vm := by
    unfold popMany
    rw [if_pos h]
  constructor
  · unfold softReset
    rw [M.bind_ok (m := height) (a := vm.stack.length) (s' := vm) rfl, M.bind_run, hp]
  · unfold apiPopAll
    rw [M.bind_ok (m := height) (a := vm.stack.length) (s' := vm) rfl, hp]

/-- C44 is false of the code: a program that runs out of memory while it makes a vector leaves such a
machine behind. -/
theorem C44_failed_program_can_not_be_reset :
    ∃ code vm', execute plainEnv 10 code (init 2) = .err .outOfMemory vm' ∧
      softReset vm' = .err .bufferUnderflow vm' ∧ vm'.stack ≠ [] :=
  ⟨vectorProgram, stuckVM, C41_failed_vector_breaks_lockstep.1,
    (C44_out_of_step_can_not_be_reset stuckVM (by decide)).1, by decide⟩

/-! A machine in the middle of a call. -/

def busyVM : VM :=
  { heap := [.integer 1, .bytecode (some ⟨0, [165]⟩) 1, .integer 3]
    free := []
    stack := [.integer 1, .integer 2]
    upStack := [none, none]
    callStack := [⟨⟨1, 0, 0⟩, some 1⟩]
    upArrays := [⟨none, 0⟩, ⟨none, 0⟩]
    globals := [(4, some 0)] }

example : Lockstep busyVM ∧ CallsLockstep busyVM ∧ busyVM.currentBytecode = none :=
  ⟨rfl, ⟨[⟨none, 0⟩], rfl, rfl⟩, rfl⟩
example : (match garbageCollect (idle busyVM) with
    | .ok () vm' => decide (vm'.free = [2, 1])
    | _ => false) = true := by decide +kernel
example : FromGlobals busyVM 0 := .global (k := 4) (by decide)
example : exec plainEnv 0 ⟨0, 0, 0⟩ ⟨0, 0, 1⟩ (.pop 5) busyVM = .err .bufferUnderflow busyVM := rfl

#print axioms C44_soft_reset_partial
#print axioms C44_reset_after_history_partial
#print axioms C44_reset_after_error_partial
#print axioms C44_reset_releases_heap
#print axioms C44_no_code_running
#print axioms C44_out_of_step_can_not_be_reset
#print axioms C44_failed_program_can_not_be_reset

end DuckLisp.Props
