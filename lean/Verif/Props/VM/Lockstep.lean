import Verif.Spec.Host
import Verif.Spec.Lockstep
import Verif.Proof.VM.Api
import Verif.Proof.VM.Lockstep
import Verif.Proof.VM.Operand

/-!
# C41: the two stacks stay in lockstep

The theorems hold for every machine and every host whose callbacks, when they succeed, leave the
stacks in lockstep; callbacks that only use the host interface do (`C41_host_call`).
-/

namespace DuckLisp.Props

open DuckLisp DuckLisp.VM DuckLisp.Spec

theorem keeps_inStep {m : M Unit} (h : Keeps Lockstep m) : RelE InStep (fun _ _ => True) m := by
  intro s
  cases hm : m s with
  | ok a s' => exact fun hl => h s s' hl hm
  | err e s' => trivial
  | ub => trivial
  | diverge => trivial

theorem always_inStep {m : M Unit} (h : AlwaysKeeps Lockstep m) : RelE InStep InStep m := by
  intro s
  cases hm : m s with
  | ok a s' => exact fun hl => h.1 s s' hl hm
  | err e s' => exact fun hl => h.2 s e s' hl hm
  | ub => trivial
  | diverge => trivial

theorem always_callsInStep {m : M Unit} (h : AlwaysKeeps CallsLockstep m) :
    RelE CallsInStep CallsInStep m := by
  intro s
  cases hm : m s with
  | ok a s' => exact fun hl => h.1 s s' hl hm
  | err e s' => exact fun hl => h.2 s e s' hl hm
  | ub => trivial
  | diverge => trivial

theorem inStep_global {E : VM → VM → Prop} (p : Option Nat) (k : Int) :
    RelE InStep E (globalSet p k) := rel_modify (fun _ => id)

theorem inStep_type {E : VM → VM → Prop} : RelE InStep E iMakeType := by
  intro s
  show Lockstep s → Lockstep _
  unfold Lockstep
  simp

/-- C41, one instruction: an instruction that succeeds leaves as many slots on the stack of captured
variables as on the stack. -/
theorem C41_instruction (env : Env) (hhost : ∀ n, Keeps Lockstep (env.host n)) (bc : Nat)
    (st nx : CodePtr) (i : Instr) (vm vm' : VM) (c : Ctl) (hl : Lockstep vm)
    (he : exec env bc st nx i vm = .ok c vm') : Lockstep vm' :=
  Rel.ok (rel_exec (E := fun _ _ => True) stepPrims'.toPrims (fun n => keeps_inStep (hhost n)) bc st
    nx i (fun _ _ _ => inStep_global) (fun _ => inStep_type) (fun _ => stepPrims')) he hl

/-- C41, an instruction that fails: the stacks are still in lockstep unless the instruction was
`vector`, `make-vector` or `push-closure`. -/
theorem C41_failed_instruction_partial (env : Env) (hhost : ∀ n, AlwaysKeeps Lockstep (env.host n))
    (bc : Nat) (st nx : CodePtr) (i : Instr) (vm vm' : VM) (e : DlError) (hl : Lockstep vm)
    (hi : (∀ as, i ≠ .vector as) ∧ (∀ a b, i ≠ .makeVector a b) ∧
      ∀ v a b c d, i ≠ .pushClosure v a b c d)
    (he : exec env bc st nx i vm = .err e vm') : Lockstep vm' := by
  refine Rel.err (rel_exec (E := InStep) stepPrims (fun n => always_inStep (hhost n)) bc st
    nx i (fun _ _ _ => inStep_global) (fun _ => inStep_type) (fun h => ?_)) he hl
  obtain ⟨h1, h2, h3⟩ := hi
  cases i <;> simp only [twoStep] at h <;> try cases h
  · exact absurd rfl (h3 _ _ _ _ _)
  · exact absurd rfl (h1 _)
  · exact absurd rfl (h2 _ _)

/-- C41, one call: a call of the host that succeeds keeps the stacks in lockstep, including a call
that runs a whole program. -/
theorem C41_host_call (env : Env) (hhost : ∀ n, Keeps Lockstep (env.host n)) (c : HostCall) :
    Keeps Lockstep (c.run env) := fun _ _ hl hc =>
  Rel.ok (rel_hostRun stepPrims' (inStep_global) (inStep_type) (fun _ _ => id) (fun _ _ => trivial)
    (fun _ _ => trivial) (fun n => keeps_inStep (hhost n)) c) hc hl

/-- C41, one call that runs no code: it keeps the stacks in lockstep even if it reports an error. -/
theorem C41_host_call_error (env : Env) (c : HostCall) (hp : c.runsCode = false) :
    AlwaysKeeps Lockstep (c.run env) :=
  have h := rel_hostCall (E := InStep) stepPrims inStep_global inStep_type (env := env) c hp
  ⟨fun _ _ hl hc => Rel.ok h hc hl, fun _ _ _ hl hc => Rel.err h hc hl⟩

/-- C41: after any history of calls in which no program failed, slot `i` of the stack exists if and
only if its entry on the stack of captured variables does. -/
theorem C41_lockstep_partial (env : Env) (hhost : ∀ n, Keeps Lockstep (env.host n)) (vm : VM)
    (h : GoodHistory env vm) :
    Lockstep vm ∧ ∀ i : Nat, (∃ o, vm.stack[i]? = some o) ↔ ∃ u, vm.upStack[i]? = some u := by
  have hl : Lockstep vm := by
    induction h with
    | fresh n => rfl
    | ok c _ hc ih => exact C41_host_call env hhost c _ _ ih hc
    | refused c _ hp hc ih => exact (C41_host_call_error env c hp).2 _ _ _ ih hc
  refine ⟨hl, fun i => ?_⟩
  have e1 : (∃ o, vm.stack[i]? = some o) ↔ i < vm.stack.length := by
    rw [← Option.isSome_iff_exists]; simp
  have e2 : (∃ o, vm.upStack[i]? = some o) ↔ i < vm.upStack.length := by
    rw [← Option.isSome_iff_exists]; simp
  rw [e1, e2, hl]

/-- `push-integer 1; vector 1; halt`: the program of `(vector 1)`. -/
def vectorProgram : Bytes := [6, 1, 94, 1, 1, 165]

/-- What `vectorProgram` leaves behind on a machine with two cells. -/
def stuckVM : VM :=
  { heap := [.internalVector (some [.uninit]) 1 false, .bytecode (some ⟨0, vectorProgram⟩) 6]
    free := []
    stack := [.integer 1, .vector (some 0) 0]
    upStack := [none]
    nextSerial := 2 }

/-- C41: a program that fails while it builds a vector does not leave the stacks in lockstep. -/
theorem C41_failed_vector_breaks_lockstep :
    execute plainEnv 10 vectorProgram (init 2) = .err .outOfMemory stuckVM ∧
      Lockstep (init 2) ∧ ¬ Lockstep stuckVM := by
  refine ⟨?_, rfl, ?_⟩
  · decide +kernel
  · unfold Lockstep; decide

/-- C41, pending calls: after any history, failed programs included, every pending call has exactly
one set of captured variables, on top of the empty set of the outermost code. -/
theorem C41_pending_calls (env : Env) (hhost : ∀ n, AlwaysKeeps CallsLockstep (env.host n))
    (vm : VM) (h : AnyHistory env vm) : CallsLockstep vm := by
  have key : ∀ c : HostCall, RelE CallsInStep CallsInStep (c.run env) := fun c =>
    rel_hostRun callsPrims' (fun _ _ => rel_modify (fun _ => id)) (fun s => id)
      (fun _ _ => id) (fun _ _ => id) (fun h h' hl => h' (h hl))
      (fun n => always_callsInStep (hhost n)) c
  induction h with
  | fresh n => exact ⟨[], rfl, rfl⟩
  | ok c _ hc ih => exact Rel.ok (key c) hc ih
  | failed c _ hc ih => exact Rel.err (key c) hc ih

/-! The same program with room for the vector. -/

example : (match (HostCall.execute 10 vectorProgram).run plainEnv (init 4) with
    | .ok () vm' => decide (vm'.stack.length = 2 ∧ vm'.upStack.length = 2)
    | _ => false) = true := by decide +kernel
example : ∃ vm', (HostCall.pop).run plainEnv (init 4) = .err .bufferUnderflow vm' := ⟨_, rfl⟩
example : ∀ n, Keeps Lockstep (plainEnv.host n) := by
  intro n s s' hl h
  cases h
  try exact hl

#print axioms C41_instruction
#print axioms C41_failed_instruction_partial
#print axioms C41_host_call
#print axioms C41_host_call_error
#print axioms C41_lockstep_partial
#print axioms C41_failed_vector_breaks_lockstep
#print axioms C41_pending_calls

end DuckLisp.Props
