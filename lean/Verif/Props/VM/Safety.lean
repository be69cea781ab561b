import Verif.Proof.VM.Faults
import Verif.Props.Compile.Eval
import Verif.Props.VM.Strings

/-!
# C47: where the machine can go wrong

`Spec.Faulty` lists the situations in which an instruction goes wrong.  The theorems say that it goes
wrong nowhere else: any other instruction either succeeds or reports an error, and leaves the memory of
the machine in order; so a run of any code, compiled or not, can reach undefined behaviour only through
one of the listed situations.
-/

namespace DuckLisp.Props

open DuckLisp DuckLisp.VM DuckLisp.Spec

/-- C47: an instruction that works on data, executed on a machine in order, succeeds and goes on after
the instruction, or reports an error, unless the situation is listed.  If it succeeds the machine is in
order; if it fails, its memory is, and only the instructions that build vectors leave one half built. -/
theorem C47_data_instructions (env : Env) (bc : Nat) (st nx : CodePtr) (vm : VM) (i : Instr) (hg : Good vm)
    (hd : IsData i) (hl : LiteralsFitMachine i) (hf : ¬ Faulty vm i) :
    (∃ vm', exec env bc st nx i vm = .ok (.goto nx) vm' ∧ Good vm') ∨
    ∃ e vm', exec env bc st nx i vm = .err e vm' ∧ Sound vm' ∧ (¬ Builds i → Good vm') :=
  exec_plain_post (by cases i <;> first | trivial | exact hd.elim) (post_data hg hd hl hf)

/-- C47: the same for the instructions that transfer control, whatever the position they transfer it
to; the functions of the host must behave. -/
theorem C47_control_instructions (env : Env) (bc : Nat) (st nx : CodePtr) (vm : VM) (i : Instr)
    (hr : Running bc vm) (hh : HostBehaves env bc) (hc : IsControl i) (hf : ¬ Faulty vm i) :
    (∃ c vm', exec env bc st nx i vm = .ok c vm' ∧ Running bc vm') ∨
    ∃ e vm', exec env bc st nx i vm = .err e vm' := by
  rcases (post_control (st := st) (nx := nx) hr hh hc hf).cases with ⟨c, vm', h1, h2⟩ | ⟨e, vm', h1, -⟩
  · exact .inl ⟨c, vm', h1, h2⟩
  · exact .inr ⟨e, vm', h1⟩

theorem starts_anywhere (vm : VM) (bc : Nat) (st : CodePtr) (i : Instr) : StartsOk vm bc st i := by
  cases i <;> first | trivial | exact fun _ _ _ _ => trivial

/-- C47: the same for the instructions for captured variables.  A function can only be made by code of the
program that has been started. -/
theorem C47_variable_instructions (env : Env) (bc : Nat) (st nx : CodePtr) (vm : VM) (i : Instr)
    (hr : Running bc vm) (hv : IsVariable i) (hm : MakesFunction i → IsCode vm bc st.off st) (hf : ¬ Faulty vm i) :
    (∃ vm', exec env bc st nx i vm = .ok (.goto nx) vm' ∧ Running bc vm') ∨
    ∃ e vm', exec env bc st nx i vm = .err e vm' := by
  have hp : IsPlain i := by cases i <;> first | trivial | exact hv.elim
  have h := post_variable (env := env) (nx := nx) hr hv hm (starts_anywhere vm bc st i) hf
  cases ho : plain env bc st i vm with
  | ok a s' => rw [exec_plain_ok hp ho] at h ⊢; exact .inl ⟨s', rfl, h⟩
  | err e s' => exact .inr ⟨e, s', exec_plain_err hp ho⟩
  | ub => rw [exec_plain hp, M.bind_run, ho] at h; exact h.elim
  | diverge => rw [exec_plain hp, M.bind_run, ho] at h; exact h.elim

/-- C47: whatever the bytes, a literal that is read from code fits the machine. -/
theorem C47_literals (bytes rest : Bytes) (i : Instr) (h : decode bytes = some (i, rest)) :
    LiteralsFitMachine i := decode_fits h

/-- C47: in the situations on the list instructions do not succeed: what they do is undefined, or they
do not come back, or they fail before they get that far.  (For `vector` and `set-cdr` the list says
only that memory may be lost or come out of order, for `funcall`, `apply` and `push-closure` that arguments
or variables are missing or may be.) -/
theorem C47_faults_are_real (env : Env) (bc : Nat) (st nx : CodePtr) (vm : VM) (i : Instr) (hg : Good vm)
    (hx : match i with
      | .vector _ | .setCdr .. | .symbolId _ | .funcall .. | .apply .. | .pushClosure .. | .releaseUpvalues _ => False
      | _ => True)
    (hf : Faulty vm i) : ∀ c vm', exec env bc st nx i vm ≠ .ok c vm' := by
  intro c vm' h
  have hp : IsPlain i := by cases i <;> first | trivial | exact hx.elim | exact hf.elim
  cases ho : plain env bc st i vm with
  | ok a s => exact fault_not_ok hg (by cases i <;> first | trivial | exact hx.elim) hf ho
  | err e s => rw [exec_plain_err hp ho] at h; cases h
  | ub => rw [exec_plain hp, M.bind_run, ho] at h; cases h
  | diverge => rw [exec_plain hp, M.bind_run, ho] at h; cases h

/-- C47: releasing the slot above the top of the stack, which does not exist, is undefined. -/
theorem C47_release_nothing (env : Env) (bc : Nat) (st nx : CodePtr) (vm : VM) (as : List Nat) (hl : Lockstep vm) :
    exec env bc st nx (.releaseUpvalues (0 :: as)) vm = .ub := by
  have h : release1 0 vm = .ub := by
    unfold release1
    have hn : M.need (α := Option Ref) vm.upStack[vm.stack.length - 0]? vm = .ub := by
      rw [Nat.sub_zero, List.getElem?_eq_none (show vm.upStack.length ≤ vm.stack.length from Nat.le_of_eq (Eq.symm hl))]
      rfl
    rw [M.bind_ok (show M.get vm = .ok vm vm from rfl), if_neg (by omega)]
    exact M.bind_ub hn
  have h2 : iReleaseUpvalues (0 :: as) vm = .ub := by
    unfold iReleaseUpvalues
    rw [M.bind_ub h]
  simp only [exec, plain]
  rw [M.bind_ub h2]

/-- C47: making a function in code that is not part of the program that was started is undefined, whatever
the function. -/
theorem C47_foreign_function (env : Env) (bc : Nat) (st nx : CodePtr) (vm : VM) (variadic : Bool) (base : Nat)
    (disp : Int) (arity : UInt8) (vs : List Nat) (hc : st.cell ≠ bc) :
    exec env bc st nx (.pushClosure variadic base disp arity vs) vm = .ub := by
  have h : iPushClosure bc st variadic base disp arity vs vm = .ub := by
    unfold iPushClosure
    cases hs : codeSerial bc vm with
    | ok n s' => rw [M.bind_ok hs, if_neg (fun h => hc h.1)]; rfl
    | err e s' =>
      unfold codeSerial at hs
      split at hs <;> cases hs
    | ub => rw [M.bind_ub hs]
    | diverge =>
      unfold codeSerial at hs
      split at hs <;> cases hs
  simp only [exec, plain]
  rw [M.bind_ub h]

/-- C47: this happens: the first program makes a function that makes a function when it is called, and
stores it in a global variable.  The second calls it. -/
theorem C47_foreign_function_happens :
    ∃ vm, VM.execute plainEnv 9 [22, 9, 0, 0, 0, 0, 0, 34, 1, 7, 165, 22, 5, 0, 0, 0, 0, 0, 161] (init 8) = .ok () vm ∧
      VM.execute plainEnv 9 [28, 7, 40, 1, 0, 165] vm = .ub :=
  ⟨_, rfl, by decide +kernel⟩

/-- C47: every state a run gets to is in order, unless it has come to a listed situation before. -/
theorem C47_states (env : Env) (bc : Nat) (ip ip' : CodePtr) (vm vm' : VM) (hr : Running bc vm)
    (hh : HostBehaves env bc) (ha : Arrives env bc ip vm ip' vm') :
    Running bc vm' ∨ ∃ ip1 vm1, Arrives env bc ip vm ip1 vm1 ∧ Running bc vm1 ∧ Pitfall vm1 ip1 := by
  induction ha with
  | here => exact .inl hr
  | @step ip vm ip1 vm1 ip2 vm2 h ha ih =>
    by_cases hp : Pitfall vm ip
    · exact .inr ⟨ip, vm, .here, hr, hp⟩
    · have h1 := post_step hr hh hp fun i _ => starts_anywhere vm bc ip i
      rw [h] at h1
      rcases ih h1 with h2 | ⟨ip3, vm3, h2, h3⟩
      · exact .inl h2
      · exact .inr ⟨ip3, vm3, .step h h2, h3⟩

/-- C47: if a run has no defined behaviour it has come to a listed situation, with the machine in
order. -/
theorem C47_run (env : Env) (bc : Nat) (fuel : Nat) (ip : CodePtr) (vm : VM) (hr : Running bc vm)
    (hh : HostBehaves env bc) (hu : VM.loop env bc fuel ip vm = .ub) :
    ∃ ip1 vm1, Arrives env bc ip vm ip1 vm1 ∧ Running bc vm1 ∧ Pitfall vm1 ip1 := by
  induction fuel generalizing ip vm with
  | zero => cases hu
  | succ fuel ih =>
    by_cases hp : Pitfall vm ip
    · exact ⟨ip, vm, .here, hr, hp⟩
    · have h1 := post_step hr hh hp fun i _ => starts_anywhere vm bc ip i
      rw [VM.loop, M.bind_run] at hu
      cases hs : VM.step env bc ip vm with
      | ok c s =>
        rw [hs] at h1 hu
        cases c with
        | halt => cases hu
        | goto ip' =>
          obtain ⟨ip1, vm1, h2, h3⟩ := ih ip' s h1 hu
          exact ⟨ip1, vm1, .step hs h2, h3⟩
      | err e s => rw [hs] at hu; cases hu
      | ub => rw [hs] at h1; exact h1.elim
      | diverge => rw [hs] at h1; exact h1.elim

/-- C47: executing any bytes whatsoever on a machine in order: if the behaviour is undefined, the
execution, which started at the first byte in a state in order, has come to a listed situation. -/
theorem C47_execute (env : Env) (fuel : Nat) (code : Bytes) (vm : VM) (hg : Good vm) (hl : Lockstep vm)
    (hh : ∀ bc, HostBehaves env bc) (hu : VM.execute env fuel code vm = .ub) :
    ∃ bc serial vm0 ip1 vm1, vm0.stack = vm.stack ∧ Running bc vm0 ∧
      (∃ n, vm0.heap[bc]? = some (.bytecode (some ⟨serial, code⟩) n)) ∧
      Arrives env bc ⟨bc, serial, 0⟩ vm0 ip1 vm1 ∧ Running bc vm1 ∧ Pitfall vm1 ip1 := by
  by_cases hc : code = []
  · subst hc
    simp [VM.execute, executeWithIp, M.throw] at hu
  by_cases hfull : Full vm
  · obtain ⟨h1, vm1, h2, h3⟩ := hfull
    have hlen : code.length ≠ 0 := fun h => hc (List.length_eq_zero_iff.1 h)
    have : pushObject (.bytecode (some ⟨0, code⟩) code.length) vm = .err .outOfMemory vm1 := by
      unfold pushObject
      rw [if_pos h1, h2]
      simp [h3]
    unfold VM.execute executeWithIp at hu
    rw [if_neg (by omega), M.bind_err this] at hu
    cases hu
  · obtain ⟨bc, serial, vm1, vm2, h⟩ := Compile.load hg hc hfull
    rw [h.execute hc] at hu
    have hrun : Running bc vm2 := ⟨h.good, by
      unfold Lockstep at hl ⊢
      rw [h.stack, h.upStack]
      exact hl, by rw [h.state]⟩
    have hu' : VM.loop env bc fuel ⟨bc, serial, 0⟩ vm2 = .ub := by
      unfold finish at hu
      split at hu <;> first | assumption | cases hu
    obtain ⟨ip1, vm3, h1, h2, h3⟩ := C47_run env bc fuel _ vm2 hrun (hh bc) hu'
    exact ⟨bc, serial, vm2, ip1, vm3, h.stack, hrun, ⟨_, by rw [h.state]; exact h.code⟩, h1, h2, h3⟩

/-! ### The hypotheses can be met -/

/-- Every host without functions behaves. -/
example (env : Env) (bc : Nat) (h : env.host = fun _ => M.throw .invalidValue) : HostBehaves env bc :=
  fun cb vm _ => .inr ⟨_, _, by rw [h]; rfl⟩

example : Good stringVM ∧ IsData (.substring 6 3 2) ∧ LiteralsFitMachine (.substring 6 3 2) ∧
    ¬ Faulty stringVM (.substring 6 3 2) := ⟨stringVM_good, trivial, trivial, fun h => h⟩

example : Good vectorVM ∧ ¬ Faulty vectorVM (.getVecElt 4 3) ∧
    ∃ vm', exec plainEnv 0 ⟨0, 0, 0⟩ ⟨0, 0, 1⟩ (.getVecElt 4 3) vectorVM = .ok (.goto ⟨0, 0, 1⟩) vm' := by
  refine ⟨vectorVM_good, ?_, ⟨_, rfl⟩⟩
  rintro ⟨p, off, i, h1, h2, h3, h4⟩
  cases h1
  cases h2
  simp at h4

/-- One divided by zero: there are runs with undefined behaviour, and this one starts in order. -/
example : Good (init 4) ∧ Lockstep (init 4) ∧
    VM.execute plainEnv 9 [6, 1, 6, 0, 73, 2, 1, 165] (init 4) = .ub :=
  ⟨init_good 4 (by decide), rfl, by decide +kernel⟩

/-- One plus one: and there are runs without. -/
example : ∃ vm', VM.execute plainEnv 9 [6, 1, 6, 1, 76, 2, 1, 165] (init 4) = .ok () vm' ∧
    vm'.stack = [.integer 1, .integer 1, .integer 2] := by
  refine ⟨_, rfl, ?_⟩
  decide +kernel

/-- A machine inside a function of the program of cell 0, which has captured one variable; the function
and a list of one element are on the stack. -/
def capturingVM : VM :=
  { heap := [.bytecode (some ⟨0, [165, 161]⟩) 2, .upvalueArray (some ⟨1, [some 2]⟩) 1,
      .upvalue (.heapObject (some 3)), .integer 5, .cons (some 3) none, .none, .none]
    free := [5, 6]
    stack := [.closure 1 (some 0) (some 1) 0 true, .list (some 4)]
    upStack := [none, none], callStack := [], upArrays := [⟨some (1, 1), 1⟩], globals := [],
    currentBytecode := some 0, nextSerial := 2 }

theorem capturingVM_running : Running 0 capturingVM := by
  have l0 : Live capturingVM 0 (.code (some ⟨0, [165, 161]⟩)) := ⟨by decide, _, rfl, rfl⟩
  have l1 : Live capturingVM 1 (.captures 1) := ⟨by decide, _, rfl, rfl⟩
  have l2 : Live capturingVM 2 .captured := ⟨by decide, _, rfl, rfl⟩
  have l3 : Live capturingVM 3 .value := ⟨by decide, _, rfl, rfl⟩
  have l4 : Live capturingVM 4 .pair := ⟨by decide, _, rfl, rfl⟩
  refine ⟨⟨⟨by decide, by decide, ?_, by decide, ?_, by simp [capturingVM], by simp [capturingVM],
    by simp [capturingVM], ?_, ?_⟩, ?_⟩, rfl, rfl⟩
  · intro r hr o ho
    simp [capturingVM] at hr
    rcases hr with rfl | rfl <;> (simp [capturingVM] at ho; subst ho; simp [OwnsBlock])
  · intro o ho
    simp [capturingVM] at ho
    rcases ho with rfl | rfl
    · exact ⟨0, 1, 1, rfl, rfl, ⟨_, l0, trivial⟩, l1⟩
    · exact l4
  · intro r hr
    simp [capturingVM] at hr
    subst hr
    exact ⟨_, l0⟩
  · intro r o ho hf
    match r with
    | 0 => simp [capturingVM] at ho; subst ho; exact ⟨_, rfl, rfl⟩
    | 1 =>
        simp [capturingVM] at ho; subst ho
        exact ⟨rfl, fun r hr => by simp at hr; subst hr; exact l2⟩
    | 2 => simp [capturingVM] at ho; subst ho; exact ⟨3, rfl, l3⟩
    | 3 => simp [capturingVM] at ho; subst ho; exact ⟨by decide, by decide⟩
    | 4 => simp [capturingVM] at ho; subst ho; exact ⟨.inl l3, trivial⟩
    | 5 => exact absurd (by decide) hf
    | 6 => exact absurd (by decide) hf
    | n + 7 => simp [capturingVM] at ho
  · intro r o ho hf
    match r with
    | 0 | 1 | 2 | 3 | 4 => simp [capturingVM] at ho; subst ho; simp [UnderConstruction]
    | 5 => exact absurd (by decide) hf
    | 6 => exact absurd (by decide) hf
    | n + 7 => simp [capturingVM] at ho

example : ¬ Faulty capturingVM (.pushUpvalue 0) ∧ ¬ Faulty capturingVM (.setUpvalue 0 1) ∧
    Faulty capturingVM (.pushUpvalue 1) := by
  have h : RunningElement capturingVM 0 (some 2) := ⟨1, 1, 1, _, _, rfl, rfl, rfl⟩
  have h2 : LeadsTo capturingVM (some 2) (some (.heapObject (some 3))) := .here rfl (by simp)
  refine ⟨fun hf => hf.2 ⟨_, _, h, h2⟩, fun hf => hf.2 ⟨_, _, h, h2⟩, by decide, ?_⟩
  rintro ⟨p, e, ⟨r, serial, n, ups, m, h1, h2, h3⟩, -⟩
  cases h1
  cases h2
  simp at h3

/-- A function that captures the list on the stack and the variable captured before. -/
example : IsCode capturingVM 0 0 ⟨0, 0, 0⟩ ∧
    ¬ Faulty capturingVM (.pushClosure false 2 (-1) 0 [1, 2 ^ 32 - 1]) := by
  have h : RunningElement capturingVM 0 (some 2) := ⟨1, 1, 1, _, _, rfl, rfl, rfl⟩
  refine ⟨⟨_, _, rfl, rfl⟩, ?_⟩
  rintro (⟨v, h1, h2, h3⟩ | ⟨-, h1, -⟩)
  · simp at h1
    rcases h1 with rfl | rfl
    · omega
    · exact h3 _ h
  · refine h1 fun r serial n hu => ?_
    cases hu
    exact .root (.stack (vm := capturingVM) (o := .closure 1 (some 0) (some 1) 0 true) (by simp [capturingVM]) .captured)

/-- Applying a function with a rest parameter to a proper list. -/
example : ¬ Faulty capturingVM (.apply 2 1) := by
  rintro ⟨f, h1, h2⟩
  cases h1
  rcases h2 with h2 | ⟨pos, code, ups, arity, -, h2 | ⟨p, h2, h3⟩⟩
  · exact h2 _ (.self (by simp))
  · exact absurd h2 (by decide)
  · cases h2
    exact h3 [.integer 5] (.cons rfl (.value rfl (by simp)) .nil)

#print axioms C47_data_instructions
#print axioms C47_control_instructions
#print axioms C47_variable_instructions
#print axioms C47_release_nothing
#print axioms C47_foreign_function
#print axioms C47_foreign_function_happens
#print axioms C47_literals
#print axioms C47_faults_are_real
#print axioms C47_states
#print axioms C47_run
#print axioms C47_execute

end DuckLisp.Props
