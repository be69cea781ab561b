import Verif.Proof.VM.Later
import Verif.Props.VM.Globals

/-!
# C29: globals keep their values until they are stored again
-/

namespace DuckLisp.VM

open DuckLisp DuckLisp.Spec

/-- C29: a value that was stored under a key by an instruction is what reading that key gives, however
long ago that was and whatever has happened since, as long as nothing has been stored under that key
again. -/
theorem C29_last_stored (env : Env) (bc : Nat) (st nx : CodePtr) (vm vm0 vm' : VM) (hg : Good vm) (a k : Nat) (x : Obj)
    (c : Ctl) (ha : operand vm a = some x) (he : exec env bc st nx (.setGlobal a k) vm = .ok c vm0)
    (h : Later k vm0 vm') : Reads vm' k x := by
  have hx := operand_mem ha
  have heq : plain env bc st (.setGlobal a k) vm =
      (do let p ← pushObject x; globalSet (some p) (k : Int) : M Unit) vm := by
    show (height >>= fun h => stackAt (h - a) >>= fun o => pushObject o >>= fun p =>
      globalSet (some p) (k : Int)) vm = _
    rw [M.bind_ok (m := height) (a := vm.stack.length) (s' := vm) rfl, M.bind_ok (stackAt_operand ha)]
  cases ho : plain env bc st (.setGlobal a k) vm with
  | ok u s =>
    rw [exec_plain_ok (i := .setGlobal a k) trivial ho] at he
    cases he
    rw [heq] at ho
    obtain ⟨r, hs, hi⟩ := stored_inv hg (hg.sound.stack x hx) (pinned_stack hg.sound hx) ho
    exact kept_reads (later_inv h rfl hi)
  | err e s => rw [exec_plain_err (i := .setGlobal a k) trivial ho] at he; cases he
  | ub => rw [exec_plain (i := .setGlobal a k) trivial, M.bind_run, ho] at he; cases he
  | diverge => rw [exec_plain (i := .setGlobal a k) trivial, M.bind_run, ho] at he; cases he

/-- C29: the same for a function linked by the host. -/
theorem C29_last_linked (vm vm0 vm' : VM) (hg : Good vm) (k cb : Nat) (hl : linkCFunction k cb vm = .ok () vm0)
    (h : Later k vm0 vm') : Reads vm' k (.function cb) := by
  obtain ⟨r, hs, hi⟩ := stored_inv (o := .function cb) hg trivial (fun r h => by cases h) hl
  exact kept_reads (later_inv h rfl hi)

/-- C29: a key under which nothing is stored stays that way until something is. -/
theorem C29_stays_unset (vm vm' : VM) (k : Nat) (hu : Unset vm k) (h : Later k vm vm') : Unset vm' k :=
  unset_iff.mpr (later_unset h (unset_iff.mp hu))

/-- C29: running a program is such a history, whether or not it fails, if it does not come to an instruction
that stores under the key, nor to one of the situations in which memory may get out of order (see C47),
and the functions of the host behave and do not store under the key themselves. -/
theorem C29_run_is_history (env : Env) (fuel : Nat) (code : Bytes) (vm vm' : VM) (k : Nat) (hg : Good vm) (hl : Lockstep vm)
    (hh : ∀ bc, HostBehaves env bc) (hk : ∀ cb s s', Good s → GetsTo (env.host cb) s s' → Later k s s')
    (hno : ∀ bc serial vm0 ip1 vm1, Running bc vm0 → (∃ n, vm0.heap[bc]? = some (.bytecode (some ⟨serial, code⟩) n)) →
      Arrives env bc ⟨bc, serial, 0⟩ vm0 ip1 vm1 → ¬ Pitfall vm1 ip1 ∧ ∀ a, ¬ InstructionAt vm1 ip1 (.setGlobal a k))
    (h : GetsTo (VM.execute env fuel code) vm vm') : Later k vm vm' := by
  by_cases hc : code = []
  · subst hc
    rcases h with ⟨_, h⟩ | ⟨_, h⟩
    · simp [VM.execute, executeWithIp, M.throw] at h
    · simp [VM.execute, executeWithIp, M.throw] at h
      rw [← h.2]
      exact .now
  have hlen : code.length ≠ 0 := fun h => hc (List.length_eq_zero_iff.1 h)
  by_cases hfull : Full vm
  · obtain ⟨h1, vm1, h2, h3⟩ := hfull
    have hp : pushObject (.bytecode (some ⟨0, code⟩) code.length) vm = .err .outOfMemory vm1 := by
      unfold pushObject
      rw [if_pos h1, h2]
      simp [h3]
    unfold GetsTo VM.execute executeWithIp at h
    rw [if_neg (by omega), M.bind_err hp] at h
    rcases h with ⟨_, h⟩ | ⟨_, h⟩ <;> cases h
    exact .load code .now hg (.inr ⟨_, hp⟩)
  · obtain ⟨bc, serial, vm1, vm2, hL⟩ := Compile.load hg hc hfull
    unfold GetsTo at h
    rw [hL.execute hc] at h
    have hrun : Running bc vm2 := ⟨hL.good, by
      unfold Lockstep at hl ⊢
      rw [hL.stack, hL.upStack]
      exact hl, by rw [hL.state]⟩
    have h2 : Later k vm vm2 := by
      rw [hL.state]
      exact .switch _ (.load code .now hg (.inl ⟨_, hL.push⟩))
    have hno' := fun ip1 vm1 => hno bc serial vm2 ip1 vm1 hrun ⟨_, by rw [hL.state]; exact hL.code⟩
    unfold finish at h
    cases hloop : VM.loop env bc fuel ⟨bc, serial, 0⟩ vm2 with
    | ok a s =>
      rw [hloop] at h
      rcases h with ⟨_, h⟩ | ⟨_, h⟩ <;> cases h
      exact .switch _ (getsTo_loop (hh bc) hk fuel _ vm vm2 s hrun h2 hno' (.inl ⟨a, hloop⟩))
    | err e s =>
      rw [hloop] at h
      rcases h with ⟨_, h⟩ | ⟨_, h⟩ <;> cases h
      exact .switch _ (getsTo_loop (hh bc) hk fuel _ vm vm2 s hrun h2 hno' (.inr ⟨e, hloop⟩))
    | ub => rw [hloop] at h; rcases h with ⟨_, h⟩ | ⟨_, h⟩ <;> cases h
    | diverge => rw [hloop] at h; rcases h with ⟨_, h⟩ | ⟨_, h⟩ <;> cases h

/-! ### The hypotheses can be met -/

theorem plainEnv_later (k cb : Nat) (s s' : VM) (h : GetsTo (plainEnv.host cb) s s') : Later k s s' := by
  rcases h with ⟨_, h⟩ | ⟨_, h⟩ <;> cases h
  exact .now

/-- A key is set, then something is pushed, then the host starts a collection. -/
example : ∃ vm0 vm', exec plainEnv 0 ⟨0, 0, 0⟩ ⟨0, 0, 1⟩ (.setGlobal 1 3) pairVM = .ok (.goto ⟨0, 0, 1⟩) vm0 ∧
    Later 3 vm0 vm' ∧ vm'.stack ≠ vm0.stack ∧ Reads vm' 3 (.integer 7) := by
  rcases C29_set_global plainEnv 0 ⟨0, 0, 0⟩ ⟨0, 0, 1⟩ pairVM pairVM_good 1 3 (.integer 7) rfl with
    ⟨vm0, h1, hg1, -⟩ | ⟨vm0, h1, -⟩
  · rcases Props.C47_data_instructions plainEnv 0 ⟨0, 0, 0⟩ ⟨0, 0, 1⟩ vm0 (.pushBool true) hg1 trivial trivial (fun h => h) with
      ⟨vm1, h2, hg2⟩ | ⟨e, vm1, h2, -⟩
    · have hL : Later 3 vm0 vm1 := .instruction plainEnv 0 ⟨0, 0, 0⟩ ⟨0, 0, 1⟩ _ .now hg1 (by intro a h; cases h)
        (fun cb s s' _ => plainEnv_later 3 cb s s') (.inl ⟨_, h2⟩)
      obtain ⟨vm2, hgc⟩ := collect_total hg2.sound
      have hL2 : Later 3 vm0 vm2 := .call plainEnv .garbageCollect hL hg2 rfl (fun h => h) (.inl ⟨(), hgc⟩)
      refine ⟨vm0, vm2, h1, hL2, ?_, C29_last_stored _ _ _ _ _ _ _ pairVM_good _ _ _ _ rfl h1 hL2⟩
      rw [(garbageCollect_same hgc).1]
      cases h2
      simp
    · cases h2
  · cases h1

/-- A program that pushes something is a history. -/
example (vm vm' : VM) (hg : Good vm) (hl : Lockstep vm) (h : VM.execute plainEnv 9 [5, 165] vm = .ok () vm') :
    Later 3 vm vm' := by
  refine C29_run_is_history plainEnv 9 [5, 165] vm vm' 3 hg hl (fun bc cb s hr => .inl ⟨s, rfl, hr⟩)
    (fun cb s s' _ => plainEnv_later 3 cb s s') ?_ (.inl ⟨(), h⟩)
  rintro bc serial vm0 ip1 vm1 hr ⟨n, hn⟩ ha
  have only : ∀ {ip : CodePtr} {s : VM} {i j : Instr}, InstructionAt s ip i → InstructionAt s ip j → i = j := by
    rintro ip s i j ⟨b, n, r, h1, -, -, -, h2⟩ ⟨b', n', r', h3, -, -, -, h4⟩
    rw [h1] at h3
    cases h3
    rw [h2] at h4
    cases h4
    rfl
  have fine : ∀ {ip : CodePtr} {s : VM} {i : Instr}, InstructionAt s ip i → ¬ Faulty s i → ¬ MakesFunction i →
      (∀ a, i ≠ .setGlobal a 3) → ¬ Pitfall s ip ∧ ∀ a, ¬ InstructionAt s ip (.setGlobal a 3) := by
    intro ip s i h1 h2 h3 h4
    refine ⟨?_, fun a h => h4 a (only h1 h)⟩
    rintro (h | ⟨j, h5, h6⟩)
    · exact h ⟨i, h1⟩
    · cases only h1 h5
      rcases h6 with h6 | h6
      · exact h2 h6
      · exact h3 h6.1
  have at0 : InstructionAt vm0 ⟨bc, serial, 0⟩ (.pushBool true) :=
    ⟨_, _, _, hn, rfl, (by show (_ : Int) ≤ _; simp), Nat.le_of_ble_eq_true rfl, rfl⟩
  have at1 : InstructionAt (pushed vm0 (.bool (cBool true))) ⟨bc, serial, 1⟩ .halt :=
    ⟨_, _, _, hn, rfl, (by show (_ : Int) ≤ _; simp), Nat.le_of_ble_eq_true rfl, rfl⟩
  cases ha with
  | here => exact fine at0 (fun h => h) (fun h => h) (by intro a h; cases h)
  | step h1 h2 =>
    have e := step_at (env := plainEnv) (bc := bc) (ip := ⟨bc, serial, 0⟩) (i := .pushBool true) hn rfl ((by show (_ : Int) ≤ _; simp)) (Nat.le_of_ble_eq_true rfl) rfl
    rw [e] at h1
    cases h1
    cases h2 with
    | here => exact fine at1 (fun h => h) (fun h => h) (by intro a h; cases h)
    | step h3 h4 =>
      have e := step_at (env := plainEnv) (bc := bc) (ip := ⟨bc, serial, 1⟩) (i := .halt) (s := pushed vm0 (.bool (cBool true))) hn rfl ((by show (_ : Int) ≤ _; simp)) (Nat.le_of_ble_eq_true rfl) rfl
      change VM.step plainEnv bc ⟨bc, serial, 1⟩ (pushed vm0 (.bool (cBool true))) = _ at h3
      rw [e] at h3
      cases h3

#print axioms C29_last_stored
#print axioms C29_last_linked
#print axioms C29_stays_unset
#print axioms C29_run_is_history

end DuckLisp.VM
