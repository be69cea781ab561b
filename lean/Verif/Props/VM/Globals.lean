import Verif.Proof.VM.Globals
import Verif.Props.VM.Pairs
import Verif.Model.VM.Api

/-!
# C29: globals
-/

namespace DuckLisp.VM

open DuckLisp DuckLisp.Spec

/-- C29: after a value was stored under a key, reading that key gives that value, and reading any
other key gives what it gave before, be it a value or an error.  If there is no memory, that is
reported and no global has changed. -/
theorem C29_set_global (env : Env) (bc : Nat) (st nx : CodePtr) (vm : VM) (hg : Good vm) (a : Nat)
    (k : Nat) (x : Obj) (ha : operand vm a = some x) :
    (∃ vm', exec env bc st nx (.setGlobal a k) vm = .ok (.goto nx) vm' ∧ Good vm' ∧
        vm'.stack = vm.stack ∧ Reads vm' k x ∧ (∀ j y, j ≠ k → Reads vm j y → Reads vm' j y) ∧
        (∀ j, j ≠ k → Unset vm j → Unset vm' j) ∧
        ∀ c, Reachable vm c → vm'.heap[c]? = vm.heap[c]?) ∨
    ∃ vm', exec env bc st nx (.setGlobal a k) vm = .err .outOfMemory vm' ∧ Good vm' ∧
      (∀ j y, Reads vm j y → Reads vm' j y) ∧ (∀ j, Unset vm j → Unset vm' j) ∧
      ∀ c, Reachable vm c → vm'.heap[c]? = vm.heap[c]? := by
  have hx := operand_mem ha
  have hp := post_store hg (hg.sound.stack x hx) (pinned_stack hg.sound hx) (k : Int)
  have heq : plain env bc st (.setGlobal a k) vm =
      (do let p ← pushObject x; globalSet (some p) (k : Int) : M Unit) vm := by
    show (height >>= fun h => stackAt (h - a) >>= fun o => pushObject o >>= fun p =>
      globalSet (some p) (k : Int)) vm = _
    rw [M.bind_ok (m := height) (a := vm.stack.length) (s' := vm) rfl, M.bind_ok (stackAt_operand ha)]
  rw [← heq] at hp
  rcases exec_plain_post (i := .setGlobal a k) trivial hp with
    ⟨vm', he, r, s1, h1, h2, rfl⟩ | ⟨e, vm', he, rfl, h1, h2⟩
  · obtain ⟨t1, t2, t3, t4, t5⟩ := stored_reads hg h2 k
    exact .inl ⟨_, he, h1, t4, t1, t2, t3, t5⟩
  · obtain ⟨t1, t2, t3⟩ := failed_reads hg h2
    exact .inr ⟨vm', he, h1, t1, t2, t3⟩

/-- C29: the same for a function linked by the host. -/
theorem C29_link_function (vm : VM) (hg : Good vm) (k : Nat) (cb : Nat) :
    (∃ vm', linkCFunction k cb vm = .ok () vm' ∧ Good vm' ∧
        vm'.stack = vm.stack ∧ Reads vm' k (.function cb) ∧
        (∀ j y, j ≠ k → Reads vm j y → Reads vm' j y) ∧
        (∀ j, j ≠ k → Unset vm j → Unset vm' j) ∧
        ∀ c, Reachable vm c → vm'.heap[c]? = vm.heap[c]?) ∨
    ∃ vm', linkCFunction k cb vm = .err .outOfMemory vm' ∧ Good vm' ∧
      (∀ j y, Reads vm j y → Reads vm' j y) ∧ (∀ j, Unset vm j → Unset vm' j) ∧
      ∀ c, Reachable vm c → vm'.heap[c]? = vm.heap[c]? := by
  have hp := post_store (o := .function cb) hg trivial (fun r h => by cases h) k
  change Post _ _ _ (linkCFunction k cb vm) at hp
  cases ho : linkCFunction k cb vm with
  | ok u s =>
      rw [ho] at hp
      obtain ⟨r, s1, h1, h2, rfl⟩ := hp
      obtain ⟨t1, t2, t3, t4, t5⟩ := stored_reads hg h2 k
      exact .inl ⟨_, rfl, h1, t4, t1, t2, t3, t5⟩
  | err e s =>
      rw [ho] at hp
      obtain ⟨rfl, h1, h2⟩ := hp
      obtain ⟨t1, t2, t3⟩ := failed_reads hg h2
      exact .inr ⟨s, rfl, h1, t1, t2, t3⟩
  | ub => rw [ho] at hp; exact hp.elim
  | diverge => rw [ho] at hp; exact hp.elim

/-- C29: in a fresh machine no global is set. -/
theorem C29_fresh_unset (maxObjects : Nat) (k : Nat) : Unset (init maxObjects) k :=
  unset_iff.mpr rfl

/-- C29: the host reads the values of globals that programs read, and gets an error where they do.  (`.none` marks the
binding of a key to no object at all, which nothing makes.) -/
theorem C29_host_reads (vm : VM) (k : Nat) :
    (∀ x, x ≠ .none → Reads vm k x → apiPushGlobal k vm = .ok () (pushed vm x)) ∧
    (Unset vm k → apiPushGlobal k vm = .err .invalidValue vm) := by
  refine ⟨fun x hx h => ?_, fun h => ?_⟩
  · rcases reads_iff.mp h with ⟨-, rfl⟩ | ⟨r, hb, hr⟩
    · exact absurd rfl hx
    · unfold apiPushGlobal
      rw [M.bind_run, globalGet_eq, hb]
      simp only [pushPtr]
      rw [M.bind_ok (readCell_some hr)]
      rfl
  · unfold apiPushGlobal
    rw [M.bind_run, globalGet_eq, unset_iff.mp h]

/-- Globals at work: with 7 on the stack, key 3 is set and key 4 is not. -/
example : ∃ vm', exec plainEnv 0 ⟨0, 0, 0⟩ ⟨0, 0, 1⟩ (.setGlobal 1 3) pairVM = .ok (.goto ⟨0, 0, 1⟩) vm' ∧
    Reads vm' 3 (.integer 7) ∧ Unset vm' 4 :=
  ⟨_, rfl, reads_iff.mpr (.inr ⟨3, rfl, rfl⟩), unset_iff.mpr rfl⟩
example : Good pairVM ∧ operand pairVM 1 = some (.integer 7) := ⟨pairVM_good, rfl⟩

#print axioms C29_set_global
#print axioms C29_link_function
#print axioms C29_fresh_unset
#print axioms C29_host_reads

end DuckLisp.VM
