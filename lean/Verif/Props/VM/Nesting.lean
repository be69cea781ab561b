import Verif.Proof.VM.Nested
import Verif.Proof.Compile.Tidy
import Verif.Props.VM.Inside
import Verif.Props.Compile.Functions

/-!
# C51: calls nest

`Spec.HeightAt` counts, from the instructions alone, how many values a function has on the stack at every position
of its code.  The theorems say that in tidy code every function finds exactly so many, that it leaves what is below
them alone, and that a call that returns leaves its result in place of the arguments.
-/

namespace DuckLisp.Props

open DuckLisp DuckLisp.VM DuckLisp.Asm DuckLisp.Spec

attribute [local instance] byHeight

/-- C51: in every state a run gets to, every pending call has its part of the stack, of the size its code says, one
above the other, and what was on the stack at the start is still there, but for variables that functions have captured
and assigned to; unless the run has come to a listed situation or has called a function of the host with a wrong number
of arguments before. -/
theorem C51_states (env : Env) (count : Nat → Nat) (bc bottom base h : Nat) (ip ip' : CodePtr) (vm0 vm vm' : VM)
    (hc : Nested vm0 bottom bc vm ip base h) (ht : AllTidy vm0) (hh : @HostBehaves byHeight env bc)
    (hl : HostLeavesCode env) (hk : HostTakes env count) (ha : Arrives env bc ip vm ip' vm') :
    (∃ base' h', Nested vm0 bottom bc vm' ip' base' h' ∧
        ∀ k, k < bottom → vm'.stack[k]? = vm.stack[k]? ∨ AssignedOnTheWay env bc vm0 bottom ip vm ip' vm' k) ∨
      ∃ ip1 vm1 base1 h1, Arrives env bc ip vm ip1 vm1 ∧ Nested vm0 bottom bc vm1 ip1 base1 h1 ∧
        (Pitfall vm1 ip1 ∨ Miscounts count vm1 ip1) := by
  induction ha generalizing base h with
  | here => exact .inl ⟨_, _, hc, fun _ _ => .inl rfl⟩
  | @step ip vm ip1 vm1 ip2 vm2 hs ha ih =>
    by_cases hp : Pitfall vm ip
    · exact .inr ⟨ip, vm, _, _, .here, hc, .inl hp⟩
    by_cases hm : Miscounts count vm ip
    · exact .inr ⟨ip, vm, _, _, .here, hc, .inr hm⟩
    obtain ⟨b, k, hn, hmv⟩ := nested_step hc ht hh hl hk hp hm hs
    have hbot := Pending.bottom_le hc.calls
    rcases ih _ _ hn with ⟨b', k', h1, h2⟩ | ⟨ip3, vm3, b', k', h1, h2⟩
    · refine .inl ⟨b', k', h1, fun j hj => below_step hc hs ha ?_ (h2 j hj)⟩
      exact hmv.below (by rw [hc.height]; omega) (by omega)
    · exact .inr ⟨ip3, vm3, b', k', .step hs h1, h2⟩

/-- In code that does not assign to captured variables there is no such assignment on the way. -/
theorem not_assigned {env : Env} {bc bottom : Nat} {ip ip' : CodePtr} {vm0 vm vm' : VM} {k : Nat} (hu : AllUnassigning vm0) :
    ¬ AssignedOnTheWay env bc vm0 bottom ip vm ip' vm' k := by
  rintro ⟨ip1, vm1, b, h, -, -, -, hn, ⟨j, a, -, hi, -⟩, -⟩
  obtain ⟨blk, n, rest, h1, h2, h3, h4, h5⟩ := hi
  obtain ⟨m, hb⟩ := hn.code _ _ _ h1
  obtain ⟨blk', n', g1, g2, g3⟩ := hn.here
  rw [hb] at g1
  cases g1
  exact hu _ _ _ hb _ _ _ _ _ g3 (codeAt_of_decode h3 h4 h5)

/-- C51: loading tidy code on a machine between programs and starting at its first byte is such a start. -/
theorem C51_loaded (code : Bytes) (vm vm0 : VM) (bc serial : Nat) (hr : AtRest vm) (ht : Tidy code)
    (h : Loaded code vm bc serial vm0) :
    Nested vm0 vm.stack.length bc vm0 ⟨bc, serial, 0⟩ vm.stack.length 0 ∧ AllTidy vm0 ∧ vm0.stack = vm.stack := by
  have hc : code ≠ [] := by
    rintro rfl
    obtain ⟨i, q, h, -⟩ := ht.whole 0 0 .start
    obtain ⟨rest, -, -, h, -⟩ := codeAt_decode h
    simp [decode] at h
  obtain ⟨vm1, h1, rfl, h2⟩ := h
  obtain ⟨serial', hld⟩ := Compile.isLoaded_of_push hr.good hc h1
  obtain rfl : serial' = serial := by
    have := hld.serial_eq
    rw [h2] at this
    cases this
    rfl
  refine ⟨⟨⟨hld.good, ?_, rfl⟩, fun c blk n h => ⟨n, h⟩, ⟨_, _, hld.code, rfl, .start⟩, ?_, ?_⟩, ?_, hld.stack⟩
  · have hl := hr.level
    unfold Lockstep at hl ⊢
    rw [hld.stack, hld.upStack]
    exact hl
  · rw [hld.stack]; rfl
  · rw [hld.callStack, hr.calls]
    exact .none
  · intro c blk n hb
    by_cases hcb : c = bc
    · subst hcb
      have := hb.symm.trans hld.code
      cases this
      exact ht
    · exact hr.code _ _ _ (pushObject_code h1 hcb hb)

/-- C51: where control is there is an instruction, and the values it works on are the function's own. -/
theorem C51_own_values (bc bottom base h : Nat) (ip : CodePtr) (vm0 vm : VM) (i : Instr)
    (hc : Nested vm0 bottom bc vm ip base h) (ht : AllTidy vm0) (hi : InstructionAt vm ip i) :
    vm.stack.length = base + h ∧ atLeast i ≤ h ∧ ∀ n, leavesBehind i = some n → vm.stack.length = base + n + 1 := by
  obtain ⟨blk, n, rest, h1, h2, h3, h4, h5⟩ := hi
  obtain ⟨m, hb⟩ := hc.code _ _ _ h1
  obtain ⟨blk', n', g1, g2, g3⟩ := hc.here
  rw [hb] at g1
  cases g1
  obtain ⟨i', q', k1, -, k2, k3⟩ := (ht _ _ _ hb).whole _ _ g3
  obtain ⟨rfl, -⟩ := codeAt_unique k1 (codeAt_of_decode h3 h4 h5)
  refine ⟨hc.height, k2, fun n hn => ?_⟩
  rw [hc.height, k3 n hn, Nat.add_assoc]

/-- C51: when the program calls a function of its own, the stack below the values the call takes stays as it is until
this call returns, but for variables that functions have captured and assign to; and when it returns, control goes on
after the call, the pending calls are those there were, and the stack has one value, the result, in place of those the
call has taken.  Unless the run comes to a listed situation or calls a function of the host with a wrong number of
arguments. -/
theorem C51_call (env : Env) (count : Nat → Nat) (bc bottom base h n : Nat) (i : Instr) (ip nx ip1 ip2 : CodePtr)
    (vm0 vm vm1 vm2 : VM) (hc : Nested vm0 bottom bc vm ip base h) (ht : AllTidy vm0)
    (hh : @HostBehaves byHeight env bc) (hl : HostLeavesCode env) (hk : HostTakes env count)
    (hi : ReadAt vm ip i nx) (hn : takes i = some n) (hs : VM.step env bc ip vm = .ok (.goto ip1) vm1)
    (hin : vm1.callStack.length = vm.callStack.length + 1)
    (hw : Within env bc vm.callStack.length ip1 vm1 ip2 vm2) :
    (((vm.callStack.length < vm2.callStack.length ∧ vm.callStack <+: vm2.callStack) ∨
        (ip2 = nx ∧ vm2.callStack = vm.callStack ∧ vm2.stack.length = vm.stack.length - n + 1)) ∧
      ∀ k, k < vm.stack.length - n →
        vm2.stack[k]? = vm.stack[k]? ∨ AssignedOnTheWay env bc vm0 bottom ip1 vm1 ip2 vm2 k) ∨
      ∃ ip3 vm3, Arrives env bc ip vm ip3 vm3 ∧ (Pitfall vm3 ip3 ∨ Miscounts count vm3 ip3) := by
  by_cases hp : Pitfall vm ip
  · exact .inr ⟨ip, vm, .here, .inl hp⟩
  by_cases hm : Miscounts count vm ip
  · exact .inr ⟨ip, vm, .here, .inr hm⟩
  obtain ⟨b, k, hn', hmv⟩ := nested_step hc ht hh hl hk hp hm hs
  cases hmv with
  | stays g1 _ => rw [g1] at hin; omega
  | returns g1 _ _ _ =>
    rw [g1] at hin
    simp at hin
    omega
  | @calls _ i' n' nx' g1 g1' g2 g3 g4 g5 =>
    obtain ⟨rfl, rfl⟩ : n' = n ∧ nx' = nx := by
      obtain ⟨blk, m, q, e1, e2, e3, rfl⟩ := g1
      obtain ⟨blk', m', q', f1, f2, f3, rfl⟩ := hi
      rw [e1] at f1
      cases f1
      obtain ⟨rfl, rfl⟩ := codeAt_unique e3 f3
      rw [hn] at g1'
      cases g1'
      exact ⟨rfl, rfl⟩
    obtain rfl : vm.stack.length - n' = b := by omega
    have hpre := hn'.calls
    rw [g2] at hpre
    rcases nested_within ht hh hl hk hpre hw hn' (more := []) (by rw [g2]; simp) with ⟨h1, h2⟩ | ⟨ip3, vm3, h1, h2⟩
    · refine .inl ⟨?_, fun k hk => (h2 k hk).imp_left fun h => h.trans (getElem?_of_take g5 hk)⟩
      rcases h1 with ⟨more, h1⟩ | h1
      · refine .inl ⟨?_, ?_⟩
        · rw [h1]; simp
        · exact ⟨_, by rw [h1, List.append_assoc]⟩
      · exact .inr h1
    · exact .inr ⟨ip3, vm3, .step hs h1, h2⟩

/-- C51: if no code assigns to captured variables, nothing below the values a call takes changes until it returns, and
then the stack is what it was with one value, the result, in place of those. -/
theorem C51_call_unassigning (env : Env) (count : Nat → Nat) (bc bottom base h n : Nat) (i : Instr) (ip nx ip1 ip2 : CodePtr)
    (vm0 vm vm1 vm2 : VM) (hc : Nested vm0 bottom bc vm ip base h) (ht : AllTidy vm0) (hu : AllUnassigning vm0)
    (hh : @HostBehaves byHeight env bc) (hl : HostLeavesCode env) (hk : HostTakes env count)
    (hi : ReadAt vm ip i nx) (hn : takes i = some n) (hs : VM.step env bc ip vm = .ok (.goto ip1) vm1)
    (hin : vm1.callStack.length = vm.callStack.length + 1)
    (hw : Within env bc vm.callStack.length ip1 vm1 ip2 vm2) :
    (vm.callStack.length < vm2.callStack.length ∧ vm.callStack <+: vm2.callStack ∧
        vm2.stack.take (vm.stack.length - n) = vm.stack.take (vm.stack.length - n)) ∨
      (ip2 = nx ∧ vm2.callStack = vm.callStack ∧
        ∃ result, vm2.stack = vm.stack.take (vm.stack.length - n) ++ [result]) ∨
      ∃ ip3 vm3, Arrives env bc ip vm ip3 vm3 ∧ (Pitfall vm3 ip3 ∨ Miscounts count vm3 ip3) := by
  rcases C51_call env count bc bottom base h n i ip nx ip1 ip2 vm0 vm vm1 vm2 hc ht hh hl hk hi hn hs hin hw with ⟨h1, h2⟩ | h
  · have heq : vm2.stack.take (vm.stack.length - n) = vm.stack.take (vm.stack.length - n) := by
      apply List.ext_getElem?
      intro k
      by_cases hk : k < vm.stack.length - n
      · rw [List.getElem?_take_of_lt hk, List.getElem?_take_of_lt hk]
        exact (h2 k hk).resolve_right (not_assigned hu)
      · rw [List.getElem?_eq_none (by simp; omega), List.getElem?_eq_none (by simp; omega)]
    rcases h1 with ⟨h3, h4⟩ | ⟨h3, h4, h5⟩
    · exact .inl ⟨h3, h4, heq⟩
    · refine .inr (.inl ⟨h3, h4, ?_⟩)
      have hd : (vm2.stack.drop (vm.stack.length - n)).length = 1 := by simp; omega
      obtain ⟨r, hr⟩ := List.length_eq_one_iff.1 hd
      exact ⟨r, by rw [← heq, ← hr, List.take_append_drop]⟩
  · exact .inr (.inr h)

/-- C51: the code of every compiled program of the core language and its functions whose jumps land and whose numbers
fit is tidy and does not assign to captured variables, also with the optimisation of the assembler, if no call has 256
or more arguments.  Partial: the other parts of the language; for such calls see `C51_many_arguments`. -/
theorem C51_compiled_partial (cfg : Compile.Config) (D : Dialect) (n : Nat) (e : Reader.Ast) (s s' : Compile.CState) (opt : Options)
    (bytes : Bytes) (hcb : KeywordsFree cfg) (hcf : CallsFree cfg D) (he : Term D false e) (hs : Fresh s)
    (hc : Compile.compileAST cfg n e s = .ok () s') (hg : s'.gensymNumber ≤ 2 ^ 64)
    (hj : JumpsLand opt s'.assembly bytes)
    (hlen : s'.assembly.length < 2 ^ 31) (hfmt : ∀ i ∈ s'.assembly, InFormat i ∧ SmallWhereNeeded i)
    (hw : ¬ Crowded D e) : Tidy bytes ∧ Unassigning bytes := by
  obtain ⟨-, code, L, l, h1, h2, h3⟩ := fresh_code hcb hcf he hs hc hg
  let _ : Compile.Keys := (Compile.Keys.from s'.symbols D (Props.unclaimed hcf)).upTo (room s'.assembly)
  obtain ⟨pieces, hp, hl⟩ := hj
  have hfew := Compile.whole_fewPops h1 (by rw [← h2]; exact hlen)
  obtain ⟨ld, y, hlev⟩ := Compile.whole_level h1 hw
  rw [← h2] at hlev hfew
  have hlev' : Compile.Level ld (0, 0) (rewritten opt s'.assembly) y := by
    unfold rewritten
    split
    · exact Compile.peephole_level _ _ rfl hfew hlev
    · exact hlev
  obtain ⟨ds, d0, d1, d2⟩ := hlev'.heights
  refine Compile.tidy_of_counted hp hl ?_ ?_ ?_ (fun k => (ds k).2 - (ds k).1) (by simp only [d0]) (Compile.counted_of_level d1 d2)
  · rw [h2]
    exact Compile.labelsDefined_of_own (Compile.whole_own h1) opt
  · show ∀ i ∈ rewritten opt s'.assembly, _
    unfold rewritten
    split
    · exact Compile.peephole_format hfew hfmt
    · exact hfmt
  · have hlast : s'.assembly.getLast? = some .halt := by rw [h2]; simp
    show (rewritten opt s'.assembly).getLast? = _
    unfold rewritten
    split
    · rw [List.getLast?_eq_getElem?] at hlast ⊢
      rw [(kept_peephole _ s'.assembly rfl).1]
      exact Compile.peephole_keeps hlast rfl (by simp)
    · exact hlast

/-- C51: running tidy code, if it ends and does not end inside a function, leaves a machine between programs, so the
next program can be run, and on its stack what was there before, but for variables that functions have captured and
assigned to; unless the run comes to a listed situation or calls a function of the host with a wrong number of
arguments. -/
theorem C51_execute (env : Env) (count : Nat → Nat) (fuel : Nat) (code : Bytes) (vm vm' : VM) (hr : AtRest vm)
    (ht : Tidy code) (hh : ∀ bc, @HostBehaves byHeight env bc) (hl : HostLeavesCode env) (hk : HostTakes env count)
    (he : VM.execute env fuel code vm = .ok () vm') (hcalls : vm'.callStack = []) :
    (AtRest vm' ∧ ∀ k, k < vm.stack.length → vm'.stack[k]? = vm.stack[k]? ∨
        ∃ bc serial vm0 ip1 vm1, Loaded code vm bc serial vm0 ∧ Arrives env bc ⟨bc, serial, 0⟩ vm0 ip1 vm1 ∧
          AssignsCaptured vm1 ip1 k ∧ ¬ (AllUnassigning vm ∧ Unassigning code)) ∨
      ∃ bc serial vm0 ip1 vm1, Loaded code vm bc serial vm0 ∧ Arrives env bc ⟨bc, serial, 0⟩ vm0 ip1 vm1 ∧
        (Pitfall vm1 ip1 ∨ Miscounts count vm1 ip1) := by
  have hc : code ≠ [] := by
    rintro rfl
    obtain ⟨i, q, h, -⟩ := ht.whole 0 0 .start
    obtain ⟨rest, -, -, h, -⟩ := codeAt_decode h
    simp [decode] at h
  have hlen0 : code.length ≠ 0 := fun h => hc (List.length_eq_zero_iff.1 h)
  cases hpu : pushObject (.bytecode (some ⟨0, code⟩) code.length) vm with
  | ok bc vm1 =>
    obtain ⟨serial, hld⟩ := Compile.isLoaded_of_push hr.good hc hpu
    have hload : Loaded code vm bc serial { vm1 with currentBytecode := some bc } := ⟨vm1, hpu, rfl, hld.serial_eq⟩
    obtain ⟨h1, h2, h3⟩ := C51_loaded code vm _ bc serial hr ht hload
    rw [hld.execute hc] at he
    generalize hvm0 : { vm1 with currentBytecode := some bc } = vm0 at *
    have key : ∀ fuel ip vm2 vm3 base h, Nested vm0 vm.stack.length bc vm2 ip base h → VM.loop env bc fuel ip vm2 = .ok () vm3 →
        (∃ ip1 vm4 base' h', Arrives env bc ip vm2 ip1 vm4 ∧ Nested vm0 vm.stack.length bc vm4 ip1 base' h' ∧
          ¬ Pitfall vm4 ip1 ∧ VM.step env bc ip1 vm4 = .ok .halt vm3) ∨
        ∃ ip1 vm4, Arrives env bc ip vm2 ip1 vm4 ∧ (Pitfall vm4 ip1 ∨ Miscounts count vm4 ip1) := by
      intro fuel
      induction fuel with
      | zero => intro ip vm2 vm3 _ _ _ h; cases h
      | succ fuel ih =>
        intro ip vm2 vm3 base k hcf h
        by_cases hp : Pitfall vm2 ip
        · exact .inr ⟨ip, vm2, .here, .inl hp⟩
        by_cases hm : Miscounts count vm2 ip
        · exact .inr ⟨ip, vm2, .here, .inr hm⟩
        rw [VM.loop, M.bind_run] at h
        cases hs : VM.step env bc ip vm2 with
        | ok ctl s =>
          rw [hs] at h
          cases ctl with
          | halt =>
            cases h
            exact .inl ⟨ip, vm2, base, k, .here, hcf, hp, hs⟩
          | goto ip' =>
            obtain ⟨b, k', hn, -⟩ := nested_step hcf h2 (hh bc) hl hk hp hm hs
            rcases ih ip' s vm3 b k' hn h with ⟨ip1, vm4, b', k2, g1, g2⟩ | ⟨ip1, vm4, g1, g2⟩
            · exact .inl ⟨ip1, vm4, b', k2, .step hs g1, g2⟩
            · exact .inr ⟨ip1, vm4, .step hs g1, g2⟩
        | err e s => rw [hs] at h; cases h
        | ub => rw [hs] at h; cases h
        | diverge => rw [hs] at h; cases h
    unfold finish at he
    cases hlo : VM.loop env bc fuel ⟨bc, serial, 0⟩ vm0 with
    | ok a vm3 =>
      rw [hlo] at he
      cases he
      rcases key fuel _ _ _ _ _ h1 hlo with ⟨ip1, vm4, b, k, g1, g2, g3, g4⟩ | ⟨ip1, vm4, g⟩
      · rcases C51_states env count bc _ _ _ _ _ vm0 vm0 vm4 h1 h2 (hh bc) hl hk g1 with ⟨-, -, -, g5⟩ | ⟨ip2, vm5, _, _, g5, -, g6⟩
        · obtain ⟨k1, k2, k3⟩ := nested_halt g2 h2 (hh bc) hl g3 g4
          refine .inl ⟨⟨Compile.good_current k1.good fun _ h => (nomatch h), k1.level, hcalls,
            fun c blk n hb => ?_⟩, ?_⟩
          · obtain ⟨m, hm⟩ := k2 c blk n hb
            exact h2 _ _ _ hm
          · intro j hj
            have hj' := getElem?_of_take k3 (Nat.lt_of_lt_of_le hj (Pending.bottom_le g2.calls))
            rcases g5 j hj with g | g
            · left
              show vm3.stack[j]? = _
              rw [hj', g, h3]
            · refine .inr ?_
              have hno : ¬ (AllUnassigning vm ∧ Unassigning code) := fun ⟨u1, u2⟩ => not_assigned (fun c blk n hb => ?_) g
              · obtain ⟨ip6, vm6, -, -, -, -, q1, -, q2, -⟩ := g
                exact ⟨bc, serial, vm0, ip6, vm6, hload, q1, q2, hno⟩
              · rw [← hvm0] at hb
                by_cases hcb : c = bc
                · subst hcb
                  have := hb.symm.trans hld.code
                  cases this
                  exact u2
                · exact u1 _ _ _ (pushObject_code hpu hcb hb)
        · exact .inr ⟨bc, serial, vm0, ip2, vm5, hload, g5, g6⟩
      · exact .inr ⟨bc, serial, vm0, ip1, vm4, hload, g⟩
    | err e s => rw [hlo] at he; cases he
    | ub => rw [hlo] at he; cases he
    | diverge => rw [hlo] at he; cases he
  | err e s =>
    unfold VM.execute executeWithIp at he
    rw [if_neg (by omega), M.bind_err hpu] at he
    cases he
  | ub =>
    unfold VM.execute executeWithIp at he
    rw [if_neg (by omega), M.bind_ub hpu] at he
    cases he
  | diverge =>
    rcases pushObject_total hr.good.sound (.bytecode (some ⟨0, code⟩) code.length) with ⟨_, _, h⟩ | ⟨_, h⟩
    · rw [hpu] at h; cases h
    · rw [hpu] at h; cases h

theorem atRest_init (m : Nat) (hm : m < 2 ^ 60) : AtRest (init m) :=
  ⟨init_good m hm, rfl, rfl, fun c blk n h => by
    have := List.mem_of_getElem? h
    simp [init] at this⟩

/-! ### Calls with too many arguments -/

private def nm (x : String) : Reader.Ast := .identifier (ascii x)

/-- `(+ 100 (funcall (lambda () 7) 1 … 1))`, with `n` arguments for a function without parameters. -/
def passing (n : Nat) : Reader.Ast := .expression [nm "+", .int 100,
  .expression (nm "funcall" :: .expression [nm "lambda", .expression [], .int 7] :: List.replicate n (.int 1))]

/-- Compile and run a program: the values on the stack at the end, if it ends. -/
def leftBy (e : Reader.Ast) : Option (List Obj) :=
  match Compile.compileAST ⟨Trie.init (-1), 100⟩ 100 e Compile.CState.init.renew with
  | .ok () s => match assemble {} s.scopes.runtime.labelNumber s.assembly with
    | .ok bytes => match VM.execute plainEnv 600 bytes (init 10) with
      | .ok _ vm => some vm.stack
      | _ => none
    | _ => none
  | _ => none

/-- C51 fails for a call with 256 arguments: as many values stay on the stack, where the code that follows does not
expect them.  The function without parameters is called nevertheless, and 100 + 7 comes out as 8.  With one argument
there is an error, as there should be, and without arguments the result is 107. -/
theorem C51_many_arguments : Crowded ⟨true, fun _ => false, fun _ => false⟩ (passing 256) ∧
    (leftBy (passing 256)).map (fun stack => (stack.length, stack.getLast?)) = some (259, some (.integer 8)) ∧
    leftBy (passing 1) = none ∧ (leftBy (passing 0)).map List.getLast? = some (some (.integer 107)) :=
  ⟨.inside (.expression (nm "funcall" :: .expression [nm "lambda", .expression [], .int 7] :: List.replicate 256 (.int 1))) _
      (.tail _ (.tail _ (.head _))) (.funcall _ _ _ (.inl rfl) (by rw [List.length_replicate])),
    by decide +kernel, by decide +kernel, by decide +kernel⟩

/-! ### The hypotheses can be met -/

/-- A host whose functions take no arguments and push nil. -/
def counting : Env := ⟨plainEnv.fl, fun _ => push (.list none)⟩

theorem counting_behaves : HostTakes counting (fun _ => 0) ∧ HostLeavesCode counting ∧
    ∀ bc, @HostBehaves byHeight counting bc := by
  refine ⟨fun cb vm vm' h _ => ?_, fun cb vm vm' h => ?_, fun bc cb vm h => .inl ⟨_, rfl, ?_⟩⟩
  · cases h
    exact ⟨.list none, by simp⟩
  · cases h
    exact ⟨rfl, fun c blk n h => ⟨n, h⟩⟩
  · refine ⟨h.good.pushed trivial, ?_, h.current⟩
    have := h.level
    unfold Lockstep at this ⊢
    simp [this]

theorem quiet_expression {D : Dialect} {es : List Reader.Ast} (hl : es.length ≤ 256) (h : ∀ e ∈ es, ¬ Crowded D e) :
    ¬ Crowded D (.expression es) := by
  intro hc
  cases hc with
  | funcall name f es _ h2 => simp at hl; omega
  | apply name f es _ h2 => simp at hl; omega
  | call name es _ h2 => simp at hl; omega
  | inside e es h1 h2 => exact h e h1 h2

/-- No call of the program for the factorial of 5 is crowded. -/
theorem factorial_quiet : ¬ Crowded calling factorial := by
  unfold factorial factorialBody
  repeat' first
    | (intro h; cases h; done)
    | (refine quiet_expression (by simp) ?_
       simp only [List.forall_mem_cons, List.not_mem_nil, false_imp_iff, implies_true, and_true])
    | refine And.intro ?_ ?_

/-- The code of the program for the factorial of 5 is tidy, and running it leaves a machine between programs or comes to
one of the excepted situations. -/
example (m fuel : Nat) (hm : m + 1 < 2 ^ 60) : ∃ s' bytes,
    Compile.compileAST ⟨Trie.init (-1), 100⟩ 100 factorial informed.renew = .ok () s' ∧
    assemble { strip := true } s'.scopes.runtime.labelNumber s'.assembly = .ok bytes ∧ Tidy bytes ∧ Unassigning bytes ∧
    ∀ vm', VM.execute counting fuel bytes (init (m + 1)) = .ok () vm' → vm'.callStack = [] →
      (AtRest vm' ∧ ∀ k, k < (init (m + 1)).stack.length → vm'.stack[k]? = (init (m + 1)).stack[k]?) ∨
      ∃ bc serial vm0 ip1 vm1, Loaded bytes (init (m + 1)) bc serial vm0 ∧ Arrives counting bc ⟨bc, serial, 0⟩ vm0 ip1 vm1 ∧
        (Pitfall vm1 ip1 ∨ Miscounts (fun _ => 0) vm1 ip1) := by
  obtain ⟨⟨s', bytes⟩, h⟩ := Option.isSome_iff_exists.1 (by decide +kernel : compileFactorial.isSome = true)
  obtain ⟨hc, hl⟩ := compileFactorial_ok h
  have ht := C51_compiled_partial _ calling 100 factorial informed.renew s' { strip := true } bytes (keywordsFree_none 100) (calling_free 100)
    factorial_term informed_fresh hc hl.gensyms hl.jumps hl.short hl.fits factorial_quiet
  refine ⟨s', bytes, hc, hl.assembled, ht.1, ht.2, fun vm' hv hcs => ?_⟩
  refine (C51_execute counting (fun _ => 0) fuel bytes _ vm' (atRest_init _ hm) ht.1 counting_behaves.2.2 counting_behaves.2.1
    counting_behaves.1 hv hcs).imp_left fun h => ⟨h.1, fun k hk => (h.2 k hk).resolve_right ?_⟩
  rintro ⟨-, -, -, -, -, -, -, -, h⟩
  exact h ⟨fun c blk n h => by have := List.mem_of_getElem? h; simp [init] at this, ht.2⟩

/-- The program of C45 with the right number at the end of its function. -/
def nestingProgram : List Ins :=
  [.pushClosure false 1 0 [], .funcall 1 0, .jump 2, .label 1, .nil, .return_ 0, .label 2, .halt]

/-- Its code, with addresses of fixed size. -/
def nestingCode : Bytes := [24, 0, 0, 0, 13, 0, 0, 0, 0, 0, 40, 1, 0, 57, 0, 0, 0, 2, 166, 161, 165]

example : assemble { pushPops := false, jumps := false } 3 nestingProgram = .ok nestingCode := by decide +kernel

/-- How many values there are before its instructions. -/
private def nestingHeights (p : Int) : Option Nat :=
  if p = 0 then some 0 else if p = 10 then some 1 else if p = 13 then some 2 else if p = 18 then some 0
  else if p = 19 then some 1 else if p = 20 then some 2 else none

theorem nestingCode_tidy : Tidy nestingCode := by
  refine tidy_of nestingHeights rfl fun p h hp => ?_
  have c : ∀ (n : Nat) i (pre mid rest : Bytes), nestingCode = pre ++ mid ++ rest → pre.length = n → decode (mid ++ rest) = some (i, rest) →
      CodeAt nestingCode (n : Int) i ((n + mid.length : Nat) : Int) := fun n i pre mid rest h1 h2 h3 => by
    subst h2
    exact ⟨pre, mid, rest, h1, rfl, by simp, h3⟩
  unfold nestingHeights at hp
  split at hp
  · cases hp; subst p
    exact ⟨_, _, c 0 (.pushClosure false 5 13 0 []) [] (nestingCode.take 10) (nestingCode.drop 10) rfl rfl (by decide +kernel), trivial, Nat.zero_le _,
      fun n h => (nomatch h), fun _ => rfl, fun t ht => by cases ht; rfl⟩
  split at hp
  · cases hp; subst p
    exact ⟨_, _, c 10 (.funcall 1 0) (nestingCode.take 10) [40, 1, 0] (nestingCode.drop 13) rfl rfl (by decide +kernel), trivial, by decide,
      fun n h => (nomatch h), fun _ => rfl, fun t ht => by cases ht⟩
  split at hp
  · cases hp; subst p
    exact ⟨_, _, c 13 (.jump 2) (nestingCode.take 13) [57, 0, 0, 0, 2] (nestingCode.drop 18) rfl rfl (by decide +kernel), trivial, by decide,
      fun n h => (nomatch h), fun h => h.elim, fun t ht => by cases ht; rfl⟩
  split at hp
  · cases hp; subst p
    exact ⟨_, _, c 18 .nil (nestingCode.take 18) [166] (nestingCode.drop 19) rfl rfl (by decide +kernel), trivial, by decide,
      fun n h => (nomatch h), fun _ => rfl, fun t ht => by cases ht⟩
  split at hp
  · cases hp; subst p
    exact ⟨_, _, c 19 .return0 (nestingCode.take 19) [161] (nestingCode.drop 20) rfl rfl (by decide +kernel), trivial, by decide,
      fun n h => by cases h; rfl, fun h => h.elim, fun t ht => by cases ht⟩
  split at hp
  · cases hp; subst p
    exact ⟨_, _, c 20 .halt (nestingCode.take 20) [165] [] rfl rfl (by decide +kernel), trivial, by decide,
      fun n h => (nomatch h), fun h => h.elim, fun t ht => by cases ht⟩
  · cases hp

/-- The states of its run on a new machine with five cells. -/
private def nestingRun : Nat → CodePtr × VM
  | 0 => match pushObject (.bytecode (some ⟨0, nestingCode⟩) nestingCode.length) (init 5) with
    | .ok bc vm => match codeSerial bc vm with
      | .ok serial vm => (⟨bc, serial, 0⟩, { vm with currentBytecode := some bc })
      | _ => (⟨0, 0, 0⟩, init 5)
    | _ => (⟨0, 0, 0⟩, init 5)
  | k + 1 => match VM.step counting (nestingRun 0).1.cell (nestingRun k).1 (nestingRun k).2 with
    | .ok (.goto ip) vm => (ip, vm)
    | _ => nestingRun k

private abbrev bc0 : Nat := (nestingRun 0).1.cell

private theorem nestingRun_start : Loaded nestingCode (init 5) bc0 (nestingRun 0).1.serial (nestingRun 0).2 :=
  ⟨{ (nestingRun 0).2 with currentBytecode := none }, by decide +kernel, by decide +kernel, by decide +kernel⟩

private theorem nestingRun_step : ∀ k < 4, VM.step counting bc0 (nestingRun k).1 (nestingRun k).2 =
    .ok (.goto (nestingRun (k + 1)).1) (nestingRun (k + 1)).2 := by decide +kernel

/-- A call that meets the hypotheses of `C51_call`: the program runs to its call, and through it. -/
example : AllTidy (nestingRun 0).2 ∧ Nested (nestingRun 0).2 0 bc0 (nestingRun 1).2 (nestingRun 1).1 0 1 ∧
    ReadAt (nestingRun 1).2 (nestingRun 1).1 (.funcall 1 0) (nestingRun 4).1 ∧
    (nestingRun 2).2.callStack.length = (nestingRun 1).2.callStack.length + 1 ∧
    Within counting bc0 (nestingRun 1).2.callStack.length (nestingRun 2).1 (nestingRun 2).2 (nestingRun 4).1 (nestingRun 4).2 ∧
    (nestingRun 4).2.stack = (nestingRun 1).2.stack ++ [.list none] := by
  obtain ⟨h1, h2, h3⟩ := C51_loaded nestingCode _ _ _ _ (atRest_init 5 (by decide)) nestingCode_tidy nestingRun_start
  rw [show (⟨bc0, (nestingRun 0).1.serial, 0⟩ : CodePtr) = (nestingRun 0).1 by decide +kernel] at h1
  have hi : InstructionAt (nestingRun 0).2 (nestingRun 0).1 (.pushClosure false 5 13 0 []) :=
    ⟨⟨(nestingRun 0).1.serial, nestingCode⟩, 21, nestingCode.drop 10, by decide +kernel, by decide +kernel, by decide +kernel,
      by decide +kernel, by decide +kernel⟩
  have hu : ∀ i, InstructionAt (nestingRun 0).2 (nestingRun 0).1 i → i = .pushClosure false 5 13 0 [] := by
    intro i hi'
    obtain ⟨b, n, r, e1, -, -, -, e2⟩ := hi
    obtain ⟨b', n', r', f1, -, -, -, f2⟩ := hi'
    rw [e1] at f1
    cases f1
    rw [e2] at f2
    cases f2
    rfl
  have hp : ¬ Pitfall (nestingRun 0).2 (nestingRun 0).1 := by
    rintro (h | ⟨i, h, hf⟩)
    · exact h ⟨_, hi⟩
    · cases hu i h
      rcases hf with (⟨v, hv, -⟩ | ⟨⟨v, hv, -⟩, -⟩) | ⟨-, h⟩
      · cases hv
      · cases hv
      · exact h (by decide +kernel)
  have hm : ¬ Miscounts (fun _ => 0) (nestingRun 0).2 (nestingRun 0).1 := by
    rintro ⟨a, n, f, cb, h, -⟩
    cases hu _ h
  obtain ⟨b, k, hn, -⟩ := nested_step h1 h2 (counting_behaves.2.2 _) counting_behaves.2.1 counting_behaves.1 hp hm
    (nestingRun_step 0 (by decide))
  have hpd := hn.calls
  rw [show (nestingRun (0 + 1)).2.callStack = [] by decide +kernel] at hpd
  obtain rfl : b = 0 := by
    generalize hfs : ([] : List Frame) = fs at hpd
    cases hpd with
    | none => rfl
    | call _ _ _ _ => simp at hfs
  obtain rfl : k = 1 := by
    have := hn.height
    rw [show (nestingRun (0 + 1)).2.stack.length = 1 by decide +kernel] at this
    omega
  refine ⟨h2, hn, ?_, by decide +kernel, ?_, by decide +kernel⟩
  · exact ⟨⟨(nestingRun 0).1.serial, nestingCode⟩, 21, 13, by decide +kernel, by decide +kernel,
      ⟨nestingCode.take 10, [40, 1, 0], nestingCode.drop 13, by decide +kernel, by decide +kernel, by decide +kernel,
        by decide +kernel⟩, by decide +kernel⟩
  · exact .step (by decide +kernel) (nestingRun_step 2 (by decide)) (.step (by decide +kernel) (nestingRun_step 3 (by decide)) .here)

/-- A program whose function assigns to a variable of the program that it has captured, called with `apply`. -/
def capturingProgram : List Ins :=
  [.nil, .pushClosure false 1 0 [1], .nil, .apply 2 0, .jump 2, .label 1, .pushBoolean 1, .setUpvalue 0 1, .return_ 0,
    .label 2, .halt]

/-- Its code, with addresses of fixed size. -/
def capturingCode : Bytes := [166, 24, 0, 0, 0, 18, 0, 0, 0, 0, 1, 0, 0, 0, 1, 166, 43, 2, 0, 57, 0, 0, 0, 5, 5, 31, 0, 1, 161, 165]

example : assemble { pushPops := false, jumps := false } 3 capturingProgram = .ok capturingCode := by decide +kernel

/-- How many values there are before its instructions. -/
private def capturingHeights (p : Int) : Option Nat :=
  if p = 0 then some 0 else if p = 1 then some 1 else if p = 15 then some 2 else if p = 16 then some 3
  else if p = 19 then some 3 else if p = 24 then some 0 else if p = 25 then some 1 else if p = 28 then some 1
  else if p = 29 then some 3 else none

theorem capturingCode_tidy : Tidy capturingCode := by
  refine tidy_of capturingHeights rfl fun p h hp => ?_
  have c : ∀ (n m : Nat) i, n ≤ m → m ≤ 30 → decode (capturingCode.drop n) = some (i, capturingCode.drop m) →
      CodeAt capturingCode (n : Int) i (m : Int) := fun n m i h1 h2 h3 => by
    have e1 : capturingCode.drop n = (capturingCode.drop n).take (m - n) ++ capturingCode.drop m := by
      conv_lhs => rw [← List.take_append_drop (m - n) (capturingCode.drop n)]
      rw [List.drop_drop, Nat.add_sub_cancel' h1]
    refine ⟨capturingCode.take n, (capturingCode.drop n).take (m - n), capturingCode.drop m, ?_, ?_, ?_, ?_⟩
    · rw [List.append_assoc, ← e1, List.take_append_drop]
    · simp [capturingCode]; omega
    · simp [capturingCode]; omega
    · rw [← e1]; exact h3
  unfold capturingHeights at hp
  split at hp
  · cases hp; subst p
    exact ⟨_, _, c 0 1 .nil (by decide) (by decide) (by decide +kernel), trivial, by decide,
      fun n h => (nomatch h), fun _ => rfl, fun t ht => by cases ht⟩
  split at hp
  · cases hp; subst p
    exact ⟨_, _, c 1 15 (.pushClosure false 5 18 0 [1]) (by decide) (by decide) (by decide +kernel), trivial, by decide,
      fun n h => (nomatch h), fun _ => rfl, fun t ht => by cases ht; rfl⟩
  split at hp
  · cases hp; subst p
    exact ⟨_, _, c 15 16 .nil (by decide) (by decide) (by decide +kernel), trivial, by decide,
      fun n h => (nomatch h), fun _ => rfl, fun t ht => by cases ht⟩
  split at hp
  · cases hp; subst p
    exact ⟨_, _, c 16 19 (.apply 2 0) (by decide) (by decide) (by decide +kernel), trivial, by decide,
      fun n h => (nomatch h), fun _ => rfl, fun t ht => by cases ht⟩
  split at hp
  · cases hp; subst p
    exact ⟨_, _, c 19 24 (.jump 5) (by decide) (by decide) (by decide +kernel), trivial, by decide,
      fun n h => (nomatch h), fun h => h.elim, fun t ht => by cases ht; rfl⟩
  split at hp
  · cases hp; subst p
    exact ⟨_, _, c 24 25 (.pushBool true) (by decide) (by decide) (by decide +kernel), trivial, by decide,
      fun n h => (nomatch h), fun _ => rfl, fun t ht => by cases ht⟩
  split at hp
  · cases hp; subst p
    exact ⟨_, _, c 25 28 (.setUpvalue 0 1) (by decide) (by decide) (by decide +kernel), trivial, by decide,
      fun n h => (nomatch h), fun _ => rfl, fun t ht => by cases ht⟩
  split at hp
  · cases hp; subst p
    exact ⟨_, _, c 28 29 .return0 (by decide) (by decide) (by decide +kernel), trivial, by decide,
      fun n h => by cases h; rfl, fun h => h.elim, fun t ht => by cases ht⟩
  split at hp
  · cases hp; subst p
    exact ⟨_, _, c 29 30 .halt (by decide) (by decide) (by decide +kernel), trivial, by decide,
      fun n h => (nomatch h), fun h => h.elim, fun t ht => by cases ht⟩
  · cases hp

/-- The states of its run on a new machine with eight cells. -/
private def capturingRun : Nat → CodePtr × VM
  | 0 => match pushObject (.bytecode (some ⟨0, capturingCode⟩) capturingCode.length) (init 8) with
    | .ok bc vm => match codeSerial bc vm with
      | .ok serial vm => (⟨bc, serial, 0⟩, { vm with currentBytecode := some bc })
      | _ => (⟨0, 0, 0⟩, init 8)
    | _ => (⟨0, 0, 0⟩, init 8)
  | k + 1 => match VM.step counting (capturingRun 0).1.cell (capturingRun k).1 (capturingRun k).2 with
    | .ok (.goto ip) vm => (ip, vm)
    | _ => capturingRun k

/-- The fourth step calls the function, the seventh returns from it.  The call takes one value and leaves one in its
place; of what is below, the captured variable, at place 0, has changed: it is nil before, and true after the call. -/
example : (∀ k < 8, VM.step counting (capturingRun 0).1.cell (capturingRun k).1 (capturingRun k).2 =
      .ok (.goto (capturingRun (k + 1)).1) (capturingRun (k + 1)).2) ∧
    ((capturingRun 3).2.callStack.length, (capturingRun 4).2.callStack.length, (capturingRun 7).2.callStack.length) = (0, 1, 0) ∧
    (capturingRun 3).2.stack.length = 3 ∧ (capturingRun 7).2.stack.length = 3 ∧
    (capturingRun 3).2.stack[0]? = some (.list none) ∧ (capturingRun 7).2.stack[0]? = some (.bool 1) ∧
    (capturingRun 3).2.stack[1]? = (capturingRun 7).2.stack[1]? := by decide +kernel

/-- There is code that is not tidy: here control comes to the start of a function with a value that is not an argument. -/
example : ¬ Tidy [22, 5, 0, 0, 0, 0, 0, 166, 166, 161] := by
  intro h
  have h0 : CodeAt [22, 5, 0, 0, 0, 0, 0, 166, 166, 161] 0 (.pushClosure false 2 5 0 []) 7 :=
    ⟨[], [22, 5, 0, 0, 0, 0, 0], [166, 166, 161], rfl, rfl, rfl, by decide +kernel⟩
  have a := h.unique 7 _ _ (.next .start h0 trivial) (.land .start h0 rfl)
  cases a

#print axioms C51_states
#print axioms C51_loaded
#print axioms C51_own_values
#print axioms C51_call
#print axioms C51_call_unassigning
#print axioms C51_compiled_partial
#print axioms C51_execute
#print axioms C51_many_arguments

end DuckLisp.Props
