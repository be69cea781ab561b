import Verif.Proof.Compile.Whole

/-!
# Executing the code of a program
-/

namespace DuckLisp.Compile

open DuckLisp DuckLisp.VM DuckLisp.Asm DuckLisp.Spec DuckLisp.Spec.Eval DuckLisp.Reader DuckLisp.Props Setup

/-! ### The machine -/

theorem loop_steps {env : VM.Env} {bc n : Nat} {a b : CodePtr × VM} (h : MachineSteps env bc n a b) (f : Nat) :
    VM.loop env bc (n + f) a.1 a.2 = VM.loop env bc f b.1 b.2 := by
  induction h with
  | refl => rw [Nat.zero_add]
  | @step n ip vm ip' vm' b h _ ih =>
    rw [← ih, show n + 1 + f = (n + f) + 1 by omega]
    show VM.loop env bc (n + f + 1) ip vm = _
    rw [VM.loop, M.bind_ok h]

theorem loop_short {env : VM.Env} {bc n : Nat} {a b : CodePtr × VM} (h : MachineSteps env bc n a b) :
    ∀ f ≤ n, VM.loop env bc f a.1 a.2 = .diverge := by
  induction h with
  | refl => intro f hf; obtain rfl : f = 0 := by omega
            rfl
  | @step n ip vm ip' vm' b h _ ih =>
    intro f hf
    cases f with
    | zero => rfl
    | succ f =>
      show VM.loop env bc (f + 1) ip vm = _
      rw [VM.loop, M.bind_ok h]
      exact ih f (by omega)

theorem loop_last {env : VM.Env} {bc : Nat} {ip : CodePtr} {vm : VM} {r : Out Ctl} (h : VM.step env bc ip vm = r)
    (f : Nat) : VM.loop env bc (f + 1) ip vm =
      match (generalizing := false) r with
      | .ok (.goto ip') s => VM.loop env bc f ip' s
      | .ok .halt s => .ok () s
      | .err e s => .err e s
      | .ub => .ub
      | .diverge => .diverge := by
  rw [VM.loop, M.bind_run, h]
  cases r with
  | ok c s => cases c <;> rfl
  | _ => rfl

section

variable [Entries]

theorem good_current {vm : VM} (h : Good vm) {c : Option Nat} (hc : ∀ r, c = some r → LiveCode vm r) :
    Good { vm with currentBytecode := c } := by
  have hl : ∀ r s, Live vm r s → Live { vm with currentBytecode := c } r s := fun r s h => h
  obtain ⟨hs, hf⟩ := h
  exact ⟨⟨hs.free_nodup, hs.free_lt, hs.free_empty, hs.heap_size,
    fun o ho => valueOk_congr (hs.stack o ho) fun r s _ => hl r s, hs.captured, hs.globals, hs.frames, hc,
    fun r o h1 h2 => cellOk_congr (hs.cells r o h1 h2) fun _ r s _ => hl r s⟩, hf⟩

/-- Code is loaded. -/
structure IsLoaded (bytes : Bytes) (vm : VM) (cell serial : Nat) (vm1 vm2 : VM) : Prop where
  push : pushObject (.bytecode (some ⟨0, bytes⟩) bytes.length) vm = .ok cell vm1
  state : vm2 = { vm1 with currentBytecode := some cell }
  code : vm1.heap[cell]? = some (.bytecode (some ⟨serial, bytes⟩) bytes.length)
  good : Good vm2
  stack : vm2.stack = vm.stack
  upStack : vm2.upStack = vm.upStack
  callStack : vm2.callStack = vm.callStack
  extends_ : Extends vm vm1

theorem isLoaded_of_push {bytes : Bytes} {vm vm1 : VM} {cell : Nat} (hg : Good vm) (hb : bytes ≠ [])
    (h : pushObject (.bytecode (some ⟨0, bytes⟩) bytes.length) vm = .ok cell vm1) :
    ∃ serial, IsLoaded bytes vm cell serial vm1 { vm1 with currentBytecode := some cell } := by
  have hst : ∀ n, store n (.bytecode (some ⟨0, bytes⟩) bytes.length) =
      .bytecode (some ⟨n, bytes⟩) bytes.length := by
    intro n
    simp [store, hb]
  obtain ⟨serial, ha, hfin⟩ := alloc_ok hg.sound (fun n => by rw [hst]; exact ⟨_, rfl, rfl⟩)
    (fun n r _ hm => by rw [hst] at hm; cases hm) h
  rw [hst] at ha hfin
  have hgood : Good vm1 := ⟨ha.sound, hfin hg.finished (by simp [UnderConstruction])⟩
  refine ⟨serial, h, rfl, ha.cell, good_current hgood fun r hr => ?_, ha.carried.roots.stack,
    ha.carried.roots.upStack, ha.carried.roots.callStack, ha.carried.extends⟩
  cases hr
  exact ⟨_, ha.notFree, _, ha.cell, rfl⟩

theorem load {bytes : Bytes} {vm : VM} (hg : Good vm) (hb : bytes ≠ []) (hf : ¬ Full vm) :
    ∃ cell serial vm1 vm2, IsLoaded bytes vm cell serial vm1 vm2 := by
  rcases pushObject_total hg.sound (.bytecode (some ⟨0, bytes⟩) bytes.length) with ⟨cell, vm1, h⟩ | ⟨vm1, h⟩
  · obtain ⟨serial, h⟩ := isLoaded_of_push hg hb h
    exact ⟨cell, serial, vm1, _, h⟩
  · obtain ⟨-, h1, h2, h3⟩ := pushObject_err h
    exact absurd ⟨h1, vm1, h2, h3⟩ hf

theorem IsLoaded.serial_eq {bytes : Bytes} {vm : VM} {cell serial : Nat} {vm1 vm2 : VM}
    (h : IsLoaded bytes vm cell serial vm1 vm2) : codeSerial cell vm1 = .ok serial vm1 := by
  unfold codeSerial
  rw [h.code]

theorem IsLoaded.execute {bytes : Bytes} {vm : VM} {cell serial : Nat} {vm1 vm2 : VM}
    (h : IsLoaded bytes vm cell serial vm1 vm2) (hb : bytes ≠ []) (env : VM.Env) (fuel : Nat) :
    VM.execute env fuel bytes vm = finish (VM.loop env cell fuel ⟨cell, serial, 0⟩) vm2 := by
  unfold VM.execute executeWithIp
  rw [if_neg (by
    have : bytes.length ≠ 0 := fun h => hb (List.length_eq_zero_iff.1 h)
    omega), M.bind_ok h.push]
  show finish _ _ = _
  rw [h.state]
  unfold finish
  have : codeSerial cell { vm1 with currentBytecode := some cell } =
      .ok serial { vm1 with currentBytecode := some cell } := by
    unfold codeSerial
    rw [h.code]
  rw [M.bind_ok this]

end

/-! ### The end of a program -/

variable {C : Setup} [Keys]

theorem lead_epilogue {B p L : Nat} {vm : VM} {σ : Slots} {v : Value} (hh : C.Has p (epilogue L)) (h : C.At vm L σ)
    (h0 : C.origin = 0) (hL : 0 < L) (hv : σ (L - 1) = some v) :
    C.Leads B p vm (.ok v) (p + (epilogue L).length) fun v vm' =>
      ∃ L' σ', 0 < L' ∧ C.At vm' L' σ' ∧ σ' (L' - 1) = some v ∧ σ'.global = σ.global := by
  unfold epilogue at hh ⊢
  by_cases h1 : L > 1
  · rw [if_pos h1] at hh ⊢
    refine lead_first (lead_move (x := v) (j := L - 2) hh.head h (i := L - 1) (by omega) (by omega) (by omega)
      (by omega) (by omega) hv) fun vm1 h2 => ?_
    refine (lead_pop (a := v) hh.tail.head h2.2 (by simp; omega)).imp fun y vm' h3 => ?_
    obtain ⟨rfl, h3⟩ := h3
    exact ⟨_, _, by simp; omega, h3, by rw [show L - (1 : Int).toNat - 1 = L - 2 by simp; omega]; exact upd_same .., rfl⟩
  · rw [if_neg h1] at hh ⊢
    exact .done ⟨L, σ, hL, h, hv, rfl⟩

theorem lead_program {S : Setting} {e : Ast} {code : List Ins} {L l F : Nat} {vm : VM} {globals : Eval.Block}
    (hfun : C.ids.function = Defines C.program C.off C.cell) (hfl : S.fl = C.env.fl) (hmem : S.memory = C.memory)
    (hkeys : ∀ x key, Keys.key x key → ∃ id : Nat, key = id ∧ C.ids.number x id)
    (hset : ∀ x key n, S.assignable x = true → Keys.key x key → Keys.height n → key ≠ (n : Int) - 1)
    (hglobals : HasGlobals C.ids vm globals) (hc : Code (.form e) [[]] 0 0 code [[]] L l)
    (hp : C.program = code ++ epilogue L ++ [.halt]) (h : C.Ready vm 0) (hb : vm.stack = C.below)
    (h0 : C.origin = 0) (hkept : ∀ o v, ¬ C.kept o v) :
    C.Leads F 0 vm (Eval.program S F globals e) (code ++ epilogue L).length fun r vm' =>
      ∃ L' σ', 0 < L' ∧ C.At vm' L' σ' ∧ σ' (L' - 1) = some r.1 ∧ HasGlobals C.ids vm' r.2 := by
  have hat : C.At vm 0 ⟨fun _ => none, fun x => lookupBlock x globals⟩ :=
    ⟨h, by rw [hb]; exact List.take_length, fun k hk => absurd hk (Nat.not_lt_zero _), hglobals, fun o v h => absurd h (hkept o v)⟩
  have hhas : C.Has 0 (code ++ epilogue L) := by
    intro j i hj
    rw [hp, Nat.zero_add, List.getElem?_append_left (List.getElem?_eq_some_iff.1 hj).1, hj]
  have hsim := simulates F hfun hfl hmem hkeys hset hc 0 _ ⟨[[]], globals⟩ vm .nil hhas.left
    ⟨by simp [slots], by simp [slots]⟩ trivial hat ⟨⟨trivial, trivial⟩, fun _ _ h => h⟩
  unfold Eval.program
  have hlt : 0 < L := hc.after.1
  refine Leads.bind hsim fun r vm1 h1 => ?_
  obtain ⟨v, env⟩ := r
  obtain ⟨σ', h2, hag, -, h3⟩ := h1
  rw [List.length_append]
  rw [Nat.zero_add]
  have := lead_epilogue (B := F) hhas.right h2 h0 hlt (by simpa [Piece.Ends] using h3)
  rw [Nat.zero_add] at this
  refine lead_map (g := fun v => (v, env.globals)) this ?_
  rintro vm2 ⟨L', σ2, h4, h5, h6, h7⟩
  exact ⟨L', σ2, h4, h5, h6, fun x v hx => h5.globals x v (by rw [h7]; exact hag.2 x v hx)⟩

omit [Keys] in
theorem goes_halt {k L : Nat} {vm : VM} (hi : C.program[k]? = some .halt) (h : C.Ready vm L) :
    C.Goes k vm (.ok .halt vm) := goes_plain hi rfl h rfl

/-! ### Everything together -/

theorem carries_out {S : Setting} {e : Ast} {code : List Ins} {L l F : Nat} {vm vm1 vm2 : VM} {globals : Eval.Block}
    {target : List Ins} {pieces : List Bytes} (H : C.Loaded target pieces)
    (hfun : C.ids.function = Defines C.program C.off C.cell) (hfl : S.fl = C.env.fl) (hmem : S.memory = C.memory)
    (hkeys : ∀ x key, Keys.key x key → ∃ id : Nat, key = id ∧ C.ids.number x id)
    (hset : ∀ x key n, S.assignable x = true → Keys.key x key → Keys.height n → key ≠ (n : Int) - 1)
    (hvm : Good vm) (hglobals : HasGlobals C.ids vm globals) (hc : Code (.form e) [[]] 0 0 code [[]] L l)
    (hp : C.program = code ++ epilogue L ++ [.halt]) (hne : C.bytes ≠ [])
    (hl : IsLoaded C.bytes vm C.cell C.serial vm1 vm2) (hbelow : C.below = vm.stack) (h0 : C.origin = 0)
    (hkept : ∀ o v, ¬ C.kept o v) (hcalls : C.callStack = vm.callStack) (harrays : C.upArrays = vm.upArrays)
    (hup : vm.upStack.length = vm.stack.length) :
    CarriesOut C.env C.ids F C.bytes vm (Eval.program S F globals e) ∨
      (C.memory = true ∧ MemoryRunsOut C.env C.bytes vm) := by
  have hr : C.Ready vm2 0 := by
    refine ⟨hl.good, by omega, ?_, ?_, by rw [hl.state], ?_, by rw [hl.callStack, hcalls], ?_⟩
    · rw [hl.stack, base, hbelow, h0]; rfl
    · rw [hl.upStack, base, hbelow, hup, h0]; rfl
    rotate_left
    · rw [hl.state, harrays]; exact hl.extends_.upArrays
    · refine ⟨⟨C.serial, C.bytes⟩, C.bytes.length, ?_, rfl, rfl⟩
      rw [hl.state]
      exact hl.code
  have hb0 : C.at_ 0 = ⟨C.cell, C.serial, 0⟩ := by simp [at_, H.off, offset]
  have hg2 : HasGlobals C.ids vm2 globals := by
    intro x v hx
    rw [hl.state]
    exact globals_same (vm := vm1) (vm' := { vm1 with currentBytecode := some C.cell }) rfl rfl (globals_extends hvm hl.extends_ (hglobals x v hx))
  have hrun := lead_program (F := F) hfun hfl hmem hkeys hset hg2 hc hp hr (by rw [hl.stack, hbelow]) h0 hkept
  have hexec := hl.execute hne C.env
  have hout : C.RunsOut 0 vm2 → C.memory = true ∧ MemoryRunsOut C.env C.bytes vm := by
    rintro ⟨hm, n, k, vm', hs, hloud, hx⟩
    refine ⟨hm, ?_⟩
    have hcode : HasCode vm' ⟨C.cell, C.serial, 0⟩ C.bytes := by
      rcases hx with ⟨h, _⟩ | ⟨_, h⟩
      · exact h
      · exact h.1
    obtain ⟨N, -, hN⟩ := H.reach hs hloud hcode
    rw [hb0] at hN
    refine ⟨C.cell, C.serial, vm1, N, _, vm', hl.push, hl.serial_eq, by rw [← hl.state]; exact hN, ?_⟩
    rcases hx with ⟨_, h⟩ | ⟨s, h⟩
    · exact .inl h
    · rcases H.loud h hloud with ⟨_, _, h⟩ | h
      · cases h
      · exact .inr ⟨s, h⟩
  cases hres : Eval.program S F globals e with
  | outside => exact .inl trivial
  | ok r =>
    obtain ⟨v, globals'⟩ := r
    rw [hres] at hrun
    rcases hrun with ⟨n, vm', hs, L', σ', hL', hat, hv, hglob⟩ | h
    · left
      have hi : C.program[(code ++ epilogue L).length]? = some .halt := by rw [hp]; simp
      have hloud : C.Loud (code ++ epilogue L).length := ⟨_, hi, rfl⟩
      obtain ⟨N, -, hN⟩ := H.reach hs hloud hat.ready.code
      rw [hb0] at hN
      have hstep : VM.step C.env C.cell (C.at_ (code ++ epilogue L).length) vm' = .ok .halt vm' := by
        rcases H.loud (goes_halt hi hat.ready) hloud with ⟨_, _, h⟩ | h
        · cases h
        · exact h
      have hh := hat.ready.height
      have hu := hat.ready.upHeight
      have hb : C.base = vm.stack.length := by rw [base, hbelow]
      refine ⟨N + 1, { vm' with currentBytecode := none }, fun fuel hf => ?_, good_current hat.ready.good
        (fun r hr => by cases hr), by dsimp only; omega, ?_, by dsimp only; omega, ?_⟩
      · rw [hexec]
        unfold finish
        rw [show fuel = N + ((fuel - N - 1) + 1) by omega, loop_steps hN, loop_last hstep]
      · have := hat.below
        rw [hb, hbelow] at this
        exact this
      · obtain ⟨-, o, h1, h2⟩ := hat.values (L' - 1) (by omega) v hv
        refine ⟨o, ?_, holds_heap (vm := vm') rfl h2, fun x v hx => 
          globals_same (vm := vm') (vm' := { vm' with currentBytecode := none }) rfl rfl (hglob x v hx)⟩
        rw [List.getLast?_eq_getElem?]
        dsimp only
        rw [hh, show C.base + L' - C.origin - 1 = C.pos (L' - 1) by rw [Setup.pos]; omega]
        exact h1
    · exact .inr (hout h)
  | error err =>
    rw [hres] at hrun
    rcases hrun with ⟨n, k, vm', s, hs, hloud, hg⟩ | h
    · left
      obtain ⟨N, -, hN⟩ := H.reach hs hloud hg.1
      rw [hb0] at hN
      rcases H.loud hg hloud with ⟨_, _, h⟩ | h
      · cases h
      · refine ⟨N + 1, { s with currentBytecode := none }, fun fuel hf => ?_⟩
        rw [hexec]
        unfold finish
        rw [show fuel = N + ((fuel - N - 1) + 1) by omega, loop_steps hN, loop_last h]
    · exact .inr (hout h)
  | undefined =>
    rw [hres] at hrun
    rcases hrun with ⟨n, k, vm', hs, hloud, hg⟩ | h
    · left
      obtain ⟨N, -, hN⟩ := H.reach hs hloud hg.1
      rw [hb0] at hN
      rcases H.loud hg hloud with ⟨_, _, h⟩ | h
      · cases h
      · refine ⟨N + 1, fun fuel hf => ?_⟩
        rw [hexec]
        unfold finish
        rw [show fuel = N + ((fuel - N - 1) + 1) by omega, loop_steps hN, loop_last h]
    · exact .inr (hout h)
  | unfinished =>
    rw [hres] at hrun
    rcases hrun with ⟨n, k, vm', hn, hs⟩ | h
    · left
      obtain ⟨b', vm0', N, hN1, hN2, -⟩ := H.steps hs 0 vm2 (.empty (.inl rfl))
      rw [hb0] at hN2
      intro fuel hf
      rw [hexec]
      unfold finish
      rw [loop_short hN2 fuel (by omega)]
    · exact .inr (hout h)

end DuckLisp.Compile
