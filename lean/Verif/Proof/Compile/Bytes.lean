import Verif.Props.Asm.Peephole
import Verif.Proof.Compile.Machine

/-!
# From instructions to bytes
-/

namespace DuckLisp.Compile

open DuckLisp DuckLisp.VM DuckLisp.Asm DuckLisp.Spec DuckLisp.Spec.Eval DuckLisp.Props

theorem machineSteps_trans {env bc n m a b c} (h : MachineSteps env bc n a b) (h' : MachineSteps env bc m b c) :
    MachineSteps env bc (n + m) a c := by
  induction h with
  | refl => simpa using h'
  | @step n _ _ _ _ _ h _ ih => rw [Nat.add_right_comm]; exact .step h (ih h')

theorem plain_anywhere {env : VM.Env} {strip : Bool} {bc : Nat} {st st' : CodePtr} {i : Ins} {m : Instr}
    (h : meaning strip i = some m) : VM.plain env bc st m = VM.plain env bc st' m := by
  cases i
  case pushSymbol => cases strip <;> (cases h; rfl)
  case return_ n =>
    simp only [meaning] at h
    split at h <;> (cases h; rfl)
  all_goals first | (cases h; done) | (cases h; rfl)

theorem quiet_meaning {strip : Bool} {i : Ins} (h : quiet strip i = true) :
    i = .internalNop ∨ ∃ m, meaning strip i = some m ∧ IsPlain m := by
  cases i
  case pushSymbol => right; exact ⟨_, rfl, by split <;> trivial⟩
  all_goals first | (cases h; done) | exact .inl rfl | exact .inr ⟨_, rfl, trivial⟩

theorem quiet_heap {env : VM.Env} {strip : Bool} {bc : Nat} {ip : CodePtr} {i : Ins} {vm vm' : VM}
    (h : quiet strip i = true) (hr : perform1 env strip bc ip i vm = .ok () vm') : vm'.heap = vm.heap := by
  by_cases hp : pushesValue strip i = true
  · obtain ⟨o, rfl⟩ := perform1_push hp hr
    rfl
  · cases i
    case pop n =>
      rw [perform1_pop] at hr
      simp only [popMany] at hr
      split at hr
      · cases hr
      · split at hr
        · cases hr
        · cases hr; rfl
    case internalNop => cases hr; rfl
    all_goals exact absurd h (by simpa [quiet] using hp)

/-- What an instruction with an address does depends only on where it leads to. -/
theorem exec_landing {env : VM.Env} {bc : Nat} {st nx : CodePtr} {w w' : Width} {d d' : Int} {i : Ins} {m m' : Instr}
    {t : Int} {vm : VM} (h : addressed w d i = some m) (h' : addressed w' d' i = some m')
    (hl : landing st.off nx.off m = some t) (hl' : landing st.off nx.off m' = some t) :
    exec env bc st nx m vm = exec env bc st nx m' vm := by
  cases i <;> first | (cases h; done) | skip
  all_goals
    cases h
    cases h'
    simp only [landing, Option.some.injEq] at hl hl'
  case pushClosure variadic l arity captures =>
    have hx : ∀ w d, exec env bc st nx (.pushClosure variadic (1 + w) d (UInt8.ofNat arity.toNat)
        (captures.map fun c => (c % 2 ^ 32).toNat)) vm = (do
          iPushClosure bc st variadic (1 + w) d (UInt8.ofNat arity.toNat) (captures.map fun c => (c % 2 ^ 32).toNat)
          return .goto nx : M Ctl) vm := fun _ _ => rfl
    rw [hx, hx]
    simp only [iPushClosure]
    rw [show d + (st.off + ((1 + w.bytes : Nat) : Int)) = d' + (st.off + ((1 + w'.bytes : Nat) : Int)) by omega]
  case call =>
    have : d = d' := by omega
    rw [this]
  case jump =>
    have : d = d' := by omega
    rw [this]
  case brnz =>
    have : d = d' := by omega
    rw [this]

namespace Setup

/-- The code in the machine is that of the program, or of the program without pushes that are popped. -/
structure Loaded (C : Setup) (target : List Ins) (pieces : List Bytes) : Prop where
  same : target = C.program ∨ (target = peephole C.program ∧ NoGarbage C.strip C.program ∧ FewPops C.program)
  cut : Pieces C.strip target C.bytes pieces
  land : AllLand target pieces
  format : ∀ i ∈ target, InFormat i
  small : ∀ i ∈ target, SmallWhereNeeded i
  off : ∀ k, C.off k = offset pieces k

variable {C : Setup} {target : List Ins} {pieces : List Bytes}

namespace Loaded

theorem loud_get (H : C.Loaded target pieces) {k : Nat} {i : Ins} (hi : C.program[k]? = some i)
    (hq : quiet C.strip i = false) : target[k]? = some i := by
  rcases H.same with h | ⟨h, hg, -⟩
  · rw [h]; exact hi
  · rw [h]; exact loud_step hg hi hq

theorem quiet_get (H : C.Loaded target pieces) {k : Nat} {i i' : Ins} (hi : C.program[k]? = some i)
    (hq : quiet C.strip i = true) (h : target[k]? = some i') : quiet C.strip i' = true := by
  rcases H.same with ht | ⟨ht, hg, -⟩
  · rw [ht, hi] at h; cases h; exact hq
  · rw [ht] at h
    obtain ⟨i0, h1, h2⟩ := kept_get h
    rw [hi] at h1
    cases h1
    rcases h2 with rfl | ⟨rfl | ⟨n, rfl⟩, _⟩
    · exact hq
    · rfl
    · rfl

theorem length (H : C.Loaded target pieces) : target.length = C.program.length := by
  rcases H.same with h | ⟨h, -⟩
  · rw [h]
  · rw [h]; exact (kept_peephole _ _ rfl).1

theorem piece (H : C.Loaded target pieces) {k : Nat} {i : Ins} (h : target[k]? = some i) :
    ∃ p, pieces[k]? = some p := by
  have : k < pieces.length := by
    rw [H.cut.length]
    exact (List.getElem?_eq_some_iff.1 h).1
  exact ⟨_, List.getElem?_eq_getElem this⟩

theorem code (H : C.Loaded target pieces) {vm : VM} (h : HasCode vm ⟨C.cell, C.serial, 0⟩ C.bytes) (k : Nat) :
    HasCode vm (C.at_ k) pieces.flatten := by
  rw [H.cut.flatten]
  exact h

theorem at_none (H : C.Loaded target pieces) {k : Nat} {i : Ins} (hi : target[k]? = some i)
    (h : i = .internalNop ∨ ∃ l, i = .label l) : C.at_ (k + 1) = C.at_ k := by
  obtain ⟨p, hp⟩ := H.piece hi
  have he := H.cut.none k _ p hi hp h
  have := pos_succ hp
  subst he
  unfold at_
  have h2 : offset pieces (k + 1) = offset pieces k := by simpa [Asm.pos, offset] using this
  rw [H.off, H.off, h2]

theorem step_plain (H : C.Loaded target pieces) {k : Nat} {i : Ins} {m : Instr} {vm : VM}
    (hi : target[k]? = some i) (hm : meaning C.strip i = some m) (h : HasCode vm ⟨C.cell, C.serial, 0⟩ C.bytes) :
    VM.step C.env C.cell (C.at_ k) vm =
      exec C.env C.cell (C.at_ k) (C.at_ (k + 1)) m vm := by
  obtain ⟨p, hp⟩ := H.piece hi
  have hmem := List.mem_of_getElem? hi
  rw [C24_execution C.env C.cell vm (C.at_ k) pieces k p m (H.code h k) (by unfold at_; rw [H.off]) hp
    (H.cut.plain k i p m hi hp hm (H.format i hmem) (H.small i hmem)), ← H.off]
  rfl

/-- A block of pushes and pops. -/
theorem run_block (H : C.Loaded target pieces) {ip : CodePtr} : ∀ (block : List Ins) (k : Nat) (vm vm' : VM),
    (∀ j i, block[j]? = some i → target[k + j]? = some i) → (∀ i ∈ block, quiet C.strip i = true) →
    HasCode vm ⟨C.cell, C.serial, 0⟩ C.bytes → perform C.env C.strip C.cell ip block vm = .ok () vm' →
    ∃ n, MachineSteps C.env C.cell n (C.at_ k, vm) (C.at_ (k + block.length), vm')
  | [], k, vm, vm', _, _, _, h => by
    cases h
    exact ⟨0, .refl _⟩
  | i :: is, k, vm, vm', hb, hq, hc, h => by
    rw [perform_cons, M.bind_eq_ok] at h
    obtain ⟨_, s, h1, h2⟩ := h
    have hi : target[k]? = some i := hb 0 i rfl
    have hh := quiet_heap (hq i (by simp)) h1
    have hcs : HasCode s ⟨C.cell, C.serial, 0⟩ C.bytes := by
      obtain ⟨b, n, g1, g2, g3⟩ := hc
      exact ⟨b, n, by rw [hh]; exact g1, g2, g3⟩
    obtain ⟨n, hn⟩ := run_block H is (k + 1) s vm' (fun j i' hj => by
      have := hb (j + 1) i' (by simpa using hj)
      rwa [← Nat.add_assoc, Nat.add_right_comm] at this) (fun i' hi' => hq i' (by simp [hi'])) hcs h2
    rw [show k + 1 + is.length = k + (i :: is).length by simp; omega] at hn
    rcases quiet_meaning (hq i (by simp)) with rfl | ⟨m, hm, hp⟩
    · cases h1
      rw [H.at_none hi (.inl rfl)] at hn
      exact ⟨n, hn⟩
    · refine ⟨n + 1, .step ?_ hn⟩
      rw [H.step_plain hi hm hc]
      rw [perform1_eq hm hp, plain_anywhere (st' := C.at_ k) hm] at h1
      exact exec_plain_ok hp h1

theorem indexed_inv {env : VM.Env} {strip : Bool} {bc cell serial k k' : Nat} {program : List Ins} {vm vm' : VM}
    (h : IndexedStep env strip bc cell serial program (k, vm) (k', vm')) :
    (∃ before block after, program = before ++ block ++ after ∧ k = before.length ∧
      k' = before.length + block.length ∧ (∀ i ∈ block, quiet strip i = true) ∧
      perform env strip bc ⟨cell, serial, before.length⟩ block vm = .ok () vm') ∨
    ∃ i, program[k]? = some i ∧ quiet strip i = false := by
  generalize ha : (k, vm) = a at h
  generalize hb : (k', vm') = b at h
  cases h with
  | block hsplit hne hq h1 h2 hrun =>
    cases ha
    cases hb
    exact .inl ⟨_, _, _, hsplit, rfl, rfl, hq, hrun⟩
  | other hi hq _ _ =>
    cases ha
    exact .inr ⟨_, hi, hq⟩

theorem step_target (H : C.Loaded target pieces) {a b : Nat × VM}
    (h : IndexedStep C.env C.strip C.cell C.cell C.serial C.program a b) :
    IndexedStep C.env C.strip C.cell C.cell C.serial target a b := by
  rcases H.same with ht | ⟨ht, hg, hf⟩
  · rw [ht]; exact h
  · rw [ht]; exact peephole_step hg hf h

end Loaded

/-- The pushes and pops from `b` to `k` have been done since `vm0`. -/
structure Pending (C : Setup) (b : Nat) (vm0 : VM) (k : Nat) (vm : VM) : Prop where
  le : b ≤ k
  quiet : ∀ j, b ≤ j → j < k → ∃ i, C.program[j]? = some i ∧ Spec.quiet C.strip i = true
  run : perform C.env C.strip C.cell ⟨C.cell, C.serial, b⟩ ((C.program.drop b).take (k - b)) vm0 = .ok () vm
  start : b = 0 ∨ C.Loud (b - 1) ∨ C.Loud b

theorem Pending.empty {k : Nat} {vm : VM} (h : k = 0 ∨ C.Loud (k - 1) ∨ C.Loud k) : C.Pending k vm k vm :=
  ⟨Nat.le_refl _, fun j h1 h2 => absurd h2 (by omega), by rw [Nat.sub_self]; rfl, h⟩

theorem perform_append {env : VM.Env} {strip : Bool} {bc : Nat} {ip : CodePtr} : ∀ (a b : List Ins) (vm : VM),
    perform env strip bc ip (a ++ b) vm = (perform env strip bc ip a >>= fun _ => perform env strip bc ip b) vm
  | [], b, vm => rfl
  | i :: a, b, vm => by
    rw [List.cons_append, perform_cons, M.bind_run, M.bind_run, perform_cons, M.bind_run]
    cases perform1 env strip bc ip i vm with
    | ok u s =>
      dsimp only
      rw [perform_append a b s, M.bind_run]
    | _ => rfl

theorem Pending.more {b k : Nat} {vm0 vm vm' : VM} {i : Ins} (h : C.Pending b vm0 k vm)
    (hi : C.program[k]? = some i) (hq : Spec.quiet C.strip i = true)
    (hr : perform1 C.env C.strip C.cell ⟨C.cell, C.serial, b⟩ i vm = .ok () vm') : C.Pending b vm0 (k + 1) vm' := by
  have hle := h.le
  refine ⟨by omega, fun j h1 h2 => ?_, ?_, h.start⟩
  · by_cases hj : j = k
    · subst hj; exact ⟨i, hi, hq⟩
    · exact h.quiet j h1 (by omega)
  · have he : (C.program.drop b).take (k + 1 - b) = (C.program.drop b).take (k - b) ++ [i] := by
      rw [show k + 1 - b = (k - b) + 1 by omega, List.take_add_one, List.getElem?_drop,
        show b + (k - b) = k by omega, hi]
      rfl
    rw [he, perform_append, M.bind_ok h.run, perform_cons, M.bind_ok hr]
    rfl

/-- The block ends. -/
theorem Pending.close {b k : Nat} {vm0 vm : VM} (h : C.Pending b vm0 k vm) (H : C.Loaded target pieces)
    (hl : C.Loud k) (hc : HasCode vm ⟨C.cell, C.serial, 0⟩ C.bytes) :
    ∃ n, MachineSteps C.env C.cell n (C.at_ b, vm0) (C.at_ k, vm) := by
  have hle := h.le
  obtain ⟨ik, hik, hqk⟩ := hl
  have hk := (List.getElem?_eq_some_iff.1 hik).1
  by_cases hbk : b = k
  · subst hbk
    have := h.run
    rw [Nat.sub_self] at this
    cases this
    exact ⟨0, .refl _⟩
  have hmem : ∀ i ∈ (C.program.drop b).take (k - b), Spec.quiet C.strip i = true := by
    intro i hi
    obtain ⟨j, hj⟩ := List.getElem?_of_mem hi
    have hjl : j < k - b := by
      have := (List.getElem?_eq_some_iff.1 hj).1
      simp at this
      omega
    rw [List.getElem?_take_of_lt hjl, List.getElem?_drop] at hj
    obtain ⟨i', h1, h2⟩ := h.quiet (b + j) (by omega) (by omega)
    rw [hj] at h1
    cases h1
    exact h2
  have hsplit : C.program = C.program.take b ++ (C.program.drop b).take (k - b) ++ C.program.drop k := by
    rw [List.append_assoc, show C.program.drop k = (C.program.drop b).drop (k - b) by
      rw [List.drop_drop]; congr 1; omega, List.take_append_drop, List.take_append_drop]
  have hlb : (C.program.take b).length = b := by simp; omega
  have hlk : ((C.program.drop b).take (k - b)).length = k - b := by simp; omega
  have hstep : IndexedStep C.env C.strip C.cell C.cell C.serial C.program (b, vm0) (k, vm) := by
    have := IndexedStep.block (env := C.env) (strip := C.strip) (bc := C.cell) (cell := C.cell) (serial := C.serial)
      (vm := vm0) (vm' := vm) hsplit (by
        intro he
        rw [he] at hlk
        simp at hlk
        omega) hmem ?_ ?_ (by rw [hlb]; exact h.run)
    · rw [hlb, hlk, show b + (k - b) = k by omega] at this
      exact this
    · intro i hi
      rw [List.getLast?_eq_getElem?, hlb] at hi
      have hb0 := (List.getElem?_eq_some_iff.1 hi).1
      rw [hlb] at hb0
      rw [List.getElem?_take_of_lt (by omega)] at hi
      obtain ⟨ib, hib, hqb⟩ := h.quiet b (Nat.le_refl _) (by omega)
      rcases h.start with h0 | ⟨i', h1, h2⟩ | ⟨i', h1, h2⟩
      · omega
      · rw [hi] at h1; cases h1; exact h2
      · rw [hib] at h1; cases h1; rw [hqb] at h2; cases h2
    · intro i hi
      rw [List.head?_eq_getElem?, List.getElem?_drop, Nat.add_zero, hik] at hi
      cases hi
      exact hqk
  have hh : vm.heap = vm0.heap := by
    have key : ∀ (block : List Ins) (a : VM), (∀ i ∈ block, Spec.quiet C.strip i = true) →
        perform C.env C.strip C.cell ⟨C.cell, C.serial, b⟩ block a = .ok () vm → vm.heap = a.heap := by
      intro block
      induction block with
      | nil => intro a _ h; cases h; rfl
      | cons i is ih =>
        intro a hq h
        rw [perform_cons, M.bind_eq_ok] at h
        obtain ⟨_, s, h1, h2⟩ := h
        rw [ih s (fun i' hi' => hq i' (by simp [hi'])) h2, quiet_heap (hq i (by simp)) h1]
    exact key _ _ hmem h.run
  have hc0 : HasCode vm0 ⟨C.cell, C.serial, 0⟩ C.bytes := by
    obtain ⟨c, n, g1, g2, g3⟩ := hc
    exact ⟨c, n, by rw [← hh]; exact g1, g2, g3⟩
  rcases Loaded.indexed_inv (H.step_target hstep) with ⟨before, block, after, e1, e2, e3, e4, e5⟩ | ⟨i', h1, h2⟩
  · obtain ⟨n, hn⟩ := H.run_block block before.length vm0 vm (fun j i hj => by
      rw [e1, List.append_assoc, List.getElem?_append_right (by omega), Nat.add_sub_cancel_left,
        List.getElem?_append_left (List.getElem?_eq_some_iff.1 hj).1]
      exact hj) e4 hc0 e5
    rw [← e3, ← e2] at hn
    exact ⟨n, hn⟩
  · obtain ⟨ib, hib, hqb⟩ := h.quiet b (Nat.le_refl _) (by omega)
    rw [H.quiet_get hib hqb h1] at h2
    cases h2

/-- What an instruction that is not just a push or a pop does, in bytes. -/
theorem Loaded.loud (H : C.Loaded target pieces) {k : Nat} {vm : VM} {r : Out Ctl} (hg : C.Goes k vm r)
    (hl : C.Loud k) :
    (C.weight k = 0 ∧ C.at_ (k + 1) = C.at_ k ∧ r = .ok (.goto (C.at_ k)) vm) ∨
    VM.step C.env C.cell (C.at_ k) vm = r := by
  obtain ⟨i, hi, hq⟩ := hl
  obtain ⟨hc, m, ⟨i', hi', hm⟩, hx⟩ := hg
  rw [hi] at hi'
  cases hi'
  have ht := H.loud_get hi hq
  have hmemt := List.mem_of_getElem? ht
  rcases hm with hm | ⟨l, rfl, rfl⟩ | ⟨l, j, w, d, hl, hj, hm, hland⟩
  · exact .inr ((H.step_plain ht hm hc).trans hx)
  · refine .inl ⟨by unfold weight; rw [hi], H.at_none ht (.inr ⟨l, rfl⟩), ?_⟩
    rw [← hx, H.at_none ht (.inr ⟨l, rfl⟩)]
    rfl
  · have hjt := H.loud_get hj rfl
    obtain ⟨p, w', d', m', g1, g2, g3, g4⟩ := H.land k i l j ht hl (H.format i hmemt) hjt
    have hs := C24_execution C.env C.cell vm (C.at_ k) pieces k p m' (H.code hc k) (by unfold at_; rw [H.off]) g1 g3
    rw [← H.off] at hs
    rw [← H.off, ← H.off, ← H.off] at g4
    refine .inr (hs.trans ?_)
    rw [← hx]
    exact exec_landing g2 hm g4 hland

/-- A quiet instruction. -/
theorem Loaded.soft (H : C.Loaded target pieces) {k b : Nat} {i : Ins} {ip : CodePtr} {vm vm' : VM}
    (hg : C.Goes k vm (.ok (.goto ip) vm')) (hi : C.program[k]? = some i) (hq : quiet C.strip i = true) :
    perform1 C.env C.strip C.cell ⟨C.cell, C.serial, b⟩ i vm = .ok () vm' := by
  obtain ⟨hc, m, ⟨i', hi', hm⟩, hx⟩ := hg
  rw [hi] at hi'
  cases hi'
  rcases hm with hm | ⟨l, rfl, rfl⟩ | ⟨l, j, w, d, hl, hj, hm, hland⟩
  · rcases quiet_meaning hq with rfl | ⟨m', h1, h2⟩
    · cases hm
    · rw [hm] at h1
      cases h1
      obtain ⟨h3, h4⟩ := exec_plain_inv h2 hx
      rw [perform1_eq hm h2, plain_anywhere (st' := C.at_ k) hm]
      exact h3
  · cases hq
  · cases i <;> first | (cases hl; done) | (cases hq; done)

/-- Steps from instruction to instruction are steps of the machine, but for the pushes and pops done last. -/
theorem Loaded.steps (H : C.Loaded target pieces) {n : Nat} {a c : Nat × VM} (h : C.Steps n a c) :
    ∀ b vm0, C.Pending b vm0 a.1 a.2 → ∃ b' vm0' N, n ≤ N ∧
      MachineSteps C.env C.cell N (C.at_ b, vm0) (C.at_ b', vm0') ∧ C.Pending b' vm0' c.1 c.2 := by
  induction h with
  | refl => intro b vm0 hp; exact ⟨b, vm0, 0, Nat.le_refl _, .refl _, hp⟩
  | @step n k vm k' vm' c hnext hg _ ih =>
    intro b vm0 hp
    have ⟨hc, m, ⟨i, hi, _⟩, _⟩ := hg
    by_cases hq : quiet C.strip i = true
    · have hr := H.soft (b := b) hg hi hq
      obtain rfl : k' = k + 1 := by
        rcases hnext with h | ⟨⟨i', h1, h2⟩, -⟩
        · exact h
        · rw [hi] at h1
          cases h1
          rw [hq] at h2
          cases h2
      have hw : C.weight k = 0 := by
        unfold weight
        rw [hi]
        cases i <;> first | rfl | cases hq
      obtain ⟨b', vm0', N, h1, h2, h3⟩ := ih b vm0 (hp.more hi hq hr)
      exact ⟨b', vm0', N, by omega, h2, h3⟩
    · have hl : C.Loud k := ⟨i, hi, by simpa using hq⟩
      have hl' : C.Loud (k' - 1) ∨ C.Loud k' := by
        rcases hnext with rfl | ⟨-, h⟩
        · exact .inl hl
        · exact h
      obtain ⟨n1, hn1⟩ := hp.close H hl hc
      obtain ⟨b', vm0', N, h5, h6, h7⟩ := ih k' vm' (.empty (.inr hl'))
      rcases H.loud hg hl with ⟨hw, -, hr⟩ | hs
      · simp only [Out.ok.injEq, Ctl.goto.injEq] at hr
        obtain ⟨e1, rfl⟩ := hr
        rw [e1] at h6
        exact ⟨b', vm0', n1 + N, by omega, machineSteps_trans hn1 h6, h7⟩
      · have hw : C.weight k ≤ 1 := by unfold weight; split <;> omega
        exact ⟨b', vm0', n1 + (N + 1), by omega, machineSteps_trans hn1 (.step hs h6), h7⟩

/-- Steps that lead to an instruction that is not just a push or a pop. -/
theorem Loaded.reach (H : C.Loaded target pieces) {n k : Nat} {vm vm' : VM} (h : C.Steps n (0, vm) (k, vm'))
    (hl : C.Loud k) (hc : HasCode vm' ⟨C.cell, C.serial, 0⟩ C.bytes) :
    ∃ N, n ≤ N ∧ MachineSteps C.env C.cell N (C.at_ 0, vm) (C.at_ k, vm') := by
  obtain ⟨b, vm0, N, h1, h2, h3⟩ := H.steps h 0 vm (.empty (.inl rfl))
  obtain ⟨n', h4⟩ := h3.close H hl hc
  exact ⟨N + n', by omega, machineSteps_trans h2 h4⟩

end Setup

end DuckLisp.Compile
