import Verif.Proof.Asm.Peephole
import Verif.Proof.VM.Strings
import Verif.Props.Asm.Jumps

/-!
# C23: pushes followed by pops can be removed

`peephole` is the rewriting the assembler does.  `perform` runs instructions in a row, and
`IndexedSteps` a whole program before it is turned into bytes, see `Verif.Spec.Peephole`.
-/

namespace DuckLisp.Props

open DuckLisp DuckLisp.VM DuckLisp.Asm DuckLisp.Spec

/-- C23 for instructions in a row that push values and pop: if no push fails, the rewritten
instructions end in exactly the same state, or with the same error.

Partial: pushes that make an object (strings, symbols with a name, closures, types) leave garbage
behind, so that the states are not equal; see `C23_string_literal_partial`, `C23_symbol_partial` and
`C23_type_partial`.  Closures are missing: a closure that is made and dropped leaves the variables it
captured marked as captured. -/
theorem C23_block_partial (env : Env) (strip : Bool) (bc : Nat) (ip : CodePtr) (block : List Ins)
    (vm : VM) (hq : ∀ i ∈ block, quiet strip i = true) (hf : FewPops block)
    (hs : PushesSucceed env strip bc ip block vm) :
    (∃ vm', perform env strip bc ip block vm = .ok () vm' ∧
      perform env strip bc ip (peephole block) vm = .ok () vm') ∨
    ∃ e vm' vm'', perform env strip bc ip block vm = .err e vm' ∧
      perform env strip bc ip (peephole block) vm = .err e vm'' := by
  have h := same_block block.length block rfl hq hf vm hs
  cases hp : perform env strip bc ip block vm with
  | ok u s => rw [hp] at h; exact .inl ⟨s, rfl, h⟩
  | err e s =>
    rw [hp] at h
    obtain ⟨s', h⟩ := h
    exact .inr ⟨e, s, s', rfl, h⟩
  | ub => rw [hp] at h; exact h.elim
  | diverge => rw [hp] at h; exact h.elim

theorem pushes_of_ok {env : Env} {strip : Bool} {bc : Nat} {ip : CodePtr} : ∀ (is : List Ins) (vm vm' : VM),
    perform env strip bc ip is vm = .ok () vm' → PushesSucceed env strip bc ip is vm
  | [], _, _, _ => trivial
  | i :: is, vm, vm', h => by
    rw [perform_cons, M.bind_eq_ok] at h
    obtain ⟨_, s, h1, h2⟩ := h
    refine ⟨fun _ => ⟨s, h1⟩, fun s' hs' => ?_⟩
    rw [h1] at hs'
    cases hs'
    exact pushes_of_ok is _ _ h2

theorem fewPops_part {a b c : List Ins} (h : FewPops (a ++ b ++ c)) : FewPops b := by
  have h1 := pops_nonneg (is := a) fun n hn => h.1 n (by simp [hn])
  have h2 := pops_nonneg (is := c) fun n hn => h.1 n (by simp [hn])
  have h3 := h.2
  simp only [List.map_append, List.sum_append] at h3
  exact ⟨fun n hn => h.1 n (by simp [hn]), by omega⟩

theorem loud_onlyPushes {strip : Bool} {i : Ins} (hq : quiet strip i = false)
    (h : pushesAnything i = true → pushesValue strip i = true) : i.onlyPushes = false := by
  cases hp : pushesAnything i with
  | true =>
    have h := h hp
    cases i <;> simp_all [quiet, pushesValue, pushesAnything]
  | false =>
    cases i <;> first | rfl | cases hp

theorem loud_step {strip : Bool} {program : List Ins} {k : Nat} {i : Ins}
    (hg : NoGarbage strip program) (hi : program[k]? = some i) (hq : quiet strip i = false) :
    (peephole program)[k]? = some i := by
  obtain ⟨hk, hke⟩ := List.getElem?_eq_some_iff.1 hi
  have hsplit : program = program.take k ++ ([i] ++ program.drop (k + 1)) := by
    rw [← hke, List.singleton_append, List.getElem_cons_drop, List.take_append_drop]
  have hnp : ∀ n, i ≠ .pop n := by rintro n rfl; cases hq
  have b1 : Border (program.take k) ([i] ++ program.drop (k + 1)) := by
    refine .inl fun y n hy => ?_
    cases hy
    exact hnp n
  have b2 : Border [i] (program.drop (k + 1)) := by
    by_cases hp : ∃ n, program[k + 1]? = some (.pop n)
    · obtain ⟨n, hp⟩ := hp
      refine .inr fun x hx => ?_
      cases hx
      refine ⟨?_, hnp⟩
      exact loud_onlyPushes hq (hg k i n hi hp)
    · refine .inl fun y n hy => ?_
      rintro rfl
      rw [List.head?_drop] at hy
      exact hp ⟨n, hy⟩
  rw [hsplit, peephole_append _ _ _ rfl b1, peephole_append _ _ _ rfl b2]
  have hlen : (peephole (program.take k)).length = k := by
    rw [(kept_peephole _ _ rfl).1, List.length_take]
    omega
  rw [List.getElem?_append_right (by omega), hlen]
  simp [peephole]

theorem loud_indexed {strip : Bool} {program : List Ins} {k : Nat} {i : Ins} {m : Instr}
    (hg : NoGarbage strip program) (hi : program[k]? = some i) (hq : quiet strip i = false)
    (h : Indexed strip program k m) : Indexed strip (peephole program) k m := by
  obtain ⟨i', h1, h2⟩ := h
  rw [hi] at h1
  cases h1
  refine ⟨i, loud_step hg hi hq, ?_⟩
  rcases h2 with h2 | h2 | ⟨l, j, d, h2, h3, h4, h5⟩
  · exact .inl h2
  · exact .inr (.inl h2)
  · exact .inr (.inr ⟨l, j, d, h2, loud_step hg h3 rfl, h4, h5⟩)

/-- One step of a program is one step of the rewritten program. -/
theorem peephole_step {env : Env} {strip : Bool} {bc cell serial : Nat} {program : List Ins}
    (hg : NoGarbage strip program) (hf : FewPops program) {a b : Nat × VM}
    (h : IndexedStep env strip bc cell serial program a b) :
    IndexedStep env strip bc cell serial (peephole program) a b := by
  cases h with
  | block hsplit hne hq hb ha hrun =>
    rename_i before block after vm vm'
    subst hsplit
    have b1 : Border before block ∧ Border before (block ++ after) := by
      have : ∀ x, before.getLast? = some x → (∀ y n, (block ++ after).head? = some y → y ≠ .pop n) ∨
          (x.onlyPushes = false ∧ ∀ n, x ≠ .pop n) := by
        intro x hx
        have hxq := hb x hx
        cases block with
        | nil => exact absurd rfl hne
        | cons y block =>
          by_cases hy : ∃ n, y = .pop n
          · obtain ⟨n, rfl⟩ := hy
            right
            have hnp : ∀ n, x ≠ .pop n := by rintro n rfl; cases hxq
            refine ⟨?_, hnp⟩
            rw [List.getLast?_eq_getElem?] at hx
            have hlt := (List.getElem?_eq_some_iff.1 hx).1
            have := hg (before.length - 1) x n (by
              rw [List.append_assoc, List.getElem?_append_left (by omega)]; exact hx) (by
              rw [List.append_assoc, List.getElem?_append_right (by omega)]
              rw [show before.length - 1 + 1 - before.length = 0 by omega]
              rfl)
            exact loud_onlyPushes hxq this
          · left
            intro y' n h
            cases h
            rintro rfl
            exact hy ⟨n, rfl⟩
      have hh : ∀ y n, block.head? = some y → y ≠ .pop n → (block ++ after).head? = some y := by
        intro y n h1 _
        rw [List.head?_append, h1]
        rfl
      cases hl : before.getLast? with
      | none => exact ⟨.inr fun x hx => (by rw [hl] at hx; cases hx), .inr fun x hx => (by rw [hl] at hx; cases hx)⟩
      | some x =>
        rcases this x hl with h | h
        · refine ⟨.inl fun y n hy => ?_, .inl h⟩
          have : (block ++ after).head? = some y := by rw [List.head?_append, hy]; rfl
          exact h y n this
        · exact ⟨.inr fun x' hx' => (by rw [hl] at hx'; cases hx'; exact h),
            .inr fun x' hx' => (by rw [hl] at hx'; cases hx'; exact h)⟩
    have b2 : Border block after := by
      refine .inl fun y n hy => ?_
      rintro rfl
      have := ha _ hy
      cases this
    have hsplit' : peephole (before ++ block ++ after) =
        peephole before ++ peephole block ++ peephole after := by
      rw [List.append_assoc, peephole_append _ _ _ rfl b1.2, peephole_append _ _ _ rfl b2,
        List.append_assoc]
    have hlen : (peephole before).length = before.length := (kept_peephole _ _ rfl).1
    have hlen2 : (peephole block).length = block.length := (kept_peephole _ _ rfl).1
    have hrun' : perform env strip bc ⟨cell, serial, before.length⟩ (peephole block) vm = .ok () vm' := by
      rcases C23_block_partial env strip bc ⟨cell, serial, before.length⟩ block vm hq (fewPops_part hf)
        (pushes_of_ok _ _ _ hrun) with ⟨s, h1, h2⟩ | ⟨e, s, s', h1, h2⟩
      · rw [hrun] at h1
        cases h1
        exact h2
      · rw [hrun] at h1
        cases h1
    rw [hsplit', ← hlen, ← hlen2]
    rw [← hlen] at hrun'
    refine .block rfl (fun h => hne (by rw [← List.length_eq_zero_iff, ← hlen2, h]; rfl)) ?_ ?_ ?_ hrun'
    · intro i hi
      obtain ⟨k, hk⟩ := List.getElem?_of_mem hi
      obtain ⟨i0, h1, h2⟩ := kept_get hk
      rcases h2 with rfl | ⟨rfl | ⟨n, rfl⟩, _⟩
      · exact hq _ (List.mem_of_getElem? h1)
      · rfl
      · rfl
    · intro i hi
      have hgb : NoGarbage strip before := by
        intro k i n h1 h2
        have hk1 := (List.getElem?_eq_some_iff.1 h1).1
        have hk2 := (List.getElem?_eq_some_iff.1 h2).1
        exact hg k i n (by rw [List.append_assoc, List.getElem?_append_left hk1]; exact h1)
          (by rw [List.append_assoc, List.getElem?_append_left hk2]; exact h2)
      rw [List.getLast?_eq_getElem?, hlen] at hi
      obtain ⟨i0, h1, _⟩ := kept_get hi
      have h2 := hb i0 (by rw [List.getLast?_eq_getElem?]; exact h1)
      rw [loud_step hgb h1 h2] at hi
      cases hi
      exact h2
    · intro i hi
      have hga : NoGarbage strip after := by
        intro k i n h1 h2
        exact hg ((before ++ block).length + k) i n
          (by rw [List.getElem?_append_right (by omega)]; simpa using h1)
          (by rw [List.getElem?_append_right (by omega)]
              rw [show (before ++ block).length + k + 1 - (before ++ block).length = k + 1 by omega]
              exact h2)
      rw [List.head?_eq_getElem?] at hi
      obtain ⟨i0, h1, _⟩ := kept_get hi
      have h2 := ha i0 (by rw [List.head?_eq_getElem?]; exact h1)
      rw [loud_step hga h1 h2] at hi
      cases hi
      exact h2
  | other hi hq hm hrun => exact .other (loud_step hg hi hq) hq (loud_indexed hg hi hq hm) hrun

/-- C23, for whole programs: whatever the machine can do with a program it can do with the rewritten
one: it goes through the same instructions and the same states, whatever the other instructions are
and whatever host functions do.

Partial: no push of a newly made object may be followed by a pop, see `C23_block_partial`. -/
theorem C23_program_partial (env : Env) (strip : Bool) (bc cell serial : Nat) (program : List Ins)
    (hg : NoGarbage strip program) (hf : FewPops program) (a b : Nat × VM)
    (h : IndexedSteps env strip bc cell serial program a b) :
    IndexedSteps env strip bc cell serial (peephole program) a b := by
  induction h with
  | refl => exact .refl
  | step h _ ih => exact .step (peephole_step hg hf h) ih

/-! ### Objects that are made and dropped -/

theorem popped_reachable {vm : VM} {n r : Nat} (h : Reachable (popped vm n) r) : Reachable vm r := by
  induction h with
  | root h =>
    refine .root ?_
    cases h with
    | stack ho hm => exact .stack (List.mem_of_mem_take ho) hm
    | captured h => exact .captured (List.mem_of_mem_take h)
    | global h => exact .global h
    | pending hf h => exact .pending hf h
    | running h => exact .running h
  | step _ ho hm ih => exact .step ih ho hm

/-- What comes of making an object and dropping it, and of doing neither. -/
def SameButGarbage (env : Env) (strip : Bool) (bc : Nat) (ip : CodePtr) (i : Ins) (n : Int) (vm vm' : VM) :
    Prop :=
  ∃ vm'', perform env strip bc ip [(peepholeStep i (.pop n)).1, (peepholeStep i (.pop n)).2] vm = .ok () vm'' ∧
    vm'.stack = vm''.stack ∧ vm'.upStack = vm''.upStack ∧ Untouched vm'' vm' []

theorem same_garbage {env : Env} {strip : Bool} {bc : Nat} {ip : CodePtr} {i : Ins} {n : Int}
    {vm vm' s : VM} {o : Obj} (hg : Good vm) (hn : 1 ≤ n) (hi : i.onlyPushes = true)
    (h1 : perform1 env strip bc ip i vm = .ok () (pushed s o)) (hc : Carried vm s)
    (h : perform env strip bc ip [i, .pop n] vm = .ok () vm') :
    SameButGarbage env strip bc ip i n vm vm' := by
  rw [perform_two, M.bind_ok h1, perform1_pop] at h
  have hs := same_push_pop (n - 1).toNat s o
  rw [show (n - 1).toNat + 1 = n.toNat by omega, h] at hs
  have hs : popMany (n - 1).toNat s = .ok () vm' := hs
  have hle : (n - 1).toNat ≤ s.stack.length ∧ (n - 1).toNat ≤ s.upStack.length := by
    simp only [popMany] at hs
    split at hs
    · cases hs
    · split at hs
      · cases hs
      · omega
  rw [popMany_ok hle.1 hle.2] at hs
  cases hs
  refine ⟨popped vm (n - 1).toNat, ?_, ?_, ?_, ?_⟩
  · have he : peepholeStep i (.pop n) = (.internalNop, if n - 1 = 0 then .internalNop else .pop (n - 1)) := by
      simp only [peepholeStep]
      rw [if_pos hi]
    have hp : popMany (n - 1).toNat vm = .ok () (popped vm (n - 1).toNat) :=
      popMany_ok (by rw [← hc.roots.stack]; exact hle.1) (by rw [← hc.roots.upStack]; exact hle.2)
    rw [he, perform_two, M.bind_ok (show perform1 env strip bc ip .internalNop vm = .ok () vm from rfl)]
    dsimp only
    split
    · rename_i hz
      rw [hz, show Int.toNat 0 = 0 from rfl, popMany_zero] at hp
      rw [hz]
      exact hp
    · rw [perform1_pop]
      exact hp
  · show s.stack.take _ = vm.stack.take _
    rw [hc.roots.stack]
  · show s.upStack.take _ = vm.upStack.take _
    rw [hc.roots.upStack]
  · have hu := hc.extends.untouched hg
    exact ⟨fun c hr hc' => hu.cells c (popped_reachable hr) hc', hu.globals, hu.callStack, hu.upArrays,
      hu.currentBytecode, hu.nextUserType⟩

/-- C23 for a string literal that is dropped: without it the stack is the same, and everything the
program can reach.  Partial: the heap is not the same, as the string is garbage, and so cells may be
handed out in a different order later. -/
theorem C23_string_literal_partial (env : Env) (strip : Bool) (bc : Nat) (ip : CodePtr) (bytes : Bytes)
    (len n : Int) (vm vm' : VM) (hg : Good vm) (hb : bytes.length < 2 ^ 63) (hn : 1 ≤ n)
    (h : perform env strip bc ip [.pushString len bytes, .pop n] vm = .ok () vm') :
    SameButGarbage env strip bc ip (.pushString len bytes) n vm vm' := by
  have hp := post_newString (U := False) (E := fun e s => e = .outOfMemory ∧ Good s ∧ Carried vm s) hg hb
    (fun s' h1 h2 => ⟨rfl, h1, h2⟩)
  have he : perform1 env strip bc ip (.pushString len bytes) vm = iPushString bytes vm :=
    perform1_eq (m := .pushString bytes) rfl trivial vm
  unfold iPushString at he
  cases ho : newString bytes vm with
  | ok o s =>
    rw [ho] at hp he
    have hp : NewString vm s o bytes := hp
    exact same_garbage hg hn rfl he hp.carried h
  | err e s =>
    rw [ho] at hp he
    obtain ⟨-, -, h2⟩ := hp
    exact same_garbage hg hn rfl he h2 h
  | ub => rw [ho] at hp; exact hp.elim
  | diverge => rw [ho] at hp; exact hp.elim

/-- C23 for a symbol with a name that is dropped, like `C23_string_literal_partial`. -/
theorem C23_symbol_partial (env : Env) (bc : Nat) (ip : CodePtr) (name : Bytes)
    (id len n : Int) (vm vm' : VM) (hg : Good vm) (hb : name.length < 2 ^ 63) (hn : 1 ≤ n)
    (h : perform env false bc ip [.pushSymbol id len name, .pop n] vm = .ok () vm') :
    SameButGarbage env false bc ip (.pushSymbol id len name) n vm vm' := by
  have he : perform1 env false bc ip (.pushSymbol id len name) vm =
      (do let r ← pushObject (.internalString (some name) name.length)
          push (.symbol id.toNat (some r)) : M Unit) vm :=
    perform1_eq (m := .pushSymbol id.toNat name) rfl trivial vm
  cases ho : pushObject (.internalString (some name) name.length) vm with
  | ok r s =>
    rw [M.bind_ok ho] at he
    obtain ⟨m, al, -⟩ := alloc_ok hg.sound (fun m => by
      obtain ⟨v, hv, hb'⟩ := store_string m name
      rw [hv]
      exact ⟨by rw [hb'], hb⟩) (fun m r _ hm => by
      obtain ⟨v, hv, _⟩ := store_string m name
      rw [hv] at hm
      cases hm) ho
    exact same_garbage hg hn rfl he al.carried h
  | err e s =>
    rw [M.bind_err ho] at he
    rw [perform_two, M.bind_err he] at h
    cases h
  | ub =>
    rw [M.bind_ub ho] at he
    rw [perform_two, M.bind_ub he] at h
    cases h
  | diverge =>
    have : perform1 env false bc ip (.pushSymbol id len name) vm = .diverge := by
      rw [he, M.bind_run, ho]
    rw [perform_two, M.bind_run, this] at h
    cases h

/-- C23 for a type that is made and dropped: the only difference is that its number is not used.
Partial: the states are not equal. -/
theorem C23_type_partial (env : Env) (strip : Bool) (bc : Nat) (ip : CodePtr) (n : Int) (vm vm' : VM)
    (hn : 1 ≤ n) (h : perform env strip bc ip [.makeType, .pop n] vm = .ok () vm') :
    ∃ vm'', perform env strip bc ip
        [(peepholeStep .makeType (.pop n)).1, (peepholeStep .makeType (.pop n)).2] vm = .ok () vm'' ∧
      vm' = { vm'' with nextUserType := vm''.nextUserType + 1 } := by
  have h1 : perform1 env strip bc ip .makeType vm =
      .ok () (pushed { vm with nextUserType := vm.nextUserType + 1 } (.type vm.nextUserType)) :=
    perform1_eq (m := .makeType) rfl trivial vm
  rw [perform_two, M.bind_ok h1, perform1_pop] at h
  have hs := same_push_pop (n - 1).toNat { vm with nextUserType := vm.nextUserType + 1 } (.type vm.nextUserType)
  rw [show (n - 1).toNat + 1 = n.toNat by omega, h] at hs
  have hs : popMany (n - 1).toNat { vm with nextUserType := vm.nextUserType + 1 } = .ok () vm' := hs
  have hle : (n - 1).toNat ≤ vm.stack.length ∧ (n - 1).toNat ≤ vm.upStack.length := by
    simp only [popMany] at hs
    split at hs
    · cases hs
    · split at hs
      · cases hs
      · omega
  have hs' := popMany_ok (vm := { vm with nextUserType := vm.nextUserType + 1 }) hle.1 hle.2
  rw [hs] at hs'
  cases hs'
  refine ⟨popped vm (n - 1).toNat, ?_, rfl⟩
  have he : peepholeStep .makeType (.pop n) = (.internalNop, if n - 1 = 0 then .internalNop else .pop (n - 1)) := by
    simp only [peepholeStep]
    rw [if_pos (show Ins.onlyPushes .makeType = true from rfl)]
  have hp : popMany (n - 1).toNat vm = .ok () (popped vm (n - 1).toNat) := popMany_ok hle.1 hle.2
  rw [he, perform_two, M.bind_ok (show perform1 env strip bc ip .internalNop vm = .ok () vm from rfl)]
  dsimp only
  split
  · rename_i hz
    rw [hz, show Int.toNat 0 = 0 from rfl, popMany_zero] at hp
    rw [hz]
    exact hp
  · rw [perform1_pop]
    exact hp

/-- A loop that pushes three values and drops them. -/
def droppingProgram : List Ins :=
  [.label 0, .pushInteger 7, .pushIndex 1, .nil, .pop 1, .pop 2, .pushBoolean 1, .brnz 0 2, .halt]

example : peephole droppingProgram =
    [.label 0, .pushInteger 7, .pushIndex 1, .internalNop, .internalNop, .pop 2, .pushBoolean 1,
      .brnz 0 2, .halt] := by
  decide +kernel
example : FewPops droppingProgram := by
  refine ⟨fun n hn => ?_, by decide +kernel⟩
  simp [droppingProgram] at hn
  omega
example : NoGarbage false droppingProgram := by
  intro k i n hi _ hp
  have := List.mem_of_getElem? hi
  simp only [droppingProgram, List.mem_cons, List.not_mem_nil, or_false] at this
  rcases this with rfl | rfl | rfl | rfl | rfl | rfl | rfl | rfl | rfl <;> first | rfl | cases hp

/-- The first six instructions of the program, as one block, in a machine with an empty stack. -/
example (env : Env) : ∃ vm' : VM, perform env false 0 ⟨0, 0, 1⟩
    [.pushInteger 7, .pushIndex 1, .nil, .pop 1, .pop 2, .pushBoolean 1] { heap := [], free := [] } = .ok () vm' ∧
    vm'.stack = [.bool 1] := by
  exact ⟨_, rfl, rfl⟩
/-- Popping too much is an error before and after. -/
example (env : Env) : ∃ vm' vm'' : VM, perform env false 0 ⟨0, 0, 1⟩
      [.pushInteger 7, .pop 2] { heap := [], free := [] } = .err .bufferUnderflow vm' ∧
    perform env false 0 ⟨0, 0, 1⟩
      (peephole [.pushInteger 7, .pop 2]) { heap := [], free := [] } = .err .bufferUnderflow vm'' := by
  rw [show peephole [.pushInteger 7, .pop 2] = [.internalNop, .pop 1] by decide +kernel]
  exact ⟨_, _, rfl, rfl⟩
/-- A machine in which strings are made and dropped. -/
example (env : Env) : ∃ vm' : VM, perform env false 0 ⟨0, 0, 1⟩
    [.pushString 1 [120], .pop 2] { heap := [.none], free := [0], stack := [.integer 1], upStack := [none] } =
      .ok () vm' ∧ vm'.stack = [] ∧ vm'.free = [] := by
  exact ⟨_, rfl, rfl, rfl⟩

/-- The rewriting needs pops to take at least one value: pushing nil and popping nothing is assembled
as an instruction to pop 2^32 - 1 values, so that an error takes the place of a value.  The emitters
never ask for it. -/
theorem C23_pop_nothing (env : Env) :
    assemble {} 0 [.nil, .pop 0] = .ok [code .pop .w32, 255, 255, 255, 255] ∧
    (∃ vm', perform env false 0 ⟨0, 0, 0⟩ [.nil, .pop 0] { heap := [], free := [] } = .ok () vm' ∧
      vm'.stack = [.list none]) ∧
    ∃ vm', exec env 0 ⟨0, 0, 0⟩ ⟨0, 0, 5⟩ (.pop (2 ^ 32 - 1)) { heap := [], free := [] } =
      .err .bufferUnderflow vm' := by
  exact ⟨by decide +kernel, ⟨_, rfl, rfl⟩, ⟨_, rfl⟩⟩

#print axioms C23_block_partial
#print axioms C23_program_partial
#print axioms C23_string_literal_partial
#print axioms C23_symbol_partial
#print axioms C23_type_partial
#print axioms C23_pop_nothing

end DuckLisp.Props
