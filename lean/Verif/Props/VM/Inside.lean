import Verif.Proof.VM.Inside
import Verif.Props.VM.Safety

/-!
# C45: execution stays inside the program

`Spec.Flow` says which positions of a block of code following its instructions from the first byte on leads
to.  The theorems say that control is always at such a position of a block that has been loaded, and that in
assembled code these are the positions where the instructions of the program start.
-/

namespace DuckLisp.Props

open DuckLisp DuckLisp.VM DuckLisp.Asm DuckLisp.Spec

attribute [local instance] byFlow

/-- C45, whatever the code: in every state a run gets to, control and every pending call are at positions that
the code there was at the start leads to, and there is no other code, unless the run has come to a listed
situation before. -/
theorem C45_states (env : Env) (bc : Nat) (ip ip' : CodePtr) (vm0 vm vm' : VM) (hc : Confined vm0 bc vm ip)
    (hh : @HostBehaves byFlow env bc) (hl : HostLeavesCode env) (ha : Arrives env bc ip vm ip' vm') :
    Confined vm0 bc vm' ip' ∨
      ∃ ip1 vm1, Arrives env bc ip vm ip1 vm1 ∧ Confined vm0 bc vm1 ip1 ∧ Pitfall vm1 ip1 := by
  induction ha with
  | here => exact .inl hc
  | @step ip vm ip1 vm1 ip2 vm2 h ha ih =>
    by_cases hp : Pitfall vm ip
    · exact .inr ⟨ip, vm, .here, hc, hp⟩
    · rcases ih (confined_step hc hh hl hp h) with h2 | ⟨ip3, vm3, h2, h3⟩
      · exact .inl h2
      · exact .inr ⟨ip3, vm3, .step h h2, h3⟩

/-- C45: loading any code on a machine between programs and starting at its first byte is such a start. -/
theorem C45_loaded (code : Bytes) (vm vm0 : VM) (bc serial : Nat) (hc : code ≠ []) (hg : @Good byFlow vm)
    (hl : Lockstep vm) (hs : vm.callStack = []) (h : Loaded code vm bc serial vm0) :
    Confined vm0 bc vm0 ⟨bc, serial, 0⟩ ∧ (∃ n, vm0.heap[bc]? = some (.bytecode (some ⟨serial, code⟩) n)) ∧
      ∀ (c : Ref) (blk : CodeBlock) (n : Nat), vm0.heap[c]? = some (.bytecode (some blk) n) → c ≠ bc →
        vm.heap[c]? = some (.bytecode (some blk) n) := by
  obtain ⟨vm1, h1, rfl, h2⟩ := h
  obtain ⟨serial', hld⟩ := Compile.isLoaded_of_push hg hc h1
  obtain rfl : serial' = serial := by
    have := hld.serial_eq
    rw [h2] at this
    cases this
    rfl
  refine ⟨⟨⟨hld.good, ?_, rfl⟩, fun c blk n h => ⟨n, h⟩, ⟨_, _, hld.code, rfl, .start⟩, ?_⟩, ⟨_, hld.code⟩,
    fun c blk n h hne => pushObject_code h1 hne h⟩
  · unfold Lockstep at hl ⊢
    rw [hld.stack, hld.upStack]
    exact hl
  · rw [hld.callStack, hs]
    exact fun _ h => (nomatch h)

/-- C45: if all code is whole there is an instruction at the position where control is, wholly inside its block of
code, and it is what the machine executes if the block has not been collected. -/
theorem C45_whole (vm0 vm : VM) (bc : Nat) (ip : CodePtr) (hc : Confined vm0 bc vm ip)
    (hw : ∀ (c : Ref) (blk : CodeBlock) (n : Nat), vm0.heap[c]? = some (.bytecode (some blk) n) → Whole blk.bytes) :
    ∃ blk n i q, vm0.heap[ip.cell]? = some (.bytecode (some blk) n) ∧ blk.serial = ip.serial ∧
      CodeAt blk.bytes ip.off i q ∧
      ((∃ m, vm.heap[ip.cell]? = some (.bytecode (some blk) m)) → InstructionAt vm ip i) := by
  obtain ⟨blk, n, h1, h2, h3⟩ := hc.here
  obtain ⟨i, q, h4⟩ := hw _ _ _ h1 _ h3
  refine ⟨blk, n, i, q, h1, h2, h4, ?_⟩
  rintro ⟨m, hm⟩
  obtain ⟨rest, g1, g2, g3, -⟩ := codeAt_decode h4
  exact ⟨blk, m, rest, hm, h2, g1, g2, g3⟩

/-- C45: code in which every label is defined, every instruction is in format, every jump lands and which ends
with halt leads only to where its instructions start, and is whole. -/
theorem C45_boundaries (strip : Bool) (program : List Ins) (bytes : Bytes) (pieces : List Bytes)
    (hp : Pieces strip program bytes pieces) (hl : AllLand program pieces) (hd : LabelsDefined program)
    (hf : ∀ i ∈ program, InFormat i ∧ SmallWhereNeeded i) (he : program.getLast? = some .halt) :
    Whole bytes ∧ ∀ p, Flow bytes p → ∃ k m, AtInstruction program pieces p k m := by
  have key : ∀ p, Flow bytes p → ∃ k m, AtInstruction program pieces p k m := fun p h => flow_at hp hl hd hf he h
  refine ⟨fun p h => ?_, key⟩
  obtain ⟨k, m, i, piece, -, h2, -, rfl, h4⟩ := key p h
  exact ⟨m, _, hp.flatten ▸ codeAt_piece h2 h4⟩

/-- C45: so the code the assembler makes is whole and leads only to instructions, with addresses of fixed size for
code of less than 2 GiB, and with addresses made as short as possible for code of at most 126 bytes.  Partial:
longer code, see `C24_jump_misses_its_label`. -/
theorem C45_assembled_partial (opt : Options) (labels : Nat) (program : List Ins) (bytes : Bytes)
    (h : assemble opt labels program = .ok bytes)
    (hs : opt.jumps = false ∧ bytes.length < 2 ^ 31 ∨ opt.jumps = true ∧ bytes.length ≤ 126)
    (hd : LabelsDefined (rewritten opt program))
    (hf : ∀ i ∈ rewritten opt program, InFormat i ∧ SmallWhereNeeded i)
    (he : (rewritten opt program).getLast? = some .halt) :
    ∃ pieces, Pieces opt.strip (rewritten opt program) bytes pieces ∧ Whole bytes ∧
      ∀ p, Flow bytes p → ∃ k m, AtInstruction (rewritten opt program) pieces p k m := by
  obtain ⟨pieces, hp, hl⟩ : ∃ pieces, Pieces opt.strip (rewritten opt program) bytes pieces ∧
      AllLand (rewritten opt program) pieces := by
    rcases hs with ⟨hj, hb⟩ | ⟨hj, hb⟩
    · exact C24_fixed_size opt labels program bytes hj h hb
    · exact C24_short_code_partial opt labels program bytes hj h hd hb
  exact ⟨pieces, hp, C45_boundaries _ _ _ _ hp hl hd hf he⟩

/-- C45: the code of every compiled program of the core language and its functions whose jumps land and whose numbers fit is whole
and leads only to where its instructions start, also with the optimisation of the assembler.  Partial: the other
parts of the language. -/
theorem C45_compiled_partial (cfg : Compile.Config) (D : Dialect) (n : Nat) (e : Reader.Ast) (s s' : Compile.CState) (opt : Options)
    (bytes : Bytes) (hcb : KeywordsFree cfg) (hcf : CallsFree cfg D) (he : Term D false e) (hs : Fresh s)
    (hc : Compile.compileAST cfg n e s = .ok () s') (hg : s'.gensymNumber ≤ 2 ^ 64)
    (hj : JumpsLand opt s'.assembly bytes)
    (hlen : s'.assembly.length < 2 ^ 31) (hfmt : ∀ i ∈ s'.assembly, InFormat i ∧ SmallWhereNeeded i) :
    ∃ pieces, Pieces opt.strip (rewritten opt s'.assembly) bytes pieces ∧ Whole bytes ∧
      ∀ p, Flow bytes p → ∃ k m, AtInstruction (rewritten opt s'.assembly) pieces p k m := by
  obtain ⟨-, code, L, l, h1, h2, h3⟩ := fresh_code hcb hcf he hs hc hg
  letI : Compile.Keys := (Compile.Keys.from s'.symbols D (Props.unclaimed hcf)).upTo (room s'.assembly)
  obtain ⟨pieces, hp, hl⟩ := hj
  refine ⟨pieces, hp, C45_boundaries _ _ _ _ hp hl ?_ ?_ ?_⟩
  · rw [h2]
    exact Compile.labelsDefined_of_own (Compile.whole_own h1) opt
  · unfold rewritten
    split
    · refine Compile.peephole_format ?_ hfmt
      rw [h2] at hlen ⊢
      exact Compile.whole_fewPops h1 hlen
    · exact hfmt
  · have hlast : s'.assembly.getLast? = some .halt := by rw [h2]; simp
    unfold rewritten
    split
    · rw [List.getLast?_eq_getElem?] at hlast ⊢
      rw [(kept_peephole _ s'.assembly rfl).1]
      exact Compile.peephole_keeps hlast rfl (by simp)
    · exact hlast

/-- C45, for a machine that runs one program: control is always at the start of one of its instructions, and the
machine executes exactly this instruction, unless it has come to a situation of the list for such an instruction
before. -/
theorem C45_one_program (env : Env) (strip : Bool) (program : List Ins) (bytes : Bytes) (pieces : List Bytes)
    (hp : Pieces strip program bytes pieces) (hl : AllLand program pieces) (hd : LabelsDefined program)
    (hf : ∀ i ∈ program, InFormat i ∧ SmallWhereNeeded i) (he : program.getLast? = some .halt)
    (vm vm0 vm' : VM) (bc serial : Nat) (ip' : CodePtr) (hh : @HostBehaves byFlow env bc) (hhl : HostLeavesCode env)
    (hr : Resting vm) (hn : ∀ (c : Ref) (blk : CodeBlock) (n : Nat), vm.heap[c]? ≠ some (.bytecode (some blk) n))
    (hld : Loaded bytes vm bc serial vm0) (ha : Arrives env bc ⟨bc, serial, 0⟩ vm0 ip' vm') :
    (ip'.cell = bc ∧ ∃ k m, AtInstruction program pieces ip'.off k m ∧ InstructionAt vm' ip' m) ∨
      ∃ ip1 vm1 k m, Arrives env bc ⟨bc, serial, 0⟩ vm0 ip1 vm1 ∧ ip1.cell = bc ∧
        AtInstruction program pieces ip1.off k m ∧ InstructionAt vm1 ip1 m ∧ Faulty vm1 m := by
  have hb : bytes ≠ [] := by
    obtain ⟨hw, -⟩ := C45_boundaries strip program bytes pieces hp hl hd hf he
    rintro rfl
    obtain ⟨i, q, h⟩ := hw 0 .start
    obtain ⟨rest, -, -, h, -⟩ := codeAt_decode h
    simp [decode] at h
  obtain ⟨h1, ⟨n1, h2⟩, h3⟩ := C45_loaded bytes vm vm0 bc serial hb hr.good hr.level hr.calls hld
  -- where a confined machine is
  have here : ∀ ip1 vm1, Confined vm0 bc vm1 ip1 →
      ip1.cell = bc ∧ ∃ k m, AtInstruction program pieces ip1.off k m ∧ InstructionAt vm1 ip1 m := by
    intro ip1 vm1 hc
    obtain ⟨blk, n, g1, g2, g3⟩ := hc.here
    have hcell : ip1.cell = bc := Classical.byContradiction fun h => hn _ _ _ (h3 _ _ _ g1 h)
    rw [hcell, h2] at g1
    cases g1
    obtain ⟨k, m, hk⟩ := flow_at hp hl hd hf he g3
    refine ⟨hcell, k, m, hk, ?_⟩
    obtain ⟨i, piece, e1, e2, e3, e4, e5⟩ := hk
    have hcode := codeAt_piece e2 e5
    rw [hp.flatten, ← e4] at hcode
    obtain ⟨rest, f1, f2, f3, -⟩ := codeAt_decode hcode
    obtain ⟨sh, -, o, ho, hsh⟩ := hc.running.good.sound.running bc hc.running.current
    obtain ⟨k', hk'⟩ : ∃ k', vm1.heap[bc]? = some (.bytecode (some ⟨serial, bytes⟩) k') := by
      cases o <;> first | cases hsh | skip
      obtain ⟨m', hm'⟩ := hc.code _ _ _ ho
      rw [h2] at hm'
      cases hm'
      exact ⟨_, ho⟩
    exact ⟨⟨serial, bytes⟩, k', rest, by rw [hcell]; exact hk', g2, f1, f2, f3⟩
  rcases C45_states env bc _ _ vm0 vm0 vm' h1 hh hhl ha with h | ⟨ip1, vm1, h4, h5, h6⟩
  · exact .inl (here _ _ h)
  · obtain ⟨g1, k, m, g2, g3⟩ := here _ _ h5
    refine .inr ⟨ip1, vm1, k, m, h4, g1, g2, g3, ?_⟩
    have uniq : ∀ i, InstructionAt vm1 ip1 i → i = m := by
      rintro i ⟨b, n, r, e1, -, -, -, e5⟩
      obtain ⟨b', n', r', f1, -, -, -, f5⟩ := g3
      rw [e1] at f1
      cases f1
      rw [e5] at f5
      cases f5
      rfl
    rcases h6 with h6 | ⟨i, h6, h7 | ⟨-, h7⟩⟩
    · exact absurd ⟨m, g3⟩ h6
    · exact uniq i h6 ▸ h7
    · rw [h5.running.current, g1] at h7
      exact absurd rfl h7

/-- C45: a program that ends leaves a machine between programs, so the next one can be run, if its code is whole
and it does not end inside a function, unless it has come to a listed situation. -/
theorem C45_execute (env : Env) (fuel : Nat) (code : Bytes) (vm vm' : VM) (hr : Resting vm) (hw : Whole code)
    (hh : ∀ bc, @HostBehaves byFlow env bc) (hl : HostLeavesCode env)
    (he : VM.execute env fuel code vm = .ok () vm') (hcalls : vm'.callStack = []) :
    Resting vm' ∨ ∃ bc serial vm0 ip1 vm1, Loaded code vm bc serial vm0 ∧
      Arrives env bc ⟨bc, serial, 0⟩ vm0 ip1 vm1 ∧ Confined vm0 bc vm1 ip1 ∧ Pitfall vm1 ip1 := by
  have hc : code ≠ [] := by
    rintro rfl
    obtain ⟨i, q, h⟩ := hw 0 .start
    obtain ⟨rest, -, -, h, -⟩ := codeAt_decode h
    simp [decode] at h
  cases hpu : pushObject (.bytecode (some ⟨0, code⟩) code.length) vm with
  | ok bc vm1 =>
    obtain ⟨serial, hld⟩ := Compile.isLoaded_of_push hr.good hc hpu
    have hload : Loaded code vm bc serial { vm1 with currentBytecode := some bc } := ⟨vm1, hpu, rfl, hld.serial_eq⟩
    obtain ⟨h1, ⟨n, h2⟩, h3⟩ := C45_loaded code vm _ bc serial hc hr.good hr.level hr.calls hload
    rw [hld.execute hc] at he
    generalize hvm0 : { vm1 with currentBytecode := some bc } = vm0 at *
    have key : ∀ fuel ip vm2 vm3, Confined vm0 bc vm2 ip → VM.loop env bc fuel ip vm2 = .ok () vm3 →
        (Running bc vm3 ∧ ∀ (c : Ref) (blk : CodeBlock) (n : Nat), vm3.heap[c]? = some (.bytecode (some blk) n) →
          ∃ m, vm0.heap[c]? = some (.bytecode (some blk) m)) ∨
        ∃ ip1 vm4, Arrives env bc ip vm2 ip1 vm4 ∧ Confined vm0 bc vm4 ip1 ∧ Pitfall vm4 ip1 := by
      intro fuel
      induction fuel with
      | zero => intro ip vm2 vm3 _ h; cases h
      | succ fuel ih =>
        intro ip vm2 vm3 hcf h
        by_cases hp : Pitfall vm2 ip
        · exact .inr ⟨ip, vm2, .here, hcf, hp⟩
        · rw [VM.loop, M.bind_run] at h
          cases hs : VM.step env bc ip vm2 with
          | ok ctl s =>
            rw [hs] at h
            cases ctl with
            | halt =>
              cases h
              obtain ⟨k1, k2, -⟩ := kept_step hcf (hh bc) hl hp hs
              exact .inl ⟨k1, k2⟩
            | goto ip' =>
              rcases ih ip' s vm3 (confined_step hcf (hh bc) hl hp hs) h with h | ⟨ip1, vm4, g1, g2⟩
              · exact .inl h
              · exact .inr ⟨ip1, vm4, .step hs g1, g2⟩
          | err e s => rw [hs] at h; cases h
          | ub => rw [hs] at h; cases h
          | diverge => rw [hs] at h; cases h
    unfold finish at he
    cases hlo : VM.loop env bc fuel ⟨bc, serial, 0⟩ vm0 with
    | ok a vm3 =>
      rw [hlo] at he
      cases he
      rcases key fuel _ _ _ h1 hlo with ⟨hrun, hcode⟩ | ⟨ip1, vm4, g⟩
      · refine .inl ⟨Compile.good_current hrun.good fun _ h => (nomatch h), hrun.level, hcalls, fun c blk n hb => ?_⟩
        obtain ⟨m, hm⟩ := hcode c blk n hb
        by_cases hcb : c = bc
        · subst hcb
          rw [h2] at hm
          cases hm
          exact hw
        · exact hr.code _ _ _ (h3 c blk m hm hcb)
      · exact .inr ⟨bc, serial, vm0, ip1, vm4, hload, g⟩
    | err e s => rw [hlo] at he; cases he
    | ub => rw [hlo] at he; cases he
    | diverge => rw [hlo] at he; cases he
  | err e s =>
    unfold VM.execute executeWithIp at he
    have : code.length ≠ 0 := fun h => hc (List.length_eq_zero_iff.1 h)
    rw [if_neg (by omega), M.bind_err hpu] at he
    cases he
  | ub =>
    unfold VM.execute executeWithIp at he
    have : code.length ≠ 0 := fun h => hc (List.length_eq_zero_iff.1 h)
    rw [if_neg (by omega), M.bind_ub hpu] at he
    cases he
  | diverge =>
    rcases pushObject_total hr.good.sound (.bytecode (some ⟨0, code⟩) code.length) with ⟨_, _, h⟩ | ⟨_, h⟩
    · rw [hpu] at h; cases h
    · rw [hpu] at h; cases h

theorem resting_init (m : Nat) (hm : m < 2 ^ 60) : Resting (init m) :=
  ⟨init_good m hm, rfl, rfl, fun c blk n h => by
    have := List.mem_of_getElem? h
    simp [init] at this⟩

/-! ### Code that is collected while it runs -/

/-- The code of a function that forgets itself: it overwrites the global variable and the slot of the stack that
it was called from, and makes strings. -/
def forgets : Bytes :=
  [22, 11, 0, 0, 0, 0, 0, 34, 1, 7, 158, 1, 165, 166, 34, 1, 7, 64, 1, 2, 1, 1, 97, 158, 1, 161]

/-- C45 does not hold for functions of other programs: nothing keeps the code of the function that runs if it is
not part of the program that has been started.  The first program makes a function and stores it in a global
variable.  The second calls it; the function forgets itself, its code is collected while it runs, and the machine
goes on to read it. -/
theorem C45_collected_while_running :
    ∃ vm, Resting (init 5) ∧ VM.execute plainEnv 9 forgets (init 5) = .ok () vm ∧
      VM.execute plainEnv 9 [28, 7, 40, 1, 0, 165] vm = .ub := by
  have h : (match VM.execute plainEnv 9 forgets (init 5) with
      | .ok _ vm => decide (VM.execute plainEnv 9 [28, 7, 40, 1, 0, 165] vm = .ub)
      | _ => false) = true := by decide +kernel
  split at h
  · rename_i vm hvm
    exact ⟨vm, resting_init 5 (by decide), hvm, of_decide_eq_true h⟩
  · cases h

/-! ### The hypotheses can be met -/

/-- A host whose functions only push values leaves the code alone. -/
example : HostLeavesCode plainEnv ∧ ∀ bc, @HostBehaves byFlow plainEnv bc :=
  ⟨fun cb vm vm' h => by cases h; exact ⟨rfl, fun c blk n h => ⟨n, h⟩⟩, fun bc cb vm h => .inl ⟨vm, rfl, h⟩⟩

/-- A program that makes a function, calls it and jumps over it. -/
def callingProgram : List Ins :=
  [.pushClosure false 1 0 [], .funcall 1 0, .jump 2, .label 1, .nil, .return_ 1, .label 2, .halt]

theorem callingProgram_defined : LabelsDefined callingProgram := by
  intro k i l hi hl
  have := List.mem_of_getElem? hi
  simp only [callingProgram, List.mem_cons, List.not_mem_nil, or_false] at this
  rcases this with rfl | rfl | rfl | rfl | rfl | rfl | rfl | rfl <;> cases hl <;> decide

theorem callingProgram_format : ∀ i ∈ callingProgram, InFormat i ∧ SmallWhereNeeded i := by
  intro i hi
  simp only [callingProgram, List.mem_cons, List.not_mem_nil, or_false] at hi
  rcases hi with rfl | rfl | rfl | rfl | rfl | rfl | rfl | rfl <;>
    simp [InFormat, SmallWhereNeeded, Word, Octet]

/-- Its code, with addresses of fixed size. -/
def callingCode : Bytes := [24, 0, 0, 0, 13, 0, 0, 0, 0, 0, 40, 1, 0, 57, 0, 0, 0, 3, 166, 162, 1, 165]

theorem callingCode_assembled :
    assemble { pushPops := false, jumps := false } 3 callingProgram = .ok callingCode := by decide +kernel

example : Whole callingCode :=
  (C45_assembled_partial _ _ _ _ callingCode_assembled (.inl ⟨rfl, by decide⟩) callingProgram_defined
    callingProgram_format rfl).choose_spec.2.1

example : Resting (init 5) ∧ (match VM.execute plainEnv 9 callingCode (init 5) with
    | .ok _ vm => vm.callStack.isEmpty
    | _ => false) = true := ⟨resting_init 5 (by decide), by decide +kernel⟩

/-- With addresses made as short as possible. -/
example : assemble { pushPops := false } 3 callingProgram =
    .ok [22, 10, 0, 0, 0, 0, 0, 40, 1, 0, 55, 3, 166, 162, 1, 165] := by decide +kernel

/-- Loading the program on an empty machine. -/
example : ∃ bc serial vm0, Loaded callingCode (init 5) bc serial vm0 ∧
    ∀ (c : Ref) (blk : CodeBlock) (n : Nat), (init 5).heap[c]? ≠ some (.bytecode (some blk) n) :=
  ⟨_, _, _, ⟨_, rfl, rfl, rfl⟩, fun c blk n h => by
    have := List.mem_of_getElem? h
    simp [init] at this⟩

/-- There is code that is not whole: this one ends in the middle of an instruction. -/
example : ¬ Whole [166, 6] := by
  intro h
  have h0 : CodeAt [166, 6] 0 .nil 1 := ⟨[], [166], [6], rfl, rfl, rfl, rfl⟩
  obtain ⟨i, q, h⟩ := h 1 (.next .start h0 trivial)
  obtain ⟨rest, -, -, h, -⟩ := codeAt_decode h
  cases h

/-- A compiled program. -/
example : KeywordsFree ⟨Trie.init (-1), 100⟩ ∧ Form sumProgram ∧ Fresh .init :=
  ⟨keywordsFree_none _, sumProgram_form, fresh_init⟩

#print axioms C45_states
#print axioms C45_loaded
#print axioms C45_whole
#print axioms C45_boundaries
#print axioms C45_assembled_partial
#print axioms C45_compiled_partial
#print axioms C45_one_program
#print axioms C45_execute
#print axioms C45_collected_while_running

end DuckLisp.Props
