import Verif.Props.Asm.Jumps
import Verif.Proof.Asm.Total
import Verif.Props.VM.Truth

/-!
# C24: running assembled code

Every program in order is assembled; the machine, at the position of an instruction, executes that
instruction, and goes on at the next one or at the label it names.  One program is shown whose jump
misses its label.
-/

namespace DuckLisp.Props

open DuckLisp DuckLisp.VM DuckLisp.Asm DuckLisp.Spec

/-- C24: every program that is in order is assembled, whatever the options. -/
theorem C24_assembles (opt : Options) (labels : Nat) (program : List Ins)
    (h : InOrder labels program) : ∃ bytes, assemble opt labels program = .ok bytes := by
  have hw : InOrder labels (rewritten opt program) := by
    unfold rewritten
    split
    · exact inOrder_peephole h
    · exact h
  obtain ⟨s, hs⟩ := emitAll_ok (strip := opt.strip) (fixed := !opt.jumps) (rewritten opt program) []
    (emitStart labels) hw (by simp [emitStart]) (by
      intro l b hb _
      rw [replicate_get hb])
  have heq : assemble opt labels program = if opt.jumps then resolve s else .ok (resolveFixed s) := by
    unfold assemble
    show (emitAll opt.strip (!opt.jumps) (emitStart labels) (rewritten opt program) >>= _) = _
    rw [hs]
    rfl
  rw [heq]
  cases hj : opt.jumps with
  | false => exact ⟨_, rfl⟩
  | true =>
    rw [hj] at hs
    obtain ⟨cs, he⟩ := emission hs
    exact resolve_ok he hw.halts

/-- C24: at the position of a piece that the machine reads as `m`, the machine executes `m`, and what
comes next in the code is the next piece. -/
theorem C24_execution (env : Env) (bc : Nat) (vm : VM) (ip : CodePtr) (pieces : List Bytes)
    (k : Nat) (p : Bytes) (m : Instr) (hc : HasCode vm ip pieces.flatten)
    (hip : ip.off = offset pieces k) (hp : pieces[k]? = some p)
    (hm : ∀ rest, decode (p ++ rest) = some (m, rest)) :
    step env bc ip vm = exec env bc ip { ip with off := offset pieces (k + 1) } m vm := by
  obtain ⟨b, n, h1, h2, h3⟩ := hc
  have hle : offset pieces k ≤ pieces.flatten.length := pos_le pieces k
  have hfetch : fetch ip vm = .ok (b.bytes.drop (offset pieces k)) vm := by
    unfold fetch
    rw [h1]
    dsimp only
    rw [if_pos ⟨h2, by omega, by rw [h3]; omega⟩, hip]
    rfl
  have hdrop : b.bytes.drop (offset pieces k) = p ++ b.bytes.drop (offset pieces (k + 1)) := by
    rw [h3]
    obtain ⟨hk, hke⟩ := List.getElem?_eq_some_iff.1 hp
    have hsplit : pieces = pieces.take k ++ p :: pieces.drop (k + 1) := by
      rw [← hke, List.getElem_cons_drop, List.take_append_drop]
    have e0 : pieces.flatten = (pieces.take k).flatten ++ (p ++ (pieces.drop (k + 1)).flatten) := by
      conv => lhs; rw [hsplit]
      simp
    have e1 : pieces.flatten.drop (offset pieces k) = p ++ (pieces.drop (k + 1)).flatten := by
      rw [e0]
      exact List.drop_left
    have e2 : pieces.flatten.drop (offset pieces (k + 1)) = (pieces.drop (k + 1)).flatten := by
      have : offset pieces (k + 1) = ((pieces.take k).flatten ++ p).length := by
        have := pos_succ hp
        rw [List.length_append]
        exact this
      rw [this, e0, ← List.append_assoc]
      exact List.drop_left
    rw [e1, e2]
  have hs := pos_succ hp
  unfold step
  rw [M.bind_ok hfetch, hdrop, hm, M.bind_ok (M.need_some _ _)]
  have : (((p ++ b.bytes.drop (offset pieces (k + 1))).length -
      (b.bytes.drop (offset pieces (k + 1))).length : Nat) : Int) = (p.length : Int) := by
    rw [List.length_append]; omega
  dsimp only
  rw [this, hip]
  have h4 : ((offset pieces k : Nat) : Int) + (p.length : Int) = (offset pieces (k + 1) : Nat) := by
    show ((pos pieces k : Nat) : Int) + _ = (pos pieces (k + 1) : Nat)
    omega
  rw [h4]

/-- C24: a jump goes to its label. -/
theorem C24_jump (env : Env) (bc : Nat) (vm : VM) (ip : CodePtr) (program : List Ins)
    (pieces : List Bytes) (k j l : Nat) (hall : AllLand program pieces)
    (hc : HasCode vm ip pieces.flatten) (hip : ip.off = offset pieces k)
    (hk : program[k]? = some (.jump l)) (hj : program[j]? = some (.label l)) :
    step env bc ip vm = .ok (.goto { ip with off := offset pieces j }) vm := by
  obtain ⟨p, w, d, m, h1, h2, h3, h4⟩ := hall k _ l j hk rfl trivial hj
  rw [C24_execution env bc vm ip pieces k p m hc hip h1 h3]
  cases h2
  simp only [landing, Option.some.injEq] at h4
  rw [← h4]
  rfl

/-- C24: a branch removes its operands and goes to its label if the value it looks at is true, and to
the next instruction otherwise. -/
theorem C24_branch (env : Env) (bc : Nat) (vm : VM) (ip : CodePtr) (program : List Ins)
    (pieces : List Bytes) (k j l : Nat) (n : Int) (hall : AllLand program pieces)
    (hc : HasCode vm ip pieces.flatten) (hip : ip.off = offset pieces k)
    (hk : program[k]? = some (.brnz l n)) (hn : Octet n) (hj : program[j]? = some (.label l))
    (hs : Sound vm) (o : Obj) (ho : operand vm 1 = some o) (h1 : n.toNat ≤ vm.stack.length)
    (h2 : n.toNat ≤ vm.upStack.length) (hb : BranchesAsDocumented vm o) :
    (¬ IsFalse vm o →
      step env bc ip vm = .ok (.goto { ip with off := offset pieces j }) (popped vm n.toNat)) ∧
    (IsFalse vm o →
      step env bc ip vm = .ok (.goto { ip with off := offset pieces (k + 1) }) (popped vm n.toNat)) := by
  obtain ⟨p, w, d, m, g1, g2, g3, g4⟩ := hall k _ l j hk rfl hn hj
  rw [C24_execution env bc vm ip pieces k p m hc hip g1 g3]
  cases g2
  simp only [landing, Option.some.injEq] at g4
  have := C35_branching_partial env bc ip { ip with off := offset pieces (k + 1) } vm hs d n.toNat o ho
    h1 h2 hb
  dsimp only at this
  rw [show ((offset pieces (k + 1) : Nat) : Int) + d - 1 = (offset pieces j : Nat) by omega] at this
  exact this

/-- C24: a call goes to its label and remembers the next instruction. -/
theorem C24_call (env : Env) (bc : Nat) (vm : VM) (ip : CodePtr) (program : List Ins)
    (pieces : List Bytes) (k j l : Nat) (n : Int) (hall : AllLand program pieces)
    (hc : HasCode vm ip pieces.flatten) (hip : ip.off = offset pieces k)
    (hk : program[k]? = some (.call l n)) (hn : Octet n) (hj : program[j]? = some (.label l)) :
    step env bc ip vm = .ok (.goto { ip with off := offset pieces j })
      { vm with
        callStack := vm.callStack ++ [⟨{ ip with off := offset pieces (k + 1) }, some bc⟩]
        upArrays := vm.upArrays ++ [⟨none, 0⟩] } := by
  obtain ⟨p, w, d, m, g1, g2, g3, g4⟩ := hall k _ l j hk rfl hn hj
  rw [C24_execution env bc vm ip pieces k p m hc hip g1 g3]
  cases g2
  simp only [landing, Option.some.injEq] at g4
  show Out.ok (Ctl.goto { ip with off := ((offset pieces (k + 1) : Nat) : Int) + d - 1 }) _ = _
  rw [show ((offset pieces (k + 1) : Nat) : Int) + d - 1 = (offset pieces j : Nat) by omega]

/-- C24: a function is made with the position of its label. -/
theorem C24_closure (env : Env) (bc : Nat) (vm vm' : VM) (ip : CodePtr) (program : List Ins)
    (pieces : List Bytes) (k j l : Nat) (variadic : Bool) (arity : Int) (captured : List Int) (c : Ctl)
    (hall : AllLand program pieces)
    (hc : HasCode vm ip pieces.flatten) (hip : ip.off = offset pieces k)
    (hk : program[k]? = some (.pushClosure variadic l arity captured))
    (hf : InFormat (.pushClosure variadic l arity captured)) (hj : program[j]? = some (.label l))
    (hrun : step env bc ip vm = .ok c vm') :
    c = .goto { ip with off := offset pieces (k + 1) } ∧
    ∃ ups, vm'.stack.getLast? =
      some (.closure (offset pieces j) (some bc) ups (UInt8.ofNat arity.toNat) variadic) := by
  obtain ⟨p, w, d, m, g1, g2, g3, g4⟩ := hall k _ l j hk rfl hf hj
  rw [C24_execution env bc vm ip pieces k p m hc hip g1 g3] at hrun
  cases g2
  simp only [landing, Option.some.injEq] at g4
  generalize captured.map (fun c => (c % 2 ^ 32).toNat) = vs at hrun
  change (iPushClosure bc ip variadic (1 + w.bytes) d (UInt8.ofNat arity.toNat) vs >>= fun _ =>
    pure (Ctl.goto { ip with off := offset pieces (k + 1) })) vm = _ at hrun
  rw [M.bind_eq_ok] at hrun
  obtain ⟨_, s1, hrun, hc'⟩ := hrun
  cases hc'
  refine ⟨rfl, ?_⟩
  unfold iPushClosure at hrun
  rw [M.bind_eq_ok] at hrun
  obtain ⟨serial, s2, -, hrun⟩ := hrun
  split at hrun
  · rw [M.bind_eq_ok] at hrun
    obtain ⟨cell, s3, -, hrun⟩ := hrun
    dsimp only at hrun
    rw [M.bind_eq_ok] at hrun
    obtain ⟨_, s4, -, hrun⟩ := hrun
    rw [M.bind_eq_ok] at hrun
    obtain ⟨r, s5, -, hrun⟩ := hrun
    have last : ∀ s, (do
        let n ← height
        setStackAt (n - 1) (Obj.closure (d + (ip.off + (1 + w.bytes : Nat))) (some bc) (some cell)
          (UInt8.ofNat arity.toNat) variadic) : M Unit) s = .ok () vm' →
        vm'.stack.getLast? = some (Obj.closure (d + (ip.off + (1 + w.bytes : Nat))) (some bc) (some cell)
          (UInt8.ofNat arity.toNat) variadic) := by
      intro s h
      rw [M.bind_ok (show height s = .ok s.stack.length s from rfl)] at h
      unfold setStackAt at h
      split at h
      · rename_i hlt
        cases h
        dsimp only
        rw [List.getLast?_eq_getElem?, List.length_set,
          show ((s.stack.length : Int) - 1).toNat = s.stack.length - 1 by omega,
          List.getElem?_set_self (by omega)]
      · cases h
    have hname : d + (ip.off + (1 + w.bytes : Nat)) = (offset pieces j : Nat) := by omega
    rw [hname] at last hrun
    refine ⟨some cell, ?_⟩
    cases r with
    | true =>
      exact last s5 hrun
    | false =>
      change (pushUpOnly none >>= fun _ => _) s5 = _ at hrun
      rw [M.bind_eq_ok] at hrun
      obtain ⟨_, s6, -, hrun⟩ := hrun
      exact last s6 hrun
  · cases hrun

/-! ### A jump that misses -/

/-- Two strings that are pushed and two jumps over them. -/
def missingProgram : List Ins :=
  [.jump 0, .pushString 123 (List.replicate 123 0), .jump 1, .label 0,
    .pushString 126 (List.replicate 126 0), .label 1, .halt]

/-- The bytecode of `missingProgram`. -/
def missingCode : Bytes :=
  [56, 0, 127, 1, 123] ++ List.replicate 123 0 ++ [55, 128, 1, 126] ++ List.replicate 126 0 ++ [165]

/-- C24 is violated: a program of 260 bytes, in order, whose second jump can not land on its label,
however the code is cut into pieces. -/
theorem C24_jump_misses_its_label :
    ∃ (program : List Ins) (bytes : Bytes), InOrder 2 program ∧ (∀ i ∈ program, InFormat i) ∧
      assemble {} 2 program = .ok bytes ∧ rewritten {} program = program ∧
      ¬ ∃ pieces, Pieces false program bytes pieces ∧ AllLand program pieces := by
  refine ⟨missingProgram, missingCode, ⟨by decide +kernel, ?_, ?_, by decide +kernel, by decide +kernel⟩,
    ?_, by decide +kernel, by decide +kernel, ?_⟩
  · intro l hl
    simp [missingProgram] at hl
    omega
  · intro j j' l h1 h2
    have k1 := (List.getElem?_eq_some_iff.1 h1).1
    have k2 := (List.getElem?_eq_some_iff.1 h2).1
    have hl : l < 2 := by
      have := List.mem_of_getElem? h1
      simp [missingProgram] at this
      omega
    have : ∀ (j j' : Fin 7) (l : Fin 2), missingProgram[j.1]? = some (Ins.label l.1) →
        missingProgram[j'.1]? = some (Ins.label l.1) → j.1 = j'.1 := by decide +kernel
    exact this ⟨j, k1⟩ ⟨j', k2⟩ ⟨l, hl⟩ h1 h2
  · intro i hi
    simp only [missingProgram, List.mem_cons, List.not_mem_nil, or_false] at hi
    rcases hi with rfl | rfl | rfl | rfl | rfl | rfl | rfl
    all_goals first | exact trivial | exact ⟨by decide +kernel, by decide +kernel⟩
  · rintro ⟨pieces, hp, hall⟩
    have hlen : pieces.length = 7 := hp.length
    match pieces, hlen with
    | [p0, p1, p2, p3, p4, p5, p6], _ =>
      have hfl : p0 ++ (p1 ++ (p2 ++ (p3 ++ (p4 ++ (p5 ++ p6))))) = missingCode := by
        have := hp.flatten
        simpa using this
      obtain ⟨_, w0, d0, m0, e0, g0, f0, -⟩ := hall 0 (.jump 0) 0 3 rfl rfl trivial rfl
      cases e0
      have f0 := f0 (p1 ++ (p2 ++ (p3 ++ (p4 ++ (p5 ++ p6)))))
      rw [hfl] at f0
      have x0 : decode missingCode = some (.jump 127, missingCode.drop 3) := by decide +kernel
      rw [x0] at f0
      simp only [Option.some.injEq, Prod.mk.injEq] at f0
      have f1 := hp.plain 1 _ p1 _ rfl rfl rfl ⟨by decide +kernel, by decide +kernel⟩ trivial (p2 ++ (p3 ++ (p4 ++ (p5 ++ p6))))
      rw [← f0.2] at f1
      have x1 : decode (missingCode.drop 3) =
          some (.pushString (List.replicate 123 0), missingCode.drop 128) := by decide +kernel
      rw [x1] at f1
      simp only [Option.some.injEq, Prod.mk.injEq] at f1
      obtain ⟨_, w2, d2, m2, e2, g2, f2, y2⟩ := hall 2 (.jump 1) 1 5 rfl rfl trivial rfl
      cases e2
      have f2 := f2 (p3 ++ (p4 ++ (p5 ++ p6)))
      rw [← f1.2] at f2
      have x2 : decode (missingCode.drop 128) = some (.jump (-128), missingCode.drop 130) := by decide +kernel
      rw [x2] at f2
      simp only [Option.some.injEq, Prod.mk.injEq] at f2
      rw [← f2.1] at y2
      simp only [landing, Option.some.injEq] at y2
      have hmono := pos_mono [p0, p1, p2, p3, p4, p5, p6] (j := 3) (k := 5) (by omega)
      change ((pos [p0, p1, p2, p3, p4, p5, p6] 3 : Nat) : Int) + _ = (pos [p0, p1, p2, p3, p4, p5, p6] 5 : Nat) at y2
      omega

/-! ### Examples -/

/-- A loop with a conditional exit, a call, a function and text. -/
def sampleProgram : List Ins :=
  [.label 0, .nil, .brnz 1 1, .pushClosure false 2 1 [1, 2], .call 2 0, .jump 0, .label 2,
    .pushString 3 [97, 98, 99], .pop 1, .return_ 0, .label 1, .halt]

example : assemble {} 3 sampleProgram = .ok
    [code .nil .w8, code .brnz .w8, 22, 1, code .pushClosure .w8, 18, 1, 0, 0, 0, 2, 0, 0, 0, 1,
      0, 0, 0, 2, code .call .w8, 3, 0, code .jump .w8, 232, code .return0 .w8, code .halt .w8] := by
  decide +kernel
example : ∃ bytes, assemble { jumps := false } 3 sampleProgram = .ok bytes ∧ bytes.length = 38 := by
  exact ⟨[code .nil .w8, code .brnz .w32, 0, 0, 0, 31, 1, code .pushClosure .w32, 0, 0, 0, 24, 1, 0, 0, 0, 2, 0, 0, 0, 1,
      0, 0, 0, 2, code .call .w32, 0, 0, 0, 6, 0, code .jump .w32, 255, 255, 255, 220, code .return0 .w8, code .halt .w8], by
    decide +kernel, rfl⟩
example : LabelsDefined (rewritten {} sampleProgram) := by
  have h : rewritten {} sampleProgram =
    [.label 0, .nil, .brnz 1 1, .pushClosure false 2 1 [1, 2], .call 2 0, .jump 0, .label 2,
    .internalNop, .internalNop, .return_ 0, .label 1, .halt] := by decide +kernel
  rw [h]
  intro k i l hi hl
  have := List.mem_of_getElem? hi
  simp only [List.mem_cons, List.not_mem_nil, or_false] at this
  rcases this with rfl | rfl | rfl | rfl | rfl | rfl | rfl | rfl | rfl | rfl | rfl | rfl <;> cases hl <;> simp
example : InOrder 3 sampleProgram := by
  refine ⟨by decide +kernel, ?_, ?_, by decide +kernel, by decide +kernel⟩
  · intro l hl
    simp [sampleProgram] at hl
    omega
  · intro j j' l h1 h2
    have k1 := (List.getElem?_eq_some_iff.1 h1).1
    have k2 := (List.getElem?_eq_some_iff.1 h2).1
    have hl : l < 3 := by
      have := List.mem_of_getElem? h1
      simp [sampleProgram] at this
      omega
    have : ∀ (j j' : Fin 12) (l : Fin 3), sampleProgram[j.1]? = some (Ins.label l.1) →
        sampleProgram[j'.1]? = some (Ins.label l.1) → j.1 = j'.1 := by decide +kernel
    exact this ⟨j, k1⟩ ⟨j', k2⟩ ⟨l, hl⟩ h1 h2
/- `AllLand` and `HasCode` hold of the code that `C24_short_code_partial` gives for this program, in a
machine that has just been handed it. -/
example : HasCode { heap := [.bytecode (some ⟨0, missingCode⟩) 260], free := [] } ⟨0, 0, 0⟩ missingCode :=
  ⟨_, _, rfl, rfl, rfl⟩

#print axioms C24_lands_iff_in_reach_partial
#print axioms C24_short_code_partial
#print axioms C24_fixed_size
#print axioms C24_assembles
#print axioms C24_execution
#print axioms C24_jump
#print axioms C24_branch
#print axioms C24_call
#print axioms C24_closure
#print axioms C24_jump_misses_its_label

end DuckLisp.Props
