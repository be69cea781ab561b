import Verif.Props.Compile.Eval

/-!
# C19: programs one after the other
-/

namespace DuckLisp.Props

open DuckLisp DuckLisp.VM DuckLisp.Asm DuckLisp.Compile DuckLisp.Spec DuckLisp.Reader

theorem compilesAll_numbers {cfg : Compile.Config} {D : Dialect} {n : Nat} {opt : Options} {assignable : Bytes → Bool} {s s' : CState}
    {es : List Ast} {codes : List Bytes} (h : CompilesAll cfg D n opt assignable s es codes s') (hs : Fresh s.renew) :
    ∀ x id, numbers s.symbols x id → numbers s'.symbols x id := by
  induction h with
  | nil => exact fun _ _ h => h
  | cons _ hc _ _ ih =>
    obtain ⟨h1, h2⟩ := fresh_after hs hc
    exact fun x id hx => ih h1 x id (h2 x id hx)

/-- C19: programs that are compiled by one compiler and executed by one machine, one after the other, leave the values
and the globals that evaluating them in this order gives: what a program sets is what later programs read.  At some
point memory may run out.

What is missing is as in `C19_evaluation_partial`. -/
theorem C19_session_partial (cfg : Compile.Config) (D : Dialect) (n : Nat) (es : List Ast) (s s' : CState) (opt : Options)
    (codes : List Bytes) (env : VM.Env) (vm : VM) (rounds : Nat) (assignable : Bytes → Bool)
    (globals globals' : Eval.Block) (vs : List Eval.Value)
    (hcb : KeywordsFree cfg) (hcf : CallsFree cfg D) (hs : Fresh s.renew) (hc : CompilesAll cfg D n opt assignable s es codes s')
    (hglobals : HasGlobals (known s.symbols) vm globals)
    (hvm : Good vm) (hup : vm.upStack.length = vm.stack.length)
    (hv : evaluateAll ⟨env.fl, true, assignable⟩ rounds globals es = .ok (vs, globals')) :
    (∃ vm', RunsAll env (reading s'.symbols) vm codes vs vm' ∧ HasGlobals (known s'.symbols) vm' globals' ∧
      Good vm' ∧ vm'.upStack.length = vm'.stack.length ∧ vm'.stack.take vm.stack.length = vm.stack) ∨
    MemoryRunsOutIn env vm codes := by
  induction hc generalizing vm globals vs with
  | nil =>
    cases hv
    exact .inl ⟨vm, .nil, hglobals, hvm, hup, List.take_length⟩
  | @cons s e s1 bytes es codes s2 he hcomp hl hrest ih =>
    by_cases hfull : Full vm
    · exact .inr (.loading hfull)
    unfold evaluateAll at hv
    have h := C19_memory_partial cfg D n e s.renew s1 opt bytes env vm rounds assignable globals hcb hcf he hs hcomp hl.gensyms
      hl.assembled hl.jumps hl.short hl.fits hl.garbage hl.numbers hglobals hvm hup hfull
    rcases h with h | h
    · cases hp : Eval.program ⟨env.fl, true, assignable⟩ rounds globals e with
      | ok r =>
        obtain ⟨v, globals1⟩ := r
        rw [hp] at h hv
        obtain ⟨N, vm1, h1, h2, h3, h4, h5, o, h6, h7, h8⟩ := h
        change Eval.Result.bind (evaluateAll _ rounds (globals1.map fun (x, v) => (x, v.forget)) es) _ = _ at hv
        cases hq : evaluateAll ⟨env.fl, true, assignable⟩ rounds (globals1.map fun (x, v) => (x, v.forget)) es with
        | ok r =>
          obtain ⟨vs1, globals2⟩ := r
          rw [hq] at hv
          cases hv
          have hf := (fresh_after hs hcomp).1
          rcases ih vm1 _ vs1 hf (hasGlobals_forget (fun _ _ h => h) h8) h2 h3 hq with ⟨vm', g1, g2, g3, g4, g5⟩ | hm
          · refine .inl ⟨vm', .cons ⟨N, h1⟩ h6 (holds_mono (R := reading s1.symbols) (R' := reading s2.symbols) (compilesAll_numbers hrest hf) (fun _ _ _ _ h => h) h7) g1, g2, g3, g4, ?_⟩
            have := congrArg (List.take vm.stack.length) g5
            rwa [List.take_take, Nat.min_eq_left (by omega), h4] at this
          · exact .inr (.later ⟨N, h1⟩ hm)
        | _ => rw [hq] at hv; cases hv
      | _ => rw [hp] at hv; cases hv
    · exact .inr (.running h)

/-! ### Two programs

`(global x 5)` and then `(+ x 1)`, compiled by a compiler that knows the names `a` to `x`: the number of `x` is 23. -/

private def nm (x : String) : Ast := .identifier (ascii x)

private def setting : Ast := .expression [nm "global", nm "x", .int 5]

private def using_ : Ast := .expression [nm "+", nm "x", .int 1]

/-- A compiler that knows the names. -/
private def informed : CState :=
  { CState.init with symbols := Tables.createAll .init ((List.range 24).map fun k => [UInt8.ofNat (97 + k)]) }

private theorem informed_fresh : Fresh informed.renew := ⟨rfl, rfl, rfl, ⟨_, rfl⟩, ⟨[], by simp, rfl⟩, ⟨[], by simp, rfl⟩⟩

private def onlyX (x : Bytes) : Bool := x == ascii "x"

/-- Compile a program, and check everything. -/
private def compileNext (e : Ast) (s : CState) : Option (CState × Bytes) :=
  match compileAST ⟨Trie.init (-1), 100⟩ 100 e s.renew with
  | .ok () s1 => match assemble ⟨true, true, true⟩ s1.scopes.runtime.labelNumber s1.assembly with
    | .ok bytes => if s1.gensymNumber ≤ 2 ^ 64 ∧ room s1.assembly ≤ 255 ∧ s1.assembly.length < 2 ^ 31 ∧ (∀ i ∈ s1.assembly, LiteralsFit i) ∧
        noGarbage true s1.assembly = true ∧ bytes.length ≤ 126 ∧
        (room s1.assembly : Int) ≤ Tables.nameToValue s1.symbols (ascii "x") then some (s1, bytes) else none
    | _ => none
  | _ => none

private theorem compileNext_ok {e : Ast} {s s1 : CState} {bytes : Bytes} (he : Form e) (hs : Fresh s.renew)
    (h : compileNext e s = some (s1, bytes)) :
    compileAST ⟨Trie.init (-1), 100⟩ 100 e s.renew = .ok () s1 ∧ Loadable ⟨true, true, true⟩ onlyX s1 bytes := by
  unfold compileNext at h
  split at h
  · rename_i hc
    split at h
    · rename_i hb
      split at h
      · rename_i hk
        cases h
        obtain ⟨h1, h2, h7, h3, h4, h5, h6⟩ := hk
        refine ⟨hc, h1, hb, C19_jumps _ _ _ _ _ _ _ _ (keywordsFree_none 100) (callsFree_core _) he hs hc h1 hb (.inr ⟨rfl, h5⟩), h7,
          C19_small_programs_fit _ _ _ _ _ _ (keywordsFree_none 100) (callsFree_core _) he hs hc h1 h2 h3, fun _ => noGarbage_of h4,
          fun x hx => ?_⟩
        obtain rfl : x = ascii "x" := by simpa [onlyX] using hx
        exact h6
      · cases h
    · cases h
  · cases h

/-- Some arithmetic; the programs have no use for it. -/
private def fl0 : FloatOps := ⟨fun a _ => a, fun a _ => a, fun a _ => a, fun a _ => a, fun _ => 0⟩

/-- In a new machine the first program leaves 5 and the second one 6, and `x` is 5 in the end, or memory runs out. -/
example (env : VM.Env) (hfl : env.fl = fl0) (m : Nat) (hm : m + 1 < 2 ^ 60) : ∃ s' codes,
    CompilesAll ⟨Trie.init (-1), 100⟩ .core 100 ⟨true, true, true⟩ onlyX informed [setting, using_] codes s' ∧
    ((∃ vm', RunsAll env (reading s'.symbols) (init (m + 1)) codes [.int 5, .int 6] vm' ∧
      HasGlobals (known s'.symbols) vm' [(ascii "x", .int 5)]) ∨ MemoryRunsOutIn env (init (m + 1)) codes) := by
  have hset : Form setting := .global _ _ _ (.inl rfl) (.int _)
  have hread : Form using_ := .operator _ "+" _ (by decide) (.inl rfl) (by
    simp only [List.forall_mem_cons, List.not_mem_nil, false_imp_iff, implies_true, and_true]
    exact ⟨.name _ nofun, .int _⟩)
  obtain ⟨⟨s2, b2⟩, h⟩ := Option.isSome_iff_exists.1
    (by decide +kernel : ((compileNext setting informed).bind fun r => compileNext using_ r.1).isSome = true)
  obtain ⟨⟨s1, b1⟩, h1, h2⟩ := Option.bind_eq_some_iff.1 h
  obtain ⟨c1, l1⟩ := compileNext_ok hset informed_fresh h1
  obtain ⟨c2, l2⟩ := compileNext_ok hread (fresh_after informed_fresh c1).1 h2
  have hc : CompilesAll ⟨Trie.init (-1), 100⟩ .core 100 ⟨true, true, true⟩ onlyX informed [setting, using_] [b1, b2] s2 :=
    .cons hset c1 l1 (.cons hread c2 l2 .nil)
  refine ⟨s2, _, hc, ?_⟩
  have hv : evaluateAll ⟨env.fl, true, onlyX⟩ 10 [] [setting, using_] =
      .ok ([.int 5, .int 6], [(ascii "x", .int 5)]) := by rw [hfl]; decide +kernel
  rcases C19_session_partial _ _ _ _ _ _ _ _ env (init (m + 1)) 10 onlyX [] _ _ (keywordsFree_none 100) (callsFree_core _) informed_fresh hc
    noGlobals (init_good _ hm) rfl hv with ⟨vm', h1, h2, -⟩ | h
  · exact .inl ⟨vm', h1, h2⟩
  · exact .inr h

#print axioms C19_session_partial

end DuckLisp.Props
