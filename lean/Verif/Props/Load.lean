import Verif.Spec.Load
import Verif.Props.Reader
import Verif.Props.Compile.Session

/-!
# C49: programs given as texts
-/

namespace DuckLisp.Props

open DuckLisp DuckLisp.VM DuckLisp.Asm DuckLisp.Compile DuckLisp.Spec DuckLisp.Reader DuckLisp.Load

theorem stops_append {e : Ast} {post : Bytes} (h : Stops e post) (b : Byte) : Stops e (post ++ [b]) := by
  cases e <;> first
    | trivial
    | exact List.append_ne_nil_of_left_ne_nil h _
    | (obtain ⟨c, t, rfl, hc⟩ := h; exact ⟨c, t ++ [b], rfl, hc⟩)

theorem space_blank (c : Byte) : DlString.isSpace c = blank c := rfl

theorem trims {e : Ast} {toDouble : Bytes → Option UInt64} {sep w post text : Bytes} (hsep : Sep sep) (hw : Written toDouble e w)
    (hpost : Stops e post) (ht : text = sep ++ w ++ post) (beyond : Byte) :
    ∃ sep' post', trim text beyond = some (sep' ++ w ++ post') ∧ Sep sep' ∧ Stops e post' := by
  subst ht
  cases hsep with
  | nil =>
    obtain ⟨c, t, rfl, hc, -⟩ := written_head hw
    exact ⟨[], post, by simp [trim, space_blank, hc], .nil, hpost⟩
  | @blank c sep hc hs =>
    exact ⟨sep, post ++ [beyond], by simp [trim, space_blank, hc], hs, stops_append hpost beyond⟩
  | @comment body c sep hb hc hs =>
    exact ⟨_, post, by simp [trim, space_blank, show blank 59 = false by decide], .comment body c hb hc hs, hpost⟩

/-- C49: from a text that holds a program, however it is laid out, that program is compiled: nothing depends on white
space and comments, on what comes after the program, and on what is in memory after the text. -/
theorem C49_loads (cfg : Load.Config) (hact : NoActions cfg.reader) (e : Ast) (text : Bytes) (beyond : Byte) (s : Load.State)
    (ht : ProgramText cfg.reader.arith e text) (hh : height e < cfg.reader.maxDepth) :
    loadString cfg text beyond s = compileProgram cfg (postprocess e) { s with reader := { s.reader with depth := 0 } } := by
  obtain ⟨sep, w, post, hsep, hw, hpost, ht⟩ := ht
  obtain ⟨sep', post', h1, h2, h3⟩ := trims hsep hw hpost ht beyond
  have := C09_read cfg.reader hact hw [] sep' post' h2 h3 hh s.reader
  simp only [List.nil_append, List.length_nil] at this
  simp only [loadString, h1, this]

/-- C49: the two ways to write a program give the same code. -/
theorem C49_layout (cfg : Load.Config) (hact : NoActions cfg.reader) (e : Ast) (text text' : Bytes) (beyond beyond' : Byte)
    (s : Load.State) (ht : ProgramText cfg.reader.arith e text) (ht' : ProgramText cfg.reader.arith e text')
    (hh : height e < cfg.reader.maxDepth) : loadString cfg text beyond s = loadString cfg text' beyond' s := by
  rw [C49_loads cfg hact e text beyond s ht hh, C49_loads cfg hact e text' beyond' s ht' hh]

theorem compileProgram_code {cfg : Load.Config} {e : Ast} {s s' : Load.State} {bytes : Bytes}
    (h : compileProgram cfg e s = .code bytes s') :
    compileAST cfg.compiler cfg.fuel e s.compiler.renew = .ok () s'.compiler ∧
      assemble cfg.assembler s'.compiler.scopes.runtime.labelNumber s'.compiler.assembly = .ok bytes := by
  unfold compileProgram at h
  cases hc : compileAST cfg.compiler cfg.fuel e s.compiler.renew with
  | ok u c =>
    rw [hc] at h
    simp only at h
    cases ha : assemble cfg.assembler c.scopes.runtime.labelNumber c.assembly with
    | ok b =>
      rw [ha] at h
      cases h
      exact ⟨rfl, ha⟩
    | _ => rw [ha] at h; cases h
  | _ => rw [hc] at h; cases h

theorem loadsAll_compiles {cfg : Load.Config} {D : Dialect} {assignable : Bytes → Bool} (hact : NoActions cfg.reader)
    {s s' : Load.State} {texts : List (Bytes × Byte)} {es : List Ast} {codes : List Bytes}
    (h : LoadsAll cfg D assignable s texts es codes s') :
    CompilesAll cfg.compiler D cfg.fuel cfg.assembler assignable s.compiler es codes s'.compiler := by
  induction h with
  | nil => exact .nil
  | cons ht hh he hl hlo _ ih =>
    rw [C49_loads cfg hact _ _ _ _ ht hh] at hl
    exact .cons he (compileProgram_code hl).1 hlo ih

/-- C49: executing what is loaded from a text gives what evaluating the program in it gives: its value, its error or no
end; or memory runs out.

What is missing is as in `C19_evaluation_partial`. -/
theorem C49_evaluation_partial (cfg : Load.Config) (hact : NoActions cfg.reader) (D : Dialect) (e : Ast) (text : Bytes)
    (beyond : Byte) (s s' : Load.State) (bytes : Bytes) (env : VM.Env) (vm : VM) (rounds : Nat) (assignable : Bytes → Bool)
    (globals : Eval.Block) (hcb : KeywordsFree cfg.compiler) (hcf : CallsFree cfg.compiler D)
    (ht : ProgramText cfg.reader.arith e text) (hh : height e < cfg.reader.maxDepth) (he : Term D false (postprocess e))
    (hs : Fresh s.compiler.renew) (hl : loadString cfg text beyond s = .code bytes s')
    (hlo : Loadable cfg.assembler assignable s'.compiler bytes) (hglobals : HasGlobals (known s.compiler.symbols) vm globals)
    (hvm : Good vm) (hup : vm.upStack.length = vm.stack.length) (hfree : ¬ Full vm) :
    CarriesOut env (reading s'.compiler.symbols) rounds bytes vm
      (Eval.program ⟨env.fl, true, assignable⟩ rounds globals (postprocess e)) ∨ MemoryRunsOut env bytes vm := by
  rw [C49_loads cfg hact _ _ _ _ ht hh] at hl
  exact C19_memory_partial cfg.compiler D cfg.fuel (postprocess e) _ _ cfg.assembler bytes env vm rounds assignable globals hcb hcf
    he hs (compileProgram_code hl).1 hlo.gensyms hlo.assembled hlo.jumps hlo.short hlo.fits hlo.garbage hlo.numbers hglobals hvm
    hup hfree

/-- C49: texts that are loaded and executed one after the other leave the values and the globals that evaluating the
programs in them, in this order, gives, or memory runs out on the way.

What is missing is as in `C19_evaluation_partial`. -/
theorem C49_session_partial (cfg : Load.Config) (hact : NoActions cfg.reader) (D : Dialect) (texts : List (Bytes × Byte))
    (es : List Ast) (codes : List Bytes) (s s' : Load.State) (env : VM.Env) (vm : VM) (rounds : Nat)
    (assignable : Bytes → Bool) (globals globals' : Eval.Block) (vs : List Eval.Value)
    (hcb : KeywordsFree cfg.compiler) (hcf : CallsFree cfg.compiler D) (hs : Fresh s.compiler.renew)
    (hl : LoadsAll cfg D assignable s texts es codes s') (hglobals : HasGlobals (known s.compiler.symbols) vm globals)
    (hvm : Good vm) (hup : vm.upStack.length = vm.stack.length)
    (hv : evaluateAll ⟨env.fl, true, assignable⟩ rounds globals es = .ok (vs, globals')) :
    (∃ vm', RunsAll env (reading s'.compiler.symbols) vm codes vs vm' ∧
      HasGlobals (known s'.compiler.symbols) vm' globals' ∧ Good vm' ∧ vm'.upStack.length = vm'.stack.length ∧
      vm'.stack.take vm.stack.length = vm.stack) ∨
    MemoryRunsOutIn env vm codes :=
  C19_session_partial cfg.compiler D cfg.fuel es s.compiler s'.compiler cfg.assembler codes env vm rounds assignable globals
    globals' vs hcb hcf hs (loadsAll_compiles hact hl) hglobals hvm hup hv

/-- C49: only the first form of a text is compiled, whatever follows an expression: nothing is reported. -/
theorem C49_rest_ignored (cfg : Load.Config) (hact : NoActions cfg.reader) (es : List Ast) (text rest : Bytes)
    (beyond beyond' : Byte) (s : Load.State) (ht : ProgramText cfg.reader.arith (.expression es) text)
    (hh : height (.expression es) < cfg.reader.maxDepth) :
    loadString cfg (text ++ rest) beyond s = loadString cfg text beyond' s := by
  refine C49_layout cfg hact _ _ _ _ _ s ?_ ht hh
  obtain ⟨sep, w, post, h1, h2, -, rfl⟩ := ht
  exact ⟨sep, w, post ++ rest, h1, h2, trivial, by simp⟩

/-! ### Two texts

`(global x 5)`, and then `(+ x 1)` after an empty line and before a comment.  The compiler knows the names `a` to `x`. -/

private def nm (x : String) : Ast := .identifier (ascii x)

private def setting : Ast := .expression [nm "global", nm "x", .int 5]

private def using_ : Ast := .expression [nm "+", nm "x", .int 1]

private def informed : CState :=
  { CState.init with symbols := Tables.createAll .init ((List.range 24).map fun k => [UInt8.ofNat (97 + k)]) }

private theorem informed_fresh : Fresh informed.renew := ⟨rfl, rfl, rfl, ⟨_, rfl⟩, ⟨[], by simp, rfl⟩, ⟨[], by simp, rfl⟩⟩

private def onlyX (x : Bytes) : Bool := x == ascii "x"

private def config : Load.Config := ⟨exampleConfig, ⟨Trie.init (-1), 100⟩, ⟨true, true, true⟩, 100⟩

private def state : Load.State := ⟨{}, informed⟩

/-- Load a text, and check everything. -/
private def loadNext (text : Bytes) (s : Load.State) : Option (Load.State × Bytes) :=
  match loadString config text 0 s with
  | .code bytes s1 =>
    let c := s1.compiler
    if c.gensymNumber ≤ 2 ^ 64 ∧ room c.assembly ≤ 255 ∧ c.assembly.length < 2 ^ 31 ∧ (∀ i ∈ c.assembly, LiteralsFit i) ∧
        noGarbage true c.assembly = true ∧ bytes.length ≤ 126 ∧
        (room c.assembly : Int) ≤ Tables.nameToValue c.symbols (ascii "x") then some (s1, bytes) else none
  | _ => none

private theorem loadNext_ok {e : Ast} {text : Bytes} {s s1 : Load.State} {bytes : Bytes} (he : Form (postprocess e))
    (ht : ProgramText exampleConfig.arith e text) (hh : height e < 10)
    (hs : Fresh s.compiler.renew) (h : loadNext text s = some (s1, bytes)) :
    loadString config text 0 s = .code bytes s1 ∧ Loadable ⟨true, true, true⟩ onlyX s1.compiler bytes ∧
      Fresh s1.compiler.renew := by
  unfold loadNext at h
  cases hl : loadString config text 0 s with
  | code b s2 =>
    rw [hl] at h
    simp only at h
    split at h
    · rename_i hk
      cases h
      obtain ⟨h1, h2, h7, h3, h4, h5, h6⟩ := hk
      have hl' := hl
      rw [C49_loads config (fun _ => rfl) e text 0 s ht hh] at hl'
      obtain ⟨hc, ha⟩ := compileProgram_code hl'
      refine ⟨rfl, ⟨h1, ha, C19_jumps _ _ _ _ _ _ _ _ (keywordsFree_none 100) (callsFree_core _) he hs hc h1 ha (.inr ⟨rfl, h5⟩),
        h7, C19_small_programs_fit _ _ _ _ _ _ (keywordsFree_none 100) (callsFree_core _) he hs hc h1 h2 h3,
        fun _ => noGarbage_of h4, fun x hx => ?_⟩, (fresh_after hs hc).1⟩
      obtain rfl : x = ascii "x" := by simpa [onlyX] using hx
      exact h6
    · cases h
  | _ => rw [hl] at h; cases h

/-- Some arithmetic; the programs have no use for it. -/
private def fl0 : FloatOps := ⟨fun a _ => a, fun a _ => a, fun a _ => a, fun a _ => a, fun _ => 0⟩

private def text1 : Bytes := ascii "(global x 5)"

private def text2 : Bytes := ascii "\n (+ x 1) ; x is global"

private theorem name_of {x : String} {c : Byte} {t : Bytes} (h : ascii x = c :: t)
    (hs : (∀ y ∈ c :: t, delimiter y = false) ∧ decimal c = false ∧ c ≠ 45 ∧ c ≠ 46 ∧ c ≠ 35 ∧
      ¬ [116, 114, 117, 101] <+: c :: t ∧ ¬ [102, 97, 108, 115, 101] <+: c :: t) : Printable (nm x) := by
  show Name (ascii x)
  rw [h]
  exact name_of_first hs.1 hs.2.1 hs.2.2.1 hs.2.2.2.1 hs.2.2.2.2.1 hs.2.2.2.2.2.1 hs.2.2.2.2.2.2

private theorem x_name : Printable (nm "x") := name_of (c := 120) (t := []) (by decide +kernel) (by decide +kernel)

private theorem text1_holds : ProgramText exampleConfig.arith setting text1 := by
  have h := print_written (toDouble := valueOf exampleConfig.arith) setting ⟨
    name_of (c := 103) (t := [108, 111, 98, 97, 108]) (by decide +kernel) (by decide +kernel), x_name,
    (show (5 : Int).natAbs < 2 ^ 63 by decide), trivial⟩
  exact ⟨[], _, [], .nil, h, trivial, by decide +kernel⟩

private theorem text2_holds : ProgramText exampleConfig.arith using_ text2 := by
  have h := print_written (toDouble := valueOf exampleConfig.arith) using_ ⟨
    name_of (c := 43) (t := []) (by decide +kernel) (by decide +kernel), x_name,
    (show (1 : Int).natAbs < 2 ^ 63 by decide), trivial⟩
  exact ⟨[10, 32], _, ascii " ; x is global", .blank _ (by decide) (.blank _ (by decide) .nil), h, trivial, by decide +kernel⟩

/-- In a new machine the first text leaves 5 and the second one 6, and `x` is 5 in the end, or memory runs out. -/
example (env : VM.Env) (hfl : env.fl = fl0) (m : Nat) (hm : m + 1 < 2 ^ 60) : ∃ s' codes,
    LoadsAll config .core onlyX state [(text1, 0), (text2, 0)] [setting, using_] codes s' ∧
    ((∃ vm', RunsAll env (reading s'.compiler.symbols) (init (m + 1)) codes [.int 5, .int 6] vm' ∧
      HasGlobals (known s'.compiler.symbols) vm' [(ascii "x", .int 5)]) ∨ MemoryRunsOutIn env (init (m + 1)) codes) := by
  have hset : Form (postprocess setting) := .global _ _ _ (.inl rfl) (.int _)
  have hread : Form using_ := .operator _ "+" _ (by decide) (.inl rfl) (by
    simp only [List.forall_mem_cons, List.not_mem_nil, false_imp_iff, implies_true, and_true]
    exact ⟨.name _ nofun, .int _⟩)
  obtain ⟨⟨s2, b2⟩, h⟩ := Option.isSome_iff_exists.1
    (by decide +kernel : ((loadNext text1 state).bind fun r => loadNext text2 r.1).isSome = true)
  obtain ⟨⟨s1, b1⟩, h1, h2⟩ := Option.bind_eq_some_iff.1 h
  obtain ⟨c1, l1, f1⟩ := loadNext_ok hset text1_holds (by decide +kernel) informed_fresh h1
  obtain ⟨c2, l2, -⟩ := loadNext_ok (by rw [show postprocess using_ = using_ from rfl]; exact hread) text2_holds (by decide +kernel) f1 h2
  have hl : LoadsAll config .core onlyX state [(text1, 0), (text2, 0)] [postprocess setting, postprocess using_] [b1, b2] s2 :=
    .cons text1_holds (by decide +kernel) hset c1 l1 (.cons text2_holds (by decide +kernel) hread c2 l2 .nil)
  refine ⟨s2, _, hl, ?_⟩
  have hv : evaluateAll ⟨env.fl, true, onlyX⟩ 10 [] [postprocess setting, postprocess using_] =
      .ok ([.int 5, .int 6], [(ascii "x", .int 5)]) := by rw [hfl]; decide +kernel
  rcases C49_session_partial config (fun _ => rfl) _ _ _ _ _ _ env (init (m + 1)) 10 onlyX [] _ _ (keywordsFree_none 100)
    (callsFree_core _) informed_fresh hl noGlobals (init_good _ hm) rfl hv with ⟨vm', h1, h2, -⟩ | h
  · exact .inl ⟨vm', h1, h2⟩
  · exact .inr h

/-! ### Where C49 fails -/

/-- **C49 fails for texts that begin with white space and end with a name**: ` x` is the variable `x` if the byte in memory
after the text is 0, and the variable `xy` if it is `y`: the reader is given all but the first byte, and that byte. -/
theorem C49_reads_beyond (compiler : Compile.Config) (assembler : Asm.Options) (fuel : Nat) (c : CState) :
    let cfg : Load.Config := ⟨exampleConfig, compiler, assembler, fuel⟩
    loadString cfg (ascii " x") 0 ⟨{}, c⟩ = compileProgram cfg (.identifier (ascii "x")) ⟨{}, c⟩ ∧
    loadString cfg (ascii " x") 121 ⟨{}, c⟩ = compileProgram cfg (.identifier (ascii "xy")) ⟨{}, c⟩ := by
  rw [show ascii " x" = [32, 120] by decide +kernel, show ascii "x" = [120] by decide +kernel,
    show ascii "xy" = [120, 121] by decide +kernel]
  exact ⟨by with_unfolding_all rfl, by with_unfolding_all rfl⟩

/-- **C49 fails for the empty text**: the first byte of the text is read, and there is none. -/
theorem C49_empty_text (cfg : Load.Config) (beyond : Byte) (s : Load.State) : loadString cfg [] beyond s = .ub := rfl

#print axioms C49_loads
#print axioms C49_layout
#print axioms C49_evaluation_partial
#print axioms C49_session_partial
#print axioms C49_rest_ignored
#print axioms C49_reads_beyond
#print axioms C49_empty_text

end DuckLisp.Props
