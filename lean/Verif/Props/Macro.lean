import Verif.Proof.MacroCall
import Verif.Props.AstObj
import Verif.Props.VM.Calls
import Verif.Props.Load

/-!
# C54: macros and compile-time code

The theorems about the compiler without macros hold for the compiler with them if a program has no compile-time code
(`C54_without_macros`).  The call of a macro is a call of its function with the arguments as they are written, and the
result is compiled in place of the call (`C54_expansion_partial`).
-/

namespace DuckLisp.Props

open DuckLisp.VM DuckLisp.Reader DuckLisp.Spec DuckLisp.Compile DuckLisp.Asm DuckLisp.Macro

/-- C54: a text whose program has neither macros nor compile-time code is compiled as if there were no compile-time machine:
the result does not depend on the machine or on its settings, and the machine stays as it is.  What is proved of
`Load.loadString` holds for the whole compiler. -/
theorem C54_without_macros (cfg : Load.Config) (c : Setting) (source : Bytes) (beyond : Byte) (s : Load.State)
    (h : Load.loadString cfg source beyond s ≠ .outside) :
    Macro.loadString cfg c source beyond s = Load.loadString cfg source beyond s ∧
      ∀ bytes s', Load.loadString cfg source beyond s = .code bytes s' → s'.compiler.machine = s.compiler.machine := by
  unfold Macro.loadString Load.loadString at *
  split at h
  · exact ⟨by simp only [*], fun bytes s' h => by simp_all⟩
  · rename_i t ht
    simp only [ht]
    split at h
    · rename_i e r he
      simp only [he]
      exact compileProgram_agrees cfg c e _ h
    all_goals exact ⟨by simp only [*], fun bytes s' h => by simp_all⟩

/-- C54: the call of a macro is compiled as its expansion.  The expansion is the value, written down as a tree, that is on
top of the stack of the compiler's machine when the code of a call has been executed there; it is taken from the stack.
That code gets to a call of the function `f` of the macro, and the arguments are the data that the arguments of the macro
are as they are written, in order, unless memory runs out first.  Code, scopes and variables of the program are as they
were before when the expansion is compiled.

Missing: macros with more than 255 arguments, of which the machine is told the number modulo 256; texts of 65535 bytes and
more; arguments with parser actions or host functions in them; that the slot of the macro holds its function, which is not
so in later programs (`C54_stale_macro`). -/
theorem C54_expansion_partial (cfg : Compile.Config) (c : Setting) (n depth : Nat) (name : Bytes) (es : List Ast)
    (pushReference : Bool) (s s' : CState) (index : Option Int) (slot : Nat) (f : Obj)
    (hm : functionType name s.scopes.current = functionTypeMacro)
    (hi : getMacroFromName name s.scopes.comptime = slot) (hf : s.machine.stack[slot]? = some f)
    (hd : ∀ e ∈ es, Datum e) (hs : ∀ e ∈ es, ShortTexts e) (hn : es.length < 256)
    (hq : QuoteFree cfg s) (hsym : ∃ history, s.symbols = Tables.createAll .init history)
    (hvm : Good s.machine) (hup : s.machine.upStack.length = s.machine.stack.length) (hfree : ¬ Full s.machine)
    (h : Macro.compound cfg c (n + 2) depth (.expression (.identifier name :: es)) pushReference s = .ok index s') :
    ∃ tree s1 index' s2 code bytes vm o,
      -- the machine executes the code of the call
      assemble c.options s1.scopes.comptime.labelNumber code = .ok bytes ∧
      execute c.env n (bytes ++ [Macro.halt]) s.machine = .ok () vm ∧
      ((∀ i ∈ code, InFormat i ∧ SmallWhereNeeded i) → code.length + 1 < 2 ^ 31 → bytes.length < 2 ^ 31 →
        LeadsToCall c.env (reading s1.symbols) (bytes ++ [Macro.halt]) s.machine f es ∨
          MemoryRunsOut c.env (bytes ++ [Macro.halt]) s.machine) ∧
      -- the result is the expansion
      vm.stack.getLast? = some o ∧ Shown (fun _ _ => True) vm o tree ∧ apiPop vm = .ok () s1.machine ∧
      -- the expansion is compiled where the call was
      s1.scopes = s.scopes ∧ s1.assembly = s.assembly ∧ s1.body = s.body ∧
      Macro.compound cfg c n (depth + 1) tree false s1 = .ok index' s2 ∧ s' = { s2 with expansion := s'.expansion } ∧
      (∀ i, index' = some i → index = some i) := by
  have hdepth : ¬ depth + 1 ≥ cfg.maxDepth := fun hx => by
    rw [Macro.compound, if_pos hx] at h
    cases h
  rw [Macro.compound, if_neg hdepth] at h
  obtain ⟨j, s3, e1, h⟩ := CM.bind_inv h
  rw [Macro.expression] at e1
  simp only [Macro.dispatch] at e1
  obtain ⟨s0, _, e0, e1⟩ := CM.bind_inv e1
  cases e0
  rw [if_pos hm] at e1
  unfold genMacro at e1
  obtain ⟨tree, s1, x1, e1⟩ := CM.bind_inv e1
  obtain ⟨index', s2, x2, e1⟩ := CM.bind_inv e1
  obtain ⟨_, s4, x3, e1⟩ := CM.bind_inv e1
  obtain ⟨rfl, rfl⟩ := CM.pure_inv e1
  cases x3
  obtain ⟨code, t1, bytes, vm, o, y1, y2, y3, y4, y5, y6, -, y8, y9, y10, y11⟩ := expand_inv x1
  have hsym' : ∃ history, Tables.Holds (forCall s).symbols history := by
    obtain ⟨history, hh⟩ := hsym
    refine ⟨history, ?_⟩
    show Tables.Holds s.symbols history
    rw [hh]
    simpa using Tables.holds_createAll Tables.holds_init history
  have hq' : QuoteFree cfg (forCall s) := ⟨hq.scopes, hq.host⟩
  let _ : Keys := Keys.from s.symbols .core unclaimed_core
  obtain ⟨arguments, hc, -⟩ := callCode_inv rfl hd rfl rfl hq' y1
  have hmach : t1.machine = s.machine := hc.adds.machine
  have hscopes := hc.adds.scopes
  have hin : t1.scopes.inComptime = true := by rw [hscopes]; rfl
  have hs1 : s1.scopes = s.scopes := by
    rw [y11, hscopes]
    simp [Scopes.setCurrent, Scopes.current, forCall]
  refine ⟨tree, s1, index', s2, code, bytes, vm, o, ?_, ?_, ?_, y4, ?_, y6, hs1, y8, y9, x2, ?_, ?_⟩
  · rw [← y2, hs1, hscopes]
    rfl
  · rw [← hmach]
    exact y3
  · intro g1 g2 g3
    rw [y10]
    exact runs_call (s := forCall s) rfl hd hs hn rfl rfl hq' hsym' y1 y2 g2 g3 g1 hi hf hvm hup hfree
  · exact (C46_object_to_tree vm o tree).1 ⟨_, y5⟩
  · cases index' with
    | none =>
        obtain ⟨L, s5, z1, z2⟩ := CM.bind_inv h
        cases z1
        obtain ⟨rfl, rfl⟩ := CM.pure_inv z2
        rfl
    | some i =>
        obtain ⟨rfl, rfl⟩ := CM.pure_inv h
        rfl
  · rintro i rfl
    obtain ⟨rfl, rfl⟩ := CM.pure_inv h
    rfl

/-- C54: compile-time code is compiled and executed in the compiler's machine while the program is compiled, and its value,
written down as an expression that has this value (`C46_comptime_partial`), is compiled in its place.  The value is taken
from the stack of the machine, and is not counted among the values there any more; the code of the program is as it was
before when the value is compiled. -/
theorem C54_comptime (cfg : Compile.Config) (c : Setting) (n depth : Nat) (name : Bytes) (es : List Ast)
    (pushReference : Bool) (s s' : CState) (index : Option Int)
    (hname : generator name = some .comptime) (hfun : functionType name s.scopes.runtime = -1)
    (hhost : Trie.find cfg.callbacks name = -1) (hin : s.scopes.inComptime = false)
    (h : Macro.compound cfg c (n + 2) depth (.expression (.identifier name :: es)) pushReference s = .ok index s') :
    ∃ s1 bytes vm o tree s2 index' s3,
      -- the forms are compiled apart from the program
      noscope ⟨Macro.compound cfg c n (depth + 1), fun es => do let _ ← Macro.expression cfg c n (depth + 1) es, replaced⟩ n es
        { s with scopes := { s.scopes with inComptime := true }, assembly := [], body := some [] } = .ok () s1 ∧
      assemble c.options s1.scopes.current.labelNumber (s1.assembly ++ s1.body.getD []) = .ok bytes ∧
      -- and executed
      execute c.env n (bytes ++ [Macro.halt]) s1.machine = .ok () vm ∧ vm.stack.getLast? = some o ∧
      AstObj.objectToAST vm false n o = .ok tree ∧ apiPop vm = .ok () s2.machine ∧
      -- the value is compiled where they were
      s2.scopes = { s1.scopes.setCurrent { s1.scopes.current with localsLength := s1.scopes.current.localsLength - 1 } with
        inComptime := false } ∧ s2.assembly = s.assembly ∧ s2.body = s.body ∧
      Macro.compound cfg c n (depth + 1) tree true s2 = .ok index' s3 ∧ s' = { s3 with expansion := none } := by
  have hdepth : ¬ depth + 1 ≥ cfg.maxDepth := fun hx => by
    rw [Macro.compound, if_pos hx] at h
    cases h
  rw [Macro.compound, if_neg hdepth] at h
  obtain ⟨j, s9, e1, h⟩ := CM.bind_inv h
  rw [Macro.expression] at e1
  simp only [Macro.dispatch] at e1
  obtain ⟨s0, _, e0, e2⟩ := CM.bind_inv e1
  cases e0
  have hcur : s.scopes.current = s.scopes.runtime := by simp [Scopes.current, hin]
  rw [hcur, hfun, if_neg (by decide), if_neg (by decide), if_neg (by simp), if_neg (by simp [hhost]), hname] at e2
  obtain ⟨_, s8, e3, e4⟩ := CM.bind_inv e2
  have h8 : s' = { s8 with expansion := none } := by
    obtain ⟨_, s7, x1, x2⟩ := CM.bind_inv e4
    cases x1
    obtain ⟨rfl, rfl⟩ := CM.pure_inv x2
    obtain ⟨L, s6, z1, z2⟩ := CM.bind_inv h
    cases z1
    obtain ⟨rfl, rfl⟩ := CM.pure_inv z2
    rfl
  simp only [Macro.generate] at e3
  unfold genComptime at e3
  obtain ⟨_, _, x0, e3⟩ := CM.bind_inv e3
  cases x0
  rw [if_neg (by simp [hin])] at e3
  obtain ⟨_, t1, x1, e3⟩ := CM.bind_inv e3
  have ht1 : t1 = { s with scopes := { s.scopes with inComptime := true }, assembly := [], body := some [] } := by
    cases x1
    simp [hin]
  obtain ⟨_, s1, x2, e3⟩ := CM.bind_inv e3
  obtain ⟨_, _, x3, e3⟩ := CM.bind_inv e3
  cases x3
  obtain ⟨_, _, x3, e3⟩ := CM.bind_inv e3
  cases x3
  obtain ⟨b, s5, e5, e3⟩ := CM.bind_inv e3
  unfold assembled at e5
  obtain ⟨s6, _, e6, k6⟩ := CM.bind_inv e5
  cases e6
  obtain ⟨bytes, s7, e7, k7⟩ := CM.bind_inv k6
  obtain ⟨e7, rfl⟩ := result_inv e7
  obtain ⟨rfl, rfl⟩ := CM.pure_inv k7
  obtain ⟨o, t2, x4, e3⟩ := CM.bind_inv e3
  have h4 : ∃ vm, execute c.env n (bytes ++ [Macro.halt]) s7.machine = .ok () vm ∧ vm.stack.getLast? = some o ∧
      t2 = { s7 with machine := vm } := by
    unfold runForValue at x4
    split at x4
    · rename_i vm hvm
      unfold Macro.top at x4
      split at x4 <;> cases x4
      exact ⟨vm, hvm, by assumption, rfl⟩
    · split at x4 <;> cases x4
    · cases x4
    · cases x4
  obtain ⟨vm, y1, y2, rfl⟩ := h4
  obtain ⟨_, _, x5, e3⟩ := CM.bind_inv e3
  cases x5
  obtain ⟨tree, t3, x6, e3⟩ := CM.bind_inv e3
  obtain ⟨k11, rfl⟩ := result_inv x6
  obtain ⟨_, t4, x7, e3⟩ := CM.bind_inv e3
  obtain ⟨vm', k12, rfl⟩ := machine_inv x7
  obtain ⟨_, t5, x8, e3⟩ := CM.bind_inv e3
  obtain ⟨_, t6, x9, e3⟩ := CM.bind_inv e3
  obtain ⟨index', t7, x10, e3⟩ := CM.bind_inv e3
  obtain ⟨_, rfl⟩ := CM.pure_inv e3
  have h5 : t5 = { s7 with
      machine := vm'
      scopes := s7.scopes.setCurrent { s7.scopes.current with localsLength := s7.scopes.current.localsLength - 1 } } := by
    unfold decrease at x8
    obtain ⟨L, _, z1, z2⟩ := CM.bind_inv x8
    cases z1
    split at z2
    · cases z2
      rfl
    · cases z2
  have h6 : t6 = { t5 with scopes := { t5.scopes with inComptime := s.scopes.inComptime }, assembly := s.assembly, body := s.body } := by
    cases x9
    rfl
  refine ⟨s7, bytes, vm, o, tree, t6, index', t7, by rw [← ht1]; exact x2, e7, y1, y2, k11, ?_, ?_, ?_, ?_, x10, h8⟩
  · rw [h6, h5]
    exact k12
  · rw [h6, h5]
    simp only [hin]
  · rw [h6]
  · rw [h6]

/-! ### Examples -/


/-- A compiler in whose machine there is a function that adds, which is the macro `m`. -/
private def withMacro : CState :=
  { CState.init with
    machine := callVM false
    scopes := addInterpretedGenerator (ascii "m")
      { addInterpretedFunction (ascii "m") { Scopes.init with inComptime := true } with inComptime := false } }

/-- The call `(m 30 12)` meets the hypotheses of `C54_expansion_partial` and is compiled as 42. -/
example : functionType (ascii "m") withMacro.scopes.current = functionTypeMacro ∧
    getMacroFromName (ascii "m") withMacro.scopes.comptime = (0 : Nat) ∧
    withMacro.machine.stack[0]? = some (.composite (some 6)) ∧
    (∀ e ∈ [Ast.int 30, .int 12], Datum e ∧ ShortTexts e) ∧
    QuoteFree ⟨Trie.init (-1), 100⟩ withMacro ∧ (∃ history, withMacro.symbols = Tables.createAll .init history) ∧
    Good withMacro.machine ∧ withMacro.machine.upStack.length = withMacro.machine.stack.length ∧
    ¬ Full withMacro.machine ∧
    (match Macro.compound ⟨Trie.init (-1), 100⟩ { env := plainEnv } 40 0
        (.expression [.identifier (ascii "m"), .int 30, .int 12]) true withMacro with
      | .ok (some index) s' => decide (s'.assembly = [.pushInteger 42] ∧ index = 0 ∧
          s'.machine.stack = (callVM false).stack)
      | _ => false) = true := by
  refine ⟨by decide +kernel, by decide +kernel, rfl, ?_, ⟨by decide +kernel, by decide +kernel⟩, ⟨[], rfl⟩, callVM_good false, rfl, ?_,
    by decide +kernel⟩
  · intro e he
    simp only [List.mem_cons, List.not_mem_nil, or_false] at he
    rcases he with rfl | rfl
    · exact ⟨.int _, .int _⟩
    · exact ⟨.int _, .int _⟩
  · rintro ⟨h, -⟩
    cases h

private def config : Load.Config := ⟨exampleConfig, ⟨Trie.init (-1), 100⟩, ⟨true, true, true⟩, 100⟩

private def start : Load.State := ⟨{}, { CState.init with machine := VM.init 60 }⟩

private def load (text : Bytes) (s : Load.State) : Load.Out := Macro.loadString config { env := plainEnv } text 0 s

private def then_ (o : Load.Out) (f : Bytes → Load.State → Bool) : Bool :=
  match o with
  | .code bytes s => f bytes s
  | _ => false

/-- A program without macros meets the hypothesis of `C54_without_macros`. -/
example : (match Load.loadString config (ascii "(() (__var x 5) (__+ x 1))") 0 start with
    | .code _ _ => true
    | _ => false) = true := by decide +kernel

/-- A macro that swaps its arguments, from its definition to the code: `(m 1 2)` is compiled as `(- 2 1)`. -/
example : then_ (load (ascii "(() (defmacro m (a b) (__list (__quote __-) b a)) (m 1 2))") start) (fun bytes _ =>
      match execute plainEnv 100 bytes (VM.init 9) with
      | .ok () vm => vm.stack = [.integer 1]
      | _ => false) = true ∧
    then_ (load (ascii "(() (defmacro m (a b) (__list (__quote __-) b a)) (m 1 2))") start) (fun bytes _ =>
      then_ (load (ascii "(() () (__- 2 1))") start) fun bytes' _ => bytes = bytes') = true := by
  constructor <;> decide +kernel

/-- The value of a compile-time expression is compiled; so `C54_comptime` is about such programs. -/
example : generator (ascii "__comptime") = some .comptime ∧ generator (ascii "comptime") = some .comptime ∧ then_ (load (ascii "(__comptime (__+ 1 2))") start) (fun bytes s =>
    bytes = [6, 3, 165] && s.compiler.machine.stack = []) = true := by
  refine ⟨by decide +kernel, by decide +kernel, ?_⟩
  decide +kernel

/-! ### Where C54 fails -/

/-- **C54 fails for the macros of a second program**: the functions of the macros of a program stay on the stack of the
compiler's machine, but for the next program the slots are counted from 0 again.  So the macro `k` of the second program,
which is to become 2, becomes 1 as did the macro of the first program. -/
theorem C54_stale_macro :
    then_ (load (ascii "(() (defmacro k () 2) (k))") start) (fun bytes _ => bytes = [6, 2, 165]) = true ∧
    then_ (load (ascii "(() (defmacro m () 1) (m))") start) (fun bytes s => bytes = [6, 1, 165] &&
      then_ (load (ascii "(() (defmacro k () 2) (k))") s) fun bytes _ => bytes = [6, 1, 165]) = true := by
  constructor <;> decide +kernel

/-- **C54 fails for macros that become a variable**: nothing is compiled for a variable, so that the value of the call is not
there.  With the variable in place of the call the program gives 5, with the call the machine reports an error. -/
theorem C54_variable_lost :
    then_ (load (ascii "(() (defmacro m () (__quote x)) (__var x 5) (__var y x) y)") start) (fun bytes _ =>
      match execute plainEnv 100 bytes (VM.init 9) with
      | .ok () vm => vm.stack.getLast? = some (.integer 5)
      | _ => false) = true ∧
    then_ (load (ascii "(() (defmacro m () (__quote x)) (__var x 5) (__var y (m)) y)") start) (fun bytes _ =>
      match execute plainEnv 100 bytes (VM.init 9) with
      | .err _ _ => true
      | _ => false) = true := by
  constructor <;> decide +kernel

/-- **C54 fails for compile-time code with an error**: the value is read from the stack before it is known whether there was
an error, and the stack is empty. -/
theorem C54_comptime_error :
    (match load (ascii "(__comptime x)") start with
      | .ub => true
      | _ => false) = true := by decide +kernel

/-- C54: macros cannot be defined by compile-time code. -/
theorem C54_defmacro_in_comptime (c : Setting) (r : Rec) (n : Nat) (es : List Ast) (s : CState)
    (h : s.scopes.inComptime = true) : ∃ e, genDefmacro c r n es s = .err e := by
  have hc : checkArgs es 4 true s = .ok () s ∨ ∃ e, checkArgs es 4 true s = .err e := by
    unfold checkArgs
    split
    · split
      · split
        · exact .inr ⟨_, rfl⟩
        · exact .inl rfl
      · split
        · exact .inr ⟨_, rfl⟩
        · exact .inl rfl
    · exact .inr ⟨_, rfl⟩
  unfold genDefmacro
  rcases hc with hc | ⟨e, hc⟩
  · rw [CM.bind_ok hc]
    split
    · refine ⟨.invalidValue, ?_⟩
      refine (CM.bind_ok (show Compile.get s = .ok s s from rfl)).trans ?_
      rw [if_pos h]
      rfl
    · exact ⟨_, rfl⟩
  · exact ⟨e, show CM.bind _ _ s = _ by simp only [CM.bind, hc]⟩

#print axioms C54_without_macros
#print axioms C54_expansion_partial
#print axioms C54_comptime
#print axioms C54_defmacro_in_comptime
#print axioms C54_stale_macro
#print axioms C54_variable_lost
#print axioms C54_comptime_error

end DuckLisp.Props
