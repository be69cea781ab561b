import Verif.Proof.Compile.Load
import Verif.Proof.Compile.Operands
import Verif.Proof.Compile.Depth
import Verif.Proof.Compile.Limit

/-!
# C19: compiled programs compute what the source says
-/

namespace DuckLisp.Props

open DuckLisp DuckLisp.VM DuckLisp.Asm DuckLisp.Compile DuckLisp.Spec DuckLisp.Reader

theorem fresh_numbered {s : CState} (hs : Fresh s) : AllNumbered [] s := by
  obtain ⟨history, hh⟩ := hs.symbols
  refine ⟨⟨[] ++ history, ?_⟩, ?_⟩
  · rw [hh]
    exact Tables.holds_createAll Tables.holds_init history
  · simp [hs.assembly, hs.body]

theorem freeNames {cfg : Compile.Config} (hcb : KeywordsFree cfg) (K : Keys) (hd : K.dialect = .core) : @FreeNames K cfg := by
  intro name hn
  rw [show Keys.dialect = _ from hd] at hn
  exact hcb name (hn.resolve_right (by simp [Dialect.core]))

theorem callsFree_core (cfg : Compile.Config) : CallsFree cfg .core := fun _ h => nomatch h

theorem unclaimed {cfg : Compile.Config} {D : Dialect} (h : CallsFree cfg D) : Unclaimed D := by
  intro x hx
  obtain ⟨h1, h2, -⟩ := h x hx
  refine ⟨h1, ?_, h2⟩
  unfold Eval.keyword at h2
  rw [List.find?_eq_none] at h2
  have hk : ∀ k ∈ Eval.keywords, ¬ (x = ascii k ∨ x = ascii ("__" ++ k)) := fun k hk => by simpa using h2 k hk
  have a := hk "var" (by decide +kernel)
  have b := hk "defun" (by decide +kernel)
  have c := hk "noscope" (by decide +kernel)
  simp only [special]
  rw [if_neg fun h => a h.symm, if_neg fun h => b h.symm, if_neg fun h => c h.symm]

theorem freeCalls {cfg : Compile.Config} {D : Dialect} (hcb : KeywordsFree cfg) (hcf : CallsFree cfg D) (K : Keys)
    (hd : K.dialect = D) : @FreeNames K cfg := by
  intro name hn
  rw [show Keys.dialect = _ from hd] at hn
  exact hn.elim (hcb name) fun h => (hcf name h).2.2

/-- The code of a program, with the numbers of its globals. -/
theorem fresh_code {cfg : Compile.Config} {D : Dialect} {n : Nat} {e : Ast} {s s' : CState} (hcb : KeywordsFree cfg) (hcf : CallsFree cfg D) (he : Term D false e)
    (hs : Fresh s) (hc : compileAST cfg n e s = .ok () s') (hg : s'.gensymNumber ≤ 2 ^ 64) :
    AllNumbered [] s' ∧ ∃ code L l, @Code ((Keys.from s'.symbols D (unclaimed hcf)).upTo (room s'.assembly)) (.form e) [[]] 0 0 code [[]] L l ∧
      s'.assembly = code ++ epilogue L ++ [.halt] ∧ s'.scopes.runtime.labelNumber = l := by
  letI : Keys := .from s'.symbols D (unclaimed hcf)
  obtain ⟨hn, code, L, l, h1, h2, h3⟩ := compileAST_code (freeCalls hcb hcf _ rfl) he hs.scopes hs.assembly hs.body (Fresh.tabled hs)
    (fresh_numbered hs) hc (bounded_from hg)
  refine ⟨hn, code, L, l, h1.limited _ _ ?_, h2, h3⟩
  rw [h2]
  simp only [room_append]
  omega

theorem fresh_after {cfg : Compile.Config} {n : Nat} {e : Ast} {s s' : CState} (hs : Fresh s)
    (hc : compileAST cfg n e s = .ok () s') :
    Fresh s'.renew ∧ ∀ x id, numbers s.symbols x id → numbers s'.symbols x id := by
  obtain ⟨h, ht⟩ := Fresh.tabled hs
  obtain ⟨more, ht'⟩ := (Mono.compileAST cfg n e _ _ _ hc).tables h ht
  refine ⟨⟨rfl, rfl, rfl, ⟨_, ht'.made⟩, ht'.runtime, ht'.comptime⟩, fun x id hx => ?_⟩
  unfold numbers at hx ⊢
  rw [number_grows ht.symbols ht'.symbols (by omega), hx]

theorem holds_mono {R R' : Eval.Reading} (h : ∀ x id, R.number x id → R'.number x id)
    (hf : ∀ o params rest forms, R.function o params rest forms → R'.function o params rest forms) {vm : VM} {o : Obj}
    {v : Eval.Value} (hv : Eval.Holds R vm o v) : Eval.Holds R' vm o v := by
  induction hv with
  | nil => exact .nil
  | bool b => exact .bool b
  | int i => exact .int i
  | float b => exact .float b
  | symbol h1 h2 => exact .symbol (h _ _ h1) h2
  | string h => exact .string h
  | slice h => exact .slice h
  | type n => exact .type n
  | pair h1 h2 _ _ ih1 ih2 => exact .pair h1 h2 ih1 ih2
  | function h => exact .function (hf _ _ _ _ h)
  | unknown o => exact .unknown o

theorem hasGlobals_mono {R R' : Eval.Reading} (h : ∀ x id, R.number x id → R'.number x id)
    (hf : ∀ o params rest forms, R.function o params rest forms → R'.function o params rest forms) {vm : VM}
    {globals : Eval.Block} (hg : HasGlobals R vm globals) : HasGlobals R' vm globals := by
  intro x v hx
  obtain ⟨id, o, h1, h2, h3⟩ := hg x v hx
  exact ⟨id, o, h _ _ h1, h2, holds_mono h hf h3⟩

theorem carriesOut_mono {R R' : Eval.Reading} (h : ∀ x id, R.number x id → R'.number x id)
    (hf : ∀ o params rest forms, R.function o params rest forms → R'.function o params rest forms) {env : VM.Env} {F : Nat} {bytes : Bytes}
    {vm : VM} {r : Eval.Result (Eval.Value × Eval.Block)} (hr : CarriesOut env R F bytes vm r) :
    CarriesOut env R' F bytes vm r := by
  cases r with
  | ok r =>
    obtain ⟨N, vm', h1, h2, h3, h4, h5, o, h6, h7, h8⟩ := hr
    exact ⟨N, vm', h1, h2, h3, h4, h5, o, h6, holds_mono h hf h7, hasGlobals_mono h hf h8⟩
  | _ => exact hr

theorem holds_forget {R : Eval.Reading} {t : Tables.Symbols} (h : ∀ x id, R.number x id → numbers t x id) {vm : VM}
    {o : Obj} {v : Eval.Value} (hv : Eval.Holds R vm o v) : Eval.Holds (known t) vm o v.forget := by
  induction hv with
  | nil => exact .nil
  | bool b => exact .bool b
  | int i => exact .int i
  | float b => exact .float b
  | symbol h1 h2 => exact .symbol (h _ _ h1) h2
  | string h => exact .string h
  | slice h => exact .slice h
  | type n => exact .type n
  | pair h1 h2 _ _ ih1 ih2 => exact .pair h1 h2 ih1 ih2
  | function h => exact .unknown _
  | unknown o => exact .unknown o

theorem lookupBlock_forget (x : Bytes) (globals : Eval.Block) :
    Eval.lookupBlock x (globals.map fun (y, v) => (y, v.forget)) = (Eval.lookupBlock x globals).map Eval.Value.forget := by
  induction globals with
  | nil => rfl
  | cons a rest ih =>
    obtain ⟨y, v⟩ := a
    simp only [List.map_cons, Eval.lookupBlock]
    split
    · rfl
    · exact ih

theorem hasGlobals_forget {R : Eval.Reading} {t : Tables.Symbols} (h : ∀ x id, R.number x id → numbers t x id) {vm : VM}
    {globals : Eval.Block} (hg : HasGlobals R vm globals) :
    HasGlobals (known t) vm (globals.map fun (x, v) => (x, v.forget)) := by
  intro x v hx
  rw [lookupBlock_forget] at hx
  obtain ⟨w, hw, rfl⟩ := Option.map_eq_some_iff.1 hx
  obtain ⟨id, o, h1, h2, h3⟩ := hg x w hw
  exact ⟨id, o, h _ _ h1, h2, holds_forget h h3⟩

theorem from_keys {D : Dialect} {hD : Unclaimed D} {s : CState} (hn : AllNumbered [] s) {x : Bytes} {key : Int}
    (h : (Keys.from s.symbols D hD).key x key) : ∃ id : Nat, key = id ∧ numbers s.symbols x id := by
  obtain ⟨rfl, h2⟩ := h
  have h3 := hn.1.choose_spec.find x
  split at h3
  · exact ⟨_, h3, h3⟩
  · exact absurd h3 h2

theorem from_clear {D : Dialect} {hD : Unclaimed D} {s : CState} {N : Nat} {assignable : Bytes → Bool} (hset : NumbersFrom s.symbols N assignable)
    (x : Bytes) (key : Int) (n : Nat) (ha : assignable x = true) (hk : ((Keys.from s.symbols D hD).upTo N).key x key)
    (hn : ((Keys.from s.symbols D hD).upTo N).height n) : key ≠ (n : Int) - 1 := by
  obtain ⟨rfl, -⟩ := hk
  have h1 := hset x ha
  have h2 : n ≤ N := hn
  omega

/-- C19: whatever is compiled is assembled. -/
theorem C19_assembles (cfg : Compile.Config) (D : Dialect) (n : Nat) (e : Ast) (s s' : CState) (opt : Options)
    (hcb : KeywordsFree cfg) (hcf : CallsFree cfg D) (he : Term D false e) (hs : Fresh s) (hc : compileAST cfg n e s = .ok () s')
    (hg : s'.gensymNumber ≤ 2 ^ 64) :
    ∃ bytes, assemble opt s'.scopes.runtime.labelNumber s'.assembly = .ok bytes := by
  obtain ⟨-, code, L, l, h1, h2, h3⟩ := fresh_code hcb hcf he hs hc hg
  letI : Keys := (Keys.from s'.symbols D (unclaimed hcf)).upTo (room s'.assembly)
  rw [h2, h3]
  exact C24_assembles opt _ _ (whole_inOrder h1)

theorem isFunction [Keys] {program : List Ins} {off : Nat → Nat} {cell : Nat} {o : Obj} {params : List Bytes} {rest : Option Bytes}
    {forms : List Ast} (h : Defines program off cell o params rest forms) : IsFunction o params rest forms := by
  obtain ⟨j, l, m, start, code, l', ups, rfl, hlen, -⟩ := h
  exact ⟨_, _, _, _, rfl, by simpa using hlen⟩

theorem executes {cfg : Compile.Config} {D : Dialect} {n : Nat} {e : Ast} {s s' : CState} {opt : Options} {bytes : Bytes}
    {env : VM.Env} {vm : VM} (memory : Bool) (F : Nat) {assignable : Bytes → Bool} {globals : Eval.Block} (hcb : KeywordsFree cfg) (hcf : CallsFree cfg D) (he : Term D false e) (hs : Fresh s)
    (hc : compileAST cfg n e s = .ok () s') (hg : s'.gensymNumber ≤ 2 ^ 64)
    (ha : assemble opt s'.scopes.runtime.labelNumber s'.assembly = .ok bytes)
    (hj : JumpsLand opt s'.assembly bytes)
    (hlen : s'.assembly.length < 2 ^ 31) (hfmt : ∀ i ∈ s'.assembly, InFormat i ∧ SmallWhereNeeded i)
    (hgarbage : opt.pushPops = true → NoGarbage opt.strip s'.assembly)
    (hset : NumbersFrom s'.symbols (room s'.assembly) assignable) (hglobals : HasGlobals (known s.symbols) vm globals)
    (hvm : Good vm) (hup : vm.upStack.length = vm.stack.length) (hfree : ¬ Full vm) :
    CarriesOut env (reading s'.symbols) F bytes vm (Eval.program ⟨env.fl, memory, assignable⟩ F globals e) ∨
      (memory = true ∧ MemoryRunsOut env bytes vm) := by
  obtain ⟨hn, code, L, l, h1, h2, h3⟩ := fresh_code hcb hcf he hs hc hg
  letI : Keys := (Keys.from s'.symbols D (unclaimed hcf)).upTo (room s'.assembly)
  rw [h3] at ha
  obtain ⟨pieces, hcut, hland⟩ := hj
  let C (cell serial : Nat) : Setup := {
    env := env, cell := cell, serial := serial, strip := opt.strip, program := s'.assembly, bytes := bytes
    off := offset pieces, ids := ⟨numbers s'.symbols, Defines s'.assembly (offset pieces) cell⟩, below := vm.stack, memory := memory, origin := 0
    kept := fun _ _ => False, callStack := vm.callStack, upArrays := vm.upArrays, hkept := nofun
    hids := fun a b i j => ids_inj hn.1.choose_spec a b i j
    hints := fun v hv => by
      obtain ⟨h1, h2⟩ := (hfmt _ hv).1
      exact ⟨by omega, by omega⟩
    hsymbols := fun id len name hm hl => ids_symbol hn hm hl }
  have H (cell serial : Nat) := loaded (C := C cell serial) h1 h2 ha rfl hcut hland (fun _ => rfl) hlen hfmt hgarbage
  have hne : bytes ≠ [] := by
    refine Loaded_nonempty (H 0 0) (k := (code ++ epilogue L).length) ?_
    show s'.assembly[_]? = _
    rw [h2]
    simp
  obtain ⟨cell, serial, vm1, vm2, hl⟩ := load hvm hne hfree
  have hglobals : HasGlobals ⟨numbers s'.symbols, Defines s'.assembly (offset pieces) cell⟩ vm globals :=
    hasGlobals_mono (R := known s.symbols) (R' := ⟨numbers s'.symbols, Defines s'.assembly (offset pieces) cell⟩)
      (fresh_after hs hc).2 (fun _ _ _ _ h => h.elim) hglobals
  have hkeys : ∀ x key, Keys.key x key → ∃ id : Nat, key = id ∧ (known s'.symbols).number x id :=
    fun x key => from_keys (D := D) (hD := unclaimed hcf) hn
  refine (carries_out (F := F) (C := C cell serial) (S := ⟨env.fl, memory, assignable⟩) (H cell serial) rfl rfl rfl
    hkeys (from_clear (hD := unclaimed hcf) hset) hvm hglobals h1 h2 hne hl rfl rfl (fun _ _ h => h) rfl rfl hup).imp_left ?_
  exact carriesOut_mono (R := ⟨numbers s'.symbols, Defines s'.assembly (offset pieces) cell⟩) (R' := reading s'.symbols) (fun _ _ h => h)
    fun _ _ _ _ h => isFunction h

/-- C19: what the machine does with the compiled and assembled code of a program that makes no new objects is
what evaluating the program gives, whatever program of the language `D` it is, whatever was on the stack before,
whichever symbols and options there are and whatever globals have been set.

Missing for the whole property: functions that mention variables of the scopes around them,
functions that make functions and `defun`; `apply` with more elements than the function takes (C39); parts of texts as operands of `concatenate`
(C32); macros, vectors, composites and the other parts of the language for
which `Eval.program` says `outside`; code whose jumps are so long that the assembler gets them wrong
(C24); and numbers that do not fit their place in the code (C22). -/
theorem C19_evaluation_partial (cfg : Compile.Config) (D : Dialect) (n : Nat) (e : Ast) (s s' : CState) (opt : Options)
    (bytes : Bytes) (env : VM.Env) (vm : VM) (rounds : Nat) (assignable : Bytes → Bool) (globals : Eval.Block)
    (hcb : KeywordsFree cfg) (hcf : CallsFree cfg D) (he : Term D false e) (hs : Fresh s)
    (hc : compileAST cfg n e s = .ok () s') (hg : s'.gensymNumber ≤ 2 ^ 64)
    (ha : assemble opt s'.scopes.runtime.labelNumber s'.assembly = .ok bytes)
    (hj : JumpsLand opt s'.assembly bytes)
    (hlen : s'.assembly.length < 2 ^ 31) (hfmt : ∀ i ∈ s'.assembly, InFormat i ∧ SmallWhereNeeded i)
    (hgarbage : opt.pushPops = true → NoGarbage opt.strip s'.assembly)
    (hset : NumbersFrom s'.symbols (room s'.assembly) assignable) (hglobals : HasGlobals (known s.symbols) vm globals)
    (hvm : Good vm) (hup : vm.upStack.length = vm.stack.length) (hfree : ¬ Full vm) :
    CarriesOut env (reading s'.symbols) rounds bytes vm 
      (Eval.program ⟨env.fl, false, assignable⟩ rounds globals e) :=
  (executes false rounds hcb hcf he hs hc hg ha hj hlen hfmt hgarbage hset hglobals hvm hup hfree).resolve_right
    fun h => absurd h.1 (by decide)

/-- C19: the same for programs that make strings, symbols, pairs, lists and functions, that call functions (also
recursively, `Functions.lean` has an example) and that set globals, as long as memory does not run out. -/
theorem C19_memory_partial (cfg : Compile.Config) (D : Dialect) (n : Nat) (e : Ast) (s s' : CState) (opt : Options)
    (bytes : Bytes) (env : VM.Env) (vm : VM) (rounds : Nat) (assignable : Bytes → Bool) (globals : Eval.Block)
    (hcb : KeywordsFree cfg) (hcf : CallsFree cfg D) (he : Term D false e) (hs : Fresh s)
    (hc : compileAST cfg n e s = .ok () s') (hg : s'.gensymNumber ≤ 2 ^ 64)
    (ha : assemble opt s'.scopes.runtime.labelNumber s'.assembly = .ok bytes)
    (hj : JumpsLand opt s'.assembly bytes)
    (hlen : s'.assembly.length < 2 ^ 31) (hfmt : ∀ i ∈ s'.assembly, InFormat i ∧ SmallWhereNeeded i)
    (hgarbage : opt.pushPops = true → NoGarbage opt.strip s'.assembly)
    (hset : NumbersFrom s'.symbols (room s'.assembly) assignable) (hglobals : HasGlobals (known s.symbols) vm globals)
    (hvm : Good vm) (hup : vm.upStack.length = vm.stack.length) (hfree : ¬ Full vm) :
    CarriesOut env (reading s'.symbols) rounds bytes vm 
      (Eval.program ⟨env.fl, true, assignable⟩ rounds globals e) ∨
      MemoryRunsOut env bytes vm :=
  (executes true rounds hcb hcf he hs hc hg ha hj hlen hfmt hgarbage hset hglobals hvm hup hfree).imp_right And.right

/-- C19: the jumps of a compiled program land on their labels if addresses have four bytes and the code is below
2 GiB, and also if the code is at most 126 bytes long. -/
theorem C19_jumps (cfg : Compile.Config) (D : Dialect) (n : Nat) (e : Ast) (s s' : CState) (opt : Options) (bytes : Bytes)
    (hcb : KeywordsFree cfg) (hcf : CallsFree cfg D) (he : Term D false e) (hs : Fresh s)
    (hc : compileAST cfg n e s = .ok () s') (hg : s'.gensymNumber ≤ 2 ^ 64)
    (ha : assemble opt s'.scopes.runtime.labelNumber s'.assembly = .ok bytes)
    (hj : (opt.jumps = false ∧ bytes.length < 2 ^ 31) ∨ (opt.jumps = true ∧ bytes.length ≤ 126)) :
    JumpsLand opt s'.assembly bytes := by
  obtain ⟨-, code, L, l, h1, h2, h3⟩ := fresh_code hcb hcf he hs hc hg
  letI : Keys := (Keys.from s'.symbols D (unclaimed hcf)).upTo (room s'.assembly)
  rw [h3] at ha
  exact jumpsLand h1 h2 ha hj

/-- C19: in a program that takes room for at most 255 values everything fits its place in the code, if the integers in it
and the numbers of its symbols do. -/
theorem C19_small_programs_fit (cfg : Compile.Config) (D : Dialect) (n : Nat) (e : Ast) (s s' : CState)
    (hcb : KeywordsFree cfg) (hcf : CallsFree cfg D) (he : Term D false e) (hs : Fresh s)
    (hc : compileAST cfg n e s = .ok () s') (hg : s'.gensymNumber ≤ 2 ^ 64)
    (hlen : room s'.assembly ≤ 255) (hl : ∀ i ∈ s'.assembly, LiteralsFit i) :
    ∀ i ∈ s'.assembly, InFormat i ∧ SmallWhereNeeded i := by
  obtain ⟨-, code, L, l, h1, h2, -⟩ := fresh_code hcb hcf he hs hc hg
  letI : Keys := (Keys.from s'.symbols D (unclaimed hcf)).upTo (room s'.assembly)
  rw [h2] at hlen hl ⊢
  exact whole_format h1 hlen hl

/-! ### A program

`((var x 5) (var y 0) (while (< 0 x) (setq y (+ y x)) (setq x (- x 1))) y)` -/

/-- Names and numbers in the program. -/
private def nm (x : String) : Ast := .identifier (ascii x)

/-- The sum of the numbers up to 5. -/
def sumProgram : Ast := .expression [
  .expression [nm "var", nm "x", .int 5],
  .expression [nm "var", nm "y", .int 0],
  .expression [nm "while", .expression [nm "<", .int 0, nm "x"],
    .expression [nm "setq", nm "y", .expression [nm "+", nm "y", nm "x"]],
    .expression [nm "setq", nm "x", .expression [nm "-", nm "x", .int 1]]],
  nm "y"]

/-- What a list of pairs, a string and a symbol are made with: `(list "a" (quote (b 1)) (cons 2 ()))`. -/
def dataProgram : Ast := .expression [nm "list", .string (ascii "a"),
  .expression [nm "quote", .expression [nm "b", .int 1]], .expression [nm "cons", .int 2, .expression []]]

/-- Texts: `((var x (concatenate "ab" (make-string (list 99 100)))) (list (length x) (car (cdr x)) (substring x 1 3)
(get-vector-element x 0) (null? (cdr "z")) (= (type-of x) (type-of 0))))`. -/
def textProgram : Ast := .expression [
  .expression [nm "var", nm "x", .expression [nm "concatenate", .string (ascii "ab"),
    .expression [nm "make-string", .expression [nm "list", .int 99, .int 100]]]],
  .expression [nm "list", .expression [nm "length", nm "x"],
    .expression [nm "car", .expression [nm "cdr", nm "x"]],
    .expression [nm "substring", nm "x", .int 1, .int 3],
    .expression [nm "get-vector-element", nm "x", .int 0],
    .expression [nm "null?", .expression [nm "cdr", .string (ascii "z")]],
    .expression [nm "=", .expression [nm "type-of", nm "x"], .expression [nm "type-of", .int 0]]]]

/-- Compile it. -/
def compiled (e : Ast) : Option CState :=
  match compileAST ⟨Trie.init (-1), 100⟩ 100 e .init with
  | .ok () s => some s
  | _ => none

theorem compiled_ok {e : Ast} {s : CState} (h : compiled e = some s) :
    compileAST ⟨Trie.init (-1), 100⟩ 100 e .init = .ok () s := by
  unfold compiled at h
  split at h
  · injection h with h; subst h; assumption
  · cases h

theorem fresh_init : Fresh .init := ⟨rfl, rfl, rfl, ⟨[], rfl⟩, ⟨[], by simp, rfl⟩, ⟨[], by simp, rfl⟩⟩

theorem noGlobals {ids : Eval.Reading} {vm : VM} : HasGlobals ids vm [] := fun _ _ h => by cases h

theorem keywordsFree_none (depth : Nat) : KeywordsFree ⟨Trie.init (-1), depth⟩ := fun name _ => by
  cases name <;> rfl

/-- Whether no object is made and popped right away. -/
def noGarbage (strip : Bool) : List Ins → Bool
  | i :: .pop n :: rest => (!pushesAnything i || pushesValue strip i) && noGarbage strip (.pop n :: rest)
  | _ :: rest => noGarbage strip rest
  | [] => true

theorem noGarbage_of {strip : Bool} : ∀ {p : List Ins}, noGarbage strip p = true → NoGarbage strip p
  | [], _ => fun k i n h => by simp at h
  | i :: rest, h => fun k j n hk hk' hp => by
    cases k with
    | zero =>
      cases rest with
      | nil => simp at hk'
      | cons j' rest =>
        simp only [List.getElem?_cons_zero, List.getElem?_cons_succ, Option.some.injEq] at hk hk'
        subst hk; subst hk'
        simp only [noGarbage, hp, Bool.not_true, Bool.false_or, Bool.and_eq_true] at h
        exact h.1
    | succ k =>
      refine noGarbage_of (p := rest) ?_ k j n hk hk' hp
      cases rest with
      | nil => rfl
      | cons j' rest => cases j' <;> simp_all [noGarbage]

theorem init_free (m : Nat) : (init (m + 1)).free ≠ [] := by
  simp [init, List.range_succ]

theorem init_good [Entries] (m : Nat) (hm : m < 2 ^ 60) : Good (init m) := by
  have hfree : ∀ (r : Nat) (o : Obj), (init m).heap[r]? = some o → r ∈ (init m).free := by
    intro r o h
    have := (List.getElem?_eq_some_iff.1 h).1
    simp only [init, List.length_replicate] at this
    simpa [init] using this
  exact ⟨{
    free_nodup := by simpa [init] using List.nodup_range
    free_lt := by simp [init]
    free_empty := by
      intro r _ o h
      have := List.mem_of_getElem? h
      simp only [init, List.mem_replicate] at this
      rw [this.2]
      exact id
    heap_size := by simpa [init] using hm
    stack := by simp [init]
    captured := by simp [init]
    globals := by simp [init]
    frames := by simp [init]
    running := by simp [init]
    cells := fun r o h hr => absurd (hfree r o h) hr }, fun r o h hr => absurd (hfree r o h) hr⟩

theorem sumProgram_form : Form sumProgram := by
  have c : ∀ {s : String}, Spelled (ascii s) s := .inl rfl
  have h : ∀ {s : String} {args : List Ast}, s ∈ operators args.length → (∀ a ∈ args, Form a) →
      Form (.expression (nm s :: args)) := fun hs ha => .operator _ _ _ hs c ha
  refine .block _ _ (.list _) (by
    simp only [List.forall_mem_cons, List.not_mem_nil, false_imp_iff, implies_true, and_true]
    refine ⟨.var _ _ _ c (fun _ => rfl) (.int _), .var _ _ _ c (fun _ => rfl) (.int _), .form _ (.while_ _ _ _ c (h (by decide) ?_) ?_ ?_),
      .form _ (.name _ nofun)⟩
    · simp only [List.forall_mem_cons, List.not_mem_nil, false_imp_iff, implies_true, and_true]
      exact ⟨.int _, .name _ nofun⟩
    · rintro ⟨⟩
    · simp only [List.forall_mem_cons, List.not_mem_nil, false_imp_iff, implies_true, and_true]
      refine ⟨.form _ (.setq _ _ _ c nofun (h (by decide) ?_)), .form _ (.setq _ _ _ c nofun (h (by decide) ?_))⟩
      · simp only [List.forall_mem_cons, List.not_mem_nil, false_imp_iff, implies_true, and_true]
        exact ⟨.name _ nofun, .name _ nofun⟩
      · simp only [List.forall_mem_cons, List.not_mem_nil, false_imp_iff, implies_true, and_true]
        exact ⟨.name _ nofun, .int _⟩)

theorem dataProgram_form : Form dataProgram := by
  have c : ∀ {s : String}, Spelled (ascii s) s := .inl rfl
  refine .list _ _ c ?_
  simp only [List.forall_mem_cons, List.not_mem_nil, false_imp_iff, implies_true, and_true]
  refine ⟨.string _, .quote _ _ c (.list _ ?_), .operator _ "cons" _ (by decide) c ?_⟩
  · simp only [List.forall_mem_cons, List.not_mem_nil, false_imp_iff, implies_true, and_true]
    exact ⟨.symbol _, .int _⟩
  · simp only [List.forall_mem_cons, List.not_mem_nil, false_imp_iff, implies_true, and_true]
    exact ⟨.int _, .empty⟩

theorem textProgram_form : Form textProgram := by
  have c : ∀ {s : String}, Spelled (ascii s) s := .inl rfl
  have h : ∀ {s : String} {args : List Ast}, s ∈ operators args.length → (∀ a ∈ args, Form a) →
      Form (.expression (nm s :: args)) := fun hs ha => .operator _ _ _ hs c ha
  have one : ∀ {a : Ast}, Form a → ∀ e ∈ [a], Form e := by
    intro a ha e he
    rw [List.mem_singleton.1 he]
    exact ha
  have two : ∀ {a b : Ast}, Form a → Form b → ∀ e ∈ [a, b], Form e := by
    intro a b ha hb e he
    rcases List.mem_cons.1 he with rfl | he
    · exact ha
    · exact one hb e he
  have three : ∀ {a b d : Ast}, Form a → Form b → Form d → ∀ e ∈ [a, b, d], Form e := by
    intro a b d ha hb hd e he
    rcases List.mem_cons.1 he with rfl | he
    · exact ha
    · exact two hb hd e he
  refine .block _ _ (.list _) (by
    simp only [List.forall_mem_cons, List.not_mem_nil, false_imp_iff, implies_true, and_true]
    refine ⟨.var _ _ _ c (fun _ => rfl) (h (by decide) (two (.string _) (h (by decide) (one (.list _ _ c (two (.int _) (.int _))))))),
      .form _ (.list _ _ c ?_)⟩
    simp only [List.forall_mem_cons, List.not_mem_nil, false_imp_iff, implies_true, and_true]
    exact ⟨h (by decide) (one (.name _ nofun)), h (by decide) (one (h (by decide) (one (.name _ nofun)))),
      h (by decide) (three (.name _ nofun) (.int _) (.int _)), h (by decide) (two (.name _ nofun) (.int _)),
      h (by decide) (one (h (by decide) (one (.string _)))),
      h (by decide) (two (h (by decide) (one (.name _ nofun))) (h (by decide) (one (.int _))))⟩)

/-- Everything that can be computed about the code of a program of at most 255 instructions. -/
private def fits (opt : Options) (e : Ast) : Bool :=
  match compiled e with
  | none => false
  | some s => s.gensymNumber ≤ 2 ^ 64 && room s.assembly ≤ 255 && s.assembly.length < 2 ^ 31 && (∀ i ∈ s.assembly, LiteralsFit i) &&
      noGarbage opt.strip s.assembly &&
      match assemble opt s.scopes.runtime.labelNumber s.assembly with
      | .ok bytes => bytes.length ≤ 126
      | _ => false

private theorem fits_ok {opt : Options} {D : Dialect} {e : Ast} (hcf : CallsFree ⟨Trie.init (-1), 100⟩ D) (ho : opt.jumps = true) (he : Term D false e) (h : fits opt e = true) :
    ∃ s' bytes, compileAST ⟨Trie.init (-1), 100⟩ 100 e .init = .ok () s' ∧ s'.gensymNumber ≤ 2 ^ 64 ∧
      assemble opt s'.scopes.runtime.labelNumber s'.assembly = .ok bytes ∧
      JumpsLand opt s'.assembly bytes ∧ s'.assembly.length < 2 ^ 31 ∧
      (∀ i ∈ s'.assembly, InFormat i ∧ SmallWhereNeeded i) ∧ NoGarbage opt.strip s'.assembly := by
  unfold fits at h
  split at h
  · cases h
  · rename_i s hs
    simp only [Bool.and_eq_true, decide_eq_true_eq] at h
    obtain ⟨⟨⟨⟨⟨h1, h2⟩, h6⟩, h3⟩, h4⟩, h5⟩ := h
    split at h5
    · rename_i bytes hb
      exact ⟨s, bytes, compiled_ok hs, h1, hb, C19_jumps _ _ _ _ _ _ _ _
        (keywordsFree_none 100) hcf he fresh_init (compiled_ok hs) h1 hb (.inr ⟨ho, of_decide_eq_true h5⟩), h6, C19_small_programs_fit _ _ _ _ _ _
        (keywordsFree_none 100) hcf he fresh_init (compiled_ok hs) h1 h2 h3, noGarbage_of h4⟩
    · cases h5

/-- Some arithmetic; the programs have no use for it. -/
private def fl0 : FloatOps := ⟨fun a _ => a, fun a _ => a, fun a _ => a, fun a _ => a, fun _ => 0⟩

/-- In a new machine, and with all optimisations, the code of the program leaves 15 on the stack: every
hypothesis of the theorem above is met. -/
example (env : VM.Env) (hfl : env.fl = fl0) (m : Nat) (hm : m + 1 < 2 ^ 60) : ∃ s' bytes N vm',
    compileAST ⟨Trie.init (-1), 100⟩ 100 sumProgram .init = .ok () s' ∧
    assemble ⟨true, true, true⟩ s'.scopes.runtime.labelNumber s'.assembly = .ok bytes ∧
    (∀ fuel, N ≤ fuel → execute env fuel bytes (init (m + 1)) = .ok () vm') ∧
    vm'.stack.getLast? = some (.integer 15) := by
  obtain ⟨s', bytes, hc, hg, ha, hj, hlen, hfmt, hgarbage⟩ :=
    fits_ok (opt := ⟨true, true, true⟩) (callsFree_core _) rfl sumProgram_form (by decide +kernel)
  have h := C19_evaluation_partial _ .core 100 sumProgram .init s' ⟨true, true, true⟩ bytes env (init (m + 1)) 10 (fun _ => false) []
    (keywordsFree_none 100) (callsFree_core _) sumProgram_form fresh_init hc hg ha hj hlen hfmt (fun _ => hgarbage) (fun _ h => by cases h) noGlobals
    (init_good _ hm) rfl (fun h => init_free m h.1)
  have hr : Eval.program ⟨fl0, false, fun _ => false⟩ 10 [] sumProgram = .ok (.int 15, []) := by decide +kernel
  rw [hfl, hr] at h
  obtain ⟨N, vm', h1, -, -, -, -, o, h2, h3, -⟩ := h
  cases h3
  exact ⟨s', bytes, N, vm', hc, ha, h1, h2⟩

/-- With two rounds only the evaluator is not done. -/
example : Eval.program ⟨fl0, false, fun _ => false⟩ 2 [] sumProgram = .unfinished := by decide +kernel

/-- The list `("a" (b 1) (2))`, or memory runs out. -/
example (env : VM.Env) (hfl : env.fl = fl0) (m : Nat) (hm : m + 1 < 2 ^ 60) : ∃ s' bytes,
    compileAST ⟨Trie.init (-1), 100⟩ 100 dataProgram .init = .ok () s' ∧
    assemble ⟨true, true, false⟩ s'.scopes.runtime.labelNumber s'.assembly = .ok bytes ∧
    (MemoryRunsOut env bytes (init (m + 1)) ∨ ∃ N vm' o,
      (∀ fuel, N ≤ fuel → execute env fuel bytes (init (m + 1)) = .ok () vm') ∧ vm'.stack.getLast? = some o ∧
      Eval.Holds (reading s'.symbols) vm' o (.pair (.string (ascii "a")) (.pair
        (.pair (.symbol (ascii "b")) (.pair (.int 1) .nil)) (.pair (.pair (.int 2) .nil) .nil)))) := by
  obtain ⟨s', bytes, hc, hg, ha, hj, hlen, hfmt, hgarbage⟩ :=
    fits_ok (opt := ⟨true, true, false⟩) (callsFree_core _) rfl dataProgram_form (by decide +kernel)
  have h := C19_memory_partial _ .core 100 dataProgram .init s' ⟨true, true, false⟩ bytes env (init (m + 1)) 10 (fun _ => false) []
    (keywordsFree_none 100) (callsFree_core _) dataProgram_form fresh_init hc hg ha hj hlen hfmt (fun _ => hgarbage) (fun _ h => by cases h) noGlobals
    (init_good _ hm) rfl (fun h => init_free m h.1)
  have hr : Eval.program ⟨fl0, true, fun _ => false⟩ 10 [] dataProgram = .ok (.pair (.string (ascii "a")) (.pair
        (.pair (.symbol (ascii "b")) (.pair (.int 1) .nil)) (.pair (.pair (.int 2) .nil) .nil)), []) := by decide +kernel
  rw [hfl, hr] at h
  refine ⟨s', bytes, hc, ha, h.symm.imp_right ?_⟩
  rintro ⟨N, vm', h1, -, -, -, -, o, h2, h3, -⟩
  exact ⟨N, vm', o, h1, h2, h3⟩

/-- Texts: the list `(4 98 "bc" 97 true)`, or memory runs out. -/
example (env : VM.Env) (hfl : env.fl = fl0) (m : Nat) (hm : m + 1 < 2 ^ 60) : ∃ s' bytes,
    compileAST ⟨Trie.init (-1), 100⟩ 100 textProgram .init = .ok () s' ∧
    assemble ⟨true, true, false⟩ s'.scopes.runtime.labelNumber s'.assembly = .ok bytes ∧
    (MemoryRunsOut env bytes (init (m + 1)) ∨ ∃ N vm' o,
      (∀ fuel, N ≤ fuel → execute env fuel bytes (init (m + 1)) = .ok () vm') ∧ vm'.stack.getLast? = some o ∧
      Eval.Holds (reading s'.symbols) vm' o (.pair (.int 4) (.pair (.int 98) (.pair (.slice (ascii "bc"))
        (.pair (.int 97) (.pair (.bool 1) (.pair (.bool 0) .nil))))))) := by
  obtain ⟨s', bytes, hc, hg, ha, hj, hlen, hfmt, hgarbage⟩ :=
    fits_ok (opt := ⟨true, true, false⟩) (callsFree_core _) rfl textProgram_form (by decide +kernel)
  have h := C19_memory_partial _ .core 100 textProgram .init s' ⟨true, true, false⟩ bytes env (init (m + 1)) 10 (fun _ => false) []
    (keywordsFree_none 100) (callsFree_core _) textProgram_form fresh_init hc hg ha hj hlen hfmt (fun _ => hgarbage) (fun _ h => by cases h) noGlobals
    (init_good _ hm) rfl (fun h => init_free m h.1)
  have hr : Eval.program ⟨fl0, true, fun _ => false⟩ 10 [] textProgram = .ok (.pair (.int 4) (.pair (.int 98)
      (.pair (.slice (ascii "bc")) (.pair (.int 97) (.pair (.bool 1) (.pair (.bool 0) .nil))))), []) := by decide +kernel
  rw [hfl, hr] at h
  refine ⟨s', bytes, hc, ha, h.symm.imp_right ?_⟩
  rintro ⟨N, vm', h1, -, -, -, -, o, h2, h3, -⟩
  exact ⟨N, vm', o, h1, h2, h3⟩

#print axioms C19_evaluation_partial
#print axioms C19_memory_partial
#print axioms C19_jumps
#print axioms C19_small_programs_fit
#print axioms C19_assembles

end DuckLisp.Props
