import Verif.Props.Compile.Session

/-!
# C19: programs with functions

`((global fact (lambda (n) (if (< n 2) 1 (* n (fact (- n 1)))))) (fact 5))`, compiled by a compiler that knows forty
names: the number of `fact` is 40.  Every hypothesis of `C19_memory_partial` is met, for a dialect with functions.
-/

namespace DuckLisp.Props

open DuckLisp DuckLisp.VM DuckLisp.Asm DuckLisp.Compile DuckLisp.Spec DuckLisp.Reader

private def nm (x : String) : Ast := .identifier (ascii x)

/-- The body of the function. -/
def factorialBody : Ast := .expression [nm "if", .expression [nm "<", nm "n", .int 2], .int 1,
  .expression [nm "*", nm "n", .expression [nm "fact", .expression [nm "-", nm "n", .int 1]]]]

/-- The program. -/
def factorial : Ast := .expression [
  .expression [nm "global", nm "fact", .expression [nm "lambda", .expression [nm "n"], factorialBody]],
  .expression [nm "fact", .int 5]]

/-- Functions; no variables outside of them; calls of `fact`. -/
def calling : Dialect := ⟨true, fun _ => false, fun x => x == ascii "fact"⟩

theorem calling_free (depth : Nat) : CallsFree ⟨Trie.init (-1), depth⟩ calling := by
  intro name h
  obtain rfl : name = ascii "fact" := by simpa [calling] using h
  exact ⟨by decide +kernel, by decide +kernel,
    show Trie.find (Trie.init (-1)) (ascii "fact") = -1 by decide +kernel⟩

theorem factorial_term : Term calling false factorial := by
  have c : ∀ {s : String}, Spelled (ascii s) s := .inl rfl
  have n : Term calling true (nm "n") := .name _ fun _ => ⟨rfl, by decide +kernel⟩
  refine .block _ _ (.list _) ?_
  simp only [List.forall_mem_cons, List.not_mem_nil, false_imp_iff, implies_true, and_true]
  refine ⟨.form _ (.global _ _ _ c (.lambda _ [ascii "n"] none _ rfl c ?_ nofun ?_)), .form _ (.call _ _ rfl (by decide +kernel) nofun ?_)⟩
  · simp only [List.forall_mem_cons, List.not_mem_nil, false_imp_iff, implies_true, and_true]
    decide +kernel
  · simp only [List.forall_mem_cons, List.not_mem_nil, false_imp_iff, implies_true, and_true]
    refine .form _ (.if_ _ _ _ _ c (.operator _ "<" _ (by decide) c ?_) (.int _) (.operator _ "*" _ (by decide) c ?_))
    · simp only [List.forall_mem_cons, List.not_mem_nil, false_imp_iff, implies_true, and_true]
      exact ⟨n, .int _⟩
    · simp only [List.forall_mem_cons, List.not_mem_nil, false_imp_iff, implies_true, and_true]
      refine ⟨n, .call _ _ rfl (by decide +kernel) (fun _ => ⟨rfl, by decide +kernel⟩) ?_⟩
      simp only [List.forall_mem_cons, List.not_mem_nil, false_imp_iff, implies_true, and_true]
      refine .operator _ "-" _ (by decide) c ?_
      simp only [List.forall_mem_cons, List.not_mem_nil, false_imp_iff, implies_true, and_true]
      exact ⟨n, .int _⟩
  · simp only [List.forall_mem_cons, List.not_mem_nil, false_imp_iff, implies_true, and_true]
    exact .int _

private def names : List Bytes := (List.range 40).map fun k => [UInt8.ofNat (97 + k)]

/-- A compiler that knows forty names. -/
def informed : CState := { CState.init with symbols := Tables.createAll .init names }

private theorem knowing_fresh (names : List Bytes) :
    Fresh { CState.init with symbols := Tables.createAll .init names }.renew :=
  ⟨rfl, rfl, rfl, ⟨names, rfl⟩, ⟨[], by simp, rfl⟩, ⟨[], by simp, rfl⟩⟩

theorem informed_fresh : Fresh informed.renew := knowing_fresh names

/-- Only `fact` is called. -/
def onlyFact (x : Bytes) : Bool := x == ascii "fact"

/-- Compile the program, and check everything. -/
def compileFactorial : Option (CState × Bytes) :=
  match compileAST ⟨Trie.init (-1), 100⟩ 100 factorial informed.renew with
  | .ok () s1 => match assemble ⟨true, true, true⟩ s1.scopes.runtime.labelNumber s1.assembly with
    | .ok bytes => if s1.gensymNumber ≤ 2 ^ 64 ∧ room s1.assembly ≤ 255 ∧ s1.assembly.length < 2 ^ 31 ∧
        (∀ i ∈ s1.assembly, LiteralsFit i) ∧ noGarbage true s1.assembly = true ∧ bytes.length ≤ 126 ∧
        (room s1.assembly : Int) ≤ Tables.nameToValue s1.symbols (ascii "fact") then some (s1, bytes) else none
    | _ => none
  | _ => none

theorem compileFactorial_ok {s1 : CState} {bytes : Bytes} (h : compileFactorial = some (s1, bytes)) :
    compileAST ⟨Trie.init (-1), 100⟩ 100 factorial informed.renew = .ok () s1 ∧
      Loadable ⟨true, true, true⟩ onlyFact s1 bytes := by
  unfold compileFactorial at h
  split at h
  · rename_i hc
    split at h
    · rename_i hb
      split at h
      · rename_i hk
        cases h
        obtain ⟨h1, h2, h7, h3, h4, h5, h6⟩ := hk
        refine ⟨hc, h1, hb, C19_jumps _ _ _ _ _ _ _ _ (keywordsFree_none 100) (calling_free 100) factorial_term
            informed_fresh hc h1 hb (.inr ⟨rfl, h5⟩), h7,
          C19_small_programs_fit _ _ _ _ _ _ (keywordsFree_none 100) (calling_free 100) factorial_term informed_fresh hc h1 h2 h3,
          fun _ => noGarbage_of h4, fun x hx => ?_⟩
        obtain rfl : x = ascii "fact" := by simpa [onlyFact] using hx
        exact h6
      · cases h
    · cases h
  · cases h

/-- Some arithmetic; the program has no use for it. -/
private def fl0 : FloatOps := ⟨fun a _ => a, fun a _ => a, fun a _ => a, fun a _ => a, fun _ => 0⟩

private theorem factorial_value : Eval.program ⟨fl0, true, onlyFact⟩ 10 [] factorial =
    .ok (.int 120, [(ascii "fact", .function [ascii "n"] none [factorialBody])]) := by decide +kernel

/-- In a new machine the code of the program leaves 120, or memory runs out. -/
example (env : VM.Env) (hfl : env.fl = fl0) (m : Nat) (hm : m + 1 < 2 ^ 60) : ∃ s' bytes,
    compileAST ⟨Trie.init (-1), 100⟩ 100 factorial informed.renew = .ok () s' ∧
    assemble ⟨true, true, true⟩ s'.scopes.runtime.labelNumber s'.assembly = .ok bytes ∧
    (MemoryRunsOut env bytes (init (m + 1)) ∨ ∃ N vm',
      (∀ fuel, N ≤ fuel → execute env fuel bytes (init (m + 1)) = .ok () vm') ∧
      vm'.stack.getLast? = some (.integer 120)) := by
  obtain ⟨⟨s', bytes⟩, h⟩ := Option.isSome_iff_exists.1 (by decide +kernel : compileFactorial.isSome = true)
  obtain ⟨hc, hl⟩ := compileFactorial_ok h
  have h := C19_memory_partial _ calling 100 factorial informed.renew s' ⟨true, true, true⟩ bytes env (init (m + 1)) 10 onlyFact []
    (keywordsFree_none 100) (calling_free 100) factorial_term informed_fresh hc hl.gensyms hl.assembled hl.jumps hl.short
    hl.fits hl.garbage hl.numbers noGlobals (init_good _ hm) rfl (fun h => init_free m h.1)
  rw [hfl, factorial_value] at h
  refine ⟨s', bytes, hc, hl.assembled, h.symm.imp_right ?_⟩
  rintro ⟨N, vm', h1, -, -, -, -, o, h2, h3, -⟩
  cases h3
  exact ⟨N, vm', h1, h2⟩

/-- With four calls within calls only the evaluator is not done. -/
example : Eval.program ⟨fl0, true, onlyFact⟩ 4 [] factorial = .unfinished := by decide +kernel

/-! ### A parameter for all further arguments

`((global sum (lambda (a &rest more) (if more (+ a (apply sum more)) a))) (sum 1 (apply sum 4 (list 5 6))))`. -/

/-- The body of the function. -/
def sumBody : Ast := .expression [nm "if", nm "more",
  .expression [nm "+", nm "a", .expression [nm "apply", nm "sum", nm "more"]], nm "a"]

/-- The program. -/
def addUp : Ast := .expression [
  .expression [nm "global", nm "sum", .expression [nm "lambda", .expression [nm "a", nm "&rest", nm "more"], sumBody]],
  .expression [nm "sum", .int 1,
    .expression [nm "apply", nm "sum", .int 4, .expression [nm "list", .int 5, .int 6]]]]

/-- Functions; no variables outside of them; calls of `sum`. -/
def summing : Dialect := ⟨true, fun _ => false, fun x => x == ascii "sum"⟩

theorem summing_free (depth : Nat) : CallsFree ⟨Trie.init (-1), depth⟩ summing := by
  intro name h
  obtain rfl : name = ascii "sum" := by simpa [summing] using h
  exact ⟨by decide +kernel, by decide +kernel,
    show Trie.find (Trie.init (-1)) (ascii "sum") = -1 by decide +kernel⟩

theorem addUp_term : Term summing false addUp := by
  have c : ∀ {s : String}, Spelled (ascii s) s := .inl rfl
  have n : ∀ {s : String}, ascii s ≠ ascii "self" → Term summing true (nm s) := fun h => .name _ fun _ => ⟨rfl, h⟩
  refine .block _ _ (.list _) ?_
  simp only [List.forall_mem_cons, List.not_mem_nil, false_imp_iff, implies_true, and_true]
  refine ⟨.form _ (.global _ _ _ c (.lambda _ [ascii "a"] (some (ascii "more")) _ rfl c ?_ ?_ ?_)),
    .form _ (.call _ _ rfl (by decide +kernel) nofun ?_)⟩
  · simp only [List.forall_mem_cons, List.not_mem_nil, false_imp_iff, implies_true, and_true]
    decide +kernel
  · simp only [Option.mem_def, Option.some.injEq, forall_eq']
    decide +kernel
  · simp only [List.forall_mem_cons, List.not_mem_nil, false_imp_iff, implies_true, and_true]
    refine .form _ (.if_ _ _ _ _ c (n (by decide +kernel)) (.operator _ "+" _ (by decide) c ?_) (n (by decide +kernel)))
    simp only [List.forall_mem_cons, List.not_mem_nil, false_imp_iff, implies_true, and_true]
    refine ⟨n (by decide +kernel), .apply _ _ _ _ rfl c (n (by decide +kernel)) ?_⟩
    simp only [List.forall_mem_cons, List.not_mem_nil, false_imp_iff, implies_true, and_true]
    exact n (by decide +kernel)
  · simp only [List.forall_mem_cons, List.not_mem_nil, false_imp_iff, implies_true, and_true]
    refine ⟨.int _, .apply _ _ _ _ rfl c (.name _ nofun) ?_⟩
    simp only [List.forall_mem_cons, List.not_mem_nil, false_imp_iff, implies_true, and_true]
    refine ⟨.int _, .list _ _ c ?_⟩
    simp only [List.forall_mem_cons, List.not_mem_nil, false_imp_iff, implies_true, and_true]
    exact ⟨.int _, .int _⟩

/-- Only `sum` is called. -/
def onlySum (x : Bytes) : Bool := x == ascii "sum"

/-- Compile the program, and check everything. -/
def compileAddUp : Option (CState × Bytes) :=
  match compileAST ⟨Trie.init (-1), 100⟩ 100 addUp informed.renew with
  | .ok () s1 => match assemble ⟨true, true, true⟩ s1.scopes.runtime.labelNumber s1.assembly with
    | .ok bytes => if s1.gensymNumber ≤ 2 ^ 64 ∧ room s1.assembly ≤ 255 ∧ s1.assembly.length < 2 ^ 31 ∧
        (∀ i ∈ s1.assembly, LiteralsFit i) ∧ noGarbage true s1.assembly = true ∧ bytes.length ≤ 126 ∧
        (room s1.assembly : Int) ≤ Tables.nameToValue s1.symbols (ascii "sum") then some (s1, bytes) else none
    | _ => none
  | _ => none

theorem compileAddUp_ok {s1 : CState} {bytes : Bytes} (h : compileAddUp = some (s1, bytes)) :
    compileAST ⟨Trie.init (-1), 100⟩ 100 addUp informed.renew = .ok () s1 ∧
      Loadable ⟨true, true, true⟩ onlySum s1 bytes := by
  unfold compileAddUp at h
  split at h
  · rename_i hc
    split at h
    · rename_i hb
      split at h
      · rename_i hk
        cases h
        obtain ⟨h1, h2, h7, h3, h4, h5, h6⟩ := hk
        refine ⟨hc, h1, hb, C19_jumps _ _ _ _ _ _ _ _ (keywordsFree_none 100) (summing_free 100) addUp_term
            informed_fresh hc h1 hb (.inr ⟨rfl, h5⟩), h7,
          C19_small_programs_fit _ _ _ _ _ _ (keywordsFree_none 100) (summing_free 100) addUp_term informed_fresh hc h1 h2 h3,
          fun _ => noGarbage_of h4, fun x hx => ?_⟩
        obtain rfl : x = ascii "sum" := by simpa [onlySum] using hx
        exact h6
      · cases h
    · cases h
  · cases h

private theorem addUp_value : Eval.program ⟨fl0, true, onlySum⟩ 10 [] addUp =
    .ok (.int 16, [(ascii "sum", .function [ascii "a"] (some (ascii "more")) [sumBody])]) := by decide +kernel

/-- In a new machine the code of the program leaves 16, or memory runs out. -/
example (env : VM.Env) (hfl : env.fl = fl0) (m : Nat) (hm : m + 1 < 2 ^ 60) : ∃ s' bytes,
    compileAST ⟨Trie.init (-1), 100⟩ 100 addUp informed.renew = .ok () s' ∧
    assemble ⟨true, true, true⟩ s'.scopes.runtime.labelNumber s'.assembly = .ok bytes ∧
    (MemoryRunsOut env bytes (init (m + 1)) ∨ ∃ N vm',
      (∀ fuel, N ≤ fuel → execute env fuel bytes (init (m + 1)) = .ok () vm') ∧
      vm'.stack.getLast? = some (.integer 16)) := by
  obtain ⟨⟨s', bytes⟩, h⟩ := Option.isSome_iff_exists.1 (by decide +kernel : compileAddUp.isSome = true)
  obtain ⟨hc, hl⟩ := compileAddUp_ok h
  have h := C19_memory_partial _ summing 100 addUp informed.renew s' ⟨true, true, true⟩ bytes env (init (m + 1)) 10 onlySum []
    (keywordsFree_none 100) (summing_free 100) addUp_term informed_fresh hc hl.gensyms hl.assembled hl.jumps hl.short
    hl.fits hl.garbage hl.numbers noGlobals (init_good _ hm) rfl (fun h => init_free m h.1)
  rw [hfl, addUp_value] at h
  refine ⟨s', bytes, hc, hl.assembled, h.symm.imp_right ?_⟩
  rintro ⟨N, vm', h1, -, -, -, -, o, h2, h3, -⟩
  cases h3
  exact ⟨N, vm', h1, h2⟩

/-- A function with a parameter for further arguments takes no fewer arguments than it has other parameters. -/
example : Eval.program ⟨fl0, true, onlySum⟩ 10 [] (.expression [
    .expression [nm "global", nm "sum", .expression [nm "lambda", .expression [nm "a", nm "&rest", nm "more"], sumBody]],
    .expression [nm "sum"]]) = .error .invalidValue := by decide +kernel

end DuckLisp.Props
