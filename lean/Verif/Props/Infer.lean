import Verif.Proof.Infer.Whole
import Verif.Props.Reader
import Verif.Spec.Eval

/-!
# C50: parentheses that are left out

A program may leave out the parentheses of calls of declared functions.
-/

namespace DuckLisp.Props

open DuckLisp.Reader DuckLisp.Infer DuckLisp.Spec DuckLisp.Spec.Inference

variable {σ : Type}

/-- **C50, the rules.**  Inference gives a program `e'` for the program `e` exactly if `e` stands for `e'` by the rules
of `Spec/Infer.lean`: every call takes as many arguments as declared for its function, if it stands without
parentheses, and all that stands in the parentheses otherwise. -/
theorem C50_rules (cfg : Infer.Config σ) (reader : Reader.Config) (ds : List Prototype) (inner : σ) (e e' : Ast) :
    (∃ fuel, inferParentheses cfg reader fuel ds inner e = .ok e') ↔
      StandsFor cfg (ReadAs reader) (builtin ++ ds) inner e e' := by
  constructor
  · rintro ⟨fuel, h⟩
    obtain ⟨s, s', h1, h2⟩ := inferParentheses_ok.1 h
    obtain ⟨E, a1, a2⟩ := declareAll_sound _ h1 (linked_new inner)
    obtain ⟨E', b1, b2⟩ := (sound cfg fuel).compound _ _ _ _ _ _ a1 h2
    exact ⟨E, E', a2, b2⟩
  · rintro ⟨E, E', h1, h2⟩
    obtain ⟨s, a1, a2⟩ := declareAll_complete h1 (linked_new inner)
    obtain ⟨s', b1, N, b2⟩ := whole_complete h2 s a2
    exact ⟨N, inferParentheses_ok.2 ⟨s, s', a1, b2 N (Nat.le_refl _)⟩⟩

/-- **C50, the result is the same however long inference may take**, provided it is long enough. -/
theorem C50_enough_time (cfg : Infer.Config σ) (reader : Reader.Config) (ds : List Prototype) (inner : σ) (e e' : Ast)
    (h : StandsFor cfg (ReadAs reader) (builtin ++ ds) inner e e') :
    ∃ N, ∀ fuel, N ≤ fuel → inferParentheses cfg reader fuel ds inner e = .ok e' := by
  obtain ⟨E, E', h1, h2⟩ := h
  obtain ⟨s, a1, a2⟩ := declareAll_complete h1 (linked_new inner)
  obtain ⟨s', b1, N, b2⟩ := whole_complete h2 s a2
  exact ⟨N, fun fuel hf => inferParentheses_ok.2 ⟨s, s', a1, b2 fuel hf⟩⟩

/-- **C50, no ambiguity.**  A program stands for one program at most. -/
theorem C50_unambiguous (cfg : Infer.Config σ) (reader : Reader.Config) (ds : List Prototype) (inner : σ) (e e' e'' : Ast)
    (h : StandsFor cfg (ReadAs reader) (builtin ++ ds) inner e e')
    (h' : StandsFor cfg (ReadAs reader) (builtin ++ ds) inner e e'') : e' = e'' := by
  obtain ⟨N, h1⟩ := C50_enough_time cfg reader ds inner e e' h
  obtain ⟨N', h2⟩ := C50_enough_time cfg reader ds inner e e'' h'
  have := (h1 (max N N') (Nat.le_max_left _ _)).symm.trans (h2 (max N N') (Nat.le_max_right _ _))
  simpa using this

/-- **C50, only parentheses are added.**  What is inferred has the forms of the program in the same order; some forms in a
row that begin with a name have been put into parentheses, and marks `#` have been taken away. -/
theorem C50_only_adds_parentheses (cfg : Infer.Config σ) (reader : Reader.Config) (fuel : Nat) (ds : List Prototype)
    (inner : σ) (e e' : Ast) (h : inferParentheses cfg reader fuel ds inner e = .ok e') : Grouped [e] [e'] := by
  obtain ⟨s, s', -, h⟩ := inferParentheses_ok.1 h
  exact (groups cfg fuel).compound _ _ _ _ _ h

/-- **C50, once is enough.**  In what was inferred, all parentheses are there: inferring once more changes nothing.  Marks
`#` tell inference what to leave alone and are gone the second time, so there must not be any. -/
theorem C50_idempotent (cfg : Infer.Config σ) (reader : Reader.Config) (fuel : Nat) (ds : List Prototype)
    (inner : σ) (e e' : Ast) (hu : Unmarked e) (h : inferParentheses cfg reader fuel ds inner e = .ok e') :
    ∃ N, ∀ fuel, N ≤ fuel → inferParentheses cfg reader fuel ds inner e' = .ok e' := by
  obtain ⟨s, s', h1, h2⟩ := inferParentheses_ok.1 h
  obtain ⟨-, -, N, h3⟩ := (again cfg fuel).compound _ _ _ _ _ hu h2
  exact ⟨N, fun fuel hf => inferParentheses_ok.2 ⟨s, s', h1, h3 fuel hf⟩⟩

/-- **C50, parentheses are optional.**  Wherever parentheses are inferred, a call of a function that is declared with a
fixed number of arguments stands for the same form, and declares the same names, with parentheses and without.  This
holds for functions with scripts as well. -/
theorem C50_parentheses_optional (cfg : Infer.Config σ) (E : Env σ) (f : Bytes) (d : Decl σ) (ps : List Sig)
    (hd : E.declared f = some d) (hs : d.sig = .fixed ps) (args rest : List Ast) (e : Ast) (E' : Env σ) :
    Next cfg true (.identifier f :: args ++ rest) E e rest E' ↔
      Next cfg true (.expression (.identifier f :: args) :: rest) E e rest E' :=
  next_parentheses hd hs

/-- **C50, texts.**  A text that leaves out parentheses is read as the program that it stands for. -/
theorem C50_text (cfg : Infer.Config σ) (reader : Reader.Config) (hact : NoActions reader) (ds : List Prototype) (inner : σ)
    {e e' : Ast} {w : Bytes} (hw : Written reader.toDouble e w) (pre sep post : Bytes) (hsep : Sep sep)
    (hpost : Stops e post) (hh : height e < reader.maxDepth) (s : RState)
    (h : StandsFor cfg (ReadAs reader) (builtin ++ ds) inner e e') :
    ∃ N, ∀ fuel, N ≤ fuel → Infer.read cfg reader fuel ds inner (pre ++ sep ++ w ++ post) pre.length s =
      .ok (postprocess e') { s with depth := 0 } := by
  obtain ⟨N, hN⟩ := C50_enough_time cfg reader ds inner e e' h
  refine ⟨N, fun fuel hf => ?_⟩
  unfold Infer.read
  rw [C09_reads reader hact hw pre sep post hsep hpost { s with depth := 0 } (by simpa using hh) _ (by omega)]
  simp only [hN fuel hf]

/-! ### A case -/

/-- Scripts as those of `var` and `global`: the name that is the first argument is declared as a variable. -/
def exampleCompiler : Infer.Config Unit :=
  ⟨fun _ _ => .ok (fun _ => .next () fun e _ =>
    match e with
    | .identifier x => .declare x (.identifier (ascii "L")) (.done ())
    | _ => .fail .invalidValue, ())⟩

/-- Some declarations from duckLisp.c:1623-1905. -/
def exampleDeclarations : List Prototype :=
  [⟨ascii "var", ascii "(L I)", ascii "(declare-identifier (infer-and-get-next-argument) (quote L))"⟩,
    ⟨ascii "setq", ascii "(L I)", []⟩, ⟨ascii "+", ascii "(I I)", []⟩, ⟨ascii "while", ascii "(I &rest 1 I)", []⟩]

/-- `(() var x + 1 2 (while x setq x + x 3 setq x 4) declare f (I) f x)` -/
def exampleProgram : Ast :=
  let name s := Ast.identifier (ascii s)
  .expression [.expression [], name "var", name "x", name "+", .int 1, .int 2,
    .expression [name "while", name "x", name "setq", name "x", name "+", name "x", .int 3, name "setq", name "x", .int 4],
    name "declare", name "f", .expression [name "I"], name "f", name "x"]

/-- `(() (var x (+ 1 2)) (while x (setq x (+ x 3)) (setq x 4)) (declare f (I)) (f x))` -/
def exampleResult : Ast :=
  let name s := Ast.identifier (ascii s)
  .expression [.expression [], .expression [name "var", name "x", .expression [name "+", .int 1, .int 2]],
    .expression [name "while", name "x", .expression [name "setq", name "x", .expression [name "+", name "x", .int 3]],
      .expression [name "setq", name "x", .int 4]],
    .expression [name "declare", name "f", .expression [name "I"]], .expression [name "f", name "x"]]

theorem example_inferred : inferParentheses exampleCompiler exampleConfig 40 exampleDeclarations () exampleProgram =
    .ok exampleResult := by
  decide +kernel

/-- The hypotheses are met, and the rules give what is expected. -/
example : StandsFor exampleCompiler (ReadAs exampleConfig) (builtin ++ exampleDeclarations) () exampleProgram exampleResult :=
  (C50_rules _ _ _ _ _ _).1 ⟨40, example_inferred⟩

example : Unmarked exampleProgram := by
  simp [exampleProgram, Unmarked, AllUnmarked]

/-! ### Where inference goes wrong -/

/-- **Inference does not always end.**  If the type of the further arguments of `f` is neither `L` nor `I`, as in
`(declare f (&rest 1 (I)))`, then inference of `(f 1)` never ends (parenthesis-inferrer.c:1216-1246).  The error is noted, but
the loop goes on. -/
theorem C50_never_ends (fuel : Nat) :
    inferParentheses exampleCompiler exampleConfig fuel [⟨ascii "f", ascii "(&rest 1 (I))", []⟩] ()
      (.expression [.identifier (ascii "f"), .int 1]) = .timeout := by
  obtain ⟨s, hs, hf⟩ : ∃ s, declareAll exampleCompiler exampleConfig (builtin ++ [⟨ascii "f", ascii "(&rest 1 (I))", []⟩])
      ⟨[.new], ()⟩ = .ok ((), s) ∧ lookup (ascii "f") s.scopes = some ⟨.variadic [] 1 (.fixed [.infer]), none⟩ := by
    have h : (match declareAll exampleCompiler exampleConfig (builtin ++ [⟨ascii "f", ascii "(&rest 1 (I))", []⟩]) ⟨[.new], ()⟩ with
        | .ok (_, s) =>
          match lookup (ascii "f") s.scopes with
          | some ⟨.variadic [] 1 (.fixed [.infer]), none⟩ => true
          | _ => false
        | _ => false) = true := by decide +kernel
    split at h
    · rename_i s hs
      refine ⟨s, hs, ?_⟩
      split at h
      · assumption
      · cases h
    · cases h
  rw [inferParentheses_run hs, compound_endless rfl hf]

/-- **Inference has undefined behaviour** for literal expressions that do not begin with a name, as `#(1 2)`: the number is
taken for a name (parenthesis-inferrer.c:1104-1111 and 1562). -/
theorem C50_literal_head (fuel : Nat) :
    inferParentheses exampleCompiler exampleConfig (fuel + 1) [] () (.literal [.int 1, .int 2]) = .ub := by
  obtain ⟨s, hs⟩ : ∃ s, declareAll exampleCompiler exampleConfig (builtin ++ []) ⟨[.new], ()⟩ = .ok ((), s) := by
    have h : (match declareAll exampleCompiler exampleConfig (builtin ++ []) ⟨[.new], ()⟩ with
        | .ok _ => true
        | _ => false) = true := by decide +kernel
    split at h
    · rename_i s hs
      exact ⟨s.2, hs⟩
    · cases h
  rw [inferParentheses_run hs]
  rfl

/-- Marks tell inference what to leave alone, so with marks inferring twice is not the same as inferring once: `(#+ 1)`
becomes `(+ 1)`, in which an argument is missing. -/
theorem C50_marks :
    inferParentheses exampleCompiler exampleConfig 10 exampleDeclarations () (.expression [.callback (ascii "+"), .int 1]) =
      .ok (.expression [.identifier (ascii "+"), .int 1]) ∧
    inferParentheses exampleCompiler exampleConfig 10 exampleDeclarations () (.expression [.identifier (ascii "+"), .int 1]) =
      .err .invalidValue := by
  constructor <;> decide +kernel

end DuckLisp.Props

#print axioms DuckLisp.Props.C50_rules
#print axioms DuckLisp.Props.C50_enough_time
#print axioms DuckLisp.Props.C50_unambiguous
#print axioms DuckLisp.Props.C50_only_adds_parentheses
#print axioms DuckLisp.Props.C50_idempotent
#print axioms DuckLisp.Props.C50_parentheses_optional
#print axioms DuckLisp.Props.C50_text
