import Verif.Proof.Print
import Verif.Spec.Reader

/-!
# C57: printed syntax trees show what they are
-/

namespace DuckLisp.Props

open DuckLisp DuckLisp.Reader DuckLisp.Spec

/-- C57: printing adds to the text that is there already, whatever it is. -/
theorem C57_appends (e : Ast) : ∃ t, ∀ out, Print.print out e = out ++ t :=
  ⟨_, Print.print_append e⟩

/-- C57: what is printed for a tree determines the tree, up to the values of numbers with a fraction, and where it ends:
it can be told from whatever follows it.

Missing: numbers with a fraction, which are not shown (`C57_floats_hidden`), and double quotes within texts, which are
not marked (`C57_quotes_ambiguous`). -/
theorem C57_determined_partial (out : Bytes) (e e' : Ast) (rest rest' : Bytes) (he : Unquoted e) (he' : Unquoted e')
    (h : Print.print out e ++ rest = Print.print out e' ++ rest') : withoutFloats e = withoutFloats e' ∧ rest = rest' := by
  rw [Print.print_append e, Print.print_append e', List.append_assoc, List.append_assoc, List.append_cancel_left_eq] at h
  exact Print.print_inj e e' rest rest' he he' h

/-- C57, for trees that were read: from texts without a backslash. -/
theorem C57_read_partial (toDouble : Bytes → Option UInt64) (out : Bytes) (e e' : Ast) (w w' : Bytes)
    (hw : Written toDouble e w) (hw' : Written toDouble e' w') (hb : 92 ∉ w) (hb' : 92 ∉ w')
    (h : Print.print out e = Print.print out e') : withoutFloats e = withoutFloats e' :=
  (C57_determined_partial out e e' [] [] (Print.unquoted_of_written hw hb) (Print.unquoted_of_written hw' hb')
    (by rw [h])).1

/-- C57, violated: the values of numbers with a fraction are not shown. -/
theorem C57_floats_hidden (out : Bytes) (e e' : Ast) (h : withoutFloats e = withoutFloats e') :
    Print.print out e = Print.print out e' := by
  rw [← Print.print_withoutFloats e, ← Print.print_withoutFloats e', h]

/-- The list of the texts `x` and `y`. -/
def twoTexts : Ast := .expression [.string (ascii "x"), .string (ascii "y")]

/-- A list of one text. -/
def oneText : Ast := .expression [.string (ascii ("x\"}}, (duckLisp_ast_compoundExpression_t) " ++
  "{type = duckLisp_ast_type_string, value = (duckLisp_ast_string_t) {\"y"))]

/-- C57, violated: double quotes within texts are not marked, so different trees look the same. -/
theorem C57_quotes_ambiguous (out : Bytes) : twoTexts ≠ oneText ∧ Print.print out twoTexts = Print.print out oneText := by
  refine ⟨by simp [twoTexts, oneText], ?_⟩
  rw [Print.print_append twoTexts, Print.print_append oneText]
  congr 1
  decide +kernel

/-- `(f #(1 "x") 2.5)`. -/
def printedTree : Ast := .expression [.identifier (ascii "f"), .literal [.int 1, .string (ascii "x")], .float 4612811918334230528]

example : Unquoted printedTree ∧ Unquoted twoTexts ∧ withoutFloats printedTree ≠ withoutFloats twoTexts ∧
    Print.print [] (.expression [.identifier (ascii "f"), .int (-1)]) = ascii ("(duckLisp_ast_compoundExpression_t) {" ++
      "type = duckLisp_ast_type_expression, value = (duckLisp_ast_expression_t) {" ++
      "(duckLisp_ast_compoundExpression_t) {type = duckLisp_ast_type_identifier, value = (duckLisp_ast_identifier_t) {\"f\"}}, " ++
      "(duckLisp_ast_compoundExpression_t) {type = duckLisp_ast_type_int, value = (duckLisp_ast_integer_t) {-1}}}}") := by
  refine ⟨?_, ?_, by simp [printedTree, twoTexts, withoutFloats, withoutFloatsAll], by decide +kernel⟩
  · simp only [printedTree, Unquoted, UnquotedAll]
    decide +kernel
  · simp only [twoTexts, Unquoted, UnquotedAll]
    decide +kernel

example (toDouble : Bytes → Option UInt64) : Written toDouble (.expression []) [40, 41] ∧
    Written toDouble (.literal []) [35, 40, 41] ∧ withoutFloats (.expression []) ≠ withoutFloats (.literal []) :=
  ⟨.empty, .emptyLiteral, by simp [withoutFloats]⟩

#print axioms C57_appends
#print axioms C57_determined_partial
#print axioms C57_read_partial
#print axioms C57_floats_hidden
#print axioms C57_quotes_ambiguous

end DuckLisp.Props
