import Verif.Model.Reader

/-!
# Model: the printer of syntax trees

What /repo/duckLisp.c:2447-2628 appends to an array of bytes, with enough memory.
-/

namespace DuckLisp.Print

open DuckLisp DuckLisp.Reader DuckLisp.DlString

/-- /repo/duckLisp.c:2447-2470 `duckLisp_ast_type_prettyPrint`. -/
def typeName : Ast → Bytes
  | .bool _ => ascii "duckLisp_ast_type_bool"
  | .float _ | .garbage => ascii "duckLisp_ast_type_float"
  | .int _ => ascii "duckLisp_ast_type_int"
  | .string _ => ascii "duckLisp_ast_type_string"
  | .callback _ => ascii "duckLisp_ast_type_callback"
  | .identifier _ => ascii "duckLisp_ast_type_identifier"
  | .literal _ => ascii "duckLisp_ast_type_literalExpression"
  | .expression _ => ascii "duckLisp_ast_type_expression"

/-- /repo/duckLisp.c:2472-2485 `duckLisp_ast_bool_prettyPrint`. -/
def printBool (out : Bytes) (b : Bool) : Bytes :=
  fromBool (out ++ ascii "(duckLisp_ast_bool_t) {") b ++ ascii "}"

/-- /repo/duckLisp.c:2487-2500 `duckLisp_ast_integer_prettyPrint`. -/
def printInteger (out : Bytes) (i : Int) : Bytes :=
  fromPtrdiff (out ++ ascii "(duckLisp_ast_integer_t) {") i ++ ascii "}"

/-- /repo/duckLisp.c:2502-2505 `duckLisp_ast_float_prettyPrint`: the number is not looked at. -/
def printFloat (out : Bytes) : Bytes := out ++ ascii "(duckLisp_ast_float_t) {...}"

/-- /repo/duckLisp.c:2507-2526 `duckLisp_ast_string_prettyPrint`. -/
def printString (out s : Bytes) : Bytes :=
  out ++ ascii "(duckLisp_ast_string_t) {" ++ ascii "\"" ++ s ++ ascii "\"" ++ ascii "}"

/-- /repo/duckLisp.c:2528-2547 `duckLisp_ast_identifier_prettyPrint`. -/
def printIdentifier (out s : Bytes) : Bytes :=
  out ++ ascii "(duckLisp_ast_identifier_t) {" ++ ascii "\"" ++ s ++ ascii "\"" ++ ascii "}"

mutual
/-- /repo/duckLisp.c:2570-2628 `duckLisp_ast_compoundExpression_prettyPrint`; with 2549-2568
`duckLisp_ast_expression_prettyPrint`. -/
def print (out : Bytes) (e : Ast) : Bytes :=
  let out := out ++ ascii "(duckLisp_ast_compoundExpression_t) {" ++ ascii "type = " ++ typeName e ++ ascii ", " ++
    ascii "value = "
  (match e with
  | .bool b => printBool out b
  | .float _ | .garbage => printFloat out
  | .int i => printInteger out i
  | .string s => printString out s
  | .callback s | .identifier s => printIdentifier out s
  | .literal es | .expression es => printAll (out ++ ascii "(duckLisp_ast_expression_t) {") es ++ ascii "}") ++ ascii "}"
/-- The loop of /repo/duckLisp.c:2555-2562. -/
def printAll (out : Bytes) : List Ast → Bytes
  | [] => out
  | [e] => print out e
  | e :: es => printAll (print out e ++ ascii ", ") es
end

end DuckLisp.Print
