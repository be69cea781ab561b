import Verif.Model.Reader

/-!
# The core language, and functions

The forms that use neither functions nor macros, given by their syntax only; and those that use functions whose
bodies mention only their own variables and globals.
-/

namespace DuckLisp.Spec

open DuckLisp.Reader

/-- The name is that of the keyword, which may be written with two underscores in front. -/
def Spelled (name : Bytes) (keyword : String) : Prop := name = ascii keyword ∨ name = ascii ("__" ++ keyword)

/-- The operators, by their number of operands. -/
def operators : Nat → List String
  | 0 => ["make-type"]
  | 1 => ["not", "null?", "car", "cdr", "type-of", "length", "make-string", "symbol-string", "symbol-id",
      "composite-value", "composite-function"]
  | 2 => ["+", "-", "*", "/", "=", "<", ">", "cons", "set-car", "set-cdr", "make-vector", "get-vector-element",
      "concatenate", "set-composite-value", "set-composite-function"]
  | 3 => ["set-vector-element", "make-instance", "substring"]
  | _ => []

/-- A list that begins like this is a block: its elements are run one after the other. -/
inductive Opens : Ast → Prop
  | bool (b) : Opens (.bool b)
  | int (i) : Opens (.int i)
  | float (bits) : Opens (.float bits)
  | string (s) : Opens (.string s)
  | list (es) : Opens (.expression es)

/-- Constants that count as true. -/
inductive Truth : Ast → Prop
  | bool : Truth (.bool true)
  | int (i) : i ≠ 0 → Truth (.int i)
  | float (bits) : bits ≠ 0 → bits ≠ 0x8000000000000000 → Truth (.float bits)
  | string (c s) : Truth (.string (c :: s))

/-- What may be quoted. -/
inductive Datum : Ast → Prop
  | bool (b) : Datum (.bool b)
  | int (i) : Datum (.int i)
  | float (bits) : Datum (.float bits)
  | string (s) : Datum (.string s)
  | symbol (name) : Datum (.identifier name)
  | list (es) : (∀ e ∈ es, Datum e) → Datum (.expression es)

/-- Which functions a program may have. -/
structure Dialect where
  /-- There may be functions, and they may be called. -/
  functions : Bool
  /-- The names of the variables that may be declared outside of functions.  Functions may not mention them. -/
  outer : Bytes → Bool
  /-- The names by which functions are called. -/
  callable : Bytes → Bool

/-- No functions. -/
def Dialect.core : Dialect := ⟨false, fun _ => true, fun _ => false⟩

/-- Names that may be mentioned: all of them outside of functions; in a function, those that are not declared
outside of functions, and not `self`, which the compiler declares around every function. -/
def Dialect.Mentions (D : Dialect) (inside : Bool) (x : Bytes) : Prop :=
  inside = true → D.outer x = false ∧ x ≠ ascii "self"

/-- How parameters are written: the name after `&rest` is that of the list of all further arguments. -/
def signature (params : List Bytes) : Option Bytes → List Bytes
  | none => params
  | some rest => params ++ [ascii "&rest", rest]

mutual
/-- The forms that have a value wherever they stand; the flag says whether they stand in a function. -/
inductive Term (D : Dialect) : Bool → Ast → Prop
  | bool {m} (b) : Term D m (.bool b)
  | int {m} (i) : Term D m (.int i)
  | float {m} (bits) : Term D m (.float bits)
  | string {m} (s) : Term D m (.string s)
  | name {m} (x) : D.Mentions m x → Term D m (.identifier x)
  | empty {m} : Term D m (.expression [])
  | block {m} (e es) : Opens e → (∀ f ∈ e :: es, Member D m f) → Term D m (.expression (e :: es))
  | operator {m} (name keyword args) : keyword ∈ operators args.length → Spelled name keyword →
      (∀ a ∈ args, Term D m a) → Term D m (.expression (.identifier name :: args))
  | list {m} (name args) : Spelled name "list" → (∀ a ∈ args, Term D m a) →
      Term D m (.expression (.identifier name :: args))
  | vector {m} (name args) : Spelled name "vector" → (∀ a ∈ args, Term D m a) →
      Term D m (.expression (.identifier name :: args))
  | declare {m} (name args) : Spelled name "declare" → Term D m (.expression (.identifier name :: args))
  | quote {m} (name e) : Spelled name "quote" → Datum e → Term D m (.expression [.identifier name, e])
  | setq {m} (name x e) : Spelled name "setq" → D.Mentions m x → Term D m e →
      Term D m (.expression [.identifier name, .identifier x, e])
  | global {m} (name x e) : Spelled name "global" → Term D m e →
      Term D m (.expression [.identifier name, .identifier x, e])
  | if_ {m} (name c e f) : Spelled name "if" → Term D m c → Term D m e → Term D m f →
      Term D m (.expression [.identifier name, c, e, f])
  | when_ {m} (name c es) : Spelled name "when" → Term D m c → (∀ e ∈ es, Member D m e) →
      Term D m (.expression (.identifier name :: c :: es))
  | unless_ {m} (name c es) : Spelled name "unless" → Term D m c → (∀ e ∈ es, Member D m e) →
      Term D m (.expression (.identifier name :: c :: es))
  | while_ {m} (name c es) : Spelled name "while" → Term D m c → ¬ Truth c → (∀ e ∈ es, Member D m e) →
      Term D m (.expression (.identifier name :: c :: es))
  | lambda (name) (params : List Bytes) (rest : Option Bytes) (forms) : D.functions = true → Spelled name "lambda" →
      (∀ p ∈ params, p ≠ ascii "&rest") → (∀ r ∈ rest, r ≠ ascii "&rest") → (∀ e ∈ forms, Member D true e) →
      Term D false (.expression (.identifier name :: .expression ((signature params rest).map .identifier) :: forms))
  | funcall {m} (name f args) : D.functions = true → Spelled name "funcall" → Term D m f → (∀ a ∈ args, Term D m a) →
      Term D m (.expression (.identifier name :: f :: args))
  | apply {m} (name f a args) : D.functions = true → Spelled name "apply" → Term D m f → (∀ b ∈ a :: args, Term D m b) →
      Term D m (.expression (.identifier name :: f :: a :: args))
  | call {m} (name args) : D.functions = true → D.callable name = true → D.Mentions m name →
      (∀ a ∈ args, Term D m a) → Term D m (.expression (.identifier name :: args))
/-- What may stand in a block: also declarations. -/
inductive Member (D : Dialect) : Bool → Ast → Prop
  | form {m} (e) : Term D m e → Member D m e
  | var {m} (name x e) : Spelled name "var" → (m = false → D.outer x = true) → Term D m e →
      Member D m (.expression [.identifier name, .identifier x, e])
  | noscope {m} (name es) : Spelled name "noscope" → (∀ e ∈ es, Member D m e) →
      Member D m (.expression (.identifier name :: es))
end

/-- The forms of the core language that have a value wherever they stand. -/
abbrev Form (e : Ast) : Prop := Term .core false e

/-- What may stand in a block of the core language. -/
abbrev Item (e : Ast) : Prop := Member .core false e

end DuckLisp.Spec
