import Verif.Model.Reader

/-!
# Specification: what the host's parser actions make of a program
-/

namespace DuckLisp.Spec

open DuckLisp.Reader (Ast)

/-- What an action does with a form: it gives another form or an error, and may write reports to the log. -/
abbrev Action := Ast → (log : Bytes) → Except DlError Ast × Bytes

/-- The name an expression begins with. -/
def firstName : Ast → Option Bytes
  | .expression (.identifier name :: _) | .expression (.callback name :: _) => some name
  | .literal (.identifier name :: _) | .literal (.callback name :: _) => some name
  | _ => none

/-- A form whose parts have been dealt with: if it begins with the name of an action, it is replaced by what the
action makes of it. -/
def replaced (act : Bytes → Option Action) (e : Ast) (log : Bytes) : Except DlError Ast × Bytes :=
  match (firstName e).bind act with
  | some f => f e log
  | none => (.ok e, log)

mutual
/-- The whole tree: the parts of an expression first, from left to right, then the expression.  What an action
gives is not looked at again.  The first error ends it. -/
def rewritten (act : Bytes → Option Action) : Ast → Bytes → Except DlError Ast × Bytes
  | .expression es, log =>
    match rewrittenAll act es log with
    | (.ok es', log') => replaced act (.expression es') log'
    | (.error er, log') => (.error er, log')
  | .literal es, log =>
    match rewrittenAll act es log with
    | (.ok es', log') => replaced act (.literal es') log'
    | (.error er, log') => (.error er, log')
  | e, log => (.ok e, log)
/-- The parts of an expression. -/
def rewrittenAll (act : Bytes → Option Action) : List Ast → Bytes → Except DlError (List Ast) × Bytes
  | [], log => (.ok [], log)
  | e :: es, log =>
    match rewritten act e log with
    | (.ok e', log') =>
      match rewrittenAll act es log' with
      | (.ok es', log'') => (.ok (e' :: es'), log'')
      | (.error er, log'') => (.error er, log'')
    | (.error er, log') => (.error er, log')
end

mutual
/-- There are no literal expressions `#(...)` in the tree. -/
def NoLiterals : Ast → Prop
  | .literal _ => False
  | .expression es => NoLiteralsAll es
  | _ => True
/-- In none of the trees. -/
def NoLiteralsAll : List Ast → Prop
  | [] => True
  | e :: es => NoLiterals e ∧ NoLiteralsAll es
end

mutual
/-- A form of the tree begins with the name. -/
def Heads (name : Bytes) : Ast → Prop
  | .expression es => firstName (.expression es) = some name ∨ HeadsAny name es
  | .literal es => firstName (.literal es) = some name ∨ HeadsAny name es
  | _ => False
/-- One of the trees has such a form. -/
def HeadsAny (name : Bytes) : List Ast → Prop
  | [] => False
  | e :: es => Heads name e ∨ HeadsAny name es
end

/-- The actions of the host, as functions that the reader calls. -/
def Performs (cfg : Reader.Config) (act : Bytes → Option Action) : Prop :=
  ∀ name, cfg.action name = (act name).map fun f e s =>
    match f e s.errors with
    | (.ok e', log) => .ok e' { s with errors := log }
    | (.error er, log) => .err er { s with errors := log }

end DuckLisp.Spec
