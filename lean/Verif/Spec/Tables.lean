import Verif.Model.Reader

/-! # Specification: names in order of first appearance, names in source trees, error logs -/

namespace DuckLisp.Spec

open DuckLisp.Reader (Ast)

/-- The distinct entries of a list in the order of their first appearance. -/
def firsts {α : Type} [DecidableEq α] : List α → List α
  | [] => []
  | x :: xs => x :: (firsts xs).filter (· ≠ x)

mutual
/-- `w` is the name of an identifier or callback somewhere in the tree. -/
def Occurs (w : Bytes) : Ast → Prop
  | .identifier v => v = w
  | .callback v => v = w
  | .literal es => OccursIn w es
  | .expression es => OccursIn w es
  | _ => False
/-- In one of several trees. -/
def OccursIn (w : Bytes) : List Ast → Prop
  | [] => False
  | e :: es => Occurs w e ∨ OccursIn w es
end

/-- What a log contains after a report: a line break unless it was empty, then the message. -/
def logged (log message : Bytes) : Bytes := if log = [] then message else log ++ 10 :: message

end DuckLisp.Spec
