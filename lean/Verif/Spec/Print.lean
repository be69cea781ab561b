import Verif.Model.Reader

/-!
# What printed trees show
-/

namespace DuckLisp.Spec

open DuckLisp DuckLisp.Reader

mutual
/-- The tree without the values of its numbers with a fraction. -/
def withoutFloats : Ast → Ast
  | .float _ => .garbage
  | .literal es => .literal (withoutFloatsAll es)
  | .expression es => .expression (withoutFloatsAll es)
  | e => e
/-- See `withoutFloats`. -/
def withoutFloatsAll : List Ast → List Ast
  | [] => []
  | e :: es => withoutFloats e :: withoutFloatsAll es
end

mutual
/-- Integers have 64 bits, and there are no double quotes in texts and names. -/
def Unquoted : Ast → Prop
  | .int i => -(2 ^ 63) ≤ i ∧ i < 2 ^ 63
  | .string s | .callback s | .identifier s => 34 ∉ s
  | .literal es | .expression es => UnquotedAll es
  | _ => True
/-- See `Unquoted`. -/
def UnquotedAll : List Ast → Prop
  | [] => True
  | e :: es => Unquoted e ∧ UnquotedAll es
end

end DuckLisp.Spec
