import Verif.Spec.Eval

/-!
# Quoted data
-/

namespace DuckLisp.Spec

open DuckLisp.Reader Eval

mutual
/-- What a tree is as a value: lists end with nil, and names are symbols. -/
def quoted : Ast → Value
  | .bool b => .bool (if b then 1 else 0)
  | .int i => .int i
  | .float bits => .float bits
  | .string s => .string s
  | .identifier name => .symbol name
  | .expression es => quotedList es
  | _ => .nil
@[inherit_doc quoted]
def quotedList : List Ast → Value
  | [] => .nil
  | e :: es => .pair (quoted e) (quotedList es)
end

/-- The strings and names in a tree have less than 65535 bytes. -/
inductive ShortTexts : Ast → Prop
  | bool (b) : ShortTexts (.bool b)
  | int (i) : ShortTexts (.int i)
  | float (bits) : ShortTexts (.float bits)
  | string (s) : s.length < 65535 → ShortTexts (.string s)
  | symbol (name) : name.length < 65535 → ShortTexts (.identifier name)
  | list (es) : (∀ e ∈ es, ShortTexts e) → ShortTexts (.expression es)

end DuckLisp.Spec
