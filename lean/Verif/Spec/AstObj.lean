import Verif.Spec.Run
import Verif.Spec.Quote

/-!
# Trees and what they are in the machine
-/

namespace DuckLisp.Spec

open DuckLisp.VM DuckLisp.Reader

/-- `Shown ids vm o e`: written down as a syntax tree, the object `o` is `e`.  Lists are expressions, symbols are
their names, and a type is its number.  `ids` says which names have which numbers. -/
inductive Shown (ids : Bytes → Nat → Prop) (vm : VM) : Obj → Ast → Prop
  | bool (b) : Shown ids vm (.bool b) (.bool (b ≠ 0))
  | int (i) : Shown ids vm (.integer i) (.int i)
  | float (bits) : Shown ids vm (.float bits) (.float bits)
  | type (t) : Shown ids vm (.type t) (.int t)
  /-- the bytes of the storage from the start position to the end -/
  | string {r n len} {off : Nat} {bytes : Bytes} (h : vm.heap[r]? = some (.internalString (some bytes) n))
      (ho : off ≤ len) (hl : len ≤ bytes.length) :
      Shown ids vm (.string (some r) off len) (.string ((bytes.take len).drop off))
  | noText {p} {len : Nat} : Shown ids vm (.string p len len) (.string [])
  /-- all bytes of the storage -/
  | symbol {id r n} {v : Option Bytes} (h : vm.heap[r]? = some (.internalString v n)) (hn : n ≤ (v.getD []).length)
      (hid : ids ((v.getD []).take n) id) : Shown ids vm (.symbol id (some r)) (.identifier ((v.getD []).take n))
  | nil : Shown ids vm (.list none) (.expression [])
  | pair {r x y e es} (h : IsPair vm r x y) (ha : Shown ids vm x e) (hd : Shown ids vm y (.expression es)) :
      Shown ids vm (.list (some r)) (.expression (e :: es))

mutual
/-- Quoted and host-function forms are not told apart from others in objects: a quoted expression is an
expression and the name of a host function is a name. -/
def asCode : Ast → Ast
  | .callback name => .identifier name
  | .literal es => .expression (asCodeList es)
  | .expression es => .expression (asCodeList es)
  | e => e
@[inherit_doc asCode]
def asCodeList : List Ast → List Ast
  | [] => []
  | e :: es => asCode e :: asCodeList es
end

mutual
/-- Number of cells for a tree: one for the bytes of a string or name, and two for each element of a list. -/
def cellsFor : Ast → Nat
  | .string _ => 1
  | .callback _ => 1
  | .identifier _ => 1
  | .literal es => cellsForList es
  | .expression es => cellsForList es
  | _ => 0
@[inherit_doc cellsFor]
def cellsForList : List Ast → Nat
  | [] => 0
  | e :: es => cellsFor e + 2 + cellsForList es
end

mutual
/-- A tree as the reader makes it: no floats that were never written, integers of the machine, and texts of
possible sizes. -/
def Proper : Ast → Prop
  | .int i => -(2 ^ 63) ≤ i ∧ i < 2 ^ 63
  | .string s => s.length < 2 ^ 63
  | .callback s => s.length < 2 ^ 63
  | .identifier s => s.length < 2 ^ 63
  | .literal es => ProperList es
  | .expression es => ProperList es
  | .garbage => False
  | _ => True
@[inherit_doc Proper]
def ProperList : List Ast → Prop
  | [] => True
  | e :: es => Proper e ∧ ProperList es
end

/-- `Inside vm z o`: `z` is `o` or, if `o` is a list, inside of one of the two parts of its first pair. -/
inductive Inside (vm : VM) (z : Obj) : Obj → Prop
  | here : Inside vm z z
  | first {r x y} (h : IsPair vm r x y) (hz : Inside vm z x) : Inside vm z (.list (some r))
  | rest {r x y} (h : IsPair vm r x y) (hz : Inside vm z y) : Inside vm z (.list (some r))

/-- A pair whose second part is not a list. -/
def Improper (vm : VM) (o : Obj) : Prop := ∃ r x y, o = .list (some r) ∧ IsPair vm r x y ∧ ∀ p, y ≠ .list p

/-- A symbol without its name, as code assembled without names makes them. -/
def Stripped (o : Obj) : Prop := ∃ id, o = .symbol id none

/-- A value that can be written down without names: numbers, truth values, texts of less than 65536 bytes, and
pairs of them. -/
inductive Nameless : Eval.Value → Prop
  | nil : Nameless .nil
  | bool (b : Bool) : Nameless (.bool (if b then 1 else 0))
  | int (i) : Nameless (.int i)
  | float (bits) : Nameless (.float bits)
  | string (s) (h : s.length < 65536) : Nameless (.string s)
  | slice (s) (h : s.length < 65536) : Nameless (.slice s)
  | pair {a d} (ha : Nameless a) (hd : Nameless d) : Nameless (.pair a d)

/-- The value with texts of their own in place of parts of texts. -/
def wholeTexts : Eval.Value → Eval.Value
  | .slice s => .string s
  | .pair a d => .pair (wholeTexts a) (wholeTexts d)
  | v => v

end DuckLisp.Spec
