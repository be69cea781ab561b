import Verif.Model.VM.Decode

/-!
# Reading the machine

Vocabulary for statements about instructions: operands are counted from the top of the stack, a
result is pushed on it.
-/

namespace DuckLisp.Spec

open DuckLisp DuckLisp.VM

/-- The `a`-th object of the stack, counted from 1 at the top. -/
def operand (vm : VM) (a : Nat) : Option Obj := if a = 0 then none else vm.stack.reverse[a - 1]?

/-- The machine with one more object on the stack, not captured by anything. -/
def pushed (vm : VM) (o : Obj) : VM :=
  { vm with stack := vm.stack ++ [o], upStack := vm.upStack ++ [none] }

/-- The truth values of the language. -/
def truth (b : Prop) [Decidable b] : Obj := .bool (if b then 1 else 0)

/-- `r` is the mathematically exact result of an operation on `x` and `y`.  Division truncates
towards zero. -/
def Exact : Arith → Int → Int → Int → Prop
  | .add, x, y, r => r = x + y
  | .sub, x, y, r => r = x - y
  | .mul, x, y, r => r = x * y
  | .div, x, y, r => y ≠ 0 ∧ ∃ rem, x = y * r + rem ∧ rem.natAbs < y.natAbs ∧
      (0 ≤ x → 0 ≤ rem) ∧ (x ≤ 0 → rem ≤ 0)

/-- The range of a machine integer. -/
def InRange (r : Int) : Prop := -(2 ^ 63) ≤ r ∧ r < 2 ^ 63

/-- Numbers: integers, floats and booleans. -/
def IsNumber : Obj → Prop
  | .integer _ | .float _ | .bool _ => True
  | _ => False

/-- The integer a number stands for; floats do not. -/
def asInteger : Obj → Option Int
  | .integer x => some x
  | .bool b => some b.toNat
  | _ => none

/-- The bytes of a string: those of its storage from its start position up to its end. -/
def text (vm : VM) : Obj → Bytes
  | .string (some r) off len =>
      match vm.heap[r]? with
      | some (.internalString (some bytes) _) => (bytes.take len).drop off.toNat
      | _ => []
  | _ => []

/-- The values `=` compares by what they are: integers, booleans, symbols and strings. -/
def IsPlainValue : Obj → Prop
  | .integer _ | .bool _ | .symbol .. | .string .. => True
  | _ => False

/-- Two values of these kinds are the same: the same number, the same symbol, the same text. -/
def SameValue (vm : VM) : Obj → Obj → Prop
  | .integer x, .integer y => x = y
  | .bool x, .bool y => x = y
  | .symbol i _, .symbol j _ => i = j
  | .string p i m, .string q j n => text vm (.string p i m) = text vm (.string q j n)
  | _, _ => False

/-- The values that count as false: false, 0, 0.0, the empty list, an empty vector, an empty
string. -/
def IsFalse (vm : VM) : Obj → Prop
  | .bool b => b = 0
  | .integer x => x = 0
  | .float x => x = 0 ∨ x = 0x8000000000000000
  | .list p => p = none
  | .vector p off => p = none ∨ ∃ r vs n i, p = some r ∧ vm.heap[r]? = some (.internalVector vs n i) ∧
      (n : Int) ≤ off
  | .string p off len => text vm (.string p off len) = []
  | _ => False

/-- The machine with the `n` topmost objects of the stack removed. -/
def popped (vm : VM) (n : Nat) : VM :=
  { vm with stack := vm.stack.take (vm.stack.length - n)
            upStack := vm.upStack.take (vm.upStack.length - n) }

end DuckLisp.Spec
