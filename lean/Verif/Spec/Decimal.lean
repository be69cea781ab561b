import Verif.Spec.Numeral
import Verif.Model.DlFloat

/-!
# Specification: decimal notation

Which byte strings denote which rational numbers, stated without reference to the parser.  What is taken from the model
is only the list of operations on floating point numbers (`Arith`).
-/

namespace DuckLisp.Spec

open DuckLisp.DlString (Arith)

/-- Digits with or without a decimal point, and the number they denote: the digits after the point count tenths,
hundredths and so on. -/
inductive Significand : (whole : Bytes) → (point : Bool) → (fraction : Bytes) → Rat → Prop
  | whole {ds : Bytes} {n : Nat} (h : Digits DecDigit 10 ds n) (hne : ds ≠ []) : Significand ds false [] n
  | point {ds fs : Bytes} {n k : Nat} (h : Digits DecDigit 10 ds n) (hf : Digits DecDigit 10 fs k)
      (hne : ds ≠ [] ∨ fs ≠ []) : Significand ds true fs (n + k / 10 ^ fs.length)

/-- An exponent, or nothing, and the factor it denotes. -/
inductive Factor : Bytes → Nat → Rat → Prop
  | none : Factor [] 0 1
  | pos {e : Byte} {ds : Bytes} {n : Nat} (he : e = 101 ∨ e = 69) (h : Digits DecDigit 10 ds n) (hne : ds ≠ []) :
      Factor (e :: ds) n (10 ^ n)
  | neg {e : Byte} {ds : Bytes} {n : Nat} (he : e = 101 ∨ e = 69) (h : Digits DecDigit 10 ds n) (hne : ds ≠ []) :
      Factor (e :: 45 :: ds) n (1 / 10 ^ n)

/-- The text of a number: its sign, the digits before the point, whether there is a point, the digits after it and the
exponent. -/
def spell (negative : Bool) (whole : Bytes) (point : Bool) (fraction exponent : Bytes) : Bytes :=
  (if negative then [45] else []) ++ (whole ++ ((if point then [46] else []) ++ (fraction ++ exponent)))

/-- The text `w` denotes the rational number `q`. -/
def Decimal (w : Bytes) (q : Rat) : Prop :=
  ∃ negative whole point fraction exponent m n f, Significand whole point fraction m ∧ Factor exponent n f ∧
    w = spell negative whole point fraction exponent ∧ q = if negative then -(m * f) else m * f

/-- Exact arithmetic. -/
def exact : Arith Rat := ⟨fun n => n, (· + ·), (· * ·), (· / ·), (- ·)⟩

/-- A calculation with floating point numbers. -/
inductive Calc where
  | num (n : Nat)
  | add (a b : Calc)
  | mul (a b : Calc)
  | div (a b : Calc)
  | neg (a : Calc)

/-- Its result. -/
def Calc.result {α : Type} (o : Arith α) : Calc → α
  | num n => o.ofNat n
  | add a b => o.add (a.result o) (b.result o)
  | mul a b => o.mul (a.result o) (b.result o)
  | div a b => o.div (a.result o) (b.result o)
  | neg a => o.neg (a.result o)

/-- The byte after a number does not belong to it. -/
def Ended (beyond : Option Byte) : Prop := ∃ c, beyond = some c ∧ c ≠ 46 ∧ c ≠ 101 ∧ c ≠ 69

end DuckLisp.Spec
