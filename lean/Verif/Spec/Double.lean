import Verif.Model.Basic

/-!
# What doubles stand for

The numbers of IEEE 754: one bit for the sign, 11 for the exponent, 52 for the fraction.
-/

namespace DuckLisp.Spec

/-- The fraction of a double. -/
def fraction (x : UInt64) : Nat := x.toNat % 2 ^ 52

/-- Its exponent. -/
def exponent (x : UInt64) : Nat := x.toNat / 2 ^ 52 % 2 ^ 11

/-- Neither an infinity nor a NaN. -/
def IsFinite (x : UInt64) : Prop := exponent x < 2047

/-- Not a number. -/
def IsNotANumber (x : UInt64) : Prop := exponent x = 2047 ∧ fraction x ≠ 0

/-- The number without its sign, in units of `2 ^ -1074`, the smallest positive double: with exponent 0 it is the
fraction; otherwise a one stands before the fraction, and the exponent says how often to double. -/
def unsignedUnits (x : UInt64) : Nat :=
  if exponent x = 0 then fraction x else (2 ^ 52 + fraction x) * 2 ^ (exponent x - 1)

/-- The number a finite double stands for, in units of `2 ^ -1074`; the highest bit is the sign. -/
def units (x : UInt64) : Int := if x.toNat / 2 ^ 63 = 1 then -(unsignedUnits x : Int) else unsignedUnits x

end DuckLisp.Spec
