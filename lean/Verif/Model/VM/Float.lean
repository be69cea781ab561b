import Verif.Model.Basic

/-!
# Floating point

The VM stores C `double`s.  A double is its 64-bit pattern.  The comparisons are those of IEEE 754
binary64 and are defined here on the patterns; arithmetic and conversion from integers are left
abstract (`FloatOps`), so nothing that is proved depends on rounding.
-/

namespace DuckLisp.VM

/-- Arithmetic on doubles and conversion of an integer, as the C compiler provides them.  Not
modelled further. -/
structure FloatOps where
  add : UInt64 → UInt64 → UInt64
  sub : UInt64 → UInt64 → UInt64
  mul : UInt64 → UInt64 → UInt64
  div : UInt64 → UInt64 → UInt64
  ofInt : Int → UInt64

namespace Float64

/-- The pattern without its sign bit. -/
def magnitude (x : UInt64) : Nat := x.toNat % 2 ^ 63

/-- The sign bit. -/
def negative (x : UInt64) : Bool := 2 ^ 63 ≤ x.toNat

/-- Not a number. -/
def isNaN (x : UInt64) : Bool := 0x7FF0000000000000 < magnitude x

/-- `x == 0.0`: both zeroes. -/
def isZero (x : UInt64) : Bool := magnitude x = 0

/-- Position of a number that is not NaN in the order of the reals; the two zeroes coincide. -/
def rank (x : UInt64) : Int := if negative x then -(magnitude x : Int) else magnitude x

/-- `x == y`. -/
def eq (x y : UInt64) : Bool := !isNaN x && !isNaN y && rank x = rank y

/-- `x < y`. -/
def lt (x y : UInt64) : Bool := !isNaN x && !isNaN y && rank x < rank y

/-- The patterns of `0.0` and `1.0`. -/
def zero : UInt64 := 0
/-- See `zero`. -/
def one : UInt64 := 0x3FF0000000000000

end Float64

end DuckLisp.VM
