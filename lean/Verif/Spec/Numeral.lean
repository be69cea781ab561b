import Verif.Model.Basic

/-!
# Specification: integer numerals

Which byte strings denote which integers, stated without reference to the parser.
-/

namespace DuckLisp.Spec

/-- `0` to `9`. -/
inductive DecDigit : Byte → Nat → Prop
  | mk (d : Nat) (h : d < 10) : DecDigit (UInt8.ofNat (48 + d)) d

/-- `0` to `9`, `a` to `f`, `A` to `F`. -/
inductive HexDigit : Byte → Nat → Prop
  | dec (d : Nat) (h : d < 10) : HexDigit (UInt8.ofNat (48 + d)) d
  | lower (d : Nat) (h : d < 6) : HexDigit (UInt8.ofNat (97 + d)) (10 + d)
  | upper (d : Nat) (h : d < 6) : HexDigit (UInt8.ofNat (65 + d)) (10 + d)

/-- A string of digits in the given base denotes a number, most significant digit first. -/
inductive Digits (digit : Byte → Nat → Prop) (base : Nat) : Bytes → Nat → Prop
  | nil : Digits digit base [] 0
  | snoc {s : Bytes} {n : Nat} {c : Byte} {d : Nat} (hs : Digits digit base s n) (hc : digit c d) :
      Digits digit base (s ++ [c]) (base * n + d)

/-- Unsigned numerals: at least one decimal digit, or `0x`/`0X` and hexadecimal digits (possibly
none: duck-lisp reads a bare `0x` as 0). -/
inductive UNumeral : Bytes → Nat → Prop
  | dec {s : Bytes} {n : Nat} (h : Digits DecDigit 10 s n) (hne : s ≠ []) : UNumeral s n
  | hex {s : Bytes} {n : Nat} (x : Byte) (hx : x = 120 ∨ x = 88) (h : Digits HexDigit 16 s n) :
      UNumeral (48 :: x :: s) n

/-- Numerals with an optional minus sign. -/
inductive Numeral : Bytes → Int → Prop
  | pos {s : Bytes} {n : Nat} (h : UNumeral s n) : Numeral s n
  | neg {s : Bytes} {n : Nat} (h : UNumeral s n) : Numeral (45 :: s) (-n)

end DuckLisp.Spec
