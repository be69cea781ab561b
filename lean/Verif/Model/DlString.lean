import Verif.Model.Basic

/-!
# Model of /repo/DuckLib/string.c (integers, booleans, comparison)

Destination arrays are byte lists (C02 justifies this), pushes are assumed to find memory.
`dl_ptrdiff_t` is `Int`; leaving the 64-bit range is signed overflow, `Res.ub`.
C's `/` and `%` are `Int.tdiv` and `Int.tmod`.
-/

namespace DuckLisp.DlString

/-- Largest value of the 64-bit `dl_ptrdiff_t`. -/
def ptrdiffMax : Int := 9223372036854775807
/-- Smallest value of the 64-bit `dl_ptrdiff_t`. -/
def ptrdiffMin : Int := -9223372036854775808

/-- string.c:4-6 `dl_string_isDigit`. -/
def isDigit (c : Byte) : Bool := 48 ≤ c && c ≤ 57

/-- string.c:8-12 `dl_string_isHexadecimalDigit`. -/
def isHexDigit (c : Byte) : Bool :=
  (48 ≤ c && c ≤ 57) || (97 ≤ c && c ≤ 102) || (65 ≤ c && c ≤ 70)

/-- string.c:18-20 `dl_string_isSpace`. -/
def isSpace (c : Byte) : Bool := c ≤ 32

/-- string.c:150-154 and 157: the value of a digit. -/
def digitValue (hexadecimal : Bool) (c : Byte) : Int :=
  if hexadecimal then
    if 48 ≤ c && c ≤ 57 then c.toNat - 48
    else if 97 ≤ c && c ≤ 102 then c.toNat - 97 + 10
    else c.toNat - 65 + 10
  else c.toNat - 48

/-- Signed overflow check. -/
def chk (v : Int) : Res Int := if ptrdiffMin ≤ v ∧ v ≤ ptrdiffMax then .ok v else .ub

/-- string.c:136-161, the digit loop. -/
def digitLoop (hexadecimal : Bool) : Int → Bytes → Res Int
  | acc, [] => .ok acc
  | acc, c :: cs =>
    if !(if hexadecimal then isHexDigit c else isDigit c) then .err .invalidValue
    else do
      let acc ← chk (acc * (if hexadecimal then 16 else 10) + digitValue hexadecimal c)
      digitLoop hexadecimal acc cs

/-- string.c:120-161: after the optional sign. -/
def unsignedPart : Bytes → Res Int
  | [] => .err .invalidValue
  | c :: cs =>
    if !isDigit c then .err .invalidValue
    else match cs with
      | x :: cs' =>
        if c = 48 && (x = 120 || x = 88) then digitLoop true 0 cs'
        else digitLoop false 0 (c :: x :: cs')
      | [] => digitLoop false 0 [c]

/-- string.c:94-169 `dl_string_toPtrdiff`. -/
def toPtrdiff : Bytes → Res Int
  | [] => .err .invalidValue
  | c :: cs =>
    if c = 45 then do
      let n ← unsignedPart cs
      chk (-n)
    else unsignedPart (c :: cs)

/-- string.c:195-200 (and 228-233, 74-79): digits of a positive number, least significant first. -/
def revDigitsPos (n : Int) : Bytes :=
  if 0 < n then UInt8.ofNat (48 + n.tmod 10).toNat :: revDigitsPos (n.tdiv 10) else []
termination_by n.toNat
decreasing_by
  have h : n.tdiv 10 = n / 10 := Int.tdiv_eq_ediv_of_nonneg (by omega)
  omega

/-- string.c:187-192: digits of a negative number, least significant first. -/
def revDigitsNeg (n : Int) : Bytes :=
  if n < 0 then UInt8.ofNat (48 - n.tmod 10).toNat :: revDigitsNeg (n.tdiv 10) else []
termination_by (-n).toNat
decreasing_by
  have h : n.tdiv 10 = -((-n) / 10) := by
    rw [show n = -(-n) by omega, Int.neg_tdiv, Int.tdiv_eq_ediv_of_nonneg (by omega)]
    simp
  omega

/-- string.c:171-213 `dl_string_fromPtrdiff`: what the destination holds afterwards. -/
def fromPtrdiff (result : Bytes) (n : Int) : Bytes :=
  if n = 0 then result ++ [48]
  else if n < 0 then result ++ [45] ++ (revDigitsNeg n).reverse
  else result ++ (revDigitsPos n).reverse

/-- string.c:215-246 `dl_string_fromSize`. -/
def fromSize (result : Bytes) (n : Nat) : Bytes :=
  if n = 0 then result ++ [48] else result ++ (revDigitsPos n).reverse

/-- string.c:61-92 `dl_string_fromUint8`. -/
def fromUint8 (result : Bytes) (n : UInt8) : Bytes := fromSize result n.toNat

/-- The loop of string.c:434-439 and 444-449, after the lengths are known to suffice; reading past
the end of either string is undefined behaviour. -/
def compareLoop : Nat → Bytes → Bytes → Res Bool
  | 0, _, _ => .ok true
  | n + 1, a :: as, b :: bs => if a ≠ b then .ok false else compareLoop n as bs
  | _ + 1, _, _ => .ub

/-- string.c:425-440 `dl_string_compare`. -/
def compare (s1 s2 : Bytes) : Res Bool :=
  if s1.length ≠ s2.length then .ok false else compareLoop s1.length s1 s2

/-- string.c:442-450 `dl_string_compare_partial`. -/
def comparePartial (s1 s2 : Bytes) (length : Nat) : Res Bool := compareLoop length s1 s2

/-- string.c:23-44 `dl_string_toBool`. -/
def toBool (s : Bytes) : Res Bool := do
  let t ← compare s [116, 114, 117, 101]
  if t then .ok true
  else
    let f ← compare s [102, 97, 108, 115, 101]
    if f then .ok false else .err .invalidValue

/-- string.c:46-59 `dl_string_fromBool`. -/
def fromBool (result : Bytes) (b : Bool) : Bytes :=
  result ++ (if b then [116, 114, 117, 101] else [102, 97, 108, 115, 101])

end DuckLisp.DlString
