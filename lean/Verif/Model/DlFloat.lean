import Verif.Model.DlString

/-!
# Model of /repo/DuckLib/string.c:248-422 `dl_string_toDouble`

Arithmetic on doubles is a parameter (`Arith`): the same function calculates with the doubles of a machine, with exact
rational numbers, or with formulas.  The function looks at the byte after the string; `beyond` is that byte, if memory
goes on after the string.  Places in the string are what is left of it.  `dl_ptrdiff_t` is `Int`, as in
`Verif.Model.DlString`.
-/

namespace DuckLisp.DlString

/-- What the function does with doubles: conversion from integers, `+`, `*`, `/` and unary `-`. -/
structure Arith (α : Type) where
  ofNat : Nat → α
  add : α → α → α
  mul : α → α → α
  div : α → α → α
  neg : α → α

/-- `string[index]` where `t` is left of the string. -/
def peek (t : Bytes) (beyond : Option Byte) : Res Byte :=
  match t.head? <|> beyond with
  | some c => .ok c
  | none => .ub

/-- `dl_string_toLower(c) == 'e'`, /repo/DuckLib/string.h:31. -/
def isE (c : Byte) : Bool := (if 65 ≤ c && c ≤ 90 then c - 65 + 97 else c) = 101

/-- `string[index] - '0'` for a digit. -/
def digitOf (c : Byte) : Nat := c.toNat - 48

variable {α : Type} (o : Arith α)

/-- string.c:287-298 and 345-355, the loops over the digits after the point. -/
def fractionLoop : Int → α → Bytes → Res (α × Bytes)
  | _, r, [] => .ok (r, [])
  | power, r, c :: cs =>
    if isE c then .ok (r, c :: cs)
    else do
      let power ← chk (10 * power)
      if !isDigit c then .err .invalidValue
      else fractionLoop power (o.add r (o.div (o.ofNat (digitOf c)) (o.ofNat power.toNat))) cs

/-- string.c:311-323, the loop over the digits before the point. -/
def wholeLoop : α → Bytes → Res (α × Bytes)
  | r, [] => .ok (r, [])
  | r, c :: cs =>
    if isE c || c = 46 then .ok (r, c :: cs)
    else if !isDigit c then .err .invalidValue
    else wholeLoop (o.add (o.mul r (o.ofNat 10)) (o.ofNat (digitOf c))) cs

/-- string.c:266-356: up to the exponent.  Nothing is left (`none`) if the function returns at line 334. -/
def mantissa (s : Bytes) (beyond : Option Byte) : Res (α × Option Bytes) :=
  match s with
  | [] => .ub
  | c :: cs =>
    if c = 46 then
      match cs with
      | [] => .err .invalidValue
      | d :: ds =>
        if !isDigit d then .err .invalidValue
        else do
          let (r, t) ← fractionLoop o 10 (o.add (o.ofNat 0) (o.div (o.ofNat (digitOf d)) (o.ofNat 10))) ds
          return (r, some t)
    else if !isDigit c then .err .invalidValue
    else do
      let (r, t) ← wholeLoop o (o.ofNat (digitOf c)) cs
      if (← peek t beyond) = 46 then
        match t.tail with
        | [] => return (r, none)
        | d :: ds => do
          let (r, t) ← fractionLoop o 1 r (d :: ds)
          return (r, some t)
      else do
        let (r, t) ← fractionLoop o 0 r t
        return (r, some t)

/-- string.c:387-396, the loop over the digits of the exponent. -/
def powerLoop : Int → Bytes → Res Int
  | p, [] => .ok p
  | p, c :: cs =>
    if !isDigit c then .err .invalidValue
    else do
      let p ← chk (p * 10)
      let p ← chk (p + c.toNat)
      let p ← chk (p - 48)
      powerLoop p cs

/-- string.c:404-406 and 409-411: `n` times `*result /= 10.0` or `*result *= 10.0`. -/
def scale (f : α → α) : Nat → α → α
  | 0, r => r
  | n + 1, r => scale f n (f r)

/-- string.c:383-412: the digits of the exponent, after its sign. -/
def exponentDigits (negative : Bool) (r : α) : Bytes → Res α
  | [] => .err .invalidValue
  | c :: cs =>
    if !isDigit c then .err .invalidValue
    else do
      let p ← powerLoop (digitOf c) cs
      if negative then
        if p = 0 then .err .invalidValue
        else return scale (fun r => o.div r (o.ofNat 10)) p.toNat r
      else return scale (fun r => o.mul r (o.ofNat 10)) p.toNat r

/-- string.c:358-417: the exponent, if there is one, and the end of the string. -/
def exponent (r : α) (t : Bytes) (beyond : Option Byte) : Res α := do
  if isE (← peek t beyond) then
    match t.tail with
    | [] => .err .invalidValue
    | c :: cs => if c = 45 then exponentDigits o true r cs else exponentDigits o false r (c :: cs)
  else if t = [] then return r
  else .err .cantHappen

/-- string.c:248-422 `dl_string_toDouble`.  Of the empty string it reads the byte after it as if it were part of the
string (`ub`); the reader does not call it with the empty string. -/
def toDouble (s : Bytes) (beyond : Option Byte) : Res α :=
  match s with
  | [] => .ub
  | c :: cs =>
    if c = 45 ∧ cs = [] then .err .invalidValue
    else do
      match ← mantissa o (if c = 45 then cs else c :: cs) beyond with
      | (r, none) => return r
      | (r, some t) => do
        let r ← exponent o r t beyond
        return if c = 45 then o.neg r else r

end DuckLisp.DlString
