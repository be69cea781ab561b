import Verif.Model.Basic

/-!
# Model of the dynamic array (/repo/DuckLib/array.c, array.h)

The elements are kept as the bytes of one heap block, as in C.  The native allocator
(/repo/DuckLib/memory.c:930-952) is modelled by an oracle: for each request it either fails or
supplies a block whose fresh bytes are arbitrary.

Simplifications: sizes are natural numbers (no wrap-around of `dl_size_t`: a block that large
cannot be allocated); the element passed in does not live inside the array's own block.
-/

namespace DuckLisp.DynArray

/-- array.h:7-10 `dl_array_strategy_t`. -/
inductive Strategy where
  | fit | double
deriving DecidableEq, Repr

/-- array.h:12-19 `dl_array_t`; `elements == dl_null` is `none`. -/
structure Arr where
  elements : Option Bytes
  elementSize : Nat
  length : Nat
  memorySize : Nat
  strategy : Strategy
deriving DecidableEq, Repr

/-- Allocator behaviour during one call: for a request of a given size, `none` is failure, `some f`
is a block whose fresh byte `i` is `f i`. -/
abbrev Oracle := Nat → Option (Nat → Byte)

/-- memory.c:945-952 `dl_realloc` (native): keeps the old bytes that fit, the rest is arbitrary.
On failure the caller's pointer becomes null. -/
def realloc (o : Oracle) (old : Option Bytes) (size : Nat) : Option Bytes :=
  match o size with
  | none => none
  | some junk => some ((List.range size).map fun i => (old.getD [])[i]?.getD (junk i))

/-- What a call does: undefined behaviour (`none`), or a new array and an error or a result. -/
abbrev Outcome := Option (Arr × Except DlError (List Bytes))

/-- `dl_memcopy` / `dl_memclear` into the block at `off`. -/
def write (block : Option Bytes) (off : Nat) (bytes : Bytes) : Option Bytes :=
  match block with
  | none => none
  | some b => if off + bytes.length ≤ b.length
    then some (b.take off ++ bytes ++ b.drop (off + bytes.length)) else none

/-- `dl_memcopy` out of the block. -/
def read (block : Option Bytes) (off n : Nat) : Option Bytes :=
  match block with
  | none => none
  | some b => if off + n ≤ b.length then some ((b.drop off).take n) else none

/-- array.c:4-16 `dl_array_init`. -/
def init (elementSize : Nat) (strategy : Strategy) : Arr := ⟨none, elementSize, 0, 0, strategy⟩

/-- array.c:45-56, 86-102, 253-269: make room for `n` more elements.  The `while` loops of
array.c:93 and 260 run at most once, because the block then has twice the size needed. -/
def grow (o : Oracle) (a : Arr) (n : Nat) : Bool × Arr :=
  let needed := (a.length + n) * a.elementSize
  match a.strategy with
  | .fit =>
    match realloc o a.elements needed with
    | none => (false, { a with elements := none })
    | some b => (true, { a with elements := some b, memorySize := needed })
  | .double =>
    if needed > a.memorySize then
      match realloc o a.elements (2 * needed) with
      | none => (false, { a with elements := none })
      | some b => (true, { a with elements := some b, memorySize := 2 * needed })
    else (true, a)

/-- Make room, then copy `n` elements' worth of bytes after the existing elements. -/
def pushBytes (o : Oracle) (a : Arr) (n : Nat) (bytes : Bytes) : Outcome :=
  match grow o a n with
  | (false, a) => some (a, .error .outOfMemory)
  | (true, a) =>
    -- `dl_memcopy` of no bytes does nothing, whatever the pointers (core.c, `dl_memcopy`)
    if bytes = [] then some ({ a with length := a.length + n }, .ok []) else
    match write a.elements (a.elementSize * a.length) bytes with
    | none => none
    | some b => some ({ a with elements := some b, length := a.length + n }, .ok [])

/-- array.c:38-76 `dl_array_pushElement`; `none` is a null element, which pushes zero bytes. -/
def pushElement (o : Oracle) (a : Arr) (element : Option Bytes) : Outcome :=
  pushBytes o a 1 (match element with
    | none => List.replicate a.elementSize 0
    | some e => e)

/-- array.c:78-118 `dl_array_pushElements`. -/
def pushElements (o : Oracle) (a : Arr) (n : Nat) (elements : Option (List Bytes)) : Outcome :=
  if n = 0 then some (a, .ok [])
  else pushBytes o a n (match elements with
    | none => List.replicate (n * a.elementSize) 0
    | some es => es.flatten)

/-- array.c:130-143 `dl_array_popElement`. -/
def popElement (a : Arr) : Outcome :=
  if a.length > 0 then
    match read a.elements ((a.length - 1) * a.elementSize) a.elementSize with
    | none => none
    | some e => some ({ a with length := a.length - 1 }, .ok [e])
  else some (a, .error .bufferUnderflow)

/-- Cut `n` elements of `size` bytes out of a copied range. -/
def chunks (size : Nat) : Nat → Bytes → List Bytes
  | 0, _ => []
  | n + 1, b => b.take size :: chunks size n (b.drop size)

/-- array.c:145-162 `dl_array_popElements`. -/
def popElements (a : Arr) (count : Nat) : Outcome :=
  if count > 0 then
    if a.length ≥ count then
      match read a.elements ((a.length - count) * a.elementSize) (count * a.elementSize) with
      | none => none
      | some b => some ({ a with length := a.length - count }, .ok (chunks a.elementSize count b))
    else some (a, .error .bufferUnderflow)
  else some (a, .ok [])

/-- array.c:168-180 `dl_array_getTop`. -/
def getTop (a : Arr) : Outcome :=
  if a.length > 0 then
    match read a.elements ((a.length - 1) * a.elementSize) a.elementSize with
    | none => none
    | some e => some (a, .ok [e])
  else some (a, .error .bufferUnderflow)

/-- array.c:186-200 `dl_array_setTop`. -/
def setTop (a : Arr) (e : Bytes) : Outcome :=
  if a.length > 0 then
    match write a.elements ((a.length - 1) * a.elementSize) e with
    | none => none
    | some b => some ({ a with elements := some b }, .ok [])
  else some (a, .error .bufferUnderflow)

/-- array.c:202-210 `dl_array_get`. -/
def get (a : Arr) (index : Int) : Outcome :=
  if index ≥ 0 ∧ index < a.length then
    match read a.elements (index.toNat * a.elementSize) a.elementSize with
    | none => none
    | some e => some (a, .ok [e])
  else some (a, .error .invalidValue)

/-- array.c:212-220 `dl_array_set`. -/
def set (a : Arr) (e : Bytes) (index : Int) : Outcome :=
  if index ≥ 0 ∧ index < a.length then
    match write a.elements (index.toNat * a.elementSize) e with
    | none => none
    | some b => some ({ a with elements := some b }, .ok [])
  else some (a, .error .invalidValue)

/-- array.c:249-280 `dl_array_append` of an array holding the elements `src`. -/
def append (o : Oracle) (a : Arr) (src : List Bytes) : Outcome :=
  pushBytes o a src.length src.flatten

/-- array.c:282-299 `dl_array_clear`. -/
def clear (a : Arr) : Outcome :=
  if a.length = 0 then some (a, .ok [])
  else some ({ a with length := 0, memorySize := 0, elements := none }, .ok [])

/-- The calls a user can make. -/
inductive Op where
  | push (e : Option Bytes)
  | pushMany (n : Nat) (es : Option (List Bytes))
  | pop
  | popMany (count : Nat)
  | getTop
  | setTop (e : Bytes)
  | get (index : Int)
  | set (e : Bytes) (index : Int)
  | append (src : List Bytes)
  | clear

/-- One call. -/
def step (o : Oracle) (a : Arr) : Op → Outcome
  | .push e => pushElement o a e
  | .pushMany n es => pushElements o a n es
  | .pop => popElement a
  | .popMany n => popElements a n
  | .getTop => DynArray.getTop a
  | .setTop e => DynArray.setTop a e
  | .get i => DynArray.get a i
  | .set e i => DynArray.set a e i
  | .append src => DynArray.append o a src
  | .clear => DynArray.clear a

/-- A history of calls, with the allocator's behaviour during each; the results in order. -/
def run : Arr → List (Oracle × Op) → Option (Arr × List (Except DlError (List Bytes)))
  | a, [] => some (a, [])
  | a, (o, op) :: rest =>
    match step o a op with
    | none => none
    | some (a, r) =>
      match run a rest with
      | none => none
      | some (a, rs) => some (a, r :: rs)

end DuckLisp.DynArray
