import Verif.Model.DynArray

/-!
# Copying an array

/repo/DuckLib/array.c:18-36 and 225-246 with the allocator of the C library (/repo/DuckLib/memory.c:930-952).  Two
arrays take part, and they may have the same memory, so blocks of memory have names here, and an array says the name
of its block.  Names are not used again; the allocator of the C library may use addresses again.
-/

namespace DuckLisp.DynArray

/-- The blocks that were ever handed out; `none` is one that was released. -/
abbrev Blocks := List (Option Bytes)

/-- array.h:12-19 `dl_array_t`, with the name of the block for `elements`. -/
structure Header where
  block : Option Nat
  elementSize : Nat
  length : Nat
  memorySize : Nat
  strategy : Strategy
deriving DecidableEq, Repr

/-- memory.c:938-943 `dl_free`: `free` of null does nothing; of a block that was released it is undefined (`none`). -/
def release (m : Blocks) : Option Nat → Option Blocks
  | none => some m
  | some b =>
    match m[b]? with
    | some (some _) => some (m.set b none)
    | _ => none

/-- memory.c:930-935 `dl_malloc`; `none` is failure. -/
def allocate (o : Oracle) (m : Blocks) (size : Nat) : Option (Blocks × Nat) :=
  match o size with
  | none => none
  | some junk => some (m ++ [some ((List.range size).map junk)], m.length)

/-- The bytes of a block, if it is there. -/
def blockOf (m : Blocks) (p : Option Nat) : Option Bytes := p.bind fun b => (m[b]?).join

/-- `dl_memcopy` between blocks: of no bytes it does nothing, whatever the pointers. -/
def copyBlock (m : Blocks) (to : Nat) (src : Option Nat) (n : Nat) : Option Blocks :=
  if n = 0 then some m
  else
    match read (blockOf m src) 0 n with
    | none => none
    | some bytes =>
      match write (blockOf m (some to)) 0 bytes with
      | none => none
      | some b => some (m.set to (some b))

/-- array.c:225-246 `dl_array_copy`; the last assignment gives the destination all of the source, its block too. -/
def copy (o : Oracle) (m : Blocks) (dst src : Header) : Option (Blocks × Header × Except DlError Unit) :=
  match release m dst.block with
  | none => none
  | some m =>
    match allocate o m src.memorySize with
    | none => some (m, { dst with block := none }, .error .outOfMemory)
    | some (m, b) =>
      match copyBlock m b src.block (src.length * src.elementSize) with
      | none => none
      | some m => some (m, src, .ok ())

/-- array.c:202-210 `dl_array_get`; the second `none` is undefined behaviour. -/
def getAt (m : Blocks) (a : Header) (i : Nat) : Except DlError (Option Bytes) :=
  if i < a.length then .ok (read (blockOf m a.block) (i * a.elementSize) a.elementSize) else .error .invalidValue

/-- array.c:212-220 `dl_array_set`. -/
def setAt (m : Blocks) (a : Header) (i : Nat) (e : Bytes) : Except DlError (Option Blocks) :=
  if i < a.length then
    .ok (match a.block, write (blockOf m a.block) (i * a.elementSize) e with
      | some b, some bytes => some (m.set b (some bytes))
      | _, _ => none)
  else .error .invalidValue

/-- array.c:18-36 `dl_array_quit`. -/
def quit (m : Blocks) (a : Header) : Option Blocks := release m a.block

end DuckLisp.DynArray
