import Verif.Model.VM.Decode
import Verif.Model.Sort

/-!
# The assembler: instructions and their encoding

Models the first half of `duckLisp_assemble` (/repo/assembler.c): the pass that removes pushes
followed by pops, and the encoding of single instructions.

Simplifications.  An instruction of the high-level assembly is a class with an array of tagged
arguments; here it is a constructor with the arguments the emitters (/repo/emitters.c) give it, so
that a missing argument or one with the wrong tag, for which the code reports an error, can not be
expressed.  Arguments are 64-bit signed integers in C and unbounded here.  The class `acall`, which
the emitters can produce but nothing asks them to and which the machine does not implement, and the
class `brz`, which the assembler refuses, are left out.  Allocation never fails.
-/

namespace DuckLisp.Asm

open DuckLisp DuckLisp.VM

/-- /repo/duckLisp.h:207-277 `duckLisp_instructionClass_t` with the arguments of the class;
531-535 `duckLisp_instructionObject_t`. -/
inductive Ins where
  | internalNop
  | nop
  | pushIndex (a : Int)
  | pushBoolean (v : Int)
  | pushInteger (v : Int)
  | pushFloat (bits : UInt64)
  | pushString (len : Int) (s : Bytes)
  | pushSymbol (id len : Int) (name : Bytes)
  | pushStrippedSymbol (id len : Int) (name : Bytes)
  | pushUpvalue (u : Int)
  | pushGlobal (key : Int)
  | setUpvalue (u a : Int)
  | setGlobal (a key : Int)
  | move (a b : Int)
  | pop (n : Int)
  | not (a : Int)
  | arith (op : Arith) (a b : Int)
  | equal (a b : Int)
  | greater (a b : Int)
  | less (a b : Int)
  | cons (a b : Int)
  /-- the count is the first argument in C -/
  | vector (count : Int) (as : List Int)
  | makeVector (a b : Int)
  | getVecElt (a b : Int)
  | setVecElt (a b c : Int)
  | car (a : Int)
  | cdr (a : Int)
  | setCar (a b : Int)
  | setCdr (a b : Int)
  | nullp (a : Int)
  | typeof (a : Int)
  | makeType
  | makeInstance (a b c : Int)
  | compositeValue (a : Int)
  | compositeFunction (a : Int)
  | setCompositeValue (a b : Int)
  | setCompositeFunction (a b : Int)
  | length (a : Int)
  | symbolString (a : Int)
  | symbolId (a : Int)
  | makeString (a : Int)
  | concatenate (a b : Int)
  | substring (a b c : Int)
  | nil
  | releaseUpvalues (as : List Int)
  | ccall (key : Int)
  | funcall (a n : Int)
  | apply (a n : Int)
  | label (l : Nat)
  | pushClosure (variadic : Bool) (l : Nat) (arity : Int) (captures : List Int)
  | call (l : Nat) (n : Int)
  | jump (l : Nat)
  | brnz (l : Nat) (pops : Int)
  | return_ (n : Int)
  | halt
deriving DecidableEq, Repr

/-! ### Removal of pushes followed by pops -/

/-- /repo/assembler.c:319-331: the classes that only push. -/
def Ins.onlyPushes : Ins → Bool
  | .nil | .makeType | .pushString .. | .pushBoolean _ | .pushInteger _ | .pushFloat _
  | .pushIndex _ | .pushSymbol .. | .pushStrippedSymbol .. | .pushUpvalue _ | .pushClosure ..
  | .pushGlobal _ => true
  | _ => false

/-- Conversion to `int` (/repo/assembler.c:411). -/
def toInt32 (x : Int) : Int := (x + 2 ^ 31) % 2 ^ 32 - 2 ^ 31

/-- /repo/assembler.c:318-434, the body of the loop for instruction `a`, with `b` the one after it:
what becomes of the two. -/
def peepholeStep (a b : Ins) : Ins × Ins :=
  match b with
  | .pop n =>
      if a.onlyPushes then
        (.internalNop, if n - 1 = 0 then .internalNop else .pop (n - 1))
      else
        match a with
        | .pop m => (.internalNop, .pop (toInt32 (m + n)))
        | _ => (a, b)
  | _ => (a, b)

/-- /repo/assembler.c:295-436: one pass over the instructions, which are changed in place. -/
def peephole : List Ins → List Ins
  | a :: b :: rest => (peepholeStep a b).1 :: peephole ((peepholeStep a b).2 :: rest)
  | [a] => [a]
  | [] => []
termination_by xs => xs.length

/-! ### Operands -/

/-- `(x >> 8*k) & 0xFFU`. -/
def byteAt (x : Int) (k : Nat) : UInt8 := UInt8.ofNat ((x / 256 ^ k) % 256).toNat

/-- The loops `for n < byte_length: args[n] = (x >> 8*(byte_length - n - 1)) & 0xFFU`. -/
def bytesOf (x : Int) : Nat → Bytes
  | 0 => []
  | n + 1 => byteAt x n :: bytesOf x n

/-- `(unsigned long) x < 0x100UL`. -/
def below8 (x : Int) : Bool := x % 2 ^ 64 < 0x100

/-- `(unsigned int) x < 0x10000UL`: the argument loses its upper half before it is compared. -/
def below16 (x : Int) : Bool := x % 2 ^ 32 < 0x10000

/-- The choice of an operand size from the arguments that are looked at, as at
/repo/assembler.c:488-499 and 866-879. -/
def widthOf (xs : List Int) : Width :=
  if xs.all below8 then .w8 else if xs.all below16 then .w16 else .w32

/-- /repo/assembler.c:725-735: the arguments are compared as signed numbers. -/
def widthSigned (x : Int) : Width :=
  if x < 0x100 then .w8 else if x < 0x10000 then .w16 else .w32

/-- /repo/assembler.c:531-542: `absolute` is the absolute value. -/
def widthInteger (x : Int) : Width :=
  if x.natAbs < 0x80 then .w8 else if x.natAbs < 0x8000 then .w16 else .w32

/-- /repo/assembler.c:630-650. -/
def widthSymbol (id len : Int) : Width :=
  if max id.natAbs len.natAbs < 0x100 then .w8
  else if max id.natAbs len.natAbs < 0x10000 then .w16 else .w32

/-- /repo/assembler.c:2132-2147: the last argument decides. -/
def widthLast (as : List Int) : Option Width :=
  as.getLast?.map fun a =>
    if a % 2 ^ 64 < 0x100 then .w8 else if a % 2 ^ 64 < 0x10000 then .w16 else .w32

/-- The value of the enumerator of an operation with an operand size, /repo/duckLisp.h:279-506. -/
def code (o : Opc) (w : Width) : UInt8 := UInt8.ofNat (opcodes.idxOf (o, w))

/-- An opcode with operands that all have its size. -/
def uniform (o : Opc) (w : Width) (xs : List Int) : UInt8 × Bytes :=
  (code o w, xs.flatMap fun x => bytesOf x w.bytes)

/-- The operation of an arithmetic instruction. -/
def arithOpc : Arith → Opc
  | .mul => .mul
  | .div => .div
  | .add => .add
  | .sub => .sub

/-! ### Instructions -/

/-- /repo/assembler.c:475-2525: the opcode (`currentInstruction.byte`) and the bytes after it
(`currentArgs`), for the instructions that do not name a label.  `prev` is what
`currentInstruction.byte` holds from the instruction before, if there was one; `strip` is
`stripSymbolNames`.  `none` is the use of an uninitialised variable. -/
def encode (strip : Bool) (prev : Option UInt8) : Ins → Option (UInt8 × Bytes)
  | .nop => some (code .nop .w8, [])                                                  -- 480-484
  | .pushIndex a => some (uniform .pushIndex (widthOf [a]) [a])                         -- 485-513
  | .pushBoolean v =>                                                                 -- 514-525
      some (code (if v = 0 then .pushBooleanFalse else .pushBooleanTrue) .w8, [])
  | .pushInteger v => some (uniform .pushInteger (widthInteger v) [v])                  -- 526-560
  | .pushFloat bits => some (code .pushDoubleFloat .w8, bytesOf bits.toNat 8)         -- 561-580
  | .pushString len s =>                                                              -- 581-626
      let w := widthOf [len]
      some (code .pushString w, bytesOf len w.bytes ++ s)
  | .pushSymbol id len name =>                                                        -- 471-473, 627-677
      let w := widthSymbol id len
      if strip then some (uniform .pushStrippedSymbol w [id])
      else some (code .pushSymbol w, bytesOf id w.bytes ++ bytesOf len w.bytes ++ name)
  | .pushStrippedSymbol id len _ =>                                                   -- 678-721
      some (uniform .pushStrippedSymbol (widthSymbol id len) [id])
  | .pushUpvalue u => some (uniform .pushUpvalue (widthSigned u) [u])                   -- 722-754
  | .pushGlobal k => some (uniform .pushGlobal (widthOf [k]) [k])                       -- 755-776
  | .setUpvalue u a =>                                                                -- 777-820
      let w := widthSigned u
      some (code .setUpvalue w, bytesOf u 1 ++ bytesOf a w.bytes)
  | .setGlobal a k => two .setGlobal a k                                              -- 821-864
  | .move a b => two .move a b                                                        -- 865-905
  | .pop n => one .pop n                                                              -- 907-939
  | .not a => one .not a                                                              -- 940-972
  | .arith op a b => two (arithOpc op) a b                                            -- 973-1136
  | .equal a b => two .equal a b                                                      -- 1137-1177
  | .greater a b => two .greater a b                                                  -- 1178-1218
  | .less a b => two .less a b                                                        -- 1219-1259
  | .cons a b => two .cons a b                                                        -- 1260-1300
  | .vector n as => some (uniform .vector (widthOf [n]) (n :: as))                      -- 1301-1343
  | .makeVector a b => two .makeVector a b                                            -- 1344-1386
  | .getVecElt a b => two .getVecElt a b                                              -- 1387-1429
  | .setVecElt a b c => some (uniform .setVecElt (widthOf [a, b]) [a, b, c])            -- 1430-1479
  | .car a => one .car a                                                              -- 1480-1512
  | .cdr a => one .cdr a                                                              -- 1513-1545
  | .setCar a b => two .setCar a b                                                    -- 1546-1586
  | .setCdr a b => two .setCdr a b                                                    -- 1587-1627
  | .nullp a => one .nullp a                                                          -- 1628-1660
  | .typeof a => one .typeof a                                                        -- 1661-1693
  | .makeType => some (code .makeType .w8, [])                                        -- 1694-1697
  | .makeInstance a b c => some (uniform .makeInstance (widthOf [a, b, c]) [a, b, c])   -- 1698-1749
  | .compositeValue a => one .compositeValue a                                        -- 1750-1783
  | .compositeFunction a => one .compositeFunction a                                  -- 1784-1817
  | .setCompositeValue a b => two .setCompositeValue a b                              -- 1818-1858
  | .setCompositeFunction a b => two .setCompositeFunction a b                        -- 1859-1899
  | .length a => one .length a                                                        -- 1900-1932
  | .symbolString a => one .symbolString a                                            -- 1933-1965
  | .symbolId a => one .symbolId a                                                    -- 1966-1998
  | .makeString a => one .makeString a                                                -- 1999-2031
  | .concatenate a b => two .concatenate a b                                          -- 2032-2074
  | .substring a b c => some (uniform .substring (widthOf [a, b]) [a, b, c])            -- 2075-2125
  | .nil => some (code .nil .w8, [])                                                  -- 2126-2129
  | .releaseUpvalues as =>                                                            -- 2130-2171
      match widthLast as with
      | some w => some (uniform .releaseUpvalues w ((as.length : Int) :: as))
      | Option.none => prev.map fun op => (op, bytesOf (as.length : Int) 1)
  | .ccall k => one .ccall k                                                          -- 2172-2205
  | .funcall a n =>                                                                   -- 2206-2252
      let w := widthOf [a]
      some (code .funcall w, bytesOf a w.bytes ++ bytesOf n 1)
  | .apply a n =>                                                                     -- 2253-2299
      let w := widthOf [a]
      some (code .apply w, bytesOf a w.bytes ++ bytesOf n 1)
  | .return_ n =>                                                                     -- 2482-2518
      if n = 0 then some (code .return0 .w8, []) else one .return_ n
  | .halt => some (code .halt .w8, [])                                                -- 2519-2523
  | .internalNop | .label _ | .pushClosure .. | .call .. | .jump _ | .brnz .. => Option.none
where
  /-- One operand. -/
  one (o : Opc) (a : Int) : Option (UInt8 × Bytes) := some (uniform o (widthOf [a]) [a])
  /-- Two operands. -/
  two (o : Opc) (a b : Int) : Option (UInt8 × Bytes) := some (uniform o (widthOf [a, b]) [a, b])

/-- /repo/assembler.c:2337-2479, the instructions that name a label: the label, the operation, and
the bytes that follow the address. -/
def linked : Ins → Option (Nat × Opc × Bytes)
  | .pushClosure variadic l arity captures =>
      some (l, if variadic then .pushVaClosure else .pushClosure,
        bytesOf arity 1 ++ bytesOf (captures.length : Int) 4 ++ captures.flatMap fun c => bytesOf c 4)
  | .call l n => some (l, .call, bytesOf n 1)
  | .jump l => some (l, .jump, [])
  | .brnz l pops => some (l, .brnz, bytesOf pops 1)
  | _ => Option.none

end DuckLisp.Asm
