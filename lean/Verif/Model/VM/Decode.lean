import Verif.Model.VM.Types

/-!
# Bytecode instructions

Models the numbering of opcodes (/repo/duckLisp.h:279-506) and the way `duckVM_executeInstruction`
(/repo/duckVM.c:745-4635) reads the operands of each of them.

Simplification: the operands are all read before the instruction does anything.  The C code reads
the operand lists of `push-closure`, `vector` and `release-upvalues` while it executes, so it can
report an error without reading a list that runs off the end of the bytecode; here that is
undefined behaviour at once.
-/

namespace DuckLisp.VM

open DuckLisp

/-- Operand size of an instruction. -/
inductive Width where
  | w8 | w16 | w32
deriving DecidableEq, Repr

/-- Number of bytes of an operand. -/
def Width.bytes : Width → Nat
  | .w8 => 1
  | .w16 => 2
  | .w32 => 4

/-- Operations, without their operand size.  `acall` and `brz` are in the C enumeration and not
implemented by the machine. -/
inductive Opc where
  | nop | pushString | pushBooleanFalse | pushBooleanTrue | pushInteger | pushDoubleFloat
  | pushIndex | pushSymbol | pushStrippedSymbol | pushUpvalue | pushClosure | pushVaClosure
  | pushGlobal | setUpvalue | setGlobal | releaseUpvalues | funcall | apply | call | ccall | acall
  | jump | brz | brnz | move | not | mul | div | add | sub | equal | greater | less | cons | vector
  | makeVector | getVecElt | setVecElt | car | cdr | setCar | setCdr | nullp | typeof | makeType
  | makeInstance | compositeValue | compositeFunction | setCompositeValue | setCompositeFunction
  | makeString | concatenate | substring | length | symbolString | symbolId | pop | return0
  | return_ | halt | nil
deriving DecidableEq, Repr

/-- The three sizes of one operation, in the order of the enumeration. -/
def sized (o : Opc) : List (Opc × Width) := [(o, .w8), (o, .w16), (o, .w32)]

/-- /repo/duckLisp.h:279-506 `duckLisp_instruction_t`: the opcode is the position in this list. -/
def opcodes : List (Opc × Width) :=
  [(.nop, .w8)] ++ sized .pushString ++ [(.pushBooleanFalse, .w8), (.pushBooleanTrue, .w8)]
  ++ sized .pushInteger ++ [(.pushDoubleFloat, .w8)] ++ sized .pushIndex ++ sized .pushSymbol
  ++ sized .pushStrippedSymbol ++ sized .pushUpvalue ++ sized .pushClosure ++ sized .pushVaClosure
  ++ sized .pushGlobal ++ sized .setUpvalue ++ sized .setGlobal ++ sized .releaseUpvalues
  ++ sized .funcall ++ sized .apply ++ sized .call ++ sized .ccall ++ sized .acall ++ sized .jump
  ++ sized .brz ++ sized .brnz ++ sized .move ++ sized .not ++ sized .mul ++ sized .div
  ++ sized .add ++ sized .sub ++ sized .equal ++ sized .greater ++ sized .less ++ sized .cons
  ++ sized .vector ++ sized .makeVector ++ sized .getVecElt ++ sized .setVecElt ++ sized .car
  ++ sized .cdr ++ sized .setCar ++ sized .setCdr ++ sized .nullp ++ sized .typeof
  ++ [(.makeType, .w8)] ++ sized .makeInstance ++ sized .compositeValue ++ sized .compositeFunction
  ++ sized .setCompositeValue ++ sized .setCompositeFunction ++ sized .makeString
  ++ sized .concatenate ++ sized .substring ++ sized .length ++ sized .symbolString
  ++ sized .symbolId ++ sized .pop ++ [(.return0, .w8)] ++ sized .return_
  ++ [(.halt, .w8), (.nil, .w8)]

/-- The four arithmetic operations. -/
inductive Arith where
  | mul | div | add | sub
deriving DecidableEq, Repr

/-- An instruction with its operands.  Stack operands count from the top of the stack, the top
being 1. -/
inductive Instr where
  | nop
  | pushString (s : Bytes)
  | pushBool (b : Bool)
  | pushInteger (i : Int)
  | pushFloat (bits : UInt64)
  | pushIndex (a : Nat)
  | pushSymbol (id : Nat) (name : Bytes)
  | pushStrippedSymbol (id : Nat)
  | pushUpvalue (u : Nat)
  /-- `disp` counts from `base` bytes after the start of the instruction. -/
  | pushClosure (variadic : Bool) (base : Nat) (disp : Int) (arity : UInt8) (captures : List Nat)
  | pushGlobal (key : Nat)
  | setUpvalue (u a : Nat)
  | setGlobal (a key : Nat)
  | releaseUpvalues (as : List Nat)
  | funcall (a n : Nat)
  | apply (a n : Nat)
  | call (disp : Int)
  | ccall (key : Nat)
  | jump (disp : Int)
  | brnz (disp : Int) (pops : Nat)
  | move (a b : Nat)
  | not (a : Nat)
  | arith (op : Arith) (a b : Nat)
  | equal (a b : Nat)
  | greater (a b : Nat)
  | less (a b : Nat)
  | cons (a b : Nat)
  | vector (as : List Nat)
  | makeVector (a b : Nat)
  | getVecElt (a b : Nat)
  | setVecElt (a b c : Nat)
  | car (a : Nat)
  | cdr (a : Nat)
  | setCar (a b : Nat)
  | setCdr (a b : Nat)
  | nullp (a : Nat)
  | typeof (a : Nat)
  | makeType
  | makeInstance (a b c : Nat)
  | compositeValue (a : Nat)
  | compositeFunction (a : Nat)
  | setCompositeValue (a b : Nat)
  | setCompositeFunction (a b : Nat)
  | makeString (a : Nat)
  | concatenate (a b : Nat)
  | substring (a b c : Nat)
  | length (a : Nat)
  | symbolString (a : Nat)
  | symbolId (a : Nat)
  | pop (n : Nat)
  | return0
  | return_ (n : Nat)
  | halt
  | nil
  /-- any other byte (duckVM.c:4625-4629) -/
  | invalid
deriving DecidableEq, Repr

/-- Reading from bytecode; `none` is a read past the end of the block. -/
def Dec (α : Type) := Bytes → Option (α × Bytes)

namespace Dec

/-- Nothing to read. -/
protected def pure {α : Type} (a : α) : Dec α := fun bs => some (a, bs)

/-- Read one thing, then the next. -/
protected def bind {α β : Type} (m : Dec α) (f : α → Dec β) : Dec β := fun bs =>
  match m bs with
  | some (a, rest) => f a rest
  | Option.none => Option.none

instance : Monad Dec where
  pure := Dec.pure
  bind := Dec.bind

/-- `*(ip++)`. -/
def byte : Dec Nat
  | b :: bs => some (b.toNat, bs)
  | [] => Option.none

/-- `x = *(ip++); x = *(ip++) + (x << 8); ...`, `n` bytes in all. -/
def be (acc : Nat) : Nat → Dec Nat
  | 0, bs => some (acc, bs)
  | n + 1, b :: bs => be (acc * 256 + b.toNat) n bs
  | _ + 1, [] => Option.none

/-- An unsigned operand, most significant byte first. -/
def operand (w : Width) : Dec Nat := be 0 w.bytes

/-- `ip += n` over `n` bytes that are copied. -/
def take (n : Nat) : Dec Bytes := fun bs =>
  if n ≤ bs.length then some (bs.take n, bs.drop n) else Option.none

/-- A list of operands. -/
def operands (w : Width) : Nat → Dec (List Nat)
  | 0, bs => some ([], bs)
  | n + 1, bs =>
      match operand w bs with
      | some (a, rest) =>
          match operands w n rest with
          | some (as, rest') => some (a :: as, rest')
          | Option.none => Option.none
      | Option.none => Option.none

end Dec

/-- A two's complement operand (/repo/duckVM.c:907-909, 1007-1009, 1023-1025, 1033-1035,
1556-1579, 1616-1641, 1700-1711). -/
def signed (w : Width) (v : Nat) : Int :=
  if v < 2 ^ (8 * w.bytes - 1) then (v : Int) else (v : Int) - 2 ^ (8 * w.bytes)

/-- The operands of an operation with operand size `w`; the lines are those of the corresponding
`case` in /repo/duckVM.c. -/
def decodeArgs (o : Opc) (w : Width) : Dec Instr :=
  match o with
  | .nop => pure .nop                                                       -- 770
  | .pushSymbol => do                                                       -- 773-799
      let id ← Dec.operand w
      let n ← Dec.operand w
      return .pushSymbol id (← Dec.take n)
  | .pushStrippedSymbol => do return .pushStrippedSymbol (← Dec.operand w)  -- 811-827
  | .pushString => do                                                       -- 838-850
      let n ← Dec.operand w
      return .pushString (← Dec.take n)
  | .pushBooleanFalse => pure (.pushBool false)                             -- 866
  | .pushBooleanTrue => pure (.pushBool true)                               -- 874
  | .pushInteger => do return .pushInteger (signed w (← Dec.operand w))     -- 883-909
  | .pushDoubleFloat => do return .pushFloat (UInt64.ofNat (← Dec.be 0 8))  -- 916-925
  | .pushIndex => do return .pushIndex (← Dec.operand w)                    -- 935-943
  | .pushUpvalue => do return .pushUpvalue (← Dec.operand w)                -- 957-965
  | .pushClosure => closure false                                           -- 999-1048, 1079-1082
  | .pushVaClosure => closure true
  | .pushGlobal => do return .pushGlobal (← Dec.operand w)                  -- 1200-1218
  | .releaseUpvalues => do                                                  -- 1238-1258
      let n ← Dec.byte
      return .releaseUpvalues (← Dec.operands w n)
  | .setUpvalue => do                                                       -- 1284-1306
      let u ← Dec.byte
      return .setUpvalue u (← Dec.operand w)
  | .setGlobal => two .setGlobal                                            -- 1338-1361
  | .funcall => do                                                          -- 1373-1381
      let a ← Dec.operand w
      return .funcall a (← Dec.byte)
  | .apply => do                                                            -- 1411-1420
      let a ← Dec.operand w
      return .apply a (← Dec.byte)
  | .call => do                                                             -- 1543-1551
      let d ← Dec.operand w
      let _ ← Dec.byte
      return .call (signed w d)
  | .ccall => do return .ccall (← Dec.operand w)                            -- 1582-1593
  | .acall => pure .invalid
  | .jump => do return .jump (signed w (← Dec.operand w))                   -- 1611-1641
  | .brz => pure .invalid
  | .brnz => do                                                             -- 1644-1665
      let d ← Dec.operand w
      return .brnz (signed w d) (← Dec.byte)
  | .pop => do return .pop (← Dec.operand w)                                -- 1717-1725
  | .move => two .move                                                      -- 1730-1754
  | .not => do return .not (← Dec.operand w)                                -- 1763-1771
  | .mul => two (.arith .mul)                                               -- 1803-2018
  | .div => two (.arith .div)                                               -- 2021-2235
  | .add => two (.arith .add)                                               -- 2238-2341
  | .sub => two (.arith .sub)                                               -- 2344-2559
  | .greater => two .greater                                                -- 2562-2759
  | .equal =>                                                               -- 2762-2785
      match w with
      | .w16 => do
          -- `equal16` does not set `parsedBytecode`, so it goes on to read the operands again
          let _ ← Dec.operand .w16
          let _ ← Dec.operand .w16
          let a ← Dec.operand .w8
          return .equal a (← Dec.operand .w8)
      | _ => two .equal
  | .less => two .less                                                      -- 2890-3087
  | .cons => two .cons                                                      -- 3090-3113
  | .vector => do                                                           -- 3148-3186
      let n ← Dec.operand w
      return .vector (← Dec.operands w n)
  | .makeVector => two .makeVector                                          -- 3214-3239
  | .getVecElt => two .getVecElt                                            -- 3298-3323
  | .setVecElt => three .setVecElt                                          -- 3397-3439
  | .cdr => do return .cdr (← Dec.operand w)                                -- 3493-3501
  | .car => do return .car (← Dec.operand w)                                -- 3601-3609
  | .setCar => two .setCar                                                  -- 3697-3720
  | .setCdr => two .setCdr                                                  -- 3753-3776
  | .nullp => do return .nullp (← Dec.operand w)                            -- 3810-3818
  | .typeof => do return .typeof (← Dec.operand w)                          -- 3841-3849
  | .makeType => pure .makeType                                             -- 3860
  | .makeInstance => three .makeInstance                                    -- 3867-3909
  | .compositeValue => do return .compositeValue (← Dec.operand w)          -- 3983-3991
  | .compositeFunction => do return .compositeFunction (← Dec.operand w)    -- 4005-4013
  | .setCompositeValue => two .setCompositeValue                            -- 4027-4050
  | .setCompositeFunction => two .setCompositeFunction                      -- 4070-4093
  | .length => do return .length (← Dec.operand w)                          -- 4113-4121
  | .symbolString => do return .symbolString (← Dec.operand w)              -- 4165-4173
  | .symbolId => do return .symbolId (← Dec.operand w)                      -- 4192-4200
  | .makeString => do return .makeString (← Dec.operand w)                  -- 4217-4225
  | .concatenate => two .concatenate                                        -- 4322-4347
  | .substring => three .substring                                          -- 4438-4481
  | .return_ => do return .return_ (← Dec.operand w)                        -- 4570-4588
  | .return0 => pure .return0                                               -- 4607
  | .halt => pure .halt                                                     -- 4615
  | .nil => pure .nil                                                       -- 4619
where
  /-- Two operands of the instruction's size. -/
  two (f : Nat → Nat → Instr) : Dec Instr := do
    let a ← Dec.operand w
    return f a (← Dec.operand w)
  /-- Three operands of the instruction's size. -/
  three (f : Nat → Nat → Nat → Instr) : Dec Instr := do
    let a ← Dec.operand w
    let b ← Dec.operand w
    return f a b (← Dec.operand w)
  /-- /repo/duckVM.c:999-1048 and 1079-1082. -/
  closure (variadic : Bool) : Dec Instr := do
    let d ← Dec.operand w
    let arity ← Dec.byte
    let n ← Dec.operand .w32
    let captures ← Dec.operands .w32 n
    return .pushClosure variadic (1 + w.bytes) (signed w d) (UInt8.ofNat arity) captures

/-- One instruction from the bytes at the instruction pointer.  Bytes that are not an opcode are
`invalid`. -/
def decode : Dec Instr
  | [] => Option.none
  | op :: bs =>
      match opcodes[op.toNat]? with
      | some (o, w) => decodeArgs o w bs
      | Option.none => some (.invalid, bs)

end DuckLisp.VM
