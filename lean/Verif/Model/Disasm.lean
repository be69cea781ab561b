import Verif.Model.VM.Decode
import Verif.Model.DlString
import Verif.Model.Tables
import Verif.Model.Load

/-!
# The disassembler

Models `duckLisp_disassemble` (/repo/assembler.c:2849-3265).

Simplifications: there is always enough memory; the array that the text grows in is a list.  The format of an
instruction has three operands at most, so the array of five that they go to is never full.
-/

namespace DuckLisp.Disasm

open DuckLisp DuckLisp.VM

/-- The table at /repo/assembler.c:2860-3033 `templates`: for each opcode the name of the instruction and the
format of its operands. -/
def templates : List (Opc × Width × String) :=
  [(.nop, .w8, "nop"), (.pushString, .w8, "string.8 1 s0"), (.pushString, .w16, "string.16 2 s0"),
   (.pushString, .w32, "string.32 4 s0"), (.pushSymbol, .w8, "symbol.8 1 1 s1"),
   (.pushSymbol, .w16, "symbol.16 2 2 s1"), (.pushSymbol, .w32, "symbol.32 4 4 s1"),
   (.pushStrippedSymbol, .w8, "stripped-symbol.8 1 1 s1"),
   (.pushStrippedSymbol, .w16, "stripped-symbol.16 2 2 s1"),
   (.pushStrippedSymbol, .w32, "stripped-symbol.32 4 4 s1"), (.pushBooleanFalse, .w8, "false"),
   (.pushBooleanTrue, .w8, "true"), (.pushInteger, .w8, "integer.8 1"), (.pushInteger, .w16, "integer.16 2"),
   (.pushInteger, .w32, "integer.32 4"), (.pushDoubleFloat, .w8, "double-float f"),
   (.pushIndex, .w8, "index.8 1"), (.pushIndex, .w16, "index.16 2"), (.pushIndex, .w32, "index.32 4"),
   (.pushUpvalue, .w8, "upvalue.8 1"), (.pushUpvalue, .w16, "upvalue.16 2"),
   (.pushUpvalue, .w32, "upvalue.32 4"), (.pushClosure, .w8, "closure.8 1 1 4 V2"),
   (.pushClosure, .w16, "closure.16 2 1 4 V2"), (.pushClosure, .w32, "closure.32 4 1 4 V2"),
   (.pushVaClosure, .w8, "variadic-closure.8 1 1 4 V2"),
   (.pushVaClosure, .w16, "variadic-closure.16 2 1 4 V2"),
   (.pushVaClosure, .w32, "variadic-closure.32 4 1 4 V2"), (.pushGlobal, .w8, "global.8 1"),
   (.pushGlobal, .w16, "global.8 2"), (.pushGlobal, .w32, "global.8 4"),
   (.setUpvalue, .w8, "set-upvalue.8 1 1"), (.setUpvalue, .w16, "set-upvalue.16 1 2"),
   (.setUpvalue, .w32, "set-upvalue.32 1 4"), (.setGlobal, .w8, "set-global.8 1 1"),
   (.setGlobal, .w16, "set-global.16 2 2"), (.setGlobal, .w32, "set-global.32 4 4"),
   (.funcall, .w8, "funcall.8 1 1"), (.funcall, .w16, "funcall.16 2 1"), (.funcall, .w32, "funcall.32 4 1"),
   (.releaseUpvalues, .w8, "release-upvalues.8 1 v0"), (.releaseUpvalues, .w16, "release-upvalues.16 2 v0"),
   (.releaseUpvalues, .w32, "release-upvalues.32 4 v0"), (.call, .w8, "obsolete: call.8 1 1"),
   (.call, .w16, "obsolete: call.16 1 2"), (.call, .w32, "obsolete: call.32 1 4"),
   (.acall, .w8, "obsolete: acall.8 1 1"), (.acall, .w16, "obsolete: acall.16 1 2"),
   (.acall, .w32, "obsolete: acall.32 1 4"), (.apply, .w8, "apply.8 1 1"), (.apply, .w16, "apply.16 2 1"),
   (.apply, .w32, "apply.32 4 1"), (.ccall, .w8, "c-call.8 1"), (.ccall, .w16, "c-call.16 2"),
   (.ccall, .w32, "c-call.32 4"), (.jump, .w8, "jump.8 1"), (.jump, .w16, "jump.16 2"),
   (.jump, .w32, "jump.32 4"), (.brz, .w8, "brz.8 1 1"), (.brz, .w16, "brz.16 2 1"),
   (.brz, .w32, "brz.32 4 1"), (.brnz, .w8, "brnz.8 1 1"), (.brnz, .w16, "brnz.16 2 1"),
   (.brnz, .w32, "brnz.32 4 1"), (.move, .w8, "move.8 1 1"), (.move, .w16, "move.16 2 2"),
   (.move, .w32, "move.32 4 4"), (.not, .w8, "not.8 1"), (.not, .w16, "not.16 2"), (.not, .w32, "not.32 4"),
   (.mul, .w8, "mul.8 1 1"), (.mul, .w16, "mul.16 2 2"), (.mul, .w32, "mul.32 4 4"), (.div, .w8, "div.8 1 1"),
   (.div, .w16, "div.16 2 2"), (.div, .w32, "div.32 4 4"), (.add, .w8, "add.8 1 1"),
   (.add, .w16, "add.16 2 2"), (.add, .w32, "add.32 4 4"), (.sub, .w8, "sub.8 1 1"),
   (.sub, .w16, "sub.16 2 2"), (.sub, .w32, "sub.32 4 4"), (.equal, .w8, "equal.8 1 1"),
   (.equal, .w16, "equal.16 2 2"), (.equal, .w32, "equal.32 4 4"), (.greater, .w8, "greater.8 1 1"),
   (.greater, .w16, "greater.16 2 2"), (.greater, .w32, "greater.32 4 4"), (.less, .w8, "less.8 1 1"),
   (.less, .w16, "less.16 2 2"), (.less, .w32, "less.32 4 4"), (.cons, .w8, "cons.8 1 1"),
   (.cons, .w16, "cons.16 2 2"), (.cons, .w32, "cons.32 4 4"), (.vector, .w8, "vector.8 1 V0"),
   (.vector, .w16, "vector.16 2 V0"), (.vector, .w32, "vector.32 4 V0"),
   (.makeVector, .w8, "makeVector.8 1 1"), (.makeVector, .w16, "makeVector.16 2 2"),
   (.makeVector, .w32, "makeVector.32 4 4"), (.getVecElt, .w8, "getVecElt.8 1 1"),
   (.getVecElt, .w16, "getVecElt.16 2 2"), (.getVecElt, .w32, "getVecElt.32 4 4"),
   (.setVecElt, .w8, "setVecElt.8 1 1 1"), (.setVecElt, .w16, "setVecElt.16 2 2 2"),
   (.setVecElt, .w32, "setVecElt.32 4 4 4"), (.car, .w8, "car.8 1"), (.car, .w16, "car.16 2"),
   (.car, .w32, "car.32 4"), (.cdr, .w8, "cdr.8 1"), (.cdr, .w16, "cdr.16 2"), (.cdr, .w32, "cdr.32 4"),
   (.setCar, .w8, "setCar.8 1 1"), (.setCar, .w16, "setCar.16 2 2"), (.setCar, .w32, "setCar.32 4 4"),
   (.setCdr, .w8, "setCdr.8 1 1"), (.setCdr, .w16, "setCdr.16 2 2"), (.setCdr, .w32, "setCdr.32 4 4"),
   (.nullp, .w8, "null?.8 1"), (.nullp, .w16, "null?.16 2"), (.nullp, .w32, "null?.32 4"),
   (.typeof, .w8, "typeof.8 1"), (.typeof, .w16, "typeof.16 2"), (.typeof, .w32, "typeof.32 4"),
   (.makeType, .w8, "makeType"), (.makeInstance, .w8, "makeInstance.8 1 1 1"),
   (.makeInstance, .w16, "makeInstance.16 2 2 2"), (.makeInstance, .w32, "makeInstance.32 4 4 4"),
   (.compositeValue, .w8, "compositeValue.8 1"), (.compositeValue, .w16, "compositeValue.16 2"),
   (.compositeValue, .w32, "compositeValue.32 4"), (.compositeFunction, .w8, "compositeFunction.8 1"),
   (.compositeFunction, .w16, "compositeFunction.16 2"), (.compositeFunction, .w32, "compositeFunction.32 4"),
   (.setCompositeValue, .w8, "setCompositeValue.8 1 1"),
   (.setCompositeValue, .w16, "setCompositeValue.16 2 2"),
   (.setCompositeValue, .w32, "setCompositeValue.32 4 4"),
   (.setCompositeFunction, .w8, "setCompositeFunction.8 1 1"),
   (.setCompositeFunction, .w16, "setCompositeFunction.16 2 2"),
   (.setCompositeFunction, .w32, "setCompositeFunction.32 4 4"), (.makeString, .w8, "makeString.8 1"),
   (.makeString, .w16, "makeString.16 2"), (.makeString, .w32, "makeString.32 4"),
   (.concatenate, .w8, "concatenate.8 1 1"), (.concatenate, .w16, "concatenate.16 2 2"),
   (.concatenate, .w32, "concatenate.32 4 4"), (.substring, .w8, "substring.8 1 1 1"),
   (.substring, .w16, "substring.16 2 2 2"), (.substring, .w32, "substring.32 4 4 4"),
   (.length, .w8, "length.8 1"), (.length, .w16, "length.16 2"), (.length, .w32, "length.32 4"),
   (.symbolString, .w8, "symbolString.8 1"), (.symbolString, .w16, "symbolString.16 2"),
   (.symbolString, .w32, "symbolString.32 4"), (.symbolId, .w8, "symbolId.8 1"),
   (.symbolId, .w16, "symbolId.16 2"), (.symbolId, .w32, "symbolId.32 4"), (.pop, .w8, "pop.8 1"),
   (.pop, .w16, "pop.16 2"), (.pop, .w32, "pop.32 4"), (.return0, .w8, "return.0"),
   (.return_, .w8, "return.8 1"), (.return_, .w16, "return.16 2"), (.return_, .w32, "return.32 4"),
   (.halt, .w8, "halt"), (.nil, .w8, "nil")]

/-- /repo/assembler.c:3034-3043 `template_array`, and the test for a negative entry at 3050. -/
def format (opcode : Byte) : Option Bytes :=
  match opcodes[opcode.toNat]? with
  | some (o, w) => (templates.find? fun t => t.1 == o && t.2.1 == w).map fun t => ascii t.2.2
  | none => none

/-- What can happen while one instruction is shown. -/
inductive Out (α : Type) where
  | ok (a : α)
  | err (e : DlError)
  | ub
deriving DecidableEq, Repr

/-- The two digits of a byte (/repo/assembler.c:3085-3090 and often after). -/
def hexByte (b : Byte) : Bytes := [Tables.nybbleToHexChar ((b >>> 4) &&& 15), Tables.nybbleToHexChar (b &&& 15)]

/-- The loops of /repo/assembler.c:3080-3097 (`n` is 1), 3102-3112 (2) and 3124-3134 (4) over the bytes of a number:
the digits, the number and the code left.  `none`: the code is read beyond its end. -/
def number : Nat → Nat → Bytes → Option (Bytes × Nat × Bytes)
  | 0, value, code => some ([], value, code)
  | _ + 1, _, [] => none
  | n + 1, value, b :: code =>
      match number n (value * 256 + b.toNat) code with
      | some (text, value', code') => some (hexByte b ++ text, value', code')
      | none => none

/-- The loops of /repo/assembler.c:3150-3162 and 3172-3184: `count` numbers of `size` bytes. -/
def numbers (size : Nat) : Nat → Bytes → Option (Bytes × Bytes)
  | 0, code => some ([], code)
  | count + 1, code =>
      match number size 0 code with
      | some (text, _, code') =>
          match numbers size count code' with
          | some (text', code'') => some (32 :: text ++ text', code'')
          | none => none
      | none => none

/-- /repo/assembler.c:3201-3203: white space in strings is shown as a space, but for ends of lines. -/
def stringChar (c : Byte) : Byte := if DlString.isSpace c && c != 10 && c != 13 then 32 else c

/-- The loop of /repo/assembler.c:3198-3206 over the bytes of a string. -/
def characters : Nat → Bytes → Option (Bytes × Bytes)
  | 0, code => some ([], code)
  | _ + 1, [] => none
  | n + 1, c :: code =>
      match characters n code with
      | some (text, code') => some (stringChar c :: text, code')
      | none => none

/-- Text in front of what comes later. -/
def prepend (text : Bytes) : Out (Bytes × Bytes) → Out (Bytes × Bytes)
  | .ok (text', code) => .ok (text ++ text', code)
  | o => o

/-- What one character of a format, or two of them, stand for. -/
inductive Directive where
  /-- `1`, `2`, `4`: a number of that many bytes -/
  | number (size : Nat)
  /-- `v`: a list as long as number `k` says, of numbers of the size of that number -/
  | list (k : Nat)
  /-- `V`: a list as long as number `k` says, of numbers of four bytes -/
  | wideList (k : Nat)
  /-- `s`: a string as long as number `k` says -/
  | string (k : Nat)
  /-- `f` -/
  | float
  /-- any other character -/
  | invalid
deriving DecidableEq, Repr

/-- The `switch` of /repo/assembler.c:3079-3226; after `v`, `V` and `s` comes a digit. -/
def directives : Bytes → List Directive
  | [] => []
  | c :: f =>
      if c = 49 then .number 1 :: directives f
      else if c = 50 then .number 2 :: directives f
      else if c = 52 then .number 4 :: directives f
      else if c = 102 then .float :: directives f
      else if c = 32 then directives f
      else
        match f with
        | k :: f =>
            if c = 118 then .list (k - 48).toNat :: directives f
            else if c = 86 then .wideList (k - 48).toNat :: directives f
            else if c = 115 then .string (k - 48).toNat :: directives f
            else [.invalid]
        | [] => [.invalid]

/-- The loop of /repo/assembler.c:3077-3227 over the format: the text and the code after the operands.  `args` are the
numbers read so far and their sizes.  The bytes of a float are skipped without being read. -/
def operands (args : List (Nat × Nat)) : List Directive → Bytes → Out (Bytes × Bytes)
  | [], code => .ok ([], code)
  | .number size :: f, code =>                                        -- 3080-3141
      match number size 0 code with
      | some (text, value, code') => prepend (32 :: text) (operands (args ++ [(value, size)]) f code')
      | none => .ub
  | .list k :: f, code =>                                             -- 3142-3164
      match args[k]? with
      | some (count, size) =>
          match numbers size count code with
          | some (text, code') => prepend text (operands args f code')
          | none => .ub
      | none => .ub
  | .wideList k :: f, code =>                                         -- 3165-3186
      match args[k]? with
      | some (count, _) =>
          match numbers 4 count code with
          | some (text, code') => prepend text (operands args f code')
          | none => .ub
      | none => .ub
  | .string k :: f, code =>                                           -- 3187-3210
      match args[k]? with
      | some (length, _) =>
          match characters length code with
          | some (text, code') => prepend ([32, 34] ++ text ++ [34]) (operands args f code')
          | none => .ub
      | none => .ub
  | .float :: f, code => operands args f (code.drop 8)                -- 3211-3217
  | .invalid :: _, _ => .err .invalidValue                            -- 3223-3225

/-- The body of the loop, /repo/assembler.c:3048-3247, for the instruction with this opcode: its line and the code
after it. -/
def line (opcode : Byte) (code : Bytes) : Out (Bytes × Bytes) :=
  match format opcode with
  | some f =>
      -- the loop at 3055-3071, which stops at a space
      let name := f.takeWhile fun c => !DlString.isSpace c
      match operands [] (directives (f.drop (name.length + 1))) code with
      | .ok (text, code') => .ok (name ++ text ++ [10], code')
      | o => o
  | none => .ok (ascii "Illegal opcode '" ++ hexByte opcode ++ ascii "'\n", code)

/-- The loop of /repo/assembler.c:3048-3247; each turn takes a byte at least, so the length of the code is
enough for `fuel`. -/
def lines : Nat → Bytes → Out Bytes
  | _, [] => .ok []
  | 0, _ :: _ => .ok []
  | fuel + 1, opcode :: code =>
      match line opcode code with
      | .ok (text, code') =>
          match lines fuel code' with
          | .ok text' => .ok (text ++ text')
          | o => o
      | .err e => .err e
      | .ub => .ub

/-- /repo/assembler.c:2849-3265 `duckLisp_disassemble`. -/
def disassemble (code : Bytes) : Out Bytes :=
  match lines code.length code with
  | .ok text => .ok (ascii "DISASSEMBLY START\n" ++ text ++ ascii "DISASSEMBLY END\n" ++ [0])
  | o => o

/-- /repo/duckLisp.c:2190-2203: what `duckLisp_loadString` keeps besides the code if disassemblies are asked for. -/
def saved : Load.Out → Option (Out Bytes)
  | .code bytes _ => some (disassemble bytes)
  | _ => none

end DuckLisp.Disasm
