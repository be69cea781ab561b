import Verif.Model.VM.Decode

/-!
# Listings of code

What a listing of code shows: one line for each instruction of the machine, with its name and its operands.
-/

namespace DuckLisp.Spec.Listing

open DuckLisp DuckLisp.VM

/-- A digit. -/
def digit (d : Nat) : Byte := if d < 10 then UInt8.ofNat (48 + d) else UInt8.ofNat (55 + d)

/-- The last `n` digits of a number to the base of sixteen. -/
def hex : Nat → Nat → Bytes
  | 0, _ => []
  | n + 1, v => hex n (v / 16) ++ [digit (v % 16)]

/-- Control characters are shown as spaces, but for ends of lines. -/
def visible (c : Byte) : Byte := if c < 32 ∧ c ≠ 10 ∧ c ≠ 13 then 32 else c

/-- Something that stands after the name of an instruction. -/
inductive Field where
  /-- a number of so many bytes -/
  | number (bytes value : Nat)
  | string (text : Bytes)

/-- How it is shown: two digits for each byte, and strings in quotes. -/
def Field.shown : Field → Bytes
  | .number bytes value => hex (2 * bytes) value
  | .string text => [34] ++ text.map visible ++ [34]

/-- The name of an instruction, and whether it comes in three sizes. -/
def name : Opc → String × Bool
  | .nop => ("nop", false) | .pushString => ("string", true) | .pushBooleanFalse => ("false", false)
  | .pushBooleanTrue => ("true", false) | .pushInteger => ("integer", true)
  | .pushDoubleFloat => ("double-float", false) | .pushIndex => ("index", true) | .pushSymbol => ("symbol", true)
  | .pushStrippedSymbol => ("stripped-symbol", true) | .pushUpvalue => ("upvalue", true)
  | .pushClosure => ("closure", true) | .pushVaClosure => ("variadic-closure", true)
  | .pushGlobal => ("global", true) | .setUpvalue => ("set-upvalue", true) | .setGlobal => ("set-global", true)
  | .releaseUpvalues => ("release-upvalues", true) | .funcall => ("funcall", true) | .apply => ("apply", true)
  | .call => ("call", true) | .ccall => ("c-call", true) | .acall => ("acall", true) | .jump => ("jump", true)
  | .brz => ("brz", true) | .brnz => ("brnz", true) | .move => ("move", true) | .not => ("not", true)
  | .mul => ("mul", true) | .div => ("div", true) | .add => ("add", true) | .sub => ("sub", true)
  | .equal => ("equal", true) | .greater => ("greater", true) | .less => ("less", true) | .cons => ("cons", true)
  | .vector => ("vector", true) | .makeVector => ("makeVector", true) | .getVecElt => ("getVecElt", true)
  | .setVecElt => ("setVecElt", true) | .car => ("car", true) | .cdr => ("cdr", true) | .setCar => ("setCar", true)
  | .setCdr => ("setCdr", true) | .nullp => ("null?", true) | .typeof => ("typeof", true)
  | .makeType => ("makeType", false) | .makeInstance => ("makeInstance", true)
  | .compositeValue => ("compositeValue", true) | .compositeFunction => ("compositeFunction", true)
  | .setCompositeValue => ("setCompositeValue", true) | .setCompositeFunction => ("setCompositeFunction", true)
  | .makeString => ("makeString", true) | .concatenate => ("concatenate", true) | .substring => ("substring", true)
  | .length => ("length", true) | .symbolString => ("symbolString", true) | .symbolId => ("symbolId", true)
  | .pop => ("pop", true) | .return0 => ("return.0", false) | .return_ => ("return", true) | .halt => ("halt", false)
  | .nil => ("nil", false)

/-- Its name with the size. -/
def mnemonic (o : Opc) (w : Width) : Bytes :=
  ascii (name o).1 ++
    if (name o).2 then match w with | .w8 => ascii ".8" | .w16 => ascii ".16" | .w32 => ascii ".32" else []

/-- A signed number as its bytes show it. -/
def twos (w : Width) (x : Int) : Field := .number w.bytes (x % 2 ^ (8 * w.bytes)).toNat

/-- The operands of an instruction of size `w`. -/
def fields (w : Width) : Instr → List Field
  | .pushString s => [num s.length, .string s]
  | .pushInteger i => [twos w i]
  | .pushFloat bits => [.number 8 bits.toNat]
  | .pushSymbol id s => [num id, num s.length, .string s]
  | .pushClosure _ _ disp arity captures =>
      [twos w disp, .number 1 arity.toNat, .number 4 captures.length] ++ captures.map (.number 4)
  | .setUpvalue u a => [.number 1 u, num a]
  | .releaseUpvalues as => .number 1 as.length :: as.map num
  | .funcall a n | .apply a n => [num a, .number 1 n]
  | .call disp => [twos w disp]
  | .jump disp => [twos w disp]
  | .brnz disp n => [twos w disp, .number 1 n]
  | .vector as => num as.length :: as.map num
  | .pushIndex a | .pushStrippedSymbol a | .pushUpvalue a | .pushGlobal a | .ccall a | .not a | .car a | .cdr a
  | .nullp a | .typeof a | .compositeValue a | .compositeFunction a | .makeString a | .length a | .symbolString a
  | .symbolId a | .pop a | .return_ a => [num a]
  | .setGlobal a b | .move a b | .arith _ a b | .equal a b | .greater a b | .less a b | .cons a b | .makeVector a b
  | .getVecElt a b | .setCar a b | .setCdr a b | .setCompositeValue a b | .setCompositeFunction a b
  | .concatenate a b => [num a, num b]
  | .setVecElt a b c | .makeInstance a b c | .substring a b c => [num a, num b, num c]
  | .nop | .pushBool _ | .makeType | .return0 | .halt | .nil | .invalid => []
where
  /-- A number of the instruction's size. -/
  num (v : Nat) : Field := .number w.bytes v

/-- A line: a name, and what stands after it, each after a space. -/
def row (name : Bytes) (fs : List Field) : Bytes := name ++ fs.flatMap (fun f => 32 :: f.shown) ++ [10]

/-- `Instruction piece o w i`: the machine takes these bytes, all of them and whatever is after them, as the
instruction `i` with opcode `o` of size `w`. -/
def Instruction (piece : Bytes) (o : Opc) (w : Width) (i : Instr) : Prop :=
  (∃ op args, piece = op :: args ∧ opcodes[op.toNat]? = some (o, w)) ∧
    ∀ rest, decode (piece ++ rest) = some (i, rest)

/-- The instructions that the listing shows as the machine takes them. -/
def Listed (o : Opc) (w : Width) : Bool :=
  match o, w with
  | .pushStrippedSymbol, _ | .call, _ | .acall, _ | .brz, _ | .pushDoubleFloat, _ => false
  | .vector, .w8 | .vector, .w16 => false
  | .releaseUpvalues, .w16 | .releaseUpvalues, .w32 => false
  | .equal, .w16 => false
  | .pushGlobal, .w16 | .pushGlobal, .w32 => false
  | _, _ => true

/-- The instructions that the listing shows at all as far as they go: those, floats without their value, and
globals. -/
def Shows (o : Opc) (w : Width) : Bool := Listed o w || o == .pushDoubleFloat || o == .pushGlobal

/-- `Row piece text`: the line for the bytes of one instruction. -/
inductive Row : Bytes → Bytes → Prop
  | listed {piece o w i} (hi : Instruction piece o w i) (hl : Listed o w = true) :
      Row piece (row (mnemonic o w) (fields w i))
  /-- the numbers of floats are not shown -/
  | float {piece w i} (hi : Instruction piece .pushDoubleFloat w i) : Row piece (row (mnemonic .pushDoubleFloat w) [])
  /-- the size of a global's key is not shown in the name -/
  | global {piece w i} (hi : Instruction piece .pushGlobal w i) : Row piece (row (mnemonic .pushGlobal .w8) (fields w i))
  /-- any other byte -/
  | illegal {op : Byte} (h : opcodes.length ≤ op.toNat) :
      Row [op] (ascii "Illegal opcode '" ++ hex 2 op.toNat ++ ascii "'\n")

/-- `Rows pieces texts`: the lines for instructions one after the other. -/
inductive Rows : List Bytes → List Bytes → Prop
  | nil : Rows [] []
  | cons {piece text pieces texts} (h : Row piece text) (t : Rows pieces texts) : Rows (piece :: pieces) (text :: texts)

/-- The whole listing. -/
def listing (texts : List Bytes) : Bytes :=
  ascii "DISASSEMBLY START\n" ++ texts.flatten ++ ascii "DISASSEMBLY END\n" ++ [0]

end DuckLisp.Spec.Listing
