import Verif.Model.Asm.Encode

/-!
# What assembly instructions mean

Which instruction of the machine an instruction of the assembly stands for, and which operands fit
into the bytecode.
-/

namespace DuckLisp.Spec

open DuckLisp DuckLisp.VM DuckLisp.Asm

/-- An operand of at most 32 bits. -/
def Word (x : Int) : Prop := 0 ≤ x ∧ x < 2 ^ 32

/-- An operand of at most 8 bits. -/
def Octet (x : Int) : Prop := 0 ≤ x ∧ x < 2 ^ 8

instance (x : Int) : Decidable (Word x) := inferInstanceAs (Decidable (_ ∧ _))
instance (x : Int) : Decidable (Octet x) := inferInstanceAs (Decidable (_ ∧ _))

/-- The machine instruction an instruction without a label stands for. -/
def meaning (strip : Bool) : Ins → Option Instr
  | .nop => some .nop
  | .pushIndex a => some (.pushIndex a.toNat)
  | .pushBoolean v => some (.pushBool (v ≠ 0))
  | .pushInteger v => some (.pushInteger v)
  | .pushFloat bits => some (.pushFloat bits)
  | .pushString _ s => some (.pushString s)
  | .pushSymbol id _ name =>
      some (if strip then .pushStrippedSymbol id.toNat else .pushSymbol id.toNat name)
  | .pushStrippedSymbol id _ _ => some (.pushStrippedSymbol id.toNat)
  | .pushUpvalue u => some (.pushUpvalue u.toNat)
  | .pushGlobal k => some (.pushGlobal k.toNat)
  | .setUpvalue u a => some (.setUpvalue u.toNat a.toNat)
  | .setGlobal a k => some (.setGlobal a.toNat k.toNat)
  | .move a b => some (.move a.toNat b.toNat)
  | .pop n => some (.pop n.toNat)
  | .not a => some (.not a.toNat)
  | .arith op a b => some (.arith op a.toNat b.toNat)
  | .equal a b => some (.equal a.toNat b.toNat)
  | .greater a b => some (.greater a.toNat b.toNat)
  | .less a b => some (.less a.toNat b.toNat)
  | .cons a b => some (.cons a.toNat b.toNat)
  | .vector _ as => some (.vector (as.map Int.toNat))
  | .makeVector a b => some (.makeVector a.toNat b.toNat)
  | .getVecElt a b => some (.getVecElt a.toNat b.toNat)
  | .setVecElt a b c => some (.setVecElt a.toNat b.toNat c.toNat)
  | .car a => some (.car a.toNat)
  | .cdr a => some (.cdr a.toNat)
  | .setCar a b => some (.setCar a.toNat b.toNat)
  | .setCdr a b => some (.setCdr a.toNat b.toNat)
  | .nullp a => some (.nullp a.toNat)
  | .typeof a => some (.typeof a.toNat)
  | .makeType => some .makeType
  | .makeInstance a b c => some (.makeInstance a.toNat b.toNat c.toNat)
  | .compositeValue a => some (.compositeValue a.toNat)
  | .compositeFunction a => some (.compositeFunction a.toNat)
  | .setCompositeValue a b => some (.setCompositeValue a.toNat b.toNat)
  | .setCompositeFunction a b => some (.setCompositeFunction a.toNat b.toNat)
  | .length a => some (.length a.toNat)
  | .symbolString a => some (.symbolString a.toNat)
  | .symbolId a => some (.symbolId a.toNat)
  | .makeString a => some (.makeString a.toNat)
  | .concatenate a b => some (.concatenate a.toNat b.toNat)
  | .substring a b c => some (.substring a.toNat b.toNat c.toNat)
  | .nil => some .nil
  | .releaseUpvalues as => some (.releaseUpvalues (as.map Int.toNat))
  | .ccall k => some (.ccall k.toNat)
  | .funcall a n => some (.funcall a.toNat n.toNat)
  | .apply a n => some (.apply a.toNat n.toNat)
  | .return_ n => some (if n = 0 then .return0 else .return_ n.toNat)
  | .halt => some .halt
  | .internalNop | .label _ | .pushClosure .. | .call .. | .jump _ | .brnz .. => none

/-- Every operand has at most 32 bits, every count of arguments at most 8 (the format has one byte
for it), and lengths are those of the texts they go with. -/
def InFormat : Ins → Prop
  | .pushIndex a | .pushUpvalue a | .pushGlobal a | .pop a | .not a | .car a | .cdr a | .nullp a
  | .typeof a | .compositeValue a | .compositeFunction a | .length a | .symbolString a | .symbolId a
  | .makeString a | .ccall a | .return_ a => Word a
  | .setUpvalue a b | .setGlobal a b | .move a b | .arith _ a b | .equal a b | .greater a b
  | .less a b | .cons a b | .makeVector a b | .getVecElt a b | .setCar a b | .setCdr a b
  | .setCompositeValue a b | .setCompositeFunction a b | .concatenate a b => Word a ∧ Word b
  | .setVecElt a b c | .makeInstance a b c | .substring a b c => Word a ∧ Word b ∧ Word c
  | .pushInteger v => -2 ^ 31 ≤ v ∧ v < 2 ^ 31
  | .pushString len s => len = s.length ∧ Word len
  | .pushSymbol id len name | .pushStrippedSymbol id len name => Word id ∧ len = name.length ∧ Word len
  | .vector n as => n = as.length ∧ Word n ∧ ∀ a ∈ as, Word a
  | .releaseUpvalues as => as ≠ [] ∧ Octet as.length ∧ ∀ a ∈ as, Word a
  | .funcall a n | .apply a n => Word a ∧ Octet n
  | .pushClosure _ _ arity captures =>
      Octet arity ∧ Word captures.length ∧ ∀ c ∈ captures, -2 ^ 31 ≤ c ∧ c < 2 ^ 31
  | .call _ n | .brnz _ n => Octet n
  | _ => True

/-- An operand of at most 16 bits. -/
def Short (x : Int) : Prop := 0 ≤ x ∧ x < 2 ^ 16

instance (x : Int) : Decidable (Short x) := inferInstanceAs (Decidable (_ ∧ _))

/-- The operands for which the assembler or the machine has a defect: six instructions go wrong with
operands of more than 8 bits. -/
def SmallWhereNeeded : Ins → Prop
  | .setUpvalue u a => Octet u ∧ Octet a
  | .equal a b => (Octet a ∧ Octet b) ∨ ¬ (Short a ∧ Short b)
  | .vector n as => (Octet n → ∀ a ∈ as, Octet a) ∧ (Short n → ∀ a ∈ as, Short a)
  | .setVecElt a b c | .substring a b c =>
      (Octet a ∧ Octet b → Octet c) ∧ (Short a ∧ Short b → Short c)
  | .releaseUpvalues as => ∀ a ∈ as, Octet a
  | _ => True

/-- The numbers in an instruction that do not depend on what is on the stack have at most 32 bits: integer
literals, the numbers of symbols and globals, and how many elements a vector has. -/
def LiteralsFit : Ins → Prop
  | .pushInteger v => -2 ^ 31 ≤ v ∧ v < 2 ^ 31
  | .pushGlobal key | .setGlobal _ key => Word key
  | .pushSymbol id _ _ => Word id
  | .vector n _ => Word n
  | _ => True

instance : DecidablePred LiteralsFit := fun i => by cases i <;> unfold LiteralsFit <;> infer_instance

/-! ### Labels -/

/-- The label an instruction names. -/
def labelOf : Ins → Option Nat
  | .pushClosure _ l _ _ => some l
  | .call l _ => some l
  | .jump l => some l
  | .brnz l _ => some l
  | _ => none

/-- The machine instruction for an instruction that names a label, with an address of size `w` that
says `d`. -/
def addressed (w : Width) (d : Int) : Ins → Option Instr
  | .pushClosure variadic _ arity captures =>
      some (.pushClosure variadic (1 + w.bytes) d (UInt8.ofNat arity.toNat)
        (captures.map fun c => (c % 2 ^ 32).toNat))
  | .call _ _ => some (.call d)
  | .jump _ => some (.jump d)
  | .brnz _ pops => some (.brnz d pops.toNat)
  | _ => none

/-- Where an instruction at position `here`, followed by position `next`, takes control: for a
closure, where the function starts.  Addresses of branches and calls count from the byte that
follows the address. -/
def landing (here next : Int) : Instr → Option Int
  | .pushClosure _ base d _ _ => some (here + base + d)
  | .call d => some (next - 1 + d)
  | .jump d => some (next + d)
  | .brnz d _ => some (next - 1 + d)
  | _ => none

/-- The position of piece `k`. -/
def offset (pieces : List Bytes) (k : Nat) : Nat := (pieces.take k).flatten.length

/-- The code cut into one piece for each instruction of the program: labels have no code, and
everything that does not name a label is read by the machine as what it means. -/
structure Pieces (strip : Bool) (program : List Ins) (bytes : Bytes) (pieces : List Bytes) : Prop where
  length : pieces.length = program.length
  flatten : pieces.flatten = bytes
  none : ∀ (k : Nat) (i : Ins) (p : Bytes), program[k]? = some i → pieces[k]? = some p →
    (i = .internalNop ∨ ∃ l, i = .label l) → p = []
  plain : ∀ (k : Nat) (i : Ins) (p : Bytes) (m : Instr), program[k]? = some i → pieces[k]? = some p →
    meaning strip i = some m → InFormat i → SmallWhereNeeded i →
    ∀ rest, decode (p ++ rest) = some (m, rest)

/-- Instruction `k`, which names a label, takes control to the label, which is at `j`. -/
def LandsOn (pieces : List Bytes) (k : Nat) (i : Ins) (j : Nat) : Prop :=
  ∃ p w d m, pieces[k]? = some p ∧ addressed w d i = some m ∧
    (∀ rest, decode (p ++ rest) = some (m, rest)) ∧
    landing (offset pieces k) (offset pieces (k + 1)) m = some (offset pieces j : Int)

/-- Every instruction that names a label takes control to the label. -/
def AllLand (program : List Ins) (pieces : List Bytes) : Prop :=
  ∀ (k : Nat) (i : Ins) (l j : Nat), program[k]? = some i → labelOf i = some l → InFormat i →
    program[j]? = some (.label l) → LandsOn pieces k i j

/-- The number that `w.bytes` bytes hold when `d` is written to them. -/
def wrapTo (w : Width) (d : Int) : Int :=
  (d + 2 ^ (8 * w.bytes - 1)) % 2 ^ (8 * w.bytes) - 2 ^ (8 * w.bytes - 1)

/-- A program in order: it names existing labels, puts each in at most one place, ends with `halt`,
and releases no empty set of variables (the compiler emits none). -/
structure InOrder (labels : Nat) (program : List Ins) : Prop where
  named : ∀ i ∈ program, ∀ l, labelOf i = some l → l < labels
  placed : ∀ l, Ins.label l ∈ program → l < labels
  once : ∀ (j j' l : Nat), program[j]? = some (.label l) → program[j']? = some (.label l) → j = j'
  halts : program.getLast? = some .halt
  releases : Ins.releaseUpvalues [] ∉ program

/-- The machine has `bytes` in the block of code that `ip` points into. -/
def HasCode (vm : VM) (ip : CodePtr) (bytes : Bytes) : Prop :=
  ∃ b n, vm.heap[ip.cell]? = some (.bytecode (some b) n) ∧ b.serial = ip.serial ∧ b.bytes = bytes

end DuckLisp.Spec
