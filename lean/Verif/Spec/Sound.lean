import Verif.Spec.Reach

/-!
# Sound machine states

What it means for the memory of the machine to be in order: every reference leads to a cell that is
in use and holds the kind of thing the reference is for, and the sizes recorded with a reference fit
the storage it refers to.
-/

namespace DuckLisp.Spec

open DuckLisp DuckLisp.VM

/-- The kinds of cell.  A cell keeps its kind as long as it is in use. -/
inductive Shape where
  /-- a copy of a value of the language -/
  | value
  /-- a pair -/
  | pair
  /-- a captured variable -/
  | captured
  /-- the captured variables of a closure: how many -/
  | captures (n : Nat)
  /-- the elements of a vector: room for how many -/
  | elements (capacity : Nat)
  /-- code: which -/
  | code (block : Option CodeBlock)
  /-- the parts of a composite -/
  | parts
  /-- the bytes of a string: how many -/
  | text (n : Nat)
deriving DecidableEq, Repr

/-- The kind of thing a cell holds. -/
def shape : Obj → Shape
  | .cons .. => .pair
  | .upvalue _ => .captured
  | .upvalueArray _ n => .captures n
  | .internalVector vs _ _ => .elements (vs.getD []).length
  | .bytecode b _ => .code b
  | .internalComposite .. => .parts
  | .internalString _ n => .text n
  | _ => .value

/-- Cell `r` is in use and holds a thing of kind `s`. -/
def Live (vm : VM) (r : Ref) (s : Shape) : Prop :=
  r ∉ vm.free ∧ ∃ o, vm.heap[r]? = some o ∧ shape o = s

/-- Where functions may start: at which positions of a block of code, given how many arguments they take and
whether they take further ones. -/
class Entries where
  ok : CodeBlock → Int → UInt8 → Bool → Prop

/-- Unless something else is said they may start anywhere. -/
instance (priority := low) anywhere : Entries := ⟨fun _ _ _ _ => True⟩

/-- Cell `r` is in use and holds code. -/
def LiveCode (vm : VM) (r : Ref) : Prop := ∃ blk, Live vm r (.code (some blk))

variable [Entries]

/-- A value of the language whose references are in order. -/
def ValueOk (vm : VM) : Obj → Prop
  | .integer i => -(2 ^ 63) ≤ i ∧ i < 2 ^ 63
  | .string none off len => off = 0 ∧ len = 0
  | .string (some r) off len => 0 ≤ off ∧ off ≤ len ∧ ∃ n, len ≤ n ∧ Live vm r (.text n)
  | .list (some r) => Live vm r .pair
  | .symbol _ (some r) => ∃ n, Live vm r (.text n)
  | .closure pos code ups arity variadic => ∃ b u n, code = some b ∧ ups = some u ∧
      (∃ blk, Live vm b (.code (some blk)) ∧ Entries.ok blk pos arity variadic) ∧ Live vm u (.captures n)
  | .vector none off => off = 0
  | .vector (some r) off => ∃ cap, Live vm r (.elements cap) ∧
      0 ≤ off ∧ (off = 0 ∨ off < cap)
  | .composite c => ∃ r, c = some r ∧ Live vm r .parts
  | .user _ ms _ => ∀ r, some r ∈ ms → ∃ s, Live vm r s
  | .cons .. | .upvalue _ | .upvalueArray .. | .internalVector .. | .bytecode ..
  | .internalComposite .. | .internalString .. => False
  | _ => True

/-- A part of a pair: nothing, a value, or another pair. -/
def PartOk (vm : VM) : Option Ref → Prop
  | none => True
  | some r => Live vm r .value ∨ Live vm r .pair

/-- The contents of a cell are in order. -/
def CellOk (vm : VM) : Obj → Prop
  | .cons a d => PartOk vm a ∧ PartOk vm d
  | .upvalue (.stackIndex _) => True
  | .upvalue (.heapObject o) => ∃ r, o = some r ∧ Live vm r .value
  | .upvalue (.heapUpvalue u) => ∀ r, u = some r → Live vm r .captured
  | .upvalueArray b n => ((b.map UpBlock.ups).getD []).length = n ∧
      ∀ r, some r ∈ (b.map UpBlock.ups).getD [] → Live vm r .captured
  | .internalVector vs n init => n ≤ (vs.getD []).length ∧ (vs.getD []).length < 2 ^ 60 ∧
      (init = true → ∀ i, i < n → ∃ r, (vs.getD [])[i]? = some (.ptr (some r)) ∧ Live vm r .value)
  | .bytecode b n => ∃ blk, b = some blk ∧ blk.bytes.length = n
  | .internalComposite _ v f => (∀ r, v = some r → Live vm r .value) ∧
      ∀ r, f = some r → Live vm r .value
  | .internalString v n => (v.getD []).length = n ∧ n < 2 ^ 63
  | o => ValueOk vm o

/-- A cell that still owns a block of memory. -/
def OwnsBlock : Obj → Prop
  | .upvalueArray b _ => b.isSome
  | .bytecode b _ => b.isSome
  | _ => False

/-- The memory of the machine is in order. -/
structure Sound (vm : VM) : Prop where
  free_nodup : vm.free.Nodup
  free_lt : ∀ r ∈ vm.free, r < vm.heap.length
  free_empty : ∀ r ∈ vm.free, ∀ o, vm.heap[r]? = some o → ¬ OwnsBlock o
  heap_size : vm.heap.length < 2 ^ 60
  stack : ∀ o ∈ vm.stack, ValueOk vm o
  captured : ∀ r, some r ∈ vm.upStack → Live vm r .captured
  globals : ∀ k r, (k, some r) ∈ vm.globals → Live vm r .value
  frames : ∀ f ∈ vm.callStack, ∀ r, f.bytecode = some r → LiveCode vm r
  running : ∀ r, vm.currentBytecode = some r → LiveCode vm r
  cells : ∀ r o, vm.heap[r]? = some o → r ∉ vm.free → CellOk vm o

/-- No vector is half built. -/
def Finished (vm : VM) : Prop :=
  ∀ r o, vm.heap[r]? = some o → r ∉ vm.free → ¬ UnderConstruction o

/-- The machine is in order. -/
structure Good (vm : VM) : Prop where
  sound : Sound vm
  finished : Finished vm

end DuckLisp.Spec
