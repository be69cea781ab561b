import Verif.Model.Basic

/-!
# Objects and state of the virtual machine

Models /repo/duckVM.h.  A `duckVM_object_t *` that points into the object heap is the index of
the heap cell; a pointer that may be null is an `Option`.  Malloc'd blocks that hang off a heap
cell (arrays of captured variables, vector elements, bytecode, string bytes) are stored in the
cell; `none` is a null pointer.  Two kinds of block are also pointed to from outside the cell that
owns them (`upvalue_array_call_stack` holds copies of `duckVM_upvalueArray_t`, and an instruction
pointer points into bytecode); those blocks carry a serial number so that the model can tell a
live block from one that has been freed and whose cell has been reused.
-/

namespace DuckLisp.VM

open DuckLisp

/-- Index of a heap cell: `object - gclist->objects` (/repo/duckVM.h:39). -/
scoped notation "Ref" => Nat

/-- /repo/duckVM.h:116-124 `duckVM_upvalue_t`. -/
inductive Upvalue where
  | stackIndex (i : Int)
  | heapObject (o : Option Ref)
  | heapUpvalue (u : Option Ref)
deriving DecidableEq, Repr

/-- One element of the malloc'd element array of a vector.  `uninit` is a slot that has been
allocated and not yet written (/repo/duckVM.c:353-370 allocates without initialising). -/
inductive Slot where
  | uninit
  | ptr (p : Option Ref)
deriving DecidableEq, Repr

/-- A malloc'd array of captured variables, with its serial number. -/
structure UpBlock where
  serial : Nat
  ups : List (Option Ref)
deriving DecidableEq, Repr

/-- A malloc'd block of bytecode, with its serial number. -/
structure CodeBlock where
  serial : Nat
  bytes : Bytes
deriving DecidableEq, Repr

/-- /repo/duckVM.h:166-221 `duckVM_object_t`: one constructor per `duckVM_object_type_t`.

* A boolean is a `dl_bool_t`, an `unsigned char`: the VM does arithmetic on it.
* An integer is a `dl_ptrdiff_t`; it is kept as an `Int` and every operation that could leave the
  64-bit range is undefined behaviour in the model.
* A float is the 64-bit pattern of the `double`.
* A host callback is identified by a number.
* A `user` object's marker callback is modelled by the list of pointers it hands to the collector
  and its destructor by whether there is one; `data` is opaque.
* The unused field `inUse` (duckVM.h:220) is left out. -/
inductive Obj where
  | none
  | bool (b : UInt8)
  | integer (i : Int)
  | float (bits : UInt64)
  | string (internal : Option Ref) (offset : Int) (length : Nat)
  | list (cons : Option Ref)
  | symbol (id : Nat) (internal : Option Ref)
  | function (callback : Nat)
  | closure (name : Int) (bytecode : Option Ref) (upvalueArray : Option Ref)
      (arity : UInt8) (variadic : Bool)
  | vector (internal : Option Ref) (offset : Int)
  | type (t : Nat)
  | composite (internal : Option Ref)
  | user (data : Nat) (marks : List (Option Ref)) (destructor : Bool)
  | cons (car cdr : Option Ref)
  | upvalue (u : Upvalue)
  | upvalueArray (block : Option UpBlock) (length : Nat)
  | internalVector (values : Option (List Slot)) (length : Nat) (initialized : Bool)
  | bytecode (block : Option CodeBlock) (length : Nat)
  | internalComposite (type : Nat) (value function : Option Ref)
  | internalString (value : Option Bytes) (length : Nat)
deriving DecidableEq, Repr

/-- The empty list: `duckVM_object_makeList(dl_null)` (/repo/duckVM.c:4869-4874). -/
abbrev Obj.nil : Obj := .list Option.none

/-- A pointer into bytecode (`dl_uint8_t *ip`): the block it points into (cell and serial number)
and the offset. -/
structure CodePtr where
  cell : Ref
  serial : Nat
  off : Int
deriving DecidableEq, Repr

/-- /repo/duckVM.h:49-52 `duckVM_callFrame_t`. -/
structure Frame where
  ip : CodePtr
  bytecode : Option Ref
deriving DecidableEq, Repr

/-- /repo/duckVM.h:127-130 `duckVM_upvalueArray_t` as stored by value in
`upvalue_array_call_stack`: null, or a pointer to the block of some heap cell; and the length. -/
structure UpArray where
  block : Option (Ref × Nat)
  length : Nat
deriving DecidableEq, Repr

/-- /repo/duckVM.h:54-73 `duckVM_t` with its `duckVM_gclist_t` (duckVM.h:38-47).  Arrays are lists,
index 0 first.  `free` is the array of free cells read from the top down, so the next cell to be
handed out is its head.  `objectInUse` only carries meaning inside one collection and is local to
it.  The two parallel arrays `globals_map` and `globals` are one list of pairs.  The error log is
modelled separately (`Model/ErrorLog.lean`).  `nextSerial` numbers the malloc'd blocks. -/
structure VM where
  heap : List Obj
  free : List Ref
  stack : List Obj := []
  upStack : List (Option Ref) := []
  callStack : List Frame := []
  upArrays : List UpArray := [⟨Option.none, 0⟩]
  globals : List (Int × Option Ref) := []
  currentBytecode : Option Ref := Option.none
  nextUserType : Nat := 20
  nextSerial : Nat := 0
deriving DecidableEq, Repr

/-- Outcome of a VM operation: finished, a reported error (with the state it left behind),
undefined behaviour, or an endless loop. -/
inductive Out (α : Type) where
  | ok (a : α) (s : VM)
  | err (e : DlError) (s : VM)
  | ub
  | diverge
deriving DecidableEq, Repr

/-- A VM operation. -/
def M (α : Type) := VM → Out α

namespace M

/-- Run the operation on a state. -/
@[reducible] def run {α : Type} (m : M α) (s : VM) : Out α := m s

/-- Success without effect. -/
protected def pure {α : Type} (a : α) : M α := fun s => .ok a s

/-- `e = f(...); if (e) goto cleanup;`: an error keeps the state it left behind. -/
protected def bind {α β : Type} (m : M α) (f : α → M β) : M β := fun s =>
  match m s with
  | .ok a s' => f a s'
  | .err e s' => .err e s'
  | .ub => .ub
  | .diverge => .diverge

instance : Monad M where
  pure := M.pure
  bind := M.bind

/-- Report an error. -/
def throw {α : Type} (e : DlError) : M α := fun s => .err e s

/-- Undefined behaviour. -/
def ub {α : Type} : M α := fun _ => .ub

/-- An endless loop. -/
def diverge {α : Type} : M α := fun _ => .diverge

/-- Read the state. -/
def get : M VM := fun s => .ok s s

/-- Replace the state. -/
def set (s : VM) : M Unit := fun _ => .ok () s

/-- Change the state. -/
def modify (f : VM → VM) : M Unit := fun s => .ok () (f s)

/-- A value that must be there: `none` is undefined behaviour. -/
def need {α : Type} : Option α → M α
  | some a => M.pure a
  | Option.none => ub

/-- A value whose absence is reported as `e`. -/
def orErr {α : Type} (e : DlError) : Option α → M α
  | some a => M.pure a
  | Option.none => throw e

end M

section simp
variable {α β : Type}

@[simp] theorem M.pure_run (a : α) (s : VM) : (pure a : M α) s = .ok a s := rfl
theorem M.bind_run (m : M α) (f : α → M β) (s : VM) :
    (m >>= f) s = match m s with
      | .ok a s' => f a s'
      | .err e s' => .err e s'
      | .ub => .ub
      | .diverge => .diverge := rfl
@[simp] theorem M.throw_run (e : DlError) (s : VM) : (M.throw e : M α) s = .err e s := rfl
@[simp] theorem M.ub_run (s : VM) : (M.ub : M α) s = .ub := rfl
@[simp] theorem M.diverge_run (s : VM) : (M.diverge : M α) s = .diverge := rfl
@[simp] theorem M.get_run (s : VM) : M.get s = .ok s s := rfl
@[simp] theorem M.set_run (s t : VM) : M.set t s = .ok () t := rfl
@[simp] theorem M.modify_run (f : VM → VM) (s : VM) : M.modify f s = .ok () (f s) := rfl
@[simp] theorem M.need_some (a : α) (s : VM) : M.need (some a) s = .ok a s := rfl
@[simp] theorem M.need_none (s : VM) : M.need (Option.none : Option α) s = .ub := rfl
@[simp] theorem M.orErr_some (e : DlError) (a : α) (s : VM) :
    M.orErr e (some a) s = .ok a s := rfl
@[simp] theorem M.orErr_none (e : DlError) (s : VM) :
    M.orErr e (Option.none : Option α) s = .err e s := rfl

theorem M.bind_ok {m : M α} {f : α → M β} {s s' : VM} {a : α} (h : m s = .ok a s') :
    (m >>= f) s = f a s' := by simp [M.bind_run, h]
theorem M.bind_err {m : M α} {f : α → M β} {s s' : VM} {e : DlError} (h : m s = .err e s') :
    (m >>= f) s = .err e s' := by simp [M.bind_run, h]
theorem M.bind_ub {m : M α} {f : α → M β} {s : VM} (h : m s = .ub) :
    (m >>= f) s = .ub := by simp [M.bind_run, h]

/-- A sequence finishes only if both halves do. -/
theorem M.bind_eq_ok {m : M α} {f : α → M β} {s t : VM} {b : β} :
    (m >>= f) s = .ok b t ↔ ∃ a s', m s = .ok a s' ∧ f a s' = .ok b t := by
  rw [M.bind_run]
  cases h : m s with
  | ok a s' =>
    constructor
    · intro h'; exact ⟨a, s', rfl, h'⟩
    · rintro ⟨a', s'', h1, h2⟩
      cases h1
      exact h2
  | err e s' => simp
  | ub => simp
  | diverge => simp

end simp

end DuckLisp.VM
