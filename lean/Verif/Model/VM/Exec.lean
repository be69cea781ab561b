import Verif.Model.VM.Heap
import Verif.Model.VM.Decode
import Verif.Model.VM.Float
import Verif.Model.DlString

/-!
# Execution of instructions

Models /repo/duckVM.c:494-742 (stacks, globals, cycle check, preparing a call), 745-4635
(`duckVM_executeInstruction`, all implemented opcodes), 4637-4675 (`duckVM_executeWithIp`,
`duckVM_execute`), 4677-4697 (`duckVM_linkCFunction`) and 5158-5234 (access to captured variables).

Simplifications: `malloc` succeeds; the error log is left out; the three or more copies that the C
code has of some instructions, one per operand size, are one definition (they were compared by eye
and agree); host callbacks are arbitrary VM operations; loops that C would run for ever are
recognised by a step count that no terminating run can reach, and yield `diverge`.
-/

namespace DuckLisp.VM

open DuckLisp

/-- What the machine needs from outside: floating point and the host's C callbacks. -/
structure Env where
  fl : FloatOps
  host : Nat → M Unit

/-! ### Casts -/

/-- Conversion to `dl_size_t`. -/
def toSize (z : Int) : Nat := (z % 2 ^ 64).toNat

/-- Conversion of a `dl_size_t` to `dl_ptrdiff_t`. -/
def toPtrdiffS (n : Nat) : Int := if n < 2 ^ 63 then (n : Int) else (n : Int) - 2 ^ 64

/-- A signed result: leaving the 64-bit range is undefined behaviour. -/
def ckInt (i : Int) : M Int :=
  if -(2 ^ 63) ≤ i ∧ i < 2 ^ 63 then pure i else M.ub

/-! ### Cells -/

/-- Read through a pointer to a cell. -/
def readCell (r : Ref) : M Obj := fun s => M.need s.heap[r]? s

/-- Write through a pointer to a cell. -/
def writeCell (r : Ref) (o : Obj) : M Unit := fun s =>
  if r < s.heap.length then .ok () { s with heap := s.heap.set r o } else .ub

/-- `*p`. -/
def deref (p : Option Ref) : M Obj := do
  let r ← M.need p
  readCell r

/-! ### The stacks -/

/-- /repo/duckVM.c:494-505 `stack_push`. -/
def push (o : Obj) : M Unit :=
  M.modify fun s => { s with stack := s.stack ++ [o], upStack := s.upStack ++ [Option.none] }

/-- `stack_push(duckVM, p)` with a pointer to a cell: a null pointer pushes a zeroed object
(/repo/DuckLib/array.c:65-80). -/
def pushPtr (p : Option Ref) : M Unit := do
  match p with
  | Option.none => push .none
  | some r => push (← readCell r)

/-- `dl_array_pushElement(&duckVM->stack, &object)` without the other stack. -/
def pushStackOnly (o : Obj) : M Unit := M.modify fun s => { s with stack := s.stack ++ [o] }

/-- `dl_array_pushElement(&duckVM->upvalue_stack, dl_null)`, then storing `u` in the new slot. -/
def pushUpOnly (u : Option Ref) : M Unit := M.modify fun s => { s with upStack := s.upStack ++ [u] }

/-- /repo/duckVM.c:508-519 `stack_pop`. -/
def popStack : M Obj := fun s =>
  match s.stack.getLast? with
  | Option.none => .err .bufferUnderflow s
  | some o =>
      let s' := { s with stack := s.stack.dropLast }
      match s'.upStack with
      | [] => .err .bufferUnderflow s'
      | _ => .ok o { s' with upStack := s'.upStack.dropLast }

/-- /repo/duckVM.c:521-532 `stack_pop_multiple`. -/
def popMany (n : Nat) : M Unit := fun s =>
  if s.upStack.length < n then .err .bufferUnderflow s
  else
    let s' := { s with upStack := s.upStack.take (s.upStack.length - n) }
    if s'.stack.length < n then .err .bufferUnderflow s'
    else .ok () { s' with stack := s'.stack.take (s'.stack.length - n) }

/-- Index of stack operand `a` in a stack of the given height: `length - a` if that is a valid
index. -/
def argIndex (length a : Nat) : Option Nat := if 0 < a ∧ a ≤ length then some (length - a) else Option.none

/-- `dl_array_get(&duckVM->stack, &object, duckVM->stack.elements_length - a)`. -/
def getArg (a : Nat) : M Obj := fun s =>
  match (argIndex s.stack.length a).bind (fun i => s.stack[i]?) with
  | some o => .ok o s
  | Option.none => .err .invalidValue s

/-- `dl_array_set(&duckVM->stack, &object, duckVM->stack.elements_length - a)`. -/
def setArg (a : Nat) (o : Obj) : M Unit := fun s =>
  match argIndex s.stack.length a with
  | some i => .ok () { s with stack := s.stack.set i o }
  | Option.none => .err .invalidValue s

/-- `DL_ARRAY_GETADDRESS(duckVM->stack, duckVM_object_t, i)` read without a check. -/
def stackAt (i : Int) : M Obj := fun s =>
  if 0 ≤ i then M.need s.stack[i.toNat]? s else .ub

/-- `DL_ARRAY_GETADDRESS(duckVM->stack, duckVM_object_t, i) = o` without a check. -/
def setStackAt (i : Int) (o : Obj) : M Unit := fun s =>
  if 0 ≤ i ∧ i.toNat < s.stack.length then .ok () { s with stack := s.stack.set i.toNat o } else .ub

/-- Height of the stack. -/
def height : M Nat := fun s => .ok s.stack.length s

/-- /repo/duckVM.c:552-571 `call_stack_push`. -/
def pushFrame (f : Frame) (u : UpArray) : M Unit :=
  M.modify fun s => { s with callStack := s.callStack ++ [f], upArrays := s.upArrays ++ [u] }

/-- /repo/duckVM.c:573-588 `call_stack_pop`.  The caller's `bytecode` is a local variable that is
not used again.  `none`: the call stack is empty. -/
def popFrame : M (Option CodePtr) := fun s =>
  match s.callStack.getLast? with
  | Option.none => .ok Option.none s
  | some f =>
      let s' := { s with callStack := s.callStack.dropLast }
      match s'.upArrays with
      | [] => .ok Option.none s'
      | _ => .ok (some f.ip) { s' with upArrays := s'.upArrays.dropLast }

/-! ### Globals -/

/-- /repo/duckVM.c:590-599 `duckVM_global_get`. -/
def globalGet (key : Int) : M (Option Ref) := fun s =>
  match s.globals.find? (fun kv => kv.1 == key) with
  | some kv => .ok kv.2 s
  | Option.none => .err .invalidValue s

/-- The search of `duckVM_global_set`: replace the first binding or append a new one. -/
def setAssoc (key : Int) (p : Option Ref) : List (Int × Option Ref) → List (Int × Option Ref)
  | [] => [(key, p)]
  | kv :: rest => if kv.1 = key then (kv.1, p) :: rest else kv :: setAssoc key p rest

/-- /repo/duckVM.c:601-616 `duckVM_global_set`. -/
def globalSet (p : Option Ref) (key : Int) : M Unit :=
  M.modify fun s => { s with globals := setAssoc key p s.globals }

/-! ### Lists -/

/-- The condition of the loop at /repo/duckVM.c:627: the pointer after `fast`, if `fast` is a cons
whose cdr is not null. -/
def nextCons (heap : List Obj) (r : Ref) : Option (Option Ref) :=
  match heap[r]? with
  | some (.cons _ d) => some d
  | some _ => some Option.none
  | Option.none => Option.none

/-- The loop of Brent's algorithm, /repo/duckVM.c:627-636. -/
def brent (heap : List Obj) : Nat → (slow fast : Ref) → (taken limit : Nat) → M Bool
  | 0, _, _, _, _ => M.diverge
  | fuel + 1, slow, fast, taken, limit =>
      match nextCons heap fast with
      | Option.none => M.ub
      | some Option.none => pure false
      | some (some next) =>
          if slow = next then pure true
          else if taken + 1 = limit then brent heap fuel next next 0 (limit * 2)
          else brent heap fuel slow next (taken + 1) limit

/-- /repo/duckVM.c:620-638 `duckVM_listIsCyclic`.  The counters are C `int`s, which the model does
not bound (they stay below four times the number of cells).  The step count is enough for any heap:
see `brent_total`. -/
def listIsCyclic (p : Option Ref) : M Bool := fun s =>
  match p with
  | Option.none => .ok false s
  | some r => brent s.heap (4 * s.heap.length + 4) r r 0 2 s

/-- The counting loop of `length`, /repo/duckVM.c:4134-4141. -/
def countConses (heap : List Obj) : Nat → Option Ref → M Nat
  | _, Option.none => pure 0
  | 0, some _ => M.diverge
  | fuel + 1, some r =>
      match heap[r]? with
      | Option.none => M.ub
      | some (.cons _ d) => do return 1 + (← countConses heap fuel d)
      | some _ => pure 0

/-! ### Captured variables -/

/-- Element `j` of an array of captured variables held by value: no bounds check, and the block
must still be there. -/
def upvalueAt (u : UpArray) (j : Nat) : M (Option Ref) := fun s =>
  match u.block with
  | Option.none => .ub
  | some (r, serial) =>
      match s.heap[r]? with
      | some (.upvalueArray (some blk) _) =>
          if blk.serial = serial then M.need blk.ups[j]? s else .ub
      | _ => .ub

/-- Follow a chain of captured variables to the end, /repo/duckVM.c:5163-5178 and 1323-1325.
`onNull` and `onOther` say what happens at a null pointer and at a cell that is not a captured
variable. -/
def chase (onNull onOther : M Upvalue) : Nat → Option Ref → M Upvalue
  | 0, _ => M.diverge
  | _ + 1, Option.none => onNull
  | fuel + 1, some r => do
      match ← readCell r with
      | .upvalue (.heapUpvalue u) => chase onNull onOther fuel u
      | .upvalue u => pure u
      | _ => onOther

/-- Step count for `chase`: longer chains are cycles. -/
def chaseFuel : M Nat := fun s => .ok (s.heap.length + 1) s

/-- `dl_array_get` on the stack with an absolute index. -/
def getAbs (i : Int) : M Obj := fun s =>
  if 0 ≤ i then M.orErr .invalidValue s.stack[i.toNat]? s else .err .invalidValue s

/-- `dl_array_set` on the stack with an absolute index. -/
def setAbs (i : Int) (o : Obj) : M Unit := fun s =>
  if 0 ≤ i ∧ i.toNat < s.stack.length then .ok () { s with stack := s.stack.set i.toNat o }
  else .err .invalidValue s

/-- The innermost function's captured variables: `dl_array_getTop` of the stack of arrays. -/
def topUpArray (onEmpty : M UpArray) : M UpArray := fun s =>
  match s.upArrays.getLast? with
  | some u => .ok u s
  | Option.none => onEmpty s

/-- /repo/duckVM.c:957-997 `push-upvalue` with 5155-5190 `duckVM_upvalueArray_getUpvalue`. -/
def iPushUpvalue (j : Nat) : M Unit := do
  let u ← topUpArray (M.throw .bufferUnderflow)
  let p ← upvalueAt u j
  match ← chase (M.throw .nullPointer) (M.throw .invalidValue) (← chaseFuel) p with
  | .stackIndex i => push (← getAbs i)
  | .heapObject o => push (← deref o)
  | .heapUpvalue _ => M.ub

/-- /repo/duckVM.c:1284-1336 `set-upvalue`. -/
def iSetUpvalue (j a : Nat) : M Unit := do
  let o ← getArg a
  let u ← topUpArray M.ub
  let p ← upvalueAt u j
  match ← chase M.ub M.ub (← chaseFuel) p with
  | .stackIndex i => setAbs i o
  | .heapObject h => do
      let r ← M.need h
      writeCell r o
  | .heapUpvalue _ => M.ub

/-- The write `upvalueArray.upvalues[k] = upvalue_pointer` through the array of the closure being
built. -/
def setCapture (cell : Ref) (k : Nat) (u : Option Ref) : M Unit := do
  match ← readCell cell with
  | .upvalueArray (some blk) n =>
      if k < blk.ups.length then writeCell cell (.upvalueArray (some { blk with ups := blk.ups.set k u }) n)
      else M.ub
  | _ => M.ub

/-- One captured variable of a new closure, /repo/duckVM.c:1079-1178.  Returns whether it was the
closure itself. -/
def capture (v : Nat) : M (Option Ref × Bool) := do
  if v > 0x7FFFFFFF then
    -- a variable captured by the running function
    let u ← topUpArray M.ub
    let link ← upvalueAt u (0x100000000 - v - 1)
    let r ← pushObject (.upvalue (.heapUpvalue link))
    return (some r, false)
  else
    let s ← M.get
    let idx : Int := (s.stack.length - 1 : Int) - v
    if idx < 0 ∨ (s.upStack.length : Int) < idx then M.throw .invalidValue
    else if idx.toNat = s.upStack.length then
      -- the closure that is being built
      match pushObject (.upvalue (.stackIndex idx)) s with
      | .ok r s' => do
          M.set s'
          pushUpOnly (some r)
          return (some r, true)
      | .err _ s' => do
          M.set s'
          M.throw .shouldntHappen
      | .ub => M.ub
      | .diverge => M.diverge
    else
      match s.upStack[idx.toNat]? with
      | Option.none => M.throw .invalidValue
      | some Option.none => do
          let r ← pushObject (.upvalue (.stackIndex idx))
          M.modify fun s => { s with upStack := s.upStack.set idx.toNat (some r) }
          return (some r, false)
      | some (some r) => do
          match ← readCell r with
          | .upvalue _ => return (some r, false)
          | _ => M.throw .shouldntHappen

/-- The loop over the captured variables, /repo/duckVM.c:1079-1178.  Returns whether the closure
captured itself. -/
def captures (cell : Ref) : Nat → List Nat → Bool → M Bool
  | _, [], recursive => pure recursive
  | k, v :: vs, recursive => do
      let (p, self) ← capture v
      setCapture cell k p
      captures cell (k + 1) vs (recursive || self)

/-- The start of the block of code `bc`, if its cell holds code: serial number of the block. -/
def codeSerial (bc : Ref) : M Nat := fun s =>
  match s.heap[bc]? with
  | some (.bytecode (some b) _) => .ok b.serial s
  | _ => .ub

/-- /repo/duckVM.c:999-1198 `push-closure` and `push-va-closure`.  `bc` is the chunk that was
started, `start` the address of the instruction.  Subtracting the start of `bc` from a pointer into
other code is undefined. -/
def iPushClosure (bc : Ref) (start : CodePtr) (variadic : Bool) (base : Nat) (disp : Int)
    (arity : UInt8) (vs : List Nat) : M Unit := do
  let serial ← codeSerial bc
  if start.cell = bc ∧ start.serial = serial then
    let cell ← pushObject (.upvalueArray Option.none vs.length)
    let closure := Obj.closure (disp + (start.off + base)) (some bc) (some cell) arity variadic
    pushStackOnly closure
    let recursive ← captures cell 0 vs false
    if !recursive then pushUpOnly Option.none
    let n ← height
    setStackAt (n - 1) closure
  else M.ub

/-- One slot of `release-upvalues`, /repo/duckVM.c:1241-1278.  Returns whether the loop goes on. -/
def release1 (a : Nat) : M Bool := do
  let s ← M.get
  if s.stack.length < a then M.throw .invalidValue
  else
    let idx := s.stack.length - a
    match ← M.need s.upStack[idx]? with
    | Option.none => return true
    | some u => do
        match ← readCell u with
        | .upvalue _ => do
            let o ← stackAt idx
            let r ← pushObject o
            writeCell u (.upvalue (.heapObject (some r)))
            setStackAt idx .nil
            M.modify fun s => { s with upStack := s.upStack.set idx Option.none }
            return true
        | _ => return false

/-- /repo/duckVM.c:1238-1282 `release-upvalues`. -/
def iReleaseUpvalues : List Nat → M Unit
  | [] => pure ()
  | a :: as => do
      if ← release1 a then iReleaseUpvalues as

/-! ### Calls -/

/-- The loop that replaces a composite by its function part, /repo/duckVM.c:649-651 and
1423-1425. -/
def unwrap : Nat → Obj → M Obj
  | 0, _ => M.diverge
  | fuel + 1, .composite c => do
      match ← deref c with
      | .internalComposite _ _ f => unwrap fuel (← deref f)
      | _ => M.ub
  | _ + 1, o => pure o

/-- Step count for `unwrap`: longer chains are cycles. -/
def unwrapFuel : M Nat := fun s => .ok (s.heap.length + 2) s

/-- The loop that builds the list of surplus arguments, /repo/duckVM.c:687-714 and 1479-1506: `n`
more arguments, argument `k` next, `last` the list so far. -/
def restLoop : (k n : Nat) → (last : Option Ref) → M (Option Ref)
  | _, 0, last => pure last
  | k, n + 1, last => do
      let h ← height
      let o ← stackAt (h - 3 - k)
      let p ← pushObject o
      let h ← height
      setStackAt (h - 1) (.list (some p))
      let c ← pushObject (.cons (some p) last)
      let h ← height
      setStackAt (h - 2) (.list (some c))
      restLoop (k + 1) n (some c)

/-- Collect `n` surplus arguments into a list that ends in `tail` and put it in their place,
/repo/duckVM.c:674-727 and 1461-1520. -/
def collectRest (n : Nat) (tail : Option Ref) : M Unit := do
  push (.list tail)
  push .nil
  let last ← restLoop 0 n tail
  let _ ← popStack
  let h ← height
  setStackAt (h - 1 - n) (.list last)
  popMany n

/-- /repo/duckVM.c:641-742 `duckVM_instruction_prepareForFuncall`: returns the function to call. -/
def prepareForFuncall (f : Obj) (n : Nat) : M Obj := do
  let f ← unwrap (← unwrapFuel) f
  match f with
  | .function _ => return f
  | .closure _ _ _ arity variadic =>
      if variadic then
        if n < arity.toNat then M.throw .invalidValue
        else do
          collectRest (n - arity.toNat) Option.none
          return f
      else if arity.toNat ≠ n then M.throw .invalidValue
      else return f
  | _ => M.throw .invalidValue

/-- The captured variables of a closure as copied to the call stack
(`&object1.value.closure.upvalue_array->value.upvalue_array`). -/
def captureArray (p : Option Ref) : M UpArray := do
  let r ← M.need p
  match ← readCell r with
  | .upvalueArray Option.none n => return ⟨Option.none, n⟩
  | .upvalueArray (some blk) n => return ⟨some (r, blk.serial), n⟩
  | _ => M.ub

/-- Transfer control to a closure, /repo/duckVM.c:1404-1409 and 1536-1540. -/
def enter (bc : Ref) (next : CodePtr) (name : Int) (code ups : Option Ref) : M CodePtr := do
  let u ← captureArray ups
  pushFrame ⟨next, some bc⟩ u
  let r ← M.need code
  let serial ← codeSerial r
  return ⟨r, serial, name⟩

/-- /repo/duckVM.c:1373-1409 `funcall`.  Returns where execution goes on. -/
def iFuncall (env : Env) (bc : Ref) (next : CodePtr) (a n : Nat) : M CodePtr := do
  let f ← getArg a
  let f ← prepareForFuncall f n
  match f with
  | .function cb => do
      env.host cb
      return next
  | .closure name code ups _ _ => enter bc next name code ups
  | _ => M.throw .invalidValue

/-- Spread the list over the remaining parameters, /repo/duckVM.c:1440-1463: returns the number of
arguments and what is left of the list. -/
def spread (arity : Nat) : (todo n : Nat) → Option Ref → M (Nat × Option Ref)
  | 0, n, rest => pure (n, rest)
  | todo + 1, n, rest =>
      if n < arity then
        match rest with
        | Option.none => pure (n, Option.none)
        | some r => do
            match ← readCell r with
            | .cons car cdr => do
                match car with
                | Option.none => push .nil
                | some c =>
                    match ← readCell c with
                    | .cons _ _ => push (.list (some c))
                    | o => push o
                spread arity todo (n + 1) cdr
            | _ => M.throw .invalidValue
      else pure (n, rest)

/-- /repo/duckVM.c:1411-1540 `apply`.  Returns where execution goes on. -/
def iApply (bc : Ref) (next : CodePtr) (a n : Nat) : M CodePtr := do
  let f ← getArg a
  let f ← unwrap (← unwrapFuel) f
  match f with
  | .closure name code ups arity variadic => do
      match ← popStack with
      | .list rest => do
          let (n, rest) ← spread arity.toNat arity.toNat n rest
          if variadic then
            if n < arity.toNat then M.throw .invalidValue
            else collectRest (n - arity.toNat) rest
          else if arity.toNat ≠ n then M.throw .invalidValue
          else pure ()
          enter bc next name code ups
      | _ => M.throw .invalidValue
  | _ => M.throw .invalidValue

/-- /repo/duckVM.c:1582-1608 `c-call`: the global is called without looking at its type. -/
def iCcall (env : Env) (key : Nat) : M Unit := do
  match ← deref (← globalGet key) with
  | .function cb => env.host cb
  | _ => M.ub

/-! ### Truth -/

/-- `offset < internal_vector->length`, where the vector's storage must be a vector. -/
def vectorInRange (p : Option Ref) (off : Int) : M Bool := do
  match p with
  | Option.none => return false
  | some r =>
      match ← readCell r with
      | .internalVector _ n _ => return toSize off < n
      | _ => M.ub

/-- /repo/duckVM.c:1671-1698: whether a conditional jump is taken. -/
def truthy : Obj → M Bool
  | .bool b => pure (b ≠ 0)
  | .integer i => pure (i ≠ 0)
  | .float x => pure (!Float64.isZero x)
  | .symbol _ _ => pure true
  | .list p => pure p.isSome
  | .closure .. => pure true
  | .function _ => pure true
  | .string .. => pure true
  | .vector p off => vectorInRange p off
  | _ => pure false

/-- A C truth value. -/
def cBool (b : Bool) : UInt8 := if b then 1 else 0

/-- /repo/duckVM.c:1773-1799: the value pushed by `not`. -/
def notValue : Obj → M Obj
  | .vector p _ => pure (.bool (cBool p.isNone))
  | .list p => pure (.bool (cBool p.isNone))
  | .integer i => pure (.integer (if i = 0 then 1 else 0))
  | .float x => pure (.float (if Float64.isZero x then Float64.one else Float64.zero))
  | .bool b => pure (.bool (cBool (b = 0)))
  | _ => M.throw .invalidValue

/-! ### Arithmetic and comparison -/

/-- Integer arithmetic: overflow and division by zero are undefined. -/
def intArith : Arith → Int → Int → M Int
  | .mul, x, y => ckInt (x * y)
  | .div, x, y => if y = 0 then M.ub else ckInt (x.tdiv y)
  | .add, x, y => ckInt (x + y)
  | .sub, x, y => ckInt (x - y)

/-- Arithmetic of two booleans: `unsigned char`, so the result is truncated to 8 bits. -/
def boolArith : Arith → UInt8 → UInt8 → M UInt8
  | .mul, x, y => pure (x * y)
  | .div, x, y => if y = 0 then M.ub else pure (x / y)
  | .add, x, y => pure (x + y)
  | .sub, x, y => pure (x - y)

/-- Floating point arithmetic. -/
def floatArith (fl : FloatOps) : Arith → UInt64 → UInt64 → UInt64
  | .mul => fl.mul
  | .div => fl.div
  | .add => fl.add
  | .sub => fl.sub

/-- /repo/duckVM.c:1818-1873 (`mul`, and the same for the other operations and sizes). -/
def arithValue (fl : FloatOps) (op : Arith) : Obj → Obj → M Obj
  | .float x, .float y => pure (.float (floatArith fl op x y))
  | .float x, .integer y => pure (.float (floatArith fl op x (fl.ofInt y)))
  | .float x, .bool y => pure (.float (floatArith fl op x (fl.ofInt y.toNat)))
  | .integer x, .float y => pure (.float (floatArith fl op (fl.ofInt x) y))
  | .integer x, .integer y => do return .integer (← intArith op x y)
  | .integer x, .bool y => do return .integer (← intArith op x y.toNat)
  | .bool x, .float y => pure (.float (floatArith fl op (fl.ofInt x.toNat) y))
  | .bool x, .integer y => do return .integer (← intArith op x.toNat y)
  | .bool x, .bool y => do return .bool (← boolArith op x y)
  | _, _ => M.throw .invalidValue

/-- /repo/duckVM.c:2575-2624 (`greater`) and 2903-2952 (`less`): `lt x y` on integers and on
doubles. -/
def lessValue (fl : FloatOps) : Obj → Obj → M Bool
  | .float x, .float y => pure (Float64.lt x y)
  | .float x, .integer y => pure (Float64.lt x (fl.ofInt y))
  | .float x, .bool y => pure (Float64.lt x (fl.ofInt y.toNat))
  | .integer x, .float y => pure (Float64.lt (fl.ofInt x) y)
  | .integer x, .integer y => pure (x < y)
  | .integer x, .bool y => pure (x < (y.toNat : Int))
  | .bool x, .float y => pure (Float64.lt (fl.ofInt x.toNat) y)
  | .bool x, .integer y => pure ((x.toNat : Int) < y)
  | .bool x, .bool y => pure (x < y)
  | _, _ => M.throw .invalidValue

/-- /repo/duckVM.c:2575-2624 `greater`: the same table with `>`. -/
def greaterValue (fl : FloatOps) : Obj → Obj → M Bool
  | .float x, .float y => pure (Float64.lt y x)
  | .float x, .integer y => pure (Float64.lt (fl.ofInt y) x)
  | .float x, .bool y => pure (Float64.lt (fl.ofInt y.toNat) x)
  | .integer x, .float y => pure (Float64.lt y (fl.ofInt x))
  | .integer x, .integer y => pure (y < x)
  | .integer x, .bool y => pure ((y.toNat : Int) < x)
  | .bool x, .float y => pure (Float64.lt y (fl.ofInt x.toNat))
  | .bool x, .integer y => pure (y < (x.toNat : Int))
  | .bool x, .bool y => pure (y < x)
  | _, _ => M.throw .invalidValue

/-- `n` bytes from `off` of the storage of a string; reading outside the storage is undefined. -/
def stringBytes (p : Option Ref) (off : Int) (n : Nat) : M Bytes := do
  match ← deref p with
  | .internalString v _ =>
      if n = 0 then return []
      else do
        let bytes ← M.need v
        if 0 ≤ off ∧ off.toNat + n ≤ bytes.length then return (bytes.drop off.toNat).take n
        else M.ub
  | _ => M.ub

/-- Number of bytes of a string object: `length - offset` in `dl_size_t`. -/
def stringSize (off : Int) (len : Nat) : Nat := toSize ((len : Int) - off)

/-- /repo/duckVM.c:2791-2880: the value pushed by `equal`. -/
def equalValue : Obj → Obj → M Bool
  | .list p, .list q => pure (p = q)
  | .list _, _ => pure false
  | .symbol i _, .symbol j _ => pure (i = j)
  | .symbol _ _, _ => pure false
  | .string p off len, .string p' off' len' =>
      if stringSize off len = 0 ∧ stringSize off' len' = 0 then pure true
      else if stringSize off len = 0 ∨ stringSize off' len' = 0 then pure false
      else do
        let a ← stringBytes p off (stringSize off len)
        let b ← stringBytes p' off' (stringSize off' len')
        match DlString.compare a b with
        | .ok r => return r
        | _ => M.ub
  | .string _ _ _, _ => pure false
  | .float x, .float y => pure (Float64.eq x y)
  | .float _, _ => pure false
  | .integer x, .integer y => pure (x = y)
  | .integer _, _ => pure false
  | .bool x, .bool y => pure (x = y)
  | .bool _, _ => pure false
  | .vector p off, .vector q off' => pure (decide (p = q) && decide (off = off'))
  | .vector _ _, _ => pure false
  | .type t, .type t' => pure (t = t')
  | .type _, _ => pure false
  | _, _ => M.throw .invalidValue

/-! ### Pairs, vectors and strings -/

/-- A value as a part of a cons: a list is its pointer, anything else is copied to a new cell
(/repo/duckVM.c:3128-3143, 3726-3734, 3782-3790). -/
def part (o : Obj) : M (Option Ref) := do
  match o with
  | .list p => return p
  | o => return some (← pushObject o)

/-- `p->value.cons.car = x`: the cell must be a cons. -/
def setCarCell (r : Ref) (x : Option Ref) : M Unit := do
  match ← readCell r with
  | .cons _ d => writeCell r (.cons x d)
  | _ => M.ub

/-- `p->value.cons.cdr = x`: the cell must be a cons. -/
def setCdrCell (r : Ref) (x : Option Ref) : M Unit := do
  match ← readCell r with
  | .cons a _ => writeCell r (.cons a x)
  | _ => M.ub

/-- /repo/duckVM.c:3090-3146 `cons`. -/
def iCons (a b : Nat) : M Unit := do
  let o1 ← getArg a
  let o2 ← getArg b
  let r ← pushObject (.cons Option.none Option.none)
  push (.list (some r))
  setCarCell r (← part o1)
  setCdrCell r (← part o2)
  let n ← height
  setStackAt (n - 1) (.list (some r))

/-- `values[k] = p` in the storage of a vector. -/
def setSlot (r : Ref) (k : Nat) (p : Ref) : M Unit := do
  match ← readCell r with
  | .internalVector (some vs) n i =>
      if k < vs.length then writeCell r (.internalVector (some (vs.set k (.ptr (some p)))) n i) else M.ub
  | _ => M.ub

/-- `initialized = dl_true`. -/
def setInitialized (r : Ref) : M Unit := do
  match ← readCell r with
  | .internalVector vs n _ => writeCell r (.internalVector vs n true)
  | _ => M.ub

/-- The loop of `vector`, /repo/duckVM.c:3170-3204. -/
def vectorLoop (r : Ref) : Nat → List Nat → M Unit
  | _, [] => pure ()
  | k, a :: as => do
      let h ← height
      if h - 1 < a then M.throw .invalidValue
      else do
        let o ← getAbs ((h - 1 : Nat) - a)
        let p ← pushObject o
        setSlot r k p
        vectorLoop r (k + 1) as

/-- /repo/duckVM.c:3148-3212 `vector`. -/
def iVector (as : List Nat) : M Unit := do
  let r ← pushObject (.internalVector Option.none as.length false)
  pushStackOnly (.vector (some r) 0)
  vectorLoop r 0 as
  pushUpOnly Option.none
  setInitialized r
  let n ← height
  setStackAt (n - 1) (.vector (some r) 0)

/-- The fill loop of `make-vector`, /repo/duckVM.c:3283-3285. -/
def fillSlots (r p : Ref) : M Unit := do
  match ← readCell r with
  | .internalVector (some vs) n i =>
      if n ≤ vs.length then
        writeCell r (.internalVector (some (List.replicate n (.ptr (some p)) ++ vs.drop n)) n i)
      else M.ub
  | .internalVector Option.none n _ => if n = 0 then pure () else M.ub
  | _ => M.ub

/-- /repo/duckVM.c:3214-3296 `make-vector`.  `length * sizeof(duckVM_object_t *)`
(/repo/DuckLib/memory.h:64) wraps around from 2^61 elements on, after which the elements are written
outside the storage; from 2^60 on `malloc` must fail.  The model does not tell these two apart. -/
def iMakeVector (a b : Nat) : M Unit := do
  match ← getArg a with
  | .integer size =>
      if size < 0 then M.throw .invalidValue
      else if 2 ^ 60 ≤ size then M.ub
      else do
        let o ← getArg b
        let r ← pushObject (.internalVector Option.none size.toNat false)
        pushStackOnly (.vector (some r) 0)
        let p ← pushObject o
        fillSlots r p
        pushUpOnly Option.none
        setInitialized r
        let n ← height
        setStackAt (n - 1) (.vector (some r) 0)
  | _ => M.throw .invalidValue

/-- Storage of a vector: elements and length. -/
def vectorStorage (p : Option Ref) : M (Option (List Slot) × Nat) := do
  match ← deref p with
  | .internalVector vs n _ => return (vs, n)
  | _ => M.ub

/-- `*values[i]`. -/
def slotValue (vs : Option (List Slot)) (i : Int) : M Obj := do
  let slots ← M.need vs
  if 0 ≤ i then
    match ← M.need slots[i.toNat]? with
    | .uninit => M.ub
    | .ptr p => deref p
  else M.ub

/-- `string[i]` as an integer object. -/
def byteValue (p : Option Ref) (i : Int) : M Obj := do
  match ← stringBytes p i 1 with
  | [b] => return .integer b.toNat
  | _ => M.ub

/-- /repo/duckVM.c:3298-3395 `get-vec-elt`. -/
def iGetVecElt (a b : Nat) : M Unit := do
  match ← getArg a with
  | .vector p off => do
      match ← getArg b with
      | .integer i =>
          if i < 0 then M.throw .invalidValue
          else do
            let (vs, n) ← vectorStorage p
            let j ← ckInt (i + off)
            if toSize j ≥ n then M.throw .invalidValue
            else push (← slotValue vs j)
      | _ => M.throw .invalidValue
  | .string p off len => do
      match ← getArg b with
      | .integer i =>
          if i < 0 ∨ toSize i ≥ stringSize off len then M.throw .invalidValue
          else do
            let j ← ckInt (off + i)
            push (← byteValue p j)
      | _ => M.throw .invalidValue
  | _ => M.throw .invalidValue

/-- /repo/duckVM.c:3397-3490 `set-vec-elt`. -/
def iSetVecElt (a b c : Nat) : M Unit := do
  match ← getArg a with
  | .vector p off => do
      match ← getArg b with
      | .integer i => do
          let o ← getArg c
          let (_, n) ← vectorStorage p
          let j ← ckInt (i + off)
          if toSize j ≥ n then M.throw .invalidValue
          else do
            let q ← pushObject o
            let r ← M.need p
            setSlot r (toSize j) q
            push o
      | _ => M.throw .invalidValue
  | _ => M.throw .invalidValue

/-- A pointer as the value of `car` or `cdr`: null is the empty list, a cons is a list, anything
else is the object (/repo/duckVM.c:3511-3526, 3619-3634). -/
def partValue : Option Ref → M Obj
  | Option.none => pure .nil
  | some r => do
      match ← readCell r with
      | .cons _ _ => return .list (some r)
      | o => return o

/-- /repo/duckVM.c:3504-3594: the value pushed by `cdr`. -/
def cdrValue : Obj → M Obj
  | .list Option.none => pure .nil
  | .list (some r) => do
      match ← readCell r with
      | .cons _ d => partValue d
      | _ => M.throw .shouldntHappen
  | .vector Option.none _ => pure (.vector Option.none 0)
  | .vector (some r) off => do
      match ← readCell r with
      | .internalVector _ n _ =>
          if n = 0 ∨ toSize off ≥ n - 1 then return .vector Option.none 0
          else return .vector (some r) (← ckInt (off + 1))
      | _ => M.throw .invalidValue
  | .string Option.none _ _ => pure (.string Option.none 0 0)
  | .string (some r) off len => do
      match ← readCell r with
      | .internalString _ _ =>
          if len = 0 ∨ toSize off ≥ len - 1 then return .string Option.none 0 0
          else return .string (some r) (← ckInt (off + 1)) len
      | _ => M.throw .invalidValue
  | _ => M.throw .invalidValue

/-- /repo/duckVM.c:3612-3691: the value pushed by `car`. -/
def carValue : Obj → M Obj
  | .list Option.none => pure .nil
  | .list (some r) => do
      match ← readCell r with
      | .cons a _ => partValue a
      | _ => M.throw .shouldntHappen
  | .vector Option.none _ => pure (.vector Option.none 0)
  | .vector (some r) off => do
      match ← readCell r with
      | .internalVector vs n _ =>
          if n = 0 ∨ toSize off ≥ n then return .vector Option.none 0
          else slotValue vs off
      | _ => M.throw .invalidValue
  | .string Option.none _ _ => pure (.string Option.none 0 0)
  | .string (some r) off len => do
      match ← readCell r with
      | .internalString _ _ =>
          if len = 0 ∨ toSize off ≥ len then return .string Option.none 0 0
          else byteValue (some r) off
      | _ => M.throw .invalidValue
  | _ => M.throw .invalidValue

/-- /repo/duckVM.c:3697-3750 `set-car`: operand `a` is the value, `b` the target. -/
def iSetCar (a b : Nat) : M Unit := do
  let o1 ← getArg a
  let o2 ← getArg b
  match o2 with
  | .list (some r) => do
      let x ← part o1
      setCarCell r x
      push o2
  | .vector (some r) off => do
      let p ← pushObject o1
      if 0 ≤ off then
        setSlot r off.toNat p
        push o2
      else M.ub
  | _ => M.throw .invalidValue

/-- `internal_vector->length = n`. -/
def setVectorLength (r : Ref) (n : Nat) : M Unit := do
  match ← readCell r with
  | .internalVector vs _ i => writeCell r (.internalVector vs n i)
  | _ => M.ub

/-- /repo/duckVM.c:3753-3807 `set-cdr`: operand `a` is the value, `b` the target. -/
def iSetCdr (a b : Nat) : M Unit := do
  let o1 ← getArg a
  let o2 ← getArg b
  match o2 with
  | .list (some r) => do
      let x ← part o1
      setCdrCell r x
      push o2
  | .vector (some r) off =>
      match o1 with
      | .vector Option.none _ => do
          setVectorLength r (toSize off)
          push o2
      | .list Option.none => do
          setVectorLength r (toSize off)
          push o2
      | _ => M.throw .invalidValue
  | _ => M.throw .invalidValue

/-- /repo/duckVM.c:3821-3837: the value pushed by `null?`. -/
def nullValue : Obj → M Bool
  | .list p => pure p.isNone
  | .vector p off => do return !(← vectorInRange p off)
  | .string p off len => pure (!(p.isSome && decide (toSize off < len)))
  | _ => pure false

/-- /repo/duckVM.h:166-195: position in `duckVM_object_type_t`. -/
def Obj.typeNumber : Obj → Nat
  | .none => 0
  | .bool _ => 1
  | .integer _ => 2
  | .float _ => 3
  | .string .. => 4
  | .list _ => 5
  | .symbol .. => 6
  | .function _ => 7
  | .closure .. => 8
  | .vector .. => 9
  | .type _ => 10
  | .composite _ => 11
  | .user .. => 12
  | .cons .. => 13
  | .upvalue _ => 14
  | .upvalueArray .. => 15
  | .internalVector .. => 16
  | .bytecode .. => 17
  | .internalComposite .. => 18
  | .internalString .. => 19

/-- /repo/duckVM.h:194 `duckVM_object_type_last`. -/
def typeLast : Nat := 20

/-- The parts of a composite. -/
def compositeParts (c : Option Ref) : M (Nat × Option Ref × Option Ref) := do
  match ← deref c with
  | .internalComposite t v f => return (t, v, f)
  | _ => M.ub

/-- /repo/duckVM.c:3851-3856: the value pushed by `type-of`. -/
def typeValue : Obj → M Obj
  | .composite c => do
      let (t, _, _) ← compositeParts c
      return .type t
  | o => pure (.type o.typeNumber)

/-- /repo/duckVM.c:3860-3865 `make-type`. -/
def iMakeType : M Unit := do
  let s ← M.get
  M.modify fun s => { s with nextUserType := s.nextUserType + 1 }
  push (.type s.nextUserType)

/-- `composite->value = p`. -/
def setCompositeValueCell (c : Option Ref) (p : Ref) : M Unit := do
  let r ← M.need c
  match ← readCell r with
  | .internalComposite t _ f => writeCell r (.internalComposite t (some p) f)
  | _ => M.ub

/-- `composite->function = p`. -/
def setCompositeFunctionCell (c : Option Ref) (p : Ref) : M Unit := do
  let r ← M.need c
  match ← readCell r with
  | .internalComposite t v _ => writeCell r (.internalComposite t v (some p))
  | _ => M.ub

/-- /repo/duckVM.c:3867-3981 `make-instance`. -/
def iMakeInstance (a b c : Nat) : M Unit := do
  match ← getArg a with
  | .type t =>
      if t < typeLast then M.throw .invalidValue
      else do
        let v ← getArg b
        let f ← getArg c
        let r ← pushObject (.internalComposite t Option.none Option.none)
        push (.composite (some r))
        setCompositeValueCell (some r) (← pushObject v)
        setCompositeFunctionCell (some r) (← pushObject f)
  | _ => M.throw .invalidValue

/-- /repo/duckVM.c:3983-4003 `composite-value`. -/
def iCompositeValue (a : Nat) : M Unit := do
  match ← getArg a with
  | .composite c => do
      let (_, v, _) ← compositeParts c
      pushPtr v
  | _ => M.throw .invalidValue

/-- /repo/duckVM.c:4005-4025 `composite-function`. -/
def iCompositeFunction (a : Nat) : M Unit := do
  match ← getArg a with
  | .composite c => do
      let (_, _, f) ← compositeParts c
      pushPtr f
  | _ => M.throw .invalidValue

/-- /repo/duckVM.c:4027-4068 `set-composite-value`. -/
def iSetCompositeValue (a b : Nat) : M Unit := do
  let o1 ← getArg a
  let o2 ← getArg b
  match o1 with
  | .composite c => do
      let p ← pushObject o2
      setCompositeValueCell c p
      push o1
  | _ => M.throw .invalidValue

/-- /repo/duckVM.c:4070-4111 `set-composite-function`. -/
def iSetCompositeFunction (a b : Nat) : M Unit := do
  let o1 ← getArg a
  let o2 ← getArg b
  match o1 with
  | .composite c => do
      let p ← pushObject o2
      setCompositeFunctionCell c p
      push o1
  | _ => M.throw .invalidValue

/-- /repo/duckVM.c:4123-4160: the value pushed by `length`. -/
def lengthValue : Obj → M Obj
  | .list p => do
      if ← listIsCyclic p then M.throw .invalidValue
      else do
        let s ← M.get
        return .integer (← countConses s.heap (s.heap.length + 1) p)
  | .vector Option.none _ => pure (.integer 0)
  | .vector (some r) off => do
      let (_, n) ← vectorStorage (some r)
      return .integer (toPtrdiffS (toSize ((n : Int) - off)))
  | .string _ off len => pure (.integer (toPtrdiffS (stringSize off len)))
  | _ => M.throw .invalidValue

/-- /repo/duckVM.c:4175-4190: the value pushed by `symbol-string`. -/
def symbolStringValue : Obj → M Obj
  | .symbol _ p => do
      match ← deref p with
      | .internalString _ n => return .string p 0 n
      | _ => M.ub
  | _ => M.throw .invalidValue

/-- The bytes of a vector of integers, /repo/duckVM.c:4237-4251: `n` elements from `i` on.  `none`:
some element is not an integer. -/
def vectorBytes (vs : Option (List Slot)) : (n i : Nat) → M (Option Bytes)
  | 0, _ => pure (some [])
  | n + 1, i => do
      match ← slotValue vs i with
      | .integer x => do
          match ← vectorBytes vs n (i + 1) with
          | some bs => return some (UInt8.ofInt x :: bs)
          | Option.none => return Option.none
      | _ => return Option.none

/-- The bytes of a list of integers, /repo/duckVM.c:4257-4296.  `none`: not a proper list of
integers. -/
def listBytes : Nat → Option Ref → M (Option Bytes)
  | 0, _ => M.diverge
  | _ + 1, Option.none => pure (some [])
  | fuel + 1, some r => do
      match ← readCell r with
      | .list p => listBytes fuel p
      | .cons car cdr => do
          match ← deref car with
          | .integer x => do
              match ← listBytes fuel cdr with
              | some bs => return some (UInt8.ofInt x :: bs)
              | Option.none => return Option.none
          | _ => return Option.none
      | _ => return Option.none

/-- Put a new string of the given bytes on the stack: /repo/duckVM.c:4308-4318, and
4798-4815 `duckVM_object_makeString`. -/
def newString (bytes : Bytes) : M Obj := do
  let r ← pushObject (.internalString (some bytes) bytes.length)
  return .string (some r) 0 bytes.length

/-- /repo/duckVM.c:4217-4320 `make-string`.  After an element that is not an integer the C code
goes on with a null pointer: for a vector it then copies from it; for a list it makes an empty
string and the error is forgotten. -/
def iMakeString (a : Nat) : M Unit := do
  match ← getArg a with
  | .vector p off => do
      let (vs, n) ← vectorStorage p
      if 0 ≤ off ∧ off.toNat ≤ n then
        match ← vectorBytes vs (n - off.toNat) off.toNat with
        | some bytes => push (← newString bytes)
        | Option.none => M.ub
      else M.ub
  | .list p => do
      let s ← M.get
      match ← listBytes (s.heap.length + 1) p with
      | some bytes => push (← newString bytes)
      | Option.none => push (← newString [])
  | _ => M.throw .invalidValue

/-- The bytes `concatenate` takes from one operand, /repo/duckVM.c:4393-4412: from the offset of the
string on, but as many as its end position. -/
def concatBytes : Obj → M Bytes
  | .string p off len => do
      let _ ← deref p
      stringBytes p off len
  | .symbol _ p => do
      match ← deref p with
      | .internalString _ n => stringBytes p 0 n
      | _ => M.ub
  | _ => M.throw .invalidValue

/-- /repo/duckVM.c:4322-4436 `concatenate`.  Simplification: `realloc` of a null pointer to a size of
0 succeeds (as with glibc); it fails from 2^63 bytes on. -/
def iConcatenate (a b : Nat) : M Unit := do
  let isText : Obj → Bool := fun
    | .string .. => true
    | .symbol .. => true
    | _ => false
  let o1 ← getArg a
  if !isText o1 then M.throw .invalidValue
  else do
    let o2 ← getArg b
    if !isText o2 then M.throw .invalidValue
    else do
      let x ← concatBytes o1
      let y ← concatBytes o2
      let o ← newString x
      match o with
      | .string (some r) _ _ => do
          if 2 ^ 63 ≤ x.length + y.length then M.throw .outOfMemory
          writeCell r (.internalString (some (x ++ y)) (x.length + y.length))
          push (.string (some r) 0 (x.length + y.length))
      | _ => M.ub

/-- /repo/duckVM.c:4438-4568 `substring`. -/
def iSubstring (a b c : Nat) : M Unit := do
  match ← getArg a with
  | .string p off len => do
      match ← getArg b with
      | .integer i =>
          if i < 0 ∨ toSize i > stringSize off len then M.throw .invalidValue
          else do
            match ← getArg c with
            | .integer j =>
                if j < 0 ∨ toSize j > stringSize off len then M.throw .invalidValue
                else if j < i then M.throw .invalidValue
                else do
                  let e ← ckInt (off + j)
                  let st ← ckInt (off + i)
                  push (.string p st (toSize e))
            | _ => M.throw .invalidValue
      | _ => M.throw .invalidValue
  | _ => M.throw .invalidValue

/-! ### The instructions -/

/-- Where execution goes on. -/
inductive Ctl where
  | goto (ip : CodePtr)
  | halt
deriving DecidableEq, Repr

/-- `push(f(stack operand))`. -/
def unary (a : Nat) (f : Obj → M Obj) : M Unit := do
  let o ← getArg a
  push (← f o)

/-- `push(f(two stack operands))`. -/
def binary (a b : Nat) (f : Obj → Obj → M Obj) : M Unit := do
  let x ← getArg a
  let y ← getArg b
  push (← f x y)

/-- A comparison pushes a boolean. -/
def boolValue (m : M Bool) : M Obj := do return .bool (cBool (← m))

/-- /repo/duckVM.c:838-864 `push-string`: if there is no memory the error is forgotten and a zeroed
object is pushed. -/
def iPushString (s : Bytes) : M Unit := fun vm =>
  match newString s vm with
  | .ok o vm' => push o vm'
  | .err _ vm' => push .none vm'
  | .ub => .ub
  | .diverge => .diverge

/-- The instructions that always go on with the next one. -/
def plain (env : Env) (bc : Ref) (start : CodePtr) : Instr → M Unit
  | .nop => pure ()                                                          -- 770-771
  | .pushSymbol id name => do                                                -- 799-809, 4826-4845
      let r ← pushObject (.internalString (some name) name.length)
      push (.symbol id (some r))
  | .pushStrippedSymbol id => push (.symbol id Option.none)                  -- 828-836
  | .pushString s => iPushString s
  | .pushBool b => push (.bool (cBool b))                                    -- 866-881
  | .pushInteger i => push (.integer i)                                      -- 907-914
  | .pushFloat x => push (.float x)                                          -- 926-933
  | .pushIndex a => unary a pure                                             -- 943-955
  | .pushUpvalue u => iPushUpvalue u
  | .pushClosure v b d ar us => iPushClosure bc start v b d ar us
  | .pushGlobal k => do pushPtr (← globalGet k)                              -- 1218-1236
  | .releaseUpvalues as => iReleaseUpvalues as
  | .setUpvalue u a => iSetUpvalue u a
  | .setGlobal a k => do                                                     -- 1362-1371
      let h ← height
      let o ← stackAt (h - a)
      let p ← pushObject o
      globalSet (some p) k
  | .ccall k => iCcall env k
  | .pop n => popMany n                                                      -- 1725-1727
  | .move a b => do setArg b (← getArg a)                                    -- 1754-1760
  | .not a => unary a notValue
  | .arith op a b => binary a b (arithValue env.fl op)
  | .equal a b => binary a b fun x y => boolValue (equalValue x y)
  | .greater a b => binary a b fun x y => boolValue (greaterValue env.fl x y)
  | .less a b => binary a b fun x y => boolValue (lessValue env.fl x y)
  | .cons a b => iCons a b
  | .vector as => iVector as
  | .makeVector a b => iMakeVector a b
  | .getVecElt a b => iGetVecElt a b
  | .setVecElt a b c => iSetVecElt a b c
  | .car a => unary a carValue
  | .cdr a => unary a cdrValue
  | .setCar a b => iSetCar a b
  | .setCdr a b => iSetCdr a b
  | .nullp a => unary a fun o => boolValue (nullValue o)
  | .typeof a => unary a typeValue
  | .makeType => iMakeType
  | .makeInstance a b c => iMakeInstance a b c
  | .compositeValue a => iCompositeValue a
  | .compositeFunction a => iCompositeFunction a
  | .setCompositeValue a b => iSetCompositeValue a b
  | .setCompositeFunction a b => iSetCompositeFunction a b
  | .length a => unary a lengthValue
  | .symbolString a => unary a symbolStringValue
  | .symbolId a => unary a fun                                               -- 4202-4215
      | .symbol id _ => pure (.integer (toPtrdiffS id))
      | _ => M.throw .invalidValue
  | .makeString a => iMakeString a
  | .concatenate a b => iConcatenate a b
  | .substring a b c => iSubstring a b c
  | .nil => push .nil                                                        -- 4619-4623
  | .invalid => M.throw .invalidValue                                        -- 4625-4629
  | _ => M.throw .cantHappen

/-- Leave the function, /repo/duckVM.c:4600-4614. -/
def leave : M Ctl := do
  match ← popFrame with
  | some ip => return .goto ip
  | Option.none => return .halt

/-- One instruction: `start` is its address, `next` that of the following one. -/
def exec (env : Env) (bc : Ref) (start next : CodePtr) : Instr → M Ctl
  | .funcall a n => do return .goto (← iFuncall env bc next a n)
  | .apply a n => do return .goto (← iApply bc next a n)
  | .call d => do                                                            -- 1551-1580
      pushFrame ⟨next, some bc⟩ ⟨Option.none, 0⟩
      return .goto { next with off := next.off + d - 1 }
  | .jump d => return .goto { next with off := next.off + d }                -- 1611-1641
  | .brnz d pops => do                                                       -- 1663-1714
      let o ← getArg 1
      popMany pops
      if ← truthy o then return .goto { next with off := next.off + d - 1 }
      else return .goto next
  | .return_ n => do                                                         -- 4588-4606
      let s ← M.get
      let top := s.stack.getLast?.getD .none
      popMany n
      let s ← M.get
      if s.stack ≠ [] then
        popMany 1
        push top
      leave
  | .return0 => leave
  | .halt => return .halt
  | i => do
      plain env bc start i
      return .goto next

/-- The bytes at an address: the block must still be there. -/
def fetch (ip : CodePtr) : M Bytes := fun s =>
  match s.heap[ip.cell]? with
  | some (.bytecode (some b) _) =>
      if b.serial = ip.serial ∧ 0 ≤ ip.off ∧ ip.off.toNat ≤ b.bytes.length then
        .ok (b.bytes.drop ip.off.toNat) s
      else .ub
  | _ => .ub

/-- /repo/duckVM.c:745-4635 `duckVM_executeInstruction`. -/
def step (env : Env) (bc : Ref) (ip : CodePtr) : M Ctl := do
  let bytes ← fetch ip
  let (i, rest) ← M.need (decode bytes)
  exec env bc ip { ip with off := ip.off + (bytes.length - rest.length : Nat) } i

/-- The loop of `duckVM_executeWithIp`, /repo/duckVM.c:4662-4664, for at most `fuel` instructions. -/
def loop (env : Env) (bc : Ref) : Nat → CodePtr → M Unit
  | 0, _ => M.diverge
  | fuel + 1, ip => do
      match ← step env bc ip with
      | .goto ip' => loop env bc fuel ip'
      | .halt => pure ()

/-- `currentBytecode = dl_null` on the way out, with or without an error. -/
def finish {α : Type} (m : M α) : M α := fun s =>
  match m s with
  | .ok a s' => .ok a { s' with currentBytecode := Option.none }
  | .err e s' => .err e { s' with currentBytecode := Option.none }
  | .ub => .ub
  | .diverge => .diverge

/-- /repo/duckVM.c:4637-4671 `duckVM_executeWithIp`. -/
def executeWithIp (env : Env) (fuel : Nat) (bytecode : Bytes) (ipOffset : Int) : M Unit := do
  if ipOffset < 0 ∨ (bytecode.length : Int) ≤ ipOffset then M.throw .invalidValue
  else do
    let bc ← pushObject (.bytecode (some ⟨0, bytecode⟩) bytecode.length)
    M.modify fun s => { s with currentBytecode := some bc }
    finish do
      let serial ← codeSerial bc
      loop env bc fuel ⟨bc, serial, ipOffset⟩

/-- /repo/duckVM.c:4673-4675 `duckVM_execute`. -/
def execute (env : Env) (fuel : Nat) (bytecode : Bytes) : M Unit :=
  executeWithIp env fuel bytecode 0

/-- /repo/duckVM.c:4677-4697 `duckVM_linkCFunction`. -/
def linkCFunction (key : Int) (callback : Nat) : M Unit := do
  let p ← pushObject (.function callback)
  globalSet (some p) key

end DuckLisp.VM
