import Verif.Model.VM.Exec

/-!
# The host's interface to the machine

Models /repo/duckVM.c:4702-4767 (resetting, globals), 5344-5505 (type tests), 5507-5612 (the stack,
calling a function), 5615-5958 (scalars, strings, symbols, types), 5961-6240 (composites, lists,
vectors, closures) and 6242-6822 (sequences).  The functions return their out-parameters; what an
out-parameter holds after an error is not modelled.  As in `Exec.lean`, `malloc` succeeds and the
error log is left out.  A function that goes on with an object it never initialised is `ub`.
-/

namespace DuckLisp.VM

open DuckLisp

/-! ### The stack -/

/-- `dl_array_getTop(&duckVM->stack, &object)`. -/
def getTop : M Obj := fun s => M.orErr .bufferUnderflow s.stack.getLast? s

/-- `dl_array_setTop(&duckVM->stack, &object)`. -/
def setTop (o : Obj) : M Unit := fun s =>
  match s.stack with
  | [] => .err .bufferUnderflow s
  | _ => .ok () { s with stack := s.stack.set (s.stack.length - 1) o }

/-- /repo/duckVM.c:535-540 `stack_get`: a negative index counts from the top. -/
def stackGet (i : Int) : M Obj := do
  let n ← height
  getAbs (if i < 0 then n + i else i)

/-- /repo/duckVM.c:542-547 `stack_set`. -/
def stackSet (o : Obj) (i : Int) : M Unit := do
  let n ← height
  setAbs (if i < 0 then n + i else i) o

/-- /repo/duckVM.c:5509-5511 `duckVM_stackLength`. -/
def apiStackLength : M Nat := height

/-- /repo/duckVM.c:5514-5519 `duckVM_push`. -/
def apiPush (i : Int) : M Unit := do push (← stackGet i)

/-- /repo/duckVM.c:5522-5524 `duckVM_pop`. -/
def apiPop : M Unit := do
  let _ ← popStack
  return ()

/-- /repo/duckVM.c:5527-5529 `duckVM_popSeveral`. -/
def apiPopSeveral (n : Nat) : M Unit := popMany n

/-- /repo/duckVM.c:4724-4726 `duckVM_popAll`. -/
def apiPopAll : M Unit := do popMany (← height)

/-- /repo/duckVM.c:5532-5542 `duckVM_copyFromTop`. -/
def apiCopyFromTop (i : Int) : M Unit := do stackSet (← getTop) i

/-- /repo/duckVM.c:5545-5554 `duckVM_typeOf`. -/
def apiTypeOf : M Nat := do return (← getTop).typeNumber

/-- `dl_array_popElements(array, dl_null, n)`. -/
def dropTop {α : Type} (n : Nat) (l : List α) : Option (List α) :=
  if l.length < n then Option.none else some (l.take (l.length - n))

/-- /repo/duckVM.c:4736-4750 `duckVM_softReset`. -/
def softReset : M Unit := do
  popMany (← height)
  let s ← M.get
  let ua ← M.orErr .bufferUnderflow (dropTop s.callStack.length s.upArrays)
  M.set { s with callStack := [], upArrays := ua }

/-! ### Globals -/

/-- /repo/duckVM.c:4753-4758 `duckVM_pushGlobal`. -/
def apiPushGlobal (key : Int) : M Unit := do pushPtr (← globalGet key)

/-- /repo/duckVM.c:4761-4766 `duckVM_setGlobal`: copies the top of the stack to a null pointer. -/
def apiSetGlobal (_key : Int) : M Unit := do
  let _ ← getTop
  M.ub

/-! ### Type tests -/

/-- /repo/duckVM.c:5344-5383 and 5397-5465, one function per type. -/
def apiIs (p : Obj → Bool) : M Bool := do return p (← getTop)

/-- /repo/duckVM.c:5387-5395 `duckVM_isCons`. -/
def apiIsCons : M Bool := apiIs fun
  | .list p => p.isSome
  | _ => false

/-- /repo/duckVM.c:5409-5417 `duckVM_isNil`. -/
def apiIsNil : M Bool := apiIs fun
  | .list p => p.isNone
  | _ => false

/-- `internal_vector == null || internal_vector->length == 0`: the offset plays no part. -/
def storageEmpty (p : Option Ref) : M Bool := do
  match p with
  | Option.none => return true
  | some r =>
      match ← readCell r with
      | .internalVector _ n _ => return n = 0
      | _ => M.ub

/-- /repo/duckVM.c:5419-5437 `duckVM_isEmptyVector`. -/
def apiIsEmptyVector : M Bool := do
  match ← getTop with
  | .vector p _ => storageEmpty p
  | _ => return false

/-- /repo/duckVM.c:5467-5503 `duckVM_isEmpty`. -/
def apiIsEmpty : M Bool := do
  match ← getTop with
  | .list p => return p.isNone
  | .vector p _ => storageEmpty p
  | .string _ off len => return stringSize off len = 0
  | .closure _ _ ups _ _ =>
      match ups with
      | Option.none => return true
      | some r =>
          match ← readCell r with
          | .upvalueArray _ n => return n = 0
          | _ => M.ub
  | _ => return false

/-! ### Scalars -/

/-- /repo/duckVM.c:5617-5622. -/
def apiPushBoolean : M Unit := push (.bool 0)

/-- /repo/duckVM.c:5625-5644. -/
def apiSetBoolean (v : UInt8) : M Unit := do
  match ← getTop with
  | .bool _ => setTop (.bool v)
  | _ => M.throw .invalidValue

/-- /repo/duckVM.c:5647-5664. -/
def apiCopyBoolean : M UInt8 := do
  match ← getTop with
  | .bool b => return b
  | _ => M.throw .invalidValue

/-- /repo/duckVM.c:5670-5675. -/
def apiPushInteger : M Unit := push (.integer 0)

/-- /repo/duckVM.c:5678-5697. -/
def apiSetInteger (v : Int) : M Unit := do
  match ← getTop with
  | .integer _ => setTop (.integer v)
  | _ => M.throw .invalidValue

/-- /repo/duckVM.c:5700-5717. -/
def apiCopySignedInteger : M Int := do
  match ← getTop with
  | .integer i => return i
  | _ => M.throw .invalidValue

/-- /repo/duckVM.c:5720-5737. -/
def apiCopyUnsignedInteger : M Nat := do
  match ← getTop with
  | .integer i => return toSize i
  | _ => M.throw .invalidValue

/-- /repo/duckVM.c:5742-5747. -/
def apiPushFloat : M Unit := push (.float 0)

/-- /repo/duckVM.c:5750-5769. -/
def apiSetFloat (v : UInt64) : M Unit := do
  match ← getTop with
  | .float _ => setTop (.float v)
  | _ => M.throw .invalidValue

/-- /repo/duckVM.c:5772-5789. -/
def apiCopyFloat : M UInt64 := do
  match ← getTop with
  | .float x => return x
  | _ => M.throw .invalidValue

/-! ### Strings and symbols -/

/-- /repo/duckVM.c:5795-5805 `duckVM_pushString`. -/
def apiPushString (bytes : Bytes) : M Unit := do push (← newString bytes)

/-- /repo/duckVM.c:5809-5827 `duckVM_copyString` with 4987-5017 `duckVM_object_getString`. -/
def apiCopyString : M Bytes := do
  match ← getTop with
  | .string p off len =>
      if len = 0 then return []
      else
        match p with
        | Option.none => M.throw .nullPointer
        | some r => stringBytes (some r) off (stringSize off len)
  | _ => M.throw .invalidValue

/-- /repo/duckVM.c:5833-5843 `duckVM_pushSymbol` with 4825-4842 `duckVM_object_makeSymbol`. -/
def apiPushSymbol (id : Nat) (name : Bytes) : M Unit := do
  let r ← pushObject (.internalString (some name) name.length)
  push (.symbol id (some r))

/-- /repo/duckVM.c:5846-5855 `duckVM_pushCompressedSymbol`. -/
def apiPushCompressedSymbol (id : Nat) : M Unit := push (.symbol id Option.none)

/-- /repo/duckVM.c:5858-5888 `duckVM_copySymbolName`.  Results: the name (`none`: a null pointer),
and what is stored in `*name_length` (`none`: nothing is; the code assigns to the pointer
`name_length` itself). -/
def apiCopySymbolName : M (Option Bytes × Option Nat) := do
  match ← getTop with
  | .symbol _ Option.none => return (Option.none, Option.none)
  | .symbol _ (some r) =>
      match ← readCell r with
      | .internalString _ n => do
          let bytes ← stringBytes (some r) 0 n
          return (some bytes, some n)
      | _ => M.ub
  | _ => M.throw .invalidValue

/-- /repo/duckVM.c:5891-5908 `duckVM_copySymbolId`. -/
def apiCopySymbolId : M Nat := do
  match ← getTop with
  | .symbol id _ => return id
  | _ => M.throw .invalidValue

/-! ### Types and composites -/

/-- /repo/duckVM.c:5914-5924 `duckVM_pushNewType`. -/
def apiPushNewType : M Unit := iMakeType

/-- /repo/duckVM.c:5927-5937 `duckVM_pushExistingType`. -/
def apiPushExistingType (t : Nat) : M Unit := push (.type t)

/-- /repo/duckVM.c:5940-5957 `duckVM_copyType`. -/
def apiCopyType : M Nat := do
  match ← getTop with
  | .type t => return t
  | _ => M.throw .invalidValue

/-- /repo/duckVM.c:5964-5980 `duckVM_pushComposite` with 4941-4961 `duckVM_object_makeComposite`:
nothing refers to the cell of the empty list while the composite is allocated. -/
def apiPushComposite (t : Nat) : M Unit := do
  let nil ← pushObject .nil
  let r ← pushObject (.internalComposite t (some nil) (some nil))
  push (.composite (some r))

/-- /repo/duckVM.c:5983-6000 `duckVM_copyCompositeType`. -/
def apiCopyCompositeType : M Nat := do
  match ← getTop with
  | .composite c => do
      let (t, _, _) ← compositeParts c
      return t
  | _ => M.throw .invalidValue

/-- /repo/duckVM.c:6003-6021 `duckVM_pushCompositeValue`. -/
def apiPushCompositeValue : M Unit := do
  match ← getTop with
  | .composite c => do
      let (_, v, _) ← compositeParts c
      pushPtr v
  | _ => M.throw .invalidValue

/-- /repo/duckVM.c:6025-6043 `duckVM_pushCompositeFunction`. -/
def apiPushCompositeFunction : M Unit := do
  match ← getTop with
  | .composite c => do
      let (_, _, f) ← compositeParts c
      pushPtr f
  | _ => M.throw .invalidValue

/-- /repo/duckVM.c:6046-6069 `duckVM_setCompositeValue`. -/
def apiSetCompositeValue (i : Int) : M Unit := do
  let v ← getTop
  match ← stackGet i with
  | .composite c => do
      let p ← pushObject v
      setCompositeValueCell c p
  | _ => M.throw .invalidValue

/-- /repo/duckVM.c:6072-6095 `duckVM_setCompositeFunction`: unlike the others it does not accept an
index from the top. -/
def apiSetCompositeFunction (i : Int) : M Unit := do
  let v ← getTop
  match ← getAbs i with
  | .composite c => do
      let p ← pushObject v
      setCompositeFunctionCell c p
  | _ => M.throw .invalidValue

/-! ### Lists, vectors, closures -/

/-- /repo/duckVM.c:6101-6106 `duckVM_pushNil`. -/
def apiPushNil : M Unit := push .nil

/-- /repo/duckVM.c:6109-6123 `duckVM_pushCons`. -/
def apiPushCons : M Unit := do
  let r ← pushObject (.cons Option.none Option.none)
  push (.list (some r))

/-- /repo/duckVM.c:6133-6150, the body of `duckVM_pushVector`, with 4900-4920
`duckVM_object_makeVector`: the elements are null pointers (`nil_pointer` is allocated only after it
has been copied into the array). -/
def pushNullVector (n : Nat) : M Unit := do
  let _ ← pushObject .nil
  let r ← pushObject (.internalVector (some (List.replicate n (.ptr Option.none))) n true)
  push (.vector (some r) 0)

/-- /repo/duckVM.c:6129-6155 `duckVM_pushVector`: an error of an allocation is overwritten by the
result of `dl_array_quit`. -/
def apiPushVector (n : Nat) : M Unit := fun s =>
  match pushNullVector n s with
  | .err _ s' => .ok () s'
  | out => out

/-- /repo/duckVM.c:6159-6176 `duckVM_copyClosureName`. -/
def apiCopyClosureName : M Int := do
  match ← getTop with
  | .closure name _ _ _ _ => return name
  | _ => M.throw .invalidValue

/-- /repo/duckVM.c:6179-6197 `duckVM_pushClosureBytecode`: puts the code object itself on the
stack. -/
def apiPushClosureBytecode : M Unit := do
  match ← getTop with
  | .closure _ code _ _ _ => pushPtr code
  | _ => M.throw .invalidValue

/-- /repo/duckVM.c:6200-6217 `duckVM_copyClosureArity`. -/
def apiCopyClosureArity : M UInt8 := do
  match ← getTop with
  | .closure _ _ _ arity _ => return arity
  | _ => M.throw .invalidValue

/-- /repo/duckVM.c:6220-6237 `duckVM_copyClosureIsVariadic`. -/
def apiCopyClosureIsVariadic : M Bool := do
  match ← getTop with
  | .closure _ _ _ _ variadic => return variadic
  | _ => M.throw .invalidValue

/-! ### Sequences -/

/-- /repo/duckVM.c:5245-5272 `duckVM_vector_getLength`, `duckVM_vector_getElement` and
5274-5293 `duckVM_vector_setElement` up to the access: storage, its elements and the position in
it. -/
def vectorPosition (p : Option Ref) (off i : Int) : M (Ref × Option (List Slot) × Int) := do
  match p with
  | Option.none => M.throw .nullPointer
  | some r => do
      let (vs, n) ← vectorStorage (some r)
      if toSize i ≥ toSize ((n : Int) - off) then M.throw .invalidValue
      else return (r, vs, ← ckInt (off + i))

/-- /repo/duckVM.c:5253-5272 `duckVM_vector_getElement`, then reading the element. -/
def vectorElement (p : Option Ref) (off i : Int) : M Obj := do
  let (_, vs, j) ← vectorPosition p off i
  slotValue vs j

/-- /repo/duckVM.c:5274-5293 `duckVM_vector_setElement`. -/
def setVectorElement (p : Option Ref) (off i : Int) (q : Ref) : M Unit := do
  let (r, _, j) ← vectorPosition p off i
  if 0 ≤ j then setSlot r j.toNat q else M.ub

/-- /repo/duckVM.c:5072-5078 `duckVM_string_getElement`: the start position of the string plays no
part and nothing is checked. -/
def stringElement (p : Option Ref) (i : Int) : M Obj := do
  match p with
  | Option.none => M.throw .nullPointer
  | some r => byteValue (some r) i

/-- The block of captured variables of a closure, /repo/duckVM.c:5111-5126. -/
def closureUpvalue (ups : Option Ref) (i : Int) : M (Option Ref) := do
  match ups with
  | Option.none => M.throw .nullPointer
  | some r =>
      match ← readCell r with
      | .upvalueArray blk _ =>
          if 0 ≤ i then do
            let b ← M.need blk
            M.need b.ups[i.toNat]?
          else M.ub
      | _ => M.throw .invalidValue

/-- /repo/duckVM.c:5111-5126 `duckVM_closure_getUpvalue` with 5154-5188. -/
def closureGet (ups : Option Ref) (i : Int) : M Obj := do
  let p ← closureUpvalue ups i
  match ← chase (M.throw .nullPointer) (M.throw .invalidValue) (← chaseFuel) p with
  | .stackIndex j => getAbs j
  | .heapObject o => deref o
  | .heapUpvalue _ => M.ub

/-- /repo/duckVM.c:5128-5143 `duckVM_closure_setUpvalue` with 5190-5224. -/
def closureSet (ups : Option Ref) (i : Int) (q : Ref) : M Unit := do
  let p ← closureUpvalue ups i
  match ← chase (M.throw .nullPointer) (M.throw .invalidValue) (← chaseFuel) p with
  | .stackIndex j => setAbs j (← readCell q)
  | .heapObject h => do
      let r ← M.need h
      writeCell r (← readCell q)
  | .heapUpvalue _ => M.ub

/-- `push` goes on after an error with an object that was never set. -/
def orGarbage (m : M Obj) : M Obj := fun s =>
  match m s with
  | .err _ _ => .ub
  | out => out

/-- /repo/duckVM.c:6249-6322 `duckVM_pushFirst` (6244 `duckVM_pushCar` is the same): an error inside
the `switch` is forgotten and an object that was never set is pushed. -/
def apiPushFirst : M Unit := do
  match ← getTop with
  | .list Option.none => push .nil
  | .list (some r) =>
      match ← readCell r with
      | .cons a _ => push (← partValue a)
      | _ => M.ub
  | .cons a _ => push (.list a)
  | .vector p off => push (← orGarbage (vectorElement p off 0))
  | .string p _ _ => push (← orGarbage (stringElement p 0))
  | .closure _ _ ups _ _ => push (← orGarbage (closureGet ups 0))
  | _ => M.ub

/-- /repo/duckVM.c:6346-6427 `duckVM_pushRest` (6333 `duckVM_pushCdr` is the same): an error inside
the `switch` is forgotten; for vectors and strings the sequence itself is then pushed. -/
def apiPushRest : M Unit := do
  match ← getTop with
  | .list Option.none => push .nil
  | .list (some r) =>
      match ← readCell r with
      | .cons _ d => push (← partValue d)
      | _ => M.ub
  | .vector p off => do
      let (_, n) ← vectorStorage p
      let off' ← ckInt (off + 1)
      if toSize off' ≥ n then push (.vector p off) else push (.vector p off')
  | .string p off len => do
      let off' ← ckInt (off + 1)
      if toSize off' ≥ len then push (.string p off len) else push (.string p off' len)
  | _ => M.ub

/-- /repo/duckVM.c:6438-6498 `duckVM_setFirst` (6431 `duckVM_setCar` is the same). -/
def apiSetFirst (i : Int) : M Unit := do
  let v ← getTop
  let p ← pushObject v
  match ← stackGet i with
  | .list Option.none => M.throw .invalidValue
  | .list (some r) => setCarCell r (some p)
  | .vector q off => setVectorElement q off 0 p
  | .closure _ _ ups _ _ => closureSet ups 0 p
  | _ => M.throw .invalidValue

/-- /repo/duckVM.c:6509-6571 `duckVM_setRest` (6503 `duckVM_setCdr` is the same). -/
def apiSetRest (i : Int) : M Unit := do
  let v ← getTop
  let p ← pushObject v
  match ← stackGet i with
  | .list Option.none => M.throw .invalidValue
  | .list (some r) => setCdrCell r (some p)
  | _ => M.throw .invalidValue

/-- The loop of `duckVM_pushElement` over a list, /repo/duckVM.c:6592-6610, `k` more steps. -/
def elementPointer (heap : List Obj) : Nat → Option Ref → M (Option Ref)
  | 0, p => pure p
  | _ + 1, Option.none => pure Option.none
  | k + 1, some r =>
      match heap[r]? with
      | some (.cons _ d) => elementPointer heap k d
      | some _ => M.throw .invalidValue
      | Option.none => M.ub

/-- /repo/duckVM.c:6579-6647 `duckVM_pushElement`: for a list the pair itself, not its first half,
is pushed, and past the end a null pointer is read. -/
def apiPushElement (i : Int) : M Unit := do
  match ← getTop with
  | .list p => do
      let s ← M.get
      push (← deref (← elementPointer s.heap (toSize i) p))
  | .vector p off => push (← vectorElement p off i)
  | .string p _ _ => push (← stringElement p i)
  | .closure _ _ ups _ _ => push (← closureGet ups i)
  | _ => M.throw .invalidValue

/-- /repo/duckVM.c:6655-6758 `duckVM_setElement`: for a list the index plays no part (the code that
looks at it can not be reached), and for other objects nothing happens. -/
def apiSetElement (k i : Int) : M Unit := do
  let v ← getTop
  let p ← pushObject v
  match ← stackGet i with
  | .list Option.none => M.throw .invalidValue
  | .list (some r) => setCarCell r (some p)
  | .vector q off => setVectorElement q off k p
  | .string _ _ _ => M.throw .invalidValue
  | .closure _ _ ups _ _ => closureSet ups k p
  | _ => return ()

/-- /repo/duckVM.c:6761-6822 `duckVM_length`. -/
def apiLength : M Nat := do
  match ← getTop with
  | .list p => do
      if ← listIsCyclic p then M.throw .invalidValue
      else do
        let s ← M.get
        countConses s.heap (s.heap.length + 1) p
  | .vector Option.none _ => return 0
  | .vector (some r) off => do
      let (_, n) ← vectorStorage (some r)
      return toSize ((n : Int) - off)
  | .string _ off len => return stringSize off len
  | .closure _ _ ups _ _ =>
      match ups with
      | Option.none => M.throw .nullPointer
      | some r =>
          match ← readCell r with
          | .upvalueArray _ n => return n
          | _ => M.ub
  | _ => M.throw .invalidValue

/-! ### Calling a function -/

/-- The loop of `duckVM_executeWithIp` as used by `duckVM_call`: the caller's frame leads to a `halt`
instruction in an array on the C stack, whose address is not that of any cell; it is represented by
cell number `shim`, which is not in the heap. -/
def loopUntil (env : Env) (bc shim : Ref) : Nat → CodePtr → M Unit
  | 0, _ => M.diverge
  | fuel + 1, ip =>
      if ip.cell = shim then pure ()
      else do
        match ← step env bc ip with
        | .goto ip' => loopUntil env bc shim fuel ip'
        | .halt => pure ()

/-- /repo/duckVM.c:5557-5612 `duckVM_call`: the closure's code is copied to a new cell and run from
there.  The frame that is pushed names an object on the C stack as the code to return to, so that the
collector, if it runs during the call, marks memory outside its tables (`garbageCollect` on a frame
that names no cell is undefined). -/
def apiCall (env : Env) (fuel : Nat) (i : Int) (n : UInt8) : M Unit := do
  let f ← stackGet i
  match ← prepareForFuncall f n.toNat with
  | .function cb => env.host cb
  | .closure name code ups _ _ => do
      let r ← M.need code
      match ← readCell r with
      | .bytecode blk len => do
          let u ← captureArray ups
          let s ← M.get
          let shim := s.heap.length
          pushFrame ⟨⟨shim, 0, 0⟩, some shim⟩ u
          if name < 0 ∨ (len : Int) ≤ name then M.throw .invalidValue
          else do
            let bytes ← M.need (blk.map CodeBlock.bytes)
            let bc ← pushObject (.bytecode (some ⟨0, bytes⟩) len)
            M.modify fun s => { s with currentBytecode := some bc }
            finish do
              let serial ← codeSerial bc
              loopUntil env bc shim fuel ⟨bc, serial, name⟩
      | _ => M.ub
  | _ => M.throw .invalidValue

/-! ### Any call -/

/-- The calls a host can make on a machine it has set up.  The functions that only look at the
machine are represented by what they read. -/
inductive HostCall
  | execute (fuel : Nat) (code : Bytes)
  | call (fuel : Nat) (i : Int) (n : UInt8)
  | garbageCollect | linkCFunction (key : Int) (callback : Nat)
  | softReset | popAll | push (i : Int) | pop | popSeveral (n : Nat) | copyFromTop (i : Int)
  | pushGlobal (key : Int) | setGlobal (key : Int)
  | is (p : Obj → Bool) | isEmptyVector | isEmpty | length
  | pushBoolean | setBoolean (v : UInt8) | copyBoolean
  | pushInteger | setInteger (v : Int) | copySignedInteger | copyUnsignedInteger
  | pushFloat | setFloat (v : UInt64) | copyFloat
  | pushString (bytes : Bytes) | copyString
  | pushSymbol (id : Nat) (name : Bytes) | pushCompressedSymbol (id : Nat) | copySymbolName
  | copySymbolId
  | pushNewType | pushExistingType (t : Nat) | copyType
  | pushComposite (t : Nat) | copyCompositeType | pushCompositeValue | pushCompositeFunction
  | setCompositeValue (i : Int) | setCompositeFunction (i : Int)
  | pushNil | pushCons | pushVector (n : Nat)
  | copyClosureName | pushClosureBytecode | copyClosureArity | copyClosureIsVariadic
  | pushFirst | pushRest | setFirst (i : Int) | setRest (i : Int)
  | pushElement (i : Int) | setElement (k i : Int)

/-- What a call does to the machine. -/
def HostCall.run (env : Env) : HostCall → M Unit
  | .execute fuel code => VM.execute env fuel code
  | .call fuel i n => apiCall env fuel i n
  | .garbageCollect => VM.garbageCollect
  | .linkCFunction key cb => VM.linkCFunction key cb
  | .softReset => VM.softReset
  | .popAll => apiPopAll
  | .push i => apiPush i
  | .pop => apiPop
  | .popSeveral n => apiPopSeveral n
  | .copyFromTop i => apiCopyFromTop i
  | .pushGlobal k => apiPushGlobal k
  | .setGlobal k => apiSetGlobal k
  | .is p => do let _ ← apiIs p
  | .isEmptyVector => do let _ ← apiIsEmptyVector
  | .isEmpty => do let _ ← apiIsEmpty
  | .length => do let _ ← apiLength
  | .pushBoolean => apiPushBoolean
  | .setBoolean v => apiSetBoolean v
  | .copyBoolean => do let _ ← apiCopyBoolean
  | .pushInteger => apiPushInteger
  | .setInteger v => apiSetInteger v
  | .copySignedInteger => do let _ ← apiCopySignedInteger
  | .copyUnsignedInteger => do let _ ← apiCopyUnsignedInteger
  | .pushFloat => apiPushFloat
  | .setFloat v => apiSetFloat v
  | .copyFloat => do let _ ← apiCopyFloat
  | .pushString b => apiPushString b
  | .copyString => do let _ ← apiCopyString
  | .pushSymbol id name => apiPushSymbol id name
  | .pushCompressedSymbol id => apiPushCompressedSymbol id
  | .copySymbolName => do let _ ← apiCopySymbolName
  | .copySymbolId => do let _ ← apiCopySymbolId
  | .pushNewType => apiPushNewType
  | .pushExistingType t => apiPushExistingType t
  | .copyType => do let _ ← apiCopyType
  | .pushComposite t => apiPushComposite t
  | .copyCompositeType => do let _ ← apiCopyCompositeType
  | .pushCompositeValue => apiPushCompositeValue
  | .pushCompositeFunction => apiPushCompositeFunction
  | .setCompositeValue i => apiSetCompositeValue i
  | .setCompositeFunction i => apiSetCompositeFunction i
  | .pushNil => apiPushNil
  | .pushCons => apiPushCons
  | .pushVector n => apiPushVector n
  | .copyClosureName => do let _ ← apiCopyClosureName
  | .pushClosureBytecode => apiPushClosureBytecode
  | .copyClosureArity => do let _ ← apiCopyClosureArity
  | .copyClosureIsVariadic => do let _ ← apiCopyClosureIsVariadic
  | .pushFirst => apiPushFirst
  | .pushRest => apiPushRest
  | .setFirst i => apiSetFirst i
  | .setRest i => apiSetRest i
  | .pushElement i => apiPushElement i
  | .setElement k i => apiSetElement k i

/-- Whether the call runs code of the machine. -/
def HostCall.runsCode : HostCall → Bool
  | .execute _ _ => true
  | .call _ _ _ => true
  | _ => false

end DuckLisp.VM
