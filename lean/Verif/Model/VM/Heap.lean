import Verif.Model.VM.Types

/-!
# The object heap and its collector

Models /repo/duckVM.c:48-87 (`duckVM_gclist_init`), 108-211 (`duckVM_gclist_markObject`), 213-312
(`duckVM_gclist_garbageCollect`) and 314-433 (`duckVM_gclist_pushObject`).

Simplifications: `malloc` and the growth of the collector's own dispatch stack always succeed (the
only way to run out of memory is the bounded object heap); the C code's counters do not wrap.
-/

namespace DuckLisp.VM

open DuckLisp

/-- /repo/duckVM.c:48-87 `duckVM_gclist_init` and 436-473 `duckVM_init`: `maxObjects` zeroed cells,
all of them free; the top of the free stack is the last cell. -/
def init (maxObjects : Nat) : VM :=
  { heap := List.replicate maxObjects Obj.none
    free := (List.range maxObjects).reverse }

/-- The pointers `markObject` pushes on the dispatch stack for one object, in order
(/repo/duckVM.c:122-196).  `none` stands for reading through a null pointer. -/
def children : Obj → Option (List (Option Ref))
  | .list c => some [c]                                             -- 122-125
  | .cons a d => some [a, d]                                        -- 126-131
  | .closure _ bc ua _ _ => some [ua, bc]                           -- 132-137
  | .upvalue (.heapObject o) => some [o]                            -- 138-142
  | .upvalue (.heapUpvalue u) => some [u]                           -- 143-146
  | .upvalue (.stackIndex _) => some []
  | .upvalueArray (some b) n =>                                     -- 148-153
      if n ≤ b.ups.length then some (b.ups.take n) else Option.none
  | .upvalueArray Option.none n => if n = 0 then some [] else Option.none
  | .vector v _ => some [v]                                         -- 154-157
  | .internalVector vs n true =>                                    -- 158-165
      match vs with
      | some slots =>
          if n ≤ slots.length then
            (slots.take n).mapM fun
              | .ptr p => some p
              | .uninit => Option.none
          else Option.none
      | Option.none => if n = 0 then some [] else Option.none
  | .internalVector _ _ false => some []
  | .string (some s) _ _ => some [some s]                           -- 166-171
  | .symbol _ (some s) => some [some s]                             -- 172-177
  | .composite c => some [c]                                        -- 178-181
  | .internalComposite _ v f => some [v, f]                         -- 182-187
  | .user _ ps _ => some ps                                         -- 188-194
  | _ => some []

/-- Bound on the work left for the marking loop (only used to show that it ends): one unit per
unmarked cell plus one per pointer in it. -/
def weight : List Obj → List Bool → Nat
  | o :: os, u :: us =>
      (if u then 0 else 1 + ((children o).getD []).length) + weight os us
  | _, _ => 0

theorem weight_set {heap : List Obj} {inUse : List Bool} {r : Nat} {o : Obj}
    (hu : inUse[r]? = some false) (ho : heap[r]? = some o) :
    weight heap (inUse.set r true) + (1 + ((children o).getD []).length) = weight heap inUse := by
  induction heap generalizing inUse r with
  | nil => simp at ho
  | cons o' os ih =>
    cases inUse with
    | nil => simp at hu
    | cons u us =>
      cases r with
      | zero =>
        simp only [List.getElem?_cons_zero, Option.some.injEq] at hu ho
        subst hu; subst ho
        simp [weight]; omega
      | succ r =>
        simp only [List.getElem?_cons_succ] at hu ho
        simp only [List.set_cons_succ, weight]
        have := ih hu ho
        omega

/-- The loop of `markObject` (/repo/duckVM.c:115-205) with the dispatch stack read from the top
down.  A pointer is popped; null and already marked cells are skipped; otherwise the cell is marked
and its children are pushed.  An index outside the heap and a null array are undefined
behaviour (`none`). -/
def markLoop (heap : List Obj) (inUse : List Bool) : List (Option Ref) → Option (List Bool)
  | [] => some inUse
  | Option.none :: rest => markLoop heap inUse rest
  | some r :: rest =>
      match _hu : inUse[r]? with
      | Option.none => Option.none
      | some true => markLoop heap inUse rest
      | some false =>
          match _ho : heap[r]? with
          | Option.none => Option.none
          | some o =>
              match _hc : children o with
              | Option.none => Option.none
              | some cs => markLoop heap (inUse.set r true) (cs.reverse ++ rest)
termination_by ds => weight heap inUse + ds.length
decreasing_by
  · simp
  · simp
  · have := weight_set _hu _ho
    rw [_hc] at this
    simp at this ⊢
    omega

/-- /repo/duckVM.c:108-211 called with `stack = dl_true`: the object is not a heap cell, so only
its children are traced. -/
def markStackObject (heap : List Obj) (inUse : List Bool) (o : Obj) : Option (List Bool) :=
  match children o with
  | Option.none => Option.none
  | some cs => markLoop heap inUse cs.reverse

/-- /repo/duckVM.c:108-211 called with `stack = dl_false` on each pointer of an array that is not
null (the loops at 237-243, 246-252, 255-262 and the test at 265-268). -/
def markPointers (heap : List Obj) : List Bool → List (Option Ref) → Option (List Bool)
  | inUse, [] => some inUse
  | inUse, Option.none :: ps => markPointers heap inUse ps
  | inUse, some r :: ps =>
      match markLoop heap inUse [some r] with
      | Option.none => Option.none
      | some inUse' => markPointers heap inUse' ps

/-- The loop over the stack, /repo/duckVM.c:229-234. -/
def markStack (heap : List Obj) : List Bool → List Obj → Option (List Bool)
  | inUse, [] => some inUse
  | inUse, o :: os =>
      match markStackObject heap inUse o with
      | Option.none => Option.none
      | some inUse' => markStack heap inUse' os

/-- The pointers the collector traces besides the stack objects, in order: upvalue stack, globals,
call stack, current bytecode (/repo/duckVM.c:236-268). -/
def rootPointers (vm : VM) : List (Option Ref) :=
  vm.upStack ++ vm.globals.map Prod.snd ++ vm.callStack.map Frame.bytecode ++ [vm.currentBytecode]

/-- The marking phase, /repo/duckVM.c:220-268. -/
def markAll (vm : VM) : Option (List Bool) :=
  match markStack vm.heap (List.replicate vm.heap.length false) vm.stack with
  | Option.none => Option.none
  | some inUse => markPointers vm.heap inUse (rootPointers vm)

/-- What freeing does to the contents of a cell (/repo/duckVM.c:277-307): the block is freed and
the pointer to it becomes null; the destructor of a user object runs and is forgotten (its effect
outside the VM is not modelled). -/
def release : Obj → Obj
  | .upvalueArray _ n => .upvalueArray Option.none n
  | .internalVector _ n true => .internalVector Option.none n true
  | .bytecode _ n => .bytecode Option.none n
  | .internalString _ n => .internalString Option.none n
  | .user d ms _ => .user d ms false
  | o => o

/-- The sweep, /repo/duckVM.c:270-308, over the cells from index `i` on: unmarked cells are
released and pushed on the free list in ascending order. -/
def sweep : Nat → List Obj → List Bool → List Ref → List Obj × List Ref
  | i, o :: os, u :: us, free =>
      if u then
        let (os', free') := sweep (i + 1) os us free
        (o :: os', free')
      else
        let (os', free') := sweep (i + 1) os us (i :: free)
        (release o :: os', free')
  | _, os, _, free => (os, free)

/-- /repo/duckVM.c:213-312 `duckVM_gclist_garbageCollect`, and 4732-4734 `duckVM_garbageCollect`. -/
def garbageCollect : M Unit := fun vm =>
  match markAll vm with
  | Option.none => .ub
  | some inUse =>
      let (heap, free) := sweep 0 vm.heap inUse []
      .ok () { vm with heap, free }

/-- What `gclist_pushObject` stores (/repo/duckVM.c:340-424): blocks are copied into fresh
storage, an empty block is a null pointer; the contents of an array of captured variables are not
copied (its only caller, 1050-1066, sets them to null at once, so the model starts with null) and
those of an uninitialised vector are not defined. -/
def store (serial : Nat) : Obj → Obj
  | .upvalueArray _ n =>
      if n = 0 then .upvalueArray Option.none 0
      else .upvalueArray (some ⟨serial, List.replicate n Option.none⟩) n
  | .internalVector vs n true => if n = 0 then .internalVector Option.none 0 true
      else .internalVector vs n true
  | .internalVector _ n false => if n = 0 then .internalVector Option.none 0 false
      else .internalVector (some (List.replicate n .uninit)) n false
  | .bytecode b n => if n = 0 then .bytecode Option.none 0
      else .bytecode (b.map fun c => ⟨serial, c.bytes⟩) n
  | .internalString v n => if n = 0 then .internalString Option.none 0 else .internalString v n
  | o => o

/-- Take the next free cell and store the object in it, /repo/duckVM.c:339-430. -/
def takeFree (o : Obj) : M Ref := fun vm =>
  match vm.free with
  | [] => .ub
  | r :: free =>
      .ok r { vm with heap := vm.heap.set r (store vm.nextSerial o), free,
                      nextSerial := vm.nextSerial + 1 }

/-- /repo/duckVM.c:314-433 `duckVM_gclist_pushObject` (the same as 4726-4730
`duckVM_allocateHeapObject`): collect if no cell is free; out of memory if still none is. -/
def pushObject (o : Obj) : M Ref := fun vm =>
  if vm.free = [] then
    match garbageCollect vm with
    | .ok _ vm' => if vm'.free = [] then .err .outOfMemory vm' else takeFree o vm'
    | .err e vm' => .err e vm'
    | .ub => .ub
    | .diverge => .diverge
  else takeFree o vm

end DuckLisp.VM
