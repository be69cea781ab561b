import Verif.Model.Basic

/-!
# Model of the built-in allocator, /repo/DuckLib/memory.c (compiled with `USE_DUCKLIB_MALLOC`)

Addresses are offsets from the start of the managed memory.  The table of blocks is kept apart from
the bytes of the managed memory: `tableOffset` says where in the managed memory it lies, and that
nothing else lies there is a theorem, not a property of the model.  `dl_memcopy`, which moves the
table, copies overlapping areas correctly (`Model/Mem`), so moving the table changes its place and
not its contents.

Left out: the statistics `used` and `max_used` (but the accesses to the table made while computing
them are modelled, since they can leave the table), `dl_memory_quit`, and the valgrind annotations.
`dl_memory_usage` is in `Props/AllocUsage`.  Sizes are natural numbers; the only sum that can exceed 64 bits, the rounding
up of a requested size, is reduced modulo 2^64 (all others are bounded by the size of the managed
memory plus the size of two entries).
-/

namespace DuckLisp.Alloc

/-- memory.h:10-17 `dl_memoryBlock_t`. -/
structure Entry where
  block : Nat
  previousBlock : Int
  nextBlock : Int
  size : Nat
  allocated : Bool
  unlinked : Bool
deriving DecidableEq, Repr

/-- `sizeof(dl_memoryBlock_t)` on a 64 bit machine: four words and two `dl_bool_t` (core.h:21, one byte
each) padded to a word. -/
def entrySize : Nat := 40

/-- memory.h:21-26 `dl_memoryFit_t`. -/
inductive Fit where
  | first | next | best | worst
deriving DecidableEq, Repr

/-- memory.h:28-46 `dl_memoryAllocation_t`.  `blockList_length` is the length of `table`.  `junk i` is
what entry `i` of the table contains when the table grows over it: bytes nobody has initialised. -/
structure State where
  size : Nat
  fit : Fit
  mostRecentBlock : Int
  firstBlock : Int
  table : List Entry
  tableOffset : Nat
  tableIndex : Int
  junk : Nat → Entry

/-- What a call does: it returns with `dl_error_ok` and a value, with an error (keeping the changes it
made), it accesses an entry outside the table or leaves the managed memory, or it follows the links
of the table in a circle. -/
inductive Out (α : Type) where
  | ok (a : α) (s : State)
  | error (e : DlError) (s : State)
  | undefined
  | endless

/-- A function working on the allocator. -/
def AM (α : Type) := State → Out α

namespace AM

/-- Sequencing, `if (error) goto cleanup`. -/
def bind {α β : Type} (m : AM α) (f : α → AM β) : AM β := fun s =>
  match m s with
  | .ok a s' => f a s'
  | .error e s' => .error e s'
  | .undefined => .undefined
  | .endless => .endless

/-- `return` with `dl_error_ok`. -/
def pure {α : Type} (a : α) : AM α := fun s => .ok a s

instance : Monad AM where
  pure := pure
  bind := bind

/-- Read the whole state. -/
def get : AM State := fun s => .ok s s

/-- Replace the state. -/
def modify (f : State → State) : AM Unit := fun s => .ok () (f s)

/-- Return with an error. -/
def fail {α : Type} (e : DlError) : AM α := fun s => .error e s

end AM

/-- Outcome: an access outside the table. -/
def undefined {α : Type} : AM α := fun _ => .undefined

/-- Outcome: a loop that does not end. -/
def endless {α : Type} : AM α := fun _ => .endless

/-- Reading `blockList[i]`. -/
def entry (i : Int) : AM Entry := fun s =>
  if 0 ≤ i then
    match s.table[i.toNat]? with
    | some e => .ok e s
    | none => .undefined
  else .undefined

/-- Writing to `blockList[i]`. -/
def update (i : Int) (f : Entry → Entry) : AM Unit := fun s =>
  if 0 ≤ i then
    match s.table[i.toNat]? with
    | some e => .ok () { s with table := s.table.set i.toNat (f e) }
    | none => .undefined
  else .undefined

/-- memory.c:11-92 `dl_memory_init`, for pointers that are not null; `size` bytes to manage.  (The
check at line 36 comes before anything is written into the managed memory; the one at line 61 after,
which makes no difference to the caller.) -/
def init (size : Nat) (fit : Fit) (junk : Nat → Entry) : Res State :=
  if 2 * entrySize > size then .err .outOfMemory
  else if size - 2 * entrySize = 0 then .err .outOfMemory
  else .ok
    { size := size, fit := fit, mostRecentBlock := 0, firstBlock := 0
      table :=
        [{ block := 0, size := 2 * entrySize, allocated := true, previousBlock := -1, nextBlock := 1,
           unlinked := false },
         { block := 2 * entrySize, size := size - 2 * entrySize, allocated := false,
           previousBlock := 0, nextBlock := -1, unlinked := false }]
      tableOffset := 0, tableIndex := 0, junk := junk }

/-- memory.c:349-367 `dl_memory_pointerToBlock`: the last linked entry that starts at `p`. -/
def pointerToBlock (p : Nat) : AM Int := do
  let s ← AM.get
  match (List.range s.table.length).reverse.find? (fun i =>
      match s.table[i]? with
      | some e => !e.unlinked && e.block == p
      | none => false) with
  | some i => pure (i : Int)
  | none => AM.fail .danglingPointer

/-- memory.c:385-424, the loop and the result of `dl_memory_findBlock`.  The fuel bounds the number of rounds; a walk
along the links that takes more rounds than there are entries never ends. -/
def findLoop (size : Nat) (fit : Fit) : Nat → Int → Bool → Int → AM Int
  | fuel, optimum, found, current =>
    if found || current == -1 then
      if optimum == -1 then AM.fail .outOfMemory else pure optimum
    else
      match fuel with
      | 0 => endless
      | fuel + 1 => do
        let e ← entry current
        if !e.allocated && decide (e.size ≥ size) then
          if optimum == -1 then findLoop size fit fuel current true e.nextBlock
          else
            match fit with
            | .first => findLoop size fit fuel current found e.nextBlock
            | .best => do
              let o ← entry optimum
              findLoop size fit fuel (if e.size < o.size then current else optimum) found e.nextBlock
            | .worst => do
              let o ← entry optimum
              findLoop size fit fuel (if e.size > o.size then current else optimum) found e.nextBlock
            | .next => AM.fail .shouldntHappen
        else findLoop size fit fuel optimum found e.nextBlock

/-- memory.c:377-382: where the search starts. -/
def searchStart (fit : Fit) : AM Int := do
  let s ← AM.get
  if fit = .next then do
    let e ← entry s.mostRecentBlock
    pure e.nextBlock
  else pure s.firstBlock

/-- memory.c:370-436 `dl_memory_findBlock`. -/
def findBlock (size : Nat) (fit : Fit) : AM Int := do
  let start ← searchStart fit
  let s ← AM.get
  findLoop size fit (s.table.length + 1) (-1) false start

/-- memory.c:447-452, 636-641 and 697-699: the block `next`, if there is one, gets the predecessor
`v`. -/
def setPrevious (next : Int) (v : Int) : AM Unit :=
  if next ≠ -1 then update next fun e => { e with previousBlock := v } else pure ()

/-- memory.c:477-482: the block before `block`, if there is one, gets the successor `block`; otherwise
`block` becomes the first block. -/
def setNext (previous : Int) (block : Int) : AM Unit :=
  if previous = -1 then AM.modify fun s => { s with firstBlock := block }
  else update previous fun e => { e with nextBlock := block }

/-- Undefined behaviour unless the condition holds. -/
def require (b : Bool) : AM Unit := if b then pure () else undefined

/-- memory.c:438-465 `dl_memory_mergeBlockAfter`; the result is `*merged`. -/
def mergeBlockAfter (block : Int) : AM Bool := do
  let b ← entry block
  let nextBlock := b.nextBlock
  if nextBlock ≠ -1 then do
    let n ← entry nextBlock
    if !n.allocated then do
      -- memory.c:444-446
      update block fun e => { e with size := e.size + n.size }
      update block fun e => { e with nextBlock := n.nextBlock }
      -- memory.c:447-452
      setPrevious n.nextBlock block
      -- memory.c:454
      update nextBlock fun e => { e with unlinked := true }
      pure true
    else pure false
  else pure false

/-- memory.c:467-495 `dl_memory_mergeBlockBefore`; the result is `*merged`.  A block pointer that
would lie before the managed memory is undefined behaviour. -/
def mergeBlockBefore (block : Int) : AM Bool := do
  let b ← entry block
  let previousBlock := b.previousBlock
  if previousBlock ≠ -1 then do
    let p ← entry previousBlock
    if !p.allocated then do
      require (decide (p.size ≤ b.block))
      -- memory.c:473-474
      update block fun e => { e with size := e.size + p.size }
      update block fun e => { e with block := e.block - p.size }
      -- memory.c:476-482
      update block fun e => { e with previousBlock := p.previousBlock }
      setNext p.previousBlock block
      -- memory.c:484
      update previousBlock fun e => { e with unlinked := true }
      pure true
    else pure false
  else pure false

/-- memory.c:499-502 `dl_memory_mergeBlocks`. -/
def mergeBlocks (block : Int) : AM Unit := do
  let _ ← mergeBlockAfter block
  let _ ← mergeBlockBefore block
  pure ()

/-- memory.c:540-544: how many entries are not in use. -/
def unlinkedEntries (table : List Entry) : Nat := (table.filter (·.unlinked)).length

/-- memory.c:616-622: the last entry that is not in use. -/
def lastUnlinked (table : List Entry) : Option Nat :=
  (List.range table.length).reverse.find? fun i =>
    match table[i]? with
    | some e => e.unlinked
    | none => false

/-- memory.c:679-684: the first entry that is not in use. -/
def firstUnlinked (table : List Entry) : Option Nat :=
  (List.range table.length).find? fun i =>
    match table[i]? with
    | some e => e.unlinked
    | none => false

/-- memory.c:563-596: find a larger block for the table and move the table there; the result is
`entries_left`. -/
def moveTable (left : Nat) (merged : Bool) : AM Nat := do
  let s ← AM.get
  let left := left + 1
  let left := if merged then left - 1 else left
  let merged ← mergeBlockBefore s.tableIndex
  let left := if merged then (if left > 1 then left - 1 else 0) else left
  let s ← AM.get
  let newBlock ← findBlock ((s.table.length + left) * entrySize) s.fit
  let b ← entry newBlock
  AM.modify fun s => { s with tableOffset := b.block, tableIndex := newBlock }
  pure left

/-- memory.c:599-607: the table grows over `left` more entries, of which only `unlinked` is set. -/
def growTable (left : Nat) : AM Unit :=
  AM.modify fun s =>
    { s with table := s.table ++ (List.range left).map fun k =>
        { s.junk (s.table.length + k) with unlinked := true } }

/-- memory.c:609-649: what the table does not need of its block becomes a block of its own. -/
def trimTable : AM Unit := do
  let s ← AM.get
  let t ← entry s.tableIndex
  if t.size > s.table.length * entrySize then
    match lastUnlinked s.table with
    | none => AM.fail .cantHappen
    | some extra => do
      let bytes := s.table.length * entrySize
      -- memory.c:628-632
      update extra fun e => { e with block := t.block + bytes }
      update extra fun e => { e with size := t.size - bytes }
      update s.tableIndex fun e => { e with size := bytes }
      -- memory.c:635-641
      update extra fun e => { e with nextBlock := t.nextBlock }
      setPrevious t.nextBlock extra
      -- memory.c:642-646
      update extra fun e => { e with previousBlock := s.tableIndex }
      update s.tableIndex fun e => { e with nextBlock := (extra : Int) }
      update extra fun e => { e with unlinked := false }
      update extra fun e => { e with allocated := false }
  else pure ()

/-- memory.c:560-597: move the table if its block is too small for it now; the result is
`entries_left`. -/
def makeRoom (left : Nat) (merged : Bool) : AM Nat := do
  let s ← AM.get
  let t ← entry s.tableIndex
  if t.size < (s.table.length + left) * entrySize then moveTable left merged else pure left

/-- memory.c:528-659 `dl_memory_reserveTableEntries`. -/
def reserveTableEntries (number : Nat) : AM Unit := do
  let s ← AM.get
  let unlinked := unlinkedEntries s.table
  let left := if number > unlinked then number - unlinked else 0
  if left ≠ 0 then do
    -- memory.c:551
    update s.tableIndex fun e => { e with allocated := false }
    -- memory.c:553: `blockList[blockList[indexOfBlockList].nextBlock].nextBlock` is read
    let t ← entry s.tableIndex
    let _ ← entry t.nextBlock
    let merged ← mergeBlockAfter s.tableIndex
    let left ← makeRoom left merged
    growTable left
    trimTable
    -- memory.c:651
    let s ← AM.get
    update s.tableIndex fun e => { e with allocated := true }
  else pure ()

/-- memory.c:662-708 `dl_memory_splitBlock`. -/
def splitBlock (block : Int) (index : Nat) : AM Unit := do
  let s ← AM.get
  match firstUnlinked s.table with
  | none => AM.fail .shouldntHappen
  | some u => do
    update u fun e => { e with allocated := false }
    let b ← entry block
    -- memory.c:692-694
    update u fun e => { e with block := b.block + index }
    update u fun e => { e with size := b.size - index }
    update block fun e => { e with size := index }
    -- memory.c:696-699
    update u fun e => { e with nextBlock := b.nextBlock }
    setPrevious b.nextBlock u
    -- memory.c:700-702
    update u fun e => { e with previousBlock := block }
    update block fun e => { e with nextBlock := (u : Int) }
    update u fun e => { e with unlinked := false }

/-- memory.c:731-734 and 859-864: split off what is too much. -/
def cut (block : Int) (size : Nat) : AM Unit := do
  let b ← entry block
  if b.size ≠ size then splitBlock block size else pure ()

/-- core.h:53 `DL_ALIGNMENT`. -/
def alignment : Nat := 8

/-- memory.c:721 and 816: the size rounded up, in 64 bits. -/
def rounded (size : Nat) : Nat := (size + (alignment - size % alignment)) % 2 ^ 64

/-- memory.c:711-755 `dl_malloc`; the result is `*memory`. -/
def malloc (size : Nat) : AM Nat := do
  if size = 0 then AM.fail .invalidValue
  else do
    let size := rounded size
    reserveTableEntries 1
    let s ← AM.get
    let block ← findBlock size s.fit
    cut block size
    update block fun e => { e with allocated := true }
    let b ← entry block
    pure b.block

/-- memory.c:759-793 `dl_free`; `none` is the null pointer. -/
def free (p : Option Nat) : AM Unit := do
  match p with
  | none => AM.fail .nullPointer
  | some p => do
    let block ← pointerToBlock p
    let b ← entry block
    if b.allocated = false then AM.fail .danglingPointer
    else do
      update block fun e => { e with allocated := false }
      -- memory.c:781: `blockList[blockList[block].nextBlock].nextBlock` is read
      let _ ← entry b.nextBlock
      mergeBlocks block

/-- A call of `dl_memcopy(destination, source, size)`. -/
structure Copy where
  destination : Nat
  source : Nat
  bytes : Nat
deriving DecidableEq, Repr

/-- memory.c:839-841. -/
def extendDown (current : Int) (fits : Bool) : AM Unit :=
  if fits then pure ()
  else do
    let _ ← mergeBlockBefore current
    pure ()

/-- memory.c:851-857. -/
def chooseBlock (current : Int) (size : Nat) (fits : Bool) : AM Int := do
  let s ← AM.get
  if fits then pure current else findBlock size s.fit

/-- memory.c:795-914 `dl_realloc`; the result is `*memory` and the copying done, if any.  Reading
beyond the managed memory while copying is undefined behaviour. -/
def realloc (p : Option Nat) (size : Nat) : AM (Nat × Option Copy) := do
  match p with
  | none => do
    let q ← malloc size
    pure (q, none)
  | some p =>
    if size = 0 then AM.fail .invalidValue
    else do
      let size := rounded size
      let current ← pointerToBlock p
      let c ← entry current
      if c.allocated = false then AM.fail .danglingPointer
      else do
        update current fun e => { e with allocated := false }
        -- memory.c:831: `blockList[blockList[currentBlock].nextBlock].nextBlock` is read
        let _ ← entry c.nextBlock
        let _ ← mergeBlockAfter current
        let c ← entry current
        let fits := decide (c.size ≥ size)
        extendDown current fits
        -- memory.c:843-848
        update current fun e => { e with allocated := true }
        reserveTableEntries 1
        update current fun e => { e with allocated := false }
        -- memory.c:851-864
        let new ← chooseBlock current size fits
        cut new size
        -- memory.c:866-877
        let n ← entry new
        let c ← entry current
        let s ← AM.get
        require (fits || decide (p + min size c.size ≤ s.size))
        -- memory.c:899-902
        update new fun e => { e with allocated := true }
        pure (n.block, if fits then none else some ⟨n.block, p, min size c.size⟩)

end DuckLisp.Alloc
