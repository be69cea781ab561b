import Verif.Model.Alloc

/-!
# Specification of the built-in allocator

What the caller knows: the calls made, their results, and hence the live allocations.  What can be
seen by walking along the table: the blocks.
-/

namespace DuckLisp.Spec.Memory

open DuckLisp.Alloc

/-- The live allocations: addresses and the numbers of bytes asked for. -/
abbrev Live := List (Nat × Nat)

/-- A call of the allocator. -/
inductive Request where
  | allocate (bytes : Nat)
  | release (pointer : Option Nat)
  | resize (pointer : Nat) (bytes : Nat)

/-- A call, its result, and what is live afterwards. -/
inductive Call : State → Live → Request → State → Live → Prop where
  | allocated {s s' : State} {live : Live} {n p : Nat} :
      malloc n s = .ok p s' → Call s live (.allocate n) s' ((p, n) :: live)
  | refused {s s' : State} {live : Live} {n : Nat} {e : DlError} :
      malloc n s = .error e s' → Call s live (.allocate n) s' live
  | released {s s' : State} {live : Live} {p : Nat} :
      free (some p) s = .ok () s' →
        Call s live (.release (some p)) s' (live.filter fun a => a.1 ≠ p)
  | kept {s s' : State} {live : Live} {p : Option Nat} {e : DlError} :
      free p s = .error e s' → Call s live (.release p) s' live
  | resized {s s' : State} {live : Live} {p n q : Nat} {c : Option Copy} :
      realloc (some p) n s = .ok (q, c) s' →
        Call s live (.resize p n) s' ((q, n) :: live.filter fun a => a.1 ≠ p)
  | unchanged {s s' : State} {live : Live} {p n : Nat} {e : DlError} :
      realloc (some p) n s = .error e s' → e ≠ .outOfMemory → Call s live (.resize p n) s' live

/-- Requests whose size can be rounded up in 64 bits, and pointers that are not the allocator's
own. -/
def Proper (s : State) : Request → Prop
  | .allocate n => n < 2 ^ 64 - 8
  | .release p => p ≠ some s.tableOffset
  | .resize p n => p ≠ s.tableOffset ∧ n < 2 ^ 64 - 8

/-- The block that holds the table is marked as handed out. -/
def Guarded (s : State) : Prop :=
  ∃ e, 0 ≤ s.tableIndex ∧ s.table[s.tableIndex.toNat]? = some e ∧ e.allocated = true

/-- The request is not a change of size. -/
def Request.plain : Request → Prop
  | .resize _ _ => False
  | _ => True

/-- Everything that can have happened since the allocator was set up, as long as no call left the
table unguarded.  `plain` histories contain no change of size. -/
inductive History (size : Nat) (fit : Fit) (junk : Nat → Entry) : Bool → State → Live → Prop where
  | start {s : State} {plain : Bool} : init size fit junk = .ok s → History size fit junk plain s []
  | call {s s' : State} {live live' : Live} {r : Request} {plain : Bool} :
      History size fit junk plain s live → Proper s r → (plain = true → r.plain) →
        Call s live r s' live' → Guarded s' → History size fit junk plain s' live'

/-- The blocks from entry `i` on, along the links; at most `fuel` of them. -/
def blocksFrom (table : List Entry) : Nat → Int → List Entry
  | 0, _ => []
  | fuel + 1, i =>
    if i = -1 then []
    else
      match table[i.toNat]? with
      | some e => e :: blocksFrom table fuel e.nextBlock
      | none => []

/-- The blocks, in the order of the links. -/
def blocks (s : State) : List Entry := blocksFrom s.table (s.table.length + 1) s.firstBlock

/-- The blocks lie one after the other, from `a` to `b`, and none is empty. -/
def Tile : Nat → List Entry → Nat → Prop
  | a, [], b => a = b
  | a, e :: r, b => e.block = a ∧ 0 < e.size ∧ Tile (a + e.size) r b

/-- No two neighbouring blocks are free. -/
def Coalesced : List Entry → Prop
  | a :: b :: r => (a.allocated = true ∨ b.allocated = true) ∧ Coalesced (b :: r)
  | _ => True

/-- The areas `[p, p + m)` and `[q, q + n)` do not overlap. -/
def Apart (p m q n : Nat) : Prop := p + m ≤ q ∨ q + n ≤ p

/-- The address lies in a free block. -/
def FreeAt (s : State) (a : Nat) : Prop :=
  ∃ b ∈ blocks s, b.allocated = false ∧ b.block ≤ a ∧ a < b.block + b.size

/-- What the caller sees of a call. -/
inductive Reply where
  | pointer (p : Nat)
  | done
  | failed (e : DlError)
  | undefined
  | endless
deriving DecidableEq

/-- The reply, and the state it leaves. -/
def reply {α : Type} (f : α → Reply) : Out α → Reply × Option State
  | .ok a s => (f a, some s)
  | .error e s => (.failed e, some s)
  | .undefined => (.undefined, none)
  | .endless => (.endless, none)

/-- Make a call. -/
def request (s : State) : Request → Reply × Option State
  | .allocate n => reply .pointer (malloc n s)
  | .release p => reply (fun _ => .done) (free p s)
  | .resize p n => reply (fun x => .pointer x.1) (realloc (some p) n s)

/-- Make these calls, whatever they reply: the replies and the state at the end. -/
def replies : State → List Request → List Reply × Option State
  | s, [] => ([], some s)
  | s, r :: rs =>
    match request s r with
    | (a, some s') => (a :: (replies s' rs).1, (replies s' rs).2)
    | (a, none) => ([a], none)

/-- Set the allocator up and make these calls: the replies, and where the table is at the end and how
many bytes it takes. -/
def session (size : Nat) (fit : Fit) (junk : Nat → Entry) (rs : List Request) :
    Option (List Reply × Option (Nat × Nat)) :=
  match init size fit junk with
  | .ok s => some ((replies s rs).1, (replies s rs).2.map fun s => (s.tableOffset, s.table.length * entrySize))
  | _ => none

end DuckLisp.Spec.Memory
