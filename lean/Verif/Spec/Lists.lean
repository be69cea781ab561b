import Verif.Model.VM.Types

/-!
# Lists in memory
-/

namespace DuckLisp.Spec

open DuckLisp DuckLisp.VM

/-- The cell reached from `p` by following `n` cdr links; `none` once the list has ended. -/
def follow (heap : List Obj) : Option Ref → Nat → Option Ref
  | p, 0 => p
  | none, _ + 1 => none
  | some r, n + 1 =>
      match heap[r]? with
      | some (.cons _ d) => follow heap d n
      | _ => none

/-- Following cdr links never ends. -/
def Endless (heap : List Obj) (p : Option Ref) : Prop := ∀ n, follow heap p n ≠ none

/-- Every cell on the way exists. -/
def InHeap (heap : List Obj) (p : Option Ref) : Prop :=
  ∀ n r, follow heap p n = some r → r < heap.length

/-- `Chain heap p cs tail`: the list that starts at `p` consists of the pairs `cs`, in order, and
after the last of them comes `tail`: nothing, or a cell that is not a pair. -/
inductive Chain (heap : List Obj) : Option Ref → List Ref → Option Ref → Prop
  | nil : Chain heap none [] none
  | tail {r o} (h : heap[r]? = some o) (ho : ∀ a d, o ≠ .cons a d) : Chain heap (some r) [] (some r)
  | cons {r a d cs t} (h : heap[r]? = some (.cons a d)) (ht : Chain heap d cs t) :
      Chain heap (some r) (r :: cs) t

end DuckLisp.Spec
