import Verif.Model.Basic

/-!
# Specification: comparison functions and sorted ranges
-/

namespace DuckLisp.Spec

/-- A comparison callback that behaves as a total preorder: swapping the arguments flips the
sign, and "not greater" is transitive. -/
structure IsTotalPreorder {α : Type} (cmp : α → α → Int) : Prop where
  flip : ∀ a b, cmp a b > 0 ↔ cmp b a < 0
  trans : ∀ a b c, cmp a b ≤ 0 → cmp b c ≤ 0 → cmp a c ≤ 0

/-- The `n` elements of `xs` from index `low` on. -/
def slice {α : Type} (xs : List α) (low n : Nat) : List α := (xs.drop low).take n

/-- `ys` is the result of sorting the `n` elements of `xs` from index `low` on: those are a
permutation of what was there, in non-decreasing order, and everything else is unchanged. -/
structure SortedRange {α : Type} (cmp : α → α → Int) (xs ys : List α) (low n : Nat) : Prop where
  length : ys.length = xs.length
  before : ys.take low = xs.take low
  after : ys.drop (low + n) = xs.drop (low + n)
  perm : (slice ys low n).Perm (slice xs low n)
  sorted : (slice ys low n).Pairwise (fun a b => cmp a b ≤ 0)

end DuckLisp.Spec
