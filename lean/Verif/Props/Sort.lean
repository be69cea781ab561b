import Verif.Proof.Sort

/-!
# C03: every sort routine sorts

`fuel` only bounds the recursion depth of the model; the theorems say how much is always enough,
so they also establish termination.  The result `.ok` means that no index outside the array was
read or written.
-/

namespace DuckLisp.Sort
open DuckLisp.Spec

/-- **C03, heapsort.** For every total preorder and every non-empty range at the start of an
array. -/
theorem C03_heapsort_sorts {α : Type} {cmp : α → α → Int} (H : IsTotalPreorder cmp)
    (xs : List α) (n fuel : Nat) (h0 : 0 < n) (hn : n ≤ xs.length) (hf : n ≤ fuel) :
    ∃ ys, heapsort cmp fuel xs n = .ok ys ∧ SortedRange cmp xs ys 0 n :=
  heapsort_ok H fuel xs n h0 hn hf

/-- **C03, quicksort_lomuto.** For every total preorder and every range inside an array. -/
theorem C03_quicksort_lomuto_sorts {α : Type} {cmp : α → α → Int} (H : IsTotalPreorder cmp)
    (xs : List α) (low n fuel : Nat) (hn : low + n ≤ xs.length) (hf : n < fuel) :
    ∃ ys, quicksortLomuto cmp fuel xs low ((low : Int) + n - 1) = .ok ys ∧
      SortedRange cmp xs ys low n := by
  obtain ⟨ys, e, s, o⟩ := quicksortLomuto_aux H fuel xs low ((low : Int) + n - 1) (by omega)
    (by omega) (by omega) (by omega)
  have h1 : ((low : Int)).toNat = low := by omega
  have h2 : ((low : Int) + n - 1 + 1).toNat = low + n := by omega
  rw [h1, h2] at s o
  exact ⟨ys, e, sortedRange_of s o⟩

/-- **C03, quicksort_hoare.** For every total preorder and every range inside an array. -/
theorem C03_quicksort_hoare_sorts {α : Type} {cmp : α → α → Int} (H : IsTotalPreorder cmp)
    (xs : List α) (low n fuel : Nat) (hn : low + n ≤ xs.length) (hf : n < fuel) :
    ∃ ys, quicksortHoare cmp fuel xs low ((low : Int) + n - 1) = .ok ys ∧
      SortedRange cmp xs ys low n := by
  obtain ⟨ys, e, s, o⟩ := quicksortHoare_aux H fuel xs low ((low : Int) + n - 1) (by omega)
    (by omega) (by omega) (by omega)
  have h1 : ((low : Int)).toNat = low := by omega
  have h2 : ((low : Int) + n - 1 + 1).toNat = low + n := by omega
  rw [h1, h2] at s o
  exact ⟨ys, e, sortedRange_of s o⟩

/-- Heap sorting an empty range is undefined behaviour (the start index wraps around). -/
theorem C03_heapsort_empty_ub {α : Type} (cmp : α → α → Int) (fuel : Nat) (xs : List α) :
    heapsort cmp fuel xs 0 = .ub := rfl

/-- Integer difference is a total preorder, so the hypotheses can be met. -/
theorem intCmp_preorder : IsTotalPreorder (fun a b : Int => a - b) :=
  ⟨fun a b => by omega, fun a b c => by omega⟩

/-- A preorder with ties: compare by the first component only. -/
theorem fstCmp_preorder : IsTotalPreorder (fun a b : Int × Nat => a.1 - b.1) :=
  ⟨fun a b => by omega, fun a b c => by omega⟩

example : heapsort (fun a b : Int => a - b) 7 [3, -1, 3, 0, 9, 2, 2] 7 = .ok [-1, 0, 2, 2, 3, 3, 9] := by
  decide +kernel
example : quicksortLomuto (fun a b : Int => a - b) 8 [3, -1, 3, 0, 9, 2, 2] 0 6 =
    .ok [-1, 0, 2, 2, 3, 3, 9] := by decide +kernel
example : quicksortHoare (fun a b : Int => a - b) 8 [3, -1, 3, 0, 9, 2, 2] 0 6 =
    .ok [-1, 0, 2, 2, 3, 3, 9] := by decide +kernel

#print axioms C03_heapsort_sorts
#print axioms C03_quicksort_lomuto_sorts
#print axioms C03_quicksort_hoare_sorts
#print axioms C03_heapsort_empty_ub

end DuckLisp.Sort
