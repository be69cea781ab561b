import Verif.Model.Basic

/-!
# Model of /repo/DuckLib/sort.c

The array is a `List α`: `array + i * size` is the element with index `i` (elements of `size`
bytes are the values of `α`; `swap` copies whole elements).  Reading or writing an index outside
the list is `Res.ub`.  The comparison callback is a pure function into `Int`.
Indices that the code computes as `dl_ptrdiff_t` are `Nat` where they cannot be negative.
-/

namespace DuckLisp.Sort

variable {α : Type}

/-- Read element `i`. -/
def rd (xs : List α) (i : Nat) : Res α :=
  match xs[i]? with
  | some a => .ok a
  | none => .ub

/-- sort.c:4-10 `swap` of elements `i` and `j`. -/
def swap (xs : List α) (i j : Nat) : Res (List α) :=
  match xs[i]?, xs[j]? with
  | some a, some b => .ok ((xs.set i b).set j a)
  | _, _ => .ub

/-- sort.c:19-23: `(idx < length) && comparison(array[idx], array[largest]) > 0 ? idx : largest`. -/
def pick (cmp : α → α → Int) (xs : List α) (length idx largest : Nat) : Res Nat :=
  if idx < length then do
    let a ← rd xs idx
    let b ← rd xs largest
    if cmp a b > 0 then .ok idx else .ok largest
  else .ok largest

/-- sort.c:14-29 `max_heapify`.  Node `i` has children `2i` and `2i+1`.  The fuel bounds the
depth of the recursion. -/
def maxHeapify (cmp : α → α → Int) : Nat → List α → Nat → Nat → Res (List α)
  | 0, _, _, _ => .timeout
  | fuel + 1, xs, length, i => do
    let largest ← pick cmp xs length (2 * i) i
    let largest ← pick cmp xs length (2 * i + 1) largest
    if largest ≠ i then
      let xs ← swap xs i largest
      maxHeapify cmp fuel xs length largest
    else .ok xs

/-- The loop of sort.c:32-34, counting `i` down to 0. -/
def heapifyLoop (cmp : α → α → Int) (fuel : Nat) (length : Nat) : Nat → List α → Res (List α)
  | 0, xs => maxHeapify cmp fuel xs length 0
  | i + 1, xs => do
    let xs ← maxHeapify cmp fuel xs length (i + 1)
    heapifyLoop cmp fuel length i xs

/-- sort.c:31-35 `heapify`.  For `length == 0` the start index `(length - 1)/2` wraps around to
2^63 - 1: the code reads far out of bounds. -/
def heapify (cmp : α → α → Int) (fuel : Nat) (xs : List α) (length : Nat) : Res (List α) :=
  if length = 0 then .ub else heapifyLoop cmp fuel length ((length - 1) / 2) xs

/-- The loop of sort.c:41-47, counting `end` down to 1. -/
def heapsortLoop (cmp : α → α → Int) (fuel : Nat) : Nat → List α → Res (List α)
  | 0, xs => .ok xs
  | e + 1, xs => do
    let xs ← swap xs 0 (e + 1)
    let xs ← heapify cmp fuel xs (e + 1)
    heapsortLoop cmp fuel e xs

/-- sort.c:37-48 `heapsort` of the first `length` elements. -/
def heapsort (cmp : α → α → Int) (fuel : Nat) (xs : List α) (length : Nat) : Res (List α) := do
  let xs ← heapify cmp fuel xs length
  heapsortLoop cmp fuel (length - 1) xs

/-- The loop of sort.c:61-66 with `n` iterations to go, at index `i`; `idx` is `index + 1`. -/
def lomutoLoop (cmp : α → α → Int) (pivot : α) : Nat → List α → Nat → Nat → Res (List α × Nat)
  | 0, xs, _, idx => .ok (xs, idx)
  | n + 1, xs, i, idx => do
    let a ← rd xs i
    if cmp a pivot ≤ 0 then
      let xs ← swap xs idx i
      lomutoLoop cmp pivot n xs (i + 1) (idx + 1)
    else lomutoLoop cmp pivot n xs (i + 1) idx

/-- sort.c:53-70 `partition_lomuto` (called with `0 <= low < high`). -/
def partitionLomuto (cmp : α → α → Int) (xs : List α) (low high : Nat) : Res (List α × Nat) := do
  let pivot ← rd xs high
  let (xs, idx) ← lomutoLoop cmp pivot (high - low) xs low low
  let xs ← swap xs idx high
  .ok (xs, idx)

/-- sort.c:72-81 `quicksort_lomuto`. -/
def quicksortLomuto (cmp : α → α → Int) : Nat → List α → Int → Int → Res (List α)
  | 0, _, _, _ => .timeout
  | fuel + 1, xs, low, high =>
    if low ≥ high ∨ low < 0 then .ok xs
    else do
      let (xs, pivot) ← partitionLomuto cmp xs low.toNat high.toNat
      let xs ← quicksortLomuto cmp fuel xs low ((pivot : Int) - 1)
      quicksortLomuto cmp fuel xs ((pivot : Int) + 1) high

/-- sort.c:97 `do left_index++; while (comparison(...) < 0)`, from the incremented index `l` on. -/
def scanUp (cmp : α → α → Int) (pivot : α) (xs : List α) (l : Nat) : Res Nat :=
  if h : l < xs.length then
    if cmp xs[l] pivot < 0 then scanUp cmp pivot xs (l + 1) else .ok l
  else .ub
termination_by xs.length - l

/-- sort.c:98 `do --right_index; while (comparison(...) > 0)`, from the decremented index `r` on. -/
def scanDown (cmp : α → α → Int) (pivot : α) (xs : List α) : Nat → Res Nat
  | 0 => do
    let a ← rd xs 0
    if cmp a pivot > 0 then .ub else .ok 0
  | r + 1 => do
    let a ← rd xs (r + 1)
    if cmp a pivot > 0 then scanDown cmp pivot xs r else .ok (r + 1)

/-- The loop of sort.c:96-103; `l` and `r` are `left_index + 1` and `right_index - 1`. -/
def hoareLoop (cmp : α → α → Int) (pivot : α) : Nat → List α → Nat → Nat → Res (List α × Nat)
  | 0, _, _, _ => .timeout
  | fuel + 1, xs, l, r => do
    let l ← scanUp cmp pivot xs l
    let r ← scanDown cmp pivot xs r
    if l ≥ r then .ok (xs, r)
    else
      let xs ← swap xs l r
      hoareLoop cmp pivot fuel xs (l + 1) (r - 1)

/-- sort.c:86-104 `partition_hoare` (called with `0 <= low < high`). -/
def partitionHoare (cmp : α → α → Int) (fuel : Nat) (xs : List α) (low high : Nat) :
    Res (List α × Nat) := do
  let pivot ← rd xs ((high + low) / 2)
  hoareLoop cmp pivot fuel xs low high

/-- sort.c:106-116 `quicksort_hoare`. -/
def quicksortHoare (cmp : α → α → Int) : Nat → List α → Int → Int → Res (List α)
  | 0, _, _, _ => .timeout
  | fuel + 1, xs, low, high =>
    if 0 ≤ low ∧ 0 ≤ high ∧ low < high then do
      let (xs, pivot) ← partitionHoare cmp (fuel + 1) xs low.toNat high.toNat
      let xs ← quicksortHoare cmp fuel xs low pivot
      quicksortHoare cmp fuel xs ((pivot : Int) + 1) high
    else .ok xs

end DuckLisp.Sort
