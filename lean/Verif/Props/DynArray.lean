import Verif.Proof.DynArray

/-!
# C02: dynamic arrays behave as lists

Specification: `Verif/Spec/ListOps.lean` (`listStep`, `listRun`): what each call returns and leaves
behind on a mathematical list.
-/

namespace DuckLisp.C02
open DuckLisp.DynArray DuckLisp.Spec

/-- For every history of well-formed calls on a new array, with either growth strategy and any
contents of freshly allocated memory, if allocation never fails then nothing is undefined, every
call returns what it returns on a mathematical list, and finally every index reads the element of
that list, the allocated block covering the elements.  This covers underflow and out-of-range
errors: `listStep` leaves the list unchanged there.

Missing (see `C02_failed_allocation_loses_contents`): contents surviving a failed allocation. -/
theorem C02_array_is_list_partial (size : Nat) (hsize : 0 < size) (strategy : Strategy)
    (history : List (Oracle × Op)) (hok : ∀ p ∈ history, OpOk size p.2)
    (halloc : ∀ p ∈ history, ∀ s, p.1 s ≠ none) :
    ∃ a, run (init size strategy) history =
        some (a, (listRun size [] (history.map (·.2))).2) ∧
      (∀ (i : Nat), DynArray.get a i = some (a,
        match (listRun size [] (history.map (·.2))).1[i]? with
        | some e => .ok [e]
        | none => .error .invalidValue)) ∧
      a.length = (listRun size [] (history.map (·.2))).1.length ∧
      a.length * size ≤ (a.elements.getD []).length := by
  have h := init_rep size hsize strategy
  obtain ⟨a, e, r, hsz⟩ := run_spec history _ _ h (fun p hp => ⟨hok p hp, halloc p hp⟩)
  have hse : (init size strategy).elementSize = size := rfl
  rw [hse] at e r hsz
  refine ⟨a, e, ?_, r.length, ?_⟩
  · intro i
    have hg := step_spec (o := fun _ => some fun _ => 0) r (.get i) trivial
    rcases hg with ⟨a', e', _, _⟩ | ⟨_, s, hs⟩
    · simp only [DynArray.get]
      by_cases hi : (i : Int) ≥ 0 ∧ (i : Int) < a.length
      · rw [if_pos hi]
        have hi' : i < (listRun size [] (history.map (·.2))).1.length := by
          have := r.length; omega
        have := read_one r i hi'
        rw [Int.toNat_natCast, this, List.getElem?_eq_getElem hi']
      · rw [if_neg hi, List.getElem?_eq_none (by have := r.length; omega)]
    · cases hs
  · have h1 := r.cap; have h2 := r.block; have h3 := r.length
    rw [hsz] at h1
    rw [h3]; omega

/-- After any history without allocation failure, one more call whose allocations may fail either
returns what the list operation returns or reports `outOfMemory`; it is never undefined. -/
theorem C02_failing_call_partial (size : Nat) (hsize : 0 < size) (strategy : Strategy)
    (history : List (Oracle × Op)) (hok : ∀ p ∈ history, OpOk size p.2)
    (halloc : ∀ p ∈ history, ∀ s, p.1 s ≠ none) (o : Oracle) (op : Op) (hop : OpOk size op) :
    ∃ a, run (init size strategy) history = some (a, (listRun size [] (history.map (·.2))).2) ∧
      ((∃ a', step o a op =
          some (a', (listStep size (listRun size [] (history.map (·.2))).1 op).2)) ∨
       (∃ a', step o a op = some (a', .error .outOfMemory) ∧ ∃ s, o s = none)) := by
  obtain ⟨a, e, r, hsz⟩ := run_spec history _ _ (init_rep size hsize strategy)
    (fun p hp => ⟨hok p hp, halloc p hp⟩)
  have hse : (init size strategy).elementSize = size := rfl
  rw [hse] at e r hsz
  refine ⟨a, e, ?_⟩
  rcases step_spec (o := o) r op (by rw [hsz]; exact hop) with ⟨a', h1, _⟩ | ⟨h1, h2⟩
  · rw [hsz] at h1; exact Or.inl ⟨a', h1⟩
  · exact Or.inr ⟨_, h1, h2⟩

/-- The code does not keep the contents when an allocation fails: after one successful push, a push
whose `realloc` fails reports `outOfMemory` but leaves an array of length one without a block, and
reading element 0, an index in range, is undefined.  (`dl_realloc` overwrites the caller's pointer
with the null result, memory.c:945-952, and array.c:73 stores it back.) -/
theorem C02_failed_allocation_loses_contents (strategy : Strategy) (e : Byte) :
    ∃ a, run (init 1 strategy)
        [(fun _ => some fun _ => 0, .push (some [e])), (fun _ => none, .pushMany 2 none)] =
      some (a, [.ok [], .error .outOfMemory]) ∧ a.length = 1 ∧
      step (fun _ => none) a (.get 0) = none := by
  cases strategy
  · exact ⟨⟨none, 1, 1, 1, .fit⟩, by rfl, rfl, rfl⟩
  · exact ⟨⟨none, 1, 1, 2, .double⟩, by rfl, rfl, rfl⟩

/-- Non-vacuity: a history with pushes, growth, an underflow, a bad index and a clear. -/
def exampleHistory : List (Oracle × Op) :=
  [.push (some [1, 2]), .pushMany 3 none, .set [7, 8] 2, .popMany 2, .get 9, .popMany 5,
    .append [[5, 5], [6, 6]], .clear, .pop, .push none].map
  fun op => (fun _ => some fun _ => 170, op)

example : (∀ p ∈ exampleHistory, ∀ s, p.1 s ≠ none) ∧
    (listRun 2 [] (exampleHistory.map (·.2))).1 = [[0, 0]] := by
  constructor
  · intro p hp s
    simp only [exampleHistory, List.mem_map] at hp
    obtain ⟨op, _, rfl⟩ := hp
    simp
  · decide

example : (run (init 2 .double) exampleHistory).map (·.2.length) = some 10 := by rfl

#print axioms C02_array_is_list_partial
#print axioms C02_failing_call_partial
#print axioms C02_failed_allocation_loses_contents

end DuckLisp.C02
