import Verif.Proof.VM.Heap

/-!
# C25, C26, C27: collection and allocation
-/

namespace DuckLisp.VM

open DuckLisp DuckLisp.Spec

/-- C25: a collection keeps every object the program can reach from the stack, the globals,
captured variables and code, with its contents unchanged, and leaves the roots themselves alone.

Partial: it assumes that no reachable vector is still being built (the `vector` instruction can
trigger a collection in that situation, see `C31_vector_loses_elements`), and covers
what the calls in progress hold only if that is reachable in another way as well (see
`C25_running_function_loses_captures`). -/
theorem C25_collection_keeps_reachable_partial {vm vm' : VM}
    (h : garbageCollect vm = .ok () vm') (hs : Settled vm) :
    (∀ r o, Reachable vm r → vm.heap[r]? = some o →
      r ∉ vm'.free ∧ vm'.heap[r]? = some o) ∧
    ((∀ r, Held vm r → Reachable vm r) → ∀ r o, InUse vm r → vm.heap[r]? = some o →
      r ∉ vm'.free ∧ vm'.heap[r]? = some o) ∧
    vm'.stack = vm.stack ∧ vm'.upStack = vm.upStack ∧ vm'.callStack = vm.callStack ∧
    vm'.upArrays = vm.upArrays ∧ vm'.globals = vm.globals ∧
    vm'.currentBytecode = vm.currentBytecode := by
  obtain ⟨u, hu, -⟩ := garbageCollect_eq h
  obtain ⟨-, h2, h3, -⟩ := garbageCollect_marks hu h
  obtain ⟨s1, s2, s3, s4, s5, s6, -, -⟩ := garbageCollect_same h
  have key : ∀ r o, Reachable vm r → vm.heap[r]? = some o →
      r ∉ vm'.free ∧ vm'.heap[r]? = some o := by
    intro r o hr ho
    have hmark := (markAll_iff hu hs.1 hs.2 r).mpr hr
    refine ⟨fun hf => ((h3 r).mp hf).2 hmark, ?_⟩
    rw [h2 r o ho, if_pos hmark]
  refine ⟨key, ?_, s1, s2, s3, s4, s5, s6⟩
  intro hheld r o hr ho
  refine key r o ?_ ho
  clear ho
  induction hr with
  | root h => exact .root h
  | held h => exact hheld _ h
  | step _ ho hm ih => exact .step ih ho hm

/-- C25: a collection never touches memory it must not (it finishes, and finishes without undefined
behaviour), provided every reference the program can follow leads into the heap. -/
theorem C25_collection_is_safe {vm : VM} (h : WellFormed vm) :
    ∃ vm', garbageCollect vm = .ok () vm' := garbageCollect_total h.1 h.2

/-- A machine whose stack holds a one-element list that contains itself, and a global bound to an
integer; cells 2 and 3 are garbage. -/
def exampleVM : VM :=
  { heap := [.cons (some 1) (some 0), .integer 7, .cons (some 3) none, .integer 8]
    free := []
    stack := [.integer 1, .list (some 0)]
    upStack := [none, none]
    globals := [(5, some 1)] }

example : garbageCollect exampleVM = .ok () { exampleVM with free := [3, 2] } := by decide +kernel

example : Settled exampleVM := by
  have hh : ∀ (r : Nat) o, exampleVM.heap[r]? = some o → ¬ UnderConstruction o := by
    intro r o ho
    match r, ho with
    | 0, ho => simp [exampleVM] at ho; subst ho; simp [UnderConstruction]
    | 1, ho => simp [exampleVM] at ho; subst ho; simp [UnderConstruction]
    | 2, ho => simp [exampleVM] at ho; subst ho; simp [UnderConstruction]
    | 3, ho => simp [exampleVM] at ho; subst ho; simp [UnderConstruction]
    | n + 4, ho => simp [exampleVM] at ho
  exact ⟨by simp [exampleVM, UnderConstruction], fun r o _ ho => hh r o ho⟩

/-- C26: after a collection the free list holds exactly the cells of the heap that the program
cannot reach, each exactly once. -/
theorem C26_collection_reclaims_unreachable {vm vm' : VM}
    (h : garbageCollect vm = .ok () vm') :
    vm'.heap.length = vm.heap.length ∧ vm'.free.Nodup ∧
    (∀ r ∈ vm'.free, r < vm.heap.length) ∧
    (∀ r, r < vm.heap.length → ¬ Reachable vm r → r ∈ vm'.free) ∧
    (Settled vm → ∀ r ∈ vm'.free, ¬ Reachable vm r) := by
  obtain ⟨u, hu, -⟩ := garbageCollect_eq h
  obtain ⟨h1, h2, h3, h4⟩ := garbageCollect_marks hu h
  refine ⟨h1, h4, fun r hr => ((h3 r).mp hr).1, ?_, ?_⟩
  · intro r hr hnr
    exact (h3 r).mpr ⟨hr, fun hm => hnr ((markAll_spec hu).2.2.1 r hm).reachable⟩
  · intro hs r hr hreach
    exact ((h3 r).mp hr).2 ((markAll_iff hu hs.1 hs.2 r).mpr hreach)

/-- Whether a cell owns something that has to be given back exactly once: a malloc'd block, or a
destructor that has to run. -/
def Owns : Obj → Prop
  | .upvalueArray b _ => b.isSome
  | .internalVector vs _ init => vs.isSome ∧ init
  | .bytecode b _ => b.isSome
  | .internalString v _ => v.isSome
  | .user _ _ d => d
  | _ => False

/-- C26: a cell on the free list after a collection owns nothing any more, so a later collection
that finds it unused again has nothing to free a second time. -/
theorem C26_freed_once {vm vm' : VM} (h : garbageCollect vm = .ok () vm') :
    ∀ r ∈ vm'.free, ∀ o, vm'.heap[r]? = some o → ¬ Owns o := by
  obtain ⟨u, hu, -⟩ := garbageCollect_eq h
  obtain ⟨h1, h2, h3, h4⟩ := garbageCollect_marks hu h
  intro r hr o ho
  obtain ⟨hlt, hm⟩ := (h3 r).mp hr
  have := h2 r _ (List.getElem?_eq_getElem hlt)
  rw [if_neg hm] at this
  rw [this] at ho
  cases ho
  generalize vm.heap[r] = o
  cases o <;> simp [release, Owns]
  case internalVector vs n init => cases init <;> simp

/-- One step in the life of the heap: an allocation (successful or not), a collection, or anything
the program does to the contents of cells and to the roots between them. -/
inductive HeapStep : VM → VM → Prop
  | alloc {o r vm vm'} (h : pushObject o vm = .ok r vm') : HeapStep vm vm'
  | full {o e vm vm'} (h : pushObject o vm = .err e vm') : HeapStep vm vm'
  | collect {vm vm'} (h : garbageCollect vm = .ok () vm') : HeapStep vm vm'
  | program {vm vm'} (hf : vm'.free = vm.free) (hl : vm'.heap.length = vm.heap.length) :
      HeapStep vm vm'

/-- A history of the heap of a machine created with `n` cells. -/
inductive HeapHistory (n : Nat) : VM → Prop
  | start : HeapHistory n (init n)
  | step {vm vm'} (h : HeapHistory n vm) (hs : HeapStep vm vm') : HeapHistory n vm'

/-- C26: after any history, the cells in use and the free cells make up the whole heap, no cell is
listed as free twice, and the heap has the size the machine was created with. -/
theorem C26_cells_always_accounted_for {n : Nat} {vm : VM} (h : HeapHistory n vm) :
    vm.heap.length = n ∧ vm.free.Nodup ∧ (∀ r ∈ vm.free, r < n) ∧
    ((List.range n).filter (fun r => r ∉ vm.free)).length + vm.free.length = n := by
  have key : vm.heap.length = n ∧ Accounted vm := by
    induction h with
    | start => exact ⟨by simp [init], accounted_init n⟩
    | step _ hs ih =>
      obtain ⟨hl, ha⟩ := ih
      cases hs with
      | alloc h =>
        obtain ⟨h1, h2, -, -⟩ := accounted_pushObject ha h
        exact ⟨by omega, h1⟩
      | full h =>
        obtain ⟨-, -, hg, -⟩ := pushObject_err h
        obtain ⟨u, hu, -⟩ := garbageCollect_eq hg
        exact ⟨by rw [(garbageCollect_marks hu hg).1]; exact hl, accounted_collect hg⟩
      | collect hg =>
        obtain ⟨u, hu, -⟩ := garbageCollect_eq hg
        exact ⟨by rw [(garbageCollect_marks hu hg).1]; exact hl, accounted_collect hg⟩
      | program hf hl' =>
        refine ⟨by omega, ?_⟩
        unfold Accounted
        rw [hf, hl']
        exact ha
  obtain ⟨hl, hn, hlt⟩ := key
  rw [hl] at hlt
  refine ⟨hl, hn, hlt, ?_⟩
  clear h hl
  generalize vm.free = free at *
  have hperm : ((List.range n).filter (fun r => r ∈ free)).Perm free := by
    refine (List.perm_ext_iff_of_nodup (List.nodup_range.filter _) hn).mpr ?_
    intro a
    simp only [List.mem_filter, List.mem_range, decide_eq_true_eq]
    exact ⟨fun h => h.2, fun h => ⟨hlt a h, h⟩⟩
  have hsum := List.length_eq_countP_add_countP (fun r => decide (r ∈ free)) (l := List.range n)
  rw [List.countP_eq_length_filter, List.countP_eq_length_filter, hperm.length_eq] at hsum
  simp only [List.length_range] at hsum
  simp only [decide_eq_true_eq] at hsum
  omega

/-- A non-trivial history: allocate two objects in a heap of two cells, drop them, collect,
allocate again. -/
example : ∃ vm, HeapHistory 2 vm ∧ vm.free = [0] ∧ vm.heap[1]? = some (.integer 3) := by
  let s1 : VM := { init 2 with heap := [.none, .integer 1], free := [0], nextSerial := 1 }
  let s2 : VM := { init 2 with heap := [.integer 2, .integer 1], free := [], nextSerial := 2 }
  let s3 : VM := { init 2 with heap := [.integer 2, .integer 3], free := [0], nextSerial := 3 }
  refine ⟨s3, ?_, by decide, by decide⟩
  refine .step (.step (.step .start (vm' := s1) (.alloc (o := .integer 1) (r := 1) ?_))
    (vm' := s2) (.alloc (o := .integer 2) (r := 0) ?_)) (.alloc (o := .integer 3) (r := 1) ?_)
  all_goals decide +kernel

/-- C27: a new object is put in a cell that nothing reachable uses; every reachable object keeps its
contents, and the cell is no longer free. -/
theorem C27_allocation_takes_unused_cell {vm vm' : VM} {o : Obj} {r : Ref}
    (ha : vm.free.Nodup ∧ ∀ r ∈ vm.free, r < vm.heap.length)
    (hd : NoDangling vm) (hs : Settled vm) (h : pushObject o vm = .ok r vm') :
    r < vm.heap.length ∧ ¬ Reachable vm r ∧ r ∉ vm'.free ∧
    (∃ o', vm'.heap[r]? = some o' ∧ HoldsCopy o o') ∧
    (∀ r' o', Reachable vm r' → vm.heap[r']? = some o' →
      vm'.heap[r']? = some o' ∧ r' ∉ vm'.free) ∧
    vm'.stack = vm.stack ∧ vm'.upStack = vm.upStack ∧ vm'.callStack = vm.callStack ∧
    vm'.upArrays = vm.upArrays ∧ vm'.globals = vm.globals ∧
    vm'.currentBytecode = vm.currentBytecode := by
  obtain ⟨-, -, hlt, hnf⟩ := accounted_pushObject ha h
  obtain ⟨vm1, hvm1, free, hfree, rfl⟩ := pushObject_eq_ok h
  have key : vm1.heap.length = vm.heap.length ∧ (∀ r ∈ vm1.free, ¬ Reachable vm r) ∧
      (∀ r' o', Reachable vm r' → vm.heap[r']? = some o' → vm1.heap[r']? = some o') ∧
      vm1.stack = vm.stack ∧ vm1.upStack = vm.upStack ∧ vm1.callStack = vm.callStack ∧
      vm1.upArrays = vm.upArrays ∧ vm1.globals = vm.globals ∧
      vm1.currentBytecode = vm.currentBytecode := by
    rcases hvm1 with ⟨rfl, -⟩ | ⟨-, hg⟩
    · exact ⟨rfl, fun r hr h => hd r h hr, fun _ _ _ h => h, rfl, rfl, rfl, rfl, rfl, rfl⟩
    · obtain ⟨c1, -, c3⟩ := C25_collection_keeps_reachable_partial hg hs
      obtain ⟨d1, -, -, -, d5⟩ := C26_collection_reclaims_unreachable hg
      exact ⟨d1, d5 hs, fun r' o' hr' ho' => (c1 r' o' hr' ho').2, c3⟩
  obtain ⟨k1, k2, k3, k4⟩ := key
  have hr : ¬ Reachable vm r := k2 r (by simp [hfree])
  refine ⟨hlt, hr, hnf, ⟨store vm1.nextSerial o, by simp [k1, hlt], store_copy _ _⟩, ?_, k4⟩
  intro r' o' hr' ho'
  have hne : r ≠ r' := fun h => hr (h ▸ hr')
  refine ⟨?_, fun hf => k2 r' (by simp [hfree]; exact .inr hf) hr'⟩
  show (vm1.heap.set r _)[r']? = some o'
  rw [List.getElem?_set_ne hne]
  exact k3 r' o' hr' ho'

/-- C27: allocation fails only with "out of memory", and only when the program can reach every cell
of the heap. -/
theorem C27_allocation_fails_only_when_full {vm vm' : VM} {o : Obj} {e : DlError}
    (h : pushObject o vm = .err e vm') :
    e = .outOfMemory ∧ ∀ r, r < vm.heap.length → Reachable vm r := by
  obtain ⟨he, -, hg, hf⟩ := pushObject_err h
  refine ⟨he, ?_⟩
  intro r hr
  obtain ⟨-, -, -, h4, -⟩ := C26_collection_reclaims_unreachable hg
  rcases Classical.em (Reachable vm r) with hreach | hreach
  · exact hreach
  · have := h4 r hr hreach
    rw [hf] at this
    simp at this

/-- C27: allocation always succeeds or reports that memory is exhausted. -/
theorem C27_allocation_is_safe {vm : VM} (o : Obj) (h : WellFormed vm) :
    (∃ r vm', pushObject o vm = .ok r vm') ∨ ∃ vm', pushObject o vm = .err .outOfMemory vm' := by
  unfold pushObject
  by_cases hf : vm.free = []
  · obtain ⟨vm1, hg⟩ := C25_collection_is_safe h
    simp only [if_pos hf, hg]
    by_cases hf1 : vm1.free = []
    · exact .inr ⟨vm1, by simp [hf1]⟩
    · left
      cases hfr : vm1.free with
      | nil => exact absurd hfr hf1
      | cons r free =>
        refine ⟨r, { vm1 with heap := vm1.heap.set r (store vm1.nextSerial o), free := free, nextSerial := vm1.nextSerial + 1 }, ?_⟩
        simp [takeFree, hfr]
  · left
    cases hfr : vm.free with
    | nil => exact absurd hfr hf
    | cons r free =>
      refine ⟨r, { vm with heap := vm.heap.set r (store vm.nextSerial o), free := free, nextSerial := vm.nextSerial + 1 }, ?_⟩
      simp [takeFree, hfr]

example : pushObject (.integer 9) exampleVM =
    .ok 3 { exampleVM with heap := exampleVM.heap.set 3 (.integer 9), free := [2], nextSerial := 1 } := by
  decide +kernel

example : pushObject (.integer 9)
    { heap := [.integer 1], free := [], stack := [.composite (some 0)] } = .err .outOfMemory
    { heap := [.integer 1], free := [], stack := [.composite (some 0)] } := by decide +kernel

#print axioms C25_collection_keeps_reachable_partial
#print axioms C25_collection_is_safe
#print axioms C26_collection_reclaims_unreachable
#print axioms C26_freed_once
#print axioms C26_cells_always_accounted_for
#print axioms C27_allocation_takes_unused_cell
#print axioms C27_allocation_fails_only_when_full
#print axioms C27_allocation_is_safe

end DuckLisp.VM
