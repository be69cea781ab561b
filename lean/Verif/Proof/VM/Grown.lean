import Verif.Proof.VM.Vectors

/-!
# Allocation while a cell is free
-/

namespace DuckLisp.VM

open DuckLisp DuckLisp.Spec

set_option linter.unusedSectionVars false

variable [Entries]

/-- The cells of `vm'.free` are the last of those of `vm.free`, nothing else was touched. -/
structure Grown (vm vm' : VM) (k : Nat) : Prop where
  free : vm'.free = vm.free.drop k
  heap : ∀ r, r ∉ vm.free → vm'.heap[r]? = vm.heap[r]?
  length : vm'.heap.length = vm.heap.length
  roots : SameRoots vm vm'

theorem Grown.trans {a b c : VM} {k l : Nat} (h : Grown a b k) (h' : Grown b c l) : Grown a c (k + l) := by
  refine ⟨by rw [h'.free, h.free, List.drop_drop], fun r hr => ?_, by rw [h'.length, h.length], ?_⟩
  · rw [h'.heap r (fun hm => hr ?_), h.heap r hr]
    rw [h.free] at hm
    exact List.mem_of_mem_drop hm
  · exact ⟨by rw [h'.roots.stack, h.roots.stack], by rw [h'.roots.upStack, h.roots.upStack],
      by rw [h'.roots.callStack, h.roots.callStack], by rw [h'.roots.upArrays, h.roots.upArrays],
      by rw [h'.roots.globals, h.roots.globals], by rw [h'.roots.currentBytecode, h.roots.currentBytecode],
      by rw [h'.roots.nextUserType, h.roots.nextUserType]⟩

theorem Grown.live {a b : VM} {k : Nat} (h : Grown a b k) {r : Ref} {s : Shape} (hl : Live a r s) : Live b r s := by
  obtain ⟨hf, o, ho, hs⟩ := hl
  refine ⟨fun hm => hf ?_, o, by rw [h.heap r hf]; exact ho, hs⟩
  rw [h.free] at hm
  exact List.mem_of_mem_drop hm

theorem Grown.valueOk {a b : VM} {k : Nat} (h : Grown a b k) {o : Obj} (hv : ValueOk a o) : ValueOk b o :=
  valueOk_congr hv fun _ _ _ hl => h.live hl

/-- Taking a free cell. -/
theorem take_ok {vm : VM} {o : Obj} (hs : Sound vm) (hf : vm.free ≠ []) (hc : ∀ n, CellOk vm (store n o))
    (hu : ∀ n, ¬ UnderConstruction (store n o)) :
    ∃ c n vm', pushObject o vm = .ok c vm' ∧ Sound vm' ∧ (Finished vm → Finished vm') ∧ Grown vm vm' 1 ∧
      vm'.heap[c]? = some (store n o) ∧ c ∉ vm'.free := by
  cases hfree : vm.free with
  | nil => exact absurd hfree hf
  | cons r free =>
  have hnd := hs.free_nodup
  rw [hfree] at hnd
  obtain ⟨hrf, hnd'⟩ := List.nodup_cons.mp hnd
  have hrlt : r < vm.heap.length := hs.free_lt r (by simp [hfree])
  have hne : ∀ r', r' ∉ vm.free → r ≠ r' := fun r' h e => h (by simp [hfree, e])
  let vm' : VM := { vm with heap := vm.heap.set r (store vm.nextSerial o), free := free, nextSerial := vm.nextSerial + 1 }
  have hcell : vm'.heap[r]? = some (store vm.nextSerial o) := by
    show (vm.heap.set r _)[r]? = _
    rw [List.getElem?_set_self hrlt]
  have hold : ∀ r', r ≠ r' → vm'.heap[r']? = vm.heap[r']? := by
    intro r' h
    show (vm.heap.set r _)[r']? = _
    rw [List.getElem?_set_ne h]
  have hg : Grown vm vm' 1 :=
    ⟨by simp [vm', hfree], fun r' h => hold r' (hne r' h), by simp [vm'], ⟨rfl, rfl, rfl, rfl, rfl, rfl, rfl⟩⟩
  refine ⟨r, vm.nextSerial, vm', pushObject_take hfree, ?_, ?_, hg, hcell, hrf⟩
  · refine sound_heap hs hg.roots hg.length (fun _ _ => hg.live) ?_ hnd' ?_ ?_
    · intro r' h; rw [hfree]; exact List.mem_cons_of_mem _ h
    · intro r' h; exact hold r' (fun e => hrf (e ▸ h))
    · intro r' o' ho' hf'
      by_cases hrr : r = r'
      · subst hrr
        rw [hcell] at ho'
        cases ho'
        exact .inr (cellOk_congr (hc _) fun _ _ _ _ => hg.live)
      · rw [hold r' hrr] at ho'
        refine .inl ⟨ho', fun h => ?_⟩
        rw [hfree] at h
        rcases List.mem_cons.mp h with h | h
        · exact hrr h.symm
        · exact hf' h
  · intro hfin r' o' ho' hf'
    by_cases hrr : r = r'
    · subst hrr
      rw [hcell] at ho'
      cases ho'
      exact hu _
    · rw [hold r' hrr] at ho'
      refine hfin r' o' ho' fun h => ?_
      rw [hfree] at h
      rcases List.mem_cons.mp h with h | h
      · exact hrr h.symm
      · exact hf' h

end DuckLisp.VM
