import Verif.Proof.VM.Lists
import Verif.Proof.VM.Operand

/-!
# C28: cyclic lists
-/

namespace DuckLisp.VM

open DuckLisp DuckLisp.Spec

/-- C28: the cycle check always terminates, leaves the machine as it is, and answers yes exactly if
following cdr links from the list never ends - however long the list is, and wherever it joins
itself. -/
theorem C28_cycle_check_is_exact (vm : VM) (p : Option Nat) (hin : InHeap vm.heap p) :
    (Endless vm.heap p → listIsCyclic p vm = .ok true vm) ∧
    (¬ Endless vm.heap p → listIsCyclic p vm = .ok false vm) := by
  obtain ⟨b, hb, hiff⟩ := listIsCyclic_correct vm p hin
  refine ⟨fun h => ?_, fun h => ?_⟩
  · rw [hb, hiff.mpr h]
  · cases b with
    | true => exact absurd (hiff.mp rfl) h
    | false => exact hb

theorem live_inHeap {vm : VM} (hs : Sound vm) {p : Option Nat} (hp : PartOk vm p) :
    InHeap vm.heap p := by
  intro n
  induction n generalizing p with
  | zero =>
      intro r hr
      simp only [follow] at hr
      subst hr
      rcases hp with ⟨-, o, ho, -⟩ | ⟨-, o, ho, -⟩ <;> exact (List.getElem?_eq_some_iff.mp ho).1
  | succ n ih =>
      intro r hr
      cases p with
      | none => simp [follow] at hr
      | some q =>
          simp only [follow] at hr
          split at hr
          · rename_i a d ho
            have hf : q ∉ vm.free := by rcases hp with ⟨h, -⟩ | ⟨h, -⟩ <;> exact h
            exact ih (hs.cells q _ ho hf).2 r hr
          · cases hr

/-- In a sound machine every list on the stack meets the hypothesis of the theorem above. -/
theorem list_inHeap {vm : VM} (hs : Sound vm) {p : Option Nat} (hp : ValueOk vm (.list p)) :
    InHeap vm.heap p := by
  cases p with
  | none => exact live_inHeap hs (p := none) trivial
  | some r => exact live_inHeap hs (p := some r) (Or.inr hp)

/-- C28, as seen by a program: `length` of a list ends with an error if the list is cyclic, and with
the number of its pairs otherwise; it always comes back and changes nothing else. -/
theorem C28_length_of_any_list (env : Env) (bc : Nat) (st nx : CodePtr) (vm : VM) (hs : Sound vm)
    (a : Nat) (p : Option Nat) (ho : operand vm a = some (.list p)) :
    (Endless vm.heap p → exec env bc st nx (.length a) vm = .err .invalidValue vm) ∧
    (¬ Endless vm.heap p → ∃ cs t, Chain vm.heap p cs t ∧
      exec env bc st nx (.length a) vm = .ok (.goto nx) (pushed vm (.integer cs.length))) := by
  have hin := list_inHeap hs (hs.stack _ (operand_mem ho))
  have hc := C28_cycle_check_is_exact vm p hin
  refine ⟨fun h => ?_, fun h => ?_⟩
  · refine exec_plain_err trivial ?_
    show unary a lengthValue vm = _
    rw [unary_eq _ ho]
    simp only [lengthValue]
    rw [M.bind_ok (hc.1 h)]
    rfl
  · obtain ⟨cs, t, hch⟩ := chain_of_not_endless hin h
    refine ⟨cs, t, hch, exec_plain_ok trivial (unary_ok _ ho ?_)⟩
    have hn := countConses_chain vm hch (vm.heap.length + 1) (by
      have := chain_length hch
      omega)
    simp only [lengthValue]
    rw [M.bind_ok (hc.2 h)]
    show (do
      let s ← M.get
      return Obj.integer (← countConses s.heap (s.heap.length + 1) p) : M Obj) vm = _
    have hg : M.get vm = .ok vm vm := rfl
    rw [M.bind_ok hg, M.bind_ok hn]
    rfl

/-- A list of three pairs whose last cdr leads back to the second, and a proper list of two. -/
def cyclicVM : VM :=
  { heap := [.cons none (some 1), .cons none (some 2), .cons none (some 1),
      .cons none (some 4), .cons none none]
    free := []
    stack := [.list (some 0), .list (some 3)], upStack := [none, none] }

theorem cyclicVM_endless : Endless cyclicVM.heap (some 0) := by
  have key : ∀ n, follow cyclicVM.heap (some 1) n ≠ none ∧ follow cyclicVM.heap (some 2) n ≠ none := by
    intro n
    induction n with
    | zero => simp [follow]
    | succ n ih => exact ⟨ih.2, ih.1⟩
  intro n
  cases n with
  | zero => simp [follow]
  | succ n => exact (key n).1

example : listIsCyclic (some 0) cyclicVM = .ok true cyclicVM := by decide +kernel
example : listIsCyclic (some 3) cyclicVM = .ok false cyclicVM := by decide +kernel
example : Chain cyclicVM.heap (some 3) [3, 4] none := .cons rfl (.cons rfl .nil)
example : operand cyclicVM 2 = some (.list (some 0)) := rfl
theorem cyclicVM_sound : Sound cyclicVM where
  free_nodup := by decide
  free_lt := by simp [cyclicVM]
  free_empty := by simp [cyclicVM]
  heap_size := by decide
  stack := by
    intro o ho
    simp [cyclicVM] at ho
    rcases ho with rfl | rfl <;> exact ⟨by simp [cyclicVM], _, rfl, rfl⟩
  captured := by simp [cyclicVM]
  globals := by simp [cyclicVM]
  frames := by simp [cyclicVM]
  running := by simp [cyclicVM]
  cells := by
    intro r o ho _
    have hl : ∀ r, r < 5 → PartOk cyclicVM (some r) := by
      intro r hr
      refine Or.inr ⟨by simp [cyclicVM], ?_⟩
      match r, hr with
      | 0, _ => exact ⟨_, rfl, rfl⟩
      | 1, _ => exact ⟨_, rfl, rfl⟩
      | 2, _ => exact ⟨_, rfl, rfl⟩
      | 3, _ => exact ⟨_, rfl, rfl⟩
      | 4, _ => exact ⟨_, rfl, rfl⟩
    match r, ho with
    | 0, ho => cases ho; exact ⟨trivial, hl 1 (by decide)⟩
    | 1, ho => cases ho; exact ⟨trivial, hl 2 (by decide)⟩
    | 2, ho => cases ho; exact ⟨trivial, hl 1 (by decide)⟩
    | 3, ho => cases ho; exact ⟨trivial, hl 4 (by decide)⟩
    | 4, ho => cases ho; exact ⟨trivial, trivial⟩

#print axioms C28_cycle_check_is_exact
#print axioms C28_length_of_any_list

end DuckLisp.VM
