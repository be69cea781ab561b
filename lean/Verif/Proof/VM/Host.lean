import Verif.Spec.Host
import Verif.Proof.VM.Operand

/-!
# The host's view of the stack
-/

namespace DuckLisp.VM

open DuckLisp DuckLisp.Spec

theorem M.bind_assoc {α β γ : Type} (m : M α) (f : α → M β) (g : β → M γ) :
    (m >>= f) >>= g = m >>= fun a => f a >>= g := by
  funext s
  simp only [M.bind_run]
  cases m s <;> rfl

theorem getTop_some {vm : VM} {o : Obj} (h : operand vm 1 = some o) : getTop vm = .ok o vm := by
  have : vm.stack.getLast? = some o := by
    simpa [operand, List.getLast?_eq_head?_reverse, List.head?_eq_getElem?] using h
  unfold getTop M.orErr
  rw [this]
  rfl

theorem getTop_none {vm : VM} (h : vm.stack = []) : getTop vm = .err .bufferUnderflow vm := by
  unfold getTop M.orErr
  rw [h]
  rfl

theorem operand_pushed (vm : VM) (o : Obj) : operand (pushed vm o) 1 = some o := by
  simp [operand, pushed]

theorem setTop_some {vm : VM} {o o' : Obj} (h : operand vm 1 = some o) :
    setTop o' vm = .ok () (topSet vm o') := by
  unfold setTop topSet
  have hne : vm.stack ≠ [] := by
    intro h0
    rw [operand, h0] at h
    simp at h
  obtain ⟨l, x, hl⟩ : ∃ l x, vm.stack = l ++ [x] := ⟨_, _, (List.dropLast_concat_getLast hne).symm⟩
  rw [hl]
  cases hlx : l ++ [x] with
  | nil => simp at hlx
  | cons a as =>
    simp only
    rw [← hlx]
    simp

theorem topSet_pushed (vm : VM) (o o' : Obj) : topSet (pushed vm o) o' = pushed vm o' := by
  simp [topSet, pushed]

theorem stackGet_eq (vm : VM) (i : Int) : stackGet i vm =
    match slot vm i with
    | some o => .ok o vm
    | none => .err .invalidValue vm := by
  unfold stackGet slot slotNumber
  rw [M.bind_ok (m := height) (a := vm.stack.length) (s' := vm) rfl]
  unfold getAbs
  generalize (if i < 0 then (vm.stack.length : Int) + i else i) = j
  by_cases hj : 0 ≤ j
  · simp only [hj, if_true]
    cases vm.stack[j.toNat]? <;> rfl
  · simp only [hj, if_false]

theorem stackSet_eq (vm : VM) (o : Obj) (i : Int) : stackSet o i vm =
    if (slot vm i).isSome then
      .ok () { vm with stack := vm.stack.set (slotNumber vm i).toNat o }
    else .err .invalidValue vm := by
  unfold stackSet slot slotNumber
  rw [M.bind_ok (m := height) (a := vm.stack.length) (s' := vm) rfl]
  unfold setAbs
  generalize (if i < 0 then (vm.stack.length : Int) + i else i) = j
  by_cases hj : 0 ≤ j
  · by_cases h : j.toNat < vm.stack.length
    · simp [hj, h]
    · simp [hj, h]
  · simp [hj]

theorem popStack_pushed (vm : VM) (o : Obj) : popStack (pushed vm o) = .ok o vm := by
  unfold popStack pushed
  simp only [List.getLast?_append, List.getLast?_singleton, Option.some_or, List.dropLast_concat]
  cases hup : vm.upStack ++ [none] with
  | nil => simp at hup
  | cons u us =>
    simp only

theorem slot_mem {vm : VM} {i : Int} {o : Obj} (h : slot vm i = some o) : o ∈ vm.stack := by
  unfold slot at h
  split at h
  · exact List.mem_of_getElem? h
  · cases h

end DuckLisp.VM
