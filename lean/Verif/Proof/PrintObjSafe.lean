import Verif.Model.PrintObj
import Verif.Spec.PrintObj
import Verif.Spec.Sound
import Verif.Spec.Closures
import Verif.Spec.Lockstep

/-!
# Printing objects is safe: helper lemmas
-/

namespace DuckLisp.PrintObj

open DuckLisp DuckLisp.VM DuckLisp.DlString DuckLisp.Spec

theorem and_safe {a b : Printed} (ha : a ≠ .ub) (hb : b ≠ .ub) : a ++ b ≠ .ub := by
  cases a with
  | text s =>
    cases b with
    | text t => intro h; cases h
    | ub => exact absurd rfl hb
    | deeper => intro h; cases h
  | ub => exact absurd rfl ha
  | deeper => cases b <;> (intro h; cases h)

theorem str_safe (s : String) : str s ≠ .ub := by simp [str]
theorem size_safe (n : Nat) : size n ≠ .ub := by simp [size]
theorem number_safe (i : Int) : number i ≠ .ub := by simp [number]
theorem text_safe (t : Bytes) : Printed.text t ≠ .ub := by simp
theorem ite_safe {c : Prop} [Decidable c] {a b : Printed} (ha : a ≠ .ub) (hb : b ≠ .ub) : (if c then a else b) ≠ .ub := by
  split <;> assumption

variable [Entries]

/-- An object the printer can be given. -/
def Fine (vm : VM) (o : Obj) : Prop := ValueOk vm o ∨ ∃ r, vm.heap[r]? = some o ∧ r ∉ vm.free

variable {vm : VM} {recur : Where → Obj → Printed}

theorem fine_cell (hs : Sound vm) {o : Obj} (h : Fine vm o) : CellOk vm o := by
  rcases h with h | ⟨r, h, hf⟩
  · cases o <;> simp only [ValueOk] at h <;> simp only [CellOk, ValueOk] <;> first | exact h | exact h.elim
  · exact hs.cells r o h hf

theorem live_fine {r : Nat} {s : Shape} (h : Live vm r s) : ∃ o, vm.heap[r]? = some o ∧ shape o = s ∧ Fine vm o := by
  obtain ⟨hf, o, ho, hs⟩ := h
  exact ⟨o, ho, hs, .inr ⟨r, ho, hf⟩⟩

theorem deref_safe (hr : ∀ w o, Fine vm o → recur w o ≠ .ub) {r : Nat} {s : Shape} (h : Live vm r s) :
    deref vm recur (some r) ≠ .ub := by
  obtain ⟨o, ho, _, hf⟩ := live_fine h
  simp only [deref, ho]
  exact hr _ _ hf

theorem derefOrNull_safe (hr : ∀ w o, Fine vm o → recur w o ≠ .ub) {p : Option Nat} (h : ∀ r, p = some r → ∃ s, Live vm r s) :
    derefOrNull vm recur p ≠ .ub := by
  cases p with
  | none => exact str_safe _
  | some r =>
    obtain ⟨s, h⟩ := h r rfl
    exact deref_safe hr h

theorem sequence_safe (hr : ∀ w o, Fine vm o → recur w o ≠ .ub) : ∀ {ps : List (Option Nat)},
    (∀ p ∈ ps, ∃ r s, p = some r ∧ Live vm r s) → sequence vm recur ps ≠ .ub
  | [], _ => text_safe _
  | [p], h => by
    obtain ⟨r, s, rfl, hl⟩ := h p (by simp)
    exact deref_safe hr hl
  | p :: q :: ps, h => by
    obtain ⟨r, s, rfl, hl⟩ := h p (by simp)
    exact and_safe (deref_safe hr hl) (and_safe (str_safe _) (sequence_safe hr fun x hx => h x (List.mem_cons_of_mem _ hx)))

theorem firstOf_safe (hr : ∀ w o, Fine vm o → recur w o ≠ .ub) {ps : List (Option Nat)} {n : Nat} (hn : n ≤ ps.length)
    (h : ∀ p ∈ ps.take n, ∃ r s, p = some r ∧ Live vm r s) : firstOf vm recur ps n ≠ .ub := by
  rw [firstOf, if_pos hn]
  exact sequence_safe hr h

theorem internalString_safe (hs : Sound vm) {r n : Nat} (h : Live vm r (.text n)) : internalStringAt vm r ≠ .ub := by
  obtain ⟨hf, o, ho, hsh⟩ := h
  have hc := hs.cells r o ho hf
  cases o <;> simp only [shape] at hsh <;> try (cases hsh; done)
  rename_i v m
  simp only [CellOk] at hc
  simp only [internalStringAt, ho, printInternalString]
  rw [if_pos (by omega)]
  simp only [str, size]
  intro h
  cases h

theorem captures_safe (hs : Sound vm) (ha : AllCaptured vm) (hr : ∀ w o, Fine vm o → recur w o ≠ .ub) {r : Nat}
    {b : Option UpBlock} {n : Nat} (ho : vm.heap[r]? = some (.upvalueArray b n)) (hf : r ∉ vm.free) :
    firstOf vm recur ((b.map UpBlock.ups).getD []) n ≠ .ub := by
  have hc := hs.cells _ _ ho hf
  simp only [CellOk] at hc
  refine firstOf_safe hr (by omega) fun p hp => ?_
  have hp := List.mem_of_mem_take hp
  cases p with
  | none => exact absurd hp (ha r b n ho hf)
  | some c => exact ⟨c, _, rfl, hc.2 c hp⟩

theorem internalVector_safe (hr : ∀ w o, Fine vm o → recur w o ≠ .ub) {vs : Option (List Slot)} {n : Nat} {init : Bool}
    (hc : CellOk vm (.internalVector vs n init)) : printInternalVector vm recur vs n init ≠ .ub := by
  simp only [CellOk] at hc
  refine and_safe (str_safe _) (and_safe ?_ (str_safe _))
  split
  · rename_i hi
    refine and_safe (str_safe _) (and_safe (size_safe _) (and_safe (str_safe _) (and_safe ?_ (str_safe _))))
    refine firstOf_safe hr (by simpa using hc.1) fun p hp => ?_
    obtain ⟨i, hlt, rfl⟩ := List.mem_iff_getElem.1 hp
    have hin : i < n := by
      have := hlt
      simp only [List.length_take] at this
      omega
    obtain ⟨c, h1, h2⟩ := hc.2.2 hi i hin
    refine ⟨c, _, ?_, h2⟩
    have h3 := (List.getElem?_eq_some_iff.1 h1).2
    simp [h3, slotPointer]
  · exact str_safe _

theorem chain_safe (hs : Sound vm) (hk : Linked vm) (hl : Lockstep vm) (hr : ∀ w o, Fine vm o → recur w o ≠ .ub) :
    ∀ (n : Nat) (u : Upvalue) (r : Nat), vm.heap[r]? = some (.upvalue u) → r ∉ vm.free → printChain vm recur n u ≠ .ub
  | 0, _, _, _, _ => by simp [printChain]
  | n + 1, .stackIndex i, r, ho, hf => by
    obtain ⟨h0, hu⟩ := hk.cell r i hf ho
    have hlt : i.toNat < vm.stack.length := by
      rw [hl]
      exact (List.getElem?_eq_some_iff.1 hu).1
    simp only [printChain, h0, if_true, List.getElem?_eq_getElem hlt]
    exact and_safe (hr _ _ (.inl (hs.stack _ (List.getElem_mem hlt)))) (by simp only [str]; intro h; cases h)
  | n + 1, .heapObject p, r, ho, hf => by
    obtain ⟨c, rfl, hc⟩ := hs.cells _ _ ho hf
    exact and_safe (deref_safe hr hc) (by simp only [str]; intro h; cases h)
  | n + 1, .heapUpvalue none, r, ho, hf => by simp only [printChain, str]; intro h; cases h
  | n + 1, .heapUpvalue (some c), r, ho, hf => by
    have hc := hs.cells _ _ ho hf
    obtain ⟨hf', o, ho', hsh⟩ := hc c rfl
    cases o <;> simp only [shape] at hsh <;> try (cases hsh; done)
    rename_i u
    simp only [printChain, ho']
    exact and_safe (str_safe _) (chain_safe hs hk hl hr n u c ho' hf')

theorem value_safe (hs : Sound vm) (ha : AllCaptured vm) (hk : Linked vm) (hl : Lockstep vm)
    (hr : ∀ w o, Fine vm o → recur w o ≠ .ub) (n : Nat) (o : Obj) (h : Fine vm o) : printValue vm recur n o ≠ .ub := by
  have hc := fine_cell hs h
  cases o with
  | none => exact str_safe _
  | bool b => exact and_safe (str_safe _) (text_safe _)
  | integer i => exact and_safe (str_safe _) (number_safe _)
  | float b => exact str_safe _
  | type t => exact and_safe (str_safe _) (size_safe _)
  | function c => simp only [printValue, printFunction, str]; intro h; cases h
  | string p off len =>
    refine and_safe (str_safe _) (and_safe ?_ (str_safe _))
    cases p with
    | none => exact str_safe _
    | some r =>
      simp only [CellOk, ValueOk] at hc
      obtain ⟨_, _, m, _, hm⟩ := hc
      exact and_safe (str_safe _) (and_safe (internalString_safe hs hm) (by simp only [str, number, size]; intro h; cases h))
  | symbol id p =>
    refine and_safe (str_safe _) (and_safe ?_ (by simp only [str, size]; intro h; cases h))
    cases p with
    | none => exact str_safe _
    | some r =>
      obtain ⟨m, hm⟩ := hc
      exact and_safe (str_safe _) (and_safe (internalString_safe hs hm) (str_safe _))
  | list p =>
    refine and_safe (str_safe _) (and_safe (derefOrNull_safe hr fun r hp => ?_) (str_safe _))
    subst hp
    exact ⟨_, hc⟩
  | cons a d =>
    obtain ⟨h1, h2⟩ := hc
    have key : ∀ p, PartOk vm p → derefOrNull vm recur p ≠ .ub := by
      intro p hp
      refine derefOrNull_safe hr fun r hr => ?_
      subst hr
      rcases hp with hp | hp
      · exact ⟨_, hp⟩
      · exact ⟨_, hp⟩
    exact and_safe (str_safe _) (and_safe (key _ h1) (and_safe (str_safe _) (and_safe (key _ h2) (str_safe _))))
  | closure name code ups arity variadic =>
    obtain ⟨b, u, m, rfl, rfl, ⟨blk, hb, _⟩, hu⟩ := hc
    refine and_safe (str_safe _) (and_safe (str_safe _) (and_safe (number_safe _) (and_safe (str_safe _)
      (and_safe ?_ (and_safe (str_safe _) (and_safe ?_ (by simp only [str]; intro h; cases h)))))))
    · obtain ⟨o, ho, hsh, _⟩ := live_fine hb
      cases o <;> simp only [shape] at hsh <;> try (cases hsh; done)
      simp only [printCode, ho]
      exact and_safe (str_safe _) (and_safe (size_safe _) (and_safe (str_safe _) (ite_safe (str_safe _) (str_safe _))))
    · obtain ⟨hf, o, ho, hsh⟩ := hu
      cases o <;> simp only [shape] at hsh <;> try (cases hsh; done)
      rename_i block len
      simp only [printCaptures, ho]
      refine and_safe (str_safe _) (and_safe (size_safe _) (and_safe (str_safe _) ?_))
      cases block with
      | none => exact str_safe _
      | some b => exact captures_safe hs ha hr ho hf
  | vector p off =>
    refine and_safe (str_safe _) (and_safe ?_ (str_safe _))
    cases p with
    | none => exact str_safe _
    | some r =>
      obtain ⟨cap, ⟨hf, o, ho, hsh⟩, _⟩ := hc
      have hc := hs.cells _ _ ho hf
      cases o <;> simp only [shape] at hsh <;> try (cases hsh; done)
      simp only [ho]
      exact and_safe (internalVector_safe hr hc) (by simp only [str, number]; intro h; cases h)
  | composite p =>
    obtain ⟨r, rfl, hf, o, ho, hsh⟩ := hc
    have hc := hs.cells _ _ ho hf
    cases o <;> simp only [shape] at hsh <;> try (cases hsh; done)
    refine and_safe (str_safe _) (and_safe ?_ (str_safe _))
    simp only [ho]
    exact and_safe (str_safe _) (and_safe (str_safe _) (and_safe (size_safe _) (and_safe (str_safe _) (and_safe (str_safe _)
      (and_safe (derefOrNull_safe hr fun r h => ⟨_, hc.1 r h⟩) (and_safe (str_safe _) (and_safe (str_safe _)
      (and_safe (derefOrNull_safe hr fun r h => ⟨_, hc.2 r h⟩) (str_safe _)))))))))
  | user data marks d =>
    exact and_safe (str_safe _) (and_safe (str_safe _) (and_safe (ite_safe (str_safe _) (str_safe _)) (and_safe (str_safe _)
      (and_safe (ite_safe (str_safe _) (str_safe _)) (and_safe (str_safe _) (and_safe (ite_safe (str_safe _) (str_safe _))
      (str_safe _)))))))
  | upvalue u =>
    rcases h with h | ⟨r, ho, hf⟩
    · exact h.elim
    · exact and_safe (str_safe _) (and_safe (str_safe _) (and_safe (chain_safe hs hk hl hr n u r ho hf) (str_safe _)))
  | upvalueArray b m =>
    rcases h with h | ⟨r, ho, hf⟩
    · exact h.elim
    · exact and_safe (str_safe _) (and_safe (str_safe _) (and_safe (size_safe _) (and_safe (str_safe _)
        (and_safe (captures_safe hs ha hr ho hf) (and_safe (str_safe _) (str_safe _))))))
  | internalVector vs m init => exact internalVector_safe hr hc
  | bytecode b m =>
    exact and_safe (str_safe _) (and_safe (str_safe _) (and_safe (size_safe _) (and_safe (str_safe _)
      (and_safe (ite_safe (str_safe _) (str_safe _)) (and_safe (str_safe _) (str_safe _))))))
  | internalComposite t v f =>
    exact and_safe (str_safe _) (and_safe (str_safe _) (and_safe (size_safe _) (and_safe (str_safe _) (and_safe (str_safe _)
      (and_safe (derefOrNull_safe hr fun r h => ⟨_, hc.1 r h⟩) (and_safe (str_safe _) (and_safe (str_safe _)
      (and_safe (derefOrNull_safe hr fun r h => ⟨_, hc.2 r h⟩) (str_safe _)))))))))
  | internalString v m =>
    simp only [CellOk] at hc
    simp only [printValue, printInternalString]
    rw [if_pos (by omega)]
    simp only [str, size]
    intro h
    cases h

theorem print_safe (hs : Sound vm) (ha : AllCaptured vm) (hk : Linked vm) (hl : Lockstep vm) (flag : Where → Bool) :
    ∀ (n : Nat) (w : Where) (o : Obj), Fine vm o → print flag vm n w o ≠ .ub
  | 0, _, _, _ => by simp [print]
  | n + 1, w, o, h =>
    and_safe (str_safe _) (and_safe (str_safe _) (and_safe (ite_safe (str_safe _) (str_safe _))
      (and_safe (value_safe hs ha hk hl (print_safe hs ha hk hl flag n) n o h) (str_safe _))))

end DuckLisp.PrintObj
