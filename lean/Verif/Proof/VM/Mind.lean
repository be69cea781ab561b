import Verif.Model.VM.Exec
import Verif.Proof.VM.Heap
import Verif.Proof.VM.Rel
import Verif.Proof.VM.Closures

/-!
# Instructions that work on data leave the captured variables alone

They make no captured variable, and neither free nor change the cell where a captured variable that is
still there keeps its value.
-/

namespace DuckLisp.VM.Mind

open DuckLisp DuckLisp.Spec

/-- The state at the beginning. -/
structure Start where
  vm : VM

/-- Not a captured variable. -/
def NotVar : Obj → Prop
  | .upvalue _ => False
  | _ => True

/-- What may be on the stack; `nb`: no captured variable. -/
def Val (nb : Bool) (o : Obj) : Prop := nb = true → NotVar o

/-- The captured variables of a memory were there in `s0`, and the values of those with a cell of their own are
as they were. -/
structure Same (s0 : VM) (heap : List Obj) (free : List Ref) : Prop where
  vars : ∀ (c : Ref) (u : Upvalue), c ∉ free → heap[c]? = some (.upvalue u) →
    c ∉ s0.free ∧ s0.heap[c]? = some (.upvalue u)
  values : ∀ (c r : Ref), c ∉ free → heap[c]? = some (.upvalue (.heapObject (some r))) → Live s0 r .value →
    r ∉ free ∧ heap[r]? = s0.heap[r]?

structure Start.Inv (K : Start) (nb : Bool) (s : VM) : Prop where
  stack : ∀ o ∈ s.stack, Val nb o
  kept : Same K.vm s.heap s.free
  up : ∀ (i c : Ref), s.upStack[i]? = some (some c) ↔ K.vm.upStack[i]? = some (some c)

/-- If `m` succeeds its result is in `R` and the invariant still holds. -/
def Minds (K : Start) (nb : Bool) {α : Type} (R : α → Prop) (m : M α) : Prop :=
  ∀ s, K.Inv nb s → match m s with
    | .ok a s' => R a ∧ K.Inv nb s'
    | _ => True

variable {K : Start} {nb : Bool} {α β : Type} {R : α → Prop} {R' : β → Prop}

theorem Minds.ok {m : M α} (h : Minds K nb R m) {s s' : VM} {a : α} (hs : K.Inv nb s) (hm : m s = .ok a s') :
    R a ∧ K.Inv nb s' := by
  have := h s hs
  rw [hm] at this
  exact this

theorem Val.false {o : Obj} (h : Val nb o) : Val Bool.false o := fun h => nomatch h

theorem Start.Inv.false {s : VM} (h : K.Inv nb s) : K.Inv Bool.false s :=
  ⟨fun o ho => (h.stack o ho).false, h.kept, h.up⟩

theorem mind_pure {a : α} (h : R a) : Minds K nb R (pure a : M α) := fun _ hs => ⟨h, hs⟩
theorem mind_throw (e : DlError) : Minds K nb R (M.throw e : M α) := fun _ _ => trivial
theorem mind_ub : Minds K nb R (M.ub : M α) := fun _ _ => trivial
theorem mind_diverge : Minds K nb R (M.diverge : M α) := fun _ _ => trivial

theorem mind_bind {m : M α} {f : α → M β} (hm : Minds K nb R m) (hf : ∀ a, R a → Minds K nb R' (f a)) :
    Minds K nb R' (m >>= f) := by
  intro s hs
  rw [M.bind_run]
  have h := hm s hs
  cases hms : m s with
  | ok a s' =>
    rw [hms] at h
    exact hf a h.1 s' h.2
  | err e s' => trivial
  | ub => trivial
  | diverge => trivial

theorem mind_weaken {S : α → Prop} {m : M α} (hm : Minds K nb R m) (h : ∀ a, R a → S a) : Minds K nb S m := by
  intro s hs
  have h1 := hm s hs
  cases hms : m s with
  | ok a s' => rw [hms] at h1; exact ⟨h a h1.1, h1.2⟩
  | err e s' => trivial
  | ub => trivial
  | diverge => trivial

theorem mind_any {m : M α} (hm : Minds K nb R m) : Minds K nb (fun _ => True) m := mind_weaken hm fun _ _ => trivial

theorem mind_get : Minds K nb (K.Inv nb) M.get := fun _ hs => ⟨hs, hs⟩

theorem mind_need (o : Option α) : Minds K nb (fun a => o = some a) (M.need o) := by
  intro s hs
  cases o
  · trivial
  · exact ⟨rfl, hs⟩

/-- An operation that never changes the state. -/
theorem mind_same {m : M α} (h : ∀ s, (∃ a, m s = .ok a s) ∨ (∃ e, m s = .err e s) ∨
    m s = .ub ∨ m s = .diverge) : Minds K nb (fun _ => True) m := by
  intro s hs
  rcases h s with ⟨a, h⟩ | ⟨e, h⟩ | h | h <;> rw [h]
  · exact ⟨trivial, hs⟩
  all_goals trivial

theorem mind_modify {f : VM → VM} (h : ∀ s, K.Inv nb s → K.Inv nb (f s)) :
    Minds K nb (fun _ => True) (M.modify f) := fun s hs => ⟨trivial, h s hs⟩

theorem mind_readCell (r : Ref) : Minds K nb (fun _ => True) (readCell r) := by
  intro s hs
  unfold readCell
  cases h : s.heap[r]? with
  | none => trivial
  | some o => exact ⟨trivial, hs⟩

theorem mind_deref (p : Option Ref) : Minds K nb (fun _ => True) (deref p) :=
  mind_bind (mind_need p) (fun r _ => mind_readCell r)

theorem mind_getArg (a : Nat) : Minds K nb (Val nb) (getArg a) := by
  intro s hs
  unfold getArg
  cases h : (argIndex s.stack.length a).bind (fun i => s.stack[i]?) with
  | none => trivial
  | some o =>
    obtain ⟨i, -, h2⟩ := Option.bind_eq_some_iff.1 h
    exact ⟨hs.stack o (List.mem_of_getElem? h2), hs⟩

theorem mind_stackAt (i : Int) : Minds K nb (Val nb) (stackAt i) := by
  intro s hs
  unfold stackAt
  by_cases h0 : 0 ≤ i
  · rw [if_pos h0]
    cases h : s.stack[i.toNat]? with
    | none => trivial
    | some o => exact ⟨hs.stack o (List.mem_of_getElem? h), hs⟩
  · rw [if_neg h0]; trivial

theorem mind_getAbs (i : Int) : Minds K nb (Val nb) (getAbs i) := by
  intro s hs
  unfold getAbs
  by_cases h0 : 0 ≤ i
  · rw [if_pos h0]
    cases h : s.stack[i.toNat]? with
    | none => trivial
    | some o => exact ⟨hs.stack o (List.mem_of_getElem? h), hs⟩
  · rw [if_neg h0]; trivial

theorem mind_height : Minds K nb (fun _ => True) height := fun _ hs => ⟨trivial, hs⟩

theorem mind_globalGet (k : Int) : Minds K nb (fun _ => True) (globalGet k) := by
  apply mind_same
  intro s
  unfold globalGet
  cases s.globals.find? (fun kv => kv.1 == k) <;> simp

theorem mind_ckInt (i : Int) : Minds K nb (fun _ => True) (ckInt i) := by
  unfold ckInt
  split
  · exact mind_pure trivial
  · exact mind_ub

theorem mind_codeSerial (c : Ref) : Minds K nb (fun _ => True) (codeSerial c) := by
  apply mind_same
  intro s
  unfold codeSerial
  split <;> simp

theorem mind_upvalueAt (u : UpArray) (j : Nat) : Minds K nb (fun _ => True) (upvalueAt u j) := by
  apply mind_same
  intro s
  unfold upvalueAt
  split
  · simp
  · split
    · split
      · rename_i blk _ _ _
        cases blk.ups[j]? <;> simp
      · simp
    · simp

theorem mind_topUpArray {m : M UpArray} (hm : Minds K nb (fun _ => True) m) :
    Minds K nb (fun _ => True) (topUpArray m) := by
  intro s hs
  unfold topUpArray
  cases s.upArrays.getLast? with
  | some u => exact ⟨trivial, hs⟩
  | none => exact hm s hs

theorem same_of_rel {m : M α} (h : ∀ R E, Pre R E → RelE R E m) : Minds K nb (fun _ => True) m := by
  intro s hs
  have h1 := h (fun a b => a = b) (fun _ _ => True) ⟨fun _ => rfl, fun h1 h2 => h1.trans h2, fun _ => trivial, fun _ _ => trivial⟩ s
  cases hm : m s with
  | ok a s' => rw [hm] at h1; cases h1; exact ⟨trivial, hs⟩
  | err e s' => trivial
  | ub => trivial
  | diverge => trivial

theorem mind_listIsCyclic (p : Option Ref) : Minds K nb (fun _ => True) (listIsCyclic p) :=
  same_of_rel fun _ _ h => rel_listIsCyclic h p

theorem mind_countConses (heap : List Obj) (fuel : Nat) (p : Option Ref) :
    Minds K nb (fun _ => True) (countConses heap fuel p) := same_of_rel fun _ _ h => rel_countConses h heap fuel p

theorem mind_chase {m1 m2 : M Upvalue} (h1 : Minds K nb (fun _ => True) m1) (h2 : Minds K nb (fun _ => True) m2)
    (fuel : Nat) : ∀ p, Minds K nb (fun _ => True) (chase m1 m2 fuel p) := by
  induction fuel with
  | zero => intro p; exact mind_diverge
  | succ fuel ih =>
    intro p
    cases p with
    | none => exact h1
    | some r =>
      unfold chase
      refine mind_bind (mind_readCell r) (fun o _ => ?_)
      split
      · exact ih _
      · exact mind_pure trivial
      · exact h2

theorem mind_unwrap (fuel : Nat) : ∀ o, Minds K nb (fun _ => True) (unwrap fuel o) := by
  induction fuel with
  | zero => intro o; exact mind_diverge
  | succ fuel ih =>
    intro o
    cases o
    case composite c =>
      unfold unwrap
      refine mind_bind (mind_deref c) (fun o _ => ?_)
      split
      · exact mind_bind (mind_deref _) (fun o _ => ih o)
      · exact mind_ub
    all_goals exact mind_pure trivial

/-! ### Operations that change the state -/

theorem Same.write {s0 : VM} {heap : List Obj} {free : List Ref} (h : Same s0 heap free) {r : Ref} {o o' : Obj}
    (hr : heap[r]? = some o) (ho : shape o ≠ .value) (ho' : NotVar o') : Same s0 (heap.set r o') free := by
  have key : ∀ (c : Ref) (u : Upvalue), (heap.set r o')[c]? = some (.upvalue u) → heap[c]? = some (.upvalue u) := by
    intro c u hc
    rw [List.getElem?_set] at hc
    split at hc
    · split at hc
      · cases hc; exact ho'.elim
      · cases hc
    · exact hc
  refine ⟨fun c u hf hc => h.vars c u hf (key c u hc), fun c r' hf hc hl => ?_⟩
  obtain ⟨h1, h2⟩ := h.values c r' hf (key c _ hc) hl
  refine ⟨h1, ?_⟩
  rw [List.getElem?_set_ne, h2]
  rintro rfl
  obtain ⟨-, o1, h3, h4⟩ := hl
  rw [hr, h3] at h2
  cases h2
  exact ho h4

/-- The invariant after `m` in state `s`. -/
def Fine (K : Start) (nb : Bool) {α : Type} (R : α → Prop) (m : M α) (s : VM) : Prop :=
  match m s with
    | .ok a s' => R a ∧ K.Inv nb s'
    | _ => True

/-- Read a cell and go on from what is there. -/
theorem mind_at (r : Ref) {f : Obj → M α}
    (hf : ∀ o s, K.Inv nb s → s.heap[r]? = some o → Fine K nb R (f o) s) : Minds K nb R (readCell r >>= f) := by
  intro s hs
  rw [M.bind_run]
  cases h : s.heap[r]? with
  | none => unfold readCell; rw [h]; trivial
  | some o => rw [readCell_some h]; exact hf o s hs h

theorem fine_ub {s : VM} : Fine K nb R (M.ub : M α) s := trivial

theorem fine_write {s : VM} (hs : K.Inv nb s) {r : Ref} {o o' : Obj} (hr : s.heap[r]? = some o)
    (ho : shape o ≠ .value) (ho' : NotVar o') : Fine K nb (fun _ => True) (writeCell r o') s := by
  unfold Fine writeCell
  by_cases h : r < s.heap.length
  · rw [if_pos h]; exact ⟨trivial, hs.stack, hs.kept.write hr ho ho', hs.up⟩
  · rw [if_neg h]; trivial

theorem Start.Inv.collect {s s' : VM} (h : K.Inv nb s) (hfree : s.free = []) (hg : garbageCollect s = .ok () s') :
    K.Inv nb s' := by
  obtain ⟨u, hu, -⟩ := garbageCollect_eq hg
  obtain ⟨h1, h2, h3, -⟩ := garbageCollect_marks hu hg
  obtain ⟨e1, e2, -⟩ := garbageCollect_same hg
  have key : ∀ (c : Ref) (o : Obj), c ∉ s'.free → s'.heap[c]? = some o → u[c]? = some true ∧ s.heap[c]? = some o := by
    intro c o hr ho
    obtain ⟨o', ho'⟩ : ∃ o', s.heap[c]? = some o' := by
      have := getElem?_lt ho
      rw [h1] at this
      exact ⟨_, List.getElem?_eq_getElem this⟩
    have hr' : u[c]? = some true := Classical.byContradiction fun hn => hr ((h3 c).2 ⟨getElem?_lt ho', hn⟩)
    rw [h2 c _ ho', if_pos hr'] at ho
    cases ho
    exact ⟨hr', ho'⟩
  refine ⟨by rw [e1]; exact h.stack, ⟨fun c v hf hc => ?_, fun c r hf hc hl => ?_⟩, by rw [e2]; exact h.up⟩
  · obtain ⟨-, k2⟩ := key c _ hf hc
    exact h.kept.vars c v (by simp [hfree]) k2
  · obtain ⟨k1, k2⟩ := key c _ hf hc
    obtain ⟨k3, k4⟩ := h.kept.values c r (by simp [hfree]) k2 hl
    have hm : u[r]? = some true := by
      obtain ⟨o, cs, m1, m2, m3⟩ := (markAll_spec hu).2.1 c k1
      rw [k2] at m1
      cases m1
      cases m2
      exact m3 r (by simp)
    refine ⟨fun hf' => ((h3 r).1 hf').2 hm, ?_⟩
    obtain ⟨-, o, ho, -⟩ := hl
    rw [← k4] at ho
    rw [h2 r _ ho, if_pos hm, ← ho, k4]

theorem store_val {n : Nat} {o : Obj} (h : Val true o) : NotVar (store n o) := by
  cases o <;> first | exact h rfl | skip
  all_goals (simp only [store]; (repeat' split) <;> trivial)

theorem Start.Inv.take {s s' : VM} {o : Obj} {r : Ref} (h : K.Inv nb s) (ho : Val true o)
    (ht : takeFree o s = .ok r s') : K.Inv nb s' := by
  unfold takeFree at ht
  split at ht
  · cases ht
  · rename_i r0 fr hf
    cases ht
    have key : ∀ (c : Ref) (u : Upvalue), c ∉ fr → (s.heap.set r (store s.nextSerial o))[c]? = some (.upvalue u) →
        c ∉ s.free ∧ s.heap[c]? = some (.upvalue u) := by
      intro c u hc hu
      rw [List.getElem?_set] at hu
      split at hu
      · split at hu
        · have := store_val (n := s.nextSerial) ho
          injection hu with hu
          rw [hu] at this
          exact this.elim
        · cases hu
      · rename_i hne
        refine ⟨?_, hu⟩
        rw [hf]
        intro hm
        rcases List.mem_cons.1 hm with e | hm
        · exact hne e.symm
        · exact hc hm
    refine ⟨h.stack, ⟨fun c u hc hu => ?_, fun c r' hc hu hl => ?_⟩, h.up⟩
    · obtain ⟨k1, k2⟩ := key c u hc hu
      exact h.kept.vars c u k1 k2
    · obtain ⟨k1, k2⟩ := key c _ hc hu
      obtain ⟨k3, k4⟩ := h.kept.values c r' k1 k2 hl
      rw [hf] at k3
      refine ⟨fun hm => k3 (List.mem_cons_of_mem _ hm), ?_⟩
      dsimp only
      rw [List.getElem?_set_ne, k4]
      rintro rfl
      exact k3 List.mem_cons_self

theorem mind_pushObject (o : Obj) (ho : Val true o) : Minds K nb (fun _ => True) (pushObject o) := by
  intro s hs
  unfold pushObject
  by_cases hf : s.free = []
  · rw [if_pos hf]
    cases hg : garbageCollect s with
    | ok a s1 =>
      dsimp only
      have h1 := hs.collect hf hg
      by_cases hf1 : s1.free = []
      · rw [if_pos hf1]; trivial
      · rw [if_neg hf1]
        cases ht : takeFree o s1 with
        | ok r s2 => exact ⟨trivial, h1.take ho ht⟩
        | err e s2 => trivial
        | ub => trivial
        | diverge => trivial
    | err e s1 => trivial
    | ub => trivial
    | diverge => trivial
  · rw [if_neg hf]
    cases ht : takeFree o s with
    | ok r s2 => exact ⟨trivial, hs.take ho ht⟩
    | err e s2 => trivial
    | ub => trivial
    | diverge => trivial

theorem pushObject_err_inv {s s' : VM} {o : Obj} {e : DlError} (hs : K.Inv nb s) (h : pushObject o s = .err e s') :
    K.Inv nb s' := by
  unfold pushObject at h
  by_cases hf : s.free = []
  · rw [if_pos hf] at h
    cases hg : garbageCollect s with
    | ok a s1 =>
      rw [hg] at h
      dsimp only at h
      have h1 := hs.collect hf hg
      by_cases hf1 : s1.free = []
      · rw [if_pos hf1] at h; cases h; exact h1
      · rw [if_neg hf1] at h
        unfold takeFree at h
        split at h <;> cases h
    | err e s1 =>
      unfold garbageCollect at hg
      split at hg <;> cases hg
    | ub => rw [hg] at h; cases h
    | diverge => rw [hg] at h; cases h
  · rw [if_neg hf] at h
    unfold takeFree at h
    split at h <;> cases h

theorem push_iff (up : List (Option Ref)) (i c : Ref) :
    (up ++ [none])[i]? = some (some c) ↔ up[i]? = some (some c) := append_none_iff (n := 1) i c

theorem mind_push (o : Obj) (ho : Val nb o) : Minds K nb (fun _ => True) (push o) :=
  mind_modify fun s hs => by
    refine ⟨fun x hx => ?_, hs.kept, fun i c => (push_iff _ i c).trans (hs.up i c)⟩
    rcases List.mem_append.1 hx with h | h
    · exact hs.stack x h
    · rw [List.mem_singleton.1 h]; exact ho

theorem mind_pushStackOnly (o : Obj) (ho : Val nb o) : Minds K nb (fun _ => True) (pushStackOnly o) :=
  mind_modify fun s hs => by
    refine ⟨fun x hx => ?_, hs.kept, hs.up⟩
    rcases List.mem_append.1 hx with h | h
    · exact hs.stack x h
    · rw [List.mem_singleton.1 h]; exact ho

theorem mind_pushUpOnly : Minds K nb (fun _ => True) (pushUpOnly none) :=
  mind_modify fun _ hs => ⟨hs.stack, hs.kept, fun i c => (push_iff _ i c).trans (hs.up i c)⟩

theorem mind_globalSet (p : Option Ref) (k : Int) : Minds K nb (fun _ => True) (globalSet p k) :=
  mind_modify fun _ hs => ⟨hs.stack, hs.kept, hs.up⟩

theorem mind_pushPtr (p : Option Ref) : Minds K false (fun _ => True) (pushPtr p) := by
  unfold pushPtr
  cases p with
  | none => exact mind_push _ fun _ => trivial
  | some r => exact mind_bind (mind_readCell r) (fun o _ => mind_push o fun h => nomatch h)

theorem Start.Inv.setSlot {s : VM} (h : K.Inv nb s) {o : Obj} (ho : Val nb o) (i : Nat) :
    K.Inv nb { s with stack := s.stack.set i o } :=
  ⟨fun x hx => by
    rcases List.mem_or_eq_of_mem_set hx with h1 | h1
    · exact h.stack x h1
    · rw [h1]; exact ho, h.kept, h.up⟩

theorem mind_setArg (a : Nat) (o : Obj) (ho : Val nb o) : Minds K nb (fun _ => True) (setArg a o) := by
  intro s hs
  unfold setArg
  cases argIndex s.stack.length a with
  | none => trivial
  | some i => exact ⟨trivial, hs.setSlot ho i⟩

theorem mind_setStackAt (i : Int) (o : Obj) (ho : Val nb o) : Minds K nb (fun _ => True) (setStackAt i o) := by
  intro s hs
  unfold setStackAt
  by_cases h : 0 ≤ i ∧ i.toNat < s.stack.length
  · rw [if_pos h]; exact ⟨trivial, hs.setSlot ho _⟩
  · rw [if_neg h]; trivial

theorem mind_setAbs (i : Int) (o : Obj) (ho : Val nb o) : Minds K nb (fun _ => True) (setAbs i o) := by
  intro s hs
  unfold setAbs
  by_cases h : 0 ≤ i ∧ i.toNat < s.stack.length
  · rw [if_pos h]; exact ⟨trivial, hs.setSlot ho _⟩
  · rw [if_neg h]; trivial

theorem mind_pushFrame (f : Frame) (u : UpArray) : Minds K nb (fun _ => True) (pushFrame f u) :=
  mind_modify fun _ hs => ⟨hs.stack, hs.kept, hs.up⟩

theorem mind_popFrame : Minds K nb (fun _ => True) popFrame := by
  intro s hs
  unfold popFrame
  cases h : s.callStack.getLast? with
  | none => exact ⟨trivial, hs⟩
  | some f =>
    dsimp only
    split
    · rename_i h1
      split at h1 <;> (cases h1; exact ⟨trivial, hs.stack, hs.kept, hs.up⟩)
    · trivial

theorem mind_chaseFuel : Minds K nb (fun _ => True) chaseFuel := fun _ hs => ⟨trivial, hs⟩
theorem mind_unwrapFuel : Minds K nb (fun _ => True) unwrapFuel := fun _ hs => ⟨trivial, hs⟩

end DuckLisp.VM.Mind
