import Verif.Model.VM.Exec
import Verif.Proof.VM.Heap
import Verif.Proof.VM.Globals

/-!
# No instruction changes a global but the one that stores it

The cell of a global stays as it is: it is not freed, and nothing writes to it, because it is not the
cell of a captured variable.
-/

namespace DuckLisp.VM

open DuckLisp DuckLisp.Spec

/-- A global: its key, its cell and what it is. -/
structure Guarded where
  key : Int
  cell : Ref
  val : Obj
  plain : shape val = .value

/-- Not a captured variable that lives in cell `c`. -/
def NotTo (c : Ref) (o : Obj) : Prop := o ≠ .upvalue (.heapObject (some c))

/-- What may be on the stack. -/
def Guarded.Val (K : Guarded) (nb : Bool) (o : Obj) : Prop := nb = true → NotTo K.cell o

structure Guarded.Inv (K : Guarded) (nb : Bool) (s : VM) : Prop where
  bound : bound s K.key = some (some K.cell)
  cell : s.heap[K.cell]? = some K.val
  live : K.cell ∉ s.free
  stack : ∀ o ∈ s.stack, K.Val nb o
  heap : ∀ (u : Ref) (o : Obj), u ∉ s.free → s.heap[u]? = some o → NotTo K.cell o

/-- If `m` ends, the global is as before; if it succeeds its result is in `R`. -/
def Spares (K : Guarded) (nb : Bool) {α : Type} (R : α → Prop) (m : M α) : Prop :=
  ∀ s, K.Inv nb s → match m s with
    | .ok a s' => R a ∧ K.Inv nb s'
    | .err _ s' => K.Inv nb s'
    | _ => True

variable {K : Guarded} {nb : Bool} {α β : Type} {R : α → Prop} {R' : β → Prop}

theorem Spares.ok {m : M α} (h : Spares K nb R m) {s s' : VM} {a : α} (hs : K.Inv nb s) (hm : m s = .ok a s') :
    R a ∧ K.Inv nb s' := by
  have := h s hs
  rw [hm] at this
  exact this

theorem Guarded.Val.false {o : Obj} (_ : K.Val nb o) : K.Val Bool.false o := fun h => nomatch h

theorem Guarded.Inv.false {s : VM} (h : K.Inv nb s) : K.Inv Bool.false s :=
  { h with stack := fun o ho => (h.stack o ho).false }

theorem spare_pure {a : α} (h : R a) : Spares K nb R (pure a : M α) := fun _ hs => ⟨h, hs⟩
theorem spare_throw (e : DlError) : Spares K nb R (M.throw e : M α) := fun _ hs => hs
theorem spare_ub : Spares K nb R (M.ub : M α) := fun _ _ => trivial
theorem spare_diverge : Spares K nb R (M.diverge : M α) := fun _ _ => trivial

theorem spare_bind {m : M α} {f : α → M β} (hm : Spares K nb R m) (hf : ∀ a, R a → Spares K nb R' (f a)) :
    Spares K nb R' (m >>= f) := by
  intro s hs
  rw [M.bind_run]
  have h := hm s hs
  cases hms : m s with
  | ok a s' =>
    rw [hms] at h
    exact hf a h.1 s' h.2
  | err e s' => rw [hms] at h; exact h
  | ub => trivial
  | diverge => trivial

theorem spare_weaken {S : α → Prop} {m : M α} (hm : Spares K nb R m) (h : ∀ a, R a → S a) : Spares K nb S m := by
  intro s hs
  have h1 := hm s hs
  cases hms : m s with
  | ok a s' => rw [hms] at h1; exact ⟨h a h1.1, h1.2⟩
  | err e s' => rw [hms] at h1; exact h1
  | ub => trivial
  | diverge => trivial

theorem spare_any {m : M α} (hm : Spares K nb R m) : Spares K nb (fun _ => True) m := spare_weaken hm fun _ _ => trivial

theorem spare_get : Spares K nb (K.Inv nb) M.get := fun _ hs => ⟨hs, hs⟩

theorem spare_need (o : Option α) : Spares K nb (fun a => o = some a) (M.need o) := by
  intro s hs
  cases o
  · trivial
  · exact ⟨rfl, hs⟩

/-- An operation that never changes the state. -/
theorem spare_same {m : M α} (h : ∀ s, (∃ a, m s = .ok a s) ∨ (∃ e, m s = .err e s) ∨
    m s = .ub ∨ m s = .diverge) : Spares K nb (fun _ => True) m := by
  intro s hs
  rcases h s with ⟨a, h⟩ | ⟨e, h⟩ | h | h <;> rw [h]
  · exact ⟨trivial, hs⟩
  · exact hs
  all_goals trivial

theorem spare_modify {f : VM → VM} (h : ∀ s, K.Inv nb s → K.Inv nb (f s)) :
    Spares K nb (fun _ => True) (M.modify f) := fun s hs => ⟨trivial, h s hs⟩

/-- What is not a value is not in the global's cell. -/
def Guarded.Outside (K : Guarded) (r : Ref) (o : Obj) : Prop := shape o ≠ .value → r ≠ K.cell

theorem Guarded.Outside.ne {r : Ref} {o : Obj} (h : K.Outside r o) (ho : shape o ≠ .value) : r ≠ K.cell := h ho

theorem spare_readCell (r : Ref) : Spares K nb (K.Outside r) (readCell r) := by
  intro s hs
  unfold readCell
  cases h : s.heap[r]? with
  | none => trivial
  | some o =>
    refine ⟨fun ho hr => ho ?_, hs⟩
    have := hs.cell
    rw [← hr, h] at this
    cases this
    exact K.plain

theorem spare_deref (p : Option Ref) : Spares K nb (fun _ => True) (deref p) :=
  spare_bind (spare_need p) (fun r _ => spare_any (spare_readCell r))

theorem spare_getArg (a : Nat) : Spares K nb (K.Val nb) (getArg a) := by
  intro s hs
  unfold getArg
  cases h : (argIndex s.stack.length a).bind (fun i => s.stack[i]?) with
  | none => exact hs
  | some o =>
    obtain ⟨i, -, h2⟩ := Option.bind_eq_some_iff.1 h
    exact ⟨hs.stack o (List.mem_of_getElem? h2), hs⟩

theorem spare_stackAt (i : Int) : Spares K nb (K.Val nb) (stackAt i) := by
  intro s hs
  unfold stackAt
  by_cases h0 : 0 ≤ i
  · rw [if_pos h0]
    cases h : s.stack[i.toNat]? with
    | none => trivial
    | some o => exact ⟨hs.stack o (List.mem_of_getElem? h), hs⟩
  · rw [if_neg h0]; trivial

theorem spare_getAbs (i : Int) : Spares K nb (K.Val nb) (getAbs i) := by
  intro s hs
  unfold getAbs
  by_cases h0 : 0 ≤ i
  · rw [if_pos h0]
    cases h : s.stack[i.toNat]? with
    | none => exact hs
    | some o => exact ⟨hs.stack o (List.mem_of_getElem? h), hs⟩
  · rw [if_neg h0]; exact hs

theorem spare_height : Spares K nb (fun _ => True) height := fun _ hs => ⟨trivial, hs⟩

theorem spare_globalGet (k : Int) : Spares K nb (fun _ => True) (globalGet k) := by
  apply spare_same
  intro s
  unfold globalGet
  cases s.globals.find? (fun kv => kv.1 == k) <;> simp

theorem spare_ckInt (i : Int) : Spares K nb (fun _ => True) (ckInt i) := by
  unfold ckInt
  split
  · exact spare_pure trivial
  · exact spare_ub

theorem spare_codeSerial (c : Ref) : Spares K nb (fun _ => True) (codeSerial c) := by
  apply spare_same
  intro s
  unfold codeSerial
  split <;> simp

theorem spare_upvalueAt (u : UpArray) (j : Nat) : Spares K nb (fun _ => True) (upvalueAt u j) := by
  apply spare_same
  intro s
  unfold upvalueAt
  split
  · simp
  · split
    · split
      · rename_i blk _ _ _
        cases blk.ups[j]? <;> simp
      · simp
    · simp

theorem spare_topUpArray {m : M UpArray} (hm : Spares K nb (fun _ => True) m) :
    Spares K nb (fun _ => True) (topUpArray m) := by
  intro s hs
  unfold topUpArray
  cases s.upArrays.getLast? with
  | some u => exact ⟨trivial, hs⟩
  | none => exact hm s hs

theorem spare_of_rel {m : M α} (h : ∀ R E, Pre R E → RelE R E m) : Spares K nb (fun _ => True) m := by
  intro s hs
  have h1 := h (fun a b => a = b) (fun a b => a = b) ⟨fun _ => rfl, fun h1 h2 => h1.trans h2, fun h => h, fun h1 h2 => h1.trans h2⟩ s
  cases hm : m s with
  | ok a s' => rw [hm] at h1; cases h1; exact ⟨trivial, hs⟩
  | err e s' => rw [hm] at h1; cases h1; exact hs
  | ub => trivial
  | diverge => trivial

theorem spare_listIsCyclic (p : Option Ref) : Spares K nb (fun _ => True) (listIsCyclic p) :=
  spare_of_rel fun _ _ h => rel_listIsCyclic h p

theorem spare_countConses (heap : List Obj) (fuel : Nat) (p : Option Ref) :
    Spares K nb (fun _ => True) (countConses heap fuel p) := spare_of_rel fun _ _ h => rel_countConses h heap fuel p

theorem spare_chase {m1 m2 : M Upvalue} (h1 : Spares K nb (fun _ => True) m1) (h2 : Spares K nb (fun _ => True) m2)
    (fuel : Nat) : ∀ p, Spares K nb (fun _ => True) (chase m1 m2 fuel p) := by
  induction fuel with
  | zero => intro p; exact spare_diverge
  | succ fuel ih =>
    intro p
    cases p with
    | none => exact h1
    | some r =>
      unfold chase
      refine spare_bind (spare_readCell r) (fun o _ => ?_)
      split
      · exact ih _
      · exact spare_pure trivial
      · exact h2

theorem spare_unwrap (fuel : Nat) : ∀ o, Spares K nb (fun _ => True) (unwrap fuel o) := by
  induction fuel with
  | zero => intro o; exact spare_diverge
  | succ fuel ih =>
    intro o
    cases o
    case composite c =>
      unfold unwrap
      refine spare_bind (spare_deref c) (fun o _ => ?_)
      split
      · exact spare_bind (spare_deref _) (fun o _ => ih o)
      · exact spare_ub
    all_goals exact spare_pure trivial

/-! ### Operations that change the state -/

theorem Guarded.Inv.setHeap {s : VM} (h : K.Inv nb s) {r : Ref} {o : Obj} (hr : r ≠ K.cell) (ho : NotTo K.cell o) :
    K.Inv nb { s with heap := s.heap.set r o } := by
  refine ⟨h.bound, ?_, h.live, h.stack, fun u o' hu hc => ?_⟩
  · dsimp only
    rw [List.getElem?_set_ne hr]
    exact h.cell
  · dsimp only at hc
    rw [List.getElem?_set] at hc
    split at hc
    · split at hc
      · cases hc; exact ho
      · cases hc
    · exact h.heap u o' hu hc

theorem spare_writeCell (r : Ref) (o : Obj) (hr : r ≠ K.cell) (ho : NotTo K.cell o) :
    Spares K nb (fun _ => True) (writeCell r o) := by
  intro s hs
  unfold writeCell
  by_cases h : r < s.heap.length
  · rw [if_pos h]; exact ⟨trivial, hs.setHeap hr ho⟩
  · rw [if_neg h]; trivial

theorem Guarded.Inv.collect {s s' : VM} (h : K.Inv nb s) (hfree : ∀ r ∈ s.free, ¬ Traced s r)
    (hg : garbageCollect s = .ok () s') : K.Inv nb s' := by
  obtain ⟨u, hu, -⟩ := garbageCollect_eq hg
  obtain ⟨h1, h2, h3, -⟩ := garbageCollect_marks hu hg
  have hm : u[K.cell]? = some true := by
    refine (markAll_spec hu).2.2.2.2.2 K.cell ?_
    unfold rootPointers
    simp only [List.mem_append, List.mem_map]
    exact .inl (.inl (.inr ⟨_, bound_mem h.bound, rfl⟩))
  obtain ⟨e1, e2, e3, e4, e5, e6⟩ := garbageCollect_same hg
  refine ⟨?_, ?_, fun hf => ((h3 _).1 hf).2 hm, ?_, fun r o hr ho => ?_⟩
  · have := h.bound
    unfold VM.bound at this ⊢
    rw [e5]
    exact this
  · rw [h2 _ _ h.cell, if_pos hm]
  · simpa [*] using h.stack
  · obtain ⟨o', ho'⟩ : ∃ o', s.heap[r]? = some o' := by
      have := getElem?_lt ho
      rw [h1] at this
      exact ⟨_, List.getElem?_eq_getElem this⟩
    have hr' : u[r]? = some true := Classical.byContradiction fun hn => hr ((h3 r).2 ⟨getElem?_lt ho', hn⟩)
    rw [h2 r _ ho', if_pos hr'] at ho
    cases ho
    by_cases hf : r ∈ s.free
    · exact absurd ((markAll_spec hu).2.2.1 r hr') (hfree r hf)
    · exact h.heap r _ hf ho'

theorem store_notTo {c : Ref} {n : Nat} {o : Obj} (h : NotTo c o) : NotTo c (store n o) := by
  unfold NotTo at *
  unfold store
  split <;> (try split) <;> simp_all

theorem Guarded.Inv.take {s s' : VM} {o : Obj} {r : Ref} (h : K.Inv nb s) (ho : NotTo K.cell o)
    (ht : takeFree o s = .ok r s') : r ≠ K.cell ∧ K.Inv nb s' := by
  unfold takeFree at ht
  split at ht
  · cases ht
  · rename_i r0 fr hf
    cases ht
    have hl := h.live
    rw [hf] at hl
    have hr : r ≠ K.cell := fun e => hl (e ▸ List.mem_cons_self)
    refine ⟨hr, h.bound, ?_, fun hm => hl (List.mem_cons_of_mem _ hm), h.stack, fun u o' hu hc => ?_⟩
    · dsimp only
      rw [List.getElem?_set_ne hr]
      exact h.cell
    · dsimp only at hc hu
      rw [List.getElem?_set] at hc
      split at hc
      · split at hc
        · cases hc; exact store_notTo ho
        · cases hc
      · rename_i hne
        refine h.heap u o' ?_ hc
        rw [hf]
        intro hm
        rcases List.mem_cons.1 hm with e | hm
        · exact hne e.symm
        · exact hu hm

theorem spare_pushObject (o : Obj) (ho : NotTo K.cell o) :
    Spares K nb (fun r => r ≠ K.cell) (pushObject o) := by
  intro s hs
  cases hp : pushObject o s with
  | ok r s' =>
    unfold pushObject at hp
    by_cases hf : s.free = []
    · rw [if_pos hf] at hp
      cases hg : garbageCollect s with
      | ok a s1 =>
        rw [hg] at hp
        dsimp only at hp
        by_cases hf1 : s1.free = []
        · rw [if_pos hf1] at hp; cases hp
        · rw [if_neg hf1] at hp
          exact (hs.collect (by simp [hf]) hg).take ho hp
      | err e s1 => rw [hg] at hp; cases hp
      | ub => rw [hg] at hp; cases hp
      | diverge => rw [hg] at hp; cases hp
    · rw [if_neg hf] at hp
      exact hs.take ho hp
  | err e s' => exact hs.collect (by simp [(pushObject_err hp).2.1]) (pushObject_err hp).2.2.1
  | ub => trivial
  | diverge => trivial

theorem Guarded.Inv.setStack {s : VM} (h : K.Inv nb s) {st : List Obj} (up : List (Option Ref))
    (hst : ∀ o ∈ st, o ∈ s.stack ∨ K.Val nb o) : K.Inv nb { s with stack := st, upStack := up } :=
  { h with stack := fun o ho => (hst o ho).elim (h.stack o) id }

theorem spare_push (o : Obj) (ho : K.Val nb o) : Spares K nb (fun _ => True) (push o) :=
  spare_modify fun s hs => hs.setStack _ fun x hx => by
    rcases List.mem_append.1 hx with h | h
    · exact .inl h
    · rw [List.mem_singleton.1 h]; exact .inr ho

theorem spare_pushStackOnly (o : Obj) (ho : K.Val nb o) : Spares K nb (fun _ => True) (pushStackOnly o) :=
  spare_modify fun s hs => by
    refine { hs with stack := fun x hx => ?_ }
    rcases List.mem_append.1 hx with h | h
    · exact hs.stack x h
    · rw [List.mem_singleton.1 h]; exact ho

theorem spare_pushUpOnly (u : Option Ref) : Spares K nb (fun _ => True) (pushUpOnly u) :=
  spare_modify fun _ hs => { hs with }

theorem spare_setUpStack (i : Nat) (o : Option Ref) :
    Spares K nb (fun _ => True) (M.modify fun s => { s with upStack := s.upStack.set i o }) :=
  spare_modify fun _ hs => { hs with }

theorem spare_globalSet (p : Option Ref) (k : Int) (hk : k ≠ K.key) : Spares K nb (fun _ => True) (globalSet p k) :=
  spare_modify fun s hs => { hs with
    bound := by
      have := find_setAssoc k K.key p s.globals
      rw [if_neg (Ne.symm hk)] at this
      exact this.trans hs.bound }

theorem spare_pushPtr (p : Option Ref) : Spares K false (fun _ => True) (pushPtr p) := by
  unfold pushPtr
  cases p with
  | none => exact spare_push _ fun _ => nofun
  | some r => exact spare_bind (spare_readCell r) (fun o _ => spare_push o fun h => nomatch h)

theorem spare_popStack : Spares K nb (K.Val nb) popStack := by
  intro s hs
  unfold popStack
  cases h : s.stack.getLast? with
  | none => exact hs
  | some o =>
    have h2 : ∀ x ∈ s.stack.dropLast, K.Val nb x := fun x hx => hs.stack x ((List.dropLast_sublist _).subset hx)
    cases hu : s.upStack with
    | nil => simp only [hu]; exact { hs with stack := h2 }
    | cons u us => simp only [hu]; exact ⟨hs.stack _ (List.mem_of_getLast? h), { hs with stack := h2 }⟩

theorem spare_popMany (n : Nat) : Spares K nb (fun _ => True) (popMany n) := by
  intro s hs
  unfold popMany
  by_cases h1 : s.upStack.length < n
  · rw [if_pos h1]; exact hs
  · rw [if_neg h1]
    dsimp only
    by_cases h2 : s.stack.length < n
    · rw [if_pos h2]; exact { hs with }
    · rw [if_neg h2]
      exact ⟨trivial, { hs with stack := fun x hx => hs.stack x (List.mem_of_mem_take hx) }⟩

theorem Guarded.Inv.setSlot {s : VM} (h : K.Inv nb s) {o : Obj} (ho : K.Val nb o) (i : Nat) :
    K.Inv nb { s with stack := s.stack.set i o } := by
  refine { h with stack := fun x hx => ?_ }
  rcases List.mem_or_eq_of_mem_set hx with h1 | h1
  · exact h.stack x h1
  · rw [h1]; exact ho

theorem spare_setArg (a : Nat) (o : Obj) (ho : K.Val nb o) : Spares K nb (fun _ => True) (setArg a o) := by
  intro s hs
  unfold setArg
  cases argIndex s.stack.length a with
  | none => exact hs
  | some i => exact ⟨trivial, hs.setSlot ho i⟩

theorem spare_setStackAt (i : Int) (o : Obj) (ho : K.Val nb o) : Spares K nb (fun _ => True) (setStackAt i o) := by
  intro s hs
  unfold setStackAt
  by_cases h : 0 ≤ i ∧ i.toNat < s.stack.length
  · rw [if_pos h]; exact ⟨trivial, hs.setSlot ho _⟩
  · rw [if_neg h]; trivial

theorem spare_setAbs (i : Int) (o : Obj) (ho : K.Val nb o) : Spares K nb (fun _ => True) (setAbs i o) := by
  intro s hs
  unfold setAbs
  by_cases h : 0 ≤ i ∧ i.toNat < s.stack.length
  · rw [if_pos h]; exact ⟨trivial, hs.setSlot ho _⟩
  · rw [if_neg h]; exact hs

theorem spare_pushFrame (f : Frame) (u : UpArray) : Spares K nb (fun _ => True) (pushFrame f u) :=
  spare_modify fun _ hs => { hs with }

theorem spare_popFrame : Spares K nb (fun _ => True) popFrame := by
  intro s hs
  unfold popFrame
  cases h : s.callStack.getLast? with
  | none => exact ⟨trivial, hs⟩
  | some f =>
    dsimp only
    split
    · rename_i h1
      split at h1
      · cases h1; exact ⟨trivial, { hs with }⟩
      · cases h1; exact ⟨trivial, { hs with }⟩
    · rename_i h1
      split at h1 <;> cases h1
    · trivial

theorem spare_chaseFuel : Spares K nb (fun _ => True) chaseFuel := fun _ hs => ⟨trivial, hs⟩
theorem spare_unwrapFuel : Spares K nb (fun _ => True) unwrapFuel := fun _ hs => ⟨trivial, hs⟩

end DuckLisp.VM
