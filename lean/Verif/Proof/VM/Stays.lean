import Verif.Model.VM.Exec
import Verif.Proof.VM.Heap
import Verif.Proof.VM.Rel

/-!
# No instruction makes code

Instructions move objects about, but none makes code, and only calls make pending calls.
-/

namespace DuckLisp.VM

open DuckLisp

/-- Which blocks of code there are, and which positions are allowed. -/
structure Rules where
  code : Ref → CodeBlock → Prop
  pos : CodePtr → Prop

/-- Not a block of code. -/
def NotCode : Obj → Prop
  | .bytecode (some _) _ => False
  | _ => True

/-- What cell `c` may hold. -/
def Rules.CellFits (K : Rules) (c : Ref) : Obj → Prop
  | .bytecode (some b) _ => K.code c b
  | _ => True

/-- What may be on the stack; `nb`: not code. -/
def Val (nb : Bool) (o : Obj) : Prop := nb = true → NotCode o

structure Rules.Inv (K : Rules) (nb : Bool) (s : VM) : Prop where
  stack : ∀ o ∈ s.stack, Val nb o
  heap : ∀ (c : Ref) (o : Obj), s.heap[c]? = some o → K.CellFits c o
  frames : ∀ f ∈ s.callStack, K.pos f.ip

/-- If `m` succeeds its result is in `R` and the invariant still holds. -/
def Stays (K : Rules) (nb : Bool) {α : Type} (R : α → Prop) (m : M α) : Prop :=
  ∀ s, K.Inv nb s → match m s with
    | .ok a s' => R a ∧ K.Inv nb s'
    | _ => True

variable {K : Rules} {nb : Bool} {α β : Type} {R : α → Prop} {R' : β → Prop}

theorem Stays.ok {m : M α} (h : Stays K nb R m) {s s' : VM} {a : α} (hs : K.Inv nb s) (hm : m s = .ok a s') :
    R a ∧ K.Inv nb s' := by
  have := h s hs
  rw [hm] at this
  exact this

theorem Val.fits {o : Obj} (h : Val true o) (c : Ref) : K.CellFits c o := by
  unfold Rules.CellFits
  split
  · exact (h rfl).elim
  · trivial

theorem Val.false {o : Obj} (h : Val nb o) : Val Bool.false o := fun h => nomatch h

theorem Rules.Inv.false {s : VM} (h : K.Inv nb s) : K.Inv Bool.false s :=
  ⟨fun o ho => (h.stack o ho).false, h.heap, h.frames⟩

theorem stay_pure {a : α} (h : R a) : Stays K nb R (pure a : M α) := fun _ hs => ⟨h, hs⟩
theorem stay_throw (e : DlError) : Stays K nb R (M.throw e : M α) := fun _ _ => trivial
theorem stay_ub : Stays K nb R (M.ub : M α) := fun _ _ => trivial
theorem stay_diverge : Stays K nb R (M.diverge : M α) := fun _ _ => trivial

theorem stay_bind {m : M α} {f : α → M β} (hm : Stays K nb R m) (hf : ∀ a, R a → Stays K nb R' (f a)) :
    Stays K nb R' (m >>= f) := by
  intro s hs
  rw [M.bind_run]
  have h := hm s hs
  cases hms : m s with
  | ok a s' =>
    rw [hms] at h
    exact hf a h.1 s' h.2
  | err e s' => trivial
  | ub => trivial
  | diverge => trivial

theorem stay_weaken {S : α → Prop} {m : M α} (hm : Stays K nb R m) (h : ∀ a, R a → S a) : Stays K nb S m := by
  intro s hs
  have h1 := hm s hs
  cases hms : m s with
  | ok a s' => rw [hms] at h1; exact ⟨h a h1.1, h1.2⟩
  | err e s' => trivial
  | ub => trivial
  | diverge => trivial

theorem stay_any {m : M α} (hm : Stays K nb R m) : Stays K nb (fun _ => True) m := stay_weaken hm fun _ _ => trivial

theorem stay_get : Stays K nb (K.Inv nb) M.get := fun _ hs => ⟨hs, hs⟩

theorem stay_need (o : Option α) : Stays K nb (fun a => o = some a) (M.need o) := by
  intro s hs
  cases o
  · trivial
  · exact ⟨rfl, hs⟩

/-- An operation that never changes the state. -/
theorem stay_same {m : M α} (h : ∀ s, (∃ a, m s = .ok a s) ∨ (∃ e, m s = .err e s) ∨
    m s = .ub ∨ m s = .diverge) : Stays K nb (fun _ => True) m := by
  intro s hs
  rcases h s with ⟨a, h⟩ | ⟨e, h⟩ | h | h <;> rw [h]
  · exact ⟨trivial, hs⟩
  all_goals trivial

theorem stay_modify {f : VM → VM} (h : ∀ s, K.Inv nb s → K.Inv nb (f s)) :
    Stays K nb (fun _ => True) (M.modify f) := fun s hs => ⟨trivial, h s hs⟩

theorem stay_readCell (r : Ref) : Stays K nb (fun _ => True) (readCell r) := by
  intro s hs
  unfold readCell
  cases h : s.heap[r]? with
  | none => trivial
  | some o => exact ⟨trivial, hs⟩

theorem stay_deref (p : Option Ref) : Stays K nb (fun _ => True) (deref p) :=
  stay_bind (stay_need p) (fun r _ => stay_readCell r)

theorem stay_getArg (a : Nat) : Stays K nb (Val nb) (getArg a) := by
  intro s hs
  unfold getArg
  cases h : (argIndex s.stack.length a).bind (fun i => s.stack[i]?) with
  | none => trivial
  | some o =>
    obtain ⟨i, -, h2⟩ := Option.bind_eq_some_iff.1 h
    exact ⟨hs.stack o (List.mem_of_getElem? h2), hs⟩

theorem stay_stackAt (i : Int) : Stays K nb (Val nb) (stackAt i) := by
  intro s hs
  unfold stackAt
  by_cases h0 : 0 ≤ i
  · rw [if_pos h0]
    cases h : s.stack[i.toNat]? with
    | none => trivial
    | some o => exact ⟨hs.stack o (List.mem_of_getElem? h), hs⟩
  · rw [if_neg h0]; trivial

theorem stay_getAbs (i : Int) : Stays K nb (Val nb) (getAbs i) := by
  intro s hs
  unfold getAbs
  by_cases h0 : 0 ≤ i
  · rw [if_pos h0]
    cases h : s.stack[i.toNat]? with
    | none => trivial
    | some o => exact ⟨hs.stack o (List.mem_of_getElem? h), hs⟩
  · rw [if_neg h0]; trivial

theorem stay_height : Stays K nb (fun _ => True) height := fun _ hs => ⟨trivial, hs⟩

theorem stay_globalGet (k : Int) : Stays K nb (fun _ => True) (globalGet k) := by
  apply stay_same
  intro s
  unfold globalGet
  cases s.globals.find? (fun kv => kv.1 == k) <;> simp

theorem stay_ckInt (i : Int) : Stays K nb (fun _ => True) (ckInt i) := by
  unfold ckInt
  split
  · exact stay_pure trivial
  · exact stay_ub

theorem stay_codeSerial (c : Ref) : Stays K nb (fun n => ∃ b, K.code c b ∧ b.serial = n) (codeSerial c) := by
  intro s hs
  unfold codeSerial
  split
  · rename_i b n h
    split at h
    · rename_i b' n' hc
      cases h
      exact ⟨⟨b', hs.heap c _ hc, rfl⟩, hs⟩
    · cases h
  · trivial

theorem stay_upvalueAt (u : UpArray) (j : Nat) : Stays K nb (fun _ => True) (upvalueAt u j) := by
  apply stay_same
  intro s
  unfold upvalueAt
  split
  · simp
  · split
    · split
      · rename_i blk _ _ _
        cases blk.ups[j]? <;> simp
      · simp
    · simp

theorem stay_topUpArray {m : M UpArray} (hm : Stays K nb (fun _ => True) m) :
    Stays K nb (fun _ => True) (topUpArray m) := by
  intro s hs
  unfold topUpArray
  cases s.upArrays.getLast? with
  | some u => exact ⟨trivial, hs⟩
  | none => exact hm s hs

theorem same_of_rel {m : M α} (h : ∀ R E, Pre R E → RelE R E m) : Stays K nb (fun _ => True) m := by
  intro s hs
  have h1 := h (fun a b => a = b) (fun _ _ => True) ⟨fun _ => rfl, fun h1 h2 => h1.trans h2, fun _ => trivial, fun _ _ => trivial⟩ s
  cases hm : m s with
  | ok a s' => rw [hm] at h1; cases h1; exact ⟨trivial, hs⟩
  | err e s' => trivial
  | ub => trivial
  | diverge => trivial

theorem stay_listIsCyclic (p : Option Ref) : Stays K nb (fun _ => True) (listIsCyclic p) :=
  same_of_rel fun _ _ h => rel_listIsCyclic h p

theorem stay_countConses (heap : List Obj) (fuel : Nat) (p : Option Ref) :
    Stays K nb (fun _ => True) (countConses heap fuel p) := same_of_rel fun _ _ h => rel_countConses h heap fuel p

theorem stay_chase {m1 m2 : M Upvalue} (h1 : Stays K nb (fun _ => True) m1) (h2 : Stays K nb (fun _ => True) m2)
    (fuel : Nat) : ∀ p, Stays K nb (fun _ => True) (chase m1 m2 fuel p) := by
  induction fuel with
  | zero => intro p; exact stay_diverge
  | succ fuel ih =>
    intro p
    cases p with
    | none => exact h1
    | some r =>
      unfold chase
      refine stay_bind (stay_readCell r) (fun o _ => ?_)
      split
      · exact ih _
      · exact stay_pure trivial
      · exact h2

theorem stay_unwrap (fuel : Nat) : ∀ o, Stays K nb (fun _ => True) (unwrap fuel o) := by
  induction fuel with
  | zero => intro o; exact stay_diverge
  | succ fuel ih =>
    intro o
    cases o
    case composite c =>
      unfold unwrap
      refine stay_bind (stay_deref c) (fun o _ => ?_)
      split
      · exact stay_bind (stay_deref _) (fun o _ => ih o)
      · exact stay_ub
    all_goals exact stay_pure trivial

/-! ### Operations that change the state -/

theorem Rules.Inv.setHeap {s : VM} (h : K.Inv nb s) {r : Ref} {o : Obj} (ho : K.CellFits r o) :
    K.Inv nb { s with heap := s.heap.set r o } := by
  refine ⟨h.stack, fun c o' hc => ?_, h.frames⟩
  dsimp only at hc
  rw [List.getElem?_set] at hc
  split at hc
  · rename_i hrc
    split at hc
    · cases hc; exact hrc ▸ ho
    · cases hc
  · exact h.heap c o' hc

theorem stay_writeCell (r : Ref) (o : Obj) (ho : Val true o) : Stays K nb (fun _ => True) (writeCell r o) := by
  intro s hs
  unfold writeCell
  by_cases h : r < s.heap.length
  · rw [if_pos h]; exact ⟨trivial, hs.setHeap (ho.fits r)⟩
  · rw [if_neg h]; trivial

theorem release_fits {c : Ref} {o : Obj} (h : K.CellFits c o) : K.CellFits c (release o) := by
  cases o <;> first | exact h | trivial | skip
  case internalVector vs n i => cases i <;> trivial

theorem sweep_get {heap : List Obj} {inUse : List Bool} {i : Nat} {free : List Ref} (c : Nat) {o : Obj}
    (h : (sweep i heap inUse free).1[c]? = some o) : ∃ o', heap[c]? = some o' ∧ (o = o' ∨ o = release o') := by
  induction heap generalizing inUse i free c with
  | nil => cases inUse <;> simp [sweep] at h
  | cons x xs ih =>
    cases inUse with
    | nil => simp only [sweep] at h; exact ⟨o, h, .inl rfl⟩
    | cons u us =>
      simp only [sweep] at h
      cases c with
      | zero =>
        refine ⟨x, rfl, ?_⟩
        split at h
        · simp at h; exact .inl h.symm
        · simp at h; exact .inr h.symm
      | succ c =>
        split at h
        · simp only [List.getElem?_cons_succ] at h ⊢; exact ih c h
        · simp only [List.getElem?_cons_succ] at h ⊢; exact ih c h

theorem Rules.Inv.collect {s s' : VM} (h : K.Inv nb s) (hg : garbageCollect s = .ok () s') : K.Inv nb s' := by
  unfold garbageCollect at hg
  split at hg
  · cases hg
  · dsimp only at hg
    cases hg
    refine ⟨h.stack, fun c o hc => ?_, h.frames⟩
    obtain ⟨o', h1, rfl | rfl⟩ := sweep_get c hc
    · exact h.heap c _ h1
    · exact release_fits (h.heap c _ h1)

theorem store_val {n : Nat} {o : Obj} (h : Val true o) : Val true (store n o) := by
  cases o <;> first | exact h | skip
  case upvalueArray b k => simp only [store]; split <;> exact fun _ => trivial
  case internalVector vs k i => cases i <;> (simp only [store]; split <;> exact fun _ => trivial)
  case internalString v k => simp only [store]; split <;> exact fun _ => trivial
  case bytecode b k =>
    cases b with
    | none => simp only [store]; split <;> exact fun _ => trivial
    | some b => exact (h rfl).elim

theorem Rules.Inv.take {s s' : VM} {o : Obj} {r : Ref} (h : K.Inv nb s) (ho : Val true o)
    (ht : takeFree o s = .ok r s') : K.Inv nb s' := by
  unfold takeFree at ht
  split at ht
  · cases ht
  · cases ht
    have := h.setHeap (r := r) ((store_val (n := s.nextSerial) ho).fits r)
    exact ⟨this.stack, this.heap, this.frames⟩

theorem stay_pushObject (o : Obj) (ho : Val true o) : Stays K nb (fun _ => True) (pushObject o) := by
  intro s hs
  unfold pushObject
  by_cases hf : s.free = []
  · rw [if_pos hf]
    cases hg : garbageCollect s with
    | ok a s1 =>
      dsimp only
      have h1 := hs.collect hg
      by_cases hf1 : s1.free = []
      · rw [if_pos hf1]; trivial
      · rw [if_neg hf1]
        cases ht : takeFree o s1 with
        | ok r s2 => exact ⟨trivial, h1.take ho ht⟩
        | err e s2 => trivial
        | ub => trivial
        | diverge => trivial
    | err e s1 => trivial
    | ub => trivial
    | diverge => trivial
  · rw [if_neg hf]
    cases ht : takeFree o s with
    | ok r s2 => exact ⟨trivial, hs.take ho ht⟩
    | err e s2 => trivial
    | ub => trivial
    | diverge => trivial

theorem pushObject_err_inv {s s' : VM} {o : Obj} {e : DlError} (hs : K.Inv nb s) (h : pushObject o s = .err e s') :
    K.Inv nb s' := by
  unfold pushObject at h
  by_cases hf : s.free = []
  · rw [if_pos hf] at h
    cases hg : garbageCollect s with
    | ok a s1 =>
      rw [hg] at h
      dsimp only at h
      have h1 := hs.collect hg
      by_cases hf1 : s1.free = []
      · rw [if_pos hf1] at h; cases h; exact h1
      · rw [if_neg hf1] at h
        unfold takeFree at h
        split at h <;> cases h
    | err e s1 =>
      unfold garbageCollect at hg
      split at hg <;> cases hg
    | ub => rw [hg] at h; cases h
    | diverge => rw [hg] at h; cases h
  · rw [if_neg hf] at h
    unfold takeFree at h
    split at h <;> cases h

theorem Rules.Inv.setStack {s : VM} (h : K.Inv nb s) {st : List Obj} (up : List (Option Ref))
    (hst : ∀ o ∈ st, o ∈ s.stack ∨ Val nb o) : K.Inv nb { s with stack := st, upStack := up } :=
  ⟨fun o ho => (hst o ho).elim (h.stack o) id, h.heap, h.frames⟩

theorem stay_push (o : Obj) (ho : Val nb o) : Stays K nb (fun _ => True) (push o) :=
  stay_modify fun s hs => hs.setStack _ fun x hx => by
    rcases List.mem_append.1 hx with h | h
    · exact .inl h
    · rw [List.mem_singleton.1 h]; exact .inr ho

theorem stay_pushStackOnly (o : Obj) (ho : Val nb o) : Stays K nb (fun _ => True) (pushStackOnly o) :=
  stay_modify fun s hs => by
    refine ⟨fun x hx => ?_, hs.heap, hs.frames⟩
    rcases List.mem_append.1 hx with h | h
    · exact hs.stack x h
    · rw [List.mem_singleton.1 h]; exact ho

theorem stay_pushUpOnly (u : Option Ref) : Stays K nb (fun _ => True) (pushUpOnly u) :=
  stay_modify fun _ hs => ⟨hs.stack, hs.heap, hs.frames⟩

theorem stay_setUpStack (i : Nat) (o : Option Ref) :
    Stays K nb (fun _ => True) (M.modify fun s => { s with upStack := s.upStack.set i o }) :=
  stay_modify fun _ hs => ⟨hs.stack, hs.heap, hs.frames⟩

theorem stay_globalSet (p : Option Ref) (k : Int) : Stays K nb (fun _ => True) (globalSet p k) :=
  stay_modify fun _ hs => ⟨hs.stack, hs.heap, hs.frames⟩

theorem stay_pushPtr (p : Option Ref) : Stays K false (fun _ => True) (pushPtr p) := by
  unfold pushPtr
  cases p with
  | none => exact stay_push _ fun _ => trivial
  | some r => exact stay_bind (stay_readCell r) (fun o _ => stay_push o fun h => nomatch h)

theorem stay_popStack : Stays K nb (Val nb) popStack := by
  intro s hs
  unfold popStack
  cases h : s.stack.getLast? with
  | none => trivial
  | some o =>
    dsimp only
    split
    · rename_i h1
      split at h1
      · cases h1
      · cases h1
        exact ⟨hs.stack _ (List.mem_of_getLast? h), fun x hx => hs.stack x ((List.dropLast_sublist _).subset hx), hs.heap, hs.frames⟩
    · trivial

theorem stay_popMany (n : Nat) : Stays K nb (fun _ => True) (popMany n) := by
  intro s hs
  unfold popMany
  by_cases h1 : s.upStack.length < n
  · rw [if_pos h1]; trivial
  · rw [if_neg h1]
    dsimp only
    by_cases h2 : s.stack.length < n
    · rw [if_pos h2]; trivial
    · rw [if_neg h2]
      exact ⟨trivial, fun x hx => hs.stack x (List.mem_of_mem_take hx), hs.heap, hs.frames⟩

theorem Rules.Inv.setSlot {s : VM} (h : K.Inv nb s) {o : Obj} (ho : Val nb o) (i : Nat) :
    K.Inv nb { s with stack := s.stack.set i o } :=
  ⟨fun x hx => by
    rcases List.mem_or_eq_of_mem_set hx with h1 | h1
    · exact h.stack x h1
    · rw [h1]; exact ho, h.heap, h.frames⟩

theorem stay_setArg (a : Nat) (o : Obj) (ho : Val nb o) : Stays K nb (fun _ => True) (setArg a o) := by
  intro s hs
  unfold setArg
  cases argIndex s.stack.length a with
  | none => trivial
  | some i => exact ⟨trivial, hs.setSlot ho i⟩

theorem stay_setStackAt (i : Int) (o : Obj) (ho : Val nb o) : Stays K nb (fun _ => True) (setStackAt i o) := by
  intro s hs
  unfold setStackAt
  by_cases h : 0 ≤ i ∧ i.toNat < s.stack.length
  · rw [if_pos h]; exact ⟨trivial, hs.setSlot ho _⟩
  · rw [if_neg h]; trivial

theorem stay_setAbs (i : Int) (o : Obj) (ho : Val nb o) : Stays K nb (fun _ => True) (setAbs i o) := by
  intro s hs
  unfold setAbs
  by_cases h : 0 ≤ i ∧ i.toNat < s.stack.length
  · rw [if_pos h]; exact ⟨trivial, hs.setSlot ho _⟩
  · rw [if_neg h]; trivial

theorem stay_pushFrame (f : Frame) (u : UpArray) (hf : K.pos f.ip) :
    Stays K nb (fun _ => True) (pushFrame f u) :=
  stay_modify fun s hs => ⟨hs.stack, hs.heap, fun g hg => by
    rcases List.mem_append.1 hg with h | h
    · exact hs.frames g h
    · rw [List.mem_singleton.1 h]; exact hf⟩

theorem stay_popFrame : Stays K nb (fun p => ∀ ip, p = some ip → K.pos ip) popFrame := by
  intro s hs
  unfold popFrame
  cases h : s.callStack.getLast? with
  | none => exact ⟨fun _ h => (nomatch h), hs⟩
  | some f =>
    dsimp only
    have h2 : K.Inv nb { s with callStack := s.callStack.dropLast } :=
      ⟨hs.stack, hs.heap, fun g hg => hs.frames g ((List.dropLast_sublist _).subset hg)⟩
    split
    · rename_i h1
      split at h1
      · cases h1; exact ⟨fun _ h => (nomatch h), h2⟩
      · cases h1
        refine ⟨fun ip hip => ?_, h2.stack, h2.heap, h2.frames⟩
        cases hip
        exact hs.frames f (List.mem_of_getLast? h)
    · trivial

theorem stay_chaseFuel : Stays K nb (fun _ => True) chaseFuel := fun _ hs => ⟨trivial, hs⟩
theorem stay_unwrapFuel : Stays K nb (fun _ => True) unwrapFuel := fun _ hs => ⟨trivial, hs⟩

end DuckLisp.VM
