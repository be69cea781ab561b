import Verif.Model.VM.Exec
import Verif.Proof.VM.Heap

/-!
# Relations between the states before and after an operation
-/

namespace DuckLisp.VM

open DuckLisp

/-- `m` relates the state before to the state after: by `R` if it succeeds, by `E` if it reports an
error. -/
def RelE (R E : VM → VM → Prop) {α : Type} (m : M α) : Prop :=
  ∀ s, match m s with
    | .ok _ s' => R s s'
    | .err _ s' => E s s'
    | .ub => True
    | .diverge => True

/-- `m` relates the state before to the state after, whether it succeeds or reports an error. -/
abbrev Rel (R : VM → VM → Prop) {α : Type} (m : M α) : Prop := RelE R R m

theorem Rel.ok {R E : VM → VM → Prop} {α : Type} {m : M α} (h : RelE R E m) {s s' : VM} {a : α}
    (hm : m s = .ok a s') : R s s' := by
  have := h s
  rw [hm] at this
  exact this

theorem Rel.err {R E : VM → VM → Prop} {α : Type} {m : M α} (h : RelE R E m) {s s' : VM}
    {e : DlError} (hm : m s = .err e s') : E s s' := by
  have := h s
  rw [hm] at this
  exact this

/-- Reflexive and transitive; errors may happen anywhere. -/
structure Pre (R E : VM → VM → Prop) : Prop where
  refl : ∀ s, R s s
  trans : ∀ {a b c}, R a b → R b c → R a c
  weak : ∀ {a b}, R a b → E a b
  transE : ∀ {a b c}, R a b → E b c → E a c

variable {R E : VM → VM → Prop} {α β : Type}

theorem rel_pure (hR : Pre R E) (a : α) : RelE R E (pure a : M α) := fun s => hR.refl s

theorem rel_throw (hR : Pre R E) (e : DlError) : RelE R E (M.throw e : M α) :=
  fun s => hR.weak (hR.refl s)

theorem rel_ub : RelE R E (M.ub : M α) := fun _ => trivial

theorem rel_diverge : RelE R E (M.diverge : M α) := fun _ => trivial

theorem rel_bind (hR : Pre R E) {m : M α} {f : α → M β} (hm : RelE R E m) (hf : ∀ a, RelE R E (f a)) :
    RelE R E (m >>= f) := by
  intro s
  rw [M.bind_run]
  have h := hm s
  cases hms : m s with
  | ok a s' =>
    rw [hms] at h
    have h' := hf a s'
    simp only
    cases hfs : f a s' with
    | ok b s'' => rw [hfs] at h'; exact hR.trans h h'
    | err e s'' => rw [hfs] at h'; exact hR.transE h h'
    | ub => trivial
    | diverge => trivial
  | err e s' => rw [hms] at h; exact h
  | ub => trivial
  | diverge => trivial

theorem rel_get (hR : Pre R E) : RelE R E M.get := fun s => hR.refl s

theorem rel_need (hR : Pre R E) (o : Option α) : RelE R E (M.need o) := by
  intro s
  cases o
  · trivial
  · exact hR.refl s

theorem rel_modify {f : VM → VM} (h : ∀ s, R s (f s)) : RelE R E (M.modify f) := fun s => h s

/-- An operation that never changes the state. -/
theorem rel_same (hR : Pre R E) {m : M α} (h : ∀ s, (∃ a, m s = .ok a s) ∨ (∃ e, m s = .err e s) ∨
    m s = .ub ∨ m s = .diverge) : RelE R E m := by
  intro s
  rcases h s with ⟨a, h⟩ | ⟨e, h⟩ | h | h <;> rw [h]
  · exact hR.refl s
  · exact hR.weak (hR.refl s)
  · trivial
  · trivial

theorem same_readCell (r : Ref) (s : VM) : (∃ a, readCell r s = .ok a s) ∨
    (∃ e, readCell r s = .err e s) ∨ readCell r s = .ub ∨ readCell r s = .diverge := by
  unfold readCell
  cases s.heap[r]? <;> simp

theorem rel_readCell (hR : Pre R E) (r : Ref) : RelE R E (readCell r) := rel_same hR (same_readCell r)

theorem rel_deref (hR : Pre R E) (p : Option Ref) : RelE R E (deref p) :=
  rel_bind hR (rel_need hR p) (fun r => rel_readCell hR r)

theorem rel_getArg (hR : Pre R E) (a : Nat) : RelE R E (getArg a) := by
  apply rel_same hR
  intro s
  unfold getArg
  cases (argIndex s.stack.length a).bind (fun i => s.stack[i]?) <;> simp

theorem rel_stackAt (hR : Pre R E) (i : Int) : RelE R E (stackAt i) := by
  apply rel_same hR
  intro s
  unfold stackAt
  split
  · cases s.stack[i.toNat]? <;> simp
  · simp

theorem rel_getAbs (hR : Pre R E) (i : Int) : RelE R E (getAbs i) := by
  apply rel_same hR
  intro s
  unfold getAbs
  split
  · cases s.stack[i.toNat]? <;> simp
  · simp

theorem rel_height (hR : Pre R E) : RelE R E height := fun s => hR.refl s

theorem rel_globalGet (hR : Pre R E) (k : Int) : RelE R E (globalGet k) := by
  apply rel_same hR
  intro s
  unfold globalGet
  cases s.globals.find? (fun kv => kv.1 == k) <;> simp

theorem rel_ckInt (hR : Pre R E) (i : Int) : RelE R E (ckInt i) := by
  unfold ckInt
  split
  · exact rel_pure hR _
  · exact rel_ub

theorem rel_codeSerial (hR : Pre R E) (b : Ref) : RelE R E (codeSerial b) := by
  apply rel_same hR
  intro s
  unfold codeSerial
  split <;> simp

theorem rel_upvalueAt (hR : Pre R E) (u : UpArray) (j : Nat) : RelE R E (upvalueAt u j) := by
  apply rel_same hR
  intro s
  unfold upvalueAt
  split
  · simp
  · split
    · split
      · rename_i blk _ _ _
        cases blk.ups[j]? <;> simp
      · simp
    · simp

theorem rel_topUpArray (hR : Pre R E) {m : M UpArray} (hm : RelE R E m) : RelE R E (topUpArray m) := by
  intro s
  unfold topUpArray
  cases s.upArrays.getLast? with
  | some u => exact hR.refl s
  | none => exact hm s

theorem rel_brent (hR : Pre R E) (heap : List Obj) (fuel : Nat) :
    ∀ slow fast taken limit, RelE R E (brent heap fuel slow fast taken limit) := by
  induction fuel with
  | zero => intros; exact rel_diverge
  | succ fuel ih =>
    intro slow fast taken limit
    unfold brent
    split
    · exact rel_ub
    · exact rel_pure hR _
    · split
      · exact rel_pure hR _
      · split
        · exact ih _ _ _ _
        · exact ih _ _ _ _

theorem rel_listIsCyclic (hR : Pre R E) (p : Option Ref) : RelE R E (listIsCyclic p) := by
  intro s
  unfold listIsCyclic
  cases p with
  | none => exact hR.refl s
  | some r => exact rel_brent hR _ _ _ _ _ _ s

theorem rel_countConses (hR : Pre R E) (heap : List Obj) (fuel : Nat) :
    ∀ p, RelE R E (countConses heap fuel p) := by
  induction fuel with
  | zero => intro p; cases p <;> first | exact rel_pure hR _ | exact rel_diverge
  | succ fuel ih =>
    intro p
    cases p with
    | none => exact rel_pure hR _
    | some r =>
      unfold countConses
      split
      · exact rel_ub
      · exact rel_bind hR (ih _) (fun _ => rel_pure hR _)
      · exact rel_pure hR _

theorem rel_chase (hR : Pre R E) {m1 m2 : M Upvalue} (h1 : RelE R E m1) (h2 : RelE R E m2) (fuel : Nat) :
    ∀ p, RelE R E (chase m1 m2 fuel p) := by
  induction fuel with
  | zero => intro p; exact rel_diverge
  | succ fuel ih =>
    intro p
    cases p with
    | none => exact h1
    | some r =>
      unfold chase
      refine rel_bind hR (rel_readCell hR r) (fun o => ?_)
      split
      · exact ih _
      · exact rel_pure hR _
      · exact h2

theorem rel_unwrap (hR : Pre R E) (fuel : Nat) : ∀ o, RelE R E (unwrap fuel o) := by
  induction fuel with
  | zero => intro o; exact rel_diverge
  | succ fuel ih =>
    intro o
    cases o
    case composite c =>
      unfold unwrap
      refine rel_bind hR (rel_deref hR c) (fun o => ?_)
      split
      · exact rel_bind hR (rel_deref hR _) (fun o => ih o)
      · exact rel_ub
    all_goals exact rel_pure hR _

/-- The operations that change the state, each of which must respect the relation. -/
structure Prims0 (R E : VM → VM → Prop) : Prop extends Pre R E where
  collect : ∀ {s s'}, garbageCollect s = .ok () s' → R s s'
  take : ∀ o, Rel R (takeFree o)
  heap : ∀ s r o, r < s.heap.length → R s { s with heap := s.heap.set r o }
  /-- changing both stacks alike -/
  stacks : ∀ s st up, st.length + s.upStack.length = s.stack.length + up.length →
    R s { s with stack := st, upStack := up }
  /-- errors leave the stacks in any state if they were not level before -/
  stacksE : ∀ s st up, s.stack.length ≠ s.upStack.length → E s { s with stack := st, upStack := up }

/-- The same, and the operations of calls. -/
structure Prims (R E : VM → VM → Prop) : Prop extends Prims0 R E where
  /-- changing the stacks of pending calls, alike if there is one more set of captured variables -/
  calls : ∀ s cs ua, (∀ b rest, s.upArrays = b :: rest → rest.length = s.callStack.length →
      ∃ rest', ua = b :: rest' ∧ rest'.length = cs.length) →
    R s { s with callStack := cs, upArrays := ua }

/-- The instructions that treat the two stacks differently on the way. -/
structure Two (R E : VM → VM → Prop) : Prop where
  vector : ∀ as, RelE R E (iVector as)
  makeVector : ∀ a b, RelE R E (iMakeVector a b)
  closure : ∀ bc st va b d ar vs, RelE R E (iPushClosure bc st va b d ar vs)

/-- All of these. -/
structure Prims' (R E : VM → VM → Prop) : Prop extends Prims R E, Two R E

instance : Coe (Prims R E) (Prims0 R E) := ⟨Prims.toPrims0⟩
instance : Coe (Prims' R E) (Prims R E) := ⟨Prims'.toPrims⟩
instance : Coe (Prims' R E) (Two R E) := ⟨Prims'.toTwo⟩

theorem rel_writeCell (h : Prims0 R E) (r : Ref) (o : Obj) : RelE R E (writeCell r o) := by
  intro s
  unfold writeCell
  split <;> rename_i hc
  · split at hc
    · cases hc; exact h.heap s r o (by assumption)
    · cases hc
  · split at hc <;> cases hc
  · trivial
  · trivial

/-- Even an error of the allocator respects the relation for success. -/
theorem rel_pushObject' (h : Prims0 R E) (o : Obj) : Rel R (pushObject o) := by
  intro s
  unfold pushObject
  by_cases hf : s.free = []
  · rw [if_pos hf]
    cases hg : garbageCollect s with
    | ok a s1 =>
      simp only
      have h1 := h.collect hg
      by_cases hf1 : s1.free = []
      · rw [if_pos hf1]; exact h1
      · rw [if_neg hf1]
        have h2 := h.take o s1
        cases ht : takeFree o s1 with
        | ok r s2 => rw [ht] at h2; exact h.trans h1 h2
        | err e s2 => rw [ht] at h2; exact h.trans h1 h2
        | ub => trivial
        | diverge => trivial
    | err e s1 => exact absurd hg garbageCollect_not_err
    | ub => trivial
    | diverge => trivial
  · rw [if_neg hf]
    exact h.take o s

theorem rel_weaken (h : Prims0 R E) {m : M α} (hm : Rel R m) : RelE R E m := by
  intro s
  have := hm s
  cases hs : m s <;> rw [hs] at this
  · exact this
  · exact h.weak this
  · trivial
  · trivial

theorem rel_pushObject (h : Prims0 R E) (o : Obj) : RelE R E (pushObject o) :=
  rel_weaken h (rel_pushObject' h o)

theorem rel_push (h : Prims0 R E) (o : Obj) : RelE R E (push o) := by
  refine rel_modify (fun s => h.stacks s _ _ ?_)
  simp
  omega

theorem rel_pushPtr (h : Prims0 R E) (p : Option Ref) : RelE R E (pushPtr p) := by
  unfold pushPtr
  cases p with
  | none => exact rel_push h _
  | some r => exact rel_bind h.toPre (rel_readCell h.toPre r) (fun o => rel_push h o)

theorem rel_popStack (h : Prims0 R E) : RelE R E popStack := by
  intro s
  unfold popStack
  cases hs : s.stack.getLast? with
  | none => exact h.weak (h.refl s)
  | some o =>
    simp only
    have hl : s.stack.length ≠ 0 := by
      intro h0
      rw [List.length_eq_zero_iff.mp h0] at hs
      cases hs
    cases hu : s.upStack with
    | nil =>
      have := h.stacksE s s.stack.dropLast s.upStack (by rw [hu]; exact hl)
      rw [hu] at this; exact this
    | cons u us =>
      refine h.stacks s s.stack.dropLast _ ?_
      simp [hu]
      omega

theorem rel_popMany (h : Prims0 R E) (n : Nat) : RelE R E (popMany n) := by
  intro s
  unfold popMany
  by_cases h1 : s.upStack.length < n
  · rw [if_pos h1]; exact h.weak (h.refl s)
  · rw [if_neg h1]
    simp only
    by_cases h2 : s.stack.length < n
    · rw [if_pos h2]
      exact h.stacksE s s.stack (s.upStack.take (s.upStack.length - n)) (by omega)
    · rw [if_neg h2]
      refine h.stacks s _ _ ?_
      simp
      omega

theorem rel_setArg (h : Prims0 R E) (a : Nat) (o : Obj) : RelE R E (setArg a o) := by
  intro s
  unfold setArg
  cases argIndex s.stack.length a with
  | none => exact h.weak (h.refl s)
  | some i => exact h.stacks s _ s.upStack (by simp)

theorem rel_setStackAt (h : Prims0 R E) (i : Int) (o : Obj) : RelE R E (setStackAt i o) := by
  intro s
  unfold setStackAt
  by_cases h1 : 0 ≤ i ∧ i.toNat < s.stack.length
  · rw [if_pos h1]; exact h.stacks s _ s.upStack (by simp)
  · rw [if_neg h1]; trivial

theorem rel_setAbs (h : Prims0 R E) (i : Int) (o : Obj) : RelE R E (setAbs i o) := by
  intro s
  unfold setAbs
  by_cases h1 : 0 ≤ i ∧ i.toNat < s.stack.length
  · rw [if_pos h1]; exact h.stacks s _ s.upStack (by simp)
  · rw [if_neg h1]; exact h.weak (h.refl s)

theorem rel_setUpStack (h : Prims0 R E) (i : Nat) (o : Option Ref) :
    RelE R E (M.modify fun s => { s with upStack := s.upStack.set i o }) :=
  rel_modify (fun s => h.stacks s s.stack _ (by simp))

theorem rel_pushFrame (h : Prims R E) (f : Frame) (u : UpArray) : RelE R E (pushFrame f u) :=
  rel_modify (fun s => h.calls s _ _ (fun b rest hb hl => ⟨rest ++ [u], by rw [hb]; rfl, by simp [hl]⟩))

theorem rel_popFrame (h : Prims R E) : RelE R E popFrame := by
  intro s
  unfold popFrame
  cases hc : s.callStack.getLast? with
  | none => exact h.refl s
  | some f =>
    simp only
    have hl : s.callStack.length ≠ 0 := by
      intro h0
      rw [List.length_eq_zero_iff.mp h0] at hc
      cases hc
    cases hu : s.upArrays with
    | nil =>
      have := h.calls s s.callStack.dropLast s.upArrays (fun b rest hb => by rw [hu] at hb; cases hb)
      rw [hu] at this; exact this
    | cons u us =>
      refine h.calls s s.callStack.dropLast _ (fun b rest hb hl' => ?_)
      rw [hu] at hb
      cases hb
      refine ⟨us.dropLast, ?_, by simp [hl']⟩
      rw [List.dropLast_cons_of_ne_nil (by intro h0; rw [h0] at hl'; exact hl hl'.symm)]

theorem rel_chaseFuel (hR : Pre R E) : RelE R E chaseFuel := fun s => hR.refl s
theorem rel_unwrapFuel (hR : Pre R E) : RelE R E unwrapFuel := fun s => hR.refl s

/-- One step of `rel_auto`. -/
macro "rel_one" h:ident : tactic => `(tactic| (first
  | with_reducible exact rel_pure ($h).toPre _
  | with_reducible exact rel_throw ($h).toPre _
  | with_reducible exact rel_ub
  | with_reducible exact rel_diverge
  | with_reducible exact rel_get ($h).toPre
  | with_reducible exact rel_need ($h).toPre _
  | with_reducible exact rel_readCell ($h).toPre _
  | with_reducible exact rel_deref ($h).toPre _
  | with_reducible exact rel_getArg ($h).toPre _
  | with_reducible exact rel_stackAt ($h).toPre _
  | with_reducible exact rel_getAbs ($h).toPre _
  | with_reducible exact rel_height ($h).toPre
  | with_reducible exact rel_globalGet ($h).toPre _
  | with_reducible exact rel_ckInt ($h).toPre _
  | with_reducible exact rel_codeSerial ($h).toPre _
  | with_reducible exact rel_upvalueAt ($h).toPre _ _
  | with_reducible exact rel_listIsCyclic ($h).toPre _
  | with_reducible exact rel_countConses ($h).toPre _ _ _
  | with_reducible exact rel_unwrap ($h).toPre _ _
  | with_reducible exact rel_chaseFuel ($h).toPre
  | with_reducible exact rel_unwrapFuel ($h).toPre
  | with_reducible exact rel_writeCell $h _ _
  | with_reducible exact rel_pushObject $h _
  | with_reducible exact rel_push $h _
  | with_reducible exact rel_pushPtr $h _
  | with_reducible exact rel_popStack $h
  | with_reducible exact rel_popMany $h _
  | with_reducible exact rel_setArg $h _ _
  | with_reducible exact rel_setStackAt $h _ _
  | with_reducible exact rel_setAbs $h _ _
  | with_reducible exact rel_setUpStack $h _ _
  | with_reducible exact rel_pushFrame $h _ _
  | with_reducible exact rel_popFrame $h
  | with_reducible refine rel_topUpArray ($h).toPre ?_
  | with_reducible refine rel_chase ($h).toPre ?_ ?_ _ _
  | with_reducible refine rel_bind ($h).toPre ?_ (fun _ => ?_)
  | split))

/-- Prove `RelE R E m` by following the shape of `m`. -/
macro "rel_auto" h:ident : tactic => `(tactic| repeat' rel_one $h)

variable (h : Prims0 R E)
include h

theorem rel_iPushUpvalue (j : Nat) : RelE R E (iPushUpvalue j) := by
  unfold iPushUpvalue; rel_auto h

theorem rel_iSetUpvalue (j a : Nat) : RelE R E (iSetUpvalue j a) := by
  unfold iSetUpvalue; rel_auto h

theorem rel_setCapture (c : Ref) (k : Nat) (u : Option Ref) : RelE R E (setCapture c k u) := by
  unfold setCapture; rel_auto h

theorem rel_release1 (a : Nat) : RelE R E (release1 a) := by
  unfold release1; rel_auto h

theorem rel_iReleaseUpvalues (as : List Nat) : RelE R E (iReleaseUpvalues as) := by
  induction as with
  | nil => exact rel_pure h.toPre _
  | cons a as ih =>
    unfold iReleaseUpvalues
    refine rel_bind h.toPre (rel_release1 h a) (fun b => ?_)
    split
    · exact ih
    · exact rel_pure h.toPre _

theorem rel_restLoop (n : Nat) : ∀ k last, RelE R E (restLoop k n last) := by
  induction n with
  | zero => intro k last; exact rel_pure h.toPre _
  | succ n ih =>
    intro k last
    unfold restLoop
    rel_auto h
    exact ih _ _

theorem rel_collectRest (n : Nat) (t : Option Ref) : RelE R E (collectRest n t) := by
  unfold collectRest
  refine rel_bind h.toPre (rel_push h _) (fun _ => ?_)
  refine rel_bind h.toPre (rel_push h _) (fun _ => ?_)
  refine rel_bind h.toPre (rel_restLoop h _ _ _) (fun _ => ?_)
  rel_auto h

theorem rel_prepareForFuncall (f : Obj) (n : Nat) : RelE R E (prepareForFuncall f n) := by
  unfold prepareForFuncall
  rel_auto h
  exact rel_collectRest h _ _

theorem rel_captureArray (p : Option Ref) : RelE R E (captureArray p) := by
  unfold captureArray; rel_auto h

omit h in
theorem rel_enter (h : Prims R E) (bc : Ref) (nx : CodePtr) (name : Int) (c u : Option Ref) :
    RelE R E (enter bc nx name c u) := by
  unfold enter
  refine rel_bind h.toPre (rel_captureArray h _) (fun _ => ?_)
  rel_auto h

theorem rel_spread (ar todo : Nat) : ∀ n p, RelE R E (spread ar todo n p) := by
  induction todo with
  | zero => intro n p; exact rel_pure h.toPre _
  | succ todo ih =>
    intro n p
    unfold spread
    rel_auto h
    all_goals exact ih _ _

omit h in
theorem rel_iApply (h : Prims R E) (bc : Ref) (nx : CodePtr) (a n : Nat) : RelE R E (iApply bc nx a n) := by
  unfold iApply
  rel_auto h
  all_goals first
    | exact rel_spread h _ _ _ _
    | exact rel_collectRest h _ _
    | exact rel_enter h _ _ _ _ _

theorem rel_vectorInRange (p : Option Ref) (off : Int) : RelE R E (vectorInRange p off) := by
  unfold vectorInRange; rel_auto h

theorem rel_truthy (o : Obj) : RelE R E (truthy o) := by
  unfold truthy
  split
  all_goals first
    | exact rel_pure h.toPre _
    | exact rel_vectorInRange h _ _

theorem rel_notValue (o : Obj) : RelE R E (notValue o) := by
  unfold notValue; rel_auto h

theorem rel_intArith (op : Arith) (x y : Int) : RelE R E (intArith op x y) := by
  cases op <;> unfold intArith <;> rel_auto h

theorem rel_boolArith (op : Arith) (x y : UInt8) : RelE R E (boolArith op x y) := by
  cases op <;> unfold boolArith <;> rel_auto h

theorem rel_arithValue (fl : FloatOps) (op : Arith) (x y : Obj) : RelE R E (arithValue fl op x y) := by
  unfold arithValue
  rel_auto h
  all_goals first
    | exact rel_intArith h _ _ _
    | exact rel_boolArith h _ _ _

theorem rel_lessValue (fl : FloatOps) (x y : Obj) : RelE R E (lessValue fl x y) := by
  unfold lessValue; rel_auto h

theorem rel_greaterValue (fl : FloatOps) (x y : Obj) : RelE R E (greaterValue fl x y) := by
  unfold greaterValue; rel_auto h

theorem rel_stringBytes (p : Option Ref) (off : Int) (n : Nat) : RelE R E (stringBytes p off n) := by
  unfold stringBytes; rel_auto h

theorem rel_equalValue (x y : Obj) : RelE R E (equalValue x y) := by
  unfold equalValue
  rel_auto h
  all_goals exact rel_stringBytes h _ _ _

theorem rel_part (o : Obj) : RelE R E (part o) := by
  unfold part; rel_auto h

theorem rel_setCarCell (r : Ref) (x : Option Ref) : RelE R E (setCarCell r x) := by
  unfold setCarCell; rel_auto h

theorem rel_setCdrCell (r : Ref) (x : Option Ref) : RelE R E (setCdrCell r x) := by
  unfold setCdrCell; rel_auto h

theorem rel_iCons (a b : Nat) : RelE R E (iCons a b) := by
  unfold iCons
  rel_auto h
  all_goals first
    | exact rel_part h _
    | exact rel_setCarCell h _ _
    | exact rel_setCdrCell h _ _

theorem rel_setSlot (r : Ref) (k : Nat) (p : Ref) : RelE R E (setSlot r k p) := by
  unfold setSlot; rel_auto h

theorem rel_setInitialized (r : Ref) : RelE R E (setInitialized r) := by
  unfold setInitialized; rel_auto h

theorem rel_vectorLoop (r : Ref) (as : List Nat) : ∀ k, RelE R E (vectorLoop r k as) := by
  induction as with
  | nil => intro k; exact rel_pure h.toPre _
  | cons a as ih =>
    intro k
    unfold vectorLoop
    rel_auto h
    all_goals first
      | exact rel_setSlot h _ _ _
      | exact ih _

theorem rel_fillSlots (r p : Ref) : RelE R E (fillSlots r p) := by
  unfold fillSlots; rel_auto h

theorem rel_vectorStorage (p : Option Ref) : RelE R E (vectorStorage p) := by
  unfold vectorStorage; rel_auto h

theorem rel_slotValue (vs : Option (List Slot)) (i : Int) : RelE R E (slotValue vs i) := by
  unfold slotValue; rel_auto h

theorem rel_byteValue (p : Option Ref) (i : Int) : RelE R E (byteValue p i) := by
  unfold byteValue
  refine rel_bind h.toPre (rel_stringBytes h _ _ _) (fun _ => ?_)
  rel_auto h

theorem rel_iGetVecElt (a b : Nat) : RelE R E (iGetVecElt a b) := by
  unfold iGetVecElt
  rel_auto h
  all_goals first
    | exact rel_vectorStorage h _
    | exact rel_slotValue h _ _
    | exact rel_byteValue h _ _

theorem rel_iSetVecElt (a b c : Nat) : RelE R E (iSetVecElt a b c) := by
  unfold iSetVecElt
  rel_auto h
  all_goals first
    | exact rel_vectorStorage h _
    | exact rel_setSlot h _ _ _

theorem rel_partValue (p : Option Ref) : RelE R E (partValue p) := by
  unfold partValue; rel_auto h

theorem rel_cdrValue (o : Obj) : RelE R E (cdrValue o) := by
  unfold cdrValue
  rel_auto h
  all_goals exact rel_partValue h _

theorem rel_carValue (o : Obj) : RelE R E (carValue o) := by
  unfold carValue
  rel_auto h
  all_goals first
    | exact rel_partValue h _
    | exact rel_slotValue h _ _
    | exact rel_byteValue h _ _

theorem rel_iSetCar (a b : Nat) : RelE R E (iSetCar a b) := by
  unfold iSetCar
  rel_auto h
  all_goals first
    | exact rel_part h _
    | exact rel_setCarCell h _ _
    | exact rel_setSlot h _ _ _

theorem rel_setVectorLength (r : Ref) (n : Nat) : RelE R E (setVectorLength r n) := by
  unfold setVectorLength; rel_auto h

theorem rel_iSetCdr (a b : Nat) : RelE R E (iSetCdr a b) := by
  unfold iSetCdr
  rel_auto h
  all_goals first
    | exact rel_part h _
    | exact rel_setCdrCell h _ _
    | exact rel_setVectorLength h _ _

theorem rel_nullValue (o : Obj) : RelE R E (nullValue o) := by
  unfold nullValue
  rel_auto h
  all_goals exact rel_vectorInRange h _ _

theorem rel_compositeParts (c : Option Ref) : RelE R E (compositeParts c) := by
  unfold compositeParts; rel_auto h

theorem rel_typeValue (o : Obj) : RelE R E (typeValue o) := by
  unfold typeValue
  rel_auto h
  all_goals exact rel_compositeParts h _

theorem rel_setCompositeValueCell (c : Option Ref) (p : Ref) :
    RelE R E (setCompositeValueCell c p) := by
  unfold setCompositeValueCell; rel_auto h

theorem rel_setCompositeFunctionCell (c : Option Ref) (p : Ref) :
    RelE R E (setCompositeFunctionCell c p) := by
  unfold setCompositeFunctionCell; rel_auto h

theorem rel_iMakeInstance (a b c : Nat) : RelE R E (iMakeInstance a b c) := by
  unfold iMakeInstance
  rel_auto h
  all_goals first
    | exact rel_setCompositeValueCell h _ _
    | exact rel_setCompositeFunctionCell h _ _

theorem rel_iCompositeValue (a : Nat) : RelE R E (iCompositeValue a) := by
  unfold iCompositeValue
  rel_auto h
  all_goals exact rel_compositeParts h _

theorem rel_iCompositeFunction (a : Nat) : RelE R E (iCompositeFunction a) := by
  unfold iCompositeFunction
  rel_auto h
  all_goals exact rel_compositeParts h _

theorem rel_iSetCompositeValue (a b : Nat) : RelE R E (iSetCompositeValue a b) := by
  unfold iSetCompositeValue
  rel_auto h
  all_goals exact rel_setCompositeValueCell h _ _

theorem rel_iSetCompositeFunction (a b : Nat) : RelE R E (iSetCompositeFunction a b) := by
  unfold iSetCompositeFunction
  rel_auto h
  all_goals exact rel_setCompositeFunctionCell h _ _

theorem rel_lengthValue (o : Obj) : RelE R E (lengthValue o) := by
  unfold lengthValue
  rel_auto h
  all_goals exact rel_vectorStorage h _

theorem rel_symbolStringValue (o : Obj) : RelE R E (symbolStringValue o) := by
  unfold symbolStringValue; rel_auto h

theorem rel_vectorBytes (vs : Option (List Slot)) (n : Nat) : ∀ i, RelE R E (vectorBytes vs n i) := by
  induction n with
  | zero => intro i; exact rel_pure h.toPre _
  | succ n ih =>
    intro i
    unfold vectorBytes
    refine rel_bind h.toPre (rel_slotValue h _ _) (fun _ => ?_)
    split
    · refine rel_bind h.toPre (ih _) (fun _ => ?_)
      rel_auto h
    · rel_auto h

theorem rel_listBytes (fuel : Nat) : ∀ p, RelE R E (listBytes fuel p) := by
  induction fuel with
  | zero => intro p; exact rel_diverge
  | succ fuel ih =>
    intro p
    cases p with
    | none => exact rel_pure h.toPre _
    | some r =>
      unfold listBytes
      rel_auto h
      all_goals exact ih _

theorem rel_newString (b : Bytes) : RelE R E (newString b) := by
  unfold newString; rel_auto h

theorem rel_iMakeString (a : Nat) : RelE R E (iMakeString a) := by
  unfold iMakeString
  rel_auto h
  all_goals first
    | exact rel_vectorStorage h _
    | exact rel_vectorBytes h _ _ _
    | exact rel_listBytes h _ _
    | exact rel_newString h _

theorem rel_concatBytes (o : Obj) : RelE R E (concatBytes o) := by
  unfold concatBytes
  rel_auto h
  all_goals exact rel_stringBytes h _ _ _

theorem rel_iConcatenate (a b : Nat) : RelE R E (iConcatenate a b) := by
  unfold iConcatenate
  rel_auto h
  all_goals first
    | exact rel_concatBytes h _
    | exact rel_newString h _

theorem rel_iSubstring (a b c : Nat) : RelE R E (iSubstring a b c) := by
  unfold iSubstring; rel_auto h

theorem rel_unary (a : Nat) {f : Obj → M Obj} (hf : ∀ o, RelE R E (f o)) : RelE R E (unary a f) := by
  unfold unary
  rel_auto h
  exact hf _

theorem rel_binary (a b : Nat) {f : Obj → Obj → M Obj} (hf : ∀ o o', RelE R E (f o o')) :
    RelE R E (binary a b f) := by
  unfold binary
  rel_auto h
  exact hf _ _

theorem rel_boolValue {m : M Bool} (hm : RelE R E m) : RelE R E (boolValue m) := by
  unfold boolValue
  refine rel_bind h.toPre hm (fun _ => ?_)
  rel_auto h

theorem rel_iPushString (b : Bytes) : RelE R E (iPushString b) := by
  intro s
  unfold iPushString
  have h1 : Rel R (newString b) :=
    fun s => by
      have h2 := rel_pushObject' h (.internalString (some b) b.length) s
      unfold newString
      rw [M.bind_run]
      cases hp : pushObject (.internalString (some b) b.length) s <;> rw [hp] at h2
      · exact h2
      · exact h2
      · trivial
      · trivial
  replace h1 := h1 s
  cases hn : newString b s with
  | ok o s' => rw [hn] at h1; exact h.trans h1 (rel_push h o s')
  | err e s' => rw [hn] at h1; exact h.trans h1 (rel_push h .none s')
  | ub => trivial
  | diverge => trivial

omit h in
theorem rel_leave (h : Prims R E) : RelE R E leave := by
  unfold leave; rel_auto h

section
variable (hu : ∀ s st up, R s { s with stack := st, upStack := up })
include hu
omit h

theorem rel_pushStackOnly (o : Obj) : RelE R E (pushStackOnly o) :=
  rel_modify (fun s => hu s (s.stack ++ [o]) s.upStack)

theorem rel_pushUpOnly (o : Option Ref) : RelE R E (pushUpOnly o) :=
  rel_modify (fun s => hu s s.stack (s.upStack ++ [o]))

include h

theorem rel_capture (v : Nat) : RelE R E (capture v) := by
  intro s
  unfold capture
  by_cases hv : v > 0x7FFFFFFF
  · rw [if_pos hv]
    revert s
    show RelE R E _
    rel_auto h
  · rw [if_neg hv]
    simp only [M.bind_run, M.get_run]
    by_cases h1 : (s.stack.length - 1 : Int) - v < 0 ∨ (s.upStack.length : Int) < (s.stack.length - 1 : Int) - v
    · rw [if_pos h1]; exact h.weak (h.refl s)
    · rw [if_neg h1]
      by_cases h2 : ((s.stack.length - 1 : Int) - v).toNat = s.upStack.length
      · rw [if_pos h2]
        have h3 := rel_pushObject h (.upvalue (.stackIndex ((s.stack.length - 1 : Int) - v))) s
        cases hp : pushObject (.upvalue (.stackIndex ((s.stack.length - 1 : Int) - v))) s with
        | ok r s' =>
          rw [hp] at h3
          exact h.trans h3 (hu s' s'.stack _)
        | err e s' => rw [hp] at h3; exact h3
        | ub => trivial
        | diverge => trivial
      · rw [if_neg h2]
        generalize s.upStack[((s.stack.length - 1 : Int) - v).toNat]? = x
        generalize ((s.stack.length - 1 : Int) - v) = idx
        suffices RelE R E (match x with
          | Option.none => M.throw .invalidValue
          | some Option.none => do
              let r ← pushObject (.upvalue (.stackIndex idx))
              M.modify fun s => { s with upStack := s.upStack.set idx.toNat (some r) }
              return (some r, false)
          | some (some r) => do
              match ← readCell r with
              | .upvalue _ => return (some r, false)
              | _ => M.throw .shouldntHappen) from this s
        rel_auto h

theorem rel_captures (c : Ref) (vs : List Nat) : ∀ k b, RelE R E (captures c k vs b) := by
  induction vs with
  | nil => intro k b; exact rel_pure h.toPre _
  | cons v vs ih =>
    intro k b
    unfold captures
    refine rel_bind h.toPre (rel_capture h hu v) (fun p => ?_)
    split
    exact rel_bind h.toPre (rel_setCapture h _ _ _) (fun _ => ih _ _)

theorem rel_iPushClosure (bc : Ref) (st : CodePtr) (va : Bool) (b : Nat) (d : Int) (ar : UInt8)
    (vs : List Nat) : RelE R E (iPushClosure bc st va b d ar vs) := by
  unfold iPushClosure
  refine rel_bind h.toPre (rel_codeSerial h.toPre _) (fun _ => ?_)
  split
  · refine rel_bind h.toPre (rel_pushObject h _) (fun _ => ?_)
    refine rel_bind h.toPre (rel_pushStackOnly hu _) (fun _ => ?_)
    refine rel_bind h.toPre (rel_captures h hu _ _ _ _) (fun _ => ?_)
    rel_auto h
    exact rel_pushUpOnly hu _
  · exact rel_ub

theorem rel_iVector (as : List Nat) : RelE R E (iVector as) := by
  unfold iVector
  rel_auto h
  all_goals first
    | exact rel_vectorLoop h _ _ _
    | exact rel_pushStackOnly hu _
    | exact rel_pushUpOnly hu _
    | exact rel_setInitialized h _

theorem rel_iMakeVector (a b : Nat) : RelE R E (iMakeVector a b) := by
  unfold iMakeVector
  rel_auto h
  all_goals first
    | exact rel_fillSlots h _ _
    | exact rel_pushStackOnly hu _
    | exact rel_pushUpOnly hu _
    | exact rel_setInitialized h _

theorem Prims0.two : Two R E :=
  { vector := rel_iVector h hu
    makeVector := rel_iMakeVector h hu
    closure := rel_iPushClosure h hu }

omit h in
theorem Prims.all (h : Prims R E) : Prims' R E :=
  { h with
    vector := rel_iVector h hu
    makeVector := rel_iMakeVector h hu
    closure := rel_iPushClosure h hu }

end

/-- Instructions that change one stack some time before the other. -/
def twoStep : Instr → Bool
  | .vector _ => true
  | .makeVector _ _ => true
  | .pushClosure _ _ _ _ _ => true
  | _ => false

/-- Every instruction respects the relation if the host's callbacks, storing a global, and making a
type do. -/
theorem rel_plain {env : Env} (hhost : ∀ n, RelE R E (env.host n))
    (bc : Ref) (st : CodePtr) (i : Instr)
    (hglobal : ∀ a k, i = .setGlobal a k → ∀ p k, RelE R E (globalSet p k))
    (htype : i = .makeType → RelE R E iMakeType)
    (hs : twoStep i = true → Two R E) :
    RelE R E (plain env bc st i) := by
  cases i <;> simp only [plain]
  case pushString => exact rel_iPushString h _
  case pushIndex => exact rel_unary h _ (fun _ => rel_pure h.toPre _)
  case pushUpvalue => exact rel_iPushUpvalue h _
  case pushClosure => exact (hs rfl).closure _ _ _ _ _ _ _
  case releaseUpvalues => exact rel_iReleaseUpvalues h _
  case setUpvalue => exact rel_iSetUpvalue h _ _
  case setGlobal a k => have hg := hglobal a k rfl; rel_auto h; exact hg _ _
  case ccall => unfold iCcall; rel_auto h; exact hhost _
  case not => exact rel_unary h _ (rel_notValue h)
  case arith => exact rel_binary h _ _ (rel_arithValue h _ _)
  case equal => exact rel_binary h _ _ (fun _ _ => rel_boolValue h (rel_equalValue h _ _))
  case greater => exact rel_binary h _ _ (fun _ _ => rel_boolValue h (rel_greaterValue h _ _ _))
  case less => exact rel_binary h _ _ (fun _ _ => rel_boolValue h (rel_lessValue h _ _ _))
  case cons => exact rel_iCons h _ _
  case vector => exact (hs rfl).vector _
  case makeVector => exact (hs rfl).makeVector _ _
  case getVecElt => exact rel_iGetVecElt h _ _
  case setVecElt => exact rel_iSetVecElt h _ _ _
  case car => exact rel_unary h _ (rel_carValue h)
  case cdr => exact rel_unary h _ (rel_cdrValue h)
  case setCar => exact rel_iSetCar h _ _
  case setCdr => exact rel_iSetCdr h _ _
  case nullp => exact rel_unary h _ (fun _ => rel_boolValue h (rel_nullValue h _))
  case typeof => exact rel_unary h _ (rel_typeValue h)
  case makeType => exact htype rfl
  case makeInstance => exact rel_iMakeInstance h _ _ _
  case compositeValue => exact rel_iCompositeValue h _
  case compositeFunction => exact rel_iCompositeFunction h _
  case setCompositeValue => exact rel_iSetCompositeValue h _ _
  case setCompositeFunction => exact rel_iSetCompositeFunction h _ _
  case makeString => exact rel_iMakeString h _
  case concatenate => exact rel_iConcatenate h _ _
  case substring => exact rel_iSubstring h _ _ _
  case length => exact rel_unary h _ (rel_lengthValue h)
  case symbolString => exact rel_unary h _ (rel_symbolStringValue h)
  case symbolId => exact rel_unary h _ (fun _ => by rel_auto h)
  all_goals rel_auto h

omit h in
theorem rel_iFuncall (h : Prims R E) {env : Env} (hhost : ∀ n, RelE R E (env.host n)) (bc : Ref) (nx : CodePtr)
    (a n : Nat) : RelE R E (iFuncall env bc nx a n) := by
  unfold iFuncall
  refine rel_bind h.toPre (rel_getArg h.toPre _) (fun _ => ?_)
  refine rel_bind h.toPre (rel_prepareForFuncall h _ _) (fun _ => ?_)
  split
  · exact rel_bind h.toPre (hhost _) (fun _ => rel_pure h.toPre _)
  · exact rel_enter h _ _ _ _ _
  · exact rel_throw h.toPre _

omit h in
theorem rel_exec (h : Prims R E) {env : Env} (hhost : ∀ n, RelE R E (env.host n))
    (bc : Ref) (st nx : CodePtr) (i : Instr)
    (hglobal : ∀ a k, i = .setGlobal a k → ∀ p k, RelE R E (globalSet p k))
    (htype : i = .makeType → RelE R E iMakeType)
    (hs : twoStep i = true → Two R E) :
    RelE R E (exec env bc st nx i) := by
  have hp := rel_plain h hhost bc st i hglobal htype hs
  cases i <;> simp only [exec]
  case funcall => exact rel_bind h.toPre (rel_iFuncall h hhost _ _ _ _) (fun _ => rel_pure h.toPre _)
  case apply => exact rel_bind h.toPre (rel_iApply h _ _ _ _) (fun _ => rel_pure h.toPre _)
  case call => rel_auto h
  case jump => rel_auto h
  case brnz =>
    refine rel_bind h.toPre (rel_getArg h.toPre _) (fun _ => ?_)
    refine rel_bind h.toPre (rel_popMany h _) (fun _ => ?_)
    refine rel_bind h.toPre (rel_truthy h _) (fun _ => ?_)
    rel_auto h
  case return_ =>
    rel_auto h
    all_goals exact rel_leave h
  case return0 => exact rel_leave h
  case halt => exact rel_pure h.toPre _
  all_goals exact rel_bind h.toPre hp (fun _ => rel_pure h.toPre _)

theorem rel_fetch (ip : CodePtr) : RelE R E (fetch ip) := by
  apply rel_same h.toPre
  intro s
  unfold fetch
  split
  · split <;> simp
  · simp

omit h
variable (h' : Prims' R E)
include h'

theorem rel_step {env : Env} (hhost : ∀ n, RelE R E (env.host n))
    (hglobal : ∀ p k, RelE R E (globalSet p k)) (htype : RelE R E iMakeType)
    (bc : Ref) (ip : CodePtr) : RelE R E (step env bc ip) := by
  have h := h'.toPrims
  unfold step
  refine rel_bind h.toPre (rel_fetch h _) (fun _ => ?_)
  refine rel_bind h.toPre (rel_need h.toPre _) (fun p => ?_)
  exact rel_exec h hhost _ _ _ _ (fun _ _ _ => hglobal) (fun _ => htype) (fun _ => h')

theorem rel_loop {env : Env} (hhost : ∀ n, RelE R E (env.host n))
    (hglobal : ∀ p k, RelE R E (globalSet p k)) (htype : RelE R E iMakeType)
    (bc : Ref) (fuel : Nat) : ∀ ip, RelE R E (loop env bc fuel ip) := by
  induction fuel with
  | zero => intro ip; exact rel_diverge
  | succ fuel ih =>
    intro ip
    have h := h'.toPrims
    unfold loop
    refine rel_bind h.toPre (rel_step h' hhost hglobal htype bc ip) (fun c => ?_)
    split
    · exact ih _
    · exact rel_pure h.toPre _

end DuckLisp.VM
