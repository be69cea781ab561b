import Verif.Proof.VM.Spare
import Verif.Proof.VM.StaysInstr

/-!
# No instruction changes a global but the one that stores it: the instructions
-/

namespace DuckLisp.VM

open DuckLisp DuckLisp.Spec

variable {K : Guarded} {nb : Bool} {α : Type}

theorem low_val {o : Obj} : K.Val false o := fun h => nomatch h

/-- What may be stored, and where. -/
macro "spare_val" : tactic => `(tactic| (first
  | assumption
  | trivial
  | exact low_val
  | exact (by assumption : Guarded.Val _ true _) rfl
  | (refine Guarded.Outside.ne (by assumption) ?_; simp [shape]; done)
  | (simp [NotTo]; done)
  | (simp [NotTo]; assumption)
  | exact fun _ => (by simp [NotTo]; done)))


/-- One step of `spare_auto`. -/
macro "spare_one" : tactic => `(tactic| (first
  | (with_reducible refine spare_pure ?_); spare_val
  | with_reducible exact spare_throw _
  | with_reducible exact spare_ub
  | with_reducible exact spare_diverge
  | with_reducible exact spare_readCell _
  | with_reducible exact spare_any (spare_readCell _)
  | (with_reducible refine spare_any (spare_pushObject _ ?_)); spare_val
  | with_reducible exact spare_deref _
  | with_reducible exact spare_any (spare_deref _)
  | with_reducible exact spare_getArg _
  | with_reducible exact spare_ckInt _
  | with_reducible exact spare_popMany _
  | with_reducible exact spare_setUpStack _ _
  | with_reducible exact spare_pushUpOnly _
  | (with_reducible refine spare_writeCell _ _ ?_ ?_) <;> spare_val
  | (with_reducible refine spare_pushObject _ ?_); spare_val
  | (with_reducible refine spare_bind (spare_pushObject _ ?_) (fun _ _ => ?_)); spare_val
  | (with_reducible refine spare_push _ ?_); spare_val
  | (with_reducible refine spare_pushStackOnly _ ?_); spare_val
  | (with_reducible refine spare_setArg _ _ ?_); spare_val
  | (with_reducible refine spare_setStackAt _ _ ?_); spare_val
  | (with_reducible refine spare_setAbs _ _ ?_); spare_val
  | with_reducible exact spare_pushPtr _
  | with_reducible refine spare_bind spare_get (fun _ _ => ?_)
  | with_reducible refine spare_bind (spare_need _) (fun _ _ => ?_)
  | with_reducible refine spare_bind (spare_readCell _) (fun _ _ => ?_)
  | with_reducible refine spare_bind (spare_deref _) (fun _ _ => ?_)
  | with_reducible refine spare_bind (spare_getArg _) (fun _ _ => ?_)
  | with_reducible refine spare_bind (spare_stackAt _) (fun _ _ => ?_)
  | with_reducible refine spare_bind (spare_getAbs _) (fun _ _ => ?_)
  | with_reducible refine spare_bind spare_height (fun _ _ => ?_)
  | with_reducible refine spare_bind (spare_globalGet _) (fun _ _ => ?_)
  | with_reducible refine spare_bind (spare_ckInt _) (fun _ _ => ?_)
  | with_reducible refine spare_bind (spare_upvalueAt _ _) (fun _ _ => ?_)
  | with_reducible refine spare_bind (spare_listIsCyclic _) (fun _ _ => ?_)
  | with_reducible refine spare_bind (spare_countConses _ _ _) (fun _ _ => ?_)
  | with_reducible refine spare_bind spare_chaseFuel (fun _ _ => ?_)
  | with_reducible refine spare_bind spare_unwrapFuel (fun _ _ => ?_)
  | with_reducible refine spare_bind spare_popStack (fun _ _ => ?_)
  | with_reducible refine spare_bind (spare_popMany _) (fun _ _ => ?_)
  | with_reducible refine spare_bind (spare_topUpArray ?_) (fun _ _ => ?_)
  | with_reducible refine spare_bind (spare_chase ?_ ?_ _ _) (fun _ _ => ?_)
  | with_reducible refine spare_bind (R := fun _ => True) ?_ (fun _ _ => ?_)
  | split))

/-- Prove `Spares K nb R m` by following the shape of `m`. -/
macro "spare_auto" : tactic => `(tactic| repeat' spare_one)

local notation "Any" => (fun _ => True)

theorem spare_iPushUpvalue (j : Nat) : Spares K false Any (iPushUpvalue j) := by
  unfold iPushUpvalue; spare_auto

theorem spare_setCapture (c : Ref) (k : Nat) (u : Option Ref) : Spares K nb Any (setCapture c k u) := by
  unfold setCapture; spare_auto

theorem spare_release1 (a : Nat) : Spares K true Any (release1 a) := by
  unfold release1; spare_auto

theorem spare_iReleaseUpvalues (as : List Nat) : Spares K true Any (iReleaseUpvalues as) := by
  induction as with
  | nil => exact spare_pure trivial
  | cons a as ih =>
    unfold iReleaseUpvalues
    refine spare_bind (spare_release1 a) (fun b _ => ?_)
    split
    · exact ih
    · exact spare_pure trivial

theorem spare_restLoop (n : Nat) : ∀ k last, Spares K true Any (restLoop k n last) := by
  induction n with
  | zero => intro k last; exact spare_pure trivial
  | succ n ih =>
    intro k last
    unfold restLoop
    spare_auto
    exact ih _ _

theorem spare_collectRest (n : Nat) (t : Option Ref) : Spares K true Any (collectRest n t) := by
  unfold collectRest
  spare_one; spare_one; spare_one; spare_one
  refine spare_bind (spare_restLoop _ _ _) (fun _ _ => ?_)
  spare_auto

theorem spare_prepareForFuncall (f : Obj) (n : Nat) :
    Spares K true Any (prepareForFuncall f n) := by
  unfold prepareForFuncall
  refine spare_bind spare_unwrapFuel (fun _ _ => ?_)
  refine spare_bind (spare_unwrap _ _) (fun g _ => ?_)
  spare_auto
  exact spare_collectRest _ _

theorem spare_captureArray (p : Option Ref) : Spares K nb Any (captureArray p) := by
  unfold captureArray; spare_auto

theorem spare_enter (bc : Ref) (nx : CodePtr) (name : Int) (c u : Option Ref) : Spares K nb Any (enter bc nx name c u) := by
  unfold enter
  refine spare_bind (spare_captureArray _) (fun _ _ => ?_)
  refine spare_bind (spare_pushFrame _ _) (fun _ _ => ?_)
  refine spare_bind (spare_need _) (fun r hr => ?_)
  exact spare_bind (spare_codeSerial r) (fun n h => spare_pure trivial)

theorem spare_vectorInRange (p : Option Ref) (off : Int) : Spares K nb Any (vectorInRange p off) := by
  unfold vectorInRange; spare_auto

theorem spare_truthy (o : Obj) : Spares K nb Any (truthy o) := by
  unfold truthy
  split
  all_goals first
    | exact spare_pure trivial
    | exact spare_vectorInRange _ _

theorem spare_notValue (o : Obj) : Spares K nb (K.Val nb) (notValue o) := by
  unfold notValue; spare_auto

theorem spare_intArith (op : Arith) (x y : Int) : Spares K nb Any (intArith op x y) := by
  cases op <;> unfold intArith <;> spare_auto

theorem spare_boolArith (op : Arith) (x y : UInt8) : Spares K nb Any (boolArith op x y) := by
  cases op <;> unfold boolArith <;> spare_auto

theorem spare_arithValue (fl : FloatOps) (op : Arith) (x y : Obj) : Spares K nb (K.Val nb) (arithValue fl op x y) := by
  unfold arithValue
  spare_auto
  all_goals first
    | exact spare_intArith _ _ _
    | exact spare_boolArith _ _ _

theorem spare_lessValue (fl : FloatOps) (x y : Obj) : Spares K nb Any (lessValue fl x y) := by
  unfold lessValue; spare_auto

theorem spare_greaterValue (fl : FloatOps) (x y : Obj) : Spares K nb Any (greaterValue fl x y) := by
  unfold greaterValue; spare_auto

theorem spare_stringBytes (p : Option Ref) (off : Int) (n : Nat) : Spares K nb Any (stringBytes p off n) := by
  unfold stringBytes; spare_auto

theorem spare_equalValue (x y : Obj) : Spares K nb Any (equalValue x y) := by
  unfold equalValue
  spare_auto
  all_goals exact spare_stringBytes _ _ _

theorem spare_part (o : Obj) (ho : NotTo K.cell o) : Spares K nb Any (part o) := by
  unfold part; spare_auto

theorem spare_setCarCell (r : Ref) (x : Option Ref) : Spares K nb Any (setCarCell r x) := by
  unfold setCarCell; spare_auto

theorem spare_setCdrCell (r : Ref) (x : Option Ref) : Spares K nb Any (setCdrCell r x) := by
  unfold setCdrCell; spare_auto

theorem spare_iCons (a b : Nat) : Spares K true Any (iCons a b) := by
  unfold iCons
  spare_auto
  all_goals first
    | (refine spare_part _ ?_; spare_val)
    | exact spare_setCarCell _ _
    | exact spare_setCdrCell _ _

theorem spare_setSlot (r : Ref) (k : Nat) (p : Ref) : Spares K nb Any (setSlot r k p) := by
  unfold setSlot; spare_auto

theorem spare_setInitialized (r : Ref) : Spares K nb Any (setInitialized r) := by
  unfold setInitialized; spare_auto

theorem spare_vectorLoop (r : Ref) (as : List Nat) : ∀ k, Spares K true Any (vectorLoop r k as) := by
  induction as with
  | nil => intro k; exact spare_pure trivial
  | cons a as ih =>
    intro k
    unfold vectorLoop
    spare_auto
    all_goals first
      | exact spare_setSlot _ _ _
      | exact ih _

theorem spare_fillSlots (r p : Ref) : Spares K nb Any (fillSlots r p) := by
  unfold fillSlots; spare_auto

theorem spare_vectorStorage (p : Option Ref) : Spares K nb Any (vectorStorage p) := by
  unfold vectorStorage; spare_auto

theorem spare_slotValue (vs : Option (List Slot)) (i : Int) : Spares K nb Any (slotValue vs i) := by
  unfold slotValue; spare_auto

theorem spare_byteValue (p : Option Ref) (i : Int) : Spares K nb (K.Val nb) (byteValue p i) := by
  unfold byteValue
  refine spare_bind (spare_stringBytes _ _ _) (fun _ _ => ?_)
  spare_auto

theorem spare_slotValue' (vs : Option (List Slot)) (i : Int) : Spares K false (K.Val false) (slotValue vs i) :=
  spare_weaken (spare_slotValue vs i) fun _ _ => fun h => nomatch h

macro_rules | `(tactic| spare_one) => `(tactic|
  with_reducible refine spare_bind (spare_slotValue' _ _) (fun _ _ => ?_))
macro_rules | `(tactic| spare_one) => `(tactic|
  with_reducible refine spare_bind (spare_byteValue _ _) (fun _ _ => ?_))

theorem spare_iGetVecElt (a b : Nat) : Spares K false Any (iGetVecElt a b) := by
  unfold iGetVecElt
  spare_auto
  all_goals first
    | exact spare_vectorStorage _

theorem spare_iSetVecElt (a b c : Nat) : Spares K true Any (iSetVecElt a b c) := by
  unfold iSetVecElt
  spare_auto
  all_goals first
    | exact spare_vectorStorage _
    | exact spare_setSlot _ _ _

theorem spare_partValue (p : Option Ref) : Spares K false (K.Val false) (partValue p) := by
  unfold partValue; spare_auto

theorem spare_cdrValue (o : Obj) : Spares K false (K.Val false) (cdrValue o) := by
  unfold cdrValue
  spare_auto
  all_goals exact spare_partValue _

theorem spare_carValue (o : Obj) : Spares K false (K.Val false) (carValue o) := by
  unfold carValue
  spare_auto
  all_goals first
    | exact spare_partValue _
    | exact spare_slotValue' _ _
    | exact spare_byteValue _ _

theorem spare_iSetCar (a b : Nat) : Spares K true Any (iSetCar a b) := by
  unfold iSetCar
  spare_auto
  all_goals first
    | (refine spare_part _ ?_; spare_val)
    | exact spare_setCarCell _ _
    | exact spare_setSlot _ _ _

theorem spare_setVectorLength (r : Ref) (n : Nat) : Spares K nb Any (setVectorLength r n) := by
  unfold setVectorLength; spare_auto

theorem spare_iSetCdr (a b : Nat) : Spares K true Any (iSetCdr a b) := by
  unfold iSetCdr
  spare_auto
  all_goals first
    | (refine spare_part _ ?_; spare_val)
    | exact spare_setCdrCell _ _
    | exact spare_setVectorLength _ _

theorem spare_nullValue (o : Obj) : Spares K nb Any (nullValue o) := by
  unfold nullValue
  spare_auto
  all_goals exact spare_vectorInRange _ _

theorem spare_compositeParts (c : Option Ref) : Spares K nb Any (compositeParts c) := by
  unfold compositeParts; spare_auto

theorem spare_typeValue (o : Obj) : Spares K nb (K.Val nb) (typeValue o) := by
  unfold typeValue
  spare_auto
  all_goals exact spare_compositeParts _

theorem spare_setCompositeValueCell (c : Option Ref) (p : Ref) :
    Spares K nb Any (setCompositeValueCell c p) := by
  unfold setCompositeValueCell; spare_auto

theorem spare_setCompositeFunctionCell (c : Option Ref) (p : Ref) :
    Spares K nb Any (setCompositeFunctionCell c p) := by
  unfold setCompositeFunctionCell; spare_auto

theorem spare_iMakeInstance (a b c : Nat) : Spares K true Any (iMakeInstance a b c) := by
  unfold iMakeInstance
  spare_auto
  all_goals first
    | exact spare_setCompositeValueCell _ _
    | exact spare_setCompositeFunctionCell _ _

theorem spare_iCompositeValue (a : Nat) : Spares K false Any (iCompositeValue a) := by
  unfold iCompositeValue
  spare_auto
  all_goals exact spare_compositeParts _

theorem spare_iCompositeFunction (a : Nat) : Spares K false Any (iCompositeFunction a) := by
  unfold iCompositeFunction
  spare_auto
  all_goals exact spare_compositeParts _

theorem spare_iSetCompositeValue (a b : Nat) : Spares K true Any (iSetCompositeValue a b) := by
  unfold iSetCompositeValue
  spare_auto
  all_goals exact spare_setCompositeValueCell _ _

theorem spare_iSetCompositeFunction (a b : Nat) : Spares K true Any (iSetCompositeFunction a b) := by
  unfold iSetCompositeFunction
  spare_auto
  all_goals exact spare_setCompositeFunctionCell _ _

theorem spare_lengthValue (o : Obj) : Spares K nb (K.Val nb) (lengthValue o) := by
  unfold lengthValue
  spare_auto
  all_goals exact spare_vectorStorage _

theorem spare_symbolStringValue (o : Obj) : Spares K nb (K.Val nb) (symbolStringValue o) := by
  unfold symbolStringValue; spare_auto

theorem spare_vectorBytes (vs : Option (List Slot)) (n : Nat) : ∀ i, Spares K nb Any (vectorBytes vs n i) := by
  induction n with
  | zero => intro i; exact spare_pure trivial
  | succ n ih =>
    intro i
    unfold vectorBytes
    refine spare_bind (spare_slotValue _ _) (fun _ _ => ?_)
    split
    · refine spare_bind (ih _) (fun _ _ => ?_)
      spare_auto
    · spare_auto

theorem spare_listBytes (fuel : Nat) : ∀ p, Spares K nb Any (listBytes fuel p) := by
  induction fuel with
  | zero => intro p; exact spare_diverge
  | succ fuel ih =>
    intro p
    cases p with
    | none => exact spare_pure trivial
    | some r =>
      unfold listBytes
      spare_auto
      all_goals exact ih _

theorem spare_newString' (b : Bytes) : Spares K nb
    (fun o => K.Val nb o ∧ ∀ r off n, o = .string (some r) off n → r ≠ K.cell) (newString b) := by
  unfold newString
  refine spare_bind (spare_pushObject _ (by simp [NotTo])) (fun r hr => ?_)
  refine spare_pure ⟨fun _ => by simp [NotTo], fun r' off n h => ?_⟩
  injection h with h
  injection h with h
  exact h ▸ hr

theorem spare_newString (b : Bytes) : Spares K nb (K.Val nb) (newString b) :=
  spare_weaken (spare_newString' b) fun _ h => h.1

macro_rules | `(tactic| spare_one) => `(tactic|
  with_reducible refine spare_bind (spare_newString _) (fun _ _ => ?_))

theorem spare_iMakeString (a : Nat) : Spares K nb Any (iMakeString a) := by
  unfold iMakeString
  spare_auto
  all_goals first
    | exact spare_vectorStorage _
    | exact spare_vectorBytes _ _ _
    | exact spare_listBytes _ _

theorem spare_concatBytes (o : Obj) : Spares K nb Any (concatBytes o) := by
  unfold concatBytes
  spare_auto
  all_goals exact spare_stringBytes _ _ _

theorem spare_ite {c : Prop} [Decidable c] {R : α → Prop} {m1 m2 : M α} (h1 : Spares K nb R m1) (h2 : Spares K nb R m2) :
    Spares K nb R (if c then m1 else m2) := by
  split <;> assumption

theorem spare_iConcatenate (a b : Nat) : Spares K nb Any (iConcatenate a b) := by
  unfold iConcatenate
  refine spare_bind (spare_getArg _) (fun o1 _ => spare_ite (spare_throw _) ?_)
  refine spare_bind (spare_getArg _) (fun o2 _ => spare_ite (spare_throw _) ?_)
  refine spare_bind (spare_concatBytes _) (fun x _ => ?_)
  refine spare_bind (spare_concatBytes _) (fun y _ => ?_)
  refine spare_bind (spare_newString' _) (fun o ho => ?_)
  split
  · rename_i r _ _
    have hr := ho.2 r _ _ rfl
    spare_auto
  · exact spare_ub

theorem spare_iSubstring (a b c : Nat) : Spares K nb Any (iSubstring a b c) := by
  unfold iSubstring; spare_auto

theorem spare_unary (a : Nat) {f : Obj → M Obj} (hf : ∀ o, K.Val nb o → Spares K nb (K.Val nb) (f o)) :
    Spares K nb Any (unary a f) := by
  unfold unary
  exact spare_bind (spare_getArg _) fun o ho => spare_bind (hf o ho) fun x hx => spare_push x hx

theorem spare_binary (a b : Nat) {f : Obj → Obj → M Obj} (hf : ∀ o o', Spares K nb (K.Val nb) (f o o')) :
    Spares K nb Any (binary a b f) := by
  unfold binary
  exact spare_bind (spare_getArg _) fun o _ => spare_bind (spare_getArg _) fun o' _ =>
    spare_bind (hf o o') fun x hx => spare_push x hx

theorem spare_boolValue {m : M Bool} (hm : Spares K nb Any m) : Spares K nb (K.Val nb) (boolValue m) := by
  unfold boolValue
  refine spare_bind hm fun _ _ => spare_pure ?_
  exact fun _ => by simp [NotTo]

theorem spare_iPushString (b : Bytes) : Spares K nb Any (iPushString b) := by
  intro s hs
  unfold iPushString
  have h1 := spare_newString (K := K) (nb := nb) b s hs
  cases h : newString b s with
  | ok o s' => rw [h] at h1; exact spare_push o h1.1 s' h1.2
  | err e s' => rw [h] at h1; exact spare_push .none (fun _ => by simp [NotTo]) s' h1
  | ub => trivial
  | diverge => trivial

theorem spare_leave : Spares K nb Any leave := by
  unfold leave
  refine spare_bind spare_popFrame (fun p hp => ?_)
  split <;> exact spare_pure trivial

theorem spare_iVector (as : List Nat) : Spares K true Any (iVector as) := by
  unfold iVector
  spare_auto
  all_goals first
    | exact spare_vectorLoop _ _ _
    | exact spare_setInitialized _

theorem spare_iMakeVector (a b : Nat) : Spares K true Any (iMakeVector a b) := by
  unfold iMakeVector
  spare_auto
  all_goals first
    | exact spare_fillSlots _ _
    | exact spare_setInitialized _

theorem spare_iMakeType : Spares K nb Any iMakeType := by
  unfold iMakeType
  refine spare_bind spare_get (fun _ _ => ?_)
  refine spare_bind (spare_modify fun s hs => { hs with }) (fun _ _ => ?_)
  spare_auto

/-! ### Functions and calls -/

theorem spare_set {s' : VM} (h : K.Inv nb s') : Spares K nb Any (M.set s') := fun _ _ => ⟨trivial, h⟩

theorem spare_capture (v : Nat) : Spares K nb Any (capture v) := by
  unfold capture
  split
  · spare_auto
  · refine spare_bind spare_get (fun s hs => ?_)
    dsimp only
    split
    · exact spare_throw _
    · split
      · have hp := spare_pushObject (K := K) (nb := nb) (.upvalue (.stackIndex ((s.stack.length - 1 : Int) - v))) (by simp [NotTo]) s hs
        split
        · rename_i h
          rw [h] at hp
          refine spare_bind (spare_set hp.2) (fun _ _ => ?_)
          spare_auto
        · rename_i h
          rw [h] at hp
          refine spare_bind (spare_set hp) (fun _ _ => ?_)
          spare_auto
        · exact spare_ub
        · exact spare_diverge
      · spare_auto

theorem spare_captures (c : Ref) (vs : List Nat) : ∀ k b, Spares K nb Any (captures c k vs b) := by
  induction vs with
  | nil => intro k b; exact spare_pure trivial
  | cons v vs ih =>
    intro k b
    unfold captures
    refine spare_bind (spare_capture v) (fun p _ => ?_)
    refine spare_bind (spare_setCapture _ _ _) (fun _ _ => ?_)
    exact ih _ _

theorem spare_iPushClosure (bc : Ref) (st : CodePtr) (v : Bool) (base : Nat) (d : Int) (ar : UInt8) (vs : List Nat) :
    Spares K nb Any (iPushClosure bc st v base d ar vs) := by
  unfold iPushClosure
  refine spare_bind (spare_codeSerial bc) (fun n _ => ?_)
  split
  · refine spare_bind (spare_pushObject _ (by simp [NotTo])) (fun cell _ => ?_)
    refine spare_bind (spare_pushStackOnly _ fun _ => by simp [NotTo]) (fun _ _ => ?_)
    refine spare_bind (spare_captures _ _ _ _) (fun _ _ => ?_)
    spare_auto
  · exact spare_ub

theorem spare_spread (arity todo : Nat) : ∀ n p, n ≤ arity →
    Spares K false (fun r => r.1 ≤ arity) (spread arity todo n p) := by
  induction todo with
  | zero => intro n p h; exact spare_pure h
  | succ t ih =>
    intro n p hn
    unfold spread
    split
    · rename_i hlt
      split
      · exact spare_pure hn
      · refine spare_bind (spare_readCell _) (fun o _ => ?_)
        split
        · dsimp only
          split
          · exact spare_bind (spare_push _ fun _ => by simp [NotTo]) (fun _ _ => ih _ _ hlt)
          · refine spare_bind (spare_readCell _) (fun o _ => ?_)
            split
            · exact spare_bind (spare_push _ fun _ => by simp [NotTo]) (fun _ _ => ih _ _ hlt)
            · exact spare_bind (spare_push _ fun h => nomatch h) (fun _ _ => ih _ _ hlt)
        · exact spare_throw _
    · exact spare_pure hn

theorem spare_collectNone (t : Option Ref) : Spares K nb Any (collectRest 0 t) := by
  unfold collectRest restLoop
  refine spare_bind (spare_push _ fun _ => by simp [NotTo]) (fun _ _ => ?_)
  refine spare_bind (spare_push _ fun _ => by simp [NotTo]) (fun _ _ => ?_)
  refine spare_bind (R := Any) (spare_pure trivial) (fun _ _ => ?_)
  spare_auto

/-- What starts with values on the stack. -/
def Lets (K : Guarded) (m : M α) : Prop :=
  ∀ s, K.Inv true s → match m s with
    | .ok _ s' => K.Inv false s'
    | .err _ s' => K.Inv false s'
    | _ => True

theorem Spares.lets {R : α → Prop} {m : M α} (h : Spares K nb R m) : Lets K m := by
  intro s hs
  have hs' : K.Inv nb s := by
    cases nb
    · exact hs.false
    · exact hs
  have := h s hs'
  cases h1 : m s with
  | ok a s' => rw [h1] at this; exact this.2.false
  | err e s' => rw [h1] at this; exact this.false
  | ub => trivial
  | diverge => trivial

variable {β : Type}

theorem lets_bind {R : α → Prop} {m : M α} {f : α → M β} (hm : Spares K true R m) (hf : ∀ a, R a → Lets K (f a)) :
    Lets K (m >>= f) := by
  intro s hs
  rw [M.bind_run]
  have h := hm s hs
  cases hms : m s with
  | ok a s' =>
    rw [hms] at h
    exact hf a h.1 s' h.2
  | err e s' => rw [hms] at h; exact h.false
  | ub => trivial
  | diverge => trivial

theorem lets_then {m : M α} {f : α → M β} (hm : Lets K m) (hf : ∀ a, Spares K false Any (f a)) :
    Lets K (m >>= f) := by
  intro s hs
  rw [M.bind_run]
  have h := hm s hs
  cases hms : m s with
  | ok a s' =>
    rw [hms] at h
    have h1 := hf a s' h
    dsimp only
    cases hfs : f a s' with
    | ok b s2 => rw [hfs] at h1; exact h1.2
    | err e s2 => rw [hfs] at h1; exact h1
    | ub => trivial
    | diverge => trivial
  | err e s' => rw [hms] at h; exact h
  | ub => trivial
  | diverge => trivial

variable {env : Env} {bc : Ref} {st nx : CodePtr}

theorem lets_iFuncall (hh : ∀ cb, Lets K (env.host cb)) (a n : Nat) :
    Lets K (iFuncall env bc nx a n) := by
  unfold iFuncall
  refine lets_bind (spare_getArg _) fun f _ => ?_
  refine lets_bind (spare_prepareForFuncall _ _) fun g _ => ?_
  split
  · exact lets_then (hh _) fun _ => spare_pure trivial
  · exact (spare_enter (nb := true) bc nx _ _ _).lets
  · exact (spare_throw (nb := true) (R := Any) _).lets

theorem lets_iApply (a n : Nat) : Lets K (iApply bc nx a n) := by
  unfold iApply
  refine lets_bind (spare_getArg _) fun f _ => ?_
  refine lets_bind spare_unwrapFuel fun _ _ => ?_
  refine lets_bind (spare_unwrap _ _) fun g _ => ?_
  split
  · rename_i name code ups arity variadic
    refine lets_bind spare_popStack fun l _ => ?_
    split
    · rename_i rest
      by_cases hle : arity.toNat ≤ n
      · rw [spread_enough hle]
        refine lets_bind (R := Any) (spare_pure trivial) fun p _ => ?_
        obtain ⟨n', r'⟩ := p
        dsimp only
        split
        · split
          · exact Spares.lets (nb := true) (R := Any) (spare_bind (R := Any) (spare_throw _) fun _ _ => spare_enter bc nx _ _ _)
          · exact Spares.lets (nb := true) (R := Any) (spare_bind (spare_collectRest _ _) fun _ _ => spare_enter bc nx _ _ _)
        · split
          · exact Spares.lets (nb := true) (R := Any) (spare_bind (R := Any) (spare_throw _) fun _ _ => spare_enter bc nx _ _ _)
          · exact Spares.lets (nb := true) (R := Any) (spare_enter bc nx _ _ _)
      · refine Spares.lets (nb := false) (R := Any) ?_
        refine spare_bind (spare_spread _ _ _ _ (by omega)) fun p hp => ?_
        obtain ⟨n', r'⟩ := p
        dsimp only at hp ⊢
        split
        · split
          · exact spare_bind (R := Any) (spare_throw _) fun _ _ => spare_enter bc nx _ _ _
          · have e : n' - arity.toNat = 0 := by omega
            rw [e]
            exact spare_bind (spare_collectNone _) fun _ _ => spare_enter bc nx _ _ _
        · split
          · exact spare_bind (R := Any) (spare_throw _) fun _ _ => spare_enter bc nx _ _ _
          · exact spare_enter bc nx _ _ _
    · exact (spare_throw (nb := true) (R := Any) _).lets
  · exact (spare_throw (nb := true) (R := Any) _).lets

theorem lets_plain (hh : ∀ cb, Lets K (env.host cb)) (i : Instr) (hi : ∀ j a, i ≠ .setUpvalue j a)
    (hk : ∀ a (k : Nat), i = .setGlobal a k → (k : Int) ≠ K.key) : Lets K (plain env bc st i) := by
  cases i
  case pushString s => exact (spare_iPushString (nb := true) s).lets
  case pushIndex a => exact (spare_unary (nb := true) a fun o ho => spare_pure ho).lets
  case pushUpvalue => exact (spare_iPushUpvalue _).lets
  case pushClosure => exact (spare_iPushClosure (nb := true) _ _ _ _ _ _ _).lets
  case pushGlobal k => exact (spare_bind (nb := false) (spare_globalGet _) fun p _ => spare_pushPtr p).lets
  case releaseUpvalues => exact (spare_iReleaseUpvalues _).lets
  case setUpvalue => exact absurd rfl (hi _ _)
  case setGlobal a k =>
    refine Spares.lets (nb := true) (R := Any) ?_
    unfold plain
    spare_auto
    exact spare_globalSet _ _ (hk a k rfl)
  case ccall k =>
    refine lets_bind (spare_globalGet _) fun p _ => lets_bind (spare_deref p) fun o _ => ?_
    split
    · exact hh _
    · exact (spare_ub (nb := true) (R := Any)).lets
  case not a => exact (spare_unary (nb := true) a fun o _ => spare_notValue o).lets
  case arith op a b => exact (spare_binary (nb := true) a b fun x y => spare_arithValue _ _ x y).lets
  case equal a b => exact (spare_binary (nb := true) a b fun x y => spare_boolValue (spare_equalValue x y)).lets
  case greater a b => exact (spare_binary (nb := true) a b fun x y => spare_boolValue (spare_greaterValue _ x y)).lets
  case less a b => exact (spare_binary (nb := true) a b fun x y => spare_boolValue (spare_lessValue _ x y)).lets
  case cons => exact (spare_iCons _ _).lets
  case vector => exact (spare_iVector _).lets
  case makeVector => exact (spare_iMakeVector _ _).lets
  case getVecElt => exact (spare_iGetVecElt _ _).lets
  case setVecElt => exact (spare_iSetVecElt _ _ _).lets
  case car a => exact (spare_unary (nb := false) a fun o _ => spare_carValue o).lets
  case cdr a => exact (spare_unary (nb := false) a fun o _ => spare_cdrValue o).lets
  case setCar => exact (spare_iSetCar _ _).lets
  case setCdr => exact (spare_iSetCdr _ _).lets
  case nullp a => exact (spare_unary (nb := true) a fun o _ => spare_boolValue (spare_nullValue o)).lets
  case typeof a => exact (spare_unary (nb := true) a fun o _ => spare_typeValue o).lets
  case makeType => exact (spare_iMakeType (nb := true)).lets
  case makeInstance => exact (spare_iMakeInstance _ _ _).lets
  case compositeValue => exact (spare_iCompositeValue _).lets
  case compositeFunction => exact (spare_iCompositeFunction _).lets
  case setCompositeValue => exact (spare_iSetCompositeValue _ _).lets
  case setCompositeFunction => exact (spare_iSetCompositeFunction _ _).lets
  case length a => exact (spare_unary (nb := true) a fun o _ => spare_lengthValue o).lets
  case symbolString a => exact (spare_unary (nb := true) a fun o _ => spare_symbolStringValue o).lets
  case symbolId a =>
    refine (spare_unary (nb := true) a fun o _ => ?_).lets
    spare_auto
  case makeString => exact (spare_iMakeString (nb := true) _).lets
  case concatenate => exact (spare_iConcatenate (nb := true) _ _).lets
  case substring => exact (spare_iSubstring (nb := true) _ _ _).lets
  all_goals
    refine Spares.lets (nb := true) (R := Any) ?_
    unfold plain
    spare_auto

theorem lets_exec (hh : ∀ cb, Lets K (env.host cb)) (i : Instr) (hi : ∀ j a, i ≠ .setUpvalue j a)
    (hk : ∀ a (k : Nat), i = .setGlobal a k → (k : Int) ≠ K.key) :
    Lets K (exec env bc st nx i) := by
  cases i
  case funcall a n => exact lets_then (lets_iFuncall hh a n) fun _ => spare_pure trivial
  case apply a n => exact lets_then (lets_iApply a n) fun _ => spare_pure trivial
  case call d =>
    exact (spare_bind (nb := true) (R' := Any) (spare_pushFrame _ _) fun _ _ => spare_pure trivial).lets
  case jump d => exact (spare_pure (nb := true) (R := Any) trivial).lets
  case brnz d n =>
    refine Spares.lets (nb := true) (R := Any) ?_
    unfold exec
    spare_auto
    all_goals exact spare_truthy _
  case return_ n =>
    refine Spares.lets (nb := false) (R := Any) ?_
    unfold exec
    spare_auto
    all_goals exact spare_any spare_leave
  case return0 => exact (spare_leave (nb := true)).lets
  case halt => exact (spare_pure (nb := true) (R := Any) trivial).lets
  all_goals exact lets_then (lets_plain hh _ hi hk) fun _ => spare_pure trivial

end DuckLisp.VM
