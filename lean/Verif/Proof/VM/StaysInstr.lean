import Verif.Proof.VM.Stays

/-!
# No instruction makes code: the instructions
-/

namespace DuckLisp.VM

open DuckLisp

variable {K : Rules} {nb : Bool} {α : Type}

/-- An object that may be stored: not code. -/
macro "val_auto" : tactic => `(tactic| (first
  | exact fun _ => trivial
  | assumption
  | exact fun h => nomatch h
  | trivial))

/-- One step of `stay_auto`. -/
macro "stay_one" : tactic => `(tactic| (first
  | (with_reducible refine stay_pure ?_); val_auto
  | with_reducible exact stay_throw _
  | with_reducible exact stay_ub
  | with_reducible exact stay_diverge
  | with_reducible exact stay_readCell _
  | with_reducible exact stay_any (stay_readCell _)
  | with_reducible exact stay_deref _
  | with_reducible exact stay_any (stay_deref _)
  | with_reducible exact stay_getArg _
  | with_reducible exact stay_ckInt _
  | with_reducible exact stay_popMany _
  | with_reducible exact stay_setUpStack _ _
  | with_reducible exact stay_globalSet _ _
  | with_reducible exact stay_pushUpOnly _
  | (with_reducible refine stay_writeCell _ _ ?_); val_auto
  | (with_reducible refine stay_pushObject _ ?_); val_auto
  | (with_reducible refine stay_push _ ?_); val_auto
  | (with_reducible refine stay_pushStackOnly _ ?_); val_auto
  | (with_reducible refine stay_setArg _ _ ?_); val_auto
  | (with_reducible refine stay_setStackAt _ _ ?_); val_auto
  | (with_reducible refine stay_setAbs _ _ ?_); val_auto
  | with_reducible exact stay_pushPtr _
  | with_reducible refine stay_bind stay_get (fun _ _ => ?_)
  | with_reducible refine stay_bind (stay_need _) (fun _ _ => ?_)
  | with_reducible refine stay_bind (stay_readCell _) (fun _ _ => ?_)
  | with_reducible refine stay_bind (stay_deref _) (fun _ _ => ?_)
  | with_reducible refine stay_bind (stay_getArg _) (fun _ _ => ?_)
  | with_reducible refine stay_bind (stay_stackAt _) (fun _ _ => ?_)
  | with_reducible refine stay_bind (stay_getAbs _) (fun _ _ => ?_)
  | with_reducible refine stay_bind stay_height (fun _ _ => ?_)
  | with_reducible refine stay_bind (stay_globalGet _) (fun _ _ => ?_)
  | with_reducible refine stay_bind (stay_ckInt _) (fun _ _ => ?_)
  | with_reducible refine stay_bind (stay_upvalueAt _ _) (fun _ _ => ?_)
  | with_reducible refine stay_bind (stay_listIsCyclic _) (fun _ _ => ?_)
  | with_reducible refine stay_bind (stay_countConses _ _ _) (fun _ _ => ?_)
  | with_reducible refine stay_bind stay_chaseFuel (fun _ _ => ?_)
  | with_reducible refine stay_bind stay_unwrapFuel (fun _ _ => ?_)
  | with_reducible refine stay_bind stay_popStack (fun _ _ => ?_)
  | with_reducible refine stay_bind (stay_popMany _) (fun _ _ => ?_)
  | with_reducible refine stay_bind (stay_topUpArray ?_) (fun _ _ => ?_)
  | with_reducible refine stay_bind (stay_chase ?_ ?_ _ _) (fun _ _ => ?_)
  | with_reducible refine stay_bind (R := fun _ => True) ?_ (fun _ _ => ?_)
  | split))

/-- Prove `Stays K nb R m` by following the shape of `m`. -/
macro "stay_auto" : tactic => `(tactic| repeat' stay_one)

local notation "Any" => (fun _ => True)

theorem stay_iPushUpvalue (j : Nat) : Stays K false Any (iPushUpvalue j) := by
  unfold iPushUpvalue; stay_auto

theorem stay_iSetUpvalue (j a : Nat) : Stays K true Any (iSetUpvalue j a) := by
  unfold iSetUpvalue; stay_auto

theorem stay_setCapture (c : Ref) (k : Nat) (u : Option Ref) : Stays K nb Any (setCapture c k u) := by
  unfold setCapture; stay_auto

theorem stay_release1 (a : Nat) : Stays K true Any (release1 a) := by
  unfold release1; stay_auto

theorem stay_iReleaseUpvalues (as : List Nat) : Stays K true Any (iReleaseUpvalues as) := by
  induction as with
  | nil => exact stay_pure trivial
  | cons a as ih =>
    unfold iReleaseUpvalues
    refine stay_bind (stay_release1 a) (fun b _ => ?_)
    split
    · exact ih
    · exact stay_pure trivial

theorem stay_restLoop (n : Nat) : ∀ k last, Stays K true Any (restLoop k n last) := by
  induction n with
  | zero => intro k last; exact stay_pure trivial
  | succ n ih =>
    intro k last
    unfold restLoop
    stay_auto
    exact ih _ _

theorem stay_collectRest (n : Nat) (t : Option Ref) : Stays K true Any (collectRest n t) := by
  unfold collectRest
  stay_one; stay_one; stay_one; stay_one
  refine stay_bind (stay_restLoop _ _ _) (fun _ _ => ?_)
  stay_auto

theorem stay_prepareForFuncall (f : Obj) (n : Nat) :
    Stays K true Any (prepareForFuncall f n) := by
  unfold prepareForFuncall
  refine stay_bind stay_unwrapFuel (fun _ _ => ?_)
  refine stay_bind (stay_unwrap _ _) (fun g _ => ?_)
  stay_auto
  exact stay_collectRest _ _

theorem stay_captureArray (p : Option Ref) : Stays K nb Any (captureArray p) := by
  unfold captureArray; stay_auto

theorem stay_enter (bc : Ref) (nx : CodePtr) (name : Int) (c u : Option Ref)
    (hn : K.pos nx) : Stays K nb Any (enter bc nx name c u) := by
  unfold enter
  refine stay_bind (stay_captureArray _) (fun _ _ => ?_)
  refine stay_bind (stay_pushFrame _ _ hn) (fun _ _ => ?_)
  refine stay_bind (stay_need _) (fun r hr => ?_)
  exact stay_bind (stay_codeSerial r) (fun n h => stay_pure trivial)

theorem stay_vectorInRange (p : Option Ref) (off : Int) : Stays K nb Any (vectorInRange p off) := by
  unfold vectorInRange; stay_auto

theorem stay_truthy (o : Obj) : Stays K nb Any (truthy o) := by
  unfold truthy
  split
  all_goals first
    | exact stay_pure trivial
    | exact stay_vectorInRange _ _

theorem stay_notValue (o : Obj) : Stays K nb (Val nb) (notValue o) := by
  unfold notValue; stay_auto

theorem stay_intArith (op : Arith) (x y : Int) : Stays K nb Any (intArith op x y) := by
  cases op <;> unfold intArith <;> stay_auto

theorem stay_boolArith (op : Arith) (x y : UInt8) : Stays K nb Any (boolArith op x y) := by
  cases op <;> unfold boolArith <;> stay_auto

theorem stay_arithValue (fl : FloatOps) (op : Arith) (x y : Obj) : Stays K nb (Val nb) (arithValue fl op x y) := by
  unfold arithValue
  stay_auto
  all_goals first
    | exact stay_intArith _ _ _
    | exact stay_boolArith _ _ _

theorem stay_lessValue (fl : FloatOps) (x y : Obj) : Stays K nb Any (lessValue fl x y) := by
  unfold lessValue; stay_auto

theorem stay_greaterValue (fl : FloatOps) (x y : Obj) : Stays K nb Any (greaterValue fl x y) := by
  unfold greaterValue; stay_auto

theorem stay_stringBytes (p : Option Ref) (off : Int) (n : Nat) : Stays K nb Any (stringBytes p off n) := by
  unfold stringBytes; stay_auto

theorem stay_equalValue (x y : Obj) : Stays K nb Any (equalValue x y) := by
  unfold equalValue
  stay_auto
  all_goals exact stay_stringBytes _ _ _

theorem stay_part (o : Obj) (ho : Val true o) : Stays K nb Any (part o) := by
  unfold part; stay_auto

theorem stay_setCarCell (r : Ref) (x : Option Ref) : Stays K nb Any (setCarCell r x) := by
  unfold setCarCell; stay_auto

theorem stay_setCdrCell (r : Ref) (x : Option Ref) : Stays K nb Any (setCdrCell r x) := by
  unfold setCdrCell; stay_auto

theorem stay_iCons (a b : Nat) : Stays K true Any (iCons a b) := by
  unfold iCons
  stay_auto
  all_goals first
    | (refine stay_part _ ?_; val_auto)
    | exact stay_setCarCell _ _
    | exact stay_setCdrCell _ _

theorem stay_setSlot (r : Ref) (k : Nat) (p : Ref) : Stays K nb Any (setSlot r k p) := by
  unfold setSlot; stay_auto

theorem stay_setInitialized (r : Ref) : Stays K nb Any (setInitialized r) := by
  unfold setInitialized; stay_auto

theorem stay_vectorLoop (r : Ref) (as : List Nat) : ∀ k, Stays K true Any (vectorLoop r k as) := by
  induction as with
  | nil => intro k; exact stay_pure trivial
  | cons a as ih =>
    intro k
    unfold vectorLoop
    stay_auto
    all_goals first
      | exact stay_setSlot _ _ _
      | exact ih _

theorem stay_fillSlots (r p : Ref) : Stays K nb Any (fillSlots r p) := by
  unfold fillSlots; stay_auto

theorem stay_vectorStorage (p : Option Ref) : Stays K nb Any (vectorStorage p) := by
  unfold vectorStorage; stay_auto

theorem stay_slotValue (vs : Option (List Slot)) (i : Int) : Stays K nb Any (slotValue vs i) := by
  unfold slotValue; stay_auto

theorem stay_byteValue (p : Option Ref) (i : Int) : Stays K nb (Val nb) (byteValue p i) := by
  unfold byteValue
  refine stay_bind (stay_stringBytes _ _ _) (fun _ _ => ?_)
  stay_auto

theorem stay_slotValue' (vs : Option (List Slot)) (i : Int) : Stays K false (Val false) (slotValue vs i) :=
  stay_weaken (stay_slotValue vs i) fun _ _ => fun h => nomatch h

macro_rules | `(tactic| stay_one) => `(tactic|
  with_reducible refine stay_bind (stay_slotValue' _ _) (fun _ _ => ?_))
macro_rules | `(tactic| stay_one) => `(tactic|
  with_reducible refine stay_bind (stay_byteValue _ _) (fun _ _ => ?_))

theorem stay_iGetVecElt (a b : Nat) : Stays K false Any (iGetVecElt a b) := by
  unfold iGetVecElt
  stay_auto
  all_goals first
    | exact stay_vectorStorage _

theorem stay_iSetVecElt (a b c : Nat) : Stays K true Any (iSetVecElt a b c) := by
  unfold iSetVecElt
  stay_auto
  all_goals first
    | exact stay_vectorStorage _
    | exact stay_setSlot _ _ _

theorem stay_partValue (p : Option Ref) : Stays K false (Val false) (partValue p) := by
  unfold partValue; stay_auto

theorem stay_cdrValue (o : Obj) : Stays K false (Val false) (cdrValue o) := by
  unfold cdrValue
  stay_auto
  all_goals exact stay_partValue _

theorem stay_carValue (o : Obj) : Stays K false (Val false) (carValue o) := by
  unfold carValue
  stay_auto
  all_goals first
    | exact stay_partValue _
    | exact stay_slotValue' _ _
    | exact stay_byteValue _ _

theorem stay_iSetCar (a b : Nat) : Stays K true Any (iSetCar a b) := by
  unfold iSetCar
  stay_auto
  all_goals first
    | (refine stay_part _ ?_; val_auto)
    | exact stay_setCarCell _ _
    | exact stay_setSlot _ _ _

theorem stay_setVectorLength (r : Ref) (n : Nat) : Stays K nb Any (setVectorLength r n) := by
  unfold setVectorLength; stay_auto

theorem stay_iSetCdr (a b : Nat) : Stays K true Any (iSetCdr a b) := by
  unfold iSetCdr
  stay_auto
  all_goals first
    | (refine stay_part _ ?_; val_auto)
    | exact stay_setCdrCell _ _
    | exact stay_setVectorLength _ _

theorem stay_nullValue (o : Obj) : Stays K nb Any (nullValue o) := by
  unfold nullValue
  stay_auto
  all_goals exact stay_vectorInRange _ _

theorem stay_compositeParts (c : Option Ref) : Stays K nb Any (compositeParts c) := by
  unfold compositeParts; stay_auto

theorem stay_typeValue (o : Obj) : Stays K nb (Val nb) (typeValue o) := by
  unfold typeValue
  stay_auto
  all_goals exact stay_compositeParts _

theorem stay_setCompositeValueCell (c : Option Ref) (p : Ref) :
    Stays K nb Any (setCompositeValueCell c p) := by
  unfold setCompositeValueCell; stay_auto

theorem stay_setCompositeFunctionCell (c : Option Ref) (p : Ref) :
    Stays K nb Any (setCompositeFunctionCell c p) := by
  unfold setCompositeFunctionCell; stay_auto

theorem stay_iMakeInstance (a b c : Nat) : Stays K true Any (iMakeInstance a b c) := by
  unfold iMakeInstance
  stay_auto
  all_goals first
    | exact stay_setCompositeValueCell _ _
    | exact stay_setCompositeFunctionCell _ _

theorem stay_iCompositeValue (a : Nat) : Stays K false Any (iCompositeValue a) := by
  unfold iCompositeValue
  stay_auto
  all_goals exact stay_compositeParts _

theorem stay_iCompositeFunction (a : Nat) : Stays K false Any (iCompositeFunction a) := by
  unfold iCompositeFunction
  stay_auto
  all_goals exact stay_compositeParts _

theorem stay_iSetCompositeValue (a b : Nat) : Stays K true Any (iSetCompositeValue a b) := by
  unfold iSetCompositeValue
  stay_auto
  all_goals exact stay_setCompositeValueCell _ _

theorem stay_iSetCompositeFunction (a b : Nat) : Stays K true Any (iSetCompositeFunction a b) := by
  unfold iSetCompositeFunction
  stay_auto
  all_goals exact stay_setCompositeFunctionCell _ _

theorem stay_lengthValue (o : Obj) : Stays K nb (Val nb) (lengthValue o) := by
  unfold lengthValue
  stay_auto
  all_goals exact stay_vectorStorage _

theorem stay_symbolStringValue (o : Obj) : Stays K nb (Val nb) (symbolStringValue o) := by
  unfold symbolStringValue; stay_auto

theorem stay_vectorBytes (vs : Option (List Slot)) (n : Nat) : ∀ i, Stays K nb Any (vectorBytes vs n i) := by
  induction n with
  | zero => intro i; exact stay_pure trivial
  | succ n ih =>
    intro i
    unfold vectorBytes
    refine stay_bind (stay_slotValue _ _) (fun _ _ => ?_)
    split
    · refine stay_bind (ih _) (fun _ _ => ?_)
      stay_auto
    · stay_auto

theorem stay_listBytes (fuel : Nat) : ∀ p, Stays K nb Any (listBytes fuel p) := by
  induction fuel with
  | zero => intro p; exact stay_diverge
  | succ fuel ih =>
    intro p
    cases p with
    | none => exact stay_pure trivial
    | some r =>
      unfold listBytes
      stay_auto
      all_goals exact ih _

theorem stay_newString (b : Bytes) : Stays K nb (Val nb) (newString b) := by
  unfold newString; stay_auto

macro_rules | `(tactic| stay_one) => `(tactic|
  with_reducible refine stay_bind (stay_newString _) (fun _ _ => ?_))

theorem stay_iMakeString (a : Nat) : Stays K nb Any (iMakeString a) := by
  unfold iMakeString
  stay_auto
  all_goals first
    | exact stay_vectorStorage _
    | exact stay_vectorBytes _ _ _
    | exact stay_listBytes _ _

theorem stay_concatBytes (o : Obj) : Stays K nb Any (concatBytes o) := by
  unfold concatBytes
  stay_auto
  all_goals exact stay_stringBytes _ _ _

theorem stay_iConcatenate (a b : Nat) : Stays K nb Any (iConcatenate a b) := by
  unfold iConcatenate
  stay_auto
  all_goals first
    | exact stay_concatBytes _
    | exact stay_any (stay_newString _)

theorem stay_iSubstring (a b c : Nat) : Stays K nb Any (iSubstring a b c) := by
  unfold iSubstring; stay_auto

theorem stay_unary (a : Nat) {f : Obj → M Obj} (hf : ∀ o, Val nb o → Stays K nb (Val nb) (f o)) :
    Stays K nb Any (unary a f) := by
  unfold unary
  exact stay_bind (stay_getArg _) fun o ho => stay_bind (hf o ho) fun x hx => stay_push x hx

theorem stay_binary (a b : Nat) {f : Obj → Obj → M Obj} (hf : ∀ o o', Stays K nb (Val nb) (f o o')) :
    Stays K nb Any (binary a b f) := by
  unfold binary
  exact stay_bind (stay_getArg _) fun o _ => stay_bind (stay_getArg _) fun o' _ =>
    stay_bind (hf o o') fun x hx => stay_push x hx

theorem stay_boolValue {m : M Bool} (hm : Stays K nb Any m) : Stays K nb (Val nb) (boolValue m) := by
  unfold boolValue
  refine stay_bind hm fun _ _ => stay_pure ?_
  exact fun _ => trivial

theorem stay_iPushString (b : Bytes) : Stays K nb Any (iPushString b) := by
  intro s hs
  unfold iPushString
  cases h : newString b s with
  | ok o s' => exact stay_push o (stay_newString b |>.ok hs h).1 s' (stay_newString b |>.ok hs h).2
  | err e s' =>
    have : K.Inv nb s' := by
      unfold newString at h
      rw [M.bind_run] at h
      cases hp : pushObject (.internalString (some b) b.length) s with
      | ok r s1 => rw [hp] at h; cases h
      | err e s1 => rw [hp] at h; cases h; exact pushObject_err_inv hs hp
      | ub => rw [hp] at h; cases h
      | diverge => rw [hp] at h; cases h
    exact stay_push .none (fun _ => trivial) s' this
  | ub => trivial
  | diverge => trivial

theorem stay_leave : Stays K nb (fun c => ∀ ip, c = .goto ip → K.pos ip) leave := by
  unfold leave
  refine stay_bind stay_popFrame (fun p hp => ?_)
  split
  · refine stay_pure fun ip hip => ?_
    cases hip
    exact hp _ rfl
  · exact stay_pure fun ip hip => nomatch hip

theorem stay_iVector (as : List Nat) : Stays K true Any (iVector as) := by
  unfold iVector
  stay_auto
  all_goals first
    | exact stay_vectorLoop _ _ _
    | exact stay_setInitialized _

theorem stay_iMakeVector (a b : Nat) : Stays K true Any (iMakeVector a b) := by
  unfold iMakeVector
  stay_auto
  all_goals first
    | exact stay_fillSlots _ _
    | exact stay_setInitialized _

theorem stay_iMakeType : Stays K nb Any iMakeType := by
  unfold iMakeType
  refine stay_bind stay_get (fun _ _ => ?_)
  refine stay_bind (stay_modify fun s hs => ⟨hs.stack, hs.heap, hs.frames⟩) (fun _ _ => ?_)
  stay_auto

/-! ### Functions and calls -/

theorem stay_set {s' : VM} (h : K.Inv nb s') : Stays K nb Any (M.set s') := fun _ _ => ⟨trivial, h⟩

theorem stay_capture (v : Nat) : Stays K nb Any (capture v) := by
  unfold capture
  split
  · stay_auto
  · refine stay_bind stay_get (fun s hs => ?_)
    dsimp only
    split
    · exact stay_throw _
    · split
      · have hp := stay_pushObject (K := K) (nb := nb) (.upvalue (.stackIndex ((s.stack.length - 1 : Int) - v))) (fun _ => trivial) s hs
        split
        · rename_i h
          rw [h] at hp
          refine stay_bind (stay_set hp.2) (fun _ _ => ?_)
          stay_auto
        · rename_i h
          refine stay_bind (stay_set (pushObject_err_inv hs h)) (fun _ _ => ?_)
          stay_auto
        · exact stay_ub
        · exact stay_diverge
      · stay_auto

theorem stay_captures (c : Ref) (vs : List Nat) : ∀ k b, Stays K nb Any (captures c k vs b) := by
  induction vs with
  | nil => intro k b; exact stay_pure trivial
  | cons v vs ih =>
    intro k b
    unfold captures
    refine stay_bind (stay_capture v) (fun p _ => ?_)
    refine stay_bind (stay_setCapture _ _ _) (fun _ _ => ?_)
    exact ih _ _

theorem stay_iPushClosure (bc : Ref) (st : CodePtr) (v : Bool) (base : Nat) (d : Int) (ar : UInt8) (vs : List Nat) :
    Stays K nb Any (iPushClosure bc st v base d ar vs) := by
  unfold iPushClosure
  refine stay_bind (stay_codeSerial bc) (fun n _ => ?_)
  split
  · refine stay_bind (stay_pushObject _ fun _ => trivial) (fun cell _ => ?_)
    refine stay_bind (stay_pushStackOnly _ fun _ => trivial) (fun _ _ => ?_)
    refine stay_bind (stay_captures _ _ _ _) (fun _ _ => ?_)
    stay_auto
  · exact stay_ub

theorem spread_enough {arity todo n : Nat} {p : Option Ref} (h : arity ≤ n) :
    spread arity todo n p = (pure (n, p) : M (Nat × Option Ref)) := by
  cases todo with
  | zero => rfl
  | succ t => unfold spread; rw [if_neg (by omega)]

theorem stay_spread (arity todo : Nat) : ∀ n p, n ≤ arity →
    Stays K false (fun r => r.1 ≤ arity) (spread arity todo n p) := by
  induction todo with
  | zero => intro n p h; exact stay_pure h
  | succ t ih =>
    intro n p hn
    unfold spread
    split
    · rename_i hlt
      split
      · exact stay_pure hn
      · refine stay_bind (stay_readCell _) (fun o _ => ?_)
        split
        · dsimp only
          split
          · exact stay_bind (stay_push _ fun _ => trivial) (fun _ _ => ih _ _ hlt)
          · refine stay_bind (stay_readCell _) (fun o _ => ?_)
            split
            · exact stay_bind (stay_push _ fun _ => trivial) (fun _ _ => ih _ _ hlt)
            · exact stay_bind (stay_push _ fun h => nomatch h) (fun _ _ => ih _ _ hlt)
        · exact stay_throw _
    · exact stay_pure hn

theorem stay_collectNone (t : Option Ref) : Stays K nb Any (collectRest 0 t) := by
  unfold collectRest restLoop
  refine stay_bind (stay_push _ fun _ => trivial) (fun _ _ => ?_)
  refine stay_bind (stay_push _ fun _ => trivial) (fun _ _ => ?_)
  refine stay_bind (R := Any) (stay_pure trivial) (fun _ _ => ?_)
  stay_auto

/-- What starts with no code on the stack may end with some. -/
def Leaves (K : Rules) (m : M α) : Prop :=
  ∀ s, K.Inv true s → match m s with
    | .ok _ s' => K.Inv false s'
    | _ => True

theorem Stays.leaves {R : α → Prop} {m : M α} (h : Stays K nb R m) : Leaves K m := by
  intro s hs
  have hs' : K.Inv nb s := by
    cases nb
    · exact hs.false
    · exact hs
  have := h s hs'
  cases h1 : m s with
  | ok a s' => rw [h1] at this; exact this.2.false
  | err e s' => trivial
  | ub => trivial
  | diverge => trivial

variable {β : Type}

theorem leaves_bind {R : α → Prop} {m : M α} {f : α → M β} (hm : Stays K true R m) (hf : ∀ a, R a → Leaves K (f a)) :
    Leaves K (m >>= f) := by
  intro s hs
  rw [M.bind_run]
  have h := hm s hs
  cases hms : m s with
  | ok a s' =>
    rw [hms] at h
    exact hf a h.1 s' h.2
  | err e s' => trivial
  | ub => trivial
  | diverge => trivial

theorem leaves_then {m : M α} {f : α → M β} (hm : Leaves K m) (hf : ∀ a, Stays K false Any (f a)) :
    Leaves K (m >>= f) := by
  intro s hs
  rw [M.bind_run]
  have h := hm s hs
  cases hms : m s with
  | ok a s' =>
    rw [hms] at h
    have h1 := hf a s' h
    dsimp only
    cases hfs : f a s' with
    | ok b s2 => rw [hfs] at h1; exact h1.2
    | err e s2 => trivial
    | ub => trivial
    | diverge => trivial
  | err e s' => trivial
  | ub => trivial
  | diverge => trivial

variable {env : Env} {bc : Ref} {st nx : CodePtr}

theorem leaves_iFuncall (hh : ∀ cb, Leaves K (env.host cb)) (hn : K.pos nx) (a n : Nat) :
    Leaves K (iFuncall env bc nx a n) := by
  unfold iFuncall
  refine leaves_bind (stay_getArg _) fun f _ => ?_
  refine leaves_bind (stay_prepareForFuncall _ _) fun g _ => ?_
  split
  · exact leaves_then (hh _) fun _ => stay_pure trivial
  · exact (stay_enter (nb := true) bc nx _ _ _ hn).leaves
  · exact (stay_throw (nb := true) (R := Any) _).leaves

theorem leaves_iApply (hn : K.pos nx) (a n : Nat) : Leaves K (iApply bc nx a n) := by
  unfold iApply
  refine leaves_bind (stay_getArg _) fun f _ => ?_
  refine leaves_bind stay_unwrapFuel fun _ _ => ?_
  refine leaves_bind (stay_unwrap _ _) fun g _ => ?_
  split
  · rename_i name code ups arity variadic
    refine leaves_bind stay_popStack fun l _ => ?_
    split
    · rename_i rest
      by_cases hle : arity.toNat ≤ n
      · rw [spread_enough hle]
        refine leaves_bind (R := Any) (stay_pure trivial) fun p _ => ?_
        obtain ⟨n', r'⟩ := p
        dsimp only
        split
        · split
          · exact Stays.leaves (nb := true) (R := Any) (stay_bind (R := Any) (stay_throw _) fun _ _ => stay_enter bc nx _ _ _ hn)
          · exact Stays.leaves (nb := true) (R := Any) (stay_bind (stay_collectRest _ _) fun _ _ => stay_enter bc nx _ _ _ hn)
        · split
          · exact Stays.leaves (nb := true) (R := Any) (stay_bind (R := Any) (stay_throw _) fun _ _ => stay_enter bc nx _ _ _ hn)
          · exact Stays.leaves (nb := true) (R := Any) (stay_enter bc nx _ _ _ hn)
      · refine Stays.leaves (nb := false) (R := Any) ?_
        refine stay_bind (stay_spread _ _ _ _ (by omega)) fun p hp => ?_
        obtain ⟨n', r'⟩ := p
        dsimp only at hp ⊢
        split
        · split
          · exact stay_bind (R := Any) (stay_throw _) fun _ _ => stay_enter bc nx _ _ _ hn
          · have e : n' - arity.toNat = 0 := by omega
            rw [e]
            exact stay_bind (stay_collectNone _) fun _ _ => stay_enter bc nx _ _ _ hn
        · split
          · exact stay_bind (R := Any) (stay_throw _) fun _ _ => stay_enter bc nx _ _ _ hn
          · exact stay_enter bc nx _ _ _ hn
    · exact (stay_throw (nb := true) (R := Any) _).leaves
  · exact (stay_throw (nb := true) (R := Any) _).leaves

theorem leaves_plain (hh : ∀ cb, Leaves K (env.host cb)) (i : Instr) : Leaves K (plain env bc st i) := by
  cases i
  case pushString s => exact (stay_iPushString (nb := true) s).leaves
  case pushIndex a => exact (stay_unary (nb := true) a fun o ho => stay_pure ho).leaves
  case pushUpvalue => exact (stay_iPushUpvalue _).leaves
  case pushClosure => exact (stay_iPushClosure (nb := true) _ _ _ _ _ _ _).leaves
  case pushGlobal k => exact (stay_bind (nb := false) (stay_globalGet _) fun p _ => stay_pushPtr p).leaves
  case releaseUpvalues => exact (stay_iReleaseUpvalues _).leaves
  case setUpvalue => exact (stay_iSetUpvalue _ _).leaves
  case ccall k =>
    refine leaves_bind (stay_globalGet _) fun p _ => leaves_bind (stay_deref p) fun o _ => ?_
    split
    · exact hh _
    · exact (stay_ub (nb := true) (R := Any)).leaves
  case not a => exact (stay_unary (nb := true) a fun o _ => stay_notValue o).leaves
  case arith op a b => exact (stay_binary (nb := true) a b fun x y => stay_arithValue _ _ x y).leaves
  case equal a b => exact (stay_binary (nb := true) a b fun x y => stay_boolValue (stay_equalValue x y)).leaves
  case greater a b => exact (stay_binary (nb := true) a b fun x y => stay_boolValue (stay_greaterValue _ x y)).leaves
  case less a b => exact (stay_binary (nb := true) a b fun x y => stay_boolValue (stay_lessValue _ x y)).leaves
  case cons => exact (stay_iCons _ _).leaves
  case vector => exact (stay_iVector _).leaves
  case makeVector => exact (stay_iMakeVector _ _).leaves
  case getVecElt => exact (stay_iGetVecElt _ _).leaves
  case setVecElt => exact (stay_iSetVecElt _ _ _).leaves
  case car a => exact (stay_unary (nb := false) a fun o _ => stay_carValue o).leaves
  case cdr a => exact (stay_unary (nb := false) a fun o _ => stay_cdrValue o).leaves
  case setCar => exact (stay_iSetCar _ _).leaves
  case setCdr => exact (stay_iSetCdr _ _).leaves
  case nullp a => exact (stay_unary (nb := true) a fun o _ => stay_boolValue (stay_nullValue o)).leaves
  case typeof a => exact (stay_unary (nb := true) a fun o _ => stay_typeValue o).leaves
  case makeType => exact (stay_iMakeType (nb := true)).leaves
  case makeInstance => exact (stay_iMakeInstance _ _ _).leaves
  case compositeValue => exact (stay_iCompositeValue _).leaves
  case compositeFunction => exact (stay_iCompositeFunction _).leaves
  case setCompositeValue => exact (stay_iSetCompositeValue _ _).leaves
  case setCompositeFunction => exact (stay_iSetCompositeFunction _ _).leaves
  case length a => exact (stay_unary (nb := true) a fun o _ => stay_lengthValue o).leaves
  case symbolString a => exact (stay_unary (nb := true) a fun o _ => stay_symbolStringValue o).leaves
  case symbolId a =>
    refine (stay_unary (nb := true) a fun o _ => ?_).leaves
    stay_auto
  case makeString => exact (stay_iMakeString (nb := true) _).leaves
  case concatenate => exact (stay_iConcatenate (nb := true) _ _).leaves
  case substring => exact (stay_iSubstring (nb := true) _ _ _).leaves
  all_goals
    refine Stays.leaves (nb := true) (R := Any) ?_
    unfold plain
    stay_auto

theorem leaves_exec (hh : ∀ cb, Leaves K (env.host cb)) (hn : K.pos nx) (i : Instr) :
    Leaves K (exec env bc st nx i) := by
  cases i
  case funcall a n => exact leaves_then (leaves_iFuncall hh hn a n) fun _ => stay_pure trivial
  case apply a n => exact leaves_then (leaves_iApply hn a n) fun _ => stay_pure trivial
  case call d =>
    exact (stay_bind (nb := true) (R' := Any) (stay_pushFrame _ _ hn) fun _ _ => stay_pure trivial).leaves
  case jump d => exact (stay_pure (nb := true) (R := Any) trivial).leaves
  case brnz d n =>
    refine Stays.leaves (nb := true) (R := Any) ?_
    unfold exec
    stay_auto
    all_goals exact stay_truthy _
  case return_ n =>
    refine Stays.leaves (nb := false) (R := Any) ?_
    unfold exec
    stay_auto
    all_goals exact stay_any stay_leave
  case return0 => exact (stay_leave (nb := true)).leaves
  case halt => exact (stay_pure (nb := true) (R := Any) trivial).leaves
  all_goals exact leaves_then (leaves_plain hh _) fun _ => stay_pure trivial

end DuckLisp.VM
