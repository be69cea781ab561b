import Verif.Proof.VM.Mind

/-!
# Instructions that work on data leave the captured variables alone: the instructions
-/

namespace DuckLisp.VM.Mind

open DuckLisp DuckLisp.Spec

variable {K : Start} {nb : Bool} {α : Type}

/-- An object that may be stored: not a captured variable. -/
macro "fit_auto" : tactic => `(tactic| (first
  | exact fun _ => trivial
  | assumption
  | exact fun h => nomatch h
  | trivial))

/-- One step of `mind_auto`. -/
macro "mind_one" : tactic => `(tactic| (first
  | (with_reducible refine mind_pure ?_); fit_auto
  | with_reducible exact mind_throw _
  | with_reducible exact mind_ub
  | with_reducible exact mind_diverge
  | with_reducible exact mind_readCell _
  | with_reducible exact mind_any (mind_readCell _)
  | with_reducible exact mind_deref _
  | with_reducible exact mind_any (mind_deref _)
  | with_reducible exact mind_getArg _
  | with_reducible exact mind_ckInt _
  | with_reducible exact mind_globalSet _ _
  | with_reducible exact mind_pushUpOnly
  | (with_reducible refine mind_pushObject _ ?_); fit_auto
  | (with_reducible refine mind_push _ ?_); fit_auto
  | (with_reducible refine mind_pushStackOnly _ ?_); fit_auto
  | (with_reducible refine mind_setArg _ _ ?_); fit_auto
  | (with_reducible refine mind_setStackAt _ _ ?_); fit_auto
  | (with_reducible refine mind_setAbs _ _ ?_); fit_auto
  | with_reducible exact mind_pushPtr _
  | with_reducible refine mind_bind mind_get (fun _ _ => ?_)
  | with_reducible refine mind_bind (mind_need _) (fun _ _ => ?_)
  | with_reducible refine mind_bind (mind_readCell _) (fun _ _ => ?_)
  | with_reducible refine mind_bind (mind_deref _) (fun _ _ => ?_)
  | with_reducible refine mind_bind (mind_getArg _) (fun _ _ => ?_)
  | with_reducible refine mind_bind (mind_stackAt _) (fun _ _ => ?_)
  | with_reducible refine mind_bind (mind_getAbs _) (fun _ _ => ?_)
  | with_reducible refine mind_bind mind_height (fun _ _ => ?_)
  | with_reducible refine mind_bind (mind_globalGet _) (fun _ _ => ?_)
  | with_reducible refine mind_bind (mind_ckInt _) (fun _ _ => ?_)
  | with_reducible refine mind_bind (mind_upvalueAt _ _) (fun _ _ => ?_)
  | with_reducible refine mind_bind (mind_listIsCyclic _) (fun _ _ => ?_)
  | with_reducible refine mind_bind (mind_countConses _ _ _) (fun _ _ => ?_)
  | with_reducible refine mind_bind mind_chaseFuel (fun _ _ => ?_)
  | with_reducible refine mind_bind mind_unwrapFuel (fun _ _ => ?_)
  | with_reducible refine mind_bind (mind_topUpArray ?_) (fun _ _ => ?_)
  | with_reducible refine mind_bind (mind_chase ?_ ?_ _ _) (fun _ _ => ?_)
  | with_reducible refine mind_bind (R := fun _ => True) ?_ (fun _ _ => ?_)
  | split))

/-- Prove `Minds K nb R m` by following the shape of `m`. -/
macro "mind_auto" : tactic => `(tactic| repeat' mind_one)

local notation "Any" => (fun _ => True)

/-- Reading a cell and writing to it. -/
macro "mind_cell" : tactic => `(tactic| (
  refine mind_at _ fun o s hs hr => ?_
  repeat' split
  all_goals first
    | exact fine_ub
    | exact fine_write hs hr (by simp [shape]) (by trivial)
    | exact ⟨trivial, hs⟩))

theorem mind_vectorInRange (p : Option Ref) (off : Int) : Minds K nb Any (vectorInRange p off) := by
  unfold vectorInRange; mind_auto

theorem mind_truthy (o : Obj) : Minds K nb Any (truthy o) := by
  unfold truthy
  split
  all_goals first
    | exact mind_pure trivial
    | exact mind_vectorInRange _ _

theorem mind_notValue (o : Obj) : Minds K nb (Val nb) (notValue o) := by
  unfold notValue; mind_auto

theorem mind_intArith (op : Arith) (x y : Int) : Minds K nb Any (intArith op x y) := by
  cases op <;> unfold intArith <;> mind_auto

theorem mind_boolArith (op : Arith) (x y : UInt8) : Minds K nb Any (boolArith op x y) := by
  cases op <;> unfold boolArith <;> mind_auto

theorem mind_arithValue (fl : FloatOps) (op : Arith) (x y : Obj) : Minds K nb (Val nb) (arithValue fl op x y) := by
  unfold arithValue
  mind_auto
  all_goals first
    | exact mind_intArith _ _ _
    | exact mind_boolArith _ _ _

theorem mind_lessValue (fl : FloatOps) (x y : Obj) : Minds K nb Any (lessValue fl x y) := by
  unfold lessValue; mind_auto

theorem mind_greaterValue (fl : FloatOps) (x y : Obj) : Minds K nb Any (greaterValue fl x y) := by
  unfold greaterValue; mind_auto

theorem mind_stringBytes (p : Option Ref) (off : Int) (n : Nat) : Minds K nb Any (stringBytes p off n) := by
  unfold stringBytes; mind_auto

theorem mind_equalValue (x y : Obj) : Minds K nb Any (equalValue x y) := by
  unfold equalValue
  mind_auto
  all_goals exact mind_stringBytes _ _ _

theorem mind_part (o : Obj) (ho : Val true o) : Minds K nb Any (part o) := by
  unfold part; mind_auto

theorem mind_setCarCell (r : Ref) (x : Option Ref) : Minds K nb Any (setCarCell r x) := by
  unfold setCarCell; mind_cell

theorem mind_setCdrCell (r : Ref) (x : Option Ref) : Minds K nb Any (setCdrCell r x) := by
  unfold setCdrCell; mind_cell

theorem mind_iCons (a b : Nat) : Minds K true Any (iCons a b) := by
  unfold iCons
  mind_auto
  all_goals first
    | (refine mind_part _ ?_; fit_auto)
    | exact mind_setCarCell _ _
    | exact mind_setCdrCell _ _

theorem mind_setSlot (r : Ref) (k : Nat) (p : Ref) : Minds K nb Any (setSlot r k p) := by
  unfold setSlot; mind_cell

theorem mind_setInitialized (r : Ref) : Minds K nb Any (setInitialized r) := by
  unfold setInitialized; mind_cell

theorem mind_vectorLoop (r : Ref) (as : List Nat) : ∀ k, Minds K true Any (vectorLoop r k as) := by
  induction as with
  | nil => intro k; exact mind_pure trivial
  | cons a as ih =>
    intro k
    unfold vectorLoop
    mind_auto
    all_goals first
      | exact mind_setSlot _ _ _
      | exact ih _

theorem mind_fillSlots (r p : Ref) : Minds K nb Any (fillSlots r p) := by
  unfold fillSlots; mind_cell

theorem mind_vectorStorage (p : Option Ref) : Minds K nb Any (vectorStorage p) := by
  unfold vectorStorage; mind_auto

theorem mind_slotValue (vs : Option (List Slot)) (i : Int) : Minds K nb Any (slotValue vs i) := by
  unfold slotValue; mind_auto

theorem mind_byteValue (p : Option Ref) (i : Int) : Minds K nb (Val nb) (byteValue p i) := by
  unfold byteValue
  refine mind_bind (mind_stringBytes _ _ _) (fun _ _ => ?_)
  mind_auto

theorem mind_slotValue' (vs : Option (List Slot)) (i : Int) : Minds K false (Val false) (slotValue vs i) :=
  mind_weaken (mind_slotValue vs i) fun _ _ => fun h => nomatch h

macro_rules | `(tactic| mind_one) => `(tactic|
  with_reducible refine mind_bind (mind_slotValue' _ _) (fun _ _ => ?_))
macro_rules | `(tactic| mind_one) => `(tactic|
  with_reducible refine mind_bind (mind_byteValue _ _) (fun _ _ => ?_))

theorem mind_iGetVecElt (a b : Nat) : Minds K false Any (iGetVecElt a b) := by
  unfold iGetVecElt
  mind_auto
  all_goals first
    | exact mind_vectorStorage _

theorem mind_iSetVecElt (a b c : Nat) : Minds K true Any (iSetVecElt a b c) := by
  unfold iSetVecElt
  mind_auto
  all_goals first
    | exact mind_vectorStorage _
    | exact mind_setSlot _ _ _

theorem mind_partValue (p : Option Ref) : Minds K false (Val false) (partValue p) := by
  unfold partValue; mind_auto

theorem mind_cdrValue (o : Obj) : Minds K false (Val false) (cdrValue o) := by
  unfold cdrValue
  mind_auto
  all_goals exact mind_partValue _

theorem mind_carValue (o : Obj) : Minds K false (Val false) (carValue o) := by
  unfold carValue
  mind_auto
  all_goals first
    | exact mind_partValue _
    | exact mind_slotValue' _ _
    | exact mind_byteValue _ _

theorem mind_iSetCar (a b : Nat) : Minds K true Any (iSetCar a b) := by
  unfold iSetCar
  mind_auto
  all_goals first
    | (refine mind_part _ ?_; fit_auto)
    | exact mind_setCarCell _ _
    | exact mind_setSlot _ _ _

theorem mind_setVectorLength (r : Ref) (n : Nat) : Minds K nb Any (setVectorLength r n) := by
  unfold setVectorLength; mind_cell

theorem mind_iSetCdr (a b : Nat) : Minds K true Any (iSetCdr a b) := by
  unfold iSetCdr
  mind_auto
  all_goals first
    | (refine mind_part _ ?_; fit_auto)
    | exact mind_setCdrCell _ _
    | exact mind_setVectorLength _ _

theorem mind_nullValue (o : Obj) : Minds K nb Any (nullValue o) := by
  unfold nullValue
  mind_auto
  all_goals exact mind_vectorInRange _ _

theorem mind_compositeParts (c : Option Ref) : Minds K nb Any (compositeParts c) := by
  unfold compositeParts; mind_auto

theorem mind_typeValue (o : Obj) : Minds K nb (Val nb) (typeValue o) := by
  unfold typeValue
  mind_auto
  all_goals exact mind_compositeParts _

theorem mind_setCompositeValueCell (c : Option Ref) (p : Ref) :
    Minds K nb Any (setCompositeValueCell c p) := by
  unfold setCompositeValueCell
  refine mind_bind (mind_need _) (fun _ _ => ?_)
  mind_cell

theorem mind_setCompositeFunctionCell (c : Option Ref) (p : Ref) :
    Minds K nb Any (setCompositeFunctionCell c p) := by
  unfold setCompositeFunctionCell
  refine mind_bind (mind_need _) (fun _ _ => ?_)
  mind_cell

theorem mind_iMakeInstance (a b c : Nat) : Minds K true Any (iMakeInstance a b c) := by
  unfold iMakeInstance
  mind_auto
  all_goals first
    | exact mind_setCompositeValueCell _ _
    | exact mind_setCompositeFunctionCell _ _

theorem mind_iCompositeValue (a : Nat) : Minds K false Any (iCompositeValue a) := by
  unfold iCompositeValue
  mind_auto
  all_goals exact mind_compositeParts _

theorem mind_iCompositeFunction (a : Nat) : Minds K false Any (iCompositeFunction a) := by
  unfold iCompositeFunction
  mind_auto
  all_goals exact mind_compositeParts _

theorem mind_iSetCompositeValue (a b : Nat) : Minds K true Any (iSetCompositeValue a b) := by
  unfold iSetCompositeValue
  mind_auto
  all_goals exact mind_setCompositeValueCell _ _

theorem mind_iSetCompositeFunction (a b : Nat) : Minds K true Any (iSetCompositeFunction a b) := by
  unfold iSetCompositeFunction
  mind_auto
  all_goals exact mind_setCompositeFunctionCell _ _

theorem mind_lengthValue (o : Obj) : Minds K nb (Val nb) (lengthValue o) := by
  unfold lengthValue
  mind_auto
  all_goals exact mind_vectorStorage _

theorem mind_symbolStringValue (o : Obj) : Minds K nb (Val nb) (symbolStringValue o) := by
  unfold symbolStringValue; mind_auto

theorem mind_vectorBytes (vs : Option (List Slot)) (n : Nat) : ∀ i, Minds K nb Any (vectorBytes vs n i) := by
  induction n with
  | zero => intro i; exact mind_pure trivial
  | succ n ih =>
    intro i
    unfold vectorBytes
    refine mind_bind (mind_slotValue _ _) (fun _ _ => ?_)
    split
    · refine mind_bind (ih _) (fun _ _ => ?_)
      mind_auto
    · mind_auto

theorem mind_listBytes (fuel : Nat) : ∀ p, Minds K nb Any (listBytes fuel p) := by
  induction fuel with
  | zero => intro p; exact mind_diverge
  | succ fuel ih =>
    intro p
    cases p with
    | none => exact mind_pure trivial
    | some r =>
      unfold listBytes
      mind_auto
      all_goals exact ih _

theorem mind_newString (b : Bytes) : Minds K nb (Val nb) (newString b) := by
  unfold newString; mind_auto

macro_rules | `(tactic| mind_one) => `(tactic|
  with_reducible refine mind_bind (mind_newString _) (fun _ _ => ?_))

theorem mind_iMakeString (a : Nat) : Minds K nb Any (iMakeString a) := by
  unfold iMakeString
  mind_auto
  all_goals first
    | exact mind_vectorStorage _
    | exact mind_vectorBytes _ _ _
    | exact mind_listBytes _ _

theorem mind_concatBytes (o : Obj) : Minds K nb Any (concatBytes o) := by
  unfold concatBytes
  mind_auto
  all_goals exact mind_stringBytes _ _ _

/-- A new string, and what is done with it. -/
theorem mind_new (x : Bytes) {R : α → Prop} {f : Obj → M α}
    (hf : ∀ r s, K.Inv nb s → (∀ o, s.heap[r]? = some o → shape o ≠ .value) →
      Fine K nb R (f (.string (some r) 0 x.length)) s) : Minds K nb R (newString x >>= f) := by
  intro s hs
  rw [M.bind_run]
  unfold newString
  rw [M.bind_run]
  have hp := mind_pushObject (K := K) (nb := nb) (.internalString (some x) x.length) (fun _ => trivial) s hs
  cases h : pushObject (.internalString (some x) x.length) s with
  | ok r s1 =>
    rw [h] at hp
    obtain ⟨vm1, -, free, hfree, rfl⟩ := pushObject_eq_ok h
    refine hf r _ hp.2 fun o ho => ?_
    dsimp only at ho
    rw [List.getElem?_set_self' ] at ho
    cases hr : vm1.heap[r]? with
    | none => rw [hr] at ho; cases ho
    | some o' =>
      rw [hr] at ho
      cases ho
      simp only [store]
      split <;> simp [shape]
  | err e s1 => trivial
  | ub => trivial
  | diverge => trivial

theorem mind_iConcatenate (a b : Nat) : Minds K nb Any (iConcatenate a b) := by
  unfold iConcatenate
  refine mind_bind (mind_getArg _) fun o1 _ => ?_
  split
  · exact mind_throw _
  · refine mind_bind (mind_getArg _) fun o2 _ => ?_
    split
    · exact mind_throw _
    · refine mind_bind (mind_concatBytes _) fun x _ => ?_
      refine mind_bind (mind_concatBytes _) fun y _ => ?_
      refine mind_new x fun r s hs hr => ?_
      dsimp only
      split
      · trivial
      · unfold Fine
        have hw : Fine K nb Any (writeCell r (.internalString (some (x ++ y)) (x.length + y.length))) s := by
          cases ho : s.heap[r]? with
          | none =>
            unfold Fine writeCell
            rw [if_neg (by rw [List.getElem?_eq_none_iff] at ho; omega)]
            trivial
          | some o => exact fine_write hs ho (hr o ho) trivial
        unfold Fine at hw
        rw [M.bind_run]
        cases hwr : writeCell r (.internalString (some (x ++ y)) (x.length + y.length)) s with
        | ok _ s' =>
          rw [hwr] at hw
          exact mind_push (K := K) (nb := nb) (.string (some r) 0 (x.length + y.length)) (fun _ => trivial) s' hw.2
        | err e s1 => trivial
        | ub => trivial
        | diverge => trivial

theorem mind_iSubstring (a b c : Nat) : Minds K nb Any (iSubstring a b c) := by
  unfold iSubstring; mind_auto

theorem mind_unary (a : Nat) {f : Obj → M Obj} (hf : ∀ o, Val nb o → Minds K nb (Val nb) (f o)) :
    Minds K nb Any (unary a f) := by
  unfold unary
  exact mind_bind (mind_getArg _) fun o ho => mind_bind (hf o ho) fun x hx => mind_push x hx

theorem mind_binary (a b : Nat) {f : Obj → Obj → M Obj} (hf : ∀ o o', Minds K nb (Val nb) (f o o')) :
    Minds K nb Any (binary a b f) := by
  unfold binary
  exact mind_bind (mind_getArg _) fun o _ => mind_bind (mind_getArg _) fun o' _ =>
    mind_bind (hf o o') fun x hx => mind_push x hx

theorem mind_boolValue {m : M Bool} (hm : Minds K nb Any m) : Minds K nb (Val nb) (boolValue m) := by
  unfold boolValue
  refine mind_bind hm fun _ _ => mind_pure ?_
  exact fun _ => trivial

theorem mind_iPushString (b : Bytes) : Minds K nb Any (iPushString b) := by
  intro s hs
  unfold iPushString
  cases h : newString b s with
  | ok o s' => exact mind_push o (mind_newString b |>.ok hs h).1 s' (mind_newString b |>.ok hs h).2
  | err e s' =>
    have : K.Inv nb s' := by
      unfold newString at h
      rw [M.bind_run] at h
      cases hp : pushObject (.internalString (some b) b.length) s with
      | ok r s1 => rw [hp] at h; cases h
      | err e s1 => rw [hp] at h; cases h; exact pushObject_err_inv hs hp
      | ub => rw [hp] at h; cases h
      | diverge => rw [hp] at h; cases h
    exact mind_push .none (fun _ => trivial) s' this
  | ub => trivial
  | diverge => trivial

theorem mind_iVector (as : List Nat) : Minds K true Any (iVector as) := by
  unfold iVector
  mind_auto
  all_goals first
    | exact mind_vectorLoop _ _ _
    | exact mind_setInitialized _

theorem mind_iMakeVector (a b : Nat) : Minds K true Any (iMakeVector a b) := by
  unfold iMakeVector
  mind_auto
  all_goals first
    | exact mind_fillSlots _ _
    | exact mind_setInitialized _

theorem mind_iMakeType : Minds K nb Any iMakeType := by
  unfold iMakeType
  refine mind_bind mind_get (fun _ _ => ?_)
  refine mind_bind (mind_modify fun s hs => ⟨hs.stack, hs.kept, hs.up⟩) (fun _ _ => ?_)
  mind_auto

/-- What starts with no captured variable on the stack may end with some. -/
def Leaves (K : Start) (m : M α) : Prop :=
  ∀ s, K.Inv true s → match m s with
    | .ok _ s' => Same K.vm s'.heap s'.free ∧ ∀ (i c : Ref), s'.upStack[i]? = some (some c) ↔ K.vm.upStack[i]? = some (some c)
    | _ => True

theorem Minds.leaves {R : α → Prop} {m : M α} (h : Minds K nb R m) : Leaves K m := by
  intro s hs
  have hs' : K.Inv nb s := by
    cases nb
    · exact hs.false
    · exact hs
  have := h s hs'
  cases h1 : m s with
  | ok a s' => rw [h1] at this; exact ⟨this.2.kept, this.2.up⟩
  | err e s' => trivial
  | ub => trivial
  | diverge => trivial

variable {env : Env} {bc : Ref} {st nx : CodePtr}

/-- The instructions that work on data and discard nothing. -/
def OnData : Instr → Prop
  | .pushUpvalue _ | .pushClosure .. | .setUpvalue .. | .releaseUpvalues _ | .ccall _ | .pop _ => False
  | _ => True

theorem leaves_plain {i : Instr} (hi : OnData i) : Leaves K (plain env bc st i) := by
  cases i <;> simp only [OnData] at hi
  case pushString s => exact (mind_iPushString (nb := true) s).leaves
  case pushIndex a => exact (mind_unary (nb := true) a fun o ho => mind_pure ho).leaves
  case pushGlobal k => exact (mind_bind (nb := false) (mind_globalGet _) fun p _ => mind_pushPtr p).leaves
  case not a => exact (mind_unary (nb := true) a fun o _ => mind_notValue o).leaves
  case arith op a b => exact (mind_binary (nb := true) a b fun x y => mind_arithValue _ _ x y).leaves
  case equal a b => exact (mind_binary (nb := true) a b fun x y => mind_boolValue (mind_equalValue x y)).leaves
  case greater a b => exact (mind_binary (nb := true) a b fun x y => mind_boolValue (mind_greaterValue _ x y)).leaves
  case less a b => exact (mind_binary (nb := true) a b fun x y => mind_boolValue (mind_lessValue _ x y)).leaves
  case cons => exact (mind_iCons _ _).leaves
  case vector => exact (mind_iVector _).leaves
  case makeVector => exact (mind_iMakeVector _ _).leaves
  case getVecElt => exact (mind_iGetVecElt _ _).leaves
  case setVecElt => exact (mind_iSetVecElt _ _ _).leaves
  case car a => exact (mind_unary (nb := false) a fun o _ => mind_carValue o).leaves
  case cdr a => exact (mind_unary (nb := false) a fun o _ => mind_cdrValue o).leaves
  case setCar => exact (mind_iSetCar _ _).leaves
  case setCdr => exact (mind_iSetCdr _ _).leaves
  case nullp a => exact (mind_unary (nb := true) a fun o _ => mind_boolValue (mind_nullValue o)).leaves
  case typeof a => exact (mind_unary (nb := true) a fun o _ => mind_typeValue o).leaves
  case makeType => exact (mind_iMakeType (nb := true)).leaves
  case makeInstance => exact (mind_iMakeInstance _ _ _).leaves
  case compositeValue => exact (mind_iCompositeValue _).leaves
  case compositeFunction => exact (mind_iCompositeFunction _).leaves
  case setCompositeValue => exact (mind_iSetCompositeValue _ _).leaves
  case setCompositeFunction => exact (mind_iSetCompositeFunction _ _).leaves
  case length a => exact (mind_unary (nb := true) a fun o _ => mind_lengthValue o).leaves
  case symbolString a => exact (mind_unary (nb := true) a fun o _ => mind_symbolStringValue o).leaves
  case symbolId a =>
    refine (mind_unary (nb := true) a fun o _ => ?_).leaves
    mind_auto
  case makeString => exact (mind_iMakeString (nb := true) _).leaves
  case concatenate => exact (mind_iConcatenate (nb := true) _ _).leaves
  case substring => exact (mind_iSubstring (nb := true) _ _ _).leaves
  all_goals
    refine Minds.leaves (nb := true) (R := Any) ?_
    unfold plain
    mind_auto

end DuckLisp.VM.Mind
