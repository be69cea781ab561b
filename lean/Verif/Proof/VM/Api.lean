import Verif.Model.VM.Api
import Verif.Proof.VM.Rel

/-!
# Relations between the states before and after a call of the host
-/

namespace DuckLisp.VM

open DuckLisp

variable {R E : VM → VM → Prop} {α β : Type}

theorem rel_getTop (hR : Pre R E) : RelE R E getTop := by
  intro s
  unfold getTop M.orErr
  cases s.stack.getLast? with
  | none => exact hR.weak (hR.refl s)
  | some o => exact hR.refl s

theorem rel_setTop (h : Prims R E) (o : Obj) : RelE R E (setTop o) := by
  intro s
  unfold setTop
  cases hs : s.stack with
  | nil => exact h.weak (h.refl s)
  | cons a as => exact h.stacks s _ s.upStack (by simp [hs])

theorem rel_orErr (hR : Pre R E) (e : DlError) (o : Option α) : RelE R E (M.orErr e o) := by
  intro s
  unfold M.orErr
  cases o with
  | none => exact hR.weak (hR.refl s)
  | some o => exact hR.refl s

theorem rel_stackGet (h : Prims R E) (i : Int) : RelE R E (stackGet i) := by
  unfold stackGet; rel_auto h

theorem rel_stackSet (h : Prims R E) (o : Obj) (i : Int) : RelE R E (stackSet o i) := by
  unfold stackSet; rel_auto h

/-- Prove `RelE R E m` for a function of the host's interface. -/
macro "api_auto" h:ident : tactic => `(tactic| repeat' (first
  | with_reducible exact rel_getTop ($h).toPre
  | with_reducible exact rel_setTop $h _
  | with_reducible exact rel_orErr ($h).toPre _ _
  | with_reducible exact rel_stackGet $h _
  | with_reducible exact rel_stackSet $h _ _
  | rel_one $h))

theorem rel_garbageCollect (h : Prims R E) : RelE R E garbageCollect := by
  intro s
  cases hg : garbageCollect s with
  | ok a s' => exact h.collect hg
  | err e s' => exact absurd hg garbageCollect_not_err
  | ub => trivial
  | diverge => trivial

theorem rel_orGarbage {m : M Obj} (hm : RelE R E m) : RelE R E (orGarbage m) := by
  intro s
  have := hm s
  unfold orGarbage
  cases hs : m s with
  | ok a s' => rw [hs] at this; exact this
  | err e s' => trivial
  | ub => trivial
  | diverge => trivial

theorem rel_elementPointer (hR : Pre R E) (heap : List Obj) (k : Nat) :
    ∀ p, RelE R E (elementPointer heap k p) := by
  induction k with
  | zero => intro p; cases p <;> exact rel_pure hR _
  | succ k ih =>
    intro p
    cases p with
    | none => exact rel_pure hR _
    | some r =>
      unfold elementPointer
      split
      · exact ih _
      · exact rel_throw hR _
      · exact rel_ub

theorem rel_vectorPosition (h : Prims R E) (p : Option Ref) (off i : Int) :
    RelE R E (vectorPosition p off i) := by
  unfold vectorPosition
  rel_auto h
  all_goals exact rel_vectorStorage h _

theorem rel_vectorElement (h : Prims R E) (p : Option Ref) (off i : Int) :
    RelE R E (vectorElement p off i) := by
  unfold vectorElement
  refine rel_bind h.toPre (rel_vectorPosition h _ _ _) (fun _ => ?_)
  exact rel_slotValue h _ _

theorem rel_setVectorElement (h : Prims R E) (p : Option Ref) (off i : Int) (q : Ref) :
    RelE R E (setVectorElement p off i q) := by
  unfold setVectorElement
  refine rel_bind h.toPre (rel_vectorPosition h _ _ _) (fun _ => ?_)
  rel_auto h
  all_goals exact rel_setSlot h _ _ _

theorem rel_stringElement (h : Prims R E) (p : Option Ref) (i : Int) :
    RelE R E (stringElement p i) := by
  unfold stringElement
  rel_auto h
  all_goals exact rel_byteValue h _ _

theorem rel_closureUpvalue (h : Prims R E) (p : Option Ref) (i : Int) :
    RelE R E (closureUpvalue p i) := by
  unfold closureUpvalue; rel_auto h

theorem rel_closureGet (h : Prims R E) (p : Option Ref) (i : Int) :
    RelE R E (closureGet p i) := by
  unfold closureGet
  refine rel_bind h.toPre (rel_closureUpvalue h _ _) (fun _ => ?_)
  rel_auto h

theorem rel_closureSet (h : Prims R E) (p : Option Ref) (i : Int) (q : Ref) :
    RelE R E (closureSet p i q) := by
  unfold closureSet
  refine rel_bind h.toPre (rel_closureUpvalue h _ _) (fun _ => ?_)
  rel_auto h

theorem rel_softReset (h : Prims R E) : RelE R E softReset := by
  intro s
  unfold softReset
  rw [M.bind_ok (m := height) (a := s.stack.length) (s' := s) rfl, M.bind_run]
  have h1 := rel_popMany h.toPrims0 s.stack.length s
  cases hp : popMany s.stack.length s with
  | ok a s1 =>
    rw [hp] at h1
    simp only
    rw [M.bind_ok (m := M.get) (a := s1) (s' := s1) rfl, M.bind_run]
    unfold M.orErr dropTop
    by_cases hc : s1.upArrays.length < s1.callStack.length
    · rw [if_pos hc]; exact h.weak h1
    · rw [if_neg hc]
      refine h.trans h1 (h.calls s1 [] _ (fun b rest hb hl => ⟨[], ?_, rfl⟩))
      rw [hb]
      simp [hl]
  | err e s1 => rw [hp] at h1; exact h1
  | ub => trivial
  | diverge => trivial

theorem rel_apiPushVector (h : Prims R E) (n : Nat) : RelE R E (apiPushVector n) := by
  have hP : Pre R R := ⟨h.refl, h.trans, id, h.trans⟩
  have hpush : ∀ o, Rel R (push o) := fun o =>
    rel_modify (fun s => h.stacks s _ _ (by simp; omega))
  have ha : Rel R (pushNullVector n) := by
    unfold pushNullVector
    refine rel_bind hP (rel_pushObject' h.toPrims0 _) (fun _ => ?_)
    refine rel_bind hP (rel_pushObject' h.toPrims0 _) (fun _ => ?_)
    exact hpush _
  intro s
  have := ha s
  unfold apiPushVector
  cases hs : pushNullVector n s <;> rw [hs] at this
  · exact this
  · exact this
  all_goals trivial

theorem rel_apiPopAll (h : Prims R E) : RelE R E (apiPopAll) := by
  unfold apiPopAll
  rel_auto h

theorem rel_apiPush (h : Prims R E) (i : Int) : RelE R E (apiPush i) := by
  unfold apiPush
  api_auto h

theorem rel_apiPop (h : Prims R E) : RelE R E (apiPop) := by
  unfold apiPop
  api_auto h

theorem rel_apiPopSeveral (h : Prims R E) (n : Nat) : RelE R E (apiPopSeveral n) := by
  unfold apiPopSeveral
  api_auto h

theorem rel_apiCopyFromTop (h : Prims R E) (i : Int) : RelE R E (apiCopyFromTop i) := by
  unfold apiCopyFromTop
  api_auto h

theorem rel_apiPushGlobal (h : Prims R E) (k : Int) : RelE R E (apiPushGlobal k) := by
  unfold apiPushGlobal
  api_auto h

theorem rel_apiSetGlobal (h : Prims R E) (k : Int) : RelE R E (apiSetGlobal k) := by
  unfold apiSetGlobal
  api_auto h

theorem rel_apiIs (h : Prims R E) (p : Obj → Bool) : RelE R E (apiIs p) := by
  unfold apiIs
  api_auto h

theorem rel_apiIsEmptyVector (h : Prims R E) : RelE R E (apiIsEmptyVector) := by
  unfold apiIsEmptyVector storageEmpty
  api_auto h

theorem rel_apiIsEmpty (h : Prims R E) : RelE R E (apiIsEmpty) := by
  unfold apiIsEmpty storageEmpty
  api_auto h

theorem rel_apiLength (h : Prims R E) : RelE R E (apiLength) := by
  unfold apiLength
  api_auto h
  all_goals exact rel_vectorStorage h _

theorem rel_apiPushBoolean (h : Prims R E) : RelE R E (apiPushBoolean) := by
  unfold apiPushBoolean
  api_auto h

theorem rel_apiSetBoolean (h : Prims R E) (v : UInt8) : RelE R E (apiSetBoolean v) := by
  unfold apiSetBoolean
  api_auto h

theorem rel_apiCopyBoolean (h : Prims R E) : RelE R E (apiCopyBoolean) := by
  unfold apiCopyBoolean
  api_auto h

theorem rel_apiPushInteger (h : Prims R E) : RelE R E (apiPushInteger) := by
  unfold apiPushInteger
  api_auto h

theorem rel_apiSetInteger (h : Prims R E) (v : Int) : RelE R E (apiSetInteger v) := by
  unfold apiSetInteger
  api_auto h

theorem rel_apiCopySignedInteger (h : Prims R E) : RelE R E (apiCopySignedInteger) := by
  unfold apiCopySignedInteger
  api_auto h

theorem rel_apiCopyUnsignedInteger (h : Prims R E) : RelE R E (apiCopyUnsignedInteger) := by
  unfold apiCopyUnsignedInteger
  api_auto h

theorem rel_apiPushFloat (h : Prims R E) : RelE R E (apiPushFloat) := by
  unfold apiPushFloat
  api_auto h

theorem rel_apiSetFloat (h : Prims R E) (v : UInt64) : RelE R E (apiSetFloat v) := by
  unfold apiSetFloat
  api_auto h

theorem rel_apiCopyFloat (h : Prims R E) : RelE R E (apiCopyFloat) := by
  unfold apiCopyFloat
  api_auto h

theorem rel_apiPushString (h : Prims R E) (b : Bytes) : RelE R E (apiPushString b) := by
  unfold apiPushString
  api_auto h
  exact rel_newString h _

theorem rel_apiCopyString (h : Prims R E) : RelE R E (apiCopyString) := by
  unfold apiCopyString
  api_auto h
  all_goals exact rel_stringBytes h _ _ _

theorem rel_apiPushSymbol (h : Prims R E) (i : Nat) (nm : Bytes) : RelE R E (apiPushSymbol i nm) := by
  unfold apiPushSymbol
  api_auto h

theorem rel_apiPushCompressedSymbol (h : Prims R E) (i : Nat) : RelE R E (apiPushCompressedSymbol i) := by
  unfold apiPushCompressedSymbol
  api_auto h

theorem rel_apiCopySymbolName (h : Prims R E) : RelE R E (apiCopySymbolName) := by
  unfold apiCopySymbolName
  api_auto h
  all_goals exact rel_stringBytes h _ _ _

theorem rel_apiCopySymbolId (h : Prims R E) : RelE R E (apiCopySymbolId) := by
  unfold apiCopySymbolId
  api_auto h

theorem rel_apiPushExistingType (h : Prims R E) (t : Nat) : RelE R E (apiPushExistingType t) := by
  unfold apiPushExistingType
  api_auto h

theorem rel_apiCopyType (h : Prims R E) : RelE R E (apiCopyType) := by
  unfold apiCopyType
  api_auto h

theorem rel_apiPushComposite (h : Prims R E) (t : Nat) : RelE R E (apiPushComposite t) := by
  unfold apiPushComposite
  api_auto h

theorem rel_apiCopyCompositeType (h : Prims R E) : RelE R E (apiCopyCompositeType) := by
  unfold apiCopyCompositeType
  api_auto h
  all_goals exact rel_compositeParts h _

theorem rel_apiPushCompositeValue (h : Prims R E) : RelE R E (apiPushCompositeValue) := by
  unfold apiPushCompositeValue
  api_auto h
  all_goals exact rel_compositeParts h _

theorem rel_apiPushCompositeFunction (h : Prims R E) : RelE R E (apiPushCompositeFunction) := by
  unfold apiPushCompositeFunction
  api_auto h
  all_goals exact rel_compositeParts h _

theorem rel_apiSetCompositeValue (h : Prims R E) (i : Int) : RelE R E (apiSetCompositeValue i) := by
  unfold apiSetCompositeValue
  api_auto h
  all_goals exact rel_setCompositeValueCell h _ _

theorem rel_apiSetCompositeFunction (h : Prims R E) (i : Int) : RelE R E (apiSetCompositeFunction i) := by
  unfold apiSetCompositeFunction
  api_auto h
  all_goals exact rel_setCompositeFunctionCell h _ _

theorem rel_apiPushNil (h : Prims R E) : RelE R E (apiPushNil) := by
  unfold apiPushNil
  api_auto h

theorem rel_apiPushCons (h : Prims R E) : RelE R E (apiPushCons) := by
  unfold apiPushCons
  api_auto h

theorem rel_apiCopyClosureName (h : Prims R E) : RelE R E (apiCopyClosureName) := by
  unfold apiCopyClosureName
  api_auto h

theorem rel_apiPushClosureBytecode (h : Prims R E) : RelE R E (apiPushClosureBytecode) := by
  unfold apiPushClosureBytecode
  api_auto h

theorem rel_apiCopyClosureArity (h : Prims R E) : RelE R E (apiCopyClosureArity) := by
  unfold apiCopyClosureArity
  api_auto h

theorem rel_apiCopyClosureIsVariadic (h : Prims R E) : RelE R E (apiCopyClosureIsVariadic) := by
  unfold apiCopyClosureIsVariadic
  api_auto h

theorem rel_apiPushFirst (h : Prims R E) : RelE R E (apiPushFirst) := by
  unfold apiPushFirst
  api_auto h
  all_goals first
    | exact rel_partValue h _
    | exact rel_orGarbage (rel_vectorElement h _ _ _)
    | exact rel_orGarbage (rel_stringElement h _ _)
    | exact rel_orGarbage (rel_closureGet h _ _)

theorem rel_apiPushRest (h : Prims R E) : RelE R E (apiPushRest) := by
  unfold apiPushRest
  api_auto h
  all_goals first
    | exact rel_partValue h _
    | exact rel_vectorStorage h _

theorem rel_apiSetFirst (h : Prims R E) (i : Int) : RelE R E (apiSetFirst i) := by
  unfold apiSetFirst
  api_auto h
  all_goals first
    | exact rel_setCarCell h _ _
    | exact rel_setVectorElement h _ _ _ _
    | exact rel_closureSet h _ _ _

theorem rel_apiSetRest (h : Prims R E) (i : Int) : RelE R E (apiSetRest i) := by
  unfold apiSetRest
  api_auto h
  all_goals exact rel_setCdrCell h _ _

theorem rel_apiPushElement (h : Prims R E) (i : Int) : RelE R E (apiPushElement i) := by
  unfold apiPushElement
  api_auto h
  all_goals first
    | exact rel_elementPointer h.toPre _ _ _
    | exact rel_vectorElement h _ _ _
    | exact rel_stringElement h _ _
    | exact rel_closureGet h _ _

theorem rel_apiSetElement (h : Prims R E) (k : Int) (i : Int) : RelE R E (apiSetElement k i) := by
  unfold apiSetElement
  api_auto h
  all_goals first
    | exact rel_setCarCell h _ _
    | exact rel_setVectorElement h _ _ _ _
    | exact rel_closureSet h _ _ _

/-- Calls that run no code. -/
theorem rel_hostCall' (h : Prims R E) {env : Env} (c : HostCall) (hc : c.runsCode = false)
    (hglobal : ∀ key cb, c = .linkCFunction key cb → ∀ p, RelE R E (globalSet p key))
    (htype : c = .pushNewType → RelE R E iMakeType) : RelE R E (c.run env) := by
  cases c <;> simp only [HostCall.run]
  case execute => cases hc
  case call => cases hc
  case garbageCollect => exact rel_garbageCollect h
  case linkCFunction => exact rel_bind h.toPre (rel_pushObject h _) (fun _ => hglobal _ _ rfl _)
  case softReset => exact rel_softReset h
  case popAll => exact rel_apiPopAll h
  case push => exact rel_apiPush h _
  case pop => exact rel_apiPop h
  case popSeveral => exact rel_apiPopSeveral h _
  case copyFromTop => exact rel_apiCopyFromTop h _
  case pushGlobal => exact rel_apiPushGlobal h _
  case setGlobal => exact rel_apiSetGlobal h _
  case is => exact rel_bind h.toPre (rel_apiIs h _) (fun _ => rel_pure h.toPre _)
  case isEmptyVector => exact rel_bind h.toPre (rel_apiIsEmptyVector h) (fun _ => rel_pure h.toPre _)
  case isEmpty => exact rel_bind h.toPre (rel_apiIsEmpty h) (fun _ => rel_pure h.toPre _)
  case length => exact rel_bind h.toPre (rel_apiLength h) (fun _ => rel_pure h.toPre _)
  case pushBoolean => exact rel_apiPushBoolean h
  case setBoolean => exact rel_apiSetBoolean h _
  case copyBoolean => exact rel_bind h.toPre (rel_apiCopyBoolean h) (fun _ => rel_pure h.toPre _)
  case pushInteger => exact rel_apiPushInteger h
  case setInteger => exact rel_apiSetInteger h _
  case copySignedInteger => exact rel_bind h.toPre (rel_apiCopySignedInteger h) (fun _ => rel_pure h.toPre _)
  case copyUnsignedInteger => exact rel_bind h.toPre (rel_apiCopyUnsignedInteger h) (fun _ => rel_pure h.toPre _)
  case pushFloat => exact rel_apiPushFloat h
  case setFloat => exact rel_apiSetFloat h _
  case copyFloat => exact rel_bind h.toPre (rel_apiCopyFloat h) (fun _ => rel_pure h.toPre _)
  case pushString => exact rel_apiPushString h _
  case copyString => exact rel_bind h.toPre (rel_apiCopyString h) (fun _ => rel_pure h.toPre _)
  case pushSymbol => exact rel_apiPushSymbol h _ _
  case pushCompressedSymbol => exact rel_apiPushCompressedSymbol h _
  case copySymbolName => exact rel_bind h.toPre (rel_apiCopySymbolName h) (fun _ => rel_pure h.toPre _)
  case copySymbolId => exact rel_bind h.toPre (rel_apiCopySymbolId h) (fun _ => rel_pure h.toPre _)
  case pushNewType => exact htype rfl
  case pushExistingType => exact rel_apiPushExistingType h _
  case copyType => exact rel_bind h.toPre (rel_apiCopyType h) (fun _ => rel_pure h.toPre _)
  case pushComposite => exact rel_apiPushComposite h _
  case copyCompositeType => exact rel_bind h.toPre (rel_apiCopyCompositeType h) (fun _ => rel_pure h.toPre _)
  case pushCompositeValue => exact rel_apiPushCompositeValue h
  case pushCompositeFunction => exact rel_apiPushCompositeFunction h
  case setCompositeValue => exact rel_apiSetCompositeValue h _
  case setCompositeFunction => exact rel_apiSetCompositeFunction h _
  case pushNil => exact rel_apiPushNil h
  case pushCons => exact rel_apiPushCons h
  case pushVector => exact rel_apiPushVector h _
  case copyClosureName => exact rel_bind h.toPre (rel_apiCopyClosureName h) (fun _ => rel_pure h.toPre _)
  case pushClosureBytecode => exact rel_apiPushClosureBytecode h
  case copyClosureArity => exact rel_bind h.toPre (rel_apiCopyClosureArity h) (fun _ => rel_pure h.toPre _)
  case copyClosureIsVariadic => exact rel_bind h.toPre (rel_apiCopyClosureIsVariadic h) (fun _ => rel_pure h.toPre _)
  case pushFirst => exact rel_apiPushFirst h
  case pushRest => exact rel_apiPushRest h
  case setFirst => exact rel_apiSetFirst h _
  case setRest => exact rel_apiSetRest h _
  case pushElement => exact rel_apiPushElement h _
  case setElement => exact rel_apiSetElement h _ _

theorem rel_hostCall (h : Prims R E) (hglobal : ∀ p k, RelE R E (globalSet p k))
    (htype : RelE R E iMakeType) {env : Env} (c : HostCall) (hc : c.runsCode = false) :
    RelE R E (c.run env) := rel_hostCall' h c hc (fun _ _ _ p => hglobal p _) (fun _ => htype)

theorem rel_finish {m : M α} (hcur : ∀ s c, R s { s with currentBytecode := c })
    (hcurE : ∀ s c, E s { s with currentBytecode := c })
    (h : Pre R E) (hE : ∀ {a b c}, E a b → E b c → E a c) (hm : RelE R E m) :
    RelE R E (finish m) := by
  intro s
  have := hm s
  unfold finish
  cases hs : m s with
  | ok a s' => rw [hs] at this; exact h.trans this (hcur _ _)
  | err e s' => rw [hs] at this; exact hE this (hcurE _ _)
  | ub => trivial
  | diverge => trivial

theorem rel_loopUntil (h' : Prims' R E) {env : Env} (hhost : ∀ n, RelE R E (env.host n))
    (hglobal : ∀ p k, RelE R E (globalSet p k)) (htype : RelE R E iMakeType)
    (bc shim : Ref) (fuel : Nat) : ∀ ip, RelE R E (loopUntil env bc shim fuel ip) := by
  induction fuel with
  | zero => intro ip; exact rel_diverge
  | succ fuel ih =>
    intro ip
    unfold loopUntil
    by_cases hc : ip.cell = shim
    · rw [if_pos hc]; exact rel_pure h'.toPre _
    · rw [if_neg hc]
      refine rel_bind h'.toPre (rel_step h' hhost hglobal htype bc ip) (fun c => ?_)
      split
      · exact ih _
      · exact rel_pure h'.toPre _

/-- Any call. -/
theorem rel_hostRun (h' : Prims' R E) (hglobal : ∀ p k, RelE R E (globalSet p k))
    (htype : RelE R E iMakeType) (hcur : ∀ s c, R s { s with currentBytecode := c })
    (hcurE : ∀ s c, E s { s with currentBytecode := c })
    (hE : ∀ {a b c}, E a b → E b c → E a c)
    {env : Env} (hhost : ∀ n, RelE R E (env.host n)) (c : HostCall) :
    RelE R E (c.run env) := by
  have h := h'.toPrims
  cases hc : c.runsCode with
  | false => exact rel_hostCall h hglobal htype c hc
  | true =>
    cases c <;> simp only [HostCall.runsCode] at hc <;> try cases hc
    case execute.intro fuel code =>
      simp only [HostCall.run, execute, executeWithIp]
      split
      · exact rel_throw h.toPre _
      · refine rel_bind h.toPre (rel_pushObject h _) (fun bc => ?_)
        refine rel_bind h.toPre (rel_modify (fun s => hcur s _)) (fun _ => ?_)
        refine rel_finish hcur hcurE h.toPre hE ?_
        refine rel_bind h.toPre (rel_codeSerial h.toPre _) (fun _ => ?_)
        exact rel_loop h' hhost hglobal htype _ _ _
    case call.intro fuel i n =>
      simp only [HostCall.run, apiCall]
      refine rel_bind h.toPre (rel_stackGet h _) (fun f => ?_)
      refine rel_bind h.toPre (rel_prepareForFuncall h _ _) (fun f => ?_)
      split
      · exact hhost _
      · rel_auto h
        · exact rel_captureArray h _
        · exact rel_modify (fun s => hcur s _)
        · refine rel_finish hcur hcurE h.toPre hE ?_
          refine rel_bind h.toPre (rel_codeSerial h.toPre _) (fun _ => ?_)
          exact rel_loopUntil h' hhost hglobal htype _ _ _ _
      · exact rel_throw h.toPre _

end DuckLisp.VM
