import Verif.Model.VM.Api
import Verif.Proof.VM.SpareInstr
import Verif.Proof.VM.Variables
import Verif.Props.VM.Closures
import Verif.Proof.VM.Composites
import Verif.Proof.VM.Host

/-!
# No call of the host changes a global but the one that stores it
-/

namespace DuckLisp.VM

open DuckLisp DuckLisp.Spec

variable {K : Guarded} {nb : Bool} {α β : Type}

local notation "Any" => (fun _ => True)

theorem spare_orErr (e : DlError) (o : Option α) : Spares K nb (fun a => o = some a) (M.orErr e o) := by
  intro s hs
  unfold M.orErr
  cases o with
  | none => exact hs
  | some o => exact ⟨rfl, hs⟩

theorem spare_getTop : Spares K nb (K.Val nb) getTop := by
  intro s hs
  unfold getTop M.orErr
  cases h : s.stack.getLast? with
  | none => exact hs
  | some o => exact ⟨hs.stack o (List.mem_of_getLast? h), hs⟩

theorem spare_setTop (o : Obj) (ho : K.Val nb o) : Spares K nb Any (setTop o) := by
  intro s hs
  unfold setTop
  cases h : s.stack with
  | nil => exact hs
  | cons a as =>
    have := hs.setSlot ho (s.stack.length - 1)
    rw [h] at this
    exact ⟨trivial, this⟩

theorem spare_stackGet (i : Int) : Spares K nb (K.Val nb) (stackGet i) :=
  spare_bind spare_height fun _ _ => spare_getAbs _

theorem spare_stackSet (o : Obj) (i : Int) (ho : K.Val nb o) : Spares K nb Any (stackSet o i) :=
  spare_bind spare_height fun _ _ => spare_setAbs _ _ ho

/-- Prove `Spares K nb R m` for a function of the host's interface. -/
macro "spapi_auto" : tactic => `(tactic| repeat' (first
  | with_reducible exact spare_any spare_getTop
  | with_reducible refine spare_bind spare_getTop (fun _ _ => ?_)
  | with_reducible refine spare_bind (spare_stackGet _) (fun _ _ => ?_)
  | with_reducible exact spare_any (spare_need _)
  | with_reducible exact spare_any (spare_getAbs _)
  | with_reducible exact spare_countConses _ _ _
  | (with_reducible refine spare_setTop _ ?_); spare_val
  | (with_reducible refine spare_stackSet _ _ ?_); spare_val
  | with_reducible refine spare_bind (spare_orErr _ _) (fun _ _ => ?_)
  | spare_one))

theorem spare_orGarbage {R : Obj → Prop} {m : M Obj} (hm : Spares K nb R m) : Spares K nb R (orGarbage m) := by
  intro s hs
  have := hm s hs
  unfold orGarbage
  cases h : m s with
  | ok a s' => rw [h] at this; exact this
  | err e s' => trivial
  | ub => trivial
  | diverge => trivial

theorem spare_elementPointer (heap : List Obj) (k : Nat) :
    ∀ p, Spares K nb Any (elementPointer heap k p) := by
  induction k with
  | zero => intro p; cases p <;> exact spare_pure trivial
  | succ k ih =>
    intro p
    cases p with
    | none => exact spare_pure trivial
    | some r =>
      unfold elementPointer
      split
      · exact ih _
      · exact spare_throw _
      · exact spare_ub

theorem spare_vectorPosition (p : Option Ref) (off i : Int) :
    Spares K nb Any (vectorPosition p off i) := by
  unfold vectorPosition
  spapi_auto
  all_goals exact spare_vectorStorage _

theorem spare_vectorElement (p : Option Ref) (off i : Int) :
    Spares K nb Any (vectorElement p off i) := by
  unfold vectorElement
  refine spare_bind (spare_vectorPosition _ _ _) (fun _ _ => ?_)
  exact spare_slotValue _ _

theorem spare_setVectorElement (p : Option Ref) (off i : Int) (q : Ref) :
    Spares K nb Any (setVectorElement p off i q) := by
  unfold setVectorElement
  refine spare_bind (spare_vectorPosition _ _ _) (fun _ _ => ?_)
  spapi_auto
  all_goals exact spare_setSlot _ _ _

theorem spare_stringElement (p : Option Ref) (i : Int) :
    Spares K nb Any (stringElement p i) := by
  unfold stringElement
  spapi_auto
  all_goals exact spare_any (spare_byteValue _ _)

theorem spare_closureUpvalue (p : Option Ref) (i : Int) :
    Spares K nb Any (closureUpvalue p i) := by
  unfold closureUpvalue; spapi_auto

theorem spare_closureGet (p : Option Ref) (i : Int) :
    Spares K nb Any (closureGet p i) := by
  unfold closureGet
  refine spare_bind (spare_closureUpvalue _ _) (fun _ _ => ?_)
  spapi_auto

theorem spare_apiPopAll : Spares K nb Any (apiPopAll) := by
  unfold apiPopAll
  spapi_auto

theorem spare_apiPush (i : Int) : Spares K nb Any (apiPush i) := by
  unfold apiPush
  spapi_auto

theorem spare_apiPop : Spares K nb Any (apiPop) := by
  unfold apiPop
  spapi_auto

theorem spare_apiPopSeveral (n : Nat) : Spares K nb Any (apiPopSeveral n) := by
  unfold apiPopSeveral
  spapi_auto

theorem spare_apiCopyFromTop (i : Int) : Spares K nb Any (apiCopyFromTop i) := by
  unfold apiCopyFromTop
  spapi_auto

theorem spare_apiPushGlobal (k : Int) : Spares K false Any (apiPushGlobal k) := by
  unfold apiPushGlobal
  spapi_auto

theorem spare_apiSetGlobal (k : Int) : Spares K nb Any (apiSetGlobal k) := by
  unfold apiSetGlobal
  spapi_auto

theorem spare_apiIs (p : Obj → Bool) : Spares K nb Any (apiIs p) := by
  unfold apiIs
  spapi_auto

theorem spare_apiIsEmptyVector : Spares K nb Any (apiIsEmptyVector) := by
  unfold apiIsEmptyVector storageEmpty
  spapi_auto

theorem spare_apiIsEmpty : Spares K nb Any (apiIsEmpty) := by
  unfold apiIsEmpty storageEmpty
  spapi_auto

theorem spare_apiLength : Spares K nb Any (apiLength) := by
  unfold apiLength
  spapi_auto
  all_goals exact spare_vectorStorage _

theorem spare_apiPushBoolean : Spares K nb Any (apiPushBoolean) := by
  unfold apiPushBoolean
  spapi_auto

theorem spare_apiSetBoolean (v : UInt8) : Spares K nb Any (apiSetBoolean v) := by
  unfold apiSetBoolean
  spapi_auto

theorem spare_apiCopyBoolean : Spares K nb Any (apiCopyBoolean) := by
  unfold apiCopyBoolean
  spapi_auto

theorem spare_apiPushInteger : Spares K nb Any (apiPushInteger) := by
  unfold apiPushInteger
  spapi_auto

theorem spare_apiSetInteger (v : Int) : Spares K nb Any (apiSetInteger v) := by
  unfold apiSetInteger
  spapi_auto

theorem spare_apiCopySignedInteger : Spares K nb Any (apiCopySignedInteger) := by
  unfold apiCopySignedInteger
  spapi_auto

theorem spare_apiCopyUnsignedInteger : Spares K nb Any (apiCopyUnsignedInteger) := by
  unfold apiCopyUnsignedInteger
  spapi_auto

theorem spare_apiPushFloat : Spares K nb Any (apiPushFloat) := by
  unfold apiPushFloat
  spapi_auto

theorem spare_apiSetFloat (v : UInt64) : Spares K nb Any (apiSetFloat v) := by
  unfold apiSetFloat
  spapi_auto

theorem spare_apiCopyFloat : Spares K nb Any (apiCopyFloat) := by
  unfold apiCopyFloat
  spapi_auto

theorem spare_apiPushString (b : Bytes) : Spares K nb Any (apiPushString b) := by
  unfold apiPushString
  spapi_auto

theorem spare_apiCopyString : Spares K nb Any (apiCopyString) := by
  unfold apiCopyString
  spapi_auto
  all_goals exact spare_stringBytes _ _ _

theorem spare_apiPushSymbol (i : Nat) (nm : Bytes) : Spares K nb Any (apiPushSymbol i nm) := by
  unfold apiPushSymbol
  spapi_auto

theorem spare_apiPushCompressedSymbol (i : Nat) : Spares K nb Any (apiPushCompressedSymbol i) := by
  unfold apiPushCompressedSymbol
  spapi_auto

theorem spare_apiCopySymbolName : Spares K nb Any (apiCopySymbolName) := by
  unfold apiCopySymbolName
  spapi_auto
  all_goals exact spare_stringBytes _ _ _

theorem spare_apiCopySymbolId : Spares K nb Any (apiCopySymbolId) := by
  unfold apiCopySymbolId
  spapi_auto

theorem spare_apiPushExistingType (t : Nat) : Spares K nb Any (apiPushExistingType t) := by
  unfold apiPushExistingType
  spapi_auto

theorem spare_apiCopyType : Spares K nb Any (apiCopyType) := by
  unfold apiCopyType
  spapi_auto

theorem spare_apiPushComposite (t : Nat) : Spares K nb Any (apiPushComposite t) := by
  unfold apiPushComposite
  spapi_auto

theorem spare_apiCopyCompositeType : Spares K nb Any (apiCopyCompositeType) := by
  unfold apiCopyCompositeType
  spapi_auto
  all_goals exact spare_compositeParts _

theorem spare_apiPushCompositeValue : Spares K false Any (apiPushCompositeValue) := by
  unfold apiPushCompositeValue
  spapi_auto
  all_goals exact spare_compositeParts _

theorem spare_apiPushCompositeFunction : Spares K false Any (apiPushCompositeFunction) := by
  unfold apiPushCompositeFunction
  spapi_auto
  all_goals exact spare_compositeParts _

theorem spare_apiSetCompositeValue (i : Int) : Spares K true Any (apiSetCompositeValue i) := by
  unfold apiSetCompositeValue
  spapi_auto
  all_goals exact spare_setCompositeValueCell _ _

theorem spare_apiSetCompositeFunction (i : Int) : Spares K true Any (apiSetCompositeFunction i) := by
  unfold apiSetCompositeFunction
  spapi_auto
  all_goals exact spare_setCompositeFunctionCell _ _

theorem spare_apiPushNil : Spares K nb Any (apiPushNil) := by
  unfold apiPushNil
  spapi_auto

theorem spare_apiPushCons : Spares K nb Any (apiPushCons) := by
  unfold apiPushCons
  spapi_auto

theorem spare_apiCopyClosureName : Spares K nb Any (apiCopyClosureName) := by
  unfold apiCopyClosureName
  spapi_auto

theorem spare_apiPushClosureBytecode : Spares K false Any (apiPushClosureBytecode) := by
  unfold apiPushClosureBytecode
  spapi_auto

theorem spare_apiCopyClosureArity : Spares K nb Any (apiCopyClosureArity) := by
  unfold apiCopyClosureArity
  spapi_auto

theorem spare_apiCopyClosureIsVariadic : Spares K nb Any (apiCopyClosureIsVariadic) := by
  unfold apiCopyClosureIsVariadic
  spapi_auto

theorem spare_apiPushFirst : Spares K false Any (apiPushFirst) := by
  unfold apiPushFirst
  spapi_auto
  all_goals first
    | exact spare_any (spare_partValue _)
    | exact spare_orGarbage (spare_vectorElement _ _ _)
    | exact spare_orGarbage (spare_stringElement _ _)
    | exact spare_orGarbage (spare_closureGet _ _)

theorem spare_apiPushRest : Spares K false Any (apiPushRest) := by
  unfold apiPushRest
  spapi_auto
  all_goals first
    | exact spare_any (spare_partValue _)
    | exact spare_vectorStorage _

theorem spare_apiSetRest (i : Int) : Spares K true Any (apiSetRest i) := by
  unfold apiSetRest
  spapi_auto
  all_goals exact spare_setCdrCell _ _

theorem spare_apiPushElement (i : Int) : Spares K false Any (apiPushElement i) := by
  unfold apiPushElement
  spapi_auto
  all_goals first
    | exact spare_elementPointer _ _ _
    | exact spare_vectorElement _ _ _
    | exact spare_stringElement _ _
    | exact spare_closureGet _ _

theorem spare_softReset : Spares K nb Any softReset := by
  unfold softReset
  refine spare_bind spare_height (fun _ _ => spare_bind (spare_popMany _) fun _ _ => ?_)
  refine spare_bind spare_get (fun s hs => spare_bind (spare_orErr _ _) fun ua _ => ?_)
  exact fun _ _ => ⟨trivial, { hs with }⟩

theorem spare_apiPushVector (n : Nat) : Spares K nb Any (apiPushVector n) := by
  have ha : Spares K nb Any (pushNullVector n) := by
    unfold pushNullVector
    spapi_auto
  intro s hs
  have := ha s hs
  unfold apiPushVector
  cases h : pushNullVector n s <;> rw [h] at this
  · exact this
  · exact ⟨trivial, this⟩
  all_goals trivial

/-! ### Writing captured variables -/

theorem live_mem {s : VM} [Entries] (hs : Sound s) {r : Ref} (h : Live s r .captured) :
    ∃ u, s.heap[r]? = some (.upvalue u) ∧ r ∉ s.free ∧ CellOk s (.upvalue u) := by
  obtain ⟨u, h1, h2⟩ := live_captured hs h
  exact ⟨u, h1, h.1, h2⟩

/-- Following the links does not lead to the global's cell. -/
theorem chase_spared {s : VM} (hg : Good s) (hs : K.Inv nb s) {n o : M Upvalue}
    (hn : ∀ s, (∃ e, n s = .err e s) ∨ n s = .ub) (ho : ∀ s, (∃ e, o s = .err e s) ∨ o s = .ub) (fuel : Nat) :
    ∀ p, (∀ r, p = some r → Live s r .captured) → match chase n o fuel p s with
      | .ok v s' => s' = s ∧ v ≠ .heapObject (some K.cell)
      | .err _ s' => s' = s
      | _ => True := by
  induction fuel with
  | zero => intro p _; trivial
  | succ fuel ih =>
    intro p hp
    cases p with
    | none =>
      show match n s with
        | .ok v s' => s' = s ∧ v ≠ .heapObject (some K.cell)
        | .err _ s' => s' = s
        | _ => True
      rcases hn s with ⟨e, h⟩ | h <;> rw [h] <;> trivial
    | some r =>
      obtain ⟨u, h1, h2, h3⟩ := live_mem hg.sound (hp r rfl)
      rw [chase, M.bind_ok (readCell_some h1)]
      cases u with
      | stackIndex i => exact ⟨rfl, nofun⟩
      | heapObject x =>
        refine ⟨rfl, fun e => hs.heap r _ h2 h1 ?_⟩
        cases e
        rfl
      | heapUpvalue l => exact ih l fun c hc => h3 c hc

/-- Whether or not `m` succeeds in state `s`, the global is as before. -/
def Guarded.After (K : Guarded) (nb : Bool) (m : M α) (s : VM) : Prop :=
  match m s with
  | .ok _ s' => K.Inv nb s'
  | .err _ s' => K.Inv nb s'
  | _ => True

theorem Spares.after {R : α → Prop} {m : M α} (h : Spares K nb R m) {s : VM} (hs : K.Inv nb s) : K.After nb m s := by
  have := h s hs
  unfold Guarded.After
  cases hm : m s <;> rw [hm] at this
  · exact this.2
  · exact this
  all_goals trivial

theorem after_bind {m : M α} {f : α → M β} {s : VM} (he : ∀ e s', m s = .err e s' → K.Inv nb s')
    (h : ∀ a s', m s = .ok a s' → K.After nb (f a) s') : K.After nb (m >>= f) s := by
  unfold Guarded.After
  rw [M.bind_run]
  cases hm : m s with
  | ok a s' => exact h a s' hm
  | err e s' => exact he e s' hm
  | ub => trivial
  | diverge => trivial

theorem Spares.err_inv {R : α → Prop} {m : M α} (h : Spares K nb R m) {s : VM} (hs : K.Inv nb s) (e : DlError) (s' : VM)
    (hm : m s = .err e s') : K.Inv nb s' := by
  have := h s hs
  rw [hm] at this
  exact this

theorem Spares.ok_inv {R : α → Prop} {m : M α} (h : Spares K nb R m) {s : VM} (hs : K.Inv nb s) {a : α} {s' : VM}
    (hm : m s = .ok a s') : R a ∧ K.Inv nb s' := by
  have := h s hs
  rw [hm] at this
  exact this

/-- Writing to the end of the links. -/
theorem assign_spared {s : VM} (hg : Good s) (hs : K.Inv nb s) {n o : M Upvalue}
    (hn : ∀ s, (∃ e, n s = .err e s) ∨ n s = .ub) (ho : ∀ s, (∃ e, o s = .err e s) ∨ o s = .ub)
    {f : Upvalue → M Unit} (hf : ∀ v, v ≠ .heapObject (some K.cell) → K.After nb (f v) s)
    (p : Option Ref) (hp : ∀ r, p = some r → Live s r .captured) :
    K.After nb (do f (← chase n o (← chaseFuel) p) : M Unit) s := by
  have h := chase_spared hg hs hn ho (s.heap.length + 1) p hp
  refine after_bind (fun e s' he => by cases he) fun a s' he => ?_
  cases he
  refine after_bind (fun e s' he => ?_) fun v s' he => ?_
  · rw [he] at h
    cases h
    exact hs
  · rw [he] at h
    obtain ⟨rfl, hv⟩ := h
    exact hf v hv

theorem setUpvalue_spared {s : VM} (hg : Good s) (hs : K.Inv true s) (j a : Nat) :
    K.After true (iSetUpvalue j a) s := by
  unfold iSetUpvalue
  refine after_bind ((spare_getArg (K := K) (nb := true) a).err_inv hs) fun x s0 ha => ?_
  have hx := ((spare_getArg (K := K) (nb := true) a).ok_inv hs ha).1
  obtain ⟨rfl, -⟩ := getArg_ok ha
  refine after_bind ((spare_topUpArray spare_ub).err_inv hs) fun u s1 hu => ?_
  refine after_bind (fun e s' h => ?_) fun p s2 hp => ?_
  · have h1 : s1 = s0 := by
      unfold topUpArray at hu
      split at hu <;> cases hu
      rfl
    subst h1
    exact (spare_upvalueAt u j).err_inv hs e s' h
  · obtain ⟨rfl, rfl, h3⟩ := Props.running_inv (fun s a s' h => by cases h) hu hp
    refine assign_spared hg hs (n := M.ub) (o := M.ub) (fun _ => .inr rfl) (fun _ => .inr rfl) (fun v hv => ?_) p
      (fun r hr => running_live hg.sound (h3 r hr))
    refine Spares.after (R := Any) ?_ hs
    split
    · exact spare_setAbs _ _ hx
    · refine spare_bind (spare_need _) fun r hr => spare_writeCell _ _ (fun e => hv ?_) (hx rfl)
      rw [hr, e]
    · exact spare_ub

theorem closureSet_spared {s : VM} (hg : Good s) (hs : K.Inv true s) {ups : Option Ref} {n : Nat} {u : Ref}
    (hu : ups = some u) (hl : Live s u (.captures n)) (i : Int) {q : Ref} {o : Obj} (hq : s.heap[q]? = some o)
    (ho : NotTo K.cell o) : K.After true (closureSet ups i q) s := by
  subst hu
  obtain ⟨b, hb, hb1, hb2⟩ := live_captures hg.sound hl
  unfold closureSet
  refine after_bind ((spare_closureUpvalue _ _).err_inv hs) fun p s1 hp => ?_
  unfold closureUpvalue at hp
  simp only at hp
  rw [M.bind_ok (readCell_some hb)] at hp
  simp only at hp
  split at hp
  · obtain ⟨b', s2, h1, h2⟩ := M.bind_eq_ok.mp hp
    cases b with
    | none => cases h1
    | some b =>
      cases h1
      cases hx : b'.ups[i.toNat]? with
      | none => rw [hx] at h2; cases h2
      | some x =>
        rw [hx] at h2
        cases h2
        refine assign_spared hg hs (n := M.throw .nullPointer) (o := M.throw .invalidValue) (fun _ => .inl ⟨_, rfl⟩)
          (fun _ => .inl ⟨_, rfl⟩) (fun v hv => ?_) p (fun r hr => hb2 r ?_)
        · split
          · refine after_bind ((spare_any (spare_readCell _)).err_inv hs) fun y s' hy => ?_
            rw [readCell_some hq] at hy
            cases hy
            exact (spare_setAbs _ _ fun _ => ho).after hs
          · refine after_bind ((spare_any (spare_need _)).err_inv hs) fun r s' hr => ?_
            rename_i h
            cases h with
            | none => cases hr
            | some h =>
            cases hr
            refine after_bind ((spare_any (spare_readCell _)).err_inv hs) fun y s' hy => ?_
            rw [readCell_some hq] at hy
            cases hy
            exact (spare_writeCell _ _ (fun e => hv (by rw [e])) ho).after hs
          · trivial
        · rw [← hr]
          exact List.mem_of_getElem? hx
  · cases hp

/-- Copying the topmost value and writing the copy into a part of an object. -/
theorem setPart_spared {s : VM} (hg : Good s) (hs : K.Inv true s) (i k : Int) {f : Ref → Obj → M Unit}
    (hf : ∀ p o, (∀ pos code ups a v, o ≠ .closure pos code ups a v) → Spares K true Any (f p o))
    (hc : ∀ p pos code ups a v, f p (.closure pos code ups a v) = closureSet ups k p) :
    K.After true (do let v ← getTop; let p ← pushObject v; f p (← stackGet i) : M Unit) s := by
  refine after_bind (spare_getTop.err_inv hs) fun v s0 hv => ?_
  have hv1 := (spare_getTop.ok_inv hs hv).1
  have hv2 : s0 = s ∧ v ∈ s.stack := by
    unfold getTop M.orErr at hv
    cases h : s.stack.getLast? with
    | none => rw [h] at hv; cases hv
    | some o => rw [h] at hv; cases hv; exact ⟨rfl, List.mem_of_getLast? h⟩
  obtain ⟨rfl, hv2⟩ := hv2
  refine after_bind ((spare_pushObject v (hv1 rfl)).err_inv hs) fun p s1 hp => ?_
  have hs1 := ((spare_pushObject v (hv1 rfl)).ok_inv hs hp).2
  have hp1 := post_copy (U := True) (E := fun _ _ => True) hg hv2 fun _ _ _ => trivial
  rw [hp] at hp1
  obtain ⟨hg1, hal, -, -⟩ := hp1
  refine after_bind ((spare_stackGet i).err_inv hs1) fun o s2 ho => ?_
  rw [stackGet_eq] at ho
  cases hsl : slot s1 i with
  | none => rw [hsl] at ho; cases ho
  | some o' =>
    rw [hsl] at ho
    cases ho
    by_cases hcl : ∃ pos code ups a v, o = .closure pos code ups a v
    · obtain ⟨pos, code, ups, a, w, rfl⟩ := hcl
      rw [hc]
      obtain ⟨b, u, n, -, h2, -, h4⟩ := hg1.sound.stack _ (slot_mem hsl)
      exact closureSet_spared hg1 hs1 h2 h4 k hal.cell (hv1 rfl)
    · exact (hf p o fun pos code ups a v h => hcl ⟨pos, code, ups, a, v, h⟩).after hs1

theorem setFirst_spared {s : VM} (hg : Good s) (hs : K.Inv true s) (i : Int) : K.After true (apiSetFirst i) s := by
  refine setPart_spared hg hs i 0 (f := fun p o => match o with
    | .list Option.none => M.throw .invalidValue
    | .list (some r) => setCarCell r (some p)
    | .vector q off => setVectorElement q off 0 p
    | .closure _ _ ups _ _ => closureSet ups 0 p
    | _ => M.throw .invalidValue) (fun p o ho => ?_) (fun _ _ _ _ _ _ => rfl)
  split
  · exact spare_throw _
  · exact spare_setCarCell _ _
  · exact spare_setVectorElement _ _ _ _
  · exact absurd rfl (ho _ _ _ _ _)
  · exact spare_throw _

theorem setElement_spared {s : VM} (hg : Good s) (hs : K.Inv true s) (k i : Int) : K.After true (apiSetElement k i) s := by
  refine setPart_spared hg hs i k (f := fun p o => match o with
    | .list Option.none => M.throw .invalidValue
    | .list (some r) => setCarCell r (some p)
    | .vector q off => setVectorElement q off k p
    | .string _ _ _ => M.throw .invalidValue
    | .closure _ _ ups _ _ => closureSet ups k p
    | _ => return ()) (fun p o ho => ?_) (fun _ _ _ _ _ _ => rfl)
  split
  · exact spare_throw _
  · exact spare_setCarCell _ _
  · exact spare_setVectorElement _ _ _ _
  · exact spare_throw _
  · exact absurd rfl (ho _ _ _ _ _)
  · exact spare_pure trivial

theorem Guarded.After.lets {m : M α} {s : VM} (h : K.After nb m s) : K.After false m s := by
  unfold Guarded.After at h ⊢
  cases hm : m s <;> rw [hm] at h
  · exact Guarded.Inv.false h
  · exact Guarded.Inv.false h
  all_goals trivial

theorem Lets.after {m : M α} (h : Lets K m) {s : VM} (hs : K.Inv true s) : K.After false m s := h s hs

/-- A call of the host that runs no code and does not store under the key. -/
theorem hostCall_spared {s : VM} (hg : Good s) (hs : K.Inv true s) {env : Env} (c : HostCall)
    (hc : c.runsCode = false) (hk : ∀ cb, c ≠ .linkCFunction K.key cb) : K.After false (c.run env) s := by
  have hs' := Guarded.Inv.false hs
  cases c <;> simp only [HostCall.run]
  case execute => cases hc
  case call => cases hc
  case garbageCollect =>
    unfold Guarded.After
    cases h : garbageCollect s with
    | ok a s' =>
      refine hs'.collect (fun r hr ht => ?_) h
      obtain ⟨sh, hl⟩ := ht.live hg.sound
      exact hl.1 hr
    | err e s' => exact absurd h garbageCollect_not_err
    | ub => trivial
    | diverge => trivial
  case linkCFunction k cb =>
    refine Spares.after (R := Any) (spare_bind (spare_pushObject _ (by simp [NotTo])) fun _ _ => spare_globalSet _ _ ?_) hs'
    rintro rfl
    exact hk cb rfl
  case softReset => exact spare_softReset.after hs'
  case popAll => exact spare_apiPopAll.after hs'
  case push => exact (spare_apiPush _).after hs'
  case pop => exact spare_apiPop.after hs'
  case popSeveral => exact (spare_apiPopSeveral _).after hs'
  case copyFromTop => exact (spare_apiCopyFromTop _).after hs'
  case pushGlobal => exact (spare_apiPushGlobal _).after hs'
  case setGlobal => exact (spare_apiSetGlobal _).after hs'
  case is => exact (spare_bind (R' := Any) (spare_apiIs _) (fun _ _ => spare_pure trivial)).after hs'
  case isEmptyVector => exact (spare_bind (R' := Any) spare_apiIsEmptyVector (fun _ _ => spare_pure trivial)).after hs'
  case isEmpty => exact (spare_bind (R' := Any) spare_apiIsEmpty (fun _ _ => spare_pure trivial)).after hs'
  case length => exact (spare_bind (R' := Any) spare_apiLength (fun _ _ => spare_pure trivial)).after hs'
  case pushBoolean => exact spare_apiPushBoolean.after hs'
  case setBoolean => exact (spare_apiSetBoolean _).after hs'
  case copyBoolean => exact (spare_bind (R' := Any) spare_apiCopyBoolean (fun _ _ => spare_pure trivial)).after hs'
  case pushInteger => exact spare_apiPushInteger.after hs'
  case setInteger => exact (spare_apiSetInteger _).after hs'
  case copySignedInteger => exact (spare_bind (R' := Any) spare_apiCopySignedInteger (fun _ _ => spare_pure trivial)).after hs'
  case copyUnsignedInteger => exact (spare_bind (R' := Any) spare_apiCopyUnsignedInteger (fun _ _ => spare_pure trivial)).after hs'
  case pushFloat => exact spare_apiPushFloat.after hs'
  case setFloat => exact (spare_apiSetFloat _).after hs'
  case copyFloat => exact (spare_bind (R' := Any) spare_apiCopyFloat (fun _ _ => spare_pure trivial)).after hs'
  case pushString => exact (spare_apiPushString _).after hs'
  case copyString => exact (spare_bind (R' := Any) spare_apiCopyString (fun _ _ => spare_pure trivial)).after hs'
  case pushSymbol => exact (spare_apiPushSymbol _ _).after hs'
  case pushCompressedSymbol => exact (spare_apiPushCompressedSymbol _).after hs'
  case copySymbolName => exact (spare_bind (R' := Any) spare_apiCopySymbolName (fun _ _ => spare_pure trivial)).after hs'
  case copySymbolId => exact (spare_bind (R' := Any) spare_apiCopySymbolId (fun _ _ => spare_pure trivial)).after hs'
  case pushNewType => exact spare_iMakeType.after hs'
  case pushExistingType => exact (spare_apiPushExistingType _).after hs'
  case copyType => exact (spare_bind (R' := Any) spare_apiCopyType (fun _ _ => spare_pure trivial)).after hs'
  case pushComposite => exact (spare_apiPushComposite _).after hs'
  case copyCompositeType => exact (spare_bind (R' := Any) spare_apiCopyCompositeType (fun _ _ => spare_pure trivial)).after hs'
  case pushCompositeValue => exact spare_apiPushCompositeValue.after hs'
  case pushCompositeFunction => exact spare_apiPushCompositeFunction.after hs'
  case setCompositeValue => exact ((spare_apiSetCompositeValue _).after hs).lets
  case setCompositeFunction => exact ((spare_apiSetCompositeFunction _).after hs).lets
  case pushNil => exact spare_apiPushNil.after hs'
  case pushCons => exact spare_apiPushCons.after hs'
  case pushVector => exact (spare_apiPushVector _).after hs'
  case copyClosureName => exact (spare_bind (R' := Any) spare_apiCopyClosureName (fun _ _ => spare_pure trivial)).after hs'
  case pushClosureBytecode => exact spare_apiPushClosureBytecode.after hs'
  case copyClosureArity => exact (spare_bind (R' := Any) spare_apiCopyClosureArity (fun _ _ => spare_pure trivial)).after hs'
  case copyClosureIsVariadic =>
    exact (spare_bind (R' := Any) spare_apiCopyClosureIsVariadic (fun _ _ => spare_pure trivial)).after hs'
  case pushFirst => exact spare_apiPushFirst.after hs'
  case pushRest => exact spare_apiPushRest.after hs'
  case setFirst => exact (setFirst_spared hg hs _).lets
  case setRest => exact ((spare_apiSetRest _).after hs).lets
  case pushElement => exact (spare_apiPushElement _).after hs'
  case setElement => exact (setElement_spared hg hs _ _).lets

theorem unwrap_same {fuel : Nat} {f g : Obj} {s s' : VM} (h : unwrap fuel f s = .ok g s') : s' = s := by
  have hp : Pre (fun a b : VM => b = a) (fun _ _ => True) :=
    ⟨fun _ => rfl, fun h1 h2 => h2.trans h1, fun _ => trivial, fun _ _ => trivial⟩
  have := rel_unwrap hp fuel f s
  rw [h] at this
  exact this

theorem prepare_same {f : Obj} {n cb : Nat} {s s' : VM} (h : prepareForFuncall f n s = .ok (.function cb) s') : s' = s := by
  unfold prepareForFuncall at h
  rw [M.bind_ok (show unwrapFuel s = .ok (s.heap.length + 2) s from rfl)] at h
  obtain ⟨g, s1, h1, h2⟩ := M.bind_eq_ok.mp h
  have := unwrap_same h1
  subst this
  split at h2
  · cases h2
    rfl
  · split at h2
    · split at h2
      · cases h2
      · obtain ⟨_, _, _, h3⟩ := M.bind_eq_ok.mp h2
        cases h3
    · split at h2
      · cases h2
      · cases h2
  · cases h2

theorem funcall_spared {env : Env} {bc : Ref} {nx : CodePtr} {s : VM} (hs : K.Inv true s) (a n : Nat)
    (hh : ∀ cb, K.After false (env.host cb) s) : K.After false (iFuncall env bc nx a n) s := by
  unfold iFuncall
  refine after_bind (fun e s' h => Guarded.Inv.false ((spare_getArg a).err_inv hs e s' h)) fun f s1 hf => ?_
  obtain ⟨rfl, -⟩ := getArg_ok hf
  refine after_bind (fun e s' h => Guarded.Inv.false ((spare_prepareForFuncall f n).err_inv hs e s' h)) fun g s2 hg => ?_
  have hs2 := ((spare_prepareForFuncall f n).ok_inv hs hg).2
  split
  · have := prepare_same hg
    subst this
    have h := hh ‹_›
    unfold Guarded.After at h
    refine after_bind (fun e s' he => ?_) fun _ s' he => ?_
    · rw [he] at h; exact h
    · rw [he] at h; exact h
  · exact ((spare_enter (nb := true) bc nx _ _ _).after hs2).lets
  · exact Guarded.Inv.false hs2

theorem deref_same {p : Option Ref} {o : Obj} {s s' : VM} (ho : deref p s = .ok o s') : s' = s := by
  unfold deref at ho
  cases p with
  | none => cases ho
  | some r =>
    change readCell r s = _ at ho
    unfold readCell M.need at ho
    cases hr : s.heap[r]? with
    | none => rw [hr] at ho; cases ho
    | some x => rw [hr] at ho; cases ho; rfl

theorem ccall_spared {env : Env} {s : VM} (hs : K.Inv false s) (k : Nat)
    (hh : ∀ cb, K.After false (env.host cb) s) : K.After false (iCcall env k) s := by
  unfold iCcall
  refine after_bind ((spare_globalGet k).err_inv hs) fun p s1 hp => ?_
  rw [globalGet_eq] at hp
  have : s1 = s := by split at hp <;> cases hp; rfl
  subst this
  refine after_bind ((spare_any (spare_deref p)).err_inv hs) fun o s2 ho => ?_
  have h2 : s2 = s1 := deref_same ho
  subst h2
  split
  · exact hh _
  · trivial

/-- Any instruction that does not store under the key. -/
theorem exec_spared {env : Env} {bc : Ref} {st nx : CodePtr} {s : VM} (hg : Good s) (hs : K.Inv true s) (i : Instr)
    (hh : ∀ cb, K.After false (env.host cb) s) (hk : ∀ a (k : Nat), i = .setGlobal a k → (k : Int) ≠ K.key) :
    K.After false (exec env bc st nx i) s := by
  by_cases hi : ∃ j a, i = .setUpvalue j a
  · obtain ⟨j, a, rfl⟩ := hi
    refine Guarded.After.lets (nb := true) ?_
    show K.After true (iSetUpvalue j a >>= fun _ => pure (Ctl.goto nx)) s
    have h := setUpvalue_spared hg hs j a
    unfold Guarded.After at h
    refine after_bind (fun e s' he => ?_) fun _ s' he => ?_
    · rw [he] at h; exact h
    · rw [he] at h; exact h
  · by_cases hf : ∃ a n, i = .funcall a n
    · obtain ⟨a, n, rfl⟩ := hf
      have h := funcall_spared (bc := bc) (nx := nx) hs a n hh
      unfold Guarded.After at h
      refine after_bind (fun e s' he => ?_) fun _ s' he => ?_
      · rw [he] at h; exact h
      · rw [he] at h; exact h
    · by_cases hcc : ∃ k, i = .ccall k
      · obtain ⟨k, rfl⟩ := hcc
        show K.After false (iCcall env k >>= fun _ => pure (Ctl.goto nx)) s
        have h := ccall_spared (Guarded.Inv.false hs) k hh
        unfold Guarded.After at h
        refine after_bind (fun e s' he => ?_) fun _ s' he => ?_
        · rw [he] at h; exact h
        · rw [he] at h; exact h
      have he : exec env bc st nx i = exec ⟨env.fl, fun _ => M.throw .invalidValue⟩ bc st nx i := by
        cases i <;> first | rfl | exact absurd ⟨_, _, rfl⟩ hf | exact absurd ⟨_, rfl⟩ hcc
      rw [he]
      exact (lets_exec (fun _ => (spare_throw (nb := true) (R := Any) _).lets) i (fun j a h => hi ⟨j, a, h⟩) hk).after hs

end DuckLisp.VM
