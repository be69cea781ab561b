import Verif.Proof.VM.Rel
import Verif.Proof.VM.Host

/-!
# How instructions change the height of the stack
-/

namespace DuckLisp.VM

open DuckLisp

/-- Success leaves the stack as it is. -/
def Kept (s s' : VM) : Prop := s'.stack = s.stack

/-- The operation leaves the stack as it is if it succeeds. -/
abbrev Still {α : Type} (m : M α) : Prop := RelE Kept (fun _ _ => True) m

theorem keptPre : Pre Kept (fun _ _ => True) :=
  ⟨fun _ => rfl, fun h h' => h'.trans h, fun _ => trivial, fun _ _ => trivial⟩

theorem still_writeCell (r : Ref) (o : Obj) : Still (writeCell r o) := by
  intro s
  unfold writeCell
  by_cases h : r < s.heap.length
  · rw [if_pos h]; rfl
  · rw [if_neg h]; trivial

theorem still_takeFree (o : Obj) : Still (takeFree o) := by
  intro s
  unfold takeFree
  split <;> rename_i hc <;> split at hc <;> cases hc <;> first | rfl | trivial

theorem still_pushObject (o : Obj) : Still (pushObject o) := by
  intro s
  unfold pushObject
  by_cases hf : s.free = []
  · rw [if_pos hf]
    cases hg : garbageCollect s with
    | ok a s1 =>
      simp only
      have h1 : s1.stack = s.stack := by
        have := garbageCollect_same hg
        simp_all
      by_cases hf1 : s1.free = []
      · rw [if_pos hf1]; trivial
      · rw [if_neg hf1]
        have h2 := still_takeFree o s1
        cases ht : takeFree o s1 with
        | ok a s2 => rw [ht] at h2; exact Eq.trans h2 h1
        | err e s2 => trivial
        | ub => trivial
        | diverge => trivial
    | err e s1 => trivial
    | ub => trivial
    | diverge => trivial
  · rw [if_neg hf]
    exact still_takeFree o s

theorem still_globalSet (p : Option Ref) (k : Int) : Still (globalSet p k) := fun _ => rfl

/-- One step of `still_auto`. -/
macro "still_one" : tactic => `(tactic| (first
  | with_reducible exact rel_pure keptPre _
  | with_reducible exact rel_throw keptPre _
  | with_reducible exact rel_ub
  | with_reducible exact rel_diverge
  | with_reducible exact rel_get keptPre
  | with_reducible exact rel_need keptPre _
  | with_reducible exact rel_readCell keptPre _
  | with_reducible exact rel_deref keptPre _
  | with_reducible exact rel_getArg keptPre _
  | with_reducible exact rel_stackAt keptPre _
  | with_reducible exact rel_getAbs keptPre _
  | with_reducible exact rel_height keptPre
  | with_reducible exact rel_globalGet keptPre _
  | with_reducible exact rel_ckInt keptPre _
  | with_reducible exact rel_listIsCyclic keptPre _
  | with_reducible exact rel_countConses keptPre _ _ _
  | with_reducible exact rel_unwrap keptPre _ _
  | with_reducible exact rel_unwrapFuel keptPre
  | with_reducible exact still_writeCell _ _
  | with_reducible exact still_pushObject _
  | with_reducible exact still_globalSet _ _
  | with_reducible refine rel_bind keptPre ?_ (fun _ => ?_)
  | split))

/-- Prove `Still m` by following the shape of `m`. -/
macro "still_auto" : tactic => `(tactic| repeat' still_one)

theorem still_vectorInRange (p : Option Ref) (off : Int) : Still (vectorInRange p off) := by
  unfold vectorInRange; still_auto

theorem still_truthy (o : Obj) : Still (truthy o) := by
  unfold truthy
  split
  all_goals first
    | exact rel_pure keptPre _
    | exact still_vectorInRange _ _

theorem still_notValue (o : Obj) : Still (notValue o) := by
  unfold notValue; still_auto

theorem still_intArith (op : Arith) (x y : Int) : Still (intArith op x y) := by
  cases op <;> unfold intArith <;> still_auto

theorem still_boolArith (op : Arith) (x y : UInt8) : Still (boolArith op x y) := by
  cases op <;> unfold boolArith <;> still_auto

theorem still_arithValue (fl : FloatOps) (op : Arith) (x y : Obj) : Still (arithValue fl op x y) := by
  unfold arithValue
  still_auto
  all_goals first
    | exact still_intArith _ _ _
    | exact still_boolArith _ _ _

theorem still_lessValue (fl : FloatOps) (x y : Obj) : Still (lessValue fl x y) := by
  unfold lessValue; still_auto

theorem still_greaterValue (fl : FloatOps) (x y : Obj) : Still (greaterValue fl x y) := by
  unfold greaterValue; still_auto

theorem still_stringBytes (p : Option Ref) (off : Int) (n : Nat) : Still (stringBytes p off n) := by
  unfold stringBytes; still_auto

theorem still_equalValue (x y : Obj) : Still (equalValue x y) := by
  unfold equalValue
  still_auto
  all_goals exact still_stringBytes _ _ _

theorem still_part (o : Obj) : Still (part o) := by
  unfold part; still_auto

theorem still_setCarCell (r : Ref) (x : Option Ref) : Still (setCarCell r x) := by
  unfold setCarCell; still_auto

theorem still_setCdrCell (r : Ref) (x : Option Ref) : Still (setCdrCell r x) := by
  unfold setCdrCell; still_auto

theorem still_setSlot (r : Ref) (k : Nat) (p : Ref) : Still (setSlot r k p) := by
  unfold setSlot; still_auto

theorem still_setInitialized (r : Ref) : Still (setInitialized r) := by
  unfold setInitialized; still_auto

theorem still_vectorLoop (r : Ref) (as : List Nat) : ∀ k, Still (vectorLoop r k as) := by
  induction as with
  | nil => intro k; exact rel_pure keptPre _
  | cons a as ih =>
    intro k
    unfold vectorLoop
    still_auto
    all_goals first
      | exact still_setSlot _ _ _
      | exact ih _

theorem still_fillSlots (r p : Ref) : Still (fillSlots r p) := by
  unfold fillSlots; still_auto

theorem still_vectorStorage (p : Option Ref) : Still (vectorStorage p) := by
  unfold vectorStorage; still_auto

theorem still_slotValue (vs : Option (List Slot)) (i : Int) : Still (slotValue vs i) := by
  unfold slotValue; still_auto

theorem still_byteValue (p : Option Ref) (i : Int) : Still (byteValue p i) := by
  unfold byteValue
  refine rel_bind keptPre (still_stringBytes _ _ _) (fun _ => ?_)
  still_auto

theorem still_partValue (p : Option Ref) : Still (partValue p) := by
  unfold partValue; still_auto

theorem still_cdrValue (o : Obj) : Still (cdrValue o) := by
  unfold cdrValue
  still_auto
  all_goals exact still_partValue _

theorem still_carValue (o : Obj) : Still (carValue o) := by
  unfold carValue
  still_auto
  all_goals first
    | exact still_partValue _
    | exact still_slotValue _ _
    | exact still_byteValue _ _

theorem still_setVectorLength (r : Ref) (n : Nat) : Still (setVectorLength r n) := by
  unfold setVectorLength; still_auto

theorem still_nullValue (o : Obj) : Still (nullValue o) := by
  unfold nullValue
  still_auto
  all_goals exact still_vectorInRange _ _

theorem still_compositeParts (c : Option Ref) : Still (compositeParts c) := by
  unfold compositeParts; still_auto

theorem still_typeValue (o : Obj) : Still (typeValue o) := by
  unfold typeValue
  still_auto
  all_goals exact still_compositeParts _

theorem still_setCompositeValueCell (c : Option Ref) (p : Ref) : Still (setCompositeValueCell c p) := by
  unfold setCompositeValueCell; still_auto

theorem still_setCompositeFunctionCell (c : Option Ref) (p : Ref) : Still (setCompositeFunctionCell c p) := by
  unfold setCompositeFunctionCell; still_auto

theorem still_lengthValue (o : Obj) : Still (lengthValue o) := by
  unfold lengthValue
  still_auto
  all_goals exact still_vectorStorage _

theorem still_symbolStringValue (o : Obj) : Still (symbolStringValue o) := by
  unfold symbolStringValue; still_auto

theorem still_vectorBytes (vs : Option (List Slot)) (n : Nat) : ∀ i, Still (vectorBytes vs n i) := by
  induction n with
  | zero => intro i; exact rel_pure keptPre _
  | succ n ih =>
    intro i
    unfold vectorBytes
    refine rel_bind keptPre (still_slotValue _ _) (fun _ => ?_)
    split
    · refine rel_bind keptPre (ih _) (fun _ => ?_)
      still_auto
    · still_auto

theorem still_listBytes (fuel : Nat) : ∀ p, Still (listBytes fuel p) := by
  induction fuel with
  | zero => intro p; exact rel_diverge
  | succ fuel ih =>
    intro p
    cases p with
    | none => exact rel_pure keptPre _
    | some r =>
      unfold listBytes
      still_auto
      all_goals exact ih _

theorem still_newString (b : Bytes) : Still (newString b) := by
  unfold newString; still_auto

theorem still_concatBytes (o : Obj) : Still (concatBytes o) := by
  unfold concatBytes
  still_auto
  all_goals exact still_stringBytes _ _ _

theorem still_boolValue {m : M Bool} (hm : Still m) : Still (boolValue m) := by
  unfold boolValue
  refine rel_bind keptPre hm (fun _ => ?_)
  still_auto

/-- Success pushes one value and leaves the rest of the stack as it is. -/
def Adds {α : Type} (m : M α) : Prop := ∀ s a s', m s = .ok a s' → ∃ x, s'.stack = s.stack ++ [x]

theorem adds_bind {α β : Type} {m : M α} {f : α → M β} (hm : Still m) (hf : ∀ a, Adds (f a)) : Adds (m >>= f) := by
  intro s b s' h
  obtain ⟨a, s1, h1, h2⟩ := M.bind_eq_ok.1 h
  obtain ⟨x, hx⟩ := hf a s1 b s' h2
  exact ⟨x, by rw [hx, Rel.ok hm h1]⟩

theorem adds_then {α β : Type} {m : M α} {f : α → M β} (hm : Adds m) (hf : ∀ a, Still (f a)) : Adds (m >>= f) := by
  intro s b s' h
  obtain ⟨a, s1, h1, h2⟩ := M.bind_eq_ok.1 h
  obtain ⟨x, hx⟩ := hm s a s1 h1
  exact ⟨x, by rw [Rel.ok (hf a) h2, hx]⟩

theorem adds_throw {α : Type} (e : DlError) : Adds (M.throw e : M α) := fun _ _ _ h => by cases h
theorem adds_ub {α : Type} : Adds (M.ub : M α) := fun _ _ _ h => by cases h
theorem adds_push (o : Obj) : Adds (push o) := fun s _ s' h => by cases h; exact ⟨o, rfl⟩

theorem adds_pushPtr (p : Option Ref) : Adds (pushPtr p) := by
  unfold pushPtr
  split
  · exact adds_push _
  · exact adds_bind (rel_readCell keptPre _) fun _ => adds_push _

theorem adds_pushStackOnly (o : Obj) : Adds (pushStackOnly o) := fun s _ s' h => by cases h; exact ⟨o, rfl⟩

theorem still_pushUpOnly (o : Option Ref) : Still (pushUpOnly o) := fun _ => rfl

/-- A value is pushed and replaced in the end. -/
theorem adds_replace {α : Type} {m : M α} (o : Obj) (h : Adds m) :
    Adds (do let _ ← m; let n ← height; setStackAt ((n : Int) - 1) o) := by
  intro s b s' hs
  obtain ⟨a, s1, h1, h2⟩ := M.bind_eq_ok.1 hs
  obtain ⟨n, s2, h3, h4⟩ := M.bind_eq_ok.1 h2
  cases h3
  obtain ⟨x, hx⟩ := h s a s1 h1
  refine ⟨o, ?_⟩
  have hi : ((s1.stack.length : Int) - 1).toNat = s.stack.length := by rw [hx]; simp
  unfold setStackAt at h4
  split at h4
  · cases h4
    simp only [hi, hx]
    simp
  · cases h4

theorem adds_unary (a : Nat) {f : Obj → M Obj} (hf : ∀ o, Still (f o)) : Adds (unary a f) :=
  adds_bind (rel_getArg keptPre _) fun _ => adds_bind (hf _) fun _ => adds_push _

theorem adds_binary (a b : Nat) {f : Obj → Obj → M Obj} (hf : ∀ o o', Still (f o o')) : Adds (binary a b f) :=
  adds_bind (rel_getArg keptPre _) fun _ => adds_bind (rel_getArg keptPre _) fun _ =>
    adds_bind (hf _ _) fun _ => adds_push _

/-- One step of `adds_auto`. -/
macro "adds_one" : tactic => `(tactic| (first
  | with_reducible exact adds_throw _
  | with_reducible exact adds_ub
  | with_reducible exact adds_push _
  | with_reducible exact adds_pushPtr _
  | with_reducible refine adds_then (adds_push _) (fun _ => ?_)
  | with_reducible refine adds_bind (?_ : Still _) (fun _ => ?_)
  | still_one
  | split))

/-- Prove `Adds m` by following the shape of `m`. -/
macro "adds_auto" : tactic => `(tactic| repeat' adds_one)

theorem adds_iGetVecElt (a b : Nat) : Adds (iGetVecElt a b) := by
  unfold iGetVecElt
  adds_auto
  all_goals first
    | exact still_vectorStorage _
    | exact still_slotValue _ _
    | exact still_byteValue _ _

theorem adds_iSetVecElt (a b c : Nat) : Adds (iSetVecElt a b c) := by
  unfold iSetVecElt
  adds_auto
  all_goals first
    | exact still_vectorStorage _
    | exact still_setSlot _ _ _

theorem adds_iSetCar (a b : Nat) : Adds (iSetCar a b) := by
  unfold iSetCar
  adds_auto
  all_goals first
    | exact still_part _
    | exact still_setCarCell _ _
    | exact still_setSlot _ _ _

theorem adds_iSetCdr (a b : Nat) : Adds (iSetCdr a b) := by
  unfold iSetCdr
  adds_auto
  all_goals first
    | exact still_part _
    | exact still_setCdrCell _ _
    | exact still_setVectorLength _ _

theorem adds_iMakeInstance (a b c : Nat) : Adds (iMakeInstance a b c) := by
  unfold iMakeInstance
  adds_auto
  all_goals first
    | exact still_setCompositeValueCell _ _
    | exact still_setCompositeFunctionCell _ _

theorem adds_iCompositeValue (a : Nat) : Adds (iCompositeValue a) := by
  unfold iCompositeValue
  adds_auto
  all_goals exact still_compositeParts _

theorem adds_iCompositeFunction (a : Nat) : Adds (iCompositeFunction a) := by
  unfold iCompositeFunction
  adds_auto
  all_goals exact still_compositeParts _

theorem adds_iSetCompositeValue (a b : Nat) : Adds (iSetCompositeValue a b) := by
  unfold iSetCompositeValue
  adds_auto
  all_goals exact still_setCompositeValueCell _ _

theorem adds_iSetCompositeFunction (a b : Nat) : Adds (iSetCompositeFunction a b) := by
  unfold iSetCompositeFunction
  adds_auto
  all_goals exact still_setCompositeFunctionCell _ _

theorem adds_iMakeString (a : Nat) : Adds (iMakeString a) := by
  unfold iMakeString
  adds_auto
  all_goals first
    | exact still_vectorStorage _
    | exact still_vectorBytes _ _ _
    | exact still_listBytes _ _
    | exact still_newString _

theorem adds_iConcatenate (a b : Nat) : Adds (iConcatenate a b) := by
  unfold iConcatenate
  adds_auto
  all_goals first
    | exact still_concatBytes _
    | exact still_newString _

theorem adds_iSubstring (a b c : Nat) : Adds (iSubstring a b c) := by
  unfold iSubstring; adds_auto

theorem adds_iMakeType : Adds iMakeType := by
  intro s a s' h
  unfold iMakeType at h
  cases h
  exact ⟨_, rfl⟩

theorem adds_iPushString (b : Bytes) : Adds (iPushString b) := by
  intro s a s' h
  unfold iPushString at h
  have h1 : ∀ t, (∃ e, newString b s = .err e t) ∨ (∃ o, newString b s = .ok o t) → t.stack = s.stack := by
    rintro t (⟨e, ht⟩ | ⟨o, ht⟩)
    · unfold newString at ht
      rw [M.bind_run] at ht
      cases hp : pushObject (.internalString (some b) b.length) s with
      | ok r t' => rw [hp] at ht; cases ht
      | err e' t' =>
        rw [hp] at ht
        cases ht
        unfold pushObject at hp
        by_cases hf : s.free = []
        · rw [if_pos hf] at hp
          cases hg : garbageCollect s with
          | ok a s1 =>
            rw [hg] at hp
            simp only at hp
            have h1 : s1.stack = s.stack := by
              have := garbageCollect_same hg
              simp_all
            by_cases hf1 : s1.free = []
            · rw [if_pos hf1] at hp; cases hp; exact h1
            · rw [if_neg hf1] at hp
              unfold takeFree at hp
              split at hp <;> cases hp
          | err e s1 => rw [hg] at hp; simp only at hp; cases hp; exact (garbageCollect_not_err hg).elim
          | ub => rw [hg] at hp; cases hp
          | diverge => rw [hg] at hp; cases hp
        · rw [if_neg hf] at hp
          unfold takeFree at hp
          split at hp <;> cases hp
      | ub => rw [hp] at ht; cases ht
      | diverge => rw [hp] at ht; cases ht
    · exact Rel.ok (still_newString b) ht
  cases hn : newString b s with
  | ok o t =>
    rw [hn] at h
    obtain ⟨x, hx⟩ := adds_push _ _ _ _ h
    exact ⟨x, by rw [hx, h1 t (.inr ⟨o, hn⟩)]⟩
  | err e t =>
    rw [hn] at h
    obtain ⟨x, hx⟩ := adds_push _ _ _ _ h
    exact ⟨x, by rw [hx, h1 t (.inl ⟨e, hn⟩)]⟩
  | ub => rw [hn] at h; cases h
  | diverge => rw [hn] at h; cases h

theorem adds_iCons (a b : Nat) : Adds (iCons a b) := by
  have h : iCons a b = getArg a >>= fun o1 => getArg b >>= fun o2 =>
      pushObject (.cons none none) >>= fun r =>
      (do
        let _ ← (do
          push (.list (some r))
          setCarCell r (← part o1)
          setCdrCell r (← part o2))
        let n ← height
        setStackAt ((n : Int) - 1) (.list (some r))) := by
    unfold iCons
    simp only [M.bind_assoc]
  rw [h]
  refine adds_bind (rel_getArg keptPre _) fun _ => adds_bind (rel_getArg keptPre _) fun _ =>
    adds_bind (still_pushObject _) fun r => adds_replace _ ?_
  refine adds_then (adds_push _) fun _ => rel_bind keptPre (still_part _) fun _ =>
    rel_bind keptPre (still_setCarCell _ _) fun _ => rel_bind keptPre (still_part _) fun _ => still_setCdrCell _ _

theorem adds_iVector (as : List Nat) : Adds (iVector as) := by
  have h : iVector as = pushObject (.internalVector none as.length false) >>= fun r =>
      (do
        let _ ← (do
          pushStackOnly (.vector (some r) 0)
          vectorLoop r 0 as
          pushUpOnly none
          setInitialized r)
        let n ← height
        setStackAt ((n : Int) - 1) (.vector (some r) 0)) := by
    unfold iVector
    simp only [M.bind_assoc]
  rw [h]
  refine adds_bind (still_pushObject _) fun r => adds_replace _ ?_
  exact adds_then (adds_pushStackOnly _) fun _ => rel_bind keptPre (still_vectorLoop _ _ _) fun _ =>
    rel_bind keptPre (still_pushUpOnly _) fun _ => still_setInitialized _

theorem adds_iMakeVector (a b : Nat) : Adds (iMakeVector a b) := by
  unfold iMakeVector
  refine adds_bind (rel_getArg keptPre _) fun o => ?_
  cases o
  case integer size =>
    simp only
    split
    · exact adds_throw _
    split
    · exact adds_ub
    have h : (do
        let o ← getArg b
        let r ← pushObject (.internalVector none size.toNat false)
        pushStackOnly (.vector (some r) 0)
        let p ← pushObject o
        fillSlots r p
        pushUpOnly none
        setInitialized r
        let n ← height
        setStackAt ((n : Int) - 1) (.vector (some r) 0) : M Unit) = getArg b >>= fun o =>
        pushObject (.internalVector none size.toNat false) >>= fun r =>
        (do
          let _ ← (do
            pushStackOnly (.vector (some r) 0)
            let p ← pushObject o
            fillSlots r p
            pushUpOnly none
            setInitialized r)
          let n ← height
          setStackAt ((n : Int) - 1) (.vector (some r) 0)) := by
      simp only [M.bind_assoc]
    rw [h]
    refine adds_bind (rel_getArg keptPre _) fun _ => adds_bind (still_pushObject _) fun r => adds_replace _ ?_
    exact adds_then (adds_pushStackOnly _) fun _ => rel_bind keptPre (still_pushObject _) fun _ =>
      rel_bind keptPre (still_fillSlots _ _) fun _ => rel_bind keptPre (still_pushUpOnly _) fun _ =>
      still_setInitialized _
  all_goals exact adds_throw _

/-- The instructions of the core language that push their result. -/
def PushesResult : Instr → Prop
  | .pushSymbol .. | .pushStrippedSymbol _ | .pushString _ | .pushBool _ | .pushInteger _ | .pushFloat _ | .pushIndex _
  | .pushGlobal _ | .not _ | .arith .. | .equal .. | .greater .. | .less .. | .cons .. | .vector _ | .makeVector ..
  | .getVecElt .. | .setVecElt .. | .car _ | .cdr _ | .setCar .. | .setCdr .. | .nullp _ | .typeof _ | .makeType
  | .makeInstance .. | .compositeValue _ | .compositeFunction _ | .setCompositeValue .. | .setCompositeFunction ..
  | .length _ | .symbolString _ | .symbolId _ | .makeString _ | .concatenate .. | .substring .. | .nil => True
  | _ => False

theorem adds_plain {env : Env} {bc : Ref} {st : CodePtr} {i : Instr} (hi : PushesResult i) :
    Adds (plain env bc st i) := by
  cases i <;> simp only [PushesResult] at hi <;> simp only [plain]
  case pushSymbol id name => exact adds_bind (still_pushObject _) fun _ => adds_push _
  case pushStrippedSymbol id => exact adds_push _
  case pushString b => exact adds_iPushString b
  case pushBool b => exact adds_push _
  case pushInteger b => exact adds_push _
  case pushFloat b => exact adds_push _
  case pushIndex a => exact adds_unary a fun _ => rel_pure keptPre _
  case pushGlobal k => exact adds_bind (rel_globalGet keptPre _) fun _ => adds_pushPtr _
  case not a => exact adds_unary a still_notValue
  case arith op a b => exact adds_binary a b (still_arithValue _ _)
  case equal a b => exact adds_binary a b fun _ _ => still_boolValue (still_equalValue _ _)
  case greater a b => exact adds_binary a b fun _ _ => still_boolValue (still_greaterValue _ _ _)
  case less a b => exact adds_binary a b fun _ _ => still_boolValue (still_lessValue _ _ _)
  case cons a b => exact adds_iCons a b
  case vector as => exact adds_iVector as
  case makeVector a b => exact adds_iMakeVector a b
  case getVecElt a b => exact adds_iGetVecElt a b
  case setVecElt a b c => exact adds_iSetVecElt a b c
  case car a => exact adds_unary a still_carValue
  case cdr a => exact adds_unary a still_cdrValue
  case setCar a b => exact adds_iSetCar a b
  case setCdr a b => exact adds_iSetCdr a b
  case nullp a => exact adds_unary a fun _ => still_boolValue (still_nullValue _)
  case typeof a => exact adds_unary a still_typeValue
  case makeType => exact adds_iMakeType
  case makeInstance a b c => exact adds_iMakeInstance a b c
  case compositeValue a => exact adds_iCompositeValue a
  case compositeFunction a => exact adds_iCompositeFunction a
  case setCompositeValue a b => exact adds_iSetCompositeValue a b
  case setCompositeFunction a b => exact adds_iSetCompositeFunction a b
  case length a => exact adds_unary a still_lengthValue
  case symbolString a => exact adds_unary a still_symbolStringValue
  case symbolId a => exact adds_unary a fun o => by cases o <;> still_auto
  case makeString a => exact adds_iMakeString a
  case concatenate a b => exact adds_iConcatenate a b
  case substring a b c => exact adds_iSubstring a b c
  case nil => exact adds_push _

theorem still_setGlobal {env : Env} {bc : Ref} {st : CodePtr} (a : Nat) (k : Nat) :
    Still (plain env bc st (.setGlobal a k)) := by
  simp only [plain]
  still_auto

theorem popMany_stack {n : Nat} {s s' : VM} (h : popMany n s = .ok () s') :
    n ≤ s.stack.length ∧ s'.stack = s.stack.take (s.stack.length - n) := by
  unfold popMany at h
  split at h
  · cases h
  simp only at h
  by_cases hn : s.stack.length < n
  · rw [if_pos hn] at h; cases h
  · rw [if_neg hn] at h
    cases h
    exact ⟨by omega, rfl⟩

theorem setArg_stack {b : Nat} {o : Obj} {s s' : VM} (h : setArg b o s = .ok () s') :
    s'.stack = s.stack.set (s.stack.length - b) o := by
  unfold setArg at h
  split at h
  · rename_i i hi
    unfold argIndex at hi
    split at hi
    · cases hi; cases h; rfl
    · cases hi
  · cases h

end DuckLisp.VM
