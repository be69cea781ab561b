import Verif.Proof.VM.Host
import Verif.Proof.VM.Strings
import Verif.Spec.Data

/-!
# C42: values the host puts on the stack and takes from it
-/

namespace DuckLisp.Props

open DuckLisp DuckLisp.VM DuckLisp.Spec

/-! ### The stack -/

/-- C42, addressing: `push` copies the slot with the given index to the top, counting from the bottom,
or from the top if the index is negative; any other index is refused. -/
theorem C42_push_slot (vm : VM) (i : Int) :
    apiPush i vm = match slot vm i with
      | some o => .ok () (pushed vm o)
      | none => .err .invalidValue vm := by
  unfold apiPush
  rw [M.bind_run, stackGet_eq]
  cases slot vm i <;> rfl

/-- C42, addressing: `copy-from-top` overwrites exactly the slot with the given index by the topmost
object; any other index is refused. -/
theorem C42_copy_from_top (vm : VM) (i : Int) (o : Obj) (ho : operand vm 1 = some o) :
    apiCopyFromTop i vm =
      if (slot vm i).isSome then .ok () { vm with stack := vm.stack.set (slotNumber vm i).toNat o }
      else .err .invalidValue vm := by
  unfold apiCopyFromTop
  rw [M.bind_ok (getTop_some ho), stackSet_eq]

/-- C42: what is pushed can be popped, leaving the machine as it was. -/
theorem C42_push_pop (vm : VM) (o : Obj) : apiPop (pushed vm o) = .ok () vm ∧
    apiStackLength (pushed vm o) = .ok (vm.stack.length + 1) (pushed vm o) := by
  constructor
  · unfold apiPop
    rw [M.bind_ok (popStack_pushed vm o)]
    rfl
  · simp [apiStackLength, height, pushed]

/-- C42: any number of objects that were pushed can be popped at once, leaving the machine as it was; more than there are
is refused, and changes nothing. -/
theorem C42_pop_several (vm : VM) (os : List Obj) :
    apiPopSeveral os.length (os.foldl pushed vm) = .ok () vm ∧
    ∀ n, vm.upStack.length < n → apiPopSeveral n vm = .err .bufferUnderflow vm := by
  constructor
  · have h : ∀ (os : List Obj) (vm : VM), (os.foldl pushed vm) =
        { vm with stack := vm.stack ++ os, upStack := vm.upStack ++ os.map fun _ => none } := by
      intro os
      induction os with
      | nil => intro vm; simp
      | cons o os ih => intro vm; simp [ih, pushed]
    rw [h]
    unfold apiPopSeveral popMany
    rw [if_neg (by simp)]
    simp
  · intro n hn
    unfold apiPopSeveral popMany
    rw [if_pos hn]

/-- C42: all objects can be popped at once. -/
theorem C42_pop_all (vm : VM) (h : vm.upStack.length = vm.stack.length) :
    apiPopAll vm = .ok () { vm with stack := [], upStack := [] } := by
  unfold apiPopAll
  rw [M.bind_ok (show height vm = .ok vm.stack.length vm from rfl)]
  simp [popMany, h]

/-- C42: what the host pushes as nil is the empty list. -/
theorem C42_nil (vm : VM) : apiPushNil vm = .ok () (pushed vm (.list none)) ∧
    (do apiPushNil; apiIsEmpty) vm = .ok true (pushed vm (.list none)) ∧
    (do apiPushNil; apiIsCons) vm = .ok false (pushed vm (.list none)) := by
  have h : apiPushNil vm = .ok () (pushed vm (.list none)) := rfl
  refine ⟨h, ?_, ?_⟩
  · rw [M.bind_ok h]
    unfold apiIsEmpty
    rw [M.bind_ok (getTop_some (operand_pushed vm (.list none)))]
    rfl
  · rw [M.bind_ok h]
    unfold apiIsCons apiIs
    rw [M.bind_ok (getTop_some (operand_pushed vm (.list none)))]
    rfl

/-! ### Scalars -/

/-- C42, integers: what the host sets is what it gets back, and the only change to the machine is one
more object on the stack. -/
theorem C42_integer (vm : VM) (v : Int) :
    (do apiPushInteger; apiSetInteger v; apiCopySignedInteger) vm = .ok v (pushed vm (.integer v)) := by
  unfold apiPushInteger apiSetInteger apiCopySignedInteger
  rw [M.bind_ok (m := push (.integer 0)) (s' := pushed vm (.integer 0)) rfl, M.bind_assoc,
    M.bind_ok (getTop_some (operand_pushed vm (.integer 0)))]
  simp only
  rw [M.bind_ok (setTop_some (operand_pushed vm (.integer 0))), topSet_pushed,
    M.bind_ok (getTop_some (operand_pushed vm (.integer v)))]
  rfl

/-- C42, integers: an integer that is not negative is read back as the same number by the unsigned
function. -/
theorem C42_unsigned_integer (vm : VM) (v : Int) (h : 0 ≤ v) (h' : v < 2 ^ 63) :
    (do apiPushInteger; apiSetInteger v; apiCopyUnsignedInteger) vm =
      .ok v.toNat (pushed vm (.integer v)) := by
  unfold apiPushInteger apiSetInteger apiCopyUnsignedInteger
  rw [M.bind_ok (m := push (.integer 0)) (s' := pushed vm (.integer 0)) rfl, M.bind_assoc,
    M.bind_ok (getTop_some (operand_pushed vm (.integer 0)))]
  simp only
  rw [M.bind_ok (setTop_some (operand_pushed vm (.integer 0))), topSet_pushed,
    M.bind_ok (getTop_some (operand_pushed vm (.integer v)))]
  have : toSize v = v.toNat := by unfold toSize; omega
  show Out.ok (toSize v) _ = _
  rw [this]

/-- C42, booleans. -/
theorem C42_boolean (vm : VM) (v : UInt8) :
    (do apiPushBoolean; apiSetBoolean v; apiCopyBoolean) vm = .ok v (pushed vm (.bool v)) := by
  unfold apiPushBoolean apiSetBoolean apiCopyBoolean
  rw [M.bind_ok (m := push (.bool 0)) (s' := pushed vm (.bool 0)) rfl, M.bind_assoc,
    M.bind_ok (getTop_some (operand_pushed vm (.bool 0)))]
  simp only
  rw [M.bind_ok (setTop_some (operand_pushed vm (.bool 0))), topSet_pushed,
    M.bind_ok (getTop_some (operand_pushed vm (.bool v)))]
  rfl

/-- C42, floats, bit by bit. -/
theorem C42_float (vm : VM) (v : UInt64) :
    (do apiPushFloat; apiSetFloat v; apiCopyFloat) vm = .ok v (pushed vm (.float v)) := by
  unfold apiPushFloat apiSetFloat apiCopyFloat
  rw [M.bind_ok (m := push (.float 0)) (s' := pushed vm (.float 0)) rfl, M.bind_assoc,
    M.bind_ok (getTop_some (operand_pushed vm (.float 0)))]
  simp only
  rw [M.bind_ok (setTop_some (operand_pushed vm (.float 0))), topSet_pushed,
    M.bind_ok (getTop_some (operand_pushed vm (.float v)))]
  rfl

/-- C42, setting: only the topmost object changes, and only to a value of the kind it had. -/
theorem C42_set (vm : VM) :
    (∀ b v, operand vm 1 = some (.bool b) → apiSetBoolean v vm = .ok () (topSet vm (.bool v))) ∧
    (∀ x v, operand vm 1 = some (.integer x) → apiSetInteger v vm = .ok () (topSet vm (.integer v))) ∧
    (∀ x v, operand vm 1 = some (.float x) → apiSetFloat v vm = .ok () (topSet vm (.float v))) := by
  refine ⟨fun b v h => ?_, fun b v h => ?_, fun b v h => ?_⟩
  · unfold apiSetBoolean; rw [M.bind_ok (getTop_some h)]; exact setTop_some h
  · unfold apiSetInteger; rw [M.bind_ok (getTop_some h)]; exact setTop_some h
  · unfold apiSetFloat; rw [M.bind_ok (getTop_some h)]; exact setTop_some h

/-- C42, types and stripped symbols. -/
theorem C42_type_and_symbol_number (vm : VM) (n : Nat) :
    (do apiPushExistingType n; apiCopyType) vm = .ok n (pushed vm (.type n)) ∧
    (do apiPushCompressedSymbol n; apiCopySymbolId) vm = .ok n (pushed vm (.symbol n none)) := by
  constructor
  · unfold apiPushExistingType apiCopyType
    rw [M.bind_ok (m := push (.type n)) (s' := pushed vm (.type n)) rfl,
      M.bind_ok (getTop_some (operand_pushed vm (.type n)))]
    rfl
  · unfold apiPushCompressedSymbol apiCopySymbolId
    rw [M.bind_ok (m := push (.symbol n none)) (s' := pushed vm (.symbol n none)) rfl,
      M.bind_ok (getTop_some (operand_pushed vm (.symbol n none)))]
    rfl

/-- C42: a new type is the one the machine would make next, and no type is made twice. -/
theorem C42_new_type (vm : VM) :
    (do apiPushNewType; apiCopyType) vm = .ok vm.nextUserType
      (pushed { vm with nextUserType := vm.nextUserType + 1 } (.type vm.nextUserType)) := by
  unfold apiPushNewType apiCopyType
  rw [M.bind_ok (m := iMakeType)
      (s' := pushed { vm with nextUserType := vm.nextUserType + 1 } (.type vm.nextUserType)) rfl,
    M.bind_ok (getTop_some (operand_pushed _ (.type vm.nextUserType)))]
  rfl

/-! ### Strings and symbols -/

/-- C42: `copyString` gives the text of the string on top of the stack, and changes nothing. -/
theorem C42_copy_string (vm : VM) (hg : Good vm) (p : Option Nat) (off : Int) (len : Nat)
    (h : operand vm 1 = some (.string p off len)) :
    apiCopyString vm = .ok (text vm (.string p off len)) vm := by
  unfold apiCopyString
  rw [M.bind_ok (getTop_some h)]
  simp only
  cases p with
  | none =>
    obtain ⟨-, h2⟩ := hg.sound.stack _ (operand_mem h)
    rw [if_pos h2]
    rfl
  | some r =>
    obtain ⟨k, v, n, w, rfl, hk, hn, hlt, hcell, hw, hv, hl, -⟩ := string_cell hg h
    rw [text_cell hcell, hw]
    by_cases h0 : len = 0
    · rw [if_pos h0, h0]; simp
    · rw [if_neg h0]
      simp only
      have hsz : stringSize k len = len - k := by
        unfold stringSize toSize; omega
      unfold stringBytes deref
      rw [M.bind_assoc, M.bind_ok (m := M.need (some r)) (a := r) (s' := vm) rfl,
        M.bind_ok (readCell_some hcell)]
      simp only
      rw [hsz]
      by_cases hk' : len - k = 0
      · rw [if_pos hk']
        have : (v.take len).drop k = [] := by
          apply List.drop_eq_nil_of_le
          simp
          omega
        rw [this]
        rfl
      · rw [if_neg hk']
        have hwv : w = some v := by
          cases w with
          | none => simp at hw; subst hw; simp at hv; omega
          | some w => simp at hw; rw [hw]
        rw [hwv, M.bind_ok (m := M.need (some v)) (a := v) (s' := vm) rfl]
        simp only [Int.toNat_natCast]
        rw [if_pos ⟨by omega, by omega⟩, List.drop_take]
        rfl

/-- C42, strings: the bytes the host pushes are the bytes it gets back; nothing the program could see
before has changed.  Otherwise there was no room and the stack is as before. -/
theorem C42_string (vm : VM) (hg : Good vm) (bytes : Bytes) (hn : bytes.length < 2 ^ 63) :
    (∃ vm' o, (do apiPushString bytes; apiCopyString) vm = .ok bytes vm' ∧
        vm'.stack = vm.stack ++ [o] ∧ text vm' o = bytes ∧ Untouched vm vm' [] ∧ Good vm') ∨
    ∃ vm', apiPushString bytes vm = .err .outOfMemory vm' ∧ vm'.stack = vm.stack ∧
      Untouched vm vm' [] ∧ Good vm' := by
  have h := post_newString (U := False) (E := fun e s => e = .outOfMemory ∧ Good s ∧ Carried vm s) hg hn
    (fun s' h1 h2 => ⟨rfl, h1, h2⟩)
  have he : apiPushString bytes = newString bytes >>= push := rfl
  rw [he]
  cases ho : newString bytes vm with
  | ok o s =>
    rw [ho] at h
    have h : NewString vm s o bytes := h
    have hg' := h.good.pushed h.ok
    obtain ⟨r, ho', -, -⟩ := h.value
    refine .inl ⟨pushed s o, o, ?_, ?_, h.text, (h.carried.extends.pushed o).untouched hg, hg'⟩
    · rw [M.bind_assoc, M.bind_ok ho, M.bind_ok (m := push o) (s' := pushed s o) rfl]
      rw [C42_copy_string _ hg' (some r) 0 bytes.length (by rw [operand_pushed, ho'])]
      have : text (pushed s o) o = bytes := h.text
      rw [ho'] at this ⊢
      rw [this]
    · show s.stack ++ _ = _; rw [h.carried.roots.stack]
  | err e s =>
    rw [ho] at h
    obtain ⟨rfl, h1, h2⟩ := h
    refine .inr ⟨s, ?_, h2.roots.stack, h2.extends.untouched hg, h1⟩
    rw [M.bind_run, ho]
  | ub => rw [ho] at h; exact h.elim
  | diverge => rw [ho] at h; exact h.elim

/-- C42, symbols: the number and the name the host pushes are what it gets back. -/
theorem C42_symbol (vm : VM) (hg : Good vm) (id : Nat) (name : Bytes) (hn : name.length < 2 ^ 63) :
    (∃ vm' o, (do apiPushSymbol id name; apiCopySymbolId) vm = .ok id vm' ∧
        (do apiPushSymbol id name; apiCopySymbolName) vm = .ok (some name, some name.length) vm' ∧
        vm'.stack = vm.stack ++ [o] ∧ Untouched vm vm' [] ∧ Good vm') ∨
    ∃ vm', apiPushSymbol id name vm = .err .outOfMemory vm' ∧ vm'.stack = vm.stack ∧
      Untouched vm vm' [] ∧ Good vm' := by
  have h := post_newString (U := False) (E := fun e s => e = .outOfMemory ∧ Good s ∧ Carried vm s) hg hn
    (fun s' h1 h2 => ⟨rfl, h1, h2⟩)
  unfold newString at h
  rw [M.bind_run] at h
  cases ho : pushObject (.internalString (some name) name.length) vm with
  | ok r s =>
    rw [ho] at h
    have h : NewString vm s (.string (some r) 0 name.length) name := h
    obtain ⟨r', hr', -, hl⟩ := h.value
    cases hr'
    have hg' : Good (pushed s (.symbol id (some r))) := h.good.pushed (o := .symbol id (some r)) ⟨_, hl⟩
    have hpush : apiPushSymbol id name vm = .ok () (pushed s (.symbol id (some r))) := by
      unfold apiPushSymbol
      rw [M.bind_ok ho]
      rfl
    obtain ⟨w, hcell, hwn, -⟩ := live_text h.good.sound hl
    have hw : w.getD [] = name := by
      have := h.text
      have ht := text_cell (off := 0) (len := name.length) hcell
      simp only [Int.natCast_zero] at ht
      have h2 : text s (.string (some r) 0 name.length) = w.getD [] := by
        refine ht.trans ?_
        rw [← hwn]
        simp
      rw [← h2, this]
    refine .inl ⟨pushed s (.symbol id (some r)), .symbol id (some r), ?_, ?_, ?_,
      (h.carried.extends.pushed _).untouched hg, hg'⟩
    · rw [M.bind_ok hpush]
      unfold apiCopySymbolId
      rw [M.bind_ok (getTop_some (operand_pushed _ _))]
      rfl
    · rw [M.bind_ok hpush]
      unfold apiCopySymbolName
      rw [M.bind_ok (getTop_some (operand_pushed _ _))]
      simp only
      rw [M.bind_ok (readCell_some (vm := pushed s (.symbol id (some r))) hcell)]
      simp only
      have hb : stringBytes (some r) 0 name.length (pushed s (.symbol id (some r))) =
          .ok name (pushed s (.symbol id (some r))) := by
        unfold stringBytes deref
        rw [M.bind_assoc, M.bind_ok (m := M.need (some r)) (a := r) rfl,
          M.bind_ok (readCell_some (vm := pushed s (.symbol id (some r))) hcell)]
        simp only
        by_cases h0 : name.length = 0
        · rw [if_pos h0, List.length_eq_zero_iff.mp h0]; rfl
        · rw [if_neg h0]
          have hwv : w = some name := by
            cases w with
            | none => simp at hw; subst hw; simp at h0
            | some w => simp at hw; rw [hw]
          rw [hwv, M.bind_ok (m := M.need (some name)) (a := name) rfl]
          rw [if_pos ⟨by omega, by simp⟩]
          simp
      rw [M.bind_ok hb]
      rfl
    · show s.stack ++ _ = _; rw [h.carried.roots.stack]
  | err e s =>
    rw [ho] at h
    obtain ⟨rfl, h1, h2⟩ := h
    refine .inr ⟨s, ?_, h2.roots.stack, h2.extends.untouched hg, h1⟩
    unfold apiPushSymbol
    rw [M.bind_run, ho]
  | ub => rw [ho] at h; exact h.elim
  | diverge => rw [ho] at h; exact h.elim

/-- C42 is false of the code for stripped symbols: the null name comes without its length, the host's
variable for it is not written. -/
theorem C42_stripped_symbol_length_not_set (vm : VM) (id : Nat)
    (h : operand vm 1 = some (.symbol id none)) :
    apiCopySymbolName vm = .ok (none, none) vm := by
  unfold apiCopySymbolName
  rw [M.bind_ok (getTop_some h)]
  rfl

/-! ### Misuse -/

/-- C42: asking for a value of a kind other than that on top of the stack is refused, and nothing
changes. -/
theorem C42_wrong_kind (vm : VM) (o : Obj) (h : operand vm 1 = some o) :
    ((∀ b, o ≠ .bool b) → (∀ v, apiSetBoolean v vm = .err .invalidValue vm) ∧
      apiCopyBoolean vm = .err .invalidValue vm) ∧
    ((∀ x, o ≠ .integer x) → (∀ v, apiSetInteger v vm = .err .invalidValue vm) ∧
      apiCopySignedInteger vm = .err .invalidValue vm ∧
      apiCopyUnsignedInteger vm = .err .invalidValue vm) ∧
    ((∀ x, o ≠ .float x) → (∀ v, apiSetFloat v vm = .err .invalidValue vm) ∧
      apiCopyFloat vm = .err .invalidValue vm) ∧
    ((∀ p i n, o ≠ .string p i n) → apiCopyString vm = .err .invalidValue vm) ∧
    ((∀ i p, o ≠ .symbol i p) → apiCopySymbolId vm = .err .invalidValue vm ∧
      apiCopySymbolName vm = .err .invalidValue vm) ∧
    ((∀ t, o ≠ .type t) → apiCopyType vm = .err .invalidValue vm) ∧
    ((∀ c, o ≠ .composite c) → apiCopyCompositeType vm = .err .invalidValue vm ∧
      apiPushCompositeValue vm = .err .invalidValue vm ∧
      apiPushCompositeFunction vm = .err .invalidValue vm) ∧
    ((∀ n c u a v, o ≠ .closure n c u a v) → apiCopyClosureName vm = .err .invalidValue vm ∧
      apiPushClosureBytecode vm = .err .invalidValue vm ∧
      apiCopyClosureArity vm = .err .invalidValue vm ∧
      apiCopyClosureIsVariadic vm = .err .invalidValue vm) := by
  have g := getTop_some h
  refine ⟨fun ho => ⟨fun v => ?_, ?_⟩, fun ho => ⟨fun v => ?_, ?_, ?_⟩, fun ho => ⟨fun v => ?_, ?_⟩,
    fun ho => ?_, fun ho => ⟨?_, ?_⟩, fun ho => ?_, fun ho => ⟨?_, ?_, ?_⟩, fun ho => ⟨?_, ?_, ?_, ?_⟩⟩
  all_goals
    first
      | unfold apiSetBoolean | unfold apiCopyBoolean | unfold apiSetInteger
      | unfold apiCopySignedInteger | unfold apiCopyUnsignedInteger | unfold apiSetFloat
      | unfold apiCopyFloat | unfold apiCopyString | unfold apiCopySymbolId
      | unfold apiCopySymbolName | unfold apiCopyType | unfold apiCopyCompositeType
      | unfold apiPushCompositeValue | unfold apiPushCompositeFunction | unfold apiCopyClosureName
      | unfold apiPushClosureBytecode | unfold apiCopyClosureArity | unfold apiCopyClosureIsVariadic
    rw [M.bind_ok g]
    cases o <;> first | rfl | (simp at ho; done) | exact absurd rfl (ho _ _ _ _ _)

/-- C42: on an empty stack every one of these functions is refused, and nothing changes. -/
theorem C42_empty_stack (vm : VM) (h : vm.stack = []) :
    (∀ v, apiSetBoolean v vm = .err .bufferUnderflow vm) ∧
    apiCopyBoolean vm = .err .bufferUnderflow vm ∧
    (∀ v, apiSetInteger v vm = .err .bufferUnderflow vm) ∧
    apiCopySignedInteger vm = .err .bufferUnderflow vm ∧
    apiCopyUnsignedInteger vm = .err .bufferUnderflow vm ∧
    (∀ v, apiSetFloat v vm = .err .bufferUnderflow vm) ∧
    apiCopyFloat vm = .err .bufferUnderflow vm ∧ apiCopyString vm = .err .bufferUnderflow vm ∧
    apiCopySymbolId vm = .err .bufferUnderflow vm ∧ apiCopySymbolName vm = .err .bufferUnderflow vm ∧
    apiCopyType vm = .err .bufferUnderflow vm ∧ apiPop vm = .err .bufferUnderflow vm ∧
    apiTypeOf vm = .err .bufferUnderflow vm := by
  have g : ∀ {β : Type} (f : Obj → M β), (getTop >>= f) vm = .err .bufferUnderflow vm := by
    intro β f
    rw [M.bind_run, getTop_none h]
  refine ⟨fun v => g _, g _, fun v => g _, g _, g _, fun v => g _, g _, g _, g _, g _, g _, ?_, g _⟩
  have hp : popStack vm = .err .bufferUnderflow vm := by
    unfold popStack
    rw [h]
    rfl
  unfold apiPop
  rw [M.bind_run, hp]

/-- C42: the tests for pairs and for the empty list tell the truth about the topmost object and
change nothing. -/
theorem C42_list_tests (vm : VM) (o : Obj) (h : operand vm 1 = some o) :
    apiTypeOf vm = .ok o.typeNumber vm ∧
    (∃ b, apiIsCons vm = .ok b vm ∧ (b = true ↔ ∃ r, o = .list (some r))) ∧
    (∃ b, apiIsNil vm = .ok b vm ∧ (b = true ↔ o = .list none)) := by
  have g := getTop_some h
  refine ⟨?_, ?_, ?_⟩
  · unfold apiTypeOf; rw [M.bind_ok g]; rfl
  · unfold apiIsCons apiIs
    rw [M.bind_ok g]
    refine ⟨_, rfl, ?_⟩
    cases o <;> simp
    rename_i p
    cases p <;> simp
  · unfold apiIsNil apiIs
    rw [M.bind_ok g]
    refine ⟨_, rfl, ?_⟩
    cases o <;> simp

/-- C42 is false of the code for globals: storing through the host's interface writes through a null
pointer, on every machine with something on the stack. -/
theorem C42_set_global_undefined (vm : VM) (key : Int) (o : Obj) (h : operand vm 1 = some o) :
    apiSetGlobal key vm = .ub := by
  unfold apiSetGlobal
  rw [M.bind_ok (getTop_some h)]
  rfl

/-! A machine with room for a string, and one without. -/

def hostVM : VM := { heap := [.none, .none], free := [0, 1], stack := [.integer 5], upStack := [none] }

theorem hostVM_good : Good hostVM := by
  refine ⟨⟨by decide, by decide, ?_, by decide, ?_, ?_, ?_, ?_, ?_, ?_⟩, ?_⟩
  · intro r hr o ho
    simp [hostVM] at hr ho
    rcases hr with rfl | rfl <;> simp at ho <;> subst ho <;> simp [OwnsBlock]
  · intro o ho; simp [hostVM] at ho; subst ho; simp [ValueOk]
  · intro r hr; simp [hostVM] at hr
  · intro k r hr; simp [hostVM] at hr
  · intro f hf; simp [hostVM] at hf
  · intro r hr; simp [hostVM] at hr
  · intro r o ho hf
    rcases r with _ | _ | r <;> simp [hostVM] at ho hf
  · intro r o ho hf
    rcases r with _ | _ | r <;> simp [hostVM] at ho hf

example : (do apiPushString [104, 105]; apiCopyString) hostVM = .ok [104, 105]
    (pushed { hostVM with heap := [.internalString (some [104, 105]) 2, .none], free := [1], nextSerial := 1 }
      (.string (some 0) 0 2)) := by decide +kernel
example : apiSetInteger 7 hostVM = .ok () (topSet hostVM (.integer 7)) := rfl
example : hostVM.upStack.length = hostVM.stack.length ∧ hostVM.upStack.length < 2 := by decide
example : operand hostVM 1 = some (.integer 5) := rfl
example : apiPush (-1) hostVM = .ok () (pushed hostVM (.integer 5)) := rfl
example : slot hostVM 1 = none ∧ slot hostVM (-1) = some (.integer 5) := by decide
example : operand (pushed hostVM (.symbol 3 none)) 1 = some (.symbol 3 none) := rfl

#print axioms C42_push_slot
#print axioms C42_copy_from_top
#print axioms C42_push_pop
#print axioms C42_pop_several
#print axioms C42_pop_all
#print axioms C42_nil
#print axioms C42_integer
#print axioms C42_unsigned_integer
#print axioms C42_boolean
#print axioms C42_float
#print axioms C42_set
#print axioms C42_type_and_symbol_number
#print axioms C42_new_type
#print axioms C42_copy_string
#print axioms C42_string
#print axioms C42_symbol
#print axioms C42_stripped_symbol_length_not_set
#print axioms C42_wrong_kind
#print axioms C42_empty_stack
#print axioms C42_list_tests
#print axioms C42_set_global_undefined

end DuckLisp.Props
