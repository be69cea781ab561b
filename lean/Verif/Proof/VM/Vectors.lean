import Verif.Proof.VM.Composites

/-!
# Lemmas about vectors
-/

namespace DuckLisp.VM

open DuckLisp DuckLisp.Spec

set_option linter.unusedSectionVars false

variable [Entries]

theorem toSize_nat {n : Nat} (h : n < 2 ^ 64) : toSize n = n := by
  unfold toSize
  rw [Int.emod_eq_of_lt (by omega) (by omega)]
  omega

theorem toSize_of_lt {i : Int} (h0 : 0 ≤ i) (h : i < 2 ^ 63) : toSize i = i.toNat := by
  unfold toSize
  rw [Int.emod_eq_of_lt h0 (by omega)]

theorem toPtrdiffS_nat {n : Nat} (h : n < 2 ^ 63) : toPtrdiffS n = n := by
  unfold toPtrdiffS
  rw [if_pos h]

theorem vectorStorage_some {s : VM} {r : Nat} {vs : Option (List Slot)} {n : Nat} {i : Bool}
    (h : s.heap[r]? = some (.internalVector vs n i)) : vectorStorage (some r) s = .ok (vs, n) s := by
  unfold vectorStorage
  rw [M.bind_ok (deref_some h)]
  rfl

theorem slotValue_some {s : VM} {vs : Option (List Slot)} {i c : Nat} {o : Obj}
    (h : (vs.getD [])[i]? = some (.ptr (some c))) (ho : s.heap[c]? = some o) :
    slotValue vs (i : Nat) s = .ok o s := by
  cases vs with
  | none => simp at h
  | some slots =>
      unfold slotValue
      rw [M.bind_ok (m := M.need (some slots)) (a := slots) (s' := s) rfl]
      rw [if_pos (by omega)]
      have h' : slots[((i : Nat) : Int).toNat]? = some (.ptr (some c)) := h
      rw [h']
      rw [M.bind_ok (m := M.need (some (Slot.ptr (some c)))) (a := .ptr (some c)) (s' := s) rfl]
      exact deref_some ho

/-- The vector behind a reference on the stack. -/
theorem vector_operand {vm : VM} (hg : Good vm) {b r : Nat} {off : Int}
    (hb : operand vm b = some (.vector (some r) off)) :
    ∃ xs, IsVector vm r xs ∧ xs.length < 2 ^ 60 ∧ 0 ≤ off ∧ off < 2 ^ 60 := by
  obtain ⟨cap, hl, h0, h1⟩ := hg.sound.stack _ (operand_mem hb)
  obtain ⟨vs, n, hcell, ⟨h2, h3, h4⟩, rfl⟩ := live_elements hg hl
  have h5 := h4 rfl
  have key : ∀ i : Fin n, ∃ o, ∃ c, (vs.getD [])[(i : Nat)]? = some (.ptr (some c)) ∧ vm.heap[c]? = some o := by
    intro i
    obtain ⟨c, hc, hlc⟩ := h5 i i.2
    obtain ⟨o, ho, -⟩ := live_value hg.sound hlc
    exact ⟨o, c, hc, ho⟩
  let f := fun i => Classical.choose (key i)
  have hf := fun i => Classical.choose_spec (key i)
  refine ⟨List.ofFn f, ⟨vs, n, hcell, by simp, ?_⟩, by simp; omega, h0, ?_⟩
  · intro i hi
    obtain ⟨c, hc, ho⟩ := hf ⟨i, hi⟩
    exact ⟨c, hc, by rw [ho]; simp [hi, f]⟩
  · rcases h1 with h1 | h1
    · omega
    · have : (((vs.getD []).length : Nat) : Int) < 2 ^ 60 := by exact_mod_cast h3
      omega

/-- Nothing changed that the vector depends on. -/
theorem isVector_congr {vm vm' : VM} {r : Nat} {xs : List Obj} (h : IsVector vm r xs)
    (hr : vm'.heap[r]? = vm.heap[r]?)
    (hc : ∀ c, (∀ vs n, vm.heap[r]? = some (.internalVector vs n true) →
        ∃ i, i < n ∧ (vs.getD [])[i]? = some (.ptr (some c))) → vm'.heap[c]? = vm.heap[c]?) :
    IsVector vm' r xs := by
  obtain ⟨vs, n, hcell, hn, hel⟩ := h
  refine ⟨vs, n, hr.trans hcell, hn, fun i hi => ?_⟩
  obtain ⟨c, h1, h2⟩ := hel i hi
  refine ⟨c, h1, (hc c ?_).trans h2⟩
  intro vs' n' h
  rw [hcell] at h; cases h
  exact ⟨i, hi, h1⟩

theorem traced_element {vm : VM} {r : Nat} (hr : Traced vm r) {vs : Option (List Slot)} {n i c : Nat}
    (hcell : vm.heap[r]? = some (.internalVector vs n true)) (hi : i < n)
    (h : (vs.getD [])[i]? = some (.ptr (some c))) : Traced vm c := by
  cases vs with
  | none => simp at h
  | some slots => exact .step hr hcell (.element hi h) (by simp [UnderConstruction])

theorem setSlot_eq {s : VM} {r k : Nat} {vs : List Slot} {n : Nat} {i : Bool} (p : Nat)
    (h : s.heap[r]? = some (.internalVector (some vs) n i)) (hk : k < vs.length) :
    setSlot r k p s =
      .ok () { s with heap := s.heap.set r (.internalVector (some (vs.set k (.ptr (some p)))) n i) } := by
  unfold setSlot
  rw [M.bind_ok (readCell_some h)]
  simp [hk, writeCell, getElem?_lt h]

/-- Replacing one element of a vector with a new cell. -/
theorem post_setSlot {vm s1 : VM} (hg : Good vm) {r k p : Nat} {x : Obj} {xs : List Obj}
    (hl : ∃ cap, Live vm r (.elements cap)) (hrt : Traced vm r) (hx : IsVector vm r xs)
    (hk : k < xs.length) (hg1 : Good s1) (al : Allocated vm s1 p x) (hlp : Live s1 p .value) :
    ∃ s2, setSlot r k p s1 = .ok () s2 ∧ Good s2 ∧ IsVector s2 r (xs.set k x) ∧
      s2.stack = vm.stack ∧ s2.upStack = vm.upStack ∧
      (∀ c s, Live s1 c s → Live s2 c s) ∧
      ∃ o, s2 = { s1 with heap := s1.heap.set r o } := by
  obtain ⟨cap, hl⟩ := hl
  have c1 := al.carried
  obtain ⟨vs, n, hcell, hn, hel⟩ := hx
  have hcell1 : s1.heap[r]? = some (.internalVector vs n true) := (c1.heap r hrt).trans hcell
  have hl1 := c1.live hrt hl
  have hok := hg1.sound.cells r _ hcell1 hl1.1
  obtain ⟨hn1, hn2, hn3⟩ := hok
  cases vs with
  | none => simp at hn1; omega
  | some slots =>
      have hkl : k < slots.length := by simp at hn1; omega
      have hrp : r ≠ p := ne_of_shape hcell1 al.cell (by
        obtain ⟨_, o, ho, hs⟩ := hlp
        rw [al.cell] at ho; cases ho; rw [hs]; simp [shape])
      refine ⟨_, setSlot_eq p hcell1 hkl, ?_, ?_, c1.roots.stack, c1.roots.upStack, ?_, _, rfl⟩
      · refine hg1.write hcell1 hl1.1 (by simp [shape]) ⟨by simpa using hn1, by simpa using hn2, ?_⟩
          (by simp [UnderConstruction])
        intro _ i hi
        by_cases hik : k = i
        · subst hik
          exact ⟨p, by simp [hkl], hlp⟩
        · obtain ⟨c, hc, hlc⟩ := hn3 rfl i hi
          exact ⟨c, by simp only [Option.getD_some] at hc ⊢; rw [List.getElem?_set_ne hik]; exact hc, hlc⟩
      · refine ⟨some (slots.set k (.ptr (some p))), n, by simp [getElem?_lt hcell1], by simpa using hn, ?_⟩
        intro i hi
        by_cases hik : k = i
        · subst hik
          refine ⟨p, by simp [hkl], ?_⟩
          show (s1.heap.set r _)[p]? = _
          rw [List.getElem?_set_ne hrp, al.cell]
          simp [hk]
        · obtain ⟨c, hc, ho⟩ := hel i hi
          have hct := traced_element hrt hcell hi hc
          obtain ⟨c', hc', hlc⟩ := hn3 rfl i hi
          rw [hc] at hc'; cases hc'
          obtain ⟨_, o, ho1, hs⟩ := hlc
          have hrc : r ≠ c := ne_of_shape hcell1 ho1 (by rw [hs]; simp [shape])
          refine ⟨c, by simp only [Option.getD_some] at hc ⊢; rw [List.getElem?_set_ne hik]; exact hc, ?_⟩
          show (s1.heap.set r _)[c]? = _
          rw [List.getElem?_set_ne hrc, c1.heap c hct, ho, List.getElem?_set_ne hik]
      · intro c s h
        exact live_write (o' := .internalVector (some (slots.set k (.ptr (some p)))) n true) hcell1
          (by simp [shape]) h

/-- `set-vec-elt`, where `j` is the position in the storage. -/
theorem post_setVecElt {vm : VM} (hg : Good vm) {a b c r off j : Nat} {i : Int} {x : Obj} {xs : List Obj}
    (ha : operand vm a = some (.vector (some r) off)) (hb : operand vm b = some (.integer i))
    (hc : operand vm c = some x) (hx : IsVector vm r xs) (hij : i + off = j)
    (hin : j < 2 ^ 63) :
    Post False (fun e s' => (e = .invalidValue ∧ s' = vm ∧ xs.length ≤ j) ∨
        (e = .outOfMemory ∧ Good s' ∧ Extends vm s' ∧ j < xs.length))
      (fun _ s' => j < xs.length ∧ Good s' ∧ Untouched vm s' [r] ∧
        IsVector s' r (xs.set (j) x) ∧
        s'.stack = vm.stack ++ [x] ∧ s'.upStack = vm.upStack ++ [none])
      (iSetVecElt a b c vm) := by
  obtain ⟨cap, hl, h0, h1⟩ := hg.sound.stack _ (operand_mem ha)
  have hrt : Traced vm r := pinned_stack hg.sound (operand_mem ha) r .vector
  have hx' := hx
  obtain ⟨vs, n, hcell, hn, hel⟩ := hx'
  unfold iSetVecElt
  rw [M.bind_ok (getArg_some ha)]
  simp only
  rw [M.bind_ok (getArg_some hb)]
  simp only
  rw [M.bind_ok (getArg_some hc), M.bind_ok (vectorStorage_some hcell)]
  simp only
  have hin' : InRange (i + off) := by unfold InRange; omega
  rw [M.bind_ok (ckInt_ok hin')]
  have hsz : toSize (i + off) = j := by
    rw [toSize_of_lt (by omega) (by omega)]; omega
  rw [hsz]
  by_cases hlt : j < n
  · rw [if_neg (by omega)]
    refine Post.bind (post_copy hg (operand_mem hc)
      (fun s' h1 h2 => .inr ⟨rfl, h1, h2.extends, by omega⟩)) ?_
    rintro p s1 ⟨hg1, al, hlp, hv⟩
    rw [M.bind_ok (m := M.need (some r)) (a := r) (s' := s1) rfl]
    obtain ⟨s2, h2, hg2, hv2, hst, hup, hlive, o, rfl⟩ :=
      post_setSlot (k := j) hg ⟨cap, hl⟩ hrt hx (by omega) hg1 al hlp
    rw [M.bind_ok h2]
    refine post_push ⟨by omega, hg2.pushed ?_, ?_, ?_, ?_, ?_⟩
    · exact valueOk_congr hv (fun c s _ h => hlive c s h)
    · exact al.carried.extends.untouched_write hg r _ _ _
    · exact isVector_congr hv2 rfl (fun _ _ => rfl)
    · show s1.stack ++ _ = _
      rw [al.carried.roots.stack]
    · show s1.upStack ++ _ = _
      rw [al.carried.roots.upStack]
  · rw [if_pos (by omega)]
    exact .inl ⟨rfl, rfl, by omega⟩

/-- `set-car` of a vector. -/
theorem post_setCar_vector {vm : VM} (hg : Good vm) {a b r off : Nat} {x : Obj} {xs : List Obj}
    (ha : operand vm a = some x) (hb : operand vm b = some (.vector (some r) off))
    (hx : IsVector vm r xs) (hoff : off < xs.length) :
    Post False (fun e s' => e = .outOfMemory ∧ Good s' ∧ Extends vm s')
      (fun _ s' => Good s' ∧ Untouched vm s' [r] ∧ IsVector s' r (xs.set off x) ∧
        s'.stack = vm.stack ++ [.vector (some r) off] ∧ s'.upStack = vm.upStack ++ [none])
      (iSetCar a b vm) := by
  have hv0 := hg.sound.stack _ (operand_mem hb)
  obtain ⟨cap, hl, h0, h1⟩ := hv0
  have hrt : Traced vm r := pinned_stack hg.sound (operand_mem hb) r .vector
  unfold iSetCar
  rw [M.bind_ok (getArg_some ha), M.bind_ok (getArg_some hb)]
  simp only
  refine Post.bind (post_copy hg (operand_mem ha)
    (fun s' h1 h2 => ⟨rfl, h1, h2.extends⟩)) ?_
  rintro p s1 ⟨hg1, al, hlp, hv⟩
  rw [if_pos (by omega)]
  obtain ⟨s2, h2, hg2, hv2, hst, hup, hlive, o, rfl⟩ :=
    post_setSlot hg ⟨cap, hl⟩ hrt hx hoff hg1 al hlp
  rw [show ((off : Nat) : Int).toNat = off from by omega, M.bind_ok h2]
  refine post_push ⟨hg2.pushed ?_, ?_, ?_, ?_, ?_⟩
  · exact ⟨cap, hlive _ _ (al.carried.live hrt hl), h0, h1⟩
  · exact al.carried.extends.untouched_write hg r _ _ _
  · exact isVector_congr hv2 rfl (fun _ _ => rfl)
  · show s1.stack ++ _ = _
    rw [al.carried.roots.stack]
  · show s1.upStack ++ _ = _
    rw [al.carried.roots.upStack]

/-! ### Making vectors -/

theorem set_same {l : List Obj} {r : Nat} {o : Obj} (h : l[r]? = some o) : l.set r o = l := by
  apply List.ext_getElem?
  intro k
  by_cases hk : r = k
  · subst hk; rw [List.getElem?_set_self (getElem?_lt h), h]
  · rw [List.getElem?_set_ne hk]


/-- While a vector of `n` elements is being built in cell `r`, and is on top of the stack. -/
structure Building (vm s : VM) (r n : Nat) (slots : Option (List Slot)) : Prop where
  sound : Sound s
  cell : s.heap[r]? = some (.internalVector slots n false)
  size : (slots.getD []).length = n
  notFree : r ∉ s.free
  others : ∀ r' o, r' ≠ r → s.heap[r']? = some o → r' ∉ s.free → ¬ UnderConstruction o
  stack : s.stack = vm.stack ++ [.vector (some r) 0]
  upStack : s.upStack = vm.upStack
  keeps : Extends vm s
  fresh : ¬ Traced vm r

theorem Building.traced {vm s : VM} {r n : Nat} {slots : Option (List Slot)}
    (h : Building vm s r n slots) : Traced s r :=
  pinned_stack h.sound (o := .vector (some r) 0) (by rw [h.stack]; simp) r .vector

variable {U : Prop} {E : DlError → VM → Prop}

theorem post_begin {vm : VM} (hg : Good vm) {n : Nat} (hn : n < 2 ^ 60)
    (hE : ∀ s', Good s' → Carried vm s' → E .outOfMemory s') :
    Post U E (fun r s1 => ∃ slots,
        Building vm { s1 with stack := s1.stack ++ [.vector (some r) 0] } r n slots ∧
        ∃ m, Allocated vm s1 r (store m (.internalVector none n false)))
      (pushObject (.internalVector none n false) vm) := by
  have hst : ∀ m, ∃ slots : Option (List Slot), store m (.internalVector none n false) =
      .internalVector slots n false ∧ (slots.getD []).length = n := by
    intro m
    by_cases h0 : n = 0
    · subst h0; exact ⟨none, rfl, rfl⟩
    · exact ⟨some (List.replicate n .uninit), by simp [store, h0], by simp⟩
  refine (post_allocCell (o := .internalVector none n false) hg.sound ?_ ?_
    (fun s' h1 h2 h3 => hE s' ⟨h1, h3.finished hg.finished⟩ h2)).imp ?_
  · intro m
    obtain ⟨slots, h1, h2⟩ := hst m
    rw [h1]
    exact ⟨by omega, by omega, fun h => by simp at h⟩
  · intro m r hu
    obtain ⟨slots, h1, h2⟩ := hst m
    rw [h1] at hu
    exact absurd rfl hu
  · rintro r s1 ⟨m, hal, -⟩
    have hal' := hal
    obtain ⟨slots, h1, h2⟩ := hst m
    rw [h1] at hal
    refine ⟨slots, ⟨?_, hal.cell, h2, hal.notFree, ?_, ?_, hal.carried.roots.upStack, ?_, hal.fresh⟩,
      m, hal'⟩
    · refine sound_stacks hal.sound _ s1.upStack ?_ (fun r h => hal.sound.captured r h)
      intro x hx
      rcases List.mem_append.mp hx with hx | hx
      · exact hal.sound.stack x hx
      · simp at hx; subst hx
        exact ⟨(slots.getD []).length, hal.live, by omega, .inl rfl⟩
    · intro r' o hr' ho hf
      obtain ⟨a1, a2⟩ := hal.others r' o hr' ho hf
      exact hg.finished r' o a1 a2
    · show s1.stack ++ _ = _
      rw [hal.carried.roots.stack]
    · exact hal.carried.extends.stacks _ _ (fun o h => List.mem_append_left _ h) (fun _ h => h)

/-- The last part of `vector` and `make-vector`. -/
theorem post_finishVector {vm s : VM} {r n : Nat} {slots : Option (List Slot)} {xs : List Obj}
    (h : Building vm s r n slots) (hn : n = xs.length)
    (hel : ∀ i, i < n → ∃ c, (slots.getD [])[i]? = some (.ptr (some c)) ∧ s.heap[c]? = xs[i]? ∧
      Live s c .value) :
    Post U E (fun _ s' => Good s' ∧ Extends vm s' ∧ IsVector s' r xs ∧
        s'.stack = vm.stack ++ [.vector (some r) 0] ∧ s'.upStack = vm.upStack ++ [none])
      ((do
        pushUpOnly none
        setInitialized r
        let n ← height
        setStackAt (n - 1) (.vector (some r) 0) : M Unit) s) := by
  refine Post.bind (post_modify (Q := fun _ s' => s' = { s with upStack := s.upStack ++ [none] }) rfl) ?_
  rintro - s1 rfl
  have hcell := h.cell
  have hlt := getElem?_lt hcell
  have hinit : setInitialized r { s with upStack := s.upStack ++ [none] } =
      .ok () { s with heap := s.heap.set r (.internalVector slots n true), upStack := s.upStack ++ [none] } := by
    unfold setInitialized
    rw [M.bind_ok (s := { s with upStack := s.upStack ++ [none] }) (readCell_some hcell)]
    simp [writeCell, hlt]
  rw [M.bind_ok hinit]
  refine Post.bind (post_height (Q := fun k s' => k = s.stack.length ∧ s' =
    { s with heap := s.heap.set r (.internalVector slots n true), upStack := s.upStack ++ [none] })
    ⟨rfl, rfl⟩) ?_
  rintro k s2 ⟨rfl, rfl⟩
  have hlen : s.stack.length = vm.stack.length + 1 := by rw [h.stack]; simp
  have hset : s.stack.set (((s.stack.length : Nat) : Int) - 1).toNat (.vector (some r) 0) = s.stack := by
    have : (((s.stack.length : Nat) : Int) - 1).toNat = vm.stack.length := by omega
    rw [this, h.stack, set_last]
  have hok : CellOk s (.internalVector slots n true) := by
    obtain ⟨h1, h2, -⟩ := h.sound.cells r _ hcell h.notFree
    refine ⟨h1, h2, fun _ i hi => ?_⟩
    obtain ⟨c, hc1, hc2, hc3⟩ := hel i hi
    exact ⟨c, hc1, hc3⟩
  have hs2 : Sound { s with heap := s.heap.set r (.internalVector slots n true) } :=
    sound_write h.sound hcell h.notFree rfl
      (cellOk_congr hok (fun _ r' s' _ hl => live_write (o' := .internalVector slots n true) hcell rfl hl))
  refine post_setStackAt (fun hh => (hh ⟨by show (0 : Int) ≤ (s.stack.length : Nat) - 1; omega, by show _ < s.stack.length; omega⟩).elim) (fun _ _ => ?_)
  show Good { s with heap := _, stack := s.stack.set _ _, upStack := _ } ∧ _
  rw [hset]
  refine ⟨⟨?_, ?_⟩, ?_, ?_, h.stack, by show s.upStack ++ _ = _; rw [h.upStack]⟩
  · refine sound_stacks hs2 _ _ (fun o ho => hs2.stack o ho) ?_
    intro r' hr'
    rcases List.mem_append.mp hr' with hr' | hr'
    · exact hs2.captured r' hr'
    · simp at hr'
  · intro r' o ho hf
    by_cases hrr : r = r'
    · subst hrr
      have : (s.heap.set r (.internalVector slots n true))[r]? = some o := ho
      rw [List.getElem?_set_self hlt] at this
      cases this
      simp [UnderConstruction]
    · have : (s.heap.set r (.internalVector slots n true))[r']? = some o := ho
      rw [List.getElem?_set_ne hrr] at this
      exact h.others r' o (Ne.symm hrr) this hf
  · exact (h.keeps.write _ h.fresh).stacks _ _ (fun _ h => h) (fun _ h => List.mem_append_left _ h)
  · refine ⟨slots, n, by simp [hlt], hn, fun i hi => ?_⟩
    obtain ⟨c, hc1, hc2, -, o, ho, hs⟩ := hel i hi
    have hrc : r ≠ c := ne_of_shape hcell ho (by rw [hs]; simp [shape])
    refine ⟨c, hc1, ?_⟩
    show (s.heap.set r _)[c]? = _
    rw [List.getElem?_set_ne hrc]; exact hc2

/-- The state after the fill loop of `make-vector`. -/
def filled (s : VM) (r p n : Nat) : VM :=
  { s with heap := s.heap.set r (.internalVector (some (List.replicate n (.ptr (some p)))) n false) }

/-- `make-vector`. -/
theorem post_makeVector {vm : VM} (hg : Good vm) {a b n : Nat} {x : Obj}
    (ha : operand vm a = some (.integer n)) (hn : n < 2 ^ 60) (hb : operand vm b = some x) :
    Post False (fun e s' => e = .outOfMemory ∧ Sound s' ∧ Extends vm s')
      (fun _ s' => ∃ r, Good s' ∧ Extends vm s' ∧ ¬ Traced vm r ∧
        IsVector s' r (List.replicate n x) ∧ s'.stack = vm.stack ++ [.vector (some r) 0] ∧
        s'.upStack = vm.upStack ++ [none])
      (iMakeVector a b vm) := by
  unfold iMakeVector
  rw [M.bind_ok (getArg_some ha)]
  simp only
  rw [if_neg (by omega), if_neg (by omega), M.bind_ok (getArg_some hb)]
  rw [show ((n : Nat) : Int).toNat = n from by omega]
  refine Post.bind (post_begin hg hn (fun s' h1 h2 => ⟨rfl, h1.sound, h2.extends⟩)) ?_
  rintro r s1 ⟨slots, hb1, m, hal⟩
  refine Post.bind (post_modify (Q := fun _ s => s = { s1 with stack := s1.stack ++ [.vector (some r) 0] }) rfl) ?_
  rintro - s2 rfl
  have hx1 : x ∈ s1.stack ++ [.vector (some r) 0] := List.mem_append_left _ (hal.mem (operand_mem hb))
  have hv2 := hb1.sound.stack x hx1
  refine Post.bind (post_alloc hb1.sound hv2 (pinned_stack hb1.sound hx1)
    (fun s' h1 h2 h3 => ⟨rfl, h1, hb1.keeps.trans h2.extends⟩)) ?_
  rintro p s3 ⟨al3, -⟩
  have hcell3 : s3.heap[r]? = some (.internalVector slots n false) :=
    (al3.carried.heap r hb1.traced).trans hb1.cell
  have hnf3 : r ∉ s3.free := al3.carried.free r hb1.traced hb1.notFree
  have hlp : Live s3 p .value := by have := al3.live; rwa [shape_value hv2] at this
  have hrp : r ≠ p := ne_of_shape hcell3 al3.cell (by rw [shape_value hv2]; simp [shape])
  have hlt3 := getElem?_lt hcell3
  have hothers3 : ∀ r' o, r' ≠ r → s3.heap[r']? = some o → r' ∉ s3.free → ¬ UnderConstruction o := by
    intro r' o hr' ho hf
    by_cases hpp : r' = p
    · subst hpp
      rw [al3.cell] at ho; cases ho
      exact valueOk_settled hv2
    · obtain ⟨a1, a2⟩ := al3.others r' o hpp ho hf
      exact hb1.others r' o hr' a1 a2
  have hst3 : s3.stack = vm.stack ++ [.vector (some r) 0] := al3.carried.roots.stack.trans hb1.stack
  have hup3 : s3.upStack = vm.upStack := al3.carried.roots.upStack.trans hb1.upStack
  by_cases hn0 : n = 0
  · subst hn0
    have hfill : fillSlots r p s3 = .ok () s3 := by
      unfold fillSlots
      rw [M.bind_ok (readCell_some hcell3)]
      cases slots with
      | none => rfl
      | some l =>
          have : l = [] := by have := hb1.size; simpa using this
          subst this
          simp only [List.length_nil, Nat.le_refl, if_true, List.replicate_zero, List.drop_nil,
            List.append_nil, writeCell, hlt3]
          rw [set_same hcell3]
    rw [M.bind_ok hfill]
    refine (post_finishVector (vm := vm) (r := r) (n := 0) (slots := slots) (xs := []) ⟨al3.sound, hcell3,
      hb1.size, hnf3, hothers3, hst3, hup3, hb1.keeps.trans al3.carried.extends, hb1.fresh⟩ rfl
      (fun i hi => by omega)).imp ?_
    rintro - s' ⟨h1, h2, h3, h4, h5⟩
    exact ⟨r, h1, h2, hb1.fresh, h3, h4, h5⟩
  · have hsome : ∃ l, slots = some l ∧ l.length = n := by
      cases slots with
      | none => have := hb1.size; simp at this; omega
      | some l => exact ⟨l, rfl, by simpa using hb1.size⟩
    obtain ⟨l, rfl, hl⟩ := hsome
    have hfill : fillSlots r p s3 = .ok () (filled s3 r p n) := by
      unfold fillSlots
      rw [M.bind_ok (readCell_some hcell3)]
      have hd : l.drop n = [] := List.drop_eq_nil_of_le (by omega)
      simp [hl, writeCell, hlt3, filled, hd]
    rw [M.bind_ok hfill]
    have hsh : shape (.internalVector (some (List.replicate n (.ptr (some p)))) n false) =
        shape (.internalVector (some l) n false) := by simp [shape, hl]
    have hlive : ∀ c s, Live s3 c s → Live (filled s3 r p n) c s :=
      fun c s h => live_write hcell3 hsh h
    refine (post_finishVector (vm := vm) (r := r) (n := n)
      (s := filled s3 r p n) (slots := some (List.replicate n (.ptr (some p)))) (xs := List.replicate n x)
      ⟨?_, by simp [hlt3, filled], by simp, hnf3, ?_, hst3, hup3,
        (hb1.keeps.trans al3.carried.extends).write _ hb1.fresh, hb1.fresh⟩ (by simp) ?_).imp ?_
    · refine sound_write al3.sound hcell3 hnf3 hsh ⟨by simp, by simpa using hn, fun h => by simp at h⟩
    · intro r' o hr' ho hf
      have : (s3.heap.set r _)[r']? = some o := ho
      rw [List.getElem?_set_ne (Ne.symm hr')] at this
      exact hothers3 r' o hr' this hf
    · intro i hi
      refine ⟨p, by simp [hi], ?_, hlive _ _ hlp⟩
      show (s3.heap.set r _)[p]? = _
      rw [List.getElem?_set_ne hrp, al3.cell]
      simp [hi]
    · rintro - s' ⟨h1, h2, h3, h4, h5⟩
      exact ⟨r, h1, h2, hb1.fresh, h3, h4, h5⟩

/-! ### `vector` without a collection -/

theorem pushObject_take {s : VM} {o : Obj} {c : Nat} {free : List Nat} (h : s.free = c :: free) :
    pushObject o s = .ok c
      { s with heap := s.heap.set c (store s.nextSerial o), free := free, nextSerial := s.nextSerial + 1 } := by
  unfold pushObject
  rw [if_neg (by rw [h]; simp)]
  unfold takeFree
  rw [h]

theorem alloc_take {s : VM} (hs : Sound s) {o : Obj} (hv : ValueOk s o) (hp : Pinned s o)
    (h : s.free ≠ []) :
    ∃ c s', pushObject o s = .ok c s' ∧ Allocated s s' c o ∧ (Finished s → Finished s') ∧
      s'.free.length + 1 = s.free.length ∧
      ∀ c', c' ∉ s.free → s'.heap[c']? = s.heap[c']? ∧ c' ∉ s'.free := by
  cases hf : s.free with
  | nil => exact absurd hf h
  | cons c free =>
      have he := pushObject_take (o := o) hf
      obtain ⟨h1, h2⟩ := alloc_value hs hv hp he
      refine ⟨c, _, he, h1, h2, by simp, ?_⟩
      intro c' hc'
      have hne : c ≠ c' := fun e => hc' (by simp [e])
      refine ⟨?_, fun hm => hc' (List.mem_cons_of_mem _ hm)⟩
      show (s.heap.set c _)[c']? = _
      rw [List.getElem?_set_ne hne]

theorem getAbs_operand {vm : VM} {a : Nat} {x o : Obj} (ha : operand vm a = some x) {s : VM}
    (hs : s.stack = vm.stack ++ [o]) :
    a ≤ vm.stack.length ∧ getAbs (((s.stack.length - 1 : Nat) : Int) - a) s = .ok x s := by
  have h0 : a ≠ 0 := by rintro rfl; simp [operand] at ha
  simp only [operand, if_neg h0] at ha
  have hlt := getElem?_lt ha
  rw [List.length_reverse] at hlt
  rw [List.getElem?_reverse hlt] at ha
  refine ⟨by omega, ?_⟩
  have hlen : s.stack.length = vm.stack.length + 1 := by rw [hs]; simp
  unfold getAbs
  rw [if_pos (by omega)]
  have : (((s.stack.length - 1 : Nat) : Int) - a).toNat = vm.stack.length - 1 - (a - 1) := by omega
  rw [this, hs, List.getElem?_append_left (by omega), ha]
  rfl

theorem vectorLoop_ok {vm : VM} {r n : Nat} {xs : List Obj} :
    ∀ (as : List Nat) (k : Nat) (s : VM) (slots : Option (List Slot)),
      Building vm s r n slots → k + as.length = n → as.length ≤ s.free.length →
      (∀ j, j < as.length → ∃ a x, as[j]? = some a ∧ xs[k + j]? = some x ∧ operand vm a = some x) →
      (∀ i, i < k → ∃ c, (slots.getD [])[i]? = some (.ptr (some c)) ∧ s.heap[c]? = xs[i]? ∧
        Live s c .value) →
      ∃ s' slots', vectorLoop r k as s = .ok () s' ∧ Building vm s' r n slots' ∧
        (∀ i, i < n → ∃ c, (slots'.getD [])[i]? = some (.ptr (some c)) ∧ s'.heap[c]? = xs[i]? ∧
          Live s' c .value) := by
  intro as
  induction as with
  | nil =>
      intro k s slots hb hk _ _ hel
      exact ⟨s, slots, rfl, hb, by simpa [← hk] using hel⟩
  | cons a as ih =>
      intro k s slots hb hk hfree hops hel
      obtain ⟨a', x, ha', hx, hop⟩ := hops 0 (by simp)
      simp at ha'; subst ha'
      have hlen : s.stack.length = vm.stack.length + 1 := by rw [hb.stack]; simp
      obtain ⟨hle, hget⟩ := getAbs_operand hop hb.stack
      have hxs : x ∈ s.stack := by rw [hb.stack]; exact List.mem_append_left _ (operand_mem hop)
      have hv := hb.sound.stack x hxs
      obtain ⟨c, s1, he, al, -, hfl, hsame⟩ := alloc_take hb.sound hv (pinned_stack hb.sound hxs)
        (by intro h; rw [h] at hfree; simp at hfree)
      have hcell1 : s1.heap[r]? = some (.internalVector slots n false) := by
        rw [(hsame r hb.notFree).1]; exact hb.cell
      have hnf1 : r ∉ s1.free := (hsame r hb.notFree).2
      have hlc : Live s1 c .value := by have := al.live; rwa [shape_value hv] at this
      have hrc : r ≠ c := ne_of_shape hcell1 al.cell (by rw [shape_value hv]; simp [shape])
      have hlt1 := getElem?_lt hcell1
      simp only [List.length_cons] at hk hfree
      have hsome : ∃ l, slots = some l ∧ l.length = n := by
        have := hb.size
        cases slots with
        | none => simp at this; omega
        | some l => exact ⟨l, rfl, by simpa using this⟩
      obtain ⟨l, rfl, hl⟩ := hsome
      let l' := l.set k (.ptr (some c))
      let s2 : VM := { s1 with heap := s1.heap.set r (.internalVector (some l') n false) }
      have hset : setSlot r k c s1 = .ok () s2 := setSlot_eq c hcell1 (by omega)
      have hsh : shape (.internalVector (some l') n false) = shape (.internalVector (some l) n false) := by
        simp [shape, l']
      have hlive : ∀ c' sh, Live s1 c' sh → Live s2 c' sh := fun c' sh h => live_write hcell1 hsh h
      have hb2 : Building vm s2 r n (some l') := by
        refine ⟨?_, by simp [s2, hlt1], by simp [l', hl], hnf1, ?_, al.carried.roots.stack.trans hb.stack,
          al.carried.roots.upStack.trans hb.upStack,
          (hb.keeps.trans al.carried.extends).write _ hb.fresh, hb.fresh⟩
        · have hok := hb.sound.cells r _ hb.cell hb.notFree
          refine sound_write al.sound hcell1 hnf1 hsh ⟨by simpa [l'] using hok.1, by simpa [l'] using hok.2.1,
            fun h => by simp at h⟩
        · intro r' o hr' ho hf
          have ho' : (s1.heap.set r _)[r']? = some o := ho
          rw [List.getElem?_set_ne (Ne.symm hr')] at ho'
          by_cases hpp : r' = c
          · subst hpp
            rw [al.cell] at ho'; cases ho'
            exact valueOk_settled hv
          · obtain ⟨a1, a2⟩ := al.others r' o hpp ho' hf
            exact hb.others r' o hr' a1 a2
      have hA : ∀ j, j < as.length → ∃ a x, as[j]? = some a ∧ xs[k + 1 + j]? = some x ∧
          operand vm a = some x := by
        intro j hj
        obtain ⟨a2, x2, q1, q2, q3⟩ := hops (j + 1) (by simp; omega)
        exact ⟨a2, x2, by simpa using q1, by rw [← q2]; congr 1; omega, q3⟩
      have hB : ∀ i, i < k + 1 → ∃ c, ((some l').getD [])[i]? = some (.ptr (some c)) ∧
          s2.heap[c]? = xs[i]? ∧ Live s2 c .value := by
        intro i hi
        by_cases hik : k = i
        · subst hik
          refine ⟨c, ?_, ?_, hlive _ _ hlc⟩
          · show (l.set k _)[k]? = _
            exact List.getElem?_set_self (by omega)
          show (s1.heap.set r _)[c]? = _
          rw [List.getElem?_set_ne hrc, al.cell]
          simpa using hx.symm
        · obtain ⟨c', q1, q2, q3⟩ := hel i (by omega)
          obtain ⟨w1, w2⟩ := hsame c' q3.1
          have hlc' : Live s1 c' .value := by
            obtain ⟨-, o, ho, hs⟩ := q3
            exact ⟨w2, o, by rw [w1]; exact ho, hs⟩
          have ⟨_, o, ho, hs⟩ := hlc'
          have hrc' : r ≠ c' := ne_of_shape hcell1 ho (by rw [hs]; simp [shape])
          refine ⟨c', ?_, ?_, hlive _ _ hlc'⟩
          · simp only [Option.getD_some, l'] at q1 ⊢
            rw [List.getElem?_set_ne hik]; exact q1
          · show (s1.heap.set r _)[c']? = _
            rw [List.getElem?_set_ne hrc', w1]; exact q2
      obtain ⟨s', slots', h1, h2, h3⟩ := ih (k + 1) s2 (some l') hb2 (by omega)
        (by show as.length ≤ s1.free.length; omega) hA hB
      refine ⟨s', slots', ?_, h2, h3⟩
      rw [vectorLoop, M.bind_ok (m := height) (a := s.stack.length) (s' := s) rfl]
      rw [if_neg (by omega), M.bind_ok hget, M.bind_ok he, M.bind_ok hset]
      exact h1

/-- `vector`, if there is room for all of it. -/
theorem vector_ok {vm : VM} (hg : Good vm) {as : List Nat} {xs : List Obj} (hn : as.length < 2 ^ 60)
    (hxs : as.map (operand vm) = xs.map some) (hfree : as.length < vm.free.length) :
    ∃ r s', iVector as vm = .ok () s' ∧ Good s' ∧ Extends vm s' ∧ ¬ Traced vm r ∧ IsVector s' r xs ∧
      s'.stack = vm.stack ++ [.vector (some r) 0] ∧ s'.upStack = vm.upStack ++ [none] := by
  have hlen : as.length = xs.length := by simpa using congrArg List.length hxs
  cases hf : vm.free with
  | nil => rw [hf] at hfree; simp at hfree
  | cons c free =>
      have he := pushObject_take (o := .internalVector none as.length false) hf
      obtain ⟨slots, hb, m, hal⟩ := (post_begin (U := True) (E := fun _ _ => True) hg hn
        (fun _ _ _ => trivial)).ok he
      rw [hf] at hfree
      simp only [List.length_cons] at hfree
      obtain ⟨s', slots', h1, h2, h3⟩ := vectorLoop_ok (xs := xs) as 0 _ slots hb (by omega)
        (by show as.length ≤ free.length; omega) (by
          intro j hj
          have := congrArg (fun l => l[j]?) hxs
          simp only [List.getElem?_map] at this
          have ha : as[j]? = some as[j] := List.getElem?_eq_getElem hj
          have hx : xs[j]? = some xs[j] := List.getElem?_eq_getElem (by omega)
          rw [ha, hx] at this
          simp at this
          exact ⟨_, _, ha, by rw [Nat.zero_add]; exact hx, this⟩) (fun i hi => by omega)
      have hfin := post_finishVector (U := False) (E := fun _ _ => False) h2 hlen h3
      have hi : iVector as vm = ((do
        pushUpOnly none
        setInitialized c
        let n ← height
        setStackAt (n - 1) (.vector (some c) 0) : M Unit) s') := by
        unfold iVector
        rw [M.bind_ok he]
        rw [M.bind_ok (m := pushStackOnly _) (a := ()) rfl]
        rw [M.bind_ok h1]
      rw [← hi] at hfin
      cases ho : iVector as vm with
      | ok u s2 =>
          rw [ho] at hfin
          obtain ⟨q1, q2, q3, q4, q5⟩ := hfin
          exact ⟨c, s2, rfl, q1, q2, hb.fresh, q3, q4, q5⟩
      | err e s2 => rw [ho] at hfin; exact hfin.elim
      | ub => rw [ho] at hfin; exact hfin.elim
      | diverge => rw [ho] at hfin; exact hfin.elim

end DuckLisp.VM
