import Verif.Proof.VM.Host
import Verif.Props.VM.Lists
import Verif.Props.VM.Pairs
import Verif.Props.VM.Vectors
import Verif.Props.VM.Strings

/-!
# C43: the host's access to sequences agrees with the language

The host works on the topmost object, which is operand 1 of an instruction.
-/

namespace DuckLisp.VM

open DuckLisp DuckLisp.Spec

/-! ### Where they agree -/

/-- C43, lists: `duckVM_pushFirst` and `duckVM_pushRest` do to a list what `car` and `cdr` do, the
empty list included. -/
theorem C43_list_partial (env : Env) (bc : Nat) (st nx : CodePtr) (vm : VM) (hg : Good vm)
    (p : Option Nat) (h : operand vm 1 = some (.list p)) :
    ∃ x y, apiPushFirst vm = .ok () (pushed vm x) ∧ apiPushRest vm = .ok () (pushed vm y) ∧
      exec env bc st nx (.car 1) vm = .ok (.goto nx) (pushed vm x) ∧
      exec env bc st nx (.cdr 1) vm = .ok (.goto nx) (pushed vm y) ∧
      (∀ r, p = some r → IsPair vm r x y) ∧ (p = none → x = .list none ∧ y = .list none) := by
  rcases C30_lists_are_pairs vm hg 1 p h with rfl | ⟨r, x, y, rfl, hr⟩
  · refine ⟨.list none, .list none, ?_, ?_, (C30_nil env bc st nx vm 1 h).1,
      (C30_nil env bc st nx vm 1 h).2, (by intro r hr; cases hr), fun _ => ⟨rfl, rfl⟩⟩
    · unfold apiPushFirst; rw [M.bind_ok (getTop_some h)]; rfl
    · unfold apiPushRest; rw [M.bind_ok (getTop_some h)]; rfl
  · refine ⟨x, y, ?_, ?_, C30_car env bc st nx vm 1 r x y h hr, C30_cdr env bc st nx vm 1 r x y h hr,
      (by intro r' e; cases e; exact hr), (by intro e; cases e)⟩
    · obtain ⟨a, d, hcell, ha, -⟩ := hr
      unfold apiPushFirst
      rw [M.bind_ok (getTop_some h)]
      simp only
      rw [M.bind_ok (readCell_some hcell)]
      simp only
      rw [M.bind_ok (partValue_eq ha)]
      rfl
    · obtain ⟨a, d, hcell, -, hd⟩ := hr
      unfold apiPushRest
      rw [M.bind_ok (getTop_some h)]
      simp only
      rw [M.bind_ok (readCell_some hcell)]
      simp only
      rw [M.bind_ok (partValue_eq hd)]
      rfl

theorem vectorPosition_eq {vm : VM} {r off n : Nat} {i : Int} {vs : Option (List Slot)} {b : Bool}
    (h : vm.heap[r]? = some (.internalVector vs n b)) (hn : n < 2 ^ 60) (hoff : off ≤ n)
    (hi : InRange i) :
    vectorPosition (some r) off i vm =
      if 0 ≤ i ∧ i < ((n - off : Nat) : Int) then .ok (r, vs, ((off + i.toNat : Nat) : Int)) vm
      else .err .invalidValue vm := by
  obtain ⟨hi1, hi2⟩ := hi
  unfold vectorPosition
  simp only
  rw [M.bind_ok (vectorStorage_some h)]
  simp only
  have h1 : toSize ((n : Int) - (off : Nat)) = n - off := by
    rw [toSize_of_lt (by omega) (by omega)]; omega
  rw [h1]
  by_cases hc : 0 ≤ i ∧ i < ((n - off : Nat) : Int)
  · have h2 : toSize i = i.toNat := toSize_of_lt hc.1 (by omega)
    rw [h2, if_neg (by omega), if_pos hc]
    have h3 : ((off : Nat) : Int) + i = ((off + i.toNat : Nat) : Int) := by omega
    rw [h3, M.bind_ok (ckInt_ok (by unfold InRange; omega))]
    rfl
  · rw [if_neg hc]
    have h2 : toSize i ≥ n - off := by
      by_cases h0 : 0 ≤ i
      · rw [toSize_of_lt h0 (by omega)]; omega
      · unfold toSize
        have h4 : i % 2 ^ 64 = i + 2 ^ 64 := by
          rw [← Int.add_emod_right i (2 ^ 64), Int.emod_eq_of_lt (by omega) (by omega)]
        rw [h4]
        omega
    rw [if_pos h2]
    rfl

theorem vectorElement_eq {vm : VM} {r off : Nat} {i : Int} {xs : List Obj} (h : IsVector vm r xs)
    (hn : xs.length < 2 ^ 60) (hoff : off ≤ xs.length) (hi : InRange i) :
    vectorElement (some r) off i vm =
      match if 0 ≤ i then (xs.drop off)[i.toNat]? else none with
      | some x => .ok x vm
      | none => .err .invalidValue vm := by
  obtain ⟨vs, n, hcell, rfl, hel⟩ := h
  unfold vectorElement
  have hp := vectorPosition_eq hcell hn hoff hi
  by_cases hc : 0 ≤ i ∧ i < ((xs.length - off : Nat) : Int)
  · rw [if_pos hc] at hp
    rw [M.bind_ok hp, if_pos hc.1, List.getElem?_drop]
    have hlt : off + i.toNat < xs.length := by omega
    obtain ⟨c, h1, h2⟩ := hel _ hlt
    rw [List.getElem?_eq_getElem hlt]
    exact slotValue_some h1 (h2.trans (List.getElem?_eq_getElem hlt))
  · rw [if_neg hc] at hp
    rw [M.bind_run, hp]
    by_cases h0 : 0 ≤ i
    · rw [if_pos h0, List.getElem?_drop, List.getElem?_eq_none (by omega)]
    · rw [if_neg h0]

/-- C43, vectors: `duckVM_pushElement` pushes the element with that index, as `get-vec-elt` does; an
index out of range is an error that changes nothing. -/
theorem C43_vector_element (vm : VM) (r off : Nat) (i : Int) (xs : List Obj)
    (h : operand vm 1 = some (.vector (some r) off)) (hr : IsVector vm r xs)
    (hn : xs.length < 2 ^ 60) (hoff : off ≤ xs.length) (hi : InRange i) :
    apiPushElement i vm =
      match if 0 ≤ i then (xs.drop off)[i.toNat]? else none with
      | some x => .ok () (pushed vm x)
      | none => .err .invalidValue vm := by
  have he := vectorElement_eq hr hn hoff hi
  unfold apiPushElement
  rw [M.bind_ok (getTop_some h)]
  simp only
  rw [M.bind_run, he]
  cases (if 0 ≤ i then (xs.drop off)[i.toNat]? else none) <;> rfl

/-- C43, vectors: `duckVM_pushFirst` of a vector that is not empty is `car`. -/
theorem C43_vector_first_partial (env : Env) (bc : Nat) (st nx : CodePtr) (vm : VM) (r off : Nat)
    (x : Obj) (xs rest : List Obj) (h : operand vm 1 = some (.vector (some r) off))
    (hr : IsVector vm r xs) (hn : xs.length < 2 ^ 60) (hx : xs.drop off = x :: rest) :
    apiPushFirst vm = .ok () (pushed vm x) ∧
    exec env bc st nx (.car 1) vm = .ok (.goto nx) (pushed vm x) := by
  have hlt : off < xs.length := by
    have := congrArg List.length hx
    simp only [List.length_drop, List.length_cons] at this
    omega
  have he := vectorElement_eq (off := off) (i := 0) hr hn (by omega) (by unfold InRange; omega)
  constructor
  · unfold apiPushFirst
    rw [M.bind_ok (getTop_some h)]
    simp only
    have hx0 : (xs.drop off)[(0 : Int).toNat]? = some x := by rw [hx]; rfl
    rw [if_pos (by omega), hx0] at he
    rw [M.bind_ok (m := orGarbage (vectorElement (some r) off 0)) (a := x) (s' := vm)
      (by unfold orGarbage; rw [he])]
    rfl
  · rw [C31_car env bc st nx vm 1 r off xs h (by omega) hr, hx]
    rfl

/-- C43, vectors: `duckVM_pushRest` of a vector with at least two elements is the vector of the
elements after the first, in the same storage, and `cdr` gives the same. -/
theorem C43_vector_rest_partial (env : Env) (bc : Nat) (st nx : CodePtr) (vm : VM) (r off : Nat)
    (x y : Obj) (xs rest : List Obj) (h : operand vm 1 = some (.vector (some r) off))
    (hr : IsVector vm r xs) (hn : xs.length < 2 ^ 60) (hx : xs.drop off = x :: y :: rest) :
    apiPushRest vm = .ok () (pushed vm (.vector (some r) (off + 1))) ∧
    exec env bc st nx (.cdr 1) vm = .ok (.goto nx) (pushed vm (.vector (some r) (off + 1))) ∧
    xs.drop (off + 1) = y :: rest := by
  have hlt : off + 1 < xs.length := by
    have := congrArg List.length hx
    simp only [List.length_drop, List.length_cons] at this
    omega
  obtain ⟨vs, n, hcell, rfl, -⟩ := hr
  have hck : ckInt ((off : Int) + 1) vm = .ok (((off + 1 : Nat) : Int)) vm :=
    ckInt_ok (by unfold InRange; omega)
  have hsz : toSize ((off + 1 : Nat) : Int) = off + 1 := toSize_nat (by omega)
  refine ⟨?_, ?_, ?_⟩
  · unfold apiPushRest
    rw [M.bind_ok (getTop_some h)]
    simp only
    rw [M.bind_ok (vectorStorage_some hcell)]
    simp only
    rw [M.bind_ok hck, hsz, if_neg (by omega)]
    rfl
  · refine exec_plain_ok trivial (unary_ok _ h ?_)
    simp only [cdrValue]
    rw [M.bind_ok (readCell_some hcell)]
    simp only
    rw [toSize_nat (by omega), if_neg (by omega), M.bind_ok hck]
    rfl
  · rw [← List.tail_drop, hx]
    rfl

/-- C43: `duckVM_length` of a list is the number `length` gives, the number of its pairs; of a list
that does not end both are errors. -/
theorem C43_length_of_list (env : Env) (bc : Nat) (st nx : CodePtr) (vm : VM) (hs : Sound vm)
    (p : Option Nat) (h : operand vm 1 = some (.list p)) :
    (Endless vm.heap p → apiLength vm = .err .invalidValue vm ∧
      exec env bc st nx (.length 1) vm = .err .invalidValue vm) ∧
    (¬ Endless vm.heap p → ∃ cs t, Chain vm.heap p cs t ∧ apiLength vm = .ok cs.length vm ∧
      exec env bc st nx (.length 1) vm = .ok (.goto nx) (pushed vm (.integer cs.length))) := by
  have hin := list_inHeap hs (hs.stack _ (operand_mem h))
  have hc := C28_cycle_check_is_exact vm p hin
  have hl := C28_length_of_any_list env bc st nx vm hs 1 p h
  refine ⟨fun he => ⟨?_, hl.1 he⟩, fun he => ?_⟩
  · unfold apiLength
    rw [M.bind_ok (getTop_some h)]
    simp only
    rw [M.bind_ok (hc.1 he)]
    rfl
  · obtain ⟨cs, t, h1, h2⟩ := hl.2 he
    refine ⟨cs, t, h1, ?_, h2⟩
    have hn := countConses_chain vm h1 (vm.heap.length + 1) (by
      have := chain_length h1
      omega)
    unfold apiLength
    rw [M.bind_ok (getTop_some h)]
    simp only
    rw [M.bind_ok (hc.2 he)]
    show (do
      let s ← M.get
      countConses s.heap (s.heap.length + 1) p : M Nat) vm = _
    rw [M.bind_ok (m := M.get) (a := vm) (s' := vm) rfl, hn]

/-- C43: `duckVM_length` of a vector is the number of its elements, as for `length`. -/
theorem C43_length_of_vector (env : Env) (bc : Nat) (st nx : CodePtr) (vm : VM) (r off : Nat)
    (xs : List Obj) (h : operand vm 1 = some (.vector (some r) off)) (hoff : off ≤ xs.length)
    (hlen : xs.length < 2 ^ 60) (hr : IsVector vm r xs) :
    apiLength vm = .ok (xs.drop off).length vm ∧
    exec env bc st nx (.length 1) vm =
      .ok (.goto nx) (pushed vm (.integer (xs.drop off).length)) := by
  refine ⟨?_, C31_length env bc st nx vm 1 r off xs h hoff hlen hr⟩
  obtain ⟨vs, n, hcell, rfl, -⟩ := hr
  unfold apiLength
  rw [M.bind_ok (getTop_some h)]
  simp only
  rw [M.bind_ok (vectorStorage_some hcell)]
  simp only
  have : ((xs.length : Int) - off) = ((xs.drop off).length : Nat) := by simp; omega
  rw [this, toSize_nat (by simp; omega)]
  rfl

/-- C43: `duckVM_length` of a string is the length of its text, as for `length`. -/
theorem C43_length_of_string (env : Env) (bc : Nat) (st nx : CodePtr) (vm : VM) (hg : Good vm)
    (p : Option Nat) (off : Int) (len : Nat) (h : operand vm 1 = some (.string p off len)) :
    apiLength vm = .ok (text vm (.string p off len)).length vm ∧
    exec env bc st nx (.length 1) vm =
      .ok (.goto nx) (pushed vm (.integer (text vm (.string p off len)).length)) := by
  refine ⟨?_, C32_length env bc st nx vm hg 1 p off len h⟩
  have hl := (string_ok hg.sound (hg.sound.stack _ (operand_mem h))).1
  unfold apiLength
  rw [M.bind_ok (getTop_some h)]
  simp only
  rw [hl]
  rfl

/-- C43: `duckVM_pushCons` pushes a new pair of two empty lists, as `(cons () ())` makes. -/
theorem C43_new_pair (vm : VM) (hg : Good vm) :
    (∃ vm' r, apiPushCons vm = .ok () vm' ∧ vm'.stack = vm.stack ++ [.list (some r)] ∧
        ¬ Reachable vm r ∧ IsPair vm' r (.list none) (.list none) ∧ Untouched vm vm' [] ∧ Good vm') ∨
    ∃ vm', apiPushCons vm = .err .outOfMemory vm' ∧ Untouched vm vm' [] ∧ Good vm' := by
  have hp : Post False (fun e s' => e = .outOfMemory ∧ Good s' ∧ Extends vm s')
      (fun _ s' => ∃ r, Good s' ∧ Extends vm s' ∧ ¬ Traced vm r ∧
        IsPair s' r (.list none) (.list none) ∧ s'.stack = vm.stack ++ [.list (some r)])
      (apiPushCons vm) := by
    unfold apiPushCons
    refine Post.bind (post_allocCell (o := .cons none none) hg.sound (fun _ => ⟨trivial, trivial⟩)
      (fun _ r _ hm => by cases hm)
      (fun s' h1 h2 h3 => ⟨rfl, ⟨h1, h3.finished hg.finished⟩, h2.extends⟩)) ?_
    rintro r s1 ⟨n, hal, hfin⟩
    have hg1 : Good s1 := ⟨hal.sound, hfin hg.finished (by simp [store, UnderConstruction])⟩
    have hlr : Live s1 r .pair := hal.live
    have hcell : s1.heap[r]? = some (.cons none none) := hal.cell
    refine post_push ?_
    refine ⟨r, hg1.pushed (o := .list (some r)) hlr, hal.carried.extends.pushed _, hal.fresh,
      ⟨none, none, hcell, .empty, .empty⟩, ?_⟩
    show s1.stack ++ _ = _
    rw [hal.carried.roots.stack]
  rcases hp.cases with ⟨_, vm', he, r, h1, h2, h3, h4, h5⟩ | ⟨e, vm', he, rfl, h1, h2⟩
  · exact .inl ⟨vm', r, he, h5, fun h => h3 (traced_of_reachable hg.sound hg.finished h), h4,
      h2.untouched hg, h1⟩
  · exact .inr ⟨vm', he, h2.untouched hg, h1⟩

/-- C43: `duckVM_isEmpty` tells whether a list, a string or a vector has no elements, and changes
nothing.  A vector made by `cdr` always starts before the end of its storage. -/
theorem C43_is_empty (vm : VM) (hg : Good vm) :
    (∀ p, operand vm 1 = some (.list p) →
      ∃ b, apiIsEmpty vm = .ok b vm ∧ (b = true ↔ p = none)) ∧
    (∀ p off len, operand vm 1 = some (.string p off len) →
      ∃ b, apiIsEmpty vm = .ok b vm ∧ (b = true ↔ text vm (.string p off len) = [])) ∧
    (∀ off, operand vm 1 = some (.vector none off) → apiIsEmpty vm = .ok true vm) ∧
    (∀ (r off : Nat) (xs : List Obj), operand vm 1 = some (.vector (some r) off) →
      IsVector vm r xs → off < xs.length ∨ off = 0 →
      ∃ b, apiIsEmpty vm = .ok b vm ∧ (b = true ↔ xs.drop off = [])) := by
  refine ⟨fun p h => ?_, fun p off len h => ?_, fun off h => ?_, fun r off xs h hr ho => ?_⟩
  · refine ⟨p.isNone, ?_, by simp⟩
    unfold apiIsEmpty; rw [M.bind_ok (getTop_some h)]; rfl
  · have hl := (string_ok hg.sound (hg.sound.stack _ (operand_mem h))).1
    refine ⟨decide (stringSize off len = 0), ?_, ?_⟩
    · unfold apiIsEmpty; rw [M.bind_ok (getTop_some h)]; rfl
    · rw [hl]; simp
  · unfold apiIsEmpty; rw [M.bind_ok (getTop_some h)]; rfl
  · obtain ⟨vs, n, hcell, hn, -⟩ := hr
    refine ⟨decide (n = 0), ?_, ?_⟩
    · unfold apiIsEmpty; rw [M.bind_ok (getTop_some h)]
      simp only [storageEmpty]
      rw [M.bind_ok (readCell_some hcell)]
      rfl
    · simp only [decide_eq_true_eq, List.drop_eq_nil_iff]; omega

/-- C43: `duckVM_isEmptyVector` tells of any object whether it is a vector without elements, and changes nothing. -/
theorem C43_is_empty_vector (vm : VM) :
    (∀ o, operand vm 1 = some o → (∀ p off, o ≠ .vector p off) → apiIsEmptyVector vm = .ok false vm) ∧
    (∀ off, operand vm 1 = some (.vector none off) → apiIsEmptyVector vm = .ok true vm) ∧
    (∀ (r off : Nat) (xs : List Obj), operand vm 1 = some (.vector (some r) off) →
      IsVector vm r xs → off < xs.length ∨ off = 0 →
      ∃ b, apiIsEmptyVector vm = .ok b vm ∧ (b = true ↔ xs.drop off = [])) := by
  refine ⟨fun o h ho => ?_, fun off h => ?_, fun r off xs h hr ho => ?_⟩
  · unfold apiIsEmptyVector
    rw [M.bind_ok (getTop_some h)]
    cases o <;> first | rfl | exact absurd rfl (ho _ _)
  · unfold apiIsEmptyVector; rw [M.bind_ok (getTop_some h)]; rfl
  · obtain ⟨vs, n, hcell, hn, -⟩ := hr
    refine ⟨decide (n = 0), ?_, ?_⟩
    · unfold apiIsEmptyVector; rw [M.bind_ok (getTop_some h)]
      simp only [storageEmpty]
      rw [M.bind_ok (readCell_some hcell)]
      rfl
    · simp only [decide_eq_true_eq, List.drop_eq_nil_iff]; omega

/-- C43, strings that start at the start of their storage: `duckVM_pushFirst` is `car`, and
`duckVM_pushElement` pushes the byte with that index. -/
theorem C43_string_partial (env : Env) (bc : Nat) (st nx : CodePtr) (vm : VM) (hg : Good vm)
    (r len i : Nat) (b c : UInt8) (rest : Bytes) (h : operand vm 1 = some (.string (some r) 0 len))
    (ht : text vm (.string (some r) 0 len) = b :: rest)
    (hi : (text vm (.string (some r) 0 len))[i]? = some c) :
    apiPushFirst vm = .ok () (pushed vm (.integer b.toNat)) ∧
    exec env bc st nx (.car 1) vm = .ok (.goto nx) (pushed vm (.integer b.toNat)) ∧
    apiPushElement i vm = .ok () (pushed vm (.integer c.toNat)) := by
  obtain ⟨k, v, n, w, hk, h1, h2, h3, hcell, hw, hv, -, htx⟩ := string_cell hg h
  have htx0 := htx 0 len
  simp only [List.drop_zero] at htx0
  have ht0 : v.take len = b :: rest := by rw [← htx0]; exact ht
  have hb : (w.getD [])[0]? = some b := by
    have : (v.take len)[0]? = some b := by rw [ht0]; rfl
    rw [List.getElem?_take] at this
    rw [hw]
    split at this
    · exact this
    · cases this
  have hc : (w.getD [])[i]? = some c := by
    have hi' : (v.take len)[i]? = some c := by rw [← htx0]; exact hi
    rw [List.getElem?_take] at hi'
    rw [hw]
    split at hi'
    · exact hi'
    · cases hi'
  refine ⟨?_, ?_, ?_⟩
  · unfold apiPushFirst
    rw [M.bind_ok (getTop_some h)]
    simp only
    rw [M.bind_ok (m := orGarbage (stringElement (some r) 0)) (a := .integer b.toNat) (s' := vm)
      (by
        have : stringElement (some r) 0 vm = .ok (.integer b.toNat) vm := byte_at hcell hb
        unfold orGarbage
        rw [this])]
    rfl
  · rw [C32_car env bc st nx vm hg 1 (some r) 0 len h, ht]
  · unfold apiPushElement
    rw [M.bind_ok (getTop_some h)]
    simp only
    rw [M.bind_ok (m := stringElement (some r) i) (a := .integer c.toNat) (s' := vm) (byte_at hcell hc)]
    rfl

/-- Storing a copy of the topmost object in half of a pair. -/
theorem post_copyTop {vm : VM} (hg : Good vm) {i : Int} {x o : Obj} (h : operand vm 1 = some x)
    (hi : slot vm i = some o) {f : Nat → Obj → M Unit} {Q : Unit → VM → Prop}
    (hf : ∀ p s1, Good s1 → Allocated vm s1 p x → Live s1 p .value → ValueOk s1 x →
      ∃ s2, f p o s1 = .ok () s2 ∧ Q () s2) :
    Post False (fun e s' => e = .outOfMemory ∧ Good s' ∧ Carried vm s') Q
      ((do let v ← getTop; let p ← pushObject v; f p (← stackGet i)) vm) := by
  rw [M.bind_ok (getTop_some h)]
  refine Post.bind (post_copy hg (operand_mem h) (fun s' h1 h2 => ⟨rfl, h1, h2⟩)) ?_
  rintro p s1 ⟨hg1, al, hlp, hv⟩
  have hslot : slot s1 i = some o := by
    rw [← hi]; unfold slot slotNumber; rw [al.carried.roots.stack]
  have hget : stackGet i s1 = .ok o s1 := by rw [stackGet_eq, hslot]
  obtain ⟨s2, h2, hq⟩ := hf p s1 hg1 al hlp hv
  rw [M.bind_ok hget, h2]
  exact hq

/-- C43: `duckVM_setFirst` replaces the first half of the pair at the given stack index by a value
equal to the topmost object, and changes nothing else the program can reach. -/
theorem C43_set_first_of_list (vm : VM) (hg : Good vm) (i : Int) (r : Nat) (x x0 y0 : Obj)
    (h : operand vm 1 = some x) (hi : slot vm i = some (.list (some r))) (hr : IsPair vm r x0 y0) :
    (∃ vm', apiSetFirst i vm = .ok () vm' ∧ IsPair vm' r x y0 ∧ vm'.stack = vm.stack ∧
        Untouched vm vm' [r] ∧ Good vm') ∨
    ∃ vm', apiSetFirst i vm = .err .outOfMemory vm' ∧ vm'.stack = vm.stack ∧ Untouched vm vm' [] ∧
      Good vm' := by
  have hl : Live vm r .pair := hg.sound.stack _ (slot_mem hi)
  have hrt : Traced vm r := pinned_stack hg.sound (slot_mem hi) r .list
  obtain ⟨p0, d0, hcell, hp0, hd0⟩ := hr
  have hpost := post_copyTop (Q := fun _ s' => IsPair s' r x y0 ∧ s'.stack = vm.stack ∧
      Untouched vm s' [r] ∧ Good s') hg h hi (f := fun p o => match o with
        | .list Option.none => M.throw .invalidValue
        | .list (some r) => setCarCell r (some p)
        | .vector q off => setVectorElement q off 0 p
        | .closure _ _ ups _ _ => closureSet ups 0 p
        | _ => M.throw .invalidValue) (by
    intro p s1 hg1 al hlp hv
    have c1 := al.carried
    have hcell1 : s1.heap[r]? = some (.cons p0 d0) := (c1.heap r hrt).trans hcell
    have hl1 := c1.live hrt hl
    have hdt : ∀ c, d0 = some c → Traced vm c := by
      rintro c rfl; exact .step hrt hcell .cdr (by simp [UnderConstruction])
    have hd1 : Part s1 d0 y0 := part_congr hd0 (fun c hc => c1.heap c (hdt c hc))
    have hdok : PartOk s1 d0 := (hg1.sound.cells r _ hcell1 hl1.1).2
    refine ⟨_, setCarCell_eq (some p) hcell1,
      ⟨some p, d0, by simp [getElem?_lt hcell1], ?_, part_write hcell1 hd1⟩, ?_, ?_, ?_⟩
    · exact part_write hcell1 (.value al.cell (valueOk_not_cons hv))
    · show s1.stack = _; exact c1.roots.stack
    · exact c1.extends.untouched_write hg r _ _ _
    · exact hg1.write hcell1 hl1.1 rfl ⟨.inl hlp, hdok⟩ (by simp [UnderConstruction]))
  rcases hpost.cases with ⟨u, s, ho, hq⟩ | ⟨e, s, ho, rfl, h1, h2⟩
  · exact .inl ⟨s, ho, hq⟩
  · exact .inr ⟨s, ho, h2.roots.stack, h2.extends.untouched hg, h1⟩

/-- C43: `duckVM_setRest` replaces the second half of the pair at the given stack index by a value
equal to the topmost object, as far as `cdr` and `duckVM_pushRest` can tell. -/
theorem C43_set_rest_of_list_partial (vm : VM) (hg : Good vm) (i : Int) (r : Nat) (y x0 y0 : Obj)
    (h : operand vm 1 = some y) (hi : slot vm i = some (.list (some r))) (hr : IsPair vm r x0 y0) :
    (∃ vm', apiSetRest i vm = .ok () vm' ∧ IsPair vm' r x0 y ∧ vm'.stack = vm.stack ∧
        Untouched vm vm' [r] ∧ Good vm') ∨
    ∃ vm', apiSetRest i vm = .err .outOfMemory vm' ∧ vm'.stack = vm.stack ∧ Untouched vm vm' [] ∧
      Good vm' := by
  have hl : Live vm r .pair := hg.sound.stack _ (slot_mem hi)
  have hrt : Traced vm r := pinned_stack hg.sound (slot_mem hi) r .list
  obtain ⟨p0, d0, hcell, hp0, hd0⟩ := hr
  have hpost := post_copyTop (Q := fun _ s' => IsPair s' r x0 y ∧ s'.stack = vm.stack ∧
      Untouched vm s' [r] ∧ Good s') hg h hi (f := fun p o => match o with
        | .list Option.none => M.throw .invalidValue
        | .list (some r) => setCdrCell r (some p)
        | _ => M.throw .invalidValue) (by
    intro p s1 hg1 al hlp hv
    have c1 := al.carried
    have hcell1 : s1.heap[r]? = some (.cons p0 d0) := (c1.heap r hrt).trans hcell
    have hl1 := c1.live hrt hl
    have hdt : ∀ c, p0 = some c → Traced vm c := by
      rintro c rfl; exact .step hrt hcell .car (by simp [UnderConstruction])
    have hd1 : Part s1 p0 x0 := part_congr hp0 (fun c hc => c1.heap c (hdt c hc))
    have hdok : PartOk s1 p0 := (hg1.sound.cells r _ hcell1 hl1.1).1
    refine ⟨_, setCdrCell_eq (some p) hcell1,
      ⟨p0, some p, by simp [getElem?_lt hcell1], part_write hcell1 hd1, ?_⟩, ?_, ?_, ?_⟩
    · exact part_write hcell1 (.value al.cell (valueOk_not_cons hv))
    · show s1.stack = _; exact c1.roots.stack
    · exact c1.extends.untouched_write hg r _ _ _
    · exact hg1.write hcell1 hl1.1 rfl ⟨hdok, .inl hlp⟩ (by simp [UnderConstruction]))
  rcases hpost.cases with ⟨u, s, ho, hq⟩ | ⟨e, s, ho, rfl, h1, h2⟩
  · exact .inl ⟨s, ho, hq⟩
  · exact .inr ⟨s, ho, h2.roots.stack, h2.extends.untouched hg, h1⟩

/-- C43: `duckVM_setElement` replaces exactly that element of the vector at the given stack index. -/
theorem C43_set_element_of_vector (vm : VM) (hg : Good vm) (i : Int) (r off k : Nat) (x : Obj)
    (xs : List Obj) (h : operand vm 1 = some x) (hi : slot vm i = some (.vector (some r) off))
    (hr : IsVector vm r xs) (hn : xs.length < 2 ^ 60) (hk : k < (xs.drop off).length) :
    (∃ vm', apiSetElement k i vm = .ok () vm' ∧ IsVector vm' r (xs.set (off + k) x) ∧
        vm'.stack = vm.stack ∧ Untouched vm vm' [r] ∧ Good vm') ∨
    ∃ vm', apiSetElement k i vm = .err .outOfMemory vm' ∧ vm'.stack = vm.stack ∧
      Untouched vm vm' [] ∧ Good vm' := by
  rw [List.length_drop] at hk
  obtain ⟨cap, hl, -, -⟩ := hg.sound.stack _ (slot_mem hi)
  have hrt : Traced vm r := pinned_stack hg.sound (slot_mem hi) r .vector
  have hpost := post_copyTop (Q := fun _ s' => IsVector s' r (xs.set (off + k) x) ∧
      s'.stack = vm.stack ∧ Untouched vm s' [r] ∧ Good s') hg h hi (f := fun p o => match o with
        | .list Option.none => M.throw .invalidValue
        | .list (some r) => setCarCell r (some p)
        | .vector q off => setVectorElement q off k p
        | .string _ _ _ => M.throw .invalidValue
        | .closure _ _ ups _ _ => closureSet ups k p
        | _ => return ()) (by
    intro p s1 hg1 al hlp hv
    have c1 := al.carried
    obtain ⟨s2, h2, hg2, hv2, hst, hup, hlive, o, rfl⟩ :=
      post_setSlot (k := off + k) hg ⟨cap, hl⟩ hrt hr (by omega) hg1 al hlp
    obtain ⟨vs, n, hcell, rfl, hel⟩ := hr
    have hcell1 := (c1.heap r hrt).trans hcell
    have hp := vectorPosition_eq (i := (k : Int)) hcell1 hn (by omega : off ≤ xs.length)
      (by unfold InRange; omega)
    rw [if_pos (by omega)] at hp
    refine ⟨_, ?_, hv2, hst, ?_, hg2⟩
    · unfold setVectorElement
      simp only
      rw [M.bind_ok hp]
      simp only
      rw [if_pos (by omega)]
      exact h2
    · exact c1.extends.untouched_write hg r _ _ _)
  rcases hpost.cases with ⟨u, s, ho, hq⟩ | ⟨e, s, ho, rfl, h1, h2⟩
  · exact .inl ⟨s, ho, hq⟩
  · exact .inr ⟨s, ho, h2.roots.stack, h2.extends.untouched hg, h1⟩

/-! ### Where they do not -/

/-- C43, violated: `duckVM_pushFirst` of an empty vector, or of anything that is not a sequence,
pushes an object that was never set.  `car` gives the empty vector, or an error. -/
theorem C43_first_of_empty_or_wrong_kind (env : Env) (bc : Nat) (st nx : CodePtr) (vm : VM) :
    (operand vm 1 = some (.vector none 0) → apiPushFirst vm = .ub ∧
      exec env bc st nx (.car 1) vm = .ok (.goto nx) (pushed vm (.vector none 0))) ∧
    (∀ v, operand vm 1 = some (.integer v) → apiPushFirst vm = .ub ∧
      exec env bc st nx (.car 1) vm = .err .invalidValue vm) := by
  refine ⟨fun h => ⟨?_, exec_plain_ok trivial (unary_ok _ h rfl)⟩, fun v h => ⟨?_, ?_⟩⟩
  · unfold apiPushFirst
    rw [M.bind_ok (getTop_some h)]
    rfl
  · unfold apiPushFirst
    rw [M.bind_ok (getTop_some h)]
    rfl
  · refine exec_plain_err trivial ?_
    show unary 1 carValue vm = _
    rw [unary_eq _ h]
    rfl

/-- C43, violated: `duckVM_pushRest` of a vector with one element pushes that vector again, so that a
host that walks a vector with it never gets to the end.  `cdr` gives the empty vector. -/
theorem C43_rest_of_last_element (env : Env) (bc : Nat) (st nx : CodePtr) (vm : VM) (r off : Nat)
    (x : Obj) (xs : List Obj) (h : operand vm 1 = some (.vector (some r) off))
    (hr : IsVector vm r xs) (hn : xs.length < 2 ^ 60) (hx : xs.drop off = [x]) :
    apiPushRest vm = .ok () (pushed vm (.vector (some r) off)) ∧
    exec env bc st nx (.cdr 1) vm = .ok (.goto nx) (pushed vm (.vector none 0)) := by
  have hlt : off + 1 = xs.length := by
    have := congrArg List.length hx
    simp only [List.length_drop, List.length_cons, List.length_nil] at this
    omega
  obtain ⟨vs, n, hcell, rfl, -⟩ := hr
  have hck : ckInt ((off : Int) + 1) vm = .ok (((off + 1 : Nat) : Int)) vm :=
    ckInt_ok (by unfold InRange; omega)
  have hsz : toSize ((off + 1 : Nat) : Int) = off + 1 := toSize_nat (by omega)
  refine ⟨?_, exec_plain_ok trivial (unary_ok _ h ?_)⟩
  · unfold apiPushRest
    rw [M.bind_ok (getTop_some h)]
    simp only
    rw [M.bind_ok (vectorStorage_some hcell)]
    simp only
    rw [M.bind_ok hck, hsz, if_pos (by omega)]
    rfl
  · simp only [cdrValue]
    rw [M.bind_ok (readCell_some hcell)]
    simp only
    rw [toSize_nat (by omega), if_pos (by omega)]
    rfl

/-- C43, violated: `duckVM_pushElement` on a list pushes the pair that holds the element, an object no
program can have, not the element. -/
theorem C43_element_of_list (vm : VM) (r : Nat) (a d : Option Nat)
    (h : operand vm 1 = some (.list (some r))) (hr : vm.heap[r]? = some (.cons a d)) :
    apiPushElement 0 vm = .ok () (pushed vm (.cons a d)) := by
  unfold apiPushElement
  rw [M.bind_ok (getTop_some h)]
  simp only
  rw [M.bind_ok (m := M.get) (a := vm) (s' := vm) rfl]
  rw [M.bind_ok (m := elementPointer vm.heap (toSize 0) (some r)) (a := some r) (s' := vm) rfl,
    M.bind_ok (deref_some hr)]
  rfl

/-- C43, violated: past the end of a list `duckVM_pushElement` reads through a null pointer. -/
theorem C43_element_beyond_list (vm : VM) (i : Nat) (hi : i < 2 ^ 64)
    (h : operand vm 1 = some (.list none)) : apiPushElement i vm = .ub := by
  unfold apiPushElement
  rw [M.bind_ok (getTop_some h)]
  simp only
  rw [M.bind_ok (m := M.get) (a := vm) (s' := vm) rfl]
  have : elementPointer vm.heap (toSize i) none vm = .ok none vm := by
    rw [toSize_nat hi]
    cases i <;> rfl
  rw [M.bind_ok this]
  rfl

/-- C43, violated: `duckVM_setElement` on a list replaces the first element whatever the index. -/
theorem C43_set_element_of_list (vm : VM) (hg : Good vm) (k l i : Int) (r : Nat) (x : Obj)
    (h : operand vm 1 = some x) (hi : slot vm i = some (.list (some r))) :
    apiSetElement k i vm = apiSetElement l i vm := by
  unfold apiSetElement
  rw [M.bind_ok (getTop_some h), M.bind_ok (getTop_some h), M.bind_run, M.bind_run]
  have hpost := post_copy (U := True) (E := fun _ _ => True) hg (operand_mem h) (fun _ _ _ => trivial)
  rcases hp : pushObject x vm with ⟨p, s⟩ | ⟨e, s⟩ | _ | _ <;> simp only
  rw [hp] at hpost
  have hst : s.stack = vm.stack := hpost.2.1.carried.roots.stack
  have hget : stackGet i s = .ok (.list (some r)) s := by
    rw [stackGet_eq, show slot s i = some (.list (some r)) from by
      rw [← hi]; unfold slot slotNumber; rw [hst]]
  rw [M.bind_ok hget, M.bind_ok hget]

/-- C43, violated: `duckVM_setElement` on something that is not a sequence reports success. -/
theorem C43_set_element_of_wrong_kind :
    ∃ vm', apiSetElement 0 (-1) pairVM = .ok () vm' ∧ vm'.stack = pairVM.stack ∧
      operand pairVM 1 = some (.integer 7) := ⟨_, rfl, rfl, rfl⟩

/-- C43, violated: `duckVM_pushFirst` and `duckVM_pushElement` of a string that starts inside its
storage give bytes from before its start; `car` gives the right one. -/
theorem C43_first_of_substring :
    let vm := { stringVM with stack := [.string (some 0) 1 3], upStack := [none] }
    text vm (.string (some 0) 1 3) = [98, 99] ∧
    apiPushFirst vm = .ok () (pushed vm (.integer 97)) ∧
    apiPushElement 1 vm = .ok () (pushed vm (.integer 98)) ∧
    apiPushElement 2 vm = .ok () (pushed vm (.integer 99)) ∧
    exec plainEnv 0 ⟨0, 0, 0⟩ ⟨0, 0, 1⟩ (.car 1) vm =
      .ok (.goto ⟨0, 0, 1⟩) (pushed vm (.integer 98)) := ⟨rfl, rfl, rfl, rfl, rfl⟩

/-- C43, violated: `duckVM_pushElement` does not look at the length of a string. -/
theorem C43_element_beyond_string :
    let vm := { stringVM with stack := [.string (some 0) 0 2], upStack := [none] }
    text vm (.string (some 0) 0 2) = [97, 98] ∧
    apiPushElement 2 vm = .ok () (pushed vm (.integer 99)) ∧ apiPushElement 3 vm = .ub := ⟨rfl, rfl, rfl⟩

/-- Two lists of one element each, `(5)` and `(6)`. -/
def listsVM : VM :=
  { heap := [.cons (some 1) none, .integer 5, .cons (some 3) none, .integer 6, .none]
    free := [4]
    stack := [.list (some 0), .list (some 2)]
    upStack := [none, none] }

theorem listsVM_good : Good listsVM := by
  have l0 : Live listsVM 0 .pair := ⟨by decide, _, rfl, rfl⟩
  have l1 : Live listsVM 1 .value := ⟨by decide, _, rfl, rfl⟩
  have l2 : Live listsVM 2 .pair := ⟨by decide, _, rfl, rfl⟩
  have l3 : Live listsVM 3 .value := ⟨by decide, _, rfl, rfl⟩
  refine ⟨⟨by decide, by decide, ?_, by decide, ?_, by simp [listsVM], by simp [listsVM],
    by simp [listsVM], by simp [listsVM], ?_⟩, ?_⟩
  · intro r hr o ho
    simp [listsVM] at hr
    subst hr
    simp [listsVM] at ho
    subst ho
    simp [OwnsBlock]
  · intro o ho
    simp [listsVM] at ho
    rcases ho with rfl | rfl
    · exact l0
    · exact l2
  · intro r o ho hf
    match r with
    | 0 => simp [listsVM] at ho; subst ho; exact ⟨.inl l1, trivial⟩
    | 1 => simp [listsVM] at ho; subst ho; trivial
    | 2 => simp [listsVM] at ho; subst ho; exact ⟨.inl l3, trivial⟩
    | 3 => simp [listsVM] at ho; subst ho; trivial
    | 4 => simp [listsVM] at hf
    | n + 5 => simp [listsVM] at ho
  · intro r o ho
    match r with
    | 0 => simp [listsVM] at ho; subst ho; simp [UnderConstruction]
    | 1 => simp [listsVM] at ho; subst ho; simp [UnderConstruction]
    | 2 => simp [listsVM] at ho; subst ho; simp [UnderConstruction]
    | 3 => simp [listsVM] at ho; subst ho; simp [UnderConstruction]
    | 4 => simp [listsVM] at ho; subst ho; simp [UnderConstruction]
    | n + 5 => simp [listsVM] at ho

/-- C43, violated: after `duckVM_setRest` has made `(6)` the rest of `(5)`, the rest is `(6)`, but the
length of the whole is 1.  The instruction `set-cdr` makes a list of length 2. -/
theorem C43_set_rest_makes_improper_list :
    Good listsVM ∧
    (∃ vm', (do apiSetRest (-2); apiPush (-2); apiLength) listsVM = .ok 1 vm') ∧
    (∃ vm', (do apiSetRest (-2); apiPush (-2); apiPushRest) listsVM = .ok () vm' ∧
      operand vm' 1 = some (.list (some 2))) ∧
    ∃ vm' vm'', exec plainEnv 0 ⟨0, 0, 0⟩ ⟨0, 0, 1⟩ (.setCdr 1 2) listsVM = .ok (.goto ⟨0, 0, 1⟩) vm' ∧
      apiLength vm' = .ok 2 vm'' :=
  ⟨listsVM_good, ⟨_, rfl⟩, ⟨_, rfl, rfl⟩, _, _, rfl, rfl⟩

/-- C43, violated: a vector made by `duckVM_pushVector` has elements that are null pointers; reading
one is undefined. -/
theorem C43_new_vector_has_no_elements :
    ∃ vm', apiPushVector 1 vectorVM = .ok () vm' ∧ apiLength vm' = .ok 1 vm' ∧
      apiPushElement 0 vm' = .ub ∧
      exec plainEnv 0 ⟨0, 0, 0⟩ ⟨0, 0, 1⟩ (.car 1) vm' = .ub := ⟨_, rfl, rfl, rfl, rfl⟩

/-! ### Examples -/

example : operand { vectorVM with stack := [.vector (some 0) 1], upStack := [none] } 1 =
    some (.vector (some 0) (1 : Nat)) ∧
    [Obj.integer 5, .integer 6, .integer 5].drop 1 = .integer 6 :: .integer 5 :: [] := ⟨rfl, rfl⟩
example : apiPushElement 1 { vectorVM with stack := [.vector (some 0) 1], upStack := [none] } =
    .ok () (pushed { vectorVM with stack := [.vector (some 0) 1], upStack := [none] } (.integer 5)) := rfl
example : operand listsVM 1 = some (.list (some 2)) ∧ slot listsVM 0 = some (.list (some 0)) ∧
    slot listsVM (-1) = some (.list (some 2)) := ⟨rfl, rfl, rfl⟩
example : IsPair listsVM 0 (.integer 5) (.list none) :=
  ⟨_, _, rfl, .value rfl (by simp), .empty⟩
example : slot vectorVM 0 = some (.vector (some 0) (0 : Nat)) ∧
    operand vectorVM 1 = some (.integer (-1)) ∧
    ∃ vm', apiSetElement 2 0 vectorVM = .ok () vm' := ⟨rfl, rfl, _, rfl⟩

#print axioms C43_list_partial
#print axioms C43_vector_element
#print axioms C43_vector_first_partial
#print axioms C43_vector_rest_partial
#print axioms C43_length_of_list
#print axioms C43_length_of_vector
#print axioms C43_length_of_string
#print axioms C43_string_partial
#print axioms C43_new_pair
#print axioms C43_is_empty
#print axioms C43_is_empty_vector
#print axioms C43_set_first_of_list
#print axioms C43_set_rest_of_list_partial
#print axioms C43_set_element_of_vector
#print axioms C43_first_of_empty_or_wrong_kind
#print axioms C43_rest_of_last_element
#print axioms C43_element_of_list
#print axioms C43_element_beyond_list
#print axioms C43_set_element_of_list
#print axioms C43_set_element_of_wrong_kind
#print axioms C43_first_of_substring
#print axioms C43_element_beyond_string
#print axioms C43_set_rest_makes_improper_list
#print axioms C43_new_vector_has_no_elements

end DuckLisp.VM
