import Verif.Props.VM.HostSequences
import Verif.Props.VM.Composites
import Verif.Proof.VM.Grown
import Verif.Proof.AstObj

/-!
# C59: instances of user types in the hands of the host
-/

namespace DuckLisp.VM

open DuckLisp DuckLisp.Spec

/-- C59: the host reads from an instance on top of the stack what the language reads: its type, its value and its
function. -/
theorem C59_parts (env : Env) (bc : Nat) (st nx : CodePtr) (vm : VM) (r t : Nat) (x f : Obj)
    (h : operand vm 1 = some (.composite (some r))) (hr : IsComposite vm r t x f) :
    apiCopyCompositeType vm = .ok t vm ∧
    apiPushCompositeValue vm = .ok () (pushed vm x) ∧
    apiPushCompositeFunction vm = .ok () (pushed vm f) ∧
    exec env bc st nx (.typeof 1) vm = .ok (.goto nx) (pushed vm (.type t)) ∧
    exec env bc st nx (.compositeValue 1) vm = .ok (.goto nx) (pushed vm x) ∧
    exec env bc st nx (.compositeFunction 1) vm = .ok (.goto nx) (pushed vm f) := by
  obtain ⟨h1, h2, h3⟩ := C37_parts env bc st nx vm 1 r t x f h hr
  obtain ⟨v, w, hcell, hv, hw⟩ := hr
  refine ⟨?_, ?_, ?_, h3, h1, h2⟩
  · unfold apiCopyCompositeType
    rw [M.bind_ok (getTop_some h)]
    simp only
    rw [M.bind_ok (compositeParts_some hcell)]
    rfl
  · unfold apiPushCompositeValue
    rw [M.bind_ok (getTop_some h)]
    simp only
    rw [M.bind_ok (compositeParts_some hcell)]
    simp only [pushPtr]
    rw [M.bind_ok (readCell_some hv)]
    rfl
  · unfold apiPushCompositeFunction
    rw [M.bind_ok (getTop_some h)]
    simp only
    rw [M.bind_ok (compositeParts_some hcell)]
    simp only [pushPtr]
    rw [M.bind_ok (readCell_some hw)]
    rfl

/-- C59: the host makes an instance of any type; value and function are the empty list, and nothing else changes.

Missing: machines with less than two free cells, for which it is false (`C59_new_collected`). -/
theorem C59_new_partial (vm : VM) (hg : Good vm) (t : Nat) (hf : 2 ≤ vm.free.length) :
    ∃ vm' r, apiPushComposite t vm = .ok () vm' ∧ vm'.stack = vm.stack ++ [.composite (some r)] ∧
      ¬ Reachable vm r ∧ IsComposite vm' r t (.list none) (.list none) ∧ Untouched vm vm' [] ∧ Good vm' := by
  obtain ⟨c, n, s1, h1, h2, h3, h4, h5, h6⟩ := take_ok (o := .nil) hg.sound (fun e => by simp [e] at hf)
    (fun _ => trivial) (fun _ => by simp [store, Obj.nil, UnderConstruction])
  have hl : Live s1 c .value := ⟨h6, _, h5, rfl⟩
  obtain ⟨r, m, s2, g1, g2, g3, g4, g5, g6⟩ := take_ok (o := .internalComposite t (some c) (some c)) h2
    (fun e => by
      have := congrArg List.length h4.free
      simp [e] at this
      omega)
    (fun _ => ⟨fun _ e => by cases e; exact hl, fun _ e => by cases e; exact hl⟩) (fun _ => by simp [store, UnderConstruction])
  have hgr := h4.trans g4
  have hc2 : s2.heap[c]? = some (.list none) := (g4.heap c h6).trans h5
  refine ⟨pushed s2 (.composite (some r)), r, ?_, ?_, ?_, ⟨c, c, g5, hc2, hc2⟩, ?_, ?_⟩
  · unfold apiPushComposite
    rw [M.bind_ok h1, M.bind_ok g1]
    rfl
  · show s2.stack ++ _ = _
    rw [hgr.roots.stack]
  · intro hr
    obtain ⟨_, hlr, _⟩ := (traced_of_reachable hg.sound hg.finished hr).live hg.sound
    refine hlr ?_
    match hfree : vm.free with
    | [] => simp [hfree] at hf
    | [_] => simp [hfree] at hf
    | a :: b :: rest =>
      have hb : s1.free = b :: rest := by rw [h4.free, hfree]; rfl
      have := pushObject_take (o := .internalComposite t (some c) (some c)) hb
      rw [g1] at this
      injection this with this _
      simp [this]
  · refine ⟨fun c hc _ => ?_, hgr.roots.globals, hgr.roots.callStack, hgr.roots.upArrays, hgr.roots.currentBytecode,
      hgr.roots.nextUserType⟩
    obtain ⟨_, hlc, _⟩ := (traced_of_reachable hg.sound hg.finished hc).live hg.sound
    exact hgr.heap c hlc
  · exact Good.pushed ⟨g2, g3 (h3 hg.finished)⟩ ⟨r, rfl, g6, _, g5, rfl⟩

/-- C59: the host replaces the value of the instance at any place of the stack by a value equal to the topmost one; its
type, its function and all else stay.  Otherwise memory ran out, and nothing changed. -/
theorem C59_set_value (vm : VM) (hg : Good vm) (i : Int) (r t : Nat) (x x0 f0 : Obj) (h : operand vm 1 = some x)
    (hi : slot vm i = some (.composite (some r))) (hr : IsComposite vm r t x0 f0) :
    (∃ vm', apiSetCompositeValue i vm = .ok () vm' ∧ IsComposite vm' r t x f0 ∧ vm'.stack = vm.stack ∧
        Untouched vm vm' [r] ∧ Good vm') ∨
    ∃ vm', apiSetCompositeValue i vm = .err .outOfMemory vm' ∧ vm'.stack = vm.stack ∧ Untouched vm vm' [] ∧ Good vm' := by
  obtain ⟨r', hr', hl⟩ := hg.sound.stack _ (slot_mem hi)
  cases hr'
  have hrt : Traced vm r := pinned_stack hg.sound (slot_mem hi) r .composite
  obtain ⟨v0, w0, hcell, hv0, hw0⟩ := hr
  have hpost : Post False (fun e s' => e = .outOfMemory ∧ Good s' ∧ Carried vm s')
      (fun _ s' => IsComposite s' r t x f0 ∧ s'.stack = vm.stack ∧ Untouched vm s' [r] ∧ Good s') (apiSetCompositeValue i vm) := by
    unfold apiSetCompositeValue
    rw [M.bind_ok (getTop_some h), M.bind_ok (show stackGet i vm = .ok (.composite (some r)) vm by rw [stackGet_eq, hi])]
    simp only
    refine Post.bind (post_copy hg (operand_mem h) (fun s' h1 h2 => ⟨rfl, h1, h2⟩)) ?_
    rintro p s1 ⟨hg1, al, hlp, hv⟩
    have c1 := al.carried
    have hcell1 : s1.heap[r]? = some (.internalComposite t (some v0) (some w0)) := (c1.heap r hrt).trans hcell
    have hl1 := c1.live hrt hl
    have hok := hg1.sound.cells r _ hcell1 hl1.1
    have hrp : r ≠ p := ne_of_shape hcell1 al.cell (by rw [shape_value hv]; simp [shape])
    rw [setCompositeValueCell_eq p hcell1]
    obtain ⟨_, o, ho, hs⟩ := hok.2 w0 rfl
    have hrw : r ≠ w0 := ne_of_shape hcell1 ho (by rw [hs]; simp [shape])
    refine ⟨⟨p, w0, by simp [getElem?_lt hcell1], ?_, ?_⟩, c1.roots.stack, c1.extends.untouched_write hg r _ _ _,
      hg1.write hcell1 hl1.1 rfl ⟨fun _ h => (by cases h; exact hlp), hok.2⟩ (by simp [UnderConstruction])⟩
    · show (s1.heap.set r _)[p]? = _
      rw [List.getElem?_set_ne hrp]; exact al.cell
    · show (s1.heap.set r _)[w0]? = _
      rw [List.getElem?_set_ne hrw]
      exact (c1.heap w0 (.step hrt hcell .compositeFunction (by simp [UnderConstruction]))).trans hw0
  rcases hpost.cases with ⟨u, s, ho, hq⟩ | ⟨e, s, ho, rfl, h1, h2⟩
  · exact .inl ⟨s, ho, hq⟩
  · exact .inr ⟨s, ho, h2.roots.stack, h2.extends.untouched hg, h1⟩

/-- C59: the host replaces the function of the instance at any place of the stack, likewise.

Missing: places counted from the top, which are refused (`C59_set_function_from_top`). -/
theorem C59_set_function_partial (vm : VM) (hg : Good vm) (i : Int) (r t : Nat) (f x0 f0 : Obj) (h : operand vm 1 = some f)
    (h0 : 0 ≤ i) (hi : slot vm i = some (.composite (some r))) (hr : IsComposite vm r t x0 f0) :
    (∃ vm', apiSetCompositeFunction i vm = .ok () vm' ∧ IsComposite vm' r t x0 f ∧ vm'.stack = vm.stack ∧
        Untouched vm vm' [r] ∧ Good vm') ∨
    ∃ vm', apiSetCompositeFunction i vm = .err .outOfMemory vm' ∧ vm'.stack = vm.stack ∧ Untouched vm vm' [] ∧ Good vm' := by
  obtain ⟨r', hr', hl⟩ := hg.sound.stack _ (slot_mem hi)
  cases hr'
  have hrt : Traced vm r := pinned_stack hg.sound (slot_mem hi) r .composite
  obtain ⟨v0, w0, hcell, hv0, hw0⟩ := hr
  have hget : getAbs i vm = .ok (.composite (some r)) vm := by
    have : vm.stack[i.toNat]? = some (.composite (some r)) := by
      unfold slot slotNumber at hi
      rw [if_neg (by omega : ¬ i < 0), if_pos h0] at hi
      exact hi
    unfold getAbs M.orErr
    rw [if_pos h0, this]
    rfl
  have hpost : Post False (fun e s' => e = .outOfMemory ∧ Good s' ∧ Carried vm s')
      (fun _ s' => IsComposite s' r t x0 f ∧ s'.stack = vm.stack ∧ Untouched vm s' [r] ∧ Good s')
      (apiSetCompositeFunction i vm) := by
    unfold apiSetCompositeFunction
    rw [M.bind_ok (getTop_some h), M.bind_ok hget]
    simp only
    refine Post.bind (post_copy hg (operand_mem h) (fun s' h1 h2 => ⟨rfl, h1, h2⟩)) ?_
    rintro p s1 ⟨hg1, al, hlp, hv⟩
    have c1 := al.carried
    have hcell1 : s1.heap[r]? = some (.internalComposite t (some v0) (some w0)) := (c1.heap r hrt).trans hcell
    have hl1 := c1.live hrt hl
    have hok := hg1.sound.cells r _ hcell1 hl1.1
    have hrp : r ≠ p := ne_of_shape hcell1 al.cell (by rw [shape_value hv]; simp [shape])
    rw [setCompositeFunctionCell_eq p hcell1]
    obtain ⟨_, o, ho, hs⟩ := hok.1 v0 rfl
    have hrw : r ≠ v0 := ne_of_shape hcell1 ho (by rw [hs]; simp [shape])
    refine ⟨⟨v0, p, by simp [getElem?_lt hcell1], ?_, ?_⟩, c1.roots.stack, c1.extends.untouched_write hg r _ _ _,
      hg1.write hcell1 hl1.1 rfl ⟨hok.1, fun _ h => (by cases h; exact hlp)⟩ (by simp [UnderConstruction])⟩
    · show (s1.heap.set r _)[v0]? = _
      rw [List.getElem?_set_ne hrw]
      exact (c1.heap v0 (.step hrt hcell .compositeValue (by simp [UnderConstruction]))).trans hv0
    · show (s1.heap.set r _)[p]? = _
      rw [List.getElem?_set_ne hrp]; exact al.cell
  rcases hpost.cases with ⟨u, s, ho, hq⟩ | ⟨e, s, ho, rfl, h1, h2⟩
  · exact .inl ⟨s, ho, hq⟩
  · exact .inr ⟨s, ho, h2.roots.stack, h2.extends.untouched hg, h1⟩

/-- C59: whatever is not an instance is refused, and so are places outside of the stack; nothing changes. -/
theorem C59_refused (vm : VM) (i : Int) (x : Obj) (h : operand vm 1 = some x) (hi : ∀ c, slot vm i ≠ some (.composite c)) :
    apiSetCompositeValue i vm = .err .invalidValue vm ∧ apiSetCompositeFunction i vm = .err .invalidValue vm := by
  constructor
  · unfold apiSetCompositeValue
    rw [M.bind_ok (getTop_some h), M.bind_run, stackGet_eq]
    cases hs : slot vm i with
    | none => rfl
    | some o =>
      cases o <;> first | rfl | (rename_i c; exact absurd hs (hi c))
  · unfold apiSetCompositeFunction
    rw [M.bind_ok (getTop_some h), M.bind_run]
    unfold getAbs M.orErr
    by_cases h0 : 0 ≤ i
    · have : slot vm i = vm.stack[i.toNat]? := by
        unfold slot slotNumber
        rw [if_neg (by omega : ¬ i < 0), if_pos h0]
      rw [if_pos h0]
      rw [this] at hi
      cases hs : vm.stack[i.toNat]? with
      | none => rfl
      | some o =>
        cases o <;> first | rfl | (rename_i c; exact absurd hs (hi c))
    · rw [if_neg h0]

/-- C59, violated: unlike everywhere else, places counted from the top are refused for the function, whatever is
there. -/
theorem C59_set_function_from_top (vm : VM) (i : Int) (x : Obj) (h : operand vm 1 = some x) (hi : i < 0) :
    apiSetCompositeFunction i vm = .err .invalidValue vm := by
  unfold apiSetCompositeFunction
  rw [M.bind_ok (getTop_some h), M.bind_run]
  unfold getAbs
  rw [if_neg (by omega)]

/-- C59, violated: if only one cell is free, a collection while the instance is made frees the cell of the empty list.
In this machine the instance then is its own value and its own function. -/
theorem C59_new_collected : ∃ vm', apiPushComposite 20 (init 1) = .ok () vm' ∧
    vm'.stack = [.composite (some 0)] ∧ vm'.heap[0]? = some (.internalComposite 20 (some 0) (some 0)) := by
  refine ⟨_, rfl, ?_, ?_⟩ <;> decide +kernel

/-- C59, violated: nothing stops the host from making instances of types that are not user types, which the language
refuses. -/
theorem C59_builtin_type (env : Env) (bc : Nat) (st nx : CodePtr) (vm : VM) (hg : Good vm) (a t : Nat)
    (hf : 2 ≤ vm.free.length) (ht : t < 20) (ha : operand vm a = some (.type t)) :
    (∃ vm', (do apiPushComposite t; apiCopyCompositeType) vm = .ok t vm') ∧
      exec env bc st nx (.makeInstance a 1 1) vm = .err .invalidValue vm := by
  refine ⟨?_, C37_no_builtin_instance env bc st nx vm a 1 1 t ha ht⟩
  obtain ⟨vm', r, h1, h2, _, h3, _⟩ := C59_new_partial vm hg t hf
  refine ⟨vm', ?_⟩
  rw [M.bind_ok h1]
  refine (C59_parts env bc st nx vm' r t _ _ ?_ h3).1
  simp [operand, h2]

/-- There is room for two cells in `compositeVM`, and its instance is at places 0 and -3. -/
example : Good compositeVM ∧ 2 ≤ compositeVM.free.length ∧ operand compositeVM 1 = some (.type 20) ∧
    slot compositeVM 0 = some (.composite (some 0)) ∧ slot compositeVM (-3) = some (.composite (some 0)) ∧
    IsComposite compositeVM 0 20 (.integer 5) (.function 6) :=
  ⟨compositeVM_good, by decide, rfl, rfl, rfl, _, _, rfl, rfl, rfl⟩

/-- The instance can be read once it is on top. -/
example : operand (pushed compositeVM (.composite (some 0))) 1 = some (.composite (some 0)) ∧
    IsComposite (pushed compositeVM (.composite (some 0))) 0 20 (.integer 5) (.function 6) := ⟨rfl, _, _, rfl, rfl, rfl⟩

/-- Place 1 is no instance, and there is no place 3. -/
example : ∀ c, slot compositeVM 1 ≠ some (.composite c) ∧ slot compositeVM 3 ≠ some (.composite c) := by
  intro c
  constructor <;> exact fun h => by cases h

/-- A machine with a type that is not a user type on top. -/
example : Good (pushed compositeVM (.type 3)) ∧ operand (pushed compositeVM (.type 3)) 1 = some (.type 3) :=
  ⟨compositeVM_good.pushed trivial, rfl⟩

#print axioms C59_parts
#print axioms C59_new_partial
#print axioms C59_set_value
#print axioms C59_set_function_partial
#print axioms C59_refused
#print axioms C59_set_function_from_top
#print axioms C59_new_collected
#print axioms C59_builtin_type

end DuckLisp.VM
