import Verif.Proof.VM.Pairs

/-!
# Lemmas about composites
-/

namespace DuckLisp.VM

open DuckLisp DuckLisp.Spec

set_option linter.unusedSectionVars false

variable [Entries]

theorem setCompositeValueCell_eq {s : VM} {r t : Nat} {v f : Option Nat} (p : Nat)
    (h : s.heap[r]? = some (.internalComposite t v f)) :
    setCompositeValueCell (some r) p s =
      .ok () { s with heap := s.heap.set r (.internalComposite t (some p) f) } := by
  unfold setCompositeValueCell
  rw [M.bind_ok (m := M.need (some r)) (a := r) (s' := s) rfl, M.bind_ok (readCell_some h)]
  simp [writeCell, getElem?_lt h]

theorem setCompositeFunctionCell_eq {s : VM} {r t : Nat} {v f : Option Nat} (p : Nat)
    (h : s.heap[r]? = some (.internalComposite t v f)) :
    setCompositeFunctionCell (some r) p s =
      .ok () { s with heap := s.heap.set r (.internalComposite t v (some p)) } := by
  unfold setCompositeFunctionCell
  rw [M.bind_ok (m := M.need (some r)) (a := r) (s' := s) rfl, M.bind_ok (readCell_some h)]
  simp [writeCell, getElem?_lt h]

variable {U : Prop} {E : DlError → VM → Prop}

/-- Allocating a copy of a value on the stack. -/
theorem post_copy {s : VM} (hg : Good s) {o : Obj} (ho : o ∈ s.stack)
    (hE : ∀ s', Good s' → Carried s s' → E .outOfMemory s') :
    Post U E (fun r s' => Good s' ∧ Allocated s s' r o ∧ Live s' r .value ∧ ValueOk s' o)
      (pushObject o s) := by
  have hv := hg.sound.stack o ho
  refine (post_alloc hg.sound hv (pinned_stack hg.sound ho)
    (fun s' h1 h2 h3 => hE s' ⟨h1, h3.finished hg.finished⟩ h2)).imp ?_
  rintro r s' ⟨ha, hf⟩
  have hl := ha.live
  rw [shape_value hv] at hl
  exact ⟨⟨ha.sound, hf hg.finished⟩, ha, hl, ha.carried.valueOk (pinned_stack hg.sound ho) hv⟩

theorem ne_of_shape {s : VM} {r c : Nat} {o o' : Obj} (h : s.heap[r]? = some o)
    (h' : s.heap[c]? = some o') (hs : shape o ≠ shape o') : r ≠ c := by
  rintro rfl
  rw [h] at h'
  cases h'
  exact hs rfl

/-- `make-instance`. -/
theorem post_makeInstance {vm : VM} (hg : Good vm) {a b c t : Nat} {x f : Obj}
    (ha : operand vm a = some (.type t)) (ht : 20 ≤ t)
    (hb : operand vm b = some x) (hc : operand vm c = some f) :
    Post False (fun e s' => e = .outOfMemory ∧ Good s' ∧ Extends vm s')
      (fun _ s' => ∃ r, Good s' ∧ Extends vm s' ∧ ¬ Traced vm r ∧ IsComposite s' r t x f ∧
        s'.stack = vm.stack ++ [.composite (some r)] ∧ s'.upStack = vm.upStack ++ [none])
      (iMakeInstance a b c vm) := by
  unfold iMakeInstance
  rw [M.bind_ok (getArg_some ha)]
  simp only
  rw [if_neg (by simp only [typeLast]; omega), M.bind_ok (getArg_some hb), M.bind_ok (getArg_some hc)]
  refine Post.bind (post_allocCell (o := .internalComposite t none none) hg.sound
    (fun _ => ⟨fun r h => (by cases h), fun r h => (by cases h)⟩)
    (fun _ r _ hm => by cases hm)
    (fun s' h1 h2 h3 => ⟨rfl, ⟨h1, h3.finished hg.finished⟩, h2.extends⟩)) ?_
  rintro r s1 ⟨n, hal, hfin⟩
  have hg1 : Good s1 := ⟨hal.sound, hfin hg.finished (by simp [store, UnderConstruction])⟩
  have hx1 : x ∈ s1.stack := hal.mem (operand_mem hb)
  have hf1 : f ∈ s1.stack := hal.mem (operand_mem hc)
  have hlr : Live s1 r .parts := hal.live
  have hcell : s1.heap[r]? = some (.internalComposite t none none) := hal.cell
  refine Post.bind (post_push (Q := fun _ s => s = pushed s1 (.composite (some r))) rfl) ?_
  rintro - s2 rfl
  have hg2 := hg1.pushed (o := .composite (some r)) ⟨r, rfl, hlr⟩
  have e2 : Extends vm (pushed s1 (.composite (some r))) := hal.carried.extends.pushed _
  have hrt2 : Traced (pushed s1 (.composite (some r))) r :=
    pinned_stack hg2.sound mem_pushed_self r .composite
  refine Post.bind (post_copy hg2 (mem_pushed hx1) (fun s' h1 h2 => ⟨rfl, h1, e2.trans h2.extends⟩)) ?_
  rintro p s3 ⟨hg3, al3, hl3, hv3⟩
  have hcell3 : s3.heap[r]? = some (.internalComposite t none none) :=
    (al3.carried.heap r hrt2).trans hcell
  have hnf3 : r ∉ s3.free := al3.carried.free r hrt2 hlr.1
  have hx3 : x ∈ s3.stack := al3.mem (mem_pushed hx1)
  have hrp : r ≠ p := ne_of_shape hcell3 al3.cell (by rw [shape_value (hg3.sound.stack x hx3)]; simp [shape])
  rw [M.bind_ok (setCompositeValueCell_eq p hcell3)]
  have hg4 : Good { s3 with heap := s3.heap.set r (.internalComposite t (some p) none) } :=
    hg3.write hcell3 hnf3 rfl
      ⟨fun _ h => (by cases h; exact hl3), fun _ h => (by cases h)⟩ (by simp [UnderConstruction])
  have e4 : Extends vm { s3 with heap := s3.heap.set r (.internalComposite t (some p) none) } :=
    (e2.trans al3.carried.extends).write _ hal.fresh
  have hst3 : s3.stack = vm.stack ++ [.composite (some r)] := by
    rw [al3.carried.roots.stack]; show s1.stack ++ _ = _; rw [hal.carried.roots.stack]
  have hup3 : s3.upStack = vm.upStack ++ [none] := by
    rw [al3.carried.roots.upStack]; show s1.upStack ++ _ = _; rw [hal.carried.roots.upStack]
  refine Post.bind (post_copy (o := f) hg4 (by
    show f ∈ s3.stack
    rw [hst3]; exact List.mem_append_left _ (operand_mem hc))
    (fun s' h1 h2 => ⟨rfl, h1, e4.trans h2.extends⟩)) ?_
  rintro q s5 ⟨hg5, al5, hl5, hv5⟩
  have hcell4 : ({ s3 with heap := s3.heap.set r (.internalComposite t (some p) none) } : VM).heap[r]? =
      some (.internalComposite t (some p) none) := by simp [getElem?_lt hcell3]
  have hrt4 : Traced { s3 with heap := s3.heap.set r (.internalComposite t (some p) none) } r := by
    refine pinned_stack hg4.sound (o := .composite (some r)) ?_ r .composite
    show _ ∈ s3.stack
    rw [hst3]; simp
  have hpt4 : Traced { s3 with heap := s3.heap.set r (.internalComposite t (some p) none) } p :=
    .step hrt4 hcell4 .compositeValue (by simp [UnderConstruction])
  have hcell5 := (al5.carried.heap r hrt4).trans hcell4
  have hnf5 : r ∉ s5.free := al5.carried.free r hrt4 hnf3
  have hp5 : s5.heap[p]? = some x := by
    refine (al5.carried.heap p hpt4).trans ?_
    show (s3.heap.set r _)[p]? = _
    rw [List.getElem?_set_ne hrp]; exact al3.cell
  have hlp5 : Live s5 p .value := al5.carried.live hpt4 (live_write (o' := .internalComposite t (some p) none) hcell3 rfl hl3)
  have hrq : r ≠ q := ne_of_shape hcell5 al5.cell (by
    obtain ⟨_, o, ho, hs⟩ := hl5
    rw [al5.cell] at ho; cases ho; rw [hs]; simp [shape])
  rw [setCompositeFunctionCell_eq q hcell5]
  refine ⟨r, ?_, ?_, hal.fresh, ?_, ?_, ?_⟩
  · exact hg5.write hcell5 hnf5 rfl
      ⟨fun _ h => (by cases h; exact hlp5), fun _ h => (by cases h; exact hl5)⟩ (by simp [UnderConstruction])
  · exact (e4.trans al5.carried.extends).write _ hal.fresh
  · refine ⟨p, q, by simp [getElem?_lt hcell5], ?_, ?_⟩
    · show (s5.heap.set r _)[p]? = _
      rw [List.getElem?_set_ne hrp]; exact hp5
    · show (s5.heap.set r _)[q]? = _
      rw [List.getElem?_set_ne hrq]; exact al5.cell
  · show s5.stack = _; rw [al5.carried.roots.stack]; exact hst3
  · show s5.upStack = _; rw [al5.carried.roots.upStack]; exact hup3

/-- What a composite on the stack refers to. -/
theorem composite_operand {vm : VM} (hg : Good vm) {c r : Nat}
    (h : operand vm c = some (.composite (some r))) : Live vm r .parts ∧ Traced vm r := by
  refine ⟨?_, pinned_stack hg.sound (operand_mem h) r .composite⟩
  obtain ⟨r', h1, h2⟩ := hg.sound.stack _ (operand_mem h)
  cases h1; exact h2

theorem Untouched.refl (vm : VM) (rs : List Nat) : Untouched vm vm rs :=
  ⟨fun _ _ _ => rfl, rfl, rfl, rfl, rfl, rfl⟩

/-- `set-composite-value`. -/
theorem post_setCompositeValue {vm : VM} (hg : Good vm) {a b r t : Nat} {x : Obj} {v0 w0 : Option Nat}
    (ha : operand vm a = some (.composite (some r))) (hb : operand vm b = some x)
    (hr : vm.heap[r]? = some (.internalComposite t v0 w0)) :
    Post False (fun e s' => e = .outOfMemory ∧ Good s' ∧ Extends vm s')
      (fun _ s' => Good s' ∧ Untouched vm s' [r] ∧
        (∃ p, s'.heap[r]? = some (.internalComposite t (some p) w0) ∧ s'.heap[p]? = some x ∧
          ∀ w, w0 = some w → s'.heap[w]? = vm.heap[w]?) ∧
        s'.stack = vm.stack ++ [.composite (some r)] ∧ s'.upStack = vm.upStack ++ [none])
      (iSetCompositeValue a b vm) := by
  unfold iSetCompositeValue
  rw [M.bind_ok (getArg_some ha), M.bind_ok (getArg_some hb)]
  simp only
  obtain ⟨hl, hrt⟩ := composite_operand hg ha
  refine Post.bind (post_copy hg (operand_mem hb) (fun s' h1 h2 => ⟨rfl, h1, h2.extends⟩)) ?_
  rintro p s1 ⟨hg1, al, hlp, hv⟩
  have c1 := al.carried
  have hcell1 : s1.heap[r]? = some (.internalComposite t v0 w0) := (c1.heap r hrt).trans hr
  have hl1 := c1.live hrt hl
  have hok := hg1.sound.cells r _ hcell1 hl1.1
  have hrp : r ≠ p := ne_of_shape hcell1 al.cell (by rw [shape_value hv]; simp [shape])
  rw [M.bind_ok (setCompositeValueCell_eq p hcell1)]
  have hg2 : Good { s1 with heap := s1.heap.set r (.internalComposite t (some p) w0) } :=
    hg1.write hcell1 hl1.1 rfl ⟨fun _ h => (by cases h; exact hlp), hok.2⟩ (by simp [UnderConstruction])
  refine post_push ⟨hg2.pushed ⟨r, rfl, live_write (o' := .internalComposite t (some p) w0) hcell1 rfl hl1⟩, ?_, ?_, ?_, ?_⟩
  · exact c1.extends.untouched_write hg r _ _ _
  · refine ⟨p, by simp [pushed, getElem?_lt hcell1], ?_, ?_⟩
    · show (s1.heap.set r _)[p]? = _
      rw [List.getElem?_set_ne hrp]; exact al.cell
    · rintro w rfl
      obtain ⟨_, o, ho, hs⟩ := hok.2 w rfl
      have hrw : r ≠ w := ne_of_shape hcell1 ho (by rw [hs]; simp [shape])
      show (s1.heap.set r _)[w]? = _
      rw [List.getElem?_set_ne hrw]
      exact c1.heap w (.step hrt hr .compositeFunction (by simp [UnderConstruction]))
  · show s1.stack ++ _ = _; rw [c1.roots.stack]
  · show s1.upStack ++ _ = _; rw [c1.roots.upStack]

/-- `set-composite-function`. -/
theorem post_setCompositeFunction {vm : VM} (hg : Good vm) {a b r t : Nat} {x : Obj} {v0 w0 : Option Nat}
    (ha : operand vm a = some (.composite (some r))) (hb : operand vm b = some x)
    (hr : vm.heap[r]? = some (.internalComposite t v0 w0)) :
    Post False (fun e s' => e = .outOfMemory ∧ Good s' ∧ Extends vm s')
      (fun _ s' => Good s' ∧ Untouched vm s' [r] ∧
        (∃ p, s'.heap[r]? = some (.internalComposite t v0 (some p)) ∧ s'.heap[p]? = some x ∧
          ∀ w, v0 = some w → s'.heap[w]? = vm.heap[w]?) ∧
        s'.stack = vm.stack ++ [.composite (some r)] ∧ s'.upStack = vm.upStack ++ [none])
      (iSetCompositeFunction a b vm) := by
  unfold iSetCompositeFunction
  rw [M.bind_ok (getArg_some ha), M.bind_ok (getArg_some hb)]
  simp only
  obtain ⟨hl, hrt⟩ := composite_operand hg ha
  refine Post.bind (post_copy hg (operand_mem hb) (fun s' h1 h2 => ⟨rfl, h1, h2.extends⟩)) ?_
  rintro p s1 ⟨hg1, al, hlp, hv⟩
  have c1 := al.carried
  have hcell1 : s1.heap[r]? = some (.internalComposite t v0 w0) := (c1.heap r hrt).trans hr
  have hl1 := c1.live hrt hl
  have hok := hg1.sound.cells r _ hcell1 hl1.1
  have hrp : r ≠ p := ne_of_shape hcell1 al.cell (by rw [shape_value hv]; simp [shape])
  rw [M.bind_ok (setCompositeFunctionCell_eq p hcell1)]
  have hg2 : Good { s1 with heap := s1.heap.set r (.internalComposite t v0 (some p)) } :=
    hg1.write hcell1 hl1.1 rfl ⟨hok.1, fun _ h => (by cases h; exact hlp)⟩ (by simp [UnderConstruction])
  refine post_push ⟨hg2.pushed ⟨r, rfl, live_write (o' := .internalComposite t v0 (some p)) hcell1 rfl hl1⟩, ?_, ?_, ?_, ?_⟩
  · exact c1.extends.untouched_write hg r _ _ _
  · refine ⟨p, by simp [pushed, getElem?_lt hcell1], ?_, ?_⟩
    · show (s1.heap.set r _)[p]? = _
      rw [List.getElem?_set_ne hrp]; exact al.cell
    · rintro w rfl
      obtain ⟨_, o, ho, hs⟩ := hok.1 w rfl
      have hrw : r ≠ w := ne_of_shape hcell1 ho (by rw [hs]; simp [shape])
      show (s1.heap.set r _)[w]? = _
      rw [List.getElem?_set_ne hrw]
      exact c1.heap w (.step hrt hr .compositeValue (by simp [UnderConstruction]))
  · show s1.stack ++ _ = _; rw [c1.roots.stack]
  · show s1.upStack ++ _ = _; rw [c1.roots.upStack]

end DuckLisp.VM
