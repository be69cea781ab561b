import Verif.Spec.Callbacks
import Verif.Proof.AstObj
import Verif.Props.VM.HostValues
import Verif.Props.Tables
import Verif.Props.VM.HostSequences
import Verif.Proof.VM.MemoryEffects

/-!
# Lemmas about `gensym`, `intern` and `read`
-/

namespace DuckLisp.Callbacks

open DuckLisp DuckLisp.VM DuckLisp.Spec DuckLisp.Props

/-- The first `k` free cells are taken; no other cell changes. -/
structure Taken (a b : VM) (k : Nat) : Prop where
  free : b.free = a.free.drop k
  heap : ∀ r, r ∉ a.free → b.heap[r]? = a.heap[r]?
  length : b.heap.length = a.heap.length

theorem Taken.refl (a : VM) : Taken a a 0 := ⟨rfl, fun _ _ => rfl, rfl⟩

theorem Taken.trans {a b c : VM} {k l : Nat} (h : Taken a b k) (h' : Taken b c l) : Taken a c (k + l) := by
  refine ⟨by rw [h'.free, h.free, List.drop_drop], fun r hr => ?_, by rw [h'.length, h.length]⟩
  rw [h'.heap r (fun hm => hr ?_), h.heap r hr]
  rw [h.free] at hm
  exact List.mem_of_mem_drop hm

/-- Taken, except that cell `r` changes as well. -/
structure TakenBut (a b : VM) (k : Nat) (r : Ref) : Prop where
  free : b.free = a.free.drop k
  heap : ∀ c, c ∉ a.free → c ≠ r → b.heap[c]? = a.heap[c]?
  length : b.heap.length = a.heap.length

theorem take_eq {s : VM} (o : Obj) (h : s.free ≠ []) : ∃ c s', pushObject o s = .ok c s' ∧ Taken s s' 1 ∧ c ∈ s.free ∧
    s'.stack = s.stack ∧ s'.upStack = s.upStack ∧ SameRoots s s' ∧ s'.heap[c]? = s.heap[c]?.map fun _ => store s.nextSerial o := by
  cases hf : s.free with
  | nil => exact absurd hf h
  | cons c free =>
      refine ⟨c, _, pushObject_take hf, ⟨by simp [hf], fun r hr => ?_, by simp⟩, by simp, rfl, rfl,
        ⟨rfl, rfl, rfl, rfl, rfl, rfl, rfl⟩, ?_⟩
      · rw [hf] at hr
        have : c ≠ r := fun e => hr (by simp [e])
        simp only [List.getElem?_set_ne this]
      · simp only [List.getElem?_set]
        by_cases hl : c < s.heap.length <;> simp [hl]

theorem pushCons_eq {s : VM} (hg : Good s) (h : s.free ≠ []) :
    ∃ c s1, apiPushCons s = .ok () (pushed s1 (.list (some c))) ∧ Taken s s1 1 ∧ SameRoots s s1 ∧ c ∈ s.free ∧
      Good (pushed s1 (.list (some c))) ∧ s1.heap[c]? = some (.cons none none) ∧ c ∉ s1.free ∧
      Untouched s (pushed s1 (.list (some c))) [] := by
  obtain ⟨c, s1, h1, h2, h3, -, -, h4, h5⟩ := take_eq (.cons none none) h
  have he : apiPushCons s = .ok () (pushed s1 (.list (some c))) := by
    unfold apiPushCons
    rw [M.bind_ok h1]
    rfl
  have hlt : c < s.heap.length := hg.sound.free_lt c h3
  have hcell : s1.heap[c]? = some (.cons none none) := by
    rw [h5, List.getElem?_eq_getElem hlt]
    rfl
  have hcf : c ∉ s1.free := by
    rw [h2.free]
    cases hf : s.free with
    | nil => rw [hf] at h3; cases h3
    | cons c' free =>
        have hnd := hg.sound.free_nodup
        rw [hf] at hnd
        have h1' := h1
        rw [pushObject_take hf] at h1'
        cases h1'
        simpa using (List.nodup_cons.1 hnd).1
  rcases C43_new_pair s hg with ⟨vm', r, e, -, -, -, hu, hgood⟩ | ⟨vm', e, -⟩
  · rw [he] at e
    cases e
    exact ⟨c, s1, he, h2, h4, h3, hgood, hcell, hcf, hu⟩
  · rw [he] at e
    cases e

theorem isPair_heap {a b : VM} {c : Ref} {x y : Obj} (h : IsPair a c x y) (hh : a.heap = b.heap) : IsPair b c x y := by
  have part : ∀ {p x}, Part a p x → Part b p x := by
    intro p x h
    cases h with
    | empty => exact .empty
    | pair h => exact .pair (hh ▸ h)
    | value h h' => exact .value (hh ▸ h) h'
  obtain ⟨p, q, h1, h2, h3⟩ := h
  exact ⟨p, q, hh ▸ h1, part h2, part h3⟩

theorem slot_second (s : VM) (x y : Obj) : slot (pushed (pushed s x) y) (-2) = some x := by
  unfold slot slotNumber pushed
  simp only [List.length_append, List.length_singleton, List.append_assoc]
  have : ((s.stack.length + (1 + 1) : Nat) : Int) + -2 = s.stack.length := by omega
  rw [if_pos (by omega : (-2 : Int) < 0), this, if_pos (by omega)]
  simp

/-- `duckVM_setRest(-2)` followed by `duckVM_pop`. -/
theorem setRest_eq {s : VM} {c : Ref} {a d : Option Ref} {x0 y0 y : Obj} (hg : Good (pushed (pushed s (.list (some c))) y))
    (hc : s.heap[c]? = some (.cons a d)) (hpair : IsPair s c x0 y0) (hcf : c ∉ s.free) (h : s.free ≠ []) :
    ∃ s1, apiSetRest (-2) (pushed (pushed s (.list (some c))) y) = .ok () (pushed (pushed s1 (.list (some c))) y) ∧
      TakenBut s s1 1 c ∧ SameRoots s s1 ∧ Good (pushed (pushed s1 (.list (some c))) y) ∧ IsPair s1 c x0 y ∧
      c ∉ s1.free ∧ Untouched (pushed (pushed s (.list (some c))) y) (pushed (pushed s1 (.list (some c))) y) [c] := by
  cases hf : s.free with
  | nil => exact absurd hf h
  | cons p free =>
      let s0 : VM := { s with heap := s.heap.set p (store s.nextSerial y), free := free, nextSerial := s.nextSerial + 1 }
      have hpc : p ≠ c := fun e => hcf (by simp [hf, e])
      have hp : pushObject y (pushed (pushed s (.list (some c))) y) =
          .ok p (pushed (pushed s0 (.list (some c))) y) := pushObject_take (s := pushed (pushed s (.list (some c))) y) hf
      have hc0 : (pushed (pushed s0 (.list (some c))) y).heap[c]? = some (.cons a d) := by
        show (s.heap.set p _)[c]? = _
        rw [List.getElem?_set_ne hpc, hc]
      let s1 : VM := { s0 with heap := s0.heap.set c (.cons a (some p)) }
      have he : apiSetRest (-2) (pushed (pushed s (.list (some c))) y) =
          .ok () (pushed (pushed s1 (.list (some c))) y) := by
        unfold apiSetRest
        rw [M.bind_ok (getTop_some (operand_pushed _ _)), M.bind_ok hp,
          M.bind_ok (m := stackGet (-2)) (a := .list (some c)) (s' := pushed (pushed s0 (.list (some c))) y)
            (by rw [stackGet_eq, slot_second])]
        exact setCdrCell_eq (some p) hc0
      rcases C43_set_rest_of_list_partial _ hg (-2) c y x0 y0 (operand_pushed _ _) (slot_second _ _ _) (isPair_heap hpair rfl) with
        ⟨vm', e, h1, -, h2, h3⟩ | ⟨vm', e, -⟩
      · rw [he] at e
        cases e
        refine ⟨s1, he, ⟨by simp [s1, s0, hf], fun r hr hne => ?_, by simp [s1, s0]⟩,
          ⟨rfl, rfl, rfl, rfl, rfl, rfl, rfl⟩, h3, isPair_heap h1 rfl, fun hm => hcf (by rw [hf]; exact List.mem_cons_of_mem _ hm), h2⟩
        show ((s.heap.set p _).set c _)[r]? = _
        rw [List.getElem?_set_ne (Ne.symm hne), List.getElem?_set_ne (fun e => hr (by simp [hf, e]))]
      · rw [he] at e
        cases e

/-- `duckVM_setFirst(-2)` followed by `duckVM_pop`. -/
theorem setFirst_eq {s : VM} {c : Ref} {a d : Option Ref} {x0 y0 x : Obj} (hg : Good (pushed (pushed s (.list (some c))) x))
    (hc : s.heap[c]? = some (.cons a d)) (hpair : IsPair s c x0 y0) (hcf : c ∉ s.free) (h : s.free ≠ []) :
    ∃ s1, apiSetFirst (-2) (pushed (pushed s (.list (some c))) x) = .ok () (pushed (pushed s1 (.list (some c))) x) ∧
      TakenBut s s1 1 c ∧ SameRoots s s1 ∧ Good (pushed (pushed s1 (.list (some c))) x) ∧ IsPair s1 c x y0 ∧
      c ∉ s1.free ∧ Untouched (pushed (pushed s (.list (some c))) x) (pushed (pushed s1 (.list (some c))) x) [c] := by
  cases hf : s.free with
  | nil => exact absurd hf h
  | cons p free =>
      let s0 : VM := { s with heap := s.heap.set p (store s.nextSerial x), free := free, nextSerial := s.nextSerial + 1 }
      have hpc : p ≠ c := fun e => hcf (by simp [hf, e])
      have hp : pushObject x (pushed (pushed s (.list (some c))) x) =
          .ok p (pushed (pushed s0 (.list (some c))) x) := pushObject_take (s := pushed (pushed s (.list (some c))) x) hf
      have hc0 : (pushed (pushed s0 (.list (some c))) x).heap[c]? = some (.cons a d) := by
        show (s.heap.set p _)[c]? = _
        rw [List.getElem?_set_ne hpc, hc]
      let s1 : VM := { s0 with heap := s0.heap.set c (.cons (some p) d) }
      have he : apiSetFirst (-2) (pushed (pushed s (.list (some c))) x) =
          .ok () (pushed (pushed s1 (.list (some c))) x) := by
        unfold apiSetFirst
        rw [M.bind_ok (getTop_some (operand_pushed _ _)), M.bind_ok hp,
          M.bind_ok (m := stackGet (-2)) (a := .list (some c)) (s' := pushed (pushed s0 (.list (some c))) x)
            (by rw [stackGet_eq, slot_second])]
        exact setCarCell_eq (some p) hc0
      rcases C43_set_first_of_list _ hg (-2) c x x0 y0 (operand_pushed _ _) (slot_second _ _ _) (isPair_heap hpair rfl) with
        ⟨vm', e, h1, -, h2, h3⟩ | ⟨vm', e, -⟩
      · rw [he] at e
        cases e
        refine ⟨s1, he, ⟨by simp [s1, s0, hf], fun r hr hne => ?_, by simp [s1, s0]⟩,
          ⟨rfl, rfl, rfl, rfl, rfl, rfl, rfl⟩, h3, isPair_heap h1 rfl, fun hm => hcf (by rw [hf]; exact List.mem_cons_of_mem _ hm), h2⟩
        show ((s.heap.set p _).set c _)[r]? = _
        rw [List.getElem?_set_ne (Ne.symm hne), List.getElem?_set_ne (fun e => hr (by simp [hf, e]))]
      · rw [he] at e
        cases e

theorem pop_pushed (s : VM) (o : Obj) : apiPop (pushed s o) = .ok () s := (DuckLisp.Props.C42_push_pop s o).1

theorem good_popped {s : VM} {o : Obj} (hg : Good (pushed s o)) : Good s := by
  have := good_fewer hg s.stack.length s.upStack.length
  simpa [pushed] using this

/-- The pair of the tree and the status. -/
theorem pushResult_eq {s : VM} {o : Obj} {status : Int} (hg : Good s) (ho : ValueOk s o)
    (hst : ValueOk s (.integer status)) (hf : 3 ≤ s.free.length) :
    ∃ c s', pushResult o status s = .ok () (pushed s' (.list (some c))) ∧ Good (pushed s' (.list (some c))) ∧
      SameRoots s s' ∧ Taken s s' 3 ∧ IsPair s' c o (.integer status) := by
  obtain ⟨c, s1, e1, t1, r1, hcm, g1, hc1, hcf1, -⟩ := pushCons_eq hg (AstObj.free_ne (by omega))
  have g1' := g1.pushed (o := .integer status) hst
  have hl1 : 2 ≤ s1.free.length := by rw [t1.free, List.length_drop]; omega
  have p1 : IsPair s1 c (.list none) (.list none) := ⟨none, none, hc1, .empty, .empty⟩
  obtain ⟨s2, e2, t2, r2, g2, p2, hcf2, -⟩ := setRest_eq g1' hc1 p1 hcf1 (AstObj.free_ne (by omega))
  have g2' : Good (pushed s2 (.list (some c))) := good_popped g2
  have hl2 : 1 ≤ s2.free.length := by rw [t2.free, List.length_drop]; omega
  obtain ⟨a2, d2, hc2, -⟩ := id p2
  have t12 : Taken s s2 2 := by
    refine ⟨by rw [t2.free, t1.free, List.drop_drop], fun r hr => ?_, by rw [t2.length, t1.length]⟩
    rw [t2.heap r (fun hm => hr ?_) (fun e => hr (e ▸ hcm)), t1.heap r hr]
    rw [t1.free] at hm
    exact List.mem_of_mem_drop hm
  have live12 : ∀ r k, Live s r k → Live (pushed s2 (.list (some c))) r k := by
    rintro r k ⟨hf', o', ho', hs'⟩
    refine ⟨fun hm => hf' ?_, o', (t12.heap r hf').trans ho', hs'⟩
    have hm : r ∈ s2.free := hm
    rw [t12.free] at hm
    exact List.mem_of_mem_drop hm
  have ho2 : ValueOk (pushed s2 (.list (some c))) o := valueOk_congr ho fun r k _ hl => live12 r k hl
  obtain ⟨s3, e3, t3, r3, g3, p3, hcf3, -⟩ := setFirst_eq (g2'.pushed ho2) hc2 p2 hcf2 (AstObj.free_ne hl2)
  refine ⟨c, s3, ?_, good_popped g3, ?_, ?_, p3⟩
  · unfold pushResult
    rw [M.bind_ok e1, M.bind_ok (m := apiPushInteger) (a := ()) (s' := pushed (pushed s1 (.list (some c))) (.integer 0)) rfl]
    have hset : apiSetInteger status (pushed (pushed s1 (.list (some c))) (.integer 0)) =
        .ok () (pushed (pushed s1 (.list (some c))) (.integer status)) := by
      unfold apiSetInteger
      rw [M.bind_ok (getTop_some (operand_pushed _ _))]
      have := setTop_some (vm := pushed (pushed s1 (.list (some c))) (.integer 0)) (o' := .integer status) (operand_pushed _ _)
      rw [topSet_pushed] at this
      exact this
    rw [M.bind_ok hset, M.bind_ok e2, M.bind_ok (pop_pushed _ _),
      M.bind_ok (m := push o) (a := ()) (s' := pushed (pushed s2 (.list (some c))) o) rfl, M.bind_ok e3]
    exact pop_pushed _ _
  · exact ⟨by rw [r3.stack, r2.stack, r1.stack], by rw [r3.upStack, r2.upStack, r1.upStack],
      by rw [r3.callStack, r2.callStack, r1.callStack], by rw [r3.upArrays, r2.upArrays, r1.upArrays],
      by rw [r3.globals, r2.globals, r1.globals], by rw [r3.currentBytecode, r2.currentBytecode, r1.currentBytecode],
      by rw [r3.nextUserType, r2.nextUserType, r1.nextUserType]⟩
  · refine ⟨by rw [t3.free, t12.free, List.drop_drop], fun r hr => ?_, by rw [t3.length, t12.length]⟩
    rw [t3.heap r (fun hm => hr ?_) (fun e => hr (e ▸ hcm)), t12.heap r hr]
    rw [t12.free] at hm
    exact List.mem_of_mem_drop hm

/-- What an object is shown as depends only on the cells. -/
theorem shown_heap {ids : Bytes → Nat → Prop} {a b : VM} {o : Obj} {e : Reader.Ast} (h : Shown ids a o e)
    (hh : a.heap = b.heap) : Shown ids b o e := by
  have part : ∀ {p x}, Part a p x → Part b p x := by
    intro p x h
    cases h with
    | empty => exact .empty
    | pair h => exact .pair (hh ▸ h)
    | value h h' => exact .value (hh ▸ h) h'
  induction h with
  | bool b => exact .bool b
  | int i => exact .int i
  | float i => exact .float i
  | type t => exact .type t
  | string h h1 h2 => exact .string (hh ▸ h) h1 h2
  | noText => exact .noText
  | symbol h h1 h2 => exact .symbol (hh ▸ h) h1 h2
  | nil => exact .nil
  | pair h _ _ iha ihd =>
      obtain ⟨x, y, h1, h2, h3⟩ := h
      exact .pair ⟨x, y, hh ▸ h1, part h2, part h3⟩ iha ihd

/-! ### Pushing a symbol -/

/-- The host pushes the symbol that a table has for a name: it is on the stack, or memory has run out and nothing has
changed. -/
theorem pushSymbol_named {t : Tables.Symbols} {h : List Bytes} {name : Bytes} {vm : VM} (ht : Tables.Holds t h)
    (hm : name ∈ h) (hg : Good vm) (hn : name.length < 2 ^ 63) :
    (∃ vm' o, apiPushSymbol (Tables.nameToValue t name).toNat name vm = .ok () vm' ∧ vm'.stack = vm.stack ++ [o] ∧
        vm'.upStack = vm.upStack ++ [none] ∧ NamedSymbol t vm' o name ∧ Untouched vm vm' [] ∧ Good vm') ∨
    ∃ vm', apiPushSymbol (Tables.nameToValue t name).toNat name vm = .err .outOfMemory vm' ∧ vm'.stack = vm.stack ∧
      Untouched vm vm' [] ∧ Good vm' := by
  have h := post_newString (U := False) (E := fun e s => e = .outOfMemory ∧ Good s ∧ Carried vm s) hg hn
    (fun s' h1 h2 => ⟨rfl, h1, h2⟩)
  unfold newString at h
  rw [M.bind_run] at h
  cases ho : pushObject (.internalString (some name) name.length) vm with
  | ok r s =>
    rw [ho] at h
    have h : NewString vm s (.string (some r) 0 name.length) name := h
    obtain ⟨r', hr', -, hl⟩ := h.value
    cases hr'
    obtain ⟨w, hcell, hwn, -⟩ := live_text h.good.sound hl
    have hw : w.getD [] = name := by
      have := h.text
      have ht := text_cell (off := 0) (len := name.length) hcell
      simp only [Int.natCast_zero] at ht
      have h2 : text s (.string (some r) 0 name.length) = w.getD [] := by
        refine ht.trans ?_
        rw [← hwn]
        simp
      rw [← h2, this]
    have hid : Tables.nameToValue t name = ((Tables.nameToValue t name).toNat : Int) := by
      have := ht.find name
      rw [if_pos hm] at this
      rw [this]
      rfl
    refine .inl ⟨pushed s (.symbol (Tables.nameToValue t name).toNat (some r)),
      .symbol (Tables.nameToValue t name).toNat (some r), ?_, ?_, ?_, ?_,
      (h.carried.extends.pushed _).untouched hg, h.good.pushed ⟨_, hl⟩⟩
    · unfold apiPushSymbol
      rw [M.bind_ok ho]
      rfl
    · show s.stack ++ _ = _; rw [h.carried.roots.stack]
    · show s.upStack ++ _ = _; rw [h.carried.roots.upStack]
    · have e : (w.getD []).take name.length = name := by rw [hw]; simp
      have := Shown.symbol (ids := fun w id => Tables.nameToValue t w = id)
        (vm := pushed s (.symbol (Tables.nameToValue t name).toNat (some r)))
        (id := (Tables.nameToValue t name).toNat) hcell (by rw [hw]) (by rw [e]; exact hid)
      rw [e] at this
      exact this
  | err e s =>
    rw [ho] at h
    obtain ⟨rfl, h1, h2⟩ := h
    refine .inr ⟨s, ?_, h2.roots.stack, h2.extends.untouched hg, h1⟩
    unfold apiPushSymbol
    rw [M.bind_run, ho]
  | ub => rw [ho] at h; exact h.elim
  | diverge => rw [ho] at h; exact h.elim

theorem hexPlaces_length (n : UInt64) : ∀ k, (Tables.hexPlaces n k).length = k
  | 0 => rfl
  | k + 1 => by simp [Tables.hexPlaces, hexPlaces_length n k]

mutual
/-- The conversion enters only names of the tree into the table. -/
theorem astToObject_enters (e : Reader.Ast) : ∀ {t t' : Tables.Symbols} {vm vm' : VM} {o : Obj},
    AstObj.astToObject e t vm = .ok (o, t') vm' → ∃ later, t' = Tables.createAll t later ∧ ∀ w ∈ later, Occurs w e := by
  intro t t' vm vm' o h
  cases e with
  | bool b => rw [AstObj.astToObject] at h; cases h; exact ⟨[], rfl, by simp⟩
  | int b => rw [AstObj.astToObject] at h; cases h; exact ⟨[], rfl, by simp⟩
  | float b => rw [AstObj.astToObject] at h; cases h; exact ⟨[], rfl, by simp⟩
  | garbage => rw [AstObj.astToObject] at h; cases h
  | identifier name =>
      rw [AstObj.astToObject, M.bind_run] at h
      split at h <;> cases h
      exact ⟨[name], rfl, by simp [Occurs]⟩
  | callback name =>
      rw [AstObj.astToObject, M.bind_run] at h
      split at h <;> cases h
      exact ⟨[name], rfl, by simp [Occurs]⟩
  | string s =>
      rw [AstObj.astToObject, M.bind_run] at h
      split at h <;> cases h
      exact ⟨[], rfl, by simp⟩
  | expression es =>
      rw [AstObj.astToObject, M.bind_run] at h
      split at h
      · rename_i a s1 h1
        cases h
        obtain ⟨later, h2, h3⟩ := elementsToObject_enters es h1
        exact ⟨later, h2, h3⟩
      all_goals cases h
  | literal es =>
      rw [AstObj.astToObject, M.bind_run] at h
      split at h
      · rename_i a s1 h1
        cases h
        obtain ⟨later, h2, h3⟩ := elementsToObject_enters es h1
        exact ⟨later, h2, h3⟩
      all_goals cases h
theorem elementsToObject_enters (es : List Reader.Ast) : ∀ {t t' : Tables.Symbols} {vm vm' : VM} {p : Option Ref},
    AstObj.elementsToObject es t vm = .ok (p, t') vm' →
    ∃ later, t' = Tables.createAll t later ∧ ∀ w ∈ later, OccursIn w es := by
  intro t t' vm vm' p h
  cases es with
  | nil => rw [AstObj.elementsToObject] at h; cases h; exact ⟨[], rfl, by simp⟩
  | cons e es =>
      rw [AstObj.elementsToObject, M.bind_run] at h
      split at h
      · rename_i a s1 h1
        obtain ⟨tail, t1⟩ := a
        dsimp only at h
        rw [M.bind_run] at h
        split at h
        · rename_i b s2 h2
          obtain ⟨head, t2⟩ := b
          dsimp only at h
          rw [M.bind_run] at h
          split at h
          · rw [M.bind_run] at h
            split at h <;> cases h
            obtain ⟨l1, e1, o1⟩ := elementsToObject_enters es h1
            obtain ⟨l2, e2, o2⟩ := astToObject_enters e h2
            refine ⟨l1 ++ l2, ?_, ?_⟩
            · rw [e2, e1]
              simp [Tables.createAll]
            · intro w hw
              rcases List.mem_append.1 hw with hw | hw
              · exact .inr (o1 w hw)
              · exact .inl (o2 w hw)
          all_goals cases h
        all_goals cases h
      all_goals cases h
end

/-- No name in a text starts with a zero byte. -/
theorem read_names {cfg : Reader.Config} (hact : ∀ name, cfg.action name = none) {src : Bytes} {i : Nat}
    {s s' : Reader.RState} {e : Reader.Ast} (h : Reader.read cfg src i s = .ok e s') {w : Bytes} (ho : Occurs w e) :
    w.head? ≠ some 0 := by
  intro h0
  simp only [Reader.read] at h
  cases hc : Reader.compound cfg src (cfg.maxDepth + 1) i { s with depth := 0 } with
  | ok r s1 =>
    rw [hc] at h
    obtain ⟨e1, k⟩ := r
    cases h
    have hcl := Reader.clean_postprocess e1 (Reader.clean_compound hact _ _ _ _ _ hc)
    have := Reader.occurs_clean _ hcl ho 0 (List.mem_of_head? h0)
    exact absurd this (by decide)
  | err er s1 => rw [hc] at h; cases h
  | ub => rw [hc] at h; cases h
  | diverge => rw [hc] at h; cases h

/-- What a history that takes `n` numbers leaves: the names in the table do not start with a zero byte or were generated
with one of the first `n` numbers. -/
def Generated (n : Nat) (l : Lisp) : Prop :=
  l.counter = UInt64.ofNat n ∧ ∃ h, Tables.Holds l.symbols h ∧
    ∀ w ∈ h, w.head? ≠ some 0 ∨ ∃ k < n, w = (Tables.gensym (UInt64.ofNat k)).1

theorem Generated.named {n : Nat} {l l' : Lisp} (h : Generated n l) (names : List Bytes)
    (hn : ∀ w ∈ names, w.head? ≠ some 0) (hc : l'.counter = l.counter)
    (hs : l'.symbols = Tables.createAll l.symbols names) : Generated n l' := by
  obtain ⟨h1, hist, h2, h3⟩ := h
  refine ⟨hc.trans h1, hist ++ names, hs ▸ Tables.holds_createAll h2 names, fun w hw => ?_⟩
  rcases List.mem_append.1 hw with hw | hw
  · exact h3 w hw
  · exact .inl (hn w hw)

theorem generated_uses {n k : Nat} {l l' : Lisp} (h : Generated n l) (hu : Uses k l l') : Generated (n + k) l' := by
  cases hu with
  | named _ name hname => exact h.named [name] (by simpa using hname) rfl rfl
  | label =>
      obtain ⟨h1, hist, h2, h3⟩ := h
      refine ⟨?_, hist, h2, fun w hw => (h3 w hw).imp id fun ⟨k, hk, e⟩ => ⟨k, by omega, e⟩⟩
      show l.counter + 1 = _
      rw [h1, UInt64.ofNat_add]
      rfl
  | gensym _ vm =>
      obtain ⟨h1, hist, h2, h3⟩ := h
      refine ⟨?_, hist ++ [(Tables.gensym l.counter).1], Tables.holds_create h2 _, fun w hw => ?_⟩
      · show l.counter + 1 = _
        rw [h1, UInt64.ofNat_add]
        rfl
      · rcases List.mem_append.1 hw with hw | hw
        · exact (h3 w hw).imp id fun ⟨k, hk, e⟩ => ⟨k, by omega, e⟩
        · cases List.mem_singleton.1 hw
          exact .inr ⟨n, by omega, by rw [h1]⟩
  | read _ cfg hact vm =>
      unfold Callbacks.read
      split
      · rename_i text vm1 _
        unfold readText
        split
        · rename_i e rs hr
          split
          · rename_i o t vm2 ho
            obtain ⟨later, h1, h2⟩ := astToObject_enters e ho
            exact h.named later (fun w hw => read_names hact hr (h2 w hw)) rfl h1
          all_goals exact h.named [] (by simp) rfl rfl
        all_goals exact h.named [] (by simp) rfl rfl
      all_goals exact h.named [] (by simp) rfl rfl
  | intern _ vm hint =>
      unfold Callbacks.intern
      have same : Generated (n + 0) l := h
      split
      · rename_i type vm1 htype
        have hvm : vm1 = vm := by
          unfold apiTypeOf at htype
          rw [M.bind_run] at htype
          cases hl : vm.stack.getLast? with
          | none =>
              have : getTop vm = .err .bufferUnderflow vm := by unfold getTop; rw [hl]; rfl
              rw [this] at htype
              cases htype
          | some o =>
              have : getTop vm = .ok o vm := by unfold getTop; rw [hl]; rfl
              rw [this] at htype
              cases htype
              rfl
        subst hvm
        split
        · exact same
        · unfold internString
          split
          · rename_i s vm2 hs
            split
            · exact h.named [s] (by simpa using hint s vm2 hs) rfl rfl
            all_goals exact same
          all_goals exact same
      all_goals exact same

end DuckLisp.Callbacks
