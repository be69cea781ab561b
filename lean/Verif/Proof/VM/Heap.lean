import Verif.Model.VM.Heap
import Verif.Spec.Reach

/-!
# Lemmas about marking and sweeping
-/

namespace DuckLisp.VM

open DuckLisp DuckLisp.Spec

theorem mapM_slots_mem {slots : List Slot} {cs : List (Option Ref)}
    (h : slots.mapM (fun s => match s with
      | .ptr p => some p
      | .uninit => Option.none) = some cs) :
    slots = cs.map Slot.ptr := by
  induction slots generalizing cs with
  | nil => simp at h; subst h; rfl
  | cons s ss ih =>
    rw [List.mapM_cons] at h
    cases s with
    | uninit => simp at h
    | ptr p =>
      cases hm : ss.mapM (fun s => match s with
        | .ptr p => some p
        | .uninit => Option.none) with
      | none => simp [hm] at h
      | some cs' =>
        simp [hm] at h
        subst h
        simp [ih hm]

theorem mapM_slots_some {slots : List Slot} (h : ∀ i, i < slots.length → ∃ p, slots[i]? = some (.ptr p)) :
    ∃ cs, slots.mapM (fun s => match s with
      | .ptr p => some p
      | .uninit => Option.none) = some cs := by
  induction slots with
  | nil => exact ⟨[], rfl⟩
  | cons s ss ih =>
    obtain ⟨p, hp⟩ := h 0 (by simp)
    simp at hp
    subst hp
    obtain ⟨cs, hcs⟩ := ih (fun i hi => by
      obtain ⟨q, hq⟩ := h (i + 1) (by simpa using hi)
      exact ⟨q, by simpa using hq⟩)
    exact ⟨p :: cs, by rw [List.mapM_cons]; simp [hcs]⟩

/-- Everything the collector traces from an object is mentioned by it. -/
theorem children_sound {o : Obj} {cs : List (Option Ref)} {r : Ref}
    (h : children o = some cs) (hr : some r ∈ cs) : Mentions o r := by
  cases o with
  | upvalue u =>
    cases u with
    | stackIndex i => simp [children] at h; subst h; simp at hr
    | heapObject o => simp [children] at h; subst h; simp at hr; subst hr; constructor
    | heapUpvalue o => simp [children] at h; subst h; simp at hr; subst hr; constructor
  | upvalueArray b n =>
    cases b with
    | none => simp [children] at h; obtain ⟨-, rfl⟩ := h; simp at hr
    | some b =>
      simp [children] at h
      obtain ⟨hn, rfl⟩ := h
      obtain ⟨i, hi, hget⟩ := List.getElem_of_mem hr
      simp at hi
      refine Mentions.capturedArray (i := i) (by omega) ?_
      rw [List.getElem_take] at hget
      rw [List.getElem?_eq_getElem (by omega), hget]
  | internalVector vs n init =>
    cases init with
    | false => simp [children] at h; subst h; simp at hr
    | true =>
      cases vs with
      | none => simp [children] at h; obtain ⟨-, rfl⟩ := h; simp at hr
      | some slots =>
        simp only [children] at h
        split at h
        · have hm := mapM_slots_mem h
          obtain ⟨i, hi, hget⟩ := List.getElem_of_mem hr
          have hl : (slots.take n).length = cs.length := by rw [hm]; simp
          simp at hl
          refine Mentions.element (i := i) (by omega) ?_
          have : (slots.take n)[i]? = some (.ptr (some r)) := by
            rw [hm]; simp [List.getElem?_eq_getElem hi, hget]
          rw [List.getElem?_take] at this
          split at this
          · exact this
          · simp at this
        · simp at h
  | string s off len =>
    cases s with
    | none => simp [children] at h; subst h; simp at hr
    | some s => simp [children] at h; subst h; simp at hr; subst hr; constructor
  | symbol id s =>
    cases s with
    | none => simp [children] at h; subst h; simp at hr
    | some s => simp [children] at h; subst h; simp at hr; subst hr; constructor
  | user d ms b => simp [children] at h; subst h; exact .user hr
  | list c => simp [children] at h; subst h; simp at hr; subst hr; constructor
  | cons a d =>
    simp [children] at h; subst h; simp at hr
    rcases hr with hr | hr <;> subst hr
    · exact .car
    · exact .cdr
  | closure n bc ua ar v =>
    simp [children] at h; subst h; simp at hr
    rcases hr with hr | hr <;> subst hr
    · exact .captured
    · exact .code
  | vector v off => simp [children] at h; subst h; simp at hr; subst hr; constructor
  | composite c => simp [children] at h; subst h; simp at hr; subst hr; constructor
  | internalComposite t v f =>
    simp [children] at h; subst h; simp at hr
    rcases hr with hr | hr <;> subst hr
    · exact .compositeValue
    · exact .compositeFunction
  | _ => simp [children] at h; subst h; simp at hr

/-- The collector traces everything an object mentions, unless it is a vector being built. -/
theorem children_complete {o : Obj} {cs : List (Option Ref)} {r : Ref}
    (h : children o = some cs) (hm : Mentions o r) (hc : ¬ UnderConstruction o) :
    some r ∈ cs := by
  cases hm with
  | @capturedArray serial ups n i r hi hget =>
    simp [children] at h
    obtain ⟨hn, rfl⟩ := h
    refine List.mem_of_getElem? (i := i) ?_
    rw [List.getElem?_take, if_pos hi]; exact hget
  | @element slots n init i r hi hget =>
    cases init with
    | false => exact absurd rfl hc
    | true =>
      simp only [children] at h
      split at h
      · have hm := mapM_slots_mem h
        have : (slots.take n)[i]? = some (.ptr (some r)) := by
          rw [List.getElem?_take, if_pos hi]; exact hget
        rw [hm] at this
        simp at this
        exact List.mem_of_getElem? this
      · simp at h
  | user h' => simp [children] at h; subst h; exact h'
  | _ => simp [children] at h; subst h; simp

theorem children_isSome {o : Obj} (h : Intact o) : ∃ cs, children o = some cs := by
  cases o with
  | upvalue u => cases u <;> exact ⟨_, rfl⟩
  | upvalueArray b n =>
    cases b with
    | none =>
      cases n with
      | zero => exact ⟨[], by simp [children]⟩
      | succ n => obtain ⟨blk, hb, -⟩ := h 0 (by omega); cases hb
    | some b =>
      refine ⟨b.ups.take n, ?_⟩
      simp only [children]
      rw [if_pos]
      cases n with
      | zero => omega
      | succ n =>
        obtain ⟨blk, hb, hl⟩ := h n (by omega)
        cases hb
        omega
  | internalVector vs n init =>
    obtain ⟨rfl, h⟩ := h
    cases vs with
    | none =>
      cases n with
      | zero => exact ⟨[], by simp [children]⟩
      | succ n => obtain ⟨_, _, hb, -⟩ := h 0 (by omega); cases hb
    | some slots =>
      simp only [children]
      have hn : n ≤ slots.length := by
        cases n with
        | zero => omega
        | succ n =>
          obtain ⟨sl, p, hb, hl⟩ := h n (by omega)
          cases hb
          have := (List.getElem?_eq_some_iff.mp hl).1
          omega
      rw [if_pos hn]
      apply mapM_slots_some
      intro i hi
      simp at hi
      obtain ⟨sl, p, hb, hl⟩ := h i (by omega)
      cases hb
      exact ⟨p, by rw [List.getElem?_take, if_pos (by omega)]; exact hl⟩
  | string s off len => cases s <;> exact ⟨_, rfl⟩
  | symbol id s => cases s <;> exact ⟨_, rfl⟩
  | _ => exact ⟨_, rfl⟩

/-- A half-built vector has no traced pointers. -/
theorem children_settled {o : Obj} {cs : List (Option Ref)} {r : Ref}
    (h : children o = some cs) (hr : some r ∈ cs) : ¬ UnderConstruction o := by
  cases o <;> simp [UnderConstruction]
  case internalVector vs n init =>
    cases init
    · simp [children] at h; subst h; simp at hr
    · simp

/-- `Path heap r r'`: `r'` can be reached from `r` by following references, but not those of a
half-built vector. -/
inductive Path (heap : List Obj) : Ref → Ref → Prop
  | refl {r} : Path heap r r
  | head {r o r' r''} (ho : heap[r]? = some o) (hm : Mentions o r') (hc : ¬ UnderConstruction o)
      (h : Path heap r' r'') : Path heap r r''

/-- Marked cells have their traced pointers marked. -/
def Closed (heap : List Obj) (u : List Bool) : Prop :=
  ∀ r : Nat, u[r]? = some true → ∃ o cs, heap[r]? = some o ∧ children o = some cs ∧
    ∀ c : Nat, some c ∈ cs → u[c]? = some true

theorem markLoop_spec {heap : List Obj} (inUse : List Bool) (ds : List (Option Ref))
    {u' : List Bool} (h : markLoop heap inUse ds = some u') :
    u'.length = inUse.length ∧
    (∀ r : Nat, inUse[r]? = some true → u'[r]? = some true) ∧
    (∀ r : Nat, some r ∈ ds → u'[r]? = some true) ∧
    (∀ r : Nat, u'[r]? = some true → inUse[r]? = some true ∨
      (∃ o cs, heap[r]? = some o ∧ children o = some cs ∧
        ∀ c : Nat, some c ∈ cs → u'[c]? = some true)) ∧
    (∀ r : Nat, u'[r]? = some true → inUse[r]? = some true ∨
      ∃ r0, some r0 ∈ ds ∧ Path heap r0 r) := by
  fun_induction markLoop heap inUse ds with
  | case1 inUse =>
    simp at h; subst h
    exact ⟨rfl, fun _ h => h, by simp, fun _ h => Or.inl h, fun _ h => Or.inl h⟩
  | case2 inUse rest ih =>
    obtain ⟨h1, h2, h3, h4, h5⟩ := ih h
    refine ⟨h1, h2, ?_, h4, ?_⟩
    · intro r hr; simp at hr; exact h3 r hr
    · intro r hr
      rcases h5 r hr with h | ⟨r0, hr0, hp⟩
      · exact .inl h
      · exact .inr ⟨r0, by simp [hr0], hp⟩
  | case3 => simp at h
  | case4 inUse r rest hu ih =>
    obtain ⟨h1, h2, h3, h4, h5⟩ := ih h
    refine ⟨h1, h2, ?_, h4, ?_⟩
    · intro r' hr'
      simp at hr'
      rcases hr' with rfl | hr'
      · exact h2 _ hu
      · exact h3 r' hr'
    · intro r' hr'
      rcases h5 r' hr' with h | ⟨r0, hr0, hp⟩
      · exact .inl h
      · exact .inr ⟨r0, by simp [hr0], hp⟩
  | case5 => simp at h
  | case6 => simp at h
  | case7 inUse r rest hu o ho cs hc ih =>
    obtain ⟨h1, h2, h3, h4, h5⟩ := ih h
    have hlt : r < inUse.length := (List.getElem?_eq_some_iff.mp hu).1
    have hset : (inUse.set r true)[r]? = some true := by simp [hlt]
    have hother : ∀ r', (inUse.set r true)[r']? = some true → r' = r ∨ inUse[r']? = some true := by
      intro r' hr'
      by_cases hrr : r' = r
      · exact .inl hrr
      · rw [List.getElem?_set_ne (by omega)] at hr'
        exact .inr hr'
    refine ⟨by simpa using h1, ?_, ?_, ?_, ?_⟩
    · intro r' hr'
      apply h2
      by_cases hrr : r' = r
      · subst hrr; exact hset
      · rw [List.getElem?_set_ne (by omega)]; exact hr'
    · intro r' hr'
      simp at hr'
      rcases hr' with rfl | hr'
      · exact h2 _ hset
      · exact h3 r' (by simp [hr'])
    · intro r' hr'
      rcases h4 r' hr' with h | h
      · rcases hother r' h with rfl | h
        · exact .inr ⟨o, cs, ho, hc, fun c hcm => h3 c (by simp [hcm])⟩
        · exact .inl h
      · exact .inr h
    · intro r' hr'
      rcases h5 r' hr' with h | ⟨r0, hr0, hp⟩
      · rcases hother r' h with rfl | h
        · exact .inr ⟨r', by simp, .refl⟩
        · exact .inl h
      · simp at hr0
        rcases hr0 with hr0 | hr0
        · exact .inr ⟨r, by simp, .head ho (children_sound hc hr0) (children_settled hc hr0) hp⟩
        · exact .inr ⟨r0, by simp [hr0], hp⟩

theorem markLoop_isSome {heap : List Obj} (inUse : List Bool) (ds : List (Option Ref))
    (hl : inUse.length = heap.length)
    (hgood : ∀ r0 r, some r0 ∈ ds → Path heap r0 r → ∃ o, heap[r]? = some o ∧
      ∃ cs, children o = some cs) :
    ∃ u', markLoop heap inUse ds = some u' := by
  fun_induction markLoop heap inUse ds with
  | case1 inUse => exact ⟨_, rfl⟩
  | case2 inUse rest ih => exact ih hl (fun r0 r h => hgood r0 r (by simp [h]))
  | case3 inUse r rest hu =>
    obtain ⟨o, ho, -⟩ := hgood r r (by simp) .refl
    have := (List.getElem?_eq_some_iff.mp ho).1
    have := List.getElem?_eq_none_iff.mp hu
    omega
  | case4 inUse r rest hu ih => exact ih hl (fun r0 r h => hgood r0 r (by simp [h]))
  | case5 inUse r rest hu ho =>
    obtain ⟨o, ho', -⟩ := hgood r r (by simp) .refl
    rw [ho] at ho'; cases ho'
  | case6 inUse r rest hu o ho hc =>
    obtain ⟨o', ho', cs, hcs⟩ := hgood r r (by simp) .refl
    rw [ho] at ho'; cases ho'
    rw [hc] at hcs; cases hcs
  | case7 inUse r rest hu o ho cs hc ih =>
    refine ih (by simpa using hl) ?_
    intro r0 r' hr0 hp
    simp at hr0
    rcases hr0 with hr0 | hr0
    · exact hgood r r' (by simp) (.head ho (children_sound hc hr0) (children_settled hc hr0) hp)
    · exact hgood r0 r' (by simp [hr0]) hp

theorem markLoop_closed {heap : List Obj} {inUse u' : List Bool} {ds : List (Option Ref)}
    (h : markLoop heap inUse ds = some u') (hc : Closed heap inUse) : Closed heap u' := by
  obtain ⟨-, h2, -, h4, -⟩ := markLoop_spec inUse ds h
  intro r hr
  rcases h4 r hr with h | h
  · obtain ⟨o, cs, ho, hcs, hall⟩ := hc r h
    exact ⟨o, cs, ho, hcs, fun c hcm => h2 c (hall c hcm)⟩
  · exact h

theorem markPointers_spec {heap : List Obj} (ps : List (Option Ref)) (inUse : List Bool)
    {u' : List Bool} (h : markPointers heap inUse ps = some u') (hc : Closed heap inUse) :
    u'.length = inUse.length ∧ Closed heap u' ∧
    (∀ r : Nat, inUse[r]? = some true → u'[r]? = some true) ∧
    (∀ r : Nat, some r ∈ ps → u'[r]? = some true) ∧
    (∀ r : Nat, u'[r]? = some true → inUse[r]? = some true ∨ ∃ r0, some r0 ∈ ps ∧ Path heap r0 r) := by
  induction ps generalizing inUse with
  | nil =>
    simp [markPointers] at h; subst h
    exact ⟨rfl, hc, fun _ h => h, by simp, fun _ h => Or.inl h⟩
  | cons p ps ih =>
    cases p with
    | none =>
      obtain ⟨h1, h2, h3, h4, h5⟩ := ih inUse h hc
      refine ⟨h1, h2, h3, ?_, ?_⟩
      · intro r hr; simp at hr; exact h4 r hr
      · intro r hr
        rcases h5 r hr with h | ⟨r0, hr0, hp⟩
        · exact .inl h
        · exact .inr ⟨r0, by simp [hr0], hp⟩
    | some r =>
      simp only [markPointers] at h
      cases hm : markLoop heap inUse [some r] with
      | none => simp [hm] at h
      | some u1 =>
        simp only [hm] at h
        obtain ⟨g1, g2, g3, -, g5⟩ := markLoop_spec inUse _ hm
        obtain ⟨h1, h2, h3, h4, h5⟩ := ih u1 h (markLoop_closed hm hc)
        refine ⟨by omega, h2, fun r' hr' => h3 r' (g2 r' hr'), ?_, ?_⟩
        · intro r' hr'
          simp at hr'
          rcases hr' with rfl | hr'
          · exact h3 _ (g3 _ (by simp))
          · exact h4 r' hr'
        · intro r' hr'
          rcases h5 r' hr' with h | ⟨r0, hr0, hp⟩
          · rcases g5 r' h with h | ⟨r0, hr0, hp⟩
            · exact .inl h
            · exact .inr ⟨r0, by simpa using .inl (by simpa using hr0), hp⟩
          · exact .inr ⟨r0, by simp [hr0], hp⟩

theorem markPointers_isSome {heap : List Obj} (ps : List (Option Ref)) (inUse : List Bool)
    (hl : inUse.length = heap.length)
    (hgood : ∀ r0 r, some r0 ∈ ps → Path heap r0 r → ∃ o, heap[r]? = some o ∧
      ∃ cs, children o = some cs) :
    ∃ u', markPointers heap inUse ps = some u' := by
  induction ps generalizing inUse with
  | nil => exact ⟨_, rfl⟩
  | cons p ps ih =>
    cases p with
    | none => exact ih inUse hl (fun r0 r h => hgood r0 r (by simp [h]))
    | some r =>
      obtain ⟨u1, hu1⟩ := markLoop_isSome inUse [some r] hl
        (fun r0 r h => hgood r0 r (by simp at h; simp [h]))
      obtain ⟨u2, hu2⟩ := ih u1 (by have := (markLoop_spec inUse _ hu1).1; omega)
        (fun r0 r h => hgood r0 r (by simp [h]))
      exact ⟨u2, by simp [markPointers, hu1, hu2]⟩

theorem markStack_spec {heap : List Obj} (os : List Obj) (inUse : List Bool)
    {u' : List Bool} (h : markStack heap inUse os = some u') (hc : Closed heap inUse) :
    u'.length = inUse.length ∧ Closed heap u' ∧
    (∀ r : Nat, inUse[r]? = some true → u'[r]? = some true) ∧
    (∀ (o : Obj) (cs : List (Option Ref)) (r : Nat), o ∈ os → children o = some cs → some r ∈ cs → u'[r]? = some true) ∧
    (∀ o, o ∈ os → ∃ cs, children o = some cs) ∧
    (∀ r : Nat, u'[r]? = some true → inUse[r]? = some true ∨
      ∃ o r0, o ∈ os ∧ Mentions o r0 ∧ ¬ UnderConstruction o ∧ Path heap r0 r) := by
  induction os generalizing inUse with
  | nil =>
    simp [markStack] at h; subst h
    exact ⟨rfl, hc, fun _ h => h, by simp, by simp, fun _ h => Or.inl h⟩
  | cons o os ih =>
    simp only [markStack, markStackObject] at h
    cases hch : children o with
    | none => simp [hch] at h
    | some cs =>
      simp only [hch] at h
      cases hm : markLoop heap inUse cs.reverse with
      | none => simp [hm] at h
      | some u1 =>
        simp only [hm] at h
        obtain ⟨g1, g2, g3, -, g5⟩ := markLoop_spec inUse _ hm
        obtain ⟨h1, h2, h3, h4, h4', h5⟩ := ih u1 h (markLoop_closed hm hc)
        refine ⟨by omega, h2, fun r' hr' => h3 r' (g2 r' hr'), ?_, ?_, ?_⟩
        · intro o' cs' r' ho' hcs' hr'
          simp at ho'
          rcases ho' with rfl | ho'
          · rw [hch] at hcs'; cases hcs'
            exact h3 _ (g3 _ (by simp [hr']))
          · exact h4 o' cs' r' ho' hcs' hr'
        · intro o' ho'
          simp at ho'
          rcases ho' with rfl | ho'
          · exact ⟨cs, hch⟩
          · exact h4' o' ho'
        · intro r' hr'
          rcases h5 r' hr' with h | ⟨o', r0, ho', hm', hc', hp⟩
          · rcases g5 r' h with h | ⟨r0, hr0, hp⟩
            · exact .inl h
            · exact .inr ⟨o, r0, by simp, children_sound hch (by simpa using hr0),
                children_settled hch (r := r0) (by simpa using hr0), hp⟩
          · exact .inr ⟨o', r0, by simp [ho'], hm', hc', hp⟩

theorem markStack_isSome {heap : List Obj} (os : List Obj) (inUse : List Bool)
    (hl : inUse.length = heap.length)
    (hos : ∀ o, o ∈ os → ∃ cs, children o = some cs)
    (hgood : ∀ o r0 r, o ∈ os → Mentions o r0 → Path heap r0 r → ∃ o, heap[r]? = some o ∧
      ∃ cs, children o = some cs) :
    ∃ u', markStack heap inUse os = some u' := by
  induction os generalizing inUse with
  | nil => exact ⟨_, rfl⟩
  | cons o os ih =>
    obtain ⟨cs, hcs⟩ := hos o (by simp)
    obtain ⟨u1, hu1⟩ := markLoop_isSome inUse cs.reverse hl
      (fun r0 r h => hgood o r0 r (by simp) (children_sound hcs (by simpa using h)))
    obtain ⟨u2, hu2⟩ := ih u1 (by have := (markLoop_spec inUse _ hu1).1; omega)
      (fun o h => hos o (by simp [h]))
      (fun o r0 r h => hgood o r0 r (by simp [h]))
    exact ⟨u2, by simp [markStack, markStackObject, hcs, hu1, hu2]⟩

theorem closed_fresh (heap : List Obj) (n : Nat) : Closed heap (List.replicate n false) := by
  intro r hr
  rw [List.getElem?_replicate] at hr
  split at hr <;> simp at hr

theorem Reachable.path {vm : VM} {r r' : Ref} (h : Reachable vm r) (hp : Path vm.heap r r') :
    Reachable vm r' := by
  induction hp with
  | refl => exact h
  | head ho hm _ _ ih => exact ih (.step h ho hm)

theorem mem_rootPointers {vm : VM} {r : Ref} (h : some r ∈ rootPointers vm) : Root vm r := by
  unfold rootPointers at h
  simp only [List.mem_append, List.mem_map, List.mem_singleton] at h
  rcases h with ((h | ⟨⟨k, o⟩, hk, ho⟩) | ⟨f, hf, hb⟩) | h
  · exact .captured h
  · simp at ho; subst ho; exact .global hk
  · exact .pending hf hb
  · exact .running h.symm

/-- Cells the collector traces: like `Reachable`, but not through half-built vectors. -/
inductive Traced (vm : VM) : Ref → Prop
  | stack {o r} (ho : o ∈ vm.stack) (hm : Mentions o r) (hc : ¬ UnderConstruction o) : Traced vm r
  | ptr {r} (h : some r ∈ rootPointers vm) : Traced vm r
  | step {r o r'} (h : Traced vm r) (ho : vm.heap[r]? = some o) (hm : Mentions o r')
      (hc : ¬ UnderConstruction o) : Traced vm r'

theorem Traced.path {vm : VM} {r r' : Ref} (h : Traced vm r) (hp : Path vm.heap r r') :
    Traced vm r' := by
  induction hp with
  | refl => exact h
  | head ho hm hc _ ih => exact ih (.step h ho hm hc)

theorem Traced.reachable {vm : VM} {r : Ref} (h : Traced vm r) : Reachable vm r := by
  induction h with
  | stack ho hm hc => exact .root (.stack ho hm)
  | ptr h => exact .root (mem_rootPointers h)
  | step _ ho hm hc ih => exact .step ih ho hm

/-- What the marking phase computes. -/
theorem markAll_spec {vm : VM} {u : List Bool} (h : markAll vm = some u) :
    u.length = vm.heap.length ∧ Closed vm.heap u ∧
    (∀ r : Nat, u[r]? = some true → Traced vm r) ∧
    (∀ (o : Obj) (cs : List (Option Ref)) (r : Nat), o ∈ vm.stack → children o = some cs → some r ∈ cs → u[r]? = some true) ∧
    (∀ o, o ∈ vm.stack → ∃ cs, children o = some cs) ∧
    (∀ r : Nat, some r ∈ rootPointers vm → u[r]? = some true) := by
  unfold markAll at h
  cases hs : markStack vm.heap (List.replicate vm.heap.length false) vm.stack with
  | none => simp [hs] at h
  | some u1 =>
    simp only [hs] at h
    obtain ⟨a1, a2, a3, a4, a4', a5⟩ := markStack_spec _ _ hs (closed_fresh _ _)
    obtain ⟨b1, b2, b3, b4, b5⟩ := markPointers_spec _ _ h a2
    refine ⟨by simp at a1; omega, b2, ?_, fun o cs r ho hcs hr => b3 r (a4 o cs r ho hcs hr), a4', b4⟩
    intro r hr
    rcases b5 r hr with h | ⟨r0, hr0, hp⟩
    · rcases a5 r h with h | ⟨o, r0, ho, hm, hc, hp⟩
      · rw [List.getElem?_replicate] at h
        split at h <;> simp at h
      · exact Traced.path (.stack ho hm hc) hp
    · exact Traced.path (.ptr hr0) hp

/-- The marked cells are exactly the reachable ones if no reachable vector is being built. -/
theorem markAll_iff {vm : VM} {u : List Bool} (h : markAll vm = some u)
    (hstack : ∀ o ∈ vm.stack, ¬ UnderConstruction o)
    (hheap : ∀ r o, Reachable vm r → vm.heap[r]? = some o → ¬ UnderConstruction o) (r : Ref) :
    u[r]? = some true ↔ Reachable vm r := by
  obtain ⟨h1, h2, h3, h4, h4', h5⟩ := markAll_spec h
  refine ⟨fun h => (h3 r h).reachable, ?_⟩
  intro hr
  induction hr with
  | root hroot =>
    cases hroot with
    | stack ho hm =>
      obtain ⟨cs, hcs⟩ := h4' _ ho
      exact h4 _ _ _ ho hcs (children_complete hcs hm (hstack _ ho))
    | captured hc => exact h5 _ (by simp [rootPointers, hc])
    | global hg =>
      refine h5 _ ?_
      simp only [rootPointers, List.mem_append, List.mem_map]
      exact .inl (.inl (.inr ⟨_, hg, rfl⟩))
    | pending hf hb =>
      refine h5 _ ?_
      simp only [rootPointers, List.mem_append, List.mem_map]
      exact .inl (.inr ⟨_, hf, hb⟩)
    | running hb => exact h5 _ (by simp [rootPointers, hb])
  | step hreach ho hm ih =>
    obtain ⟨o', cs, ho', hcs, hall⟩ := h2 _ ih
    rw [ho] at ho'; cases ho'
    exact hall _ (children_complete hcs hm (hheap _ _ hreach ho))

theorem markAll_isSome {vm : VM} (hstack : ∀ o ∈ vm.stack, Intact o)
    (hheap : ∀ r, Reachable vm r → ∃ o, vm.heap[r]? = some o ∧ Intact o) :
    ∃ u, markAll vm = some u := by
  obtain ⟨u1, hu1⟩ := markStack_isSome (heap := vm.heap) vm.stack
    (List.replicate vm.heap.length false) (by simp)
    (fun o ho => children_isSome (hstack o ho))
    (fun o r0 r ho hm hp => by
      obtain ⟨o', ho', hi⟩ := hheap r (Reachable.path (.root (.stack ho hm)) hp)
      exact ⟨o', ho', children_isSome hi⟩)
  obtain ⟨u2, hu2⟩ := markPointers_isSome (heap := vm.heap) (rootPointers vm) u1
    (by have := (markStack_spec _ _ hu1 (closed_fresh _ _)).1; simpa using this)
    (fun r0 r h hp => by
      obtain ⟨o', ho', hi⟩ := hheap r (Reachable.path (.root (mem_rootPointers h)) hp)
      exact ⟨o', ho', children_isSome hi⟩)
  exact ⟨u2, by simp [markAll, hu1, hu2]⟩

theorem sweep_spec (os : List Obj) : ∀ (i : Nat) (us : List Bool) (free : List Ref),
    us.length = os.length →
    (sweep i os us free).1.length = os.length ∧
    (∀ (k : Nat) o, os[k]? = some o → (sweep i os us free).1[k]? =
      some (if us[k]? = some true then o else release o)) ∧
    (∀ r : Nat, r ∈ (sweep i os us free).2 ↔ r ∈ free ∨ ∃ k : Nat, r = i + k ∧ us[k]? = some false) ∧
    ((∀ r ∈ free, r < i) → free.Nodup → (sweep i os us free).2.Nodup) := by
  induction os with
  | nil =>
    intro i us free hl
    simp at hl
    subst hl
    simp [sweep]
  | cons o os ih =>
    intro i us free hl
    cases us with
    | nil => simp at hl
    | cons u us =>
      simp at hl
      cases u with
      | true =>
        obtain ⟨h1, h2, h3, h4⟩ := ih (i + 1) us free hl
        simp only [sweep, if_true]
        refine ⟨by simpa using h1, ?_, ?_, ?_⟩
        · intro k o' hk
          cases k with
          | zero => simp at hk; subst hk; simp
          | succ k => simp at hk ⊢; simpa using h2 k o' hk
        · intro r
          rw [h3 r]
          constructor
          · rintro (h | ⟨k, rfl, hk⟩)
            · exact .inl h
            · exact .inr ⟨k + 1, by omega, by simpa using hk⟩
          · rintro (h | ⟨k, rfl, hk⟩)
            · exact .inl h
            · cases k with
              | zero => simp at hk
              | succ k => exact .inr ⟨k, by omega, by simpa using hk⟩
        · intro hlt hnd
          exact h4 (fun r hr => by have := hlt r hr; omega) hnd
      | false =>
        obtain ⟨h1, h2, h3, h4⟩ := ih (i + 1) us (i :: free) hl
        simp only [sweep, Bool.false_eq_true, if_false]
        refine ⟨by simpa using h1, ?_, ?_, ?_⟩
        · intro k o' hk
          cases k with
          | zero => simp at hk; subst hk; simp
          | succ k => simp at hk ⊢; simpa using h2 k o' hk
        · intro r
          rw [h3 r]
          constructor
          · rintro (h | ⟨k, rfl, hk⟩)
            · simp at h
              rcases h with rfl | h
              · exact .inr ⟨0, by simp, by simp⟩
              · exact .inl h
            · exact .inr ⟨k + 1, by omega, by simpa using hk⟩
          · rintro (h | ⟨k, rfl, hk⟩)
            · exact .inl (by simp [h])
            · cases k with
              | zero => exact .inl (by simp)
              | succ k => exact .inr ⟨k, by omega, by simpa using hk⟩
        · intro hlt hnd
          refine h4 ?_ ?_
          · intro r hr
            simp at hr
            rcases hr with rfl | hr
            · omega
            · have := hlt r hr; omega
          · refine List.nodup_cons.mpr ⟨fun hm => ?_, hnd⟩
            have := hlt i hm
            omega

end DuckLisp.VM

namespace DuckLisp.VM

open DuckLisp DuckLisp.Spec

/-- What a finished collection looks like. -/
theorem garbageCollect_eq {vm vm' : VM} (h : garbageCollect vm = .ok () vm') :
    ∃ u, markAll vm = some u ∧
      vm' = { vm with heap := (sweep 0 vm.heap u []).1, free := (sweep 0 vm.heap u []).2 } := by
  unfold garbageCollect at h
  cases hm : markAll vm with
  | none => simp [hm] at h
  | some u =>
    simp only [hm] at h
    refine ⟨u, rfl, ?_⟩
    injection h with _ h
    exact h.symm

theorem garbageCollect_total {vm : VM} (hstack : ∀ o ∈ vm.stack, Intact o)
    (hheap : ∀ r, Reachable vm r → ∃ o, vm.heap[r]? = some o ∧ Intact o) :
    ∃ vm', garbageCollect vm = .ok () vm' := by
  obtain ⟨u, hu⟩ := markAll_isSome hstack hheap
  exact ⟨{ vm with heap := (sweep 0 vm.heap u []).1, free := (sweep 0 vm.heap u []).2 },
    by simp [garbageCollect, hu]⟩

theorem getElem?_lt {α : Type} {l : List α} {i : Nat} {a : α} (h : l[i]? = some a) :
    i < l.length := (List.getElem?_eq_some_iff.mp h).1

/-- Collection, stated on the marks: survivors untouched, the rest free exactly once. -/
theorem garbageCollect_marks {vm vm' : VM} {u : List Bool} (hu : markAll vm = some u)
    (h : garbageCollect vm = .ok () vm') :
    vm'.heap.length = vm.heap.length ∧
    (∀ (r : Nat) o, vm.heap[r]? = some o →
      vm'.heap[r]? = some (if u[r]? = some true then o else release o)) ∧
    (∀ r : Nat, r ∈ vm'.free ↔ r < vm.heap.length ∧ u[r]? ≠ some true) ∧ vm'.free.Nodup := by
  obtain ⟨u', hu', rfl⟩ := garbageCollect_eq h
  rw [hu] at hu'; cases hu'
  have hl := (markAll_spec hu).1
  obtain ⟨h1, h2, h3, h4⟩ := sweep_spec vm.heap 0 u [] hl
  refine ⟨h1, h2, ?_, h4 (by simp) (by simp)⟩
  intro r
  simp only [h3 r]
  constructor
  · rintro (h | ⟨k, hk, hf⟩)
    · simp at h
    · simp at hk; subst hk
      exact ⟨by have := getElem?_lt hf; omega, by simp [hf]⟩
  · rintro ⟨hr, hn⟩
    refine .inr ⟨r, by simp, ?_⟩
    rw [List.getElem?_eq_getElem (by omega)] at hn ⊢
    cases hb : u[r]
    · rfl
    · simp [hb] at hn

theorem garbageCollect_same {vm vm' : VM} (h : garbageCollect vm = .ok () vm') :
    vm'.stack = vm.stack ∧ vm'.upStack = vm.upStack ∧ vm'.callStack = vm.callStack ∧
    vm'.upArrays = vm.upArrays ∧ vm'.globals = vm.globals ∧
    vm'.currentBytecode = vm.currentBytecode ∧ vm'.nextUserType = vm.nextUserType ∧
    vm'.nextSerial = vm.nextSerial := by
  obtain ⟨u', hu', rfl⟩ := garbageCollect_eq h
  simp

theorem garbageCollect_not_err {vm vm' : VM} {e : DlError} : garbageCollect vm ≠ .err e vm' := by
  unfold garbageCollect
  split <;> simp

theorem garbageCollect_not_diverge {vm : VM} : garbageCollect vm ≠ .diverge := by
  unfold garbageCollect
  split <;> simp

/-- Allocation either takes a free cell at once, or collects first. -/
theorem pushObject_eq_ok {o : Obj} {vm vm' : VM} {r : Ref} (h : pushObject o vm = .ok r vm') :
    ∃ vm1, (vm1 = vm ∧ vm.free ≠ [] ∨ vm.free = [] ∧ garbageCollect vm = .ok () vm1) ∧
      ∃ free, vm1.free = r :: free ∧
        vm' = { vm1 with heap := vm1.heap.set r (store vm1.nextSerial o), free,
                         nextSerial := vm1.nextSerial + 1 } := by
  unfold pushObject at h
  by_cases hf : vm.free = []
  · rw [if_pos hf] at h
    cases hg : garbageCollect vm with
    | ok a vm1 =>
      simp only [hg] at h
      by_cases hf1 : vm1.free = []
      · simp [hf1] at h
      · rw [if_neg hf1] at h
        unfold takeFree at h
        cases hfr : vm1.free with
        | nil => exact absurd hfr hf1
        | cons r' free =>
          simp only [hfr] at h
          injection h with h1 h2
          subst h1
          exact ⟨vm1, .inr ⟨hf, by cases a; rfl⟩, free, hfr, h2.symm⟩
    | err e s => simp [hg] at h
    | ub => simp [hg] at h
    | diverge => simp [hg] at h
  · rw [if_neg hf] at h
    unfold takeFree at h
    cases hfr : vm.free with
    | nil => exact absurd hfr hf
    | cons r' free =>
      simp only [hfr] at h
      injection h with h1 h2
      subst h1
      exact ⟨vm, .inl ⟨rfl, by simp⟩, free, hfr, h2.symm⟩

/-- Free cells are listed once each and lie inside the heap. -/
def Accounted (vm : VM) : Prop := vm.free.Nodup ∧ ∀ r ∈ vm.free, r < vm.heap.length

theorem accounted_init (n : Nat) : Accounted (init n) := by
  refine ⟨?_, ?_⟩
  · simp only [init]
    have := List.nodup_range (n := n)
    unfold List.Nodup at *
    rw [List.pairwise_reverse]
    exact this.imp (fun h => h.symm)
  · intro r hr
    simpa [init] using hr

theorem accounted_collect {vm vm' : VM} (h : garbageCollect vm = .ok () vm') : Accounted vm' := by
  obtain ⟨u, hu, -⟩ := garbageCollect_eq h
  obtain ⟨h1, -, h3, h4⟩ := garbageCollect_marks hu h
  exact ⟨h4, fun r hr => by rw [h1]; exact ((h3 r).mp hr).1⟩

theorem accounted_pushObject {o : Obj} {vm vm' : VM} {r : Ref} (ha : Accounted vm)
    (h : pushObject o vm = .ok r vm') :
    Accounted vm' ∧ vm'.heap.length = vm.heap.length ∧ r < vm.heap.length ∧ r ∉ vm'.free := by
  obtain ⟨vm1, hvm1, free, hfree, rfl⟩ := pushObject_eq_ok h
  have key : Accounted vm1 ∧ vm1.heap.length = vm.heap.length := by
    rcases hvm1 with ⟨rfl, -⟩ | ⟨-, hg⟩
    · exact ⟨ha, rfl⟩
    · obtain ⟨u, hu, -⟩ := garbageCollect_eq hg
      exact ⟨accounted_collect hg, (garbageCollect_marks hu hg).1⟩
  obtain ⟨⟨hn, hlt⟩, hl⟩ := key
  rw [hfree] at hn hlt
  have hn' := List.nodup_cons.mp hn
  refine ⟨⟨hn'.2, ?_⟩, by simpa using hl, ?_, hn'.1⟩
  · intro r' hr'
    have := hlt r' (by simp [hr'])
    simpa using this
  · have := hlt r (by simp)
    omega

theorem pushObject_err {o : Obj} {vm vm' : VM} {e : DlError} (h : pushObject o vm = .err e vm') :
    e = .outOfMemory ∧ vm.free = [] ∧ garbageCollect vm = .ok () vm' ∧ vm'.free = [] := by
  unfold pushObject at h
  by_cases hf : vm.free = []
  · rw [if_pos hf] at h
    cases hg : garbageCollect vm with
    | ok a vm1 =>
      simp only [hg] at h
      by_cases hf1 : vm1.free = []
      · simp [hf1] at h
        obtain ⟨rfl, rfl⟩ := h
        exact ⟨rfl, hf, by cases a; rfl, hf1⟩
      · rw [if_neg hf1] at h
        unfold takeFree at h
        cases hfr : vm1.free with
        | nil => exact absurd hfr hf1
        | cons r' free => simp [hfr] at h
    | err e s => exact absurd hg garbageCollect_not_err
    | ub => simp [hg] at h
    | diverge => simp [hg] at h
  · rw [if_neg hf] at h
    unfold takeFree at h
    cases hfr : vm.free with
    | nil => exact absurd hfr hf
    | cons r' free => simp [hfr] at h

theorem store_copy (n : Nat) (o : Obj) : HoldsCopy o (store n o) := by
  cases o with
  | upvalueArray b m =>
    simp only [HoldsCopy, store]
    split
    · exact ⟨none, by simp [*], by omega⟩
    · refine ⟨_, rfl, ?_⟩
      intro i hi
      simp [hi]
  | internalVector vs m init =>
    cases init with
    | true =>
      simp only [HoldsCopy, store]
      split
      · exact ⟨none, by simp [*], by omega⟩
      · exact ⟨_, rfl, fun _ _ => rfl⟩
    | false =>
      simp only [HoldsCopy, store]
      split
      · exact ⟨none, by simp [*]⟩
      · exact ⟨_, rfl⟩
  | bytecode b m =>
    simp only [HoldsCopy, store]
    split
    · exact ⟨none, by simp [*], by omega⟩
    · refine ⟨_, rfl, ?_⟩
      intro i _
      cases b <;> rfl
  | internalString v m =>
    simp only [HoldsCopy, store]
    split
    · exact ⟨none, by simp [*], by omega⟩
    · exact ⟨_, rfl, fun _ _ => rfl⟩
  | _ => rfl

end DuckLisp.VM
