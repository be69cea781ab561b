import Verif.Proof.VM.Rel
import Verif.Spec.Lockstep

/-!
# The two stacks have the same height
-/

namespace DuckLisp.VM

open DuckLisp DuckLisp.Spec

/-- The heights of the two stacks change by the same amount, but for `d` more on the stack of
captured variables. -/
def Level (d : Int) (s s' : VM) : Prop :=
  (s'.upStack.length : Int) - s'.stack.length = s.upStack.length - s.stack.length + d

/-- The operation, if it succeeds, makes `d` more slots on the stack of captured variables than on
the stack. -/
abbrev Lvl (d : Int) {α : Type} (m : M α) : Prop := RelE (Level d) (fun _ _ => True) m

theorem levelPrims : Prims (Level 0) (fun _ _ => True) where
  refl _ := by unfold Level; omega
  trans h h' := by unfold Level at *; omega
  weak _ := trivial
  transE _ _ := trivial
  collect h := by
    have := garbageCollect_same h
    unfold Level
    simp_all
  take o := by
    intro s
    unfold takeFree
    split <;> rename_i hc <;> split at hc <;> cases hc <;> simp [Level]
  heap _ _ _ _ := by simp [Level]
  stacks _ _ _ h := by unfold Level; simp only; omega
  stacksE _ _ _ _ := trivial
  calls _ _ _ _ := by simp [Level]

theorem lvl_bind {α β : Type} {d e c : Int} {m : M α} {f : α → M β} (hm : Lvl d m)
    (hf : ∀ a, Lvl e (f a)) (hc : d + e = c) : Lvl c (m >>= f) := by
  intro s
  rw [M.bind_run]
  have h := hm s
  cases hms : m s with
  | ok a s' =>
    rw [hms] at h
    have h' := hf a s'
    simp only
    cases hfs : f a s' with
    | ok b s'' => rw [hfs] at h'; simp only [Level] at *; omega
    | err e s'' => trivial
    | ub => trivial
    | diverge => trivial
  | err e s' => trivial
  | ub => trivial
  | diverge => trivial

theorem lvl_pushStackOnly (o : Obj) : Lvl (-1) (pushStackOnly o) := by
  intro s
  simp only [pushStackOnly, M.modify, Level, List.length_append, List.length_singleton]
  omega

theorem lvl_pushUpOnly (o : Option Ref) : Lvl 1 (pushUpOnly o) := by
  intro s
  simp only [pushUpOnly, M.modify, Level, List.length_append, List.length_singleton]
  omega

theorem lvl_iVector (as : List Nat) : Lvl 0 (iVector as) := by
  unfold iVector
  refine lvl_bind (rel_pushObject levelPrims _) (fun r => ?_) (Int.zero_add 0)
  refine lvl_bind (lvl_pushStackOnly _) (fun _ => ?_) (e := 1) (by omega)
  refine lvl_bind (rel_vectorLoop levelPrims _ _ _) (fun _ => ?_) (Int.zero_add 1)
  refine lvl_bind (lvl_pushUpOnly _) (fun _ => ?_) (Int.add_zero 1)
  refine lvl_bind (rel_setInitialized levelPrims _) (fun _ => ?_) (Int.zero_add 0)
  have h := levelPrims
  rel_auto h

theorem lvl_iMakeVector (a b : Nat) : Lvl 0 (iMakeVector a b) := by
  have h := levelPrims
  unfold iMakeVector
  refine lvl_bind (rel_getArg h.toPre _) (fun o => ?_) (Int.zero_add 0)
  split
  · split
    · exact rel_throw h.toPre _
    · split
      · exact rel_ub
      · refine lvl_bind (rel_getArg h.toPre _) (fun o => ?_) (Int.zero_add 0)
        refine lvl_bind (rel_pushObject levelPrims _) (fun r => ?_) (Int.zero_add 0)
        refine lvl_bind (lvl_pushStackOnly _) (fun _ => ?_) (e := 1) (by omega)
        refine lvl_bind (rel_pushObject levelPrims _) (fun r => ?_) (Int.zero_add 1)
        refine lvl_bind (rel_fillSlots levelPrims _ _) (fun r => ?_) (Int.zero_add 1)
        refine lvl_bind (lvl_pushUpOnly _) (fun _ => ?_) (Int.add_zero 1)
        refine lvl_bind (rel_setInitialized levelPrims _) (fun _ => ?_) (Int.zero_add 0)
        rel_auto h
  · exact rel_throw h.toPre _

/-- Surplus of the stack while a closure is being built. -/
def behind (b : Bool) : Nat := if b then 0 else 1

theorem capture_level {v : Nat} {s s' : VM} {p : Option Ref} {self before : Bool}
    (hs : s.stack.length = s.upStack.length + behind before)
    (h : capture v s = .ok (p, self) s') :
    s'.stack.length = s'.upStack.length + behind (before || self) := by
  have hP := levelPrims
  unfold capture at h
  by_cases hv : v > 0x7FFFFFFF
  · rw [if_pos hv] at h
    have hl : Lvl 0 (do
      let u ← topUpArray M.ub
      let link ← upvalueAt u (0x100000000 - v - 1)
      let r ← pushObject (.upvalue (.heapUpvalue link))
      return (some r, false)) := by rel_auto hP
    have hself : self = false := by
      simp only [M.bind_eq_ok] at h
      obtain ⟨_, _, _, _, _, _, _, _, _, h⟩ := h
      simp at h
      exact h.1.2
    subst hself
    have := Rel.ok hl h
    unfold Level at this
    simp only [Bool.or_false]
    omega
  · rw [if_neg hv] at h
    simp only [M.bind_run, M.get_run] at h
    by_cases h1 : (s.stack.length - 1 : Int) - v < 0 ∨
        (s.upStack.length : Int) < (s.stack.length - 1 : Int) - v
    · rw [if_pos h1] at h; cases h
    · rw [if_neg h1] at h
      by_cases h2 : ((s.stack.length - 1 : Int) - v).toNat = s.upStack.length
      · rw [if_pos h2] at h
        have hb : before = false := by
          cases before
          · rfl
          · simp [behind] at hs
            omega
        subst hb
        have h3 := rel_pushObject hP.toPrims0 (.upvalue (.stackIndex ((s.stack.length - 1 : Int) - v))) s
        cases hp : pushObject (.upvalue (.stackIndex ((s.stack.length - 1 : Int) - v))) s with
        | ok r s1 =>
          rw [hp] at h3 h
          simp only [M.bind_run, M.set_run, pushUpOnly, M.modify, M.pure_run] at h
          cases h
          simp only [Level] at h3
          simp [behind] at hs ⊢
          omega
        | err e s1 => rw [hp] at h; cases h
        | ub => rw [hp] at h; cases h
        | diverge => rw [hp] at h; cases h
      · rw [if_neg h2] at h
        generalize s.upStack[((s.stack.length - 1 : Int) - v).toNat]? = x at h
        generalize ((s.stack.length - 1 : Int) - v) = idx at h
        have hl : Lvl 0 (match x with
          | Option.none => M.throw .invalidValue
          | some Option.none => do
              let r ← pushObject (.upvalue (.stackIndex idx))
              M.modify fun s => { s with upStack := s.upStack.set idx.toNat (some r) }
              return (some r, false)
          | some (some r) => do
              match ← readCell r with
              | .upvalue _ => return (some r, false)
              | _ => M.throw .shouldntHappen) := by rel_auto hP
        have hself : self = false := by
          split at h
          · cases h
          · rw [M.bind_eq_ok] at h
            obtain ⟨_, _, _, h⟩ := h
            rw [M.bind_eq_ok] at h
            obtain ⟨_, _, _, h⟩ := h
            simp at h
            exact h.1.2
          · rw [M.bind_eq_ok] at h
            obtain ⟨_, _, _, h⟩ := h
            split at h
            · simp at h; exact h.1.2
            · cases h
        subst hself
        have := Rel.ok hl h
        unfold Level at this
        simp only [Bool.or_false]
        omega

theorem captures_level {cell : Ref} {vs : List Nat} : ∀ {k : Nat} {before after : Bool} {s s' : VM},
    s.stack.length = s.upStack.length + behind before →
    captures cell k vs before s = .ok after s' →
    s'.stack.length = s'.upStack.length + behind after := by
  induction vs with
  | nil =>
    intro k before after s s' hs h
    simp [captures] at h
    obtain ⟨rfl, rfl⟩ := h
    exact hs
  | cons v vs ih =>
    intro k before after s s' hs h
    unfold captures at h
    rw [M.bind_eq_ok] at h
    obtain ⟨⟨p, self⟩, s1, h1, h⟩ := h
    have hs1 := capture_level hs h1
    simp only at h
    rw [M.bind_eq_ok] at h
    obtain ⟨_, s2, h2, h⟩ := h
    have hl := Rel.ok (rel_setCapture levelPrims.toPrims0 _ _ _) h2
    unfold Level at hl
    exact ih (by omega) h

/-- The operation keeps the stacks in lockstep if it succeeds. -/
def InStep (s s' : VM) : Prop := Lockstep s → Lockstep s'

theorem closure_lockstep (bc : Ref) (st : CodePtr) (va : Bool) (b : Nat) (d : Int) (ar : UInt8)
    (vs : List Nat) : RelE InStep (fun _ _ => True) (iPushClosure bc st va b d ar vs) := by
  intro s
  cases h : iPushClosure bc st va b d ar vs s with
  | ok a s' =>
    intro hl
    unfold iPushClosure at h
    rw [M.bind_eq_ok] at h
    obtain ⟨serial, s0, h0, h⟩ := h
    have e0 := Rel.ok (rel_codeSerial levelPrims.toPre _) h0
    split at h
    · rw [M.bind_eq_ok] at h
      obtain ⟨cell, s1, h1, h⟩ := h
      have e1 := Rel.ok (rel_pushObject levelPrims.toPrims0 _) h1
      simp only at h
      rw [M.bind_eq_ok] at h
      obtain ⟨_, s2, h2, h⟩ := h
      have e2 := Rel.ok (lvl_pushStackOnly _) h2
      rw [M.bind_eq_ok] at h
      obtain ⟨rec, s3, h3, h⟩ := h
      have e3 := captures_level (before := false) (by
        unfold Level Lockstep at *
        simp only [behind]
        simp
        omega) h3
      have fin : ∀ {s4 : VM}, s4.stack.length = s4.upStack.length →
          ∀ {o : Obj} {s' : VM}, (do let n ← height; setStackAt (n - 1) o) s4 = .ok a s' →
          Lockstep s' := by
        intro s4 e4 o s' h
        rw [M.bind_eq_ok] at h
        obtain ⟨n, s5, h5, h⟩ := h
        have e5 := Rel.ok (rel_height levelPrims.toPre) h5
        have e6 := Rel.ok (rel_setStackAt levelPrims.toPrims0 _ _) h
        simp only [Level, Lockstep] at *
        omega
      cases rec
      · simp only [Bool.not_false, if_true] at h
        rw [M.bind_eq_ok] at h
        obtain ⟨_, s4, h4, h⟩ := h
        have := Rel.ok (lvl_pushUpOnly _) h4
        refine fin ?_ h
        simp only [Level, behind] at *
        simp at e3
        omega
      · simp only [Bool.not_true, Bool.false_eq_true, if_false] at h
        exact fin (by simpa [behind] using e3) h
    · cases h
  | err e s' => trivial
  | ub => trivial
  | diverge => trivial

theorem inStep_of_level {s s' : VM} (h : Level 0 s s') : InStep s s' := by
  unfold Level at h
  unfold InStep Lockstep
  omega

theorem relE_inStep {α : Type} {m : M α} (h : Lvl 0 m) : RelE InStep (fun _ _ => True) m := by
  intro s
  have := h s
  cases hs : m s <;> rw [hs] at this
  · exact inStep_of_level this
  all_goals trivial

theorem stepPrims : Prims InStep InStep where
  refl _ h := h
  trans h h' := fun hl => h' (h hl)
  weak h := h
  transE h h' := fun hl => h' (h hl)
  collect h := inStep_of_level (levelPrims.collect h)
  take o := by
    intro s
    have := levelPrims.take o s
    cases hs : takeFree o s <;> rw [hs] at this
    · exact inStep_of_level this
    · exact inStep_of_level this
    all_goals trivial
  heap s r o h := inStep_of_level (levelPrims.heap s r o h)
  stacks s st up h := inStep_of_level (levelPrims.stacks s st up h)
  stacksE _ _ _ h := fun hl => absurd hl h
  calls s cs ua h := inStep_of_level (levelPrims.calls s cs ua h)

theorem stepPrims' : Prims' InStep (fun _ _ => True) where
  refl _ h := h
  trans h h' := fun hl => h' (h hl)
  weak _ := trivial
  transE _ _ := trivial
  collect := stepPrims.collect
  take := stepPrims.take
  heap := stepPrims.heap
  stacks := stepPrims.stacks
  stacksE _ _ _ _ := trivial
  calls := stepPrims.calls
  vector as := relE_inStep (lvl_iVector as)
  makeVector a b := relE_inStep (lvl_iMakeVector a b)
  closure := closure_lockstep

/-- The operation keeps the stacks of pending calls in lockstep. -/
def CallsInStep (s s' : VM) : Prop := CallsLockstep s → CallsLockstep s'

theorem callsPrims : Prims CallsInStep CallsInStep where
  refl _ h := h
  trans h h' := fun hl => h' (h hl)
  weak h := h
  transE h h' := fun hl => h' (h hl)
  collect h := by
    have := garbageCollect_same h
    unfold CallsInStep CallsLockstep
    simp_all
  take o := by
    intro s
    unfold takeFree
    split <;> rename_i hc <;> split at hc <;> cases hc <;> first | exact id | trivial
  heap _ _ _ _ := id
  stacks _ _ _ _ := id
  stacksE _ _ _ _ := id
  calls _ _ _ h := fun ⟨rest, hb, hl⟩ => h _ rest hb hl

theorem callsPrims' : Prims' CallsInStep CallsInStep := callsPrims.all (fun _ _ _ => id)

end DuckLisp.VM
