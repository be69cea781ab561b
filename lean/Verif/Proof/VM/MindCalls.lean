import Verif.Proof.VM.MindInstr
import Verif.Proof.VM.Faults

/-!
# Collecting surplus arguments leaves the captured variables alone
-/

namespace DuckLisp.VM.Mind

open DuckLisp DuckLisp.Spec

variable {K : Start}

theorem mind_restLoop (n : Nat) : ∀ k last, Minds K true (fun _ => True) (restLoop k n last) := by
  induction n with
  | zero => intro k last; exact mind_pure trivial
  | succ n ih =>
    intro k last
    unfold restLoop
    refine mind_bind mind_height fun _ _ => mind_bind (mind_stackAt _) fun o ho =>
      mind_bind (mind_pushObject o ho) fun p _ => mind_bind mind_height fun _ _ =>
      mind_bind (mind_setStackAt _ _ fun _ => trivial) fun _ _ =>
      mind_bind (mind_pushObject _ fun _ => trivial) fun c _ => mind_bind mind_height fun _ _ =>
      mind_bind (mind_setStackAt _ _ fun _ => trivial) fun _ _ => ih _ _

theorem popStack_memory {s s' : VM} {o : Obj} (h : popStack s = .ok o s') : s'.heap = s.heap ∧ s'.free = s.free := by
  unfold popStack at h
  split at h
  · cases h
  · dsimp only at h
    split at h
    · cases h
    · cases h; exact ⟨rfl, rfl⟩

theorem enter_memory {s s' : VM} {bc : Ref} {nx ip : CodePtr} {name : Int} {code ups : Option Ref}
    (h : enter bc nx name code ups s = .ok ip s') : s'.heap = s.heap ∧ s'.free = s.free := by
  simp only [enter, M.bind_eq_ok] at h
  obtain ⟨u, s1, h1, _, s2, h2, r, s3, h3, k, s4, h4, h5⟩ := h
  have e1 : s1 = s := by
    simp only [captureArray, M.bind_eq_ok] at h1
    obtain ⟨x, t1, k1, o, t2, k2, k3⟩ := h1
    obtain ⟨-, rfl⟩ := need_ok k1
    obtain ⟨-, rfl⟩ := readCell_ok k2
    split at k3 <;> cases k3 <;> rfl
  obtain ⟨-, rfl⟩ := need_ok h3
  have e4 : s4 = s3 := by
    unfold codeSerial at h4
    split at h4 <;> cases h4
    rfl
  subst e1 e4
  cases h5
  cases h2
  exact ⟨rfl, rfl⟩

theorem setStackAt_memory {s s' : VM} {i : Int} {o : Obj} (h : setStackAt i o s = .ok () s') :
    s'.heap = s.heap ∧ s'.free = s.free := by
  unfold setStackAt at h
  split at h <;> cases h
  exact ⟨rfl, rfl⟩

theorem popMany_memory {s s' : VM} {n : Nat} (h : popMany n s = .ok () s') : s'.heap = s.heap ∧ s'.free = s.free := by
  unfold popMany at h
  split at h
  · cases h
  · dsimp only at h
    split at h <;> cases h
    exact ⟨rfl, rfl⟩

theorem same_collectRest {s s' : VM} {n : Nat} {tail : Option Ref} (hs : K.Inv true s)
    (h : collectRest n tail s = .ok () s') : Same K.vm s'.heap s'.free := by
  simp only [collectRest, M.bind_eq_ok] at h
  obtain ⟨_, s1, h1, _, s2, h2, last, s3, h3, x, s4, h4, ht, s5, h5, _, s6, h6, h7⟩ := h
  have i1 := ((mind_push (K := K) (.list tail) fun _ => trivial).ok hs h1).2
  have i2 := ((mind_push (K := K) .nil fun _ => trivial).ok i1 h2).2
  have i3 := ((mind_restLoop n 0 tail).ok i2 h3).2.kept
  obtain ⟨a4, b4⟩ := popStack_memory h4
  cases h5
  obtain ⟨a6, b6⟩ := setStackAt_memory h6
  obtain ⟨a7, b7⟩ := popMany_memory h7
  rw [a7, b7, a6, b6, a4, b4]
  exact i3

end DuckLisp.VM.Mind
