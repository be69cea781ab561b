import Verif.Proof.VM.Pairs
import Verif.Proof.VM.Rel
import Verif.Spec.Globals

/-!
# Lemmas about globals
-/

namespace DuckLisp.VM

open DuckLisp DuckLisp.Spec

set_option linter.unusedSectionVars false

variable [Entries]

theorem mem_setAssoc {k j : Int} {p q : Option Nat} {l : List (Int × Option Nat)}
    (h : (j, q) ∈ setAssoc k p l) : (j = k ∧ q = p) ∨ (j, q) ∈ l := by
  induction l with
  | nil => simp [setAssoc] at h; exact .inl h
  | cons kv rest ih =>
      simp only [setAssoc] at h
      split at h
      · rename_i hk
        rcases List.mem_cons.mp h with h | h
        · cases h; exact .inl ⟨hk, rfl⟩
        · exact .inr (List.mem_cons_of_mem _ h)
      · rcases List.mem_cons.mp h with h | h
        · exact .inr (by rw [h]; simp)
        · rcases ih h with h | h
          · exact .inl h
          · exact .inr (List.mem_cons_of_mem _ h)

theorem find_setAssoc (k j : Int) (p : Option Nat) (l : List (Int × Option Nat)) :
    ((setAssoc k p l).find? (fun kv => kv.1 == j)).map (·.2) =
      if j = k then some p else (l.find? (fun kv => kv.1 == j)).map (·.2) := by
  induction l with
  | nil =>
      simp only [setAssoc, List.find?_cons, List.find?_nil]
      by_cases h : j = k
      · subst h; simp
      · have : (k == j) = false := by simp; omega
        simp [this, h]
  | cons kv rest ih =>
      obtain ⟨k', p'⟩ := kv
      simp only [setAssoc]
      split
      · rename_i hk
        have hk : k' = k := hk
        subst hk
        by_cases h : j = k'
        · subst h; simp [List.find?_cons]
        · have : (k' == j) = false := by simp; omega
          simp [List.find?_cons, this, h]
      · rename_i hk
        have hk : ¬ k' = k := hk
        by_cases h : k' = j
        · subst h; simp [List.find?_cons, hk]
        · have : (k' == j) = false := by simp; omega
          simp only [List.find?_cons, this]
          exact ih

/-- What a key is bound to. -/
def bound (vm : VM) (k : Int) : Option (Option Nat) :=
  (vm.globals.find? (fun kv => kv.1 == k)).map (·.2)

theorem globalGet_eq (vm : VM) (k : Int) :
    globalGet k vm = match bound vm k with
      | some p => .ok p vm
      | none => .err .invalidValue vm := by
  unfold globalGet bound
  cases vm.globals.find? (fun kv => kv.1 == k) <;> rfl

theorem bound_mem {vm : VM} {k : Int} {p : Option Nat} (h : bound vm k = some p) :
    (k, p) ∈ vm.globals := by
  unfold bound at h
  cases hf : vm.globals.find? (fun kv => kv.1 == k) with
  | none => rw [hf] at h; simp at h
  | some kv =>
      rw [hf] at h
      have h1 := List.mem_of_find?_eq_some hf
      have h2 := List.find?_some hf
      simp at h h2
      obtain ⟨k', p'⟩ := kv
      subst h2 h
      exact h1

theorem pushGlobal_eq (env : Env) (bc : Nat) (st nx : CodePtr) (vm : VM) (k : Nat) :
    exec env bc st nx (.pushGlobal k) vm = match bound vm k with
      | none => .err .invalidValue vm
      | some none => .ok (.goto nx) (pushed vm .none)
      | some (some r) => match vm.heap[r]? with
        | some o => .ok (.goto nx) (pushed vm o)
        | none => .ub := by
  have hp : plain env bc st (.pushGlobal k) vm =
      (do pushPtr (← globalGet k) : M Unit) vm := rfl
  cases h : bound vm k with
  | none =>
      refine exec_plain_err trivial ?_
      rw [hp, M.bind_err (e := .invalidValue) (s' := vm) (by rw [globalGet_eq, h])]
  | some p =>
      have hg : globalGet k vm = .ok p vm := by rw [globalGet_eq, h]
      cases p with
      | none => exact exec_plain_ok trivial (by rw [hp, M.bind_ok hg]; rfl)
      | some r =>
          cases hr : vm.heap[r]? with
          | none =>
              simp only
              rw [hr]
              refine exec_plain_ub trivial ?_
              rw [hp, M.bind_ok hg]
              simp only [pushPtr]
              rw [M.bind_ub]
              unfold readCell; rw [hr]; rfl
          | some o =>
              simp only
              rw [hr]
              refine exec_plain_ok trivial ?_
              rw [hp, M.bind_ok hg]
              simp only [pushPtr]
              rw [M.bind_ok (readCell_some hr)]
              rfl

theorem good_globals {s : VM} (hg : Good s) {k : Int} {r : Nat} (hl : Live s r .value) :
    Good { s with globals := setAssoc k (some r) s.globals } := by
  have hs := hg.sound
  refine ⟨⟨hs.free_nodup, hs.free_lt, hs.free_empty, hs.heap_size,
   fun o ho => valueOk_congr (hs.stack o ho) (fun _ _ _ h => h), hs.captured, ?_, hs.frames, hs.running,
   fun r o ho hf => cellOk_congr (hs.cells r o ho hf) (fun _ _ _ _ h => h)⟩, hg.finished⟩
  intro j r' h
  rcases mem_setAssoc h with ⟨-, h⟩ | h
  · cases h; exact hl
  · exact hs.globals j r' h

/-- Storing a fresh copy of a value under a key. -/
theorem post_store {vm : VM} (hg : Good vm) {o : Obj} (hv : ValueOk vm o) (hp : Pinned vm o) (k : Int) :
    Post False (fun e s' => e = .outOfMemory ∧ Good s' ∧ Carried vm s')
      (fun _ s' => ∃ r s1, Good s' ∧ Allocated vm s1 r o ∧
        s' = { s1 with globals := setAssoc k (some r) vm.globals })
      ((do let p ← pushObject o; globalSet (some p) k : M Unit) vm) := by
  refine Post.bind (post_alloc hg.sound hv hp
    (fun s' h1 h2 h3 => ⟨rfl, ⟨h1, h3.finished hg.finished⟩, h2⟩)) ?_
  rintro r s1 ⟨hal, hf⟩
  refine post_modify ⟨r, s1, ?_, hal, ?_⟩
  · have hl := hal.live
    rw [shape_value hv] at hl
    exact good_globals ⟨hal.sound, hf hg.finished⟩ hl
  · rw [hal.carried.roots.globals]

theorem stackAt_operand {vm : VM} {a : Nat} {x : Obj} (ha : operand vm a = some x) :
    stackAt (((vm.stack.length : Nat) : Int) - a) vm = .ok x vm := by
  have h0 : a ≠ 0 := by rintro rfl; simp [operand] at ha
  simp only [operand, if_neg h0] at ha
  have hlt := getElem?_lt ha
  rw [List.length_reverse] at hlt
  rw [List.getElem?_reverse hlt] at ha
  unfold stackAt
  rw [if_pos (by omega)]
  have : (((vm.stack.length : Nat) : Int) - a).toNat = vm.stack.length - 1 - (a - 1) := by omega
  rw [this, ha]
  rfl

theorem reads_iff {vm : VM} {k : Nat} {x : Obj} : Reads vm k x ↔
    (bound vm k = some none ∧ x = .none) ∨ ∃ r, bound vm k = some (some r) ∧ vm.heap[r]? = some x := by
  constructor
  · intro h
    have := h plainEnv 0 ⟨0, 0, 0⟩ ⟨0, 0, 0⟩
    rw [pushGlobal_eq] at this
    cases hb : bound vm k with
    | none => rw [hb] at this; simp at this
    | some p =>
        rw [hb] at this
        cases p with
        | none => simp [pushed] at this; exact .inl ⟨rfl, this.symm⟩
        | some r =>
            cases hr : vm.heap[r]? with
            | none => simp only [hr] at this; simp at this
            | some o =>
                simp only [hr] at this
                simp [pushed] at this
                exact .inr ⟨r, rfl, by rw [hr, this]⟩
  · rintro (⟨h, rfl⟩ | ⟨r, h, hr⟩) env bc st nx
    · rw [pushGlobal_eq, h]
    · rw [pushGlobal_eq, h]; simp only [hr]

theorem unset_iff {vm : VM} {k : Nat} : Unset vm k ↔ bound vm k = none := by
  constructor
  · intro h
    have := h plainEnv 0 ⟨0, 0, 0⟩ ⟨0, 0, 0⟩
    rw [pushGlobal_eq] at this
    cases hb : bound vm k with
    | none => rfl
    | some p =>
        rw [hb] at this
        cases p with
        | none => simp at this
        | some r =>
            simp only at this
            split at this <;> simp at this
  · intro h env bc st nx
    rw [pushGlobal_eq, h]

/-- A value stored in the machine where `carried` says what was there is still there. -/
theorem stored_reads {vm s1 : VM} (hg : Good vm) {r : Nat} {o : Obj} (hal : Allocated vm s1 r o)
    (k : Nat) :
    let vm' : VM := { s1 with globals := setAssoc (k : Int) (some r) vm.globals }
    Reads vm' k o ∧ (∀ j y, j ≠ k → Reads vm j y → Reads vm' j y) ∧
      (∀ j, j ≠ k → Unset vm j → Unset vm' j) ∧ vm'.stack = vm.stack ∧
      (∀ c, Reachable vm c → vm'.heap[c]? = vm.heap[c]?) := by
  intro vm'
  have hbound : ∀ j : Nat, bound vm' j = if j = k then some (some r) else bound vm j := by
    intro j
    refine (find_setAssoc k j (some r) vm.globals).trans ?_
    by_cases h : j = k
    · subst h; simp
    · rw [if_neg h, if_neg (by omega)]; rfl
  refine ⟨?_, ?_, ?_, hal.carried.roots.stack, ?_⟩
  · exact reads_iff.mpr (.inr ⟨r, by rw [hbound, if_pos rfl], hal.cell⟩)
  · intro j y hj h
    rw [reads_iff] at h ⊢
    rw [hbound, if_neg hj]
    rcases h with h | ⟨r', h1, h2⟩
    · exact .inl h
    · exact .inr ⟨r', h1, (hal.carried.heap r' (traced_global (bound_mem h1))).trans h2⟩
  · intro j hj h
    rw [unset_iff] at h ⊢
    rw [hbound, if_neg hj]
    exact h
  · intro c hc
    exact hal.carried.heap c (traced_of_reachable hg.sound hg.finished hc)

theorem failed_reads {vm s1 : VM} (hg : Good vm) (c : Carried vm s1) :
    (∀ j y, Reads vm j y → Reads s1 j y) ∧ (∀ j, Unset vm j → Unset s1 j) ∧
      ∀ c, Reachable vm c → s1.heap[c]? = vm.heap[c]? := by
  have hb : ∀ j, bound s1 j = bound vm j := fun j => by unfold bound; rw [c.roots.globals]
  refine ⟨?_, ?_, ?_⟩
  · intro j y h
    rw [reads_iff] at h ⊢
    rw [hb]
    rcases h with h | ⟨r', h1, h2⟩
    · exact .inl h
    · exact .inr ⟨r', h1, (c.heap r' (traced_global (bound_mem h1))).trans h2⟩
  · intro j h
    rw [unset_iff] at h ⊢
    rw [hb]
    exact h
  · intro r hr
    exact c.heap r (traced_of_reachable hg.sound hg.finished hr)

end DuckLisp.VM
