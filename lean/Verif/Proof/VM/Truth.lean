import Verif.Proof.VM.Numbers

/-!
# Lemmas about truth values
-/

namespace DuckLisp.VM

open DuckLisp DuckLisp.Spec

set_option linter.unusedSectionVars false

variable [Entries]

theorem popMany_ok {vm : VM} {n : Nat} (h1 : n ≤ vm.stack.length) (h2 : n ≤ vm.upStack.length) :
    popMany n vm = .ok () (popped vm n) := by
  simp only [popMany]
  rw [if_neg (by omega), if_neg (by omega)]
  rfl

theorem isZero_iff {x : UInt64} :
    Float64.isZero x = true ↔ x = 0 ∨ x = 0x8000000000000000 := by
  unfold Float64.isZero Float64.magnitude
  simp only [decide_eq_true_eq]
  have := x.toNat_lt
  constructor
  · intro h
    by_cases h2 : x.toNat = 0
    · left; exact UInt64.toNat_inj.mp (by simp [h2])
    · right; exact UInt64.toNat_inj.mp (by simp; omega)
  · rintro (rfl | rfl) <;> decide

theorem isFalse_congr {vm vm' : VM} (h : vm'.heap = vm.heap) {o : Obj} :
    IsFalse vm' o ↔ IsFalse vm o := by
  cases o <;> simp [IsFalse, text, h]
  all_goals rename_i p off len; cases p <;> simp [text, h]

/-- The storage of a sound vector. -/
theorem vector_storage {vm : VM} (hs : Sound vm) {r : Nat} {off : Int}
    (h : ValueOk vm (.vector (some r) off)) :
    ∃ vs n i, vm.heap[r]? = some (.internalVector vs n i) ∧ n < 2 ^ 60 ∧ 0 ≤ off ∧ off < 2 ^ 60 := by
  obtain ⟨cap, ⟨hf, o, ho, hsh⟩, h0, h1⟩ := h
  have hc := hs.cells r o ho hf
  cases o <;> simp [shape] at hsh
  rename_i vs n i
  obtain ⟨c1, c2, -⟩ := hc
  refine ⟨vs, n, i, ho, by omega, h0, ?_⟩
  rcases h1 with h1 | h1
  · omega
  · have : (vs.getD []).length = cap := by simpa using hsh
    omega

theorem vectorInRange_spec {vm : VM} (hs : Sound vm) {p : Option Nat} {off : Int}
    (h : ValueOk vm (.vector p off)) :
    ∃ b, vectorInRange p off vm = .ok b vm ∧ (b = true ↔ ¬ IsFalse vm (.vector p off)) := by
  cases p with
  | none => exact ⟨false, rfl, by simp [IsFalse]⟩
  | some r =>
      obtain ⟨vs, n, i, hr, hn, h0, h1⟩ := vector_storage hs h
      refine ⟨decide (toSize off < n), ?_, ?_⟩
      · unfold vectorInRange
        simp only
        rw [M.bind_ok (readCell_some hr)]
        rfl
      · have : toSize off = off.toNat := by
          unfold toSize
          rw [Int.emod_eq_of_lt (by omega) (by omega)]
        rw [this]
        have hf : IsFalse vm (.vector (some r) off) ↔ (n : Int) ≤ off := by
          simp only [IsFalse]
          constructor
          · rintro (h | ⟨r', vs', n', i', e1, e2, h⟩)
            · cases h
            · cases e1
              rw [hr] at e2
              cases e2
              exact h
          · intro h
            exact Or.inr ⟨r, vs, n, i, rfl, hr, h⟩
        rw [hf]
        simp only [decide_eq_true_eq]
        omega

/-- What a conditional jump does, given the truth of its operand. -/
theorem brnz_eq {env : Env} {bc : Nat} {st nx : CodePtr} {vm : VM} {d : Int} {n : Nat} {o : Obj}
    {b : Bool} (ho : operand vm 1 = some o) (h1 : n ≤ vm.stack.length) (h2 : n ≤ vm.upStack.length)
    (hb : truthy o (popped vm n) = .ok b (popped vm n)) :
    exec env bc st nx (.brnz d n) vm =
      .ok (.goto (if b then { nx with off := nx.off + d - 1 } else nx)) (popped vm n) := by
  show (do
      let o ← getArg 1
      popMany n
      if ← truthy o then return Ctl.goto { nx with off := nx.off + d - 1 }
      else return Ctl.goto nx : M Ctl) vm = _
  rw [M.bind_ok (getArg_some ho), M.bind_ok (popMany_ok h1 h2), M.bind_ok hb]
  cases b <;> rfl

end DuckLisp.VM
