import Verif.Model.VM.Exec
import Verif.Spec.Machine
import Verif.Spec.Sound
import Verif.Proof.VM.Sound

/-!
# Lemmas about operands and results
-/

namespace DuckLisp.VM

open DuckLisp DuckLisp.Spec

set_option linter.unusedSectionVars false

variable [Entries]

/-- Some environment, for examples: arithmetic on doubles gives 0, callbacks do nothing. -/
def plainEnv : Env :=
  ⟨⟨fun _ _ => 0, fun _ _ => 0, fun _ _ => 0, fun _ _ => 0, fun _ => 0⟩, fun _ => pure ()⟩

theorem getArg_operand {vm : VM} {a : Nat} :
    getArg a vm = match operand vm a with
      | some o => .ok o vm
      | none => .err .invalidValue vm := by
  have : (argIndex vm.stack.length a).bind (fun i => vm.stack[i]?) = operand vm a := by
    unfold operand argIndex
    by_cases ha : a = 0
    · simp [ha]
    · rw [if_neg ha]
      by_cases hl : a ≤ vm.stack.length
      · rw [if_pos ⟨by omega, hl⟩]
        simp only [Option.bind_some]
        rw [List.getElem?_reverse (by omega)]
        congr 1
        omega
      · rw [if_neg (by omega)]
        simp
        omega
  unfold getArg
  rw [this]
  cases operand vm a <;> rfl

theorem getArg_some {vm : VM} {a : Nat} {o : Obj} (h : operand vm a = some o) :
    getArg a vm = .ok o vm := by rw [getArg_operand, h]

theorem getArg_none {vm : VM} {a : Nat} (h : operand vm a = none) :
    getArg a vm = .err .invalidValue vm := by rw [getArg_operand, h]

theorem getArg_ok {vm vm' : VM} {a : Nat} {o : Obj} (h : getArg a vm = .ok o vm') :
    vm' = vm ∧ operand vm a = some o := by
  rw [getArg_operand] at h
  cases ho : operand vm a with
  | none => simp [ho] at h
  | some o' => simp [ho] at h; obtain ⟨rfl, rfl⟩ := h; exact ⟨rfl, rfl⟩

theorem operand_mem {vm : VM} {a : Nat} {o : Obj} (h : operand vm a = some o) : o ∈ vm.stack := by
  unfold operand at h
  split at h
  · cases h
  · have := List.mem_of_getElem? h
    simpa using this

theorem readCell_some {vm : VM} {r : Nat} {o : Obj} (h : vm.heap[r]? = some o) :
    readCell r vm = .ok o vm := by
  unfold readCell
  rw [h]
  rfl

theorem deref_some {vm : VM} {r : Nat} {o : Obj} (h : vm.heap[r]? = some o) :
    deref (some r) vm = .ok o vm := readCell_some h

theorem compositeParts_some {vm : VM} {r t : Nat} {v f : Option Nat}
    (h : vm.heap[r]? = some (.internalComposite t v f)) :
    compositeParts (some r) vm = .ok (t, v, f) vm := by
  unfold compositeParts
  rw [M.bind_ok (deref_some h)]
  rfl

theorem push_eq (vm : VM) (o : Obj) : push o vm = .ok () (pushed vm o) := rfl

theorem unary_eq {vm : VM} {a : Nat} {o : Obj} (f : Obj → M Obj) (h : operand vm a = some o) :
    unary a f vm = match f o vm with
      | .ok v s => push v s
      | .err e s => .err e s
      | .ub => .ub
      | .diverge => .diverge := by
  unfold unary
  rw [M.bind_ok (getArg_some h), M.bind_run]
  cases f o vm <;> rfl

theorem binary_eq {vm : VM} {a b : Nat} {x y : Obj} (f : Obj → Obj → M Obj)
    (hx : operand vm a = some x) (hy : operand vm b = some y) :
    binary a b f vm = match f x y vm with
      | .ok v s => push v s
      | .err e s => .err e s
      | .ub => .ub
      | .diverge => .diverge := by
  unfold binary
  rw [M.bind_ok (getArg_some hx), M.bind_ok (getArg_some hy), M.bind_run]
  cases f x y vm <;> rfl

theorem binary_ok {vm : VM} {a b : Nat} {x y v : Obj} (f : Obj → Obj → M Obj)
    (hx : operand vm a = some x) (hy : operand vm b = some y) (hf : f x y vm = .ok v vm) :
    binary a b f vm = .ok () (pushed vm v) := by
  rw [binary_eq f hx hy, hf]
  rfl

theorem unary_ok {vm : VM} {a : Nat} {x v : Obj} (f : Obj → M Obj)
    (hx : operand vm a = some x) (hf : f x vm = .ok v vm) :
    unary a f vm = .ok () (pushed vm v) := by
  rw [unary_eq f hx, hf]
  rfl

theorem boolValue_ok {m : M Bool} {vm : VM} {b : Bool} (h : m vm = .ok b vm) :
    boolValue m vm = .ok (truth (b = true)) vm := by
  unfold boolValue
  rw [M.bind_ok h]
  simp only [M.pure_run, truth, cBool]

/-- The instructions handled by `plain` go on with the next instruction. -/
def IsPlain : Instr → Prop
  | .funcall .. | .apply .. | .call _ | .jump _ | .brnz .. | .return_ _ | .return0 | .halt => False
  | _ => True

theorem exec_plain {env : Env} {bc : Ref} {st nx : CodePtr} {i : Instr} (hi : IsPlain i) :
    exec env bc st nx i = (do plain env bc st i; return .goto nx) := by
  cases i <;> first | rfl | exact absurd hi (by simp [IsPlain])

theorem exec_plain_ok {env : Env} {bc : Ref} {st nx : CodePtr} {i : Instr} {vm vm' : VM}
    (hi : IsPlain i) (h : plain env bc st i vm = .ok () vm') :
    exec env bc st nx i vm = .ok (.goto nx) vm' := by
  rw [exec_plain hi, M.bind_ok h]
  rfl

theorem exec_plain_err {env : Env} {bc : Ref} {st nx : CodePtr} {i : Instr} {vm vm' : VM}
    {e : DlError} (hi : IsPlain i) (h : plain env bc st i vm = .err e vm') :
    exec env bc st nx i vm = .err e vm' := by
  rw [exec_plain hi, M.bind_err h]

theorem exec_plain_ub {env : Env} {bc : Ref} {st nx : CodePtr} {i : Instr} {vm : VM}
    (hi : IsPlain i) (h : plain env bc st i vm = .ub) :
    exec env bc st nx i vm = .ub := by
  rw [exec_plain hi, M.bind_ub h]

theorem exec_plain_inv {env : Env} {bc : Ref} {st nx : CodePtr} {i : Instr} {vm vm' : VM} {c : Ctl}
    (hi : IsPlain i) (h : exec env bc st nx i vm = .ok c vm') :
    plain env bc st i vm = .ok () vm' ∧ c = .goto nx := by
  rw [exec_plain hi, M.bind_eq_ok] at h
  obtain ⟨_, s', h1, h2⟩ := h
  simp at h2
  obtain ⟨rfl, rfl⟩ := h2
  exact ⟨h1, rfl⟩

end DuckLisp.VM
