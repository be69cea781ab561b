import Verif.Props.VM.Calls

/-!
# Lemmas about `apply`
-/

namespace DuckLisp.VM

open DuckLisp DuckLisp.Spec

set_option linter.unusedSectionVars false

variable [Entries]

theorem callee_heap {vm s : VM} (hh : s.heap = vm.heap) {f g : Obj} (h : Callee vm f g) : Callee s f g := by
  induction h with
  | self h => exact .self h
  | part h _ ih =>
    obtain ⟨v, w, h1, h2, h3⟩ := h
    exact .part ⟨v, w, hh ▸ h1, hh ▸ h2, hh ▸ h3⟩ ih

theorem callee_ne_list {vm : VM} {p : Option Nat} {pos : Int} {code ups : Option Nat} {arity : UInt8} {v : Bool}
    (h : Callee vm (.list p) (.closure pos code ups arity v)) : False := by
  cases h

/-- With values of the stack taken off the top and the elements pushed. -/
def grown (s : VM) (xs : List Obj) : VM :=
  { s with stack := s.stack ++ xs, upStack := s.upStack ++ xs.map fun _ => none }

theorem grown_cons (s : VM) (x : Obj) (xs : List Obj) : grown s (x :: xs) = grown (pushed s x) xs := by
  simp [grown, pushed]

theorem grown_nil (s : VM) : grown s [] = s := by simp [grown]

/-- What is left of the list after `k` elements. -/
theorem spread_eq {vm : VM} (hs : Sound vm) {p : Option Nat} {xs : List Obj} (h : ListOf vm p xs)
    (arity : Nat) : ∀ (todo n : Nat) (s : VM), s.heap = vm.heap → arity ≤ n + todo → ValueOk vm (.list p) →
    ∃ rest, spread arity todo n p s = .ok (n + min (arity - n) xs.length, rest) (grown s (xs.take (arity - n))) ∧
      ListOf vm rest (xs.drop (arity - n)) ∧ ValueOk vm (.list rest) ∧ ∀ x ∈ xs, ValueOk vm x := by
  induction h with
  | nil =>
    intro todo n s hh hn hv
    refine ⟨none, ?_, by simpa using ListOf.nil, hv, by simp⟩
    simp only [List.take_nil, grown_nil, List.length_nil, Nat.min_zero, Nat.add_zero]
    cases todo with
    | zero => rfl
    | succ todo =>
      unfold spread
      split <;> rfl
  | @cons r a d x xs h ha ht ih =>
    intro todo n s hh hn hv
    obtain ⟨a', d', h', hpa, hpd⟩ := live_pair hs hv
    rw [h] at h'
    cases h'
    have hvx := part_valueOk hs ha hpa
    have hvd : ValueOk vm (.list d) := by
      cases ht with
      | nil => trivial
      | cons h2 _ _ => exact part_valueOk hs (.pair h2) hpd
    cases hk : arity - n with
    | zero =>
      refine ⟨some r, ?_, by simpa using .cons h ha ht, hv, ?_⟩
      · simp only [List.take_zero, grown_nil, Nat.zero_min, Nat.add_zero]
        cases todo with
        | zero => rfl
        | succ todo =>
          unfold spread
          rw [if_neg (by omega)]
          rfl
      · obtain ⟨_, _, _, _, h4⟩ := ih todo n s hh hn hvd
        intro y hy
        rcases List.mem_cons.1 hy with rfl | hy
        · exact hvx
        · exact h4 y hy
    | succ k =>
      cases todo with
      | zero => omega
      | succ todo =>
        obtain ⟨rest, h1, h2, h3, h4⟩ := ih todo (n + 1) (pushed s x) hh (by omega) hvd
        rw [show arity - (n + 1) = k by omega] at h1 h2
        refine ⟨rest, ?_, by simpa using h2, h3, ?_⟩
        · rw [List.take_succ_cons, grown_cons, List.length_cons,
            show n + min (k + 1) (xs.length + 1) = n + 1 + min k xs.length by omega, ← h1]
          rw [spread, if_pos (by omega)]
          dsimp only
          rw [M.bind_ok (readCell_some (hh ▸ h : s.heap[r]? = _))]
          dsimp only
          cases ha with
          | empty => exact (M.bind_ok (show push _ s = .ok () (pushed s (.list none)) from rfl))
          | pair hc =>
            dsimp only
            rw [M.bind_ok (readCell_some (hh ▸ hc : s.heap[_]? = _))]
            exact M.bind_ok (show push _ s = .ok () (pushed s _) from rfl)
          | @value c o hc ho =>
            dsimp only
            rw [M.bind_ok (readCell_some (hh ▸ hc : s.heap[_]? = _))]
            cases x <;> first
              | exact M.bind_ok (show push _ s = .ok () (pushed s _) from rfl)
              | exact absurd rfl (ho _ _)
        · intro y hy
          rcases List.mem_cons.1 hy with rfl | hy
          · exact hvx
          · exact h4 y hy

theorem popStack_top {vm : VM} {st : List Obj} {o : Obj} (hst : vm.stack = st ++ [o])
    (hl : vm.upStack.length = vm.stack.length) :
    popStack vm = .ok o (spreadOut vm []) := by
  rcases vm with ⟨heap, free, stack, upStack, cs, ua, gl, cb, nu, ns⟩
  simp only at hst hl
  subst hst
  unfold popStack spreadOut
  simp only [List.getLast?_concat, List.dropLast_concat, List.append_nil, List.map_nil]
  cases upStack with
  | nil => simp at hl
  | cons u us => rfl

theorem grown_spreadOut (vm : VM) (xs : List Obj) : grown (spreadOut vm []) xs = spreadOut vm xs := by
  simp [grown, spreadOut]

theorem spreadOut_good {vm : VM} (hg : Good vm) {xs : List Obj} (hx : ∀ x ∈ xs, ValueOk vm x) :
    Good (spreadOut vm xs) := by
  refine hg.stacks _ _ (fun o ho => ?_) (fun r hr => ?_)
  · rcases List.mem_append.1 ho with ho | ho
    · exact hg.sound.stack o (List.dropLast_subset _ ho)
    · exact hx o ho
  · rcases List.mem_append.1 hr with hr | hr
    · exact hg.sound.captured r (List.dropLast_subset _ hr)
    · simp at hr

/-- What `apply` does once the list has been spread. -/
theorem apply_eq {vm : VM} (hg : Good vm) {bc a n : Nat} {nx : CodePtr} {f : Obj} {pos : Int} {code ups : Option Nat}
    {arity : UInt8} {variadic : Bool} {st xs : List Obj} {p : Option Nat}
    (ha : operand vm a = some f) (hf : Callee vm f (.closure pos code ups arity variadic))
    (hst : vm.stack = st ++ [.list p]) (hl : vm.upStack.length = vm.stack.length) (hx : ListOf vm p xs) :
    ∃ rest, ListOf vm rest (xs.drop (arity.toNat - n)) ∧ ValueOk vm (.list rest) ∧ (∀ x ∈ xs, ValueOk vm x) ∧
      iApply bc nx a n vm = (do
        if variadic then
          if n + min (arity.toNat - n) xs.length < arity.toNat then M.throw .invalidValue
          else collectRest (n + min (arity.toNat - n) xs.length - arity.toNat) rest
        else if arity.toNat ≠ n + min (arity.toNat - n) xs.length then M.throw .invalidValue
        else pure ()
        enter bc nx pos code ups : M CodePtr) (spreadOut vm (xs.take (arity.toNat - n))) := by
  have hv : ValueOk vm (.list p) := hg.sound.stack _ (by rw [hst]; simp)
  obtain ⟨rest, h1, h2, h3, h4⟩ := spread_eq hg.sound hx arity.toNat arity.toNat n (spreadOut vm []) rfl
    (by omega) hv
  refine ⟨rest, h2, h3, h4, ?_⟩
  rw [grown_spreadOut] at h1
  unfold iApply
  rw [M.bind_ok (getArg_some ha), M.bind_ok (show unwrapFuel vm = .ok _ vm from rfl), M.bind_ok (unwrap_callee hf)]
  dsimp only
  rw [M.bind_ok (popStack_top hst hl)]
  dsimp only
  rw [M.bind_ok h1]

end DuckLisp.VM
