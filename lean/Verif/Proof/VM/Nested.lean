import Verif.Proof.VM.Inside
import Verif.Proof.VM.Heights
import Verif.Props.VM.Closures
import Verif.Props.VM.Apply
import Verif.Spec.Nesting

/-!
# Calls are nested
-/

namespace DuckLisp.VM

open DuckLisp DuckLisp.Spec

/-! ### What leaves the pending calls alone -/

/-- Success leaves the pending calls as they are. -/
def SameCalls (s s' : VM) : Prop := s'.callStack = s.callStack

theorem samePrims : Prims0 SameCalls (fun _ _ => True) where
  refl _ := rfl
  trans h h' := Eq.trans h' h
  weak _ := trivial
  transE _ _ := trivial
  collect h := by
    have := garbageCollect_same h
    unfold SameCalls
    simp_all
  take o := by
    intro s
    unfold takeFree
    split <;> rename_i hc <;> split at hc <;> cases hc <;> first | rfl | trivial
  heap _ _ _ _ := rfl
  «stacks» _ _ _ _ := rfl
  stacksE _ _ _ _ := trivial

theorem plain_calls {env : Env} {bc : Ref} {st : CodePtr} {i : Instr} {s s' : VM} (hi : ∀ k, i ≠ .ccall k)
    (h : plain env bc st i s = .ok () s') : s'.callStack = s.callStack := by
  have he : plain env bc st i = plain (hostless env) bc st i := by
    cases i <;> first | rfl | exact absurd rfl (hi _)
  rw [he] at h
  refine Rel.ok (R := SameCalls) (E := fun _ _ => True) (rel_plain samePrims (fun _ => rel_pure samePrims.toPre ()) bc st i
    (fun _ _ _ _ _ => rel_modify fun _ => rfl) (fun _ => ?_) fun _ => samePrims.two (fun _ _ _ => rfl)) h
  exact fun s => rfl

/-! ### Captured variables -/

theorem still_capture (v : Nat) : Still (capture v) := by
  intro s
  unfold capture
  by_cases hv : v > 0x7FFFFFFF
  · rw [if_pos hv]
    revert s
    show Still _
    refine rel_bind keptPre (rel_topUpArray keptPre rel_ub) fun _ => ?_
    refine rel_bind keptPre (rel_upvalueAt keptPre _ _) fun _ => ?_
    still_auto
  · rw [if_neg hv]
    simp only [M.bind_run, M.get_run]
    by_cases h1 : (s.stack.length - 1 : Int) - v < 0 ∨ (s.upStack.length : Int) < (s.stack.length - 1 : Int) - v
    · rw [if_pos h1]; trivial
    · rw [if_neg h1]
      by_cases h2 : ((s.stack.length - 1 : Int) - v).toNat = s.upStack.length
      · rw [if_pos h2]
        have h3 := still_pushObject (.upvalue (.stackIndex ((s.stack.length - 1 : Int) - v))) s
        cases hp : pushObject (.upvalue (.stackIndex ((s.stack.length - 1 : Int) - v))) s with
        | ok r s' =>
          rw [hp] at h3
          exact h3
        | err e s' => trivial
        | ub => trivial
        | diverge => trivial
      · rw [if_neg h2]
        generalize s.upStack[((s.stack.length - 1 : Int) - v).toNat]? = x
        generalize ((s.stack.length - 1 : Int) - v) = idx
        suffices Still (match x with
          | Option.none => M.throw .invalidValue
          | some Option.none => do
              let r ← pushObject (.upvalue (.stackIndex idx))
              M.modify fun s => { s with upStack := s.upStack.set idx.toNat (some r) }
              return (some r, false)
          | some (some r) => do
              match ← readCell r with
              | .upvalue _ => return (some r, false)
              | _ => M.throw .shouldntHappen) from this s
        still_auto
        exact rel_modify fun _ => rfl

theorem still_setCapture (c : Ref) (k : Nat) (u : Option Ref) : Still (setCapture c k u) := by
  unfold setCapture; still_auto

theorem still_captures (c : Ref) (vs : List Nat) : ∀ k b, Still (captures c k vs b) := by
  induction vs with
  | nil => intro k b; exact rel_pure keptPre _
  | cons v vs ih =>
    intro k b
    unfold captures
    refine rel_bind keptPre (still_capture v) fun p => ?_
    split
    exact rel_bind keptPre (still_setCapture _ _ _) fun _ => ih _ _

theorem adds_iPushClosure {bc : Ref} {st : CodePtr} {v : Bool} {b : Nat} {d : Int} {ar : UInt8} {vs : List Nat} :
    Adds (iPushClosure bc st v b d ar vs) := by
  intro s u s' h
  unfold iPushClosure at h
  obtain ⟨serial, s1, h1, h2⟩ := M.bind_eq_ok.1 h
  have e1 : s1.stack = s.stack := Rel.ok (rel_codeSerial keptPre _) h1
  split at h2
  · obtain ⟨cell, s2, h3, h4⟩ := M.bind_eq_ok.1 h2
    have e2 : s2.stack = s1.stack := Rel.ok (still_pushObject _) h3
    obtain ⟨_, s3, h5, h6⟩ := M.bind_eq_ok.1 h4
    cases h5
    obtain ⟨r, s4, h7, h8⟩ := M.bind_eq_ok.1 h6
    have e4 : s4.stack = s2.stack ++ [.closure (d + (st.off + b)) (some bc) (some cell) ar v] := Rel.ok (still_captures _ _ _ _) h7
    have fin : ∀ (s5 : VM), s5.stack = s4.stack → (do
        let n ← height
        setStackAt ((n : Int) - 1) (.closure (d + (st.off + b)) (some bc) (some cell) ar v) : M Unit) s5 = .ok () s' →
        ∃ x, s'.stack = s.stack ++ [x] := by
      intro s5 e5 hs
      obtain ⟨n, s6, h9, h10⟩ := M.bind_eq_ok.1 hs
      cases h9
      have hst : s5.stack = s.stack ++ [.closure (d + (st.off + b)) (some bc) (some cell) ar v] := by rw [e5, e4, e2, e1]
      refine ⟨.closure (d + (st.off + b)) (some bc) (some cell) ar v, ?_⟩
      have hi : ((s5.stack.length : Int) - 1).toNat = s.stack.length := by rw [hst]; simp
      unfold setStackAt at h10
      split at h10
      · cases h10
        simp only [hi, hst]
        simp
      · cases h10
    cases r with
    | true => exact fin s4 rfl h8
    | false =>
      obtain ⟨_, s5, h9, h10⟩ := M.bind_eq_ok.1 h8
      cases h9
      exact fin { s4 with upStack := s4.upStack ++ [none] } rfl h10
  · cases h2

/-- Captured variables that are moved from the stack are those of the running function. -/
theorem release1_stack {a base : Nat} {s s' : VM} {b : Bool} (ha : base + a ≤ s.stack.length) (h : release1 a s = .ok b s') :
    s'.stack.length = s.stack.length ∧ s'.stack.take base = s.stack.take base := by
  unfold release1 at h
  obtain ⟨s0, s1, h1, h2⟩ := M.bind_eq_ok.1 h
  cases h1
  rw [if_neg (by omega)] at h2
  obtain ⟨u, s2, h3, h4⟩ := M.bind_eq_ok.1 h2
  have e2 : s2 = s := by
    cases hu : s.upStack[s.stack.length - a]? with
    | none => rw [hu] at h3; cases h3
    | some x => rw [hu] at h3; cases h3; rfl
  subst e2
  cases u with
  | none => cases h4; exact ⟨rfl, rfl⟩
  | some u =>
    obtain ⟨o, s3, h5, h6⟩ := M.bind_eq_ok.1 h4
    have e3 : s3.stack = s2.stack := Rel.ok (rel_readCell keptPre _) h5
    split at h6
    · obtain ⟨x, s4, h7, h8⟩ := M.bind_eq_ok.1 h6
      have e4 : s4.stack = s3.stack := Rel.ok (rel_stackAt keptPre _) h7
      obtain ⟨r, s5, h9, h10⟩ := M.bind_eq_ok.1 h8
      have e5 : s5.stack = s4.stack := Rel.ok (still_pushObject _) h9
      obtain ⟨_, s6, h11, h12⟩ := M.bind_eq_ok.1 h10
      have e6 : s6.stack = s5.stack := Rel.ok (still_writeCell _ _) h11
      obtain ⟨_, s7, h13, h14⟩ := M.bind_eq_ok.1 h12
      have e7 : s7.stack = s2.stack.set (s2.stack.length - a) .nil := by
        unfold setStackAt at h13
        split at h13
        · cases h13
          simp only [e6, e5, e4, e3]
          congr 1
        · cases h13
      cases h14
      refine ⟨?_, ?_⟩
      · show s7.stack.length = _
        rw [e7, List.length_set]
      · show s7.stack.take base = _
        rw [e7, List.take_set_of_le (by omega)]
    · cases h6
      exact ⟨by rw [e3], by rw [e3]⟩

theorem releaseUpvalues_stack {base : Nat} : ∀ {as : List Nat} {s s' : VM}, (∀ a ∈ as, base + a ≤ s.stack.length) →
    iReleaseUpvalues as s = .ok () s' → s'.stack.length = s.stack.length ∧ s'.stack.take base = s.stack.take base := by
  intro as
  induction as with
  | nil =>
    intro s s' _ h
    cases h
    exact ⟨rfl, rfl⟩
  | cons a as ih =>
    intro s s' ha h
    unfold iReleaseUpvalues at h
    obtain ⟨b, s1, h1, h2⟩ := M.bind_eq_ok.1 h
    obtain ⟨e1, e2⟩ := release1_stack (ha a (.head _)) h1
    cases b with
    | true =>
      obtain ⟨e3, e4⟩ := ih (fun x hx => by rw [e1]; exact ha x (.tail _ hx)) h2
      exact ⟨e3.trans e1, e4.trans e2⟩
    | false =>
      cases h2
      exact ⟨e1, e2⟩

theorem le_foldr_max {as : List Nat} {a : Nat} (h : a ∈ as) : a ≤ as.foldr max 0 := by
  induction as with
  | nil => cases h
  | cons b as ih =>
    simp only [List.foldr_cons]
    cases h with
    | head => omega
    | tail _ h => have := ih h; omega

theorem readCell_same {r : Ref} {s s' : VM} {o : Obj} (h : readCell r s = .ok o s') : s' = s := by
  cases hc : s.heap[r]? with
  | none => unfold readCell at h; rw [hc] at h; cases h
  | some x => rw [readCell_some hc] at h; cases h; rfl

/-- Spreading a list pushes as many values as it counts. -/
theorem spread_inv {arity : Nat} : ∀ {todo n : Nat} {p : Option Ref} {s s' : VM} {m : Nat} {q : Option Ref},
    spread arity todo n p s = .ok (m, q) s' → ∃ ys, s' = grown s ys ∧ m = n + ys.length := by
  intro todo
  induction todo with
  | zero =>
    intro n p s s' m q h
    cases h
    exact ⟨[], by rw [grown_nil], rfl⟩
  | succ todo ih =>
    intro n p s s' m q h
    unfold spread at h
    split at h
    · cases p with
      | none =>
        cases h
        exact ⟨[], by rw [grown_nil], rfl⟩
      | some r =>
        obtain ⟨o, s1, h1, h2⟩ := M.bind_eq_ok.1 h
        obtain rfl := readCell_same h1
        have go : ∀ {x cdr}, (push x >>= fun _ => spread arity todo (n + 1) cdr : M _) s1 = .ok (m, q) s' →
            ∃ ys, s' = grown s1 ys ∧ m = n + ys.length := by
          intro x cdr hs
          obtain ⟨_, s2, h3, h4⟩ := M.bind_eq_ok.1 hs
          cases h3
          obtain ⟨ys, e1, e2⟩ := ih h4
          refine ⟨x :: ys, ?_, by simp; omega⟩
          rw [grown_cons]
          exact e1
        split at h2
        · rename_i car cdr
          cases car with
          | none => exact go h2
          | some c =>
            obtain ⟨o, s2, h3, h4⟩ := M.bind_eq_ok.1 h2
            obtain rfl := readCell_same h3
            split at h4
            · exact go h4
            · exact go h4
        · cases h2
    · cases h
      exact ⟨[], by rw [grown_nil], rfl⟩

/-! ### One instruction -/

/-- One instruction keeps the machine in order, and makes no code. -/
theorem keeps_code [Entries] {env : Env} {vm0 : VM} {bc : Ref} {vm vm' : VM} {ip : CodePtr} {ctl : Ctl}
    (hr : Running bc vm) (hcode : ∀ (c : Ref) (blk : CodeBlock) (n : Nat), vm.heap[c]? = some (.bytecode (some blk) n) →
      ∃ m, vm0.heap[c]? = some (.bytecode (some blk) m)) (hh : HostBehaves env bc) (hl : HostLeavesCode env)
    (hp : ¬ Pitfall vm ip) (hen : ∀ i, InstructionAt vm ip i → StartsOk vm bc ip i) (hs : step env bc ip vm = .ok ctl vm') :
    Running bc vm' ∧ ∀ (c : Ref) (blk : CodeBlock) (n : Nat), vm'.heap[c]? = some (.bytecode (some blk) n) →
      ∃ m, vm0.heap[c]? = some (.bytecode (some blk) m) := by
  refine ⟨?_, ?_⟩
  · have h := post_step (env := env) hr hh hp hen
    rw [hs] at h
    exact h
  · obtain ⟨i, hi⟩ : ∃ i, InstructionAt vm ip i := Classical.byContradiction fun h => hp (.inl h)
    obtain ⟨blk, n, rest, h1, h2, h3, h4, h5⟩ := hi
    rw [step_at (env := env) (bc := bc) h1 h2 h3 h4 h5] at hs
    let K : Rules := ⟨fun c b => ∃ m, vm0.heap[c]? = some (.bytecode (some b) m), fun _ => True⟩
    have hinv : K.Inv true vm := by
      refine ⟨fun o ho _ => ?_, fun c o ho => ?_, fun _ _ => trivial⟩
      · have := hr.good.sound.stack o ho
        cases o <;> first | trivial | exact this.elim
      · unfold Rules.CellFits
        split
        · exact hcode _ _ _ ho
        · trivial
    have hhost : ∀ cb, Leaves K (env.host cb) := by
      intro cb s hs
      cases hs' : env.host cb s with
      | ok u s' =>
        obtain ⟨g1, g2⟩ := hl cb s s' hs'
        refine ⟨fun _ _ h => (nomatch h), fun c o ho => ?_, fun f hf => trivial⟩
        unfold Rules.CellFits
        split
        · obtain ⟨m, hm⟩ := g2 _ _ _ ho
          exact hs.heap _ _ hm
        · trivial
      | err e s' => trivial
      | ub => trivial
      | diverge => trivial
    have := leaves_exec (env := env) (bc := bc) (st := ip)
      (nx := { ip with off := ip.off + ((blk.bytes.drop ip.off.toNat).length - rest.length : Nat) }) hhost trivial i vm hinv
    rw [hs] at this
    exact fun c b k hb => this.heap c _ hb

theorem Pending.bottom_le {vm0 : VM} {bottom : Nat} {frames : List Frame} {base : Nat}
    (h : Pending vm0 bottom frames base) : bottom ≤ base := by
  induction h with
  | none => exact Nat.le_refl _
  | call _ _ h _ ih => omega

theorem Pending.pop {vm0 : VM} {bottom : Nat} {frames : List Frame} {f : Frame} {base : Nat}
    (h : Pending vm0 bottom (frames ++ [f]) base) :
    ∃ b h, Pending vm0 bottom frames b ∧ Stands vm0 f.ip h ∧ b ≤ base ∧ base + 1 = b + h := by
  generalize hg : frames ++ [f] = g at h
  cases h with
  | none => simp at hg
  | @call frames' f' b h base h1 h2 h3 h4 =>
    obtain ⟨rfl, h5⟩ := List.append_inj' hg rfl
    cases h5
    exact ⟨b, h, h1, h2, h3, h4⟩

theorem leave_goto {s s' : VM} {ip : CodePtr} (h : leave s = .ok (.goto ip) s') :
    ∃ f, s.callStack = s'.callStack ++ [f] ∧ ip = f.ip ∧ s'.stack = s.stack := by
  unfold leave at h
  rw [M.bind_run] at h
  unfold popFrame at h
  cases hc : s.callStack.getLast? with
  | none => rw [hc] at h; cases h
  | some f =>
    rw [hc] at h
    dsimp only at h
    have h1 : s.callStack = s.callStack.dropLast ++ [f] := by
      have := List.dropLast_append_getLast? f (by rw [hc]; rfl)
      exact this.symm
    split at h
    · rename_i hx
      split at hx
      · cases hx; cases h
      · cases hx
        cases h
        exact ⟨f, h1, rfl, rfl⟩
    all_goals first | (cases h; done) | skip

theorem getElem?_of_take {α : Type} {xs ys : List α} {b k : Nat} (h : xs.take b = ys.take b) (hk : k < b) :
    xs[k]? = ys[k]? := by
  rw [← List.getElem?_take_of_lt hk, h, List.getElem?_take_of_lt hk]

/-- What one instruction does to the pending calls. -/
inductive Moves (bc : Ref) (vm : VM) (ip : CodePtr) (base : Nat) (vm' : VM) (ip' : CodePtr) : Nat → Prop
  | stays : vm'.callStack = vm.callStack → (∀ k, k < base → vm'.stack[k]? = vm.stack[k]? ∨ AssignsCaptured vm ip k) →
      Moves bc vm ip base vm' ip' base
  | calls {base' i n nx} : ReadAt vm ip i nx → takes i = some n → vm'.callStack = vm.callStack ++ [⟨nx, some bc⟩] →
      base ≤ base' → base' + n = vm.stack.length → vm'.stack.take base' = vm.stack.take base' →
      Moves bc vm ip base vm' ip' base'
  | returns {base' f r} : vm.callStack = vm'.callStack ++ [f] → vm'.stack = vm.stack.take base ++ [r] → ip' = f.ip →
      base' ≤ base → Moves bc vm ip base vm' ip' base'

section

attribute [local instance] byHeight

theorem nested_step {env : Env} {count : Nat → Nat} {vm0 : VM} {bottom : Nat} {bc : Ref} {vm vm' : VM} {ip ip' : CodePtr}
    {base h : Nat} (hc : Nested vm0 bottom bc vm ip base h) (ht : AllTidy vm0) (hh : HostBehaves env bc)
    (hl : HostLeavesCode env) (hk : HostTakes env count) (hp : ¬ Pitfall vm ip) (hm : ¬ Miscounts count vm ip)
    (hs : step env bc ip vm = .ok (.goto ip') vm') :
    ∃ base' h', Nested vm0 bottom bc vm' ip' base' h' ∧ Moves bc vm ip base vm' ip' base' := by
  obtain ⟨i, hi⟩ : ∃ i, InstructionAt vm ip i := Classical.byContradiction fun h => hp (.inl h)
  have hf : ¬ Faulty vm i := fun h => hp (.inr ⟨i, hi, .inl h⟩)
  have hi' := hi
  obtain ⟨blk, n, rest, h1, h2, h3, h4, h5⟩ := hi'
  obtain ⟨m, hb⟩ := hc.code _ _ _ h1
  have hat0 : HeightAt blk.bytes ip.off h := by
    obtain ⟨blk', n', g1, g2, g3⟩ := hc.here
    rw [hb] at g1
    cases g1
    exact g3
  have hat := codeAt_of_decode h3 h4 h5
  have hse := step_at (env := env) (bc := bc) h1 h2 h3 h4 h5
  have htidy : Countable i ∧ atLeast i ≤ h ∧ ∀ n, leavesBehind i = some n → h = n + 1 := by
    obtain ⟨i', q', g1, g2⟩ := (ht _ _ _ hb).whole _ _ hat0
    obtain ⟨rfl, -⟩ := codeAt_unique g1 hat
    exact g2
  obtain ⟨hcount, hle, hret⟩ := htidy
  have hen : ∀ j, InstructionAt vm ip j → StartsOk vm bc ip j := by
    intro j hj
    obtain ⟨blk', n', rest', k1, k2, k3, k4, k5⟩ := hj
    rw [h1] at k1
    cases k1
    rw [h5] at k5
    cases k5
    cases i <;> try trivial
    rename_i v b d ar vs
    intro b' k hb' he
    have hce : ip.cell = bc := by rw [he]
    rw [← hce, h1] at hb'
    cases hb'
    have := hat0.land hat (t := ip.off + b + d) rfl
    rwa [show ip.off + (b : Int) + d = d + (ip.off + b) by omega] at this
  obtain ⟨hrun, hcode⟩ := keeps_code hc.running hc.code hh hl hp hen hs
  generalize hq : ip.off + ((blk.bytes.drop ip.off.toNat).length - rest.length : Nat) = q at hat hse
  rw [hse] at hs
  have stands : ∀ t h', HeightAt blk.bytes t h' → Stands vm0 { ip with off := t } h' := fun t h' ht => ⟨blk, m, hb, h2, ht⟩
  have hnx : GoesOn i → Stands vm0 { ip with off := q } (heightAfter h i) := fun hg => stands _ _ (hat0.next hat hg)
  have hlen := hc.height
  -- an instruction that stays in the function
  have inside : ∀ {ip1 : CodePtr} {vm1 : VM} {h1 : Nat}, Running bc vm1 →
      (∀ (c : Ref) (blk : CodeBlock) (n : Nat), vm1.heap[c]? = some (.bytecode (some blk) n) →
        ∃ m, vm0.heap[c]? = some (.bytecode (some blk) m)) → Stands vm0 ip1 h1 → vm1.callStack = vm.callStack →
      vm1.stack.length = base + h1 → vm1.stack.take base = vm.stack.take base →
      ∃ base' h', Nested vm0 bottom bc vm1 ip1 base' h' ∧ Moves bc vm ip base vm1 ip1 base' := by
    intro ip1 vm1 h1 g1 g2 g3 g4 g5 g6
    exact ⟨base, h1, ⟨g1, g2, g3, g5, by rw [g4]; exact hc.calls⟩, .stays g4 fun k hk => .inl (getElem?_of_take g6 hk)⟩
  -- an instruction that pushes a value
  have adds : Adds (plain env bc ip i) → heightAfter h i = h + 1 → IsPlain i → (∀ k, i ≠ .ccall k) →
      ∃ base' h', Nested vm0 bottom bc vm' ip' base' h' ∧ Moves bc vm ip base vm' ip' base' := by
    intro ha he hpl hcc
    rw [exec_plain hpl, M.bind_run] at hs
    cases ho : plain env bc ip i vm with
    | ok a s1 =>
      rw [ho] at hs
      cases hs
      obtain ⟨x, hx⟩ := ha _ _ _ ho
      refine inside hrun hcode (hnx (by cases i <;> first | trivial | exact hpl.elim)) (plain_calls hcc ho) ?_ ?_
      · rw [hx, he]; simp; omega
      · rw [hx, List.take_append_of_le_length (by omega)]
    | err e s1 => rw [ho] at hs; cases hs
    | ub => rw [ho] at hs; cases hs
    | diverge => rw [ho] at hs; cases hs
  have quiet : ∀ {vm1 : VM}, plain env bc ip i vm = .ok () vm1 → exec env bc ip { ip with off := q } i vm = .ok (.goto ip') vm' →
      IsPlain i → ip' = { ip with off := q } ∧ vm1 = vm' := by
    intro vm1 ho hs hpl
    rw [exec_plain hpl, M.bind_run, ho] at hs
    cases hs
    exact ⟨rfl, rfl⟩
  have runs : IsPlain i → ∃ vm1, plain env bc ip i vm = .ok () vm1 := by
    intro hpl
    rw [exec_plain hpl, M.bind_run] at hs
    cases ho : plain env bc ip i vm with
    | ok a s1 => exact ⟨s1, rfl⟩
    | err e s1 => rw [ho] at hs; cases hs
    | ub => rw [ho] at hs; cases hs
    | diverge => rw [ho] at hs; cases hs
  have returned : ∀ {s : VM} {r : Obj}, leave s = .ok (.goto ip') vm' → s.callStack = vm.callStack →
      s.stack = vm.stack.take base ++ [r] →
      ∃ base' h', Nested vm0 bottom bc vm' ip' base' h' ∧ Moves bc vm ip base vm' ip' base' := by
    intro s r hlv hcs hst
    obtain ⟨f, g1, rfl, g3⟩ := leave_goto hlv
    rw [hcs] at g1
    have hpd := hc.calls
    rw [g1] at hpd
    obtain ⟨b, k, p1, p2, p3, p4⟩ := Pending.pop hpd
    have hst' : vm'.stack = vm.stack.take base ++ [r] := g3.trans hst
    refine ⟨b, k, ⟨hrun, hcode, p2, ?_, p1⟩, .returns g1 hst' rfl p3⟩
    rw [hst']
    simp
    omega
  cases i
  case nop =>
    obtain ⟨vm1, ho⟩ := runs trivial
    obtain ⟨rfl, rfl⟩ := quiet ho hs trivial
    cases ho
    exact inside hrun hcode (hnx trivial) rfl hlen rfl
  case pop k =>
    obtain ⟨vm1, ho⟩ := runs trivial
    obtain ⟨rfl, rfl⟩ := quiet ho hs trivial
    simp only [atLeast] at hle
    have hcs := plain_calls (by simp) ho
    obtain ⟨-, p2⟩ := popMany_stack (show popMany k vm = .ok () vm1 from ho)
    refine inside hrun hcode (hnx trivial) hcs ?_ ?_
    · rw [p2]
      simp only [List.length_take, heightAfter]
      omega
    · rw [p2, List.take_take, Nat.min_eq_left (by omega)]
  case move a b =>
    obtain ⟨vm1, ho⟩ := runs trivial
    obtain ⟨rfl, rfl⟩ := quiet ho hs trivial
    simp only [atLeast] at hle
    have hcs := plain_calls (by simp) ho
    obtain ⟨o, s1, e1, e2⟩ := M.bind_eq_ok.1 (show (getArg a >>= fun o => setArg b o) vm = _ from ho)
    have hs1 : s1.stack = vm.stack := Rel.ok (rel_getArg keptPre _) e1
    have h3 := setArg_stack e2
    rw [hs1] at h3
    refine inside hrun hcode (hnx trivial) hcs ?_ ?_
    · rw [h3, List.length_set]
      exact hlen
    · rw [h3, List.take_set_of_le (by omega)]
  case setGlobal a k =>
    obtain ⟨vm1, ho⟩ := runs trivial
    obtain ⟨rfl, rfl⟩ := quiet ho hs trivial
    have hcs := plain_calls (by simp) ho
    have h3 := Rel.ok (still_setGlobal (env := env) _ _) ho
    refine inside hrun hcode (hnx trivial) hcs ?_ ?_
    · rw [h3]; exact hlen
    · rw [h3]
  case jump d =>
    cases hs
    exact inside hrun hcode (stands _ _ (hat0.land hat rfl)) rfl hlen rfl
  case brnz d k =>
    simp only [atLeast] at hle
    simp only [exec] at hs
    obtain ⟨o, s1, e1, e2⟩ := M.bind_eq_ok.1 hs
    obtain ⟨_, s2, e3, e4⟩ := M.bind_eq_ok.1 e2
    obtain ⟨t, s3, e5, e6⟩ := M.bind_eq_ok.1 e4
    have hs1 : s1 = vm := by
      unfold getArg at e1
      split at e1 <;> first | (cases e1; rfl) | cases e1
    subst hs1
    have hs3 : s3.stack = s2.stack := Rel.ok (still_truthy o) e5
    have hc3 : s3.callStack = s2.callStack := Rel.ok (R := SameCalls) (E := fun _ _ => True) (rel_truthy samePrims o) e5
    have hc2 : s2.callStack = s1.callStack := Rel.ok (R := SameCalls) (E := fun _ _ => True) (rel_popMany samePrims k) e3
    obtain ⟨p1, p2⟩ := popMany_stack e3
    have hlen3 : s3.stack.length = base + (h - k) := by
      rw [hs3, p2, List.length_take]
      omega
    have htk : s3.stack.take base = s1.stack.take base := by
      rw [hs3, p2, List.take_take, Nat.min_eq_left (by omega)]
    cases t with
    | true =>
      cases e6
      refine inside hrun hcode ?_ (hc3.trans hc2) hlen3 htk
      refine stands _ _ (hat0.land hat ?_)
      show some (q - 1 + d) = some (q + d - 1)
      congr 1
      omega
    | false =>
      cases e6
      exact inside hrun hcode (hnx trivial) (hc3.trans hc2) hlen3 htk
  case return0 =>
    have := hret 0 rfl
    obtain ⟨x, hx⟩ : ∃ x, vm.stack = vm.stack.take base ++ [x] := by
      have hl : vm.stack.drop base ≠ [] := by
        intro h0
        have := congrArg List.length h0
        simp at this
        omega
      refine ⟨(vm.stack.drop base).head hl, ?_⟩
      conv => lhs; rw [← List.take_append_drop base vm.stack]
      congr 1
      have : (vm.stack.drop base).length = 1 := by simp; omega
      obtain ⟨y, hy⟩ := List.length_eq_one_iff.1 this
      simp [hy]
    exact returned (s := vm) hs rfl hx
  case return_ k =>
    have := hret k rfl
    simp only [exec] at hs
    obtain ⟨s0, s1, e1, e2⟩ := M.bind_eq_ok.1 hs
    cases e1
    obtain ⟨_, s2, e3, e4⟩ := M.bind_eq_ok.1 e2
    obtain ⟨s2', s2'', e5, e6⟩ := M.bind_eq_ok.1 e4
    cases e5
    obtain ⟨p1, p2⟩ := popMany_stack e3
    have hc2 : s2.callStack = vm.callStack := Rel.ok (R := SameCalls) (E := fun _ _ => True) (rel_popMany samePrims k) e3
    have hne : s2.stack ≠ [] := by
      intro h0
      have := congrArg List.length h0
      rw [p2] at this
      simp at this
      omega
    rw [if_pos hne] at e6
    obtain ⟨_, s4, e9, e10⟩ := M.bind_eq_ok.1 e6
    obtain ⟨_, s3, e7, e8⟩ := M.bind_eq_ok.1 e10
    cases e7
    obtain ⟨p3, p4⟩ := popMany_stack e9
    have hc4 : s4.callStack = s2.callStack := Rel.ok (R := SameCalls) (E := fun _ _ => True) (rel_popMany samePrims 1) e9
    refine returned e8 (hc4.trans hc2) (r := vm.stack.getLast?.getD .none) ?_
    show s4.stack ++ [_] = _
    rw [p4, p2, List.take_take]
    congr 2
    simp
    omega
  case halt => cases hs
  case funcall a k =>
    simp only [atLeast] at hle
    have hnx' := hnx trivial
    simp only [heightAfter] at hnx'
    have hgood := hc.running.good
    have called : ∀ {s : VM} {ip1 : CodePtr} {us : UpArray} {h1 : Nat}, Called s vm' bc { ip with off := q } us →
        s.callStack = vm.callStack → s.stack.length = base + h - k + h1 →
        s.stack.take (base + h - k) = vm.stack.take (base + h - k) → Stands vm0 ip1 h1 →
        ∃ base' h', Nested vm0 bottom bc vm' ip1 base' h' ∧ Moves bc vm ip base vm' ip1 base' := by
      intro s ip1 us h1' g1 g2 g3 g4 g5
      subst g1
      refine ⟨base + h - k, h1', ⟨hrun, hcode, g5, g3, ?_⟩, ?_⟩
      · show Pending vm0 bottom (s.callStack ++ [_]) _
        rw [g2]
        exact .call hc.calls hnx' (by omega) (by omega)
      · refine .calls ⟨blk, n, q, h1, h2, hat, rfl⟩ rfl (by rw [← g2]) (by omega) (by omega) ?_
        exact g4
    have entry : ∀ {f : Obj} {pos : Int} {c : Ref} {u : Option Nat} {ar : UInt8} {v : Bool} {ip1 : CodePtr},
        operand vm a = some f → Callee vm f (.closure pos (some c) u ar v) → IsCode vm c pos ip1 →
        Stands vm0 ip1 (ar.toNat + (if v then 1 else 0)) := by
      intro f pos c u ar v ip1 ha hcal hcd
      obtain ⟨c', u', n', h0, -, ⟨b', k1, k2⟩, -⟩ := callee_valueOk hgood hcal (hgood.sound.stack f (operand_mem ha))
      cases h0
      obtain ⟨b, n'', hb'', rfl⟩ := hcd
      obtain ⟨-, o, ho, hsh⟩ := k1
      rw [hb''] at ho
      cases ho
      cases hsh
      obtain ⟨m', hm'⟩ := hc.code _ _ _ hb''
      exact ⟨_, m', hm', rfl, k2⟩
    cases ha : operand vm a with
    | none =>
      have : exec env bc ip { ip with off := q } (.funcall a k) vm = .err .invalidValue vm := by
        simp only [exec, iFuncall]
        rw [M.bind_err (M.bind_err (getArg_none ha))]
      rw [this] at hs
      cases hs
    | some f =>
      by_cases hcal : ∃ g, Callee vm f g
      · obtain ⟨g, hcal⟩ := hcal
        by_cases hg1 : ∃ cb, g = .function cb
        · obtain ⟨cb, rfl⟩ := hg1
          obtain ⟨g2, g3⟩ := C38_host_function env bc ip { ip with off := q } vm a k cb f ha hcal
          have hcnt : k = count cb := Classical.byContradiction fun hne => hm ⟨a, k, f, cb, hi, ha, hcal, hne⟩
          rcases hh cb vm hc.running with ⟨s, g4, g5⟩ | ⟨e, s, g4⟩
          · rw [g2 _ g4] at hs
            cases hs
            obtain ⟨r, hr⟩ := hk cb vm _ g4 (by omega)
            rw [← hcnt] at hr
            refine inside hrun hcode hnx' (hl cb vm _ g4).1 ?_ ?_
            · rw [hr]
              simp
              omega
            · rw [hr, List.take_append_of_le_length (by simp; omega), List.take_take, Nat.min_eq_left (by omega)]
          · rw [g3 _ _ g4] at hs
            cases hs
        · by_cases hg2 : ∃ pos code ups arity variadic, g = .closure pos code ups arity variadic
          · obtain ⟨pos, code, ups, arity, variadic, rfl⟩ := hg2
            obtain ⟨c, u, ip1, us, rfl, rfl, hcd, hu⟩ := C38_functions_have_code vm hgood a f pos _ _ arity _ ha hcal
            have hent := entry ha hcal hcd
            by_cases hn : if variadic = true then k < arity.toNat else k ≠ arity.toNat
            · rw [C38_wrong_count env bc ip { ip with off := q } vm a k f pos _ _ arity variadic ha hcal hn] at hs
              cases hs
            · cases variadic with
              | false =>
                simp only [Bool.false_eq_true, if_false, Decidable.not_not] at hn
                obtain ⟨s, g3, g4⟩ := C38_fixed env bc ip { ip with off := q } ip1 vm a k c u f pos arity us ha hcal hn hcd hu
                rw [g3] at hs
                cases hs
                refine called g4 rfl ?_ rfl (by simpa using hent)
                omega
              | true =>
                simp only [if_true, Nat.not_lt] at hn
                have hlev := hc.running.level
                unfold Lockstep at hlev
                obtain ⟨below, args, rest', hst, g5, g6⟩ : ∃ below args rest, vm.stack = below ++ args ++ rest ∧
                    args.length = arity.toNat ∧ args.length + rest.length = k := by
                  refine ⟨vm.stack.take (vm.stack.length - k), (vm.stack.drop (vm.stack.length - k)).take arity.toNat,
                    (vm.stack.drop (vm.stack.length - k)).drop arity.toNat, ?_, ?_, ?_⟩
                  · rw [List.append_assoc, List.take_append_drop, List.take_append_drop]
                  · simp only [List.length_take, List.length_drop]; omega
                  · simp only [List.length_take, List.length_drop]; omega
                have hbl : below.length = base + h - k := by
                  have := congrArg List.length hst
                  simp only [List.length_append] at this
                  omega
                have g7 := C38_variadic env bc ip { ip with off := q } ip1 vm hgood hlev.symm a c u f pos arity us below args
                  rest' hst g5 ha hcal hcd hu
                rw [g6] at g7
                rcases g7 with ⟨vm1, s, p, g8, g9, g10, g11, -, g12, g13⟩ | ⟨s, g8, -⟩
                · rw [g8] at hs
                  cases hs
                  refine called g9 g12.callStack ?_ ?_ hent
                  · rw [g10]
                    simp only [List.length_append, List.length_singleton, if_true]
                    omega
                  · rw [g10, hst, ← hbl, List.append_assoc, List.append_assoc, List.take_left, List.take_left]
                · rw [g8] at hs
                  cases hs
          · rw [C38_not_a_function env bc ip { ip with off := q } vm a k f g ha hcal (fun cb h => hg1 ⟨cb, h⟩)
              (fun _ _ _ _ _ h => hg2 ⟨_, _, _, _, _, h⟩)] at hs
            cases hs
      · exact absurd ⟨f, ha, .inl fun g h => hcal ⟨g, h⟩⟩ hf
  case pushClosure v b d ar vs => exact adds adds_iPushClosure rfl trivial (by simp)
  case invalid =>
    obtain ⟨vm1, ho⟩ := runs trivial
    cases ho
  case call => exact hcount.elim
  case ccall => exact hcount.elim
  case pushUpvalue j =>
    refine adds (fun s _ s' hs => ?_) rfl trivial (by simp)
    obtain ⟨c, pl, o, -, -, -, rfl⟩ := Props.pushUpvalue_inv (show iPushUpvalue j s = .ok () s' from hs)
    exact ⟨o, rfl⟩
  case setUpvalue j a =>
    obtain ⟨vm1, ho⟩ := runs trivial
    obtain ⟨rfl, rfl⟩ := quiet ho hs trivial
    have hcs := plain_calls (by simp) ho
    have ho' : iSetUpvalue j a vm = .ok () vm1 := ho
    obtain ⟨c, pl, o, x, k1, k2, k3, k4⟩ := Props.setUpvalue_inv ho'
    rw [setUpvalue_eq k1 k2 k3 k4] at ho'
    cases ho'
    refine ⟨base, h, ⟨hrun, hcode, hnx trivial, ?_, by rw [hcs]; exact hc.calls⟩, .stays hcs fun k hk => ?_⟩
    · cases pl with
      | slot i => show (vm.stack.set i x).length = _; rw [List.length_set]; exact hlen
      | cell r => exact hlen
    · cases pl with
      | slot i =>
        by_cases hik : i = k
        · subst hik
          exact .inr ⟨j, a, c, hi, k1, k2⟩
        · left
          show (vm.stack.set i x)[k]? = _
          rw [List.getElem?_set_ne hik]
      | cell r => exact .inl rfl
  case releaseUpvalues as =>
    obtain ⟨vm1, ho⟩ := runs trivial
    obtain ⟨rfl, rfl⟩ := quiet ho hs trivial
    simp only [atLeast] at hle
    have hcs := plain_calls (by simp) ho
    obtain ⟨p1, p2⟩ := releaseUpvalues_stack (base := base) (fun a ha => by have := le_foldr_max ha; omega)
      (show iReleaseUpvalues as vm = .ok () vm1 from ho)
    exact inside hrun hcode (hnx trivial) hcs (p1.trans hlen) p2
  case apply a k =>
    simp only [atLeast] at hle
    have hnx' := hnx trivial
    simp only [heightAfter] at hnx'
    have hgood := hc.running.good
    have hlev := hc.running.level
    unfold Lockstep at hlev
    have called : ∀ {s : VM} {ip1 : CodePtr} {us : UpArray} {h1 : Nat}, Called s vm' bc { ip with off := q } us →
        s.callStack = vm.callStack → s.stack.length = base + h - (k + 1) + h1 →
        s.stack.take (base + h - (k + 1)) = vm.stack.take (base + h - (k + 1)) → Stands vm0 ip1 h1 →
        ∃ base' h', Nested vm0 bottom bc vm' ip1 base' h' ∧ Moves bc vm ip base vm' ip1 base' := by
      intro s ip1 us h1' g1 g2 g3 g4 g5
      subst g1
      refine ⟨base + h - (k + 1), h1', ⟨hrun, hcode, g5, g3, ?_⟩, ?_⟩
      · show Pending vm0 bottom (s.callStack ++ [_]) _
        rw [g2]
        exact .call hc.calls hnx' (by omega) (by omega)
      · refine .calls ⟨blk, n, q, h1, h2, hat, rfl⟩ rfl (by rw [← g2]) (by omega) (by omega) ?_
        exact g4
    cases ha : operand vm a with
    | none =>
      have : exec env bc ip { ip with off := q } (.apply a k) vm = .err .invalidValue vm := by
        simp only [exec, iApply]
        rw [M.bind_err (M.bind_err (getArg_none ha))]
      rw [this] at hs
      cases hs
    | some f =>
      by_cases hcal : ∃ g, Callee vm f g
      · obtain ⟨g, hcal⟩ := hcal
        by_cases hg2 : ∃ pos code ups arity variadic, g = .closure pos code ups arity variadic
        · obtain ⟨pos, code, ups, arity, variadic, rfl⟩ := hg2
          obtain ⟨c, u, ip1, us, rfl, rfl, hcd, hu⟩ := C38_functions_have_code vm hgood a f pos _ _ arity _ ha hcal
          have hent : Stands vm0 ip1 (arity.toNat + (if variadic then 1 else 0)) := by
            obtain ⟨c', u', n', h0, -, ⟨b', k1, k2⟩, -⟩ := callee_valueOk hgood hcal (hgood.sound.stack f (operand_mem ha))
            cases h0
            obtain ⟨b, n'', hb'', rfl⟩ := hcd
            obtain ⟨-, o, ho, hsh⟩ := k1
            rw [hb''] at ho
            cases ho
            cases hsh
            obtain ⟨m', hm'⟩ := hc.code _ _ _ hb''
            exact ⟨_, m', hm', rfl, k2⟩
          obtain ⟨below, args, top, hst, hbl, har⟩ : ∃ below args top, vm.stack = below ++ args ++ [top] ∧
              below.length = base + h - (k + 1) ∧ args.length = k := by
            have hne : vm.stack ≠ [] := fun h0 => by
              rw [h0] at hlen
              simp at hlen
              omega
            refine ⟨vm.stack.take (base + h - (k + 1)), vm.stack.dropLast.drop (base + h - (k + 1)), vm.stack.getLast hne, ?_, ?_, ?_⟩
            · conv => lhs; rw [← List.dropLast_append_getLast hne]
              congr 1
              conv => lhs; rw [← List.take_append_drop (base + h - (k + 1)) vm.stack.dropLast]
              congr 1
              rw [List.dropLast_eq_take, List.take_take, Nat.min_eq_left (by omega)]
            · simp only [List.length_take]; omega
            · simp only [List.length_drop, List.length_dropLast]; omega
          have hbelow : vm.stack.take (base + h - (k + 1)) = below := by
            rw [hst, ← hbl, List.append_assoc, List.take_left]
          by_cases htop : ∃ p, top = .list p
          · obtain ⟨p, rfl⟩ := htop
            cases variadic with
            | true =>
              have hx : ∃ xs, ListOf vm p xs := Classical.byContradiction fun hn =>
                hf ⟨f, ha, .inr ⟨pos, _, _, arity, hcal, .inr ⟨p, by rw [operand, hst]; simp, fun xs hx => hn ⟨xs, hx⟩⟩⟩⟩
              obtain ⟨xs, hx⟩ := hx
              by_cases hn : arity.toNat ≤ args.length + xs.length
              · rcases C39_variadic env bc ip { ip with off := q } ip1 vm hgood hlev.symm a c u f pos arity us below args xs p
                  hst hx hn ha hcal hcd hu with ⟨vm1, s, p', g8, g9, g10, g11, -, -, g12, g13, -⟩ | ⟨s, g8, -⟩
                · rw [har] at g8
                  rw [g8] at hs
                  cases hs
                  refine called g9 g12.callStack ?_ ?_ hent
                  · rw [g10]
                    simp only [List.length_append, List.length_singleton, List.length_take, if_true]
                    omega
                  · rw [g10, hbelow, List.append_assoc, ← hbl, List.take_left]
                · rw [har] at g8
                  rw [g8] at hs
                  cases hs
              · obtain ⟨s, g8⟩ := C39_wrong_count_partial env bc ip { ip with off := q } vm hgood hlev.symm a f pos _ _ arity _
                  below args xs p hst hx (.inl (by omega)) ha hcal
                rw [har] at g8
                rw [g8] at hs
                cases hs
            | false =>
              simp only [exec] at hs
              obtain ⟨r, s1, e1, e2⟩ := M.bind_eq_ok.1 hs
              cases e2
              unfold iApply at e1
              rw [M.bind_ok (getArg_some ha), M.bind_ok (show unwrapFuel vm = .ok _ vm from rfl), M.bind_ok (unwrap_callee hcal)] at e1
              dsimp only at e1
              rw [M.bind_ok (popStack_top hst hlev.symm)] at e1
              dsimp only at e1
              obtain ⟨⟨m', p'⟩, s2, e3, e4⟩ := M.bind_eq_ok.1 e1
              obtain ⟨ys, rfl, e5⟩ := spread_inv e3
              dsimp only at e4
              rw [if_neg (by simp)] at e4
              split at e4
              · cases e4
              · rename_i hm'
                obtain ⟨vm'', g1, g2⟩ := enter_eq (vm := grown (spreadOut vm []) ys) (bc := bc) (nx := { ip with off := q })
                  (isCode_keeps hcd rfl) (isCaptures_keeps hu rfl)
                rw [grown_spreadOut] at g1 g2 e4
                rw [g1] at e4
                cases e4
                refine called g2 rfl ?_ ?_ hent
                · show (vm.stack.dropLast ++ ys).length = _
                  simp at hm' ⊢
                  omega
                · show (vm.stack.dropLast ++ ys).take _ = _
                  rw [hbelow, hst, List.dropLast_concat, List.append_assoc, ← hbl, List.take_left]
          · obtain ⟨s, g8⟩ := C39_not_a_list env bc ip { ip with off := q } vm hlev.symm a k f (below ++ args) top hst
              (fun p h => htop ⟨p, h⟩) pos _ _ arity variadic ha hcal
            rw [g8] at hs
            cases hs
        · rw [C39_only_closures env bc ip { ip with off := q } vm a k f g ha hcal
            (fun _ _ _ _ _ h => hg2 ⟨_, _, _, _, _, h⟩)] at hs
          cases hs
      · exact absurd ⟨f, ha, .inl fun g h => hcal ⟨g, h⟩⟩ hf
  all_goals exact adds (adds_plain trivial) rfl trivial (by simp)

end

section

attribute [local instance] byHeight

/-- A run that ends leaves what is below the part of the running function. -/
theorem nested_halt {env : Env} {vm0 : VM} {bottom : Nat} {bc : Ref} {vm vm' : VM} {ip : CodePtr}
    {base h : Nat} (hc : Nested vm0 bottom bc vm ip base h) (ht : AllTidy vm0) (hh : HostBehaves env bc)
    (hl : HostLeavesCode env) (hp : ¬ Pitfall vm ip) (hs : step env bc ip vm = .ok .halt vm') :
    Running bc vm' ∧ (∀ (c : Ref) (blk : CodeBlock) (n : Nat), vm'.heap[c]? = some (.bytecode (some blk) n) →
      ∃ m, vm0.heap[c]? = some (.bytecode (some blk) m)) ∧ vm'.stack.take base = vm.stack.take base := by
  obtain ⟨i, hi⟩ : ∃ i, InstructionAt vm ip i := Classical.byContradiction fun h => hp (.inl h)
  have hi' := hi
  obtain ⟨blk, n, rest, h1, h2, h3, h4, h5⟩ := hi'
  obtain ⟨m, hb⟩ := hc.code _ _ _ h1
  have hat0 : HeightAt blk.bytes ip.off h := by
    obtain ⟨blk', n', g1, g2, g3⟩ := hc.here
    rw [hb] at g1
    cases g1
    exact g3
  have hat := codeAt_of_decode h3 h4 h5
  have hse := step_at (env := env) (bc := bc) h1 h2 h3 h4 h5
  have hret : ∀ n, leavesBehind i = some n → h = n + 1 := by
    obtain ⟨i', q', g1, g2⟩ := (ht _ _ _ hb).whole _ _ hat0
    obtain ⟨rfl, -⟩ := codeAt_unique g1 hat
    exact g2.2.2
  have hen : ∀ j, InstructionAt vm ip j → StartsOk vm bc ip j := by
    intro j hj
    obtain ⟨blk', n', rest', k1, k2, k3, k4, k5⟩ := hj
    rw [h1] at k1
    cases k1
    rw [h5] at k5
    cases k5
    cases i <;> try trivial
    rename_i v b d ar vs
    intro b' k hb' he
    have hce : ip.cell = bc := by rw [he]
    rw [← hce, h1] at hb'
    cases hb'
    have := hat0.land hat (t := ip.off + b + d) rfl
    rwa [show ip.off + (b : Int) + d = d + (ip.off + b) by omega] at this
  obtain ⟨hrun, hcode⟩ := keeps_code hc.running hc.code hh hl hp hen hs
  refine ⟨hrun, hcode, ?_⟩
  rw [hse] at hs
  have hlen := hc.height
  have left : ∀ {s : VM}, leave s = .ok .halt vm' → vm'.stack = s.stack := by
    intro s h
    unfold leave at h
    obtain ⟨o, s1, e1, e2⟩ := M.bind_eq_ok.1 h
    have : s1.stack = s.stack := by
      unfold popFrame at e1
      split at e1
      · cases e1; rfl
      · dsimp only at e1
        split at e1 <;> (cases e1; rfl)
    cases o <;> cases e2
    exact this
  by_cases hpl : IsPlain i
  · rw [exec_plain hpl, M.bind_run] at hs
    cases ho : plain env bc ip i vm with
    | ok a s1 => rw [ho] at hs; cases hs
    | err e s1 => rw [ho] at hs; cases hs
    | ub => rw [ho] at hs; cases hs
    | diverge => rw [ho] at hs; cases hs
  cases i <;> try exact absurd trivial hpl
  case jump d => cases hs
  case brnz d k =>
    simp only [exec] at hs
    obtain ⟨o, s1, e1, e2⟩ := M.bind_eq_ok.1 hs
    obtain ⟨_, s2, e3, e4⟩ := M.bind_eq_ok.1 e2
    obtain ⟨t, s3, e5, e6⟩ := M.bind_eq_ok.1 e4
    cases t <;> cases e6
  case funcall a k =>
    simp only [exec] at hs
    obtain ⟨o, s1, e1, e2⟩ := M.bind_eq_ok.1 hs
    cases e2
  case apply a k =>
    simp only [exec] at hs
    obtain ⟨o, s1, e1, e2⟩ := M.bind_eq_ok.1 hs
    cases e2
  case call d =>
    simp only [exec] at hs
    obtain ⟨o, s1, e1, e2⟩ := M.bind_eq_ok.1 hs
    cases e2
  case halt => cases hs; rfl
  case return0 => rw [left hs]
  case return_ k =>
    have := hret k rfl
    simp only [exec] at hs
    obtain ⟨s0, s1, e1, e2⟩ := M.bind_eq_ok.1 hs
    cases e1
    obtain ⟨_, s2, e3, e4⟩ := M.bind_eq_ok.1 e2
    obtain ⟨s2', s2'', e5, e6⟩ := M.bind_eq_ok.1 e4
    cases e5
    obtain ⟨p1, p2⟩ := popMany_stack e3
    have hne : s2.stack ≠ [] := by
      intro h0
      have := congrArg List.length h0
      rw [p2] at this
      simp at this
      omega
    rw [if_pos hne] at e6
    obtain ⟨_, s4, e9, e10⟩ := M.bind_eq_ok.1 e6
    obtain ⟨_, s3, e7, e8⟩ := M.bind_eq_ok.1 e10
    cases e7
    obtain ⟨p3, p4⟩ := popMany_stack e9
    rw [left e8]
    show (s4.stack ++ [_]).take base = _
    have hl2 : s2.stack.length = base + 1 := by
      rw [p2, List.length_take]; omega
    rw [p4, List.take_append_of_le_length (by simp; omega), List.take_take, p2, List.take_take]
    congr 1
    simp
    omega

end

theorem stands_unique {vm0 : VM} (ht : AllTidy vm0) {ip : CodePtr} {h h' : Nat} (h1 : Stands vm0 ip h)
    (h2 : Stands vm0 ip h') : h = h' := by
  obtain ⟨blk, n, g1, -, g3⟩ := h1
  obtain ⟨blk', n', k1, -, k3⟩ := h2
  rw [g1] at k1
  cases k1
  exact (ht _ _ _ g1).unique _ _ _ g3 k3

theorem pending_unique {vm0 : VM} (ht : AllTidy vm0) {bottom : Nat} {frames : List Frame} {b b' : Nat}
    (h : Pending vm0 bottom frames b) (h' : Pending vm0 bottom frames b') : b = b' := by
  induction h generalizing b' with
  | none =>
    generalize hg : ([] : List Frame) = g at h'
    cases h' with
    | none => rfl
    | call => simp at hg
  | call h1 h2 h3 h4 ih =>
    obtain ⟨c, k, g1, g2, g3, g4⟩ := Pending.pop h'
    have := ih g1
    have := stands_unique ht h2 g2
    omega

theorem pending_split {vm0 : VM} {bottom : Nat} {pre : List Frame} : ∀ {more : List Frame} {base : Nat},
    Pending vm0 bottom (pre ++ more) base → ∃ b, Pending vm0 bottom pre b ∧ Pending vm0 b more base := by
  intro more
  induction more using List.reverseRecOn with
  | nil => exact fun {base} h => ⟨base, by simpa using h, .none⟩
  | append_singleton more f ih =>
    intro base h
    rw [← List.append_assoc] at h
    obtain ⟨b, k, h1, h2, h3, h4⟩ := Pending.pop h
    obtain ⟨c, h5, h6⟩ := ih h1
    exact ⟨c, h5, .call h6 h2 h3 h4⟩

theorem take_eq_of_le {α : Type} {xs ys : List α} {b c : Nat} (h : xs.take c = ys.take c) (hb : b ≤ c) :
    xs.take b = ys.take b := by
  have := congrArg (List.take b) h
  rwa [List.take_take, List.take_take, Nat.min_eq_left hb] at this

section

attribute [local instance] byHeight

theorem tidy_of {code : Bytes} (H : Int → Option Nat) (h0 : H 0 = some 0)
    (h : ∀ p h, H p = some h → ∃ i q, CodeAt code p i q ∧ Countable i ∧ atLeast i ≤ h ∧
      (∀ n, leavesBehind i = some n → h = n + 1) ∧ (GoesOn i → H q = some (heightAfter h i)) ∧
      ∀ t, landing p q i = some t → H t = some (heightAtLanding h i)) : Tidy code := by
  have key : ∀ p k, HeightAt code p k → H p = some k := by
    intro p k hk
    induction hk with
    | start => exact h0
    | @next p k i q hp hi hg ih =>
      obtain ⟨i', q', g1, -, -, -, g5, -⟩ := h _ _ ih
      obtain ⟨rfl, rfl⟩ := codeAt_unique g1 hi
      exact g5 hg
    | @land p k i q t hp hi ht ih =>
      obtain ⟨i', q', g1, -, -, -, -, g6⟩ := h _ _ ih
      obtain ⟨rfl, rfl⟩ := codeAt_unique g1 hi
      exact g6 _ ht
  refine ⟨fun p k hk => ?_, fun p k k' hk hk' => ?_⟩
  · obtain ⟨i, q, g1, g2, g3, g4, -⟩ := h _ _ (key _ _ hk)
    exact ⟨i, q, g1, g2, g3, g4⟩
  · have := (key _ _ hk).symm.trans (key _ _ hk')
    cases this
    rfl

theorem Within.arrives {env : Env} {bc : Ref} {k : Nat} {ip ip' : CodePtr} {vm vm' : VM}
    (h : Within env bc k ip vm ip' vm') : Arrives env bc ip vm ip' vm' := by
  induction h with
  | here => exact .here
  | step _ hs _ ih => exact .step hs ih

/-- One step more. -/
theorem below_step {env : Env} {bc : Ref} {vm0 : VM} {bottom base h k : Nat} {ip ip1 ip' : CodePtr} {vm vm1 vm' : VM}
    (hn : Nested vm0 bottom bc vm ip base h) (hs : step env bc ip vm = .ok (.goto ip1) vm1) (ha : Arrives env bc ip1 vm1 ip' vm')
    (h1 : vm1.stack[k]? = vm.stack[k]? ∨ AssignsCaptured vm ip k)
    (h2 : vm'.stack[k]? = vm1.stack[k]? ∨ AssignedOnTheWay env bc vm0 bottom ip1 vm1 ip' vm' k) :
    vm'.stack[k]? = vm.stack[k]? ∨ AssignedOnTheWay env bc vm0 bottom ip vm ip' vm' k := by
  rcases h2 with h2 | ⟨ip3, vm3, b3, k3, ip4, vm4, g1, g2, g3, g4, g5⟩
  · rcases h1 with h1 | h1
    · exact .inl (h2.trans h1)
    · exact .inr ⟨ip, vm, base, h, ip1, vm1, .here, hn, h1, hs, ha⟩
  · exact .inr ⟨ip3, vm3, b3, k3, ip4, vm4, .step hs g1, g2, g3, g4, g5⟩

/-- What an instruction does to the values below the part of the running function. -/
theorem Moves.below {bc : Ref} {vm vm' : VM} {ip ip' : CodePtr} {base base' : Nat} (h : Moves bc vm ip base vm' ip' base')
    (hb : base ≤ vm.stack.length) {k : Nat} (hk : k < base) : vm'.stack[k]? = vm.stack[k]? ∨ AssignsCaptured vm ip k := by
  cases h with
  | stays _ g => exact g k hk
  | calls _ _ _ g3 _ g5 => exact .inl (getElem?_of_take g5 (by omega))
  | returns _ g2 _ _ =>
    left
    rw [g2, List.getElem?_append_left (by simp; omega), List.getElem?_take_of_lt hk]

/-- The invariant behind `C51_call`. -/
theorem nested_within {env : Env} {count : Nat → Nat} {vm0 : VM} {bottom : Nat} {bc : Ref} (ht : AllTidy vm0)
    (hh : HostBehaves env bc) (hl : HostLeavesCode env) (hk : HostTakes env count) {before : List Frame} {fr : Frame}
    {B : Nat} (hpre : Pending vm0 bottom (before ++ [fr]) B)
    {ip ip' : CodePtr} {vm vm' : VM}
    (hw : Within env bc before.length ip vm ip' vm') : ∀ {base h : Nat} {more : List Frame},
      Nested vm0 bottom bc vm ip base h → vm.callStack = (before ++ [fr]) ++ more →
      (((∃ more', vm'.callStack = (before ++ [fr]) ++ more') ∨
        (ip' = fr.ip ∧ vm'.callStack = before ∧ vm'.stack.length = B + 1)) ∧
        ∀ k, k < B → vm'.stack[k]? = vm.stack[k]? ∨ AssignedOnTheWay env bc vm0 bottom ip vm ip' vm' k) ∨
        ∃ ip1 vm1, Arrives env bc ip vm ip1 vm1 ∧ (Pitfall vm1 ip1 ∨ Miscounts count vm1 ip1) := by
  induction hw with
  | here => exact fun _ h1 => .inl ⟨.inl ⟨_, h1⟩, fun _ _ => .inl rfl⟩
  | @step ip vm ip1 vm1 ip2 vm2 hlt hs hw ih =>
    intro base h more hn hcs
    by_cases hp : Pitfall vm ip
    · exact .inr ⟨_, _, .here, .inl hp⟩
    by_cases hm : Miscounts count vm ip
    · exact .inr ⟨_, _, .here, .inr hm⟩
    obtain ⟨base', h', hn', hmv⟩ := nested_step hn ht hh hl hk hp hm hs
    have hcalls := hn.calls
    rw [hcs] at hcalls
    obtain ⟨b, h1, h2⟩ := pending_split hcalls
    obtain rfl := pending_unique ht h1 hpre
    have hble := Pending.bottom_le h2
    have hbelow : ∀ k, k < b → vm1.stack[k]? = vm.stack[k]? ∨ AssignsCaptured vm ip k := fun k hk =>
      hmv.below (by rw [hn.height]; omega) (by omega)
    have later : ∀ {m}, vm1.callStack = (before ++ [fr]) ++ m → _ := fun h1 =>
      (ih hn' h1).imp
        (fun ⟨g1, g2⟩ => (⟨g1, fun k hk => below_step hn hs (Within.arrives hw) (hbelow k hk) (g2 k hk)⟩ : _ ∧
          ∀ k, k < b → vm2.stack[k]? = vm.stack[k]? ∨ AssignedOnTheWay env bc vm0 bottom ip vm ip2 vm2 k))
        fun ⟨ip3, vm3, h3, h4⟩ =>
        (⟨ip3, vm3, Arrives.step hs h3, h4⟩ : ∃ ip1 vm1, Arrives env bc ip vm ip1 vm1 ∧ (Pitfall vm1 ip1 ∨ Miscounts count vm1 ip1))
    cases hmv with
    | stays g1 g2 => exact later (g1.trans hcs)
    | @calls _ _ _ nx g1 g1' g2 g3 g4 g5 =>
      refine later (m := more ++ [⟨nx, some bc⟩]) ?_
      rw [g2, hcs, List.append_assoc]
    | @returns _ f r g1 g2 g3 g4 =>
      rw [hcs] at g1
      rcases List.eq_nil_or_concat more with rfl | ⟨more', f', rfl⟩
      · have hb : b = base := by
          generalize hg : ([] : List Frame) = g at h2
          cases h2 with
          | none => rfl
          | call => simp at hg
        rw [List.append_nil] at g1
        obtain ⟨g5, g6⟩ := List.append_inj' g1 rfl
        cases g6
        cases hw with
        | here =>
          refine .inl ⟨.inr ⟨g3, g5.symm, ?_⟩, fun k hk => below_step hn hs .here (hbelow k hk) (.inl rfl)⟩
          rw [g2, hb]
          simp
          rw [hn.height]
          omega
        | step hlt' _ _ =>
          rw [← g5] at hlt'
          exact absurd hlt' (Nat.lt_irrefl _)
      · rw [List.concat_eq_append, ← List.append_assoc] at g1
        obtain ⟨g5, g6⟩ := List.append_inj' g1 rfl
        exact later g5.symm

end

end DuckLisp.VM
