import Verif.Proof.VM.Variables

/-!
# The listed faults are real
-/

namespace DuckLisp.VM

open DuckLisp DuckLisp.Spec

set_option linter.unusedSectionVars false

variable [Entries]

variable {s s' : VM}

theorem need_ok {α : Type} {o : Option α} {a : α} (h : M.need o s = .ok a s') : o = some a ∧ s' = s := by
  cases o with
  | none => cases h
  | some b => cases h; exact ⟨rfl, rfl⟩

theorem readCell_ok {r : Nat} {o : Obj} (h : readCell r s = .ok o s') : s.heap[r]? = some o ∧ s' = s := need_ok h

theorem deref_ok {p : Option Nat} {o : Obj} (h : deref p s = .ok o s') :
    ∃ r, p = some r ∧ s.heap[r]? = some o ∧ s' = s := by
  unfold deref at h
  rw [M.bind_eq_ok] at h
  obtain ⟨r, s1, h1, h2⟩ := h
  obtain ⟨rfl, rfl⟩ := need_ok h1
  obtain ⟨h3, rfl⟩ := readCell_ok h2
  exact ⟨r, rfl, h3, rfl⟩

theorem ckInt_inv {i j : Int} (h : ckInt i s = .ok j s') : j = i ∧ s' = s ∧ InRange i := by
  unfold ckInt at h
  split at h
  · cases h; exact ⟨rfl, rfl, by assumption⟩
  · cases h

theorem intArith_ok {op : Arith} {x y i : Int} (h : intArith op x y s = .ok i s') :
    ∃ r, Exact op x y r ∧ InRange r := by
  cases op with
  | add => obtain ⟨_, _, h⟩ := ckInt_inv h; exact ⟨_, rfl, h⟩
  | sub => obtain ⟨_, _, h⟩ := ckInt_inv h; exact ⟨_, rfl, h⟩
  | mul => obtain ⟨_, _, h⟩ := ckInt_inv h; exact ⟨_, rfl, h⟩
  | div =>
    simp only [intArith] at h
    by_cases hy : y = 0
    · rw [if_pos hy] at h; cases h
    · rw [if_neg hy] at h
      obtain ⟨_, _, h⟩ := ckInt_inv h
      exact ⟨_, exact_div.mpr ⟨hy, rfl⟩, h⟩

theorem arithValue_ok {fl : FloatOps} {op : Arith} {x y o : Obj} (h : arithValue fl op x y s = .ok o s') :
    ¬ ArithFault op x y := by
  have key : ∀ i j, (do return .integer (← intArith op i j) : M Obj) s = .ok o s' → ∃ r, Exact op i j r ∧ InRange r := by
    intro i j h
    rw [M.bind_eq_ok] at h
    obtain ⟨_, _, h, _⟩ := h
    exact intArith_ok h
  cases x <;> cases y <;> simp only [ArithFault, asInteger] <;> simp only [arithValue] at h <;>
    first
      | (rintro ⟨i, j, hi, hj, hn⟩; cases hi; cases hj; exact hn (key _ _ h))
      | (rintro ⟨i, j, hi, hj, hn⟩; cases hi; done)
      | (rintro ⟨i, j, hi, hj, hn⟩; cases hj; done)
      | skip
  rintro ⟨rfl, rfl⟩
  cases h

theorem stringBytes_ok {p : Option Nat} {off : Int} {n : Nat} {b : Bytes} (h : stringBytes p off n s = .ok b s') :
    ∃ r, p = some r ∧ s' = s ∧ (n ≠ 0 → off + n ≤ textLength s r) := by
  unfold stringBytes at h
  rw [M.bind_eq_ok] at h
  obtain ⟨o, s1, h1, h⟩ := h
  obtain ⟨r, rfl, h2, rfl⟩ := deref_ok h1
  refine ⟨r, rfl, ?_⟩
  cases o <;> try cases h
  rename_i v k
  dsimp only at h
  split at h
  · cases h; exact ⟨rfl, fun h => absurd (by assumption) h⟩
  · rw [M.bind_eq_ok] at h
    obtain ⟨bytes, s2, h3, h⟩ := h
    obtain ⟨rfl, rfl⟩ := need_ok h3
    split at h
    · cases h
      refine ⟨rfl, fun _ => ?_⟩
      simp only [textLength, h2, Option.getD_some]
      omega
    · cases h

theorem concatBytes_ok {x : Obj} {b : Bytes} (h : concatBytes x s = .ok b s') : s' = s ∧ ¬ ConcatFault s x := by
  cases x <;> simp only [concatBytes] at h <;> try (cases h; done)
  case string p off len =>
    rw [M.bind_eq_ok] at h
    obtain ⟨_, s1, h1, h⟩ := h
    obtain ⟨r, rfl, -, rfl⟩ := deref_ok h1
    obtain ⟨r', h2, h3, h4⟩ := stringBytes_ok h
    cases h2
    refine ⟨h3, fun ⟨h5, h6⟩ => ?_⟩
    have := h4 h5
    omega
  case symbol id p =>
    rw [M.bind_eq_ok] at h
    obtain ⟨o, s1, h1, h⟩ := h
    obtain ⟨r, rfl, -, rfl⟩ := deref_ok h1
    cases o <;> try cases h
    obtain ⟨_, _, h3, _⟩ := stringBytes_ok h
    exact ⟨h3, fun h => h⟩

theorem listBytes_ok : ∀ {fuel : Nat} {p : Option Nat} {b : Option Bytes} {s s' : VM}, listBytes fuel p s = .ok b s' →
    Readable s.heap p ∧ s' = s
  | 0, _, _, _, _, h => by cases h
  | _ + 1, none, _, _, _, h => by cases h; exact ⟨.nil, rfl⟩
  | fuel + 1, some r, b, s, s', h => by
    unfold listBytes at h
    rw [M.bind_eq_ok] at h
    obtain ⟨o, s1, h1, h⟩ := h
    obtain ⟨h2, rfl⟩ := readCell_ok h1
    cases o
    case list p =>
      obtain ⟨h3, h4⟩ := listBytes_ok h
      exact ⟨.list h2 h3, h4⟩
    case cons a d =>
      dsimp only at h
      rw [M.bind_eq_ok] at h
      obtain ⟨x, s2, h3, h⟩ := h
      obtain ⟨c, rfl, h4, rfl⟩ := deref_ok h3
      cases x
      case integer i =>
        dsimp only at h
        rw [M.bind_eq_ok] at h
        obtain ⟨y, s3, h5, h⟩ := h
        obtain ⟨h6, rfl⟩ := listBytes_ok h5
        refine ⟨.cons h2 h4 h6, ?_⟩
        cases y <;> cases h <;> rfl
      all_goals
        cases h
        exact ⟨.stop h2 h4 (by simp), rfl⟩
    all_goals
      cases h
      exact ⟨.other h2 (by simp) (by simp), rfl⟩

theorem slotValue_ok {vs : Option (List Slot)} {i : Nat} {o : Obj} (h : slotValue vs i s = .ok o s') :
    s' = s ∧ ∃ c, (vs.getD [])[i]? = some (.ptr (some c)) ∧ s.heap[c]? = some o := by
  unfold slotValue at h
  rw [M.bind_eq_ok] at h
  obtain ⟨slots, s1, h1, h⟩ := h
  obtain ⟨rfl, rfl⟩ := need_ok h1
  rw [if_pos (by omega), M.bind_eq_ok] at h
  obtain ⟨x, s2, h2, h⟩ := h
  obtain ⟨h3, rfl⟩ := need_ok h2
  cases x with
  | uninit => cases h
  | ptr p =>
    obtain ⟨c, rfl, h4, rfl⟩ := deref_ok h
    exact ⟨rfl, c, by simpa using h3, h4⟩

theorem vectorBytes_ok {vs : Option (List Slot)} : ∀ {n i : Nat} {bs : Bytes} {s s' : VM},
    vectorBytes vs n i s = .ok (some bs) s' →
    s' = s ∧ ∀ k, i ≤ k → k < i + n → ∃ c x, (vs.getD [])[k]? = some (.ptr (some c)) ∧ s.heap[c]? = some (.integer x)
  | 0, i, bs, _, _, h => by cases h; exact ⟨rfl, fun k h1 h2 => by omega⟩
  | n + 1, i, bs, s, s', h => by
    unfold vectorBytes at h
    rw [M.bind_eq_ok] at h
    obtain ⟨o, s1, h1, h⟩ := h
    obtain ⟨rfl, c, h2, h3⟩ := slotValue_ok h1
    cases o <;> try (cases h; done)
    dsimp only at h
    rw [M.bind_eq_ok] at h
    obtain ⟨y, s3, h5, h⟩ := h
    cases y with
    | none => cases h
    | some bs' =>
      obtain ⟨rfl, h6⟩ := vectorBytes_ok h5
      cases h
      refine ⟨rfl, fun k hk1 hk2 => ?_⟩
      by_cases hk : k = i
      · subst hk; exact ⟨c, _, h2, h3⟩
      · exact h6 k (by omega) (by omega)

theorem vectorStorage_ok {p : Option Nat} {x : Option (List Slot) × Nat} (h : vectorStorage p s = .ok x s') :
    ∃ r b, p = some r ∧ s.heap[r]? = some (.internalVector x.1 x.2 b) ∧ s' = s := by
  unfold vectorStorage at h
  rw [M.bind_eq_ok] at h
  obtain ⟨o, s1, h1, h⟩ := h
  obtain ⟨r, rfl, h2, rfl⟩ := deref_ok h1
  cases o <;> cases h
  exact ⟨r, _, rfl, h2, rfl⟩

/-- The instructions for which the list says exactly when they go wrong. -/
def ExactlyListed : Instr → Prop
  | .vector _ | .setCdr .. | .symbolId _ | .funcall .. | .apply .. | .pushClosure .. | .releaseUpvalues _ => False
  | _ => True

theorem chase_ok {n o : M Upvalue} (hn : ∀ s s' u, n s ≠ .ok u s') (ho : ∀ s s' u, o s ≠ .ok u s') {u : Upvalue} :
    ∀ (k : Nat) (p : Option Nat) (s s' : VM), chase n o k p s = .ok u s' → s' = s ∧ LeadsTo s p (some u)
  | 0, _, _, _, h => by cases h
  | k + 1, none, s, s', h => absurd h (hn _ _ _)
  | k + 1, some r, s, s', h => by
    rw [chase, M.bind_eq_ok] at h
    obtain ⟨x, s1, h1, h⟩ := h
    obtain ⟨h2, rfl⟩ := readCell_ok h1
    cases x
    case upvalue v =>
      cases v with
      | heapUpvalue l =>
        obtain ⟨h3, h4⟩ := chase_ok hn ho k l _ _ h
        exact ⟨h3, .link h2 h4⟩
      | stackIndex i => cases h; exact ⟨rfl, .here h2 (by simp)⟩
      | heapObject i => cases h; exact ⟨rfl, .here h2 (by simp)⟩
    all_goals exact absurd h (ho _ _ _)

theorem upvalueAt_ok {e : M UpArray} {u : UpArray} {j : Nat} {p : Option Nat} {s1 : VM} (h0 : ∀ s s' u, e s ≠ .ok u s')
    (h : topUpArray e s = .ok u s1) (h' : upvalueAt u j s1 = .ok p s') : s1 = s ∧ s' = s ∧ RunningElement s j p := by
  unfold topUpArray at h
  split at h
  · rename_i w hw
    cases h
    unfold upvalueAt at h'
    split at h'
    · cases h'
    · rename_i r serial hb
      split at h'
      · rename_i blk m hm
        split at h'
        · rename_i hse
          obtain ⟨h1, rfl⟩ := need_ok h'
          rcases u with ⟨b, n⟩
          cases hb
          subst hse
          exact ⟨rfl, rfl, r, _, n, _, m, hw, hm, h1⟩
        · cases h'
      · cases h'
  · exact absurd h (h0 _ _ _)

theorem fault_not_ok {env : Env} {bc : Nat} {st : CodePtr} {i : Instr} (hg : Good s) (hx : ExactlyListed i)
    (hf : Faulty s i) : plain env bc st i s ≠ .ok () s' := by
  intro h
  cases i <;> simp only [Faulty] at hf <;> simp only [ExactlyListed] at hx <;> simp only [plain] at h
  case setGlobal a k =>
    rw [M.bind_ok (show height s = .ok s.stack.length s from rfl), M.bind_eq_ok] at h
    obtain ⟨o, s1, h1, -⟩ := h
    unfold stackAt at h1
    unfold operand at hf
    split at h1
    · obtain ⟨h2, -⟩ := need_ok h1
      by_cases ha : a = 0
      · subst ha
        have := List.getElem?_eq_some_iff.1 h2
        obtain ⟨h3, -⟩ := this
        omega
      · rw [if_neg ha, List.getElem?_eq_none_iff, List.length_reverse] at hf
        omega
    · cases h1
  case arith op a b =>
    obtain ⟨x, y, hxa, hyb, hf⟩ := hf
    unfold binary at h
    rw [M.bind_ok (getArg_some hxa), M.bind_ok (getArg_some hyb), M.bind_eq_ok] at h
    obtain ⟨o, s1, h1, -⟩ := h
    exact arithValue_ok h1 hf
  case makeVector a b =>
    obtain ⟨n, ha, hn⟩ := hf
    unfold iMakeVector at h
    rw [M.bind_ok (getArg_some ha)] at h
    dsimp only at h
    rw [if_neg (by omega), if_pos hn] at h
    cases h
  case getVecElt a b =>
    obtain ⟨p, off, i, ha, hb, hi, hf⟩ := hf
    unfold iGetVecElt at h
    rw [M.bind_ok (getArg_some ha)] at h
    dsimp only at h
    rw [M.bind_ok (getArg_some hb)] at h
    dsimp only at h
    rw [if_neg (by omega), M.bind_eq_ok] at h
    obtain ⟨x, s1, h1, h⟩ := h
    obtain ⟨r, _, rfl, -, rfl⟩ := vectorStorage_ok h1
    rcases hf with hf | hf
    · cases hf
    · rw [M.bind_eq_ok] at h
      obtain ⟨j, s2, h2, h⟩ := h
      obtain ⟨-, -, -, h3⟩ := ckInt_inv h2
      omega
  case setVecElt a b c =>
    obtain ⟨p, off, i, ha, hb, hc, hf⟩ := hf
    unfold iSetVecElt at h
    rw [M.bind_ok (getArg_some ha)] at h
    dsimp only at h
    rw [M.bind_ok (getArg_some hb)] at h
    dsimp only at h
    rw [M.bind_eq_ok] at h
    obtain ⟨o, s0, h0, h⟩ := h
    obtain ⟨rfl, -⟩ := getArg_ok h0
    rw [M.bind_eq_ok] at h
    obtain ⟨x, s1, h1, h⟩ := h
    obtain ⟨r, _, rfl, -, rfl⟩ := vectorStorage_ok h1
    rcases hf with hf | hf
    · cases hf
    · rw [M.bind_eq_ok] at h
      obtain ⟨j, s2, h2, h⟩ := h
      obtain ⟨-, -, -, h3⟩ := ckInt_inv h2
      omega
  case setCar a b =>
    obtain ⟨r, off, ha, hb, hroom⟩ := hf
    cases ha' : operand s a with
    | none => exact ha ha'
    | some x =>
      unfold iSetCar at h
      rw [M.bind_ok (getArg_some ha'), M.bind_ok (getArg_some hb)] at h
      dsimp only at h
      have hv := hg.sound.stack _ (operand_mem hb)
      obtain ⟨vs, n, hc, hl, h2, h3, h0, h1, -, -⟩ := live_of_vector hg hv
      rw [M.bind_eq_ok] at h
      obtain ⟨p, s1, h5, h⟩ := h
      have hp := post_copy (U := False) (E := fun _ _ => True) hg (operand_mem ha') (fun _ _ _ => trivial)
      rw [h5] at hp
      obtain ⟨hg1, al, hlp, -⟩ := hp
      have hl1 := al.carried.live (pinned_stack hg.sound (operand_mem hb) r .vector) hl
      obtain ⟨vs1, n1, hc1, -, h6⟩ := live_elements hg1 hl1
      rw [if_pos h0, M.bind_eq_ok] at h
      obtain ⟨_, s2, h7, -⟩ := h
      unfold setSlot at h7
      rw [M.bind_ok (readCell_some hc1)] at h7
      have hr : (vectorRoom s r : Int) = (vs.getD []).length := by simp [vectorRoom, hc]
      cases vs1 with
      | none => cases h7
      | some vs1 =>
        dsimp only at h7
        simp only [Option.getD_some] at h6
        rw [if_neg (by omega)] at h7
        cases h7
  case symbolString a =>
    obtain ⟨id, ha⟩ := hf
    unfold unary at h
    rw [M.bind_ok (getArg_some ha), M.bind_eq_ok] at h
    obtain ⟨o, s1, h1, -⟩ := h
    simp only [symbolStringValue] at h1
    rw [M.bind_eq_ok] at h1
    obtain ⟨o, s1, h1, -⟩ := h1
    obtain ⟨r, hr, -⟩ := deref_ok h1
    cases hr
  case makeString a =>
    unfold iMakeString at h
    rcases hf with ⟨off, ha⟩ | ⟨r, off, ha, hf⟩ | ⟨p, ha, hf⟩
    · rw [M.bind_ok (getArg_some ha)] at h
      dsimp only at h
      rw [M.bind_eq_ok] at h
      obtain ⟨x, s1, h1, -⟩ := h
      obtain ⟨r, _, hr, -⟩ := vectorStorage_ok h1
      cases hr
    · rw [M.bind_ok (getArg_some ha)] at h
      dsimp only at h
      rw [M.bind_eq_ok] at h
      obtain ⟨⟨vs, n⟩, s1, h1, h⟩ := h
      obtain ⟨r', b, hr, hc, rfl⟩ := vectorStorage_ok h1
      cases hr
      dsimp only at h hc
      split at h
      · rename_i h0
        rcases hf with hf | ⟨xs, k, x, hv, hk, hxk, hno⟩
        · simp only [vectorLength, hc] at hf
          omega
        · rw [M.bind_eq_ok] at h
          obtain ⟨y, s2, h2, h⟩ := h
          cases y with
          | none => cases h
          | some bytes =>
            obtain ⟨-, h3⟩ := vectorBytes_ok h2
            obtain ⟨slots, n', hc', hn', hall⟩ := hv
            rw [hc] at hc'
            cases hc'
            have hk2 : k < xs.length := (List.getElem?_eq_some_iff.1 hxk).1
            obtain ⟨c, y, h4, h5⟩ := h3 k (by omega) (by omega)
            obtain ⟨c', h6, h7⟩ := hall k (by omega)
            rw [h4] at h6
            cases h6
            rw [h5, hxk] at h7
            cases h7
            exact hno _ rfl
      · cases h
    · rw [M.bind_ok (getArg_some ha)] at h
      dsimp only at h
      rw [M.bind_ok (show M.get s = .ok s s from rfl), M.bind_eq_ok] at h
      obtain ⟨y, s1, h1, -⟩ := h
      exact hf (listBytes_ok h1).1
  case concatenate a b =>
    obtain ⟨x, y, hxa, hyb, hx, hy, hf⟩ := hf
    unfold iConcatenate at h
    rw [M.bind_ok (getArg_some hxa)] at h
    have key : ∃ b1 s1 b2 s2, concatBytes x s = .ok b1 s1 ∧ concatBytes y s1 = .ok b2 s2 := by
      cases x <;> simp only [IsText] at hx <;> cases y <;> simp only [IsText] at hy <;>
      · rw [if_neg (by simp), M.bind_ok (getArg_some hyb), if_neg (by simp), M.bind_eq_ok] at h
        obtain ⟨b1, s1, h1, h⟩ := h
        rw [M.bind_eq_ok] at h
        obtain ⟨b2, s2, h2, h⟩ := h
        exact ⟨_, _, _, _, h1, h2⟩
    obtain ⟨b1, s1, b2, s2, h1, h2⟩ := key
    obtain ⟨rfl, h3⟩ := concatBytes_ok h1
    obtain ⟨rfl, h4⟩ := concatBytes_ok h2
    exact hf.elim h3 h4
  case pushUpvalue j =>
    unfold iPushUpvalue at h
    rw [M.bind_eq_ok] at h
    obtain ⟨u, s1, h1, h⟩ := h
    rw [M.bind_eq_ok] at h
    obtain ⟨p, s2, h2, h⟩ := h
    obtain ⟨rfl, rfl, h3⟩ := upvalueAt_ok (fun _ _ _ h => by cases h) h1 h2
    rw [M.bind_ok (show chaseFuel _ = .ok _ _ from rfl), M.bind_eq_ok] at h
    obtain ⟨v, s3, h4, -⟩ := h
    exact hf.2 ⟨p, _, h3, (chase_ok (fun _ _ _ h => by cases h) (fun _ _ _ h => by cases h) _ _ _ _ h4).2⟩
  case setUpvalue j a =>
    unfold iSetUpvalue at h
    rw [M.bind_eq_ok] at h
    obtain ⟨o, s0, h0, h⟩ := h
    rw [getArg_operand] at h0
    have hs0 : s0 = s := by
      split at h0 <;> cases h0
      rfl
    subst hs0
    rw [M.bind_eq_ok] at h
    obtain ⟨u, s1, h1, h⟩ := h
    rw [M.bind_eq_ok] at h
    obtain ⟨p, s2, h2, h⟩ := h
    obtain ⟨rfl, rfl, h3⟩ := upvalueAt_ok (fun _ _ _ h => by cases h) h1 h2
    rw [M.bind_ok (show chaseFuel _ = .ok _ _ from rfl), M.bind_eq_ok] at h
    obtain ⟨v, s3, h4, -⟩ := h
    exact hf.2 ⟨p, _, h3, (chase_ok (fun _ _ _ h => by cases h) (fun _ _ _ h => by cases h) _ _ _ _ h4).2⟩
  case ccall k =>
    obtain ⟨p, hl, hf⟩ := hf
    unfold iCcall at h
    have h1 : globalGet (k : Int) s = .ok p s := by
      unfold globalGet
      obtain ⟨kv, h1, rfl⟩ := find_lookup _ _ _ hl
      rw [h1]
    rw [M.bind_ok h1, M.bind_eq_ok] at h
    obtain ⟨o, s1, h2, h⟩ := h
    obtain ⟨r, rfl, h3, rfl⟩ := deref_ok h2
    cases o <;> try cases h
    exact hf r _ rfl h3

end DuckLisp.VM
