import Verif.Spec.Safety
import Verif.Proof.VM.Vectors
import Verif.Proof.VM.Strings
import Verif.Proof.VM.Globals
import Verif.Proof.VM.Composites
import Verif.Proof.VM.Lists

/-!
# Every data instruction keeps the machine in order
-/

namespace DuckLisp.VM

open DuckLisp DuckLisp.Spec

set_option linter.unusedSectionVars false

variable [Entries]

/-- After an error. -/
abbrev InOrder : DlError → VM → Prop := fun _ s => Good s

variable {U : Prop} {s : VM}

/-- A value in order, in the same state. -/
abbrev Yields (s : VM) : Obj → VM → Prop := fun v s' => s' = s ∧ ValueOk s v

theorem post_unary (hg : Good s) {a : Nat} {f : Obj → M Obj}
    (h : ∀ o, operand s a = some o → ValueOk s o → Post U InOrder (Yields s) (f o s)) :
    Post U InOrder (fun _ s' => Good s') (unary a f s) := by
  unfold unary
  refine Post.bind (post_getArg hg a) ?_
  rintro o _ ⟨rfl, ho⟩
  refine Post.bind (h o ho (hg.sound.stack _ (operand_mem ho))) ?_
  rintro v _ ⟨rfl, hv⟩
  exact post_push (hg.pushed hv)

theorem post_binary (hg : Good s) {a b : Nat} {f : Obj → Obj → M Obj}
    (h : ∀ x y, operand s a = some x → operand s b = some y → ValueOk s x → ValueOk s y →
      Post U InOrder (Yields s) (f x y s)) :
    Post U InOrder (fun _ s' => Good s') (binary a b f s) := by
  unfold binary
  refine Post.bind (post_getArg hg a) ?_
  rintro x _ ⟨rfl, hx⟩
  refine Post.bind (post_getArg hg b) ?_
  rintro y _ ⟨rfl, hy⟩
  refine Post.bind (h x y hx hy (hg.sound.stack _ (operand_mem hx)) (hg.sound.stack _ (operand_mem hy))) ?_
  rintro v _ ⟨rfl, hv⟩
  exact post_push (hg.pushed hv)

theorem post_boolValue {m : M Bool} (h : Post U InOrder (fun _ s' => s' = s) (m s)) :
    Post U InOrder (Yields s) (boolValue m s) := by
  unfold boolValue
  refine Post.bind h ?_
  rintro b _ rfl
  exact ⟨rfl, trivial⟩

theorem post_notValue (hg : Good s) (o : Obj) : Post U InOrder (Yields s) (notValue o s) := by
  cases o <;> first | exact hg | exact ⟨rfl, trivial⟩ | skip
  refine ⟨rfl, ?_⟩
  split <;> constructor <;> omega

theorem post_intArith {op : Arith} {x y : Int} (hU : (¬ ∃ r, Exact op x y r ∧ InRange r) → U) :
    Post U InOrder (fun i s' => s' = s ∧ InRange i) (intArith op x y s) := by
  by_cases h : ∃ r, Exact op x y r ∧ InRange r
  · obtain ⟨r, h1, h2⟩ := h
    rw [intArith_exact h1 h2]
    exact ⟨rfl, h2⟩
  · cases op with
    | add =>
        exact post_ckInt (fun _ => hU h) (fun h' => absurd ⟨_, rfl, h'⟩ h)
    | sub =>
        exact post_ckInt (fun _ => hU h) (fun h' => absurd ⟨_, rfl, h'⟩ h)
    | mul =>
        exact post_ckInt (fun _ => hU h) (fun h' => absurd ⟨_, rfl, h'⟩ h)
    | div =>
        simp only [intArith]
        by_cases hy : y = 0
        · rw [if_pos hy]; exact hU h
        · rw [if_neg hy]
          exact post_ckInt (fun _ => hU h) (fun h' => absurd ⟨_, exact_div.mpr ⟨hy, rfl⟩, h'⟩ h)

theorem post_arithValue (hg : Good s) {fl : FloatOps} {op : Arith} {x y : Obj}
    (hU : ArithFault op x y → U) : Post U InOrder (Yields s) (arithValue fl op x y s) := by
  have key : ∀ i j, asInteger x = some i → asInteger y = some j →
      (∀ b c, ¬ (x = .bool b ∧ y = .bool c)) →
      Post U InOrder (Yields s) ((do return .integer (← intArith op i j) : M Obj) s) := by
    intro i j hi hj hb
    refine Post.bind (post_intArith fun h => hU ?_) ?_
    · cases x <;> simp only [ArithFault]
      case bool b =>
        cases y <;> simp only [ArithFault]
        case bool c => exact absurd ⟨rfl, rfl⟩ (hb b c)
        all_goals exact ⟨i, j, hi, hj, h⟩
      all_goals exact ⟨i, j, hi, hj, h⟩
    · rintro r _ ⟨rfl, hr⟩
      exact ⟨rfl, hr⟩
  cases x <;> cases y <;>
    first
      | exact hg
      | exact ⟨rfl, trivial⟩
      | (simp only [arithValue]; exact key _ _ rfl rfl (by simp))
      | skip
  rename_i b c
  have hbool : Post U InOrder (fun _ s' => s' = s) (boolArith op b c s) := by
    cases op
    case div =>
      simp only [boolArith]
      by_cases hc : c = 0
      · rw [if_pos hc]; exact hU ⟨rfl, hc⟩
      · rw [if_neg hc]; exact (rfl : s = s)
    all_goals exact (rfl : s = s)
  simp only [arithValue]
  refine Post.bind hbool ?_
  rintro r _ rfl
  exact ⟨rfl, trivial⟩

theorem post_compareValue (hg : Good s) {fl : FloatOps} {x y : Obj} :
    Post U InOrder (fun _ s' => s' = s) (lessValue fl x y s) ∧
    Post U InOrder (fun _ s' => s' = s) (greaterValue fl x y s) := by
  cases x <;> cases y <;> exact ⟨by first | exact hg | exact (rfl : s = s), by first | exact hg | exact (rfl : s = s)⟩

theorem post_equalValue (hg : Good s) {x y : Obj} (hx : ValueOk s x) (hy : ValueOk s y) :
    Post U InOrder (fun _ s' => s' = s) (equalValue x y s) := by
  cases x <;> cases y <;>
    first
      | exact (rfl : s = s)
      | exact hg
      | (rw [equal_string hg.sound hx hy]; exact (rfl : s = s))

theorem partOk_inHeap (hg : Good s) : ∀ (n : Nat) (p : Option Nat), PartOk s p →
    ∀ r, follow s.heap p n = some r → r < s.heap.length := by
  intro n
  induction n with
  | zero =>
      intro p hp r hr
      simp only [follow] at hr
      subst hr
      rcases hp with hp | hp <;> exact Live.lt hp
  | succ n ih =>
      intro p hp r hr
      cases p with
      | none => simp [follow] at hr
      | some c =>
          simp only [follow] at hr
          split at hr
          · rename_i a d hc
            have hf : c ∉ s.free := by rcases hp with hp | hp <;> exact hp.1
            exact ih d (hg.sound.cells c _ hc hf).2 r hr
          · simp at hr

theorem post_partValue (hg : Good s) {p : Option Nat} (hp : PartOk s p) :
    Post U InOrder (Yields s) (partValue p s) := by
  obtain ⟨o, h1, h2⟩ := part_total hg.sound hp
  rw [partValue_eq h1]
  exact ⟨rfl, h2⟩

theorem post_byteValue (hg : Good s) {r n : Nat} {off : Int} (hl : Live s r (.text n)) (h0 : 0 ≤ off)
    (h1 : off < n) : Post U InOrder (Yields s) (byteValue (some r) off s) := by
  obtain ⟨v, hv, hlen, hb⟩ := live_text hg.sound hl
  have hlt : off.toNat < (v.getD []).length := by omega
  have := byte_at hv (List.getElem?_eq_getElem hlt)
  rw [show ((off.toNat : Nat) : Int) = off by omega] at this
  rw [this]
  refine ⟨rfl, ?_⟩
  have := (v.getD [])[off.toNat].toNat_lt
  constructor <;> omega

theorem post_slotValue (hg : Good s) {r cap n : Nat} {vs : Option (List Slot)} {i : Bool} {off : Int}
    (hl : Live s r (.elements cap)) (hc : s.heap[r]? = some (.internalVector vs n i)) (h0 : 0 ≤ off)
    (h1 : off < n) : Post U InOrder (Yields s) (slotValue vs off s) := by
  obtain ⟨vs', n', hc', ⟨h2, h3, h4⟩, h5⟩ := live_elements hg hl
  rw [hc] at hc'
  cases hc'
  obtain ⟨c, hs, hlc⟩ := h4 rfl off.toNat (by omega)
  obtain ⟨o, ho, hv⟩ := live_value hg.sound hlc
  have := slotValue_some hs ho
  rw [show ((off.toNat : Nat) : Int) = off by omega] at this
  rw [this]
  exact ⟨rfl, hv⟩

theorem post_carValue (hg : Good s) {o : Obj} (ho : ValueOk s o) :
    Post U InOrder (Yields s) (carValue o s) := by
  cases o
  case list p =>
    cases p with
    | none => exact ⟨rfl, trivial⟩
    | some r =>
        obtain ⟨a, d, hc, ha, -⟩ := live_pair hg.sound ho
        simp only [carValue]
        rw [M.bind_ok (readCell_some hc)]
        exact post_partValue hg ha
  case vector p off =>
    cases p with
    | none => exact ⟨rfl, rfl⟩
    | some r =>
        obtain ⟨cap, hl, h0, h1⟩ := ho
        obtain ⟨vs, n, hc, ⟨h2, h3, h4⟩, h5⟩ := live_elements hg hl
        simp only [carValue]
        rw [M.bind_ok (readCell_some hc)]
        simp only
        split
        · exact ⟨rfl, rfl⟩
        · rename_i hn
          have : toSize off = off.toNat := toSize_of_lt h0 (by omega)
          exact post_slotValue hg hl hc h0 (by omega)
  case string p off len =>
    cases p with
    | none => exact ⟨rfl, rfl, rfl⟩
    | some r =>
        obtain ⟨h0, h1, n, h2, hl⟩ := ho
        obtain ⟨v, hv, hlen, hb⟩ := live_text hg.sound hl
        simp only [carValue]
        rw [M.bind_ok (readCell_some hv)]
        simp only
        split
        · exact ⟨rfl, rfl, rfl⟩
        · rename_i hn
          have : toSize off = off.toNat := toSize_of_lt h0 (by omega)
          exact post_byteValue hg hl h0 (by omega)
  all_goals exact hg

theorem post_cdrValue (hg : Good s) {o : Obj} (ho : ValueOk s o) :
    Post U InOrder (Yields s) (cdrValue o s) := by
  cases o
  case list p =>
    cases p with
    | none => exact ⟨rfl, trivial⟩
    | some r =>
        obtain ⟨a, d, hc, -, hd⟩ := live_pair hg.sound ho
        simp only [cdrValue]
        rw [M.bind_ok (readCell_some hc)]
        exact post_partValue hg hd
  case vector p off =>
    cases p with
    | none => exact ⟨rfl, rfl⟩
    | some r =>
        obtain ⟨cap, hl, h0, h1⟩ := ho
        obtain ⟨vs, n, hc, ⟨h2, h3, h4⟩, h5⟩ := live_elements hg hl
        simp only [cdrValue]
        rw [M.bind_ok (readCell_some hc)]
        simp only
        split
        · exact ⟨rfl, rfl⟩
        · rename_i hn
          have : toSize off = off.toNat := toSize_of_lt h0 (by omega)
          rw [M.bind_ok (ckInt_ok (r := off + 1) (by constructor <;> omega))]
          exact ⟨rfl, cap, hl, by omega, .inr (by omega)⟩
  case string p off len =>
    cases p with
    | none => exact ⟨rfl, rfl, rfl⟩
    | some r =>
        obtain ⟨h0, h1, n, h2, hl⟩ := ho
        obtain ⟨v, hv, hlen, hb⟩ := live_text hg.sound hl
        simp only [cdrValue]
        rw [M.bind_ok (readCell_some hv)]
        simp only
        split
        · exact ⟨rfl, rfl, rfl⟩
        · rename_i hn
          have : toSize off = off.toNat := toSize_of_lt h0 (by omega)
          rw [M.bind_ok (ckInt_ok (r := off + 1) (by constructor <;> omega))]
          exact ⟨rfl, by omega, by omega, n, h2, hl⟩
  all_goals exact hg

theorem post_vectorInRange (hg : Good s) {p : Option Nat} {off : Int} (ho : ValueOk s (.vector p off)) :
    Post U InOrder (fun _ s' => s' = s) (vectorInRange p off s) := by
  cases p with
  | none => exact (rfl : s = s)
  | some r =>
      obtain ⟨cap, hl, h0, h1⟩ := ho
      obtain ⟨vs, n, hc, ⟨h2, h3, h4⟩, h5⟩ := live_elements hg hl
      simp only [vectorInRange]
      rw [M.bind_ok (readCell_some hc)]
      exact (rfl : s = s)

theorem post_nullValue (hg : Good s) {o : Obj} (ho : ValueOk s o) :
    Post U InOrder (fun _ s' => s' = s) (nullValue o s) := by
  cases o
  case vector p off =>
    simp only [nullValue]
    refine Post.bind (post_vectorInRange hg ho) ?_
    rintro b _ rfl
    rfl
  all_goals exact (rfl : s = s)

theorem post_compositeParts (hg : Good s) {c : Option Nat} (ho : ValueOk s (.composite c)) :
    Post U InOrder (fun p s' => s' = s ∧ (∀ r, p.2.1 = some r → Live s r .value) ∧
      ∀ r, p.2.2 = some r → Live s r .value) (compositeParts c s) := by
  obtain ⟨r, rfl, hl⟩ := ho
  obtain ⟨t, v, f, hc, h1, h2⟩ := live_parts hg.sound hl
  rw [compositeParts_some hc]
  exact ⟨rfl, h1, h2⟩

theorem post_typeValue (hg : Good s) {o : Obj} (ho : ValueOk s o) :
    Post U InOrder (Yields s) (typeValue o s) := by
  cases o
  case composite c =>
    simp only [typeValue]
    refine Post.bind (post_compositeParts hg ho) ?_
    rintro p _ ⟨rfl, -, -⟩
    exact ⟨rfl, trivial⟩
  all_goals exact ⟨rfl, trivial⟩

theorem toPtrdiffS_inRange {n : Nat} (h : n < 2 ^ 64) : InRange (toPtrdiffS n) := by
  unfold toPtrdiffS InRange
  split <;> constructor <;> omega

theorem toSize_lt (i : Int) : toSize i < 2 ^ 64 := by
  unfold toSize
  omega

theorem post_lengthValue (hg : Good s) {o : Obj} (ho : ValueOk s o) :
    Post U InOrder (Yields s) (lengthValue o s) := by
  cases o
  case list p =>
    have hp : PartOk s p := by
      cases p with
      | none => trivial
      | some r => exact .inr ho
    have hin : InHeap s.heap p := fun n r h => partOk_inHeap hg n p hp r h
    obtain ⟨b, hb, hbe⟩ := listIsCyclic_correct s p hin
    simp only [lengthValue]
    rw [M.bind_ok hb]
    split
    · exact hg
    · rename_i hnb
      obtain ⟨cs, t, hch⟩ := chain_of_not_endless hin (fun h => hnb (hbe.mpr h))
      have hle := chain_length hch
      rw [M.bind_ok (m := M.get) (a := s) (s' := s) rfl,
        M.bind_ok (countConses_chain s hch _ (by omega))]
      have := hg.sound.heap_size
      exact ⟨rfl, by constructor <;> omega⟩
  case vector p off =>
    cases p with
    | none => exact ⟨rfl, by constructor <;> omega⟩
    | some r =>
        obtain ⟨cap, hl, h0, h1⟩ := ho
        obtain ⟨vs, n, hc, ⟨h2, h3, h4⟩, h5⟩ := live_elements hg hl
        simp only [lengthValue]
        rw [M.bind_ok (vectorStorage_some hc)]
        exact ⟨rfl, toPtrdiffS_inRange (toSize_lt _)⟩
  case string p off len => exact ⟨rfl, toPtrdiffS_inRange (toSize_lt _)⟩
  all_goals exact hg

theorem post_symbolStringValue (hg : Good s) {o : Obj} (ho : ValueOk s o)
    (hU : ∀ id, o = .symbol id none → U) :
    Post U InOrder (Yields s) (symbolStringValue o s) := by
  cases o
  case symbol id p =>
    cases p with
    | none => exact hU id rfl
    | some r =>
        obtain ⟨n, hl⟩ := ho
        obtain ⟨v, hv, hlen, hb⟩ := live_text hg.sound hl
        simp only [symbolStringValue]
        rw [M.bind_ok (deref_some hv)]
        exact ⟨rfl, by omega, by omega, n, by omega, hl⟩
  all_goals exact hg

theorem post_pushPtr (hg : Good s) {p : Option Nat} (hp : ∀ r, p = some r → Live s r .value) :
    Post U InOrder (fun _ s' => Good s') (pushPtr p s) := by
  cases p with
  | none => exact hg.pushed trivial
  | some r =>
      obtain ⟨o, ho, hv⟩ := live_value hg.sound (hp r rfl)
      simp only [pushPtr]
      rw [M.bind_ok (readCell_some ho)]
      exact post_push (hg.pushed hv)

end DuckLisp.VM
