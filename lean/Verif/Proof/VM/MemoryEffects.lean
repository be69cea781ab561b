import Verif.Proof.VM.Memory

/-!
# Every data instruction keeps the machine in order: the instructions that change memory
-/

namespace DuckLisp.VM

open DuckLisp DuckLisp.Spec

set_option linter.unusedSectionVars false

variable [Entries]

variable {U : Prop} {s : VM}

/-- After any outcome. -/
abbrev Ends : Unit → VM → Prop := fun _ s => Good s

theorem post_text (hg : Good s) {bytes : Bytes} (hn : bytes.length < 2 ^ 63) :
    Post U InOrder (fun r s' => Good s' ∧ Live s' r (.text bytes.length))
      (pushObject (.internalString (some bytes) bytes.length) s) := by
  have h := post_newString (U := U) (E := InOrder) hg hn (fun s' q1 _ => q1)
  unfold newString at h
  rw [M.bind_run] at h
  cases hp : pushObject (.internalString (some bytes) bytes.length) s <;> rw [hp] at h
  · obtain ⟨q1, -, ⟨r', q3, -, q5⟩, -, -⟩ := h
    cases q3
    exact ⟨q1, q5⟩
  · exact h
  · exact h
  · exact h

theorem post_pushString (hg : Good s) {bytes : Bytes} (hn : bytes.length < 2 ^ 63) :
    Post U InOrder Ends (iPushString bytes s) := by
  have h := post_newString (U := U) (E := InOrder) hg hn (fun s' q1 _ => q1)
  unfold iPushString
  cases hp : newString bytes s <;> rw [hp] at h
  · exact Good.pushed (NewString.good h) (NewString.ok h)
  · exact Good.pushed h trivial
  · exact h
  · exact h

theorem post_pushGlobal (hg : Good s) (k : Int) :
    Post U InOrder Ends ((do pushPtr (← globalGet k) : M Unit) s) := by
  rw [M.bind_run, globalGet_eq]
  cases hb : bound s k with
  | none => exact hg
  | some p =>
      refine post_pushPtr hg ?_
      rintro r rfl
      exact hg.sound.globals k r (bound_mem hb)

theorem post_setGlobal (hg : Good s) {a : Nat} (k : Int) (hU : operand s a = none → U) :
    Post U InOrder Ends ((do
      let h ← height
      let o ← stackAt (h - a)
      let p ← pushObject o
      globalSet (some p) k : M Unit) s) := by
  rw [M.bind_ok (m := height) (a := s.stack.length) (s' := s) rfl]
  cases ho : operand s a with
  | none =>
      have h' : stackAt ((s.stack.length : Nat) - a) s = .ub := by
        unfold stackAt
        split
        · rename_i h
          unfold operand at ho
          split at ho
          · rename_i h0
            subst h0
            have : s.stack[(((s.stack.length : Nat) : Int) - (0 : Nat)).toNat]? = none := by
              rw [List.getElem?_eq_none_iff]; omega
            rw [this]; rfl
          · rw [List.getElem?_eq_none_iff, List.length_reverse] at ho
            omega
        · rfl
      rw [M.bind_ub h']
      exact hU ho
  | some o =>
      rw [M.bind_ok (stackAt_operand ho)]
      have hv := hg.sound.stack _ (operand_mem ho)
      exact (post_store hg hv (pinned_stack hg.sound (operand_mem ho)) k).mono False.elim
        (fun _ _ h => h.2.1) (fun _ _ ⟨_, _, h, _⟩ => h)

theorem good_fewer (hg : Good s) (m n : Nat) :
    Good { s with stack := s.stack.take m, upStack := s.upStack.take n } :=
  hg.stacks _ _ (fun o ho => hg.sound.stack o (List.mem_of_mem_take ho))
    (fun r hr => hg.sound.captured r (List.mem_of_mem_take hr))

theorem post_popMany (hg : Good s) (n : Nat) : Post U InOrder Ends (popMany n s) := by
  unfold popMany
  split
  · exact hg
  · simp only
    split
    · show Good _
      exact hg.stacks s.stack _ hg.sound.stack (fun r hr => hg.sound.captured r (List.mem_of_mem_take hr))
    · exact good_fewer hg _ _

theorem post_move (hg : Good s) (a b : Nat) :
    Post U InOrder Ends ((do setArg b (← getArg a) : M Unit) s) := by
  refine Post.bind (post_getArg hg a) ?_
  rintro o s ⟨rfl, ho⟩
  unfold setArg
  split
  · show Good _
    refine hg.stacks _ s.upStack (fun x hx => ?_) hg.sound.captured
    rcases List.mem_or_eq_of_mem_set hx with hx | rfl
    · exact hg.sound.stack x hx
    · exact hg.sound.stack _ (operand_mem ho)
  · exact hg

theorem post_cons_safe (hg : Good s) (a b : Nat) : Post U InOrder Ends (iCons a b s) := by
  cases ha : operand s a with
  | none => unfold iCons; rw [M.bind_err (getArg_none ha)]; exact hg
  | some x =>
      cases hb : operand s b with
      | none =>
          unfold iCons
          rw [M.bind_ok (getArg_some ha), M.bind_err (getArg_none hb)]; exact hg
      | some y =>
          exact (post_cons hg ha hb).mono False.elim (fun _ _ h => h.2.1) (fun _ _ ⟨_, h, _⟩ => h)

/-- Storing an element where there is room. -/
theorem good_setSlot (hg : Good s) {r cap k p : Nat} (hl : Live s r (.elements cap)) (hk : k < cap)
    (hp : Live s p .value) :
    ∃ s', setSlot r k p s = .ok () s' ∧ Good s' ∧ s'.stack = s.stack := by
  obtain ⟨vs, n, hc, ⟨h2, h3, h4⟩, rfl⟩ := live_elements hg hl
  cases vs with
  | none => simp at hk
  | some l =>
      simp only [Option.getD_some] at hk h2 h3
      refine ⟨_, setSlot_eq p hc hk, ?_, rfl⟩
      refine hg.write hc hl.1 (by simp [shape]) ⟨by simpa using h2, by simpa using h3, fun _ i hi => ?_⟩
        (by simp [UnderConstruction])
      simp only [Option.getD_some]
      by_cases hik : k = i
      · subst hik
        exact ⟨p, by simp [hk], hp⟩
      · obtain ⟨c, hc, hl⟩ := h4 rfl i hi
        simp only [Option.getD_some] at hc
        exact ⟨c, by rw [List.getElem?_set_ne hik]; exact hc, hl⟩

theorem live_of_vector (hg : Good s) {r : Nat} {off : Int} (h : ValueOk s (.vector (some r) off)) :
    ∃ vs n, s.heap[r]? = some (.internalVector vs n true) ∧ Live s r (.elements (vs.getD []).length) ∧
      n ≤ (vs.getD []).length ∧ (vs.getD []).length < 2 ^ 60 ∧ 0 ≤ off ∧
      (off = 0 ∨ off < (vs.getD []).length) ∧ vectorLength s r = n ∧
      vectorRoom s r = (vs.getD []).length := by
  obtain ⟨cap, hl, h0, h1⟩ := h
  obtain ⟨vs, n, hc, ⟨h2, h3, h4⟩, rfl⟩ := live_elements hg hl
  exact ⟨vs, n, hc, hl, h2, h3, h0, h1, by simp [vectorLength, hc], by simp [vectorRoom, hc]⟩

theorem post_setCar (hg : Good s) {a b : Nat} (hU : Faulty s (.setCar a b) → U) :
    Post U InOrder Ends (iSetCar a b s) := by
  unfold iSetCar
  refine Post.bind (post_getArg hg a) ?_
  rintro x s ⟨rfl, ha⟩
  refine Post.bind (post_getArg hg b) ?_
  rintro y s ⟨rfl, hb⟩
  have hy := hg.sound.stack _ (operand_mem hb)
  cases y
  case list p =>
    cases p with
    | none => exact hg
    | some r =>
        obtain ⟨x0, y0, hp⟩ := pair_operand hg hb
        have := post_setCar_pair hg ha hb hp
        unfold iSetCar at this
        rw [M.bind_ok (getArg_some ha), M.bind_ok (getArg_some hb)] at this
        exact this.mono False.elim (fun _ _ h => h.2.1) (fun _ _ h => h.1)
  case vector p off =>
    cases p with
    | none => exact hg
    | some r =>
        obtain ⟨vs, n, hc, hl, h2, h3, h0, h1, -, hroom⟩ := live_of_vector hg hy
        simp only
        refine Post.bind (post_copy hg (operand_mem ha) (fun s' q1 _ => q1)) ?_
        rintro p s1 ⟨hg1, al, hlp, -⟩
        rw [if_pos h0]
        by_cases hr : off < (vs.getD []).length
        · have hl1 := al.carried.live (pinned_stack hg.sound (operand_mem hb) r .vector) hl
          obtain ⟨s2, he, hg2, hst⟩ := good_setSlot hg1 hl1 (k := off.toNat) (by omega) hlp
          rw [M.bind_ok he]
          refine post_push (hg2.pushed (hg2.sound.stack _ ?_))
          rw [hst]; exact al.mem (operand_mem hb)
        · have hub : setSlot r off.toNat p s1 = .ub := by
            have hcell := (al.carried.heap r (pinned_stack hg.sound (operand_mem hb) r .vector)).trans hc
            unfold setSlot
            rw [M.bind_ok (readCell_some hcell)]
            cases vs with
            | none => rfl
            | some l =>
                simp only [Option.getD_some] at hr
                simp only
                rw [if_neg (by omega)]; rfl
          rw [M.bind_ub hub]
          exact hU ⟨r, off, by simp [ha], hb, by rw [hroom]; omega⟩
  all_goals exact hg

theorem post_setLength (hg : Good s) {b r : Nat} {off : Int} (hb : operand s b = some (.vector (some r) off))
    (hU : (vectorLength s r : Int) < off → False) :
    Post U InOrder Ends ((do setVectorLength r (toSize off); push (.vector (some r) off) : M Unit) s) := by
  have hy := hg.sound.stack _ (operand_mem hb)
  obtain ⟨vs, n, hc, hl, h2, h3, h0, h1, hn, -⟩ := live_of_vector hg hy
  have hts : toSize off = off.toNat := toSize_of_lt h0 (by omega)
  have hle : off ≤ n := by rw [hn] at hU; exact Int.not_lt.mp hU
  obtain ⟨vs', n', hc', ⟨q2, q3, q4⟩, -⟩ := live_elements hg hl
  rw [hc] at hc'
  cases hc'
  have hg2 : Good { s with heap := s.heap.set r (.internalVector vs off.toNat true) } := by
    refine hg.write hc hl.1 rfl ⟨by omega, q3, fun _ i hi => q4 rfl i (by omega)⟩
      (by simp [UnderConstruction])
  have he : setVectorLength r (toSize off) s =
      .ok () { s with heap := s.heap.set r (.internalVector vs off.toNat true) } := by
    unfold setVectorLength
    rw [M.bind_ok (readCell_some hc), hts]
    simp [writeCell, getElem?_lt hc]
  rw [M.bind_ok he]
  exact post_push (hg2.pushed (hg2.sound.stack _ (operand_mem hb)))

theorem post_setCdr (hg : Good s) {a b : Nat} (hU : ¬ Faulty s (.setCdr a b)) :
    Post U InOrder Ends (iSetCdr a b s) := by
  unfold iSetCdr
  refine Post.bind (post_getArg hg a) ?_
  rintro x s ⟨rfl, ha⟩
  refine Post.bind (post_getArg hg b) ?_
  rintro y s ⟨rfl, hb⟩
  cases y
  case list p =>
    cases p with
    | none => exact hg
    | some r =>
        obtain ⟨x0, y0, hp⟩ := pair_operand hg hb
        have := post_setCdr_pair hg ha hb hp
        unfold iSetCdr at this
        rw [M.bind_ok (getArg_some ha), M.bind_ok (getArg_some hb)] at this
        exact this.mono False.elim (fun _ _ h => h.2.1) (fun _ _ h => h.1)
  case vector p off =>
    cases p with
    | none => exact hg
    | some r =>
        have hk := post_setLength (U := U) hg hb (fun h => hU ⟨r, off, hb, h⟩)
        cases x
        case list q => cases q <;> first | exact hg | exact hk
        case vector q o => cases q <;> first | exact hg | exact hk
        all_goals exact hg
  all_goals exact hg

theorem post_getVecElt (hg : Good s) {a b : Nat} (hU : Faulty s (.getVecElt a b) → U) :
    Post U InOrder Ends (iGetVecElt a b s) := by
  unfold iGetVecElt
  refine Post.bind (post_getArg hg a) ?_
  rintro x s ⟨rfl, ha⟩
  have hx := hg.sound.stack _ (operand_mem ha)
  cases x
  case vector p off =>
    simp only
    refine Post.bind (post_getArg hg b) ?_
    rintro y s ⟨rfl, hb⟩
    have hy := hg.sound.stack _ (operand_mem hb)
    cases y
    case integer i =>
      simp only
      split
      · exact hg
      · rename_i hi
        cases p with
        | none => exact hU ⟨none, off, i, ha, hb, by omega, .inl rfl⟩
        | some r =>
            obtain ⟨vs, n, hc, hl, h2, h3, h0, h1, -, -⟩ := live_of_vector hg hx
            rw [M.bind_ok (vectorStorage_some hc)]
            simp only
            refine Post.bind (Q := fun j s' => s' = s ∧ j = i + off ∧ InRange j) (post_ckInt (fun h => ?_)
              (fun h => ⟨rfl, rfl, h⟩)) ?_
            · refine hU ⟨some r, off, i, ha, hb, by omega, .inr ?_⟩
              unfold InRange at h
              omega
            · rintro j s ⟨rfl, rfl, hr⟩
              split
              · exact hg
              · rename_i hlt
                have : toSize (i + off) = (i + off).toNat := toSize_of_lt (by omega) hr.2
                refine Post.bind (post_slotValue hg hl hc (by omega) (by omega)) ?_
                rintro v s ⟨rfl, hv⟩
                exact post_push (hg.pushed hv)
    all_goals exact hg
  case string p off len =>
    simp only
    refine Post.bind (post_getArg hg b) ?_
    rintro y s ⟨rfl, hb⟩
    have hy := hg.sound.stack _ (operand_mem hb)
    cases y
    case integer i =>
      simp only
      split
      · exact hg
      · rename_i hi
        cases p with
        | none =>
            obtain ⟨rfl, rfl⟩ := hx
            exact absurd (.inr (by simp [stringSize, toSize])) hi
        | some r =>
            obtain ⟨h0, h1, n, h2, hl⟩ := hx
            obtain ⟨v, hv, hlen, hb'⟩ := live_text hg.sound hl
            have hts := toSize_of_lt (i := i) (by omega) hy.2
            have hss := stringSize_eq (off := off) (len := len) h0 h1 (by omega)
            rw [M.bind_ok (ckInt_ok (r := off + i) (by constructor <;> omega))]
            refine Post.bind (post_byteValue hg hl (by omega) (by omega)) ?_
            rintro v s ⟨rfl, hv⟩
            exact post_push (hg.pushed hv)
    all_goals exact hg
  all_goals exact hg

theorem post_setVecElt_safe (hg : Good s) {a b c : Nat} (hU : Faulty s (.setVecElt a b c) → U) :
    Post U InOrder Ends (iSetVecElt a b c s) := by
  unfold iSetVecElt
  refine Post.bind (post_getArg hg a) ?_
  rintro x s ⟨rfl, ha⟩
  have hx := hg.sound.stack _ (operand_mem ha)
  cases x
  case vector p off =>
    simp only
    refine Post.bind (post_getArg hg b) ?_
    rintro y s ⟨rfl, hb⟩
    have hy := hg.sound.stack _ (operand_mem hb)
    cases y
    case integer i =>
      simp only
      refine Post.bind (post_getArg hg c) ?_
      rintro z s ⟨rfl, hz⟩
      cases p with
      | none => exact hU ⟨none, off, i, ha, hb, by simp [hz], .inl rfl⟩
      | some r =>
          obtain ⟨vs, n, hc, hl, h2, h3, h0, h1, -, -⟩ := live_of_vector hg hx
          rw [M.bind_ok (vectorStorage_some hc)]
          simp only
          refine Post.bind (Q := fun j s' => s' = s ∧ j = i + off ∧ InRange j) (post_ckInt (fun h => ?_)
            (fun h => ⟨rfl, rfl, h⟩)) ?_
          · refine hU ⟨some r, off, i, ha, hb, by simp [hz], .inr ?_⟩
            have := hy.1
            unfold InRange at h
            omega
          · rintro j s ⟨rfl, rfl, hr⟩
            split
            · exact hg
            · rename_i hlt
              refine Post.bind (post_copy hg (operand_mem hz) (fun s' q1 _ => q1)) ?_
              rintro p s1 ⟨hg1, al, hlp, -⟩
              have hl1 := al.carried.live (pinned_stack hg.sound (operand_mem ha) r .vector) hl
              obtain ⟨s2, he, hg2, hst⟩ := good_setSlot hg1 hl1 (k := toSize (i + off)) (by omega) hlp
              rw [M.bind_ok (m := M.need (some r)) (a := r) (s' := s1) rfl, M.bind_ok he]
              refine post_push (hg2.pushed (hg2.sound.stack _ ?_))
              rw [hst]; exact al.mem (operand_mem hz)
    all_goals exact hg
  all_goals exact hg

theorem post_makeType (hg : Good s) : Post U InOrder Ends (iMakeType s) := by
  have hg' : Good { s with nextUserType := s.nextUserType + 1 } :=
    ⟨⟨hg.sound.free_nodup, hg.sound.free_lt, hg.sound.free_empty, hg.sound.heap_size,
      fun o ho => valueOk_congr (hg.sound.stack o ho) (fun _ _ _ h => h), hg.sound.captured,
      hg.sound.globals, hg.sound.frames, hg.sound.running,
      fun r o ho hf => cellOk_congr (hg.sound.cells r o ho hf) (fun _ _ _ _ h => h)⟩, hg.finished⟩
  exact hg'.pushed (o := .type s.nextUserType) trivial

theorem post_makeInstance_safe (hg : Good s) (a b c : Nat) :
    Post U InOrder Ends (iMakeInstance a b c s) := by
  cases ha : operand s a with
  | none => unfold iMakeInstance; rw [M.bind_err (getArg_none ha)]; exact hg
  | some x =>
      have err : ∀ m : M Unit, (do let x ← getArg a; m : M Unit) s = m s := by
        intro m; rw [M.bind_ok (getArg_some ha)]
      cases x
      case type t =>
        by_cases ht : t < typeLast
        · unfold iMakeInstance; rw [M.bind_ok (getArg_some ha)]; simp only; rw [if_pos ht]; exact hg
        · cases hb : operand s b with
          | none =>
              unfold iMakeInstance; rw [M.bind_ok (getArg_some ha)]; simp only
              rw [if_neg ht, M.bind_err (getArg_none hb)]; exact hg
          | some x =>
              cases hc : operand s c with
              | none =>
                  unfold iMakeInstance; rw [M.bind_ok (getArg_some ha)]; simp only
                  rw [if_neg ht, M.bind_ok (getArg_some hb), M.bind_err (getArg_none hc)]; exact hg
              | some f =>
                  exact (post_makeInstance hg ha (by simp only [typeLast] at ht; omega) hb hc).mono False.elim
                    (fun _ _ h => h.2.1) (fun _ _ ⟨_, h, _⟩ => h)
      all_goals (unfold iMakeInstance; rw [M.bind_ok (getArg_some ha)]; exact hg)

theorem post_compositePart (hg : Good s) (a : Nat) :
    Post U InOrder Ends (iCompositeValue a s) ∧ Post U InOrder Ends (iCompositeFunction a s) := by
  unfold iCompositeValue iCompositeFunction
  constructor
  all_goals
    refine Post.bind (post_getArg hg a) ?_
    rintro x s ⟨rfl, ha⟩
    have hx := hg.sound.stack _ (operand_mem ha)
    cases x
    case composite c =>
      simp only
      refine Post.bind (post_compositeParts hg hx) ?_
      rintro ⟨t, v, f⟩ s ⟨rfl, h1, h2⟩
      first | exact post_pushPtr hg h1 | exact post_pushPtr hg h2
    all_goals exact hg

theorem post_setComposite (hg : Good s) (a b : Nat) :
    Post U InOrder Ends (iSetCompositeValue a b s) ∧
    Post U InOrder Ends (iSetCompositeFunction a b s) := by
  cases ha : operand s a with
  | none =>
      unfold iSetCompositeValue iSetCompositeFunction
      constructor <;> (rw [M.bind_err (getArg_none ha)]; exact hg)
  | some x =>
      cases hb : operand s b with
      | none =>
          unfold iSetCompositeValue iSetCompositeFunction
          constructor <;> (rw [M.bind_ok (getArg_some ha), M.bind_err (getArg_none hb)]; exact hg)
      | some y =>
          have hx := hg.sound.stack _ (operand_mem ha)
          cases x
          case composite c =>
            obtain ⟨r, rfl, hl⟩ := hx
            obtain ⟨t, v, f, hc, -⟩ := live_parts hg.sound hl
            exact ⟨(post_setCompositeValue hg ha hb hc).mono False.elim (fun _ _ h => h.2.1) (fun _ _ h => h.1),
              (post_setCompositeFunction hg ha hb hc).mono False.elim (fun _ _ h => h.2.1) (fun _ _ h => h.1)⟩
          all_goals
            unfold iSetCompositeValue iSetCompositeFunction
            constructor <;> (rw [M.bind_ok (getArg_some ha), M.bind_ok (getArg_some hb)]; exact hg)

theorem post_substring (hg : Good s) (a b c : Nat) : Post U InOrder Ends (iSubstring a b c s) := by
  unfold iSubstring
  refine Post.bind (post_getArg hg a) ?_
  rintro x s ⟨rfl, ha⟩
  have hx := hg.sound.stack _ (operand_mem ha)
  cases x
  case string p off len =>
    simp only
    refine Post.bind (post_getArg hg b) ?_
    rintro y s ⟨rfl, hb⟩
    have hy := hg.sound.stack _ (operand_mem hb)
    cases y
    case integer i =>
      simp only
      split
      · exact hg
      · rename_i hi
        refine Post.bind (post_getArg hg c) ?_
        rintro z s ⟨rfl, hz⟩
        have hzv := hg.sound.stack _ (operand_mem hz)
        cases z
        case integer j =>
          simp only
          split
          · exact hg
          · rename_i hj
            split
            · exact hg
            · rename_i hij
              have hti := toSize_of_lt (i := i) (by omega) hy.2
              have htj := toSize_of_lt (i := j) (by omega) hzv.2
              cases p with
              | none =>
                  obtain ⟨rfl, rfl⟩ := hx
                  have : stringSize 0 0 = 0 := by simp [stringSize, toSize]
                  obtain rfl : i = 0 := by omega
                  obtain rfl : j = 0 := by omega
                  exact post_push (hg.pushed ⟨rfl, rfl⟩)
              | some r =>
                  obtain ⟨h0, h1, n, h2, hl⟩ := hx
                  obtain ⟨v, hv, hlen, hb'⟩ := live_text hg.sound hl
                  have hss := stringSize_eq (off := off) (len := len) h0 h1 (by omega)
                  rw [M.bind_ok (ckInt_ok (r := off + j) (by constructor <;> omega)),
                    M.bind_ok (ckInt_ok (r := off + i) (by constructor <;> omega))]
                  have hte := toSize_of_lt (i := off + j) (by omega) (by omega)
                  exact post_push (hg.pushed ⟨by omega, by omega, n, by omega, hl⟩)
        all_goals exact hg
    all_goals exact hg
  all_goals exact hg

end DuckLisp.VM
