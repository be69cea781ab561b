import Verif.Proof.VM.MemoryEffects

/-!
# Every data instruction keeps the machine in order: building vectors and texts
-/

namespace DuckLisp.VM

open DuckLisp DuckLisp.Spec

set_option linter.unusedSectionVars false

variable [Entries]

variable {U : Prop} {s : VM}

/-- After the failure of an instruction that builds a vector. -/
abbrev InShape : DlError → VM → Prop := fun _ s => Sound s

theorem post_vectorLoop {vm : VM} {r n : Nat} :
    ∀ (as : List Nat) (k : Nat) (s : VM) (slots : Option (List Slot)),
      Building vm s r n slots → k + as.length = n → as.length ≤ s.free.length →
      (∀ i, i < k → ∃ c, (slots.getD [])[i]? = some (.ptr (some c)) ∧ Live s c .value) →
      Post False InShape (fun _ s' => ∃ slots', Building vm s' r n slots' ∧
        (∀ i, i < n → ∃ c, (slots'.getD [])[i]? = some (.ptr (some c)) ∧ Live s' c .value))
        (vectorLoop r k as s) := by
  intro as
  induction as with
  | nil =>
      intro k s slots hb hk _ hel
      exact ⟨slots, hb, by simpa [← hk] using hel⟩
  | cons a as ih =>
      intro k s slots hb hk hfree hel
      rw [vectorLoop, M.bind_ok (m := height) (a := s.stack.length) (s' := s) rfl]
      split
      · exact hb.sound
      refine Post.bind (post_getAbs hb.sound _) ?_
      rintro x s ⟨rfl, hxs⟩
      have hv := hb.sound.stack x hxs
      obtain ⟨c, s1, he, al, -, hfl, hsame⟩ := alloc_take hb.sound hv (pinned_stack hb.sound hxs)
        (by intro h; rw [h] at hfree; simp at hfree)
      rw [M.bind_ok he]
      have hcell1 : s1.heap[r]? = some (.internalVector slots n false) := by
        rw [(hsame r hb.notFree).1]; exact hb.cell
      have hnf1 : r ∉ s1.free := (hsame r hb.notFree).2
      have hlc : Live s1 c .value := by have := al.live; rwa [shape_value hv] at this
      have hrc : r ≠ c := ne_of_shape hcell1 al.cell (by rw [shape_value hv]; simp [shape])
      have hlt1 := getElem?_lt hcell1
      simp only [List.length_cons] at hk hfree
      have hsome : ∃ l, slots = some l ∧ l.length = n := by
        have := hb.size
        cases slots with
        | none => simp at this; omega
        | some l => exact ⟨l, rfl, by simpa using this⟩
      obtain ⟨l, rfl, hl⟩ := hsome
      let l' := l.set k (.ptr (some c))
      let s2 : VM := { s1 with heap := s1.heap.set r (.internalVector (some l') n false) }
      have hset : setSlot r k c s1 = .ok () s2 := setSlot_eq c hcell1 (by omega)
      have hsh : shape (.internalVector (some l') n false) = shape (.internalVector (some l) n false) := by
        simp [shape, l']
      have hlive : ∀ c' sh, Live s1 c' sh → Live s2 c' sh := fun c' sh h => live_write hcell1 hsh h
      have hb2 : Building vm s2 r n (some l') := by
        refine ⟨?_, by simp [s2, hlt1], by simp [l', hl], hnf1, ?_, al.carried.roots.stack.trans hb.stack,
          al.carried.roots.upStack.trans hb.upStack,
          (hb.keeps.trans al.carried.extends).write _ hb.fresh, hb.fresh⟩
        · have hok := hb.sound.cells r _ hb.cell hb.notFree
          refine sound_write al.sound hcell1 hnf1 hsh ⟨by simpa [l'] using hok.1, by simpa [l'] using hok.2.1,
            fun h => by simp at h⟩
        · intro r' o hr' ho hf
          have ho' : (s1.heap.set r _)[r']? = some o := ho
          rw [List.getElem?_set_ne (Ne.symm hr')] at ho'
          by_cases hpp : r' = c
          · subst hpp
            rw [al.cell] at ho'; cases ho'
            exact valueOk_settled hv
          · obtain ⟨a1, a2⟩ := al.others r' o hpp ho' hf
            exact hb.others r' o hr' a1 a2
      rw [M.bind_ok hset]
      refine ih (k + 1) s2 (some l') hb2 (by omega) (by show as.length ≤ s1.free.length; omega) ?_
      intro i hi
      by_cases hik : k = i
      · subst hik
        refine ⟨c, ?_, hlive _ _ hlc⟩
        show (l.set k _)[k]? = _
        exact List.getElem?_set_self (by omega)
      · obtain ⟨c', q1, q3⟩ := hel i (by omega)
        obtain ⟨w1, w2⟩ := hsame c' q3.1
        have hlc' : Live s1 c' .value := by
          obtain ⟨-, o, ho, hs⟩ := q3
          exact ⟨w2, o, by rw [w1]; exact ho, hs⟩
        refine ⟨c', ?_, hlive _ _ hlc'⟩
        simp only [Option.getD_some, l'] at q1 ⊢
        rw [List.getElem?_set_ne hik]; exact q1

theorem post_vector (hg : Good s) {as : List Nat} (hn : as.length < 2 ^ 60)
    (hfree : as.length < s.free.length) : Post U InShape Ends (iVector as s) := by
  cases hf : s.free with
  | nil => rw [hf] at hfree; simp at hfree
  | cons c free =>
      have he := pushObject_take (o := .internalVector none as.length false) hf
      obtain ⟨slots, hb, m, hal⟩ := (post_begin (U := True) (E := fun _ _ => True) hg hn
        (fun _ _ _ => trivial)).ok he
      rw [hf] at hfree
      simp only [List.length_cons] at hfree
      unfold iVector
      rw [M.bind_ok he]
      rw [M.bind_ok (m := pushStackOnly _) (a := ()) rfl]
      have hloop := post_vectorLoop as 0 _ slots hb (by omega) (by show as.length ≤ free.length; omega)
        (fun i hi => by omega)
      refine Post.bind (hloop.mono False.elim (fun _ _ h => h) (fun _ _ h => h)) ?_
      rintro - s' ⟨slots', h2, h3⟩
      have key : ∀ i : Fin as.length, ∃ o c, (slots'.getD [])[(i : Nat)]? = some (.ptr (some c)) ∧
          s'.heap[c]? = some o ∧ Live s' c .value := by
        intro i
        obtain ⟨c, hc, hlc⟩ := h3 i i.2
        obtain ⟨o, ho, -⟩ := live_value h2.sound hlc
        exact ⟨o, c, hc, ho, hlc⟩
      let f := fun i => Classical.choose (key i)
      have hfs := fun i => Classical.choose_spec (key i)
      exact (post_finishVector (U := U) (E := InShape) (xs := List.ofFn f) h2 (by simp) (by
        intro i hi
        obtain ⟨c, hc, ho, hl⟩ := hfs ⟨i, hi⟩
        exact ⟨c, hc, by rw [ho]; simp [hi, f], hl⟩)).imp (fun _ _ h => h.1)

theorem post_makeVector_safe (hg : Good s) {a b : Nat} (hU : Faulty s (.makeVector a b) → U) :
    Post U InShape Ends (iMakeVector a b s) := by
  cases ha : operand s a with
  | none => unfold iMakeVector; rw [M.bind_err (getArg_none ha)]; exact hg.sound
  | some x =>
      cases x
      case integer i =>
        by_cases h0 : i < 0
        · unfold iMakeVector; rw [M.bind_ok (getArg_some ha)]; simp only; rw [if_pos h0]; exact hg.sound
        · by_cases hi : 2 ^ 60 ≤ i
          · unfold iMakeVector; rw [M.bind_ok (getArg_some ha)]; simp only
            rw [if_neg h0, if_pos hi]
            exact hU ⟨i, ha, hi⟩
          · cases hb : operand s b with
            | none =>
                unfold iMakeVector; rw [M.bind_ok (getArg_some ha)]; simp only
                rw [if_neg h0, if_neg hi, M.bind_err (getArg_none hb)]; exact hg.sound
            | some x =>
                have hi' : ((i.toNat : Nat) : Int) = i := by omega
                rw [← hi'] at ha
                exact (post_makeVector hg ha (by omega) hb).mono False.elim
                  (fun _ _ h => h.2.1) (fun _ _ ⟨_, h, _⟩ => h)
      all_goals (unfold iMakeVector; rw [M.bind_ok (getArg_some ha)]; exact hg.sound)

/-! ### Texts -/

theorem stringBytes_text (hg : Good s) {r n : Nat} {off : Int} {m : Nat} (hl : Live s r (.text n))
    (h0 : 0 ≤ off) (hm : m = 0 ∨ off + m ≤ n) :
    ∃ bs, stringBytes (some r) off m s = .ok bs s ∧ bs.length = m := by
  obtain ⟨v, hv, hlen, hb⟩ := live_text hg.sound hl
  unfold stringBytes
  rw [M.bind_ok (deref_some hv)]
  by_cases hz : m = 0
  · subst hz; exact ⟨[], rfl, rfl⟩
  · cases v with
    | none => simp at hlen; omega
    | some bytes =>
        simp at hlen
        simp only
        rw [if_neg hz, M.bind_ok (m := M.need (some bytes)) (a := bytes) (s' := s) rfl, if_pos (by omega)]
        exact ⟨_, rfl, by simp; omega⟩

theorem textLength_live (hg : Good s) {r n : Nat} (hl : Live s r (.text n)) : textLength s r = n := by
  obtain ⟨v, hv, hlen, hb⟩ := live_text hg.sound hl
  simp [textLength, hv, hlen]

theorem post_concatBytes (hg : Good s) {o : Obj} (ho : ValueOk s o) (ht : IsText o)
    (hU : ConcatFault s o → U) :
    Post U InOrder (fun bs s' => s' = s ∧ bs.length < 2 ^ 63) (concatBytes o s) := by
  cases o <;> simp only [IsText] at ht
  case string p off len =>
    cases p with
    | none => exact hU trivial
    | some r =>
        obtain ⟨h0, h1, n, h2, hl⟩ := ho
        obtain ⟨v, hv, hlen, hb⟩ := live_text hg.sound hl
        simp only [concatBytes]
        rw [M.bind_ok (deref_some hv)]
        by_cases hf : len ≠ 0 ∧ (n : Int) < off + len
        · have hub : stringBytes (some r) off len s = .ub := by
            unfold stringBytes
            rw [M.bind_ok (deref_some hv)]
            simp only
            rw [if_neg hf.1]
            cases v with
            | none => rfl
            | some bytes =>
                simp at hlen
                rw [M.bind_ok (m := M.need (some bytes)) (a := bytes) (s' := s) rfl, if_neg (by omega)]
                rfl
          rw [hub]
          exact hU ⟨hf.1, by rw [textLength_live hg hl]; exact hf.2⟩
        · obtain ⟨bs, he, hl⟩ := stringBytes_text hg hl h0 (m := len) (by omega)
          rw [he]
          exact ⟨rfl, by omega⟩
  case symbol id p =>
    cases p with
    | none => exact hU trivial
    | some r =>
        obtain ⟨n, hl⟩ := ho
        obtain ⟨v, hv, hlen, hb⟩ := live_text hg.sound hl
        simp only [concatBytes]
        rw [M.bind_ok (deref_some hv)]
        obtain ⟨bs, he, hl⟩ := stringBytes_text hg hl (off := 0) (m := n) (by omega) (by omega)
        simp only
        rw [he]
        exact ⟨rfl, by omega⟩

theorem post_concatenate (hg : Good s) {a b : Nat} (hU : Faulty s (.concatenate a b) → U) :
    Post U InOrder Ends (iConcatenate a b s) := by
  unfold iConcatenate
  refine Post.bind (post_getArg hg a) ?_
  rintro x s ⟨rfl, ha⟩
  have hx := hg.sound.stack _ (operand_mem ha)
  have tail : ∀ y, operand s b = some y → IsText x → IsText y → Post U InOrder Ends ((do
      let x ← concatBytes x
      let y ← concatBytes y
      let o ← newString x
      match o with
      | .string (some r) _ _ => do
          if 2 ^ 63 ≤ x.length + y.length then M.throw .outOfMemory
          writeCell r (.internalString (some (x ++ y)) (x.length + y.length))
          push (.string (some r) 0 (x.length + y.length))
      | _ => M.ub : M Unit) s) := by
    intro y hb htx hty
    have hy := hg.sound.stack _ (operand_mem hb)
    refine Post.bind (post_concatBytes hg hx htx (fun h => hU ⟨x, y, ha, hb, htx, hty, .inl h⟩)) ?_
    rintro xs s ⟨rfl, hxl⟩
    refine Post.bind (post_concatBytes hg hy hty (fun h => hU ⟨x, y, ha, hb, htx, hty, .inr h⟩)) ?_
    rintro ys s ⟨rfl, hyl⟩
    by_cases hsum : xs.length + ys.length < 2 ^ 63
    · refine (post_join hg hsum).mono False.elim (fun _ _ h => h.2.1) ?_
      rintro - s' ⟨s1, o, h, rfl⟩
      exact h.good.pushed h.ok
    · refine Post.bind (post_newString hg hxl (fun s' q1 _ => q1)) ?_
      rintro o s1 h
      obtain ⟨r, rfl, -⟩ := h.value
      simp only
      rw [if_pos (by omega)]
      exact h.good
  have notText : ¬ IsText x ∨ IsText x := by
    cases x <;> simp [IsText]
  cases x <;> simp only [IsText, not_true, or_true, or_false, not_false_iff] at notText <;>
    first
      | exact hg
      | skip
  all_goals
    simp only
    rw [if_neg (by simp)]
    refine Post.bind (post_getArg hg b) ?_
    rintro y s ⟨rfl, hb⟩
    cases y <;> first
      | exact hg
      | (rw [if_neg (by simp)]; exact tail _ hb trivial trivial)

/-! ### Strings from data -/

/-- The cells read while a list is turned into bytes. -/
inductive Visit (heap : List Obj) : Option Ref → List Ref → Prop
  | nil : Visit heap none []
  | other {r o} (h : heap[r]? = some o) (hc : ∀ a d, o ≠ .cons a d) (hl : ∀ p, o ≠ .list p) :
      Visit heap (some r) [r]
  | list {r p rs} (h : heap[r]? = some (.list p)) (hp : Visit heap p rs) : Visit heap (some r) (r :: rs)
  | stop {r c d o} (h : heap[r]? = some (.cons (some c) d)) (hc : heap[c]? = some o)
      (ho : ∀ i, o ≠ .integer i) : Visit heap (some r) [r]
  | cons {r c d i rs} (h : heap[r]? = some (.cons (some c) d)) (hc : heap[c]? = some (.integer i))
      (hd : Visit heap d rs) : Visit heap (some r) (r :: rs)

theorem visit_of_readable {heap : List Obj} {p : Option Ref} (h : Readable heap p) :
    ∃ rs, Visit heap p rs := by
  induction h with
  | nil => exact ⟨_, .nil⟩
  | other h hc hl => exact ⟨_, .other h hc hl⟩
  | list h _ ih => obtain ⟨rs, ih⟩ := ih; exact ⟨_, .list h ih⟩
  | stop h hc ho => exact ⟨_, .stop h hc ho⟩
  | cons h hc _ ih => obtain ⟨rs, ih⟩ := ih; exact ⟨_, .cons h hc ih⟩

theorem visit_unique {heap : List Obj} {p : Option Ref} {rs rs' : List Ref} (h : Visit heap p rs)
    (h' : Visit heap p rs') : rs = rs' := by
  induction h generalizing rs' with
  | nil => cases h'; rfl
  | other h hc hl =>
      cases h' with
      | other => rfl
      | list h2 => rw [h] at h2; cases h2; exact absurd rfl (hl _)
      | stop h2 => rfl
      | cons h2 => rw [h] at h2; cases h2; exact absurd rfl (hc _ _)
  | list h hp ih =>
      cases h' with
      | other h2 hc hl => rw [h] at h2; cases h2; exact absurd rfl (hl _)
      | list h2 hp2 => rw [h] at h2; cases h2; rw [ih hp2]
      | stop h2 => rw [h] at h2; cases h2
      | cons h2 => rw [h] at h2; cases h2
  | stop h hc ho =>
      cases h' with
      | other h2 hc hl => rfl
      | list h2 hp2 => rw [h] at h2; cases h2
      | stop h2 => rfl
      | cons h2 hc2 => rw [h] at h2; cases h2; rw [hc] at hc2; cases hc2; exact absurd rfl (ho _)
  | cons h hc hd ih =>
      cases h' with
      | other h2 hc hl => rw [h] at h2; cases h2; exact absurd rfl (hc _ _)
      | list h2 hp2 => rw [h] at h2; cases h2
      | stop h2 hc2 ho2 => rw [h] at h2; cases h2; rw [hc] at hc2; cases hc2; exact absurd rfl (ho2 _)
      | cons h2 hc2 hd2 => rw [h] at h2; cases h2; rw [ih hd2]

theorem visit_head {heap : List Obj} {p : Option Ref} {rs : List Ref} (h : Visit heap p rs) :
    (p = none ∧ rs = []) ∨ ∃ r l, p = some r ∧ rs = r :: l := by
  cases h
  · exact .inl ⟨rfl, rfl⟩
  all_goals exact .inr ⟨_, _, rfl, rfl⟩

/-- From every cell on the way the rest of the way is taken. -/
theorem visit_from {heap : List Obj} {p : Option Ref} {rs : List Ref} (h : Visit heap p rs) :
    ∀ r ∈ rs, ∃ l, Visit heap (some r) l ∧ l.length ≤ rs.length := by
  induction h with
  | nil => intro r hr; cases hr
  | other h hc hl => intro r hr; simp at hr; subst hr; exact ⟨_, .other h hc hl, by simp⟩
  | stop h hc ho => intro r hr; simp at hr; subst hr; exact ⟨_, .stop h hc ho, by simp⟩
  | list h hp ih =>
      intro r hr
      rcases List.mem_cons.mp hr with rfl | hr
      · exact ⟨_, .list h hp, Nat.le_refl _⟩
      · obtain ⟨l, h1, h2⟩ := ih r hr
        exact ⟨l, h1, by simp; omega⟩
  | cons h hc hd ih =>
      intro r hr
      rcases List.mem_cons.mp hr with rfl | hr
      · exact ⟨_, .cons h hc hd, Nat.le_refl _⟩
      · obtain ⟨l, h1, h2⟩ := ih r hr
        exact ⟨l, h1, by simp; omega⟩

theorem visit_nodup {heap : List Obj} {p : Option Ref} {rs : List Ref} (h : Visit heap p rs) :
    rs.Nodup ∧ ∀ r ∈ rs, r < heap.length := by
  induction h with
  | nil => simp
  | other h hc hl => exact ⟨by simp, by simp; exact getElem?_lt h⟩
  | stop h hc ho => exact ⟨by simp, by simp; exact getElem?_lt h⟩
  | @list r p rs h hp ih =>
      refine ⟨List.nodup_cons.mpr ⟨fun hm => ?_, ih.1⟩, ?_⟩
      · obtain ⟨l, h1, h2⟩ := visit_from hp r hm
        rw [visit_unique h1 (.list h hp)] at h2
        simp at h2
        omega
      · intro x hx
        rcases List.mem_cons.mp hx with rfl | hx
        · exact getElem?_lt h
        · exact ih.2 x hx
  | @cons r c d i rs h hc hd ih =>
      refine ⟨List.nodup_cons.mpr ⟨fun hm => ?_, ih.1⟩, ?_⟩
      · obtain ⟨l, h1, h2⟩ := visit_from hd r hm
        rw [visit_unique h1 (.cons h hc hd)] at h2
        simp at h2
        omega
      · intro x hx
        rcases List.mem_cons.mp hx with rfl | hx
        · exact getElem?_lt h
        · exact ih.2 x hx

theorem visit_length {heap : List Obj} {p : Option Ref} {rs : List Ref} (h : Visit heap p rs) :
    rs.length ≤ heap.length := by
  obtain ⟨h1, h2⟩ := visit_nodup h
  have : rs ⊆ List.range heap.length := fun r hr => List.mem_range.mpr (h2 r hr)
  have := (h1.subperm this).length_le
  simpa using this

theorem listBytes_visit {p : Option Ref} {rs : List Ref} (h : Visit s.heap p rs) :
    ∀ fuel, rs.length < fuel → ∃ bs, listBytes fuel p s = .ok bs s ∧
      ∀ l, bs = some l → l.length ≤ rs.length := by
  induction h with
  | nil =>
      intro fuel hf
      cases fuel with
      | zero => omega
      | succ fuel => exact ⟨some [], rfl, by simp⟩
  | @other r o h hc hl =>
      intro fuel hf
      cases fuel with
      | zero => omega
      | succ fuel =>
          rw [listBytes, M.bind_ok (readCell_some h)]
          cases o <;> first
            | exact ⟨none, rfl, by simp⟩
            | exact absurd rfl (hc _ _)
            | exact absurd rfl (hl _)
  | stop h hc ho =>
      intro fuel hf
      cases fuel with
      | zero => omega
      | succ fuel =>
          rw [listBytes, M.bind_ok (readCell_some h)]
          simp only
          rw [M.bind_ok (deref_some hc)]
          rename_i o
          cases o <;> first
            | exact ⟨none, rfl, by simp⟩
            | exact absurd rfl (ho _)
  | list h hp ih =>
      intro fuel hf
      cases fuel with
      | zero => omega
      | succ fuel =>
          rw [listBytes, M.bind_ok (readCell_some h)]
          simp only [List.length_cons] at hf ⊢
          obtain ⟨bs, h1, h2⟩ := ih fuel (by omega)
          exact ⟨bs, h1, fun l hl => by have := h2 l hl; omega⟩
  | cons h hc hd ih =>
      intro fuel hf
      cases fuel with
      | zero => omega
      | succ fuel =>
          rw [listBytes, M.bind_ok (readCell_some h)]
          simp only [List.length_cons] at hf ⊢
          rw [M.bind_ok (deref_some hc)]
          obtain ⟨bs, h1, h2⟩ := ih fuel (by omega)
          simp only
          rw [M.bind_ok h1]
          cases bs with
          | none => exact ⟨none, rfl, by simp⟩
          | some l =>
              refine ⟨_, rfl, ?_⟩
              intro l' hl'
              cases hl'
              have := h2 l rfl
              simp; omega

theorem post_vectorBytes (hg : Good s) {r cap n : Nat} {vs : Option (List Slot)} {xs : List Obj}
    (hl : Live s r (.elements cap)) (hc : s.heap[r]? = some (.internalVector vs n true))
    (hx : IsVector s r xs) :
    ∀ (m k : Nat), m + k = n →
      Post False InOrder
        (fun b s' => s' = s ∧ (b = none → ∃ j x, k ≤ j ∧ xs[j]? = some x ∧ ∀ i, x ≠ .integer i) ∧
          ∀ l, b = some l → l.length = m) (vectorBytes vs m k s) := by
  obtain ⟨vs', n', hc', hn, hel⟩ := hx
  rw [hc] at hc'
  cases hc'
  intro m
  induction m with
  | zero => intro k _; exact ⟨rfl, by simp, by simp⟩
  | succ m ih =>
      intro k hk
      obtain ⟨c, hs, ho⟩ := hel k (by omega)
      have hxk : xs[k]? = some (xs[k]'(by omega)) := List.getElem?_eq_getElem (by omega)
      rw [hxk] at ho
      rw [vectorBytes, M.bind_ok (slotValue_some hs ho)]
      generalize xs[k]'(by omega) = x at hxk ho
      cases x <;> first
        | (exact ⟨rfl, fun _ => ⟨k, _, Nat.le_refl _, hxk, by simp⟩, by simp⟩)
        | skip
      simp only
      refine Post.bind (ih (k + 1) (by omega)) ?_
      rintro b s ⟨rfl, h1, h2⟩
      cases b with
      | none =>
          obtain ⟨j, x, q1, q2⟩ := h1 rfl
          exact ⟨rfl, fun _ => ⟨j, x, by omega, q2⟩, by simp⟩
      | some l =>
          refine ⟨rfl, by simp, ?_⟩
          intro l' hl'
          cases hl'
          simp [h2 l rfl]

theorem post_makeString (hg : Good s) {a : Nat} (hU : ¬ Faulty s (.makeString a)) :
    Post U InOrder Ends (iMakeString a s) := by
  have new : ∀ bytes : Bytes, bytes.length < 2 ^ 63 →
      Post U InOrder Ends ((do push (← newString bytes) : M Unit) s) := by
    intro bytes hl
    refine Post.bind (post_newString hg hl (fun s' q1 _ => q1)) ?_
    rintro o s1 h
    exact post_push (h.good.pushed h.ok)
  have hsz := hg.sound.heap_size
  unfold iMakeString
  refine Post.bind (post_getArg hg a) ?_
  rintro x s ⟨rfl, ha⟩
  have hx := hg.sound.stack _ (operand_mem ha)
  cases x
  case vector p off =>
    cases p with
    | none => exact absurd (.inl ⟨off, ha⟩) hU
    | some r =>
        obtain ⟨vs, n, hc, hl, h2, h3, h0, h1, hlen, -⟩ := live_of_vector hg hx
        obtain ⟨xs, hxs, -⟩ := vector_operand hg ha
        simp only
        rw [M.bind_ok (vectorStorage_some hc)]
        simp only
        split
        · rename_i hin
          refine Post.bind ((post_vectorBytes hg hl hc hxs (n - off.toNat) off.toNat (by omega)).mono
            False.elim (fun _ _ h => h) (fun _ _ h => h)) ?_
          rintro b s ⟨rfl, q1, q2⟩
          cases b with
          | none =>
              obtain ⟨j, x, w1, w2, w3⟩ := q1 rfl
              exact absurd (.inr (.inl ⟨r, off, ha, .inr ⟨xs, j, x, hxs, by omega, w2, w3⟩⟩)) hU
          | some l =>
              have := q2 l rfl
              exact new l (by omega)
        · rename_i hin
          exact absurd (.inr (.inl ⟨r, off, ha, .inl (by rw [hlen]; omega)⟩)) hU
  case list p =>
    simp only
    rw [M.bind_ok (m := M.get) (a := s) (s' := s) rfl]
    by_cases hr : Readable s.heap p
    · obtain ⟨rs, hv⟩ := visit_of_readable hr
      have hle := visit_length hv
      obtain ⟨bs, h1, h2⟩ := listBytes_visit hv (s.heap.length + 1) (by omega)
      rw [M.bind_ok h1]
      cases bs with
      | none => exact new [] (by simp)
      | some l =>
          have := h2 l rfl
          exact new l (by omega)
    · exact absurd (.inr (.inr ⟨p, ha, hr⟩)) hU
  all_goals exact hg

/-- Every data instruction. -/
theorem post_data {env : Env} {bc : Nat} {st : CodePtr} {i : Instr} (hg : Good s) (hd : IsData i)
    (hl : LiteralsFitMachine i) (hf : ¬ Faulty s i) :
    Post False (fun _ s' => Sound s' ∧ (¬ Builds i → Good s')) Ends (plain env bc st i s) := by
  have up : ∀ {out : Out Unit}, Post False InOrder Ends out →
      Post False (fun _ s' => Sound s' ∧ (¬ Builds i → Good s')) Ends out :=
    fun h => h.mono id (fun _ _ h => ⟨h.sound, fun _ => h⟩) (fun _ _ h => h)
  have vec : Builds i → ∀ {out : Out Unit}, Post False InShape Ends out →
      Post False (fun _ s' => Sound s' ∧ (¬ Builds i → Good s')) Ends out :=
    fun hb _ h => h.mono id (fun _ _ h => ⟨h, fun hn => absurd hb hn⟩) (fun _ _ h => h)
  have fault : Faulty s i → False := hf
  cases i <;> simp only [IsData] at hd <;> simp only [plain]
  case nop => exact hg
  case pushString b => exact up (post_pushString hg hl)
  case pushBool b => exact post_push (hg.pushed trivial)
  case pushInteger b => exact post_push (hg.pushed hl)
  case pushFloat b => exact post_push (hg.pushed trivial)
  case pushIndex a => exact up (post_unary hg fun o _ ho => ⟨rfl, ho⟩)
  case pushSymbol id name =>
    refine up (Post.bind (post_text hg hl) ?_)
    rintro r s1 ⟨h1, h2⟩
    exact post_push (h1.pushed ⟨_, h2⟩)
  case pushStrippedSymbol id => exact post_push (hg.pushed trivial)
  case pushGlobal k => exact up (post_pushGlobal hg k)
  case setGlobal a k => exact up (post_setGlobal hg k fault)
  case move a b => exact up (post_move hg a b)
  case not a => exact up (post_unary hg fun o _ _ => post_notValue hg o)
  case arith op a b =>
    exact up (post_binary hg fun x y hx hy _ _ => post_arithValue hg fun h => fault ⟨x, y, hx, hy, h⟩)
  case equal a b =>
    exact up (post_binary hg fun x y _ _ hx hy => post_boolValue (post_equalValue hg hx hy))
  case greater a b =>
    exact up (post_binary hg fun x y _ _ _ _ => post_boolValue (post_compareValue hg).2)
  case less a b =>
    exact up (post_binary hg fun x y _ _ _ _ => post_boolValue (post_compareValue hg).1)
  case cons a b => exact up (post_cons_safe hg a b)
  case vector as =>
    exact vec trivial (post_vector hg hl (by simp only [Faulty] at hf; omega))
  case makeVector a b => exact vec trivial (post_makeVector_safe hg fault)
  case getVecElt a b => exact up (post_getVecElt hg fault)
  case setVecElt a b c => exact up (post_setVecElt_safe hg fault)
  case car a => exact up (post_unary hg fun o _ ho => post_carValue hg ho)
  case cdr a => exact up (post_unary hg fun o _ ho => post_cdrValue hg ho)
  case setCar a b => exact up (post_setCar hg fault)
  case setCdr a b => exact up (post_setCdr hg fault)
  case nullp a => exact up (post_unary hg fun o _ ho => post_boolValue (post_nullValue hg ho))
  case typeof a => exact up (post_unary hg fun o _ ho => post_typeValue hg ho)
  case makeType => exact up (post_makeType hg)
  case makeInstance a b c => exact up (post_makeInstance_safe hg a b c)
  case compositeValue a => exact up (post_compositePart hg a).1
  case compositeFunction a => exact up (post_compositePart hg a).2
  case setCompositeValue a b => exact up (post_setComposite hg a b).1
  case setCompositeFunction a b => exact up (post_setComposite hg a b).2
  case makeString a => exact up (post_makeString hg fault)
  case concatenate a b => exact up (post_concatenate hg fault)
  case substring a b c => exact up (post_substring hg a b c)
  case length a => exact up (post_unary hg fun o _ ho => post_lengthValue hg ho)
  case symbolString a =>
    exact up (post_unary hg fun o h ho => post_symbolStringValue hg ho fun id e => fault ⟨id, e ▸ h⟩)
  case symbolId a =>
    refine up (post_unary hg fun o h ho => ?_)
    cases o
    case symbol id p =>
      refine ⟨rfl, toPtrdiffS_inRange ?_⟩
      rcases Nat.lt_or_ge id (2 ^ 64) with h' | h'
      · exact h'
      · exact (fault ⟨id, p, h, h'⟩).elim
    all_goals exact hg
  case pop n => exact up (post_popMany hg n)
  case nil => exact post_push (hg.pushed trivial)
  case invalid => exact ⟨hg.sound, fun _ => hg⟩

end DuckLisp.VM
