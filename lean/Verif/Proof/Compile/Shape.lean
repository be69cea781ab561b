import Verif.Proof.Compile.Bytes

/-!
# The shape of code of the core language
-/

namespace DuckLisp.Compile

open DuckLisp DuckLisp.VM DuckLisp.Asm DuckLisp.Spec DuckLisp.Reader

variable [Keys]

/-! ### Which instructions there are -/

/-! ### How much is popped -/

/-- All that a program pops. -/
def popped (code : List Ins) : Int := (code.map pops).sum

theorem popped_append (a b : List Ins) : popped (a ++ b) = popped a + popped b := by
  simp [popped, List.sum_append]

theorem popped_cons (i : Ins) (b : List Ins) : popped (i :: b) = pops i + popped b := by
  simp [popped]

theorem popped_nil : popped [] = 0 := rfl

theorem popped_settle (a b : Nat) (h : a < b) : popped (settleCode a b) = (b : Int) - a - 1 := by
  unfold settleCode
  split
  · simp [popped]; omega
  · simp [popped, pops]; omega

theorem pops_op1 (op : Op1) (a : Int) : pops (op.ins a) = 0 := by cases op <;> rfl
theorem pops_op2 (op : Op2) (a b : Int) : pops (op.ins a b) = 0 := by cases op <;> rfl
theorem pops_op3 (op : Op3) (a b c : Int) : pops (op.ins a b c) = 0 := by cases op <;> rfl

/-- Every instruction pushes at most one value, so no more is popped than there are instructions. -/
theorem Code.popped_le {k bs L l code bs' L' l'} (h : Code k bs L l code bs' L' l') :
    popped code + ((L' : Int) - L) ≤ code.length := by
  induction h
  case setq => split <;> simp [popped_append, popped_cons, popped_nil, pops] <;> omega
  case setqGlobal => split <;> simp [popped_append, popped_cons, popped_nil, pops] <;> omega
  case defGlobal => split <;> simp [popped_append, popped_cons, popped_nil, pops] <;> omega
  case block h ih =>
    have := h.after
    simp only [Piece.After] at this
    rw [popped_append, popped_settle _ _ this.1, List.length_append]
    omega
  case bodyLast h ih =>
    have := h.after
    simp only [Piece.After] at this
    rw [popped_append, popped_settle _ _ this.1, List.length_append]
    omega
  case argsCons h _ ih ih2 =>
    have := h.after
    simp only [Piece.After] at this
    simp only [popped_append, popped_settle _ _ this.1, List.length_append]
    omega
  case bodyCons h _ h2 ih ih2 =>
    have := h.after
    simp only [Piece.After] at this
    simp only [popped_append, popped_cons, popped_nil, pops, List.length_append, List.length_cons, List.length_nil]
    omega
  case varLast h ih =>
    have := h.after
    simp only [Piece.After] at this
    simp only [popped_append, popped_cons, popped_nil, pops, popped_settle _ _ this.1, List.length_append,
      List.length_cons, List.length_nil]
    omega
  case varCons h _ _ ih ih2 =>
    have := h.after
    simp only [Piece.After] at this
    simp only [popped_append, popped_cons, popped_nil, pops, popped_settle _ _ this.1, List.length_append,
      List.length_cons, List.length_nil]
    omega
  case noscopeCons h _ _ ih ih2 =>
    have := h.after
    simp only [Piece.After] at this
    simp only [popped_append, popped_cons, popped_nil, pops, List.length_append,
      List.length_cons, List.length_nil]
    omega
  case if_ c e f code L1 l1 codeF Lf lf codeE Le le B hc hcomp h hB hF hE ih ihF ihE =>
    have h1 := hF.after
    have h2 := hE.after
    have h3 := h.after
    simp only [Piece.After] at h1 h2 h3
    simp only [popped_append, popped_cons, popped_nil, pops, popped_settle _ _ h1.1, popped_settle _ _ h2.1,
      List.length_append, List.length_cons, List.length_nil]
    omega
  case while_ h hc ih ih2 =>
    have h1 := h.after
    have h2 := hc.after
    simp only [Piece.After] at h1 h2
    simp only [popped_append, popped_cons, popped_nil, pops, List.length_append, List.length_cons, List.length_nil]
    omega
  case when_ h hB hE ih ihE =>
    have h1 := hE.after
    have h3 := h.after
    simp only [Piece.After] at h1 h3
    simp only [popped_append, popped_cons, popped_nil, pops,
      List.length_append, List.length_cons, List.length_nil]
    omega
  case unless_ h hB hE ih ihE =>
    have h1 := hE.after
    have h3 := h.after
    simp only [Piece.After] at h1 h3
    simp only [popped_append, popped_cons, popped_nil, pops,
      List.length_append, List.length_cons, List.length_nil]
    omega
  case op1 =>
    simp only [popped_append, popped_cons, popped_nil, pops_op1, List.length_append, List.length_cons, List.length_nil]
    omega
  case op2 =>
    simp only [popped_append, popped_cons, popped_nil, pops_op2, List.length_append, List.length_cons, List.length_nil]
    omega
  case op3 =>
    simp only [popped_append, popped_cons, popped_nil, pops_op3, List.length_append, List.length_cons, List.length_nil]
    omega
  all_goals
    try simp only [popped_append, popped_cons, popped_nil, pops, pops_op1, pops_op2, pops_op3,
      List.length_append, List.length_cons, List.length_nil] at *
    try omega

/-- Every pop is of something. -/
theorem Code.pop_pos {k bs L l code bs' L' l'} (h : Code k bs L l code bs' L' l') :
    ∀ i ∈ code, ∀ n, i = .pop n → 1 ≤ n := by
  have hs : ∀ a b : Nat, a < b → ∀ i ∈ settleCode a b, ∀ n, i = .pop n → 1 ≤ n := by
    intro a b hab i hi n hn
    unfold settleCode at hi
    split at hi
    · cases hi
    · subst hn
      simp at hi
      omega
  have h1 : ∀ (op : Op1) a n, op.ins a ≠ .pop n := by intro op a n; cases op <;> exact Ins.noConfusion
  have h2 : ∀ (op : Op2) a b n, op.ins a b ≠ .pop n := by intro op a b n; cases op <;> exact Ins.noConfusion
  have h3 : ∀ (op : Op3) a b c n, op.ins a b c ≠ .pop n := by intro op a b c n; cases op <;> exact Ins.noConfusion
  induction h
  all_goals
    try simp only [List.forall_mem_append, List.forall_mem_cons, List.forall_mem_singleton,
      List.not_mem_nil, false_imp_iff, implies_true, and_true] at *
  case setq => refine ⟨by assumption, ?_⟩; split <;> simp
  case setqGlobal => refine ⟨by assumption, ?_⟩; split <;> simp
  case defGlobal => refine ⟨by assumption, ?_⟩; split <;> simp
  case block h ih => exact ⟨ih, hs _ _ h.after.1⟩
  case bodyLast h ih => exact ⟨ih, hs _ _ h.after.1⟩
  case argsCons h _ ih ih2 => exact ⟨⟨ih, hs _ _ h.after.1⟩, ih2⟩
  case bodyCons h _ h2 ih ih2 =>
    refine ⟨⟨ih, fun n hn => ?_⟩, ih2⟩
    have := h.after.1
    cases hn
    omega
  case varLast h ih => exact ⟨⟨ih, hs _ _ h.after.1⟩, by simp⟩
  case varCons h _ _ ih ih2 => exact ⟨⟨⟨ih, hs _ _ h.after.1⟩, by simp, by intro n hn; cases hn; omega⟩, ih2⟩
  case noscopeCons ih ih2 => exact ⟨⟨ih, by intro n hn; cases hn; omega⟩, ih2⟩
  case if_ hF hE ih ihF ihE =>
    exact ⟨⟨⟨⟨⟨⟨⟨ih, by simp⟩, ihF⟩, hs _ _ hF.after.1⟩, by simp, by simp⟩, ihE⟩, hs _ _ hE.after.1⟩, by simp⟩
  case while_ h _ ih ih2 =>
    refine ⟨⟨⟨⟨⟨⟨by simp, by simp⟩, ih⟩, fun n hn => ?_⟩, by simp⟩, ih2⟩, by simp, by simp⟩
    have := h.after.1
    cases hn
    omega
  all_goals
    repeat' apply And.intro
  all_goals
    first
    | assumption
    | (simp; done)
    | (intro n hn; exact absurd hn (h1 _ _ _))
    | (intro n hn; exact absurd hn (h2 _ _ _ _))
    | (intro n hn; exact absurd hn (h3 _ _ _ _ _))

/-! ### Labels -/

/-- The labels a program puts. -/
def labels (code : List Ins) : List Nat := code.filterMap fun
  | .label l => some l
  | _ => none

theorem labels_append (a b : List Ins) : labels (a ++ b) = labels a ++ labels b := by simp [labels]

theorem labels_settle (a b : Nat) : labels (settleCode a b) = [] := by
  unfold settleCode
  split <;> rfl

theorem labels_op1 (op : Op1) (a : Int) : labels [op.ins a] = [] ∧ labelOf (op.ins a) = none := by cases op <;> exact ⟨rfl, rfl⟩
theorem labels_op2 (op : Op2) (a b : Int) : labels [op.ins a b] = [] ∧ labelOf (op.ins a b) = none := by
  cases op <;> exact ⟨rfl, rfl⟩
theorem labels_op3 (op : Op3) (a b c : Int) : labels [op.ins a b c] = [] ∧ labelOf (op.ins a b c) = none := by
  cases op <;> exact ⟨rfl, rfl⟩

/-- The labels of a piece of code are its own, each is put once, and the code jumps only to them. -/
structure Own (code : List Ins) (l l' : Nat) : Prop where
  le : l ≤ l'
  mem : ∀ n ∈ labels code, l ≤ n ∧ n < l'
  nodup : (labels code).Nodup
  named : ∀ i ∈ code, ∀ n, labelOf i = some n → n ∈ labels code

theorem Own.plain {code : List Ins} {l : Nat} (h : labels code = []) (h' : ∀ i ∈ code, labelOf i = none) : Own code l l :=
  ⟨Nat.le_refl _, by rw [h]; simp, by rw [h]; exact .nil, fun i hi n hn => by rw [h' i hi] at hn; cases hn⟩

theorem Own.append {a b : List Ins} {l l1 l2 : Nat} (h : Own a l l1) (g : Own b l1 l2) : Own (a ++ b) l l2 where
  le := Nat.le_trans h.le g.le
  mem n hn := by
    have h1 := h.le
    have h2 := g.le
    rw [labels_append, List.mem_append] at hn
    rcases hn with hn | hn
    · have := h.mem n hn; omega
    · have := g.mem n hn; omega
  nodup := by
    rw [labels_append]
    refine List.nodup_append.2 ⟨h.nodup, g.nodup, fun x hx y hy he => ?_⟩
    have := h.mem x hx
    have := g.mem y hy
    omega
  named i hi n hn := by
    rw [labels_append, List.mem_append]
    rcases List.mem_append.1 hi with hi | hi
    · exact .inl (h.named i hi n hn)
    · exact .inr (g.named i hi n hn)

theorem own_settle (a b l : Nat) : Own (settleCode a b) l l := by
  refine .plain (labels_settle a b) fun i hi => ?_
  unfold settleCode at hi
  split at hi
  · cases hi
  · simp only [List.mem_cons, List.not_mem_nil, or_false] at hi
    rcases hi with rfl | rfl <;> rfl

theorem own_one {i : Ins} {l : Nat} (h : labels [i] = [] := by rfl) (h' : labelOf i = none := by rfl) : Own [i] l l :=
  .plain h fun j hj => by rw [List.mem_singleton] at hj; subst hj; exact h'

theorem nodup_of_perm {α : Type} {a b : List α} (h : a.Perm b) (hb : b.Nodup) : a.Nodup := h.nodup_iff.2 hb

/-- Two labels and code in between. -/
theorem Own.wrap {a b c d : List Ins} {l l1 l2 l3 : Nat} {x : List Ins} (ha : Own a l l1) (hb : Own b (l1 + 2) l2)
    (hc : Own c l2 l3) (hx : (labels x).Perm (labels a ++ (l1 :: (l1 + 1) :: (labels b ++ labels c))))
    (hn : ∀ i ∈ x, i ∈ a ∨ i ∈ b ∨ i ∈ c ∨ i ∈ d)
    (hd : ∀ i ∈ d, ∀ n, labelOf i = some n → n = l1 ∨ n = l1 + 1) : Own x l l3 := by
  have h1 := ha.le
  have h2 := hb.le
  have h3 := hc.le
  refine ⟨by omega, fun n hm => ?_, nodup_of_perm hx ?_, fun i hi n hm => hx.mem_iff.2 ?_⟩
  · have := hx.mem_iff.1 hm
    simp only [List.mem_append, List.mem_cons] at this
    rcases this with h | rfl | rfl | h | h
    · have := ha.mem n h; omega
    · omega
    · omega
    · have := hb.mem n h; omega
    · have := hc.mem n h; omega
  · refine List.nodup_append.2 ⟨ha.nodup, ?_, fun x hx y hy he => ?_⟩
    · refine List.nodup_cons.2 ⟨fun hm => ?_, List.nodup_cons.2 ⟨fun hm => ?_, ?_⟩⟩
      · simp only [List.mem_append, List.mem_cons] at hm
        rcases hm with h | h | h
        · omega
        · have := hb.mem _ h; omega
        · have := hc.mem _ h; omega
      · simp only [List.mem_append] at hm
        rcases hm with h | h
        · have := hb.mem _ h; omega
        · have := hc.mem _ h; omega
      · refine List.nodup_append.2 ⟨hb.nodup, hc.nodup, fun x hx y hy he => ?_⟩
        have := hb.mem x hx
        have := hc.mem y hy
        omega
    · have := ha.mem x hx
      simp only [List.mem_append, List.mem_cons] at hy
      rcases hy with h | h | h | h
      · omega
      · omega
      · have := hb.mem y h; omega
      · have := hc.mem y h; omega
  · simp only [List.mem_append, List.mem_cons]
    rcases hn i hi with h | h | h | h
    · exact .inl (ha.named i h n hm)
    · exact .inr (.inr (.inr (.inl (hb.named i h n hm))))
    · exact .inr (.inr (.inr (.inr (hc.named i h n hm))))
    · rcases hd i h n hm with h | h
      · exact .inr (.inl h)
      · exact .inr (.inr (.inl h))

theorem Code.own {k bs L l code bs' L' l'} (h : Code k bs L l code bs' L' l') : Own code l l' := by
  induction h
  case bool => exact own_one
  case int => exact own_one
  case float => exact own_one
  case string => exact own_one
  case var => exact own_one
  case global => exact own_one
  case slot => exact .plain rfl (by simp)
  case globalSlot => exact own_one
  case temp => assumption
  case empty => exact own_one
  case scope => assumption
  case block ih => exact ih.append (own_settle _ _ _)
  case bodyNil => exact own_one
  case bodyLast ih => exact ih.append (own_settle _ _ _)
  case bodyCons ih ih2 => exact (ih.append own_one).append ih2
  case varLast ih => exact (ih.append (own_settle _ _ _)).append own_one
  case varCons ih ih2 =>
    refine ((ih.append (own_settle _ _ _)).append (.plain rfl ?_)).append ih2
    simp [labelOf]
  case noscopeLast => assumption
  case noscopeCons ih ih2 => exact (ih.append own_one).append ih2
  case setq ih => split <;> [exact ih.append (.plain rfl (by simp)); exact ih.append own_one]
  case setqGlobal ih => split <;> [exact ih.append (.plain rfl (by simp)); exact ih.append own_one]
  case defGlobal ih => split <;> [exact ih.append (.plain rfl (by simp)); exact ih.append own_one]
  case op0 => exact own_one
  case op1 ih => exact ih.append (own_one (labels_op1 _ _).1 (labels_op1 _ _).2)
  case op2 ih ih2 => exact (ih.append ih2).append (own_one (labels_op2 _ _ _).1 (labels_op2 _ _ _).2)
  case op3 ih ih2 ih3 =>
    exact ((ih.append ih2).append ih3).append (own_one (labels_op3 _ _ _ _).1 (labels_op3 _ _ _ _).2)
  case declare => exact own_one
  case list ih => exact Own.append own_one ih
  case consNil => exact .plain rfl (by simp)
  case consCons ih ih2 => exact (ih.append own_one).append ih2
  case vector ih => exact (Own.append own_one ih).append own_one
  case elemNil => exact .plain rfl (by simp)
  case elemCons ih ih2 => exact ih.append ih2
  case quote => assumption
  case quotedForm => assumption
  case quotedName => exact own_one
  case quotedList ih => exact Own.append own_one ih
  case quotesNil => exact .plain rfl (by simp)
  case quotesCons ih ih2 => exact (ih.append ih2).append own_one
  case ifConst => assumption
  case if_ bs L l name c e f code L1 l1 codeF Lf lf codeE Le le B hc hcomp h hB hF hE ih ihF ihE =>
    refine Own.wrap (d := [.brnz l1 ((condPops c L L1 : Nat) : Int), .jump (l1 + 1), .label l1, .label (l1 + 1)] ++
      settleCode B Lf ++ settleCode B Le) ih ihF ihE ?_ ?_ ?_
    · simp only [labels_append, labels_settle, List.append_nil]
      show ((((labels code ++ []) ++ labels codeF) ++ [l1]) ++ labels codeE ++ [l1 + 1]).Perm _
      simp only [List.append_nil, List.append_assoc]
      refine List.Perm.append_left _ ?_
      refine List.perm_middle.trans (List.Perm.cons _ ?_)
      show (labels codeF ++ (labels codeE ++ [l1 + 1])).Perm _
      rw [← List.append_assoc]
      exact List.perm_append_singleton _ _
    · intro i hi
      simp only [List.mem_append, List.mem_cons, List.not_mem_nil, or_false] at hi ⊢
      grind
    · intro i hi n hn
      rcases List.mem_append.1 hi with hi | hi
      · rcases List.mem_append.1 hi with hi | hi
        · simp only [List.mem_cons, List.not_mem_nil, or_false] at hi
          rcases hi with rfl | rfl | rfl | rfl <;> simp [labelOf] at hn <;> omega
        · have := (own_settle B Lf 0).named i hi n hn
          rw [labels_settle] at this
          cases this
      · have := (own_settle B Le 0).named i hi n hn
        rw [labels_settle] at this
        cases this
  case whenTrue => assumption
  case whenFalse => exact own_one
  case when_ bs L l name c es code L1 l1 codeE Le le B hc hcomp h hB hE ih ihE =>
    refine Own.wrap (d := [.brnz l1 ((condPops c L L1 : Nat) : Int), .nil, .jump (l1 + 1), .label l1, .label (l1 + 1)])
      ih ihE (Own.plain (code := []) rfl (by simp)) ?_ ?_ ?_
    · simp only [labels_append]
      show (((labels code ++ []) ++ [l1]) ++ labels codeE ++ [l1 + 1]).Perm (labels code ++ l1 :: (l1 + 1) :: (labels codeE ++ []))
      simp only [List.append_nil, List.append_assoc]
      refine List.Perm.append_left _ ?_
      exact List.Perm.cons _ (List.perm_append_singleton _ _)
    · intro i hi
      simp only [List.mem_append, List.mem_cons, List.not_mem_nil, or_false] at hi ⊢
      grind
    · intro i hi n hn
      simp only [List.mem_cons, List.not_mem_nil, or_false] at hi
      rcases hi with rfl | rfl | rfl | rfl | rfl <;> simp [labelOf] at hn <;> omega
  case unlessTrue => exact own_one
  case unlessFalse => assumption
  case unless_ bs L l name c es code L1 l1 codeE Le le B hc hcomp h hB hE ih ihE =>
    refine Own.wrap (d := [.brnz l1 ((condPops c L L1 : Nat) : Int), .nil, .jump (l1 + 1), .label l1, .label (l1 + 1)])
      ih ihE (Own.plain (code := []) rfl (by simp)) ?_ ?_ ?_
    · simp only [labels_append]
      show (((labels code ++ []) ++ labels codeE) ++ [l1] ++ [l1 + 1]).Perm (labels code ++ l1 :: (l1 + 1) :: (labels codeE ++ []))
      simp only [List.append_nil, List.append_assoc]
      refine List.Perm.append_left _ ?_
      exact List.perm_append_comm (l₂ := [l1, l1 + 1])
    · intro i hi
      simp only [List.mem_append, List.mem_cons, List.not_mem_nil, or_false] at hi ⊢
      grind
    · intro i hi n hn
      simp only [List.mem_cons, List.not_mem_nil, or_false] at hi
      rcases hi with rfl | rfl | rfl | rfl | rfl <;> simp [labelOf] at hn <;> omega
  case while_ bs L l name c es code L1 l1 codeC Lc lc hc hcomp h h2 ih ih2 =>
    refine Own.wrap (d := [.jump l, .label (l + 1), .pop ((L1 - L : Nat) : Int), .label l,
      .brnz (l + 1) ((Lc - L : Nat) : Int), .nil]) (Own.plain (code := []) (l := l) rfl (by simp)) ih ih2 ?_ ?_ ?_
    · simp only [labels_append]
      show (((([l + 1] ++ labels code) ++ []) ++ [l] ++ labels codeC) ++ []).Perm
        ([] ++ l :: (l + 1) :: (labels code ++ labels codeC))
      simp only [List.append_nil, List.append_assoc, List.nil_append]
      exact List.perm_middle (l₁ := [l + 1] ++ labels code)
    · intro i hi
      simp only [List.mem_append, List.mem_cons, List.not_mem_nil, or_false] at hi ⊢
      grind
    · intro i hi n hn
      simp only [List.mem_cons, List.not_mem_nil, or_false] at hi
      rcases hi with rfl | rfl | rfl | rfl | rfl | rfl <;> simp [labelOf] at hn <;> omega
  case lambda bs L l name params rest forms code l' hd hn hp h ih =>
    refine Own.wrap (d := [.jump l, .label (l + 1), .return_ ((params ++ rest.toList).length : Nat), .label l,
      .pushClosure rest.isSome (l + 1) (params.length : Nat) []]) (Own.plain (code := []) (l := l) rfl (by simp)) ih
      (Own.plain (code := []) rfl (by simp)) ?_ ?_ ?_
    · simp only [labels_append]
      show (([l + 1] ++ labels code) ++ [l]).Perm ([] ++ l :: (l + 1) :: (labels code ++ []))
      simp only [List.append_nil, List.nil_append]
      exact List.perm_append_singleton l ((l + 1) :: labels code)
    · intro i hi
      simp only [List.mem_append, List.mem_cons, List.not_mem_nil, or_false] at hi ⊢
      grind
    · intro i hi n hn
      simp only [List.mem_cons, List.not_mem_nil, or_false] at hi
      rcases hi with rfl | rfl | rfl | rfl | rfl <;> simp [labelOf] at hn <;> omega
  case funcall ih ih2 => exact (ih.append ih2).append own_one
  case apply ih ih2 => exact (ih.append ih2).append own_one
  case call ih => exact (Own.append own_one ih).append own_one
  case argsNil => exact .plain rfl (by simp)
  case argsCons ih ih2 => exact (ih.append (own_settle _ _ _)).append ih2

end DuckLisp.Compile
