import Verif.Proof.Compile.Load
import Verif.Proof.Compile.Limit

/-!
# Operands of the code of a program
-/

namespace DuckLisp.Compile

open DuckLisp DuckLisp.VM DuckLisp.Asm DuckLisp.Spec DuckLisp.Reader

variable [Keys]

/-- A position or a count. -/
def Upto (N : Nat) (x : Int) : Prop := 0 ≤ x ∧ x ≤ N

/-- All the positions and counts. -/
def Within (N : Nat) : Ins → Prop
  | .pushIndex a | .pop a | .not a | .car a | .cdr a | .nullp a
  | .typeof a | .compositeValue a | .compositeFunction a | .length a | .symbolString a | .symbolId a
  | .makeString a | .brnz _ a => Upto N a
  | .setGlobal a _ => Upto N a
  | .return_ a => Upto N a
  | .funcall a n | .apply a n => Upto N a ∧ Upto N n
  | .pushClosure _ _ arity captures => captures = [] ∧ Upto N arity
  | .move a b | .arith _ a b | .equal a b | .greater a b
  | .less a b | .cons a b | .makeVector a b | .getVecElt a b | .setCar a b | .setCdr a b
  | .setCompositeValue a b | .setCompositeFunction a b | .concatenate a b => Upto N a ∧ Upto N b
  | .setVecElt a b c | .makeInstance a b c | .substring a b c => Upto N a ∧ Upto N b ∧ Upto N c
  | .vector n as => n = as.length ∧ ∀ a ∈ as, Upto N a
  | .pushString len s => len = s.length ∧ s.length < 65536
  | .pushSymbol _ len s => len = s.length ∧ s.length < 65536
  | .pushBoolean _ | .pushInteger _ | .pushFloat _ | .pushGlobal _ | .nil | .makeType | .jump _ | .label _
  | .halt => True
  | _ => False

/-- What a piece needs to start with. -/
def Piece.Sane (k : Piece) (L : Nat) : Prop :=
  match k with
  | .conses _ i => i < L
  | .elements _ is _ => ∀ i ∈ is, i < L
  | _ => True

/-- What a piece ends with. -/
def Piece.Safe (k : Piece) (L : Nat) : Prop :=
  match k with
  | .operand _ i => i < L
  | .elements _ _ all => ∀ i ∈ all, i < L
  | _ => True

theorem Code.grows {k bs L l code bs' L' l'} (h : Code k bs L l code bs' L' l') : L' ≤ L + code.length := by
  have h1 := h.popped_le
  have h2 : 0 ≤ popped code := pops_nonneg fun n hn => h.pop_pos _ hn n rfl
  omega

theorem bounded_op1 {N : Nat} {a : Int} (op : Op1) (h : Upto N a) : Within N (op.ins a) := by cases op <;> exact h

theorem bounded_op2 {N : Nat} {a b : Int} (op : Op2) (h : Upto N a) (h2 : Upto N b) : Within N (op.ins a b) := by
  cases op <;> exact ⟨h, h2⟩

theorem bounded_op3 {N : Nat} {a b c : Int} (op : Op3) (h : Upto N a) (h2 : Upto N b) (h3 : Upto N c) :
    Within N (op.ins a b c) := by cases op <;> exact ⟨h, h2, h3⟩

theorem bounded_settle {N a b : Nat} (h : b ≤ N) (h1 : a < b) : ∀ i ∈ settleCode a b, Within N i := by
  unfold settleCode
  split
  · intro i hi; cases hi
  · intro i hi
    simp only [List.mem_cons, List.not_mem_nil, or_false] at hi
    rcases hi with rfl | rfl
    · exact ⟨⟨by omega, by omega⟩, by omega, by omega⟩
    · exact ⟨by omega, by omega⟩

theorem findBlock_slots {x : Bytes} {k : Nat} : ∀ {b : List (Bytes × Nat)}, b.lookup x = some k → k ∈ b.map Prod.snd
  | (y, j) :: b, h => by
    rw [List.lookup_cons] at h
    split at h
    · cases h; simp
    · simp [findBlock_slots h]

theorem findVar_slots {x : Bytes} {k : Nat} : ∀ {bs : Blocks}, findVar bs x = some k → k ∈ slots bs
  | b :: bs, h => by
    rw [slots_cons]
    simp only [findVar] at h
    split at h
    · rename_i h1
      cases h
      exact List.mem_append_left _ (findBlock_slots h1)
    · exact List.mem_append_right _ (findVar_slots h)

theorem fits_find {bs : Blocks} {L k : Nat} {x : Bytes} (hf : Fits bs L) (h : findVar bs x = some k) : k < L :=
  hf.2 k (findVar_slots h)

theorem upto_sub {L i N : Nat} (h : i ≤ L) (hN : L ≤ N) : Upto N ((L : Int) - i) := ⟨by omega, by omega⟩

theorem upto_nat {n N : Nat} (hN : n ≤ N) : Upto N (n : Int) := ⟨by omega, by omega⟩

theorem callee_le {bs : Blocks} {L L1 : Nat} (hf : Fits bs L) (f : Ast) (h : L ≤ L1) : callee bs f L1 ≤ L1 := by
  unfold callee
  split
  · cases hx : findVar bs _ with
    | none => simp
    | some k => have := fits_find hf hx; simp; omega
  · omega

theorem Code.bounded {N : Nat} {k bs L l code bs' L' l'} (h : Code k bs L l code bs' L' l') :
    Fits bs L → k.Sane L → L + Spec.room code ≤ N → (∀ i ∈ code, Within N i) ∧ k.Safe L' := by
  have one : ∀ {n : Nat}, 0 < n → n ≤ N → Upto N 1 := fun h1 h2 => ⟨by omega, by omega⟩
  induction h with
  | bool | int | float | global | empty | bodyNil | op0 | declare | whenFalse | unlessTrue =>
    intro hf hs hN
    refine ⟨?_, trivial⟩
    intro i hi
    rw [List.mem_singleton] at hi
    subst hi
    exact trivial
  | string s =>
    intro hf hs hN
    refine ⟨?_, trivial⟩
    intro i hi
    rw [List.mem_singleton] at hi
    subst hi
    exact ⟨rfl, by rw [List.length_take]; omega⟩
  | quotedName =>
    intro hf hs hN
    refine ⟨?_, trivial⟩
    intro i hi
    rw [List.mem_singleton] at hi
    subst hi
    exact ⟨rfl, by rw [List.length_take]; omega⟩
  | var h =>
    intro hf hs hN
    refine ⟨?_, trivial⟩
    intro i hi
    rw [List.mem_singleton] at hi
    subst hi
    have := fits_find hf h
    exact upto_sub (by omega) (by omega)
  | slot h => exact fun hf hs hN => ⟨by simp, fits_find hf h⟩
  | globalSlot =>
    intro hf hs hN
    refine ⟨?_, Nat.lt_succ_self _⟩
    intro i hi
    rw [List.mem_singleton] at hi
    subst hi
    exact trivial
  | temp hne h ih =>
    intro hf hs hN
    have := h.after
    simp only [Piece.After] at this
    exact ⟨(ih hf trivial hN).1, by simp only [Piece.Safe]; omega⟩
  | scope ho h ih => exact fun hf hs hN => ⟨(ih hf trivial hN).1, trivial⟩
  | block h ih =>
    intro hf hs hN
    have h1 := h.after
    have h2 := h.room
    simp only [Piece.After, room_append] at h1 hN
    refine ⟨List.forall_mem_append.2 ⟨(ih hf.open trivial (by omega)).1, bounded_settle (by omega) h1.1⟩, trivial⟩
  | bodyLast hsp h ih =>
    intro hf hs hN
    have h1 := h.after
    have h2 := h.room
    simp only [Piece.After, room_append] at h1 hN
    refine ⟨List.forall_mem_append.2 ⟨(ih hf trivial (by omega)).1, bounded_settle (by omega) h1.1⟩, trivial⟩
  | bodyCons hsp h hr h2 ih ih2 =>
    intro hf hs hN
    have h3 := h.room
    simp only [room_append, room_cons, room_nil, Ins.room] at hN
    simp only [List.forall_mem_append, List.forall_mem_singleton]
    exact ⟨⟨⟨(ih hf trivial (by omega)).1, upto_nat (by omega)⟩, (ih2 hf trivial (by omega)).1⟩, trivial⟩
  | varLast hn h ih =>
    intro hf hs hN
    have h1 := h.after
    have h2 := h.room
    simp only [Piece.After, room_append, room_cons, room_nil, Ins.room] at h1 hN
    simp only [List.forall_mem_append, List.forall_mem_singleton]
    exact ⟨⟨⟨(ih hf trivial (by omega)).1, bounded_settle (by omega) h1.1⟩, ⟨by omega, by omega⟩⟩, trivial⟩
  | varCons hn h hr h2 ih ih2 =>
    intro hf hs hN
    have h1 := h.after
    have h2 := h.room
    simp only [Piece.After, room_append, room_cons, room_nil, Ins.room] at h1 hN
    simp only [List.forall_mem_append, List.forall_mem_cons, List.not_mem_nil, false_imp_iff, implies_true, and_true]
    exact ⟨⟨⟨⟨(ih hf trivial (by omega)).1, bounded_settle (by omega) h1.1⟩, ⟨by omega, by omega⟩, ⟨by omega, by omega⟩⟩,
      (ih2 (hf.add _) trivial (by omega)).1⟩, trivial⟩
  | noscopeLast hn h ih => exact fun hf hs hN => ⟨(ih hf trivial hN).1, trivial⟩
  | noscopeCons hn h hr h2 ih ih2 =>
    intro hf hs hN
    have h1 := h.after
    have h3 := h.room
    have hbl := h.blocks
    simp only [Piece.After, Piece.Extends, room_append, room_cons, room_nil, Ins.room] at h1 hbl hN
    simp only [List.forall_mem_append, List.forall_mem_singleton]
    exact ⟨⟨⟨(ih hf trivial (by omega)).1, ⟨by omega, by omega⟩⟩, (ih2 (hbl hf).1 trivial (by omega)).1⟩, trivial⟩
  | setq hn h hx ih =>
    intro hf hs hN
    have h1 := h.after
    have h2 := h.room
    have h3 := fits_find hf hx
    simp only [Piece.After, room_append] at h1 hN
    refine ⟨List.forall_mem_append.2 ⟨(ih hf trivial (by omega)).1, ?_⟩, trivial⟩
    split
    · simp
    · rw [List.forall_mem_singleton]
      exact ⟨one (n := N) (by omega) (by omega), upto_sub (by omega) (by omega)⟩
  | setqGlobal key _ _ hn h hx ih =>
    intro hf hs hN
    have h1 := h.after
    have h2 := h.room
    simp only [Piece.After, room_append] at h1 hN
    refine ⟨List.forall_mem_append.2 ⟨(ih hf trivial (by omega)).1, ?_⟩, trivial⟩
    split
    · simp
    · rw [List.forall_mem_singleton]
      exact one (n := N) (by omega) (by omega)
  | defGlobal key _ _ hn h ih =>
    intro hf hs hN
    have h1 := h.after
    have h2 := h.room
    simp only [Piece.After, room_append] at h1 hN
    refine ⟨List.forall_mem_append.2 ⟨(ih hf trivial (by omega)).1, ?_⟩, trivial⟩
    split
    · simp
    · rw [List.forall_mem_singleton]
      exact one (n := N) (by omega) (by omega)
  | op1 op hg h ih =>
    intro hf hs hN
    have hp := fun x => room_pos (op.ins x)
    have h2 := h.room
    simp only [room_append, room_cons, room_nil, Ins.room] at hN
    simp only [List.forall_mem_append, List.forall_mem_singleton]
    obtain ⟨b1, s1⟩ := ih hf trivial (by omega)
    simp only [Piece.Safe] at s1
    exact ⟨⟨b1, bounded_op1 op (upto_sub (by omega) (by omega))⟩, trivial⟩
  | op2 op hg h h' ih ih' =>
    intro hf hs hN
    have hp := fun x y => room_pos (op.ins x y)
    have h2 := h.room
    have h2' := h'.room
    have h3 := h.after
    have h3' := h'.after
    simp only [Piece.After, room_append, room_cons, room_nil, Ins.room] at hN h3 h3'
    simp only [List.forall_mem_append, List.forall_mem_singleton]
    obtain ⟨b1, s1⟩ := ih hf trivial (by omega)
    obtain ⟨b2, s2⟩ := ih' (hf.mono h3.1) trivial (by omega)
    simp only [Piece.Safe] at s1 s2
    exact ⟨⟨⟨b1, b2⟩, bounded_op2 op (upto_sub (by omega) (by omega)) (upto_sub (by omega) (by omega))⟩, trivial⟩
  | op3 op hg h h' h'' ih ih' ih'' =>
    intro hf hs hN
    have hp := fun x y z => room_pos (op.ins x y z)
    have h2 := h.room
    have h2' := h'.room
    have h2'' := h''.room
    have h3 := h.after
    have h3' := h'.after
    have h3'' := h''.after
    simp only [Piece.After, room_append, room_cons, room_nil, Ins.room] at hN h3 h3' h3''
    simp only [List.forall_mem_append, List.forall_mem_singleton]
    obtain ⟨b1, s1⟩ := ih hf trivial (by omega)
    obtain ⟨b2, s2⟩ := ih' (hf.mono h3.1) trivial (by omega)
    obtain ⟨b3, s3⟩ := ih'' (hf.mono (by omega)) trivial (by omega)
    simp only [Piece.Safe] at s1 s2 s3
    exact ⟨⟨⟨⟨b1, b2⟩, b3⟩, bounded_op3 op (upto_sub (by omega) (by omega)) (upto_sub (by omega) (by omega))
      (upto_sub (by omega) (by omega))⟩, trivial⟩
  | list hn h ih =>
    intro hf hs hN
    simp only [room_append, room_cons, room_nil, Ins.room] at hN
    simp only [List.forall_mem_append, List.forall_mem_singleton]
    exact ⟨⟨trivial, (ih (hf.mono (by omega)) (Nat.lt_succ_self _) (by omega)).1⟩, trivial⟩
  | consNil => exact fun hf hs hN => ⟨by simp, trivial⟩
  | consCons h h2 ih ih2 =>
    intro hf hs hN
    have h3 := h.after
    have h4 := h.room
    simp only [Piece.After, Piece.Sane, room_append, room_cons, room_nil, Ins.room] at hN h3 hs
    simp only [List.forall_mem_append, List.forall_mem_singleton]
    obtain ⟨b1, s1⟩ := ih hf trivial (by omega)
    simp only [Piece.Safe] at s1
    exact ⟨⟨⟨b1, upto_sub (by omega) (by omega), upto_sub (by omega) (by omega)⟩,
      (ih2 (hf.mono (by omega)) (Nat.lt_succ_self _) (by omega)).1⟩, trivial⟩
  | vector hn h ih =>
    intro hf hs hN
    have h4 := h.room
    simp only [room_append, room_cons, room_nil, Ins.room] at hN
    simp only [List.forall_mem_append, List.forall_mem_singleton]
    obtain ⟨b1, s1⟩ := ih (hf.mono (by omega)) (by simp [Piece.Sane]) (by omega)
    refine ⟨⟨⟨trivial, b1⟩, by simp, fun a ha => ?_⟩, trivial⟩
    obtain ⟨i, hi, rfl⟩ := List.mem_map.1 ha
    have := s1 i hi
    exact upto_sub (by omega) (by omega)
  | elemNil => exact fun hf hs hN => ⟨by simp, hs⟩
  | elemCons h h2 ih ih2 =>
    intro hf hs hN
    have h3 := h.after
    have h4 := h.room
    simp only [Piece.After, Piece.Sane, room_append] at hN h3 hs
    obtain ⟨b1, s1⟩ := ih hf trivial (by omega)
    simp only [Piece.Safe] at s1
    obtain ⟨b2, s2⟩ := ih2 (hf.mono (by omega)) (by
      intro i hi
      rcases List.mem_cons.1 hi with rfl | hi
      · exact s1
      · have := hs i hi; omega) (by omega)
    exact ⟨List.forall_mem_append.2 ⟨b1, b2⟩, s2⟩
  | quote hn h ih => exact fun hf hs hN => ⟨(ih hf trivial hN).1, trivial⟩
  | quotedForm h1 h2 h ih => exact fun hf hs hN => ⟨(ih hf trivial hN).1, trivial⟩
  | quotedList h ih =>
    intro hf hs hN
    simp only [room_append, room_cons, room_nil, Ins.room] at hN
    simp only [List.forall_mem_append, List.forall_mem_singleton]
    exact ⟨⟨trivial, (ih (hf.mono (by omega)) trivial (by omega)).1⟩, trivial⟩
  | quotesNil => exact fun hf hs hN => ⟨by simp, trivial⟩
  | quotesCons h h2 ih ih2 =>
    intro hf hs hN
    have h3 := h.after
    have h3' := h2.after
    have h4 := h.room
    have h4' := h2.room
    simp only [Piece.After, room_append, room_cons, room_nil, Ins.room] at hN h3 h3'
    simp only [List.forall_mem_append, List.forall_mem_singleton]
    exact ⟨⟨⟨(ih hf trivial (by omega)).1, (ih2 (hf.mono (by omega)) trivial (by omega)).1⟩,
      one (n := N) (by omega) (by omega), upto_nat (by omega)⟩, trivial⟩
  | ifConst hn hc h ih => exact fun hf hs hN => ⟨(ih hf trivial hN).1, trivial⟩
  | @if_ bs L l name c e f code L1 l1 codeF Lf lf codeE Le le B hn hc h hB hF hE ih ihF ihE =>
    intro hf hs hN
    have h1 := hF.after
    have h2 := hE.after
    have h3 := h.after
    have g1 := hF.room
    have g2 := hE.room
    have g3 := h.room
    have hcp := condPops_le c L L1
    simp only [Piece.After, room_append, room_cons, room_nil, Ins.room] at hN h1 h2 h3
    simp only [List.forall_mem_append, List.forall_mem_cons, List.not_mem_nil, false_imp_iff, implies_true, and_true]
    have b1 := (ih hf trivial (by omega)).1
    have b2 := (ihF (hf.mono (by omega)) trivial (by omega)).1
    have b3 := (ihE (hf.mono (by omega)) trivial (by omega)).1
    have b4 := bounded_settle (N := N) (b := Lf) (by omega) h1.1
    have b5 := bounded_settle (N := N) (b := Le) (by omega) h2.1
    have b6 : Within N (.brnz l (condPops c L L1)) := upto_nat (by omega)
    refine ⟨?_, trivial⟩
    repeat' apply And.intro
    all_goals first | assumption | trivial | omega
  | whenTrue hn hc h ih => exact fun hf hs hN => ⟨(ih hf trivial hN).1, trivial⟩
  | @when_ bs L l name c es code L1 l1 codeE Le le B hn hc h hB hE ih ihE =>
    intro hf hs hN
    have h2 := hE.after
    have h3 := h.after
    have g2 := hE.room
    have g3 := h.room
    have hcp := condPops_le c L L1
    simp only [Piece.After, room_append, room_cons, room_nil, Ins.room] at hN h2 h3
    simp only [List.forall_mem_append, List.forall_mem_cons, List.not_mem_nil, false_imp_iff, implies_true, and_true]
    exact ⟨⟨⟨⟨⟨(ih hf trivial (by omega)).1, upto_nat (by omega)⟩, trivial, trivial, trivial⟩,
      (ihE (hf.mono (by omega)) trivial (by omega)).1⟩, trivial⟩, trivial⟩
  | unlessFalse hn hc h ih => exact fun hf hs hN => ⟨(ih hf trivial hN).1, trivial⟩
  | @unless_ bs L l name c es code L1 l1 codeE Le le B hn hc h hB hE ih ihE =>
    intro hf hs hN
    have h2 := hE.after
    have h3 := h.after
    have g2 := hE.room
    have g3 := h.room
    have hcp := condPops_le c L L1
    simp only [Piece.After, room_append, room_cons, room_nil, Ins.room] at hN h2 h3
    simp only [List.forall_mem_append, List.forall_mem_cons, List.not_mem_nil, false_imp_iff, implies_true, and_true]
    exact ⟨⟨⟨⟨⟨(ih hf trivial (by omega)).1, upto_nat (by omega)⟩,
      (ihE (hf.mono (by omega)) trivial (by omega)).1⟩, trivial, trivial, trivial⟩, trivial⟩, trivial⟩
  | @while_ bs L l name c es code L1 l1 codeC Lc lc hn hc h hC ih ihC =>
    intro hf hs hN
    have h2 := hC.after
    have h3 := h.after
    have g2 := hC.room
    have g3 := h.room
    simp only [Piece.After, room_append, room_cons, room_nil, Ins.room] at hN h2 h3
    simp only [List.forall_mem_append, List.forall_mem_cons, List.not_mem_nil, false_imp_iff, implies_true, and_true]
    exact ⟨⟨⟨⟨⟨⟨trivial, trivial⟩, (ih hf.open trivial (by omega)).1⟩, upto_nat (by omega)⟩, trivial⟩,
      (ihC hf trivial (by omega)).1⟩, upto_nat (by omega), trivial⟩ |> fun h => ⟨h, trivial⟩
  | @lambda bs L l name params rest forms code l' hd hn hp h ih =>
    intro hf hs hN
    simp only [room_append, room_cons, room_nil, Ins.room] at hN
    have hnames : (params ++ rest.toList).length ≤ params.length + 1 := by cases rest <;> simp
    simp only [List.forall_mem_append, List.forall_mem_cons, List.not_mem_nil, false_imp_iff, implies_true, and_true]
    refine ⟨⟨⟨⟨trivial, trivial⟩, (ih ?_ trivial (by omega)).1⟩, upto_nat (by omega), trivial, ⟨rfl, upto_nat (by omega)⟩⟩, trivial⟩
    exact (fits_params (L + 1) _)
  | @funcall bs L l name f code L1 l1 es code2 l2 hd hn h h2 ih ih2 =>
    intro hf hs hN
    have h3 := h.after
    have h4 := h.room
    have h5 := h2.room
    simp only [Piece.After, room_append, room_cons, room_nil, Ins.room] at hN h3
    simp only [List.forall_mem_append, List.forall_mem_singleton]
    refine ⟨⟨⟨(ih hf trivial (by omega)).1, (ih2 (hf.mono (by omega)) trivial (by omega)).1⟩, ?_, ?_⟩, trivial⟩
    · have := callee_le hf f (Nat.le_of_lt h3.1)
      exact upto_sub (by omega) (by omega)
    · exact upto_nat (by omega)
  | @apply bs L l name f code L1 l1 es code2 l2 hd hn hne h h2 ih ih2 =>
    intro hf hs hN
    have h3 := h.after
    have h4 := h.room
    have h5 := h2.room
    simp only [Piece.After, room_append, room_cons, room_nil, Ins.room] at hN h3
    simp only [List.forall_mem_append, List.forall_mem_singleton]
    refine ⟨⟨⟨(ih hf trivial (by omega)).1, (ih2 (hf.mono (by omega)) trivial (by omega)).1⟩, ?_, ?_⟩, trivial⟩
    · have := callee_le hf f (Nat.le_of_lt h3.1)
      exact upto_sub (by omega) (by omega)
    · exact upto_nat (by omega)
  | @call bs L l name es code l1 key hd hcl hk h ih =>
    intro hf hs hN
    have h5 := h.room
    simp only [room_append, room_cons, room_nil, Ins.room] at hN
    simp only [List.forall_mem_append, List.forall_mem_singleton]
    exact ⟨⟨⟨trivial, (ih (hf.mono (by omega)) trivial (by omega)).1⟩, upto_nat (by omega), upto_nat (by omega)⟩, trivial⟩
  | argsNil => exact fun hf hs hN => ⟨by simp, trivial⟩
  | argsCons h h2 ih ih2 =>
    intro hf hs hN
    have h1 := h.after
    have h3 := h.room
    simp only [Piece.After, room_append] at hN h1
    simp only [List.forall_mem_append]
    exact ⟨⟨⟨(ih hf trivial (by omega)).1, bounded_settle (by omega) h1.1⟩,
      (ih2 (hf.mono (by omega)) trivial (by omega)).1⟩, trivial⟩

/-- Literals and the numbers of symbols, of globals and of the elements of a vector. -/
theorem bounded_format {i : Ins} (h : Within 255 i) (hl : LiteralsFit i) : InFormat i ∧ SmallWhereNeeded i := by
  have up : ∀ {x : Int}, Upto 255 x → Word x := fun h => ⟨h.1, by have := h.2; omega⟩
  have oc : ∀ {x : Int}, Upto 255 x → Octet x := fun h => ⟨h.1, by have := h.2; omega⟩
  have sh : ∀ {x : Int}, Upto 255 x → Short x := fun h => ⟨h.1, by have := h.2; omega⟩
  cases i
  case pushString => exact ⟨⟨h.1, by obtain ⟨h1, h2⟩ := h; subst h1; exact ⟨by omega, by omega⟩⟩, trivial⟩
  case pushSymbol => exact ⟨⟨hl, h.1, by obtain ⟨h1, h2⟩ := h; subst h1; exact ⟨by omega, by omega⟩⟩, trivial⟩
  case vector n as => exact ⟨⟨h.1, hl, fun a ha => up (h.2 a ha)⟩, fun _ a ha => oc (h.2 a ha), fun _ a ha => sh (h.2 a ha)⟩
  case equal => exact ⟨⟨up h.1, up h.2⟩, .inl ⟨oc h.1, oc h.2⟩⟩
  case setVecElt => exact ⟨⟨up h.1, up h.2.1, up h.2.2⟩, fun _ => oc h.2.2, fun _ => sh h.2.2⟩
  case substring => exact ⟨⟨up h.1, up h.2.1, up h.2.2⟩, fun _ => oc h.2.2, fun _ => sh h.2.2⟩
  case makeInstance => exact ⟨⟨up h.1, up h.2.1, up h.2.2⟩, trivial⟩
  case brnz => exact ⟨oc h, trivial⟩
  case setGlobal => exact ⟨⟨up h, hl⟩, trivial⟩
  case funcall => exact ⟨⟨up h.1, oc h.2⟩, trivial⟩
  case apply => exact ⟨⟨up h.1, oc h.2⟩, trivial⟩
  case pushClosure => obtain ⟨rfl, h⟩ := h; exact ⟨⟨oc h, ⟨by decide, by decide⟩, by simp⟩, trivial⟩
  all_goals
    first
    | exact ⟨trivial, trivial⟩
    | exact absurd h id
    | exact ⟨hl, trivial⟩
    | exact ⟨up h, trivial⟩
    | exact ⟨⟨up h.1, up h.2⟩, trivial⟩

theorem whole_bounded {e : Ast} {code : List Ins} {L l : Nat} (hc : Code (.form e) [[]] 0 0 code [[]] L l) :
    ∀ i ∈ code ++ epilogue L ++ [Ins.halt], Within (Spec.room (code ++ epilogue L ++ [Ins.halt])) i := by
  intro i hi
  rw [List.append_assoc] at hi
  rcases List.mem_append.1 hi with hi | hi
  · refine (hc.bounded ⟨by simp [slots], by simp [slots]⟩ trivial ?_).1 i hi
    simp only [room_append]
    omega
  · unfold epilogue at hi ⊢
    split at hi
    · rename_i hL
      rw [if_pos hL]
      simp only [List.cons_append, List.nil_append, List.mem_cons, List.not_mem_nil, or_false] at hi
      simp only [room_append, room_cons, room_nil, Ins.room]
      rcases hi with rfl | rfl | rfl
      · exact ⟨⟨by omega, by omega⟩, by omega, by omega⟩
      · exact ⟨by omega, by omega⟩
      · trivial
    · simp only [List.nil_append, List.mem_singleton] at hi
      subst hi
      trivial

theorem Within.mono {N M : Nat} (h : N ≤ M) {i : Ins} (hi : Within N i) : Within M i := by
  have up : ∀ {x : Int}, Upto N x → Upto M x := fun h => ⟨h.1, by have := h.2; omega⟩
  cases i
  case vector n as => exact ⟨hi.1, fun a ha => up (hi.2 a ha)⟩
  case pushClosure => exact ⟨hi.1, up hi.2⟩
  case setVecElt => exact ⟨up hi.1, up hi.2.1, up hi.2.2⟩
  case substring => exact ⟨up hi.1, up hi.2.1, up hi.2.2⟩
  case makeInstance => exact ⟨up hi.1, up hi.2.1, up hi.2.2⟩
  all_goals
    first
    | exact hi
    | exact up hi
    | exact ⟨up hi.1, up hi.2⟩

theorem whole_format {e : Ast} {code : List Ins} {L l : Nat} (hc : Code (.form e) [[]] 0 0 code [[]] L l)
    (hlen : Spec.room (code ++ epilogue L ++ [Ins.halt]) ≤ 255)
    (hl : ∀ i ∈ code ++ epilogue L ++ [Ins.halt], LiteralsFit i) :
    ∀ i ∈ code ++ epilogue L ++ [Ins.halt], InFormat i ∧ SmallWhereNeeded i :=
  fun i hi => bounded_format ((whole_bounded hc i hi).mono hlen) (hl i hi)

end DuckLisp.Compile
