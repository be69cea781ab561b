import Verif.Spec.Depth
import Verif.Proof.Compile.Shape
import Verif.Proof.Compile.Blocks
import Verif.Proof.Compile.Produce
import Verif.Proof.VM.Heights

/-!
# The height of the stack in code of the core language
-/

namespace DuckLisp.Compile

open DuckLisp DuckLisp.VM DuckLisp.Asm DuckLisp.Spec DuckLisp.Reader

variable [Keys]

/-! ## Variables -/

theorem place_eq_find (x : Bytes) : ∀ t : Blocks, Table.place t x = findVar t x
  | [] => rfl
  | b :: t => by
    have ih := place_eq_find x t
    simp only [Table.place] at ih ⊢
    rw [List.flatten_cons, List.lookup_append, findVar, ih]
    cases b.lookup x <;> rfl

theorem with_eq_add (x : Bytes) (k : Nat) (t : Blocks) : Table.with t x k = addVar x k t := by
  cases t <;> rfl

/-- A variable known after a piece was known before or is new. -/
theorem Code.finds {k bs L l code bs' L' l'} (h : Code k bs L l code bs' L' l') :
    ∀ x i, findVar bs' x = some i → findVar bs x = some i ∨ L ≤ i := by
  have hadd : ∀ (x : Bytes) (k : Nat) (bs : Blocks) (y : Bytes) (i : Nat), findVar (addVar x k bs) y = some i →
      findVar bs y = some i ∨ i = k := by
    intro x k bs y i hi
    cases bs with
    | nil =>
      simp only [addVar, findVar, List.lookup] at hi ⊢
      cases hxy : (y == x) <;> simp [hxy] at hi ⊢
      exact hi.symm
    | cons b bs =>
      simp only [addVar, findVar, List.lookup] at hi ⊢
      cases hxy : (y == x)
      · simp only [hxy] at hi
        exact .inl hi
      · simp only [hxy] at hi
        cases hi
        exact .inr rfl
  have hopen : ∀ (bs : Blocks) x, findVar ([] :: bs) x = findVar bs x := fun _ _ => rfl
  induction h
  case varLast => intro y i hi; rcases hadd _ _ _ _ _ hi with h | h <;> [exact .inl h; exact .inr (by omega)]
  case varCons ih2 =>
    intro y i hi
    rcases ih2 y i hi with h | h
    · rcases hadd _ _ _ _ _ h with h | h <;> [exact .inl h; exact .inr (by omega)]
    · exact .inr (by omega)
  case noscopeCons h _ _ ih ih2 =>
    intro y i hi
    have := h.after.1
    rcases ih2 y i hi with h | h
    · exact ih y i h
    · exact .inr (by omega)
  case bodyCons ih2 => exact ih2
  case noscopeLast ih => exact ih
  all_goals exact fun _ _ h => .inl h

/-! ## The height at every instruction -/

/-- The height before and after an instruction in code that starts with `lo` values: `ok` are the places below that
may be assigned to, `ld` is the height at the labels. -/
inductive Fine (lo : Nat) (ok : Nat → Prop) (ld : Nat → Nat) : Ins → Nat → Nat → Prop
  | label {l d} : ld l = d → Fine lo ok ld (.label l) d d
  | jump {l d} (d' : Nat) : ld l = d → Fine lo ok ld (.jump l) d d'
  | brnz {l d} {n : Nat} : lo + n ≤ d → 1 ≤ d → ld l = d - n → Fine lo ok ld (.brnz l n) d (d - n)
  | pop {d} {n : Nat} : lo + n ≤ d → Fine lo ok ld (.pop n) d (d - n)
  | move {d} {a k : Nat} : 1 ≤ a → a ≤ d → k < d → lo ≤ k ∨ ok k →
      Fine lo ok ld (.move a ((d : Int) - k)) d d
  | set {d key} {a : Nat} : 1 ≤ a → a ≤ d → Fine lo ok ld (.setGlobal a key) d d
  | plain {i} {d : Nat} : (∀ strip, ∃ m, meaning strip i = some m ∧ PushesResult m) →
      (∀ a ∈ places i, 1 ≤ a ∧ a ≤ (d : Int)) → Fine lo ok ld i d (d + 1)

/-- The height throughout a piece of code. -/
inductive Flow (lo : Nat) (ok : Nat → Prop) (ld : Nat → Nat) : Nat → List Ins → Nat → Prop
  | nil {d} : lo ≤ d → Flow lo ok ld d [] d
  | cons {i d d1 d2 code} : lo ≤ d → Fine lo ok ld i d d1 → Flow lo ok ld d1 code d2 →
      Flow lo ok ld d (i :: code) d2

section
variable {lo : Nat} {ok : Nat → Prop} {ld : Nat → Nat}

theorem Flow.append {d d1 d2 : Nat} {a b : List Ins} (h : Flow lo ok ld d a d1) (g : Flow lo ok ld d1 b d2) :
    Flow lo ok ld d (a ++ b) d2 := by
  induction h with
  | nil _ => exact g
  | cons h1 h2 _ ih => exact .cons h1 h2 (ih g)

theorem Flow.one {d d1 : Nat} {i : Ins} (h : lo ≤ d) (h' : lo ≤ d1) (g : Fine lo ok ld i d d1) :
    Flow lo ok ld d [i] d1 := .cons h g (.nil h')

theorem Flow.push {d : Nat} {i : Ins} (h : lo ≤ d) (hm : ∀ strip, ∃ m, meaning strip i = some m ∧ PushesResult m)
    (hp : ∀ a ∈ places i, 1 ≤ a ∧ a ≤ (d : Int)) : Flow lo ok ld d [i] (d + 1) :=
  .one h (by omega) (.plain hm hp)

theorem Flow.settle {a d : Nat} (ha : lo ≤ a) (hd : a < d) : Flow lo ok ld d (settleCode a d) (a + 1) := by
  unfold settleCode
  split
  · have : d = a + 1 := by omega
    subst this
    exact .nil (by omega)
  · refine .cons (by omega) ?_ (.one (by omega) (by omega) ?_) (d1 := d)
    · have := Fine.move (lo := lo) (ok := ok) (ld := ld) (d := d) (a := 1) (k := a) (by omega) (by omega) hd (.inl ha)
      rwa [show (d : Int) - a = ((d - a : Nat) : Int) by omega] at this
    · have := Fine.pop (lo := lo) (ok := ok) (ld := ld) (d := d) (n := d - a - 1) (by omega)
      rwa [show d - (d - a - 1) = a + 1 by omega] at this

end

theorem pushes_op1 (op : Op1) (a : Int) (strip : Bool) : ∃ m, meaning strip (op.ins a) = some m ∧ PushesResult m := by
  cases op <;> exact ⟨_, rfl, trivial⟩

theorem pushes_op2 (op : Op2) (a b : Int) (strip : Bool) :
    ∃ m, meaning strip (op.ins a b) = some m ∧ PushesResult m := by
  cases op <;> exact ⟨_, rfl, trivial⟩

theorem pushes_op3 (op : Op3) (a b c : Int) (strip : Bool) :
    ∃ m, meaning strip (op.ins a b c) = some m ∧ PushesResult m := by
  cases op <;> exact ⟨_, rfl, trivial⟩

theorem places_op1 (op : Op1) (a : Int) : places (op.ins a) = [a] := by cases op <;> rfl
theorem places_op2 (op : Op2) (a b : Int) : places (op.ins a b) = [a, b] := by cases op <;> rfl
theorem places_op3 (op : Op3) (a b c : Int) : places (op.ins a b c) = [a, b, c] := by cases op <;> rfl

/-- A piece contains an assignment to the variable. -/
def Piece.Assigns (x : Bytes) : Piece → Prop
  | .form e | .operand e _ => Spec.Assigning x e
  | .block es | .body es | .conses es _ | .elements es _ _ | .args es => ∃ e ∈ es, Spec.Assigning x e
  | .quoted _ | .quotes _ => False

/-- Below which values a piece must start, and the places of its operands. -/
def Piece.Enter (L : Nat) : Piece → Prop
  | .conses _ i => i < L
  | .elements _ is _ => ∀ i ∈ is, i < L
  | .quotes _ => 0 < L
  | _ => True

/-- The places that a piece yields are there. -/
def Piece.Leave (L' : Nat) : Piece → Prop
  | .operand _ i => i < L'
  | .elements _ _ all => ∀ i ∈ all, i < L'
  | _ => True

/-- Heights at labels, for two pieces of code. -/
def split {α : Type} (l : Nat) (f g : Nat → α) (n : Nat) : α := if n < l then f n else g n

theorem find_slot {x : Bytes} {k : Nat} : ∀ {bs : Blocks}, findVar bs x = some k → k ∈ slots bs
  | [], h => by cases h
  | b :: bs, h => by
    rw [slots_cons, List.mem_append]
    rw [findVar] at h
    cases hb : b.lookup x with
    | some j =>
      rw [hb] at h
      cases h
      refine .inl ?_
      induction b with
      | nil => cases hb
      | cons v b ih =>
        obtain ⟨y, j⟩ := v
        simp only [List.lookup] at hb
        cases hxy : (x == y) <;> simp only [hxy] at hb
        · exact List.mem_cons_of_mem _ (ih hb)
        · cases hb; exact List.mem_cons_self ..
    | none =>
      rw [hb] at h
      exact .inr (find_slot h)

/-- What `Code.flow` says of a piece. -/
def Flows (k : Piece) (bs : Blocks) (L l : Nat) (code : List Ins) (L' l' : Nat) : Prop :=
  ∃ ld : Nat → Nat, ∀ (lo : Nat) (ok : Nat → Prop) (ld' : Nat → Nat), (∀ n, l ≤ n → n < l' → ld' n = ld n) → lo ≤ L →
    Fits bs L → k.Enter L → (∀ x i, k.Assigns x → findVar bs x = some i → lo ≤ i ∨ ok i) →
    Flow lo ok ld' L code L' ∧ k.Leave L'

/-- A piece that is one instruction which pushes a value. -/
theorem flows_push {k : Piece} {bs : Blocks} {L l : Nat} {i : Ins} (hk : k.Leave (L + 1) := by trivial)
    (hm : ∀ strip, ∃ m, meaning strip i = some m ∧ PushesResult m := by exact fun _ => ⟨_, rfl, trivial⟩)
    (hp : Fits bs L → ∀ a ∈ places i, 1 ≤ a ∧ a ≤ (L : Int) := by simp [places]) : Flows k bs L l [i] (L + 1) l :=
  ⟨fun _ => 0, fun _ _ _ _ hlo hf _ _ => ⟨.push hlo hm (hp hf), hk⟩⟩

/-- Only the meaning of the piece is different. -/
theorem Flows.as {k k' : Piece} {bs bs' : Blocks} {L l : Nat} {code : List Ins} {L' l' : Nat} (h : Flows k bs L l code L' l')
    (ha : ∀ x, k.Assigns x → k'.Assigns x) (hb : ∀ x, findVar bs x = findVar bs' x) (hs : Fits bs' L → Fits bs L)
    (he : k'.Enter L → k.Enter L)
    (hl : k.Leave L' → k'.Leave L') : Flows k' bs' L l code L' l' := by
  obtain ⟨ld, H⟩ := h
  refine ⟨ld, fun lo ok ld' h1 h2 h3 h4 h5 => ?_⟩
  obtain ⟨f, g⟩ := H lo ok ld' h1 h2 (hs h3) (he h4) fun x i hx hi => h5 x i (ha x hx) (by rw [← hb]; exact hi)
  exact ⟨f, hl g⟩

omit [Keys] in
theorem split_left {α : Type} {l l1 l2 : Nat} {f g ld' : Nat → α} (h : ∀ n, l ≤ n → n < l2 → ld' n = split l1 f g n)
    (hl : l1 ≤ l2) : ∀ n, l ≤ n → n < l1 → ld' n = f n := fun n h1 h2 => by
  rw [h n h1 (by omega), split, if_pos h2]

omit [Keys] in
theorem split_right {α : Type} {l l1 l2 : Nat} {f g ld' : Nat → α} (h : ∀ n, l ≤ n → n < l2 → ld' n = split l1 f g n)
    (hl : l ≤ l1) : ∀ n, l1 ≤ n → n < l2 → ld' n = g n := fun n h1 h2 => by
  rw [h n (by omega) h2, split, if_neg (by omega)]

theorem assigns_tail {x name : Bytes} {e : Ast} {es : List Ast} (he : e ∈ es) (h : Spec.Assigning x e) :
    Spec.Assigning x (.expression (.identifier name :: es)) := .inside e _ (List.mem_cons_of_mem _ he) h

theorem Code.flow (hcore : Keys.dialect.functions = false) {k bs L l code bs' L' l'} (h : Code k bs L l code bs' L' l') :
    Flows k bs L l code L' l' := by
  induction h with
  | lambda hd => rw [hcore] at hd; cases hd
  | funcall hd => rw [hcore] at hd; cases hd
  | apply hd => rw [hcore] at hd; cases hd
  | call _ hd => rw [hcore] at hd; cases hd
  | argsNil => exact ⟨fun _ => 0, fun _ _ _ _ hlo _ _ _ => ⟨.nil hlo, trivial⟩⟩
  | @argsCons bs L l a es code L1 l1 code2 L2 l2 hc hc2 ih ih2 =>
    obtain ⟨f, H⟩ := ih
    obtain ⟨g, H2⟩ := ih2
    have a := hc.after
    have a2 := hc2.after
    simp only [Piece.After] at a a2
    refine ⟨split l1 f g, fun lo ok ld' h1 h2 h3 h4 h5 => ⟨?_, trivial⟩⟩
    refine ((H lo ok ld' (split_left h1 (by omega)) h2 h3 trivial fun x i hx => h5 x i ⟨_, by simp, hx⟩).1.append
      (.settle h2 a.1)).append ?_
    exact (H2 lo ok ld' (split_right h1 (by omega)) (by omega) (h3.mono (Nat.le_succ _)) trivial
      fun x i ⟨e, he, hx⟩ => h5 x i ⟨e, by simp [he], hx⟩).1
  | bool | int | float | string | global _ _ | empty | bodyNil | declare _ | whenFalse _ _
  | unlessTrue _ _ => exact flows_push
  | op0 hg => exact flows_push
  | globalSlot _ _ => exact flows_push (hk := Nat.lt_succ_self _)
  | quotedName id => exact flows_push (hm := fun strip => by cases strip <;> exact ⟨_, rfl, trivial⟩)
  | @var bs L l x k hx =>
    refine flows_push (hp := fun hf => ?_)
    have := hf.2 _ (find_slot hx)
    simp [places]
    omega
  | slot hx => exact ⟨fun _ => 0, fun _ _ _ _ hlo hf _ _ => ⟨.nil hlo, hf.2 _ (find_slot hx)⟩⟩
  | temp _ hc ih =>
    refine ih.as (fun _ => id) (fun _ => rfl) id id fun _ => ?_
    have := hc.after.1
    simp only [Piece.Leave]
    omega
  | scope _ hc ih => exact ih.as (fun x ⟨e, he, ha⟩ => .inside e _ he ha) (fun _ => rfl) id id id
  | block hc ih =>
    obtain ⟨ld, H⟩ := ih
    refine ⟨ld, fun lo ok ld' h1 h2 h3 h4 h5 => ⟨(H lo ok ld' h1 h2 h3.open trivial h5).1.append (.settle h2 hc.after.1), trivial⟩⟩
  | bodyLast _ hc ih =>
    obtain ⟨ld, H⟩ := ih
    refine ⟨ld, fun lo ok ld' h1 h2 h3 h4 h5 => ⟨(H lo ok ld' h1 h2 h3 trivial fun x i hx => h5 x i ⟨_, by simp, hx⟩).1.append
      (.settle h2 hc.after.1), trivial⟩⟩
  | @bodyCons bs L l f rest code L1 l1 code2 bs2 L2 l2 _ hc _ hc2 ih ih2 =>
    obtain ⟨f, H⟩ := ih
    obtain ⟨g, H2⟩ := ih2
    have a := hc.after
    have a2 := hc2.after
    simp only [Piece.After] at a a2
    refine ⟨split l1 f g, fun lo ok ld' h1 h2 h3 h4 h5 => ⟨?_, trivial⟩⟩
    refine ((H lo ok ld' (split_left h1 (by omega)) h2 h3 trivial fun x i hx => h5 x i ⟨_, by simp, hx⟩).1.append (d1 := L1) ?_).append
      (H2 lo ok ld' (split_right h1 (by omega)) h2 h3 trivial fun x i ⟨e, he, hx⟩ => h5 x i ⟨e, by simp [he], hx⟩).1
    have := Fine.pop (lo := lo) (ok := ok) (ld := ld') (d := L1) (n := L1 - L) (by omega)
    rw [show L1 - (L1 - L) = L by omega] at this
    exact .one (by omega) (by omega) this
  | @varLast bs L l name x e code L' l' _ hc ih =>
    obtain ⟨ld, H⟩ := ih
    refine ⟨ld, fun lo ok ld' h1 h2 h3 h4 h5 => ⟨?_, trivial⟩⟩
    refine ((H lo ok ld' h1 h2 h3 trivial fun x i hx => h5 x i ⟨_, List.mem_cons_self .., assigns_tail (by simp) hx⟩).1.append
      (.settle h2 hc.after.1)).append (.push (by omega) (by exact fun _ => ⟨_, rfl, trivial⟩) ?_)
    simp [places]
    omega
  | @varCons bs L l name x e code L1 l1 rest code2 bs2 L2 l2 _ hc _ hc2 ih ih2 =>
    obtain ⟨f, H⟩ := ih
    obtain ⟨g, H2⟩ := ih2
    have a := hc.after
    have a2 := hc2.after
    simp only [Piece.After] at a a2
    refine ⟨split l1 f g, fun lo ok ld' h1 h2 h3 h4 h5 => ⟨?_, trivial⟩⟩
    refine (((H lo ok ld' (split_left h1 (by omega)) h2 h3 trivial fun x i hx =>
        h5 x i ⟨_, List.mem_cons_self .., assigns_tail (by simp) hx⟩).1.append (.settle h2 hc.after.1)).append (d1 := L + 1) ?_).append
      (H2 lo ok ld' (split_right h1 (by omega)) (by omega) (h3.add x) trivial fun y i ⟨e', he, hy⟩ hi => ?_).1
    · refine .cons (by omega) (.plain (by exact fun _ => ⟨_, rfl, trivial⟩) (by simp [places]; omega)) (.one (by omega) (by omega) ?_)
      exact Fine.pop (n := 1) (d := L + 1 + 1) (by omega)
    · have hv : Code (.body [.expression [.identifier name, .identifier x, e]]) bs L l _ (addVar x L bs) _ _ :=
        Code.varLast (by assumption) hc
      rcases hv.finds y i hi with h | h
      · exact h5 y i ⟨_, List.mem_cons_of_mem _ he, hy⟩ h
      · exact .inl (by omega)
  | noscopeLast _ hc ih =>
    exact ih.as (fun x ⟨e, he, hx⟩ => ⟨_, List.mem_singleton.2 rfl, assigns_tail he hx⟩) (fun _ => rfl) id id id
  | @noscopeCons bs L l name es code bs1 L1 l1 rest code2 bs2 L2 l2 _ hc _ hc2 ih ih2 =>
    obtain ⟨f, H⟩ := ih
    obtain ⟨g, H2⟩ := ih2
    have a := hc.after
    have a2 := hc2.after
    simp only [Piece.After] at a a2
    refine ⟨split l1 f g, fun lo ok ld' h1 h2 h3 h4 h5 => ⟨?_, trivial⟩⟩
    refine ((H lo ok ld' (split_left h1 (by omega)) h2 h3 trivial fun x i ⟨e, he, hx⟩ =>
        h5 x i ⟨_, List.mem_cons_self .., assigns_tail he hx⟩).1.append (d1 := L1) ?_).append
      (H2 lo ok ld' (split_right h1 (by omega)) (by omega) (hc.blocks h3).1 trivial fun y i ⟨e, he, hy⟩ hi => ?_).1
    · exact .one (by omega) (by omega) (Fine.pop (n := 1) (d := L1) (by omega))
    · rcases hc.finds y i hi with h | h
      · exact h5 y i ⟨_, List.mem_cons_of_mem _ he, hy⟩ h
      · exact .inl (by omega)
  | @setq bs L l name x k e code L' l' hn hc hx ih =>
    obtain ⟨ld, H⟩ := ih
    have a := hc.after.1
    refine ⟨ld, fun lo ok ld' h1 h2 h3 h4 h5 => ⟨(H lo ok ld' h1 h2 h3 trivial fun y i hy => h5 y i (assigns_tail (by simp) hy)).1.append ?_, trivial⟩⟩
    split
    · exact .nil (by omega)
    · have := h3.2 _ (find_slot hx)
      exact .one (by omega) (by omega) (Fine.move (a := 1) (by omega) (by omega) (by omega)
        (h5 x k (.setq name e hn) hx))
  | @setqGlobal bs L l name x e code L' l' key _ _ hn hc hx ih =>
    obtain ⟨ld, H⟩ := ih
    have a := hc.after.1
    refine ⟨ld, fun lo ok ld' h1 h2 h3 h4 h5 => ⟨(H lo ok ld' h1 h2 h3 trivial fun y i hy => h5 y i (assigns_tail (by simp) hy)).1.append ?_, trivial⟩⟩
    split
    · exact .nil (by omega)
    · exact .one (by omega) (by omega) (Fine.set (a := 1) (by omega) (by omega))
  | @defGlobal bs L l name x e code L' l' key _ _ hn hc ih =>
    obtain ⟨ld, H⟩ := ih
    have a := hc.after.1
    refine ⟨ld, fun lo ok ld' h1 h2 h3 h4 h5 => ⟨(H lo ok ld' h1 h2 h3 trivial fun y i hy => h5 y i (assigns_tail (by simp) hy)).1.append ?_, trivial⟩⟩
    split
    · exact .nil (by omega)
    · exact .one (by omega) (by omega) (Fine.set (a := 1) (by omega) (by omega))
  | @op1 bs L l name a i code L' l' op _ hc ih =>
    obtain ⟨ld, H⟩ := ih
    have a := hc.after.1
    refine ⟨ld, fun lo ok ld' h1 h2 h3 h4 h5 => ?_⟩
    obtain ⟨F, hi⟩ := H lo ok ld' h1 h2 h3 trivial fun y i hy => h5 y i (assigns_tail (by simp) hy)
    refine ⟨F.append (.push (by omega) (pushes_op1 op _) ?_), trivial⟩
    simp only [Piece.Leave] at hi
    simp [places_op1]
    omega
  | @op2 bs L l name a i code L1 l1 b j code2 L2 l2 op _ hc hc2 ih ih2 =>
    obtain ⟨f, H⟩ := ih
    obtain ⟨g, H2⟩ := ih2
    have a := hc.after
    have a2 := hc2.after
    simp only [Piece.After] at a a2
    refine ⟨split l1 f g, fun lo ok ld' h1 h2 h3 h4 h5 => ?_⟩
    obtain ⟨F, hi⟩ := H lo ok ld' (split_left h1 (by omega)) h2 h3 trivial fun y i hy => h5 y i (assigns_tail (by simp) hy)
    obtain ⟨F2, hj⟩ := H2 lo ok ld' (split_right h1 (by omega)) (by omega) (h3.mono (by omega)) trivial fun y i hy =>
      h5 y i (assigns_tail (by simp) hy)
    refine ⟨(F.append F2).append (.push (by omega) (pushes_op2 op _ _) ?_), trivial⟩
    simp only [Piece.Leave] at hi hj
    simp [places_op2]
    omega
  | @op3 bs L l name a i code L1 l1 b j code2 L2 l2 c k code3 L3 l3 op _ hc hc2 hc3 ih ih2 ih3 =>
    obtain ⟨f, H⟩ := ih
    obtain ⟨g, H2⟩ := ih2
    obtain ⟨g3, H3⟩ := ih3
    have a := hc.after
    have a2 := hc2.after
    have a3 := hc3.after
    simp only [Piece.After] at a a2 a3
    refine ⟨split l1 f (split l2 g g3), fun lo ok ld' h1 h2 h3 h4 h5 => ?_⟩
    have h1' := split_right h1 (by omega)
    obtain ⟨F, hi⟩ := H lo ok ld' (split_left h1 (by omega)) h2 h3 trivial fun y i hy => h5 y i (assigns_tail (by simp) hy)
    obtain ⟨F2, hj⟩ := H2 lo ok ld' (split_left h1' (by omega)) (by omega) (h3.mono (by omega)) trivial fun y i hy =>
      h5 y i (assigns_tail (by simp) hy)
    obtain ⟨F3, hk⟩ := H3 lo ok ld' (split_right h1' (by omega)) (by omega) (h3.mono (by omega)) trivial fun y i hy =>
      h5 y i (assigns_tail (by simp) hy)
    refine ⟨((F.append F2).append F3).append (.push (by omega) (pushes_op3 op _ _ _) ?_), trivial⟩
    simp only [Piece.Leave] at hi hj hk
    simp [places_op3]
    omega
  | @list bs L l name es code L' l' _ hc ih =>
    obtain ⟨ld, H⟩ := ih
    refine ⟨ld, fun lo ok ld' h1 h2 h3 h4 h5 => ⟨(Flow.push h2 (by exact fun _ => ⟨_, rfl, trivial⟩) (by simp [places])).append
      (H lo ok ld' h1 (by omega) (h3.mono (by omega)) (by simp [Piece.Enter]) fun y i ⟨e, he, hy⟩ =>
        h5 y i (assigns_tail (List.mem_reverse.1 he) hy)).1, trivial⟩⟩
  | consNil => exact ⟨fun _ => 0, fun _ _ _ _ hlo _ _ _ => ⟨.nil hlo, trivial⟩⟩
  | @consCons bs L l a es i j code L1 l1 code2 L2 l2 hc hc2 ih ih2 =>
    obtain ⟨f, H⟩ := ih
    obtain ⟨g, H2⟩ := ih2
    have a := hc.after
    have a2 := hc2.after
    simp only [Piece.After] at a a2
    refine ⟨split l1 f g, fun lo ok ld' h1 h2 h3 h4 h5 => ?_⟩
    obtain ⟨F, hi⟩ := H lo ok ld' (split_left h1 (by omega)) h2 h3 trivial fun y i hy => h5 y i ⟨_, by simp, hy⟩
    obtain ⟨F2, -⟩ := H2 lo ok ld' (split_right h1 (by omega)) (by omega) (h3.mono (by omega)) (by simp [Piece.Enter]) fun y i ⟨e, he, hy⟩ =>
      h5 y i ⟨e, List.mem_cons_of_mem _ he, hy⟩
    simp only [Piece.Leave, Piece.Enter] at hi h4
    refine ⟨(F.append (.push (by omega) (by exact fun _ => ⟨_, rfl, trivial⟩) ?_)).append F2, trivial⟩
    simp [places]
    omega
  | @vector bs L l name es is code L' l' _ hc ih =>
    obtain ⟨ld, H⟩ := ih
    have a := hc.after.1
    refine ⟨ld, fun lo ok ld' h1 h2 h3 h4 h5 => ?_⟩
    obtain ⟨F, hi⟩ := H lo ok ld' h1 (by omega) (h3.mono (by omega)) (by simp [Piece.Enter]) fun y i ⟨e, he, hy⟩ =>
        h5 y i (assigns_tail (List.mem_reverse.1 he) hy)
    refine ⟨((Flow.push h2 (by exact fun _ => ⟨_, rfl, trivial⟩) (by simp [places])).append F).append
      (.push (by omega) (by exact fun _ => ⟨_, rfl, trivial⟩) ?_), trivial⟩
    simp only [Piece.Leave] at hi
    intro a ha
    simp only [places, List.mem_map] at ha
    obtain ⟨i, hm, rfl⟩ := ha
    have := hi i hm
    omega
  | elemNil => exact ⟨fun _ => 0, fun _ _ _ _ hlo _ he _ => ⟨.nil hlo, he⟩⟩
  | @elemCons bs L l a es i is all code L1 l1 code2 L2 l2 hc hc2 ih ih2 =>
    obtain ⟨f, H⟩ := ih
    obtain ⟨g, H2⟩ := ih2
    have a := hc.after
    have a2 := hc2.after
    simp only [Piece.After] at a a2
    refine ⟨split l1 f g, fun lo ok ld' h1 h2 h3 h4 h5 => ?_⟩
    obtain ⟨F, hi⟩ := H lo ok ld' (split_left h1 (by omega)) h2 h3 trivial fun y i hy => h5 y i ⟨_, by simp, hy⟩
    simp only [Piece.Leave, Piece.Enter] at hi h4
    obtain ⟨F2, h6⟩ := H2 lo ok ld' (split_right h1 (by omega)) (by omega) (h3.mono (by omega))
      (by
        intro j hj
        rcases List.mem_cons.1 hj with rfl | hj
        · exact hi
        · have := h4 j hj; omega) fun y i ⟨e, he, hy⟩ =>
      h5 y i ⟨e, List.mem_cons_of_mem _ he, hy⟩
    exact ⟨F.append F2, h6⟩
  | quote _ hc ih => exact ih.as (fun x hx => hx.elim) (fun _ => rfl) id id id
  | quotedForm hx hy hc ih =>
    refine ih.as (fun x hx => ?_) (fun _ => rfl) id id id
    cases hx
    · exact absurd rfl (hy _)
    · exact absurd rfl (hy _)
  | @quotedList bs L l es code L' hc ih =>
    obtain ⟨ld, H⟩ := ih
    refine ⟨ld, fun lo ok ld' h1 h2 h3 h4 h5 => ⟨(Flow.push h2 (by exact fun _ => ⟨_, rfl, trivial⟩) (by simp [places])).append
      (H lo ok ld' h1 (by omega) (h3.mono (by omega)) (by simp [Piece.Enter]) fun _ _ h => h.elim).1, trivial⟩⟩
  | quotesNil => exact ⟨fun _ => 0, fun _ _ _ _ hlo _ _ _ => ⟨.nil hlo, trivial⟩⟩
  | @quotesCons bs L l e es code L1 code2 L2 hc hc2 ih ih2 =>
    obtain ⟨f, H⟩ := ih
    obtain ⟨g, H2⟩ := ih2
    have a := hc.after
    have a2 := hc2.after
    simp only [Piece.After] at a a2
    refine ⟨f, fun lo ok ld' h1 h2 h3 h4 h5 => ?_⟩
    simp only [Piece.Enter] at h4
    obtain ⟨F, -⟩ := H lo ok ld' h1 h2 h3 h4 fun _ _ h => h.elim
    obtain ⟨F2, -⟩ := H2 lo ok ld' (fun n _ _ => by omega) (by omega) (h3.mono (by omega)) trivial fun _ _ h => h.elim
    refine ⟨(F.append F2).append (.push (by omega) (by exact fun _ => ⟨_, rfl, trivial⟩) ?_), trivial⟩
    simp [places]
    omega
  | @ifConst bs L l name c e f b code L' l' _ _ hc ih =>
    exact ih.as (fun x hx => assigns_tail (by cases b <;> simp) hx) (fun _ => rfl) id id id
  | @if_ bs L l name c e f code L1 l1 codeF Lf lf codeE Le le B _ _ hc hB hF hE ih ihF ihE =>
    obtain ⟨g0, H⟩ := ih
    obtain ⟨gF, HF⟩ := ihF
    obtain ⟨gE, HE⟩ := ihE
    have a := hc.after
    have aF := hF.after
    have aE := hE.after
    have hp := condPops_le c L L1
    simp only [Piece.After] at a aF aE
    refine ⟨split l1 g0 (split (l1 + 2) (fun n => if n = l1 then B else B + 1) (split lf gF gE)),
      fun lo ok ld' h1 h2 h3 h4 h5 => ⟨?_, trivial⟩⟩
    have h1' := split_right h1 (by omega)
    have h1'' := split_right h1' (by omega)
    have e1 : ld' l1 = B := by rw [split_left h1' (by omega) l1 (by omega) (by omega), if_pos rfl]
    have e2 : ld' (l1 + 1) = B + 1 := by rw [split_left h1' (by omega) (l1 + 1) (by omega) (by omega), if_neg (by omega)]
    have F := (H lo ok ld' (split_left h1 (by omega)) h2 h3 trivial fun y i hy => h5 y i (assigns_tail (by simp) hy)).1
    have FF := (HF lo ok ld' (split_left h1'' (by omega)) (by omega) (h3.mono (by omega)) trivial
      fun y i hy => h5 y i (assigns_tail (by simp) hy)).1
    have FE := (HE lo ok ld' (split_right h1'' (by omega)) (by omega) (h3.mono (by omega)) trivial
      fun y i hy => h5 y i (assigns_tail (by simp) hy)).1
    have hbr := Fine.brnz (lo := lo) (ok := ok) (ld := ld') (l := l1) (d := L1) (n := condPops c L L1) (by omega) (by omega)
      (by omega)
    rw [← hB] at hbr
    exact ((((((F.append (.one (by omega) (by omega) hbr)).append FF).append (.settle (by omega) aF.1)).append
      (.cons (by omega) (.jump B e2) (.one (by omega) (by omega) (.label e1)))).append FE).append
      (.settle (by omega) aE.1)).append (.one (by omega) (by omega) (.label e2))
  | whenTrue _ _ hc ih =>
    exact ih.as (fun x ⟨e, he, hx⟩ => assigns_tail (List.mem_cons_of_mem _ he) hx) (fun _ => rfl) id id id
  | @when_ bs L l name c es code L1 l1 codeE Le le B _ _ hc hB hE ih ihE =>
    obtain ⟨g0, H⟩ := ih
    obtain ⟨gE, HE⟩ := ihE
    have a := hc.after
    have aE := hE.after
    have hp := condPops_le c L L1
    simp only [Piece.After] at a aE
    refine ⟨split l1 g0 (split (l1 + 2) (fun n => if n = l1 then B else B + 1) gE),
      fun lo ok ld' h1 h2 h3 h4 h5 => ⟨?_, trivial⟩⟩
    have h1' := split_right h1 (by omega)
    have e1 : ld' l1 = B := by rw [split_left h1' (by omega) l1 (by omega) (by omega), if_pos rfl]
    have e2 : ld' (l1 + 1) = B + 1 := by rw [split_left h1' (by omega) (l1 + 1) (by omega) (by omega), if_neg (by omega)]
    have F := (H lo ok ld' (split_left h1 (by omega)) h2 h3 trivial fun y i hy => h5 y i (assigns_tail (by simp) hy)).1
    have FE := (HE lo ok ld' (split_right h1' (by omega)) (by omega) (h3.mono (by omega)) trivial
      fun y i ⟨e, he, hy⟩ => h5 y i (assigns_tail (List.mem_cons_of_mem _ he) hy)).1
    have hbr := Fine.brnz (lo := lo) (ok := ok) (ld := ld') (l := l1) (d := L1) (n := condPops c L L1) (by omega) (by omega)
      (by omega)
    rw [← hB] at hbr
    exact (((F.append (.one (by omega) (by omega) hbr)).append
      (.cons (by omega) (.plain (by exact fun _ => ⟨_, rfl, trivial⟩) (by simp [places])) (.cons (by omega) (.jump B e2)
        (.one (by omega) (by omega) (.label e1))))).append FE).append
      (.one (by omega) (by omega) (.label (by omega)))
  | unlessFalse _ _ hc ih =>
    exact ih.as (fun x ⟨e, he, hx⟩ => assigns_tail (List.mem_cons_of_mem _ he) hx) (fun _ => rfl) id id id
  | @unless_ bs L l name c es code L1 l1 codeE Le le B _ _ hc hB hE ih ihE =>
    obtain ⟨g0, H⟩ := ih
    obtain ⟨gE, HE⟩ := ihE
    have a := hc.after
    have aE := hE.after
    have hp := condPops_le c L L1
    simp only [Piece.After] at a aE
    refine ⟨split l1 g0 (split (l1 + 2) (fun n => if n = l1 then B else B + 1) gE),
      fun lo ok ld' h1 h2 h3 h4 h5 => ⟨?_, trivial⟩⟩
    have h1' := split_right h1 (by omega)
    have e1 : ld' l1 = B := by rw [split_left h1' (by omega) l1 (by omega) (by omega), if_pos rfl]
    have e2 : ld' (l1 + 1) = B + 1 := by rw [split_left h1' (by omega) (l1 + 1) (by omega) (by omega), if_neg (by omega)]
    have F := (H lo ok ld' (split_left h1 (by omega)) h2 h3 trivial fun y i hy => h5 y i (assigns_tail (by simp) hy)).1
    have FE := (HE lo ok ld' (split_right h1' (by omega)) (by omega) (h3.mono (by omega)) trivial
      fun y i ⟨e, he, hy⟩ => h5 y i (assigns_tail (List.mem_cons_of_mem _ he) hy)).1
    have hbr := Fine.brnz (lo := lo) (ok := ok) (ld := ld') (l := l1) (d := L1) (n := condPops c L L1) (by omega) (by omega)
      (by omega)
    rw [← hB] at hbr
    exact (((F.append (.one (by omega) (by omega) hbr)).append FE).append
      (.cons (by omega) (.jump B (by omega)) (.cons (by omega) (.label e1)
        (.one (by omega) (by omega) (.plain (by exact fun _ => ⟨_, rfl, trivial⟩) (by simp [places])))))).append
      (.one (by omega) (by omega) (.label (by omega)))
  | @while_ bs L l name c es code L1 l1 codeC Lc lc _ _ hE hc ihE ih =>
    obtain ⟨gE, HE⟩ := ihE
    obtain ⟨g0, H⟩ := ih
    have aE := hE.after
    have a := hc.after
    simp only [Piece.After] at a aE
    refine ⟨split (l + 2) (fun _ => L) (split l1 gE g0), fun lo ok ld' h1 h2 h3 h4 h5 => ⟨?_, trivial⟩⟩
    have h1' := split_right h1 (by omega)
    have e1 : ld' l = L := by rw [split_left h1 (by omega) l (by omega) (by omega)]
    have e2 : ld' (l + 1) = L := by rw [split_left h1 (by omega) (l + 1) (by omega) (by omega)]
    have FE := (HE lo ok ld' (split_left h1' (by omega)) (by omega) h3.open trivial
      fun y i ⟨e, he, hy⟩ => h5 y i (assigns_tail (List.mem_cons_of_mem _ he) hy)).1
    have F := (H lo ok ld' (split_right h1' (by omega)) h2 h3 trivial fun y i hy => h5 y i (assigns_tail (by simp) hy)).1
    have hbr := Fine.brnz (lo := lo) (ok := ok) (ld := ld') (l := l + 1) (d := Lc) (n := Lc - L) (by omega) (by omega)
      (by omega)
    rw [show Lc - (Lc - L) = L by omega] at hbr
    have hpop := Fine.pop (lo := lo) (ok := ok) (ld := ld') (d := L1) (n := L1 - L) (by omega)
    rw [show L1 - (L1 - L) = L by omega] at hpop
    exact (((((Flow.cons h2 (.jump L e1) (.one h2 h2 (.label e2))).append FE).append (.one (by omega) h2 hpop)).append
      (.one h2 h2 (.label e1))).append F).append (.cons (by omega) hbr
        (.one h2 (by omega) (.plain (by exact fun _ => ⟨_, rfl, trivial⟩) (by simp [places]))))

/-! ## Execution -/

theorem Flow.heights {lo : Nat} {ok : Nat → Prop} {ld : Nat → Nat} {d d' : Nat} {code : List Ins}
    (h : Flow lo ok ld d code d') : ∃ ds : Nat → Nat, ds 0 = d ∧ ds code.length = d' ∧
      (∀ j, j ≤ code.length → lo ≤ ds j) ∧ ∀ j i, code[j]? = some i → Fine lo ok ld i (ds j) (ds (j + 1)) := by
  induction h with
  | @nil d hd => exact ⟨fun _ => d, rfl, rfl, fun _ _ => hd, fun j i h => by simp at h⟩
  | @cons i d d1 d2 code hd hf _ ih =>
    obtain ⟨ds, h1, h2, h3, h4⟩ := ih
    refine ⟨fun n => match n with
      | 0 => d
      | n + 1 => ds n, rfl, h2, fun j hj => ?_, fun j k hk => ?_⟩
    · cases j with
      | zero => exact hd
      | succ j => exact h3 j (by simpa using hj)
    · cases j with
      | zero =>
        cases hk
        show Fine lo ok ld i d (ds 0)
        rw [h1]
        exact hf
      | succ j => exact h4 j k hk

theorem mem_labels {code : List Ins} {l : Nat} (h : l ∈ labels code) : ∃ j : Nat, code[j]? = some (.label l) := by
  unfold labels at h
  obtain ⟨i, hi, he⟩ := List.mem_filterMap.1 h
  obtain ⟨j, hj⟩ := List.mem_iff_getElem?.1 hi
  refine ⟨j, ?_⟩
  cases i <;> simp at he
  subst he
  exact hj

/-- What a step does to the height and to the values further below. -/
structure Effect (lo base : Nat) (ok : Nat → Prop) (d' : Nat) (vm vm' : VM) : Prop where
  height : vm'.stack.length = base + d'
  below : ∀ q, q < base + lo → vm'.stack[q]? = vm.stack[q]? ∨ ∃ slot, ok slot ∧ q = base + slot

theorem exec_plain_inv {env : VM.Env} {bc : Nat} {start next : CodePtr} {m : Instr} {vm vm' : VM} {c : Ctl}
    (hm : PushesResult m ∨ (∃ n, m = .pop n) ∨ (∃ a b, m = .move a b) ∨ (∃ a k, m = .setGlobal a k) ∨ m = .nop)
    (h : exec env bc start next m vm = .ok c vm') : plain env bc start m vm = .ok () vm' ∧ c = .goto next := by
  have key : ∀ (n : M Unit), (do n; return Ctl.goto next : M Ctl) vm = .ok c vm' → n vm = .ok () vm' ∧ c = .goto next := by
    intro n hn
    obtain ⟨_, s1, h1, h2⟩ := M.bind_eq_ok.1 hn
    cases h2
    exact ⟨h1, rfl⟩
  rcases hm with hm | ⟨n, rfl⟩ | ⟨a, b, rfl⟩ | ⟨a, k, rfl⟩ | rfl
  · cases m <;> simp only [PushesResult] at hm <;> exact key _ h
  all_goals exact key _ h

theorem indexed_meaning {strip : Bool} {program : List Ins} {k : Nat} {m m' : Instr} {i : Ins}
    (hi : program[k]? = some i) (hm : meaning strip i = some m') (h : Indexed strip program k m) : m = m' := by
  obtain ⟨i', h1, h2⟩ := h
  rw [hi] at h1
  cases h1
  rcases h2 with h2 | ⟨l, rfl, -⟩ | ⟨l, j, d, h2, -, -, -⟩
  · rw [hm] at h2; cases h2; rfl
  · cases hm
  · cases i <;> first | (cases hm; done) | (cases h2; done)

theorem step_effect {env : VM.Env} {strip : Bool} {bc cell serial : Nat} {before code after : List Ins} {lo base : Nat}
    {ok : Nat → Prop} {ld : Nat → Nat} {ds : Nat → Nat} {l l' : Nat} {j k' : Nat} {m : Instr} {vm vm' : VM}
    (hown : Own code l l') (honce : LabelsOnce (before ++ code ++ after)) (hlo : ∀ j, j ≤ code.length → lo ≤ ds j)
    (hds : ∀ j i, code[j]? = some i → Fine lo ok ld i (ds j) (ds (j + 1))) (hj : j < code.length)
    (hh : vm.stack.length = base + ds j) (hm : Indexed strip (before ++ code ++ after) (before.length + j) m)
    (he : exec env bc ⟨cell, serial, (before.length + j : Nat)⟩ ⟨cell, serial, (before.length + j + 1 : Nat)⟩ m vm =
      .ok (.goto ⟨cell, serial, k'⟩) vm') :
    ∃ j', k' = before.length + j' ∧ j' ≤ code.length ∧ Effect lo base ok (ds j') vm vm' := by
  have hat : ∀ q i, code[q]? = some i → (before ++ code ++ after)[before.length + q]? = some i := by
    intro q i hq
    have hl : q < code.length := (List.getElem?_eq_some_iff.1 hq).1
    rw [List.append_assoc, List.getElem?_append_right (by omega), List.getElem?_append_left (by omega)]
    simpa using hq
  obtain ⟨i, hi⟩ : ∃ i, code[j]? = some i := ⟨code[j], List.getElem?_eq_getElem hj⟩
  have hip := hat j i hi
  have hnext : ∀ vm'', Ctl.goto ⟨cell, serial, (k' : Nat)⟩ = .goto ⟨cell, serial, ((before.length + j + 1 : Nat) : Int)⟩ →
      Effect lo base ok (ds (j + 1)) vm vm'' →
      ∃ j', k' = before.length + j' ∧ j' ≤ code.length ∧ Effect lo base ok (ds j') vm vm'' := by
    intro vm'' hc hE
    injection hc with hc
    injection hc with _ _ hc
    exact ⟨j + 1, by omega, by omega, hE⟩
  have hland : ∀ (l q : Nat), labelOf i = some l → (before ++ code ++ after)[q]? = some (.label l) →
      ∃ j', q = before.length + j' ∧ j' ≤ code.length ∧ ds j' = ld l := by
    intro l q hl hq
    obtain ⟨j', hj'⟩ := mem_labels (hown.named i (List.mem_of_getElem? hi) l hl)
    refine ⟨j', honce _ _ l hq (hat _ _ hj'), ?_, ?_⟩
    · have := (List.getElem?_eq_some_iff.1 hj').1; omega
    · have := hds _ _ hj'
      generalize ds j' = x, ds (j' + 1) = y at this
      cases this with
      | label h => exact h.symm
      | plain h => obtain ⟨_, h, _⟩ := h false; cases h
  have hf := hds j i hi
  have hlo1 := hlo (j + 1) (by omega)
  have hlo0 := hlo j (by omega)
  generalize hb : ds (j + 1) = b at hf hlo1
  cases hf with
  | @label l h =>
    obtain ⟨i', g1, g2⟩ := hm
    rw [hip] at g1
    cases g1
    rcases g2 with g2 | ⟨l', _, rfl⟩ | ⟨l', q, d, g2, -⟩
    · cases g2
    · obtain ⟨h1, h2⟩ := exec_plain_inv (by simp) he
      cases h1
      exact hnext _ h2 ⟨by rw [hb]; exact hh, fun _ _ => .inl rfl⟩
    · cases g2
  | @jump l _ _ h =>
    obtain ⟨i', g1, g2⟩ := hm
    rw [hip] at g1
    cases g1
    rcases g2 with g2 | ⟨l', g2, _⟩ | ⟨l', q, d, g2, g3, g4, g5⟩
    · cases g2
    · cases g2
    · cases g2
      cases g4
      have h5 := Option.some.inj g5
      have he' := he
      injection he with e1 e2
      subst e2
      injection e1 with e1
      injection e1 with _ _ e1
      simp only at e1
      obtain ⟨j', h1, h2, h3⟩ := hland _ q rfl g3
      refine ⟨j', by omega, h2, ⟨by rw [h3, h]; exact hh, fun _ _ => .inl rfl⟩⟩
  | @brnz l _ n hn h1 h =>
    obtain ⟨i', g1, g2⟩ := hm
    rw [hip] at g1
    cases g1
    rcases g2 with g2 | ⟨l', g2, _⟩ | ⟨l', q, d, g2, g3, g4, g5⟩
    · cases g2
    · cases g2
    · cases g2
      cases g4
      have h5 := Option.some.inj g5
      simp only [exec] at he
      obtain ⟨o, s1, e1, e2⟩ := M.bind_eq_ok.1 he
      obtain ⟨_, s2, e3, e4⟩ := M.bind_eq_ok.1 e2
      obtain ⟨t, s3, e5, e6⟩ := M.bind_eq_ok.1 e4
      have hs1 : s1.stack = vm.stack := Rel.ok (rel_getArg keptPre 1) e1
      have hs3 : s3.stack = s2.stack := Rel.ok (still_truthy o) e5
      obtain ⟨p1, p2⟩ := popMany_stack e3
      simp only [Int.toNat_natCast] at p1 p2
      have hE : ∀ d', ds j - n = d' → Effect lo base ok d' vm s3 := by
        intro d' hd'
        refine ⟨?_, fun q hq => .inl ?_⟩
        · rw [hs3, p2, List.length_take, hs1, hh]; omega
        · rw [hs3, p2, hs1, List.getElem?_take_of_lt (by omega)]
      cases t with
      | true =>
        simp only [if_true] at e6
        injection e6 with e1 e2
        subst e2
        injection e1 with e1
        injection e1 with _ _ e1
        obtain ⟨j', h1, h2, h3⟩ := hland _ q rfl g3
        exact ⟨j', by omega, h2, hE _ (by omega)⟩
      | false =>
        injection e6 with e1 e2
        subst e2
        exact hnext _ e1.symm (hE _ hb.symm)
  | @pop _ n hn =>
    have := indexed_meaning hip rfl hm
    subst this
    obtain ⟨h1, h2⟩ := exec_plain_inv (by simp) he
    obtain ⟨p1, p2⟩ := popMany_stack h1
    simp only [Int.toNat_natCast] at p1 p2
    refine hnext _ h2 ⟨?_, fun q hq => .inl ?_⟩
    · rw [p2, List.length_take, hh]; omega
    · rw [p2, List.getElem?_take_of_lt (by omega)]
  | @move _ a k h1 h2 h3 h4 =>
    have := indexed_meaning hip rfl hm
    subst this
    obtain ⟨g1, g2⟩ := exec_plain_inv (by simp) he
    obtain ⟨o, s1, e1, e2⟩ := M.bind_eq_ok.1 (show (getArg (a : Int).toNat >>= fun o => setArg ((ds j : Int) - k).toNat o) vm = _ from g1)
    have hs1 : s1.stack = vm.stack := Rel.ok (rel_getArg keptPre _) e1
    have := setArg_stack e2
    rw [hs1] at this
    refine hnext _ g2 ⟨?_, fun q hq => ?_⟩
    · rw [this, List.length_set, hb]; exact hh
    · rw [this]
      by_cases hq' : q = base + k
      · rcases h4 with h4 | h4
        · omega
        · exact .inr ⟨k, h4, hq'⟩
      · refine .inl (List.getElem?_set_ne ?_)
        omega
  | @set _ key a h1 h2 =>
    have := indexed_meaning hip rfl hm
    subst this
    obtain ⟨g1, g2⟩ := exec_plain_inv (by simp) he
    have := Rel.ok (still_setGlobal (env := env) _ _) g1
    exact hnext _ g2 ⟨by rw [this, hb]; exact hh, fun q hq => .inl (by rw [this])⟩
  | plain h1 h2 =>
    obtain ⟨m', h3, h4⟩ := h1 strip
    have := indexed_meaning hip h3 hm
    subst this
    obtain ⟨g1, g2⟩ := exec_plain_inv (.inl h4) he
    obtain ⟨x, hx⟩ := adds_plain h4 _ _ _ g1
    refine hnext _ g2 ⟨?_, fun q hq => .inl ?_⟩
    · rw [hx, List.length_append, hb]; simp; omega
    · rw [hx, List.getElem?_append_left (by omega)]

/-- Any number of steps. -/
theorem walk_effect {env : VM.Env} {strip : Bool} {bc cell serial : Nat} {before code after : List Ins} {lo base : Nat}
    {ok : Nat → Prop} {ld : Nat → Nat} {ds : Nat → Nat} {l l' : Nat} {vm : VM}
    (hown : Own code l l') (honce : LabelsOnce (before ++ code ++ after)) (hlo : ∀ j, j ≤ code.length → lo ≤ ds j)
    (hds : ∀ j i, code[j]? = some i → Fine lo ok ld i (ds j) (ds (j + 1)))
    (hh : vm.stack.length = base + ds 0) {a b : Nat × VM}
    (hw : Walk env strip bc cell serial (before ++ code ++ after) before.length (before.length + code.length) a b)
    (ha : a = (before.length, vm)) :
    ∃ j, b.1 = before.length + j ∧ j ≤ code.length ∧ Effect lo base ok (ds j) vm b.2 := by
  induction hw with
  | here => subst ha; exact ⟨0, rfl, Nat.zero_le _, hh, fun _ _ => .inl rfl⟩
  | @step k vm1 m vm2 k' hw h1 h2 hm he ih =>
    obtain ⟨j, hk, hj, hE⟩ := ih
    obtain rfl : k = before.length + j := hk
    obtain ⟨j', h3, h4, hE'⟩ := step_effect hown honce hlo hds (by simp at h2; omega) hE.height hm he
    refine ⟨j', h3, h4, hE'.height, fun q hq => ?_⟩
    rcases hE'.below q hq with h | h
    · rw [h]; exact hE.below q hq
    · exact .inr h

theorem fine_places {lo : Nat} {ok : Nat → Prop} {ld : Nat → Nat} {i : Ins} {d d' : Nat} (h : Fine lo ok ld i d d') :
    ∀ a ∈ places i, 1 ≤ a ∧ a ≤ (d : Int) := by
  cases h with
  | plain _ h => exact h
  | _ => simp [places] <;> omega

/-! ## The compiler -/

/-- Nothing is asked of the keys of globals. -/
@[reducible] def Keys.any : Keys := ⟨fun _ _ => True, fun _ => True, .core, unclaimed_core⟩

omit [Keys] in
theorem bounded_any {s : CState} (h : s.gensymNumber ≤ 2 ^ 64) : @Bounded .any s :=
  letI : Keys := .any
  ⟨h, fun _ _ _ _ => trivial, fun _ => trivial⟩

omit [Keys] in
theorem Fresh.tabled {s : CState} (h : Fresh s) : ∃ h, Tabled s h :=
  h.symbols.imp fun _ hh => ⟨hh, h.runtime, h.comptime⟩

omit [Keys] in
theorem Reached.view {cfg : Config} (hcb : @FreeNames .any cfg) {s : CState} {t : Table} (h : Reached cfg s t) :
    ∃ l, @View .any false s t (recorded s) l ∧ Fits t (recorded s) := by
  letI : Keys := .any
  have hc : ∀ {s : CState} {bs L l}, View false s bs L l → recorded s = L := fun {s bs L l} h => by
    unfold recorded
    rw [h.current, h.length]
  induction h with
  | @start s hs =>
    have hv : View false s [[]] 0 0 := ⟨by rw [hs.scopes]; rfl, by simp [hs.body], by simp, by rw [hs.scopes]; exact rfl, by simp, by rw [hs.scopes]; rfl,
      by rw [hs.scopes]; rfl, Fresh.tabled hs⟩
    exact ⟨0, (hc hv) ▸ hv, ⟨by simp [slots], by simp [slots]⟩⟩
  | @form s t e n depth push i s' _ he hcomp hg ih =>
    obtain ⟨l, hv, hf⟩ := ih
    cases push with
    | true =>
      obtain ⟨code, L', l', c, v, x⟩ := (goodRec hcb n depth).form he hv hcomp (bounded_any hg)
      have := c.after.1
      exact ⟨l', (hc v) ▸ v, hf.mono (by rw [hc v]; omega)⟩
    | false =>
      obtain ⟨slot, -, code, L', l', c, v, x⟩ := (goodRec hcb n depth).operand he hv hcomp (bounded_any hg)
      have := c.after.1
      exact ⟨l', (hc v) ▸ v, hf.mono (by rw [hc v]; omega)⟩
  | @scope s t s' _ ho ih =>
    obtain ⟨l, hv, hf⟩ := ih
    cases ho
    have h1 : recorded (opened s) = recorded s := hc hv.opened
    exact ⟨l, h1.symm ▸ hv.opened, h1.symm ▸ hf.open⟩
  | @var s t name x e n depth s' _ he hcomp hg ih =>
    obtain ⟨l, hv, hf⟩ := ih
    obtain ⟨code, L', l', c, v, x⟩ := createVar_code (goodRec hcb n depth) (fun _ => rfl) he hv hcomp (bounded_any hg)
    rw [with_eq_add]
    exact ⟨l', (hc v) ▸ v, by rw [hc v]; exact (hf.add _).mono (by omega)⟩
  | @drop s t n s' _ hn hp ih =>
    obtain ⟨l, hv, hf⟩ := ih
    have hle : n ≤ recorded s := by
      by_cases h0 : n = 0
      · omega
      · unfold emitPop at hp
        rw [if_neg h0] at hp
        rw [CM.bind_ok (put_eq hv _)] at hp
        unfold decrease at hp
        rw [CM.bind_ok (localsLength_eq (hv.grow _ _))] at hp
        by_cases hle : n ≤ recorded s
        · exact hle
        · rw [if_neg hle] at hp; cases hp
    rw [emitPop_eq hv hle] at hp
    cases hp
    have v := hv.grow (if n = 0 then [] else [.pop n]) (recorded s - n)
    have h1 := hc v
    refine ⟨l, by rw [h1]; exact v, hf.1, fun k hk => ?_⟩
    rw [h1]
    unfold slots at hk
    obtain ⟨p, hp, rfl⟩ := List.mem_map.1 hk
    obtain ⟨b, hb, hp⟩ := List.mem_flatten.1 hp
    have := hn b hb p hp
    omega

end DuckLisp.Compile
