import Verif.Spec.Nesting
import Verif.Proof.Compile.Depth

/-!
# How many values each function has on the stack, in code with functions

The compiler counts the values of a function together with those it has recorded for the code around it.  `c` is
how many of them belong to the code around; so at a point where it counts `d` values, the function has `d - c`.
-/

namespace DuckLisp.Compile

open DuckLisp DuckLisp.VM DuckLisp.Asm DuckLisp.Spec DuckLisp.Reader

variable [Keys]

/-- Heights before and after an instruction; `ld` is the height at the labels. -/
inductive FineL (ld : Nat → Nat × Nat) : Ins → Nat × Nat → Nat × Nat → Prop
  | label {l x} : ld l = x → FineL ld (.label l) x x
  | jump {l x} (x' : Nat × Nat) : ld l = x → FineL ld (.jump l) x x'
  | brnz {l c d} {n : Nat} : c + n ≤ d → c + 1 ≤ d → ld l = (c, d - n) → FineL ld (.brnz l n) (c, d) (c, d - n)
  | pop {c d} {n : Nat} : c + n ≤ d → FineL ld (.pop n) (c, d) (c, d - n)
  | move {c d} {a k : Nat} : 1 ≤ a → c + a ≤ d → k < d → c ≤ k → FineL ld (.move a ((d : Int) - k)) (c, d) (c, d)
  | set {c d key} {a : Nat} : 1 ≤ a → c + a ≤ d → FineL ld (.setGlobal a key) (c, d) (c, d)
  | plain {i} {c d : Nat} : (∀ strip, ∃ m, meaning strip i = some m ∧ PushesResult m) →
      (∀ a ∈ places i, 1 ≤ a ∧ c + a ≤ (d : Int)) → FineL ld i (c, d) (c, d + 1)
  | closure {l c d c1} {n : Nat} {variadic : Bool} : ld l = (c1, c1 + (n + if variadic then 1 else 0)) →
      FineL ld (.pushClosure variadic l n []) (c, d) (c, d + 1)
  | funcall {c d} {a n : Nat} : 1 ≤ a → c + a ≤ d → c + n ≤ d → FineL ld (.funcall a n) (c, d) (c, d - n + 1)
  | apply {c d} {a n : Nat} : 1 ≤ a → c + a ≤ d → c + (n + 1) ≤ d → FineL ld (.apply a n) (c, d) (c, d - (n + 1) + 1)
  | return_ {c d} {n : Nat} (x' : Nat × Nat) : d = c + n + 1 → FineL ld (.return_ n) (c, d) x'
  | gone {x} : FineL ld .internalNop x x
  | halt {x} : FineL ld .halt x x

/-- Heights throughout a piece of code. -/
inductive Level (ld : Nat → Nat × Nat) : Nat × Nat → List Ins → Nat × Nat → Prop
  | nil {c d} : c ≤ d → Level ld (c, d) [] (c, d)
  | cons {i c d x x' code} : c ≤ d → FineL ld i (c, d) x → Level ld x code x' → Level ld (c, d) (i :: code) x'

section
variable {c : Nat} {ld : Nat → Nat × Nat}

theorem Level.append {x y z : Nat × Nat} {a b : List Ins} (h : Level ld x a y) (g : Level ld y b z) :
    Level ld x (a ++ b) z := by
  induction h with
  | nil _ => exact g
  | cons h1 h2 _ ih => exact .cons h1 h2 (ih g)

theorem Level.one {d c' d1 : Nat} {i : Ins} (h : c ≤ d) (h' : c' ≤ d1) (g : FineL ld i (c, d) (c', d1)) :
    Level ld (c, d) [i] (c', d1) := .cons h g (.nil h')

theorem Level.push {d : Nat} {i : Ins} (h : c ≤ d) (hm : ∀ strip, ∃ m, meaning strip i = some m ∧ PushesResult m)
    (hp : ∀ a ∈ places i, 1 ≤ a ∧ c + a ≤ (d : Int)) : Level ld (c, d) [i] (c, d + 1) :=
  .one h (by omega) (.plain hm hp)

theorem Level.settle {a d : Nat} (ha : c ≤ a) (hd : a < d) : Level ld (c, d) (settleCode a d) (c, a + 1) := by
  unfold settleCode
  split
  · have : d = a + 1 := by omega
    subst this
    exact .nil (by omega)
  · refine .cons (by omega) ?_ (.one (by omega) (by omega) ?_) (x := (c, d))
    · have := FineL.move (ld := ld) (c := c) (d := d) (a := 1) (k := a) (by omega) (by omega) hd ha
      rwa [show (d : Int) - a = ((d - a : Nat) : Int) by omega] at this
    · have := FineL.pop (ld := ld) (c := c) (d := d) (n := d - a - 1) (by omega)
      rwa [show d - (d - a - 1) = a + 1 by omega] at this

end

/-- A piece contains a call with more arguments than fit. -/
def Piece.Crowds : Piece → Prop
  | .form e | .operand e _ => Spec.Crowded Keys.dialect e
  | .block es | .body es | .conses es _ | .elements es _ _ | .args es => ∃ e ∈ es, Spec.Crowded Keys.dialect e
  | .quoted _ | .quotes _ => False

omit [Keys] in
/-- The values a piece uses belong to the function. -/
def Piece.EnterL (c L : Nat) : Piece → Prop
  | .conses _ i => c ≤ i ∧ i < L
  | .elements _ is _ => ∀ i ∈ is, c ≤ i ∧ i < L
  | .quotes _ => c < L
  | _ => True

omit [Keys] in
/-- The places that a piece yields belong to the function. -/
def Piece.LeaveL (c L' : Nat) : Piece → Prop
  | .operand _ i => c ≤ i ∧ i < L'
  | .elements _ _ all => ∀ i ∈ all, c ≤ i ∧ i < L'
  | _ => True

/-- What `Code.level` says of a piece. -/
def Levels (k : Piece) (bs : Blocks) (L l : Nat) (code : List Ins) (L' l' : Nat) : Prop :=
  ∃ ld : Nat → Nat → Nat × Nat, ∀ (c : Nat) (ld' : Nat → Nat × Nat), (∀ n, l ≤ n → n < l' → ld' n = ld c n) → c ≤ L →
    Fits bs L → k.EnterL c L → (∀ x i, findVar bs x = some i → c ≤ i) → ¬ k.Crowds →
    Level ld' (c, L) code (c, L') ∧ k.LeaveL c L'

/-- A piece that is one instruction which pushes a value. -/
theorem levels_push {k : Piece} {bs : Blocks} {L l : Nat} {i : Ins} (hk : ∀ c, c ≤ L → k.LeaveL c (L + 1) := by intros; trivial)
    (hm : ∀ strip, ∃ m, meaning strip i = some m ∧ PushesResult m := by exact fun _ => ⟨_, rfl, trivial⟩)
    (hp : ∀ c : Nat, c ≤ L → Fits bs L → (∀ x i, findVar bs x = some i → c ≤ i) →
      ∀ a ∈ places i, 1 ≤ a ∧ c + a ≤ (L : Int) := by simp [places]) :
    Levels k bs L l [i] (L + 1) l :=
  ⟨fun _ _ => (0, 0), fun c _ _ hlo hf _ ha _ => ⟨.push hlo hm (hp c hlo hf ha), hk c hlo⟩⟩

/-- Only the meaning of the piece is different. -/
theorem Levels.as {k k' : Piece} {bs bs' : Blocks} {L l : Nat} {code : List Ins} {L' l' : Nat} (h : Levels k bs L l code L' l')
    (ha : k.Crowds → k'.Crowds) (hb : ∀ x, findVar bs x = findVar bs' x) (hs : Fits bs' L → Fits bs L)
    (he : ∀ c, k'.EnterL c L → k.EnterL c L)
    (hl : ∀ c, c ≤ L → k.LeaveL c L' → k'.LeaveL c L') : Levels k' bs' L l code L' l' := by
  obtain ⟨ld, H⟩ := h
  refine ⟨ld, fun c ld' h1 h2 h3 h4 h5 h6 => ?_⟩
  obtain ⟨f, g⟩ := H c ld' h1 h2 (hs h3) (he c h4) (fun x i hi => h5 x i (by rw [← hb]; exact hi)) fun h => h6 (ha h)
  exact ⟨f, hl c h2 g⟩

omit [Keys] in
theorem crowded_tail {D : Dialect} {name : Bytes} {e : Ast} {es : List Ast} (he : e ∈ es) (h : Spec.Crowded D e) :
    Spec.Crowded D (.expression (.identifier name :: es)) := .inside e _ (List.mem_cons_of_mem _ he) h

theorem params_above {s : Nat} {params : List Bytes} {x : Bytes} {i : Nat}
    (h : findVar [paramBlock s params] x = some i) : s ≤ i := by
  have := find_slot h
  rw [slots_params, List.mem_reverse, List.mem_range'_1] at this
  exact this.1

theorem Code.level {k bs L l code bs' L' l'} (h : Code k bs L l code bs' L' l') :
    Levels k bs L l code L' l' := by
  induction h with
  | @lambda bs L l name params rest forms code l' hd hn hp hc ih =>
    obtain ⟨f, H⟩ := ih
    have a := hc.after
    simp only [Piece.After] at a
    refine ⟨fun c n => if n = l then (c, L) else if n = l + 1 then (L + 1, L + 1 + (params ++ rest.toList).length) else f (L + 1) n,
      fun c ld' h1 h2 h3 h4 h5 h6 => ⟨?_, trivial⟩⟩
    dsimp only at h1
    have e1 : ld' l = (c, L) := by rw [h1 l (by omega) (by omega), if_pos rfl]
    have e2 : ld' (l + 1) = (L + 1, L + 1 + (params ++ rest.toList).length) := by
      rw [h1 (l + 1) (by omega) (by omega), if_neg (by omega), if_pos rfl]
    have F := (H (L + 1) ld' (fun n hn hn' => by rw [h1 n (by omega) (by omega), if_neg (by omega), if_neg (by omega)])
      (by omega) (fits_params _ _) trivial (fun x i => params_above) fun ⟨e, he, hx⟩ =>
      h6 (crowded_tail (List.mem_cons_of_mem _ he) hx)).1
    refine ((Level.cons h2 (.jump _ e1) (.one (by omega) (by omega) (.label e2))).append F).append ?_
    have e3 : (params ++ rest.toList).length = params.length + if rest.isSome then 1 else 0 := by cases rest <;> simp
    refine .cons (by omega) (.return_ (c, L) (by omega)) (.cons h2 (.label e1) (.one h2 (by omega) (.closure (e3 ▸ e2))))
  | @funcall bs L l name f code L1 l1 es code2 l2 hd hn hc hc2 ih ih2 =>
    obtain ⟨f0, H⟩ := ih
    obtain ⟨g, H2⟩ := ih2
    have a := hc.after
    have a2 := hc2.after
    simp only [Piece.After] at a a2
    refine ⟨fun c => split l1 (f0 c) (g c), fun c ld' h1 h2 h3 h4 h5 h6 => ⟨?_, trivial⟩⟩
    have hfew : es.length < 256 := Nat.lt_of_not_le fun h => h6 (.funcall name f es hn h)
    obtain ⟨F, -⟩ := H c ld' (split_left h1 (by omega)) h2 h3 trivial h5 fun hx => h6 (crowded_tail (by simp) hx)
    obtain ⟨F2, -⟩ := H2 c ld' (split_right h1 (by omega)) (by omega) (h3.mono (by omega)) trivial h5
      fun ⟨e, he, hx⟩ => h6 (crowded_tail (List.mem_cons_of_mem _ he) hx)
    have hcal : c ≤ callee bs f L1 ∧ callee bs f L1 < L1 := by
      unfold callee
      split
      · rename_i x
        cases hx : findVar bs x with
        | none => simp only [Option.getD_none]; omega
        | some k =>
          have := h5 x k hx
          have := h3.2 _ (find_slot hx)
          simp only [Option.getD_some]
          omega
      · omega
    refine (F.append F2).append (.one (by omega) (by omega) ?_)
    have := FineL.funcall (ld := ld') (c := c) (d := L1 + es.length) (a := L1 + es.length - callee bs f L1) (n := es.length)
      (by omega) (by omega) (by omega)
    rw [show L1 + es.length - es.length + 1 = L1 + 1 by omega] at this
    rw [Nat.mod_eq_of_lt hfew]
    rwa [show ((L1 + es.length - callee bs f L1 : Nat) : Int) = ((L1 + es.length : Nat) : Int) - callee bs f L1 by omega] at this
  | @apply bs L l name f code L1 l1 es code2 l2 hd hn hne hc hc2 ih ih2 =>
    obtain ⟨f0, H⟩ := ih
    obtain ⟨g, H2⟩ := ih2
    have a := hc.after
    have a2 := hc2.after
    simp only [Piece.After] at a a2
    refine ⟨fun c => split l1 (f0 c) (g c), fun c ld' h1 h2 h3 h4 h5 h6 => ⟨?_, trivial⟩⟩
    have hfew : es.length < 257 := Nat.lt_of_not_le fun h => h6 (.apply name f es hn h)
    have hpos := List.length_pos_iff.2 hne
    obtain ⟨F, -⟩ := H c ld' (split_left h1 (by omega)) h2 h3 trivial h5 fun hx => h6 (crowded_tail (by simp) hx)
    obtain ⟨F2, -⟩ := H2 c ld' (split_right h1 (by omega)) (by omega) (h3.mono (by omega)) trivial h5
      fun ⟨e, he, hx⟩ => h6 (crowded_tail (List.mem_cons_of_mem _ he) hx)
    have hcal : c ≤ callee bs f L1 ∧ callee bs f L1 < L1 := by
      unfold callee
      split
      · rename_i x
        cases hx : findVar bs x with
        | none => simp only [Option.getD_none]; omega
        | some k =>
          have := h5 x k hx
          have := h3.2 _ (find_slot hx)
          simp only [Option.getD_some]
          omega
      · omega
    refine (F.append F2).append (.one (by omega) (by omega) ?_)
    have := FineL.apply (ld := ld') (c := c) (d := L1 + es.length) (a := L1 + es.length - callee bs f L1) (n := es.length - 1)
      (by omega) (by omega) (by omega)
    rw [show L1 + es.length - (es.length - 1 + 1) + 1 = L1 + 1 by omega] at this
    rw [Nat.mod_eq_of_lt (by omega)]
    rwa [show ((L1 + es.length - callee bs f L1 : Nat) : Int) = ((L1 + es.length : Nat) : Int) - callee bs f L1 by omega] at this
  | @call bs L l name es code l1 key hd hcal hk hc ih =>
    obtain ⟨g, H⟩ := ih
    have a := hc.after
    simp only [Piece.After] at a
    refine ⟨g, fun c ld' h1 h2 h3 h4 h5 h6 => ⟨?_, trivial⟩⟩
    have hfew : es.length < 256 := Nat.lt_of_not_le fun h => h6 (.call name es hcal h)
    obtain ⟨F, -⟩ := H c ld' h1 (by omega) (h3.mono (by omega)) trivial h5 fun ⟨e, he, hx⟩ => h6 (crowded_tail he hx)
    refine ((Level.push h2 (by exact fun _ => ⟨_, rfl, trivial⟩) (by simp [places])).append F).append
      (.one (by omega) (by omega) ?_)
    have := FineL.funcall (ld := ld') (c := c) (d := L + 1 + es.length) (a := es.length + 1) (n := es.length)
      (by omega) (by omega) (by omega)
    rw [show L + 1 + es.length - es.length + 1 = L + 2 by omega] at this
    rw [Nat.mod_eq_of_lt hfew]
    exact this
  | argsNil => exact ⟨fun _ _ => (0, 0), fun _ _ _ hlo _ _ _ _ => ⟨.nil hlo, trivial⟩⟩
  | @argsCons bs L l a es code L1 l1 code2 L2 l2 hc hc2 ih ih2 =>
    obtain ⟨f, H⟩ := ih
    obtain ⟨g, H2⟩ := ih2
    have a := hc.after
    have a2 := hc2.after
    simp only [Piece.After] at a a2
    refine ⟨fun c => split l1 (f c) (g c), fun c ld' h1 h2 h3 h4 h5 h6 => ⟨?_, trivial⟩⟩
    refine ((H c ld' (split_left h1 (by omega)) h2 h3 trivial h5 fun hx => h6 ⟨_, by simp, hx⟩).1.append
      (.settle h2 a.1)).append ?_
    exact (H2 c ld' (split_right h1 (by omega)) (by omega) (h3.mono (Nat.le_succ _)) trivial
      h5 fun ⟨e, he, hx⟩ => h6 ⟨e, by simp [he], hx⟩).1
  | bool | int | float | string | global _ _ | empty | bodyNil | declare _ | whenFalse _ _
  | unlessTrue _ _ => exact levels_push
  | op0 hg => exact levels_push
  | globalSlot _ _ => exact levels_push (hk := fun _ h => ⟨h, Nat.lt_succ_self _⟩)
  | quotedName id => exact levels_push (hm := fun strip => by cases strip <;> exact ⟨_, rfl, trivial⟩)
  | @var bs L l x k hx =>
    refine levels_push (hp := fun c _ hf ha => ?_)
    have := hf.2 _ (find_slot hx)
    have := ha _ _ hx
    simp [places]
    omega
  | slot hx => exact ⟨fun _ _ => (0, 0), fun _ _ _ hlo hf _ ha _ => ⟨.nil hlo, ha _ _ hx, hf.2 _ (find_slot hx)⟩⟩
  | temp _ hc ih =>
    refine ih.as id (fun _ => rfl) id (fun _ => id) fun _ _ _ => ?_
    have := hc.after.1
    simp only [Piece.LeaveL]
    omega
  | scope _ hc ih => exact ih.as (fun ⟨e, he, ha⟩ => .inside e _ he ha) (fun _ => rfl) id (fun _ => id) fun _ _ => id
  | block hc ih =>
    obtain ⟨ld, H⟩ := ih
    refine ⟨ld, fun c ld' h1 h2 h3 h4 h5 h6 => ⟨(H c ld' h1 h2 h3.open trivial h5 h6).1.append (.settle h2 hc.after.1), trivial⟩⟩
  | bodyLast _ hc ih =>
    obtain ⟨ld, H⟩ := ih
    refine ⟨ld, fun c ld' h1 h2 h3 h4 h5 h6 => ⟨(H c ld' h1 h2 h3 trivial h5 fun hx => h6 ⟨_, by simp, hx⟩).1.append
      (.settle h2 hc.after.1), trivial⟩⟩
  | @bodyCons bs L l f rest code L1 l1 code2 bs2 L2 l2 _ hc _ hc2 ih ih2 =>
    obtain ⟨f, H⟩ := ih
    obtain ⟨g, H2⟩ := ih2
    have a := hc.after
    have a2 := hc2.after
    simp only [Piece.After] at a a2
    refine ⟨fun c => split l1 (f c) (g c), fun c ld' h1 h2 h3 h4 h5 h6 => ⟨?_, trivial⟩⟩
    refine ((H c ld' (split_left h1 (by omega)) h2 h3 trivial h5 fun hx => h6 ⟨_, by simp, hx⟩).1.append (y := (c, L1)) ?_).append
      (H2 c ld' (split_right h1 (by omega)) h2 h3 trivial h5 fun ⟨e, he, hx⟩ => h6 ⟨e, by simp [he], hx⟩).1
    have := FineL.pop (c := c) (ld := ld') (d := L1) (n := L1 - L) (by omega)
    rw [show L1 - (L1 - L) = L by omega] at this
    exact .one (by omega) (by omega) this
  | @varLast bs L l name x e code L' l' _ hc ih =>
    obtain ⟨ld, H⟩ := ih
    refine ⟨ld, fun c ld' h1 h2 h3 h4 h5 h6 => ⟨?_, trivial⟩⟩
    refine ((H c ld' h1 h2 h3 trivial h5 fun hx => h6 ⟨_, List.mem_cons_self .., crowded_tail (by simp) hx⟩).1.append
      (.settle h2 hc.after.1)).append (.push (by omega) (by exact fun _ => ⟨_, rfl, trivial⟩) ?_)
    simp [places]
    omega
  | @varCons bs L l name x e code L1 l1 rest code2 bs2 L2 l2 _ hc _ hc2 ih ih2 =>
    obtain ⟨f, H⟩ := ih
    obtain ⟨g, H2⟩ := ih2
    have a := hc.after
    have a2 := hc2.after
    simp only [Piece.After] at a a2
    refine ⟨fun c => split l1 (f c) (g c), fun c ld' h1 h2 h3 h4 h5 h6 => ⟨?_, trivial⟩⟩
    refine (((H c ld' (split_left h1 (by omega)) h2 h3 trivial h5 fun hx =>
        h6 ⟨_, List.mem_cons_self .., crowded_tail (by simp) hx⟩).1.append (.settle h2 hc.after.1)).append (y := (c, L + 1)) ?_).append
      (H2 c ld' (split_right h1 (by omega)) (by omega) (h3.add x) trivial (fun y i hi => ?_) fun ⟨e', he, hy⟩ => h6 ⟨_, List.mem_cons_of_mem _ he, hy⟩).1
    · refine .cons (by omega) (.plain (by exact fun _ => ⟨_, rfl, trivial⟩) (by simp [places]; omega)) (.one (by omega) (by omega) ?_)
      exact FineL.pop (n := 1) (d := L + 1 + 1) (by omega)
    · have hv : Code (.body [.expression [.identifier name, .identifier x, e]]) bs L l _ (addVar x L bs) _ _ :=
        Code.varLast (by assumption) hc
      rcases hv.finds y i hi with h | h
      · exact h5 y i h
      · omega
  | noscopeLast _ hc ih =>
    exact ih.as (fun ⟨e, he, hx⟩ => ⟨_, List.mem_singleton.2 rfl, crowded_tail he hx⟩) (fun _ => rfl) id (fun _ => id) fun _ _ => id
  | @noscopeCons bs L l name es code bs1 L1 l1 rest code2 bs2 L2 l2 _ hc _ hc2 ih ih2 =>
    obtain ⟨f, H⟩ := ih
    obtain ⟨g, H2⟩ := ih2
    have a := hc.after
    have a2 := hc2.after
    simp only [Piece.After] at a a2
    refine ⟨fun c => split l1 (f c) (g c), fun c ld' h1 h2 h3 h4 h5 h6 => ⟨?_, trivial⟩⟩
    refine ((H c ld' (split_left h1 (by omega)) h2 h3 trivial h5 fun ⟨e, he, hx⟩ =>
        h6 ⟨_, List.mem_cons_self .., crowded_tail he hx⟩).1.append (y := (c, L1)) ?_).append
      (H2 c ld' (split_right h1 (by omega)) (by omega) (hc.blocks h3).1 trivial (fun y i hi => ?_) fun ⟨e, he, hy⟩ => h6 ⟨_, List.mem_cons_of_mem _ he, hy⟩).1
    · exact .one (by omega) (by omega) (FineL.pop (n := 1) (d := L1) (by omega))
    · rcases hc.finds y i hi with h | h
      · exact h5 y i h
      · omega
  | @setq bs L l name x k e code L' l' hn hc hx ih =>
    obtain ⟨ld, H⟩ := ih
    have a := hc.after.1
    refine ⟨ld, fun c ld' h1 h2 h3 h4 h5 h6 => ⟨(H c ld' h1 h2 h3 trivial h5 fun hy => h6 (crowded_tail (by simp) hy)).1.append ?_, trivial⟩⟩
    split
    · exact .nil (by omega)
    · have := h3.2 _ (find_slot hx)
      exact .one (by omega) (by omega) (FineL.move (a := 1) (by omega) (by omega) (by omega)
        (h5 x k hx))
  | @setqGlobal bs L l name x e code L' l' key _ _ hn hc hx ih =>
    obtain ⟨ld, H⟩ := ih
    have a := hc.after.1
    refine ⟨ld, fun c ld' h1 h2 h3 h4 h5 h6 => ⟨(H c ld' h1 h2 h3 trivial h5 fun hy => h6 (crowded_tail (by simp) hy)).1.append ?_, trivial⟩⟩
    split
    · exact .nil (by omega)
    · exact .one (by omega) (by omega) (FineL.set (a := 1) (by omega) (by omega))
  | @defGlobal bs L l name x e code L' l' key _ _ hn hc ih =>
    obtain ⟨ld, H⟩ := ih
    have a := hc.after.1
    refine ⟨ld, fun c ld' h1 h2 h3 h4 h5 h6 => ⟨(H c ld' h1 h2 h3 trivial h5 fun hy => h6 (crowded_tail (by simp) hy)).1.append ?_, trivial⟩⟩
    split
    · exact .nil (by omega)
    · exact .one (by omega) (by omega) (FineL.set (a := 1) (by omega) (by omega))
  | @op1 bs L l name a i code L' l' op _ hc ih =>
    obtain ⟨ld, H⟩ := ih
    have a := hc.after.1
    refine ⟨ld, fun c ld' h1 h2 h3 h4 h5 h6 => ?_⟩
    obtain ⟨F, hi⟩ := H c ld' h1 h2 h3 trivial h5 fun hy => h6 (crowded_tail (by simp) hy)
    refine ⟨F.append (.push (by omega) (pushes_op1 op _) ?_), trivial⟩
    simp only [Piece.LeaveL] at hi
    simp [places_op1]
    omega
  | @op2 bs L l name a i code L1 l1 b j code2 L2 l2 op _ hc hc2 ih ih2 =>
    obtain ⟨f, H⟩ := ih
    obtain ⟨g, H2⟩ := ih2
    have a := hc.after
    have a2 := hc2.after
    simp only [Piece.After] at a a2
    refine ⟨fun c => split l1 (f c) (g c), fun c ld' h1 h2 h3 h4 h5 h6 => ?_⟩
    obtain ⟨F, hi⟩ := H c ld' (split_left h1 (by omega)) h2 h3 trivial h5 fun hy => h6 (crowded_tail (by simp) hy)
    obtain ⟨F2, hj⟩ := H2 c ld' (split_right h1 (by omega)) (by omega) (h3.mono (by omega)) trivial h5 fun hy =>
      h6 (crowded_tail (by simp) hy)
    refine ⟨(F.append F2).append (.push (by omega) (pushes_op2 op _ _) ?_), trivial⟩
    simp only [Piece.LeaveL] at hi hj
    simp [places_op2]
    omega
  | @op3 bs L l name a i code L1 l1 b j code2 L2 l2 e3 k code3 L3 l3 op _ hc hc2 hc3 ih ih2 ih3 =>
    obtain ⟨f, H⟩ := ih
    obtain ⟨g, H2⟩ := ih2
    obtain ⟨g3, H3⟩ := ih3
    have a := hc.after
    have a2 := hc2.after
    have a3 := hc3.after
    simp only [Piece.After] at a a2 a3
    refine ⟨fun c => split l1 (f c) (split l2 (g c) (g3 c)), fun c ld' h1 h2 h3 h4 h5 h6 => ?_⟩
    have h1' := split_right h1 (by omega)
    obtain ⟨F, hi⟩ := H c ld' (split_left h1 (by omega)) h2 h3 trivial h5 fun hy => h6 (crowded_tail (by simp) hy)
    obtain ⟨F2, hj⟩ := H2 c ld' (split_left h1' (by omega)) (by omega) (h3.mono (by omega)) trivial h5 fun hy =>
      h6 (crowded_tail (by simp) hy)
    obtain ⟨F3, hk⟩ := H3 c ld' (split_right h1' (by omega)) (by omega) (h3.mono (by omega)) trivial h5 fun hy =>
      h6 (crowded_tail (by simp) hy)
    refine ⟨((F.append F2).append F3).append (.push (by omega) (pushes_op3 op _ _ _) ?_), trivial⟩
    simp only [Piece.LeaveL] at hi hj hk
    simp [places_op3]
    omega
  | @list bs L l name es code L' l' _ hc ih =>
    obtain ⟨ld, H⟩ := ih
    refine ⟨ld, fun c ld' h1 h2 h3 h4 h5 h6 => ⟨(Level.push h2 (by exact fun _ => ⟨_, rfl, trivial⟩) (by simp [places])).append
      (H c ld' h1 (by omega) (h3.mono (by omega)) (by simp [Piece.EnterL]; omega) h5 fun ⟨e, he, hy⟩ =>
        h6 (crowded_tail (List.mem_reverse.1 he) hy)).1, trivial⟩⟩
  | consNil => exact ⟨fun _ _ => (0, 0), fun _ _ _ hlo _ _ _ _ => ⟨.nil hlo, trivial⟩⟩
  | @consCons bs L l a es i j code L1 l1 code2 L2 l2 hc hc2 ih ih2 =>
    obtain ⟨f, H⟩ := ih
    obtain ⟨g, H2⟩ := ih2
    have a := hc.after
    have a2 := hc2.after
    simp only [Piece.After] at a a2
    refine ⟨fun c => split l1 (f c) (g c), fun c ld' h1 h2 h3 h4 h5 h6 => ?_⟩
    obtain ⟨F, hi⟩ := H c ld' (split_left h1 (by omega)) h2 h3 trivial h5 fun hy => h6 ⟨_, by simp, hy⟩
    obtain ⟨F2, -⟩ := H2 c ld' (split_right h1 (by omega)) (by omega) (h3.mono (by omega)) (by simp [Piece.EnterL]; omega) h5 fun ⟨e, he, hy⟩ =>
      h6 ⟨e, List.mem_cons_of_mem _ he, hy⟩
    simp only [Piece.LeaveL, Piece.EnterL] at hi h4
    refine ⟨(F.append (.push (by omega) (by exact fun _ => ⟨_, rfl, trivial⟩) ?_)).append F2, trivial⟩
    simp [places]
    omega
  | @vector bs L l name es is code L' l' _ hc ih =>
    obtain ⟨ld, H⟩ := ih
    have a := hc.after.1
    refine ⟨ld, fun c ld' h1 h2 h3 h4 h5 h6 => ?_⟩
    obtain ⟨F, hi⟩ := H c ld' h1 (by omega) (h3.mono (by omega)) (by simp [Piece.EnterL]) h5 fun ⟨e, he, hy⟩ =>
        h6 (crowded_tail (List.mem_reverse.1 he) hy)
    refine ⟨((Level.push h2 (by exact fun _ => ⟨_, rfl, trivial⟩) (by simp [places])).append F).append
      (.push (by omega) (by exact fun _ => ⟨_, rfl, trivial⟩) ?_), trivial⟩
    simp only [Piece.LeaveL] at hi
    intro a ha
    simp only [places, List.mem_map] at ha
    obtain ⟨i, hm, rfl⟩ := ha
    have := hi i hm
    omega
  | elemNil => exact ⟨fun _ _ => (0, 0), fun _ _ _ hlo _ he _ _ => ⟨.nil hlo, he⟩⟩
  | @elemCons bs L l a es i is all code L1 l1 code2 L2 l2 hc hc2 ih ih2 =>
    obtain ⟨f, H⟩ := ih
    obtain ⟨g, H2⟩ := ih2
    have a := hc.after
    have a2 := hc2.after
    simp only [Piece.After] at a a2
    refine ⟨fun c => split l1 (f c) (g c), fun c ld' h1 h2 h3 h4 h5 h6 => ?_⟩
    obtain ⟨F, hi⟩ := H c ld' (split_left h1 (by omega)) h2 h3 trivial h5 fun hy => h6 ⟨_, by simp, hy⟩
    simp only [Piece.LeaveL, Piece.EnterL] at hi h4
    obtain ⟨F2, h6⟩ := H2 c ld' (split_right h1 (by omega)) (by omega) (h3.mono (by omega))
      (by
        intro j hj
        rcases List.mem_cons.1 hj with rfl | hj
        · exact hi
        · have := h4 j hj; omega) h5 fun ⟨e, he, hy⟩ =>
      h6 ⟨e, List.mem_cons_of_mem _ he, hy⟩
    exact ⟨F.append F2, h6⟩
  | quote _ hc ih => exact ih.as (fun hx => hx.elim) (fun _ => rfl) id (fun _ => id) fun _ _ => id
  | quotedForm hx hy hc ih =>
    refine ih.as (fun hx => ?_) (fun _ => rfl) id (fun _ => id) fun _ _ => id
    cases hx <;> exact absurd rfl (hy _)
  | @quotedList bs L l es code L' hc ih =>
    obtain ⟨ld, H⟩ := ih
    refine ⟨ld, fun c ld' h1 h2 h3 h4 h5 h6 => ⟨(Level.push h2 (by exact fun _ => ⟨_, rfl, trivial⟩) (by simp [places])).append
      (H c ld' h1 (by omega) (h3.mono (by omega)) (by simp only [Piece.EnterL]; omega) h5 fun h => h.elim).1, trivial⟩⟩
  | quotesNil => exact ⟨fun _ _ => (0, 0), fun _ _ _ hlo _ _ _ _ => ⟨.nil hlo, trivial⟩⟩
  | @quotesCons bs L l e es code L1 code2 L2 hc hc2 ih ih2 =>
    obtain ⟨f, H⟩ := ih
    obtain ⟨g, H2⟩ := ih2
    have a := hc.after
    have a2 := hc2.after
    simp only [Piece.After] at a a2
    refine ⟨f, fun c ld' h1 h2 h3 h4 h5 h6 => ?_⟩
    simp only [Piece.EnterL] at h4
    obtain ⟨F, -⟩ := H c ld' h1 h2 h3 h4 h5 fun h => h.elim
    obtain ⟨F2, -⟩ := H2 c ld' (fun n _ _ => by omega) (by omega) (h3.mono (by omega)) trivial h5 fun h => h.elim
    refine ⟨(F.append F2).append (.push (by omega) (by exact fun _ => ⟨_, rfl, trivial⟩) ?_), trivial⟩
    simp [places]
    omega
  | @ifConst bs L l name c e f b code L' l' _ _ hc ih =>
    exact ih.as (fun hx => crowded_tail (by cases b <;> simp) hx) (fun _ => rfl) id (fun _ => id) fun _ _ => id
  | @if_ bs L l name e0 e f code L1 l1 codeF Lf lf codeE Le le B _ _ hc hB hF hE ih ihF ihE =>
    obtain ⟨g0, H⟩ := ih
    obtain ⟨gF, HF⟩ := ihF
    obtain ⟨gE, HE⟩ := ihE
    have a := hc.after
    have aF := hF.after
    have aE := hE.after
    have hp := condPops_le e0 L L1
    simp only [Piece.After] at a aF aE
    refine ⟨fun c => split l1 (g0 c) (split (l1 + 2) (fun n => if n = l1 then (c, B) else (c, B + 1)) (split lf (gF c) (gE c))),
      fun c ld' h1 h2 h3 h4 h5 h6 => ⟨?_, trivial⟩⟩
    have h1' := split_right h1 (by omega)
    have h1'' := split_right h1' (by omega)
    have e1 : ld' l1 = (c, B) := by rw [split_left h1' (by omega) l1 (by omega) (by omega), if_pos rfl]
    have e2 : ld' (l1 + 1) = (c, B + 1) := by rw [split_left h1' (by omega) (l1 + 1) (by omega) (by omega), if_neg (by omega)]
    have F := (H c ld' (split_left h1 (by omega)) h2 h3 trivial h5 fun hy => h6 (crowded_tail (by simp) hy)).1
    have FF := (HF c ld' (split_left h1'' (by omega)) (by omega) (h3.mono (by omega)) trivial
      h5 fun hy => h6 (crowded_tail (by simp) hy)).1
    have FE := (HE c ld' (split_right h1'' (by omega)) (by omega) (h3.mono (by omega)) trivial
      h5 fun hy => h6 (crowded_tail (by simp) hy)).1
    have hbr := FineL.brnz (c := c) (ld := ld') (l := l1) (d := L1) (n := condPops e0 L L1) (by omega) (by omega)
      (by rw [e1, hB])
    rw [← hB] at hbr
    exact ((((((F.append (.one (by omega) (by omega) hbr)).append FF).append (.settle (by omega) aF.1)).append
      (.cons (by omega) (.jump (c, B) e2) (.one (by omega) (by omega) (.label e1)))).append FE).append
      (.settle (by omega) aE.1)).append (.one (by omega) (by omega) (.label e2))
  | whenTrue _ _ hc ih =>
    exact ih.as (fun ⟨e, he, hx⟩ => crowded_tail (List.mem_cons_of_mem _ he) hx) (fun _ => rfl) id (fun _ => id) fun _ _ => id
  | @when_ bs L l name e0 es code L1 l1 codeE Le le B _ _ hc hB hE ih ihE =>
    obtain ⟨g0, H⟩ := ih
    obtain ⟨gE, HE⟩ := ihE
    have a := hc.after
    have aE := hE.after
    have hp := condPops_le e0 L L1
    simp only [Piece.After] at a aE
    refine ⟨fun c => split l1 (g0 c) (split (l1 + 2) (fun n => if n = l1 then (c, B) else (c, B + 1)) (gE c)),
      fun c ld' h1 h2 h3 h4 h5 h6 => ⟨?_, trivial⟩⟩
    have h1' := split_right h1 (by omega)
    have e1 : ld' l1 = (c, B) := by rw [split_left h1' (by omega) l1 (by omega) (by omega), if_pos rfl]
    have e2 : ld' (l1 + 1) = (c, B + 1) := by rw [split_left h1' (by omega) (l1 + 1) (by omega) (by omega), if_neg (by omega)]
    have F := (H c ld' (split_left h1 (by omega)) h2 h3 trivial h5 fun hy => h6 (crowded_tail (by simp) hy)).1
    have FE := (HE c ld' (split_right h1' (by omega)) (by omega) (h3.mono (by omega)) trivial
      h5 fun ⟨e, he, hy⟩ => h6 (crowded_tail (List.mem_cons_of_mem _ he) hy)).1
    have hbr := FineL.brnz (c := c) (ld := ld') (l := l1) (d := L1) (n := condPops e0 L L1) (by omega) (by omega)
      (by rw [e1, hB])
    rw [← hB] at hbr
    exact (((F.append (.one (by omega) (by omega) hbr)).append
      (.cons (by omega) (.plain (by exact fun _ => ⟨_, rfl, trivial⟩) (by simp [places])) (.cons (by omega) (.jump (c, B) e2)
        (.one (by omega) (by omega) (.label e1))))).append FE).append
      (.one (by omega) (by omega) (.label (by rw [e2, aE.1])))
  | unlessFalse _ _ hc ih =>
    exact ih.as (fun ⟨e, he, hx⟩ => crowded_tail (List.mem_cons_of_mem _ he) hx) (fun _ => rfl) id (fun _ => id) fun _ _ => id
  | @unless_ bs L l name e0 es code L1 l1 codeE Le le B _ _ hc hB hE ih ihE =>
    obtain ⟨g0, H⟩ := ih
    obtain ⟨gE, HE⟩ := ihE
    have a := hc.after
    have aE := hE.after
    have hp := condPops_le e0 L L1
    simp only [Piece.After] at a aE
    refine ⟨fun c => split l1 (g0 c) (split (l1 + 2) (fun n => if n = l1 then (c, B) else (c, B + 1)) (gE c)),
      fun c ld' h1 h2 h3 h4 h5 h6 => ⟨?_, trivial⟩⟩
    have h1' := split_right h1 (by omega)
    have e1 : ld' l1 = (c, B) := by rw [split_left h1' (by omega) l1 (by omega) (by omega), if_pos rfl]
    have e2 : ld' (l1 + 1) = (c, B + 1) := by rw [split_left h1' (by omega) (l1 + 1) (by omega) (by omega), if_neg (by omega)]
    have F := (H c ld' (split_left h1 (by omega)) h2 h3 trivial h5 fun hy => h6 (crowded_tail (by simp) hy)).1
    have FE := (HE c ld' (split_right h1' (by omega)) (by omega) (h3.mono (by omega)) trivial
      h5 fun ⟨e, he, hy⟩ => h6 (crowded_tail (List.mem_cons_of_mem _ he) hy)).1
    have hbr := FineL.brnz (c := c) (ld := ld') (l := l1) (d := L1) (n := condPops e0 L L1) (by omega) (by omega)
      (by rw [e1, hB])
    rw [← hB] at hbr
    exact (((F.append (.one (by omega) (by omega) hbr)).append FE).append
      (.cons (by omega) (.jump (c, B) (by rw [e2, aE.1])) (.cons (by omega) (.label e1)
        (.one (by omega) (by omega) (.plain (by exact fun _ => ⟨_, rfl, trivial⟩) (by simp [places])))))).append
      (.one (by omega) (by omega) (.label (by rw [e2])))
  | @while_ bs L l name e0 es code L1 l1 codeC Lc lc _ _ hE hc ihE ih =>
    obtain ⟨gE, HE⟩ := ihE
    obtain ⟨g0, H⟩ := ih
    have aE := hE.after
    have a := hc.after
    simp only [Piece.After] at a aE
    refine ⟨fun c => split (l + 2) (fun _ => (c, L)) (split l1 (gE c) (g0 c)), fun c ld' h1 h2 h3 h4 h5 h6 => ⟨?_, trivial⟩⟩
    have h1' := split_right h1 (by omega)
    have e1 : ld' l = (c, L) := by rw [split_left h1 (by omega) l (by omega) (by omega)]
    have e2 : ld' (l + 1) = (c, L) := by rw [split_left h1 (by omega) (l + 1) (by omega) (by omega)]
    have FE := (HE c ld' (split_left h1' (by omega)) (by omega) h3.open trivial
      h5 fun ⟨e, he, hy⟩ => h6 (crowded_tail (List.mem_cons_of_mem _ he) hy)).1
    have F := (H c ld' (split_right h1' (by omega)) h2 h3 trivial h5 fun hy => h6 (crowded_tail (by simp) hy)).1
    have hbr := FineL.brnz (c := c) (ld := ld') (l := l + 1) (d := Lc) (n := Lc - L) (by omega) (by omega)
      (by rw [e2, show Lc - (Lc - L) = L by omega])
    rw [show Lc - (Lc - L) = L by omega] at hbr
    have hpop := FineL.pop (c := c) (ld := ld') (d := L1) (n := L1 - L) (by omega)
    rw [show L1 - (L1 - L) = L by omega] at hpop
    exact (((((Level.cons h2 (.jump (c, L) e1) (.one h2 h2 (.label e2))).append FE).append (.one (by omega) h2 hpop)).append
      (.one h2 h2 (.label e1))).append F).append (.cons (by omega) hbr
        (.one h2 (by omega) (.plain (by exact fun _ => ⟨_, rfl, trivial⟩) (by simp [places]))))


end DuckLisp.Compile
