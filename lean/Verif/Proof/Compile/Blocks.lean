import Verif.Proof.Compile.Ops

/-!
# Variables and the slots they are in
-/

namespace DuckLisp.Compile

open DuckLisp DuckLisp.VM DuckLisp.Asm DuckLisp.Spec DuckLisp.Spec.Eval DuckLisp.Reader

variable [Keys]

/-- The slots of all variables. -/
def slots (bs : Blocks) : List Nat := bs.flatten.map Prod.snd

/-- Every variable has a slot of its own. -/
def Fits (bs : Blocks) (L : Nat) : Prop := (slots bs).Nodup ∧ ∀ k ∈ slots bs, k < L

/-- A block of the evaluator and a block of the compiler have the same variables. -/
def AgreesBlock (σ : Slots) : List (Bytes × Nat) → List (Bytes × Value) → Prop
  | [], [] => True
  | (x, k) :: b, (y, v) :: e => x = y ∧ σ k = some v ∧ AgreesBlock σ b e
  | _, _ => False

/-- The blocks of the evaluator and those of the compiler have the same variables. -/
def AgreesBlocks (σ : Slots) : Blocks → List Eval.Block → Prop
  | [], [] => True
  | b :: bs, e :: env => AgreesBlock σ b e ∧ AgreesBlocks σ bs env
  | _, _ => False

/-- The evaluator and the compiler have the same variables, and the globals are expected to be what they are in the
evaluator. -/
def Agrees (σ : Slots) (bs : Blocks) (env : Eval.Env) : Prop :=
  AgreesBlocks σ bs env.blocks ∧ ∀ x v, lookupBlock x env.globals = some v → σ.global x = some v

theorem slots_cons (b : List (Bytes × Nat)) (bs : Blocks) : slots (b :: bs) = b.map Prod.snd ++ slots bs := by
  simp [slots]

theorem Fits.mono {bs : Blocks} {L L' : Nat} (h : Fits bs L) (hl : L ≤ L') : Fits bs L' :=
  ⟨h.1, fun k hk => by have := h.2 k hk; omega⟩

theorem Fits.add {bs : Blocks} {L : Nat} (h : Fits bs L) (x : Bytes) : Fits (addVar x L bs) (L + 1) := by
  have hs : slots (addVar x L bs) = L :: slots bs := by
    cases bs <;> simp [addVar, slots]
  refine ⟨?_, fun k hk => ?_⟩
  · rw [hs]
    exact List.nodup_cons.2 ⟨fun hm => by have := h.2 L hm; omega, h.1⟩
  · rw [hs] at hk
    rcases List.mem_cons.1 hk with rfl | hk
    · omega
    · have := h.2 k hk
      omega

theorem slots_add (x : Bytes) (L : Nat) (bs : Blocks) : slots (addVar x L bs) = L :: slots bs := by
  cases bs <;> simp [addVar, slots]

theorem slots_open (bs : Blocks) : slots ([] :: bs) = slots bs := by simp [slots]

theorem Fits.open {bs : Blocks} {L : Nat} (h : Fits bs L) : Fits ([] :: bs) L := by
  unfold Fits at *
  rw [slots_open]
  exact h

theorem agreesBlock_lookup {σ : Slots} {x : Bytes} : ∀ {b : List (Bytes × Nat)} {e : List (Bytes × Value)},
    AgreesBlock σ b e → match b.lookup x with
      | some k => (∃ v, lookupBlock x e = some v ∧ σ k = some v) ∧ k ∈ b.map Prod.snd
      | none => lookupBlock x e = none
  | [], [], _ => rfl
  | (y, k) :: b, (z, v) :: e, h => by
    obtain ⟨rfl, h1, h2⟩ := h
    by_cases hx : x = y
    · subst hx
      simp [lookupBlock, h1]
    · have := agreesBlock_lookup (x := x) h2
      simp only [List.lookup, beq_eq_false_iff_ne.2 hx, lookupBlock, if_neg hx]
      split at this
      · exact ⟨this.1, List.mem_cons_of_mem _ this.2⟩
      · exact this
  | [], _ :: _, h => h.elim
  | _ :: _, [], h => h.elim

theorem agreesBlocks_lookup {σ : Slots} {x : Bytes} : ∀ {bs : Blocks} {env : List Eval.Block}, AgreesBlocks σ bs env →
    match findVar bs x with
      | some k => (∃ v, lookupBlocks x env = some v ∧ σ k = some v) ∧ k ∈ slots bs
      | none => lookupBlocks x env = none
  | [], [], _ => rfl
  | b :: bs, e :: env, h => by
    have h1 := agreesBlock_lookup (x := x) h.1
    have h2 := agreesBlocks_lookup (x := x) h.2
    simp only [findVar, lookupBlocks]
    cases hb : b.lookup x with
    | some k =>
      rw [hb] at h1
      obtain ⟨⟨v, g1, g2⟩, g3⟩ := h1
      refine ⟨⟨v, by rw [g1]; rfl, g2⟩, ?_⟩
      rw [slots_cons]
      exact List.mem_append_left _ g3
    | none =>
      rw [hb] at h1
      rw [h1]
      simp only [Option.none_or]
      cases hf : findVar bs x with
      | some k =>
        rw [hf] at h2
        refine ⟨h2.1, ?_⟩
        rw [slots_cons]
        exact List.mem_append_right _ h2.2
      | none => rw [hf] at h2; exact h2
  | [], _ :: _, h => h.elim
  | _ :: _, [], h => h.elim

theorem agreesBlock_congr {σ σ' : Slots} : ∀ {b : List (Bytes × Nat)} {e : List (Bytes × Value)},
    AgreesBlock σ b e → (∀ k ∈ b.map Prod.snd, σ' k = σ k) → AgreesBlock σ' b e
  | [], [], _, _ => trivial
  | (y, k) :: b, (z, v) :: e, h, hc =>
    ⟨h.1, (hc k (by simp)).trans h.2.1, agreesBlock_congr h.2.2 fun j hj => hc j (by
      simp only [List.map_cons, List.mem_cons]; exact .inr hj)⟩
  | [], _ :: _, h, _ => h.elim
  | _ :: _, [], h, _ => h.elim

theorem agreesBlocks_congr {σ σ' : Slots} : ∀ {bs : Blocks} {env : List Eval.Block},
    AgreesBlocks σ bs env → (∀ k ∈ slots bs, σ' k = σ k) → AgreesBlocks σ' bs env
  | [], [], _, _ => trivial
  | b :: bs, e :: env, h, hc =>
    ⟨agreesBlock_congr h.1 fun k hk => hc k (by rw [slots_cons]; exact List.mem_append_left _ hk),
      agreesBlocks_congr h.2 fun k hk => hc k (by rw [slots_cons]; exact List.mem_append_right _ hk)⟩
  | [], _ :: _, h, _ => h.elim
  | _ :: _, [], h, _ => h.elim

theorem agrees_congr {σ σ' : Slots} {bs : Blocks} {env : Eval.Env} (h : Agrees σ bs env)
    (hc : ∀ k ∈ slots bs, σ' k = σ k) (hg : σ'.global = σ.global) : Agrees σ' bs env :=
  ⟨agreesBlocks_congr h.1 hc, fun x v hv => hg ▸ h.2 x v hv⟩

/-- What a name stands for. -/
theorem agrees_lookup {σ : Slots} {x : Bytes} {bs : Blocks} {env : Eval.Env} (h : Agrees σ bs env) :
    match findVar bs x with
      | some k => (∃ v, lookup x env = some v ∧ σ k = some v) ∧ k ∈ slots bs
      | none => ∀ v, lookup x env = some v → σ.global x = some v := by
  have := agreesBlocks_lookup (x := x) h.1
  unfold lookup
  split at this
  · obtain ⟨⟨v, h1, h2⟩, h3⟩ := this
    exact ⟨⟨v, by rw [h1]; rfl, h2⟩, h3⟩
  · rw [this]
    exact fun v hv => h.2 x v hv

/-- Whether a name stands for a variable of a block. -/
theorem agrees_local {σ : Slots} {x : Bytes} {bs : Blocks} {env : Eval.Env} (h : Agrees σ bs env) :
    (lookupBlocks x env.blocks).isSome = (findVar bs x).isSome := by
  have := agreesBlocks_lookup (x := x) h.1
  split at this
  · rename_i k hk
    obtain ⟨⟨v, h1, -⟩, -⟩ := this
    rw [h1, hk]
    rfl
  · rename_i hk
    rw [this, hk]
    rfl

theorem agreesBlocks_upd {σ : Slots} {bs : Blocks} {env : List Eval.Block} {L : Nat} {v : Value}
    (h : AgreesBlocks σ bs env) (hf : L ∉ slots bs) : AgreesBlocks (upd σ L v) bs env :=
  agreesBlocks_congr h fun _ hk => upd_other fun e => hf (e ▸ hk)

theorem agrees_upd {σ : Slots} {bs : Blocks} {env : Eval.Env} {L : Nat} {v : Value} (h : Agrees σ bs env)
    (hf : L ∉ slots bs) : Agrees (upd σ L v) bs env :=
  agrees_congr h (fun k hk => upd_other (fun e => hf (e ▸ hk))) rfl

theorem agrees_declare {σ : Slots} {bs : Blocks} {env : Eval.Env} {L : Nat} {v : Value} {x : Bytes}
    (h : Agrees σ bs env) (hv : σ L = some v) : Agrees σ (addVar x L bs) (Eval.declare x v env) := by
  refine ⟨?_, h.2⟩
  unfold Eval.declare
  match bs, env.blocks, h.1 with
  | [], [], _ => exact ⟨⟨rfl, hv, trivial⟩, trivial⟩
  | b :: bs, e :: env, h => exact ⟨⟨rfl, hv, h.1⟩, h.2⟩

theorem agrees_define {σ : Slots} {bs : Blocks} {env : Eval.Env} {v : Value} {x : Bytes}
    (h : Agrees σ bs env) : Agrees (updGlobal σ x v) bs (Eval.define x v env) := by
  refine ⟨agreesBlocks_congr h.1 fun _ _ => rfl, fun y w hw => ?_⟩
  simp only [Eval.define, lookupBlock] at hw
  simp only [updGlobal]
  split at hw
  · rename_i hy
    rw [if_pos hy]
    exact hw
  · rename_i hy
    rw [if_neg hy]
    exact h.2 y w hw

theorem agrees_enter {σ : Slots} {bs : Blocks} {env : Eval.Env} (h : Agrees σ bs env) :
    Agrees σ ([] :: bs) env.enter := ⟨⟨trivial, h.1⟩, h.2⟩

theorem agreesBlock_assign {σ : Slots} {x : Bytes} {k : Nat} {v : Value} :
    ∀ {b : List (Bytes × Nat)} {e : List (Bytes × Value)}, AgreesBlock σ b e → (b.map Prod.snd).Nodup →
      b.lookup x = some k → AgreesBlock (upd σ k v) b (assignBlock x v e)
  | [], [], _, _, hl => by simp at hl
  | (y, j) :: b, (z, w) :: e, h, hn, hl => by
    obtain ⟨rfl, h1, h2⟩ := h
    simp only [List.map_cons, List.nodup_cons] at hn
    by_cases hx : x = y
    · subst hx
      simp only [List.lookup, beq_self_eq_true, Option.some.injEq] at hl
      subst hl
      simp only [assignBlock, ↓reduceIte]
      exact ⟨rfl, upd_same .., agreesBlock_congr h2 fun i hi => upd_other fun e => hn.1 (e ▸ hi)⟩
    · simp only [List.lookup, beq_eq_false_iff_ne.2 hx] at hl
      simp only [assignBlock, if_neg hx]
      have hk : k ∈ b.map Prod.snd := by
        have := agreesBlock_lookup (x := x) h2
        rw [hl] at this
        exact this.2
      exact ⟨rfl, (upd_other fun (e : j = k) => hn.1 (e ▸ hk)).trans h1, agreesBlock_assign h2 hn.2 hl⟩
  | [], _ :: _, h, _, _ => h.elim
  | _ :: _, [], h, _, _ => h.elim

theorem agreesBlocks_assign {σ : Slots} {x : Bytes} {k : Nat} {v : Value} :
    ∀ {bs : Blocks} {env : List Eval.Block}, AgreesBlocks σ bs env → (slots bs).Nodup →
      findVar bs x = some k → AgreesBlocks (upd σ k v) bs (assignBlocks x v env)
  | [], [], _, _, hl => by simp [findVar] at hl
  | b :: bs, e :: env, h, hn, hl => by
    have h1 := agreesBlock_lookup (x := x) h.1
    rw [slots_cons, List.nodup_append] at hn
    simp only [findVar] at hl
    simp only [assignBlocks]
    cases hb : b.lookup x with
    | some j =>
      rw [hb] at h1 hl
      obtain ⟨⟨w, g1, g2⟩, g3⟩ := h1
      simp only [Option.some.injEq] at hl
      subst hl
      rw [g1, if_pos (by rfl)]
      exact ⟨agreesBlock_assign h.1 hn.1 hb,
        agreesBlocks_congr h.2 fun i hi => upd_other fun e => hn.2.2 _ g3 _ hi e.symm⟩
    | none =>
      rw [hb] at h1 hl
      have hl : findVar bs x = some k := hl
      rw [h1, if_neg (by simp)]
      have hk : k ∈ slots bs := by
        have := agreesBlocks_lookup (x := x) h.2
        rw [hl] at this
        exact this.2
      exact ⟨agreesBlock_congr h.1 fun i hi => upd_other fun e => hn.2.2 _ hi _ hk e,
        agreesBlocks_assign h.2 hn.2.1 hl⟩
  | [], _ :: _, h, _, _ => h.elim
  | _ :: _, [], h, _, _ => h.elim

theorem agrees_assign {σ : Slots} {x : Bytes} {k : Nat} {v : Value} {bs : Blocks} {env : Eval.Env}
    (h : Agrees σ bs env) (hn : (slots bs).Nodup) (hl : findVar bs x = some k) :
    Agrees (upd σ k v) bs (assign x v env) := ⟨agreesBlocks_assign h.1 hn hl, h.2⟩

theorem Agrees.leave {σ : Slots} {b : List (Bytes × Nat)} {bs : Blocks} {env : Eval.Env} (h : Agrees σ (b :: bs) env) :
    Agrees σ bs env.leave := by
  obtain ⟨blocks, globals⟩ := env
  cases blocks with
  | nil => exact h.1.elim
  | cons e env => exact ⟨h.1.2, h.2⟩

/-! ### Blocks after a piece -/

/-- What the body of a block does to the blocks. -/
def Piece.Extends (piece : Piece) (bs : Blocks) (L : Nat) (bs' : Blocks) (L' : Nat) : Prop :=
  match piece with
  | .body _ => Fits bs L → Fits bs' (L' - 1) ∧ ∀ k ∈ slots bs', k ∈ slots bs ∨ L ≤ k
  | _ => True

theorem Code.blocks {piece bs L l code bs' L' l'} (h : Code piece bs L l code bs' L' l') :
    piece.Extends bs L bs' L' := by
  induction h
  case bodyNil => exact fun h => ⟨h, fun k hk => .inl hk⟩
  case bodyLast => exact fun h => ⟨h, fun k hk => .inl hk⟩
  case bodyCons ih => exact ih
  case varLast bs L l name x e code L' l' hn hc ih =>
    intro h
    refine ⟨h.add x, fun k hk => ?_⟩
    rw [slots_add] at hk
    rcases List.mem_cons.1 hk with rfl | hk
    · exact .inr (Nat.le_refl _)
    · exact .inl hk
  case varCons bs L l name x e code L1 l1 rest code2 bs2 L2 l2 hn hc hr hc2 ih1 ih2 =>
    intro h
    obtain ⟨h1, h2⟩ := ih2 (h.add x)
    refine ⟨h1, fun k hk => ?_⟩
    rcases h2 k hk with hk | hk
    · rw [slots_add] at hk
      rcases List.mem_cons.1 hk with rfl | hk
      · exact .inr (Nat.le_refl _)
      · exact .inl hk
    · exact .inr (by omega)
  case noscopeLast ih => exact ih
  case noscopeCons bs L l name es code bs1 L1 l1 rest code2 bs2 L2 l2 hn hc hr hc2 ih1 ih2 =>
    intro h
    have ha := hc.after
    simp only [Piece.After] at ha
    obtain ⟨h1, h2⟩ := ih1 h
    obtain ⟨h3, h4⟩ := ih2 h1
    refine ⟨h3, fun k hk => ?_⟩
    rcases h4 k hk with hk | hk
    · exact h2 k hk
    · exact .inr (by omega)
  all_goals trivial

omit [Keys] in
theorem slots_params (s : Nat) (params : List Bytes) : slots [paramBlock s params] = (List.range' s params.length).reverse := by
  simp [slots, paramBlock, List.map_reverse, List.zipIdx_map_snd]

omit [Keys] in
theorem fits_params (s : Nat) (params : List Bytes) : Fits [paramBlock s params] (s + params.length) := by
  unfold Fits
  rw [slots_params]
  refine ⟨List.nodup_reverse.2 List.nodup_range', fun k hk => ?_⟩
  have := List.mem_range'_1.1 (List.mem_reverse.1 hk)
  omega

end DuckLisp.Compile
