import Verif.Proof.Compile.Blocks

/-!
# What the code of a part of a program has to do
-/

namespace DuckLisp.Compile

open DuckLisp DuckLisp.VM DuckLisp.Asm DuckLisp.Spec DuckLisp.Spec.Eval DuckLisp.Reader Setup

variable [Keys]

/-- Nothing changed below `L` but variables. -/
def Same (bs : Blocks) (L : Nat) (σ σ' : Slots) : Prop := ∀ k < L, k ∉ slots bs → σ' k = σ k

theorem Same.refl (bs : Blocks) (L : Nat) (σ : Slots) : Same bs L σ σ := fun _ _ _ => rfl

theorem Same.trans {bs bs2 : Blocks} {L L2 : Nat} {σ σ1 σ2 : Slots} (h : Same bs L σ σ1) (h2 : Same bs2 L2 σ1 σ2)
    (hL : L ≤ L2) (hs : ∀ k ∈ slots bs2, k ∈ slots bs ∨ L ≤ k) : Same bs L σ σ2 := by
  intro k hk hn
  refine (h2 k (by omega) fun hm => ?_).trans (h k hk hn)
  rcases hs k hm with h | h
  · exact hn h
  · omega

theorem Same.trans' {bs : Blocks} {L L2 : Nat} {σ σ1 σ2 : Slots} (h : Same bs L σ σ1) (h2 : Same bs L2 σ1 σ2)
    (hL : L ≤ L2) : Same bs L σ σ2 := h.trans h2 hL fun _ hk => .inl hk

theorem Same.upd {bs : Blocks} {L k : Nat} {σ σ1 : Slots} {v : Value} (h : Same bs L σ σ1)
    (hk : L ≤ k ∨ k ∈ slots bs) : Same bs L σ (upd σ1 k v) := by
  intro j hj hn
  refine (upd_other ?_).trans (h j hj hn)
  rintro rfl
  rcases hk with hk | hk
  · omega
  · exact hn hk

/-- What must be on the stack before a piece. -/
def Piece.Starts (piece : Piece) (bs : Blocks) (L : Nat) (σ : Slots) (acc : Value) : Prop :=
  match piece with
  | .conses _ i => i + 1 = L ∧ Fits bs i ∧ σ i = some acc
  | .quotes _ => ∃ i, i + 1 = L ∧ Fits bs i ∧ σ i = some .nil
  | _ => True

theorem ofList_inj : ∀ {vs ws : List Value}, ofList vs = ofList ws → vs = ws
  | [], [], _ => rfl
  | v :: vs, w :: ws, h => by
    simp only [ofList, Value.pair.injEq] at h
    rw [h.1, ofList_inj h.2]
  | [], _ :: _, h => by simp [ofList] at h
  | _ :: _, [], h => by simp [ofList] at h

/-- The values are in a row from slot `L` on. -/
def Row (L : Nat) (σ : Slots) (vs : List Value) : Prop := ∀ i v, vs[i]? = some v → σ (L + i) = some v

/-- Where the value is after a piece. -/
def Piece.Ends (piece : Piece) (bs : Blocks) (L L' : Nat) (σ : Slots) (v : Value) : Prop :=
  match piece with
  | .operand (.identifier x) i => (findVar bs x = some i ∨ findVar bs x = none ∧ L ≤ i ∧ i < L') ∧ σ i = some v
  | .operand _ i => L ≤ i ∧ i < L' ∧ σ i = some v
  | .args es => ∃ vs, v = ofList vs ∧ vs.length = es.length ∧ Row L σ vs
  | _ => σ (L' - 1) = some v

/-- What a piece means. -/
def Piece.result (S : Rules) (F : Nat) (piece : Piece) (env : Eval.Env) (acc : Value) : Result (Value × Eval.Env) :=
  match piece with
  | .form e => eval S F false e env
  | .operand e _ => eval S F false e env
  | .block es => inScope S F es env
  | .body es => Eval.body S F es env
  | .conses es _ => consOnto S F es acc env
  | .elements _ _ _ => .outside
  | .quoted e => datum S.toSetting e >>= fun v => .ok (v, env)
  | .quotes es => data S.toSetting es >>= fun v => .ok (v, env)
  | .args es => arguments S F es env >>= fun r => .ok (ofList r.1, r.2)

/-- The machine after a piece. -/
def After (C : Setup) (piece : Piece) (bs : Blocks) (L : Nat) (σ : Slots) (bs' : Blocks) (L' : Nat)
    (r : Value × Eval.Env) (vm' : VM) : Prop :=
  ∃ σ', C.At vm' L' σ' ∧ Agrees σ' bs' r.2 ∧ Same bs L σ σ' ∧ piece.Ends bs' L L' σ' r.1

/-- The code of a piece does what the piece means. -/
def Sim (C : Setup) (S : Rules) (F : Nat) (piece : Piece) (bs : Blocks) (L : Nat) (code : List Ins) (bs' : Blocks)
    (L' : Nat) : Prop :=
  ∀ p σ env vm acc, C.Has p code → Fits bs L → piece.Starts bs L σ acc → C.At vm L σ → Agrees σ bs env →
    C.Leads F p vm (piece.result S F env acc) (p + code.length) (After C piece bs L σ bs' L')

section

variable {C : Setup} {S : Rules} {F : Nat} {bs : Blocks} {L : Nat} {σ : Slots} {env : Eval.Env}

theorem not_slot (h : Fits bs L) : L ∉ slots bs := fun hm => by have := h.2 L hm; omega

/-- A value was pushed. -/
theorem after_push {piece : Piece} {v : Value} {vm : VM} (ha : C.At vm (L + 1) (upd σ L v)) (hf : Fits bs L)
    (hg : Agrees σ bs env) (he : ∀ σ', piece.Ends bs L (L + 1) σ' v ↔ σ' L = some v) :
    After C piece bs L σ bs (L + 1) (v, env) vm :=
  ⟨_, ha, agrees_upd hg (not_slot hf), Same.upd (Same.refl bs L σ) (.inl (Nat.le_refl _)), (he _).2 (upd_same ..)⟩

theorem lead_map {α β : Type} {B k q : Nat} {vm : VM} {a : α} {g : α → β} {post : α → VM → Prop}
    {post' : β → VM → Prop} (h : C.Leads B k vm (.ok a) q post) (hp : ∀ vm', post a vm' → post' (g a) vm') :
    C.Leads B k vm (.ok (g a)) q post' := by
  rcases h with ⟨n, vm', h1, h2⟩ | h
  · exact .inl ⟨n, vm', h1, hp vm' h2⟩
  · exact .inr h

theorem sim_push {piece : Piece} {ins : Ins} {v : Value} (hr : ∀ env acc, piece.result S F env acc = .ok (v, env))
    (he : ∀ bs L σ', piece.Ends bs L (L + 1) σ' v ↔ σ' L = some v)
    (hp : ∀ k σ vm, C.program[k]? = some ins → C.At vm L σ →
      C.Leads F k vm (.ok v) (k + 1) fun v vm' => C.At vm' (L + 1) (upd σ L v)) :
    Sim C S F piece bs L [ins] bs (L + 1) := by
  intro p σ env vm acc hh hf _ ha hg
  rw [hr]
  exact lead_map (g := fun v => (v, env)) (hp p σ vm hh.head ha) fun vm' h' => after_push h' hf hg (he bs L)

/-- Where an operand is. -/
theorem ends_operand {e : Ast} {i L1 : Nat} {σ1 : Slots} {v : Value} (he : Piece.Ends (.operand e i) bs L L1 σ1 v) :
    (∃ x, e = .identifier x ∧ findVar bs x = some i ∧ σ1 i = some v) ∨
      ((∀ x, e = .identifier x → findVar bs x = none) ∧ L ≤ i ∧ i < L1 ∧ σ1 i = some v) := by
  by_cases hx : ∃ x, e = .identifier x
  · obtain ⟨x, rfl⟩ := hx
    obtain ⟨h1 | ⟨h1, h2, h3⟩, h4⟩ : (findVar bs x = some i ∨ findVar bs x = none ∧ L ≤ i ∧ i < L1) ∧ σ1 i = some v := he
    · exact .inl ⟨x, rfl, h1, h4⟩
    · exact .inr ⟨fun y hy => by cases hy; exact h1, h2, h3, h4⟩
  · refine .inr ⟨fun x e => absurd ⟨x, e⟩ hx, ?_⟩
    cases e <;> first | exact he | exact absurd ⟨_, rfl⟩ hx

/-- The value of an operand when the operator is applied. -/
theorem operand_get {e : Ast} {i L1 L2 : Nat} {σ1 σ2 : Slots} {v : Value} (hf : Fits bs L)
    (he : Piece.Ends (.operand e i) bs L L1 σ1 v) (hs : Same bs L1 σ1 σ2) (hg : Agrees σ2 bs env) (hL : L ≤ L1)
    (hL2 : L1 ≤ L2) : ∃ w, (Eval.operand e v env).get env = .ok w ∧ σ2 i = some w ∧ i < L2 := by
  rcases ends_operand he with ⟨x, rfl, he, -⟩ | ⟨hx, h1, h2, h3⟩
  · have := agrees_lookup (x := x) hg
    rw [he] at this
    obtain ⟨⟨w, h1, h2⟩, h3⟩ := this
    refine ⟨w, ?_, h2, ?_⟩
    · have hl := agrees_local (x := x) hg
      rw [he, Option.isSome_some] at hl
      simp only [Eval.operand, hl, ↓reduceIte, Operand.get, h1]
    · have := hf.2 i h3
      omega
  · refine ⟨v, ?_, ?_, by omega⟩
    · by_cases hi : ∃ x, e = .identifier x
      · obtain ⟨x, rfl⟩ := hi
        have hl := agrees_local (x := x) hg
        rw [hx x rfl, Option.isSome_none] at hl
        simp only [Eval.operand, hl, Bool.false_eq_true, ↓reduceIte, Operand.get]
      · cases e <;> first | rfl | exact absurd ⟨_, rfl⟩ hi
    · rw [hs i h2 fun hm => by have := hf.2 i hm; omega]
      exact h3

/-- The value of an operand as soon as it is there. -/
theorem operand_now {e : Ast} {i L1 : Nat} {σ1 : Slots} {v : Value} (hf : Fits bs L) (hg : Agrees σ1 bs env)
    (he : Piece.Ends (.operand e i) bs L L1 σ1 v) (hL : L ≤ L1) : σ1 i = some v ∧ i < L1 := by
  rcases ends_operand he with ⟨x, rfl, h1, h2⟩ | ⟨hx, h1, h2, h3⟩
  · have := agrees_lookup (x := x) hg
    rw [h1] at this
    have := hf.2 i this.2
    exact ⟨h2, by omega⟩
  · exact ⟨h3, h2⟩

/-- First something that cannot fail. -/
theorem lead_first {α : Type} {B k q q' : Nat} {vm : VM} {r : Result α} {β : Type} {a : β} {post' : β → VM → Prop}
    {post : α → VM → Prop} (h : C.Leads B k vm (.ok a) q post')
    (hr : ∀ vm', post' a vm' → C.Leads B q vm' r q' post) : C.Leads B k vm r q' post := by
  have e : r = ((.ok a : Result β) >>= fun _ => r) := rfl
  rw [e]
  exact Leads.bind (post := fun y vm' => y = a ∧ post' y vm')
    (by rcases h with ⟨n, vm', h1, h2⟩ | h
        · exact .inl ⟨n, vm', h1, rfl, h2⟩
        · exact .inr h) (fun y vm' hy => hr vm' (hy.1 ▸ hy.2))

theorem Leads.cast {α : Type} {B k q q' : Nat} {vm : VM} {r : Result α} {post : α → VM → Prop}
    (h : C.Leads B k vm r q post) (hq : q = q') : C.Leads B k vm r q' post := hq ▸ h

theorem bind_ok {α : Type} (r : Result α) : (r >>= fun a => .ok a) = r := by cases r <;> rfl

theorem same_open {σ' : Slots} : Same ([] :: bs) L σ σ' ↔ Same bs L σ σ' := by
  unfold Same
  rw [slots_open]

/-- Settle the value on top at `a`. -/
theorem after_settle {a L1 q : Nat} {σ1 : Slots} {v : Value} {vm : VM} {piece : Piece} {B p : Nat}
    (hc : C.Has p (settleCode a L1)) (ha : C.At vm L1 σ1) (h0 : C.origin ≤ L) (hL : L ≤ a) (hL1 : a < L1) (hv : σ1 (L1 - 1) = some v)
    (hf : Fits bs L) (hg : Agrees σ1 bs env) (hs : Same bs L σ σ1)
    (he : ∀ σ', piece.Ends bs L (a + 1) σ' v ↔ σ' a = some v) (hq : p + (settleCode a L1).length = q) :
    C.Leads B p vm (.ok (v, env)) q (After C piece bs L σ bs (a + 1)) := by
  subst hq
  refine lead_map (g := fun v => (v, env)) (lead_settle hc ha hL1 (by omega) hv) fun vm' h' => ?_
  exact ⟨_, h', agrees_upd hg (fun hm => by have := hf.2 a hm; omega), hs.upd (.inl hL), (he _).2 (upd_same ..)⟩

theorem decided_computed {c : Ast} (h : computed c = true) (r : Result (Value × Eval.Env)) :
    decided c r env = (do
      let (v, env) ← r
      let b ← Eval.truth v
      .ok (b, env)) := by
  cases c <;> first | rfl | simp [computed] at h

theorem decided_constant {c : Ast} {b : Bool} (h : constant c = some b) :
    decided c (eval S F false c env) env = .ok (b, env) := by
  cases c <;> simp only [constant, Option.some.injEq] at h
  case bool x =>
    subst h
    cases x <;> simp only [decided, eval, boolean] <;> rfl
  case int i =>
    subst h
    simp only [decided, eval]
    show Result.ok _ = _
    by_cases hi : i = 0 <;> simp [hi]
  case float x =>
    subst h
    simp only [decided, eval]
    show Result.ok _ = _
    have := isZero_iff (x := x)
    cases hz : Float64.isZero x <;> grind
  case string s =>
    subst h
    simp only [decided]
    cases s <;> simp
  all_goals cases h

/-- A condition that is computed, then one of two forms. -/
theorem decided_bind {c : Ast} (h : computed c = true) (r : Result (Value × Eval.Env)) {α : Type}
    (f : Bool × Eval.Env → Result α) :
    (decided c r env >>= f) = (r >>= fun p => Eval.truth p.1 >>= fun b => f (b, p.2)) := by
  rw [decided_computed h, Result.bind_assoc]
  congr 1
  funext p
  rw [Result.bind_assoc]
  rfl

/-- A global is set. -/
theorem lead_assign {B p key L1 : Nat} {σ1 : Slots} {v : Value} {vm : VM} {x : Bytes} {e : Ast} {code : List Ins}
    {n : Int} (hmem : S.memory = C.memory) (hk : n = key ∧ C.ids.number x key)
    (hset : S.assignable x = true → n ≠ (L1 : Int) - 1)
    (hh : C.Has (p + code.length) (if n = (L1 : Int) - 1 then [] else [.setGlobal 1 n])) (ha : C.At vm L1 σ1)
    (hL : L < L1) (hv : σ1 (L1 - 1) = some v) (hg : Agrees σ1 bs env) (hs : Same bs L σ σ1) :
    C.Leads B (p + code.length) vm (Eval.setGlobal S.toSetting x v env)
      (p + (code ++ if n = (L1 : Int) - 1 then [] else [Ins.setGlobal 1 n]).length)
      (After C (.form e) bs L σ bs L1) := by
  unfold Eval.setGlobal
  by_cases hm : S.memory = true ∧ S.assignable x = true
  · have hne := hset hm.2
    rw [if_neg hne] at hh ⊢
    rw [if_pos hm]
    refine Leads.cast (lead_map (g := fun v => (v, define x v env)) (lead_setGlobal (x := x) (a := v) hh.head ha hk.1 hk.2
      (by omega) hv (hmem ▸ hm.1)) ?_) (by simp; omega)
    rintro vm2 ⟨-, h5⟩
    exact ⟨_, h5, agrees_define hg, hs, hv⟩
  · rw [if_neg hm]
    trivial

/-- The function that a call reads. -/
theorem callee_get {f : Ast} {L1 : Nat} {σ1 σ2 : Slots} {v : Value} (hf : Fits bs L) (hL : L < L1)
    (h : σ1 (L1 - 1) = some v) (hs : Same bs L1 σ1 σ2) (hg : Agrees σ2 bs env) :
    ∃ w, (Eval.operand f v env).get env = .ok w ∧ σ2 (callee bs f L1) = some w ∧ callee bs f L1 < L1 := by
  have hv : σ2 (L1 - 1) = some v := (hs (L1 - 1) (by omega) fun hm => by have := hf.2 _ hm; omega).trans h
  by_cases hi : ∃ x, f = .identifier x
  · obtain ⟨x, rfl⟩ := hi
    have hl := agrees_local (x := x) hg
    cases hx : findVar bs x with
    | none =>
      rw [hx, Option.isSome_none] at hl
      refine ⟨v, ?_, ?_, ?_⟩
      · simp only [Eval.operand, hl, Bool.false_eq_true, ↓reduceIte, Operand.get]
      · simpa [callee, hx] using hv
      · simp only [callee, hx, Option.getD_none]; omega
    | some k =>
      rw [hx, Option.isSome_some] at hl
      have := agrees_lookup (x := x) hg
      rw [hx] at this
      obtain ⟨⟨w, h1, h2⟩, h3⟩ := this
      have := hf.2 k h3
      refine ⟨w, ?_, ?_, ?_⟩
      · simp only [Eval.operand, hl, ↓reduceIte, Operand.get, h1]
      · simpa [callee, hx] using h2
      · simp only [callee, hx, Option.getD_some]; omega
  · have hc : callee bs f L1 = L1 - 1 := by
      cases f <;> first | rfl | exact absurd ⟨_, rfl⟩ hi
    refine ⟨v, ?_, by rw [hc]; exact hv, by rw [hc]; omega⟩
    cases f <;> first | rfl | exact absurd ⟨_, rfl⟩ hi

/-- The arguments of a call, then the rest. -/
theorem lead_args {α : Type} {p q q' L' : Nat} {vm : VM} {es : List Ast} {f : List Value × Eval.Env → Result α}
    {post : α → VM → Prop} {acc : Value}
    (h : C.Leads F p vm (Piece.result S F (.args es) env acc) q (After C (.args es) bs L σ bs L'))
    (hf : ∀ vs env' vm', (∃ σ', C.At vm' L' σ' ∧ Agrees σ' bs env' ∧ Same bs L σ σ' ∧ vs.length = es.length ∧ Row L σ' vs) →
      C.Leads F q vm' (f (vs, env')) q' post) :
    C.Leads F p vm (arguments S F es env >>= f) q' post := by
  have key : ∀ r, Piece.result S F (.args es) env acc = (arguments S F es env >>= fun r => .ok (ofList r.1, r.2)) →
      arguments S F es env = r → C.Leads F p vm (r >>= f) q' post := by
    intro r e1 e2
    rw [e1, e2] at h
    cases r with
    | ok r =>
      obtain ⟨vs, env'⟩ := r
      refine lead_first (h : C.Leads F p vm (.ok (ofList vs, env')) q _) ?_
      rintro vm' ⟨σ', h1, h2, h3, ws, h4, h5, h6⟩
      rw [← ofList_inj h4] at h5 h6
      exact hf vs env' vm' ⟨σ', h1, h2, h3, h5, h6⟩
    | error e => exact h
    | undefined => exact h
    | unfinished => exact h
    | outside => trivial
  exact key _ rfl rfl

end

end DuckLisp.Compile
