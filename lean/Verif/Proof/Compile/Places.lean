import Verif.Proof.Compile.Depth
import Verif.Proof.Compile.Simulate
import Verif.Proof.Compile.Load

/-!
# Where the values of forms are
-/

namespace DuckLisp.Compile

open DuckLisp DuckLisp.VM DuckLisp.Asm DuckLisp.Spec DuckLisp.Spec.Eval DuckLisp.Reader

variable [Keys]

/-! ## Variables -/

theorem holdingScope_agrees {ids : Reading} {vm : VM} {base : Nat} {bs : Blocks} {env : List Eval.Block} {σ : Slots}
    (ha : AgreesBlocks σ bs env) (hσ : ∀ k v, σ k = some v → ∃ o, vm.stack[base + k]? = some o ∧ Holds ids vm o v)
    : ∀ {b : List (Bytes × Nat)} {e : List (Bytes × Value)},
    HoldingScope ids vm base b e → (slots (b :: bs)).Nodup →
    ∃ σ' : Slots, AgreesBlocks σ' (b :: bs) (e :: env) ∧ σ'.global = σ.global ∧
      ∀ k v, σ' k = some v → ∃ o, vm.stack[base + k]? = some o ∧ Holds ids vm o v
  | [], [], _, _ => ⟨σ, ⟨trivial, ha⟩, rfl, hσ⟩
  | (x, k) :: b, (y, v) :: e, h, hn => by
    obtain ⟨rfl, h1, h2⟩ := h
    rw [slots_cons] at hn
    simp only [List.map_cons, List.cons_append, List.nodup_cons, List.mem_append, not_or] at hn
    obtain ⟨σ', g1, g3, g2⟩ := holdingScope_agrees ha hσ h2 (by rw [slots_cons]; exact hn.2)
    refine ⟨upd σ' k v, ⟨⟨rfl, upd_same .., agreesBlock_congr g1.1 fun j hj => upd_other fun e => hn.1.1 (e ▸ hj)⟩,
      agreesBlocks_upd g1.2 hn.1.2⟩, g3, fun j w hj => ?_⟩
    by_cases hjk : j = k
    · subst hjk
      rw [upd_same] at hj
      cases hj
      exact h1
    · rw [upd_other hjk] at hj
      exact g2 j w hj
  | [], _ :: _, h, _ => h.elim
  | _ :: _, [], h, _ => h.elim

theorem holdingScopes_agrees {ids : Reading} {vm : VM} {base : Nat} (g : Bytes → Option Value) :
    ∀ {t : Blocks} {env : List Eval.Block}, HoldingScopes ids vm base t env → (slots t).Nodup →
    ∃ σ : Slots, AgreesBlocks σ t env ∧ σ.global = g ∧ ∀ k v, σ k = some v → ∃ o, vm.stack[base + k]? = some o ∧ Holds ids vm o v
  | [], [], _, _ => ⟨⟨fun _ => none, g⟩, trivial, rfl, fun _ _ h => by cases h⟩
  | b :: t, e :: env, h, hn => by
    rw [slots_cons] at hn
    obtain ⟨σ, g1, rfl, g2⟩ := holdingScopes_agrees g h.2 (List.nodup_append.1 hn).2.1
    exact holdingScope_agrees g1 g2 h.1 (by rw [slots_cons]; exact hn)
  | [], _ :: _, h, _ => h.elim
  | _ :: _, [], h, _ => h.elim

theorem holding_agrees {ids : Reading} {vm : VM} {base : Nat} {t : Blocks} {env : Eval.Env}
    (h : Holding ids vm base t env) (hn : (slots t).Nodup) : ∃ σ : Slots, Agrees σ t env ∧
      (∀ k v, σ k = some v → ∃ o, vm.stack[base + k]? = some o ∧ Holds ids vm o v) ∧
      ∀ x v, σ.global x = some v → ∃ id o, ids.number x id ∧ VM.Reads vm id o ∧ Holds ids vm o v := by
  obtain ⟨σ, g1, g2, g3⟩ := holdingScopes_agrees (fun x => lookupBlock x env.globals) h.1 hn
  exact ⟨σ, ⟨g1, fun x v hx => by rw [g2]; exact hx⟩, g3, fun x v hx => h.2 x v (by rw [g2] at hx; exact hx)⟩

theorem agrees_holdingScope {ids : Reading} {vm : VM} {base : Nat} {σ : Slots} :
    ∀ {b : List (Bytes × Nat)} {e : List (Bytes × Value)}, AgreesBlock σ b e →
    (∀ k ∈ b.map Prod.snd, ∀ v, σ k = some v → ∃ o, vm.stack[base + k]? = some o ∧ Holds ids vm o v) →
    HoldingScope ids vm base b e
  | [], [], _, _ => trivial
  | (x, k) :: b, (y, v) :: e, h, hσ =>
    ⟨h.1, hσ k (by simp) v h.2.1, agrees_holdingScope h.2.2 fun j hj => hσ j (by
      simp only [List.map_cons, List.mem_cons]; exact .inr hj)⟩
  | [], _ :: _, h, _ => h.elim
  | _ :: _, [], h, _ => h.elim

theorem agrees_holdingScopes {ids : Reading} {vm : VM} {base : Nat} {σ : Slots} :
    ∀ {t : Blocks} {env : List Eval.Block}, AgreesBlocks σ t env →
    (∀ k ∈ slots t, ∀ v, σ k = some v → ∃ o, vm.stack[base + k]? = some o ∧ Holds ids vm o v) →
    HoldingScopes ids vm base t env
  | [], [], _, _ => trivial
  | b :: t, e :: env, h, hσ =>
    ⟨agrees_holdingScope h.1 fun k hk => hσ k (by rw [slots_cons]; exact List.mem_append_left _ hk),
      agrees_holdingScopes h.2 fun k hk => hσ k (by rw [slots_cons]; exact List.mem_append_right _ hk)⟩
  | [], _ :: _, h, _ => h.elim
  | _ :: _, [], h, _ => h.elim

/-! ## One program inside another -/

/-- The code alone, at its place. -/
def alone (p : Nat) (code : List Ins) : List Ins := List.replicate p .nop ++ code

theorem alone_at {p : Nat} {code : List Ins} {k : Nat} {i : Ins} (h : (alone p code)[k]? = some i) (hk : p ≤ k) :
    code[k - p]? = some i := by
  unfold alone at h
  rw [List.getElem?_append_right (by simpa using hk)] at h
  simpa using h

theorem alone_label {p : Nat} {code : List Ins} {k l : Nat} (h : (alone p code)[k]? = some (.label l)) : p ≤ k := by
  by_cases hk : p ≤ k
  · exact hk
  · unfold alone at h
    rw [List.getElem?_append_left (by simp; omega), List.getElem?_replicate] at h
    split at h <;> cases h

theorem inside_at {before code after : List Ins} {k : Nat} {i : Ins} (h : code[k]? = some i) :
    (before ++ code ++ after)[before.length + k]? = some i := by
  have hl : k < code.length := (List.getElem?_eq_some_iff.1 h).1
  rw [List.append_assoc, List.getElem?_append_right (by omega), List.getElem?_append_left (by omega)]
  simpa using h

theorem lift_at {before code after : List Ins} {k : Nat} {i : Ins} (h : (alone before.length code)[k]? = some i)
    (hk : before.length ≤ k) : (before ++ code ++ after)[k]? = some i := by
  have := inside_at (before := before) (after := after) (alone_at h hk)
  rwa [show before.length + (k - before.length) = k by omega] at this

theorem lift_indexed {strip : Bool} {before code after : List Ins} {k : Nat} {m : Instr}
    (h : Indexed strip (alone before.length code) k m) (hk : before.length ≤ k) :
    Indexed strip (before ++ code ++ after) k m := by
  obtain ⟨i, h1, h2⟩ := h
  refine ⟨i, lift_at h1 hk, ?_⟩
  rcases h2 with h2 | h2 | ⟨l, j, d, g1, g2, g3, g4⟩
  · exact .inl h2
  · exact .inr (.inl h2)
  · exact .inr (.inr ⟨l, j, d, g1, lift_at g2 (alone_label g2), g3, g4⟩)

theorem lift_walk {env : VM.Env} {strip : Bool} {bc cell serial hi : Nat} {before code after : List Ins}
    {a b : Nat × VM} (h : Walk env strip bc cell serial (alone before.length code) before.length hi a b) :
    Walk env strip bc cell serial (before ++ code ++ after) before.length hi a b := by
  induction h with
  | here => exact .here
  | step _ h1 h2 h3 h4 ih => exact .step ih h1 h2 (lift_indexed h3 h1) h4

theorem alone_once {before code after : List Ins} (h : LabelsOnce (before ++ code ++ after)) :
    LabelsOnce (alone before.length code) := fun j k l hj hk =>
  h j k l (lift_at hj (alone_label hj)) (lift_at hk (alone_label hk))

theorem alone_length (p : Nat) (code : List Ins) : (alone p code).length = p + code.length := by simp [alone]

/-- The same instruction with an address of eight bytes. -/
theorem Setup.Means.indexed {C : Setup} (ho : ∀ k, C.off k = k) {k : Nat} {m : Instr} {vm : VM} {r : Out Ctl}
    (h : C.Means k m) (hx : exec C.env C.cell (C.at_ k) (C.at_ (k + 1)) m vm = r) :
    ∃ m', Indexed C.strip C.program k m' ∧
      exec C.env C.cell ⟨C.cell, C.serial, k⟩ ⟨C.cell, C.serial, (k + 1 : Nat)⟩ m' vm = r := by
  have ha : ∀ k, C.at_ k = ⟨C.cell, C.serial, (k : Nat)⟩ := fun k => by rw [Setup.at_, ho]
  rw [ha, ha] at hx
  obtain ⟨i, hi, h⟩ := h
  rcases h with h | h | ⟨l, j, w, d, hl, hj, hm, hland⟩
  · exact ⟨m, ⟨i, hi, .inl h⟩, hx⟩
  · exact ⟨m, ⟨i, hi, .inr (.inl h)⟩, hx⟩
  · rw [ho, ho, ho] at hland
    obtain ⟨d', m', hm', hland'⟩ : ∃ d' m', addressed .w8 d' i = some m' ∧
        landing (k : Nat) (k + 1 : Nat) m' = some (j : Int) := by
      cases i <;> first | (cases hl; done) | skip
      all_goals
        cases hm
        simp only [landing, Option.some.injEq] at hland
      · exact ⟨d + w.bytes - Width.bytes .w8, _, rfl, by simp only [landing]; congr 1; omega⟩
      all_goals exact ⟨d, _, rfl, by simp only [landing]; congr 1⟩
    exact ⟨m', ⟨i, hi, .inr (.inr ⟨l, j, d', hl, hj, hm', hland'⟩)⟩, by
      rw [← hx]; exact (exec_landing hm hm' hland hland').symm⟩

/-- Steps of a program that is only the code are a walk through the code. -/
theorem Setup.Steps.walk {C : Setup} {p lo base : Nat} {code : List Ins} {ok : Nat → Prop} {ld ds : Nat → Nat} {l l' : Nat}
    {vm : VM} (hp : C.program = alone p code) (ho : ∀ k, C.off k = k) (hown : Own code l l') (honce : LabelsOnce (alone p code))
    (hlo : ∀ j, j ≤ code.length → lo ≤ ds j)
    (hds : ∀ j i, code[j]? = some i → Fine lo ok ld i (ds j) (ds (j + 1)))
    (hh : vm.stack.length = base + ds 0) {n : Nat} {a b : Nat × VM} (h : C.Steps n a b)
    (hw : Walk C.env C.strip C.cell C.cell C.serial (alone p code) p (p + code.length) (p, vm) a) :
    Walk C.env C.strip C.cell C.cell C.serial (alone p code) p (p + code.length) (p, vm) b ∧
      p ≤ b.1 ∧ b.1 ≤ p + code.length := by
  have hp' : alone p code = List.replicate p .nop ++ code ++ [] := by simp [alone]
  have hrange : ∀ {c : Nat × VM}, Walk C.env C.strip C.cell C.cell C.serial (alone p code) p (p + code.length) (p, vm) c →
      p ≤ c.1 ∧ c.1 ≤ p + code.length := by
    intro c hc
    rw [hp'] at hc honce
    have hl : (List.replicate p Ins.nop).length = p := List.length_replicate
    obtain ⟨j, h1, h2, -⟩ := walk_effect (before := List.replicate p .nop) (base := base) hown honce hlo hds hh
      (by rw [hl]; exact hc) (by rw [hl])
    rw [hl] at h1
    omega
  induction h with
  | refl => exact ⟨hw, hrange hw⟩
  | @step n k vm1 k' vm2 b _ hg _ ih =>
    obtain ⟨-, m, h1, h2⟩ := hg
    obtain ⟨m, h1, h2⟩ := Setup.Means.indexed ho h1 h2
    rw [Setup.at_, ho] at h2
    rw [hp] at h1
    have hk : k < p + code.length := by
      obtain ⟨i, hi, -⟩ := h1
      have := (List.getElem?_eq_some_iff.1 hi).1
      rwa [alone_length] at this
    exact ih (.step hw (hrange hw).1 hk h1 h2)

/-! ## The compiler -/

theorem Reached.numbered {cfg : Config} {s : CState} {t : Table} (h : Reached cfg s t) : AllNumbered [] s := by
  induction h with
  | @start s hs =>
    obtain ⟨history, hh⟩ := hs.symbols
    refine ⟨⟨[] ++ history, ?_⟩, ?_⟩
    · rw [hh]
      exact Tables.holds_createAll Tables.holds_init history
    · simp [hs.assembly, hs.body]
  | form _ _ hc _ ih => exact Keeps.compound _ _ _ _ _ _ _ _ hc ih
  | scope _ hc ih => exact Keeps.openScope _ _ _ _ hc ih
  | var _ _ hc _ ih => exact Keeps.createVar (r := ⟨compound cfg _ _, expression cfg _ _, pure⟩) ⟨fun _ => Keeps.compound cfg _ _, fun _ => Keeps.expression cfg _ _, fun _ _ => Keeps.pure _⟩ _ _ _ _ hc ih
  | drop _ _ hc ih => exact Keeps.emitPop _ _ _ _ hc ih

/-- The piece of code that a form is compiled to. -/
def formPiece (e : Ast) (push : Bool) (i : Nat) : Piece := if push then .form e else .operand e i

theorem recorded_view {m : Bool} {s : CState} {bs L l} (h : View m s bs L l) : recorded s = L := by
  unfold recorded
  rw [h.current, h.length]

omit [Keys] in
theorem corr_outside (K K' : Keys) : ∀ {ss : List Scope} {bs : Blocks}, @Corr K false ss bs → @Corr K' false ss bs
  | [], [], _ => trivial
  | [], [_], h => h
  | [], _ :: _ :: _, h => h.elim
  | _ :: _, [], h => h.elim
  | s :: ss, b :: bs, ⟨h1, h2, h3, h4, h5⟩ => by
    refine ⟨h1, h2, h3, h4, ?_⟩
    split
    · rename_i hf
      rw [if_pos hf] at h5
      exact h5
    · rename_i hf
      rw [if_neg hf] at h5
      exact corr_outside K K' h5

omit [Keys] in
/-- Outside of functions nothing depends on which names they may mention. -/
theorem view_outside (K K' : Keys) {s : CState} {bs L l} (h : @View K false s bs L l)
    (ho : ∀ x, K'.dialect.outer x = true) : @View K' false s bs L l := by
  obtain ⟨h1, h2, h3, h4, h5, h6, h7, h8⟩ := h
  exact ⟨h1, h2, fun _ _ _ x _ => ho x.1, corr_outside K K' h4, h5, h6, h7, h8⟩

theorem Reached.code {cfg : Config} (hd : Keys.dialect = .core) (hcb : FreeNames cfg) {s : CState} {t : Table} (h : Reached cfg s t) {e : Ast}
    (he : Form e) {n depth : Nat} {push : Bool} {i : Option Int} {s' : CState}
    (hc : compound cfg n depth e push s = .ok i s') (hg : Bounded s') :
    ∃ (code : List Ins) (slot l l' : Nat), (push = false → i = some (slot : Int)) ∧ s'.assembly = s.assembly ++ code ∧ Fits t (recorded s) ∧
      Code (formPiece e push slot) t (recorded s) l code t (recorded s') l' := by
  have hcb' : @FreeNames .any cfg := fun name hn => hcb name (.inl (hn.resolve_right nofun))
  obtain ⟨l, hv, hf⟩ := Reached.view hcb' h
  replace hv := view_outside .any inferInstance hv fun x => by rw [hd]; rfl
  replace he : Term Keys.dialect false e := hd ▸ he
  have hbody : s.body = none := by
    have := hv.body
    cases hb : s.body with
    | none => rfl
    | some b => rw [hb] at this; cases this
  cases push with
  | true =>
    obtain ⟨code, L', l', c, v, x⟩ := (goodRec hcb n depth).form he hv hc hg
    exact ⟨code, 0, l, l', nofun, (x.outside hbody).2, hf, recorded_view v ▸ c⟩
  | false =>
    obtain ⟨slot, hi, code, L', l', c, v, x⟩ := (goodRec hcb n depth).operand he hv hc hg
    exact ⟨code, slot, l, l', fun _ => hi, (x.outside hbody).2, hf, recorded_view v ▸ c⟩

theorem formPiece_flow (hcore : Keys.dialect.functions = false) {e : Ast} {push : Bool} {i L l L' l' : Nat} {t : Table} {code : List Ins}
    (h : Code (formPiece e push i) t L l code t L' l') (hf : Fits t L) : ∃ ld ds : Nat → Nat, ds 0 = L ∧
      ds code.length = L' ∧ (∀ j, j ≤ code.length → L ≤ ds j) ∧ (push = false → i < L') ∧
      ∀ j ins, code[j]? = some ins →
        Fine L (fun k => ∃ x, Spec.Assigning x e ∧ t.place x = some k) ld ins (ds j) (ds (j + 1)) := by
  obtain ⟨ld, hld⟩ := h.flow hcore
  obtain ⟨F, hl⟩ := hld L (fun k => ∃ x, Spec.Assigning x e ∧ t.place x = some k) ld (fun _ _ _ => rfl) (Nat.le_refl _) hf
    (by cases push <;> trivial)
    (fun x k hx hk => .inr ⟨x, by cases push <;> exact hx, by rw [place_eq_find]; exact hk⟩)
  obtain ⟨ds, h1, h2, h3, h4⟩ := F.heights
  exact ⟨ld, ds, h1, h2, h3, by rintro rfl; exact hl, h4⟩

theorem operand_value {e : Ast} {bs : Blocks} {i L L' : Nat} {σ : Slots} {v : Value}
    (h : Piece.Ends (.operand e i) bs L L' σ v) : σ i = some v := by
  rcases ends_operand h with ⟨-, -, -, h⟩ | ⟨-, -, -, h⟩ <;> exact h

/-- The place of the value of a form. -/
def valuePlace (push : Bool) (slot L' : Nat) : Nat := if push then L' - 1 else slot

/-- What execution of the code of a form comes to. -/
theorem comes (hcore : Keys.dialect.functions = false) {e : Ast} {push : Bool} {i L l L' l' : Nat} {t : Table} {code before after : List Ins}
    (hc : Code (formPiece e push i) t L l code t L' l') (hf : Fits t L) {ids : Reading}
    (hids : ∀ name name' id id', ids.number name id → ids.number name' id' → (name = name' ↔ id = id'))
    (hints : ∀ v, .pushInteger v ∈ code → -2 ^ 63 ≤ v ∧ v < 2 ^ 63)
    (hsymbols : ∀ id len name, .pushSymbol id len name ∈ code → name.length < 65535 → ids.number name id.toNat)
    (hkeys : ∀ x key, Keys.key x key → ∃ id : Nat, key = id ∧ ids.number x id) {assignable : Bytes → Bool}
    (hset : ∀ x key n, assignable x = true → Keys.key x key → Keys.height n → key ≠ (n : Int) - 1)
    (env : VM.Env) (strip : Bool) {cell serial base : Nat} {bytes : Bytes} {vm : VM} (memory : Bool) (F : Nat)
    (call : List Ast → Eval.Env → Result (Value × Eval.Env))
    {names : Eval.Env} (honce : LabelsOnce (before ++ code ++ after))
    (hgood : Good vm) (hh : vm.stack.length = base + L) (hup : vm.upStack.length = vm.stack.length)
    (hrun : vm.currentBytecode = some cell) (hcode : HasCode vm ⟨cell, serial, 0⟩ bytes)
    (hnames : Holding ids vm base t names) :
    ComesTo env strip cell serial (before ++ code ++ after) before.length (before.length + code.length) vm
      (eval ⟨⟨env.fl, memory, assignable⟩, call⟩ F false e names) (fun r vm' =>
        Good vm' ∧ vm'.stack.length = base + L' ∧ vm'.upStack.length = vm'.stack.length ∧
        Holding ids vm' base t r.2 ∧
        ∃ o, vm'.stack[base + valuePlace push i L']? = some o ∧ Holds ids vm' o r.1) ∨
      (memory = true ∧ LacksMemory env strip cell serial (before ++ code ++ after) before.length
        (before.length + code.length) vm) := by
  let C : Setup := {
    env := env, cell := cell, serial := serial, strip := strip, program := alone before.length code, bytes := bytes
    ids := ids, below := vm.stack.take base, memory := memory, hids := hids, off := id, origin := 0
    kept := fun _ _ => False, callStack := vm.callStack, upArrays := vm.upArrays, hkept := nofun
    hints := fun v hv => hints v (by simpa [alone] using hv)
    hsymbols := fun id len name hm => hsymbols id len name (by simpa [alone] using hm) }
  have hbase : C.base = base := by show (vm.stack.take base).length = base; rw [List.length_take]; omega
  have hpos : ∀ k, C.pos k = base + k := fun k => by rw [Setup.pos, hbase]; rfl
  obtain ⟨σ, hσ, hvals, hglob⟩ := holding_agrees hnames hf.1
  obtain ⟨ld, ds, h0, hend, hlo, hslot, hds⟩ := formPiece_flow hcore hc hf
  have hafter : L ≤ L' ∧ (push = true → L < L') := by
    have := hc.after
    cases push <;> simp [formPiece, Piece.After] at this <;> simp <;> omega
  have hsim := simulate (C := C) (S := ⟨⟨env.fl, memory, assignable⟩, call⟩) F (fun h => absurd h (by rw [hcore]; decide)) rfl rfl hkeys hset hc before.length σ names vm .nil
    (fun j ins hj => by
      show (alone before.length code)[_]? = _
      unfold alone
      rw [List.getElem?_append_right (by simp)]
      simpa using hj) hf (by cases push <;> trivial)
    ⟨⟨hgood, Nat.zero_le _, by rw [hbase]; exact hh, by rw [hbase]; show _ = base + L; omega, hrun, hcode, rfl, rfl⟩,
      by rw [hbase], fun k _ v hv => by rw [hpos]; exact ⟨Nat.zero_le _, hvals k v hv⟩, hglob, nofun⟩ hσ
  have walk : ∀ {n k vm'}, C.Steps n (before.length, vm) (k, vm') →
      Walk env strip cell cell serial (before ++ code ++ after) before.length (before.length + code.length)
        (before.length, vm) (k, vm') ∧ before.length ≤ k ∧ k ≤ before.length + code.length := by
    intro n k vm' hs
    obtain ⟨h1, h2⟩ := Setup.Steps.walk (C := C) rfl (fun _ => rfl) hc.own (alone_once honce) hlo hds (by rw [h0]; exact hh) hs .here
    exact ⟨lift_walk h1, h2⟩
  have goes : ∀ {k vm' out}, before.length ≤ k → C.Goes k vm' out → k < before.length + code.length ∧
      ∃ m, Indexed strip (before ++ code ++ after) k m ∧
        exec env cell ⟨cell, serial, k⟩ ⟨cell, serial, (k + 1 : Nat)⟩ m vm' = out := by
    rintro k vm' out hk ⟨-, m, h1, h2⟩
    obtain ⟨m, h1, h2⟩ := h1.indexed (fun _ => rfl) h2
    refine ⟨?_, m, lift_indexed h1 hk, h2⟩
    obtain ⟨i, hi, -⟩ := h1
    have := (List.getElem?_eq_some_iff.1 hi).1
    rwa [show C.program.length = _ from alone_length ..] at this
  have out : C.RunsOut before.length vm → memory = true ∧ LacksMemory env strip cell serial (before ++ code ++ after)
      before.length (before.length + code.length) vm := by
    rintro ⟨hm, n, k, vm', h1, -, h2⟩
    obtain ⟨w, w1, -⟩ := walk h1
    refine ⟨hm, k, vm', w, ?_⟩
    rcases h2 with h2 | ⟨s, h2⟩
    · exact .inl h2.2
    · obtain ⟨-, m, h3, h4⟩ := goes w1 h2
      exact .inr ⟨m, s, h3, h4⟩
  have hres : (formPiece e push i).result ⟨⟨env.fl, memory, assignable⟩, call⟩ F names .nil = eval ⟨⟨env.fl, memory, assignable⟩, call⟩ F false e names := by
    cases push <;> rfl
  rw [hres] at hsim
  cases hr : eval ⟨⟨env.fl, memory, assignable⟩, call⟩ F false e names with
  | ok r =>
    rw [hr] at hsim
    rcases hsim with ⟨n, vm', h1, σ', ha, hg, -, he⟩ | h
    · refine .inl ⟨vm', (walk h1).1, ha.ready.good, ?_, ?_, ?_, ?_⟩
      · rw [ha.ready.height, hbase]; rfl
      · rw [ha.ready.height, ha.ready.upHeight]
      · refine ⟨agrees_holdingScopes hg.1 fun k hk v hv => ?_, fun x v hx => ha.globals x v (hg.2 x v hx)⟩
        rw [← hpos]
        exact (ha.values k (by have := hf.2 k hk; omega) v hv).2
      · rw [← hpos]
        cases push with
        | true => exact (ha.values (L' - 1) (by have := hafter.2 rfl; omega) _ he).2
        | false =>
          refine (ha.values i (hslot rfl) _ ?_).2
          exact operand_value he
    · exact .inr (out h)
  | error x =>
    rw [hr] at hsim
    rcases hsim with ⟨n, k, vm', s, h1, -, h2⟩ | h
    · exact .inl ⟨k, vm', s, (walk h1).1, goes (walk h1).2.1 h2⟩
    · exact .inr (out h)
  | undefined =>
    rw [hr] at hsim
    rcases hsim with ⟨n, k, vm', h1, -, h2⟩ | h
    · exact .inl ⟨k, vm', (walk h1).1, goes (walk h1).2.1 h2⟩
    · exact .inr (out h)
  | unfinished => exact .inl trivial
  | outside => exact .inl trivial

end DuckLisp.Compile
