import Verif.Proof.Compile.Invoke

/-!
# Running the code of a form does what evaluating the form does
-/

namespace DuckLisp.Compile

open DuckLisp DuckLisp.VM DuckLisp.Asm DuckLisp.Spec DuckLisp.Spec.Eval DuckLisp.Reader Setup

variable [Keys]

theorem simulate {C : Setup} {S : Rules} (F : Nat)
    (hfun : Keys.dialect.functions = true → Calls C S (F - 1) ∧ C.ids.function = Defines C.program C.off C.cell)
    (hfl : S.fl = C.env.fl) (hmem : S.memory = C.memory)
    (hkeys : ∀ x key, Keys.key x key → ∃ id : Nat, key = id ∧ C.ids.number x id)
    (hset : ∀ x key n, S.assignable x = true → Keys.key x key → Keys.height n → key ≠ (n : Int) - 1)
    {piece bs L l code bs' L' l'} (h : Code piece bs L l code bs' L' l') : Sim C S F piece bs L code bs' L' := by
  induction h with
  | bool b =>
    refine sim_push (v := boolean b) (fun env acc => by simp only [Piece.result, eval]) (fun _ _ _ => Iff.rfl)
      fun k σ vm hi h => ?_
    refine lead_push (m := .pushBool b) hi (by cases b <;> rfl) trivial rfl h trivial ?_
    cases b <;> exact .bool _
  | int i =>
    refine sim_push (v := .int i) (fun env acc => by simp only [Piece.result, eval]) (fun _ _ _ => Iff.rfl)
      fun k σ vm hi h => ?_
    have hw := C.hints _ (List.mem_of_getElem? hi)
    refine lead_push hi rfl trivial rfl h ?_ (.int _)
    simp only [ValueOk]
    omega
  | float x =>
    exact sim_push (v := .float x) (fun env acc => by simp only [Piece.result, eval]) (fun _ _ _ => Iff.rfl)
      fun k σ vm hi h => lead_push hi rfl trivial rfl h trivial (.float _)
  | string s =>
    intro p σ env vm acc hh hf _ ha hg
    have hor := ha.ready.origin
    simp only [Piece.result, eval, Eval.text]
    by_cases hm : S.memory = true ∧ s.length < 65536
    · rw [if_pos hm]
      have ht : s.take 65535 = s := List.take_of_length_le (by omega)
      rw [ht] at hh ⊢
      exact lead_map (g := fun v => (v, env)) (lead_string hh.head ha (by omega) (hmem ▸ hm.1))
        fun vm' h' => after_push h' hf hg fun _ => Iff.rfl
    · rw [if_neg hm]
      trivial
  | @var bs L l x k hx =>
    intro p σ env vm acc hh hf _ ha hg
    have hor := ha.ready.origin
    have := agrees_lookup (x := x) hg
    rw [hx] at this
    obtain ⟨⟨v, h1, h2⟩, h3⟩ := this
    simp only [Piece.result, eval, h1]
    exact lead_map (g := fun v => (v, env)) (lead_index hh.head ha (hf.2 _ h3) h2)
      fun vm' h' => after_push h' hf hg fun _ => Iff.rfl
  | @global bs L l x key hk hx =>
    intro p σ env vm acc hh hf _ ha hg
    have hor := ha.ready.origin
    obtain ⟨id, hid, hk⟩ := hkeys x key hk
    have := agrees_lookup (x := x) hg
    rw [hx] at this
    simp only [Piece.result, eval]
    cases hl : lookup x env with
    | none => trivial
    | some v =>
      exact lead_map (g := fun v => (v, env)) (lead_global hh.head ha hid hk (this v hl))
        fun vm' h' => after_push h' hf hg fun _ => Iff.rfl
  | @slot bs L l x k hx =>
    intro p σ env vm acc hh hf _ ha hg
    have hor := ha.ready.origin
    have := agrees_lookup (x := x) hg
    rw [hx] at this
    obtain ⟨⟨v, h1, h2⟩, h3⟩ := this
    simp only [Piece.result, eval, h1]
    exact Leads.done ⟨σ, ha, hg, .refl _ _ _, .inl hx, h2⟩
  | @globalSlot bs L l x key hk hx =>
    intro p σ env vm acc hh hf _ ha hg
    have hor := ha.ready.origin
    obtain ⟨id, hid, hk⟩ := hkeys x key hk
    have := agrees_lookup (x := x) hg
    rw [hx] at this
    simp only [Piece.result, eval]
    cases hl : lookup x env with
    | none => trivial
    | some v =>
      exact lead_map (g := fun v => (v, env)) (lead_global hh.head ha hid hk (this v hl))
        fun vm' h' => after_push h' hf hg fun _ =>
          ⟨fun h => h.2, fun h => ⟨.inr ⟨hx, Nat.le_refl _, Nat.lt_succ_self _⟩, h⟩⟩
  | @temp bs L l e code L' l' hx hc ih =>
    intro p σ env vm acc hh hf _ ha hg
    have hor := ha.ready.origin
    have hl := hc.after
    simp only [Piece.After] at hl
    refine Leads.imp (ih p σ env vm acc hh hf trivial ha hg) ?_
    rintro r vm' ⟨σ', h1, h2, h3, h4⟩
    refine ⟨σ', h1, h2, h3, ?_⟩
    have : L ≤ L' - 1 ∧ L' - 1 < L' ∧ σ' (L' - 1) = some r.1 := ⟨by omega, by omega, h4⟩
    cases e <;> first | exact this | exact absurd rfl (hx _)
  | empty =>
    exact sim_push (v := .nil) (fun env acc => by simp only [Piece.result, eval]) (fun _ _ _ => Iff.rfl)
      fun k σ vm hi h => lead_nil hi h
  | scope ho hc ih =>
    intro p σ env vm acc hh hf _ ha hg
    have hor := ha.ready.origin
    have := ih p σ env vm acc hh hf trivial ha hg
    simp only [Piece.result] at this ⊢
    rw [eval_scope ho]
    exact this
  | @block bs L l es code b L' l' hc ih =>
    intro p σ env vm acc hh hf _ ha hg
    have hor := ha.ready.origin
    have hl := hc.after
    simp only [Piece.After] at hl
    refine Leads.bind (ih p σ env.enter vm acc hh.left hf.open trivial ha (agrees_enter hg)) ?_
    rintro ⟨v, env1⟩ vm1 ⟨σ1, h1, h2, h3, h4⟩
    exact after_settle hh.right h1 hor (Nat.le_refl _) hl.1 h4 hf h2.leave (same_open.1 h3) (fun _ => Iff.rfl)
      (by simp; omega)
  | bodyNil =>
    exact sim_push (v := .nil) (fun env acc => by simp only [Piece.result, body]) (fun _ _ _ => Iff.rfl)
      fun k σ vm hi h => lead_nil hi h
  | @bodyLast bs L l f code L' l' hsp hc ih =>
    intro p σ env vm acc hh hf _ ha hg
    have hor := ha.ready.origin
    have hl := hc.after
    simp only [Piece.After] at hl
    simp only [Piece.result]
    rw [body_last, eval_special hsp, ← bind_ok (eval S F false f env)]
    refine Leads.bind (ih p σ env vm acc hh.left hf trivial ha hg) ?_
    rintro ⟨v, env1⟩ vm1 ⟨σ1, h1, h2, h3, h4⟩
    exact after_settle hh.right h1 hor (Nat.le_refl _) hl.1 h4 hf h2 h3 (fun _ => Iff.rfl) (by simp; omega)
  | @bodyCons bs L l f rest code L1 l1 code2 bs2 L2 l2 hsp hc hr hc2 ih ih2 =>
    intro p σ env vm acc hh hf _ ha hg
    have hor := ha.ready.origin
    have hl := hc.after
    simp only [Piece.After] at hl
    simp only [Piece.result]
    rw [body_cons hr, eval_special hsp]
    refine Leads.bind (ih p σ env vm acc hh.left.left hf trivial ha hg) ?_
    rintro ⟨v, env1⟩ vm1 ⟨σ1, h1, h2, h3, h4⟩
    refine lead_first (lead_pop (a := ()) hh.left.right.head h1 (by omega)) ?_
    rintro vm2 ⟨-, h5⟩
    have e : L1 - ((L1 - L : Nat) : Int).toNat = L := by omega
    rw [e] at h5
    have hh2 := hh.right
    refine Leads.cast (Leads.imp (ih2 (p + code.length + 1) σ1 env1 vm2 acc ?_ hf trivial h5 h2) ?_) ?_
    · simpa [Nat.add_assoc] using hh2
    · rintro r vm3 ⟨σ2, g1, g2, g3, g4⟩
      exact ⟨σ2, g1, g2, h3.trans' g3 (Nat.le_refl _), g4⟩
    · simp; omega
  | @varLast bs L l name x e code L' l' hn hc ih =>
    intro p σ env vm acc hh hf _ ha hg
    have hor := ha.ready.origin
    have hl := hc.after
    simp only [Piece.After] at hl
    simp only [Piece.result]
    rw [body_last, eval_var hn]
    refine Leads.bind (ih p σ env vm acc hh.left.left hf trivial ha hg) ?_
    rintro ⟨v, env1⟩ vm1 ⟨σ1, h1, h2, h3, h4⟩
    refine lead_first (lead_settle hh.left.right h1 hl.1 hor h4) fun vm2 h5 => ?_
    have hi : C.program[p + (code ++ settleCode L L').length]? = some (.pushIndex (((L + 1 : Nat) : Int) - L)) := by
      have := hh.right.head
      rw [this]
      congr 2
      omega
    have e : p + code.length + (settleCode L L').length = p + (code ++ settleCode L L').length := by simp; omega
    rw [e]
    refine Leads.cast (lead_map (g := fun v => (v, Eval.declare x v env1)) (lead_index hi h5 (by omega) (upd_same ..))
      fun vm3 h6 => ?_) (by simp; omega)
    have hg' : Agrees (upd (upd σ1 L v) (L + 1) v) bs env1 := by
      refine agrees_congr h2 (fun k hk => ?_) rfl
      have := hf.2 k hk
      rw [upd_other (by omega), upd_other (by omega)]
    refine ⟨_, h6, agrees_declare hg' ?_, (h3.upd (.inl (Nat.le_refl _))).upd (.inl (by omega)), upd_same ..⟩
    rw [upd_other (by omega), upd_same]
  | @varCons bs L l name x e code L1 l1 rest code2 bs2 L2 l2 hn hc hr hc2 ih ih2 =>
    intro p σ env vm acc hh hf _ ha hg
    have hor := ha.ready.origin
    have hl := hc.after
    simp only [Piece.After] at hl
    simp only [Piece.result]
    rw [body_cons hr, eval_var hn, Result.bind_assoc]
    refine Leads.bind (ih p σ env vm acc hh.left.left.left hf trivial ha hg) ?_
    rintro ⟨v, env1⟩ vm1 ⟨σ1, h1, h2, h3, h4⟩
    refine lead_first (lead_settle hh.left.left.right h1 hl.1 hor h4) fun vm2 h5 => ?_
    have hi : C.program[p + (code ++ settleCode L L1).length]? = some (.pushIndex (((L + 1 : Nat) : Int) - L)) := by
      have := hh.left.right.head
      rw [this]
      congr 2
      omega
    have e : p + code.length + (settleCode L L1).length = p + (code ++ settleCode L L1).length := by simp; omega
    rw [e]
    refine lead_first (lead_index hi h5 (by omega) (upd_same ..)) fun vm3 h6 => ?_
    refine lead_first (lead_pop (a := ()) hh.left.right.tail.head h6 (by omega)) ?_
    rintro vm4 ⟨-, h7⟩
    have e : L + 1 + 1 - (1 : Int).toNat = L + 1 := by omega
    rw [e] at h7
    have hg' : Agrees (upd (upd σ1 L v) (L + 1) v) bs env1 := by
      refine agrees_congr h2 (fun k hk => ?_) rfl
      have := hf.2 k hk
      rw [upd_other (by omega), upd_other (by omega)]
    refine Leads.cast (Leads.imp (ih2 _ _ (Eval.declare x v env1) vm4 acc ?_ (hf.add x) trivial h7
      (agrees_declare hg' ?_)) ?_) ?_
    · have := hh.right
      simp only [List.length_append, List.length_cons, List.length_nil] at this ⊢
      simpa [Nat.add_assoc] using this
    · rw [upd_other (by omega), upd_same]
    · rintro r vm5 ⟨σ2, g1, g2, g3, g4⟩
      refine ⟨σ2, g1, g2, ?_, g4⟩
      refine Same.trans ((h3.upd (.inl (Nat.le_refl _))).upd (.inl (by omega))) g3 (by omega) fun k hk => ?_
      rw [slots_add] at hk
      rcases List.mem_cons.1 hk with rfl | hk
      · exact .inr (Nat.le_refl _)
      · exact .inl hk
    · simp; omega
  | @noscopeLast bs L l name es code bs' L' l' hn hc ih =>
    intro p σ env vm acc hh hf _ ha hg
    have hor := ha.ready.origin
    have := ih p σ env vm acc hh hf trivial ha hg
    simp only [Piece.result] at this ⊢
    rw [body_last, eval_noscope hn]
    exact this
  | @noscopeCons bs L l name es code bs1 L1 l1 rest code2 bs2 L2 l2 hn hc hr hc2 ih ih2 =>
    intro p σ env vm acc hh hf _ ha hg
    have hor := ha.ready.origin
    have hl := hc.after
    have hbl := hc.blocks
    simp only [Piece.After, Piece.Extends] at hl hbl
    obtain ⟨hf1, hb1⟩ := hbl hf
    simp only [Piece.result]
    rw [body_cons hr, eval_noscope hn]
    refine Leads.bind (ih p σ env vm acc hh.left.left hf trivial ha hg) ?_
    rintro ⟨v, env1⟩ vm1 ⟨σ1, h1, h2, h3, h4⟩
    refine lead_first (lead_pop (a := ()) hh.left.right.head h1 (by omega)) ?_
    rintro vm2 ⟨-, h5⟩
    refine Leads.cast (Leads.imp (ih2 (p + code.length + 1) σ1 env1 vm2 acc ?_ hf1 trivial h5 h2) ?_) ?_
    · simpa [Nat.add_assoc] using hh.right
    · rintro r vm3 ⟨σ2, g1, g2, g3, g4⟩
      exact ⟨σ2, g1, g2, h3.trans g3 (by omega) hb1, g4⟩
    · simp; omega
  | @setq bs L l name x k e code L' l' hn hc hx ih =>
    intro p σ env vm acc hh hf _ ha hg
    have hor := ha.ready.origin
    have hl := hc.after
    simp only [Piece.After] at hl
    simp only [Piece.result]
    rw [eval_setq hn]
    refine Leads.bind (ih p σ env vm acc hh.left hf trivial ha hg) ?_
    rintro ⟨v, env1⟩ vm1 ⟨σ1, h1, h2, h3, h4⟩
    have := agrees_lookup (x := x) h2
    rw [hx] at this
    obtain ⟨⟨w, g1, g2⟩, g3⟩ := this
    have hk := hf.2 k g3
    have hne : ¬ (k : Int) = (L' : Int) - 1 := by omega
    have hh2 := hh.right
    rw [if_neg hne] at hh2 ⊢
    have hloc := agrees_local (x := x) h2
    rw [hx, Option.isSome_some] at hloc
    simp only [hloc, ↓reduceIte]
    refine Leads.cast (lead_map (g := fun v => (v, assign x v env1)) (lead_move (i := L' - 1) (j := k) (x := v) hh2.head h1
      (by omega) (by omega) (by omega) (by omega) (h1.origin_le (by omega) g2) h4) ?_) (by simp; omega)
    rintro vm2 ⟨-, h5⟩
    exact ⟨_, h5, agrees_assign h2 hf.1 hx, h3.upd (.inr g3), (upd_other (by omega)).trans h4⟩
  | @setqGlobal bs L l name x e code L' l' key hk hht hn hc hx ih =>
    intro p σ env vm acc hh hf _ ha hg
    have hor := ha.ready.origin
    have hl := hc.after
    simp only [Piece.After] at hl
    simp only [Piece.result]
    rw [eval_setq hn]
    refine Leads.bind (ih p σ env vm acc hh.left hf trivial ha hg) ?_
    rintro ⟨v, env1⟩ vm1 ⟨σ1, h1, h2, h3, h4⟩
    have hloc := agrees_local (x := x) h2
    rw [hx, Option.isSome_none] at hloc
    simp only [hloc, Bool.false_eq_true, ↓reduceIte]
    obtain ⟨id, hid⟩ := hkeys x key hk
    exact lead_assign hmem hid (fun h => hset x key L' h hk hht) hh.right h1 hl.1 h4 h2 h3
  | @defGlobal bs L l name x e code L' l' key hk hht hn hc ih =>
    intro p σ env vm acc hh hf _ ha hg
    have hor := ha.ready.origin
    have hl := hc.after
    simp only [Piece.After] at hl
    simp only [Piece.result]
    rw [eval_global hn]
    refine Leads.bind (ih p σ env vm acc hh.left hf trivial ha hg) ?_
    rintro ⟨v, env1⟩ vm1 ⟨σ1, h1, h2, h3, h4⟩
    obtain ⟨id, hid⟩ := hkeys x key hk
    exact lead_assign hmem hid (fun h => hset x key L' h hk hht) hh.right h1 hl.1 h4 h2 h3
  | op0 hn =>
    intro p σ env vm acc hh hf _ ha hg
    have hor := ha.ready.origin
    simp only [Piece.result]
    rw [eval_op0 (generator_named hn)]
    trivial
  | @op1 bs L l name a i code L' l' op hn hc ih =>
    intro p σ env vm acc hh hf _ ha hg
    have hor := ha.ready.origin
    have hl := hc.after
    simp only [Piece.After] at hl
    simp only [Piece.result]
    rw [eval_op1 op (generator_named hn)]
    refine Leads.bind (ih p σ env vm acc hh.left hf trivial ha hg) ?_
    rintro ⟨v, env1⟩ vm1 ⟨σ1, h1, h2, h3, h4⟩
    obtain ⟨w, g1, g2, g3⟩ := operand_get (L2 := L') hf h4 (.refl _ _ _) h2 hl.1 (Nat.le_refl _)
    simp only [g1]
    show C.Leads F _ vm1 (apply1 S.toSetting (name1 op) w >>= fun v => .ok (v, env1)) _ _
    refine Leads.bind (lead_op1 op hmem hh.right.head h1 g3 g2) fun u vm2 h5 => ?_
    refine Leads.cast (Leads.done ?_) (by simp; omega)
    exact ⟨_, h5, agrees_upd h2 (not_slot (hf.mono hl.1)), h3.upd (.inl hl.1), upd_same ..⟩
  | @op2 bs L l name a i code L1 l1 b j code2 L2 l2 op hn hc hc2 ih ih2 =>
    intro p σ env vm acc hh hf _ ha hg
    have hor := ha.ready.origin
    have hl := hc.after
    have hl2 := hc2.after
    simp only [Piece.After] at hl hl2
    simp only [Piece.result]
    rw [eval_op2 op (generator_named hn)]
    refine Leads.bind (ih p σ env vm acc hh.left.left hf trivial ha hg) ?_
    rintro ⟨v, env1⟩ vm1 ⟨σ1, h1, h2, h3, h4⟩
    refine Leads.bind (ih2 _ σ1 env1 vm1 acc hh.left.right (hf.mono hl.1) trivial h1 h2) ?_
    rintro ⟨v2, env2⟩ vm2 ⟨σ2, k1, k2, k3, k4⟩
    obtain ⟨w, g1, g2, g3⟩ := operand_get (L2 := L2) hf h4 k3 k2 hl.1 hl2.1
    obtain ⟨w2, m1, m2, m3⟩ := operand_get (L2 := L2) (hf.mono hl.1) k4 (.refl _ _ _) k2 hl2.1 (Nat.le_refl _)
    simp only [g1, m1]
    have hi := hh.right.head
    have e : p + code.length + code2.length = p + (code ++ code2).length := by simp; omega
    rw [e]
    show C.Leads F _ vm2 (apply2 S.toSetting (name2 op) w w2 >>= fun v => .ok (v, env2)) _ _
    refine Leads.bind (lead_op2 op hfl hmem hi k1 g3 m3 g2 m2) fun u vm3 h5 => ?_
    refine Leads.cast (Leads.done ?_) (by simp; omega)
    have hle : L ≤ L2 := by omega
    exact ⟨_, h5, agrees_upd k2 (not_slot (hf.mono hle)), (h3.trans' k3 hl.1).upd (.inl hle), upd_same ..⟩
  | @op3 bs L l name a i code L1 l1 b j code2 L2 l2 c k code3 L3 l3 op hn hc hc2 hc3 ih ih2 ih3 =>
    intro p σ env vm acc hh hf _ ha hg
    have hor := ha.ready.origin
    have hl := hc.after
    have hl2 := hc2.after
    have hl3 := hc3.after
    simp only [Piece.After] at hl hl2 hl3
    simp only [Piece.result]
    by_cases hsub : op = .substring
    swap
    · rw [eval_op3 op hsub (generator_named hn)]
      trivial
    subst hsub
    rw [eval_substring (generator_named hn)]
    refine Leads.bind (ih p σ env vm acc hh.left.left.left hf trivial ha hg) ?_
    rintro ⟨v, env1⟩ vm1 ⟨σ1, h1, h2, h3, h4⟩
    refine Leads.bind (ih2 _ σ1 env1 vm1 acc hh.left.left.right (hf.mono hl.1) trivial h1 h2) ?_
    rintro ⟨v2, env2⟩ vm2 ⟨σ2, k1, k2, k3, k4⟩
    have e : p + code.length + code2.length = p + (code ++ code2).length := by simp; omega
    have hle : L ≤ L2 := by omega
    refine Leads.bind (e ▸ ih3 _ σ2 env2 vm2 acc hh.left.right (hf.mono hle) trivial k1 k2) ?_
    rintro ⟨v3, env3⟩ vm3 ⟨σ3, n1, n2, n3, n4⟩
    obtain ⟨w, g1, g2, g3⟩ := operand_get (L2 := L3) hf h4 (k3.trans' n3 hl2.1) n2 hl.1 (by omega)
    obtain ⟨w2, m1, m2, m3⟩ := operand_get (L2 := L3) (hf.mono hl.1) k4 n3 n2 hl2.1 hl3.1
    obtain ⟨w3, o1, o2, o3⟩ := operand_get (L2 := L3) (hf.mono hle) n4 (.refl _ _ _) n2 hl3.1 (Nat.le_refl _)
    simp only [g1, m1, o1]
    have hi := hh.right.head
    have e2 : p + code.length + code2.length + code3.length = p + (code ++ code2 ++ code3).length := by simp; omega
    rw [e2]
    show C.Leads F _ vm3 (apply3 "substring" w w2 w3 >>= fun v => .ok (v, env3)) _ _
    refine Leads.bind (lead_substring hi n1 g3 m3 o3 g2 m2 o2) fun u vm4 h5 => ?_
    refine Leads.cast (Leads.done ?_) (by simp; omega)
    have hle3 : L ≤ L3 := by omega
    exact ⟨_, h5, agrees_upd n2 (not_slot (hf.mono hle3)), ((h3.trans' k3 hl.1).trans' n3 hle).upd (.inl hle3), upd_same ..⟩
  | declare hn =>
    refine sim_push (v := .nil) (fun env acc => ?_) (fun _ _ _ => Iff.rfl) fun k σ vm hi h => lead_nil hi h
    simp only [Piece.result]
    exact eval_declare hn
  | @list bs L l name es code L' l' hn hc ih =>
    intro p σ env vm acc hh hf _ ha hg
    have hor := ha.ready.origin
    simp only [Piece.result]
    rw [eval_list hn, elements_reverse]
    refine lead_first (lead_nil hh.left.head ha) fun vm1 h1 => ?_
    refine Leads.cast (Leads.imp (ih (p + 1) _ env vm1 .nil hh.right (hf.mono (Nat.le_succ _)) ⟨rfl, hf, upd_same ..⟩ h1
      (agrees_upd hg (not_slot hf))) ?_) (by simp; omega)
    rintro r vm2 ⟨σ2, g1, g2, g3, g4⟩
    exact ⟨σ2, g1, g2, (Same.upd (.refl _ _ _) (.inl (Nat.le_refl _))).trans' g3 (Nat.le_succ _), g4⟩
  | @consNil bs L l i =>
    intro p σ env vm acc hh hf hst ha hg
    have hor := ha.ready.origin
    obtain ⟨rfl, h1, h2⟩ := hst
    simp only [Piece.result, consOnto]
    exact Leads.done ⟨σ, ha, hg, .refl _ _ _, h2⟩
  | @consCons bs L l a es i j code L1 l1 code2 L2 l2 hc hc2 ih ih2 =>
    intro p σ env vm acc hh hf hst ha hg
    have hor := ha.ready.origin
    obtain ⟨rfl, h1, h2⟩ := hst
    have hl := hc.after
    have hl2 := hc2.after
    simp only [Piece.After] at hl hl2
    simp only [Piece.result, consOnto]
    refine Leads.bind (ih p σ env vm acc hh.left.left hf trivial ha hg) ?_
    rintro ⟨v, env1⟩ vm1 ⟨σ1, k1, k2, k3, k4⟩
    obtain ⟨m1, m2⟩ := operand_now hf k2 k4 hl.1
    have hi1 : σ1 i = some acc := (k3 i (by omega) (not_slot h1)).trans h2
    by_cases hm : S.memory = true
    · simp only [hm, ↓reduceIte]
      refine lead_first (lead_cons hh.left.right.head k1 rfl rfl m2 (by omega) m1 hi1 (hmem ▸ hm)) fun vm2 g1 => ?_
      refine Leads.cast (Leads.imp (ih2 (p + code.length + 1) _ env1 vm2 (.pair v acc) ?_ (hf.mono (by omega))
        ⟨rfl, hf.mono hl.1, upd_same ..⟩ g1 (agrees_upd k2 (not_slot (hf.mono hl.1)))) ?_) (by simp; omega)
      · simpa [Nat.add_assoc] using hh.right
      · rintro r vm3 ⟨σ2, n1, n2, n3, n4⟩
        exact ⟨σ2, n1, n2, (k3.upd (.inl hl.1)).trans' n3 (by omega), n4⟩
    · simp only [hm]
      trivial
  | vector hn hc ih =>
    intro p σ env vm acc hh hf _ ha hg
    have hor := ha.ready.origin
    simp only [Piece.result]
    rw [eval_vector hn]
    trivial
  | elemNil => intro p σ env vm acc hh hf _ ha hg; trivial
  | elemCons => intro p σ env vm acc hh hf _ ha hg; trivial
  | quote hn hc ih =>
    intro p σ env vm acc hh hf _ ha hg
    have hor := ha.ready.origin
    have := ih p σ env vm acc hh hf trivial ha hg
    simp only [Piece.result] at this ⊢
    rw [eval_quote hn]
    exact this
  | @quotedForm bs L l e code h1 h2 hc ih =>
    intro p σ env vm acc hh hf _ ha hg
    have hor := ha.ready.origin
    have := ih p σ env vm acc hh hf trivial ha hg
    simp only [Piece.result] at this ⊢
    have e : (datum S.toSetting e >>= fun v => .ok (v, env)) = eval S F false e env := by
      cases e <;> first | exact absurd rfl (h1 _) | exact absurd rfl (h2 _) | simp only [datum, eval] <;> rfl
    rw [e]
    exact this
  | @quotedName bs L l x id =>
    intro p σ env vm acc hh hf _ ha hg
    have hor := ha.ready.origin
    simp only [Piece.result, datum]
    by_cases hm : S.memory = true ∧ x.length < 65535
    · rw [if_pos hm]
      have ht : x.take 65535 = x := List.take_of_length_le (by omega)
      rw [ht] at hh ⊢
      exact lead_map (g := fun v => (v, env)) (lead_symbol hh.head ha hm.2 (hmem ▸ hm.1))
        fun vm' h' => after_push h' hf hg fun _ => Iff.rfl
    · rw [if_neg hm]
      trivial
  | @quotedList bs L l es code L' hc ih =>
    intro p σ env vm acc hh hf _ ha hg
    have hor := ha.ready.origin
    simp only [Piece.result, datum]
    refine lead_first (lead_nil hh.left.head ha) fun vm1 h1 => ?_
    refine Leads.cast (Leads.imp (ih (p + 1) _ env vm1 .nil hh.right (hf.mono (Nat.le_succ _)) ⟨L, rfl, hf, upd_same ..⟩ h1
      (agrees_upd hg (not_slot hf))) ?_) (by simp; omega)
    rintro r vm2 ⟨σ2, g1, g2, g3, g4⟩
    exact ⟨σ2, g1, g2, (Same.upd (.refl _ _ _) (.inl (Nat.le_refl _))).trans' g3 (Nat.le_succ _), g4⟩
  | quotesNil =>
    intro p σ env vm acc hh hf hst ha hg
    have hor := ha.ready.origin
    obtain ⟨i, rfl, h1, h2⟩ := hst
    simp only [Piece.result, data]
    exact Leads.done ⟨σ, ha, hg, .refl _ _ _, h2⟩
  | @quotesCons bs L l e es code L1 code2 L2 hc hc2 ih ih2 =>
    intro p σ env vm acc hh hf hst ha hg
    have hor := ha.ready.origin
    have hl := hc.after
    have hl2 := hc2.after
    simp only [Piece.After] at hl hl2
    obtain ⟨i, rfl, h1, h2⟩ := hst
    have e1 : Piece.result S F (.quotes (e :: es)) env acc = ((data S.toSetting es >>= fun v => .ok (v, env)) >>= fun p =>
        (datum S.toSetting e >>= fun v => .ok (v, p.2)) >>= fun q =>
          if S.memory then .ok (.pair q.1 p.1, q.2) else .outside) := by
      simp only [Piece.result, data]
      cases data S.toSetting es <;> try rfl
      cases datum S.toSetting e <;> try rfl
      show (if _ then _ else _) >>= _ = _
      by_cases hm : S.memory = true <;> simp only [hm] <;> rfl
    rw [e1]
    refine Leads.bind (ih p σ env vm acc hh.left.left hf ⟨i, rfl, h1, h2⟩ ha hg) ?_
    rintro ⟨d, env1⟩ vm1 ⟨σ1, k1, k2, k3, k4⟩
    refine Leads.bind (ih2 _ σ1 env1 vm1 acc hh.left.right (hf.mono hl.1) trivial k1 k2) ?_
    rintro ⟨a, env2⟩ vm2 ⟨σ2, m1, m2, m3, m4⟩
    by_cases hm : S.memory = true
    · simp only [hm, ↓reduceIte]
      have hd : σ2 (L1 - 1) = some d := (m3 (L1 - 1) (by omega) (not_slot (h1.mono (by omega)))).trans k4
      have e : p + code.length + code2.length = p + (code ++ code2).length := by simp; omega
      rw [e]
      refine Leads.cast (lead_map (g := fun v => (v, env2)) (lead_cons (i := L2 - 1) (j := L1 - 1) hh.right.head m1 (by omega)
        (by omega) (by omega) (by omega) m4 hd (hmem ▸ hm)) fun vm3 g1 => ?_) (by simp; omega)
      exact ⟨_, g1, agrees_upd m2 (not_slot (hf.mono (by omega))), (k3.trans' m3 hl.1).upd (.inl (by omega)), upd_same ..⟩
    · simp only [hm]
      trivial
  | @ifConst bs L l name c e f b code L' l' hn hcb hc ih =>
    intro p σ env vm acc hh hf _ ha hg
    have hor := ha.ready.origin
    have := ih p σ env vm acc hh hf trivial ha hg
    simp only [Piece.result] at this ⊢
    rw [eval_if hn, decided_constant hcb]
    cases b <;> exact this
  | @if_ bs L l name c e f code L1 l1 codeF Lf lf codeE Le le B hn hcc hc hB hcF hcE ih ihF ihE =>
    intro p σ env vm acc hh hf _ ha hg
    have hor := ha.ready.origin
    have hl := hc.after
    have hlF := hcF.after
    have hlE := hcE.after
    have hcp := condPops_le c L L1
    simp only [Piece.After] at hl hlF hlE
    simp only [Piece.result]
    rw [eval_if hn, decided_bind hcc]
    -- where things are
    have a1 := hh.left.left.left.left.left.left.left
    have a2 := hh.left.left.left.left.left.left.right.head
    have a3 := hh.left.left.left.left.left.right
    have a4 := hh.left.left.left.left.right
    have a5 := hh.left.left.left.right.head
    have a6 := hh.left.left.left.right.tail.head
    have a7 := hh.left.left.right
    have a8 := hh.left.right
    have a9 := hh.right.head
    simp only [List.length_append, List.length_cons, List.length_nil] at a2 a3 a4 a5 a6 a7 a8 a9 ⊢
    refine Leads.bind (ih p σ env vm acc a1 hf trivial ha hg) ?_
    rintro ⟨v, env1⟩ vm1 ⟨σ1, h1, h2, h3, h4⟩
    refine Leads.bound (B := F + 1) ?_ (Nat.le_succ _)
    refine lead_branch a2 a6 h1 (by omega) (by omega) h4 ?_
    intro b vm2 h5
    have e1 : L1 - ((condPops c L L1 : Nat) : Int).toNat = B := by omega
    rw [e1] at h5
    have hBL : L ≤ B := by omega
    have hfB := hf.mono hBL
    cases b
    · simp only [Bool.false_eq_true, ↓reduceIte]
      rw [← bind_ok (eval S F false f env1)]
      refine Leads.bind (ihF (p + code.length + 1) σ1 env1 vm2 acc ?_ hfB trivial h5 h2) ?_
      · simpa [Nat.add_assoc] using a3
      rintro ⟨w, env2⟩ vm3 ⟨σ2, k1, k2, k3, k4⟩
      refine lead_first (lead_settle ?_ k1 hlF.1 (by omega) k4) fun vm4 h6 => ?_
      · simpa [Nat.add_assoc] using a4
      refine Leads.bound (B := F + 1) ?_ (Nat.le_succ _)
      refine lead_jump (j := p + (code.length + (0 + 1) + codeF.length + (settleCode B Lf).length + (0 + 1 + 1) + codeE.length + (settleCode B Le).length))
        ?_ a9 h6 ?_
      · simpa [Nat.add_assoc] using a5
      · refine Leads.cast (Leads.done ?_) (by omega)
        exact ⟨_, h6, agrees_upd k2 (not_slot hfB), (h3.trans' k3 hBL).upd (.inl hBL), upd_same ..⟩
    · simp only [↓reduceIte]
      rw [← bind_ok (eval S F false e env1)]
      refine Leads.bind (ihE _ σ1 env1 vm2 acc ?_ hfB trivial h5 h2) ?_
      · simpa [Nat.add_assoc] using a7
      rintro ⟨w, env2⟩ vm3 ⟨σ2, k1, k2, k3, k4⟩
      refine lead_first (lead_settle ?_ k1 hlE.1 (by omega) k4) fun vm4 h6 => ?_
      · simpa [Nat.add_assoc] using a8
      refine Leads.cast (lead_label (l := l1 + 1) ?_ h6.ready ?_) ?_
      · simpa [Nat.add_assoc] using a9
      · exact ⟨_, h6, agrees_upd k2 (not_slot hfB), (h3.trans' k3 hBL).upd (.inl hBL), upd_same ..⟩
      · omega
  | @whenTrue bs L l name c es code L' l' hn hcb hc ih =>
    intro p σ env vm acc hh hf _ ha hg
    have hor := ha.ready.origin
    have := ih p σ env vm acc hh hf trivial ha hg
    simp only [Piece.result] at this ⊢
    rw [eval_when hn, decided_constant hcb]
    exact this
  | whenFalse hn hcb =>
    refine sim_push (v := .nil) (fun env acc => ?_) (fun _ _ _ => Iff.rfl) fun k σ vm hi h => lead_nil hi h
    simp only [Piece.result]
    rw [eval_when hn, decided_constant hcb]
    rfl
  | @when_ bs L l name c es code L1 l1 codeE Le le B hn hcc hc hB hcE ih ihE =>
    intro p σ env vm acc hh hf _ ha hg
    have hor := ha.ready.origin
    have hl := hc.after
    have hlE := hcE.after
    have hcp := condPops_le c L L1
    simp only [Piece.After] at hl hlE
    simp only [Piece.result]
    rw [eval_when hn, decided_bind hcc]
    have a1 := hh.left.left.left.left
    have a2 := hh.left.left.left.right.head
    have a3 := hh.left.left.right.head
    have a4 := hh.left.left.right.tail.head
    have a5 := hh.left.left.right.tail.tail.head
    have a6 := hh.left.right
    have a7 := hh.right.head
    simp only [List.length_append, List.length_cons, List.length_nil] at a2 a3 a4 a5 a6 a7 ⊢
    refine Leads.bind (ih p σ env vm acc a1 hf trivial ha hg) ?_
    rintro ⟨v, env1⟩ vm1 ⟨σ1, h1, h2, h3, h4⟩
    refine Leads.bound (B := F + 1) ?_ (Nat.le_succ _)
    refine lead_branch a2 a5 h1 (by omega) (by omega) h4 ?_
    intro b vm2 h5
    have e1 : L1 - ((condPops c L L1 : Nat) : Int).toNat = B := by omega
    rw [e1] at h5
    have hBL : L ≤ B := by omega
    have hfB := hf.mono hBL
    cases b
    · simp only [Bool.false_eq_true, ↓reduceIte]
      refine lead_first (lead_nil ?_ h5) fun vm4 h6 => ?_
      · simpa [Nat.add_assoc] using a3
      refine Leads.bound (B := F + 1) ?_ (Nat.le_succ _)
      refine lead_jump ?_ a7 h6 ?_
      · simpa [Nat.add_assoc] using a4
      · refine Leads.cast (Leads.done ?_) (by omega)
        rw [hlE.1]
        exact ⟨_, h6, agrees_upd h2 (not_slot hfB), h3.upd (.inl hBL), upd_same ..⟩
    · simp only [↓reduceIte]
      rw [← bind_ok (inScope S F es env1)]
      refine Leads.bind (ihE _ σ1 env1 vm2 acc ?_ hfB trivial h5 h2) ?_
      · simpa [Nat.add_assoc] using a6
      rintro ⟨w, env2⟩ vm3 ⟨σ2, k1, k2, k3, k4⟩
      refine Leads.cast (lead_label (l := l1 + 1) ?_ k1.ready ?_) ?_
      · simpa [Nat.add_assoc] using a7
      · exact ⟨_, k1, k2, h3.trans' k3 hBL, k4⟩
      · omega
  | unlessTrue hn hcb =>
    refine sim_push (v := .nil) (fun env acc => ?_) (fun _ _ _ => Iff.rfl) fun k σ vm hi h => lead_nil hi h
    simp only [Piece.result]
    rw [eval_unless hn, decided_constant hcb]
    rfl
  | @unlessFalse bs L l name c es code L' l' hn hcb hc ih =>
    intro p σ env vm acc hh hf _ ha hg
    have hor := ha.ready.origin
    have := ih p σ env vm acc hh hf trivial ha hg
    simp only [Piece.result] at this ⊢
    rw [eval_unless hn, decided_constant hcb]
    exact this
  | @unless_ bs L l name c es code L1 l1 codeE Le le B hn hcc hc hB hcE ih ihE =>
    intro p σ env vm acc hh hf _ ha hg
    have hor := ha.ready.origin
    have hl := hc.after
    have hlE := hcE.after
    have hcp := condPops_le c L L1
    simp only [Piece.After] at hl hlE
    simp only [Piece.result]
    rw [eval_unless hn, decided_bind hcc]
    have a1 := hh.left.left.left.left
    have a2 := hh.left.left.left.right.head
    have a3 := hh.left.left.right
    have a4 := hh.left.right.head
    have a5 := hh.left.right.tail.head
    have a6 := hh.left.right.tail.tail.head
    have a7 := hh.right.head
    simp only [List.length_append, List.length_cons, List.length_nil] at a2 a3 a4 a5 a6 a7 ⊢
    refine Leads.bind (ih p σ env vm acc a1 hf trivial ha hg) ?_
    rintro ⟨v, env1⟩ vm1 ⟨σ1, h1, h2, h3, h4⟩
    refine Leads.bound (B := F + 1) ?_ (Nat.le_succ _)
    refine lead_branch a2 a5 h1 (by omega) (by omega) h4 ?_
    intro b vm2 h5
    have e1 : L1 - ((condPops c L L1 : Nat) : Int).toNat = B := by omega
    rw [e1] at h5
    have hBL : L ≤ B := by omega
    have hfB := hf.mono hBL
    cases b
    · simp only [Bool.false_eq_true, ↓reduceIte]
      rw [← bind_ok (inScope S F es env1)]
      refine Leads.bind (ihE (p + code.length + 1) σ1 env1 vm2 acc ?_ hfB trivial h5 h2) ?_
      · simpa [Nat.add_assoc] using a3
      rintro ⟨w, env2⟩ vm3 ⟨σ2, k1, k2, k3, k4⟩
      refine Leads.bound (B := F + 1) ?_ (Nat.le_succ _)
      refine lead_jump ?_ a7 k1 ?_
      · simpa [Nat.add_assoc] using a4
      · refine Leads.cast (Leads.done ?_) (by omega)
        rw [← hlE.1]
        exact ⟨_, k1, k2, h3.trans' k3 hBL, k4⟩
    · simp only [↓reduceIte]
      refine lead_first (lead_nil ?_ h5) fun vm4 h6 => ?_
      · simpa [Nat.add_assoc] using a6
      refine Leads.cast (lead_label (l := l1 + 1) ?_ h6.ready ?_) ?_
      · simpa [Nat.add_assoc] using a7
      · exact ⟨_, h6, agrees_upd h2 (not_slot hfB), h3.upd (.inl hBL), upd_same ..⟩
      · omega
  | @while_ bs L l name c es code L1 l1 codeC Lc lc hn hcn hc hcC ih ihC =>
    intro p σ env vm acc hh hf _ ha hg
    have hor := ha.ready.origin
    have hl := hc.after
    have hlC := hcC.after
    simp only [Piece.After] at hl hlC
    simp only [Piece.result]
    rw [eval_while hn]
    have a1 := hh.left.left.left.left.left.head
    have a2 := hh.left.left.left.left.left.tail.head
    have a3 := hh.left.left.left.left.right
    have a4 := hh.left.left.left.right.head
    have a5 := hh.left.left.right.head
    have a6 := hh.left.right
    have a7 := hh.right.head
    have a8 := hh.right.tail.head
    simp only [List.length_append, List.length_cons, List.length_nil] at a2 a3 a4 a5 a6 a7 a8 ⊢
    refine Leads.bound (B := F + 1) ?_ (Nat.le_succ _)
    refine lead_jump a1 a5 ha ?_
    -- rounds
    have rounds : ∀ G ≤ F, ∀ (σ1 : Slots) (env1 : Eval.Env) (vm1 : VM), C.At vm1 L σ1 → Agrees σ1 bs env1 →
        Same bs L σ σ1 →
        C.Leads G (p + (0 + 1 + 1 + code.length + (0 + 1)) + 1) vm1
          (Eval.loop (eval S F false c) (fun env => do
            let (v, env) ← inScope S F es env.enter
            .ok (v, env.leave)) G env1)
          (p + (0 + 1 + 1 + code.length + (0 + 1) + (0 + 1) + codeC.length + (0 + 1 + 1)))
          (After C (.form (.expression (.identifier name :: c :: es))) bs L σ bs (L + 1)) := by
      intro G
      induction G with
      | zero => intro _ σ1 env1 vm1 _ _ _; exact .inl ⟨0, _, _, Nat.le_refl _, .refl _⟩
      | succ G ihG =>
        intro hG σ1 env1 vm1 h1 h2 h3
        simp only [Eval.loop]
        refine Leads.bind (Leads.bound (ihC _ σ1 env1 vm1 acc ?_ hf trivial h1 h2) hG) ?_
        · simpa [Nat.add_assoc] using a6
        rintro ⟨v, env2⟩ vm2 ⟨σ2, k1, k2, k3, k4⟩
        refine lead_branch (j := p + 1) (l := l + 1) (n := ((Lc - L : Nat) : Int)) ?_ a2 k1 (by omega) (by omega) k4 ?_
        · simpa [Nat.add_assoc] using a7
        intro b vm3 h5
        have e : Lc - ((Lc - L : Nat) : Int).toNat = L := by omega
        rw [e] at h5
        have h6 := h3.trans' k3 (Nat.le_refl _)
        cases b
        · simp only [Bool.false_eq_true, ↓reduceIte]
          refine Leads.cast (lead_map (g := fun v => (v, env2)) (lead_nil ?_ h5) fun vm4 g1 => ?_) ?_
          · simpa [Nat.add_assoc] using a8
          · exact ⟨_, g1, agrees_upd k2 (not_slot hf), h6.upd (.inl (Nat.le_refl _)), upd_same ..⟩
          · omega
        · simp only [↓reduceIte]
          rw [Result.bind_assoc]
          refine Leads.bind (Leads.bound (ih (p + 1 + 1) σ2 env2.enter vm3 acc ?_ hf.open trivial h5 (agrees_enter k2))
            (by omega)) ?_
          · simpa [Nat.add_assoc] using a3
          rintro ⟨w, env3⟩ vm4 ⟨σ3, m1, m2, m3, m4⟩
          refine lead_first (lead_pop (a := ()) (n := ((L1 - L : Nat) : Int)) ?_ m1 (by omega)) ?_
          · simpa [Nat.add_assoc] using a4
          rintro vm5 ⟨-, m5⟩
          have e : L1 - ((L1 - L : Nat) : Int).toNat = L := by omega
          rw [e] at m5
          refine lead_first (lead_label (a := ()) (l := l) (post := fun _ vm' => vm' = vm5) ?_ m5.ready rfl) ?_
          · simpa [Nat.add_assoc] using a5
          rintro vm6 rfl
          have := ihG (by omega) σ3 env3.leave vm6 m5 m2.leave (h6.trans' (same_open.1 m3) (Nat.le_refl _))
          have e3 : p + 1 + 1 + code.length + 1 + 1 = p + (0 + 1 + 1 + code.length + (0 + 1)) + 1 := by omega
          rw [e3]
          exact this
    exact rounds F (Nat.le_refl _) σ env vm ha hg (.refl _ _ _)
  | @lambda bs L l name params rest forms code l' hd hn hp hc ih =>
    intro p σ env vm acc hh hf _ ha hg
    simp only [Piece.result]
    rw [eval_lambda hn hp]
    by_cases hm : S.memory = true ∧ params.length < 256
    · rw [if_pos hm]
      have a1 := hh.left.left.head
      have a2 := hh.right.tail.head
      have a3 := hh.right.tail.tail.head
      have a4 := hh.left.left.tail.head
      simp only [List.length_append, List.length_cons, List.length_nil] at a2 a3 ⊢
      refine Leads.bound (B := F + 1) ?_ (Nat.le_succ _)
      refine lead_jump a1 a2 ha ?_
      refine Leads.cast (lead_map (g := fun v => (v, env)) (lead_function (params := params) (rest := rest) (forms := forms) a3 a4 ha (hmem ▸ hm.1)
        fun u => ?_) fun vm' h' => after_push h' hf hg fun _ => Iff.rfl) (by omega)
      rw [(hfun hd).2]
      refine ⟨p + 1, l + 1, l + 2, L + 1, code, l', some u, rfl, hm.2, fun i x hx => ?_, ?_⟩
      · have := hh (1 + i) x (by
          simp only [List.append_assoc, List.cons_append, List.nil_append] at hx ⊢
          rw [Nat.add_comm 1 i, List.getElem?_cons_succ]
          cases i with
          | zero => simpa using hx
          | succ i =>
            simp only [List.getElem?_cons_succ] at hx ⊢
            rw [List.getElem?_append] at hx ⊢
            split at hx
            · rename_i hlt
              rw [if_pos hlt]
              exact hx
            · rename_i hge
              rw [if_neg hge]
              rw [List.getElem?_singleton] at hx
              split at hx
              · rename_i h0
                rw [h0]
                exact hx
              · cases hx)
        rwa [← Nat.add_assoc] at this
      · rw [show L + 1 + (params ++ rest.toList).length + 1 = L + 2 + (params ++ rest.toList).length by omega]
        exact hc
    · rw [if_neg hm]
      trivial
  | @funcall bs L l name f code L1 l1 es code2 l2 hd hn hc hc2 ih ih2 =>
    intro p σ env vm acc hh hf _ ha hg
    have hor := ha.ready.origin
    have hl := hc.after
    simp only [Piece.After] at hl
    simp only [Piece.result]
    rw [eval_funcall hn]
    refine Leads.bind (ih p σ env vm acc hh.left.left hf trivial ha hg) ?_
    rintro ⟨v, env1⟩ vm1 ⟨σ1, h1, h2, h3, h4⟩
    have hf1 := hf.mono (Nat.le_of_lt hl.1)
    have hargs := ih2 _ σ1 env1 vm1 acc hh.left.right hf1 trivial h1 h2
    refine lead_args hargs ?_
    rintro vs env2 vm2 ⟨σ2, k1, k2, k3, hlen, hrow⟩
    obtain ⟨w, g1, g2, g3⟩ := callee_get hf hl.1 h4 k3 k2
    show C.Leads F _ vm2 ((Eval.operand f v env2).get env2 >>= fun w => Eval.call S w vs env2) _ _
    rw [g1]
    have hi := hh.right.head
    have e : p + code.length + code2.length = p + (code ++ code2).length := by simp; omega
    rw [e]
    rw [← hlen] at k1 hi
    refine Leads.cast (Leads.imp (lead_call (hfun hd).1 (hfun hd).2 hmem hi rfl rfl k1 (by omega) g2 hrow (by omega) hf1 k2) ?_) (by simp; omega)
    rintro r vm3 ⟨σ3, m1, m2, m3, m4⟩
    exact ⟨σ3, m1, m2, (h3.trans' k3 (Nat.le_of_lt hl.1)).trans' m3 (Nat.le_of_lt hl.1), m4⟩
  | @apply bs L l name f code L1 l1 es code2 l2 hd hn hne hc hc2 ih ih2 =>
    intro p σ env vm acc hh hf _ ha hg
    have hor := ha.ready.origin
    have hl := hc.after
    simp only [Piece.After] at hl
    simp only [Piece.result]
    obtain ⟨a, as, rfl⟩ := List.exists_cons_of_ne_nil hne
    rw [eval_apply hn]
    refine Leads.bind (ih p σ env vm acc hh.left.left hf trivial ha hg) ?_
    rintro ⟨v, env1⟩ vm1 ⟨σ1, h1, h2, h3, h4⟩
    have hf1 := hf.mono (Nat.le_of_lt hl.1)
    have hargs := ih2 _ σ1 env1 vm1 acc hh.left.right hf1 trivial h1 h2
    refine lead_args hargs ?_
    rintro vs env2 vm2 ⟨σ2, k1, k2, k3, hlen, hrow⟩
    obtain ⟨w, g1, g2, g3⟩ := callee_get hf hl.1 h4 k3 k2
    show C.Leads F _ vm2 ((Eval.operand f v env2).get env2 >>= fun w => applyTo S w vs.dropLast (vs.getLastD .nil) env2) _ _
    rw [g1]
    have hi := hh.right.head
    have e : p + code.length + code2.length = p + (code ++ code2).length := by simp; omega
    rw [e]
    rw [← hlen] at k1 hi
    rcases List.eq_nil_or_concat vs with rfl | ⟨args, last, rfl⟩
    · simp at hlen
    rw [List.concat_eq_append] at *
    rw [List.dropLast_concat, List.getLastD_concat]
    refine Leads.cast (Leads.imp (lead_apply (hfun hd).1 (hfun hd).2 hmem hi rfl (by simp) k1 (by omega) g2 hrow (by omega) hf1 k2) ?_)
      (by simp; omega)
    rintro r vm3 ⟨σ3, m1, m2, m3, m4⟩
    exact ⟨σ3, m1, m2, (h3.trans' k3 (Nat.le_of_lt hl.1)).trans' m3 (Nat.le_of_lt hl.1), m4⟩
  | @call bs L l name es code l1 key hd hcl hk hc ih =>
    intro p σ env vm acc hh hf _ ha hg
    have hor := ha.ready.origin
    simp only [Piece.result]
    rw [eval_call (Keys.callable name hcl).2.2]
    cases hlk : lookupBlock name env.globals with
    | none => trivial
    | some f =>
      obtain ⟨id, hid, hk⟩ := hkeys name key hk
      refine lead_first (lead_global hh.left.left.head ha hid hk (hg.2 name f hlk)) fun vm1 h1 => ?_
      have hf1 := hf.mono (Nat.le_succ L)
      refine lead_args (ih (p + 1) _ env vm1 acc hh.left.right hf1 trivial h1 (agrees_upd hg (not_slot hf))) ?_
      rintro vs env2 vm2 ⟨σ2, k1, k2, k3, hlen, hrow⟩
      have hi := hh.right.head
      have e : p + 1 + code.length = p + ([Ins.pushGlobal key] ++ code).length := by simp; omega
      rw [e]
      rw [← hlen] at k1 hi
      refine Leads.cast (Leads.imp (lead_call (slot := L) (hfun hd).1 (hfun hd).2 hmem hi (by omega) rfl k1 (by omega)
        ((k3 L (Nat.lt_succ_self _) (not_slot hf)).trans (upd_same ..)) hrow (by omega) hf1 k2) ?_) (by simp; omega)
      rintro r vm3 ⟨σ3, m1, m2, m3, m4⟩
      exact ⟨σ3, m1, m2, ((Same.upd (.refl _ _ _) (.inl (Nat.le_refl _))).trans' k3 (Nat.le_succ _)).trans' m3 (Nat.le_succ _), m4⟩
  | argsNil =>
    intro p σ env vm acc hh hf _ ha hg
    simp only [Piece.result, arguments]
    exact Leads.done ⟨σ, ha, hg, .refl _ _ _, [], rfl, rfl, fun i v h => by simp at h⟩
  | @argsCons bs L l a es code L1 l1 code2 L2 l2 hc hc2 ih ih2 =>
    intro p σ env vm acc hh hf _ ha hg
    have hor := ha.ready.origin
    have hl := hc.after
    have hl2 := hc2.after
    simp only [Piece.After] at hl hl2
    have e1 : Piece.result S F (.args (a :: es)) env acc = (eval S F false a env >>= fun p =>
        Piece.result S F (.args es) p.2 acc >>= fun q => .ok (.pair p.1 q.1, q.2)) := by
      simp only [Piece.result, arguments]
      rw [Result.bind_assoc]
      congr 1
      funext p
      rw [Result.bind_assoc, Result.bind_assoc]
      rfl
    rw [e1]
    refine Leads.bind (ih p σ env vm acc hh.left.left hf trivial ha hg) ?_
    rintro ⟨v, env1⟩ vm1 ⟨σ1, k1, k2, k3, k4⟩
    refine lead_first (lead_settle hh.left.right k1 hl.1 hor k4) fun vm2 h5 => ?_
    have hg' : Agrees (upd σ1 L v) bs env1 := agrees_upd k2 (not_slot hf)
    refine Leads.bind (ih2 _ _ env1 vm2 acc ?_ (hf.mono (Nat.le_succ _)) trivial h5 hg') ?_
    · simpa [Nat.add_assoc] using hh.right
    rintro ⟨w, env2⟩ vm3 ⟨σ2, m1, m2, m3, vs, rfl, hlen, hrow⟩
    refine Leads.cast (Leads.done ?_) (by simp; omega)
    refine ⟨σ2, m1, m2, (k3.upd (.inl (Nat.le_refl _))).trans' m3 (Nat.le_succ _), v :: vs, rfl, by simp [hlen], ?_⟩
    intro i u hi
    cases i with
    | zero =>
      obtain rfl : v = u := by simpa using hi
      exact (m3 L (Nat.lt_succ_self _) (not_slot hf)).trans (upd_same ..)
    | succ i =>
      have := hrow i u (by simpa using hi)
      rwa [show L + (i + 1) = L + 1 + i by omega]

/-- Whatever the allowance. -/
theorem simulates {S : Setting} (F : Nat) : ∀ {C : Setup}, C.ids.function = Defines C.program C.off C.cell →
    S.fl = C.env.fl → S.memory = C.memory → (∀ x key, Keys.key x key → ∃ id : Nat, key = id ∧ C.ids.number x id) →
    (∀ x key n, S.assignable x = true → Keys.key x key → Keys.height n → key ≠ (n : Int) - 1) →
    ∀ {piece bs L l code bs' L' l'}, Code piece bs L l code bs' L' l' → Sim C ⟨S, run S F⟩ F piece bs L code bs' L' := by
  induction F with
  | zero =>
    intro C hfun hfl hmem hkeys hset piece bs L l code bs' L' l' h
    refine simulate 0 (fun _ => ⟨?_, hfun⟩) hfl hmem hkeys hset h
    intro below origin kept hkept cs ua params forms start l code l' hc p σ env vm hh ha hg
    exact .inl ⟨0, _, _, Nat.le_refl _, .refl _⟩
  | succ F ih =>
    intro C hfun hfl hmem hkeys hset piece bs L l code bs' L' l' h
    refine simulate (F + 1) (fun _ => ⟨?_, hfun⟩) hfl hmem hkeys hset h
    intro below origin kept hkept cs ua params forms start l code l' hc p σ env vm hh ha hg
    exact ih (C := C.inside below origin kept hkept cs ua) hfun hfl hmem hkeys hset hc p σ env vm .nil hh (fits_params _ _) trivial ha hg

end DuckLisp.Compile
