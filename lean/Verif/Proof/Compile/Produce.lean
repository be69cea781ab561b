import Verif.Proof.Compile.Enter
import Verif.Proof.Compile.Code
import Verif.Proof.Compile.Mono

/-!
# The generators produce the code that the relation describes
-/

namespace DuckLisp.Compile

open DuckLisp.Asm DuckLisp.Reader DuckLisp.Spec

variable [Keys] {m : Bool}

/-- The generated names do not run out, and all names have the numbers that they are to have. -/
structure Bounded (s : CState) : Prop where
  gensym : s.gensymNumber ≤ 2 ^ 64
  keys : ∀ h, Tabled s h → ∀ x, Tables.nameToValue s.symbols x ≠ -1 → Keys.key x (Tables.nameToValue s.symbols x)
  heights : ∀ n, Keys.height n

theorem Bounded.back {s s' : CState} (h : Bounded s') (l : Le s s') : Bounded s := by
  refine ⟨Nat.le_trans l.gensym h.gensym, fun hist ht x hx => ?_, h.heights⟩
  obtain ⟨more, ht'⟩ := l.tables hist ht
  have e := number_grows ht.symbols ht'.symbols hx
  rw [← e]
  exact h.keys _ ht' x (by rwa [e])

theorem Bounded.shrink {s : CState} {code : List Ins} {L : Nat} (h : Bounded (grow s code L)) : Bounded s :=
  h.back (SameTables.le ⟨rfl, rfl, rfl, rfl⟩)

theorem Bounded.key {s : CState} {m bs L l x key} (h : Bounded s) (hv : View m s bs L l)
    (hk : key = Tables.nameToValue s.symbols x ∧ key ≠ -1) : Keys.key x key := by
  obtain ⟨hist, ht⟩ := hv.tables
  obtain ⟨rfl, hn⟩ := hk
  exact h.keys hist ht x hn

/-- The state after a piece that leaves the blocks as they were. -/
def Made (m : Bool) (k : Piece) (bs : Blocks) (L l : Nat) (s s' : CState) : Prop :=
  ∃ code L' l', Code k bs L l code bs L' l' ∧ View m s' bs L' l' ∧ Ext s s' code

/-- What the generators need from their callees. -/
structure GoodRec (r : Rec) : Prop where
  mono : MonoRec r
  left : ∀ e, r.left e = pure e
  formAt : ∀ {m e s bs L l i s'}, Term Keys.dialect m e → View m s bs L l → r.compound e true s = .ok i s' →
    Bounded s' → ∃ code L' l', Code (.form e) bs L l code bs L' l' ∧ View m s' bs L' l' ∧ Ext s s' code ∧
      i = some ((callee bs e L' : Nat) : Int)
  operand : ∀ {m e s bs L l i s'}, Term Keys.dialect m e → View m s bs L l → r.compound e false s = .ok i s' →
    Bounded s' → ∃ slot : Nat, i = some (slot : Int) ∧ Made m (.operand e slot) bs L l s s'
  list : ∀ {m es s bs L l s'}, Term Keys.dialect m (.expression es) → View m s bs L l → r.expression es s = .ok () s' →
    Bounded s' → Made m (.form (.expression es)) bs L l s s'
  special : ∀ {m f s bs L l i s'}, special f ≠ none → View m s bs L l → r.compound f true s = .ok i s' → s' = s

theorem GoodRec.form {r : Rec} (h : GoodRec r) {m e s bs L l i s'} (he : Term Keys.dialect m e) (hv : View m s bs L l)
    (hc : r.compound e true s = .ok i s') (hb : Bounded s') : Made m (.form e) bs L l s s' := by
  obtain ⟨code, L', l', h1, h2, h3, -⟩ := h.formAt he hv hc hb
  exact ⟨code, L', l', h1, h2, h3⟩

theorem checkArgs_inv {es n v s s'} (h : checkArgs es n v s = .ok () s') : s' = s := by
  unfold checkArgs at h
  split at h
  · rename_i name rest
    by_cases hc : (if v = true then (Ast.identifier name :: rest).length < n
        else (Ast.identifier name :: rest).length ≠ n)
    · rw [if_pos hc] at h
      cases h
    · rw [if_neg hc] at h
      exact (CM.pure_inv h).2.symm
  · cases h

theorem Bounded.back' {s s' : CState} (l : Le s s') (h : Bounded s') : Bounded s := h.back l

theorem Mono.bound {α : Type} {m : CM α} {s a s'} (e : m s = .ok a s') (hb : Bounded s')
    (hm : Mono m) : Bounded s := hb.back (hm s a s' e)

theorem skipCheck {α : Type} {es n v s s'} {f : Unit → CM α} {a : α}
    (h : (checkArgs es n v >>= f) s = .ok a s') : f () s = .ok a s' := by
  obtain ⟨_, s1, e1, e2⟩ := CM.bind_inv h
  have := checkArgs_inv e1
  subst this
  exact e2

theorem initialized_inv {i : Option Int} {slot : Int} (h : i = some slot) (s : CState) :
    initialized i s = .ok slot s := by subst h; rfl

theorem emitNil_eq {s bs L l} (h : View m s bs L l) : emitNil s = .ok () (grow s [.nil] (L + 1)) := emitPush_eq h _

/-- The result of `emitMove` and `emitPop` as they are used together. -/
theorem settle_code {s bs L l L'} (h : View m s bs L' l) (hL : L < L') :
    ∃ s', (do emitMove (L : Int) ((L' : Int) - 1); emitPop (L' - L - 1) : CM Unit) s = .ok () s' ∧
      View m s' bs (L + 1) l ∧ Ext s s' (settleCode L L') := by
  have e1 := emitMove_eq h (L : Int) ((L' : Int) - 1)
  have hv := h.grow (if (L : Int) = (L' : Int) - 1 then [] else [.move ((L' : Int) - ((L' : Int) - 1)) ((L' : Int) - L)]) L'
  have e2 := emitPop_eq hv (n := L' - L - 1) (by omega)
  refine ⟨_, (CM.bind_ok e1).trans e2, ?_, ?_⟩
  · have : L' - (L' - L - 1) = L + 1 := by omega
    rw [this]
    exact hv.grow _ _
  · refine ((Ext.grow s _ _).trans (Ext.grow _ _ _)).cast ?_
    unfold settleCode
    by_cases hl : L' - 1 = L
    · have h1 : (L : Int) = (L' : Int) - 1 := by omega
      have h2 : L' - L - 1 = 0 := by omega
      simp only [if_pos h1, if_pos h2, if_pos hl, List.append_nil]
    · have h1 : ¬ (L : Int) = (L' : Int) - 1 := by omega
      have h2 : ¬ L' - L - 1 = 0 := by omega
      simp only [if_neg h1, if_neg h2, if_neg hl, List.cons_append, List.nil_append]
      have h3 : (L' : Int) - ((L' : Int) - 1) = 1 := by omega
      have h4 : (L' : Int) - L = ((L' - L : Nat) : Int) := by omega
      rw [h3, h4]

/-! ## Which generator a keyword has -/

theorem special_called {name : Bytes} {keyword : String} {rest : List Ast} {v : Option Special}
    (h : Spelled name keyword)
    (h1 : special (.expression [.identifier (ascii keyword)]) = v)
    (h2 : special (.expression [.identifier (ascii ("__" ++ keyword))]) = v) :
    special (.expression (.identifier name :: rest)) = v := by
  rcases h with rfl | rfl
  · exact h1
  · exact h2

theorem special_operator {name : Bytes} {k : Nat} {keyword : String} {rest : List Ast} (hk : keyword ∈ operators k)
    (h : Spelled name keyword) : special (.expression (.identifier name :: rest)) = none := by
  have key : ∀ k, k < 4 → ∀ s ∈ operators k, special (.expression [.identifier (ascii s)]) = none ∧
      special (.expression [.identifier (ascii ("__" ++ s))]) = none := by decide +kernel
  have hk4 : k < 4 := by
    match k, hk with
    | 0, _ | 1, _ | 2, _ | 3, _ => omega
  exact special_called h (key k hk4 keyword hk).1 (key k hk4 keyword hk).2

theorem form_special {f : Ast} (h : Term Keys.dialect m f) : special f = none := by
  cases h
  case block e es ho hi => cases ho <;> rfl
  case operator name keyword args hk hc hf => exact special_operator hk hc
  case list name args hc hf => exact special_called hc (by decide +kernel) (by decide +kernel)
  case vector name args hc hf => exact special_called hc (by decide +kernel) (by decide +kernel)
  case declare name args hc => exact special_called hc (by decide +kernel) (by decide +kernel)
  case quote name e hc hf => exact special_called hc (by decide +kernel) (by decide +kernel)
  case setq name x e hc _ hf => exact special_called hc (by decide +kernel) (by decide +kernel)
  case global name x e hc hf => exact special_called hc (by decide +kernel) (by decide +kernel)
  case if_ name c e f hc _ _ _ => exact special_called hc (by decide +kernel) (by decide +kernel)
  case when_ name c es hc _ _ => exact special_called hc (by decide +kernel) (by decide +kernel)
  case unless_ name c es hc _ _ => exact special_called hc (by decide +kernel) (by decide +kernel)
  case while_ name c es hc _ _ _ => exact special_called hc (by decide +kernel) (by decide +kernel)
  case lambda name ps r fs _ hc _ _ _ => exact special_called hc (by decide +kernel) (by decide +kernel)
  case funcall name f args _ hc _ _ => exact special_called hc (by decide +kernel) (by decide +kernel)
  case apply name f a args _ hc _ _ => exact special_called hc (by decide +kernel) (by decide +kernel)
  case call name args _ hc _ _ => exact (Keys.callable name hc).2.1
  all_goals rfl

theorem special_var {name : Bytes} {rest : List Ast} (h : Spelled name "var") :
    special (.expression (.identifier name :: rest)) = some .var :=
  special_called h (by decide +kernel) (by decide +kernel)

theorem special_noscope {name : Bytes} {rest : List Ast} (h : Spelled name "noscope") :
    special (.expression (.identifier name :: rest)) = some .noscope :=
  special_called h (by decide +kernel) (by decide +kernel)

section
variable {r : Rec} (hr : GoodRec r)
include hr

theorem genUnary_code {op : Op1} {name a s bs L l s'} (hg : generator name = some (.op1 op)) (ha : Term Keys.dialect m a)
    (h : View m s bs L l) (e : genUnary r op.ins [.identifier name, a] s = .ok () s')
    (hb : Bounded s') : Made m (.form (.expression [.identifier name, a])) bs L l s s' := by
  unfold genUnary at e
  replace e := skipCheck e
  obtain ⟨i, s1, e1, e2⟩ := CM.bind_inv e
  have hb1 : Bounded s1 :=
    Bounded.back' (Mono.bind (Mono.initialized i) (fun _ => Mono.emitUnary _ _) s1 _ _ e2) hb
  obtain ⟨slot, hi, code, L', l', c1, v1, x1⟩ := hr.operand ha h e1 hb1
  rw [CM.bind_ok (initialized_inv hi s1), emitUnary_eq v1] at e2
  cases e2
  exact ⟨_, _, _, Code.op1 op hg c1, v1.grow _ _, x1.trans (Ext.grow _ _ _)⟩

theorem genBinary_code {op : Op2} {name a b s bs L l s'} (hg : generator name = some (.op2 op)) (ha : Term Keys.dialect m a)
    (hb' : Term Keys.dialect m b) (h : View m s bs L l) (e : genBinary r op.ins [.identifier name, a, b] s = .ok () s')
    (hb : Bounded s') : Made m (.form (.expression [.identifier name, a, b])) bs L l s s' := by
  unfold genBinary at e
  replace e := skipCheck e
  obtain ⟨i, s1, e1, e2⟩ := CM.bind_inv e
  obtain ⟨j, s2, e3, e4⟩ := CM.bind_inv e2
  have hb2 : Bounded s2 := Bounded.back'
    (Mono.bind (Mono.initialized i) (fun _ => Mono.bind (Mono.initialized j) fun _ => Mono.emitBinary _ _ _)
      s2 _ _ e4) hb
  have hb1 : Bounded s1 := Bounded.back' (hr.mono.compound _ _ _ _ _ e3) hb2
  obtain ⟨slot, hi, code, L1, l1, c1, v1, x1⟩ := hr.operand ha h e1 hb1
  obtain ⟨slot2, hi2, code2, L2, l2, c2, v2, x2⟩ := hr.operand hb' v1 e3 hb2
  rw [CM.bind_ok (initialized_inv hi s2), CM.bind_ok (initialized_inv hi2 s2), emitBinary_eq v2] at e4
  cases e4
  exact ⟨_, _, _, Code.op2 op hg c1 c2, v2.grow _ _, (x1.trans x2).trans (Ext.grow _ _ _)⟩

theorem genTernary_code {op : Op3} {name a b c s bs L l s'} (hg : generator name = some (.op3 op)) (ha : Term Keys.dialect m a)
    (hb' : Term Keys.dialect m b) (hc : Term Keys.dialect m c) (h : View m s bs L l)
    (e : genTernary r op.ins [.identifier name, a, b, c] s = .ok () s')
    (hb : Bounded s') : Made m (.form (.expression [.identifier name, a, b, c])) bs L l s s' := by
  unfold genTernary at e
  replace e := skipCheck e
  obtain ⟨i, s1, e1, e2⟩ := CM.bind_inv e
  obtain ⟨j, s2, e3, e4⟩ := CM.bind_inv e2
  obtain ⟨k, s3, e5, e6⟩ := CM.bind_inv e4
  have hb3 : Bounded s3 := Bounded.back'
    (Mono.bind (Mono.initialized i) (fun _ => Mono.bind (Mono.initialized j) fun _ =>
      Mono.bind (Mono.initialized k) fun _ => Mono.emitTernary _ _ _ _) s3 _ _ e6) hb
  have hb2 : Bounded s2 := Bounded.back' (hr.mono.compound _ _ _ _ _ e5) hb3
  have hb1 : Bounded s1 := Bounded.back' (hr.mono.compound _ _ _ _ _ e3) hb2
  obtain ⟨slot, hi, code, L1, l1, c1, v1, x1⟩ := hr.operand ha h e1 hb1
  obtain ⟨slot2, hi2, code2, L2, l2, c2, v2, x2⟩ := hr.operand hb' v1 e3 hb2
  obtain ⟨slot3, hi3, code3, L3, l3, c3, v3, x3⟩ := hr.operand hc v2 e5 hb3
  rw [CM.bind_ok (initialized_inv hi s3), CM.bind_ok (initialized_inv hi2 s3), CM.bind_ok (initialized_inv hi3 s3),
    emitTernary_eq v3] at e6
  cases e6
  exact ⟨_, _, _, Code.op3 op hg c1 c2 c3, v3.grow _ _, ((x1.trans x2).trans x3).trans (Ext.grow _ _ _)⟩

theorem genListLoop_code : ∀ (es : List Ast) {s bs L l s'} (i : Nat), (∀ a ∈ es, Term Keys.dialect m a) → View m s bs L l →
    genListLoop r es i s = .ok () s' → Bounded s' → Made m (.conses es i) bs L l s s'
  | [], s, bs, L, l, s', i, _, h, e, _ => by
    obtain ⟨-, rfl⟩ := CM.pure_inv e
    exact ⟨_, _, _, Code.consNil, h, Ext.refl _⟩
  | a :: es, s, bs, L, l, s', i, hf, h, e, hb => by
    unfold genListLoop at e
    obtain ⟨j, s1, e1, e2⟩ := CM.bind_inv e
    have hb1 : Bounded s1 := Bounded.back'
      (Mono.bind (Mono.initialized j) (fun _ => Mono.bind (Mono.emitBinary _ _ _) fun _ =>
        Mono.bind Mono.localsLength fun _ => Mono.genListLoop hr.mono _ _) s1 _ _ e2) hb
    obtain ⟨slot, hi, code, L1, l1, c1, v1, x1⟩ := hr.operand (hf a (by simp)) h e1 hb1
    rw [CM.bind_ok (initialized_inv hi s1), CM.bind_ok (emitBinary_eq v1 _ _ _),
      CM.bind_ok (localsLength_eq (v1.grow _ _)), show (((L1 + 1 : Nat) : Int) - 1) = (L1 : Nat) by omega] at e2
    obtain ⟨code2, L2, l2, c2, v2, x2⟩ := genListLoop_code es L1 (fun a ha => hf a (by simp [ha])) (v1.grow _ _) e2 hb
    exact ⟨_, _, _, Code.consCons c1 c2, v2, (x1.trans (Ext.grow _ _ _)).trans x2⟩

theorem genVectorLoop_code : ∀ (es : List Ast) {s bs L l s'} (is : List Nat) {out}, (∀ a ∈ es, Term Keys.dialect m a) →
    View m s bs L l → genVectorLoop r es (is.map fun (n : Nat) => (n : Int)) s = .ok out s' →
    Bounded s' →
    ∃ all : List Nat, out = all.map (fun (n : Nat) => (n : Int)) ∧ Made m (.elements es is all) bs L l s s'
  | [], s, bs, L, l, s', is, out, _, h, e, _ => by
    obtain ⟨rfl, rfl⟩ := CM.pure_inv e
    exact ⟨is, rfl, _, _, _, Code.elemNil, h, Ext.refl _⟩
  | a :: es, s, bs, L, l, s', is, out, hf, h, e, hb => by
    unfold genVectorLoop at e
    obtain ⟨j, s1, e1, e2⟩ := CM.bind_inv e
    have hb1 : Bounded s1 := Bounded.back'
      (Mono.bind (Mono.initialized j) (fun _ => Mono.genVectorLoop hr.mono _ _) s1 _ _ e2) hb
    obtain ⟨slot, hi, code, L1, l1, c1, v1, x1⟩ := hr.operand (hf a (by simp)) h e1 hb1
    rw [CM.bind_ok (initialized_inv hi s1)] at e2
    obtain ⟨all, ho, code2, L2, l2, c2, v2, x2⟩ := genVectorLoop_code es (slot :: is)
      (fun a ha => hf a (by simp [ha])) v1 e2 hb
    exact ⟨all, ho, _, _, _, Code.elemCons c1 c2, v2, x1.trans x2⟩

theorem genList_code {name es s bs L l s'} (hn : Spelled name "list") (hf : ∀ a ∈ es, Term Keys.dialect m a) (h : View m s bs L l)
    (e : genList r (.identifier name :: es) s = .ok () s') (hb : Bounded s') :
    Made m (.form (.expression (.identifier name :: es))) bs L l s s' := by
  unfold genList at e
  rw [CM.bind_ok (emitNil_eq h), CM.bind_ok (localsLength_eq (h.grow _ _)),
    show (((L + 1 : Nat) : Int) - 1) = (L : Nat) by omega] at e
  obtain ⟨code, L', l', c, v, x⟩ := genListLoop_code hr _ L (by simpa using hf) (h.grow _ _) e hb
  exact ⟨_, _, _, Code.list hn c, v, (Ext.grow _ _ _).trans x⟩

theorem genVector_code {name es s bs L l s'} (hn : Spelled name "vector") (hf : ∀ a ∈ es, Term Keys.dialect m a) (h : View m s bs L l)
    (e : genVector r (.identifier name :: es) s = .ok () s') (hb : Bounded s') :
    Made m (.form (.expression (.identifier name :: es))) bs L l s s' := by
  unfold genVector at e
  rw [CM.bind_ok (emitNil_eq h)] at e
  obtain ⟨out, s1, e1, e2⟩ := CM.bind_inv e
  have hb1 : Bounded s1 := Bounded.back' (Mono.emitVector _ s1 _ _ e2) hb
  obtain ⟨all, ho, code, L', l', c, v, x⟩ := genVectorLoop_code hr _ [] (by simpa using hf) (h.grow _ _) e1 hb1
  rw [emitVector_eq v] at e2
  cases e2
  subst ho
  refine ⟨_, _, _, Code.vector hn c, v.grow _ _, (((Ext.grow _ _ _).trans x).trans (Ext.grow _ _ _)).cast ?_⟩
  simp [Function.comp_def]

theorem genSetq_code {name x a s bs L l s'} (hn : Spelled name "setq") (hx : Keys.dialect.Mentions m x) (hf : Term Keys.dialect m a) (h : View m s bs L l)
    (e : genSetq r [.identifier name, .identifier x, a] s = .ok () s') (hb : Bounded s') :
    Made m (.form (.expression [.identifier name, .identifier x, a])) bs L l s s' := by
  have hm := hr.mono
  unfold genSetq at e
  replace e := skipCheck e
  obtain ⟨i, s1, e1, e2⟩ := CM.bind_inv e
  have hb1 : Bounded s1 := Mono.bound e2 hb (by repeat' mono1)
  obtain ⟨code, L1, l1, c1, v1, x1⟩ := hr.form hf h e1 hb1
  rw [CM.bind_ok (place_eq v1 hx)] at e2
  cases hx : findVar bs x with
  | some k =>
    rw [hx] at e2
    dsimp only at e2
    rw [CM.bind_ok (localsLength_eq v1), emitMove_eq v1] at e2
    cases e2
    refine ⟨_, _, _, Code.setq hn c1 hx, v1.grow _ _, (x1.trans (Ext.grow _ _ _)).cast ?_⟩
    rw [show (L1 : Int) - ((L1 : Int) - 1) = 1 by omega]
  | none =>
    rw [hx] at e2
    dsimp only at e2
    obtain ⟨key, s2, e3, e4⟩ := CM.bind_inv e2
    obtain ⟨v2, x2, hk⟩ := globalKey_inv v1 e3
    rw [CM.bind_ok (localsLength_eq v2), emitSetStatic_eq v2] at e4
    cases e4
    refine ⟨_, _, _, Code.setqGlobal key (hb.shrink.key v2 hk) (hb.heights _) hn c1 hx, v2.grow _ _, ((x1.trans x2).trans (Ext.grow _ _ _)).cast ?_⟩
    rw [show (L1 : Int) - ((L1 : Int) - 1) = 1 by omega, List.append_nil]

theorem genGlobal_code {name x a s bs L l s'} (hn : Spelled name "global") (hf : Term Keys.dialect m a) (h : View m s bs L l)
    (e : genGlobal r [.identifier name, .identifier x, a] s = .ok () s') (hb : Bounded s') :
    Made m (.form (.expression [.identifier name, .identifier x, a])) bs L l s s' := by
  have hm := hr.mono
  unfold genGlobal at e
  replace e := skipCheck e
  obtain ⟨i, s1, e1, e2⟩ := CM.bind_inv e
  have hb1 : Bounded s1 := Mono.bound e2 hb (by repeat' mono1)
  obtain ⟨code, L1, l1, c1, v1, x1⟩ := hr.form hf h e1 hb1
  obtain ⟨key, s2, e3, e4⟩ := CM.bind_inv e2
  obtain ⟨v2, x2, hk⟩ := addGlobal_inv v1 e3
  rw [CM.bind_ok (localsLength_eq v2), emitSetStatic_eq v2] at e4
  cases e4
  refine ⟨_, _, _, Code.defGlobal key (hb.shrink.key v2 hk) (hb.heights _) hn c1, v2.grow _ _, ((x1.trans x2).trans (Ext.grow _ _ _)).cast ?_⟩
  rw [show (L1 : Int) - ((L1 : Int) - 1) = 1 by omega, List.append_nil]

/-! ## Blocks -/

theorem createVar_code {name x a s bs L l s'} (hx : m = false → Keys.dialect.outer x = true) (hf : Term Keys.dialect m a) (h : View m s bs L l)
    (e : createVar r [.identifier name, .identifier x, a] s = .ok () s') (hb : Bounded s') :
    ∃ code L' l', Code (.form a) bs L l code bs L' l' ∧ View m s' (addVar x L bs) (L + 2) l' ∧
      Ext s s' (code ++ settleCode L L' ++ [.pushIndex 1]) := by
  have hm := hr.mono
  unfold createVar at e
  rw [CM.bind_ok (localsLength_eq h)] at e
  replace e := skipCheck e
  obtain ⟨i, s1, e1, e2⟩ := CM.bind_inv e
  have hb1 : Bounded s1 := Mono.bound e2 hb (by repeat' mono1)
  obtain ⟨code, L1, l1, c1, v1, x1⟩ := hr.form hf h e1 hb1
  have hL : L < L1 := c1.after.1
  rw [CM.bind_ok (localsLength_eq v1), CM.bind_ok (setLocalsLength_eq v1 _)] at e2
  obtain ⟨b, bs', rfl⟩ := h.cons
  obtain ⟨s2, e3, v2, x2⟩ := addVariable_eq (v1.grow [] L) hx
  rw [CM.bind_ok e3, CM.bind_ok (setLocalsLength_eq v2 _)] at e2
  have v3 := v2.grow [] L1
  obtain ⟨s4, e5, v4, x4⟩ := settle_code v3 hL
  obtain ⟨_, s5, e6, e7⟩ := CM.bind_inv e5
  rw [CM.bind_ok e6] at e2
  have e8 : (if L1 > L + 1 then emitPop (L1 - L - 1) else pure () : CM Unit) s5 = .ok () s4 := by
    by_cases hl : L1 > L + 1
    · rw [if_pos hl]; exact e7
    · rw [if_neg hl]
      have : L1 - L - 1 = 0 := by omega
      rw [this] at e7
      exact e7
  have e9 : (emitPushIndex (L : Int)) s4 = .ok () s' := by
    by_cases hl : L1 > L + 1
    · rw [if_pos hl] at e2 e8
      rw [CM.bind_ok e8] at e2
      exact e2
    · rw [if_neg hl] at e2 e8
      obtain ⟨-, rfl⟩ := CM.pure_inv e8
      exact e2
  rw [emitPushIndex, emitUnary_eq v4] at e9
  cases e9
  refine ⟨code, L1, l1, c1, v4.grow _ _, ?_⟩
  refine (((((x1.trans (Ext.grow s1 [] L)).trans x2).trans (Ext.grow _ [] L1)).trans x4).trans
    (Ext.grow _ _ _)).cast ?_
  rw [show ((L + 1 : Nat) : Int) - (L : Int) = 1 by omega]
  simp

/-- The state after the rest of a block. -/
def MadeBody (m : Bool) (es : List Ast) (bs : Blocks) (L l : Nat) (s s' : CState) : Prop :=
  ∃ code bs' L' l', Code (.body es) bs L l code bs' L' l' ∧ View m s' bs' L' l' ∧ Ext s s' code

theorem noscopeForms_code {inner : List Ast → CM Unit} (hmi : ∀ es, Mono (inner es))
    (hi : ∀ {es s bs L l s'}, (∀ f ∈ es, Member Keys.dialect m f) → View m s bs L l → inner es s = .ok () s' →
      Bounded s' → MadeBody m es bs L l s s') :
    ∀ (es : List Ast) {s bs L l s'}, es ≠ [] → (∀ f ∈ es, Member Keys.dialect m f) → View m s bs L l →
      noscopeForms r inner es s = .ok () s' → Bounded s' → MadeBody m es bs L l s s'
  | [], _, _, _, _, _, h, _, _, _, _ => absurd rfl h
  | f :: rest, s, bs, L, l, s', _, hf, h, e, hb => by
    have hm := hr.mono
    have hms := Mono.noscopeForms hr.mono hmi
    have hma := fun f start last => Mono.afterForm hr.mono hmi f start last
    unfold noscopeForms at e
    rw [CM.bind_ok (localsLength_eq h)] at e
    obtain ⟨i, s1, e1, e2⟩ := CM.bind_inv e
    rw [hr.left, CM.bind_ok (show (pure f : CM Ast) s1 = .ok f s1 from rfl)] at e2
    obtain ⟨_, s3, e3, e4⟩ := CM.bind_inv e2
    have hb3 : Bounded s3 := Mono.bound e4 hb (hms _)
    have hb1 : Bounded s1 := Mono.bound e3 hb3 (hma _ _ _)
    have hrest : ∀ f ∈ rest, Member Keys.dialect m f := fun f hf' => hf f (by simp [hf'])
    have hitem := hf f (by simp)
    have ih := fun {s bs L l s'} (hne : rest ≠ []) =>
      noscopeForms_code hmi hi rest (s := s) (bs := bs) (L := L) (l := l) (s' := s') hne hrest
    cases hitem with
    | form _ hfm =>
      obtain ⟨code, L1, l1, c1, v1, x1⟩ := hr.form hfm h e1 hb1
      have hL : L < L1 := c1.after.1
      have hs := form_special hfm
      simp only [afterForm, hs] at e3
      rw [CM.bind_ok (localsLength_eq v1)] at e3
      cases rest with
      | nil =>
        obtain ⟨-, rfl⟩ := CM.pure_inv (show (pure () : CM Unit) s3 = .ok () s' from e4)
        obtain ⟨s4, g1, g2, g3⟩ := settle_code v1 hL
        have : s3 = s4 := by
          simp only [List.isEmpty_nil, if_true] at e3
          by_cases hl : (L1 : Int) - L - 1 > 0
          · rw [if_pos hl] at e3
            have h1 : (L1 : Int) - 1 - ((L1 : Int) - L - 1) = L := by omega
            have h2 : ((L1 : Int) - L - 1).toNat = L1 - L - 1 := by omega
            rw [h1, h2, g1] at e3
            cases e3
            rfl
          · rw [if_neg hl] at e3
            have h2 : (-((L1 : Int) - L - 1)).toNat = 0 := by omega
            rw [h2] at e3
            obtain ⟨-, rfl⟩ := CM.pure_inv (show (pure () : CM Unit) s1 = .ok () s3 from e3)
            have h3 : (L : Int) = (L1 : Int) - 1 := by omega
            have h4 : L1 - L - 1 = 0 := by omega
            obtain ⟨_, s5, g4, g5⟩ := CM.bind_inv g1
            rw [h4] at g5
            simp only [emitMove, h3, if_true] at g4
            obtain ⟨-, rfl⟩ := CM.pure_inv (show (pure () : CM Unit) s1 = .ok _ s5 from g4)
            exact (CM.pure_inv (show (pure () : CM Unit) s1 = .ok () s4 from g5)).2
        subst this
        exact ⟨_, _, _, _, Code.bodyLast hs c1, g2, x1.trans g3⟩
      | cons g rest =>
        simp only [List.isEmpty_cons, Bool.false_eq_true, if_false] at e3
        rw [if_pos (by omega)] at e3
        have h2 : ((L1 : Int) - L - 0).toNat = L1 - L := by omega
        rw [h2] at e3
        have e3' : emitPop (L1 - L) s1 = .ok () s3 := e3
        rw [emitPop_eq v1 (by omega), if_neg (by omega), show L1 - (L1 - L) = L by omega] at e3'
        cases e3'
        obtain ⟨code2, bs2, L2, l2, c2, v2, x2⟩ := ih (by simp) (v1.grow _ _) e4 hb
        exact ⟨_, _, _, _, Code.bodyCons hs c1 (by simp) c2, v2, (x1.trans (Ext.grow _ _ _)).trans x2⟩
    | var name x a hc hox hfa =>
      have hs := special_var (rest := [.identifier x, a]) hc
      have := hr.special (by rw [hs]; simp) h e1
      subst this
      simp only [afterForm, hs] at e3
      obtain ⟨_, s4, g1, g2⟩ := CM.bind_inv e3
      have hb4 : Bounded s4 := Mono.bound g2 hb3 (by repeat' mono1)
      obtain ⟨code, L1, l1, c1, v1, x1⟩ := createVar_code hr hox hfa h g1 hb4
      cases rest with
      | nil =>
        obtain ⟨-, rfl⟩ := CM.pure_inv (show (pure () : CM Unit) s3 = .ok () s' from e4)
        obtain ⟨-, rfl⟩ := CM.pure_inv (show (pure () : CM Unit) s4 = .ok () s3 from g2)
        exact ⟨_, _, _, _, Code.varLast hc c1, v1, x1⟩
      | cons g rest =>
        have g2' : emitPop 1 s4 = .ok () s3 := g2
        rw [emitPop_eq v1 (by omega), if_neg (by omega), show L + 2 - 1 = L + 1 by omega] at g2'
        cases g2'
        obtain ⟨code2, bs2, L2, l2, c2, v2, x2⟩ := ih (by simp) (v1.grow _ _) e4 hb
        exact ⟨_, _, _, _, Code.varCons hc c1 (by simp) c2, v2, ((x1.trans (Ext.grow _ _ _)).trans x2).cast
          (by simp)⟩
    | noscope name es hc hfs =>
      have hs := special_noscope (rest := es) hc
      have := hr.special (by rw [hs]; simp) h e1
      subst this
      simp only [afterForm, hs] at e3
      obtain ⟨_, s4, g1, g2⟩ := CM.bind_inv e3
      have hb4 : Bounded s4 := Mono.bound g2 hb3 (by repeat' mono1)
      obtain ⟨code, bs1, L1, l1, c1, v1, x1⟩ := hi hfs h g1 hb4
      have hL : L < L1 := c1.after.1
      cases rest with
      | nil =>
        obtain ⟨-, rfl⟩ := CM.pure_inv (show (pure () : CM Unit) s3 = .ok () s' from e4)
        obtain ⟨-, rfl⟩ := CM.pure_inv (show (pure () : CM Unit) s4 = .ok () s3 from g2)
        exact ⟨_, _, _, _, Code.noscopeLast hc c1, v1, x1⟩
      | cons g rest =>
        have g2' : emitPop 1 s4 = .ok () s3 := g2
        rw [emitPop_eq v1 (by omega), if_neg (by omega)] at g2'
        cases g2'
        obtain ⟨code2, bs2, L2, l2, c2, v2, x2⟩ := ih (by simp) (v1.grow _ _) e4 hb
        exact ⟨_, _, _, _, Code.noscopeCons hc c1 (by simp) c2, v2, ((x1.trans (Ext.grow _ _ _)).trans x2)⟩

theorem noscope_code : ∀ (n : Nat) {es s bs L l s'}, (∀ f ∈ es, Member Keys.dialect m f) → View m s bs L l →
    noscope r n es s = .ok () s' → Bounded s' → MadeBody m es bs L l s s'
  | 0, _, _, _, _, _, _, _, _, e, _ => by cases e
  | n + 1, es, s, bs, L, l, s', hf, h, e, hb => by
    cases es with
    | nil =>
      have e' : emitNil s = .ok () s' := e
      rw [emitNil_eq h] at e'
      cases e'
      exact ⟨_, _, _, _, Code.bodyNil, h.grow _ _, Ext.grow _ _ _⟩
    | cons f rest =>
      exact noscopeForms_code hr (Mono.noscope hr.mono n) (fun {_ _ _ _ _ _} => noscope_code n) (f :: rest) (by simp)
        hf h e hb

theorem genExpression_code {n es s bs L l s'} (hf : ∀ f ∈ es, Member Keys.dialect m f) (h : View m s bs L l)
    (e : genExpression r n es s = .ok () s') (hb : Bounded s') :
    ∃ code l', Code (.block es) bs L l code bs (L + 1) l' ∧ View m s' bs (L + 1) l' ∧ Ext s s' code ∧
      s'.scopes.runtime.scopes = s.scopes.runtime.scopes := by
  have hm := hr.mono
  unfold genExpression at e
  rw [CM.bind_ok (openScope_eq s), CM.bind_ok (localsLength_eq h.opened)] at e
  obtain ⟨_, s1, e1, e2⟩ := CM.bind_inv e
  have hb1 : Bounded s1 := Mono.bound e2 hb (by repeat' mono1)
  obtain ⟨code, bs1, L1, l1, c1, v1, x1⟩ := noscope_code hr n hf h.opened e1 hb1
  obtain ⟨hL, _, ht⟩ : L < L1 ∧ l ≤ l1 ∧ bs1.tail = ([] :: bs : Blocks).tail := c1.after
  obtain ⟨b, bs', rfl⟩ := v1.cons
  have ht : bs' = bs := ht
  subst ht
  have hne : s1.scopes.runtime.scopes ≠ [] := x1.nonempty (by simp [opened, pushScope])
  obtain ⟨t, et, hu⟩ := topScope_inv v1 hne
  rw [CM.bind_ok et] at e2
  simp only [hu, if_true] at e2
  have e3 : (do
      let length ← localsLength
      if (L : Int) < length - 1 then emitMove L (length - 1 : Int) else pure ()
      if length > L + 1 then emitPop (length - L - 1) else pure ()
      closeScope : CM Unit) s1 = .ok () s' := e2
  rw [CM.bind_ok (localsLength_eq v1)] at e3
  obtain ⟨s4, g1, v4, x4⟩ := settle_code v1 hL
  obtain ⟨s5, g5, v5, x5, y5, _⟩ := close_eq h (x1.trans x4) v4
  have : s' = s5 := by
    by_cases hl : L1 > L + 1
    · rw [if_pos (by omega), if_pos hl] at e3
      obtain ⟨_, s6, e6, e7⟩ := CM.bind_inv e3
      obtain ⟨_, s7, e8, e9⟩ := CM.bind_inv g1
      rw [e6] at e8
      cases e8
      have e7' : (emitPop (L1 - L - 1) >>= fun _ => closeScope) s6 = .ok () s' := e7
      rw [CM.bind_ok e9, g5] at e7'
      cases e7'
      rfl
    · rw [if_neg (by omega), if_neg hl] at e3
      have h3 : (L : Int) = (L1 : Int) - 1 := by omega
      have h4 : L1 - L - 1 = 0 := by omega
      obtain ⟨_, s6, g4, g6⟩ := CM.bind_inv g1
      rw [h4] at g6
      simp only [emitMove, h3, if_true] at g4
      obtain ⟨-, rfl⟩ := CM.pure_inv (show (pure () : CM Unit) s1 = .ok _ s6 from g4)
      obtain ⟨-, rfl⟩ := CM.pure_inv (show (pure () : CM Unit) s1 = .ok () s4 from g6)
      have e4 : closeScope s1 = .ok () s' := e3
      rw [g5] at e4
      cases e4
      rfl
  subst this
  exact ⟨_, _, Code.block c1, v5, x5, y5⟩

/-! ## Conditions and loops -/

theorem genWhile_code {n name c es s bs L l s'} (hn : Spelled name "while") (hc : Term Keys.dialect m c)
    (ht : constant c ≠ some true) (hcomp : constant c ≠ none ∨ computed c = true) (hf : ∀ f ∈ es, Member Keys.dialect m f)
    (h : View m s bs L l) (e : genWhile r n (.identifier name :: c :: es) s = .ok () s')
    (hb : Bounded s') : Made m (.form (.expression (.identifier name :: c :: es))) bs L l s s' := by
  have hm := hr.mono
  unfold genWhile at e
  replace e := skipCheck e
  have hcn : ¬ (constant c = none ∧ computed c = false) := by
    rintro ⟨h1, h2⟩
    rcases hcomp with h3 | h3
    · exact h3 h1
    · rw [h2] at h3; cases h3
  dsimp only at e
  rw [if_neg hcn, if_neg ht, CM.bind_ok (gensym_eq s), CM.bind_ok (gensym_eq _)] at e
  have hb2 : s.gensymNumber + 2 ≤ 2 ^ 64 := (Mono.bound e hb (by repeat' mono1)).gensym
  obtain ⟨s1, s2, e1, e2, v2, x2, n2, la, lb⟩ := twoLabels h hb2
  rw [CM.bind_ok e1, CM.bind_ok e2, CM.bind_ok (emitJump_eq v2 la n2)] at e
  have v3 := v2.grow [.jump l] L
  have hbs : Bounded (grow s2 [.jump l] L) := Mono.bound e hb (by repeat' mono1)
  have y3 := Ext.grow s2 [.jump l] L
  rw [CM.bind_ok (emitLabel_eq v3 (lb.ext y3 hbs.gensym) n2)] at e
  have v4 := v3.grow [.label (l + 1)] L
  have y4 := y3.trans (Ext.grow (grow s2 [.jump l] L) [.label (l + 1)] L)
  have n4 := y4.nonempty n2
  generalize hs4 : grow (grow s2 [.jump l] L) [.label (l + 1)] L = s4 at e v4 y4 n4
  rw [CM.bind_ok (openScope_eq _), CM.bind_ok (localsLength_eq v4.opened)] at e
  obtain ⟨_, s5, e5, e⟩ := CM.bind_inv e
  have hb5 : Bounded s5 := Mono.bound e hb (by repeat' mono1)
  obtain ⟨code, l1, c1, v5, x5, _⟩ := genExpression_code hr hf v4.opened e5 hb5
  rw [CM.bind_ok (localsLength_eq v5), CM.bind_ok (emitPop_eq v5 (by omega)), if_neg (by omega)] at e
  have v6 := v5.grow [.pop ((L + 1 - L : Nat) : Int)] (L + 1 - (L + 1 - L))
  obtain ⟨s7, e7, v7, x7, y7, g7⟩ := close_eq v4 (x5.trans (Ext.grow _ [.pop ((L + 1 - L : Nat) : Int)] _)) v6
  rw [CM.bind_ok e7] at e
  have v7 : View m s7 bs L l1 := by
    have : L + 1 - (L + 1 - L) = L := by omega
    rw [this] at v7
    exact v7
  have hb7 : Bounded s7 := Mono.bound e hb (by repeat' mono1)
  have y7' := y4.trans x7
  have n7 := y7'.nonempty n2
  rw [CM.bind_ok (emitLabel_eq v7 (la.ext y7' hb7.gensym) n7)] at e
  have v8 := v7.grow [.label l] L
  have y8 := y7'.trans (Ext.grow s7 [.label l] L)
  rw [CM.bind_ok (localsLength_eq v8)] at e
  obtain ⟨_, s9, e9, e⟩ := CM.bind_inv e
  have hb9 : Bounded s9 := Mono.bound e hb (by repeat' mono1)
  obtain ⟨codeC, Lc, lc, c9, v9, x9⟩ := hr.form hc v8 e9 hb9
  have hL : L < Lc := c9.after.1
  have y9 := y8.trans x9
  have hp : (Lc : Int) - L = ((Lc - L : Nat) : Int) := by omega
  rw [CM.bind_ok (localsLength_eq v9), hp,
    CM.bind_ok (emitBrnz_eq v9 (lb.ext y9 hb9.gensym) (y9.nonempty n2) (p := Lc - L) (by omega)),
    show Lc - (Lc - L) = L by omega, emitNil_eq (v9.grow _ _)] at e
  cases e
  refine ⟨_, _, _, Code.while_ hn ht c1 c9, (v9.grow _ _).grow _ _, ?_⟩
  refine (((x2.trans y9).trans (Ext.grow _ _ _)).trans (Ext.grow _ _ _)).cast ?_
  simp

theorem genCondition_code {c s bs L l p s'} (hc : Term Keys.dialect m c) (h : View m s bs L l)
    (e : genCondition r c s = .ok p s') (hb : Bounded s') :
    ∃ code L' l', Code (.form c) bs L l code bs L' l' ∧ View m s' bs L' l' ∧ Ext s s' code ∧
      p = (condPops c L L' : Nat) := by
  have hm := hr.mono
  unfold genCondition at e
  rw [CM.bind_ok (localsLength_eq h)] at e
  obtain ⟨i, s1, e1, e2⟩ := CM.bind_inv e
  have hb1 : Bounded s1 := Mono.bound e2 hb (by repeat' mono1)
  obtain ⟨code, L', l', c1, v1, x1⟩ := hr.form hc h e1 hb1
  have hL : L < L' := c1.after.1
  split at e2
  · rw [CM.bind_ok (localsLength_eq v1)] at e2
    obtain ⟨rfl, rfl⟩ := CM.pure_inv e2
    exact ⟨_, _, _, c1, v1, x1, by simp only [condPops]; omega⟩
  · rename_i hne
    obtain ⟨rfl, rfl⟩ := CM.pure_inv e2
    refine ⟨_, _, _, c1, v1, x1, ?_⟩
    unfold condPops
    split
    · exact absurd rfl (hne _)
    · rfl

theorem genIfCondition_code {c s bs L l p s'} (hc : Term Keys.dialect m c) (h : View m s bs L l)
    (e : genIfCondition r c s = .ok p s') (hb : Bounded s') :
    ∃ code L' l', Code (.form c) bs L l code bs L' l' ∧ View m s' bs L' l' ∧ Ext s s' code ∧
      p = (condPops c L L' : Nat) := by
  have hm := hr.mono
  unfold genIfCondition at e
  rw [CM.bind_ok (localsLength_eq h)] at e
  split at e
  · obtain ⟨_, s1, e1, e2⟩ := CM.bind_inv e
    have hb1 : Bounded s1 := Mono.bound e2 hb (by repeat' mono1)
    obtain ⟨code, L', l', c1, v1, x1⟩ := hr.list hc h e1 hb1
    have hL : L < L' := c1.after.1
    rw [CM.bind_ok (localsLength_eq v1)] at e2
    obtain ⟨rfl, rfl⟩ := CM.pure_inv e2
    exact ⟨_, _, _, c1, v1, x1, by simp only [condPops]; omega⟩
  · rename_i hne
    obtain ⟨_, s1, e1, e2⟩ := CM.bind_inv e
    have hb1 : Bounded s1 := Mono.bound e2 hb (by repeat' mono1)
    obtain ⟨code, L', l', c1, v1, x1⟩ := hr.form hc h e1 hb1
    obtain ⟨rfl, rfl⟩ := CM.pure_inv e2
    refine ⟨_, _, _, c1, v1, x1, ?_⟩
    unfold condPops
    split
    · exact absurd rfl (hne _)
    · rfl

theorem settleBranch_code {s bs L l L' s'} (h : View m s bs L' l) (hL : L < L')
    (e : settleBranch L s = .ok () s') : View m s' bs (L + 1) l ∧ Ext s s' (settleCode L L') := by
  unfold settleBranch at e
  rw [CM.bind_ok (localsLength_eq h), if_neg (by omega)] at e
  obtain ⟨s4, g1, g2, g3⟩ := settle_code h hL
  rw [g1] at e
  cases e
  exact ⟨g2, g3⟩

theorem genIf_code {name c a b s bs L l s'} (hn : Spelled name "if") (hc : Term Keys.dialect m c) (ha : Term Keys.dialect m a) (hb' : Term Keys.dialect m b)
    (hcomp : constant c ≠ none ∨ computed c = true)
    (h : View m s bs L l) (e : genIf r [.identifier name, c, a, b] s = .ok () s')
    (hb : Bounded s') : Made m (.form (.expression [.identifier name, c, a, b])) bs L l s s' := by
  have hm := hr.mono
  unfold genIf at e
  replace e := skipCheck e
  dsimp only at e
  cases hcc : constant c with
  | some v =>
    rw [hcc] at e
    dsimp only at e
    obtain ⟨_, s1, e1, e2⟩ := CM.bind_inv e
    obtain ⟨-, rfl⟩ := CM.pure_inv e2
    obtain ⟨code, L', l', c1, v1, x1⟩ := hr.form (by cases v <;> assumption) h e1 hb
    exact ⟨_, _, _, Code.ifConst hn hcc c1, v1, x1⟩
  | none =>
    have hcomp : computed c = true := by
      rcases hcomp with h3 | h3
      · exact absurd hcc h3
      · exact h3
    rw [hcc] at e
    dsimp only at e
    rw [if_neg (by simp [hcomp])] at e
    obtain ⟨p, s0, e0, e⟩ := CM.bind_inv e
    have hb0 : Bounded s0 := Mono.bound e hb (by repeat' mono1)
    obtain ⟨code, L1, l1, c0, v0, x0, rfl⟩ := genIfCondition_code hr hc h e0 hb0
    have hL1 : L < L1 := c0.after.1
    have hp := condPops_le c L L1
    rw [CM.bind_ok (gensym_eq s0), CM.bind_ok (gensym_eq _)] at e
    have hb2 : s0.gensymNumber + 2 ≤ 2 ^ 64 := (Mono.bound e hb (by repeat' mono1)).gensym
    obtain ⟨s1, s2, e1, e2, v2, x2, n2, la, lb⟩ := twoLabels v0 hb2
    rw [CM.bind_ok e1, CM.bind_ok e2, CM.bind_ok (emitBrnz_eq v2 la n2 (p := condPops c L L1) (by omega))] at e
    generalize hB : L1 - condPops c L L1 = B at e
    have v3 := v2.grow [.brnz l1 ((condPops c L L1 : Nat) : Int)] B
    have y3 := Ext.grow s2 [.brnz l1 ((condPops c L L1 : Nat) : Int)] B
    rw [CM.bind_ok (localsLength_eq v3)] at e
    obtain ⟨_, s4, e4, e⟩ := CM.bind_inv e
    have hb4 : Bounded s4 := Mono.bound e hb (by repeat' mono1)
    obtain ⟨codeF, Lf, lf, c4, v4, x4⟩ := hr.form hb' v3 e4 hb4
    obtain ⟨_, s5, e5, e⟩ := CM.bind_inv e
    have hb5 : Bounded s5 := Mono.bound e hb (by repeat' mono1)
    obtain ⟨v5, x5⟩ := settleBranch_code hr v4 c4.after.1 e5
    have y5 := (y3.trans x4).trans x5
    rw [CM.bind_ok (emitJump_eq v5 (lb.ext y5 hb5.gensym) (y5.nonempty n2))] at e
    have v6 := v5.grow [.jump (l1 + 1)] (B + 1)
    have y6 := y5.trans (Ext.grow s5 [.jump (l1 + 1)] (B + 1))
    rw [CM.bind_ok (emitLabel_eq v6 (la.ext y6 hb5.gensym) (y6.nonempty n2)), CM.bind_ok (setLocalsLength_eq (v6.grow _ _) _)]
      at e
    have v7 := (v6.grow [.label l1] (B + 1)).grow [] B
    have y7 := (y6.trans (Ext.grow _ [.label l1] (B + 1))).trans (Ext.grow _ [] B)
    obtain ⟨_, s8, e8, e⟩ := CM.bind_inv e
    have hb8 : Bounded s8 := Mono.bound e hb (by repeat' mono1)
    obtain ⟨codeE, Le, le, c8, v8, x8⟩ := hr.form ha v7 e8 hb8
    obtain ⟨_, s9, e9, e⟩ := CM.bind_inv e
    have hb9 : Bounded s9 := Mono.bound e hb (by repeat' mono1)
    obtain ⟨v9, x9⟩ := settleBranch_code hr v8 c8.after.1 e9
    have y9 := (y7.trans x8).trans x9
    rw [emitLabel_eq v9 (lb.ext y9 hb9.gensym) (y9.nonempty n2)] at e
    cases e
    refine ⟨_, _, _, Code.if_ hn hcomp c0 hB.symm c4 c8, v9.grow _ _, ?_⟩
    refine (((x0.trans x2).trans y9).trans (Ext.grow _ _ _)).cast ?_
    simp

theorem genWhen_code {n name c es s bs L l s'} (hn : Spelled name "when") (hc : Term Keys.dialect m c)
    (hcomp : constant c ≠ none ∨ computed c = true) (hf : ∀ f ∈ es, Member Keys.dialect m f)
    (h : View m s bs L l) (e : genWhen r n (.identifier name :: c :: es) s = .ok () s')
    (hb : Bounded s') : Made m (.form (.expression (.identifier name :: c :: es))) bs L l s s' := by
  have hm := hr.mono
  unfold genWhen at e
  replace e := skipCheck e
  dsimp only at e
  cases hcc : constant c with
  | some v =>
    rw [hcc] at e
    cases v with
    | true =>
      obtain ⟨code, l', c1, v1, x1, _⟩ := genExpression_code hr hf h e hb
      exact ⟨_, _, _, Code.whenTrue hn hcc c1, v1, x1⟩
    | false =>
      dsimp only at e
      rw [emitNil_eq h] at e
      cases e
      exact ⟨_, _, _, Code.whenFalse hn hcc, h.grow _ _, Ext.grow _ _ _⟩
  | none =>
    have hcomp : computed c = true := by
      rcases hcomp with h3 | h3
      · exact absurd hcc h3
      · exact h3
    rw [hcc] at e
    dsimp only at e
    rw [if_neg (by simp [hcomp])] at e
    obtain ⟨p, s0, e0, e⟩ := CM.bind_inv e
    have hb0 : Bounded s0 := Mono.bound e hb (by repeat' mono1)
    obtain ⟨code, L1, l1, c0, v0, x0, rfl⟩ := genCondition_code hr hc h e0 hb0
    have hL1 : L < L1 := c0.after.1
    have hp := condPops_le c L L1
    rw [CM.bind_ok (gensym_eq s0), CM.bind_ok (gensym_eq _)] at e
    have hb2 : s0.gensymNumber + 2 ≤ 2 ^ 64 := (Mono.bound e hb (by repeat' mono1)).gensym
    obtain ⟨s1, s2, e1, e2, v2, x2, n2, la, lb⟩ := twoLabels v0 hb2
    rw [CM.bind_ok e1, CM.bind_ok e2, CM.bind_ok (emitBrnz_eq v2 la n2 (p := condPops c L L1) (by omega))] at e
    generalize hB : L1 - condPops c L L1 = B at e
    have v3 := v2.grow [.brnz l1 ((condPops c L L1 : Nat) : Int)] B
    have y3 := Ext.grow s2 [.brnz l1 ((condPops c L L1 : Nat) : Int)] B
    have hbs : Bounded (grow s2 [.brnz l1 ((condPops c L L1 : Nat) : Int)] B) :=
      Mono.bound e hb (by repeat' mono1)
    rw [CM.bind_ok (localsLength_eq v3), CM.bind_ok (emitNil_eq v3), CM.bind_ok (setLocalsLength_eq (v3.grow _ _) _)]
      at e
    have v4 := (v3.grow [.nil] (B + 1)).grow [] B
    have y4 := (y3.trans (Ext.grow _ [.nil] (B + 1))).trans (Ext.grow _ [] B)
    rw [CM.bind_ok (emitJump_eq v4 (lb.ext y4 hbs.gensym) (y4.nonempty n2))] at e
    have v6 := v4.grow [.jump (l1 + 1)] B
    have y6 := y4.trans (Ext.grow _ [.jump (l1 + 1)] B)
    rw [CM.bind_ok (emitLabel_eq v6 (la.ext y6 hbs.gensym) (y6.nonempty n2))] at e
    have v7 := v6.grow [.label l1] B
    have y7 := y6.trans (Ext.grow _ [.label l1] B)
    obtain ⟨_, s8, e8, e⟩ := CM.bind_inv e
    have hb8 : Bounded s8 := Mono.bound e hb (by repeat' mono1)
    obtain ⟨codeE, le, c8, v8, x8, _⟩ := genExpression_code hr hf v7 e8 hb8
    have y8 := y7.trans x8
    rw [emitLabel_eq v8 (lb.ext y8 hb8.gensym) (y8.nonempty n2)] at e
    cases e
    refine ⟨_, _, _, Code.when_ hn hcomp c0 hB.symm c8, v8.grow _ _, ?_⟩
    refine (((x0.trans x2).trans y8).trans (Ext.grow _ _ _)).cast ?_
    simp

theorem genUnless_code {n name c es s bs L l s'} (hn : Spelled name "unless") (hc : Term Keys.dialect m c)
    (hcomp : constant c ≠ none ∨ computed c = true) (hf : ∀ f ∈ es, Member Keys.dialect m f)
    (h : View m s bs L l) (e : genUnless r n (.identifier name :: c :: es) s = .ok () s')
    (hb : Bounded s') : Made m (.form (.expression (.identifier name :: c :: es))) bs L l s s' := by
  have hm := hr.mono
  unfold genUnless at e
  replace e := skipCheck e
  dsimp only at e
  cases hcc : constant c with
  | some v =>
    rw [hcc] at e
    cases v with
    | false =>
      obtain ⟨code, l', c1, v1, x1, _⟩ := genExpression_code hr hf h e hb
      exact ⟨_, _, _, Code.unlessFalse hn hcc c1, v1, x1⟩
    | true =>
      dsimp only at e
      rw [emitNil_eq h] at e
      cases e
      exact ⟨_, _, _, Code.unlessTrue hn hcc, h.grow _ _, Ext.grow _ _ _⟩
  | none =>
    have hcomp : computed c = true := by
      rcases hcomp with h3 | h3
      · exact absurd hcc h3
      · exact h3
    rw [hcc] at e
    dsimp only at e
    rw [if_neg (by simp [hcomp])] at e
    obtain ⟨p, s0, e0, e⟩ := CM.bind_inv e
    have hb0 : Bounded s0 := Mono.bound e hb (by repeat' mono1)
    obtain ⟨code, L1, l1, c0, v0, x0, rfl⟩ := genCondition_code hr hc h e0 hb0
    have hL1 : L < L1 := c0.after.1
    have hp := condPops_le c L L1
    rw [CM.bind_ok (gensym_eq s0), CM.bind_ok (gensym_eq _)] at e
    have hb2 : s0.gensymNumber + 2 ≤ 2 ^ 64 := (Mono.bound e hb (by repeat' mono1)).gensym
    obtain ⟨s1, s2, e1, e2, v2, x2, n2, la, lb⟩ := twoLabels v0 hb2
    rw [CM.bind_ok e1, CM.bind_ok e2, CM.bind_ok (emitBrnz_eq v2 la n2 (p := condPops c L L1) (by omega))] at e
    generalize hB : L1 - condPops c L L1 = B at e
    have v3 := v2.grow [.brnz l1 ((condPops c L L1 : Nat) : Int)] B
    have y3 := Ext.grow s2 [.brnz l1 ((condPops c L L1 : Nat) : Int)] B
    rw [CM.bind_ok (localsLength_eq v3)] at e
    obtain ⟨_, s8, e8, e⟩ := CM.bind_inv e
    have hb8 : Bounded s8 := Mono.bound e hb (by repeat' mono1)
    obtain ⟨codeE, le, c8, v8, x8, _⟩ := genExpression_code hr hf v3 e8 hb8
    rw [CM.bind_ok (setLocalsLength_eq v8 _)] at e
    have v4 := v8.grow [] B
    have y4 := (y3.trans x8).trans (Ext.grow _ [] B)
    rw [CM.bind_ok (emitJump_eq v4 (lb.ext y4 hb8.gensym) (y4.nonempty n2))] at e
    have v6 := v4.grow [.jump (l1 + 1)] B
    have y6 := y4.trans (Ext.grow _ [.jump (l1 + 1)] B)
    rw [CM.bind_ok (emitLabel_eq v6 (la.ext y6 hb8.gensym) (y6.nonempty n2)), CM.bind_ok (emitNil_eq (v6.grow _ _))] at e
    have v7 := (v6.grow [.label l1] B).grow [.nil] (B + 1)
    have y7 := (y6.trans (Ext.grow _ [.label l1] B)).trans (Ext.grow _ [.nil] (B + 1))
    rw [emitLabel_eq v7 (lb.ext y7 hb8.gensym) (y7.nonempty n2)] at e
    cases e
    refine ⟨_, _, _, Code.unless_ hn hcomp c0 hB.symm c8, v7.grow _ _, ?_⟩
    refine (((x0.trans x2).trans y7).trans (Ext.grow _ _ _)).cast ?_
    simp

end

/-! ## Functions -/

section

variable {r : Rec} (hr : GoodRec r)
include hr

theorem genArguments_code : ∀ (es : List Ast) {s bs L l s'}, (∀ a ∈ es, Term Keys.dialect m a) → View m s bs L l →
    genArguments r es s = .ok () s' → Bounded s' →
    ∃ code l', Code (.args es) bs L l code bs (L + es.length) l' ∧ View m s' bs (L + es.length) l' ∧ Ext s s' code
  | [], s, bs, L, l, s', _, h, e, _ => by
    obtain ⟨-, rfl⟩ := CM.pure_inv (show (pure () : CM Unit) s = .ok () s' from e)
    exact ⟨_, _, Code.argsNil, h, Ext.refl _⟩
  | a :: es, s, bs, L, l, s', hf, h, e, hb => by
    have hm := hr.mono
    rw [genArguments, CM.bind_ok (localsLength_eq h)] at e
    obtain ⟨i, s1, e1, e2⟩ := CM.bind_inv e
    obtain ⟨_, s2, e3, e4⟩ := CM.bind_inv e2
    have hb2 : Bounded s2 := Mono.bound e4 hb (by repeat' mono1)
    have hb1 : Bounded s1 := Mono.bound e3 hb2 (by unfold settle; repeat' mono1)
    obtain ⟨code, L1, l1, c1, v1, x1⟩ := hr.form (hf a (by simp)) h e1 hb1
    have hL : L < L1 := c1.after.1
    obtain ⟨s3, g3, v3, x3⟩ := settle_code v1 hL
    have : s2 = s3 := by
      unfold settle at e3
      rw [CM.bind_ok (localsLength_eq v1), if_neg (by omega)] at e3
      rw [show ((L1 - 1 : Nat) : Int) = (L1 : Int) - 1 by omega] at e3
      have := e3.symm.trans g3
      cases this
      rfl
    subst this
    obtain ⟨code2, l2, c2, v2, x2⟩ := genArguments_code es (fun a ha => hf a (by simp [ha])) v3 e4 hb
    have el : L + 1 + es.length = L + (a :: es).length := by simp; omega
    rw [el] at c2 v2
    exact ⟨_, _, Code.argsCons c1 c2, v2, (x1.trans x3).trans x2⟩

omit hr in
theorem emitFuncall_eq {s bs L l} (h : View m s bs L l) (i : Int) (n : Nat) :
    emitFuncall i n s = .ok () (grow s [.funcall ((L : Int) - i) ((n % 256 : Nat) : Int)] (L + 1)) :=
  (CM.bind_ok (operand_eq h _)).trans (emitPush_eq h _)

theorem genFuncall_code {name f es s bs L l s'} (hd : Keys.dialect.functions = true) (hn : Spelled name "funcall")
    (hf : Term Keys.dialect m f) (ha : ∀ a ∈ es, Term Keys.dialect m a) (h : View m s bs L l)
    (e : genFuncall r (.identifier name :: f :: es) s = .ok () s') (hb : Bounded s') :
    Made m (.form (.expression (.identifier name :: f :: es))) bs L l s s' := by
  have hm := hr.mono
  simp only [genFuncall] at e
  obtain ⟨i, s1, e1, e2⟩ := CM.bind_inv e
  have hb1 : Bounded s1 := Mono.bound e2 hb (by repeat' mono1)
  obtain ⟨code, L1, l1, c1, v1, x1, hi⟩ := hr.formAt hf h e1 hb1
  rw [CM.bind_ok (localsLength_eq v1)] at e2
  obtain ⟨_, s2, e3, e4⟩ := CM.bind_inv e2
  have hb2 : Bounded s2 := Mono.bound e4 hb (by repeat' mono1)
  obtain ⟨code2, l2, c2, v2, x2⟩ := genArguments_code hr es ha v1 e3 hb2
  rw [CM.bind_ok (initialized_inv hi _), CM.bind_ok (emitFuncall_eq v2 _ _), setLocalsLength_eq (v2.grow _ _),
    grow_grow] at e4
  cases e4
  exact ⟨_, _, _, Code.funcall hd hn c1 c2, v2.grow _ _, ((x1.trans x2).trans (Ext.grow _ _ _)).cast (by simp)⟩

omit hr in
theorem emitApply_eq {s bs L l} (h : View m s bs L l) (i : Int) (n : Nat) :
    emitApply i n s = .ok () (grow s [.apply ((L : Int) - i) ((n % 256 : Nat) : Int)] (L + 1)) :=
  (CM.bind_ok (operand_eq h _)).trans (emitPush_eq h _)

theorem genApply_code {name f es s bs L l s'} (hd : Keys.dialect.functions = true) (hn : Spelled name "apply")
    (hf : Term Keys.dialect m f) (hne : es ≠ []) (ha : ∀ a ∈ es, Term Keys.dialect m a) (h : View m s bs L l)
    (e : genApply r (.identifier name :: f :: es) s = .ok () s') (hb : Bounded s') :
    Made m (.form (.expression (.identifier name :: f :: es))) bs L l s s' := by
  have hm := hr.mono
  unfold genApply at e
  replace e := skipCheck e
  dsimp only at e
  obtain ⟨i, s1, e1, e2⟩ := CM.bind_inv e
  have hb1 : Bounded s1 := Mono.bound e2 hb (by repeat' mono1)
  obtain ⟨code, L1, l1, c1, v1, x1, hi⟩ := hr.formAt hf h e1 hb1
  rw [CM.bind_ok (localsLength_eq v1)] at e2
  obtain ⟨_, s2, e3, e4⟩ := CM.bind_inv e2
  have hb2 : Bounded s2 := Mono.bound e4 hb (by repeat' mono1)
  obtain ⟨code2, l2, c2, v2, x2⟩ := genArguments_code hr es ha v1 e3 hb2
  rw [CM.bind_ok (initialized_inv hi _), CM.bind_ok (emitApply_eq v2 _ _), setLocalsLength_eq (v2.grow _ _),
    grow_grow] at e4
  cases e4
  exact ⟨_, _, _, Code.apply hd hn hne c1 c2, v2.grow _ _, ((x1.trans x2).trans (Ext.grow _ _ _)).cast (by simp)⟩

theorem genCall_code {name es s bs L l s'} (hd : Keys.dialect.functions = true)
    (hc : Keys.dialect.callable name = true) (hx : Keys.dialect.Mentions m name)
    (ha : ∀ a ∈ es, Term Keys.dialect m a) (h : View m s bs L l)
    (e : genCall r name es s = .ok () s') (hb : Bounded s') :
    Made m (.form (.expression (.identifier name :: es))) bs L l s s' := by
  have hm := hr.mono
  unfold genCall at e
  obtain ⟨i, s1, e1, e2⟩ := CM.bind_inv e
  have hb1 : Bounded s1 := Mono.bound e2 hb (by repeat' mono1)
  rw [CM.bind_ok (place_function h hx)] at e1
  obtain ⟨key, s2, e3, e4⟩ := CM.bind_inv e1
  obtain ⟨v2, x2, hk⟩ := intern_inv h e3
  rw [CM.bind_ok (emitPush_eq v2 _), CM.bind_ok (localsLength_eq (v2.grow _ _))] at e4
  obtain ⟨rfl, rfl⟩ := CM.pure_inv e4
  have v1 := v2.grow [.pushGlobal key] (L + 1)
  rw [CM.bind_ok (localsLength_eq v1)] at e2
  obtain ⟨_, s3, e5, e6⟩ := CM.bind_inv e2
  have hb3 : Bounded s3 := Mono.bound e6 hb (by repeat' mono1)
  obtain ⟨code2, l2, c2, v3, x3⟩ := genArguments_code hr es ha v1 e5 hb3
  rw [CM.bind_ok (emitFuncall_eq v3 _ _), setLocalsLength_eq (v3.grow _ _), grow_grow] at e6
  cases e6
  refine ⟨_, _, _, Code.call key hd hc (hb1.shrink.key v2 hk) c2, v3.grow _ _,
    (((x2.trans (Ext.grow _ _ _)).trans x3).trans (Ext.grow _ _ _)).cast ?_⟩
  simp only [List.nil_append, List.append_nil]
  congr 3
  omega

omit hr in
theorem addParameters_code : ∀ (ps : List Bytes) (rest : Option Bytes) {s b L l}, (∀ p ∈ ps, p ≠ ascii "&rest") →
    (∀ r ∈ rest, r ≠ ascii "&rest") → View true s [b] L l →
    ∃ s', addParameters ((signature ps rest).map .identifier) false s = .ok rest.isSome s' ∧
      View true s' [((ps ++ rest.toList).zipIdx L).reverse ++ b] (L + (ps ++ rest.toList).length) l ∧ Ext s s' []
  | [], none, s, b, L, l, _, _, h => ⟨s, rfl, h, Ext.refl _⟩
  | [], some r, s, b, L, l, _, hr, h => by
    obtain ⟨s1, e1, v1, x1⟩ := addVariable_eq h (name := r) nofun
    refine ⟨_, ?_, v1.grow [] (L + 1), x1.trans (Ext.grow _ _ _)⟩
    simp only [signature, List.nil_append, List.map_cons, List.map_nil, addParameters]
    rw [if_pos trivial, if_neg (by simp), if_neg (hr r rfl), CM.bind_ok e1, CM.bind_ok (increment_eq v1)]
    rfl
  | p :: ps, rest, s, b, L, l, hp, hr, h => by
    obtain ⟨s1, e1, v1, x1⟩ := addVariable_eq h (name := p) nofun
    obtain ⟨s2, e2, v2, x2⟩ := addParameters_code ps rest (fun q hq => hp q (by simp [hq])) hr (v1.grow [] (L + 1))
    refine ⟨s2, ?_, ?_, (x1.trans (Ext.grow _ _ _)).trans x2⟩
    · have : (signature (p :: ps) rest).map Ast.identifier = .identifier p :: (signature ps rest).map .identifier := by
        cases rest <;> rfl
      rw [this]
      simp only [addParameters]
      rw [if_neg (hp p (by simp)), CM.bind_ok e1, CM.bind_ok (increment_eq v1)]
      exact e2
    · have : L + (p :: ps ++ rest.toList).length = L + 1 + (ps ++ rest.toList).length := by simp; omega
      rw [this]
      simpa [List.zipIdx_cons] using v2

omit hr in
theorem signature_count (ps : List Bytes) (rest : Option Bytes) :
    (if rest.isSome = true then (signature ps rest).length - 2 else (signature ps rest).length) = ps.length := by
  cases rest <;> simp [signature]

omit hr in
theorem emitReturn_eq {s bs L l} (h : View m s bs L l) {n : Nat} (hn : n ≤ L) :
    emitReturn n s = .ok () (grow s [.return_ n] (L - n)) := by
  refine (CM.bind_ok (put_eq h _)).trans ?_
  rw [decrease_eq (h.grow _ _) hn, grow_grow]
  rfl

omit hr in
theorem Code.cast_height {k bs L l code bs' L' L'' l'} (h : Code k bs L l code bs' L' l') (e : L' = L'') :
    Code k bs L l code bs' L'' l' := e ▸ h

theorem lambda_gensyms {n name} {params : List Bytes} {rest : Option Bytes} {forms s s'} (hc : s.scopes.inComptime = false)
    (e : genLambda r n (.identifier name :: .expression ((signature params rest).map .identifier) :: forms) s = .ok () s')
    (hb : Bounded s') : s.gensymNumber + 2 ≤ 2 ^ 64 := by
  have hm := hr.mono
  unfold genLambda at e
  replace e := skipCheck e
  dsimp only at e
  rw [enter_eq hc] at e
  rw [CM.bind_ok (gensym_eq _)] at e
  obtain ⟨_, s1, e1, e⟩ := CM.bind_inv e
  obtain ⟨_, s2, e2, e⟩ := CM.bind_inv e
  obtain ⟨_, s3, e3, e⟩ := CM.bind_inv e
  obtain ⟨_, s4, e4, e⟩ := CM.bind_inv e
  rw [CM.bind_ok (gensym_eq _)] at e
  have h4 : s4.gensymNumber + 1 ≤ 2 ^ 64 := (Mono.bound e hb (by repeat' mono1)).gensym
  have m1 := (show Mono _ by repeat' mono1) _ _ _ e1
  have m2 := (show Mono _ by repeat' mono1) _ _ _ e2
  have m3 := (show Mono _ by repeat' mono1) _ _ _ e3
  have m4 := (show Mono _ by repeat' mono1) _ _ _ e4
  have := m1.gensym
  have := m2.gensym
  have := m3.gensym
  have := m4.gensym
  simp only [entered] at *
  omega

theorem genLambda_code {n name} {params : List Bytes} {rest : Option Bytes} {forms s bs L l s'} (hd : Keys.dialect.functions = true)
    (hn : Spelled name "lambda") (hp : ∀ p ∈ params, p ≠ ascii "&rest") (hrest : ∀ r ∈ rest, r ≠ ascii "&rest")
    (hf : ∀ e ∈ forms, Member Keys.dialect true e)
    (h : View false s bs L l)
    (e : genLambda r n (.identifier name :: .expression ((signature params rest).map .identifier) :: forms) s = .ok () s')
    (hb : Bounded s') :
    Made false (.form (.expression (.identifier name :: .expression ((signature params rest).map .identifier) :: forms))) bs L l s s' := by
  have hm := hr.mono
  have hg := lambda_gensyms hr h.runtime e hb
  unfold genLambda at e
  replace e := skipCheck e
  dsimp only at e
  rw [enter_eq h.runtime] at e
  have hbody : s.body = none := by simpa using h.body
  -- the label after the function
  have v0 := enter_view h
  rw [CM.bind_ok (gensym_eq _)] at e
  obtain ⟨s1, r1, v1, g1, a1, c1, d1, n1, l1, o1⟩ := register_eq v0.gensym (entered s).gensymNumber
    (by simp only; omega) (by simp only [entered]; omega)
  replace a1 : s1.assembly = s.assembly ∧ s1.body = some [] := a1
  have r1' : ∃ t, register (gname (entered s).gensymNumber)
      { entered s with gensymNumber := (entered s).gensymNumber + 1 } = .ok () t ∧
      { t with body := some [] } = s1 ∧ t.body = none := by
    refine ⟨_, rfl, ?_, hbody⟩
    cases r1
    rfl
  obtain ⟨t, rt, ht1, ht⟩ := r1'
  rw [CM.bind_ok rt, CM.bind_ok (show get t = .ok t t from rfl)] at e
  rw [CM.bind_ok (show modify _ t = .ok () _ from rfl), ht1, CM.bind_ok (emitJump_eq v1 l1 n1)] at e
  have v2 := v1.grow [.jump l] (L + 1)
  have x2 := Ext.grow s1 [.jump l] (L + 1)
  have g2 : (grow s1 [.jump l] (L + 1)).gensymNumber = s.gensymNumber + 1 := g1
  have n2 := x2.nonempty n1
  generalize hs2 : grow s1 [.jump l] (L + 1) = s2 at *
  -- the label of the function
  rw [CM.bind_ok (gensym_eq _)] at e
  obtain ⟨s3, r3, v3, g3, a3, c3, d3, n3, l3, o3⟩ := register_eq v2.gensym s2.gensymNumber
    (by simp only; omega) (by simp only; omega)
  have x3 : Ext s2 s3 [] := by
    refine ⟨by simp [sink, a3], by simp [a3], fun _ => by simp [a3], by rw [g3]; simp only; omega, c3, d3, fun _ => n3, ?_⟩
    intro _ k hk
    rw [o3 k (by simp only; omega) (by omega)]
    rfl
  rw [CM.bind_ok r3] at e
  rw [CM.bind_ok (emitLabel_eq v3 l3 n3)] at e
  have v4 := v3.grow [.label (l + 1)] (L + 1)
  have x4 := Ext.grow s3 [.label (l + 1)] (L + 1)
  have g4 : (grow s3 [.label (l + 1)] (L + 1)).gensymNumber = s.gensymNumber + 2 := by
    show s3.gensymNumber = _
    rw [g3, g2]
  have l4 := l3.ext x4 (by omega)
  have n4 := x4.nonempty n3
  generalize hs4 : grow s3 [.label (l + 1)] (L + 1) = s4 at *
  rw [CM.bind_ok (show get s4 = .ok s4 s4 from rfl)] at e
  rw [getLabel_eq v4 l4 n4, if_neg (by omega), CM.bind_ok (localsLength_eq v4)] at e
  obtain ⟨s5, e5, v5, x5⟩ := addParameters_code params rest hp hrest v4
  rw [CM.bind_ok e5] at e
  obtain ⟨_, s6, e6, e⟩ := CM.bind_inv e
  have hb6 : Bounded s6 := Mono.bound e hb (by repeat' mono1)
  simp only [List.append_nil] at v5
  obtain ⟨code, l', c6, v6, x6, y6⟩ := genExpression_code hr hf v5 e6 hb6
  have n6 := x6.nonempty (x5.nonempty n4)
  obtain ⟨S, eS, hS, hS', hS2⟩ := topScope_both v6 n6
  have y := (((x2.trans x3).trans x4).trans x5).trans x6
  have l6 := l1.ext y hb6.gensym
  rw [CM.bind_ok eS] at e
  simp only [hS, if_true] at e
  rw [CM.bind_ok (localsLength_eq v6), if_neg (by omega),
    show L + 1 + (params ++ rest.toList).length + 1 - (L + 1) - 1 = (params ++ rest.toList).length by omega] at e
  rw [CM.bind_ok (emitReturn_eq v6 (by omega)), CM.bind_ok (setLocalsLength_eq (v6.grow _ _) _), grow_grow] at e
  have v7 := v6.grow ([Ins.return_ ((params ++ rest.toList).length : Nat)] ++ []) (L + 1)
  have x7 := Ext.grow s6 ([Ins.return_ ((params ++ rest.toList).length : Nat)] ++ []) (L + 1)
  rw [CM.bind_ok (emitLabel_eq v7 (l6.ext x7 hb6.gensym) n6), grow_grow] at e
  have v8 := v6.grow ([Ins.return_ ((params ++ rest.toList).length : Nat)] ++ [] ++ [.label l]) (L + 1)
  have x8 := y.trans (Ext.grow s6 ([Ins.return_ ((params ++ rest.toList).length : Nat)] ++ [] ++ [.label l]) (L + 1))
  have z8 : (grow s6 ([Ins.return_ ((params ++ rest.toList).length : Nat)] ++ [] ++ [.label l]) (L + 1)).scopes.runtime.scopes
    = s6.scopes.runtime.scopes := rfl
  generalize hs8 : grow s6 ([Ins.return_ ((params ++ rest.toList).length : Nat)] ++ [] ++ [.label l]) (L + 1) = s8 at e v8 x8 z8
  rw [CM.bind_ok (show modify _ s8 = .ok () _ from rfl), ht] at e
  have hsc : s6.scopes.runtime.scopes = s.scopes.runtime.scopes ++ [selfScope L, S] := by
    have h1 := y.outer.trans d1
    simp only [entered, h.length] at h1
    rw [show s.scopes.runtime.scopes ++ [selfScope L, Scope.init true]
      = (s.scopes.runtime.scopes ++ [selfScope L]) ++ [Scope.init true] by simp, List.dropLast_concat] at h1
    obtain ⟨i, a, ei⟩ := getLast_of_ne n6
    rw [ei, List.dropLast_concat] at h1
    rw [ei] at hS2
    have : a = S := by
      simp [getTop] at hS2
      exact hS2
    rw [ei, h1, this]
    simp
  have hct : s8.scopes.comptime = { s.scopes.comptime with
      scopes := s.scopes.comptime.scopes ++ [Scope.init false, Scope.init false] } := x8.comptime.trans c1
  have key := leave_eq (t := { s8 with assembly := s8.assembly ++ s8.body.getD [], body := none })
    (A := s.scopes.runtime.scopes) (C := s.scopes.comptime.scopes) (S1 := selfScope L) (S2 := S) (L := L) (c1 := Scope.init false) (c2 := Scope.init false)
    (lab := l + 1) (n := params.length) (variadic := rest.isSome) v8.runtime rfl (z8.trans hsc) v8.length (by simp only [hct]) hS' rfl
  simp only [Int.toNat_natCast, List.length_map, signature_count] at e
  have e' := e.symm.trans key
  cases e'
  have hasm : s8.assembly = s.assembly := (x8.program (by simp [a1.2])).trans a1.1
  have hcode : s8.body.getD [] = [.jump l, .label (l + 1)] ++ code ++ [.return_ ((params ++ rest.toList).length : Nat), .label l] := by
    have h1 := x8.code
    have h2 := v8.body
    cases hb8 : s8.body with
    | none => rw [hb8] at h2; cases h2
    | some b =>
      simp only [sink, hb8, Option.getD_some, a1.2] at h1
      rw [Option.getD_some, h1]
      simp
  refine ⟨_, _, _, Code.lambda hd hn hp (c6.cast_height (by omega)), ?_, ?_⟩
  · exact ⟨v8.runtime, rfl, h.names, h.corr, h.some, v8.length, v8.label, v8.tables.imp fun _ h => ⟨h.1, h.2, h.3⟩⟩
  · refine ⟨?_, by simp [hbody], by simp [hbody], ?_, ?_, rfl, id, fun _ _ _ => rfl⟩
    · simp only [sink, hbody, Option.getD_none, hasm, hcode]
      simp
    · show s.gensymNumber ≤ s8.gensymNumber
      have := x8.gensyms
      rw [g1] at this
      simp only [entered] at this
      omega
    · simp only [hct]

end

/-! ## Quoted trees -/

mutual
theorem quoteTree_code : ∀ (e : Ast) {s bs L l s'}, Datum e → View m s bs L l → quoteTree e s = .ok () s' →
    ∃ code L', Code (.quoted e) bs L l code bs L' l ∧ View m s' bs L' l ∧ Ext s s' code
  | .bool b, s, bs, L, l, s', _, h, e => by
    rw [quoteTree, emitPush_eq h] at e
    cases e
    exact ⟨_, _, Code.quotedForm (by simp) (by simp) (Code.bool b), h.grow _ _, Ext.grow _ _ _⟩
  | .int i, s, bs, L, l, s', _, h, e => by
    rw [quoteTree, emitPush_eq h] at e
    cases e
    exact ⟨_, _, Code.quotedForm (by simp) (by simp) (Code.int i), h.grow _ _, Ext.grow _ _ _⟩
  | .float i, s, bs, L, l, s', _, h, e => by
    rw [quoteTree, emitPush_eq h] at e
    cases e
    exact ⟨_, _, Code.quotedForm (by simp) (by simp) (Code.float i), h.grow _ _, Ext.grow _ _ _⟩
  | .string i, s, bs, L, l, s', _, h, e => by
    rw [quoteTree, emitPushString, emitPush_eq h] at e
    cases e
    exact ⟨_, _, Code.quotedForm (by simp) (by simp) (Code.string i), h.grow _ _, Ext.grow _ _ _⟩
  | .identifier x, s, bs, L, l, s', _, h, e => by
    rw [quoteTree] at e
    obtain ⟨id, s1, e1, e2⟩ := CM.bind_inv e
    obtain ⟨v1, x1, -⟩ := intern_inv h e1
    rw [emitPushSymbol, emitPush_eq v1] at e2
    cases e2
    exact ⟨_, _, Code.quotedName id, v1.grow _ _, (x1.trans (Ext.grow _ _ _)).cast (by simp)⟩
  | .expression es, s, bs, L, l, s', hd, h, e => by
    have hd' : ∀ e ∈ es, Datum e := by cases hd; assumption
    rw [quoteTree, CM.bind_ok (emitNil_eq h)] at e
    obtain ⟨code, L', c, v, x⟩ := quoteElements_code es hd' (h.grow _ _) (Nat.succ_pos L) e
    exact ⟨_, _, Code.quotedList c, v, (Ext.grow _ _ _).trans x⟩
  | .callback _, _, _, _, _, _, hd, _, _ => by cases hd
  | .literal _, _, _, _, _, _, hd, _, _ => by cases hd
  | .garbage, _, _, _, _, _, hd, _, _ => by cases hd
theorem quoteElements_code : ∀ (es : List Ast) {s bs L l s'}, (∀ e ∈ es, Datum e) → View m s bs L l → 0 < L →
    quoteElements es s = .ok () s' →
    ∃ code L', Code (.quotes es) bs L l code bs L' l ∧ View m s' bs L' l ∧ Ext s s' code
  | [], s, bs, L, l, s', _, h, _, e => by
    rw [quoteElements] at e
    obtain ⟨-, rfl⟩ := CM.pure_inv e
    exact ⟨_, _, Code.quotesNil, h, Ext.refl _⟩
  | a :: es, s, bs, L, l, s', hd, h, hL, e => by
    rw [quoteElements] at e
    obtain ⟨_, s1, e1, e2⟩ := CM.bind_inv e
    obtain ⟨code, L1, c1, v1, x1⟩ := quoteElements_code es (fun e he => hd e (by simp [he])) h hL e1
    rw [CM.bind_ok (localsLength_eq v1)] at e2
    obtain ⟨_, s2, e3, e4⟩ := CM.bind_inv e2
    obtain ⟨code2, L2, c2, v2, x2⟩ := quoteTree_code a (hd a (by simp)) v1 e3
    have h1 : L ≤ L1 := c1.after.1
    have h2 : L1 < L2 := c2.after.1
    rw [CM.bind_ok (localsLength_eq v2), emitBinary_eq v2] at e4
    cases e4
    refine ⟨_, _, Code.quotesCons c1 c2, v2.grow _ _, ((x1.trans x2).trans (Ext.grow _ _ _)).cast ?_⟩
    have h4 : (L2 : Int) - ((L1 - 1 : Nat) : Int) = ((L2 - L1 + 1 : Nat) : Int) := by omega
    rw [show (L2 : Int) - ((L2 : Int) - 1) = 1 by omega, h4]
end

/-! ## All forms -/

theorem generator_called {name : Bytes} {keyword : String} {g : Gen} (h : Spelled name keyword)
    (h1 : generator (ascii keyword) = some g) (h2 : generator (ascii ("__" ++ keyword)) = some g) :
    generator name = some g := by
  rcases h with rfl | rfl
  · exact h1
  · exact h2

/-- The generator is one for the number of operands. -/
def operatorFor (k : Nat) : Option Gen → Bool
  | some .makeType => k == 0
  | some (.op1 _) => k == 1
  | some (.op2 _) => k == 2
  | some (.op3 _) => k == 3
  | _ => false

theorem generator_operator {name : Bytes} {k : Nat} {keyword : String} (hk : keyword ∈ operators k)
    (h : Spelled name keyword) : k < 4 ∧ operatorFor k (generator name) = true := by
  have key : ∀ k, k < 4 → ∀ s ∈ operators k, operatorFor k (generator (ascii s)) = true ∧
      operatorFor k (generator (ascii ("__" ++ s))) = true := by decide +kernel
  have hk4 : k < 4 := by
    match k, hk with
    | 0, _ | 1, _ | 2, _ | 3, _ => omega
  refine ⟨hk4, ?_⟩
  rcases h with rfl | rfl
  · exact (key k hk4 keyword hk).1
  · exact (key k hk4 keyword hk).2

theorem form_condition {c : Ast} (h : Term Keys.dialect m c) : constant c ≠ none ∨ computed c = true := by
  cases h <;> simp [constant, computed]

theorem not_truth {c : Ast} (h : ¬ Truth c) : constant c ≠ some true := by
  intro hc
  apply h
  cases c <;> simp [constant] at hc
  case bool b => subst hc; exact .bool
  case int i => exact .int i hc
  case float bits => exact .float bits hc.1 hc.2
  case string s =>
    match s, hc with
    | c :: s, _ => exact .string c s

/-- The host uses none of the compiler's names for its callbacks. -/
def FreeNames (cfg : Config) : Prop := ∀ name, generator name ≠ none ∨ Keys.dialect.callable name = true →
  Trie.find cfg.callbacks name = -1

theorem dispatch_eq {cfg : Config} (hcb : FreeNames cfg) {r n name args s bs L l g} (h : View m s bs L l)
    (hg : generator name = some g) : dispatch cfg r n name args s = generate r n (.identifier name :: args) g s := by
  unfold dispatch
  refine (CM.bind_ok (show get s = .ok s s from rfl)).trans ?_
  rw [functionType_eq h (.inl (by rintro rfl; rw [show generator (ascii "self") = none by decide +kernel] at hg; cases hg)), hcb name (.inl (by rw [hg]; simp)), hg]
  rfl

theorem dispatch_call {cfg : Config} (hcb : FreeNames cfg) {r n name args s bs L l} (h : View m s bs L l)
    (hc : Keys.dialect.callable name = true) (hx : Keys.dialect.Mentions m name) :
    dispatch cfg r n name args s = genCall r name args s := by
  unfold dispatch
  refine (CM.bind_ok (show get s = .ok s s from rfl)).trans ?_
  rw [functionType_eq h ?_, hcb name (.inr hc), (Keys.callable name hc).1]
  · rfl
  · cases m
    · exact .inr rfl
    · exact .inl (hx rfl).2

theorem special_name {f : Ast} (h : special f ≠ none) :
    ∃ name rest, f = .expression (.identifier name :: rest) ∧ generator name = some .dummy := by
  unfold special at h
  split at h
  · rename_i name rest
    refine ⟨name, rest, rfl, ?_⟩
    split at h
    · rename_i hn
      rcases hn with rfl | rfl <;> decide +kernel
    · split at h
      · rename_i hn
        rcases hn with rfl | rfl <;> decide +kernel
      · split at h
        · rename_i hn
          rcases hn with rfl | rfl <;> decide +kernel
        · exact absurd rfl h
  · exact absurd rfl h

theorem list_code {cfg : Config} (hcb : FreeNames cfg) {n depth}
    (hr : GoodRec ⟨compound cfg n depth, expression cfg n depth, pure⟩) {es s bs L l s'}
    (hf : Term Keys.dialect m (.expression es)) (h : View m s bs L l) (e : expression cfg (n + 1) depth es s = .ok () s')
    (hb : Bounded s') : Made m (.form (.expression es)) bs L l s s' := by
  have keyword : ∀ {name args g}, expression cfg (n + 1) depth (.identifier name :: args) s = .ok () s' →
      generator name = some g → generate ⟨compound cfg n depth, expression cfg n depth, pure⟩ n
        (.identifier name :: args) g s = .ok () s' := by
    intro name args g e hg
    rw [← dispatch_eq hcb h hg]
    exact e
  cases hf with
  | empty =>
    have e' : emitNil s = .ok () s' := e
    rw [emitNil_eq h] at e'
    cases e'
    exact ⟨_, _, _, Code.empty, h.grow _ _, Ext.grow _ _ _⟩
  | block f fs ho hi =>
    have e' : genExpression ⟨compound cfg n depth, expression cfg n depth, pure⟩ n (f :: fs) s = .ok () s' := by
      cases ho <;> exact e
    obtain ⟨code, l', c, v, x, _⟩ := genExpression_code hr hi h e' hb
    exact ⟨_, _, _, Code.scope ho c, v, x⟩
  | operator name kw args hk hc hf =>
    obtain ⟨hk4, ho⟩ := generator_operator hk hc
    cases hg : generator name with
    | none => rw [hg] at ho; cases ho
    | some g =>
      rw [hg] at ho
      have e' := keyword e hg
      cases g <;> simp only [operatorFor, Bool.false_eq_true, beq_iff_eq] at ho
      case makeType =>
        obtain rfl := List.length_eq_zero_iff.1 ho
        replace e' := skipCheck (show (checkArgs [Ast.identifier name] 1 false >>= fun _ => emitPush .makeType) s
          = .ok () s' from e')
        rw [emitPush_eq h] at e'
        cases e'
        exact ⟨_, _, _, Code.op0 hg, h.grow _ _, Ext.grow _ _ _⟩
      case op1 op =>
        match args, ho with
        | [a], _ => exact genUnary_code hr hg (hf a (by simp)) h e' hb
      case op2 op =>
        match args, ho with
        | [a, b], _ => exact genBinary_code hr hg (hf a (by simp)) (hf b (by simp)) h e' hb
      case op3 op =>
        match args, ho with
        | [a, b, c], _ => exact genTernary_code hr hg (hf a (by simp)) (hf b (by simp)) (hf c (by simp)) h e' hb
  | list name args hc hf =>
    exact genList_code hr hc hf h (keyword e (generator_called (g := .list) hc (by decide +kernel) (by decide +kernel))) hb
  | vector name args hc hf =>
    exact genVector_code hr hc hf h
      (keyword e (generator_called (g := .vector) hc (by decide +kernel) (by decide +kernel))) hb
  | declare name args hc =>
    have e' : emitNil s = .ok () s' :=
      keyword e (generator_called (g := .declare) hc (by decide +kernel) (by decide +kernel))
    rw [emitNil_eq h] at e'
    cases e'
    exact ⟨_, _, _, Code.declare hc, h.grow _ _, Ext.grow _ _ _⟩
  | quote name d hc hd =>
    have e' : genQuote [.identifier name, d] s = .ok () s' :=
      keyword e (generator_called (g := .quote) hc (by decide +kernel) (by decide +kernel))
    unfold genQuote at e'
    replace e' := skipCheck e'
    obtain ⟨code, L', c, v, x⟩ := quoteTree_code d hd h e'
    exact ⟨_, _, _, Code.quote hc c, v, x⟩
  | setq name x a hc hx hf =>
    exact genSetq_code hr hc hx hf h
      (keyword e (generator_called (g := .setq) hc (by decide +kernel) (by decide +kernel))) hb
  | global name x a hc hf =>
    exact genGlobal_code hr hc hf h
      (keyword e (generator_called (g := .global) hc (by decide +kernel) (by decide +kernel))) hb
  | if_ name c a b hc h1 h2 h3 =>
    exact genIf_code hr hc h1 h2 h3 (form_condition h1) h
      (keyword e (generator_called (g := .if_) hc (by decide +kernel) (by decide +kernel))) hb
  | when_ name c es hc h1 h2 =>
    exact genWhen_code hr hc h1 (form_condition h1) h2 h
      (keyword e (generator_called (g := .when_) hc (by decide +kernel) (by decide +kernel))) hb
  | unless_ name c es hc h1 h2 =>
    exact genUnless_code hr hc h1 (form_condition h1) h2 h
      (keyword e (generator_called (g := .unless_) hc (by decide +kernel) (by decide +kernel))) hb
  | while_ name c es hc h1 ht h2 =>
    exact genWhile_code hr hc h1 (not_truth ht) (form_condition h1) h2 h
      (keyword e (generator_called (g := .while_) hc (by decide +kernel) (by decide +kernel))) hb
  | lambda name params rest forms hd hc hp hrest hf =>
    exact genLambda_code hr hd hc hp hrest hf h
      (keyword e (generator_called (g := .lambda) hc (by decide +kernel) (by decide +kernel))) hb
  | funcall name f args hd hc hf ha =>
    exact genFuncall_code hr hd hc hf ha h
      (keyword e (generator_called (g := .funcall) hc (by decide +kernel) (by decide +kernel))) hb
  | apply name f a args hd hc hf ha =>
    exact genApply_code hr hd hc hf (List.cons_ne_nil _ _) ha h
      (keyword e (generator_called (g := .apply) hc (by decide +kernel) (by decide +kernel))) hb
  | call name args hd hc hx ha =>
    refine genCall_code hr hd hc hx ha h ?_ hb
    rw [← dispatch_call hcb h hc hx]
    exact e

/-- The compiler follows the relation on every form of the core language. -/
theorem goodRec {cfg : Config} (hcb : FreeNames cfg) :
    ∀ n depth, GoodRec ⟨compound cfg n depth, expression cfg n depth, pure⟩
  | 0, depth =>
    { mono := ⟨Mono.compound cfg 0 depth, Mono.expression cfg 0 depth, fun _ => Mono.pure _⟩
      left := fun _ => rfl
      formAt := fun _ _ e => by cases e
      operand := fun _ _ e => by cases e
      list := fun _ _ e => by cases e
      special := fun _ _ e => by cases e }
  | n + 1, depth => by
    have ih := goodRec hcb n
    have hlist : ∀ {m es s bs L l s'}, Term Keys.dialect m (.expression es) → View m s bs L l →
        expression cfg (n + 1) depth es s = .ok () s' → Bounded s' →
        Made m (.form (.expression es)) bs L l s s' := fun hf h e hb => list_code hcb (ih depth) hf h e hb
    -- the forms other than variables, which are the same for both kinds of use
    have hform : ∀ {m e s bs L l i s' p}, Term Keys.dialect m e → (∀ x, e ≠ .identifier x) → View m s bs L l →
        compound cfg (n + 1) depth e p s = .ok i s' → Bounded s' →
        ∃ code L' l', Code (.form e) bs L l code bs L' l' ∧ View m s' bs L' l' ∧ Ext s s' code ∧
          i = some ((L' : Int) - 1) := by
      intro m e s bs L l i s' p hf hx h e' hb
      simp only [compound] at e'
      by_cases hd : depth + 1 ≥ cfg.maxDepth
      · rw [if_pos hd] at e'; cases e'
      rw [if_neg hd] at e'
      have hpush : ∀ {ins}, (do emitPush ins; return some ((← localsLength) - 1) : CM (Option Int)) s = .ok i s' →
          View m s' bs (L + 1) l ∧ Ext s s' [ins] ∧ i = some (((L + 1 : Nat) : Int) - 1) := by
        intro ins e
        rw [CM.bind_ok (emitPush_eq h _), CM.bind_ok (localsLength_eq (h.grow _ _))] at e
        obtain ⟨rfl, rfl⟩ := CM.pure_inv e
        exact ⟨h.grow _ _, Ext.grow _ _ _, rfl⟩
      have hexp : ∀ {es}, e = .expression es → ∃ code L' l', Code (.form e) bs L l code bs L' l' ∧
          View m s' bs L' l' ∧ Ext s s' code ∧ i = some ((L' : Int) - 1) := by
        rintro es rfl
        obtain ⟨_, s1, e1, e2⟩ := CM.bind_inv e'
        have hb1 : Bounded s1 := Mono.bound e2 hb (by repeat' mono1)
        obtain ⟨code, L', l', c, v, x⟩ := (ih (depth + 1)).list hf h e1 hb1
        rw [CM.bind_ok (localsLength_eq v)] at e2
        obtain ⟨rfl, rfl⟩ := CM.pure_inv e2
        exact ⟨_, _, _, c, v, x, rfl⟩
      cases hf
      case bool b => obtain ⟨v, x, hi⟩ := hpush e'; exact ⟨_, _, _, Code.bool b, v, x, hi⟩
      case int b => obtain ⟨v, x, hi⟩ := hpush e'; exact ⟨_, _, _, Code.int b, v, x, hi⟩
      case float b => obtain ⟨v, x, hi⟩ := hpush e'; exact ⟨_, _, _, Code.float b, v, x, hi⟩
      case string b => obtain ⟨v, x, hi⟩ := hpush e'; exact ⟨_, _, _, Code.string b, v, x, hi⟩
      case name x _ => exact absurd rfl (hx x)
      all_goals exact hexp rfl
    have hvar : ∀ {x s p i s'}, compound cfg (n + 1) depth (.identifier x) p s = .ok i s' →
        genVariable x p s = .ok i s' := by
      intro x s p i s' e'
      simp only [compound] at e'
      by_cases hd : depth + 1 ≥ cfg.maxDepth
      · rw [if_pos hd] at e'; cases e'
      · rw [if_neg hd] at e'; exact e'
    -- a variable that is not local
    have hglobal : ∀ {m x s bs L l i s'}, View m s bs L l →
        (do emitPush (.pushGlobal (← globalKey x)); return some ((← localsLength) - 1) : CM (Option Int)) s
          = .ok i s' → Bounded s' →
        ∃ key, Keys.key x key ∧ View m s' bs (L + 1) l ∧ Ext s s' [.pushGlobal key] ∧
          i = some (((L + 1 : Nat) : Int) - 1) := by
      intro m x s bs L l i s' h e hb
      obtain ⟨key, s1, e1, e2⟩ := CM.bind_inv e
      obtain ⟨v1, x1, hk⟩ := globalKey_inv h e1
      rw [CM.bind_ok (emitPush_eq v1 _), CM.bind_ok (localsLength_eq (v1.grow _ _))] at e2
      obtain ⟨rfl, rfl⟩ := CM.pure_inv e2
      exact ⟨key, hb.shrink.key v1 hk, v1.grow _ _, (x1.trans (Ext.grow _ _ _)).cast (by simp), rfl⟩
    refine ⟨⟨Mono.compound cfg (n + 1) depth, Mono.expression cfg (n + 1) depth, fun _ => Mono.pure _⟩, fun _ => rfl, ?_, ?_, hlist, ?_⟩
    · intro m e s bs L l i s' hf h e' hb
      by_cases hx : ∃ x, e = .identifier x
      · obtain ⟨x, rfl⟩ := hx
        have e' := hvar e'
        unfold genVariable at e'
        rw [CM.bind_ok (place_eq h (by cases hf; assumption))] at e'
        cases hk : findVar bs x with
        | some k =>
          rw [hk] at e'
          simp only [if_true] at e'
          rw [emitPushIndex, CM.bind_ok (emitUnary_eq h _ _)] at e'
          obtain ⟨rfl, rfl⟩ := CM.pure_inv e'
          exact ⟨_, _, _, Code.var hk, h.grow _ _, Ext.grow _ _ _, by simp [callee, hk]⟩
        | none =>
          rw [hk] at e'
          obtain ⟨key, hkey, v, x', hi⟩ := hglobal h e' hb
          exact ⟨_, _, _, Code.global key hkey hk, v, x', by rw [hi]; simp only [callee, hk, Option.getD_none]; congr 1; omega⟩
      · obtain ⟨code, L', l', c, v, x, hi⟩ := hform hf (fun x hxe => hx ⟨x, hxe⟩) h e' hb
        refine ⟨_, _, _, c, v, x, ?_⟩
        have hL : L < L' := c.after.1
        rw [hi]
        have : callee bs e L' = L' - 1 := by cases e <;> first | rfl | exact absurd ⟨_, rfl⟩ hx
        rw [this]
        congr 1
        omega
    · intro m e s bs L l i s' hf h e' hb
      by_cases hx : ∃ x, e = .identifier x
      · obtain ⟨x, rfl⟩ := hx
        have e' := hvar e'
        unfold genVariable at e'
        rw [CM.bind_ok (place_eq h (by cases hf; assumption))] at e'
        cases hk : findVar bs x with
        | some k =>
          rw [hk] at e'
          have e' : (pure (some (k : Int)) : CM (Option Int)) s = .ok i s' := e'
          obtain ⟨rfl, rfl⟩ := CM.pure_inv e'
          exact ⟨k, rfl, _, _, _, Code.slot hk, h, Ext.refl _⟩
        | none =>
          rw [hk] at e'
          obtain ⟨key, hkey, v, x', hi⟩ := hglobal h e' hb
          exact ⟨L, by rw [hi]; congr 1; omega, _, _, _, Code.globalSlot key hkey hk, v, x'⟩
      · obtain ⟨code, L', l', c, v, x, hi⟩ := hform hf (fun x hxe => hx ⟨x, hxe⟩) h e' hb
        have hL : L < L' := c.after.1
        exact ⟨L' - 1, by rw [hi]; congr 1; omega, _, _, _, Code.temp (fun x hxe => hx ⟨x, hxe⟩) c, v, x⟩
    · intro m f s bs L l i s' hs h e'
      obtain ⟨name, rest, rfl, hg⟩ := special_name hs
      simp only [compound] at e'
      by_cases hd : depth + 1 ≥ cfg.maxDepth
      · rw [if_pos hd] at e'; cases e'
      rw [if_neg hd] at e'
      obtain ⟨_, s1, e1, e2⟩ := CM.bind_inv e'
      have hs1 : s1 = s := by
        cases n with
        | zero => cases e1
        | succ n =>
          have e3 : dispatch cfg ⟨compound cfg n (depth + 1), expression cfg n (depth + 1), pure⟩ n name rest s = .ok _ s1 := e1
          rw [dispatch_eq hcb h hg] at e3
          exact (CM.pure_inv (show (pure () : CM Unit) s = .ok _ s1 from e3)).2.symm
      subst hs1
      rw [CM.bind_ok (localsLength_eq h)] at e2
      exact (CM.pure_inv e2).2.symm

end DuckLisp.Compile
