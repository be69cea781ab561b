import Verif.Proof.Compile.Texts
import Verif.Proof.VM.Numbers

/-!
# The instructions of the operators
-/

namespace DuckLisp.Compile

open DuckLisp DuckLisp.VM DuckLisp.Asm DuckLisp.Spec DuckLisp.Spec.Eval DuckLisp.Props

namespace Setup

variable {C : Setup} {B k L i j : Nat} {vm : VM} {σ : Slots}

theorem lead_string {s : Bytes} {len : Int} (hi : C.program[k]? = some (.pushString len s)) (h : C.At vm L σ)
    (hs : s.length < 2 ^ 63) (hm : C.memory = true) :
    C.Leads B k vm (.ok (.string s)) (k + 1) fun v vm' => C.At vm' (L + 1) (upd σ L v) := by
  have post := post_newString (U := False) (E := fun e _ => e = .outOfMemory) h.ready.good hs (fun _ _ _ => rfl)
  rcases post.cases with ⟨o, s1, h1, hn⟩ | ⟨e, s1, h1, -⟩
  · refine Leads.step (vm' := Spec.pushed s1 o) (goes_plain hi rfl h.ready (exec_plain_ok trivial ?_)) ?_
    · simp only [plain, iPushString, h1]; rfl
    · obtain ⟨r, rfl, -, -⟩ := hn.value
      refine h.push (hn.good.pushed hn.ok) ((hn.carried.extends).pushed _) ?_ ?_ (holds_heap (vm := s1) rfl (.string hn.text))
      · simp only [Spec.pushed]; rw [hn.carried.roots.stack]
      · simp only [Spec.pushed]; rw [hn.carried.roots.upStack]
  · refine .inr ⟨hm, 0, _, _, .refl _, ⟨_, hi, rfl⟩, .inl ⟨h.ready.code, ?_⟩⟩
    unfold newString at h1
    rw [M.bind_run] at h1
    cases hp : pushObject (.internalString (some s) s.length) vm with
    | ok r s2 => rw [hp] at h1; cases h1
    | err e' s2 =>
      obtain ⟨-, g1, g2, g3⟩ := pushObject_err hp
      exact ⟨g1, s2, g2, g3⟩
    | ub => rw [hp] at h1; cases h1
    | diverge => rw [hp] at h1; cases h1

theorem lead_symbol {id len : Int} {name : Bytes} (hi : C.program[k]? = some (.pushSymbol id len name))
    (h : C.At vm L σ) (hs : name.length < 65535) (hm : C.memory = true) :
    C.Leads B k vm (.ok (.symbol name)) (k + 1) fun v vm' => C.At vm' (L + 1) (upd σ L v) := by
  have hid := C.hsymbols _ _ _ (List.mem_of_getElem? hi) hs
  by_cases hst : C.strip = true
  · exact lead_push (m := .pushStrippedSymbol id.toNat) hi (by simp [meaning, hst]) trivial rfl h trivial (.symbol hid (by simp))
  · have hmean : meaning C.strip (.pushSymbol id len name) = some (.pushSymbol id.toNat name) := by simp [meaning, hst]
    have post := post_allocCell (U := False) (E := fun e _ => e = .outOfMemory)
      (o := .internalString (some name) name.length) h.ready.good.sound ?_ ?_ (fun _ _ _ _ => rfl)
    · rcases post.cases with ⟨r, s1, h1, m, al, hf⟩ | ⟨e, s1, h1, he⟩
      · obtain ⟨v, hv, hb⟩ := store_string m name
        rw [hv] at al hf
        have hg1 : Good s1 := ⟨al.sound, hf h.ready.good.finished (by simp [UnderConstruction])⟩
        refine Leads.step (vm' := Spec.pushed s1 (.symbol id.toNat (some r))) (goes_plain hi hmean h.ready (exec_plain_ok trivial ?_)) ?_
        · simp only [plain]
          rw [M.bind_ok h1]
          rfl
        · refine h.push (hg1.pushed ⟨_, al.live⟩) (al.carried.extends.pushed _) ?_ ?_
            (holds_heap (vm := s1) (o := .symbol id.toNat (some r)) rfl (.symbol hid ?_))
          · simp only [Spec.pushed]; rw [al.carried.roots.stack]
          · simp only [Spec.pushed]; rw [al.carried.roots.upStack]
          · rintro _ ⟨⟩
            exact ⟨v, al.cell, hb⟩
      · refine .inr ⟨hm, 0, _, _, .refl _, ⟨_, hi, by simpa [quiet, pushesValue] using hst⟩, .inr ⟨s1, goes_plain hi hmean h.ready (exec_plain_err trivial ?_)⟩⟩
        simp only [plain]
        subst he
        rw [M.bind_err h1]
    · intro m
      obtain ⟨v, hv, hb⟩ := store_string m name
      rw [hv]
      exact ⟨by rw [hb], by omega⟩
    · intro m r _ hm'
      obtain ⟨v, hv, hb⟩ := store_string m name
      rw [hv] at hm'
      cases hm'

theorem lead_cons {a b : Int} {x y : Value} (hi : C.program[k]? = some (.cons a b)) (h : C.At vm L σ)
    (ha : a = (L : Int) - i) (hb : b = (L : Int) - j) (hiL : i < L) (hj : j < L) (hx : σ i = some x)
    (hy : σ j = some y) (hm : C.memory = true) :
    C.Leads B k vm (.ok (.pair x y)) (k + 1) fun v vm' => C.At vm' (L + 1) (upd σ L v) := by
  subst ha hb
  obtain ⟨o, h1, h2, h3⟩ := h.operand hiL hx
  obtain ⟨p, g1, g2, g3⟩ := h.operand hj hy
  rcases (post_cons h.ready.good h1 g1).cases with ⟨_, s1, e1, r, k1, k2, -, k4, k5, k6, k7⟩ | ⟨e, s1, e1, rfl, -⟩
  · refine Leads.step (goes_plain hi rfl h.ready (exec_plain_ok trivial e1)) (h.push k1 k2 k5 k6 (.pair k4 k7 ?_ ?_))
    · exact stays_extends h.ready.good k2 _ (operand_mem h1) _ h2
    · exact stays_extends h.ready.good k2 _ (operand_mem g1) _ g2
  · exact .inr ⟨hm, 0, _, _, .refl _, ⟨_, hi, rfl⟩, .inr ⟨s1, goes_plain hi rfl h.ready (exec_plain_err trivial e1)⟩⟩

theorem lead_global {key : Int} {id : Nat} {x : Bytes} {v : Value} (hi : C.program[k]? = some (.pushGlobal key))
    (h : C.At vm L σ) (hk : key = id) (hid : C.ids.number x id) (hv : σ.global x = some v) :
    C.Leads B k vm (.ok v) (k + 1) fun v vm' => C.At vm' (L + 1) (upd σ L v) := by
  subst hk
  obtain ⟨id', o, h1, h2, h3⟩ := h.globals x v hv
  obtain rfl := (C.hids x x id id' hid h1).1 rfl
  refine Leads.step (goes_plain hi rfl h.ready (h2 _ _ _ _)) (h.pushed ?_ h3)
  rcases reads_iff.1 h2 with ⟨-, rfl⟩ | ⟨r, g1, g2⟩
  · trivial
  · obtain ⟨g3, o', g4, g5⟩ := h.ready.good.sound.globals _ r (bound_mem g1)
    rw [g2] at g4
    cases g4
    exact valueOk_of_cell (h.ready.good.sound.cells r o g2 g3) g5

theorem lead_setGlobal {α : Type} {key : Int} {id : Nat} {x : Bytes} {v : Value} {a : α}
    (hi : C.program[k]? = some (.setGlobal 1 key)) (h : C.At vm L σ) (hk : key = id) (hid : C.ids.number x id)
    (hL : 0 < L) (hv : σ (L - 1) = some v) (hm : C.memory = true) :
    C.Leads B k vm (.ok a) (k + 1) fun y vm' => y = a ∧ C.At vm' L (updGlobal σ x v) := by
  subst hk
  obtain ⟨o, h1, h2, h3⟩ := h.operand (k := L - 1) (by omega) hv
  have e1 : ((L : Int) - (L - 1 : Nat)).toNat = 1 := by omega
  rw [e1] at h1
  have hx := operand_mem h1
  have heq : plain C.env C.cell (C.at_ k) (.setGlobal 1 id) vm =
      (do let p ← pushObject o; globalSet (some p) (id : Int) : M Unit) vm := by
    show (height >>= fun h => stackAt (h - (1 : Nat)) >>= fun o => pushObject o >>= fun p =>
      globalSet (some p) (id : Int)) vm = _
    rw [M.bind_ok (m := height) (a := vm.stack.length) (s' := vm) rfl, M.bind_ok (stackAt_operand h1)]
  have post := post_store h.ready.good h3 (pinned_stack h.ready.good.sound hx) (id : Int)
  rw [← heq] at post
  rcases exec_plain_post (nx := C.at_ (k + 1)) (i := .setGlobal 1 id) trivial post with
    ⟨vm', he, r, s1, hg, hal, rfl⟩ | ⟨e, vm', he, rfl, -⟩
  · refine Leads.step (goes_plain hi rfl h.ready he) ⟨rfl, ?_⟩
    obtain ⟨t1, t2, -, t4, t5⟩ := stored_reads h.ready.good hal id
    have hro := hal.carried.roots
    have hheap : ∀ o v, (∀ r, Mentions o r → Reachable vm r) → Holds C.ids vm o v →
        Holds C.ids { s1 with globals := setAssoc (id : Int) (some r) vm.globals } o v :=
      fun o v hr hv => holds_congr hv t5 hr
    refine ⟨⟨hg, h.ready.origin, ?_, ?_, ?_, ?_, ?_, ?_⟩, ?_, ?_, ?_, ?_⟩
    · dsimp only; rw [hro.stack]; exact h.ready.height
    · dsimp only; rw [hro.upStack]; exact h.ready.upHeight
    · dsimp only; rw [hro.currentBytecode]; exact h.ready.running
    · have := hasCode_extends h.ready hal.carried.extends
      exact this
    · dsimp only; rw [hal.carried.extends.callStack]; exact h.ready.callStack
    · dsimp only; rw [hal.carried.extends.upArrays]; exact h.ready.upArrays
    · dsimp only; rw [hro.stack]; exact h.below
    · intro j hj w hw
      obtain ⟨g0, o', g1, g2⟩ := h.values j hj w hw
      refine ⟨g0, o', by dsimp only; rw [hro.stack]; exact g1, hheap _ _ (fun r hr => ?_) g2⟩
      exact .root (.stack (List.mem_of_getElem? g1) hr)
    · intro y w hw
      by_cases hy : y = x
      · subst hy
        simp only [updGlobal, ↓reduceIte, Option.some.injEq] at hw
        subst hw
        exact ⟨id, o, hid, t1, hheap _ _ (fun r hr => .root (.stack hx hr)) h2⟩
      · simp only [updGlobal, if_neg hy] at hw
        obtain ⟨id', o', g1, g2, g3⟩ := h.globals y w hw
        have hne : id' ≠ id := fun e => hy ((C.hids y x id' id g1 hid).2 e)
        exact ⟨id', o', g1, t2 _ _ hne g2, hheap _ _ (fun r hr => mentions_global g2 hr) g3⟩
    · exact fun o' w hk => hheap _ _ (fun r hr => .root (.stack (h.kept_mem hk) hr)) (h.kept o' w hk)
  · exact .inr ⟨hm, 0, _, _, .refl _, ⟨_, hi, rfl⟩, .inr ⟨_, goes_plain hi rfl h.ready he⟩⟩

/-- The parts of a pair are values. -/
theorem pair_ok (hs : Sound vm) {r : Nat} {x y : Obj} (h : ValueOk vm (.list (some r))) (hp : IsPair vm r x y) :
    ValueOk vm x ∧ ValueOk vm y := by
  obtain ⟨p, q, hc, hp, hq⟩ := hp
  obtain ⟨a, d, h1, h2, h3⟩ := live_pair hs h
  rw [hc] at h1
  cases h1
  exact ⟨part_valueOk hs hp h2, part_valueOk hs hq h3⟩

theorem lead_op1 (op : Op1) {S : Setting} {x : Value} (hmem : S.memory = C.memory)
    (hi : C.program[k]? = some (op.ins ((L : Int) - i))) (h : C.At vm L σ) (hiL : i < L) (hx : σ i = some x) :
    C.Leads B k vm (apply1 S (name1 op) x) (k + 1) fun v vm' => C.At vm' (L + 1) (upd σ L v) := by
  obtain ⟨o, h1, h2, h3⟩ := h.operand hiL hx
  cases op with
  | not =>
    refine lead_unary (i := 0) hi rfl rfl trivial rfl h h1 ?_
    simp only [name1, apply1]
    cases h2 with
    | nil => exact ⟨_, rfl, trivial, .bool _⟩
    | bool b =>
      refine ⟨_, rfl, trivial, ?_⟩
      simp only [cBool]
      exact .bool _
    | int i =>
      refine ⟨_, rfl, ?_, .int _⟩
      simp only [ValueOk]
      split <;> omega
    | float b => exact ⟨_, rfl, trivial, .float _⟩
    | symbol h hp => rfl
    | string h => rfl
    | slice h => rfl
    | type n => rfl
    | pair h ha hd => exact ⟨_, rfl, trivial, .bool _⟩
    | function h => rfl
    | unknown => trivial
  | nullp =>
    refine lead_unary (i := 0) hi rfl rfl trivial rfl h h1 ?_
    have null : ∀ p off len s, o = .string p off len → Spec.text vm o = s →
        ∃ o', boolValue (nullValue o) vm = .ok o' vm ∧ ValueOk vm o' ∧ Holds C.ids vm o' (boolean s.isEmpty) := by
      rintro p off len s rfl hs
      refine ⟨_, boolValue_ok (b := s.isEmpty) ?_, trivial, ?_⟩
      · simp only [nullValue]
        show Out.ok _ _ = _
        congr 1
        cases p with
        | none => rw [← hs]; rfl
        | some r =>
          obtain ⟨k, v, n, w, rfl, g1, g2, g3, -, -, hv, -, ht⟩ := string_cell h.ready.good h1
          rw [← hs, ht, toSize_nat (by omega), Bool.eq_iff_iff]
          simp
          omega
      · cases s <;> exact .bool _
    cases h2 with
    | string hs => exact null _ _ _ _ rfl hs
    | slice hs => exact null _ _ _ _ rfl hs
    | unknown => trivial
    | _ => exact ⟨_, rfl, trivial, .bool _⟩
  | car =>
    cases h2 with
    | nil => exact lead_unary (i := 0) hi rfl rfl trivial rfl h h1 ⟨_, rfl, trivial, .nil⟩
    | pair hp _ ha hd =>
      refine lead_unary (i := 0) (r := .ok _) hi rfl rfl trivial rfl h h1 ⟨_, ?_, (pair_ok h.ready.good.sound h3 hp).1, ha⟩
      obtain ⟨p, d, hcell, hp, -⟩ := hp
      simp only [carValue]
      rw [M.bind_ok (readCell_some hcell)]
      exact partValue_eq hp
    | string hs => exact lead_exec hi rfl rfl h (exec_car_text C k h.ready.good h1 hs)
    | slice hs => exact lead_exec hi rfl rfl h (exec_car_text C k h.ready.good h1 hs)
    | unknown => trivial
    | _ => exact lead_unary (i := 0) (r := .error _) hi rfl rfl trivial rfl h h1 rfl
  | cdr =>
    cases h2 with
    | nil => exact lead_unary (i := 0) hi rfl rfl trivial rfl h h1 ⟨_, rfl, trivial, .nil⟩
    | pair hp _ ha hd =>
      refine lead_unary (i := 0) (r := .ok _) hi rfl rfl trivial rfl h h1 ⟨_, ?_, (pair_ok h.ready.good.sound h3 hp).2, hd⟩
      obtain ⟨p, d, hcell, -, hp⟩ := hp
      simp only [cdrValue]
      rw [M.bind_ok (readCell_some hcell)]
      exact partValue_eq hp
    | string hs => exact lead_exec hi rfl rfl h (exec_cdr_text C k h.ready.good h1 hs)
    | slice hs => exact lead_exec hi rfl rfl h (exec_cdr_text C k h.ready.good h1 hs)
    | unknown => trivial
    | _ => exact lead_unary (i := 0) (r := .error _) hi rfl rfl trivial rfl h h1 rfl
  | length =>
    cases x with
    | nil =>
      cases h2
      exact lead_exec hi rfl rfl h (exec_length_list C k h.ready.good h1 .nil)
    | pair a d =>
      simp only [name1, apply1, count]
      cases ht : toList (.pair a d) with
      | none => trivial
      | some vs =>
        obtain ⟨p, objs, rfl, g1, g2⟩ := holds_toList h2 ht
        have := exec_length_list C k h.ready.good h1 g1
        rw [g2.length_eq] at this
        exact lead_exec hi rfl rfl h this
    | string s =>
      cases h2 with
      | string hs => exact lead_exec hi rfl rfl h (exec_length_text C k h.ready.good h1 hs)
    | slice s =>
      cases h2 with
      | slice hs => exact lead_exec hi rfl rfl h (exec_length_text C k h.ready.good h1 hs)
    | unknown => trivial
    | _ =>
      cases h2
      exact lead_unary (i := 0) (r := .error _) hi rfl rfl trivial rfl h h1 rfl
  | makeString =>
    have key : ∀ vs bs, toList x = some vs → Eval.bytes vs = some bs → S.memory = true →
        C.Leads B k vm (.ok (.string bs)) (k + 1) fun v vm' => C.At vm' (L + 1) (upd σ L v) := by
      intro vs bs ht hb hm
      obtain ⟨p, objs, rfl, g1, g2⟩ := holds_toList h2 ht
      obtain ⟨is, rfl, rfl⟩ := holds_bytes g2 hb
      exact lead_new hi rfl rfl trivial h (hmem ▸ hm) (post_makeStringList h.ready.good h1 g1)
    cases x with
    | nil =>
      simp only [name1, apply1, makeString]
      split
      · exact key [] [] rfl rfl ‹_›
      · trivial
    | pair a d =>
      simp only [name1, apply1, makeString]
      cases ht : toList (.pair a d) with
      | none => trivial
      | some vs =>
        simp only [Option.bind_some]
        cases hb : Eval.bytes vs with
        | none => trivial
        | some bs =>
          dsimp only
          split
          · exact key vs bs ht hb ‹_›
          · trivial
    | unknown => trivial
    | _ =>
      cases h2
      refine lead_exec (r := .error _) hi rfl rfl h (exec_plain_err trivial ?_)
      show iMakeString _ vm = _
      unfold iMakeString
      rw [M.bind_ok (getArg_some h1)]
      rfl
  | typeof =>
    refine lead_unary (i := 0) hi rfl rfl trivial rfl h h1 ?_
    cases h2 with
    | unknown => trivial
    | _ => exact ⟨_, rfl, trivial, .type _⟩
  | symbolId =>
    refine lead_unary (i := 0) hi rfl rfl trivial rfl h h1 ?_
    cases h2 with
    | unknown => trivial
    | symbol => trivial
    | _ => rfl
  | _ => trivial

/-- What a computation of the machine says about a result. -/
def Computes (C : Setup) (vm : VM) (m : M Obj) (r : Result Value) : Prop :=
  match r with
  | .ok v => ∃ o', m vm = .ok o' vm ∧ ValueOk vm o' ∧ Holds C.ids vm o' v
  | .error e => m vm = .err e vm
  | .undefined => m vm = .ub
  | .unfinished => False
  | .outside => True

theorem computes_int {x : Int} : Computes C vm (do return .integer (← ckInt x)) (inRange x) := by
  unfold inRange
  by_cases h : -(2 ^ 63) ≤ x ∧ x < 2 ^ 63
  · rw [if_pos h]
    refine ⟨.integer x, ?_, h, .int _⟩
    have : ckInt x vm = .ok x vm := by
      unfold ckInt
      rw [if_pos (by omega)]
      rfl
    rw [M.bind_ok this]
    rfl
  · rw [if_neg h]
    have : ckInt x vm = .ub := by
      unfold ckInt
      rw [if_neg (by omega)]
      rfl
    show (_ : Out Obj) = _
    rw [M.bind_ub this]

theorem computes_arith {op : Arith} {o p : Obj} {x y : Value} (ho : Holds C.ids vm o x) (hp : Holds C.ids vm p y) :
    Computes C vm (arithValue C.env.fl op o p) (arith C.env.fl op x y) := by
  cases ho <;> cases hp
  all_goals
    cases op <;> first
      | (dsimp only [arith]; trivial; done)
      | exact computes_int
      | exact ⟨_, rfl, trivial, .bool _⟩
      | exact ⟨_, rfl, trivial, .float _⟩
      | rfl
      | skip
  all_goals simp only [arith, integer, arithValue, intArith, boolArith]
  all_goals split
  all_goals first
    | exact computes_int
    | exact ⟨_, rfl, trivial, .bool _⟩
    | rfl

theorem computes_bool {m : M Bool} {b : Bool} (h : m vm = .ok b vm) : Computes C vm (boolValue m) (.ok (boolean b)) := by
  refine ⟨_, boolValue_ok h, trivial, ?_⟩
  cases b <;> exact .bool _

theorem computes_less {o p : Obj} {x y : Value} (ho : Holds C.ids vm o x) (hp : Holds C.ids vm p y) :
    Computes C vm (boolValue (lessValue C.env.fl o p)) (less C.env.fl x y) := by
  cases ho <;> cases hp
  all_goals first
    | (dsimp only [less]; trivial; done)
    | exact computes_bool rfl
    | rfl
    | skip
  rename_i a b
  refine computes_bool ?_
  show Out.ok _ _ = _
  simp [UInt8.lt_iff_toNat_lt]

theorem greater_less (fl : FloatOps) (o p : Obj) : greaterValue fl o p = lessValue fl p o := by
  cases o <;> cases p <;> rfl

theorem computes_equal {o p : Obj} {x y : Value} (ho : Holds C.ids vm o x) (hp : Holds C.ids vm p y)
    (hs : Sound vm) (h1 : ValueOk vm o) (h2 : ValueOk vm p) :
    Computes C vm (boolValue (equalValue o p)) (equal x y) := by
  cases ho <;> cases hp
  all_goals first
    | exact computes_bool rfl
    | (dsimp only [equal]; trivial; done)
    | rfl
    | skip
  · rename_i g1 _ _ _ _ g2 _
    refine computes_bool ?_
    simp only [equalValue]
    show Out.ok _ _ = _
    simp [C.hids _ _ _ _ g1 g2]
  all_goals
    refine computes_bool ?_
    rw [equal_string hs h1 h2]
    first
    | (rename_i hx _ _ _ hy; rw [hx, hy]; done)
    | (rename_i hx _ _ _ _ hy; rw [hx, hy]; done)

/-- What `concatenate` takes. -/
def isText : Obj → Bool
  | .string .. => true
  | .symbol .. => true
  | _ => false

theorem lead_op2 (op : Op2) {S : Setting} {x y : Value} (hfl : S.fl = C.env.fl) (hmem : S.memory = C.memory)
    (hi : C.program[k]? = some (op.ins ((L : Int) - i) ((L : Int) - j)))
    (h : C.At vm L σ) (hiL : i < L) (hjL : j < L) (hx : σ i = some x) (hy : σ j = some y) :
    C.Leads B k vm (apply2 S (name2 op) x y) (k + 1) fun v vm' => C.At vm' (L + 1) (upd σ L v) := by
  obtain ⟨o, h1, h2, h3⟩ := h.operand hiL hx
  obtain ⟨p, g1, g2, g3⟩ := h.operand hjL hy
  cases op with
  | cons =>
    simp only [name2, apply2]
    by_cases hm : S.memory = true
    · rw [if_pos hm]
      exact lead_cons hi h rfl rfl hiL hjL hx hy (hmem ▸ hm)
    · rw [if_neg hm]
      trivial
  | add | sub | multiply | divide =>
    refine lead_binary hi rfl rfl trivial rfl h h1 g1 ?_
    simp only [name2, apply2, hfl]
    exact computes_arith h2 g2
  | less =>
    refine lead_binary hi rfl rfl trivial rfl h h1 g1 ?_
    simp only [name2, apply2, hfl]
    exact computes_less h2 g2
  | greater =>
    refine lead_binary hi rfl rfl trivial rfl h h1 g1 ?_
    simp only [name2, apply2, hfl, greater_less]
    exact computes_less g2 h2
  | equal =>
    refine lead_binary hi rfl rfl trivial rfl h h1 g1 ?_
    simp only [name2, apply2]
    exact computes_equal h2 g2 h.ready.good.sound h3 g3
  | getVecElt =>
    simp only [name2, apply2]
    cases h2 with
    | string hs => exact lead_exec hi rfl rfl h (exec_get_text C k h.ready.good h1 hs g1 g2)
    | slice hs => exact lead_exec hi rfl rfl h (exec_get_text C k h.ready.good h1 hs g1 g2)
    | unknown => trivial
    | _ =>
      refine lead_exec (r := .error _) hi rfl rfl h (exec_plain_err trivial ?_)
      show iGetVecElt _ _ vm = _
      unfold iGetVecElt
      rw [M.bind_ok (getArg_some h1)]
      rfl
  | concatenate =>
    simp only [name2, apply2]
    have other : isText o = false ∨ isText p = false →
        C.Leads B k vm (.error .invalidValue) (k + 1) fun v vm' => C.At vm' (L + 1) (upd σ L v) := by
      intro ho
      refine lead_exec (r := .error _) hi rfl rfl h (exec_plain_err trivial ?_)
      show iConcatenate _ _ vm = _
      unfold iConcatenate
      rw [M.bind_ok (getArg_some h1)]
      cases o <;> first
        | rfl
        | (dsimp only
           rw [if_neg (by simp), M.bind_ok (getArg_some g1)]
           cases p <;> first | rfl | (simp [isText] at ho))
    cases h2 <;> cases g2 <;> simp only [Eval.concatenate] <;>
      first
      | trivial
      | (simp only [hasText]; exact other (by simp [isText]))
      | skip
    rename_i r n s hs r' n' s' hs'
    split
    · rename_i hc
      have e1 := (string_ok h.ready.good.sound h3).1
      have e2 := (string_ok h.ready.good.sound g3).1
      obtain ⟨_, _, _, _, _, _, a1, a2, _⟩ := string_cell h.ready.good h1
      obtain ⟨_, _, _, _, _, _, b1, b2, _⟩ := string_cell h.ready.good g1
      have := post_concat h.ready.good h1 g1 (by
        rw [hs] at e1
        rw [hs'] at e2
        simp only [stringSize, Int.sub_zero] at e1 e2
        rw [toSize_nat (by omega)] at e1 e2
        omega)
      rw [hs, hs'] at this
      exact lead_new hi rfl rfl trivial h (hmem ▸ hc.1) this
    · trivial
  | _ => trivial

theorem lead_substring {l : Nat} {x y z : Value}
    (hi : C.program[k]? = some (Op3.substring.ins ((L : Int) - i) ((L : Int) - j) ((L : Int) - l)))
    (h : C.At vm L σ) (hiL : i < L) (hjL : j < L) (hlL : l < L) (hx : σ i = some x) (hy : σ j = some y)
    (hz : σ l = some z) :
    C.Leads B k vm (apply3 "substring" x y z) (k + 1) fun v vm' => C.At vm' (L + 1) (upd σ L v) := by
  obtain ⟨o, h1, h2, h3⟩ := h.operand hiL hx
  obtain ⟨p, g1, g2, g3⟩ := h.operand hjL hy
  obtain ⟨q, k1, k2, k3⟩ := h.operand hlL hz
  simp only [apply3]
  cases h2 with
  | string hs => exact lead_exec hi rfl rfl h (exec_substring_text C k h.ready.good h1 hs g1 g2 k1 k2)
  | slice hs => exact lead_exec hi rfl rfl h (exec_substring_text C k h.ready.good h1 hs g1 g2 k1 k2)
  | unknown => trivial
  | _ =>
    refine lead_exec (r := .error _) hi rfl rfl h (exec_plain_err trivial ?_)
    show iSubstring _ _ _ vm = _
    unfold iSubstring
    rw [M.bind_ok (getArg_some h1)]
    rfl

/-- Bringing the value on top to its place. -/
theorem lead_settle {a : Nat} {v : Value} (hc : C.Has k (settleCode a L)) (h : C.At vm L σ) (ha : a < L) (h0 : C.origin ≤ a)
    (hv : σ (L - 1) = some v) :
    C.Leads B k vm (.ok v) (k + (settleCode a L).length) fun v vm' => C.At vm' (a + 1) (upd σ a v) := by
  unfold settleCode at hc ⊢
  by_cases he : L - 1 = a
  · rw [if_pos he]
    refine Leads.done ?_
    have : L = a + 1 := by omega
    subst this
    refine h.weaken (fun j _ => ?_) rfl
    show (if j = a then some v else σ j) = σ j
    split
    · rename_i hj
      subst hj
      exact hv.symm
    · rfl
  · rw [if_neg he] at hc ⊢
    have hb : (.ok v : Result Value) = ((.ok v : Result Value) >>= fun v => .ok v) := rfl
    rw [hb]
    refine Leads.bind (lead_move (i := L - 1) (j := a) hc.head h (by omega) (by omega) (by omega) ha h0 hv) ?_
    rintro w vm' ⟨rfl, h'⟩
    have := lead_pop (C := C) (a := w) (B := B) hc.tail.head h' (by omega)
    refine Leads.imp this ?_
    rintro _ vm'' ⟨rfl, h''⟩
    have e : L - ((L - a - 1 : Nat) : Int).toNat = a + 1 := by omega
    rwa [e] at h''

end Setup

end DuckLisp.Compile
