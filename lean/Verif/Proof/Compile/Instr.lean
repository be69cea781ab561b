import Verif.Proof.Compile.Machine
import Verif.Proof.Compile.Rules
import Verif.Props.VM.Globals

/-!
# What single instructions do to the values on the stack
-/

namespace DuckLisp.Compile

open DuckLisp DuckLisp.VM DuckLisp.Asm DuckLisp.Spec DuckLisp.Spec.Eval DuckLisp.Props

/-- The values that are expected in the slots of the stack, and those of globals. -/
structure Slots where
  slot : Nat → Option Value
  global : Bytes → Option Value

instance : CoeFun Slots fun _ => Nat → Option Value := ⟨Slots.slot⟩

/-- Another value in a slot. -/
def upd (σ : Slots) (k : Nat) (v : Value) : Slots := { σ with slot := fun j => if j = k then some v else σ j }

/-- Another value of a global. -/
def updGlobal (σ : Slots) (x : Bytes) (v : Value) : Slots :=
  { σ with global := fun y => if y = x then some v else σ.global y }

@[simp] theorem upd_same (σ : Slots) (k : Nat) (v : Value) : upd σ k v k = some v := if_pos rfl

theorem upd_other {σ : Slots} {k j : Nat} {v : Value} (h : j ≠ k) : upd σ k v j = σ j := if_neg h

namespace Setup

variable {C : Setup}

/-- The machine is in order and has these values on the stack. -/
structure At (C : Setup) (vm : VM) (L : Nat) (σ : Slots) : Prop where
  ready : C.Ready vm L
  below : vm.stack.take C.base = C.below
  values : ∀ k < L, ∀ v, σ k = some v → C.origin ≤ k ∧ ∃ o, vm.stack[C.pos k]? = some o ∧ Holds C.ids vm o v
  globals : ∀ x v, σ.global x = some v → ∃ id o, C.ids.number x id ∧ VM.Reads vm id o ∧ Holds C.ids vm o v
  kept : ∀ o v, C.kept o v → Holds C.ids vm o v

/-- What was there before is still on the stack. -/
theorem At.kept_mem {vm : VM} {L : Nat} {σ : Slots} (h : C.At vm L σ) {o : Obj} {v : Value} (hk : C.kept o v) :
    o ∈ vm.stack := List.mem_of_mem_take (h.below ▸ C.hkept o v hk)

theorem reads_same {vm vm' : VM} {k : Nat} {o : Obj} (hg : vm'.globals = vm.globals) (hh : vm'.heap = vm.heap)
    (h : VM.Reads vm k o) : VM.Reads vm' k o := by
  rw [reads_iff] at h ⊢
  unfold bound at h ⊢
  rw [hg, hh]
  exact h

theorem mentions_global {vm : VM} {k : Nat} {o : Obj} (h : VM.Reads vm k o) {r : Nat} (hm : Mentions o r) :
    Reachable vm r := by
  rcases reads_iff.1 h with ⟨-, rfl⟩ | ⟨c, h1, h2⟩
  · cases hm
  · exact .step (.root (.global (bound_mem h1))) h2 hm

/-- Globals stay what they are. -/
theorem globals_extends {vm vm' : VM} {ids : Reading} (hg : Good vm) (he : Extends vm vm') {x : Bytes} {v : Value}
    (h : ∃ id o, ids.number x id ∧ VM.Reads vm id o ∧ Holds ids vm o v) :
    ∃ id o, ids.number x id ∧ VM.Reads vm' id o ∧ Holds ids vm' o v := by
  obtain ⟨id, o, h1, h2, h3⟩ := h
  refine ⟨id, o, h1, ?_, holds_congr h3 (fun r hr => he.heap r (traced_of_reachable hg.sound hg.finished hr))
    fun r hr => mentions_global h2 hr⟩
  rw [reads_iff] at h2 ⊢
  unfold bound at h2 ⊢
  rw [he.globals]
  rcases h2 with h2 | ⟨c, h4, h5⟩
  · exact .inl h2
  · exact .inr ⟨c, h4, (he.heap c (traced_global (bound_mem h4))).trans h5⟩

theorem globals_same {vm vm' : VM} {ids : Reading} (hg : vm'.globals = vm.globals) (hh : vm'.heap = vm.heap)
    {x : Bytes} {v : Value} (h : ∃ id o, ids.number x id ∧ VM.Reads vm id o ∧ Holds ids vm o v) :
    ∃ id o, ids.number x id ∧ VM.Reads vm' id o ∧ Holds ids vm' o v := by
  obtain ⟨id, o, h1, h2, h3⟩ := h
  exact ⟨id, o, h1, reads_same hg hh h2, holds_heap hh h3⟩

theorem At.push {vm vm' : VM} {L : Nat} {σ : Slots} {o : Obj} {v : Value} (h : C.At vm L σ) (hg : Good vm')
    (he : Extends vm vm') (hs : vm'.stack = vm.stack ++ [o]) (hu : vm'.upStack = vm.upStack ++ [none])
    (hv : Holds C.ids vm' o v) : C.At vm' (L + 1) (upd σ L v) := by
  have hh := h.ready.height
  have hl := h.ready.origin
  refine ⟨h.ready.push hg he hs hu, ?_, fun k hk w hw => ?_, fun x w hw => globals_extends h.ready.good he (h.globals x w hw),
    fun o' w hk => stays_extends h.ready.good he o' (h.kept_mem hk) w (h.kept o' w hk)⟩
  · rw [hs, List.take_append_of_le_length (by omega)]
    exact h.below
  · by_cases hkL : k = L
    · subst hkL
      rw [upd_same] at hw
      cases hw
      refine ⟨hl, o, ?_, hv⟩
      rw [hs, List.getElem?_append_right (by unfold pos; omega), hh]
      simp [pos]
    · rw [upd_other hkL] at hw
      obtain ⟨h0, o', h1, h2⟩ := h.values k (by omega) w hw
      refine ⟨h0, o', ?_, stays_extends h.ready.good he o' (List.mem_of_getElem? h1) w h2⟩
      rw [hs, List.getElem?_append_left (by unfold pos; omega)]
      exact h1

theorem At.pushed {vm : VM} {L : Nat} {σ : Slots} {o : Obj} {v : Value} (h : C.At vm L σ) (ho : ValueOk vm o)
    (hv : Holds C.ids vm o v) : C.At (Spec.pushed vm o) (L + 1) (upd σ L v) :=
  h.push (h.ready.good.pushed ho) (Extends.refl vm |>.pushed o) rfl rfl (holds_heap (vm := vm) rfl hv)

theorem At.popped {vm : VM} {L n : Nat} {σ : Slots} (h : C.At vm L σ) (hn : C.origin + n ≤ L) :
    C.At (Spec.popped vm n) (L - n) σ := by
  have hh := h.ready.height
  refine ⟨h.ready.popped hn, ?_, fun k hk w hw => ?_, fun x w hw => globals_same (vm := vm) (vm' := Spec.popped vm n) rfl rfl (h.globals x w hw),
    fun o w hk => holds_heap (vm := vm) rfl (h.kept o w hk)⟩
  · simp only [Spec.popped]
    rw [List.take_take, Nat.min_eq_left (by omega)]
    exact h.below
  · obtain ⟨h0, o', h1, h2⟩ := h.values k (by omega) w hw
    refine ⟨h0, o', ?_, holds_heap (vm := vm) rfl h2⟩
    simp only [Spec.popped]
    rw [List.getElem?_take_of_lt (by unfold pos; omega)]
    exact h1

theorem At.set {vm : VM} {L k : Nat} {σ : Slots} {o : Obj} {v : Value} (h : C.At vm L σ) (hk : k < L)
    (h0 : C.origin ≤ k) (ho : ValueOk vm o) (hv : Holds C.ids vm o v) :
    C.At { vm with stack := vm.stack.set (C.pos k) o } L (upd σ k v) := by
  have hh := h.ready.height
  refine ⟨h.ready.set ho, ?_, fun j hj w hw => ?_, fun x w hw => globals_same (vm := vm)
    (vm' := { vm with stack := vm.stack.set (C.pos k) o }) rfl rfl (h.globals x w hw),
    fun o' w hk => holds_heap (vm := vm) rfl (h.kept o' w hk)⟩
  · simp only
    rw [List.take_set_of_le (by unfold pos; omega)]
    exact h.below
  · by_cases hjk : j = k
    · subst hjk
      rw [upd_same] at hw
      cases hw
      exact ⟨h0, o, by simp only; rw [List.getElem?_set_self (by unfold pos; omega)], holds_heap (vm := vm) rfl hv⟩
    · rw [upd_other hjk] at hw
      obtain ⟨h0', o', h1, h2⟩ := h.values j hj w hw
      refine ⟨h0', o', ?_, holds_heap (vm := vm) rfl h2⟩
      simp only
      rw [List.getElem?_set_ne (by unfold pos; omega)]
      exact h1

theorem At.weaken {vm : VM} {L : Nat} {σ σ' : Slots} (h : C.At vm L σ) (hs : ∀ k < L, σ' k = σ k)
    (hg : σ'.global = σ.global) : C.At vm L σ' :=
  ⟨h.ready, h.below, fun k hk w hw => h.values k hk w (hs k hk ▸ hw), fun x w hw => h.globals x w (hg ▸ hw), h.kept⟩

/-- Slots that have a value are not those of callers. -/
theorem At.origin_le {vm : VM} {L k : Nat} {σ : Slots} {v : Value} (h : C.At vm L σ) (hk : k < L) (hv : σ k = some v) :
    C.origin ≤ k := (h.values k hk v hv).1

theorem operand_slot {vm : VM} {L k : Nat} {o : Obj} (h : C.Ready vm L) (hk : k < L) (h0 : C.origin ≤ k)
    (ho : vm.stack[C.pos k]? = some o) : Spec.operand vm ((L : Int) - k).toNat = some o := by
  have hh := h.height
  unfold Spec.operand
  rw [if_neg (by omega), List.getElem?_reverse (by omega)]
  rw [← ho]
  congr 1
  unfold pos
  omega

/-- The operand of an instruction. -/
theorem At.operand {vm : VM} {L k : Nat} {σ : Slots} {v : Value} (h : C.At vm L σ) (hk : k < L)
    (hv : σ k = some v) :
    ∃ o, Spec.operand vm ((L : Int) - k).toNat = some o ∧ Holds C.ids vm o v ∧ ValueOk vm o := by
  obtain ⟨h0, o, h1, h2⟩ := h.values k hk v hv
  exact ⟨o, operand_slot h.ready hk h0 h1, h2, h.ready.good.sound.stack o (List.mem_of_getElem? h1)⟩

/-! ### Instructions -/

theorem Leads.step {α : Type} {B k : Nat} {vm vm' : VM} {a : α} {post : α → VM → Prop}
    (h : C.Goes k vm (.ok (.goto (C.at_ (k + 1))) vm')) (hp : post a vm') :
    C.Leads B k vm (.ok a) (k + 1) post := .inl ⟨_, vm', Steps.one (.inl rfl) h, hp⟩

theorem Leads.fails {α : Type} {B k q : Nat} {vm vm' : VM} {e : DlError} {post : α → VM → Prop}
    (hq : C.Loud k) (h : C.Goes k vm (.err e vm')) :
    C.Leads B k vm (.error e : Result α) q post := .inl ⟨0, _, _, _, .refl _, hq, h⟩

theorem Leads.runsOut {α : Type} {B k q : Nat} {vm : VM} {r : Result α} {post : α → VM → Prop} (h : C.RunsOut k vm) :
    C.Leads B k vm r q post := by
  cases r <;> first | exact .inr h | trivial

theorem Leads.undefined {α : Type} {B k q : Nat} {vm : VM} {post : α → VM → Prop}
    (hq : C.Loud k) (h : C.Goes k vm .ub) :
    C.Leads B k vm (.undefined : Result α) q post := .inl ⟨0, _, _, .refl _, hq, h⟩

/-- An instruction that pushes the value of a computation. -/
theorem lead_unary {B k L i : Nat} {vm : VM} {σ : Slots} {ins : Ins} {m : Instr} {a : Nat} {f : Obj → M Obj}
    {o : Obj} {r : Result Value} (hi : C.program[k]? = some ins) (hq : quiet C.strip ins = false) (hm : meaning C.strip ins = some m)
    (hp : IsPlain m) (hpl : plain C.env C.cell (C.at_ k) m = unary a f) (h : C.At vm L σ)
    (ho : Spec.operand vm a = some o)
    (hr : match r with
      | .ok v => ∃ o', f o vm = .ok o' vm ∧ ValueOk vm o' ∧ Holds C.ids vm o' v
      | .error e => f o vm = .err e vm
      | .undefined => f o vm = .ub
      | .unfinished => False
      | .outside => True) :
    C.Leads B k vm r (k + 1) fun v vm' => C.At vm' (L + 1) (upd σ L v) := by
  cases r with
  | ok v =>
    obtain ⟨o', h1, h2, h3⟩ := hr
    exact Leads.step (goes_plain hi hm h.ready (exec_plain_ok hp (by rw [hpl]; exact unary_ok f ho h1))) (h.pushed h2 h3)
  | error e => exact Leads.fails ⟨_, hi, hq⟩ (goes_plain hi hm h.ready (exec_plain_err hp (by rw [hpl, unary_eq f ho, hr])))
  | undefined => exact Leads.undefined ⟨_, hi, hq⟩ (goes_plain hi hm h.ready (exec_plain_ub hp (by rw [hpl, unary_eq f ho, hr])))
  | unfinished => cases hr
  | outside => trivial

/-- See `lead_unary`. -/
theorem lead_binary {B k L : Nat} {vm : VM} {σ : Slots} {ins : Ins} {m : Instr} {a b : Nat} {f : Obj → Obj → M Obj}
    {o p : Obj} {r : Result Value} (hi : C.program[k]? = some ins) (hl : quiet C.strip ins = false) (hm : meaning C.strip ins = some m)
    (hp : IsPlain m) (hpl : plain C.env C.cell (C.at_ k) m = binary a b f) (h : C.At vm L σ)
    (ho : Spec.operand vm a = some o) (hq : Spec.operand vm b = some p)
    (hr : match r with
      | .ok v => ∃ o', f o p vm = .ok o' vm ∧ ValueOk vm o' ∧ Holds C.ids vm o' v
      | .error e => f o p vm = .err e vm
      | .undefined => f o p vm = .ub
      | .unfinished => False
      | .outside => True) :
    C.Leads B k vm r (k + 1) fun v vm' => C.At vm' (L + 1) (upd σ L v) := by
  cases r with
  | ok v =>
    obtain ⟨o', h1, h2, h3⟩ := hr
    exact Leads.step (goes_plain hi hm h.ready (exec_plain_ok hp (by rw [hpl]; exact binary_ok f ho hq h1))) (h.pushed h2 h3)
  | error e => exact Leads.fails ⟨_, hi, hl⟩ (goes_plain hi hm h.ready (exec_plain_err hp (by rw [hpl, binary_eq f ho hq, hr])))
  | undefined => exact Leads.undefined ⟨_, hi, hl⟩ (goes_plain hi hm h.ready (exec_plain_ub hp (by rw [hpl, binary_eq f ho hq, hr])))
  | unfinished => cases hr
  | outside => trivial

/-- A constant. -/
theorem lead_push {B k L : Nat} {vm : VM} {σ : Slots} {ins : Ins} {m : Instr} {o : Obj} {v : Value}
    (hi : C.program[k]? = some ins) (hm : meaning C.strip ins = some m)
    (hp : IsPlain m) (hpl : plain C.env C.cell (C.at_ k) m = push o) (h : C.At vm L σ) (ho : ValueOk vm o)
    (hv : Holds C.ids vm o v) :
    C.Leads B k vm (.ok v) (k + 1) fun v vm' => C.At vm' (L + 1) (upd σ L v) :=
  Leads.step (goes_plain hi hm h.ready (exec_plain_ok hp (by rw [hpl]; rfl))) (h.pushed ho hv)

theorem lead_nil {B k L : Nat} {vm : VM} {σ : Slots} (hi : C.program[k]? = some .nil) (h : C.At vm L σ) :
    C.Leads B k vm (.ok .nil) (k + 1) fun v vm' => C.At vm' (L + 1) (upd σ L v) :=
  lead_push hi rfl trivial rfl h trivial .nil

theorem lead_index {B k L j : Nat} {vm : VM} {σ : Slots} {v : Value}
    (hi : C.program[k]? = some (.pushIndex ((L : Int) - j))) (h : C.At vm L σ) (hj : j < L)
    (hv : σ j = some v) : C.Leads B k vm (.ok v) (k + 1) fun v vm' => C.At vm' (L + 1) (upd σ L v) := by
  obtain ⟨o, h1, h2, h3⟩ := h.operand hj hv
  exact Leads.step (goes_plain hi rfl h.ready (exec_plain_ok trivial (unary_ok _ h1 rfl))) (h.pushed h3 h2)

theorem lead_pop {α : Type} {B k L : Nat} {n : Int} {vm : VM} {σ : Slots} {a : α} (hi : C.program[k]? = some (.pop n))
    (h : C.At vm L σ) (hn : C.origin + n.toNat ≤ L) :
    C.Leads B k vm (.ok a) (k + 1) fun y vm' => y = a ∧ C.At vm' (L - n.toNat) σ := by
  have h1 := h.ready.height
  have h2 := h.ready.upHeight
  exact Leads.step (goes_plain hi rfl h.ready (exec_plain_ok trivial
    (popMany_ok (by omega) (by omega)))) ⟨rfl, h.popped hn⟩

theorem lead_move {α : Type} {B k L i j : Nat} {a b : Int} {vm : VM} {σ : Slots} {v : Value} {x : α}
    (hi : C.program[k]? = some (.move a b)) (h : C.At vm L σ)
    (ha : a = (L : Int) - i) (hb : b = (L : Int) - j) (hiL : i < L) (hj : j < L)
    (h0 : C.origin ≤ j) (hv : σ i = some v) :
    C.Leads B k vm (.ok x) (k + 1) fun y vm' => y = x ∧ C.At vm' L (upd σ j v) := by
  subst ha hb
  obtain ⟨o, h1, h2, h3⟩ := h.operand hiL hv
  have hh := h.ready.height
  refine Leads.step (goes_plain hi rfl h.ready (exec_plain_ok trivial ?_)) ⟨rfl, h.set hj h0 h3 h2⟩
  simp only [plain]
  rw [M.bind_ok (getArg_some h1)]
  simp only [setArg, argIndex]
  rw [if_pos (by omega)]
  have : vm.stack.length - ((L : Int) - j).toNat = C.pos j := by unfold pos; omega
  simp only [this]

theorem lead_jump {α : Type} {B k l j q : Nat} {vm : VM} {L : Nat} {σ : Slots} {r : Result α}
    {post : α → VM → Prop} (hi : C.program[k]? = some (.jump l)) (hl : C.program[j]? = some (.label l))
    (h : C.At vm L σ) (hr : C.Leads B (j + 1) vm r q post) : C.Leads (B + 1) k vm r q post := by
  have := (Steps.one (next_jump hi rfl hl) (goes_jump hi hl h.ready)).trans (Steps.one (.inl rfl) (goes_label hl h.ready))
  rw [weight_jump hi, weight_label hl] at this
  exact Leads.after this (by omega) (B' := B) hr

theorem lead_label {α : Type} {B k l L : Nat} {vm : VM} {a : α} {post : α → VM → Prop}
    (hl : C.program[k]? = some (.label l)) (h : C.Ready vm L) (hp : post a vm) : C.Leads B k vm (.ok a) (k + 1) post :=
  .inl ⟨_, vm, Steps.one (.inl rfl) (goes_label hl h), hp⟩

/-- A conditional jump. -/
theorem lead_branch {α : Type} {B k l j L q : Nat} {n : Int} {vm : VM} {σ : Slots} {v : Value} {f : Bool → Result α}
    {post : α → VM → Prop} (hi : C.program[k]? = some (.brnz l n)) (hl : C.program[j]? = some (.label l))
    (h : C.At vm L σ) (hn : C.origin + n.toNat ≤ L) (hL : 0 < L) (hv : σ (L - 1) = some v)
    (hr : ∀ b vm', C.At vm' (L - n.toNat) σ →
      C.Leads B (if b then j + 1 else k + 1) vm' (f b) q post) :
    C.Leads (B + 1) k vm (Eval.truth v >>= f) q post := by
  obtain ⟨o, h1, h2, h3⟩ := h.operand (k := L - 1) (by omega) hv
  have e1 : ((L : Int) - (L - 1 : Nat)).toNat = 1 := by omega
  rw [e1] at h1
  have hh := h.ready.height
  have hu := h.ready.upHeight
  have key : ∀ b : Bool, BranchesAsDocumented vm o → (IsFalse vm o ↔ b = false) →
      C.Leads (B + 1) k vm (f b) q post := by
    intro b hdoc hb
    have hgo : ∀ k', C.Next k k' → exec C.env C.cell (C.at_ k) (C.at_ (k + 1))
        (.brnz ((C.off j : Int) - C.off (k + 1) + 1) n.toNat) vm = .ok (.goto (C.at_ k')) (Spec.popped vm n.toNat) →
        C.Steps 1 (k, vm) (k', Spec.popped vm n.toNat) := by
      intro k' hk' hx
      have := Steps.one (C := C) (k := k) hk' ⟨h.ready.code, _, ⟨_, hi, .inr (.inr ⟨l, j, .w8,
        (C.off j : Int) - C.off (k + 1) + 1, rfl, hl, rfl, by simp only [landing, Option.some.injEq]; omega⟩)⟩, hx⟩
      rwa [weight_branch hi] at this
    obtain ⟨g1, g2⟩ := C35_branching_partial C.env C.cell (C.at_ k) (C.at_ (k + 1)) vm h.ready.good.sound
      ((C.off j : Int) - C.off (k + 1) + 1) n.toNat o h1 (by omega) (by omega) hdoc
    have hp := h.popped hn
    refine Leads.after (n := 1) (B' := B) (q := if b then j + 1 else k + 1) ?_ (by omega)
      (hr b (Spec.popped vm n.toNat) hp)
    cases b
    · exact hgo _ (.inl rfl) (g2 (hb.2 rfl))
    · have := g1 (fun hf => by simpa using hb.1 hf)
      have e : ({ C.at_ (k + 1) with off := (C.at_ (k + 1)).off + ((C.off j : Int) - C.off (k + 1) + 1) - 1 } : CodePtr) =
          C.at_ j := by
        unfold at_
        dsimp only
        rw [show (C.off (k + 1) : Int) + ((C.off j : Int) - C.off (k + 1) + 1) - 1 = C.off j by omega]
      rw [e] at this
      have h2 := (hgo _ (next_jump hi rfl hl) this).trans (Steps.one (.inl rfl) (goes_label hl hp.ready))
      rw [weight_label hl] at h2
      exact h2
  cases h2 with
  | nil => exact key false trivial (by simp [IsFalse])
  | bool b => exact key (decide (b ≠ 0)) trivial (by simp [IsFalse])
  | int i => exact key (decide (i ≠ 0)) trivial (by simp [IsFalse])
  | float x =>
    refine key (!Float64.isZero x) trivial ?_
    simp only [IsFalse, Bool.not_eq_false']
    exact isZero_iff.symm
  | symbol h hp => exact key true trivial (by simp [IsFalse])
  | @string r n s hs =>
    cases s with
    | nil => trivial
    | cons c s =>
      have : ¬ IsFalse vm (.string (some r) 0 n) := by simp only [IsFalse]; rw [hs]; simp
      exact key true this (by simpa using this)
  | @slice p off len s hs =>
    cases s with
    | nil => trivial
    | cons c s =>
      have : ¬ IsFalse vm (.string p off len) := by simp only [IsFalse]; rw [hs]; simp
      exact key true this (by simpa using this)
  | pair h ha hd => exact key true trivial (by simp [IsFalse])
  | type n => trivial
  | function h => exact key true trivial (by simp [IsFalse])
  | unknown => trivial

end Setup

end DuckLisp.Compile
