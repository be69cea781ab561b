import Verif.Spec.Peephole
import Verif.Proof.Asm.Total
import Verif.Proof.VM.Truth

/-!
# Lemmas about the removal of pushes followed by pops
-/

namespace DuckLisp.Asm

open DuckLisp DuckLisp.VM DuckLisp.Spec

/-! ### The rewriting -/

theorem step_of_not_pop {a b : Ins} (h : ∀ n, b ≠ .pop n) : peepholeStep a b = (a, b) := by
  unfold peepholeStep
  split
  · exact absurd rfl (h _)
  · rfl

theorem step_of_other {a b : Ins} (h1 : a.onlyPushes = false) (h2 : ∀ n, a ≠ .pop n) :
    peepholeStep a b = (a, b) := by
  unfold peepholeStep
  split
  · rw [if_neg (by rw [h1]; simp)]
    split
    · exact absurd rfl (h2 _)
    · rfl
  · rfl

/-- Nothing happens across the border of two parts. -/
def Border (a b : List Ins) : Prop :=
  (∀ y n, b.head? = some y → y ≠ .pop n) ∨
    ∀ x, a.getLast? = some x → x.onlyPushes = false ∧ ∀ n, x ≠ .pop n

theorem peephole_append : ∀ (n : Nat) (a b : List Ins), a.length = n → Border a b →
    peephole (a ++ b) = peephole a ++ peephole b := by
  intro n
  induction n with
  | zero =>
    intro a b ha _
    rw [List.length_eq_zero_iff] at ha
    subst ha
    simp [peephole]
  | succ n ih =>
    intro a b ha hb
    match a, ha with
    | [x], _ =>
      cases b with
      | nil => simp [peephole]
      | cons y b =>
        have hs : peepholeStep x y = (x, y) := by
          rcases hb with hb | hb
          · exact step_of_not_pop fun n => hb y n rfl
          · exact step_of_other (hb x rfl).1 (hb x rfl).2
        show peephole (x :: y :: b) = _
        rw [peephole, hs]
        simp [peephole]
    | x1 :: x2 :: rest, ha =>
      show peephole (x1 :: x2 :: (rest ++ b)) = _
      rw [peephole]
      have := ih ((peepholeStep x1 x2).2 :: rest) b (by simp at ha ⊢; omega) (by
        rcases hb with hb | hb
        · exact .inl hb
        · refine .inr fun x hx => ?_
          cases rest with
          | nil =>
            obtain ⟨h1, h2⟩ := hb x2 (by simp)
            rw [step_of_not_pop h2] at hx
            cases hx
            exact ⟨h1, h2⟩
          | cons r rest => exact hb x (by simpa [List.getLast?_cons] using hx))
      rw [List.cons_append] at this
      rw [this, peephole]
      rfl

/-! ### What blocks do -/

variable {env : Env} {strip : Bool} {bc : Nat} {ip : CodePtr}

theorem perform1_pop {n : Int} {vm : VM} :
    perform1 env strip bc ip (.pop n) vm = popMany n.toNat vm := by
  show (do let _ ← (do popMany n.toNat; return Ctl.goto ip : M Ctl); pure () : M Unit) vm = _
  rw [M.bind_run, M.bind_run]
  cases popMany n.toNat vm <;> rfl

theorem unary_pure_pushed {a : Nat} {vm vm' : VM} (h : unary a pure vm = .ok () vm') :
    ∃ o, vm' = pushed vm o := by
  unfold unary at h
  rw [M.bind_eq_ok] at h
  obtain ⟨o, s1, h1, h⟩ := h
  obtain ⟨rfl, -⟩ := getArg_ok h1
  rw [M.bind_ok (M.pure_run _ _)] at h
  cases h
  exact ⟨o, rfl⟩

theorem pushPtr_pushed {p : Option Nat} {vm vm' : VM} (h : pushPtr p vm = .ok () vm') :
    ∃ o, vm' = pushed vm o := by
  unfold pushPtr at h
  cases p with
  | none => cases h; exact ⟨_, rfl⟩
  | some r =>
    dsimp only at h
    rw [M.bind_eq_ok] at h
    obtain ⟨o, s1, h1, h⟩ := h
    have h1 : M.need vm.heap[r]? vm = .ok o s1 := h1
    cases hr : vm.heap[r]? with
    | none => rw [hr] at h1; cases h1
    | some o' =>
      rw [hr] at h1
      cases h1
      cases h
      exact ⟨_, rfl⟩

/-- Reads and does not change anything. -/
def Reads {α : Type} (m : M α) : Prop := ∀ vm vm' a, m vm = .ok a vm' → vm' = vm

theorem reads_bind {α β : Type} {m : M α} {f : α → M β} (h1 : Reads m) (h2 : ∀ a, Reads (f a)) :
    Reads (m >>= f) := by
  intro vm vm' b h
  rw [M.bind_eq_ok] at h
  obtain ⟨a, s1, h3, h4⟩ := h
  cases h1 _ _ _ h3
  exact h2 a _ _ _ h4

theorem reads_pure {α : Type} (a : α) : Reads (pure a) := by
  intro vm vm' b h; cases h; rfl
theorem reads_throw {α : Type} (e : DlError) : Reads (M.throw e : M α) := by
  intro vm vm' b h; cases h
theorem reads_ub {α : Type} : Reads (M.ub : M α) := by
  intro vm vm' b h; cases h
theorem reads_diverge {α : Type} : Reads (M.diverge : M α) := by
  intro vm vm' b h; cases h
theorem reads_need {α : Type} (o : Option α) : Reads (M.need o) := by
  cases o
  · exact reads_ub
  · exact reads_pure _
theorem reads_readCell (r : Nat) : Reads (readCell r) := by
  intro vm vm' b h
  exact reads_need _ vm vm' b h

theorem reads_chase {a b : M Upvalue} (ha : Reads a) (hb : Reads b) : ∀ (n : Nat) (p : Option Nat),
    Reads (chase a b n p)
  | 0, _ => reads_diverge
  | _ + 1, none => ha
  | n + 1, some r => by
    unfold chase
    refine reads_bind (reads_readCell r) fun o => ?_
    split
    · exact reads_chase ha hb n _
    · exact reads_pure _
    · exact hb

theorem upvalue_pushed {j : Nat} {vm vm' : VM} (h : iPushUpvalue j vm = .ok () vm') :
    ∃ o, vm' = pushed vm o := by
  unfold iPushUpvalue at h
  rw [M.bind_eq_ok] at h
  obtain ⟨u, s1, h1, h⟩ := h
  have e1 : s1 = vm := by
    unfold topUpArray at h1
    split at h1 <;> cases h1
    rfl
  subst e1
  rw [M.bind_eq_ok] at h
  obtain ⟨p, s2, h2, h⟩ := h
  have e2 : s2 = s1 := by
    unfold upvalueAt at h2
    split at h2
    · cases h2
    · split at h2
      · split at h2
        · exact reads_need _ _ _ _ h2
        · cases h2
      · cases h2
  subst e2
  rw [M.bind_eq_ok] at h
  obtain ⟨n, s3, h3, h⟩ := h
  cases h3
  rw [M.bind_eq_ok] at h
  obtain ⟨c, s4, h4, h⟩ := h
  cases reads_chase (reads_throw _) (reads_throw _) _ _ _ _ _ h4
  cases c with
  | stackIndex i =>
    dsimp only at h
    rw [M.bind_eq_ok] at h
    obtain ⟨o, s5, h5, h⟩ := h
    have : s5 = s2 := by
      unfold getAbs at h5
      split at h5
      · cases hg : s2.stack[i.toNat]? with
        | none => rw [hg] at h5; cases h5
        | some o' => rw [hg] at h5; cases h5; rfl
      · cases h5
    subst this
    cases h
    exact ⟨_, rfl⟩
  | heapObject p =>
    dsimp only at h
    rw [M.bind_eq_ok] at h
    obtain ⟨o, s5, h5, h⟩ := h
    cases reads_bind (reads_need _) (fun r => reads_readCell r) _ _ _ h5
    cases h
    exact ⟨_, rfl⟩
  | heapUpvalue p => cases h

theorem perform1_eq {i : Ins} {m : Instr} (hm : meaning strip i = some m) (hp : IsPlain m) (vm : VM) :
    perform1 env strip bc ip i vm = VM.plain env bc ip m vm := by
  have h : perform1 env strip bc ip i vm = (do let _ ← exec env bc ip ip m; pure () : M Unit) vm := by
    unfold perform1
    split
    · cases hm
    · cases hm
    · rw [hm]
  rw [h, exec_plain hp, M.bind_run, M.bind_run]
  cases VM.plain env bc ip m vm <;> rfl

theorem perform1_inv {i : Ins} {m : Instr} {vm : VM} {x : Out Unit}
    (h : perform1 env strip bc ip i vm = x) (hm : meaning strip i = some m) (hp : IsPlain m) :
    VM.plain env bc ip m vm = x := by rw [← h, perform1_eq hm hp]

theorem perform1_push {i : Ins} (hi : pushesValue strip i = true) {vm vm' : VM}
    (h : perform1 env strip bc ip i vm = .ok () vm') : ∃ o, vm' = pushed vm o := by
  cases i <;> first | (cases hi; done) | skip
  case nil => have h := perform1_inv h rfl (by exact trivial); cases h; exact ⟨_, rfl⟩
  case pushBoolean => have h := perform1_inv h rfl (by exact trivial); cases h; exact ⟨_, rfl⟩
  case pushInteger => have h := perform1_inv h rfl (by exact trivial); cases h; exact ⟨_, rfl⟩
  case pushFloat => have h := perform1_inv h rfl (by exact trivial); cases h; exact ⟨_, rfl⟩
  case pushStrippedSymbol => have h := perform1_inv h rfl (by exact trivial); cases h; exact ⟨_, rfl⟩
  case pushIndex => have h := perform1_inv h rfl (by exact trivial); exact unary_pure_pushed h
  case pushUpvalue => have h := perform1_inv h rfl (by exact trivial); exact upvalue_pushed h
  case pushGlobal =>
    have g := perform1_inv h rfl (by exact trivial)
    simp only [VM.plain] at g
    rw [M.bind_eq_ok] at g
    obtain ⟨p, s1, h1, g⟩ := g
    have : s1 = vm := by
      unfold globalGet at h1
      split at h1 <;> cases h1
      rfl
    rw [this] at g
    exact pushPtr_pushed g
  case pushSymbol id len name =>
    have hs : strip = true := hi
    subst hs
    have h := perform1_inv h rfl (by exact trivial); cases h; exact ⟨_, rfl⟩

/-- The second outcome is like the first: it ends in the same state, or with the same error. -/
def Same (x y : Out Unit) : Prop :=
  match x with
  | .ok _ s => y = .ok () s
  | .err e _ => ∃ s, y = .err e s
  | _ => False

theorem same_popMany (n : Nat) (vm : VM) : Same (popMany n vm) (popMany n vm) := by
  simp only [popMany]
  split
  · exact ⟨_, rfl⟩
  · split
    · exact ⟨_, rfl⟩
    · exact rfl

theorem popMany_zero (vm : VM) : popMany 0 vm = .ok () vm := by
  simp [popMany]

theorem same_push_pop (n : Nat) (vm : VM) (o : Obj) :
    Same (popMany (n + 1) (pushed vm o)) (popMany n vm) := by
  simp only [popMany, pushed, List.length_append, List.length_singleton]
  by_cases h1 : vm.upStack.length < n
  · rw [if_pos (by omega), if_pos h1]
    exact ⟨_, rfl⟩
  · rw [if_neg (by omega), if_neg h1]
    by_cases h2 : vm.stack.length < n
    · rw [if_pos (by omega), if_pos h2]
      exact ⟨_, rfl⟩
    · rw [if_neg (by omega), if_neg h2]
      show _ = _
      rw [show vm.upStack.length + 1 - (n + 1) = vm.upStack.length - n by omega,
        show vm.stack.length + 1 - (n + 1) = vm.stack.length - n by omega,
        List.take_append_of_le_length (by omega), List.take_append_of_le_length (by omega)]

theorem same_pop_pop (m n : Nat) (vm : VM) :
    Same ((popMany m >>= fun _ => popMany n) vm) (popMany (m + n) vm) := by
  rw [M.bind_run]
  simp only [popMany]
  by_cases h1 : vm.upStack.length < m
  · rw [if_pos h1, if_pos (by omega)]
    exact ⟨_, rfl⟩
  · rw [if_neg h1]
    by_cases h2 : vm.stack.length < m
    · rw [if_pos h2]
      by_cases h3 : vm.upStack.length < m + n
      · rw [if_pos h3]; exact ⟨_, rfl⟩
      · rw [if_neg h3, if_pos (by omega)]; exact ⟨_, rfl⟩
    · rw [if_neg h2]
      simp only [List.length_take]
      by_cases h3 : vm.upStack.length < m + n
      · rw [if_pos h3, if_pos (by omega)]; exact ⟨_, rfl⟩
      · rw [if_neg h3, if_neg (by omega)]
        by_cases h4 : vm.stack.length < m + n
        · rw [if_pos h4, if_pos (by omega)]; exact ⟨_, rfl⟩
        · rw [if_neg h4, if_neg (by omega)]
          show _ = _
          rw [List.take_take, List.take_take]
          congr 3 <;> congr 1 <;> omega

theorem perform_two (a b : Ins) (vm : VM) : perform env strip bc ip [a, b] vm =
    (perform1 env strip bc ip a >>= fun _ => perform1 env strip bc ip b) vm := by
  simp only [perform]
  rw [M.bind_run, M.bind_run]
  cases perform1 env strip bc ip a vm with
  | ok _ s =>
    dsimp only
    rw [M.bind_run]
    cases perform1 env strip bc ip b s <;> rfl
  | _ => rfl

theorem perform_cons (a : Ins) (is : List Ins) (vm : VM) : perform env strip bc ip (a :: is) vm =
    (perform1 env strip bc ip a >>= fun _ => perform env strip bc ip is) vm := rfl

theorem quiet_outcome {i : Ins} (hq : quiet strip i = true) {vm : VM}
    (hs : pushesValue strip i = true → ∃ vm', perform1 env strip bc ip i vm = .ok () vm') :
    Same (perform1 env strip bc ip i vm) (perform1 env strip bc ip i vm) := by
  by_cases hp : pushesValue strip i = true
  · obtain ⟨vm', h⟩ := hs hp
    rw [h]
    exact rfl
  · cases i <;> first
      | exact absurd hq hp
      | rfl
      | skip
    case pop n => rw [perform1_pop]; exact same_popMany _ _

theorem onlyPushes_quiet {i : Ins} (h : i.onlyPushes = true) (hq : quiet strip i = true) :
    pushesValue strip i = true := by
  cases i <;> first | rfl | (cases h; done) | exact hq

theorem pushes_onlyPushes {i : Ins} (h : pushesValue strip i = true) : i.onlyPushes = true := by
  cases i <;> first | rfl | (cases h; done)

/-- One pair. -/
theorem same_step {a b : Ins} (ha : quiet strip a = true) (hb : quiet strip b = true)
    (h1 : ∀ n, a = .pop n → 1 ≤ n) (h2 : ∀ n, b = .pop n → 1 ≤ n) (h3 : pops a + pops b < 2 ^ 31)
    {vm : VM} (hs : PushesSucceed env strip bc ip [a, b] vm) :
    Same (perform env strip bc ip [a, b] vm)
      (perform env strip bc ip [(peepholeStep a b).1, (peepholeStep a b).2] vm) ∧
    PushesSucceed env strip bc ip [(peepholeStep a b).1, (peepholeStep a b).2] vm := by
  have unchanged : peepholeStep a b = (a, b) → Same (perform env strip bc ip [a, b] vm)
      (perform env strip bc ip [(peepholeStep a b).1, (peepholeStep a b).2] vm) ∧
      PushesSucceed env strip bc ip [(peepholeStep a b).1, (peepholeStep a b).2] vm := by
    intro he
    rw [he]
    refine ⟨?_, hs⟩
    dsimp only
    rw [perform_two, M.bind_run]
    have := quiet_outcome ha hs.1
    cases hp : perform1 env strip bc ip a vm with
    | ok u s =>
      dsimp only
      exact quiet_outcome hb (hs.2 s hp).1
    | err e s => exact ⟨_, rfl⟩
    | ub => rw [hp] at this; exact this
    | diverge => rw [hp] at this; exact this
  by_cases hbp : ∃ n, b = .pop n
  · obtain ⟨n, rfl⟩ := hbp
    have hn := h2 n rfl
    by_cases hao : a.onlyPushes = true
    · have hap := onlyPushes_quiet hao ha
      obtain ⟨vm', hv⟩ := hs.1 hap
      obtain ⟨o, rfl⟩ := perform1_push hap hv
      have he : peepholeStep a (.pop n) = (.internalNop, if n - 1 = 0 then .internalNop else .pop (n - 1)) := by
        simp only [peepholeStep]
        rw [if_pos hao]
      rw [he]
      constructor
      · rw [perform_two, M.bind_ok hv, perform1_pop, perform_two,
          M.bind_ok (show perform1 env strip bc ip .internalNop vm = .ok () vm from rfl)]
        have := same_push_pop (n - 1).toNat vm o
        rw [show (n - 1).toNat + 1 = n.toNat by omega] at this
        dsimp only
        split
        · rename_i hz
          rw [hz] at this
          rw [show Int.toNat 0 = 0 from rfl, popMany_zero] at this
          exact this
        · rw [perform1_pop]
          exact this
      · refine ⟨fun h => by simp [pushesValue] at h, fun vm' _ => ⟨fun h => ?_, fun _ _ => trivial⟩⟩
        split at h <;> simp [pushesValue] at h
    · by_cases ham : ∃ m, a = .pop m
      · obtain ⟨m, rfl⟩ := ham
        have hm := h1 m rfl
        have he : peepholeStep (.pop m) (.pop n) = (.internalNop, .pop (m + n)) := by
          simp only [pops] at h3
          simp only [peepholeStep, Ins.onlyPushes]
          have : toInt32 (m + n) = m + n := by
            unfold toInt32
            rw [Int.emod_eq_of_lt (by omega) (by omega)]
            omega
          rw [this]
          rfl
        rw [he]
        constructor
        · rw [perform_two, perform_two,
            M.bind_ok (show perform1 env strip bc ip .internalNop vm = .ok () vm from rfl), perform1_pop,
            show (m + n).toNat = m.toNat + n.toNat by omega]
          have := same_pop_pop m.toNat n.toNat vm
          rw [M.bind_run] at this ⊢
          rw [perform1_pop]
          cases hp : popMany m.toNat vm with
          | ok u s => rw [hp] at this; dsimp only at this ⊢; rw [perform1_pop]; exact this
          | err e s => rw [hp] at this; exact this
          | ub => rw [hp] at this; exact this
          | diverge => rw [hp] at this; exact this
        · exact ⟨fun h => by simp [pushesValue] at h, fun vm' _ => ⟨fun h => by simp [pushesValue] at h, fun _ _ => trivial⟩⟩
      · exact unchanged (step_of_other (by simpa using hao) fun m hm => ham ⟨m, hm⟩)
  · exact unchanged (step_of_not_pop fun n hn => hbp ⟨n, hn⟩)

theorem step_quiet {a b : Ins} (ha : quiet strip a = true) (hb : quiet strip b = true) :
    quiet strip (peepholeStep a b).1 = true ∧ quiet strip (peepholeStep a b).2 = true := by
  obtain ⟨h1, h2⟩ := kept_step a b
  constructor
  · rcases h1 with h | ⟨h | ⟨n, h⟩, _⟩ <;> rw [h] <;> first | assumption | rfl
  · rcases h2 with h | ⟨h | ⟨n, h⟩, _⟩ <;> rw [h] <;> first | assumption | rfl

theorem pops_nonneg {is : List Ins} (h : ∀ n, Ins.pop n ∈ is → 1 ≤ n) : 0 ≤ (is.map pops).sum := by
  induction is with
  | nil => simp
  | cons i is ih =>
    have := ih fun n hn => h n (List.mem_cons_of_mem _ hn)
    rw [List.map_cons, List.sum_cons]
    have : 0 ≤ pops i := by
      cases i <;> simp only [pops, Int.le_refl]
      rename_i n
      have := h n List.mem_cons_self
      omega
    omega

theorem step_pops {a b : Ins} (h1 : ∀ n, a = .pop n → 1 ≤ n) (h2 : ∀ n, b = .pop n → 1 ≤ n)
    (h3 : pops a + pops b < 2 ^ 31) :
    (∀ n, (peepholeStep a b).2 = .pop n → 1 ≤ n) ∧ pops (peepholeStep a b).2 ≤ pops a + pops b := by
  have ha : 0 ≤ pops a := by
    cases a <;> simp only [pops, Int.le_refl]
    have := h1 _ rfl
    omega
  unfold peepholeStep
  split
  · rename_i n
    have hn := h2 n rfl
    split
    · split
      · exact ⟨fun n h => (by cases h), by simp only [pops] at ha ⊢; omega⟩
      · exact ⟨fun n' h => (by cases h; omega), by simp only [pops] at ha ⊢; omega⟩
    · split
      · rename_i m _
        have hm := h1 m rfl
        simp only [pops] at h3
        have : toInt32 (m + n) = m + n := by
          unfold toInt32
          rw [Int.emod_eq_of_lt (by omega) (by omega)]
          omega
        dsimp only
        rw [this]
        exact ⟨fun n' h => (by cases h; omega), by simp only [pops]; omega⟩
      · exact ⟨fun n' h => h2 n' h, by simp only [pops] at ha ⊢; omega⟩
  · exact ⟨fun n' h => h2 n' h, by dsimp only; omega⟩

theorem same_block : ∀ (n : Nat) (b : List Ins), b.length = n → (∀ i ∈ b, quiet strip i = true) →
    FewPops b → ∀ vm, PushesSucceed env strip bc ip b vm →
    Same (perform env strip bc ip b vm) (perform env strip bc ip (peephole b) vm) := by
  intro n
  induction n with
  | zero =>
    intro b hb _ _ vm _
    rw [List.length_eq_zero_iff] at hb
    subst hb
    rw [peephole]
    rfl
  | succ n ih =>
    intro l hl hq hf vm hs
    match l, hl with
    | [a], _ =>
      rw [peephole]
      simp only [perform]
      rw [M.bind_run]
      have := quiet_outcome (hq a List.mem_cons_self) hs.1
      cases hp : perform1 env strip bc ip a vm with
      | ok u s => exact rfl
      | err e s => exact ⟨_, rfl⟩
      | ub => rw [hp] at this; exact this
      | diverge => rw [hp] at this; exact this
    | a :: b :: rest, hl =>
      have ha := hq a (by simp)
      have hb := hq b (by simp)
      have pa : ∀ n, a = .pop n → 1 ≤ n := fun n h => hf.1 n (by simp [h])
      have pb : ∀ n, b = .pop n → 1 ≤ n := fun n h => hf.1 n (by simp [h])
      have hrest := pops_nonneg (is := rest) fun n h => hf.1 n (by simp [h])
      have hsum := hf.2
      simp only [List.map_cons, List.sum_cons] at hsum
      have hs2 : PushesSucceed env strip bc ip [a, b] vm :=
        ⟨hs.1, fun s h => ⟨(hs.2 s h).1, fun _ _ => trivial⟩⟩
      obtain ⟨e1, e2⟩ := same_step ha hb pa pb (by omega) hs2
      obtain ⟨q1, q2⟩ := step_quiet ha hb
      obtain ⟨f1, f2⟩ := step_pops pa pb (by omega)
      rw [peephole]
      generalize (peepholeStep a b).1 = a' at *
      generalize (peepholeStep a b).2 = b' at *
      have key : ∀ t, perform1 env strip bc ip a' vm = .ok () t →
          Same (perform env strip bc ip (b' :: rest) t) (perform env strip bc ip (peephole (b' :: rest)) t) := by
        intro t ht
        refine ih (b' :: rest) (by simp at hl ⊢; omega) ?_ ⟨?_, ?_⟩ t ⟨(e2.2 t ht).1, fun s hbs => ?_⟩
        · intro i hi
          rcases List.mem_cons.1 hi with rfl | hi
          · exact q2
          · exact hq i (by simp [hi])
        · intro m hm
          rcases List.mem_cons.1 hm with h | hm
          · exact f1 m h.symm
          · exact hf.1 m (by simp [hm])
        · rw [List.map_cons, List.sum_cons]
          omega
        · have h2 : perform env strip bc ip [a', b'] vm = .ok () s := by
            rw [perform_two, M.bind_ok ht, hbs]
          rw [h2] at e1
          unfold Same at e1
          split at e1
          · rename_i u s' heq
            cases e1
            rw [perform_two, M.bind_eq_ok] at heq
            obtain ⟨_, s1, g1, g2⟩ := heq
            exact (hs.2 s1 g1).2 _ g2
          · obtain ⟨_, e1⟩ := e1
            cases e1
          · exact e1.elim
      have split3 : ∀ (x y : Ins) (is : List Ins), perform env strip bc ip (x :: y :: is) vm =
          (perform env strip bc ip [x, y] >>= fun _ => perform env strip bc ip is) vm := by
        intro x y is
        rw [M.bind_run, perform_two, M.bind_run, perform_cons, M.bind_run]
        cases perform1 env strip bc ip x vm with
        | ok u s =>
          dsimp only
          rw [perform_cons, M.bind_run]
        | _ => rfl
      rw [split3]
      cases hp : perform env strip bc ip [a, b] vm with
      | ok u s1 =>
        rw [M.bind_ok hp]
        rw [hp] at e1
        have e1 : perform env strip bc ip [a', b'] vm = .ok () s1 := e1
        rw [perform_two, M.bind_eq_ok] at e1
        obtain ⟨_, t, g1, g2⟩ := e1
        have hk := key t g1
        rw [perform_cons, M.bind_ok g2] at hk
        rw [perform_cons, M.bind_ok g1]
        exact hk
      | err e s1 =>
        rw [M.bind_err hp]
        rw [hp] at e1
        obtain ⟨s2, e1⟩ := e1
        rw [perform_two, M.bind_run] at e1
        rw [perform_cons, M.bind_run]
        cases hpa : perform1 env strip bc ip a' vm with
        | ok u t =>
          rw [hpa] at e1
          dsimp only at e1 ⊢
          have hk := key t hpa
          rw [perform_cons, M.bind_err e1] at hk
          exact hk
        | err e' s3 => rw [hpa] at e1; cases e1; exact ⟨_, rfl⟩
        | ub => rw [hpa] at e1; cases e1
        | diverge => rw [hpa] at e1; cases e1
      | ub => rw [hp] at e1; exact e1.elim
      | diverge => rw [hp] at e1; exact e1.elim

end DuckLisp.Asm
