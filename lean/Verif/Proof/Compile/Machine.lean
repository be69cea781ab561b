import Verif.Spec.Eval
import Verif.Props.Asm.Running
import Verif.Spec.Peephole
import Verif.Spec.Run
import Verif.Proof.VM.Strings
import Verif.Proof.Compile.Code

/-!
# Running assembled code from instruction to instruction
-/

namespace DuckLisp.Compile

open DuckLisp DuckLisp.VM DuckLisp.Asm DuckLisp.Spec DuckLisp.Spec.Eval DuckLisp.Props

/-- A program, with its code in the machine, and a call of one of its functions, or its own execution, with all that
was in the machine before.  Positions in the program are indices of instructions; `off` says where an instruction is in
the code.  The places on the stack are counted from `origin`. -/
structure Setup where
  env : VM.Env
  cell : Nat
  serial : Nat
  strip : Bool
  program : List Ins
  bytes : Bytes
  off : Nat → Nat
  ids : Reading
  memory : Bool
  below : List Obj
  origin : Nat
  kept : Obj → Value → Prop
  callStack : List Frame
  upArrays : List UpArray
  hids : ∀ name name' id id', ids.number name id → ids.number name' id' → (name = name' ↔ id = id')
  hints : ∀ v, .pushInteger v ∈ program → -2 ^ 63 ≤ v ∧ v < 2 ^ 63
  hsymbols : ∀ id len name, .pushSymbol id len name ∈ program → name.length < 65535 → ids.number name id.toNat
  hkept : ∀ o v, kept o v → o ∈ below

namespace Setup

variable (C : Setup)

/-- The height of the stack before. -/
def base : Nat := C.below.length

/-- The position of an instruction. -/
def at_ (k : Nat) : CodePtr := ⟨C.cell, C.serial, C.off k⟩

/-- The place of a slot on the stack. -/
def pos (k : Nat) : Nat := C.base + k - C.origin

/-- The machine is in order, has the code, and values on the stack up to slot `L`. -/
structure Ready (vm : VM) (L : Nat) : Prop where
  good : Good vm
  origin : C.origin ≤ L
  height : vm.stack.length = C.base + L - C.origin
  upHeight : vm.upStack.length = C.base + L - C.origin
  running : vm.currentBytecode = some C.cell
  code : HasCode vm ⟨C.cell, C.serial, 0⟩ C.bytes
  callStack : vm.callStack = C.callStack
  upArrays : vm.upArrays = C.upArrays

/-- What instruction `k` is in the code. -/
def Means (k : Nat) (m : Instr) : Prop :=
  ∃ i, C.program[k]? = some i ∧
    (meaning C.strip i = some m ∨ (∃ l, i = .label l ∧ m = .nop) ∨
      ∃ l j w d, labelOf i = some l ∧ C.program[j]? = some (.label l) ∧ addressed w d i = some m ∧
        landing (C.off k) (C.off (k + 1)) m = some (C.off j : Int))

/-- Instruction `k` has this outcome. -/
def Goes (k : Nat) (vm : VM) (r : Out Ctl) : Prop :=
  HasCode vm ⟨C.cell, C.serial, 0⟩ C.bytes ∧
    ∃ m, C.Means k m ∧ exec C.env C.cell (C.at_ k) (C.at_ (k + 1)) m vm = r

/-- Instruction `k` is not one of those that only push or pop. -/
def Loud (k : Nat) : Prop := ∃ i, C.program[k]? = some i ∧ quiet C.strip i = false

/-- Instructions that count: jumps, branches and calls. -/
def weight (k : Nat) : Nat :=
  match C.program[k]? with
  | some (.jump _) => 1
  | some (.brnz ..) => 1
  | some (.funcall ..) => 1
  | some (.apply ..) => 1
  | _ => 0

/-- Where control may be after instruction `k`: at the next, or if `k` is loud, at or after a loud one. -/
def Next (k k' : Nat) : Prop := k' = k + 1 ∨ C.Loud k ∧ (C.Loud (k' - 1) ∨ C.Loud k')

/-- Steps from instruction to instruction, and how many of them were jumps, branches or calls. -/
inductive Steps : Nat → Nat × VM → Nat × VM → Prop
  | refl (a) : Steps 0 a a
  | step {n k vm k' vm' b} (hn : C.Next k k') (h : C.Goes k vm (.ok (.goto (C.at_ k')) vm')) (hs : Steps n (k', vm') b) :
      Steps (C.weight k + n) (k, vm) b

variable {C} in
theorem Steps.trans {n m a b c} (h : C.Steps n a b) (h' : C.Steps m b c) : C.Steps (n + m) a c := by
  induction h with
  | refl => simpa using h'
  | @step n _ _ _ _ _ hn h _ ih => rw [Nat.add_assoc]; exact .step hn h (ih h')

variable {C} in
theorem Steps.one {k vm k' vm'} (hn : C.Next k k') (h : C.Goes k vm (.ok (.goto (C.at_ k')) vm')) :
    C.Steps (C.weight k) (k, vm) (k', vm') := .step hn h (.refl _)

/-- The memory runs out. -/
def RunsOut (k : Nat) (vm : VM) : Prop :=
  C.memory = true ∧ ∃ n k' vm', C.Steps n (k, vm) (k', vm') ∧ C.Loud k' ∧
    ((HasCode vm' ⟨C.cell, C.serial, 0⟩ C.bytes ∧ Full vm') ∨ ∃ s, C.Goes k' vm' (.err .outOfMemory s))

/-- Control gets from `k` to `q` as the result says. -/
def Leads {α : Type} (B k : Nat) (vm : VM) (r : Result α) (q : Nat) (post : α → VM → Prop) : Prop :=
  match r with
  | .ok a => (∃ n vm', C.Steps n (k, vm) (q, vm') ∧ post a vm') ∨ C.RunsOut k vm
  | .error e => (∃ n k' vm' s, C.Steps n (k, vm) (k', vm') ∧ C.Loud k' ∧ C.Goes k' vm' (.err e s)) ∨ C.RunsOut k vm
  | .undefined => (∃ n k' vm', C.Steps n (k, vm) (k', vm') ∧ C.Loud k' ∧ C.Goes k' vm' .ub) ∨ C.RunsOut k vm
  | .unfinished => (∃ n k' vm', B ≤ n ∧ C.Steps n (k, vm) (k', vm')) ∨ C.RunsOut k vm
  | .outside => True

variable {C}

theorem RunsOut.after {n k q vm vm'} (h : C.Steps n (k, vm) (q, vm'))
    (ho : C.RunsOut q vm') : C.RunsOut k vm := by
  obtain ⟨hm, m, ip, s, h1, h2⟩ := ho
  exact ⟨hm, n + m, ip, s, Steps.trans h h1, h2⟩

theorem Leads.after {α : Type} {B B' n k q q' : Nat} {vm vm' : VM} {r : Result α} {post : α → VM → Prop}
    (h : C.Steps n (k, vm) (q, vm')) (hB : B ≤ n + B')
    (h' : C.Leads B' q vm' r q' post) : C.Leads B k vm r q' post := by
  cases r with
  | ok a =>
    rcases h' with ⟨m, s, h1, h2⟩ | h'
    · exact .inl ⟨n + m, s, h.trans h1, h2⟩
    · exact .inr (h'.after h)
  | error e =>
    rcases h' with ⟨m, ip, s, s', h1, h2⟩ | h'
    · exact .inl ⟨n + m, ip, s, s', h.trans h1, h2⟩
    · exact .inr (h'.after h)
  | undefined =>
    rcases h' with ⟨m, ip, s, h1, h2⟩ | h'
    · exact .inl ⟨n + m, ip, s, h.trans h1, h2⟩
    · exact .inr (h'.after h)
  | unfinished =>
    rcases h' with ⟨m, ip, s, h1, h2⟩ | h'
    · exact .inl ⟨n + m, ip, s, by omega, h.trans h2⟩
    · exact .inr (h'.after h)
  | outside => trivial

theorem Leads.bind {α β : Type} {B k q q' : Nat} {vm : VM} {r : Result α} {f : α → Result β}
    {post : α → VM → Prop} {post' : β → VM → Prop} (h : C.Leads B k vm r q post)
    (hf : ∀ a vm', post a vm' → C.Leads B q vm' (f a) q' post') : C.Leads B k vm (r >>= f) q' post' := by
  cases r with
  | ok a =>
    rcases h with ⟨n, vm', h1, h2⟩ | h
    · exact Leads.after h1 (Nat.le_add_left _ _) (hf a vm' h2)
    · show C.Leads B k vm (f a) q' post'
      cases f a <;> first | exact .inr h | trivial
  | error e => exact h
  | undefined => exact h
  | unfinished => exact h
  | outside => trivial

theorem Leads.imp {α : Type} {B k q : Nat} {vm : VM} {r : Result α} {post post' : α → VM → Prop}
    (h : C.Leads B k vm r q post) (hp : ∀ a vm', post a vm' → post' a vm') : C.Leads B k vm r q post' := by
  cases r with
  | ok a =>
    rcases h with ⟨n, vm', h1, h2⟩ | h
    · exact .inl ⟨n, vm', h1, hp a vm' h2⟩
    · exact .inr h
  | error e => exact h
  | undefined => exact h
  | unfinished => exact h
  | outside => trivial

theorem Leads.bound {α : Type} {B B' k q : Nat} {vm : VM} {r : Result α} {post : α → VM → Prop}
    (h : C.Leads B k vm r q post) (hB : B' ≤ B) : C.Leads B' k vm r q post :=
  Leads.after (.refl _) (by omega) h

theorem Leads.done {α : Type} {B k : Nat} {vm : VM} {a : α} {post : α → VM → Prop} (h : post a vm) :
    C.Leads B k vm (.ok a) k post := .inl ⟨0, vm, .refl _, h⟩

/-- The value is the only thing that changes. -/
theorem Leads.pure {α : Type} {B k q : Nat} {vm : VM} {a : α} {r : Result α} {post : α → VM → Prop} (hr : r = .ok a)
    (h : C.Leads B k vm (.ok a) q post) : C.Leads B k vm r q post := hr ▸ h

/-! ### The code -/

/-- The program has this code at `p`. -/
def Has (C : Setup) (p : Nat) (code : List Ins) : Prop := ∀ j i, code[j]? = some i → C.program[p + j]? = some i

theorem Has.left {p : Nat} {a b : List Ins} (h : C.Has p (a ++ b)) : C.Has p a := by
  intro j i hj
  refine h j i ?_
  rw [List.getElem?_append_left (List.getElem?_eq_some_iff.1 hj).1, hj]

theorem Has.right {p : Nat} {a b : List Ins} (h : C.Has p (a ++ b)) : C.Has (p + a.length) b := by
  intro j i hj
  rw [Nat.add_assoc]
  refine h _ i ?_
  rw [List.getElem?_append_right (Nat.le_add_right _ _), Nat.add_sub_cancel_left, hj]

theorem Has.head {p : Nat} {i : Ins} {b : List Ins} (h : C.Has p (i :: b)) : C.program[p]? = some i :=
  h 0 i rfl

theorem Has.tail {p : Nat} {i : Ins} {b : List Ins} (h : C.Has p (i :: b)) : C.Has (p + 1) b := by
  intro j k hj
  have := h (j + 1) k (by simpa using hj)
  rwa [← Nat.add_assoc, Nat.add_right_comm] at this

theorem goes_plain {k L : Nat} {i : Ins} {m : Instr} {vm : VM} {r : Out Ctl} (hi : C.program[k]? = some i)
    (hm : meaning C.strip i = some m) (h : C.Ready vm L)
    (hr : exec C.env C.cell (C.at_ k) (C.at_ (k + 1)) m vm = r) : C.Goes k vm r :=
  ⟨h.code, m, ⟨i, hi, .inl hm⟩, hr⟩

theorem goes_label {k l L : Nat} {vm : VM} (hi : C.program[k]? = some (.label l)) (h : C.Ready vm L) :
    C.Goes k vm (.ok (.goto (C.at_ (k + 1))) vm) :=
  ⟨h.code, .nop, ⟨_, hi, .inr (.inl ⟨l, rfl, rfl⟩)⟩, rfl⟩

theorem weight_label {k l : Nat} (hi : C.program[k]? = some (.label l)) : C.weight k = 0 := by
  unfold weight; rw [hi]

theorem weight_jump {k l : Nat} (hi : C.program[k]? = some (.jump l)) : C.weight k = 1 := by
  unfold weight; rw [hi]

theorem weight_branch {k l : Nat} {n : Int} (hi : C.program[k]? = some (.brnz l n)) : C.weight k = 1 := by
  unfold weight; rw [hi]

theorem weight_funcall {k : Nat} {a n : Int} (hi : C.program[k]? = some (.funcall a n)) : C.weight k = 1 := by
  unfold weight; rw [hi]

theorem weight_apply {k : Nat} {a n : Int} (hi : C.program[k]? = some (.apply a n)) : C.weight k = 1 := by
  unfold weight; rw [hi]

theorem goes_jump {k j l L : Nat} {vm : VM} (hi : C.program[k]? = some (.jump l))
    (hj : C.program[j]? = some (.label l)) (h : C.Ready vm L) :
    C.Goes k vm (.ok (.goto (C.at_ j)) vm) := by
  refine ⟨h.code, .jump ((C.off j : Int) - C.off (k + 1)), ⟨_, hi, .inr (.inr ⟨l, j, .w8, (C.off j : Int) - C.off (k + 1), rfl, hj, rfl, ?_⟩)⟩, ?_⟩
  · simp only [landing, Option.some.injEq]; omega
  · show Out.ok (Ctl.goto { C.at_ (k + 1) with off := (C.off (k + 1) : Int) + ((C.off j : Int) - C.off (k + 1)) }) vm = _
    rw [show (C.off (k + 1) : Int) + ((C.off j : Int) - C.off (k + 1)) = C.off j by omega]
    rfl

theorem next_jump {k j l : Nat} {i : Ins} (hi : C.program[k]? = some i) (hq : quiet C.strip i = false)
    (hj : C.program[j]? = some (.label l)) : C.Next k j := .inr ⟨⟨_, hi, hq⟩, .inr ⟨_, hj, rfl⟩⟩

/-! ### Values stay what they are -/

theorem holds_closed {ids : Reading} {vm vm' : VM} {o : Obj} {v : Value} {P : Nat → Prop} (h : Holds ids vm o v)
    (hs : ∀ {r o' c}, P r → vm.heap[r]? = some o' → Mentions o' c → P c)
    (hh : ∀ r, P r → vm'.heap[r]? = vm.heap[r]?) (ho : ∀ r, Mentions o r → P r) : Holds ids vm' o v := by
  induction h with
  | nil => exact .nil
  | bool b => exact .bool b
  | int i => exact .int i
  | float x => exact .float x
  | symbol h hp =>
    refine .symbol h fun r hr => ?_
    subst hr
    rw [hh r (ho r .symbol)]
    exact hp r rfl
  | @string r n s h => exact .string (by rw [← h]; simp only [Spec.text, hh r (ho r .string)])
  | @slice p off len s h =>
    refine .slice ?_
    rw [← h]
    cases p with
    | none => rfl
    | some r => simp only [Spec.text, hh r (ho r .string)]
  | @pair r x y a d h hl _ _ iha ihd =>
    obtain ⟨p, q, hc, hp, hq⟩ := h
    have hr := ho r .list
    have key : ∀ p x, (∀ c, p = some c → P c) → Part vm p x → ∀ c, Mentions x c → P c := by
      intro p x hpr hp c hm
      cases hp with
      | empty => cases hm
      | pair h => cases hm; exact hpr _ rfl
      | value h _ => exact hs (hpr _ rfl) h hm
    have hpr : ∀ c, p = some c → P c := fun c e => hs hr hc (e ▸ .car)
    have hqr : ∀ c, q = some c → P c := fun c e => hs hr hc (e ▸ .cdr)
    refine .pair ⟨p, q, (hh r hr).trans hc, ?_, ?_⟩ (fun l e => by rw [hh r hr]; exact hl l e) (iha (key p x hpr hp)) (ihd (key q y hqr hq))
    · exact part_congr hp fun c e => hh c (hpr c e)
    · exact part_congr hq fun c e => hh c (hqr c e)
  | type n => exact .type n
  | function h => exact .function h
  | unknown o => exact .unknown o

theorem holds_congr {ids : Reading} {vm vm' : VM} {o : Obj} {v : Value} (h : Holds ids vm o v)
    (hh : ∀ r, Reachable vm r → vm'.heap[r]? = vm.heap[r]?) (ho : ∀ r, Mentions o r → Reachable vm r) :
    Holds ids vm' o v := holds_closed h .step hh ho

/-- As long as nothing that belongs to it changes. -/
theorem holds_used {ids : Reading} {vm vm' : VM} {o : Obj} {v : Value} (h : Holds ids vm o v)
    (hh : ∀ r, Used vm o r → vm'.heap[r]? = vm.heap[r]?) : Holds ids vm' o v :=
  holds_closed h .step hh fun _ => .direct

theorem holds_heap {ids : Reading} {vm vm' : VM} {o : Obj} {v : Value} (hh : vm'.heap = vm.heap)
    (h : Holds ids vm o v) : Holds ids vm' o v := by
  induction h with
  | nil => exact .nil
  | bool b => exact .bool b
  | int i => exact .int i
  | float x => exact .float x
  | symbol h hp => exact .symbol h fun r hr => by rw [hh]; exact hp r hr
  | @string r n s h => exact .string (by rw [← h]; simp only [Spec.text, hh])
  | @slice p off len s h => exact .slice (by rw [← h]; simp only [Spec.text, hh])
  | @pair r x y a d h hl _ _ iha ihd =>
    obtain ⟨p, q, hc, hp, hq⟩ := h
    exact .pair ⟨p, q, by rw [hh]; exact hc, part_congr hp fun c _ => by rw [hh],
      part_congr hq fun c _ => by rw [hh]⟩ (fun l e => by rw [hh]; exact hl l e) iha ihd
  | type n => exact .type n
  | function h => exact .function h
  | unknown o => exact .unknown o

/-- The values on the stack of `vm` are the same in `vm'`. -/
def Stays (C : Setup) (vm vm' : VM) : Prop := ∀ o ∈ vm.stack, ∀ v, Holds C.ids vm o v → Holds C.ids vm' o v

theorem stays_heap {vm vm' : VM} (h : vm'.heap = vm.heap) : C.Stays vm vm' := fun _ _ _ => holds_heap h

theorem stays_extends {vm vm' : VM} (hg : Good vm) (h : Extends vm vm') : C.Stays vm vm' := fun o ho _ hv =>
  holds_congr hv (fun r hr => h.heap r (traced_of_reachable hg.sound hg.finished hr))
    (fun r hr => .root (.stack ho hr))

theorem hasCode_extends {vm vm' : VM} {L : Nat} (h : C.Ready vm L) (he : Extends vm vm') :
    HasCode vm' ⟨C.cell, C.serial, 0⟩ C.bytes := by
  obtain ⟨b, n, h1, h2, h3⟩ := h.code
  exact ⟨b, n, (he.heap _ (traced_running h.running)).trans h1, h2, h3⟩

/-- A new value on top. -/
theorem Ready.push {vm vm' : VM} {L : Nat} {o : Obj} (h : C.Ready vm L) (hg : Good vm') (he : Extends vm vm')
    (hs : vm'.stack = vm.stack ++ [o]) (hu : vm'.upStack = vm.upStack ++ [none]) : C.Ready vm' (L + 1) := by
  have := h.origin
  exact ⟨hg, by omega, by rw [hs]; simp [h.height]; omega, by rw [hu]; simp [h.upHeight]; omega,
    by rw [he.currentBytecode]; exact h.running, hasCode_extends h he, he.callStack.trans h.callStack,
    he.upArrays.trans h.upArrays⟩

theorem Ready.pushed {vm : VM} {L : Nat} {o : Obj} (h : C.Ready vm L) (ho : ValueOk vm o) :
    C.Ready (Spec.pushed vm o) (L + 1) :=
  h.push (h.good.pushed ho) (Extends.refl vm |>.pushed o) rfl rfl

theorem Ready.popped {vm : VM} {L n : Nat} (h : C.Ready vm L) (hn : C.origin + n ≤ L) :
    C.Ready (Spec.popped vm n) (L - n) := by
  have h1 := h.height
  have h2 := h.upHeight
  refine ⟨h.good.stacks _ _ (fun o ho => h.good.sound.stack o (List.mem_of_mem_take ho))
    (fun r hr => h.good.sound.captured r (List.mem_of_mem_take hr)), by omega, ?_, ?_, h.running, h.code, h.callStack,
    h.upArrays⟩
  · simp [Spec.popped]; omega
  · simp [Spec.popped]; omega

theorem Ready.set {vm : VM} {L k : Nat} {o : Obj} (h : C.Ready vm L) (ho : ValueOk vm o) :
    C.Ready { vm with stack := vm.stack.set k o } L := by
  refine ⟨h.good.stacks (vm.stack.set k o) vm.upStack (fun o' ho' => ?_) h.good.sound.captured, h.origin,
    by simpa using h.height, h.upHeight, h.running, h.code, h.callStack, h.upArrays⟩
  rcases List.mem_or_eq_of_mem_set ho' with h1 | h1
  · exact h.good.sound.stack o' h1
  · exact h1 ▸ ho

end Setup

end DuckLisp.Compile
