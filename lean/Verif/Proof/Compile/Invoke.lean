import Verif.Proof.Compile.Pieces
import Verif.Props.VM.Apply
import Mathlib.Data.List.Forall2

/-!
# Functions and their calls
-/

namespace DuckLisp.Compile

open DuckLisp DuckLisp.VM DuckLisp.Asm DuckLisp.Spec DuckLisp.Spec.Eval DuckLisp.Reader DuckLisp.Props Setup

/-! ### Making functions -/

theorem post_function {U : Prop} {E : DlError → VM → Prop} {vm : VM} {bc : Nat} {start : CodePtr} {base : Nat}
    {disp : Int} {arity : UInt8} {variadic : Bool} (hg : Good vm) (hbc : Traced vm bc) (hcode : IsCode vm bc start.off start)
    (hE : ∀ s', E .outOfMemory s') :
    Post U E (fun _ s' => ∃ u, Good s' ∧ Extends vm s' ∧ s'.upStack = vm.upStack ++ [none] ∧
        s'.stack = vm.stack ++ [.closure (disp + (start.off + base)) (some bc) (some u) arity variadic])
      (iPushClosure bc start variadic base disp arity [] vm) := by
  obtain ⟨blk, n, hb, hst⟩ := hcode
  unfold iPushClosure
  rw [M.bind_ok (show codeSerial bc vm = .ok blk.serial vm by unfold codeSerial; rw [hb])]
  rw [if_pos (by rw [hst]; exact ⟨rfl, rfl⟩)]
  have hst0 : ∀ k, store k (.upvalueArray none 0) = .upvalueArray none 0 := fun k => rfl
  refine Post.bind (Q := fun cell s => Allocated vm s cell (.upvalueArray none 0) ∧ Finished s) ?_ ?_
  · refine (post_allocCell hg.sound (fun k => ?_) (fun k r _ hm => ?_) (fun s' _ _ _ => hE s')).imp ?_
    · exact ⟨rfl, by simp⟩
    · cases hm
    · rintro r s' ⟨k, h1, h2⟩
      exact ⟨h1, h2 hg.finished (by simp [store, UnderConstruction])⟩
  rintro cell s ⟨al, hf⟩
  have gs : Good s := ⟨al.sound, hf⟩
  have hlive : Live s bc (.code (some blk)) := al.carried.keeps.live hbc ⟨by
      obtain ⟨_, h⟩ := hbc.live hg.sound
      exact h.1, _, hb, rfl⟩
  generalize hclo : Obj.closure (disp + (start.off + base)) (some bc) (some cell) arity variadic = clo
  have hclok : ValueOk s clo := by
    rw [← hclo]
    exact ⟨bc, cell, 0, rfl, rfl, ⟨blk, hlive, trivial⟩, al.live⟩
  dsimp only
  rw [M.bind_ok (show pushStackOnly clo s = .ok () { s with stack := s.stack ++ [clo] } from rfl)]
  rw [M.bind_ok (show captures cell 0 [] false { s with stack := s.stack ++ [clo] } =
    .ok false { s with stack := s.stack ++ [clo] } from rfl)]
  show Post U E _ ((pushUpOnly none >>= fun _ => _) _)
  rw [M.bind_ok (show pushUpOnly none { s with stack := s.stack ++ [clo] } = .ok () (Spec.pushed s clo) from rfl)]
  rw [M.bind_ok (show height (Spec.pushed s clo) = .ok (Spec.pushed s clo).stack.length (Spec.pushed s clo) from rfl)]
  have hset : setStackAt (((Spec.pushed s clo).stack.length : Int) - 1) clo (Spec.pushed s clo) = .ok () (Spec.pushed s clo) := by
    unfold setStackAt
    have e : (((Spec.pushed s clo).stack.length : Int) - 1) = ((s.stack.length : Nat) : Int) := by simp [Spec.pushed]
    rw [e, if_pos ⟨by omega, by simp [Spec.pushed]⟩, Int.toNat_natCast]
    simp [Spec.pushed]
  rw [hset]
  refine ⟨cell, gs.pushed hclok, al.carried.extends.pushed _, ?_, ?_⟩
  · simp only [Spec.pushed]; rw [al.carried.roots.upStack]
  · simp only [Spec.pushed]; rw [al.carried.roots.stack, hclo]

variable [Keys]

/-- The object is what the program makes of a function: its code begins at a label of the program, with the code of
its body and a return. -/
def Defines (program : List Ins) (off : Nat → Nat) (cell : Nat) (o : Obj) (params : List Bytes)
    (rest : Option Bytes) (forms : List Ast) : Prop :=
  ∃ j l m start code l' ups, o = .closure (off j) (some cell) ups (UInt8.ofNat params.length) rest.isSome ∧
    params.length < 256 ∧
    (∀ i x, ([Ins.label l] ++ code ++ [.return_ ((params ++ rest.toList).length : Nat)])[i]? = some x →
      program[j + i]? = some x) ∧
    Code (.block forms) [paramBlock start (params ++ rest.toList)] (start + (params ++ rest.toList).length) m code
      [paramBlock start (params ++ rest.toList)] (start + (params ++ rest.toList).length + 1) l'

section

variable {C : Setup} {B k L : Nat} {vm : VM} {σ : Slots}

omit [Keys] in
theorem isCode_at {C : Setup} {vm : VM} (h : HasCode vm ⟨C.cell, C.serial, 0⟩ C.bytes) (k : Nat) :
    IsCode vm C.cell (C.off k) (C.at_ k) := by
  obtain ⟨b, n, h1, h2, -⟩ := h
  exact ⟨b, n, h1, by rw [h2]; rfl⟩

/-- A function is made. -/
theorem lead_function {l j n : Nat} {params : List Bytes} {rest : Option Bytes} {forms : List Ast}
    (hi : C.program[k]? = some (.pushClosure rest.isSome l (n : Nat) [])) (hl : C.program[j]? = some (.label l))
    (h : C.At vm L σ) (hm : C.memory = true)
    (hd : ∀ u, C.ids.function (.closure (C.off j) (some C.cell) (some u) (UInt8.ofNat n) rest.isSome) params rest forms) :
    C.Leads B k vm (.ok (.function params rest forms)) (k + 1) fun v vm' => C.At vm' (L + 1) (upd σ L v) := by
  have hgoes : ∀ r, exec C.env C.cell (C.at_ k) (C.at_ (k + 1))
      (.pushClosure rest.isSome 2 ((C.off j : Int) - C.off k - 2) (UInt8.ofNat n) []) vm = r → C.Goes k vm r := by
    intro r hr
    refine ⟨h.ready.code, _, ⟨_, hi, .inr (.inr ⟨l, j, .w8, (C.off j : Int) - C.off k - 2, rfl, hl, rfl, ?_⟩)⟩, hr⟩
    simp only [landing, Option.some.injEq, Width.bytes]
    omega
  have post := post_function (U := False) (E := fun e _ => e = .outOfMemory) (start := C.at_ k) (base := 2)
    (disp := (C.off j : Int) - C.off k - 2) (arity := UInt8.ofNat n) (variadic := rest.isSome) h.ready.good (traced_running h.ready.running)
    (isCode_at h.ready.code k) (fun _ => rfl)
  rcases post.cases with ⟨_, s1, h1, u, g1, g2, g3, g4⟩ | ⟨e, s1, h1, rfl⟩
  · refine Leads.step (hgoes _ (exec_plain_ok trivial h1)) (h.push g1 g2 g4 g3 ?_)
    have e : (C.off j : Int) - C.off k - 2 + ((C.at_ k).off + (2 : Nat)) = C.off j := by
      show (C.off j : Int) - C.off k - 2 + ((C.off k : Int) + 2) = C.off j
      omega
    rw [e]
    exact .function (hd u)
  · exact .inr ⟨hm, 0, _, _, .refl _, ⟨_, hi, rfl⟩, .inr ⟨s1, hgoes _ (exec_plain_err trivial h1)⟩⟩

end

/-! ### Inside a call -/

namespace Setup

/-- The same program within another call. -/
def inside (C : Setup) (below : List Obj) (origin : Nat) (kept : Obj → Value → Prop) (hkept : ∀ o v, kept o v → o ∈ below)
    (callStack : List Frame) (upArrays : List UpArray) : Setup :=
  { C with below := below, origin := origin, kept := kept, callStack := callStack, upArrays := upArrays, hkept := hkept }

variable {C : Setup} {below : List Obj} {origin : Nat} {kept : Obj → Value → Prop}
  {hkept : ∀ o v, kept o v → o ∈ below} {callStack : List Frame} {upArrays : List UpArray}

omit [Keys] in
theorem Steps.outside {n a b} (h : (C.inside below origin kept hkept callStack upArrays).Steps n a b) : C.Steps n a b := by
  induction h with
  | refl => exact .refl _
  | step hn h _ ih => exact .step hn h ih

omit [Keys] in
theorem RunsOut.outside {k vm} (h : (C.inside below origin kept hkept callStack upArrays).RunsOut k vm) :
    C.RunsOut k vm := by
  obtain ⟨h1, n, k', vm', h2, h3⟩ := h
  exact ⟨h1, n, k', vm', h2.outside, h3⟩

omit [Keys] in
theorem Leads.outside {α : Type} {B k q : Nat} {vm : VM} {r : Result α} {post : α → VM → Prop}
    (h : (C.inside below origin kept hkept callStack upArrays).Leads B k vm r q post) : C.Leads B k vm r q post := by
  cases r with
  | ok a =>
    rcases h with ⟨n, vm', h1, h2⟩ | h
    · exact .inl ⟨n, vm', h1.outside, h2⟩
    · exact .inr h.outside
  | error e =>
    rcases h with ⟨n, k', vm', s, h1, h2⟩ | h
    · exact .inl ⟨n, k', vm', s, h1.outside, h2⟩
    · exact .inr h.outside
  | undefined =>
    rcases h with ⟨n, k', vm', h1, h2⟩ | h
    · exact .inl ⟨n, k', vm', h1.outside, h2⟩
    · exact .inr h.outside
  | unfinished =>
    rcases h with ⟨n, k', vm', h1, h2⟩ | h
    · exact .inl ⟨n, k', vm', h1, h2.outside⟩
    · exact .inr h.outside
  | outside => trivial

end Setup

omit [Keys] in
theorem good_frames {vm : VM} (h : Good vm) {cs : List Frame} {ua : List UpArray}
    (hc : ∀ f ∈ cs, ∀ r, f.bytecode = some r → LiveCode vm r) :
    Good { vm with callStack := cs, upArrays := ua } := by
  have hl : ∀ r s, Live vm r s → Live { vm with callStack := cs, upArrays := ua } r s := fun r s h => h
  obtain ⟨hs, hf⟩ := h
  exact ⟨⟨hs.free_nodup, hs.free_lt, hs.free_empty, hs.heap_size,
    fun o ho => valueOk_congr (hs.stack o ho) fun r s _ => hl r s, hs.captured, hs.globals, hc, hs.running,
    fun r o h1 h2 => cellOk_congr (hs.cells r o h1 h2) fun _ r s _ => hl r s⟩, hf⟩

/-! ### Parameters -/

omit [Keys] in
theorem agreesBlock_append {σ : Slots} {x : Bytes} {k : Nat} {v : Value} (hv : σ k = some v) :
    ∀ {b : List (Bytes × Nat)} {e : List (Bytes × Value)}, AgreesBlock σ b e → AgreesBlock σ (b ++ [(x, k)]) (e ++ [(x, v)])
  | [], [], _ => ⟨rfl, hv, trivial⟩
  | (_, _) :: _, (_, _) :: _, h => ⟨h.1, h.2.1, agreesBlock_append hv h.2.2⟩
  | [], _ :: _, h => h.elim
  | _ :: _, [], h => h.elim

omit [Keys] in
theorem agrees_params {σ : Slots} : ∀ {params : List Bytes} {args : List Value} {start : Nat},
    params.length = args.length → Row start σ args → AgreesBlock σ (paramBlock start params) (Eval.bind params args)
  | [], [], _, _, _ => trivial
  | x :: params, v :: args, start, hl, hr => by
    have := agrees_params (σ := σ) (params := params) (args := args) (start := start + 1) (by simpa using hl) fun i w hi => by
      have := hr (i + 1) w (by simpa using hi)
      rwa [show start + 1 + i = start + (i + 1) by omega]
    simp only [paramBlock, Eval.bind, List.zipIdx_cons, List.zip_cons_cons, List.reverse_cons] at this ⊢
    exact agreesBlock_append (hr 0 v rfl) this
  | [], _ :: _, _, hl, _ => by simp at hl
  | _ :: _, [], _, hl, _ => by simp at hl

/-- The slots of the callee. -/
def argSlots (start : Nat) (args : List Value) (global : Bytes → Option Value) : Slots :=
  ⟨fun k => if start ≤ k then args[k - start]? else none, global⟩

omit [Keys] in
theorem row_args (start : Nat) (args : List Value) (global : Bytes → Option Value) :
    Row start (argSlots start args global) args := by
  intro i v h
  show (if start ≤ start + i then args[start + i - start]? else none) = _
  rw [if_pos (by omega), Nat.add_sub_cancel_left]
  exact h

/-! ### Calls -/

/-- Running the bodies of functions does what the rules say. -/
def Calls (C : Setup) (S : Rules) (B : Nat) : Prop :=
  ∀ below origin kept hkept callStack upArrays {params forms start l code l'},
    Code (.block forms) [paramBlock start params] (start + params.length) l code [paramBlock start params]
      (start + params.length + 1) l' →
    ∀ p σ (env : Eval.Env) vm, C.Has p code →
      (C.inside below origin kept hkept callStack upArrays).At vm (start + params.length) σ →
      Agrees σ [paramBlock start params] env →
      (C.inside below origin kept hkept callStack upArrays).Leads B p vm
        (S.call forms env.enter >>= fun r => .ok (r.1, r.2.leave)) (p + code.length)
        (After (C.inside below origin kept hkept callStack upArrays) (.block forms) [paramBlock start params]
          (start + params.length) σ [paramBlock start params] (start + params.length + 1))

section

variable {C : Setup} {S : Rules} {F k L n slot : Nat} {vm : VM} {σ : Slots} {bs : Blocks} {env : Eval.Env}

omit [Keys] in
/-- The stack of a function that is about to return. -/
theorem stack_split {s below : List Obj} {n : Nat} (hb : s.take below.length = below) (hl : s.length = below.length + n + 1) :
    ∃ locals result, s = below ++ locals ++ [result] ∧ locals.length = n ∧ s[below.length + n]? = some result := by
  have hlt : below.length + n < s.length := by omega
  refine ⟨(s.take (below.length + n)).drop below.length, s[below.length + n], ?_, by simp; omega, by simp⟩
  have h1 : below ++ (s.take (below.length + n)).drop below.length = s.take (below.length + n) := by
    conv => rhs; rw [← List.take_append_drop below.length (s.take (below.length + n))]
    rw [List.take_take, Nat.min_eq_left (by omega), hb]
  rw [h1, List.take_append_getElem hlt]
  exact (List.take_of_length_le (by omega)).symm

omit [Keys] in
/-- Into the function. -/
theorem Setup.At.called {start : Nat} {args : List Value} {us : UpArray} {back : CodePtr} (h : C.At vm (L + args.length) σ)
    (hor : C.origin ≤ L) (hrow : Row L σ args) {kept : Obj → Value → Prop}
    {hkept : ∀ o v, kept o v → o ∈ vm.stack.take (C.pos L)} (hk : ∀ o v, kept o v → Holds C.ids vm o v) :
    (C.inside (vm.stack.take (C.pos L)) start kept hkept (C.callStack ++ [⟨back, some C.cell⟩]) (C.upArrays ++ [us])).At
      { vm with callStack := vm.callStack ++ [⟨back, some C.cell⟩], upArrays := vm.upArrays ++ [us] }
      (start + args.length) (argSlots start args σ.global) := by
  have hh := h.ready.height
  have hu := h.ready.upHeight
  have hlen : (vm.stack.take (C.pos L)).length = C.base + L - C.origin := by
    rw [List.length_take]
    unfold Setup.pos
    omega
  refine ⟨⟨good_frames h.ready.good fun f hf r hr => ?_, Nat.le_add_right _ _, ?_, ?_, h.ready.running, h.ready.code, ?_, ?_⟩,
    ?_, fun k hk v hv => ?_, fun x v hv => ?_, fun o v hv => ?_⟩
  · rcases List.mem_append.1 hf with hf | hf
    · exact h.ready.good.sound.frames f hf r hr
    · obtain rfl : f = ⟨back, some C.cell⟩ := by simpa using hf
      cases hr
      exact h.ready.good.sound.running _ h.ready.running
  · show vm.stack.length = (vm.stack.take (C.pos L)).length + (start + args.length) - start
    omega
  · show vm.upStack.length = (vm.stack.take (C.pos L)).length + (start + args.length) - start
    omega
  · show vm.callStack ++ _ = C.callStack ++ _
    rw [h.ready.callStack]
  · show vm.upArrays ++ _ = C.upArrays ++ _
    rw [h.ready.upArrays]
  · show vm.stack.take (vm.stack.take (C.pos L)).length = vm.stack.take (C.pos L)
    rw [hlen]
    rfl
  · simp only [argSlots] at hv
    split at hv
    · rename_i hs
      obtain ⟨-, o, h1, h2⟩ := h.values (L + (k - start)) (by omega) v (hrow _ _ hv)
      refine ⟨hs, o, ?_, holds_heap (vm := vm) rfl h2⟩
      show vm.stack[(vm.stack.take (C.pos L)).length + k - start]? = _
      rw [← h1, hlen]
      congr 1
      unfold Setup.pos
      omega
    · cases hv
  · exact globals_same (ids := C.ids) (vm := vm) (vm' := { vm with callStack := vm.callStack ++ [⟨back, some C.cell⟩], upArrays := vm.upArrays ++ [us] })
      rfl rfl (h.globals x v hv)
  · exact holds_heap (vm := vm) rfl (hk o v hv)

omit [Keys] in
/-- Back from the function. -/
theorem Setup.At.returned {start L2 : Nat} {vm2 : VM} {σ2 : Slots} {us : UpArray} {back : CodePtr} {v : Value} {locals : List Obj}
    {result : Obj} (h : C.At vm L2 σ) (hor : C.origin ≤ L) (hL : L ≤ L2)
    {hkept : ∀ o v, (o ∈ vm.stack.take (C.pos L) ∧ Holds C.ids vm o v) → o ∈ vm.stack.take (C.pos L)}
    (h2 : (C.inside (vm.stack.take (C.pos L)) start (fun o v => o ∈ vm.stack.take (C.pos L) ∧ Holds C.ids vm o v) hkept
      (C.callStack ++ [⟨back, some C.cell⟩]) (C.upArrays ++ [us])).At vm2 (start + n + 1) σ2)
    (hst : vm2.stack = vm.stack.take (C.pos L) ++ locals ++ [result]) (hlen : locals.length = n)
    (hv : Holds C.ids vm2 result v) :
    C.At { vm2 with stack := vm.stack.take (C.pos L) ++ [result],
                    upStack := if locals.length = 0 then vm2.upStack else vm2.upStack.take (vm.stack.take (C.pos L)).length ++ [none],
                    callStack := C.callStack, upArrays := C.upArrays } (L + 1)
      (upd ⟨σ, σ2.global⟩ L v) := by
  have hh := h.ready.height
  have hblen : (vm.stack.take (C.pos L)).length = C.base + L - C.origin := by
    rw [List.length_take]
    unfold Setup.pos
    omega
  have hu2 : vm2.upStack.length = (vm.stack.take (C.pos L)).length + (start + n + 1) - start := h2.ready.upHeight
  generalize hvm3 : ({ vm2 with
      stack := vm.stack.take (C.pos L) ++ [result]
      upStack := if locals.length = 0 then vm2.upStack else vm2.upStack.take (vm.stack.take (C.pos L)).length ++ [none]
      callStack := C.callStack, upArrays := C.upArrays } : VM) = vm3
  have eh : vm3.heap = vm2.heap := by rw [← hvm3]
  have eg : vm3.globals = vm2.globals := by rw [← hvm3]
  have es : vm3.stack = vm.stack.take (C.pos L) ++ [result] := by rw [← hvm3]
  have hkeep : ∀ o w, o ∈ vm.stack.take (C.pos L) → Holds C.ids vm o w → Holds C.ids vm3 o w := fun o w ho hw =>
    holds_heap eh (h2.kept o w ⟨ho, hw⟩)
  refine ⟨⟨?_, by omega, ?_, ?_, ?_, ?_, ?_, ?_⟩, ?_, fun k hk w hw => ?_, fun x w hw => ?_, fun o w hw => ?_⟩
  · rw [← hvm3]
    have hcs : vm2.callStack = C.callStack ++ [⟨back, some C.cell⟩] := h2.ready.callStack
    have g1 := h2.ready.good.stacks (vm.stack.take (C.pos L) ++ [result])
      (if locals.length = 0 then vm2.upStack else vm2.upStack.take (vm.stack.take (C.pos L)).length ++ [none])
      (fun o ho => h2.ready.good.sound.stack o (by
        rw [hst]
        rcases List.mem_append.1 ho with ho | ho
        · exact List.mem_append_left _ (List.mem_append_left _ ho)
        · exact List.mem_append_right _ ho)) (fun r hr => h2.ready.good.sound.captured r (by
        split at hr
        · exact hr
        · rcases List.mem_append.1 hr with hr | hr
          · exact List.mem_of_mem_take hr
          · simp at hr))
    exact good_frames g1 fun f hf r hr => g1.sound.frames f (by
      show f ∈ vm2.callStack
      rw [hcs]
      exact List.mem_append_left _ hf) r hr
  · rw [es, List.length_append, hblen, List.length_singleton]; omega
  · rw [← hvm3]
    show List.length (if _ then _ else _) = _
    split
    · omega
    · rw [List.length_append, List.length_take, List.length_singleton]; omega
  · rw [← hvm3]; exact h2.ready.running
  · obtain ⟨b, m, c1, c2⟩ := h2.ready.code
    exact ⟨b, m, by rw [eh]; exact c1, c2⟩
  · rw [← hvm3]
  · rw [← hvm3]
  · rw [es, List.take_append_of_le_length (by omega), List.take_take, Nat.min_eq_left (by unfold Setup.pos; omega)]
    exact h.below
  · by_cases hkL : k = L
    · subst hkL
      rw [upd_same] at hw
      cases hw
      refine ⟨hor, result, ?_, holds_heap eh hv⟩
      rw [es, List.getElem?_append_right (by unfold Setup.pos at hblen ⊢; omega), hblen]
      simp [Setup.pos]
    · rw [upd_other hkL] at hw
      obtain ⟨g0, o, g1, g2⟩ := h.values k (by omega) w hw
      have hget : (vm.stack.take (C.pos L))[C.pos k]? = some o := by
        rw [List.getElem?_take_of_lt (by unfold Setup.pos; omega)]
        exact g1
      refine ⟨g0, o, ?_, hkeep o w (List.mem_of_getElem? hget) g2⟩
      rw [es, List.getElem?_append_left (by unfold Setup.pos at hblen ⊢; omega)]
      exact hget
  · exact globals_same (ids := C.ids) eg eh (h2.globals x w hw)
  · refine hkeep o w ?_ (h.kept o w hw)
    have := C.hkept o w hw
    rw [← h.below] at this
    refine List.mem_of_mem_take (i := C.base) ?_
    rwa [List.take_take, Nat.min_eq_left (by unfold Setup.pos; omega)]

/-! ### Lists -/

omit [Keys] in
theorem forall₂_of_getElem? {α β : Type} {R : α → β → Prop} : ∀ {xs : List α} {ys : List β}, xs.length = ys.length →
    (∀ (i : Nat) x y, xs[i]? = some x → ys[i]? = some y → R x y) → List.Forall₂ R xs ys
  | [], [], _, _ => .nil
  | x :: xs, y :: ys, hl, h => .cons (h 0 x y rfl rfl)
      (forall₂_of_getElem? (by simpa using hl) fun i x y h1 h2 => h (i + 1) x y (by simpa using h1) (by simpa using h2))
  | [], _ :: _, hl, _ => by simp at hl
  | _ :: _, [], hl, _ => by simp at hl

omit [Keys] in
theorem forall₂_getElem? {α β : Type} {R : α → β → Prop} {xs : List α} {ys : List β} (h : List.Forall₂ R xs ys) :
    ∀ {i : Nat} {y}, ys[i]? = some y → ∃ x, xs[i]? = some x ∧ R x y := by
  induction h with
  | nil => intro i y h; simp at h
  | @cons a b _ _ hr _ ih =>
    intro i y hy
    cases i with
    | zero => cases hy; exact ⟨a, rfl, hr⟩
    | succ i => exact ih (by simpa using hy)

omit [Keys] in
theorem forall₂_mem {α β : Type} {R S : α → β → Prop} {xs : List α} {ys : List β} (h : List.Forall₂ R xs ys)
    (hi : ∀ x ∈ xs, ∀ y, R x y → S x y) : List.Forall₂ S xs ys := by
  induction h with
  | nil => exact .nil
  | cons hr _ ih =>
    exact .cons (hi _ (List.mem_cons_self ..) _ hr) (ih fun x hx => hi x (List.mem_cons_of_mem _ hx))

omit [Keys] in
/-- The list of the values. -/
theorem holds_ofList {ids : Reading} {s : VM} {p : Option Nat} {objs : List Obj} (h : ListOf s p objs) :
    ∀ {vs : List Value}, List.Forall₂ (Holds ids s) objs vs → Holds ids s (.list p) (ofList vs) := by
  induction h with
  | nil =>
    intro vs hv
    cases hv
    exact .nil
  | @cons r a d x xs hc ha ht ih =>
    intro vs hv
    cases hv with
    | cons h1 h2 =>
      refine .pair ⟨a, d, hc, ha, ?_⟩ (fun q hq => ⟨a, by cases hq; exact hc⟩) h1 (ih h2)
      cases ht with
      | nil => exact .empty
      | cons h _ _ => exact .pair h

omit [Keys] in
/-- The arguments on the stack. -/
theorem Setup.At.row {vals : List Value} (h : C.At vm (L + vals.length) σ) (hor : C.origin ≤ L) (hrow : Row L σ vals) :
    ∃ objs, vm.stack = vm.stack.take (C.pos L) ++ objs ∧ List.Forall₂ (Holds C.ids vm) objs vals := by
  have hh := h.ready.height
  refine ⟨vm.stack.drop (C.pos L), (List.take_append_drop ..).symm, forall₂_of_getElem? ?_ fun i o v h1 h2 => ?_⟩
  · rw [List.length_drop]
    unfold Setup.pos
    omega
  · obtain ⟨-, o', h3, h4⟩ := h.values (L + i) (by have := (List.getElem?_eq_some_iff.1 h2).1; omega) v (hrow i v h2)
    rw [List.getElem?_drop] at h1
    rw [show C.pos (L + i) = C.pos L + i by unfold Setup.pos; omega, h1] at h3
    cases h3
    exact h4

/-- Other values from `L` on. -/
def replaced (L : Nat) (vals : List Value) (σ : Slots) : Slots :=
  ⟨fun k => if L ≤ k then vals[k - L]? else σ k, σ.global⟩

omit [Keys] in
theorem replaced_below {vals : List Value} {i : Nat} (hi : i < L) : replaced L vals σ i = σ i := by
  show (if L ≤ i then _ else _) = _
  rw [if_neg (by omega)]

omit [Keys] in
theorem row_replaced {vals : List Value} : Row L (replaced L vals σ) vals := by
  intro i v h
  show (if L ≤ L + i then vals[L + i - L]? else _) = _
  rw [if_pos (by omega), Nat.add_sub_cancel_left]
  exact h

omit [Keys] in
/-- Other values on the stack from `L` on. -/
theorem Setup.At.replaced {t s : VM} {L2 : Nat} {vals : List Value} {objs more : List Obj} (h : C.At vm L2 σ)
    (hor : C.origin ≤ L) (hL : L ≤ L2) (hheap : t.heap = vm.heap) (hglob : t.globals = vm.globals)
    (hcs : t.callStack = vm.callStack) (hua : t.upArrays = vm.upArrays) (hcb : t.currentBytecode = vm.currentBytecode)
    (hts : t.stack = vm.stack.take (C.pos L) ++ more) (hu : Spec.Untouched t s []) (hg : Good s)
    (hs : s.stack = vm.stack.take (C.pos L) ++ objs) (hul : s.upStack.length = s.stack.length)
    (hv : List.Forall₂ (Holds C.ids s) objs vals) :
    C.At s (L + vals.length) (Compile.replaced L vals σ) := by
  have hh := h.ready.height
  have hl2 := h.ready.origin
  have hblen : (vm.stack.take (C.pos L)).length = C.base + L - C.origin := by
    rw [List.length_take]
    unfold Setup.pos
    omega
  have hlen := hv.length_eq
  have hcell : ∀ r, Reachable t r → s.heap[r]? = vm.heap[r]? := fun r hr => by
    rw [← hheap]
    exact hu.cells r hr (by simp)
  have hkeep : ∀ o w, o ∈ vm.stack.take (C.pos L) → Holds C.ids vm o w → Holds C.ids s o w := fun o w ho hw =>
    holds_used (vm := t) (holds_heap hheap hw) fun r hr => by
      rw [hcell r (reachable_used (by rw [hts]; exact List.mem_append_left _ ho) hr), hheap]
  refine ⟨⟨hg, by omega, ?_, ?_, ?_, ?_, ?_, ?_⟩, ?_, fun k hk w hw => ?_, fun x w hw => ?_, fun o w hw => ?_⟩
  · rw [hs, List.length_append, hblen]; omega
  · rw [hul, hs, List.length_append, hblen]; omega
  · rw [hu.currentBytecode, hcb]; exact h.ready.running
  · obtain ⟨b, m, c1, c2⟩ := h.ready.code
    exact ⟨b, m, (hcell _ (.root (.running (by rw [hcb]; exact h.ready.running)))).trans c1, c2⟩
  · rw [hu.callStack, hcs]; exact h.ready.callStack
  · rw [hu.upArrays, hua]; exact h.ready.upArrays
  · rw [hs, List.take_append_of_le_length (by omega), List.take_take, Nat.min_eq_left (by unfold Setup.pos; omega)]
    exact h.below
  · by_cases hkL : k < L
    · rw [replaced_below hkL] at hw
      obtain ⟨g0, o, g1, g2⟩ := h.values k (by omega) w hw
      have hget : (vm.stack.take (C.pos L))[C.pos k]? = some o := by
        rw [List.getElem?_take_of_lt (by unfold Setup.pos; omega)]
        exact g1
      refine ⟨g0, o, ?_, hkeep o w (List.mem_of_getElem? hget) g2⟩
      rw [hs, List.getElem?_append_left (by unfold Setup.pos at hblen ⊢; omega)]
      exact hget
    · have hw' : vals[k - L]? = some w := by
        have : (if L ≤ k then vals[k - L]? else σ k) = some w := hw
        rwa [if_pos (by omega)] at this
      obtain ⟨o, g1, g2⟩ := forall₂_getElem? hv hw'
      refine ⟨by omega, o, ?_, g2⟩
      rw [hs, List.getElem?_append_right (by unfold Setup.pos at hblen ⊢; omega), hblen, ← g1]
      congr 1
      unfold Setup.pos
      omega
  · obtain ⟨id, o, h1, h2, h3⟩ := globals_same (vm' := t) hglob hheap (h.globals x w hw)
    refine ⟨id, o, h1, ?_, holds_congr h3 (fun r hr => by rw [hcell r hr, hheap]) fun r hr => mentions_global h2 hr⟩
    rw [reads_iff] at h2 ⊢
    unfold bound at h2 ⊢
    rw [hu.globals]
    rcases h2 with h2 | ⟨c, h4, h5⟩
    · exact .inl h2
    · refine .inr ⟨c, h4, ?_⟩
      rw [hcell c (.root (.global (bound_mem h4))), ← hheap]
      exact h5
  · refine hkeep o w ?_ (h.kept o w hw)
    have := C.hkept o w hw
    rw [← h.below] at this
    refine List.mem_of_mem_take (i := C.base) ?_
    rwa [List.take_take, Nat.min_eq_left (by unfold Setup.pos; omega)]

theorem agrees_replaced {vals : List Value} (hfit : Fits bs L) (hg : Agrees σ bs env) :
    Agrees (replaced L vals σ) bs env :=
  ⟨agreesBlocks_congr hg.1 fun i hi => replaced_below (hfit.2 i hi), hg.2⟩

/-- Where a call is done. -/
def Done (C : Setup) (L : Nat) (bs : Blocks) (σ : Slots) (r : Value × Eval.Env) (vm' : VM) : Prop :=
  ∃ σ', C.At vm' (L + 1) σ' ∧ Agrees σ' bs r.2 ∧ Same bs L σ σ' ∧ σ' L = some r.1

theorem done_replaced {vals : List Value} {r : Value × Eval.Env} {vm' : VM} (h : Done C L bs (replaced L vals σ) r vm') :
    Done C L bs σ r vm' := by
  obtain ⟨σ', h1, h2, h3, h4⟩ := h
  exact ⟨σ', h1, h2, fun i hi hn => (h3 i hi hn).trans (replaced_below hi), h4⟩

/-- In the function, with its arguments on the stack, and back. -/
theorem lead_entered {names : List Bytes} {vals : List Value} {forms : List Ast} {i : Ins} {s s1 : VM} {us : UpArray}
    {j l m start l' : Nat} {code : List Ins} (hcalls : Calls C S (F - 1)) (hi : C.program[k]? = some i)
    (hq : quiet C.strip i = false) (hw : C.weight k = 1) (hgo : C.Goes k vm (.ok (.goto (C.at_ j)) s1))
    (hcalled : Called s s1 C.cell (C.at_ (k + 1)) us)
    (hhas : ∀ i x, ([Ins.label l] ++ code ++ [.return_ (names.length : Nat)])[i]? = some x → C.program[j + i]? = some x)
    (hc : Code (.block forms) [paramBlock start names] (start + names.length) m code [paramBlock start names]
      (start + names.length + 1) l')
    (h : C.At s (L + vals.length) σ) (hlen : names.length = vals.length) (hrow : Row L σ vals) (hor : C.origin ≤ L)
    (hfit : Fits bs L) (hg : Agrees σ bs env) :
    C.Leads F k vm (do
      let (v, inner) ← S.call forms ⟨[[], Eval.bind names vals], env.globals⟩
      .ok (v, { env with globals := inner.globals })) (k + 1) (Done C L bs σ) := by
  have hfor : (do
      let (v, inner) ← S.call forms ⟨[[], Eval.bind names vals], env.globals⟩
      .ok (v, { env with globals := inner.globals }) : Result (Value × Eval.Env)) =
      ((S.call forms (⟨[Eval.bind names vals], env.globals⟩ : Eval.Env).enter >>=
          fun r => .ok (r.1, r.2.leave)) >>= fun r => .ok (r.1, { env with globals := r.2.globals })) := by
    rw [Result.bind_assoc]
    rfl
  rw [hfor]
  have hkept : ∀ o v, (o ∈ s.stack.take (C.pos L) ∧ Holds C.ids s o v) → o ∈ s.stack.take (C.pos L) := fun _ _ h => h.1
  have hat := h.called (start := start) (us := us) (back := C.at_ (k + 1)) hor hrow (hkept := hkept) (fun _ _ h => h.2)
  unfold Called at hcalled
  rw [← hcalled] at hat
  have hlabel : C.program[j]? = some (.label l) := hhas 0 _ rfl
  have hHas : C.Has j ([Ins.label l] ++ code ++ [.return_ (names.length : Nat)]) := hhas
  -- to the label of the function and past it
  have hsteps : C.Steps 1 (k, vm) (j + 1, s1) := by
    have g1 : C.Steps 1 (k, vm) (j, s1) := by
      have := Steps.one (next_jump hi hq hlabel) hgo
      rwa [hw] at this
    have g2 : C.Steps 0 (j, s1) (j + 1, s1) := by
      have := Steps.one (C := C) (k := j) (.inl rfl) (vm := s1) (vm' := s1) ⟨hat.ready.code, .nop, ⟨_, hlabel, .inr (.inl ⟨l, rfl, rfl⟩)⟩, rfl⟩
      rwa [weight_label hlabel] at this
    exact g1.trans g2
  refine Leads.after hsteps (B' := F - 1) (by omega) ?_
  rw [← hlen] at hat
  refine Leads.bind (Leads.outside (hcalls _ _ _ _ _ _ hc (j + 1) _ ⟨[Eval.bind names vals], env.globals⟩ s1 ?_ hat ?_)) ?_
  · have := hHas.left.right
    simpa using this
  · exact ⟨⟨agrees_params hlen (row_args _ _ _), trivial⟩, hg.2⟩
  -- and back
  rintro ⟨v, env2⟩ vm2 ⟨σ2, k1, k2, -, k4⟩
  have hheight : vm2.stack.length = (s.stack.take (C.pos L)).length + (start + names.length + 1) - start := k1.ready.height
  have huheight : vm2.upStack.length = (s.stack.take (C.pos L)).length + (start + names.length + 1) - start := k1.ready.upHeight
  obtain ⟨locals, result, hs1, hs2, hs3⟩ := stack_split (s := vm2.stack) (below := s.stack.take (C.pos L)) (n := names.length)
    k1.below (by omega)
  have hres : Holds C.ids vm2 result v := by
    obtain ⟨-, o, q1, q2⟩ := k1.values (start + names.length) (by omega) v k4
    have : vm2.stack[(s.stack.take (C.pos L)).length + (start + names.length) - start]? = some o := q1
    rw [show (s.stack.take (C.pos L)).length + (start + names.length) - start = (s.stack.take (C.pos L)).length + names.length by omega,
      hs3] at this
    cases this
    exact q2
  have hret : C.program[j + 1 + code.length]? = some (.return_ (names.length : Nat)) := by
    have := hHas.right.head
    simpa [Nat.add_assoc, Nat.add_comm 1] using this
  have hback := C38_return C.env C.cell (C.at_ (j + 1 + code.length)) (C.at_ (j + 1 + code.length + 1)) (C.at_ (k + 1)) vm2
    ⟨C.at_ (k + 1), some C.cell⟩ us C.callStack C.upArrays (s.stack.take (C.pos L)) locals result (by omega) hs1
    k1.ready.callStack k1.ready.upArrays rfl
  have hmean : meaning C.strip (.return_ (names.length : Nat)) = some (returning locals.length) := by
    rw [hs2]
    simp only [meaning, returning]
    by_cases h0 : names.length = 0 <;> simp [h0]
  refine .inl ⟨_, _, Steps.one (.inr ⟨⟨_, hret, rfl⟩, .inl ⟨_, hi, hq⟩⟩)
    ⟨k1.ready.code, _, ⟨_, hret, .inl hmean⟩, hback⟩, ?_⟩
  refine ⟨_, At.returned h hor (Nat.le_add_right _ _) k1 hs1 hs2 hres, ⟨?_, k2.2⟩, ?_, upd_same ..⟩
  · refine agreesBlocks_congr hg.1 fun i hi => ?_
    have := hfit.2 i hi
    exact upd_other (by omega)
  · intro i hi _
    exact upd_other (by omega)

omit [Keys] in
theorem invoke_fixed {params : List Bytes} {forms : List Ast} {args : List Value} (h : params.length = args.length) :
    invoke S params none forms args env = (do
      let (v, inner) ← S.call forms ⟨[[], Eval.bind params args], env.globals⟩
      .ok (v, { env with globals := inner.globals })) := by
  simp only [invoke, received, if_pos h, true_or, if_true]

omit [Keys] in
theorem invoke_variadic {params : List Bytes} {rest : Bytes} {forms : List Ast} {args : List Value}
    (h : params.length ≤ args.length) (hm : S.memory = true) :
    invoke S params (some rest) forms args env = (do
      let (v, inner) ← S.call forms
        ⟨[[], Eval.bind (params ++ [rest]) (args.take params.length ++ [ofList (args.drop params.length)])], env.globals⟩
      .ok (v, { env with globals := inner.globals })) := by
  simp only [invoke, received, if_pos h, hm, or_true, if_true]

/-- A call. -/
theorem lead_call {f : Value} {args : List Value} {a m : Int} (hcalls : Calls C S (F - 1))
    (hfun : C.ids.function = Defines C.program C.off C.cell) (hmem : S.memory = C.memory)
    (hi : C.program[k]? = some (.funcall a m)) (ha : a = ((L + args.length : Nat) : Int) - slot)
    (hm : m = ((args.length % 256 : Nat) : Int)) (h : C.At vm (L + args.length) σ) (hslot : slot < L + args.length)
    (hf : σ slot = some f) (hrow : Row L σ args) (hor : C.origin ≤ L) (hfit : Fits bs L) (hg : Agrees σ bs env) :
    C.Leads F k vm (Eval.call S f args env) (k + 1) (Done C L bs σ) := by
  subst ha hm
  obtain ⟨o, h1, h2, h3⟩ := h.operand hslot hf
  have hnot : ∀ (_ : ∀ c, o ≠ .composite c) (_ : ∀ cb, o ≠ .function cb)
      (_ : ∀ pos code ups arity variadic, o ≠ .closure pos code ups arity variadic),
      C.Leads F k vm (.error .invalidValue : Result (Value × Eval.Env)) (k + 1) (Done C L bs σ) := fun g1 g2 g3 =>
    Leads.fails ⟨_, hi, rfl⟩ (goes_plain hi rfl h.ready (C38_not_a_function C.env C.cell (C.at_ k) (C.at_ (k + 1)) vm _ _ o o
      h1 (.self g1) g2 g3))
  cases h2 with
  | nil | bool | int | float | symbol | string | slice | type | pair => exact hnot (by simp) (by simp) (by simp)
  | unknown => trivial
  | @function name code ups arity variadic params rest forms hd =>
    rw [hfun] at hd
    obtain ⟨j, l, m, start, code', l', ups', ho, hlt, hhas, hc⟩ := hd
    cases ho
    simp only [Eval.call]
    by_cases hbig : 256 ≤ args.length
    · rw [if_pos hbig]; trivial
    rw [if_neg hbig]
    have hmod : ((args.length % 256 : Nat) : Int).toNat = args.length := by
      rw [Nat.mod_eq_of_lt (by omega)]; rfl
    have har : (UInt8.ofNat params.length).toNat = params.length := by
      simp; omega
    obtain ⟨c, u, ip, us, hcell, hups, -, hcap⟩ := C38_functions_have_code vm h.ready.good _ _ _ _ _ _ _ h1 (.self (by simp))
    cases hcell
    cases hups
    cases rest with
    | none =>
      by_cases hlen : params.length = args.length
      · rw [invoke_fixed hlen]
        obtain ⟨vm1, hexec, hvm1⟩ := C38_fixed C.env C.cell (C.at_ k) (C.at_ (k + 1)) (C.at_ j) vm _ ((args.length % 256 : Nat) : Int).toNat
          _ _ _ _ _ us h1 (.self (by simp)) (by rw [hmod, har, hlen]) (isCode_at h.ready.code j) hcap
        simp only [Option.toList_none, List.append_nil] at hhas hc
        exact lead_entered hcalls hi rfl (weight_funcall hi) (goes_plain hi rfl h.ready hexec) hvm1 hhas hc h hlen hrow hor hfit hg
      · simp only [invoke, received, if_neg hlen]
        refine Leads.fails ⟨_, hi, rfl⟩ (goes_plain hi rfl h.ready (C38_wrong_count C.env C.cell (C.at_ k) (C.at_ (k + 1)) vm _ _ _ _ _ _ _ _
          h1 (.self (by simp)) ?_))
        rw [hmod, har]
        simp only [Option.isSome_none, Bool.false_eq_true, ↓reduceIte]
        exact fun e => hlen e.symm
    | some rest =>
      by_cases hlen : params.length ≤ args.length
      · by_cases hM : S.memory = true
        · rw [invoke_variadic hlen hM]
          obtain ⟨objs, hst, hobjs⟩ := h.row hor hrow
          have hol := hobjs.length_eq
          have hcount : ((args.length % 256 : Nat) : Int).toNat = (objs.take params.length).length + (objs.drop params.length).length := by
            rw [hmod, ← List.length_append, List.take_append_drop, hol]
          have hul : vm.upStack.length = vm.stack.length := h.ready.upHeight.trans h.ready.height.symm
          have hfirst : (objs.take params.length).length = params.length := by
            rw [List.length_take]; omega
          rcases C38_variadic C.env C.cell (C.at_ k) (C.at_ (k + 1)) (C.at_ j) vm h.ready.good hul _ _ _ _ _ _ us
            (vm.stack.take (C.pos L)) (objs.take params.length) (objs.drop params.length)
            (by rw [List.append_assoc, List.take_append_drop]; exact hst) (hfirst.trans har.symm)
            h1 (.self (by simp)) (isCode_at h.ready.code j) hcap with ⟨s, s1, p, g1, g2, g3, g4, g5, g6, g7⟩ | ⟨s, g1, -⟩
          · rw [← hcount] at g1
            have hholds : List.Forall₂ (Holds C.ids s) objs args := forall₂_mem hobjs fun o ho v hv =>
              holds_used hv fun r hr => g6.cells r (reachable_used (by rw [hst]; exact List.mem_append_right _ ho) hr) (by simp)
            have hul' : s.upStack.length = s.stack.length := by
              rw [g3, g4]
              have : vm.stack.length = (vm.stack.take (C.pos L)).length + objs.length := by
                conv => lhs; rw [hst]
                rw [List.length_append]
              simp only [List.length_take, List.length_append, List.length_singleton] at this hfirst ⊢
              omega
            have hat := h.replaced (L := L) (t := vm) (more := objs) (vals := args.take params.length ++ [ofList (args.drop params.length)])
              hor (Nat.le_add_right _ _) rfl rfl rfl rfl rfl hst g6 g7 (g3.trans (List.append_assoc ..)) hul'
              (List.rel_append (List.forall₂_take _ hholds)
                (.cons (holds_ofList g5 (List.forall₂_drop _ hholds)) .nil))
            refine Leads.imp (lead_entered hcalls hi rfl (weight_funcall hi) (goes_plain hi rfl h.ready g1) g2 hhas hc hat ?_
              row_replaced hor hfit (agrees_replaced hfit hg)) fun _ _ => done_replaced
            simp only [Option.toList_some, List.length_append, List.length_singleton, List.length_take]
            omega
          · rw [← hcount] at g1
            exact Leads.runsOut ⟨hmem ▸ hM, 0, _, _, .refl _, ⟨_, hi, rfl⟩, .inr ⟨s, goes_plain hi rfl h.ready g1⟩⟩
        · simp only [invoke, received, if_pos hlen, hM, reduceCtorEq, or_self, Bool.false_eq_true, if_false]
          trivial
      · simp only [invoke, received, if_neg hlen]
        refine Leads.fails ⟨_, hi, rfl⟩ (goes_plain hi rfl h.ready (C38_wrong_count C.env C.cell (C.at_ k) (C.at_ (k + 1)) vm _ _ _ _ _ _ _ _
          h1 (.self (by simp)) ?_))
        rw [hmod, har]
        simp only [Option.isSome_some, ↓reduceIte]
        omega

/-- An application to the elements of a list. -/
theorem lead_apply {f last : Value} {args : List Value} {a m : Int} (hcalls : Calls C S (F - 1))
    (hfun : C.ids.function = Defines C.program C.off C.cell) (hmem : S.memory = C.memory)
    (hi : C.program[k]? = some (.apply a m)) (ha : a = ((L + (args ++ [last]).length : Nat) : Int) - slot)
    (hm : m = ((args.length % 256 : Nat) : Int)) (h : C.At vm (L + (args ++ [last]).length) σ)
    (hslot : slot < L + (args ++ [last]).length) (hf : σ slot = some f) (hrow : Row L σ (args ++ [last]))
    (hor : C.origin ≤ L) (hfit : Fits bs L) (hg : Agrees σ bs env) :
    C.Leads F k vm (applyTo S f args last env) (k + 1) (Done C L bs σ) := by
  subst ha hm
  obtain ⟨o, h1, h2, h3⟩ := h.operand hslot hf
  have hnot : ∀ (_ : ∀ c, o ≠ .composite c)
      (_ : ∀ pos code ups arity variadic, o ≠ .closure pos code ups arity variadic),
      C.Leads F k vm (.error .invalidValue : Result (Value × Eval.Env)) (k + 1) (Done C L bs σ) := fun g1 g2 =>
    Leads.fails ⟨_, hi, rfl⟩ (goes_plain hi rfl h.ready (C39_only_closures C.env C.cell (C.at_ k) (C.at_ (k + 1)) vm _ _ o o
      h1 (.self g1) g2))
  cases h2 with
  | nil | bool | int | float | symbol | string | slice | type | pair => exact hnot (by simp) (by simp)
  | unknown => trivial
  | @function name code ups arity variadic params rest forms hd =>
    rw [hfun] at hd
    obtain ⟨j, l, m, start, code', l', ups', ho, hlt, hhas, hc⟩ := hd
    cases ho
    obtain ⟨objs, hst, hobjs⟩ := h.row hor hrow
    have hul : vm.upStack.length = vm.stack.length := h.ready.upHeight.trans h.ready.height.symm
    obtain ⟨objs, lasts, hargs, hlast, rfl⟩ : ∃ u v, List.Forall₂ (Holds C.ids vm) u args ∧
        List.Forall₂ (Holds C.ids vm) v [last] ∧ objs = u ++ v := by
      refine ⟨objs.take args.length, objs.drop args.length, ?_, ?_, (List.take_append_drop ..).symm⟩
      · simpa using List.forall₂_take args.length hobjs
      · simpa using List.forall₂_drop args.length hobjs
    cases hlast with
    | @cons lo _ _ _ hlo hnil =>
    cases hnil
    have hol := hargs.length_eq
    have hst' : vm.stack = vm.stack.take (C.pos L) ++ objs ++ [lo] := by
      rw [List.append_assoc]; exact hst
    have har : (UInt8.ofNat params.length).toNat = params.length := by
      simp; omega
    simp only [applyTo]
    rcases hvs : toList last with _ | vs
    · dsimp only
      have hbad : ∀ (_ : ∀ p, lo ≠ .list p), C.Leads F k vm (.error .invalidValue : Result (Value × Eval.Env)) (k + 1)
          (Done C L bs σ) := fun hne => by
        obtain ⟨s, hs⟩ := C39_not_a_list C.env C.cell (C.at_ k) (C.at_ (k + 1)) vm hul _
          ((args.length % 256 : Nat) : Int).toNat _ _ _ hst' hne _ _ _ _ _ h1 (.self (by simp))
        exact Leads.fails ⟨_, hi, rfl⟩ (goes_plain hi rfl h.ready hs)
      cases hlo with
      | nil => simp [toList] at hvs
      | pair | unknown => trivial
      | bool | int | float | symbol | string | slice | type | function => exact hbad (by simp)
    · dsimp only
      by_cases hout : 256 ≤ args.length ∨ rest = none ∧ args.length ≤ params.length ∧ params.length < args.length + vs.length
      · rw [if_pos hout]; trivial
      rw [if_neg hout]
      obtain ⟨p, xs, rfl, hx, hxs⟩ := holds_toList hlo hvs
      have hxl := hxs.length_eq
      have hmod : ((args.length % 256 : Nat) : Int).toNat = objs.length := by
        rw [hol, Nat.mod_eq_of_lt (by omega)]; rfl
      obtain ⟨c, u, ip, us, hcell, hups, -, hcap⟩ := C38_functions_have_code vm h.ready.good _ _ _ _ _ _ _ h1 (.self (by simp))
      cases hcell
      cases hups
      have hwrong : ∀ (_ : objs.length + xs.length < params.length ∨ rest.isSome = false ∧ params.length < objs.length),
          C.Leads F k vm (.error .invalidValue : Result (Value × Eval.Env)) (k + 1) (Done C L bs σ) := fun hn => by
        obtain ⟨s, hs⟩ := C39_wrong_count_partial C.env C.cell (C.at_ k) (C.at_ (k + 1)) vm h.ready.good hul _ _ _ _ _ _ _ _ _ _ _
          hst' hx (by rw [har]; exact hn) h1 (.self (by simp))
        rw [← hmod] at hs
        exact Leads.fails ⟨_, hi, rfl⟩ (goes_plain hi rfl h.ready hs)
      cases rest with
      | none =>
        by_cases hlen : params.length = (args ++ vs).length
        · rw [invoke_fixed hlen]
          rw [List.length_append] at hlen
          obtain ⟨s1, g1, g2, g3, -⟩ := C39_fixed_partial C.env C.cell (C.at_ k) (C.at_ (k + 1)) (C.at_ j) vm h.ready.good hul
            _ _ _ _ _ _ us _ _ _ _ hst' hx (by rw [har]; omega) h1 (.self (by simp)) (isCode_at h.ready.code j) hcap
          rw [← hmod] at g1
          obtain ⟨-, -, -, hok, -⟩ := apply_eq (bc := C.cell) (n := objs.length) (nx := C.at_ (k + 1)) h.ready.good h1 (.self (by simp)) hst' hul hx
          have hat := h.replaced (L := L) (t := spreadOut vm xs) (s := spreadOut vm xs) (more := objs ++ xs) (vals := args ++ vs)
            hor (Nat.le_add_right _ _) rfl rfl rfl rfl rfl (g3.trans (List.append_assoc ..)) ⟨fun _ _ _ => rfl, rfl, rfl, rfl, rfl, rfl⟩
            (spreadOut_good h.ready.good hok) (g3.trans (List.append_assoc ..)) (by simp [spreadOut, hul])
            (forall₂_mem (List.rel_append hargs hxs) fun _ _ _ hv => holds_heap (vm := vm) rfl hv)
          simp only [Option.toList_none, List.append_nil] at hhas hc
          exact Leads.imp (lead_entered hcalls hi rfl (weight_apply hi) (goes_plain hi rfl h.ready g1) g2 hhas hc hat
            (by rw [List.length_append]; exact hlen) row_replaced hor hfit (agrees_replaced hfit hg)) fun _ _ => done_replaced
        · simp only [invoke, received, if_neg hlen]
          rw [List.length_append] at hlen
          refine hwrong ?_
          simp only [true_and, Option.isSome_none] at hout ⊢
          omega
      | some rest =>
        by_cases hlen : params.length ≤ (args ++ vs).length
        · by_cases hM : S.memory = true
          · rw [invoke_variadic hlen hM]
            have hlen' := hlen
            rw [List.length_append] at hlen'
            rcases C39_variadic C.env C.cell (C.at_ k) (C.at_ (k + 1)) (C.at_ j) vm h.ready.good hul
              _ _ _ _ _ _ us _ _ _ _ hst' hx (by rw [har]; omega) h1 (.self (by simp)) (isCode_at h.ready.code j) hcap
              with ⟨s, s1, q, g1, g2, g3, g4, -, g5, g6, g7, g8⟩ | ⟨s, g1, -⟩
            · rw [← hmod] at g1
              rw [har] at g3 g5 g6
              have hholds : List.Forall₂ (Holds C.ids s) (objs ++ xs) (args ++ vs) :=
                forall₂_mem (List.rel_append hargs hxs) fun o ho v hv => holds_used hv fun r hr => g8 o ho r hr
              have hat := h.replaced (L := L) (t := spreadOut vm (xs.take (params.length - objs.length)))
                (more := objs ++ xs.take (params.length - objs.length))
                (vals := (args ++ vs).take params.length ++ [ofList ((args ++ vs).drop params.length)])
                hor (Nat.le_add_right _ _) rfl rfl rfl rfl rfl
                (by
                  show vm.stack.dropLast ++ _ = _
                  conv => lhs; rw [hst']
                  rw [List.dropLast_concat, List.append_assoc])
                g6 g7 (g3.trans (List.append_assoc ..)) g4
                (List.rel_append (List.forall₂_take _ hholds)
                  (.cons (holds_ofList g5 (List.forall₂_drop _ hholds)) .nil))
              refine Leads.imp (lead_entered hcalls hi rfl (weight_apply hi) (goes_plain hi rfl h.ready g1) g2 hhas hc hat ?_
                row_replaced hor hfit (agrees_replaced hfit hg)) fun _ _ => done_replaced
              simp only [Option.toList_some, List.length_append, List.length_singleton, List.length_take]
              omega
            · rw [← hmod] at g1
              exact Leads.runsOut ⟨hmem ▸ hM, 0, _, _, .refl _, ⟨_, hi, rfl⟩, .inr ⟨s, goes_plain hi rfl h.ready g1⟩⟩
          · simp only [invoke, received, if_pos hlen, hM, reduceCtorEq, or_self, Bool.false_eq_true, if_false]
            trivial
        · simp only [invoke, received, if_neg hlen]
          rw [List.length_append] at hlen
          exact hwrong (.inl (by omega))

end

end DuckLisp.Compile
