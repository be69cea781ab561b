import Verif.Proof.VM.Calls
import Verif.Proof.VM.Lockstep
import Verif.Model.VM.Api

/-!
# C38: calls
-/

namespace DuckLisp.VM

open DuckLisp DuckLisp.Spec

theorem enter_eq {vm : VM} {bc c u : Nat} {nx ip : CodePtr} {pos : Int} {ups : UpArray}
    (hc : IsCode vm c pos ip) (hu : IsCaptures vm u ups) :
    ∃ vm', enter bc nx pos (some c) (some u) vm = .ok ip vm' ∧ Called vm vm' bc nx ups := by
  obtain ⟨b, n, hc, rfl⟩ := hc
  obtain ⟨b', n', hu, rfl⟩ := hu
  refine ⟨_, ?_, rfl⟩
  unfold enter
  have h1 : captureArray (some u) vm = .ok ⟨b'.map fun b => (u, b.serial), n'⟩ vm := by
    unfold captureArray
    rw [M.bind_ok (show M.need (some u) vm = .ok u vm from rfl), M.bind_ok (readCell_some hu)]
    cases b' <;> rfl
  rw [M.bind_ok h1, M.bind_ok (show pushFrame ⟨nx, some bc⟩ ⟨b'.map fun b => (u, b.serial), n'⟩ vm =
      .ok () { vm with callStack := vm.callStack ++ [⟨nx, some bc⟩],
                       upArrays := vm.upArrays ++ [⟨b'.map fun b => (u, b.serial), n'⟩] } from rfl),
    M.bind_ok (show M.need (some c) _ = .ok c _ from rfl)]
  have h2 : ∀ s : VM, s.heap = vm.heap → codeSerial c s = .ok b.serial s := by
    intro s hs
    unfold codeSerial
    rw [hs, hc]
  exact (M.bind_ok (h2 { vm with
    callStack := vm.callStack ++ [⟨nx, some bc⟩]
    upArrays := vm.upArrays ++ [⟨b'.map fun b => (u, b.serial), n'⟩] } rfl)).trans rfl

section

/-! The theorems hold whatever the rule about where functions may start, see `Spec.Entries`. -/

variable [Entries]

theorem callee_valueOk {vm : VM} (hg : Good vm) {f g : Obj} (h : Callee vm f g) : ValueOk vm f → ValueOk vm g := by
  induction h with
  | self _ => exact id
  | part h _ ih =>
    rintro ⟨r, hr, hl⟩
    cases hr
    obtain ⟨v, w, h1, h2, h3⟩ := h
    obtain ⟨t, v', w', h4, h5, h6⟩ := live_parts hg.sound hl
    rw [h1] at h4
    cases h4
    obtain ⟨o, h7, h8⟩ := live_value hg.sound (h6 _ rfl)
    rw [h3] at h7
    cases h7
    exact ih h8

/-- C38: every function on the stack of a machine in order has code and captured variables, so the
theorems below apply to it. -/
theorem C38_functions_have_code (vm : VM) (hg : Good vm) (a : Nat) (f : Obj) (pos : Int)
    (code ups : Option Nat) (arity : UInt8) (variadic : Bool) (ha : operand vm a = some f)
    (hf : Callee vm f (.closure pos code ups arity variadic)) :
    ∃ c u ip us, code = some c ∧ ups = some u ∧ IsCode vm c pos ip ∧ IsCaptures vm u us := by
  have hv : ValueOk vm f := hg.sound.stack f (by
    unfold operand at ha
    split at ha
    · cases ha
    · have := List.mem_of_getElem? ha
      simpa using this)
  obtain ⟨c, u, n, rfl, rfl, ⟨_, h1, -⟩, h2⟩ := callee_valueOk hg hf hv
  obtain ⟨b, k, h3, -⟩ := live_code hg.sound ⟨_, h1⟩
  obtain ⟨us, h4, -⟩ := live_captures hg.sound h2
  exact ⟨c, u, _, _, rfl, rfl, ⟨_, _, h3, rfl⟩, ⟨_, _, h4, rfl⟩⟩

theorem prepare_eq {vm : VM} {f g : Obj} (hf : Callee vm f g) (n : Nat) :
    prepareForFuncall f n vm = (match (generalizing := false) g with
      | .function _ => pure g
      | .closure _ _ _ arity variadic =>
          if variadic then
            if n < arity.toNat then M.throw .invalidValue
            else do
              collectRest (n - arity.toNat) Option.none
              return g
          else if arity.toNat ≠ n then M.throw .invalidValue
          else return g
      | _ => M.throw .invalidValue : M Obj) vm := by
  unfold prepareForFuncall
  rw [M.bind_ok (show unwrapFuel vm = .ok _ vm from rfl), M.bind_ok (unwrap_callee hf)]
  cases g <;> rfl

/-- C38: calling a function of `n` parameters with `n` arguments goes on at the start of its code, and
the stack, with the arguments on top, is as it was; the call is pending, and will go on after the
instruction. -/
theorem C38_fixed (env : Env) (bc : Nat) (st nx ip : CodePtr) (vm : VM) (a n c u : Nat) (f : Obj) (pos : Int)
    (arity : UInt8) (us : UpArray) (ha : operand vm a = some f)
    (hf : Callee vm f (.closure pos (some c) (some u) arity false)) (hn : n = arity.toNat)
    (hc : IsCode vm c pos ip) (hu : IsCaptures vm u us) :
    ∃ vm', exec env bc st nx (.funcall a n) vm = .ok (.goto ip) vm' ∧ Called vm vm' bc nx us := by
  obtain ⟨vm', h1, h2⟩ := enter_eq (bc := bc) (nx := nx) hc hu
  refine ⟨vm', ?_, h2⟩
  have hp : prepareForFuncall f n vm = .ok (.closure pos (some c) (some u) arity false) vm := by
    rw [prepare_eq hf, hn]
    simp
  simp only [exec]
  have : iFuncall env bc nx a n vm = .ok ip vm' := by
    unfold iFuncall
    rw [M.bind_ok (getArg_some ha), M.bind_ok hp]
    exact h1
  rw [M.bind_ok this]
  rfl

/-- C38: any other number of arguments is an error, and nothing has changed; a function with a rest
parameter needs at least as many arguments as it has other parameters. -/
theorem C38_wrong_count (env : Env) (bc : Nat) (st nx : CodePtr) (vm : VM) (a n : Nat) (f : Obj) (pos : Int)
    (code ups : Option Nat) (arity : UInt8) (variadic : Bool) (ha : operand vm a = some f)
    (hf : Callee vm f (.closure pos code ups arity variadic))
    (hn : if variadic = true then n < arity.toNat else n ≠ arity.toNat) :
    exec env bc st nx (.funcall a n) vm = .err .invalidValue vm := by
  have hp : prepareForFuncall f n vm = .err .invalidValue vm := by
    rw [prepare_eq hf]
    cases variadic with
    | true =>
      simp only [if_true] at hn ⊢
      rw [if_pos hn]
      rfl
    | false =>
      simp only [Bool.false_eq_true, if_false] at hn ⊢
      rw [if_pos (Ne.symm hn)]
      rfl
  simp only [exec]
  have : iFuncall env bc nx a n vm = .err .invalidValue vm := by
    unfold iFuncall
    rw [M.bind_ok (getArg_some ha), M.bind_err hp]
  rw [M.bind_err this]

/-- C38: calling something that is not a function is an error, and nothing has changed. -/
theorem C38_not_a_function (env : Env) (bc : Nat) (st nx : CodePtr) (vm : VM) (a n : Nat) (f g : Obj)
    (ha : operand vm a = some f) (hf : Callee vm f g) (h1 : ∀ cb, g ≠ .function cb)
    (h2 : ∀ pos code ups arity variadic, g ≠ .closure pos code ups arity variadic) :
    exec env bc st nx (.funcall a n) vm = .err .invalidValue vm := by
  have hp : prepareForFuncall f n vm = .err .invalidValue vm := by
    rw [prepare_eq hf]
    cases g <;> first | rfl | exact absurd rfl (h1 _) | exact absurd rfl (h2 _ _ _ _ _)
  simp only [exec]
  have : iFuncall env bc nx a n vm = .err .invalidValue vm := by
    unfold iFuncall
    rw [M.bind_ok (getArg_some ha), M.bind_err hp]
  rw [M.bind_err this]

/-- C38: a function of the host is run on the machine as it is. -/
theorem C38_host_function (env : Env) (bc : Nat) (st nx : CodePtr) (vm : VM) (a n cb : Nat) (f : Obj)
    (ha : operand vm a = some f) (hf : Callee vm f (.function cb)) :
    (∀ vm', env.host cb vm = .ok () vm' → exec env bc st nx (.funcall a n) vm = .ok (.goto nx) vm') ∧
    ∀ e vm', env.host cb vm = .err e vm' → exec env bc st nx (.funcall a n) vm = .err e vm' := by
  have hp : prepareForFuncall f n vm = .ok (.function cb) vm := by
    rw [prepare_eq hf]
    rfl
  constructor
  · intro vm' h
    simp only [exec]
    have : iFuncall env bc nx a n vm = .ok nx vm' := by
      unfold iFuncall
      rw [M.bind_ok (getArg_some ha), M.bind_ok hp]
      dsimp only
      rw [M.bind_ok h]
      rfl
    rw [M.bind_ok this]
    rfl
  · intro e vm' h
    simp only [exec]
    have : iFuncall env bc nx a n vm = .err e vm' := by
      unfold iFuncall
      rw [M.bind_ok (getArg_some ha), M.bind_ok hp]
      dsimp only
      rw [M.bind_err h]
    rw [M.bind_err this]

theorem isCode_keeps {s t : VM} {c : Nat} {pos : Int} {ip : CodePtr} (h : IsCode s c pos ip)
    (hh : t.heap[c]? = s.heap[c]?) : IsCode t c pos ip := by
  obtain ⟨b, n, h1, h2⟩ := h
  exact ⟨b, n, hh.trans h1, h2⟩

theorem isCaptures_keeps {s t : VM} {c : Nat} {us : UpArray} (h : IsCaptures s c us)
    (hh : t.heap[c]? = s.heap[c]?) : IsCaptures t c us := by
  obtain ⟨b, n, h1, h2⟩ := h
  exact ⟨b, n, hh.trans h1, h2⟩

theorem callee_traced {vm : VM} (hg : Good vm) {f g : Obj} (h : Callee vm f g) (ht : ∀ r, Mentions f r → Traced vm r) :
    ∀ r, Mentions g r → Traced vm r := by
  induction h with
  | self _ => exact ht
  | part h _ ih =>
    obtain ⟨v, w, h1, h2, h3⟩ := h
    refine ih fun r hr => ?_
    have t1 := ht _ .composite
    have t2 : Traced vm w := .step t1 h1 .compositeFunction (by simp [UnderConstruction])
    obtain ⟨_, hl⟩ := t2.live hg.sound
    exact .step t2 h3 hr (hg.finished _ _ h3 hl.1)

/-- C38: a function with a rest parameter gets the surplus arguments as a list of exactly these, in
order, in their place; everything the program could reach is as it was.  If there is no memory for the
list, that is reported. -/
theorem C38_variadic (env : Env) (bc : Nat) (st nx ip : CodePtr) (vm : VM) (hg : Good vm)
    (hl : vm.upStack.length = vm.stack.length) (a c u : Nat) (f : Obj) (pos : Int) (arity : UInt8) (us : UpArray)
    (below args rest : List Obj) (hst : vm.stack = below ++ args ++ rest) (hn : args.length = arity.toNat)
    (ha : operand vm a = some f) (hf : Callee vm f (.closure pos (some c) (some u) arity true))
    (hc : IsCode vm c pos ip) (hu : IsCaptures vm u us) :
    (∃ vm1 vm' p, exec env bc st nx (.funcall a (args.length + rest.length)) vm = .ok (.goto ip) vm' ∧
        Called vm1 vm' bc nx us ∧ vm1.stack = below ++ args ++ [.list p] ∧
        vm1.upStack = (vm.upStack ++ [none]).take (below.length + args.length + 1) ∧
        ListOf vm1 p rest ∧ Untouched vm vm1 [] ∧ Good vm1) ∨
    ∃ vm', exec env bc st nx (.funcall a (args.length + rest.length)) vm = .err .outOfMemory vm' ∧
      Untouched vm vm' [] := by
  have hp := post_collectRest (U := False) (E := fun e s => e = .outOfMemory ∧ Untouched vm s []) hg hl
    (fun s' h => ⟨rfl, h⟩) hst (tail := none) (xs := []) trivial .nil
  have ht := callee_traced hg hf (fun r hr => pinned_stack hg.sound (operand_mem ha) r hr)
  have hprep : prepareForFuncall f (args.length + rest.length) vm = (do
      collectRest rest.length Option.none
      return .closure pos (some c) (some u) arity true : M Obj) vm := by
    rw [prepare_eq hf]
    dsimp only
    rw [if_pos rfl, if_neg (by omega)]
    rw [show args.length + rest.length - arity.toNat = rest.length by omega]
  rcases hp.cases with ⟨_, s, h1, p, h2, h3, h4, h5, h6, h7, -⟩ | ⟨e, s, h1, rfl, h2⟩
  · have h8 : prepareForFuncall f (args.length + rest.length) vm =
        .ok (.closure pos (some c) (some u) arity true) s := by
      rw [hprep, M.bind_ok h1]
      rfl
    obtain ⟨vm', h9, h10⟩ := enter_eq (bc := bc) (nx := nx)
      (isCode_keeps hc (h7 c (ht c .code)).1) (isCaptures_keeps hu (h7 u (ht u .captured)).1)
    refine .inl ⟨s, vm', p, ?_, h10, h2, ?_, by simpa using h4, h5, h6⟩
    · simp only [exec]
      have : iFuncall env bc nx a (args.length + rest.length) vm = .ok ip vm' := by
        unfold iFuncall
        rw [M.bind_ok (getArg_some ha), M.bind_ok h8]
        exact h9
      rw [M.bind_ok this]
      rfl
    · rw [h3]
      simp
  · refine .inr ⟨s, ?_, h2⟩
    simp only [exec]
    have : iFuncall env bc nx a (args.length + rest.length) vm = .err .outOfMemory s := by
      unfold iFuncall
      rw [M.bind_ok (getArg_some ha), M.bind_err (e := .outOfMemory) (s' := s) (by rw [hprep, M.bind_err h1])]
    rw [M.bind_err this]

/-- C38: a function that has pushed its result and has `n` values below it, its parameters first,
leaves the result in their place, and execution goes on after the call, with the calls that were
pending before. -/
theorem C38_return (env : Env) (bc : Nat) (st nx back : CodePtr) (vm : VM) (frame : Frame) (us : UpArray)
    (frames : List Frame) (arrays : List UpArray) (below locals : List Obj) (result : Obj)
    (hl : vm.upStack.length = vm.stack.length)
    (hst : vm.stack = below ++ locals ++ [result]) (hcs : vm.callStack = frames ++ [frame])
    (hua : vm.upArrays = arrays ++ [us]) (hb : frame.ip = back) :
    exec env bc st nx (returning locals.length) vm = .ok (.goto back)
      { vm with stack := below ++ [result],
                upStack := if locals.length = 0 then vm.upStack else vm.upStack.take below.length ++ [none],
                callStack := frames, upArrays := arrays } := by
  rcases vm with ⟨heap, free, stack, upStack, cs, ua, gl, cb, nu, ns⟩
  simp only at hl hst hcs hua
  subst hst hcs hua hb
  have hleave : ∀ (stk : List Obj) (up : List (Option Nat)),
      leave ⟨heap, free, stk, up, frames ++ [frame], arrays ++ [us], gl, cb, nu, ns⟩ =
      .ok (.goto frame.ip) ⟨heap, free, stk, up, frames, arrays, gl, cb, nu, ns⟩ := by
    intro stk up
    unfold leave
    have : popFrame ⟨heap, free, stk, up, frames ++ [frame], arrays ++ [us], gl, cb, nu, ns⟩ =
        .ok (some frame.ip) ⟨heap, free, stk, up, frames, arrays, gl, cb, nu, ns⟩ := by
      unfold popFrame
      simp only [List.getLast?_append, List.getLast?_singleton, Option.some_or, List.dropLast_concat]
      split
      · rename_i h
        simp at h
      · rfl
    rw [M.bind_ok this]
    rfl
  unfold returning
  split
  · rename_i h
    have : locals = [] := List.length_eq_zero_iff.1 h
    subst this
    show leave _ = _
    rw [hleave]
    simp
  · rename_i h
    simp only [exec]
    have hlen : upStack.length = below.length + locals.length + 1 := by simp at hl; omega
    obtain ⟨l, ls, rfl⟩ := List.exists_cons_of_ne_nil (l := locals) (by rintro rfl; exact h rfl)
    have e1 : (below ++ (l :: ls) ++ [result]).take ((below ++ (l :: ls) ++ [result]).length - (l :: ls).length) =
        below ++ [l] := by
      rw [show below ++ (l :: ls) ++ [result] = (below ++ [l]) ++ (ls ++ [result]) by simp]
      rw [List.take_append_of_le_length (by simp; omega), List.take_of_length_le (by simp; omega)]
    have e2 : upStack.take (upStack.length - (l :: ls).length) = upStack.take (below.length + 1) := by
      rw [hlen]
      simp only [List.length_cons]
      rw [show below.length + (ls.length + 1) + 1 - (ls.length + 1) = below.length + 1 by omega]
    have h1 : popMany (l :: ls).length
        ⟨heap, free, below ++ (l :: ls) ++ [result], upStack, frames ++ [frame], arrays ++ [us], gl, cb, nu, ns⟩ =
        .ok () ⟨heap, free, below ++ [l], upStack.take (below.length + 1), frames ++ [frame], arrays ++ [us], gl,
          cb, nu, ns⟩ := by
      rw [popMany_ok (by simp; omega) (by simp at hlen ⊢; omega)]
      unfold popped
      dsimp only
      rw [e1, e2]
    have h2 : popMany 1
        ⟨heap, free, below ++ [l], upStack.take (below.length + 1), frames ++ [frame], arrays ++ [us], gl,
          cb, nu, ns⟩ =
        .ok () ⟨heap, free, below, upStack.take below.length, frames ++ [frame], arrays ++ [us], gl,
          cb, nu, ns⟩ := by
      rw [popMany_ok (by simp) (by simp; omega)]
      unfold popped
      dsimp only
      rw [List.take_take, List.length_take, Nat.min_eq_left (by omega)]
      simp only [List.length_append, List.length_cons, List.length_nil, Nat.add_sub_cancel]
      rw [Nat.min_eq_left (by omega)]
      simp
    refine (M.bind_ok (show M.get _ = .ok _ _ from rfl)).trans ?_
    refine (M.bind_ok h1).trans ?_
    refine (M.bind_ok (show M.get _ = .ok _ _ from rfl)).trans ?_
    dsimp only [List.getLast?_concat]
    rw [if_pos (by simp)]
    refine (M.bind_ok h2).trans ?_
    refine (M.bind_ok (show push _ _ = .ok () _ from rfl)).trans ?_
    refine (hleave _ _).trans ?_
    rw [List.getLast?_concat]
    simp

/-- C38: a call and its return.  However the body runs, if it leaves `n` values and its result where the
arguments were, with the pending calls as they were on entry, then after the return the result is there
in place of the arguments, and execution goes on after the call with the caller's captured variables. -/
theorem C38_call_returns (env : Env) (bc bc' : Nat) (st nx st' nx' ip : CodePtr) (vm vm1 vm2 : VM) (a n c u : Nat)
    (f : Obj) (pos : Int) (arity : UInt8) (us : UpArray) (below locals : List Obj) (result : Obj)
    (ha : operand vm a = some f) (hf : Callee vm f (.closure pos (some c) (some u) arity false))
    (hn : n = arity.toNat) (hc : IsCode vm c pos ip) (hu : IsCaptures vm u us)
    (hcall : exec env bc st nx (.funcall a n) vm = .ok (.goto ip) vm1)
    (hl : vm2.upStack.length = vm2.stack.length)
    (hst : vm2.stack = below ++ locals ++ [result]) (hcs : vm2.callStack = vm1.callStack)
    (hua : vm2.upArrays = vm1.upArrays) :
    ∃ vm3, exec env bc' st' nx' (returning locals.length) vm2 = .ok (.goto nx) vm3 ∧
      vm3.stack = below ++ [result] ∧ vm3.upStack.length = vm3.stack.length ∧ vm3.heap = vm2.heap ∧
      vm3.free = vm2.free ∧ vm3.globals = vm2.globals ∧
      vm3.callStack = vm.callStack ∧ vm3.upArrays = vm.upArrays := by
  obtain ⟨vm', h1, h2⟩ := C38_fixed env bc st nx ip vm a n c u f pos arity us ha hf hn hc hu
  rw [hcall] at h1
  cases h1
  rw [h2] at hcs hua
  refine ⟨_, C38_return env bc' st' nx' nx vm2 _ _ _ _ below locals result hl hst hcs hua rfl, rfl, ?_, rfl, rfl,
    rfl, rfl, rfl⟩
  dsimp only
  rw [hst] at hl
  split
  · rename_i h
    rw [hl, List.length_eq_zero_iff.1 h]
    simp
  · simp at hl ⊢
    omega

theorem loopUntil_runs {env : Env} {bc stop k : Nat} {a b : CodePtr × VM} (h : Runs env bc stop k a b) (fuel : Nat) :
    loopUntil env bc stop (k + fuel) a.1 a.2 = loopUntil env bc stop fuel b.1 b.2 := by
  induction h with
  | refl => rw [Nat.zero_add]
  | @step k ip vm ip' vm' b hne h _ ih =>
    rw [show k + 1 + fuel = (k + fuel) + 1 by omega]
    show loopUntil env bc stop ((k + fuel) + 1) ip vm = _
    rw [loopUntil, if_neg hne, M.bind_ok h]
    exact ih

/-- C38: a call by the host.  The function's code is copied to the next free cell, the machine runs from
the function's start, with its captured variables and a pending call that goes back to the host, and when
the function returns to the host, that is the end of the call. -/
theorem C38_host_call (env : Env) (vm vm1 vm2 : VM) (i : Int) (n : UInt8) (f : Obj) (pos : Int) (c u k : Nat)
    (b : CodeBlock) (us : UpArray) (rest : List Nat) (arity : UInt8) (steps fuel : Nat) (back : CodePtr)
    (hi : stackGet i vm = .ok f vm) (hf : Callee vm f (.closure pos (some c) (some u) arity false))
    (hn : n = arity) (hc : vm.heap[c]? = some (.bytecode (some b) b.bytes.length)) (hu : IsCaptures vm u us)
    (hpos : 0 ≤ pos ∧ pos < b.bytes.length) (hfree : vm.free = k :: rest) (hk : k < vm.heap.length)
    (hentry : vm1 = { vm with
      heap := vm.heap.set k (.bytecode (some ⟨vm.nextSerial, b.bytes⟩) b.bytes.length)
      free := rest
      nextSerial := vm.nextSerial + 1
      callStack := vm.callStack ++ [⟨⟨vm.heap.length, 0, 0⟩, some vm.heap.length⟩]
      upArrays := vm.upArrays ++ [us]
      currentBytecode := some k })
    (hruns : Runs env k vm.heap.length steps (⟨k, vm.nextSerial, pos⟩, vm1) (back, vm2))
    (hback : back.cell = vm.heap.length) :
    apiCall env (steps + (fuel + 1)) i n vm = .ok () { vm2 with currentBytecode := none } := by
  have hp : prepareForFuncall f n.toNat vm = .ok (.closure pos (some c) (some u) arity false) vm := by
    rw [prepare_eq hf, hn]
    simp
  obtain ⟨b', n', hu, rfl⟩ := hu
  have hcap : captureArray (some u) vm = .ok ⟨b'.map fun b => (u, b.serial), n'⟩ vm := by
    unfold captureArray
    rw [M.bind_ok (show M.need (some u) vm = .ok u vm from rfl), M.bind_ok (readCell_some hu)]
    cases b' <;> rfl
  have hpush : pushObject (.bytecode (some ⟨0, b.bytes⟩) b.bytes.length)
      { vm with callStack := vm.callStack ++ [⟨⟨vm.heap.length, 0, 0⟩, some vm.heap.length⟩]
                upArrays := vm.upArrays ++ [⟨b'.map fun b => (u, b.serial), n'⟩] } =
      .ok k { vm with
        heap := vm.heap.set k (.bytecode (some ⟨vm.nextSerial, b.bytes⟩) b.bytes.length)
        free := rest
        nextSerial := vm.nextSerial + 1
        callStack := vm.callStack ++ [⟨⟨vm.heap.length, 0, 0⟩, some vm.heap.length⟩]
        upArrays := vm.upArrays ++ [⟨b'.map fun b => (u, b.serial), n'⟩] } := by
    unfold pushObject takeFree
    simp only [hfree]
    rw [if_neg (by simp), show store vm.nextSerial (.bytecode (some ⟨0, b.bytes⟩) b.bytes.length) =
      .bytecode (some ⟨vm.nextSerial, b.bytes⟩) b.bytes.length by
        simp only [store]
        rw [if_neg (by omega)]
        rfl]
  unfold apiCall
  rw [M.bind_ok hi, M.bind_ok hp]
  dsimp only
  rw [M.bind_ok (show M.need (some c) vm = .ok c vm from rfl), M.bind_ok (readCell_some hc)]
  dsimp only
  rw [M.bind_ok hcap]
  refine (M.bind_ok (show M.get vm = .ok vm vm from rfl)).trans ?_
  refine (M.bind_ok (show pushFrame _ _ vm = .ok () _ from rfl)).trans ?_
  rw [if_neg (by omega)]
  refine (M.bind_ok (show M.need _ _ = .ok b.bytes _ from rfl)).trans ?_
  refine (M.bind_ok hpush).trans ?_
  refine (M.bind_ok (show M.modify _ _ = .ok () vm1 by rw [hentry]; rfl)).trans ?_
  have hser : codeSerial k vm1 = .ok vm.nextSerial vm1 := by
    unfold codeSerial
    rw [hentry]
    simp [List.getElem?_set_self hk]
  have hloop : loopUntil env k vm.heap.length (steps + (fuel + 1)) ⟨k, vm.nextSerial, pos⟩ vm1 = .ok () vm2 := by
    rw [loopUntil_runs hruns (fuel + 1), loopUntil, if_pos hback]
    rfl
  unfold finish
  rw [M.bind_ok hser, hloop]

end

/-! ### Examples -/

/-- A machine with a function of two parameters that adds them, or, if `variadic`, of two and a rest
parameter, below the integers 3, 4 and 5. -/
def callVM (variadic : Bool) : VM where
  heap := [.bytecode (some ⟨0, [76, 1, 2, 162, 2]⟩) 5, .upvalueArray none 0, .integer 0, .integer 0, .integer 0,
    .integer 0, .internalComposite 77 (some 7) (some 7), .closure 0 (some 0) (some 1) 2 variadic]
  free := [2, 3, 4, 5]
  stack := [.composite (some 6), .integer 3, .integer 4, .integer 5]
  upStack := [none, none, none, none]
  callStack := []
  upArrays := []
  globals := []
  currentBytecode := some 0
  nextUserType := 100
  nextSerial := 1

theorem callVM_good (v : Bool) : Good (callVM v) := by
  have l0 : Live (callVM v) 0 (.code (some ⟨0, [76, 1, 2, 162, 2]⟩)) := ⟨by simp [callVM], _, rfl, rfl⟩
  have l1 : Live (callVM v) 1 (.captures 0) := ⟨by simp [callVM], _, rfl, rfl⟩
  have l6 : Live (callVM v) 6 .parts := ⟨by simp [callVM], _, rfl, rfl⟩
  have l7 : Live (callVM v) 7 .value := ⟨by simp [callVM], _, rfl, rfl⟩
  refine ⟨⟨by cases v <;> decide, by cases v <;> decide, ?_, by cases v <;> decide, ?_, by simp [callVM],
    by simp [callVM], by simp [callVM], ?_, ?_⟩, ?_⟩
  · intro r hr o ho
    simp [callVM] at hr
    rcases hr with rfl | rfl | rfl | rfl <;>
    · simp [callVM] at ho
      subst ho
      simp [OwnsBlock]
  · intro o ho
    simp [callVM] at ho
    rcases ho with rfl | rfl | rfl | rfl
    · exact ⟨_, rfl, l6⟩
    all_goals exact ⟨by decide, by decide⟩
  · rintro r h
    cases h
    exact ⟨_, l0⟩
  · intro r o ho hf
    match r with
    | 0 => simp [callVM] at ho; subst ho; exact ⟨_, rfl, rfl⟩
    | 1 => simp [callVM] at ho; subst ho; exact ⟨rfl, by simp⟩
    | 2 => simp [callVM] at hf
    | 3 => simp [callVM] at hf
    | 4 => simp [callVM] at hf
    | 5 => simp [callVM] at hf
    | 6 =>
      simp [callVM] at ho
      subst ho
      refine ⟨?_, ?_⟩ <;>
      · rintro r h
        cases h
        exact l7
    | 7 => simp [callVM] at ho; subst ho; exact ⟨_, _, _, rfl, rfl, ⟨_, l0, trivial⟩, l1⟩
    | n + 8 => simp [callVM] at ho
  · intro r o ho
    match r with
    | 0 => simp [callVM] at ho; subst ho; simp [UnderConstruction]
    | 1 => simp [callVM] at ho; subst ho; simp [UnderConstruction]
    | 2 => simp [callVM] at ho; subst ho; simp [UnderConstruction]
    | 3 => simp [callVM] at ho; subst ho; simp [UnderConstruction]
    | 4 => simp [callVM] at ho; subst ho; simp [UnderConstruction]
    | 5 => simp [callVM] at ho; subst ho; simp [UnderConstruction]
    | 6 => simp [callVM] at ho; subst ho; simp [UnderConstruction]
    | 7 => simp [callVM] at ho; subst ho; simp [UnderConstruction]
    | n + 8 => simp [callVM] at ho

theorem callVM_callee (v : Bool) :
    Callee (callVM v) (.composite (some 6)) (.closure 0 (some 0) (some 1) 2 v) :=
  .part (t := 77) ⟨7, 7, rfl, rfl, rfl⟩ (.self (by simp))

example (v : Bool) : operand (callVM v) 4 = some (.composite (some 6)) ∧ IsCode (callVM v) 0 0 ⟨0, 0, 0⟩ ∧
    IsCaptures (callVM v) 1 ⟨none, 0⟩ ∧ (callVM v).upStack.length = (callVM v).stack.length ∧
    (callVM v).stack = [.composite (some 6)] ++ [.integer 3, .integer 4] ++ [.integer 5] :=
  ⟨rfl, ⟨_, _, rfl, rfl⟩, ⟨_, _, rfl, rfl⟩, rfl, rfl⟩

example : (match exec plainEnv 0 ⟨0, 0, 0⟩ ⟨0, 0, 3⟩ (.funcall 4 3) (callVM true) with
    | .ok (.goto ip) vm' => decide (ip = ⟨0, 0, 0⟩ ∧
        vm'.stack = [.composite (some 6), .integer 3, .integer 4, .list (some 3)] ∧
        vm'.heap[3]? = some (.cons (some 2) none) ∧ vm'.heap[2]? = some (.integer 5) ∧
        vm'.callStack = [⟨⟨0, 0, 3⟩, some 0⟩])
    | _ => false) = true := by decide +kernel

example : exec plainEnv 0 ⟨0, 0, 0⟩ ⟨0, 0, 3⟩ (.funcall 4 3) (callVM false) =
    .err .invalidValue (callVM false) := rfl

/-- A call by the host of the function that adds: the sum of the top two takes their place. -/
example : (match apiCall plainEnv 3 0 2 (callVM false) with
    | .ok () vm' => decide (vm'.stack = [.composite (some 6), .integer 3, .integer 9] ∧ vm'.callStack = [] ∧
        vm'.upArrays = [])
    | _ => false) = true := by decide +kernel

/-- The hypotheses of `C38_host_call` hold for it. -/
example : ∃ vm1 vm2 back, Runs plainEnv 2 (callVM false).heap.length 2 (⟨2, (callVM false).nextSerial, 0⟩, vm1)
      (back, vm2) ∧ back.cell = (callVM false).heap.length ∧
    vm1 = { callVM false with
      heap := (callVM false).heap.set 2 (.bytecode (some ⟨1, [76, 1, 2, 162, 2]⟩) 5)
      free := [3, 4, 5]
      nextSerial := 2
      callStack := [⟨⟨8, 0, 0⟩, some 8⟩]
      upArrays := [⟨none, 0⟩]
      currentBytecode := some 2 } :=
  ⟨_, _, _, .step (by decide) rfl (.step (by decide) rfl .refl), rfl, rfl⟩

#print axioms C38_functions_have_code
#print axioms C38_fixed
#print axioms C38_wrong_count
#print axioms C38_not_a_function
#print axioms C38_host_function
#print axioms C38_variadic
#print axioms C38_return
#print axioms C38_call_returns
#print axioms C38_host_call

end DuckLisp.VM
