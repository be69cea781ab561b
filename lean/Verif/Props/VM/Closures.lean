import Verif.Proof.VM.Closures
import Verif.Proof.VM.MindCalls
import Verif.Proof.VM.Heights
import Verif.Proof.VM.Control
import Verif.Proof.VM.Faults
import Verif.Spec.Schedules
import Verif.Props.VM.Apply

/-!
# C40: closures share captured variables

A captured variable lives in one place: in its slot of the stack while its scope is active, in a cell of
its own afterwards.  The theorems say that making a closure captures the place (`C40_capture`), that
reads and assignments by closures and by the scope itself go to the place (`C40_read`, `C40_read_local`,
`C40_write`, `C40_write_local`), that the end of a scope moves variables to new places together with
their values and keeps different variables apart (`C40_release`), and that through any schedule of such
steps, of work on data that may make the machine collect garbage, of jumps, calls, applications and returns,
captured variables that are the same stay the same and different ones stay different (`C40_schedule_partial`), and that each has the value assigned last to it (`C40_last_assigned_partial`).
-/

namespace DuckLisp.Props

open DuckLisp DuckLisp.VM DuckLisp.Spec

/-! ### Reading and assigning -/

/-- C40: a closure that reads a captured variable gets the value the variable has where it lives. -/
theorem C40_read (env : Env) (bc : Nat) (st nx : CodePtr) (vm : VM) (j c : Nat) (pl : Place) (o : Obj)
    (h : RunningCapture vm j c) (hd : Denotes vm c pl) (ho : contents vm pl = some o) :
    exec env bc st nx (.pushUpvalue j) vm = .ok (.goto nx) (pushed vm o) :=
  exec_plain_ok trivial (pushUpvalue_eq h hd ho)

theorem operand_slot {vm : VM} {a : Nat} (h : 0 < a) (h' : a ≤ vm.stack.length) :
    operand vm a = contents vm (.slot (vm.stack.length - a)) := by
  unfold operand contents
  rw [if_neg (by omega), List.getElem?_reverse (by omega)]
  congr 1
  omega

/-- C40: the scope that declares a variable reads the place where it lives. -/
theorem C40_read_local (env : Env) (bc : Nat) (st nx : CodePtr) (vm : VM) (a : Nat) (o : Obj) (ha : 0 < a)
    (ha' : a ≤ vm.stack.length) (ho : contents vm (.slot (vm.stack.length - a)) = some o) :
    exec env bc st nx (.pushIndex a) vm = .ok (.goto nx) (pushed vm o) := by
  rw [← operand_slot ha ha'] at ho
  refine exec_plain_ok trivial ?_
  show (getArg a >>= push) vm = _
  rw [M.bind_ok (getArg_some ho)]
  rfl

theorem contents_value {vm : VM} (hg : Good vm) {c : Nat} {pl : Place} {o : Obj} (hd : Denotes vm c pl)
    (hl : Live vm c .captured) (ho : contents vm pl = some o) : ValueOk vm o := by
  cases pl with
  | slot i => exact hg.sound.stack o (List.mem_of_getElem? ho)
  | cell r =>
    obtain ⟨o', h1, h2⟩ := live_value hg.sound (denotes_live hg.sound hd hl rfl)
    have : vm.heap[r]? = some o := ho
    rw [h1] at this
    cases this
    exact h2

theorem good_assigned {vm : VM} (hg : Good vm) (hl : Linked vm) {pl : Place} {o x : Obj}
    (hpl : ∀ r, pl = .cell r → Live vm r .value) (ho : contents vm pl = some o) (hx : ValueOk vm x) :
    Good (assigned vm x pl) ∧ Linked (assigned vm x pl) ∧ Assigned vm (assigned vm x pl) pl x := by
  cases pl with
  | slot i =>
    refine ⟨?_, ?_, assigned_slot (getElem?_lt ho)⟩
    · refine hg.stacks (vm.stack.set i x) vm.upStack (fun o ho => ?_) hg.sound.captured
      rcases List.mem_or_eq_of_mem_set ho with ho | rfl
      · exact hg.sound.stack o ho
      · exact hx
    · exact linked_stacks hl (vm.stack.set i x) vm.upStack (fun _ _ => Iff.rfl)
  | cell r =>
    obtain ⟨o', h1, h2⟩ := live_value hg.sound (hpl r rfl)
    have hr : vm.heap[r]? = some o := ho
    rw [hr] at h1
    cases h1
    refine ⟨?_, ?_, assigned_cell hr (value_not_upvalue hx) (value_not_upvalue h2)⟩
    · exact hg.write hr (hpl r rfl).1 (by rw [shape_value hx, shape_value h2]) (cellOk_of_valueOk hx)
        (valueOk_settled hx)
    · exact linked_write hl hr (value_not_upvalue h2) (value_not_upvalue hx)

/-- C40: a closure that assigns to a captured variable changes the variable where it lives, and no other
variable; all captured variables live where they lived before. -/
theorem C40_write (env : Env) (bc : Nat) (st nx : CodePtr) (vm : VM) (hg : Good vm) (hl : Linked vm)
    (j a c : Nat) (pl : Place) (o x : Obj) (h : RunningCapture vm j c) (hd : Denotes vm c pl)
    (ho : contents vm pl = some o) (hx : operand vm a = some x) :
    ∃ vm', exec env bc st nx (.setUpvalue j a) vm = .ok (.goto nx) vm' ∧
      contents vm' pl = some x ∧ (∀ p, p ≠ pl → contents vm' p = contents vm p) ∧
      (∀ d p, Denotes vm' d p ↔ Denotes vm d p) ∧
      vm'.stack.length = vm.stack.length ∧ vm'.upStack = vm.upStack ∧ Good vm' ∧ Linked vm' := by
  obtain ⟨h1, h2, h3⟩ := good_assigned hg hl
    (fun r hr => denotes_live hg.sound hd (running_live hg.sound h) hr) ho
    (hg.sound.stack x (operand_mem hx))
  refine ⟨_, exec_plain_ok trivial (setUpvalue_eq h hd ho hx), h3.here, h3.others, h3.denotes, ?_, ?_, h1, h2⟩
  · cases pl <;> simp [assigned]
  · cases pl <;> simp [assigned]

/-- C40: so does the scope that declares it. -/
theorem C40_write_local (env : Env) (bc : Nat) (st nx : CodePtr) (vm : VM) (hg : Good vm) (hl : Linked vm)
    (a b : Nat) (x : Obj) (hb : 0 < b) (hb' : b ≤ vm.stack.length) (hx : operand vm a = some x) :
    ∃ vm', exec env bc st nx (.move a b) vm = .ok (.goto nx) vm' ∧
      contents vm' (.slot (vm.stack.length - b)) = some x ∧
      (∀ p, p ≠ .slot (vm.stack.length - b) → contents vm' p = contents vm p) ∧
      (∀ d p, Denotes vm' d p ↔ Denotes vm d p) ∧
      vm'.stack.length = vm.stack.length ∧ vm'.upStack = vm.upStack ∧ Good vm' ∧ Linked vm' := by
  have hlt : vm.stack.length - b < vm.stack.length := by omega
  obtain ⟨h1, h2, h3⟩ := good_assigned hg hl (pl := .slot (vm.stack.length - b)) (by simp)
    (show contents vm _ = _ from List.getElem?_eq_getElem hlt) (hg.sound.stack x (operand_mem hx))
  refine ⟨assigned vm x (.slot (vm.stack.length - b)), exec_plain_ok trivial ?_, h3.here, h3.others, h3.denotes,
    by simp [assigned], rfl, h1, h2⟩
  show (getArg a >>= fun o => setArg b o) vm = _
  rw [M.bind_ok (getArg_some hx)]
  unfold setArg argIndex
  rw [if_pos ⟨hb, hb'⟩]
  rfl

/-! ### Making closures -/

/-- C40: a new closure has captured the variables its operands name, where they live: each variable on
the stack in its slot, and each captured variable of the running function in the place where that
function finds it.  The variables captured before stay where they are.  `hrun` asks that the running
function can still be reached; see `C25_running_function_loses_captures` for what happens otherwise. -/
theorem C40_capture (env : Env) (bc : Nat) (st nx : CodePtr) (vm : VM) (hg : Good vm) (hl : Linked vm)
    (hlen : vm.upStack.length = vm.stack.length) (hbc : Reachable vm bc) (hst : IsCode vm bc st.off st)
    (hrun : ∀ r s n, vm.upArrays.getLast? = some ⟨some (r, s), n⟩ → Reachable vm r)
    (variadic : Bool) (base : Nat) (disp : Int) (arity : UInt8) (vs : List Nat) (pls : List Place)
    (hvs : NamesAll vm vs pls) :
    (∃ vm' u, exec env bc st nx (.pushClosure variadic base disp arity vs) vm = .ok (.goto nx) vm' ∧
      vm'.stack = vm.stack ++ [.closure (disp + (st.off + base)) (some bc) (some u) arity variadic] ∧
      ¬ Reachable vm u ∧ IsClosureOver vm' u pls ∧ Untouched vm vm' [] ∧
      (∀ c pl, Reachable vm c → Denotes vm c pl → Denotes vm' c pl ∧
        ∀ o, contents vm pl = some o → contents vm' pl = some o) ∧
      vm'.upStack.length = vm'.stack.length ∧ Good vm' ∧ Linked vm') ∨
    ∃ e vm', exec env bc st nx (.pushClosure variadic base disp arity vs) vm = .err e vm' ∧
      (e = .outOfMemory ∨ e = .shouldntHappen) ∧ Untouched vm vm' [] ∧ Good vm' := by
  have hT := fun r => traced_of_reachable (r := r) hg.sound hg.finished
  have hp := post_pushClosure (U := False) (base := base) (disp := disp) (arity := arity) (variadic := variadic)
    (E := fun e s' => (e = .outOfMemory ∨ e = .shouldntHappen) ∧ Untouched vm s' [] ∧ Good s')
    hg hl hlen (hT bc hbc) hst (fun _ _ _ => trivial) (fun r s n h => hT r (hrun r s n h)) hvs
    (fun e s' h1 h2 h3 => ⟨h1, h3.untouched hg, h2⟩)
  rcases exec_plain_post (i := .pushClosure variadic base disp arity vs) (st := st) (nx := nx) (env := env) (bc := bc)
    trivial hp with
    ⟨vm', he, u, h1, h2, h3, h4, h5, h6, h7⟩ | ⟨e, vm', he, h1⟩
  · refine .inl ⟨vm', u, he, h1, fun hu => h6 (hT u hu), h7, h5.untouched hg, fun c pl hc hd => ⟨?_, fun o ho => ?_⟩,
      h2, h3, h4⟩
    · exact denotes_keeps (fun r hr => h5.heap r hr) hd (hT c hc)
    · cases pl with
      | slot i =>
        show vm'.stack[i]? = some o
        rw [h1, List.getElem?_append_left (getElem?_lt ho)]
        exact ho
      | cell r => exact (h5.heap r (denotes_traced hd (hT c hc) rfl)).trans ho
  · exact .inr ⟨e, vm', he, h1⟩

/-! ### The end of a scope -/

theorem follows_of_releases {vm vm' : VM} {f : Place → Place} (hg : Good vm) (h : Releases vm vm' f) :
    Follows vm vm' f := by
  have hT := fun r => traced_of_reachable (r := r) hg.sound hg.finished
  have hT' := fun r => traced_of_reachable (r := r) h.good.sound h.good.finished
  exact ⟨fun c pl h1 h2 h3 => h.denotes c pl (hT c h1.1) (hT' c h2.1) h2.2 h3,
    fun c pl h1 h2 h3 => h.value c pl (hT c h1.1) (hT' c h2.1) h2.2 h3,
    fun c d pl pl' h1 h2 h3 k1 k2 k3 he => h.distinct c d pl pl' (hT c h1.1) (hT' c h2.1) h2.2 h3
      (hT d k1.1) (hT' d k2.1) k2.2 k3 he⟩

/-- C40: at the end of a scope the captured variables it declares move out of their slots, with their
values; different variables stay different, and no other variable moves.  The slots are then free for
other uses: no captured variable lives in them. -/
theorem C40_release (env : Env) (bc : Nat) (st nx : CodePtr) (vm : VM) (hg : Good vm) (hl : Linked vm)
    (hlen : vm.upStack.length = vm.stack.length) (as : List Nat) (has : ∀ a ∈ as, 0 < a ∧ a ≤ vm.stack.length) :
    (∃ vm' move, exec env bc st nx (.releaseUpvalues as) vm = .ok (.goto nx) vm' ∧ Follows vm vm' move ∧
      (∀ pl, (∀ a ∈ as, pl ≠ .slot (vm.stack.length - a)) → move pl = pl) ∧
      (∀ a ∈ as, ∀ c, c ∉ vm'.free → ¬ Denotes vm' c (.slot (vm.stack.length - a))) ∧
      vm'.stack.length = vm.stack.length ∧ vm'.upStack.length = vm.upStack.length ∧
      (∀ i : Nat, (∀ a ∈ as, i ≠ vm.stack.length - a) → vm'.stack[i]? = vm.stack[i]? ∧ vm'.upStack[i]? = vm.upStack[i]?) ∧
      (∀ a ∈ as, vm'.upStack[vm.stack.length - a]? = some none) ∧
      Good vm' ∧ Linked vm') ∨
    ∃ vm' move, exec env bc st nx (.releaseUpvalues as) vm = .err .outOfMemory vm' ∧ Follows vm vm' move ∧
      vm'.upStack.length = vm'.stack.length ∧ Good vm' ∧ Linked vm' := by
  have hp := post_releaseUpvalues (U := False) (E := fun e s' => e = .outOfMemory ∧ ∃ f, Releases vm s' f) as hg hl hlen
    has (fun s' f h => ⟨rfl, f, h⟩)
  rcases exec_plain_post (i := .releaseUpvalues as) (st := st) (nx := nx) (env := env) (bc := bc) trivial hp with
    ⟨vm', he, f, h⟩ | ⟨e, vm', he, rfl, f, h⟩
  · refine .inl ⟨vm', f, he, follows_of_releases hg h.toReleases, fun pl hpl => ?_, fun a ha c hf hd => ?_, h.height,
      h.upHeight, fun i hi => ?_, fun a ha => h.released _ (List.mem_map_of_mem ha), h.good, h.linked⟩
    · refine h.stays pl (fun i hi => ?_)
      obtain ⟨a, ha, rfl⟩ := List.mem_map.1 hi
      exact hpl a ha
    · have hrel := h.released (vm.stack.length - a) (List.mem_map_of_mem ha)
      have key : ∀ c pl, Denotes vm' c pl → c ∉ vm'.free → pl ≠ .slot (vm.stack.length - a) := by
        intro c pl hd
        induction hd with
        | @slot c i h1 =>
          rintro hf hpl
          cases hpl
          have := (h.linked.cell c _ hf h1).2
          rw [Int.toNat_natCast, hrel] at this
          cases this
        | cell h1 => simp
        | link h1 _ ih => exact fun hf => ih (h.good.sound.cells _ _ h1 hf _ rfl).1
      exact key c _ hd hf rfl
    · have := h.others i (fun hm => by
        obtain ⟨a, ha, e⟩ := List.mem_map.1 hm
        exact hi a ha e.symm)
      exact ⟨this.2, this.1⟩
  · exact .inr ⟨vm', f, he, follows_of_releases hg h, by rw [h.upHeight, h.height, hlen], h.good, h.linked⟩

/-! ### Schedules -/

/-- The invariant of a run. -/
structure Ready (vm : VM) : Prop where
  good : Good vm
  linked : Linked vm
  lockstep : vm.upStack.length = vm.stack.length

/-- What one step does to the captured variables. -/
structure Changes (vm vm' : VM) (i : Instr) (move : Place → Place) : Prop where
  ready : Ready vm'
  denotes : ∀ c pl, InReach vm c → InReach vm' c → Denotes vm c pl → Denotes vm' c (move pl)
  assigned : ∀ c pl x, InReach vm c → InReach vm' c → Denotes vm c pl → Assigns vm i pl x →
    contents vm' (move pl) = some x
  other : ∀ c pl, InReach vm c → InReach vm' c → Denotes vm c pl → (∀ x, ¬ Assigns vm i pl x) →
    contents vm' (move pl) = contents vm pl
  distinct : ∀ c d pl pl', InReach vm c → InReach vm' c → Denotes vm c pl → InReach vm d → InReach vm' d →
    Denotes vm d pl' → move pl = move pl' → pl = pl'

theorem changes_follows {vm vm' : VM} {i : Instr} {f : Place → Place} (hr : Ready vm') (h : Follows vm vm' f)
    (hi : ∀ a b, i ≠ .setUpvalue a b ∧ i ≠ .move a b) : Changes vm vm' i f := by
  refine ⟨hr, h.denotes, ?_, fun c pl h1 h2 h3 _ => h.value c pl h1 h2 h3, h.distinct⟩
  intro c pl x _ _ _ ha
  cases ha with
  | captured => exact absurd rfl (hi _ _).1
  | onStack => exact absurd rfl (hi _ _).2

theorem inReach_live {vm : VM} (hg : Good vm) {c : Nat} (h : InReach vm c) : Live vm c .captured := by
  obtain ⟨h1, u, h2⟩ := h
  obtain ⟨_, h3⟩ := (traced_of_reachable hg.sound hg.finished h1).live hg.sound
  exact ⟨h3.1, _, h2, rfl⟩

/-- A captured variable that lives in a slot is recorded on the second stack. -/
theorem denotes_recorded {vm : VM} (hg : Good vm) (hl : Linked vm) {c i : Nat} (hc : Live vm c .captured)
    (hd : Denotes vm c (.slot i)) : ∃ d, vm.upStack[i]? = some (some d) := by
  generalize hpl : Place.slot i = pl at hd
  induction hd with
  | @slot c i' h =>
    cases hpl
    exact ⟨c, (hl.cell c _ hc.1 h).2⟩
  | cell => cases hpl
  | link h _ ih => exact ih (hg.sound.cells _ _ h hc.1 _ rfl) hpl

/-- A step that leaves the memory alone. -/
theorem changes_same {vm vm' : VM} {i : Instr} (hr : Ready vm) (hr' : Ready vm') (hh : vm'.heap = vm.heap)
    (hst : ∀ (k d : Nat), vm.upStack[k]? = some (some d) → vm'.stack[k]? = vm.stack[k]?)
    (hi : ∀ a b, i ≠ .setUpvalue a b ∧ i ≠ .move a b) : Changes vm vm' i id := by
  refine changes_follows hr' ⟨fun c pl _ _ h => denotes_heap hh h, fun c pl h1 _ hd => ?_,
    fun _ _ _ _ _ _ _ _ _ _ h => h⟩ hi
  cases pl with
  | slot k =>
    obtain ⟨d, h⟩ := denotes_recorded hr.good hr.linked (inReach_live hr.good h1) hd
    exact hst k d h
  | cell r =>
    show vm'.heap[r]? = vm.heap[r]?
    rw [hh]

theorem changes_assigned {vm vm' : VM} {i : Instr} {pl : Place} {x : Obj} (hr' : Ready vm')
    (h1 : contents vm' pl = some x) (h2 : ∀ p, p ≠ pl → contents vm' p = contents vm p)
    (h3 : ∀ d p, Denotes vm' d p ↔ Denotes vm d p) (ha : Assigns vm i pl x)
    (hu : ∀ p y, Assigns vm i p y → p = pl ∧ y = x) : Changes vm vm' i id := by
  refine ⟨hr', fun c p _ _ hd => (h3 c p).2 hd, fun c p y _ _ _ hy => ?_, fun c p _ _ _ hn => ?_,
    fun _ _ _ _ _ _ _ _ _ _ h => h⟩
  · obtain ⟨rfl, rfl⟩ := hu p y hy
    exact h1
  · refine h2 p (fun e => ?_)
    subst e
    exact hn x ha

theorem chase_inv {n o : M Upvalue} (hn : ∀ s a s', n s ≠ .ok a s') (ho : ∀ s a s', o s ≠ .ok a s') (fuel : Nat) :
    ∀ {p : Option Nat} {s s' : VM} {u : Upvalue}, chase n o fuel p s = .ok u s' →
    s' = s ∧ ∃ c, p = some c ∧ (∀ i : Nat, u = .stackIndex i → Denotes s c (.slot i)) ∧
      ∀ r, u = .heapObject (some r) → Denotes s c (.cell r) := by
  induction fuel with
  | zero => intro p s s' u h; cases h
  | succ fuel ih =>
    intro p s s' u h
    cases p with
    | none => exact absurd h (hn _ _ _)
    | some c =>
      unfold chase at h
      rw [M.bind_eq_ok] at h
      obtain ⟨x, s1, h1, h2⟩ := h
      have hx : s.heap[c]? = some x ∧ s1 = s := by
        cases hc : s.heap[c]? with
        | none => unfold readCell at h1; rw [hc] at h1; cases h1
        | some y => rw [readCell_some hc] at h1; cases h1; exact ⟨rfl, rfl⟩
      obtain ⟨hx, rfl⟩ := hx
      cases x with
      | upvalue v =>
        cases v with
        | stackIndex i =>
          cases h2
          refine ⟨rfl, c, rfl, fun k hk => ?_, fun r hr => by cases hr⟩
          cases hk
          exact .slot hx
        | heapObject r =>
          cases h2
          refine ⟨rfl, c, rfl, fun k hk => (by cases hk), fun r hr => ?_⟩
          cases hr
          exact .cell hx
        | heapUpvalue v =>
          obtain ⟨h3, c', rfl, h4, h5⟩ := ih h2
          exact ⟨h3, c, rfl, fun i hi => .link hx (h4 i hi), fun r hr => .link hx (h5 r hr)⟩
      | _ => exact absurd h2 (ho _ _ _)

theorem running_inv {e : M UpArray} (he : ∀ s a s', e s ≠ .ok a s') {vm vm1 vm2 : VM} {u : UpArray} {j : Nat}
    {p : Option Nat} (h1 : topUpArray e vm = .ok u vm1) (h2 : upvalueAt u j vm1 = .ok p vm2) :
    vm1 = vm ∧ vm2 = vm ∧ ∀ c, p = some c → RunningCapture vm j c := by
  unfold topUpArray at h1
  cases hg : vm.upArrays.getLast? with
  | none => rw [hg] at h1; exact absurd h1 (he _ _ _)
  | some u' =>
    rw [hg] at h1
    cases h1
    unfold upvalueAt at h2
    cases hb : u.block with
    | none => rw [hb] at h2; cases h2
    | some rs =>
      obtain ⟨r, serial⟩ := rs
      rw [hb] at h2
      dsimp only at h2
      split at h2
      · rename_i blk m hr
        split at h2
        · rename_i hser
          cases hups : blk.ups[j]? with
          | none => rw [hups] at h2; cases h2
          | some q =>
            rw [hups] at h2
            cases h2
            refine ⟨rfl, rfl, fun c hc => ?_⟩
            subst hc
            refine ⟨r, serial, u.length, blk.ups, m, ?_, ?_, hups⟩
            · rw [hg, ← hb]
            · rw [← hser]
              exact hr
        · cases h2
      · cases h2

theorem pushUpvalue_inv {vm vm' : VM} {j : Nat} (h : iPushUpvalue j vm = .ok () vm') :
    ∃ c pl o, RunningCapture vm j c ∧ Denotes vm c pl ∧ contents vm pl = some o ∧ vm' = pushed vm o := by
  unfold iPushUpvalue at h
  simp only [M.bind_eq_ok] at h
  obtain ⟨u, s1, h1, p, s2, h2, n, s3, h3, v, s4, h4, h5⟩ := h
  obtain ⟨rfl, rfl, hrun⟩ := running_inv (fun s a s' h => by cases h) h1 h2
  cases h3
  obtain ⟨rfl, c, rfl, hs, hc⟩ := chase_inv (fun s a s' h => by cases h) (fun s a s' h => by cases h) _ h4
  cases v with
  | stackIndex i =>
    dsimp only at h5
    rw [M.bind_eq_ok] at h5
    obtain ⟨o, s5, h5, h6⟩ := h5
    unfold getAbs at h5
    split at h5
    · rename_i hi
      cases ho : s4.stack[i.toNat]? with
      | none => rw [ho] at h5; cases h5
      | some o' =>
        rw [ho] at h5
        cases h5
        cases h6
        exact ⟨c, .slot i.toNat, _, hrun c rfl, hs i.toNat (by rw [Int.toNat_of_nonneg hi]), ho, rfl⟩
    · cases h5
  | heapObject r =>
    dsimp only at h5
    rw [M.bind_eq_ok] at h5
    obtain ⟨o, s5, h5, h6⟩ := h5
    cases r with
    | none => cases h5
    | some r =>
      have h5 : readCell r s4 = .ok o s5 := h5
      cases ho : s4.heap[r]? with
      | none => unfold readCell at h5; rw [ho] at h5; cases h5
      | some o' =>
        rw [readCell_some ho] at h5
        cases h5
        cases h6
        exact ⟨c, .cell r, _, hrun c rfl, hc r rfl, ho, rfl⟩
  | heapUpvalue => cases h5

theorem setUpvalue_inv {vm vm' : VM} {j a : Nat} (h : iSetUpvalue j a vm = .ok () vm') :
    ∃ c pl o x, RunningCapture vm j c ∧ Denotes vm c pl ∧ contents vm pl = some o ∧ operand vm a = some x := by
  unfold iSetUpvalue at h
  simp only [M.bind_eq_ok] at h
  obtain ⟨x, s0, h0, u, s1, h1, p, s2, h2, n, s3, h3, v, s4, h4, h5⟩ := h
  obtain ⟨rfl, hx⟩ := getArg_ok h0
  obtain ⟨rfl, rfl, hrun⟩ := running_inv (fun s a s' h => by cases h) h1 h2
  cases h3
  obtain ⟨rfl, c, rfl, hs, hc⟩ := chase_inv (fun s a s' h => by cases h) (fun s a s' h => by cases h) _ h4
  cases v with
  | stackIndex i =>
    dsimp only at h5
    unfold setAbs at h5
    split at h5
    · rename_i hi
      exact ⟨c, .slot i.toNat, _, x, hrun c rfl, hs i.toNat (by rw [Int.toNat_of_nonneg hi.1]),
        List.getElem?_eq_getElem hi.2, hx⟩
    · cases h5
  | heapObject r =>
    dsimp only at h5
    rw [M.bind_eq_ok] at h5
    obtain ⟨r', s5, h5, h6⟩ := h5
    cases r with
    | none => cases h5
    | some r =>
      cases h5
      unfold writeCell at h6
      split at h6
      · rename_i hr
        exact ⟨c, .cell _, _, x, hrun c rfl, hc _ rfl, List.getElem?_eq_getElem hr, hx⟩
      · cases h6
  | heapUpvalue => cases h5

theorem running_unique {vm : VM} {j c d : Nat} (h : RunningCapture vm j c) (h' : RunningCapture vm j d) : c = d := by
  obtain ⟨r, s, n, ups, m, h1, h2, h3⟩ := h
  obtain ⟨r', s', n', ups', m', k1, k2, k3⟩ := h'
  rw [h1] at k1
  cases k1
  rw [h2] at k2
  cases k2
  rw [h3] at k3
  cases k3
  rfl

theorem contents_some {vm : VM} (hr : Ready vm) {c : Nat} {pl : Place} (hc : InReach vm c) (hd : Denotes vm c pl) :
    ∃ o, contents vm pl = some o := by
  have hl := inReach_live hr.good hc
  cases pl with
  | slot k =>
    obtain ⟨d, h⟩ := denotes_recorded hr.good hr.linked hl hd
    have := getElem?_lt h
    rw [hr.lockstep] at this
    exact ⟨_, List.getElem?_eq_getElem this⟩
  | cell r =>
    obtain ⟨o, h, _⟩ := live_value hr.good.sound (denotes_live hr.good.sound hd hl rfl)
    exact ⟨o, h⟩

theorem take_iff {vm : VM} {n : Nat} (hn : UncapturedFrom vm n) (i c : Nat) :
    (vm.upStack.take n)[i]? = some (some c) ↔ vm.upStack[i]? = some (some c) := by
  rw [List.getElem?_take]
  split
  · exact Iff.rfl
  · exact ⟨fun h => (by cases h), fun h => absurd h (hn i c (by omega))⟩

theorem ready_pushed {vm : VM} (h : Ready vm) {o : Obj} (ho : ValueOk vm o) : Ready (pushed vm o) := by
  refine ⟨h.good.pushed ho, linked_stacks h.linked _ _ (fun i c => append_none_iff (n := 1) i c), ?_⟩
  simp [pushed, h.lockstep]

/-- Testing a value changes nothing. -/
theorem truthy_same {s s' : VM} {o : Obj} {b : Bool} (h : truthy o s = .ok b s') : s' = s := by
  cases o <;> simp only [truthy] at h <;> try (cases h; rfl)
  unfold vectorInRange at h
  split at h
  · cases h; rfl
  · simp only [M.bind_eq_ok] at h
    obtain ⟨o', s1, h1, h2⟩ := h
    obtain ⟨-, rfl⟩ := readCell_ok h1
    split at h2 <;> cases h2
    rfl

/-- Slots that are not captured are discarded. -/
theorem discard_changes {vm vm' : VM} {i : Instr} {n : Nat} (hr : Ready vm) (hn : UncapturedFrom vm (vm.stack.length - n))
    (h : popMany n vm = .ok () vm') (hi : ∀ a b, i ≠ .setUpvalue a b ∧ i ≠ .move a b) : Changes vm vm' i id := by
  unfold popMany at h
  split at h
  · cases h
  · dsimp only at h
    split at h
    · cases h
    · cases h
      rw [hr.lockstep]
      refine changes_same hr ⟨?_, ?_, ?_⟩ rfl (fun k d hk => ?_) hi
      · exact hr.good.stacks _ _ (fun o ho => hr.good.sound.stack o (List.mem_of_mem_take ho))
          (fun r hm => hr.good.sound.captured r (List.mem_of_mem_take hm))
      · exact linked_stacks hr.linked _ _ (take_iff hn)
      · simp [hr.lockstep]
      · have : k < vm.stack.length - n := by
          rcases Nat.lt_or_ge k (vm.stack.length - n) with h | h
          · exact h
          · exact absurd hk (hn k d h)
        exact (List.getElem?_take_of_lt this)

/-- What an instruction that works on data and discards nothing leaves on the stack. -/
theorem data_stack {env : Env} {bc : Nat} {st : CodePtr} {i : Instr} {vm vm' : VM} (hi : IsData i)
    (hm : ∀ a b, i ≠ .move a b) (hp : ∀ n, i ≠ .pop n) (h : plain env bc st i vm = .ok () vm') :
    ∃ xs, vm'.stack = vm.stack ++ xs := by
  by_cases hr : PushesResult i
  · obtain ⟨x, hx⟩ := adds_plain hr vm () vm' h
    exact ⟨[x], hx⟩
  · cases i <;> first
      | exact absurd trivial hr
      | exact hi.elim
      | exact absurd rfl (hm _ _)
      | exact absurd rfl (hp _)
      | (cases h; done)
      | (cases h; exact ⟨[], by simp⟩)
      | skip
    case setGlobal a k =>
      simp only [plain, M.bind_eq_ok] at h
      obtain ⟨n, s1, h1, o, s2, h2, p, s3, h3, h4⟩ := h
      cases h1
      have e2 : s2 = vm := by
        unfold stackAt at h2
        split at h2
        · exact (need_ok h2).2
        · cases h2
      subst e2
      obtain ⟨vm1, hvm1, free, -, rfl⟩ := pushObject_eq_ok h3
      cases h4
      refine ⟨[], ?_⟩
      rcases hvm1 with ⟨rfl, -⟩ | ⟨-, hg⟩
      · simp
      · simp [(garbageCollect_same hg).1]

/-- A step that leaves the captured variables in memory and on the stack alone. -/
theorem kept_changes {i : Instr} {vm vm' : VM} (hr : Ready vm) (hg' : Good vm') (hlock : vm'.upStack.length = vm'.stack.length)
    (hsame : Mind.Same vm vm'.heap vm'.free)
    (hup : ∀ (i c : Nat), vm'.upStack[i]? = some (some c) ↔ vm.upStack[i]? = some (some c))
    (hst : ∀ (k d : Nat), vm.upStack[k]? = some (some d) → vm'.stack[k]? = vm.stack[k]?)
    (hi : ∀ a b, i ≠ .setUpvalue a b ∧ i ≠ .move a b) : Changes vm vm' i id := by
  have hlink : Linked vm' := by
    refine ⟨fun k c hk => ?_, fun c k hfr hc => ?_⟩
    · obtain ⟨l1, o, l2, l3⟩ := hg'.sound.captured c (List.mem_of_getElem? hk)
      cases o <;> first | (cases l3; done) | skip
      case upvalue u =>
        have h2 := (hsame.vars c u l1 l2).2
        rw [hr.linked.entry k c ((hup k c).1 hk)] at h2
        cases h2
        exact l2
    · obtain ⟨h2, h3⟩ := hsame.vars c _ hfr hc
      obtain ⟨h4, h5⟩ := hr.linked.cell c k h2 h3
      exact ⟨h4, (hup _ _).2 h5⟩
  have same : ∀ c u, vm.heap[c]? = some (.upvalue u) → Live vm' c .captured → vm'.heap[c]? = some (.upvalue u) := by
    rintro c u hc ⟨l1, o, l2, l3⟩
    cases o <;> first | (cases l3; done) | skip
    case upvalue u' =>
      have h2 := (hsame.vars c u' l1 l2).2
      rw [hc] at h2
      cases h2
      exact l2
  have key : ∀ c pl, Denotes vm c pl → Live vm c .captured → Live vm' c .captured →
      Denotes vm' c pl ∧ ∀ r, pl = .cell r → vm'.heap[r]? = vm.heap[r]? := by
    intro c pl hd
    induction hd with
    | @slot c k hc =>
      intro _ hl'
      exact ⟨.slot (same c _ hc hl'), fun r hr => (nomatch hr)⟩
    | @cell c r hc =>
      intro hl hl'
      refine ⟨.cell (same c _ hc hl'), fun r' hr' => ?_⟩
      cases hr'
      obtain ⟨r', e, hv⟩ := hr.good.sound.cells c _ hc hl.1
      cases e
      exact (hsame.values c _ hl'.1 (same c _ hc hl') hv).2
    | @link c c' pl hc hd ih =>
      intro hl hl'
      have hc' := same c _ hc hl'
      obtain ⟨k1, k2⟩ := ih (hr.good.sound.cells c _ hc hl.1 _ rfl) (hg'.sound.cells c _ hc' hl'.1 _ rfl)
      exact ⟨.link hc' k1, k2⟩
  refine changes_follows ⟨hg', hlink, hlock⟩ ⟨fun c pl c1 c2 hd =>
      (key c pl hd (inReach_live hr.good c1) (inReach_live hg' c2)).1, fun c pl c1 c2 hd => ?_,
    fun _ _ _ _ _ _ _ _ _ _ h => h⟩ hi
  cases pl with
  | slot k =>
    obtain ⟨d, hk⟩ := denotes_recorded hr.good hr.linked (inReach_live hr.good c1) hd
    exact hst k d hk
  | cell r => exact (key c _ hd (inReach_live hr.good c1) (inReach_live hg' c2)).2 r rfl

/-- Instructions that work on data leave captured variables alone. -/
theorem data_changes {env : Env} {bc : Nat} {st nx ip : CodePtr} {i : Instr} {vm vm' : VM} (hr : Ready vm) (hi : IsData i)
    (hm : ∀ a b, i ≠ .move a b) (hp : ∀ n, i ≠ .pop n) (hl : LiteralsFitMachine i) (hf : ¬ Faulty vm i)
    (h : exec env bc st nx i vm = .ok (.goto ip) vm') : Changes vm vm' i id := by
  have hpl : IsPlain i := by cases i <;> first | trivial | exact hi.elim
  obtain ⟨h1, -⟩ := exec_plain_inv hpl h
  have hg' : Good vm' := by
    have := post_data (env := env) (bc := bc) (st := st) hr.good hi hl hf
    rw [h1] at this
    exact this
  obtain ⟨xs, hxs⟩ := data_stack hi hm hp h1
  have hlock := (data_keeps hi h1).2 hr.lockstep.symm
  obtain ⟨hsame, hup⟩ : Mind.Same vm vm'.heap vm'.free ∧
      ∀ (i c : Nat), vm'.upStack[i]? = some (some c) ↔ vm.upStack[i]? = some (some c) := by
    have hd : Mind.OnData i := by
      cases i <;> first | trivial | exact hi.elim | exact absurd rfl (hp _)
    have := Mind.leaves_plain (K := ⟨vm⟩) (env := env) (bc := bc) (st := st) hd vm
      ⟨fun o ho _ => ?_, ⟨fun _ _ h1 h2 => ⟨h1, h2⟩, fun _ _ _ _ h => ⟨h.1, rfl⟩⟩, fun _ _ => Iff.rfl⟩
    · rw [h1] at this
      exact this
    · have := hr.good.sound.stack o ho
      cases o <;> first | trivial | exact this.elim
  refine kept_changes hr hg' hlock.symm hsame hup (fun k d hk => ?_) fun a b => ⟨fun e => ?_, hm a b⟩
  · have := getElem?_lt hk
    rw [hr.lockstep] at this
    rw [hxs, List.getElem?_append_left this]
  · subst e
    exact hi

/-- The machine a function is called in. -/
theorem good_called {vm vm' : VM} {bc : Nat} {nx : CodePtr} {us : UpArray} (hg : Good vm) (hb : vm.currentBytecode = some bc)
    (h : Called vm vm' bc nx us) : Good vm' := by
  subst h
  refine ⟨⟨hg.sound.free_nodup, hg.sound.free_lt, hg.sound.free_empty, hg.sound.heap_size, hg.sound.stack,
    hg.sound.captured, hg.sound.globals, ?_, hg.sound.running, hg.sound.cells⟩, hg.finished⟩
  intro f hf r hr
  rcases List.mem_append.1 hf with hf | hf
  · exact hg.sound.frames f hf r hr
  · cases List.mem_singleton.1 hf
    cases hr
    exact hg.sound.running _ hb

theorem plain_start {vm s : VM} (hg : Good s) (hh : s.heap = vm.heap) (hf : s.free = vm.free)
    (hup : ∀ (i c : Nat), s.upStack[i]? = some (some c) ↔ vm.upStack[i]? = some (some c)) :
    (Mind.Start.mk vm).Inv true s := by
  refine ⟨fun o ho _ => ?_, ⟨fun _ _ h1 h2 => ⟨hf ▸ h1, hh ▸ h2⟩, fun _ _ _ _ h => ⟨hf ▸ h.1, by rw [hh]⟩⟩, hup⟩
  have := hg.sound.stack o ho
  cases o <;> first | trivial | exact this.elim

/-- A call that collects the surplus arguments. -/
theorem variadic_changes {env : Env} {bc a n : Nat} {f : Obj} {pos : Int} {c u : Nat} {arity : UInt8} {st nx ip : CodePtr}
    {vm vm' : VM} (hr : Ready vm) (hcode : vm.currentBytecode = some bc) (ha : operand vm a = some f)
    (hf : Callee vm f (.closure pos (some c) (some u) arity true)) (hl : n ≤ vm.stack.length)
    (hn : UncapturedFrom vm (vm.stack.length - (n - arity.toNat)))
    (h : exec env bc st nx (.funcall a n) vm = .ok (.goto ip) vm') : Changes vm vm' (.funcall a n) id := by
  have hle : arity.toNat ≤ n := Classical.byContradiction fun hlt => by
    have := C38_wrong_count env bc st nx vm a n f pos _ _ arity true ha hf (by simpa using hlt)
    rw [h] at this
    cases this
  obtain ⟨c', u', ip', us, hc', hu', h1, h2⟩ := C38_functions_have_code vm hr.good a f pos _ _ arity true ha hf
  cases hc'
  cases hu'
  obtain ⟨below, args, rest, hst, hargs, hrest⟩ : ∃ below args rest : List Obj, vm.stack = below ++ args ++ rest ∧
      args.length = arity.toNat ∧ args.length + rest.length = n := by
    refine ⟨vm.stack.take (vm.stack.length - n), (vm.stack.drop (vm.stack.length - n)).take arity.toNat,
      (vm.stack.drop (vm.stack.length - n)).drop arity.toNat, ?_, ?_, ?_⟩
    · rw [List.append_assoc, List.take_append_drop, List.take_append_drop]
    · rw [List.length_take, List.length_drop]; omega
    · rw [← List.length_append, List.take_append_drop, List.length_drop]; omega
  have hheight : vm.stack.length - (n - arity.toNat) = below.length + args.length := by
    rw [hst]
    simp only [List.length_append]
    omega
  rw [hheight] at hn
  have hsame : Mind.Same vm vm'.heap vm'.free := by
    have h' := h
    simp only [exec, M.bind_eq_ok] at h'
    obtain ⟨q, s1, h3, h4⟩ := h'
    cases h4
    simp only [iFuncall] at h3
    rw [M.bind_ok (getArg_some ha)] at h3
    simp only [M.bind_eq_ok] at h3
    obtain ⟨g, s2, h4, h5⟩ := h3
    rw [prepare_eq hf] at h4
    dsimp only at h4
    rw [if_pos rfl, if_neg (by omega)] at h4
    simp only [M.bind_eq_ok] at h4
    obtain ⟨_, s3, h6, h7⟩ := h4
    cases h7
    obtain ⟨e1, e2⟩ := Mind.enter_memory h5
    rw [e1, e2]
    exact Mind.same_collectRest (K := ⟨vm⟩) (plain_start hr.good rfl rfl fun _ _ => Iff.rfl) h6
  rcases C38_variadic env bc st nx ip' vm hr.good hr.lockstep a c u f pos arity us below args rest hst hargs ha hf h1 h2 with
    ⟨vm1, vm2, p, k1, k2, k3, k4, k5, k6, k7⟩ | ⟨vm2, k1, -⟩
  · rw [hrest, h] at k1
    cases k1
    have hup : ∀ (i c : Nat), vm'.upStack[i]? = some (some c) ↔ vm.upStack[i]? = some (some c) := by
      intro i c
      rw [show vm'.upStack = vm1.upStack by rw [k2], k4, List.getElem?_take]
      split
      · exact append_none_iff (n := 1) i c
      · exact ⟨fun h => (nomatch h), fun h => absurd h (hn i c (by omega))⟩
    refine kept_changes hr (good_called k7 (k6.currentBytecode.trans hcode) k2) ?_ hsame hup (fun k d hk => ?_) (by simp)
    · have := hr.lockstep
      rw [k2]
      dsimp only
      rw [k4, k3, List.length_take, List.length_append, this, hst]
      simp only [List.length_append, List.length_singleton]
      omega
    · have : k < below.length + args.length := by
        rcases Nat.lt_or_ge k (below.length + args.length) with h | h
        · exact h
        · exact absurd hk (hn k d h)
      rw [show vm'.stack = vm1.stack by rw [k2], k3, hst,
        List.getElem?_append_left (l₁ := below ++ args) (l₂ := [Obj.list p]) (by simpa using this),
        List.getElem?_append_left (l₁ := below ++ args) (l₂ := rest) (by simpa using this)]
  · rw [hrest, h] at k1
    cases k1

/-- A function is applied. -/
theorem apply_changes {env : Env} {bc a : Nat} {f : Obj} {pos : Int} {c u : Nat} {arity : UInt8} {variadic : Bool}
    {below args xs : List Obj} {p : Option Nat} {st nx ip : CodePtr}
    {vm vm' : VM} (hr : Ready vm) (hcode : vm.currentBytecode = some bc) (ha : operand vm a = some f)
    (hf : Callee vm f (.closure pos (some c) (some u) arity variadic)) (hst : vm.stack = below ++ args ++ [.list p])
    (hx : ListOf vm p xs) (hn : UncapturedFrom vm (below.length + min args.length arity.toNat))
    (h : exec env bc st nx (.apply a args.length) vm = .ok (.goto ip) vm') :
    Changes vm vm' (.apply a args.length) id := by
  have hcount : ¬ (args.length + xs.length < arity.toNat ∨ variadic = false ∧ arity.toNat < args.length) := fun hlt => by
    obtain ⟨s, hs⟩ := C39_wrong_count_partial env bc st nx vm hr.good hr.lockstep a f pos _ _ arity variadic below args xs p
      hst hx hlt ha hf
    rw [h] at hs
    cases hs
  rw [not_or, not_and, Nat.not_lt] at hcount
  obtain ⟨hmin, hmax⟩ := hcount
  obtain ⟨c', u', ip', us, hc', hu', h1, h2⟩ := C38_functions_have_code vm hr.good a f pos _ _ arity variadic ha hf
  cases hc'
  cases hu'
  have hlen : vm.stack.length = below.length + args.length + 1 := by
    rw [hst]
    simp only [List.length_append, List.length_singleton]
  have hdrop : ∀ (i c : Nat), vm.upStack.dropLast[i]? = some (some c) ↔ vm.upStack[i]? = some (some c) := by
    intro i c
    rw [List.dropLast_eq_take, hr.lockstep]
    exact take_iff (fun j d hj => hn j d (by omega)) i c
  have hup0 : ∀ (ys : List Obj) (i c : Nat), (spreadOut vm ys).upStack[i]? = some (some c) ↔ vm.upStack[i]? = some (some c) := by
    intro ys i c
    show (vm.upStack.dropLast ++ ys.map fun _ => none)[i]? = some (some c) ↔ _
    rw [List.map_const', append_none_iff, hdrop]
  have hlow : ∀ (k d : Nat), vm.upStack[k]? = some (some d) → k < below.length + min args.length arity.toNat := by
    intro k d hk
    rcases Nat.lt_or_ge k (below.length + min args.length arity.toNat) with h | h
    · exact h
    · exact absurd hk (hn k d h)
  obtain ⟨rest, -, hvrest, hvx, heq⟩ := apply_eq (bc := bc) (n := args.length) (nx := nx) hr.good ha hf hst hr.lockstep hx
  have h' := h
  simp only [exec, M.bind_eq_ok] at h'
  obtain ⟨q, s1, h3, h4⟩ := h'
  cases h4
  rw [heq] at h3
  have hgs : Good (spreadOut vm (xs.take (arity.toNat - args.length))) :=
    spreadOut_good hr.good fun x hx => hvx x (List.mem_of_mem_take hx)
  cases variadic with
  | false =>
    have hmax := hmax rfl
    rw [if_neg (by simp), if_neg (by omega)] at h3
    obtain ⟨vm2, h5, h6⟩ := enter_eq (vm := spreadOut vm (xs.take (arity.toNat - args.length))) (bc := bc) (nx := nx)
      (isCode_keeps h1 rfl) (isCaptures_keeps h2 rfl)
    have h3 : enter bc nx pos (some c) (some u) (spreadOut vm (xs.take (arity.toNat - args.length))) = .ok ip vm' := h3
    rw [h5] at h3
    cases h3
    refine kept_changes hr (good_called hgs hcode h6) ?_ ?_ ?_ (fun k d hk => ?_) (by simp)
    · rw [h6]
      simp [spreadOut, hr.lockstep]
    · rw [h6]
      exact (plain_start (vm := vm) hgs rfl rfl (hup0 _)).kept
    · rw [h6]
      exact hup0 _
    · have := hlow k d hk
      rw [h6]
      show (vm.stack.dropLast ++ _)[k]? = _
      rw [hst, List.dropLast_concat,
        List.getElem?_append_left (l₁ := below ++ args) (l₂ := List.take _ _) (by rw [List.length_append]; omega),
        List.getElem?_append_left (l₁ := below ++ args) (l₂ := [Obj.list p]) (by rw [List.length_append]; omega)]
  | true =>
    rw [if_pos rfl, if_neg (by omega)] at h3
    simp only [M.bind_eq_ok] at h3
    obtain ⟨_, s3, h6, h7⟩ := h3
    have hsame : Mind.Same vm vm'.heap vm'.free := by
      obtain ⟨e1, e2⟩ := Mind.enter_memory h7
      rw [e1, e2]
      exact Mind.same_collectRest (K := ⟨vm⟩) (plain_start hgs rfl rfl (hup0 _)) h6
    rcases C39_variadic env bc st nx ip' vm hr.good hr.lockstep a c u f pos arity us below args xs p hst hx (by omega) ha hf h1 h2
      with ⟨vm1, vm2, p', k1, k2, k3, k4, k5, k6, k7, k8, -⟩ | ⟨vm2, k1, -⟩
    · rw [h] at k1
      cases k1
      refine kept_changes hr (good_called k8 (k7.currentBytecode.trans hcode) k2) ?_ hsame ?_ (fun k d hk => ?_) (by simp)
      · rw [k2]
        exact k4
      · intro i c
        rw [k2]
        refine (k5 i c).trans ⟨fun h => (hdrop i c).1 h.2, fun h => ⟨?_, (hdrop i c).2 h⟩⟩
        have := hlow i c h
        omega
      · have hk := hlow k d hk
        rw [k2]
        show vm1.stack[k]? = _
        have : ((args ++ xs).take arity.toNat).length = arity.toNat := by
          rw [List.length_take, List.length_append]
          omega
        rw [k3, hst, List.getElem?_append_left (by rw [List.length_append]; omega), List.append_assoc]
        by_cases hb : k < below.length
        · rw [List.getElem?_append_left hb, List.getElem?_append_left hb]
        · rw [List.getElem?_append_right (by omega), List.getElem?_append_right (by omega), List.getElem?_take_of_lt (by omega),
            List.getElem?_append_left (by omega), List.getElem?_append_left (by omega)]
    · rw [h] at k1
      cases k1

/-- What each step does. -/
theorem step_changes {env : Env} {bc : Nat} {vm vm' : VM} {i : Instr} (hr : Ready vm)
    (h : VariableStep env bc vm i vm') : ∃ f, Changes vm vm' i f := by
  cases h with
  | compute hi hv h =>
    refine ⟨id, changes_same hr (ready_pushed hr hv) rfl (fun k d hk => ?_) hi⟩
    have := getElem?_lt hk
    rw [hr.lockstep] at this
    exact List.getElem?_append_left this
  | @data i st nx ip vm' hi hm hp hl hf h => exact ⟨id, data_changes hr hi hm hp hl hf h⟩
  | @readCaptured j st nx ip vm' h =>
    obtain ⟨h1, -⟩ := exec_plain_inv (i := .pushUpvalue j) trivial h
    obtain ⟨c, pl, o, h2, h3, h4, rfl⟩ := pushUpvalue_inv h1
    refine ⟨id, changes_same hr (ready_pushed hr ?_) rfl (fun k d hk => ?_) (by simp)⟩
    · exact contents_value hr.good h3 (running_live hr.good.sound h2) h4
    · have := getElem?_lt hk
      rw [hr.lockstep] at this
      exact List.getElem?_append_left this
  | @assignCaptured j a st nx ip vm' h =>
    obtain ⟨h1, -⟩ := exec_plain_inv (i := .setUpvalue j a) trivial h
    obtain ⟨c, pl, o, x, h2, h3, h4, h5⟩ := setUpvalue_inv h1
    obtain ⟨vm1, k1, k2, k3, k4, k5, k6, k7, k8⟩ := C40_write env bc st nx vm hr.good hr.linked j a c pl o x h2 h3 h4 h5
    rw [h] at k1
    cases k1
    refine ⟨id, changes_assigned ⟨k7, k8, by rw [k5, k6, hr.lockstep]⟩ k2 k3 k4 (.captured h2 h3 h5) ?_⟩
    intro p y hy
    cases hy with
    | captured m1 m2 m3 =>
      cases running_unique h2 m1
      rw [h5] at m3
      cases m3
      exact ⟨denotes_unique m2 h3, rfl⟩
  | @assign a b st nx ip vm' h =>
    have h1 : (getArg a >>= fun o => setArg b o) vm = .ok () vm' := (exec_plain_inv (i := .move a b) trivial h).1
    rw [M.bind_eq_ok] at h1
    obtain ⟨x, s1, h2, h3⟩ := h1
    obtain ⟨rfl, hx⟩ := getArg_ok h2
    have hb : 0 < b ∧ b ≤ s1.stack.length := by
      unfold setArg argIndex at h3
      split at h3
      · rename_i h4
        split at h4
        · assumption
        · cases h4
      · cases h3
    obtain ⟨vm1, k1, k2, k3, k4, k5, k6, k7, k8⟩ := C40_write_local env bc st nx s1 hr.good hr.linked a b x hb.1 hb.2 hx
    rw [h] at k1
    cases k1
    refine ⟨id, changes_assigned ⟨k7, k8, by rw [k5, k6, hr.lockstep]⟩ k2 k3 k4 (.onStack hb.1 hb.2 hx) ?_⟩
    intro p y hy
    cases hy with
    | onStack m1 m2 m3 =>
      rw [hx] at m3
      cases m3
      exact ⟨rfl, rfl⟩
  | @close variadic base disp arity vs pls st nx ip vm' hcode hst hvs hrun h =>
    rcases C40_capture env bc st nx vm hr.good hr.linked hr.lockstep hcode hst hrun variadic base disp arity vs pls hvs
      with ⟨vm1, u, k1, k2, k3, k4, k5, k6, k7, k8, k9⟩ | ⟨e, vm1, k1, _⟩
    · rw [h] at k1
      cases k1
      refine ⟨id, changes_follows ⟨k8, k9, k7⟩ ⟨fun c pl h1 _ h3 => (k6 c pl h1.1 h3).1, fun c pl h1 _ h3 => ?_,
        fun _ _ _ _ _ _ _ _ _ _ h => h⟩ (by simp)⟩
      obtain ⟨o, ho⟩ := contents_some hr h1 h3
      exact ((k6 c pl h1.1 h3).2 o ho).trans ho.symm
    · rw [h] at k1
      cases k1
  | @release as st nx ip vm' has h =>
    rcases C40_release env bc st nx vm hr.good hr.linked hr.lockstep as has with
      ⟨vm1, f, k1, k2, -, -, k3, k4, -, -, k5, k6⟩ | ⟨vm1, f, k1, _⟩
    · rw [h] at k1
      cases k1
      exact ⟨f, changes_follows ⟨k5, k6, by rw [k3, k4, hr.lockstep]⟩ k2 (by simp)⟩
    · rw [h] at k1
      cases k1
  | @discard n st nx ip vm' hn h =>
    have h1 : popMany n vm = .ok () vm' := (exec_plain_inv (i := .pop n) trivial h).1
    exact ⟨id, discard_changes hr hn h1 (by simp)⟩
  | @jump d st nx ip vm' h =>
    cases h
    exact ⟨id, changes_same hr hr rfl (fun _ _ _ => rfl) (by simp)⟩
  | @branch d n st nx ip vm' hn h =>
    unfold exec at h
    simp only [M.bind_eq_ok] at h
    obtain ⟨o, s1, h1, _, s2, h2, b, s3, h3, h4⟩ := h
    obtain ⟨rfl, -⟩ := getArg_ok h1
    have e3 : s3 = s2 := truthy_same h3
    subst e3
    have e4 : vm' = s3 := by
      split at h4 <;> cases h4 <;> rfl
    subst e4
    exact ⟨id, discard_changes hr hn h2 (by simp)⟩
  | @call a n f pos c u arity st nx ip vm' hcode ha hf h =>
    obtain ⟨c', u', ip', us, hc', hu', h1, h2⟩ := C38_functions_have_code vm hr.good a f pos _ _ arity false ha hf
    cases hc'
    cases hu'
    have hn : n = arity.toNat := Classical.byContradiction fun hne => by
      have := C38_wrong_count env bc st nx vm a n f pos _ _ arity false ha hf (by simpa using hne)
      rw [h] at this
      cases this
    obtain ⟨vm1, k1, k2⟩ := C38_fixed env bc st nx ip' vm a n c u f pos arity us ha hf hn h1 h2
    rw [h] at k1
    cases k1
    subst k2
    refine ⟨id, changes_same hr ⟨⟨?_, hr.good.finished⟩, ⟨hr.linked.entry, hr.linked.cell⟩, hr.lockstep⟩ rfl
      (fun _ _ _ => rfl) (by simp)⟩
    refine ⟨hr.good.sound.free_nodup, hr.good.sound.free_lt, hr.good.sound.free_empty, hr.good.sound.heap_size,
      hr.good.sound.stack, hr.good.sound.captured, hr.good.sound.globals, ?_, hr.good.sound.running,
      hr.good.sound.cells⟩
    intro f hf r hr'
    rcases List.mem_append.1 hf with hf | hf
    · exact hr.good.sound.frames f hf r hr'
    · cases List.mem_singleton.1 hf
      cases hr'
      exact hcode
  | callVariadic hcode ha hf hl hn h => exact ⟨id, variadic_changes hr hcode ha hf hl hn h⟩
  | apply hcode ha hf hst hx hn h => exact ⟨id, apply_changes hr hcode ha hf hst hx hn h⟩
  | @return_ n st nx ip vm' hn hcs hua hl h =>
    have hst : vm.stack = vm.stack.take (vm.stack.length - (n + 1)) ++ vm.stack.drop (vm.stack.length - (n + 1)) :=
      (List.take_append_drop ..).symm
    generalize hm : vm.stack.length - (n + 1) = m at hst hn
    have hne : vm.stack.drop m ≠ [] := by
      intro h0
      have := congrArg List.length h0
      rw [List.length_drop] at this
      simp at this
      omega
    have hdl : (vm.stack.drop m).dropLast.length = n := by
      rw [List.length_dropLast, List.length_drop]
      omega
    rw [← List.dropLast_concat_getLast hne, ← List.append_assoc] at hst
    have hret := C38_return env bc st nx _ vm (vm.callStack.getLast hcs) (vm.upArrays.getLast hua) vm.callStack.dropLast
      vm.upArrays.dropLast (vm.stack.take m) (vm.stack.drop m).dropLast ((vm.stack.drop m).getLast hne) hr.lockstep hst
      (List.dropLast_concat_getLast hcs).symm (List.dropLast_concat_getLast hua).symm rfl
    rw [hdl, h] at hret
    cases hret
    have hm' : (vm.stack.take m).length = m := by
      rw [List.length_take]
      omega
    rw [hm']
    have hmem : ∀ o ∈ vm.stack.take m ++ [(vm.stack.drop m).getLast hne], o ∈ vm.stack := by
      intro o ho
      rcases List.mem_append.1 ho with ho | ho
      · exact List.mem_of_mem_take ho
      · cases List.mem_singleton.1 ho
        exact List.mem_of_mem_drop (List.getLast_mem hne)
    have hup : ∀ r, some r ∈ (if n = 0 then vm.upStack else vm.upStack.take m ++ [none]) → some r ∈ vm.upStack := by
      intro r
      split
      · exact id
      · intro h
        rcases List.mem_append.1 h with h | h
        · exact List.mem_of_mem_take h
        · simp at h
    have hiff : ∀ (i c : Nat), (if n = 0 then vm.upStack else vm.upStack.take m ++ [none])[i]? = some (some c) ↔
        vm.upStack[i]? = some (some c) := by
      intro i c
      split
      · exact Iff.rfl
      · rw [← take_iff hn]
        exact append_none_iff (n := 1) i c
    refine ⟨id, changes_same hr ⟨⟨?_, hr.good.finished⟩, ?_, ?_⟩ rfl (fun k d hk => ?_) ?_⟩
    · refine ⟨hr.good.sound.free_nodup, hr.good.sound.free_lt, hr.good.sound.free_empty, hr.good.sound.heap_size,
        fun o ho => hr.good.sound.stack o (hmem o ho), fun r h => hr.good.sound.captured r (hup r h),
        hr.good.sound.globals, fun f hf => hr.good.sound.frames f (List.dropLast_subset _ hf), hr.good.sound.running,
        hr.good.sound.cells⟩
    · have := linked_stacks hr.linked (vm.stack.take m ++ [(vm.stack.drop m).getLast hne]) _ hiff
      exact ⟨this.entry, this.cell⟩
    · dsimp only
      rw [List.length_append, hm']
      have := hr.lockstep
      split
      · simp only [List.length_singleton]
        omega
      · rw [List.length_append, List.length_take]
        simp only [List.length_singleton]
        omega
    · have : k < m := by
        rcases Nat.lt_or_ge k m with h | h
        · exact h
        · exact absurd hk (hn k d h)
      dsimp only
      rw [List.getElem?_append_left (by omega), List.getElem?_take_of_lt this]
    · unfold returning
      intro a b
      split <;> simp

theorem steps_ready {env : Env} {bc : Nat} {cs : List Nat} {vm vm' : VM} (h : Steps env bc cs vm vm') (hr : Ready vm) :
    Ready vm' := by
  induction h with
  | refl => exact hr
  | step _ hs _ ih =>
    obtain ⟨f, hf⟩ := step_changes ih hs
    exact hf.ready

/-- C40: through any schedule of computations, work on data, reads, assignments, new closures, jumps, calls
with fixed and with surplus arguments, applications of functions to lists, returns and ends of scopes, whatever is
collected on the way, captured variables that are the same stay the same, and different ones stay different. -/
theorem C40_schedule_partial (env : Env) (bc : Nat) (vm vm' : VM) (c d : Nat) (hg : Good vm) (hl : Linked vm)
    (hlen : vm.upStack.length = vm.stack.length) (hc : InReach vm c) (hd : InReach vm d) (pl pl' : Place)
    (hpl : Denotes vm c pl) (hpl' : Denotes vm d pl') (h : Steps env bc [c, d] vm vm') :
    SameVariable vm' c d ↔ SameVariable vm c d := by
  have key : ∃ p p', Denotes vm' c p ∧ Denotes vm' d p' ∧ (p = p' ↔ pl = pl') ∧ InReach vm' c ∧ InReach vm' d := by
    have hr : Ready vm := ⟨hg, hl, hlen⟩
    induction h with
    | refl => exact ⟨pl, pl', hpl, hpl', Iff.rfl, hc, hd⟩
    | step h hs hin ih =>
      obtain ⟨p, p', h1, h2, h3, h4, h5⟩ := ih
      obtain ⟨f, hf⟩ := step_changes (steps_ready h hr) hs
      have hc' := hin c (by simp)
      have hd' := hin d (by simp)
      refine ⟨f p, f p', hf.denotes c p h4 hc' h1, hf.denotes d p' h5 hd' h2, ?_, hc', hd'⟩
      rw [← h3]
      exact ⟨hf.distinct c d p p' h4 hc' h1 h5 hd' h2, fun e => by rw [e]⟩
  obtain ⟨p, p', h1, h2, h3, -, -⟩ := key
  constructor
  · rintro ⟨q, k1, k2⟩
    have hpp : p = p' := (denotes_unique h1 k1).trans (denotes_unique k2 h2)
    have := h3.1 hpp
    exact ⟨pl, hpl, this ▸ hpl'⟩
  · rintro ⟨q, k1, k2⟩
    have hpp : pl = pl' := (denotes_unique hpl k1).trans (denotes_unique k2 hpl')
    have := h3.2 hpp
    exact ⟨p, h1, this ▸ h2⟩

/-- C40: through any such schedule a captured variable has the value assigned last to it, by whichever
closure or scope has done so. -/
theorem C40_last_assigned_partial (env : Env) (bc : Nat) (vm vm' : VM) (c : Nat) (o o' : Obj) (hg : Good vm) (hl : Linked vm)
    (hlen : vm.upStack.length = vm.stack.length) (hc : InReach vm c) (ho : HasValue vm c o)
    (h : LastAssigned env bc c vm o vm' o') : HasValue vm' c o' := by
  have hr : Ready vm := ⟨hg, hl, hlen⟩
  have key : Ready vm' ∧ InReach vm' c ∧ HasValue vm' c o' := by
    induction h with
    | refl => exact ⟨hr, hc, ho⟩
    | assigned h hs hin hd ha ih =>
      obtain ⟨h1, h2, -⟩ := ih ho
      obtain ⟨f, hf⟩ := step_changes h1 hs
      exact ⟨hf.ready, hin, _, hf.denotes c _ h2 hin hd, hf.assigned c _ _ h2 hin hd ha⟩
    | other h hs hin hd ha ih =>
      obtain ⟨h1, h2, q, h3, h4⟩ := ih ho
      obtain ⟨f, hf⟩ := step_changes h1 hs
      cases denotes_unique h3 hd
      exact ⟨hf.ready, hin, _, hf.denotes c _ h2 hin hd, (hf.other c _ h2 hin hd ha).trans h4⟩
  exact key.2.2

/-! ### Example -/

/-- A machine whose stack holds a variable with the value 7, a closure that has captured it, a closure
made inside that one, which has captured it from there and is being run, and the integer 9. -/
def sharingVM : VM where
  heap := [.bytecode (some ⟨0, [162, 0]⟩) 2, .upvalue (.stackIndex 0), .upvalueArray (some ⟨1, [some 1]⟩) 1,
    .upvalue (.heapUpvalue (some 1)), .upvalueArray (some ⟨2, [some 3]⟩) 1, .integer 0, .integer 0, .integer 0]
  free := [5, 6, 7]
  stack := [.integer 7, .closure 0 (some 0) (some 2) 0 false, .closure 0 (some 0) (some 4) 0 false, .integer 9]
  upStack := [some 1, none, none, none]
  callStack := [⟨⟨0, 0, 0⟩, some 0⟩]
  upArrays := [⟨some (4, 2), 1⟩]
  globals := []
  currentBytecode := some 0
  nextUserType := 100
  nextSerial := 3

theorem sharingVM_good : Good sharingVM := by
  have l0 : Live sharingVM 0 (.code (some ⟨0, [162, 0]⟩)) := ⟨by decide, _, rfl, rfl⟩
  have l1 : Live sharingVM 1 .captured := ⟨by decide, _, rfl, rfl⟩
  have l2 : Live sharingVM 2 (.captures 1) := ⟨by decide, _, rfl, rfl⟩
  have l3 : Live sharingVM 3 .captured := ⟨by decide, _, rfl, rfl⟩
  have l4 : Live sharingVM 4 (.captures 1) := ⟨by decide, _, rfl, rfl⟩
  refine ⟨⟨by decide, by decide, ?_, by decide, ?_, ?_, by simp [sharingVM], ?_, ?_, ?_⟩, ?_⟩
  · intro r hr o ho
    simp [sharingVM] at hr
    rcases hr with rfl | rfl | rfl <;>
    · simp [sharingVM] at ho
      subst ho
      simp [OwnsBlock]
  · intro o ho
    simp [sharingVM] at ho
    rcases ho with rfl | rfl | rfl | rfl
    · exact ⟨by decide, by decide⟩
    · exact ⟨_, _, _, rfl, rfl, ⟨_, l0, trivial⟩, l2⟩
    · exact ⟨_, _, _, rfl, rfl, ⟨_, l0, trivial⟩, l4⟩
    · exact ⟨by decide, by decide⟩
  · intro r hr
    simp [sharingVM] at hr
    subst hr
    exact l1
  · intro f hf r hr
    simp [sharingVM] at hf
    subst hf
    cases hr
    exact ⟨_, l0⟩
  · rintro r h
    cases h
    exact ⟨_, l0⟩
  · intro r o ho hf
    match r with
    | 0 => simp [sharingVM] at ho; subst ho; exact ⟨_, rfl, rfl⟩
    | 1 => simp [sharingVM] at ho; subst ho; exact trivial
    | 2 => simp [sharingVM] at ho; subst ho; exact ⟨rfl, by simp; exact l1⟩
    | 3 => simp [sharingVM] at ho; subst ho; rintro r h; cases h; exact l1
    | 4 => simp [sharingVM] at ho; subst ho; exact ⟨rfl, by simp; exact l3⟩
    | 5 => simp [sharingVM] at hf
    | 6 => simp [sharingVM] at hf
    | 7 => simp [sharingVM] at hf
    | n + 8 => simp [sharingVM] at ho
  · intro r o ho
    match r with
    | 0 => simp [sharingVM] at ho; subst ho; simp [UnderConstruction]
    | 1 => simp [sharingVM] at ho; subst ho; simp [UnderConstruction]
    | 2 => simp [sharingVM] at ho; subst ho; simp [UnderConstruction]
    | 3 => simp [sharingVM] at ho; subst ho; simp [UnderConstruction]
    | 4 => simp [sharingVM] at ho; subst ho; simp [UnderConstruction]
    | 5 => simp [sharingVM] at ho; subst ho; simp [UnderConstruction]
    | 6 => simp [sharingVM] at ho; subst ho; simp [UnderConstruction]
    | 7 => simp [sharingVM] at ho; subst ho; simp [UnderConstruction]
    | n + 8 => simp [sharingVM] at ho

theorem sharingVM_linked : Linked sharingVM := by
  constructor
  · intro i c h
    match i with
    | 0 => simp [sharingVM] at h; subst h; rfl
    | 1 => simp [sharingVM] at h
    | 2 => simp [sharingVM] at h
    | 3 => simp [sharingVM] at h
    | n + 4 => simp [sharingVM] at h
  · intro c i hf h
    match c with
    | 0 => simp [sharingVM] at h
    | 1 => simp [sharingVM] at h; subst h; exact ⟨by decide, rfl⟩
    | 2 => simp [sharingVM] at h
    | 3 => simp [sharingVM] at h
    | 4 => simp [sharingVM] at h
    | 5 => simp [sharingVM] at h
    | 6 => simp [sharingVM] at h
    | 7 => simp [sharingVM] at h
    | n + 8 => simp [sharingVM] at h

/-- Captured variables of closures on the stack are in reach. -/
theorem inReach_closure {vm : VM} {pos : Int} {b r n serial c : Nat} {arity : UInt8} {v : Bool} {ups : List (Option Nat)}
    {u : Upvalue} (h : .closure pos (some b) (some r) arity v ∈ vm.stack)
    (hr : vm.heap[r]? = some (.upvalueArray (some ⟨serial, ups⟩) n)) (hn : 0 < n) (hc : ups[0]? = some (some c))
    (hu : vm.heap[c]? = some (.upvalue u)) : InReach vm c :=
  ⟨.step (.root (.stack h .captured)) hr (.capturedArray hn hc), u, hu⟩

theorem sharingVM_reach : InReach sharingVM 1 ∧ InReach sharingVM 3 :=
  ⟨inReach_closure (r := 2) (by simp [sharingVM]; exact ⟨rfl, rfl, rfl, rfl⟩) rfl (by decide) rfl rfl,
   inReach_closure (r := 4) (by simp [sharingVM]; exact ⟨rfl, rfl, rfl, rfl⟩) rfl (by decide) rfl rfl⟩

/-- The machine after the running closure has assigned 9 to the variable. -/
def sharingVM1 : VM := { sharingVM with stack := sharingVM.stack.set 0 (.integer 9) }

/-- And after the end of the scope of the variable. -/
def sharingVM2 : VM := { sharingVM1 with
  heap := (sharingVM.heap.set 5 (.integer 9)).set 1 (.upvalue (.heapObject (some 5)))
  free := [6, 7]
  stack := sharingVM.stack.set 0 (.list none)
  upStack := [none, none, none, none]
  nextSerial := 4 }

example : SameVariable sharingVM 1 3 := ⟨.slot 0, .slot rfl, .link rfl (.slot rfl)⟩

example : Names sharingVM (2 ^ 32 - 1) (.slot 0) :=
  .captured (j := 0) (by decide) ⟨4, 2, 1, [some 3], 1, rfl, rfl, rfl⟩ (.link rfl (.slot rfl))

theorem sharing_assigns : VariableStep plainEnv 0 sharingVM (.setUpvalue 0 1) sharingVM1 :=
  .assignCaptured (st := ⟨0, 0, 0⟩) (nx := ⟨0, 0, 3⟩) (ip := ⟨0, 0, 3⟩) rfl

theorem sharing_releases : VariableStep plainEnv 0 sharingVM1 (.releaseUpvalues [4]) sharingVM2 :=
  .release (st := ⟨0, 0, 0⟩) (nx := ⟨0, 0, 3⟩) (ip := ⟨0, 0, 3⟩) (by decide) rfl

/-- And after a pair of nil and the topmost value has been made. -/
def sharingVM3 : VM := { sharingVM2 with
  heap := (sharingVM2.heap.set 6 (.cons none (some 7))).set 7 (.integer 9)
  free := []
  stack := sharingVM2.stack ++ [.list (some 6)]
  upStack := [none, none, none, none, none]
  nextSerial := 6 }

theorem sharing_conses : VariableStep plainEnv 0 sharingVM2 (.cons 4 1) sharingVM3 :=
  .data (st := ⟨0, 0, 0⟩) (nx := ⟨0, 0, 3⟩) (ip := ⟨0, 0, 3⟩) trivial (by simp) (by simp) trivial id rfl

example : Steps plainEnv 0 [1, 3] sharingVM sharingVM3 := by
  refine .step (.step (.step .refl sharing_assigns ?_) sharing_releases ?_) sharing_conses ?_ <;>
  · intro c hc
    simp at hc
    rcases hc with rfl | rfl
    · exact inReach_closure (r := 2) (by simp [sharingVM, sharingVM1, sharingVM2, sharingVM3]; exact ⟨rfl, rfl, rfl, rfl⟩) rfl
        (by decide) rfl rfl
    · exact inReach_closure (r := 4) (by simp [sharingVM, sharingVM1, sharingVM2, sharingVM3]; exact ⟨rfl, rfl, rfl, rfl⟩) rfl
        (by decide) rfl rfl

/-- The value assigned by the inner closure is the one the outer closure finds after the end of the
scope. -/
example : LastAssigned plainEnv 0 1 sharingVM (.integer 7) sharingVM2 (.integer 9) ∧
    HasValue sharingVM2 1 (.integer 9) := by
  have h : LastAssigned plainEnv 0 1 sharingVM (.integer 7) sharingVM2 (.integer 9) := by
    refine .other (pl := .slot 0) (.assigned (pl := .slot 0) .refl sharing_assigns ?_ (.slot rfl)
      (.captured ⟨4, 2, 1, [some 3], 1, rfl, rfl, rfl⟩ (.link rfl (.slot rfl)) rfl)) sharing_releases ?_ (.slot rfl) ?_
    · exact inReach_closure (r := 2) (by simp [sharingVM, sharingVM1]; exact ⟨rfl, rfl, rfl, rfl⟩) rfl
        (by decide) rfl rfl
    · exact inReach_closure (r := 2) (by simp [sharingVM, sharingVM1, sharingVM2]; exact ⟨rfl, rfl, rfl, rfl⟩) rfl
        (by decide) rfl rfl
    · intro x hx
      cases hx
  exact ⟨h, C40_last_assigned_partial _ _ _ _ _ _ _ sharingVM_good sharingVM_linked rfl sharingVM_reach.1
    ⟨.slot 0, .slot rfl, rfl⟩ h⟩

/-- A closure made there, over the variable and over what its own maker has captured. -/
example : (match exec plainEnv 0 ⟨0, 0, 0⟩ ⟨0, 0, 3⟩ (.pushClosure false 0 0 0 [4, 2 ^ 32 - 1]) sharingVM with
    | .ok (.goto _) vm' => decide (vm'.stack.length = 5 ∧
        (∃ b ∈ vm'.heap, b = .upvalueArray (some ⟨3, [some 1, some 6]⟩) 2) ∧
        vm'.heap[6]? = some (.upvalue (.heapUpvalue (some 3))))
    | _ => false) = true := by decide +kernel

/-- `(apply f 3 '(4 5))` and `(f 3 '(4 5))` are steps, whether `f` has a rest parameter or not. -/
example (v : Bool) : (∃ vm', VariableStep plainEnv 0 (applyVM v) (.apply 3 1) vm') ∧
    (∃ vm', VariableStep plainEnv 0 (applyVM true) (.funcall 3 2) vm') := by
  have h0 : ∀ v n, UncapturedFrom (applyVM v) n := by
    intro v n i c _ h
    match i with
    | 0 | 1 | 2 => cases h
    | i + 3 => cases h
  refine ⟨?_, _, .callVariadic (st := ⟨0, 0, 0⟩) (nx := ⟨0, 0, 3⟩) (ip := ⟨0, 0, 0⟩) rfl rfl (.self (by simp)) (by decide) (h0 _ _) rfl⟩
  cases v <;>
    exact ⟨_, .apply (below := [.closure 0 (some 0) (some 1) 2 _]) (args := [.integer 3]) (st := ⟨0, 0, 0⟩) (nx := ⟨0, 0, 3⟩)
      (ip := ⟨0, 0, 0⟩) rfl rfl (.self (by simp)) rfl (applyVM_list _) (h0 _ _) rfl⟩

/-- Code that declares `x` with value 7 and `f`, assigns to `f` a closure that assigns nil to `f`, makes
two pairs and reads `x`, and calls `f`. -/
def forgettingCode : Bytes :=
  [6, 7, 166, 22, 22, 0, 0, 0, 0, 2, 0, 0, 0, 2, 0, 0, 0, 1, 64, 1, 2, 158, 1, 40, 1, 0, 165,
   166, 31, 1, 1, 91, 1, 2, 158, 1, 91, 1, 2, 158, 1, 19, 0, 165]

/-- C25: the captured variables of a running function can be collected.  A function that drops the last
reference to itself still finds its variables if no collection happens; if one does (here because the
machine has room for five objects), the next read of a captured variable reads memory given back to the
system. -/
theorem C25_running_function_loses_captures :
    (match execute plainEnv 30 forgettingCode (init 50) with
      | .ok () vm' => decide (vm'.stack.getLast? = some (.integer 7))
      | _ => false) = true ∧
    execute plainEnv 30 forgettingCode (init 5) = .ub :=
  ⟨by decide +kernel, by decide +kernel⟩

#print axioms C25_running_function_loses_captures
#print axioms C40_read
#print axioms C40_read_local
#print axioms C40_write
#print axioms C40_write_local
#print axioms C40_capture
#print axioms C40_release
#print axioms C40_schedule_partial
#print axioms C40_last_assigned_partial

end DuckLisp.Props
