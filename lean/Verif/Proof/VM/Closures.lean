import Verif.Proof.VM.Calls
import Verif.Spec.Closures

/-!
# Lemmas about captured variables
-/

namespace DuckLisp.VM

open DuckLisp DuckLisp.Spec

set_option linter.unusedSectionVars false

variable [Entries]

/-! ### Following the links -/

/-- `Denotes`, with the cells on the way. -/
inductive Links (vm : VM) : List Nat → Nat → Place → Prop
  | slot {c i : Nat} (h : vm.heap[c]? = some (.upvalue (.stackIndex i))) : Links vm [c] c (.slot i)
  | cell {c r : Nat} (h : vm.heap[c]? = some (.upvalue (.heapObject (some r)))) : Links vm [c] c (.cell r)
  | link {c c' : Nat} {pl : Place} {cs : List Nat} (h : vm.heap[c]? = some (.upvalue (.heapUpvalue (some c'))))
      (hd : Links vm cs c' pl) : Links vm (c :: cs) c pl

theorem links_of_denotes {vm : VM} {c : Nat} {pl : Place} (h : Denotes vm c pl) : ∃ cs, Links vm cs c pl := by
  induction h with
  | slot h => exact ⟨_, .slot h⟩
  | cell h => exact ⟨_, .cell h⟩
  | link h _ ih =>
    obtain ⟨cs, ih⟩ := ih
    exact ⟨_, .link h ih⟩

theorem links_unique {vm : VM} {cs cs' : List Nat} {c : Nat} {pl pl' : Place} (h : Links vm cs c pl)
    (h' : Links vm cs' c pl') : cs = cs' ∧ pl = pl' := by
  induction h generalizing cs' with
  | slot h =>
    cases h' with
    | slot h2 =>
      rw [h] at h2
      simp only [Option.some.injEq, Obj.upvalue.injEq, Upvalue.stackIndex.injEq, Int.natCast_inj] at h2
      subst h2
      exact ⟨rfl, rfl⟩
    | cell h2 => rw [h] at h2; cases h2
    | link h2 => rw [h] at h2; cases h2
  | cell h =>
    cases h' with
    | slot h2 => rw [h] at h2; cases h2
    | cell h2 => rw [h] at h2; cases h2; exact ⟨rfl, rfl⟩
    | link h2 => rw [h] at h2; cases h2
  | link h _ ih =>
    cases h' with
    | slot h2 => rw [h] at h2; cases h2
    | cell h2 => rw [h] at h2; cases h2
    | link h2 hd =>
      rw [h] at h2
      cases h2
      obtain ⟨rfl, rfl⟩ := ih hd
      exact ⟨rfl, rfl⟩

theorem denotes_unique {vm : VM} {c : Nat} {pl pl' : Place} (h : Denotes vm c pl) (h' : Denotes vm c pl') :
    pl = pl' := by
  obtain ⟨_, h1⟩ := links_of_denotes h
  obtain ⟨_, h2⟩ := links_of_denotes h'
  exact (links_unique h1 h2).2

theorem links_suffix {vm : VM} {cs : List Nat} {c : Nat} {pl : Place} (h : Links vm cs c pl) {r : Nat}
    (hr : r ∈ cs) : ∃ cs', Links vm cs' r pl ∧ cs'.length ≤ cs.length := by
  induction h with
  | slot h => simp at hr; subst hr; exact ⟨_, .slot h, Nat.le_refl _⟩
  | cell h => simp at hr; subst hr; exact ⟨_, .cell h, Nat.le_refl _⟩
  | link h hd ih =>
    rcases List.mem_cons.1 hr with rfl | hr
    · exact ⟨_, .link h hd, Nat.le_refl _⟩
    · obtain ⟨cs', h1, h2⟩ := ih hr
      exact ⟨cs', h1, by simp; omega⟩

theorem links_nodup {vm : VM} {cs : List Nat} {c : Nat} {pl : Place} (h : Links vm cs c pl) : cs.Nodup := by
  induction h with
  | slot => simp
  | cell => simp
  | link h hd ih =>
    refine List.nodup_cons.2 ⟨fun hr => ?_, ih⟩
    obtain ⟨cs', h1, h2⟩ := links_suffix hd hr
    have := (links_unique h1 (.link h hd)).1
    rw [this] at h2
    simp at h2
    omega

theorem links_lt {vm : VM} {cs : List Nat} {c : Nat} {pl : Place} (h : Links vm cs c pl) :
    ∀ r ∈ cs, r < vm.heap.length := by
  induction h with
  | slot h => intro r hr; simp at hr; subst hr; exact getElem?_lt h
  | cell h => intro r hr; simp at hr; subst hr; exact getElem?_lt h
  | link h _ ih =>
    intro r hr
    rcases List.mem_cons.1 hr with rfl | hr
    · exact getElem?_lt h
    · exact ih r hr

/-- The last captured variable on the way. -/
def upOf : Place → Upvalue
  | .slot i => .stackIndex i
  | .cell r => .heapObject (some r)

theorem chase_links {vm : VM} {n o : M Upvalue} {cs : List Nat} {c : Nat} {pl : Place} (h : Links vm cs c pl) :
    ∀ fuel, cs.length ≤ fuel → chase n o fuel (some c) vm = .ok (upOf pl) vm := by
  induction h with
  | slot h =>
    intro fuel hf
    cases fuel with
    | zero => simp at hf
    | succ fuel => unfold chase; rw [M.bind_ok (readCell_some h)]; rfl
  | cell h =>
    intro fuel hf
    cases fuel with
    | zero => simp at hf
    | succ fuel => unfold chase; rw [M.bind_ok (readCell_some h)]; rfl
  | link h _ ih =>
    intro fuel hf
    cases fuel with
    | zero => simp at hf
    | succ fuel =>
      unfold chase
      rw [M.bind_ok (readCell_some h)]
      exact ih fuel (by simp at hf; omega)

theorem chase_denotes {vm : VM} {n o : M Upvalue} {c : Nat} {pl : Place} (h : Denotes vm c pl) :
    chase n o (vm.heap.length + 1) (some c) vm = .ok (upOf pl) vm := by
  obtain ⟨cs, h⟩ := links_of_denotes h
  have := nodup_length_le _ _ (links_nodup h) (links_lt h)
  exact chase_links h _ (by omega)

/-! ### What captured variables lead to is in use -/

theorem running_live {vm : VM} (hs : Sound vm) {j c : Nat} (h : RunningCapture vm j c) : Live vm c .captured := by
  obtain ⟨r, serial, n, ups, m, -, h1, h2⟩ := h
  have hf : r ∉ vm.free := fun hf => hs.free_empty r hf _ h1 rfl
  have := hs.cells r _ h1 hf
  exact this.2 c (List.mem_of_getElem? h2)

theorem denotes_live {vm : VM} (hs : Sound vm) {c : Nat} {pl : Place} (h : Denotes vm c pl)
    (hl : Live vm c .captured) {r : Nat} (hr : pl = .cell r) : Live vm r .value := by
  induction h with
  | slot => cases hr
  | cell h =>
    cases hr
    obtain ⟨r', h1, h2⟩ := hs.cells _ _ h hl.1
    cases h1
    exact h2
  | link h _ ih => exact ih (hs.cells _ _ h hl.1 _ rfl) hr

theorem denotes_traced {vm : VM} {c : Nat} {pl : Place} (h : Denotes vm c pl) (ht : Traced vm c) {r : Nat}
    (hr : pl = .cell r) : Traced vm r := by
  induction h with
  | slot => cases hr
  | cell h => cases hr; exact .step ht h .capturedCell (by simp [UnderConstruction])
  | link h _ ih => exact ih (.step ht h .capturedLink (by simp [UnderConstruction])) hr

/-- Captured variables stay where they are if the cells on the way do. -/
theorem denotes_keeps {a b : VM} (hh : ∀ r, Traced a r → b.heap[r]? = a.heap[r]?) {c : Nat} {pl : Place}
    (h : Denotes a c pl) (ht : Traced a c) : Denotes b c pl := by
  induction h with
  | slot h => exact .slot ((hh _ ht).trans h)
  | cell h => exact .cell ((hh _ ht).trans h)
  | link h _ ih =>
    exact .link ((hh _ ht).trans h) (ih (.step ht h .capturedLink (by simp [UnderConstruction])))

theorem denotes_heap {a b : VM} (hh : b.heap = a.heap) {c : Nat} {pl : Place} (h : Denotes a c pl) :
    Denotes b c pl := by
  induction h with
  | slot h => exact .slot (hh ▸ h)
  | cell h => exact .cell (hh ▸ h)
  | link h _ ih => exact .link (hh ▸ h) ih

/-- Writing a value to a cell that holds a value moves no variable. -/
theorem denotes_write {vm : VM} {r : Nat} {o o' : Obj} (ho : vm.heap[r]? = some o) (h1 : ∀ u, o ≠ .upvalue u)
    {c : Nat} {pl : Place} (h : Denotes vm c pl) : Denotes { vm with heap := vm.heap.set r o' } c pl := by
  have key : ∀ {c : Nat} {u : Upvalue}, vm.heap[c]? = some (Obj.upvalue u) →
      (vm.heap.set r o')[c]? = some (Obj.upvalue u) := by
    intro c u hc
    rw [List.getElem?_set_ne]
    · exact hc
    · rintro rfl
      rw [ho] at hc
      cases hc
      exact h1 _ rfl
  induction h with
  | slot h => exact .slot (key h)
  | cell h => exact .cell (key h)
  | link h _ ih => exact .link (key h) ih

theorem value_not_upvalue {vm : VM} {o : Obj} (h : ValueOk vm o) : ∀ u, o ≠ .upvalue u := by
  rintro u rfl
  exact h

/-! ### Reading and writing -/

theorem running_top {vm : VM} {j c : Nat} (h : RunningCapture vm j c) (e : M UpArray) :
    ∃ u, topUpArray e vm = .ok u vm ∧ upvalueAt u j vm = .ok (some c) vm := by
  obtain ⟨r, serial, n, ups, m, h1, h2, h3⟩ := h
  refine ⟨⟨some (r, serial), n⟩, ?_, ?_⟩
  · unfold topUpArray
    rw [h1]
  · unfold upvalueAt
    simp only [h2, h3, if_true]
    rfl

theorem pushUpvalue_eq {vm : VM} {j c : Nat} {pl : Place} {o : Obj} (h : RunningCapture vm j c)
    (hd : Denotes vm c pl) (hc : contents vm pl = some o) : iPushUpvalue j vm = .ok () (pushed vm o) := by
  obtain ⟨u, h1, h2⟩ := running_top h (M.throw .bufferUnderflow)
  unfold iPushUpvalue
  rw [M.bind_ok h1, M.bind_ok h2, M.bind_ok (show chaseFuel vm = .ok (vm.heap.length + 1) vm from rfl),
    M.bind_ok (chase_denotes hd)]
  cases pl with
  | slot i =>
    show (getAbs i >>= _) vm = _
    have : getAbs i vm = .ok o vm := by
      unfold getAbs
      rw [if_pos (by omega), Int.toNat_natCast, show vm.stack[i]? = some o from hc]
      rfl
    rw [M.bind_ok this]
    rfl
  | cell r =>
    show (deref (some r) >>= _) vm = _
    rw [M.bind_ok (deref_some hc)]
    rfl

/-- The machine after an assignment to the variable in `pl`. -/
def assigned (vm : VM) (o : Obj) : Place → VM
  | .slot i => { vm with stack := vm.stack.set i o }
  | .cell r => { vm with heap := vm.heap.set r o }

theorem setUpvalue_eq {vm : VM} {j a c : Nat} {pl : Place} {o x : Obj} (h : RunningCapture vm j c)
    (hd : Denotes vm c pl) (hc : contents vm pl = some o) (ha : operand vm a = some x) :
    iSetUpvalue j a vm = .ok () (assigned vm x pl) := by
  obtain ⟨u, h1, h2⟩ := running_top h M.ub
  unfold iSetUpvalue
  rw [M.bind_ok (getArg_some ha), M.bind_ok h1, M.bind_ok h2,
    M.bind_ok (show chaseFuel vm = .ok (vm.heap.length + 1) vm from rfl), M.bind_ok (chase_denotes hd)]
  cases pl with
  | slot i =>
    show setAbs i x vm = _
    unfold setAbs
    rw [if_pos ⟨by omega, by rw [Int.toNat_natCast]; exact getElem?_lt hc⟩, Int.toNat_natCast]
    rfl
  | cell r =>
    show (M.need (some r) >>= _) vm = _
    rw [M.bind_ok (show M.need (some r) vm = .ok r vm from rfl)]
    unfold writeCell
    rw [if_pos (getElem?_lt hc)]
    rfl

/-- An assignment changes one variable. -/
structure Assigned (vm vm' : VM) (pl : Place) (o : Obj) : Prop where
  here : contents vm' pl = some o
  others : ∀ p, p ≠ pl → contents vm' p = contents vm p
  denotes : ∀ c p, Denotes vm' c p ↔ Denotes vm c p

theorem assigned_slot {vm : VM} {i : Nat} {o : Obj} (h : i < vm.stack.length) :
    Assigned vm (assigned vm o (.slot i)) (.slot i) o := by
  refine ⟨List.getElem?_set_self h, ?_, fun c p =>
    ⟨denotes_heap (a := assigned vm o (.slot i)) (b := vm) rfl,
      denotes_heap (a := vm) (b := assigned vm o (.slot i)) rfl⟩⟩
  intro p hp
  cases p with
  | cell r => rfl
  | slot k => exact List.getElem?_set_ne fun e => hp (by rw [e])

theorem assigned_cell {vm : VM} {r : Nat} {o o' : Obj} (h : vm.heap[r]? = some o') (hv : ∀ u, o ≠ .upvalue u)
    (hv' : ∀ u, o' ≠ .upvalue u) : Assigned vm (assigned vm o (.cell r)) (.cell r) o := by
  have hlt := getElem?_lt h
  refine ⟨List.getElem?_set_self hlt, ?_, fun c p => ⟨fun hd => ?_, denotes_write h hv'⟩⟩
  · intro p hp
    cases p with
    | slot i => rfl
    | cell k => exact List.getElem?_set_ne fun e => hp (by rw [e])
  · have := denotes_write (vm := assigned vm o (.cell r)) (r := r) (o' := o') (List.getElem?_set_self hlt) hv hd
    refine denotes_heap ?_ this
    show vm.heap = (vm.heap.set r o).set r o'
    rw [List.set_set]
    refine (List.ext_getElem? fun k => ?_)
    by_cases hk : r = k
    · subst hk
      rw [List.getElem?_set_self hlt, h]
    · rw [List.getElem?_set_ne hk]

/-! ### The second stack -/

theorem linked_alloc {s s' : VM} {r : Nat} {o : Obj} (hl : Linked s) (al : Allocated s s' r o)
    (ho : ∀ i, o ≠ .upvalue (.stackIndex i)) : Linked s' := by
  refine ⟨fun i c h => ?_, fun c i hf h => ?_⟩
  · rw [al.carried.roots.upStack] at h
    rw [al.carried.heap c (traced_up (List.mem_of_getElem? h))]
    exact hl.entry i c h
  · by_cases hc : c = r
    · subst hc
      rw [al.cell] at h
      cases h
      exact absurd rfl (ho i)
    · obtain ⟨h1, h2⟩ := al.others c _ hc h hf
      rw [al.carried.roots.upStack]
      exact hl.cell c i h2 h1

/-- A new captured variable for a slot that has none. -/
theorem linked_capture {s s' : VM} {r idx : Nat} {up : List (Option Nat)} (hl : Linked s)
    (al : Allocated s s' r (.upvalue (.stackIndex idx))) (hnew : up[idx]? = some (some r))
    (hold : ∀ k, k ≠ idx → up[k]? = s.upStack[k]?) (hnone : ∀ c, s.upStack[idx]? ≠ some (some c)) :
    Linked { s' with upStack := up } := by
  refine ⟨fun i c h => ?_, fun c i hf h => ?_⟩
  · by_cases hi : i = idx
    · subst hi
      rw [show ({ s' with upStack := up } : VM).upStack = up from rfl, hnew] at h
      cases h
      exact al.cell
    · have h' : s.upStack[i]? = some (some c) := (hold i hi).symm.trans h
      show s'.heap[c]? = _
      rw [al.carried.heap c (traced_up (List.mem_of_getElem? h'))]
      exact hl.entry i c h'
  · by_cases hc : c = r
    · subst hc
      have h' : s'.heap[c]? = _ := h
      rw [al.cell] at h'
      cases h'
      exact ⟨by omega, hnew⟩
    · obtain ⟨h1, h2⟩ := al.others c _ hc h hf
      obtain ⟨h3, h4⟩ := hl.cell c i h2 h1
      refine ⟨h3, (hold _ ?_).trans h4⟩
      rintro rfl
      exact hnone c h4

theorem linked_write {s : VM} {r : Nat} {o o' : Obj} (hl : Linked s) (ho : s.heap[r]? = some o)
    (h1 : ∀ u, o ≠ .upvalue u) (h2 : ∀ u, o' ≠ .upvalue u) :
    Linked { s with heap := s.heap.set r o' } := by
  have hlt := getElem?_lt ho
  refine ⟨fun i c h => ?_, fun c i hf h => ?_⟩
  · have := hl.entry i c h
    show (s.heap.set r o')[c]? = _
    rw [List.getElem?_set_ne]
    · exact this
    · rintro rfl
      rw [ho] at this
      cases this
      exact h1 _ rfl
  · have h' : (s.heap.set r o')[c]? = some (.upvalue (.stackIndex i)) := h
    by_cases hc : r = c
    · subst hc
      rw [List.getElem?_set_self hlt] at h'
      cases h'
      exact absurd rfl (h2 _)
    · rw [List.getElem?_set_ne hc] at h'
      exact hl.cell c i hf h'

/-- Slots that have not been captured may come and go. -/
theorem linked_stacks {s : VM} (hl : Linked s) (st : List Obj) (up : List (Option Nat))
    (h : ∀ (i c : Nat), up[i]? = some (some c) ↔ s.upStack[i]? = some (some c)) :
    Linked { s with stack := st, upStack := up } :=
  ⟨fun i c hi => hl.entry i c ((h i c).1 hi), fun c i hf hc =>
    ⟨(hl.cell c i hf hc).1, (h _ _).2 (hl.cell c i hf hc).2⟩⟩

theorem append_none_iff {up : List (Option Nat)} {n : Nat} (i c : Nat) :
    (up ++ List.replicate n none)[i]? = some (some c) ↔ up[i]? = some (some c) := by
  by_cases h : i < up.length
  · rw [List.getElem?_append_left h]
  · rw [List.getElem?_append_right (by omega), List.getElem?_replicate, List.getElem?_eq_none (by omega)]
    split <;> simp

/-! ### Making a closure -/

/-- The state in which the captured variables of a closure are looked up. -/
structure Making (vm s : VM) (clo : Obj) (cell : Nat) (own : Bool) : Prop where
  stack : s.stack = vm.stack ++ [clo]
  height : s.upStack.length = vm.stack.length + own.toNat
  good : Good s
  ext : Extends vm s
  linked : Linked s
  men : Mentions clo cell
  fresh : ¬ Traced vm cell

theorem Making.traced {vm s : VM} {clo : Obj} {cell : Nat} {own : Bool} (h : Making vm s clo cell own) :
    Traced s cell :=
  pinned_stack h.good.sound (o := clo) (by rw [h.stack]; simp) cell h.men

variable {U : Prop} {E : DlError → VM → Prop}

theorem running_keeps {a b : VM} (h : Extends a b) {j c : Nat} (hc : RunningCapture a j c)
    (ht : ∀ r s n, a.upArrays.getLast? = some ⟨some (r, s), n⟩ → Traced a r) :
    RunningCapture b j c := by
  obtain ⟨r, serial, n, ups, m, h1, h2, h3⟩ := hc
  exact ⟨r, serial, n, ups, m, by rw [h.upArrays]; exact h1, (h.heap r (ht _ _ _ h1)).trans h2, h3⟩

theorem running_traced {a : VM} (hg : Good a) {j c : Nat} (hc : RunningCapture a j c)
    (ht : ∀ r s n, a.upArrays.getLast? = some ⟨some (r, s), n⟩ → Traced a r) : Traced a c := by
  obtain ⟨r, serial, n, ups, m, h1, h2, h3⟩ := hc
  have hf : r ∉ a.free := fun hf => hg.sound.free_empty r hf _ h2 rfl
  have hok := (hg.sound.cells r _ h2 hf).1
  have hj := getElem?_lt h3
  exact .step (ht _ _ _ h1) h2 (.capturedArray (by simp at hok; omega) h3) (by simp [UnderConstruction])

theorem post_capture {vm s : VM} {clo : Obj} {cell : Nat} {self : Bool} (h : Making vm s clo cell self)
    (hg : Good vm) (ht : ∀ r s n, vm.upArrays.getLast? = some ⟨some (r, s), n⟩ → Traced vm r)
    {v : Nat} {pl : Place} (hn : Names vm v pl)
    (hE : ∀ e s', e = .outOfMemory ∨ e = .shouldntHappen → Good s' → Extends vm s' → E e s') :
    Post U E (fun x s' => ∃ c, x.1 = some c ∧ Making vm s' clo cell (self || x.2) ∧ Extends s s' ∧
        Denotes s' c pl ∧ Live s' c .captured) (capture v s) := by
  have herr : ∀ s', Sound s' → Carried s s' → Back s s' → Good s' ∧ Extends vm s' := fun s' h1 h2 h3 =>
    ⟨⟨h1, h3.finished h.good.finished⟩, h.ext.trans h2.extends⟩
  -- the new cell
  have step : ∀ {r : Nat} {s' : VM} {o : Obj}, Allocated s s' r o → Finished s' →
      ∀ (up : List (Option Nat)) (sf : Bool), (∀ c, some c ∈ s'.upStack → some c ∈ up) →
      (∀ c, some c ∈ up → Live s' c .captured) →
      up.length = vm.stack.length + sf.toNat → Linked { s' with upStack := up } →
      Making vm { s' with upStack := up } clo cell sf ∧ Extends s { s' with upStack := up } := by
    intro r s' o al hf up sf h1 h2 h3 h4
    have hst : s'.stack = vm.stack ++ [clo] := by rw [al.carried.roots.stack, h.stack]
    have e : Extends s { s' with upStack := up } :=
      al.carried.extends.stacks s'.stack up (fun _ h => h) h1
    refine ⟨⟨hst, h3, ?_, h.ext.trans e, h4, h.men, h.fresh⟩, e⟩
    have g : Good s' := ⟨al.sound, hf⟩
    exact g.stacks s'.stack up g.sound.stack h2
  cases hn with
  | @captured j c pl hj hc hd =>
    unfold capture
    rw [if_pos (by omega)]
    obtain ⟨u, h1, h2⟩ := running_top (running_keeps h.ext hc ht) M.ub
    rw [M.bind_ok h1, show 0x100000000 - (2 ^ 32 - 1 - j) - 1 = j by omega, M.bind_ok h2]
    have htc := running_traced hg hc ht
    have hts := h.ext.traced htc
    have hlive : Live s c .captured := h.ext.toKeeps.live htc (running_live hg.sound hc)
    have hd' : Denotes s c pl := denotes_keeps (fun r hr => h.ext.heap r hr) hd htc
    refine Post.bind (Q := fun r s' => Allocated s s' r (.upvalue (.heapUpvalue (some c))) ∧ Finished s') ?_ ?_
    · refine (post_allocCell h.good.sound (o := .upvalue (.heapUpvalue (some c))) (fun n => ?_) (fun n r _ hm => ?_)
        (fun s' h1 h2 h3 => ?_)).imp ?_
      · intro r hr
        cases hr
        exact hlive
      · cases hm
        exact hts
      · obtain ⟨h4, h5⟩ := herr s' h1 h2 h3
        exact hE _ _ (.inl rfl) h4 h5
      · rintro r s' ⟨n, h1, h2⟩
        exact ⟨h1, h2 h.good.finished (by simp [UnderConstruction, store])⟩
    rintro r s' ⟨al, hf⟩
    refine ⟨r, rfl, ?_, al.carried.extends, ?_, al.live⟩
    · have := (step al hf s'.upStack self (fun _ h => h) al.sound.captured ?_ ?_).1
      · simpa using this
      · rw [al.carried.roots.upStack]
        exact h.height
      · exact linked_alloc h.linked al (by intro i hi; cases hi)
    · exact .link al.cell (denotes_keeps (fun r hr => al.carried.heap r hr) hd' hts)
  | onStack hv1 hv2 =>
    unfold capture
    rw [if_neg (by omega), M.bind_ok (show M.get s = .ok s s from rfl)]
    have hlen : s.stack.length = vm.stack.length + 1 := by rw [h.stack]; simp
    have hidx : ((s.stack.length : Int) - 1 - v) = ((vm.stack.length - v : Nat) : Int) := by omega
    rw [hidx, if_neg (by rw [h.height]; omega), Int.toNat_natCast]
    generalize hi : vm.stack.length - v = idx
    have hile : idx ≤ vm.stack.length := by omega
    have hcell : ∀ n, CellOk s (store n (.upvalue (.stackIndex (idx : Int)))) := fun n => trivial
    split
    · rename_i hself
      -- the closure itself
      have hsf : self = false := by
        cases self with
        | false => rfl
        | true => have := h.height; simp at this; omega
      subst hsf
      have hheight : s.upStack.length = vm.stack.length := h.height
      have hpost := post_allocCell (U := False) (E := fun e s' => Good s' ∧ Extends vm s') h.good.sound hcell
        (fun n r _ hm => by cases hm) (fun s' h1 h2 h3 => herr s' h1 h2 h3)
      cases he : pushObject (Obj.upvalue (Upvalue.stackIndex (idx : Int))) s with
      | ok r s' =>
        rw [he] at hpost
        obtain ⟨n, al, hf⟩ := hpost
        have hf := hf h.good.finished (by simp [UnderConstruction, store])
        have hup : s'.upStack = s.upStack := al.carried.roots.upStack
        dsimp only
        rw [M.bind_ok (show M.set s' s = .ok () s' from rfl),
          M.bind_ok (show pushUpOnly (some r) s' = .ok () { s' with upStack := s'.upStack ++ [some r] } from rfl)]
        have hl : Linked { s' with upStack := s'.upStack ++ [some r] } := by
          refine linked_capture h.linked al (idx := idx) ?_ (fun k hk => ?_) (fun c => ?_)
          · rw [hup, hself, List.getElem?_append_right (Nat.le_refl _)]
            simp
          · rw [hup]
            by_cases hk' : k < s.upStack.length
            · rw [List.getElem?_append_left hk']
            · rw [List.getElem?_eq_none (by simp; omega), List.getElem?_eq_none (by omega)]
          · rw [List.getElem?_eq_none (by omega)]
            simp
        obtain ⟨m, e⟩ := step al hf (s'.upStack ++ [some r]) true
          (fun c hc => List.mem_append_left _ hc)
          (fun c hc => by
            rcases List.mem_append.1 hc with hc | hc
            · exact al.sound.captured c hc
            · simp at hc
              subst hc
              exact al.live)
          (by rw [hup]; simp; omega) hl
        exact ⟨r, rfl, m, e, .slot al.cell, al.live⟩
      | err e s' =>
        rw [he] at hpost
        exact hE _ _ (.inr rfl) hpost.1 hpost.2
      | ub =>
        rw [he] at hpost
        exact hpost.elim
      | diverge =>
        rw [he] at hpost
        exact hpost.elim
    · rename_i hself
      have hlt : idx < s.upStack.length := by
        have := h.height
        omega
      rw [List.getElem?_eq_getElem hlt]
      cases hu : s.upStack[idx] with
      | none =>
        have hu' : s.upStack[idx]? = some none := by rw [List.getElem?_eq_getElem hlt, hu]
        dsimp only
        refine Post.bind (Q := fun r s' => Allocated s s' r (.upvalue (.stackIndex idx)) ∧ Finished s') ?_ ?_
        · refine (post_allocCell h.good.sound hcell (fun n r _ hm => by cases hm) (fun s' h1 h2 h3 => ?_)).imp ?_
          · obtain ⟨h4, h5⟩ := herr s' h1 h2 h3
            exact hE _ _ (.inl rfl) h4 h5
          · rintro r s' ⟨n, h1, h2⟩
            exact ⟨h1, h2 h.good.finished (by simp [UnderConstruction, store])⟩
        rintro r s' ⟨al, hf⟩
        have hup : s'.upStack = s.upStack := al.carried.roots.upStack
        rw [M.bind_ok (show M.modify _ s' = .ok () { s' with upStack := s'.upStack.set idx (some r) } from rfl)]
        have hl : Linked { s' with upStack := s'.upStack.set idx (some r) } := by
          refine linked_capture h.linked al (idx := idx) ?_ (fun k hk => ?_) (fun c => ?_)
          · rw [hup, List.getElem?_set_self hlt]
          · rw [hup, List.getElem?_set_ne (Ne.symm hk)]
          · rw [hu']
            simp
        obtain ⟨m, e⟩ := step al hf (s'.upStack.set idx (some r)) self
          (fun c hc => by
            rw [hup] at hc ⊢
            obtain ⟨k, hk⟩ := List.mem_iff_getElem?.1 hc
            refine List.mem_iff_getElem?.2 ⟨k, ?_⟩
            rw [List.getElem?_set_ne]
            · exact hk
            · rintro rfl
              rw [hu'] at hk
              cases hk)
          (fun c hc => by
            rcases List.mem_or_eq_of_mem_set hc with hc | hc
            · exact al.sound.captured c hc
            · cases hc
              exact al.live)
          (by rw [hup, List.length_set]; exact h.height) hl
        refine ⟨r, rfl, ?_, e, .slot al.cell, al.live⟩
        simpa using m
      | some r =>
        have hu' : s.upStack[idx]? = some (some r) := by rw [List.getElem?_eq_getElem hlt, hu]
        have hr := h.linked.entry idx r hu'
        dsimp only
        rw [M.bind_ok (readCell_some hr)]
        refine ⟨r, rfl, ?_, .refl s, .slot hr, h.good.sound.captured r (List.mem_of_getElem? hu')⟩
        simpa using h

/-- The first variables of the closure have been captured: those that live in `pls`. -/
def Captured (s : VM) (cell : Nat) (pls : List Place) (n : Nat) : Prop :=
  ∃ blk, s.heap[cell]? = some (.upvalueArray (some blk) n) ∧
    ∀ (k : Nat) (pl : Place), pls[k]? = some pl → ∃ c, blk.ups[k]? = some (some c) ∧ Denotes s c pl

theorem captured_keeps {s s' : VM} {cell : Nat} {pls : List Place} {n : Nat} (hg : Good s) (ht : Traced s cell)
    (h : Captured s cell pls n) (he : Extends s s') : Captured s' cell pls n := by
  obtain ⟨blk, h1, h2⟩ := h
  refine ⟨blk, (he.heap _ ht).trans h1, fun k pl hk => ?_⟩
  obtain ⟨c, h3, h4⟩ := h2 k pl hk
  refine ⟨c, h3, denotes_keeps (fun r hr => he.heap r hr) h4 (.step ht h1 (.capturedArray ?_ h3)
    (by simp [UnderConstruction]))⟩
  obtain ⟨s, hl⟩ := ht.live hg.sound
  have := (hg.sound.cells _ _ h1 hl.1).1
  have := getElem?_lt h3
  simp at *
  omega

theorem post_setCapture {vm s : VM} {clo : Obj} {cell : Nat} {own : Bool} (h : Making vm s clo cell own)
    {pls : List Place} {n c : Nat} {pl : Place} (hc : Captured s cell pls n) (hk : pls.length < n)
    (hd : Denotes s c pl) (hl : Live s c .captured) :
    Post U E (fun _ s' => Making vm s' clo cell own ∧ Captured s' cell (pls ++ [pl]) n)
      (setCapture cell pls.length (some c) s) := by
  obtain ⟨blk, h1, h2⟩ := hc
  obtain ⟨sh, hlc⟩ := h.traced.live h.good.sound
  have hok := h.good.sound.cells _ _ h1 hlc.1
  have hlen : blk.ups.length = n := hok.1
  have hlt := getElem?_lt h1
  unfold setCapture
  rw [M.bind_ok (readCell_some h1)]
  dsimp only
  rw [if_pos (by omega)]
  refine post_write hlt ⟨⟨h.stack, h.height, ?_, h.ext.write _ h.fresh, ?_, h.men, h.fresh⟩, ?_⟩
  · refine h.good.write h1 hlc.1 rfl ⟨by simpa using hlen, fun r hr => ?_⟩ (by simp [UnderConstruction])
    rcases List.mem_or_eq_of_mem_set hr with hr | hr
    · exact hok.2 r hr
    · cases hr
      exact hl
  · exact linked_write h.linked h1 (by intro u hu; cases hu) (by intro u hu; cases hu)
  · refine ⟨{ blk with ups := blk.ups.set pls.length (some c) }, List.getElem?_set_self hlt, fun k p hp => ?_⟩
    by_cases hkk : k = pls.length
    · subst hkk
      simp at hp
      subst hp
      refine ⟨c, List.getElem?_set_self (by omega), denotes_write h1 (by intro u hu; cases hu) hd⟩
    · have : k < pls.length := by
        have := getElem?_lt hp
        simp at this
        omega
      rw [List.getElem?_append_left this] at hp
      obtain ⟨c', h3, h4⟩ := h2 k p hp
      refine ⟨c', ?_, denotes_write h1 (by intro u hu; cases hu) h4⟩
      rw [List.getElem?_set_ne (Ne.symm hkk)]
      exact h3

theorem post_captures {vm : VM} {clo : Obj} {cell : Nat} (hg : Good vm)
    (ht : ∀ r s n, vm.upArrays.getLast? = some ⟨some (r, s), n⟩ → Traced vm r)
    (hE : ∀ e s', e = .outOfMemory ∨ e = .shouldntHappen → Good s' → Extends vm s' → E e s') {n : Nat} :
    ∀ (vs : List Nat) (rest pls : List Place) (s : VM) (own : Bool), NamesAll vm vs rest →
      pls.length + vs.length = n → Making vm s clo cell own → (vs ≠ [] → Captured s cell pls n) →
      Post U E (fun own s' => Making vm s' clo cell own ∧
          (vs = [] → s'.heap = s.heap) ∧ (vs ≠ [] → Captured s' cell (pls ++ rest) n))
        (captures cell pls.length vs own s) := by
  intro vs
  induction vs with
  | nil =>
    intro rest pls s own hn _ h _
    exact ⟨h, fun _ => rfl, fun h => absurd rfl h⟩
  | cons v vs ih =>
    intro rest pls s own hn hlen h hc
    cases hn with
    | @cons _ _ pl rest hv hvs =>
      unfold captures
      refine Post.bind (post_capture h hg ht hv hE) ?_
      rintro ⟨p, self⟩ s1 ⟨c, hp, h1, e1, hd, hl⟩
      cases hp
      dsimp only at h1 ⊢
      have hc1 := captured_keeps h.good h.traced (hc (by simp)) e1
      refine Post.bind (post_setCapture h1 hc1 (by simp at hlen; omega) hd hl) ?_
      rintro _ s2 ⟨h2, hc2⟩
      have := ih rest (pls ++ [pl]) s2 (own || self) hvs (by simp at hlen ⊢; omega) h2 (fun _ => hc2)
      rw [List.length_append, List.length_singleton] at this
      refine this.imp ?_
      rintro own' s3 ⟨h3, h4, h5⟩
      refine ⟨h3, by simp, fun _ => ?_⟩
      cases vs with
      | nil =>
        cases hvs
        obtain ⟨blk, h6, h7⟩ := hc2
        refine ⟨blk, by rw [h4 rfl]; exact h6, fun k p hk => ?_⟩
        obtain ⟨c', h8, h9⟩ := h7 k p hk
        exact ⟨c', h8, denotes_heap (h4 rfl) h9⟩
      | cons v' vs' =>
        have := h5 (by simp)
        rwa [List.append_assoc] at this

theorem store_captures (k n : Nat) : store k (.upvalueArray none n) =
    if n = 0 then .upvalueArray none 0 else .upvalueArray (some ⟨k, List.replicate n none⟩) n := rfl

theorem namesAll_length {vm : VM} {vs : List Nat} {pls : List Place} (h : NamesAll vm vs pls) :
    vs.length = pls.length := by
  induction h with
  | nil => rfl
  | cons _ _ ih => simp [ih]

theorem post_pushClosure {vm : VM} {bc : Nat} {start : CodePtr} {variadic : Bool} {base : Nat} {disp : Int}
    {arity : UInt8} {vs : List Nat} {pls : List Place} (hg : Good vm) (hl : Linked vm)
    (hlen : vm.upStack.length = vm.stack.length) (hbc : Traced vm bc) (hcode : IsCode vm bc start.off start)
    (hen : ∀ blk n, vm.heap[bc]? = some (.bytecode (some blk) n) → Entries.ok blk (disp + (start.off + base)) arity variadic)
    (ht : ∀ r s n, vm.upArrays.getLast? = some ⟨some (r, s), n⟩ → Traced vm r)
    (hn : NamesAll vm vs pls)
    (hE : ∀ e s', e = .outOfMemory ∨ e = .shouldntHappen → Good s' → Extends vm s' → E e s') :
    Post U E (fun _ s' => ∃ u, s'.stack = vm.stack ++ [.closure (disp + (start.off + base)) (some bc) (some u) arity variadic] ∧
        s'.upStack.length = s'.stack.length ∧ Good s' ∧ Linked s' ∧ Extends vm s' ∧ ¬ Traced vm u ∧
        IsClosureOver s' u pls)
      (iPushClosure bc start variadic base disp arity vs vm) := by
  obtain ⟨blk, n, hb, hst⟩ := hcode
  have hvl : vs.length = pls.length := namesAll_length hn
  unfold iPushClosure
  rw [M.bind_ok (show codeSerial bc vm = .ok blk.serial vm by unfold codeSerial; rw [hb])]
  rw [if_pos (by rw [hst]; exact ⟨rfl, rfl⟩)]
  refine Post.bind (Q := fun cell s => ∃ k, Allocated vm s cell (store k (.upvalueArray none vs.length)) ∧ Finished s) ?_ ?_
  · refine (post_allocCell hg.sound (fun k => ?_) (fun k r _ hm => ?_) (fun s' h1 h2 h3 => ?_)).imp ?_
    · rw [store_captures]
      split
      · exact ⟨rfl, by simp⟩
      · refine ⟨by simp, fun r hr => ?_⟩
        simp at hr
    · rw [store_captures] at hm
      split at hm
      · cases hm
      · cases hm with
        | capturedArray hi h =>
          rw [List.getElem?_replicate] at h
          split at h <;> cases h
    · exact hE _ _ (.inl rfl) ⟨h1, h3.finished hg.finished⟩ h2.extends
    · rintro r s' ⟨k, h1, h2⟩
      refine ⟨k, h1, h2 hg.finished ?_⟩
      rw [store_captures]
      split <;> simp [UnderConstruction]
  rintro cell s ⟨k, al, hf⟩
  generalize hclo : Obj.closure (disp + (start.off + base)) (some bc) (some cell) arity variadic = clo
  dsimp only
  rw [M.bind_ok (show pushStackOnly clo s = .ok () { s with stack := s.stack ++ [clo] } from rfl)]
  have hlive : Live s bc (.code (some blk)) := al.carried.keeps.live hbc ⟨by
      obtain ⟨_, h⟩ := hbc.live hg.sound
      exact h.1, _, hb, rfl⟩
  have hcap : Live s cell (.captures vs.length) := by
    have := al.live
    rw [store_captures] at this
    split at this
    · rename_i h0
      rw [h0]
      exact this
    · exact this
  have hclok : ValueOk s clo := by
    rw [← hclo]
    exact ⟨bc, cell, vs.length, rfl, rfl, ⟨blk, hlive, hen _ _ hb⟩, hcap⟩
  have gs : Good s := ⟨al.sound, hf⟩
  have m0 : Making vm { s with stack := s.stack ++ [clo] } clo cell false := by
    refine ⟨by rw [← al.carried.roots.stack], ?_, ?_, ?_, ?_, ?_, al.fresh⟩
    · show s.upStack.length = _
      rw [al.carried.roots.upStack, hlen]
      rfl
    · refine gs.stacks (s.stack ++ [clo]) s.upStack (fun o ho => ?_) gs.sound.captured
      rcases List.mem_append.1 ho with ho | ho
      · exact gs.sound.stack o ho
      · simp at ho
        subst ho
        exact hclok
    · exact al.carried.extends.stacks (s.stack ++ [clo]) s.upStack (fun o ho => List.mem_append_left _ ho) (fun _ h => h)
    · refine linked_stacks (linked_alloc hl al ?_) (s.stack ++ [clo]) s.upStack (fun _ _ => Iff.rfl)
      intro i
      rw [store_captures]
      split <;> simp
    · rw [← hclo]
      exact .captured
  refine Post.bind (post_captures hg ht hE vs pls [] { s with stack := s.stack ++ [clo] } false hn rfl m0 ?_) ?_
  · intro hne
    have hpos : vs.length ≠ 0 := by simpa using hne
    have hc := al.cell
    simp only [store, if_neg hpos] at hc
    exact ⟨_, by simpa using hc, by simp⟩
  rintro own s1 ⟨m1, hz, hc⟩
  -- the entry of the closure itself on the second stack
  have fin : ∀ s2 : VM, s2.stack = vm.stack ++ [clo] → s2.upStack.length = s2.stack.length → Good s2 → Linked s2 →
      Extends vm s2 → s2.heap = s1.heap → Post U E (fun _ s' => ∃ u,
        s'.stack = vm.stack ++ [.closure (disp + (start.off + base)) (some bc) (some u) arity variadic] ∧
        s'.upStack.length = s'.stack.length ∧ Good s' ∧ Linked s' ∧ Extends vm s' ∧ ¬ Traced vm u ∧
        IsClosureOver s' u pls) ((do let n ← height; setStackAt (n - 1) clo : M Unit) s2) := by
    intro s2 h1 h2 h3 h4 h5 h6
    rw [M.bind_ok (show height s2 = .ok s2.stack.length s2 from rfl)]
    have hset : setStackAt ((s2.stack.length : Int) - 1) clo s2 = .ok () s2 := by
      unfold setStackAt
      have e : ((s2.stack.length : Int) - 1) = ((vm.stack.length : Nat) : Int) := by rw [h1]; simp
      rw [e, if_pos ⟨by omega, by rw [h1]; simp⟩, Int.toNat_natCast]
      have : s2.stack.set vm.stack.length clo = s2.stack := by
        rw [h1, List.set_append_right _ _ (Nat.le_refl _)]
        simp
      rw [this]
    rw [hset]
    refine ⟨cell, by rw [hclo]; exact h1, h2, h3, h4, h5, al.fresh, ?_⟩
    by_cases hne : vs = []
    · subst hne
      cases hn
      refine ⟨none, ?_, by simp⟩
      rw [h6, hz rfl]
      have := al.cell
      simpa [store] using this
    · obtain ⟨blk', h7, h8⟩ := hc hne
      refine ⟨some blk', ?_, fun k pl hk => ?_⟩
      · rw [h6, ← hvl]
        simpa using h7
      · obtain ⟨c, h9, h10⟩ := h8 k pl (by simpa using hk)
        exact ⟨c, h9, denotes_heap h6 h10⟩
  cases own with
  | true =>
    exact fin s1 m1.stack (by rw [m1.height, m1.stack]; simp) m1.good m1.linked m1.ext rfl
  | false =>
    show Post U E _ ((pushUpOnly none >>= fun _ => _) s1)
    rw [M.bind_ok (show pushUpOnly none s1 = .ok () { s1 with upStack := s1.upStack ++ [none] } from rfl)]
    refine fin { s1 with upStack := s1.upStack ++ [none] } m1.stack ?_ ?_ ?_ ?_ rfl
    · show (s1.upStack ++ [none]).length = s1.stack.length
      rw [m1.stack, List.length_append, m1.height]
      simp
    · refine m1.good.stacks s1.stack (s1.upStack ++ [none]) m1.good.sound.stack (fun r hr => ?_)
      rcases List.mem_append.1 hr with hr | hr
      · exact m1.good.sound.captured r hr
      · simp at hr
    · exact linked_stacks m1.linked s1.stack (s1.upStack ++ [none]) (fun i c => append_none_iff (n := 1) i c)
    · exact m1.ext.stacks s1.stack (s1.upStack ++ [none]) (fun _ h => h) (fun _ h => List.mem_append_left _ h)

/-! ### The end of a scope -/

/-- What the release of slots does: `f` says where the variables go. -/
structure Releases (s s' : VM) (f : Place → Place) : Prop where
  good : Good s'
  linked : Linked s'
  height : s'.stack.length = s.stack.length
  upHeight : s'.upStack.length = s.upStack.length
  back : ∀ c, Traced s' c → (∃ u, s'.heap[c]? = some (.upvalue u)) →
    Traced s c ∧ ∃ u, s.heap[c]? = some (.upvalue u)
  denotes : ∀ c pl, Traced s c → Traced s' c → (∃ u, s'.heap[c]? = some (.upvalue u)) → Denotes s c pl →
    Denotes s' c (f pl)
  value : ∀ c pl, Traced s c → Traced s' c → (∃ u, s'.heap[c]? = some (.upvalue u)) → Denotes s c pl →
    contents s' (f pl) = contents s pl
  distinct : ∀ c d pl pl', Traced s c → Traced s' c → (∃ u, s'.heap[c]? = some (.upvalue u)) → Denotes s c pl →
    Traced s d → Traced s' d → (∃ u, s'.heap[d]? = some (.upvalue u)) → Denotes s d pl' → f pl = f pl' → pl = pl'
  frame : s'.callStack = s.callStack ∧ s'.upArrays = s.upArrays ∧ s'.globals = s.globals ∧
    s'.currentBytecode = s.currentBytecode ∧ s'.nextUserType = s.nextUserType

theorem Releases.refl {s : VM} (hg : Good s) (hl : Linked s) : Releases s s id :=
  ⟨hg, hl, rfl, rfl, fun _ h h' => ⟨h, h'⟩, fun _ _ _ _ _ h => h, fun _ _ _ _ _ _ => rfl,
    fun _ _ _ _ _ _ _ _ _ _ _ _ h => h, rfl, rfl, rfl, rfl, rfl⟩

theorem Releases.trans {a b c : VM} {f g : Place → Place} (h : Releases a b f) (h' : Releases b c g) :
    Releases a c (g ∘ f) := by
  refine ⟨h'.good, h'.linked, h'.height.trans h.height, h'.upHeight.trans h.upHeight, ?_, ?_, ?_, ?_, ?_⟩
  · intro x hx hu
    obtain ⟨h1, h2⟩ := h'.back x hx hu
    exact h.back x h1 h2
  · intro x pl h1 h2 h3 h4
    obtain ⟨h5, h6⟩ := h'.back x h2 h3
    exact h'.denotes x _ h5 h2 h3 (h.denotes x pl h1 h5 h6 h4)
  · intro x pl h1 h2 h3 h4
    obtain ⟨h5, h6⟩ := h'.back x h2 h3
    exact (h'.value x _ h5 h2 h3 (h.denotes x pl h1 h5 h6 h4)).trans (h.value x pl h1 h5 h6 h4)
  · intro x y pl pl' h1 h2 h3 h4 k1 k2 k3 k4 he
    obtain ⟨h5, h6⟩ := h'.back x h2 h3
    obtain ⟨k5, k6⟩ := h'.back y k2 k3
    exact h.distinct x y pl pl' h1 h5 h6 h4 k1 k5 k6 k4
      (h'.distinct x y _ _ h5 h2 h3 (h.denotes x pl h1 h5 h6 h4) k5 k2 k3 (h.denotes y pl' k1 k5 k6 k4) he)
  · obtain ⟨h1, h2, h3, h4, h5⟩ := h.frame
    obtain ⟨k1, k2, k3, k4, k5⟩ := h'.frame
    exact ⟨k1.trans h1, k2.trans h2, k3.trans h3, k4.trans h4, k5.trans h5⟩

/-- The state after the variable of slot `idx` has moved to the new cell `r`. -/
theorem releases_one {s t : VM} {idx u r : Nat} {o : Obj} (hg : Good s) (hl : Linked s)
    (hlen : s.upStack.length = s.stack.length) (hu : s.upStack[idx]? = some (some u)) (ho : s.stack[idx]? = some o)
    (al : Allocated s t r o) (hf : Finished t) :
    Releases s { t with heap := t.heap.set u (.upvalue (.heapObject (some r)))
                        stack := t.stack.set idx .nil
                        upStack := t.upStack.set idx none }
      (fun pl => if pl = .slot idx then .cell r else pl) := by
  have hcu := hl.entry idx u hu
  have htu : Traced s u := traced_up (List.mem_of_getElem? hu)
  have hou : o ∈ s.stack := List.mem_of_getElem? ho
  have hvo := hg.sound.stack o hou
  have hur : u ≠ r := fun e => al.fresh (e ▸ htu)
  have hcu' : t.heap[u]? = some (.upvalue (.stackIndex idx)) := (al.carried.heap u htu).trans hcu
  have hult := getElem?_lt hcu'
  have hstk : t.stack = s.stack := al.carried.roots.stack
  have hups : t.upStack = s.upStack := al.carried.roots.upStack
  have huf : u ∉ t.free := al.carried.free u htu (hg.sound.captured u (List.mem_of_getElem? hu)).1
  have hnou : ∀ v, o ≠ .upvalue v := value_not_upvalue hvo
  have hidx : idx < s.stack.length := getElem?_lt ho
  have hlr : Live t r .value := by
    have := al.live
    rwa [shape_value hvo] at this
  -- cells
  have hself : (t.heap.set u (Obj.upvalue (.heapObject (some r))))[u]? = some (.upvalue (.heapObject (some r))) :=
    List.getElem?_set_self hult
  have hother : ∀ c, c ≠ u → (t.heap.set u (Obj.upvalue (.heapObject (some r))))[c]? = t.heap[c]? := fun c hc =>
    List.getElem?_set_ne (Ne.symm hc)
  have hgt : Good t := ⟨al.sound, hf⟩
  have g1 : Good { t with heap := t.heap.set u (.upvalue (.heapObject (some r))) } :=
    hgt.write hcu' huf rfl ⟨r, rfl, hlr⟩ (by simp [UnderConstruction])
  generalize hs' : ({ t with heap := t.heap.set u (.upvalue (.heapObject (some r)))
                             stack := t.stack.set idx .nil
                             upStack := t.upStack.set idx none } : VM) = s'
  have hheap : s'.heap = t.heap.set u (.upvalue (.heapObject (some r))) := by rw [← hs']
  have hfree : s'.free = t.free := by rw [← hs']
  have hup' : s'.upStack = s.upStack.set idx none := by rw [← hs', ← hups]
  have hst' : s'.stack = s.stack.set idx .nil := by rw [← hs', ← hstk]
  have hroots : ∀ c, some c ∈ rootPointers s' → some c ∈ rootPointers s := by
    intro c hc
    have h1 := al.carried.roots
    rw [← hs'] at hc
    simp only [rootPointers, List.mem_append, h1.globals, h1.callStack, h1.currentBytecode, hups] at hc ⊢
    rcases hc with ((h | h) | h) | h
    · rcases List.mem_or_eq_of_mem_set h with h | h
      · exact .inl (.inl (.inl h))
      · cases h
    · exact .inl (.inl (.inr h))
    · exact .inl (.inr h)
    · exact .inr h
  have hback : ∀ c, Traced s' c → Traced s c ∨ c = r := by
    intro c hc
    induction hc with
    | @stack x c hx hm hc =>
      rw [hst'] at hx
      rcases List.mem_or_eq_of_mem_set hx with hx | hx
      · exact .inl (.stack hx hm hc)
      · subst hx
        cases hm
    | ptr h => exact .inl (.ptr (hroots _ h))
    | @step x y c _ hy hm hc ih =>
      rw [hheap] at hy
      by_cases hxu : x = u
      · subst hxu
        rw [hself] at hy
        cases hy
        cases hm
        exact .inr rfl
      · rw [hother x hxu] at hy
        rcases ih with ih | rfl
        · rw [al.carried.heap x ih] at hy
          exact .inl (.step ih hy hm hc)
        · rw [al.cell] at hy
          cases hy
          exact .inl (.stack hou hm hc)
  -- which cells stand for the slot
  have hslot : ∀ c (i : Nat), Traced s c → s.heap[c]? = some (.upvalue (.stackIndex i)) → (c = u ↔ i = idx) := by
    intro c i hc h
    constructor
    · rintro rfl
      rw [hcu] at h
      simp only [Option.some.injEq, Obj.upvalue.injEq, Upvalue.stackIndex.injEq, Int.natCast_inj] at h
      exact h.symm
    · rintro rfl
      obtain ⟨_, hlc⟩ := hc.live hg.sound
      have := (hl.cell c _ hlc.1 h).2
      rw [Int.toNat_natCast, hu] at this
      cases this
      rfl
  have hden : ∀ c pl, Traced s c → Denotes s c pl → Denotes s' c (if pl = .slot idx then .cell r else pl) := by
    intro c pl hc hd
    induction hd with
    | @slot c i h =>
      by_cases hcu2 : c = u
      · have := (hslot c i hc h).1 hcu2
        subst this hcu2
        rw [if_pos rfl]
        exact .cell (by rw [hheap]; exact hself)
      · have : i ≠ idx := fun e => hcu2 ((hslot c i hc h).2 e)
        rw [if_neg (by simpa using this)]
        exact .slot (by rw [hheap, hother c hcu2, al.carried.heap c hc]; exact h)
    | @cell c x h =>
      rw [if_neg (by simp)]
      have : c ≠ u := by
        rintro rfl
        rw [hcu] at h
        cases h
      exact .cell (by rw [hheap, hother c this, al.carried.heap c hc]; exact h)
    | @link c c' pl h hd ih =>
      have : c ≠ u := by
        rintro rfl
        rw [hcu] at h
        cases h
      exact .link (by rw [hheap, hother c this, al.carried.heap c hc]; exact h)
        (ih (.step hc h .capturedLink (by simp [UnderConstruction])))
  have hcap : ∀ c, Traced s c → (∃ v, s.heap[c]? = some (.upvalue v)) → Live s c .captured := by
    rintro c hc ⟨v, hv⟩
    obtain ⟨_, hlc⟩ := hc.live hg.sound
    exact ⟨hlc.1, _, hv, rfl⟩
  have hdup : ∀ c pl, Denotes s c pl → ∃ v, s.heap[c]? = some (.upvalue v) := by
    intro c pl hd
    cases hd with
    | slot h => exact ⟨_, h⟩
    | cell h => exact ⟨_, h⟩
    | link h => exact ⟨_, h⟩
  refine ⟨?_, ?_, ?_, ?_, ?_, ?_, ?_, ?_, ?_⟩
  · rw [← hs']
    refine g1.stacks (t.stack.set idx .nil) (t.upStack.set idx none) (fun x hx => ?_) (fun c hc => ?_)
    · rcases List.mem_or_eq_of_mem_set hx with hx | hx
      · exact g1.sound.stack x hx
      · subst hx
        trivial
    · rcases List.mem_or_eq_of_mem_set hc with hc | hc
      · exact g1.sound.captured c hc
      · cases hc
  · refine ⟨fun i c h => ?_, fun c i hcf h => ?_⟩
    · rw [hup'] at h
      have hi : i ≠ idx := by
        rintro rfl
        rw [List.getElem?_set_self (by omega)] at h
        cases h
      rw [List.getElem?_set_ne (Ne.symm hi)] at h
      have h1 := hl.entry i c h
      have htc : Traced s c := traced_up (List.mem_of_getElem? h)
      have : c ≠ u := fun e => hi ((hslot c i htc h1).1 e)
      rw [hheap, hother c this, al.carried.heap c htc]
      exact h1
    · rw [hheap] at h
      rw [hfree] at hcf
      have hcu2 : c ≠ u := by
        rintro rfl
        rw [hself] at h
        cases h
      rw [hother c hcu2] at h
      have hcr : c ≠ r := by
        rintro rfl
        rw [al.cell] at h
        cases h
        exact hnou _ rfl
      obtain ⟨h1, h2⟩ := al.others c _ hcr h hcf
      obtain ⟨h3, h4⟩ := hl.cell c i h2 h1
      refine ⟨h3, ?_⟩
      rw [hup', List.getElem?_set_ne]
      · exact h4
      · intro e
        rw [← e, hu] at h4
        cases h4
        exact hcu2 rfl
  · rw [hst', List.length_set]
  · rw [hup', List.length_set]
  · rintro c hc ⟨v, hv⟩
    rw [hheap] at hv
    by_cases hcu2 : c = u
    · subst hcu2
      exact ⟨htu, _, hcu⟩
    · rw [hother c hcu2] at hv
      rcases hback c hc with h | rfl
      · refine ⟨h, v, ?_⟩
        rw [← al.carried.heap c h]
        exact hv
      · rw [al.cell] at hv
        cases hv
        exact absurd rfl (hnou v)
  · intro c pl hc _ _ hd
    exact hden c pl hc hd
  · intro c pl hc _ _ hd
    by_cases hpl : pl = .slot idx
    · subst hpl
      rw [if_pos rfl]
      show s'.heap[r]? = s.stack[idx]?
      rw [hheap, hother r (Ne.symm hur), al.cell, ho]
    · rw [if_neg hpl]
      cases pl with
      | slot i =>
        show s'.stack[i]? = s.stack[i]?
        rw [hst', List.getElem?_set_ne]
        rintro rfl
        exact hpl rfl
      | cell x =>
        show s'.heap[x]? = s.heap[x]?
        have htx := denotes_traced hd hc rfl
        have hlx := denotes_live hg.sound hd (hcap c hc (hdup c _ hd)) rfl
        obtain ⟨ox, hox, hvx⟩ := live_value hg.sound hlx
        have : x ≠ u := by
          rintro rfl
          rw [hcu] at hox
          cases hox
          exact hvx
        rw [hheap, hother x this, al.carried.heap x htx]
  · intro c d pl pl' hc _ _ hd hc' _ _ hd' he
    by_cases h1 : pl = .slot idx
    · by_cases h2 : pl' = .slot idx
      · rw [h1, h2]
      · rw [if_pos h1, if_neg h2] at he
        exact absurd (denotes_traced hd' hc' he.symm) al.fresh
    · by_cases h2 : pl' = .slot idx
      · rw [if_neg h1, if_pos h2] at he
        exact absurd (denotes_traced hd hc he) al.fresh
      · rwa [if_neg h1, if_neg h2] at he
  · rw [← hs']
    have h1 := al.carried.roots
    exact ⟨h1.callStack, h1.upArrays, h1.globals, h1.currentBytecode, h1.nextUserType⟩

/-- Slots `is` are released. -/
structure ReleasedSlots (s s' : VM) (f : Place → Place) (is : List Nat) : Prop extends Releases s s' f where
  released : ∀ i ∈ is, s'.upStack[i]? = some none
  others : ∀ i, i ∉ is → s'.upStack[i]? = s.upStack[i]? ∧ s'.stack[i]? = s.stack[i]?
  uncaptured : ∀ i : Nat, s.upStack[i]? = some none → s'.upStack[i]? = some none ∧ s'.stack[i]? = s.stack[i]?
  stays : ∀ pl, (∀ i ∈ is, pl ≠ .slot i) → f pl = pl

theorem releasedSlots_nil {s : VM} (hg : Good s) (hl : Linked s) : ReleasedSlots s s id [] :=
  ⟨.refl hg hl, by simp, fun _ _ => ⟨rfl, rfl⟩, fun _ h => ⟨h, rfl⟩, fun _ _ => rfl⟩

theorem post_release1 {s : VM} {a : Nat} (hg : Good s) (hl : Linked s) (hlen : s.upStack.length = s.stack.length)
    (ha : 0 < a) (ha' : a ≤ s.stack.length)
    (hE : ∀ s', Releases s s' id → E .outOfMemory s') :
    Post U E (fun b s' => b = true ∧ ∃ f, ReleasedSlots s s' f [s.stack.length - a]) (release1 a s) := by
  unfold release1
  rw [M.bind_ok (show M.get s = .ok s s from rfl), if_neg (by omega)]
  generalize hi : s.stack.length - a = idx
  have hidx : idx < s.stack.length := by omega
  rw [List.getElem?_eq_getElem (show idx < s.upStack.length by omega),
    M.bind_ok (show M.need (some _) s = .ok _ s from rfl)]
  have hget : s.upStack[idx]? = some (s.upStack[idx]'(by omega)) := List.getElem?_eq_getElem (by omega)
  cases hu : s.upStack[idx]'(by omega) with
  | none =>
    rw [hu] at hget
    refine ⟨rfl, id, .refl hg hl, ?_, fun _ _ => ⟨rfl, rfl⟩, fun _ h => ⟨h, rfl⟩, fun _ _ => rfl⟩
    intro i hi
    simp at hi
    subst hi
    exact hget
  | some u =>
    rw [hu] at hget
    have hcu := hl.entry idx u hget
    dsimp only
    rw [M.bind_ok (readCell_some hcu)]
    have hst : s.stack[idx]? = some s.stack[idx] := List.getElem?_eq_getElem hidx
    generalize s.stack[idx] = o at hst
    have hmem := List.mem_of_getElem? hst
    have hat : stackAt idx s = .ok o s := by
      unfold stackAt
      rw [if_pos (by omega), Int.toNat_natCast, hst]
      rfl
    dsimp only
    rw [M.bind_ok hat]
    refine Post.bind (Q := fun r t => Allocated s t r o ∧ Finished t) ?_ ?_
    · refine (post_alloc hg.sound (hg.sound.stack o hmem) (pinned_stack hg.sound hmem) (fun s' h1 h2 h3 => ?_)).imp ?_
      · have hk : ∀ r, Traced s r → s'.heap[r]? = s.heap[r]? := h2.heap
        have hback : ∀ c, Traced s' c → Traced s c := by
          intro c hc
          induction hc with
          | stack ho hm hc => exact .stack (by rw [← h2.roots.stack]; exact ho) hm hc
          | ptr h => exact .ptr (by rw [← sameRoots_pointers h2.roots]; exact h)
          | step _ ho hm hc ih => exact .step ih (by rw [← hk _ ih]; exact ho) hm hc
        refine hE s' ⟨⟨h1, h3.finished hg.finished⟩, ⟨fun i c h => ?_, fun c i hf h => ?_⟩, by rw [h2.roots.stack],
          by rw [h2.roots.upStack], ?_, ?_, ?_, fun _ _ _ _ _ _ _ _ _ _ _ _ h => h, h2.roots.callStack,
          h2.roots.upArrays, h2.roots.globals, h2.roots.currentBytecode, h2.roots.nextUserType⟩
        · rw [h2.roots.upStack] at h
          rw [hk c (traced_up (List.mem_of_getElem? h))]
          exact hl.entry i c h
        · obtain ⟨h4, h5⟩ := h3 c _ h hf
          rw [h2.roots.upStack]
          exact hl.cell c i h5 h4
        · rintro c hc ⟨v, hv⟩
          exact ⟨hback c hc, v, by rw [← hk c (hback c hc)]; exact hv⟩
        · intro c pl hc _ _ hd
          exact denotes_keeps hk hd hc
        · intro c pl hc _ _ hd
          cases pl with
          | slot i =>
            show s'.stack[i]? = s.stack[i]?
            rw [h2.roots.stack]
          | cell x => exact hk x (denotes_traced hd hc rfl)
      · rintro r t ⟨h1, h2⟩
        exact ⟨h1, h2 hg.finished⟩
    rintro r t ⟨al, hf⟩
    have hlt : u < t.heap.length := by rw [al.carried.length]; exact getElem?_lt hcu
    rw [M.bind_ok (show writeCell u (.upvalue (.heapObject (some r))) t =
      .ok () { t with heap := t.heap.set u (.upvalue (.heapObject (some r))) } by
        unfold writeCell
        rw [if_pos hlt])]
    have hset : setStackAt idx .nil { t with heap := t.heap.set u (.upvalue (.heapObject (some r))) } =
        .ok () { t with heap := t.heap.set u (.upvalue (.heapObject (some r))), stack := t.stack.set idx .nil } := by
      unfold setStackAt
      rw [if_pos ⟨by omega, by
        show _ < t.stack.length
        rw [al.carried.roots.stack]
        exact hidx⟩]
      rfl
    rw [M.bind_ok hset]
    have hrel := releases_one hg hl hlen hget hst al hf
    have hstk : t.stack = s.stack := al.carried.roots.stack
    have hups : t.upStack = s.upStack := al.carried.roots.upStack
    refine ⟨rfl, _, hrel, ?_, ?_, ?_, ?_⟩
    · intro i hi
      simp at hi
      subst hi
      show (t.upStack.set i none)[i]? = _
      rw [hups, List.getElem?_set_self (by omega)]
    · intro i hi
      have : idx ≠ i := by simpa [eq_comm] using hi
      constructor
      · show (t.upStack.set idx none)[i]? = _
        rw [hups, List.getElem?_set_ne this]
      · show (t.stack.set idx .nil)[i]? = _
        rw [hstk, List.getElem?_set_ne this]
    · intro i hi
      have : idx ≠ i := by
        rintro rfl
        rw [hget] at hi
        cases hi
      constructor
      · show (t.upStack.set idx none)[i]? = _
        rw [hups, List.getElem?_set_ne this]
        exact hi
      · show (t.stack.set idx .nil)[i]? = _
        rw [hstk, List.getElem?_set_ne this]
    · intro pl hpl
      exact if_neg (hpl idx (by simp))

theorem post_releaseUpvalues (as : List Nat) : ∀ {s : VM}, Good s → Linked s →
    s.upStack.length = s.stack.length → (∀ a ∈ as, 0 < a ∧ a ≤ s.stack.length) →
    (∀ s' f, Releases s s' f → E .outOfMemory s') →
    Post U E (fun _ s' => ∃ f, ReleasedSlots s s' f (as.map fun a => s.stack.length - a)) (iReleaseUpvalues as s) := by
  induction as with
  | nil =>
    intro s hg hl _ _ _
    exact ⟨id, releasedSlots_nil hg hl⟩
  | cons a as ih =>
    intro s hg hl hlen has hE
    unfold iReleaseUpvalues
    refine Post.bind (post_release1 hg hl hlen (has a (by simp)).1 (has a (by simp)).2 (fun s' h => hE s' _ h)) ?_
    rintro b s1 ⟨rfl, f, h1⟩
    rw [if_pos rfl]
    refine (ih h1.good h1.linked (by rw [h1.upHeight, h1.height, hlen]) (fun x hx => ?_)
      (fun s' g hg' => hE s' _ (h1.toReleases.trans hg'))).imp ?_
    · rw [h1.height]
      exact has x (by simp [hx])
    · rintro _ s2 ⟨g, h2⟩
      rw [h1.height] at h2
      refine ⟨g ∘ f, h1.toReleases.trans h2.toReleases, ?_, ?_, ?_, ?_⟩
      · intro i hi
        simp only [List.map_cons, List.mem_cons] at hi
        by_cases hi2 : i ∈ as.map fun a => s.stack.length - a
        · exact h2.released i hi2
        · rcases hi with rfl | hi
          · exact (h2.uncaptured _ (h1.released _ (by simp))).1
          · exact absurd hi hi2
      · intro i hi
        simp only [List.map_cons, List.mem_cons, not_or] at hi
        obtain ⟨e1, e2⟩ := h1.others i (by simpa using hi.1)
        obtain ⟨e3, e4⟩ := h2.others i hi.2
        exact ⟨e3.trans e1, e4.trans e2⟩
      · intro i hi
        obtain ⟨e1, e2⟩ := h1.uncaptured i hi
        obtain ⟨e3, e4⟩ := h2.uncaptured i e1
        exact ⟨e3, e4.trans e2⟩
      · intro pl hpl
        simp only [List.map_cons, List.mem_cons, forall_eq_or_imp] at hpl
        have e1 := h1.stays pl (by simpa using hpl.1)
        show g (f pl) = pl
        rw [e1]
        exact h2.stays pl hpl.2

end DuckLisp.VM
