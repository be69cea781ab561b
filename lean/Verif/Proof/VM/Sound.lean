import Verif.Proof.VM.Heap
import Verif.Spec.Sound

/-!
# Collection and allocation keep the memory in order
-/

namespace DuckLisp.VM

open DuckLisp DuckLisp.Spec

set_option linter.unusedSectionVars false

variable [Entries]

/-- All references of an object lead to cells the collector traces. -/
def Pinned (vm : VM) (o : Obj) : Prop := ∀ r, Mentions o r → Traced vm r

theorem Live.lt {vm : VM} {r : Ref} {s : Shape} (h : Live vm r s) : r < vm.heap.length := by
  obtain ⟨-, o, ho, -⟩ := h
  exact getElem?_lt ho

theorem LiveCode.imp {vm vm' : VM} {r : Ref} (h : LiveCode vm r) (hl : ∀ s, Live vm r s → Live vm' r s) :
    LiveCode vm' r := h.imp fun _ h => hl _ h

theorem valueOk_settled {vm : VM} {o : Obj} (h : ValueOk vm o) : ¬ UnderConstruction o := by
  cases o <;> simp_all [UnderConstruction, ValueOk]

/-- Every reference in a value that is in order leads to a cell in use. -/
theorem valueOk_mentions {vm : VM} {o : Obj} {r : Ref} (h : ValueOk vm o) (hm : Mentions o r) :
    ∃ s, Live vm r s := by
  cases hm with
  | code => obtain ⟨b, u, n, hb, -, ⟨_, hl, -⟩, -⟩ := h; cases hb; exact ⟨_, hl⟩
  | captured => obtain ⟨b, u, n, -, hb, -, hl⟩ := h; cases hb; exact ⟨_, hl⟩
  | vector => obtain ⟨c, hl, -⟩ := h; exact ⟨_, hl⟩
  | string => obtain ⟨-, -, n, -, hl⟩ := h; exact ⟨_, hl⟩
  | symbol => obtain ⟨n, hl⟩ := h; exact ⟨_, hl⟩
  | composite => obtain ⟨r, hr, hl⟩ := h; cases hr; exact ⟨_, hl⟩
  | list => exact ⟨_, h⟩
  | user hm => exact h _ hm
  | _ => simp [ValueOk] at h

theorem valueOk_of_cell {vm : VM} {o : Obj} (h : CellOk vm o) (hs : shape o = .value) :
    ValueOk vm o := by
  cases o <;> simp_all [shape, CellOk]

theorem cellOk_of_valueOk {vm : VM} {o : Obj} (h : ValueOk vm o) : CellOk vm o := by
  cases o <;> first | exact h | exact absurd h (by simp [ValueOk])

theorem cellOk_mentions {vm : VM} {o : Obj} {r : Ref} (h : CellOk vm o) (hm : Mentions o r)
    (hc : ¬ UnderConstruction o) : ∃ s, Live vm r s := by
  cases hm with
  | car => rcases h.1 with h | h <;> exact ⟨_, h⟩
  | cdr => rcases h.2 with h | h <;> exact ⟨_, h⟩
  | capturedCell => obtain ⟨r, hr, hl⟩ := h; cases hr; exact ⟨_, hl⟩
  | capturedLink => exact ⟨_, h _ rfl⟩
  | capturedArray hi hg => exact ⟨_, h.2 _ (by simpa using List.mem_of_getElem? hg)⟩
  | @element slots n init i r hi hg =>
    obtain ⟨-, -, h⟩ := h
    obtain ⟨r', h', hl⟩ := h (by simpa [UnderConstruction] using hc) i hi
    simp at h'
    rw [h'] at hg; cases hg
    exact ⟨_, hl⟩
  | compositeValue => exact ⟨_, h.1 _ rfl⟩
  | compositeFunction => exact ⟨_, h.2 _ rfl⟩
  | code => exact valueOk_mentions (valueOk_of_cell h rfl) .code
  | captured => exact valueOk_mentions (valueOk_of_cell h rfl) .captured
  | vector => exact valueOk_mentions (valueOk_of_cell h rfl) .vector
  | string => exact valueOk_mentions (valueOk_of_cell h rfl) .string
  | symbol => exact valueOk_mentions (valueOk_of_cell h rfl) .symbol
  | composite => exact valueOk_mentions (valueOk_of_cell h rfl) .composite
  | list => exact valueOk_mentions (valueOk_of_cell h rfl) .list
  | user hm => exact valueOk_mentions (valueOk_of_cell h rfl) (.user hm)

/-- What a value that is in order needs of the machine: the kind of the cells it refers to. -/
theorem valueOk_congr {vm vm' : VM} {o : Obj} (h : ValueOk vm o)
    (hl : ∀ r s, Mentions o r → Live vm r s → Live vm' r s) : ValueOk vm' o := by
  cases o with
  | string p off len =>
    cases p with
    | none => exact h
    | some r => obtain ⟨h1, h2, n, h3, h4⟩ := h; exact ⟨h1, h2, n, h3, hl _ _ .string h4⟩
  | list p =>
    cases p with
    | none => exact h
    | some r => exact hl _ _ .list h
  | symbol id p =>
    cases p with
    | none => exact h
    | some r => obtain ⟨n, h⟩ := h; exact ⟨n, hl _ _ .symbol h⟩
  | closure nm c u ar v =>
    obtain ⟨b, u', n, rfl, rfl, ⟨blk, h1, h3⟩, h2⟩ := h
    exact ⟨b, u', n, rfl, rfl, ⟨blk, hl _ _ .code h1, h3⟩, hl _ _ .captured h2⟩
  | vector p off =>
    cases p with
    | none => exact h
    | some r => obtain ⟨c, h1, h2⟩ := h; exact ⟨c, hl _ _ .vector h1, h2⟩
  | composite c => obtain ⟨r, rfl, h⟩ := h; exact ⟨r, rfl, hl _ _ .composite h⟩
  | user d ms b =>
    intro r hr
    obtain ⟨s, hs⟩ := h r hr
    exact ⟨s, hl _ _ (.user hr) hs⟩
  | _ => exact h

theorem partOk_congr {vm vm' : VM} {p : Option Ref} (h : PartOk vm p)
    (hl : ∀ r s, p = some r → Live vm r s → Live vm' r s) : PartOk vm' p := by
  cases p with
  | none => exact h
  | some r => exact h.imp (hl _ _ rfl) (hl _ _ rfl)

theorem cellOk_congr {vm vm' : VM} {o : Obj} (h : CellOk vm o)
    (hl : ¬ UnderConstruction o → ∀ r s, Mentions o r → Live vm r s → Live vm' r s) :
    CellOk vm' o := by
  cases o with
  | cons a d =>
    have hl := hl (by simp [UnderConstruction])
    exact ⟨partOk_congr h.1 (fun r s hp => hl r s (by subst hp; exact .car)),
      partOk_congr h.2 (fun r s hp => hl r s (by subst hp; exact .cdr))⟩
  | upvalue u =>
    have hl := hl (by simp [UnderConstruction])
    cases u with
    | stackIndex i => exact h
    | heapObject o => obtain ⟨r, rfl, h⟩ := h; exact ⟨r, rfl, hl _ _ .capturedCell h⟩
    | heapUpvalue u => intro r hr; subst hr; exact hl _ _ .capturedLink (h _ rfl)
  | upvalueArray b n =>
    have hl := hl (by simp [UnderConstruction])
    refine ⟨h.1, fun r hr => hl _ _ ?_ (h.2 r hr)⟩
    cases b with
    | none => simp at hr
    | some b =>
      simp at hr
      obtain ⟨i, hi⟩ := List.getElem?_of_mem hr
      have := getElem?_lt hi
      have h1 := h.1
      simp at h1
      exact .capturedArray (by omega) hi
  | internalVector vs n init =>
    refine ⟨h.1, h.2.1, ?_⟩
    rintro rfl i hi
    obtain ⟨r, hr, hv⟩ := h.2.2 rfl i hi
    refine ⟨r, hr, hl (by simp [UnderConstruction]) _ _ ?_ hv⟩
    cases vs with
    | none => simp at hr
    | some slots => exact .element hi (by simpa using hr)
  | bytecode b n => exact h
  | internalString v n => exact h
  | internalComposite t v f =>
    have hl := hl (by simp [UnderConstruction])
    exact ⟨fun r hr => by subst hr; exact hl _ _ .compositeValue (h.1 _ rfl),
      fun r hr => by subst hr; exact hl _ _ .compositeFunction (h.2 _ rfl)⟩
  | string p off len => exact cellOk_of_valueOk (valueOk_congr (valueOk_of_cell h rfl) (hl (by simp [UnderConstruction])))
  | list p => exact cellOk_of_valueOk (valueOk_congr (valueOk_of_cell h rfl) (hl (by simp [UnderConstruction])))
  | symbol id p => exact cellOk_of_valueOk (valueOk_congr (valueOk_of_cell h rfl) (hl (by simp [UnderConstruction])))
  | closure nm c u ar v => exact cellOk_of_valueOk (valueOk_congr (valueOk_of_cell h rfl) (hl (by simp [UnderConstruction])))
  | vector p off => exact cellOk_of_valueOk (valueOk_congr (valueOk_of_cell h rfl) (hl (by simp [UnderConstruction])))
  | composite c => exact cellOk_of_valueOk (valueOk_congr (valueOk_of_cell h rfl) (hl (by simp [UnderConstruction])))
  | user d ms b => exact cellOk_of_valueOk (valueOk_congr (valueOk_of_cell h rfl) (hl (by simp [UnderConstruction])))
  | none => exact h
  | bool b => exact h
  | integer i => exact h
  | float x => exact h
  | function f => exact h
  | type t => exact h

theorem shape_value {vm : VM} {o : Obj} (h : ValueOk vm o) : shape o = .value := by
  cases o <;> simp_all [shape, ValueOk]

/-! ### What is kept -/

theorem Traced.marked {vm : VM} {r : Ref} {u : List Bool} (h : Traced vm r)
    (hu : markAll vm = some u) : u[r]? = some true := by
  obtain ⟨-, h2, -, h4, h4', h5⟩ := markAll_spec hu
  induction h with
  | stack ho hm hc =>
    obtain ⟨cs, hcs⟩ := h4' _ ho
    exact h4 _ cs _ ho hcs (children_complete hcs hm hc)
  | ptr h => exact h5 _ h
  | step _ ho hm hc ih =>
    obtain ⟨o', cs, ho', hcs, hall⟩ := h2 _ ih
    rw [ho] at ho'; cases ho'
    exact hall _ (children_complete hcs hm hc)

theorem pinned_stack {vm : VM} {o : Obj} (hs : Sound vm) (ho : o ∈ vm.stack) : Pinned vm o :=
  fun _ hm => .stack ho hm (valueOk_settled (hs.stack o ho))

theorem traced_up {vm : VM} {r : Ref} (h : some r ∈ vm.upStack) : Traced vm r :=
  .ptr (by simp [rootPointers, h])

theorem traced_global {vm : VM} {k : Int} {r : Ref} (h : (k, some r) ∈ vm.globals) :
    Traced vm r := by
  refine .ptr ?_
  simp only [rootPointers, List.mem_append, List.mem_map]
  exact .inl (.inl (.inr ⟨_, h, rfl⟩))

theorem traced_frame {vm : VM} {f : Frame} {r : Ref} (hf : f ∈ vm.callStack)
    (h : f.bytecode = some r) : Traced vm r := by
  refine .ptr ?_
  simp only [rootPointers, List.mem_append, List.mem_map]
  exact .inl (.inr ⟨_, hf, h⟩)

theorem traced_running {vm : VM} {r : Ref} (h : vm.currentBytecode = some r) : Traced vm r :=
  .ptr (by simp [rootPointers, h])

theorem root_live {vm : VM} {r : Ref} (hs : Sound vm) (h : Root vm r) : ∃ s, Live vm r s := by
  cases h with
  | stack ho hm => exact valueOk_mentions (hs.stack _ ho) hm
  | captured h => exact ⟨_, hs.captured _ h⟩
  | global h => exact ⟨_, hs.globals _ _ h⟩
  | pending hf h => exact (hs.frames _ hf _ h).elim fun _ h => ⟨_, h⟩
  | running h => exact (hs.running _ h).elim fun _ h => ⟨_, h⟩

theorem Traced.live {vm : VM} {r : Ref} (hs : Sound vm) (h : Traced vm r) : ∃ s, Live vm r s := by
  induction h with
  | stack ho hm hc => exact root_live hs (.stack ho hm)
  | ptr h => exact root_live hs (mem_rootPointers h)
  | step _ ho hm hc ih =>
    obtain ⟨s, hl⟩ := ih
    exact cellOk_mentions (hs.cells _ _ ho hl.1) hm hc

/-- In a machine without half-built vectors the collector traces all that can be reached. -/
theorem traced_of_reachable {vm : VM} {r : Ref} (hs : Sound vm) (hf : Finished vm)
    (h : Reachable vm r) : Traced vm r := by
  induction h with
  | root h =>
    cases h with
    | stack ho hm => exact pinned_stack hs ho _ hm
    | captured h => exact traced_up h
    | global h => exact traced_global h
    | pending hf h => exact traced_frame hf h
    | running h => exact traced_running h
  | step _ ho hm ih =>
    obtain ⟨s, hl⟩ := ih.live hs
    exact .step ih ho hm (hf _ _ ho hl.1)

/-! ### Collection -/

/-- Two states with the same roots. -/
structure SameRoots (vm vm' : VM) : Prop where
  stack : vm'.stack = vm.stack
  upStack : vm'.upStack = vm.upStack
  callStack : vm'.callStack = vm.callStack
  upArrays : vm'.upArrays = vm.upArrays
  globals : vm'.globals = vm.globals
  currentBytecode : vm'.currentBytecode = vm.currentBytecode
  nextUserType : vm'.nextUserType = vm.nextUserType

theorem SameRoots.refl (vm : VM) : SameRoots vm vm := ⟨rfl, rfl, rfl, rfl, rfl, rfl, rfl⟩

theorem SameRoots.trans {a b c : VM} (h : SameRoots a b) (h' : SameRoots b c) : SameRoots a c :=
  ⟨h'.stack.trans h.stack, h'.upStack.trans h.upStack, h'.callStack.trans h.callStack,
   h'.upArrays.trans h.upArrays, h'.globals.trans h.globals,
   h'.currentBytecode.trans h.currentBytecode, h'.nextUserType.trans h.nextUserType⟩

theorem sameRoots_pointers {a b : VM} (h : SameRoots a b) : rootPointers b = rootPointers a := by
  simp [rootPointers, h.upStack, h.globals, h.callStack, h.currentBytecode]

/-- Every traced cell of `vm` is in use in `vm'` with the same contents. -/
structure Carried (vm vm' : VM) : Prop where
  roots : SameRoots vm vm'
  length : vm'.heap.length = vm.heap.length
  heap : ∀ r, Traced vm r → vm'.heap[r]? = vm.heap[r]?
  free : ∀ r, Traced vm r → r ∉ vm.free → r ∉ vm'.free

theorem Carried.refl (vm : VM) : Carried vm vm :=
  ⟨.refl vm, rfl, fun _ _ => rfl, fun _ _ h => h⟩

theorem Carried.traced {vm vm' : VM} (c : Carried vm vm') {r : Ref} (h : Traced vm r) :
    Traced vm' r := by
  induction h with
  | stack ho hm hc => exact .stack (by rw [c.roots.stack]; exact ho) hm hc
  | ptr h => exact .ptr (by rw [sameRoots_pointers c.roots]; exact h)
  | step h ho hm hc ih => exact .step ih (by rw [c.heap _ h]; exact ho) hm hc

theorem Carried.trans {a b c : VM} (h : Carried a b) (h' : Carried b c) : Carried a c :=
  ⟨h.roots.trans h'.roots, h'.length.trans h.length,
   fun r hr => (h'.heap r (h.traced hr)).trans (h.heap r hr),
   fun r hr hf => h'.free r (h.traced hr) (h.free r hr hf)⟩

theorem Carried.live {vm vm' : VM} (c : Carried vm vm') {r : Ref} {s : Shape} (h : Traced vm r)
    (hl : Live vm r s) : Live vm' r s := by
  obtain ⟨hf, o, ho, hs⟩ := hl
  exact ⟨c.free r h hf, o, by rw [c.heap r h]; exact ho, hs⟩

theorem Carried.pinned {vm vm' : VM} (c : Carried vm vm') {o : Obj} (h : Pinned vm o) :
    Pinned vm' o := fun r hm => c.traced (h r hm)

theorem Carried.valueOk {vm vm' : VM} (c : Carried vm vm') {o : Obj} (h : Pinned vm o)
    (hv : ValueOk vm o) : ValueOk vm' o :=
  valueOk_congr hv (fun r _ hm => c.live (h r hm))

/-- `vm'` has at least the roots of `vm`, and every cell that `vm` traces is in use with the same
contents. -/
structure Keeps (vm vm' : VM) : Prop where
  stack : ∀ o ∈ vm.stack, o ∈ vm'.stack
  roots : ∀ r, some r ∈ rootPointers vm → some r ∈ rootPointers vm'
  length : vm'.heap.length = vm.heap.length
  heap : ∀ r, Traced vm r → vm'.heap[r]? = vm.heap[r]?
  free : ∀ r, Traced vm r → r ∉ vm.free → r ∉ vm'.free

theorem Carried.keeps {vm vm' : VM} (c : Carried vm vm') : Keeps vm vm' :=
  ⟨fun o ho => by rw [c.roots.stack]; exact ho,
   fun r hr => by rw [sameRoots_pointers c.roots]; exact hr, c.length, c.heap, c.free⟩

theorem Keeps.refl (vm : VM) : Keeps vm vm := (Carried.refl vm).keeps

theorem Keeps.traced {vm vm' : VM} (c : Keeps vm vm') {r : Ref} (h : Traced vm r) :
    Traced vm' r := by
  induction h with
  | stack ho hm hc => exact .stack (c.stack _ ho) hm hc
  | ptr h => exact .ptr (c.roots _ h)
  | step h ho hm hc ih => exact .step ih (by rw [c.heap _ h]; exact ho) hm hc

theorem Keeps.trans {a b c : VM} (h : Keeps a b) (h' : Keeps b c) : Keeps a c :=
  ⟨fun o ho => h'.stack o (h.stack o ho), fun r hr => h'.roots r (h.roots r hr),
   h'.length.trans h.length,
   fun r hr => (h'.heap r (h.traced hr)).trans (h.heap r hr),
   fun r hr hf => h'.free r (h.traced hr) (h.free r hr hf)⟩

theorem Keeps.live {vm vm' : VM} (c : Keeps vm vm') {r : Ref} {s : Shape} (h : Traced vm r)
    (hl : Live vm r s) : Live vm' r s := by
  obtain ⟨hf, o, ho, hs⟩ := hl
  exact ⟨c.free r h hf, o, by rw [c.heap r h]; exact ho, hs⟩

theorem Keeps.pinned {vm vm' : VM} (c : Keeps vm vm') {o : Obj} (h : Pinned vm o) :
    Pinned vm' o := fun r hm => c.traced (h r hm)

theorem Keeps.valueOk {vm vm' : VM} (c : Keeps vm vm') {o : Obj} (h : Pinned vm o)
    (hv : ValueOk vm o) : ValueOk vm' o :=
  valueOk_congr hv (fun r _ hm => c.live (h r hm))

/-- Writing to a cell that was not traced at the start does not matter. -/
theorem Keeps.write {vm vm' : VM} (c : Keeps vm vm') {r : Ref} (o : Obj) (h : ¬ Traced vm r) :
    Keeps vm { vm' with heap := vm'.heap.set r o } :=
  ⟨c.stack, c.roots, by simpa using c.length,
   fun r' hr' => by
    have : r ≠ r' := fun e => h (e ▸ hr')
    show (vm'.heap.set r o)[r']? = _
    rw [List.getElem?_set_ne this]; exact c.heap r' hr',
   c.free⟩

/-- More roots do not matter. -/
theorem Keeps.more {vm vm' : VM} (c : Keeps vm vm') (st : List Obj) (up : List (Option Ref))
    (hst : ∀ o ∈ vm'.stack, o ∈ st) (hup : ∀ r, some r ∈ vm'.upStack → some r ∈ up) :
    Keeps vm { vm' with stack := st, upStack := up } :=
  ⟨fun o ho => hst o (c.stack o ho),
   fun r hr => by
    have := c.roots r hr
    simp only [rootPointers, List.mem_append] at this ⊢
    rcases this with ((h | h) | h) | h
    · exact .inl (.inl (.inl (hup r h)))
    · exact .inl (.inl (.inr h))
    · exact .inl (.inr h)
    · exact .inr h,
   c.length, c.heap, c.free⟩

/-- Every cell in use in `vm'` was in use in `vm` with the same contents. -/
def Back (vm vm' : VM) : Prop :=
  ∀ r o, vm'.heap[r]? = some o → r ∉ vm'.free → vm.heap[r]? = some o ∧ r ∉ vm.free

theorem Back.finished {vm vm' : VM} (h : Back vm vm') (hf : Finished vm) : Finished vm' :=
  fun r o ho hfr => hf r o (h r o ho hfr).1 (h r o ho hfr).2

theorem collect_carried {vm vm' : VM} (h : garbageCollect vm = .ok () vm') (hs : Sound vm) :
    Sound vm' ∧ Carried vm vm' ∧ Back vm vm' := by
  obtain ⟨u, hu, -⟩ := garbageCollect_eq h
  obtain ⟨h1, h2, h3, h4⟩ := garbageCollect_marks hu h
  obtain ⟨s1, s2, s3, s4, s5, s6, s7, -⟩ := garbageCollect_same h
  obtain ⟨m1, m2, m3, -⟩ := markAll_spec hu
  have hnf : ∀ r : Nat, u[r]? = some true → r ∉ vm'.free := fun r hr hf => ((h3 r).mp hf).2 hr
  have hheap : ∀ r : Nat, u[r]? = some true → vm'.heap[r]? = vm.heap[r]? := by
    intro r hr
    have hlt : r < vm.heap.length := by rw [← m1]; exact getElem?_lt hr
    have ho := List.getElem?_eq_getElem hlt
    rw [h2 r _ ho, if_pos hr, ho]
  have hlive : ∀ (r : Nat) s, u[r]? = some true → Live vm r s → Live vm' r s := by
    rintro r s hr ⟨-, o, ho, hsh⟩
    exact ⟨hnf r hr, o, by rw [hheap r hr]; exact ho, hsh⟩
  have hroot : ∀ (r : Nat) s, Traced vm r → Live vm r s → Live vm' r s :=
    fun r s ht => hlive r s (ht.marked hu)
  -- a cell in use afterwards was marked
  have hmarked : ∀ (r : Nat) o, vm'.heap[r]? = some o → r ∉ vm'.free →
      u[r]? = some true ∧ vm.heap[r]? = some o := by
    intro r o ho hf
    have hlt : r < vm.heap.length := by rw [← h1]; exact getElem?_lt ho
    have hm : u[r]? = some true := by
      by_cases hm : u[r]? = some true
      · exact hm
      · exact absurd ((h3 r).mpr ⟨hlt, hm⟩) hf
    exact ⟨hm, by rw [← hheap r hm]; exact ho⟩
  have hmlive : ∀ r : Nat, u[r]? = some true → ∃ s, Live vm r s := by
    intro r hr
    exact (m3 r hr).live hs
  refine ⟨⟨h4, ?_, ?_, ?_, ?_, ?_, ?_, ?_, ?_, ?_⟩, ⟨⟨s1, s2, s3, s4, s5, s6, s7⟩, h1, ?_, ?_⟩, ?_⟩
  · intro r hr; rw [h1]; exact ((h3 r).mp hr).1
  · intro r hr o ho
    obtain ⟨hlt, hm⟩ := (h3 r).mp hr
    have := h2 r _ (List.getElem?_eq_getElem hlt)
    rw [if_neg hm] at this
    rw [this] at ho
    cases ho
    generalize vm.heap[r] = o
    cases o <;> simp [release, OwnsBlock]
    case internalVector vs n init => cases init <;> simp
  · rw [h1]; exact hs.heap_size
  · intro o ho
    rw [s1] at ho
    exact valueOk_congr (hs.stack o ho) (fun r s hm => hroot r s (pinned_stack hs ho r hm))
  · intro r hr
    rw [s2] at hr
    exact hroot _ _ (traced_up hr) (hs.captured r hr)
  · intro k r hr
    rw [s5] at hr
    exact hroot _ _ (traced_global hr) (hs.globals k r hr)
  · intro f hf r hr
    rw [s3] at hf
    exact (hs.frames f hf r hr).imp fun _ => hroot _ _ (traced_frame hf hr)
  · intro r hr
    rw [s6] at hr
    exact (hs.running r hr).imp fun _ => hroot _ _ (traced_running hr)
  · intro r o ho hf
    obtain ⟨hm, ho'⟩ := hmarked r o ho hf
    obtain ⟨s, hl⟩ := hmlive r hm
    refine cellOk_congr (hs.cells r o ho' hl.1) ?_
    intro hc r' s' hmen hl'
    obtain ⟨o2, cs, ho2, hcs, hall⟩ := m2 r hm
    rw [ho'] at ho2; cases ho2
    exact hlive r' s' (hall r' (children_complete hcs hmen hc)) hl'
  · intro r hr; exact hheap r (hr.marked hu)
  · intro r hr _; exact hnf r (hr.marked hu)
  · intro r o ho hf
    obtain ⟨hm, ho'⟩ := hmarked r o ho hf
    obtain ⟨s, hl⟩ := hmlive r hm
    exact ⟨ho', hl.1⟩

/-! ### Allocation and writing -/

/-- A change of the heap under which cells in use stay in use with the same kind. -/
theorem sound_heap {vm vm' : VM} (hs : Sound vm) (hr : SameRoots vm vm')
    (hlen : vm'.heap.length = vm.heap.length)
    (hl : ∀ r s, Live vm r s → Live vm' r s)
    (hfree : ∀ r ∈ vm'.free, r ∈ vm.free) (hnd : vm'.free.Nodup)
    (hown : ∀ r ∈ vm'.free, vm'.heap[r]? = vm.heap[r]?)
    (hcells : ∀ r o, vm'.heap[r]? = some o → r ∉ vm'.free →
      (vm.heap[r]? = some o ∧ r ∉ vm.free) ∨ CellOk vm' o) : Sound vm' := by
  refine ⟨hnd, ?_, ?_, ?_, ?_, ?_, ?_, ?_, ?_, ?_⟩
  · intro r h; rw [hlen]; exact hs.free_lt r (hfree r h)
  · intro r h o ho; rw [hown r h] at ho; exact hs.free_empty r (hfree r h) o ho
  · rw [hlen]; exact hs.heap_size
  · intro o ho; rw [hr.stack] at ho; exact valueOk_congr (hs.stack o ho) (fun r s _ => hl r s)
  · intro r h; rw [hr.upStack] at h; exact hl _ _ (hs.captured r h)
  · intro k r h; rw [hr.globals] at h; exact hl _ _ (hs.globals k r h)
  · intro f hf r h; rw [hr.callStack] at hf; exact (hs.frames f hf r h).imp fun _ => hl _ _
  · intro r h; rw [hr.currentBytecode] at h; exact (hs.running r h).imp fun _ => hl _ _
  · intro r o ho hf
    rcases hcells r o ho hf with ⟨h1, h2⟩ | h
    · exact cellOk_congr (hs.cells r o h1 h2) (fun _ r s _ => hl r s)
    · exact h

/-- Result of a successful allocation. -/
structure Allocated (vm vm' : VM) (r : Ref) (o' : Obj) : Prop where
  sound : Sound vm'
  carried : Carried vm vm'
  cell : vm'.heap[r]? = some o'
  notFree : r ∉ vm'.free
  fresh : ¬ Traced vm r
  lt : r < vm.heap.length
  others : ∀ r' o, r' ≠ r → vm'.heap[r']? = some o → r' ∉ vm'.free →
    vm.heap[r']? = some o ∧ r' ∉ vm.free

theorem Allocated.keeps {vm vm' : VM} {r : Ref} {o' : Obj} (h : Allocated vm vm' r o') :
    Keeps vm vm' := h.carried.keeps

theorem Allocated.live {vm vm' : VM} {r : Ref} {o' : Obj} (h : Allocated vm vm' r o') :
    Live vm' r (shape o') := ⟨h.notFree, o', h.cell, rfl⟩

theorem alloc_ok {vm vm' : VM} {o : Obj} {r : Ref} (hs : Sound vm)
    (hc : ∀ n, CellOk vm (store n o))
    (hp : ∀ n r, ¬ UnderConstruction (store n o) → Mentions (store n o) r → Traced vm r)
    (h : pushObject o vm = .ok r vm') :
    ∃ n, Allocated vm vm' r (store n o) ∧
      (Finished vm → ¬ UnderConstruction (store n o) → Finished vm') := by
  obtain ⟨vm1, hvm1, free, hfree, rfl⟩ := pushObject_eq_ok h
  have key : Sound vm1 ∧ Carried vm vm1 ∧ Back vm vm1 ∧ ¬ Traced vm r := by
    rcases hvm1 with ⟨rfl, -⟩ | ⟨-, hg⟩
    · refine ⟨hs, .refl _, fun _ _ h1 h2 => ⟨h1, h2⟩, fun ht => ?_⟩
      obtain ⟨s, hl⟩ := ht.live hs
      exact hl.1 (by simp [hfree])
    · obtain ⟨h1, h2, h3⟩ := collect_carried hg hs
      refine ⟨h1, h2, h3, fun ht => ?_⟩
      obtain ⟨u, hu, -⟩ := garbageCollect_eq hg
      obtain ⟨-, -, h3, -⟩ := garbageCollect_marks hu hg
      exact ((h3 r).mp (by simp [hfree])).2 (ht.marked hu)
  obtain ⟨hs1, hc1, hfin, hfresh⟩ := key
  have hnd := hs1.free_nodup
  rw [hfree] at hnd
  obtain ⟨hrf, hnd'⟩ := List.nodup_cons.mp hnd
  have hrlt : r < vm1.heap.length := hs1.free_lt r (by simp [hfree])
  have hne : ∀ r', r' ∉ vm1.free → r ≠ r' := fun r' h e => h (by simp [hfree, e])
  let vm' : VM := { vm1 with heap := vm1.heap.set r (store vm1.nextSerial o), free := free, nextSerial := vm1.nextSerial + 1 }
  have hlive : ∀ r' s, Live vm1 r' s → Live vm' r' s := by
    rintro r' s ⟨hf, o', ho', hsh⟩
    refine ⟨fun h => hf (by simp [hfree]; exact .inr h), o', ?_, hsh⟩
    show (vm1.heap.set r _)[r']? = _
    rw [List.getElem?_set_ne (hne r' hf)]; exact ho'
  have hcell : CellOk vm' (store vm1.nextSerial o) := by
    refine cellOk_congr (hc vm1.nextSerial) ?_
    intro hu r' s hm hl
    exact hlive r' s (hc1.live (hp _ _ hu hm) hl)
  have hothers : ∀ r' o', r' ≠ r → vm'.heap[r']? = some o' → r' ∉ vm'.free →
      vm.heap[r']? = some o' ∧ r' ∉ vm.free := by
    intro r' o' hrr ho' hfr
    have : (vm1.heap.set r (store vm1.nextSerial o))[r']? = some o' := ho'
    rw [List.getElem?_set_ne hrr.symm] at this
    refine hfin r' o' this (fun h => ?_)
    rw [hfree] at h
    rcases List.mem_cons.mp h with h | h
    · exact hrr h
    · exact hfr h
  refine ⟨vm1.nextSerial, ⟨?_, ?_, ?_, hrf, hfresh, by rw [← hc1.length]; exact hrlt, hothers⟩, ?_⟩
  · refine sound_heap (vm := vm1) hs1 ⟨rfl, rfl, rfl, rfl, rfl, rfl, rfl⟩ (by simp) hlive ?_ hnd' ?_ ?_
    · intro r' h; simp [hfree]; exact .inr h
    · intro r' h
      have : r ≠ r' := fun e => hrf (e ▸ h)
      show (vm1.heap.set r _)[r']? = _
      rw [List.getElem?_set_ne this]
    · intro r' o' ho' hf
      by_cases hrr : r = r'
      · subst hrr
        have : (vm1.heap.set r (store vm1.nextSerial o))[r]? = some o' := ho'
        rw [List.getElem?_set_self hrlt] at this
        cases this
        exact .inr hcell
      · have : (vm1.heap.set r (store vm1.nextSerial o))[r']? = some o' := ho'
        rw [List.getElem?_set_ne hrr] at this
        refine .inl ⟨this, fun h => ?_⟩
        rw [hfree] at h
        rcases List.mem_cons.mp h with h | h
        · exact hrr h.symm
        · exact hf h
  · refine hc1.trans ⟨⟨rfl, rfl, rfl, rfl, rfl, rfl, rfl⟩, by simp, ?_, ?_⟩
    · intro r' ht
      obtain ⟨s, hl⟩ := ht.live hs1
      show (vm1.heap.set r _)[r']? = _
      rw [List.getElem?_set_ne (hne r' hl.1)]
    · intro r' _ hf h
      exact hf (by simp [hfree]; exact .inr h)
  · show (vm1.heap.set r _)[r]? = _
    rw [List.getElem?_set_self hrlt]
  · intro hf hu r' o' ho' hfr
    by_cases hrr : r = r'
    · subst hrr
      have : (vm1.heap.set r (store vm1.nextSerial o))[r]? = some o' := ho'
      rw [List.getElem?_set_self hrlt] at this
      cases this
      exact hu
    · exact hf r' o' (hothers r' o' (Ne.symm hrr) ho' hfr).1 (hothers r' o' (Ne.symm hrr) ho' hfr).2

theorem store_value {vm : VM} {o : Obj} (h : ValueOk vm o) (n : Nat) : store n o = o := by
  cases o <;> simp_all [store, ValueOk]

/-- Allocation of a copy of a value. -/
theorem alloc_value {vm vm' : VM} {o : Obj} {r : Ref} (hs : Sound vm) (hv : ValueOk vm o)
    (hp : Pinned vm o) (h : pushObject o vm = .ok r vm') :
    Allocated vm vm' r o ∧ (Finished vm → Finished vm') := by
  have hst := store_value hv
  obtain ⟨n, h1, h2⟩ := alloc_ok hs (fun n => by rw [hst]; exact cellOk_of_valueOk hv)
    (fun n r _ hm => by rw [hst] at hm; exact hp r hm) h
  rw [hst] at h1 h2
  exact ⟨h1, fun hf => h2 hf (valueOk_settled hv)⟩

/-- A failed allocation has collected. -/
theorem alloc_err {vm vm' : VM} {o : Obj} {e : DlError} (hs : Sound vm)
    (h : pushObject o vm = .err e vm') :
    e = .outOfMemory ∧ Sound vm' ∧ Carried vm vm' ∧ Back vm vm' := by
  obtain ⟨he, -, hg, -⟩ := pushObject_err h
  exact ⟨he, collect_carried hg hs⟩

/-- Overwriting a cell in use with something of the same kind. -/
theorem sound_write {vm : VM} (hs : Sound vm) {r : Ref} {o o' : Obj} (ho : vm.heap[r]? = some o)
    (hf : r ∉ vm.free) (hsh : shape o' = shape o)
    (hc : CellOk { vm with heap := vm.heap.set r o' } o') :
    Sound { vm with heap := vm.heap.set r o' } := by
  have hlt := getElem?_lt ho
  refine sound_heap hs ⟨rfl, rfl, rfl, rfl, rfl, rfl, rfl⟩ (by simp) ?_ (fun _ h => h) hs.free_nodup ?_ ?_
  · rintro r' s ⟨hf', o2, ho2, hs2⟩
    by_cases hrr : r = r'
    · subst hrr
      rw [ho] at ho2; cases ho2
      exact ⟨hf', o', by simp [hlt], by rw [hsh]; exact hs2⟩
    · refine ⟨hf', o2, ?_, hs2⟩
      show (vm.heap.set r o')[r']? = _
      rw [List.getElem?_set_ne hrr]; exact ho2
  · intro r' h
    have : r ≠ r' := fun e => hf (e ▸ h)
    show (vm.heap.set r o')[r']? = _
    rw [List.getElem?_set_ne this]
  · intro r' o2 ho2 hf'
    by_cases hrr : r = r'
    · subst hrr
      have : (vm.heap.set r o')[r]? = some o2 := ho2
      rw [List.getElem?_set_self hlt] at this
      cases this
      exact .inr hc
    · have : (vm.heap.set r o')[r']? = some o2 := ho2
      rw [List.getElem?_set_ne hrr] at this
      exact .inl ⟨this, hf'⟩

/-- Cells in use stay in use when a cell is overwritten with something of the same kind. -/
theorem live_write {vm : VM} {r : Ref} {o o' : Obj} (ho : vm.heap[r]? = some o)
    (hsh : shape o' = shape o) {r' : Ref} {s : Shape} (hl : Live vm r' s) :
    Live { vm with heap := vm.heap.set r o' } r' s := by
  have hlt := getElem?_lt ho
  obtain ⟨hf', o2, ho2, hs2⟩ := hl
  by_cases hrr : r = r'
  · subst hrr
    rw [ho] at ho2; cases ho2
    exact ⟨hf', o', by simp [hlt], by rw [hsh]; exact hs2⟩
  · refine ⟨hf', o2, ?_, hs2⟩
    show (vm.heap.set r o')[r']? = _
    rw [List.getElem?_set_ne hrr]; exact ho2

theorem finished_write {vm : VM} (h : Finished vm) {r : Ref} {o' : Obj}
    (hu : ¬ UnderConstruction o') : Finished { vm with heap := vm.heap.set r o' } := by
  intro r' o ho hf
  by_cases hrr : r = r'
  · subst hrr
    have : (vm.heap.set r o')[r]? = some o := ho
    rw [List.getElem?_set] at this
    simp at this
    obtain ⟨-, rfl⟩ := this
    exact hu
  · have : (vm.heap.set r o')[r']? = some o := ho
    rw [List.getElem?_set_ne hrr] at this
    exact h r' o this hf

/-- The stacks may change as long as what is on them is in order. -/
theorem sound_stacks {vm : VM} (hs : Sound vm) (st : List Obj) (up : List (Option Ref))
    (hst : ∀ o ∈ st, ValueOk vm o) (hup : ∀ r, some r ∈ up → Live vm r .captured) :
    Sound { vm with stack := st, upStack := up } :=
  ⟨hs.free_nodup, hs.free_lt, hs.free_empty, hs.heap_size,
   fun o ho => valueOk_congr (hst o ho) (fun _ _ _ h => h), hup, hs.globals, hs.frames, hs.running,
   fun r o ho hf => cellOk_congr (hs.cells r o ho hf) (fun _ _ _ _ h => h)⟩

end DuckLisp.VM
