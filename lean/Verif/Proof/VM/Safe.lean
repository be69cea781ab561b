import Verif.Proof.VM.Operand
import Verif.Proof.VM.Truth

/-!
# A calculus for operations on sound machines
-/

namespace DuckLisp.VM

open DuckLisp DuckLisp.Spec

set_option linter.unusedSectionVars false

variable [Entries]

/-- What is known of an outcome: `Q` if it is a success, `E` of the state an error left behind, and
`U` if the behaviour is undefined or there is no outcome. -/
def Post {α : Type} (U : Prop) (E : DlError → VM → Prop) (Q : α → VM → Prop) : Out α → Prop
  | .ok a s => Q a s
  | .err e s => E e s
  | .ub => U
  | .diverge => U

/-- An outcome that is neither undefined nor endless. -/
theorem Post.cases {α : Type} {E : DlError → VM → Prop} {Q : α → VM → Prop} {out : Out α}
    (h : Post False E Q out) :
    (∃ a s, out = .ok a s ∧ Q a s) ∨ ∃ e s, out = .err e s ∧ E e s := by
  cases out with
  | ok a s => exact .inl ⟨a, s, rfl, h⟩
  | err e s => exact .inr ⟨e, s, rfl, h⟩
  | ub => exact h.elim
  | diverge => exact h.elim

section
variable {α β : Type} {U : Prop} {E : DlError → VM → Prop}

theorem Post.mono {U' : Prop} {E' : DlError → VM → Prop} {Q Q' : α → VM → Prop} {out : Out α}
    (h : Post U E Q out) (hU : U → U') (hE : ∀ e s, E e s → E' e s) (hQ : ∀ a s, Q a s → Q' a s) :
    Post U' E' Q' out := by
  cases out <;> simp only [Post] at h ⊢
  · exact hQ _ _ h
  · exact hE _ _ h
  · exact hU h
  · exact hU h

theorem Post.imp {Q Q' : α → VM → Prop} {out : Out α}
    (h : Post U E Q out) (hQ : ∀ a s, Q a s → Q' a s) : Post U E Q' out := h.mono id (fun _ _ => id) hQ

theorem Post.bind {m : M α} {f : α → M β} {s : VM} {Q : α → VM → Prop} {R : β → VM → Prop}
    (h : Post U E Q (m s)) (hf : ∀ a s', Q a s' → Post U E R (f a s')) :
    Post U E R ((m >>= f) s) := by
  rw [M.bind_run]
  cases hm : m s <;> rw [hm] at h <;> simp only [Post] at h ⊢
  · exact hf _ _ h
  · exact h
  · exact h
  · exact h

theorem Post.pure {Q : α → VM → Prop} {a : α} {s : VM} (h : Q a s) :
    Post U E Q ((Pure.pure a : M α) s) := h

theorem Post.throw {Q : α → VM → Prop} {e : DlError} {s : VM} (h : E e s) :
    Post U E Q ((M.throw e : M α) s) := h

theorem Post.ub {Q : α → VM → Prop} {s : VM} (h : U) : Post U E Q ((M.ub : M α) s) := h

theorem Post.diverge {Q : α → VM → Prop} {s : VM} (h : U) : Post U E Q ((M.diverge : M α) s) := h

theorem Post.ok {Q : α → VM → Prop} {out : Out α} {a : α} {s : VM} (h : Post U E Q out)
    (ho : out = .ok a s) : Q a s := by subst ho; exact h

theorem Post.err {Q : α → VM → Prop} {out : Out α} {e : DlError} {s : VM} (h : Post U E Q out)
    (ho : out = .err e s) : E e s := by subst ho; exact h

end

/-! ### Collection cannot go wrong -/

theorem cellOk_children {vm : VM} {o : Obj} (h : CellOk vm o) : ∃ cs, children o = some cs := by
  cases o with
  | upvalueArray b n =>
      obtain ⟨h1, -⟩ := h
      cases b with
      | none => simp at h1; subst h1; exact ⟨_, rfl⟩
      | some blk => simp at h1; exact ⟨blk.ups.take n, by simp [children, h1]⟩
  | internalVector vs n init =>
      cases init with
      | false => exact ⟨_, rfl⟩
      | true =>
          obtain ⟨h1, -, h3⟩ := h
          refine children_isSome ⟨rfl, fun i hi => ?_⟩
          obtain ⟨r, hr, -⟩ := h3 rfl i hi
          cases vs with
          | none => simp at hr
          | some slots => exact ⟨slots, some r, rfl, hr⟩
  | _ => exact children_isSome (by simp [Intact])

theorem path_live {vm : VM} (hs : Sound vm) {r0 r : Nat} (hp : Path vm.heap r0 r) :
    ∀ s0, Live vm r0 s0 → ∃ s, Live vm r s := by
  induction hp with
  | refl => intro s0 h; exact ⟨s0, h⟩
  | head ho hm hc _ ih =>
      rintro s0 ⟨hf, o, ho', -⟩
      rw [ho] at ho'
      cases ho'
      obtain ⟨s, hl⟩ := cellOk_mentions (hs.cells _ _ ho hf) hm hc
      exact ih s hl

theorem live_children {vm : VM} (hs : Sound vm) {r : Nat} {s : Shape} (h : Live vm r s) :
    ∃ o, vm.heap[r]? = some o ∧ ∃ cs, children o = some cs := by
  obtain ⟨hf, o, ho, -⟩ := h
  exact ⟨o, ho, cellOk_children (hs.cells r o ho hf)⟩

theorem collect_total {vm : VM} (hs : Sound vm) : ∃ vm', garbageCollect vm = .ok () vm' := by
  obtain ⟨u1, hu1⟩ := markStack_isSome (heap := vm.heap) vm.stack
    (List.replicate vm.heap.length false) (by simp)
    (fun o ho => cellOk_children (cellOk_of_valueOk (hs.stack o ho)))
    (fun o r0 r ho hm hp => by
      obtain ⟨s0, h0⟩ := valueOk_mentions (hs.stack o ho) hm
      obtain ⟨s, h⟩ := path_live hs hp s0 h0
      exact live_children hs h)
  obtain ⟨u2, hu2⟩ := markPointers_isSome (heap := vm.heap) (rootPointers vm) u1
    (by have := (markStack_spec _ _ hu1 (closed_fresh _ _)).1; simpa using this)
    (fun r0 r h hp => by
      obtain ⟨s0, h0⟩ := root_live hs (mem_rootPointers h)
      obtain ⟨s, h⟩ := path_live hs hp s0 h0
      exact live_children hs h)
  have hu : markAll vm = some u2 := by simp [markAll, hu1, hu2]
  exact ⟨{ vm with heap := (sweep 0 vm.heap u2 []).1, free := (sweep 0 vm.heap u2 []).2 },
    by simp [garbageCollect, hu]⟩

theorem pushObject_total {vm : VM} (hs : Sound vm) (o : Obj) :
    (∃ r vm', pushObject o vm = .ok r vm') ∨ ∃ vm', pushObject o vm = .err .outOfMemory vm' := by
  unfold pushObject
  by_cases hf : vm.free = []
  · rw [if_pos hf]
    obtain ⟨vm', h⟩ := collect_total hs
    simp only [h]
    by_cases hf' : vm'.free = []
    · rw [if_pos hf']
      exact .inr ⟨_, rfl⟩
    · rw [if_neg hf']
      cases hf2 : vm'.free with
      | nil => exact absurd hf2 hf'
      | cons r free => exact .inl ⟨r, _, by simp only [takeFree, hf2]; rfl⟩
  · rw [if_neg hf]
    cases hf2 : vm.free with
    | nil => exact absurd hf2 hf
    | cons r free => exact .inl ⟨r, _, by simp only [takeFree, hf2]; rfl⟩

/-! ### The primitive operations -/

variable {U : Prop} {E : DlError → VM → Prop}

/-- Allocation of a value that is on the stack, or a root in another way. -/
theorem post_alloc {s : VM} (hs : Sound s) {o : Obj} (hv : ValueOk s o) (hp : Pinned s o)
    (hE : ∀ s', Sound s' → Carried s s' → Back s s' → E .outOfMemory s') :
    Post U E (fun r s' => Allocated s s' r o ∧ (Finished s → Finished s')) (pushObject o s) := by
  rcases pushObject_total hs o with ⟨r, s', h⟩ | ⟨s', h⟩
  · rw [h]; exact alloc_value hs hv hp h
  · rw [h]
    obtain ⟨-, h1, h2, h3⟩ := alloc_err hs h
    exact hE s' h1 h2 h3

/-- Allocation of anything. -/
theorem post_allocCell {s : VM} (hs : Sound s) {o : Obj}
    (hc : ∀ n, CellOk s (store n o))
    (hp : ∀ n r, ¬ UnderConstruction (store n o) → Mentions (store n o) r → Traced s r)
    (hE : ∀ s', Sound s' → Carried s s' → Back s s' → E .outOfMemory s') :
    Post U E (fun r s' => ∃ n, Allocated s s' r (store n o) ∧
      (Finished s → ¬ UnderConstruction (store n o) → Finished s')) (pushObject o s) := by
  rcases pushObject_total hs o with ⟨r, s', h⟩ | ⟨s', h⟩
  · rw [h]; exact alloc_ok hs hc hp h
  · rw [h]
    obtain ⟨-, h1, h2, h3⟩ := alloc_err hs h
    exact hE s' h1 h2 h3

theorem post_getArg {s : VM} (hE : E .invalidValue s) (a : Nat) :
    Post U E (fun o s' => s' = s ∧ operand s a = some o) (getArg a s) := by
  rw [getArg_operand]
  cases h : operand s a with
  | none => exact hE
  | some o => exact ⟨rfl, rfl⟩

theorem post_getAbs {s : VM} (hE : E .invalidValue s) (i : Int) :
    Post U E (fun o s' => s' = s ∧ o ∈ s.stack) (getAbs i s) := by
  unfold getAbs
  split
  · cases h : s.stack[i.toNat]? with
    | none => exact hE
    | some o => exact ⟨rfl, List.mem_of_getElem? h⟩
  · exact hE

theorem post_stackAt {s : VM} (hU : ¬ (0 ≤ i ∧ i.toNat < s.stack.length) → U) :
    Post U E (fun o s' => s' = s ∧ o ∈ s.stack ∧ s.stack[i.toNat]? = some o) (stackAt i s) := by
  unfold stackAt
  split
  · rename_i hi
    cases h : s.stack[i.toNat]? with
    | none =>
        refine hU (fun hc => ?_)
        rw [List.getElem?_eq_none_iff] at h
        omega
    | some o => exact ⟨rfl, List.mem_of_getElem? h, rfl⟩
  · exact hU (by omega)

theorem post_setStackAt {s : VM} {o : Obj} {Q : Unit → VM → Prop}
    (hU : ¬ (0 ≤ i ∧ i.toNat < s.stack.length) → U)
    (hQ : 0 ≤ i → i.toNat < s.stack.length → Q () { s with stack := s.stack.set i.toNat o }) :
    Post U E Q (setStackAt i o s) := by
  unfold setStackAt
  split
  · rename_i h; exact hQ h.1 h.2
  · rename_i h; exact hU h

theorem post_height {s : VM} {Q : Nat → VM → Prop} (hQ : Q s.stack.length s) :
    Post U E Q (height s) := hQ

theorem post_get {s : VM} {Q : VM → VM → Prop} (hQ : Q s s) :
    Post U E Q (M.get s) := hQ

theorem post_modify {s : VM} {f : VM → VM} {Q : Unit → VM → Prop} (hQ : Q () (f s)) :
    Post U E Q (M.modify f s) := hQ

theorem post_push {s : VM} {o : Obj} {Q : Unit → VM → Prop} (hQ : Q () (pushed s o)) :
    Post U E Q (push o s) := hQ

theorem post_readCell {s : VM} {r : Nat} (hU : s.heap.length ≤ r → U) :
    Post U E (fun o s' => s' = s ∧ s.heap[r]? = some o) (readCell r s) := by
  cases h : s.heap[r]? with
  | none => unfold readCell; rw [h]; exact hU (List.getElem?_eq_none_iff.mp h)
  | some o => rw [readCell_some h]; exact ⟨rfl, rfl⟩

theorem post_read {s : VM} {r : Nat} {o : Obj} {Q : Obj → VM → Prop} (h : s.heap[r]? = some o)
    (hQ : Q o s) : Post U E Q (readCell r s) := by
  rw [readCell_some h]; exact hQ

theorem post_write {s : VM} {r : Nat} {o : Obj} {Q : Unit → VM → Prop} (h : r < s.heap.length)
    (hQ : Q () { s with heap := s.heap.set r o }) : Post U E Q (writeCell r o s) := by
  unfold writeCell
  rw [if_pos h]
  exact hQ

theorem post_need {α : Type} {s : VM} {o : Option α} {a : α} {Q : α → VM → Prop} (h : o = some a)
    (hQ : Q a s) : Post U E Q (M.need o s) := by
  subst h; exact hQ

theorem post_ckInt {s : VM} {i : Int} {Q : Int → VM → Prop} (hU : ¬ InRange i → U) (hQ : InRange i → Q i s) :
    Post U E Q (ckInt i s) := by
  by_cases h : InRange i
  · rw [ckInt_ok h]; exact hQ h
  · rw [ckInt_ub h]; exact hU h

/-! ### Good states -/

theorem _root_.DuckLisp.Spec.Good.stacks {s : VM} (h : Good s) (st : List Obj) (up : List (Option Nat))
    (hst : ∀ o ∈ st, ValueOk s o) (hup : ∀ r, some r ∈ up → Live s r .captured) :
    Good { s with stack := st, upStack := up } :=
  ⟨sound_stacks h.sound st up hst hup, h.finished⟩

theorem sound_pushed {s : VM} (h : Sound s) {o : Obj} (ho : ValueOk s o) : Sound (pushed s o) := by
  refine sound_stacks h _ _ ?_ ?_
  · intro x hx
    rcases List.mem_append.mp hx with hx | hx
    · exact h.stack x hx
    · simp at hx; subst hx; exact ho
  · intro r hr
    rcases List.mem_append.mp hr with hr | hr
    · exact h.captured r hr
    · simp at hr

theorem _root_.DuckLisp.Spec.Good.pushed {s : VM} (h : Good s) {o : Obj} (ho : ValueOk s o) : Good (pushed s o) :=
  ⟨sound_pushed h.sound ho, h.finished⟩

theorem mem_pushed {s : VM} {o x : Obj} (h : x ∈ s.stack) : x ∈ (pushed s o).stack :=
  List.mem_append_left _ h

theorem mem_pushed_self {s : VM} {o : Obj} : o ∈ (pushed s o).stack :=
  List.mem_append_right _ (by simp)

theorem Allocated.mem {s s' : VM} {r : Nat} {o x : Obj} (h : Allocated s s' r o)
    (hx : x ∈ s.stack) : x ∈ s'.stack := by rw [h.carried.roots.stack]; exact hx

/-- Write to a live cell. -/
theorem _root_.DuckLisp.Spec.Good.write {s : VM} (h : Good s) {r : Nat} {o o' : Obj} (ho : s.heap[r]? = some o)
    (hf : r ∉ s.free) (hsh : shape o' = shape o)
    (hc : CellOk s o') (hu : ¬ UnderConstruction o') : Good { s with heap := s.heap.set r o' } := by
  refine ⟨sound_write h.sound ho hf hsh ?_, finished_write h.finished hu⟩
  exact cellOk_congr hc (fun _ r' s' _ hl => live_write ho hsh hl)

theorem live_value {s : VM} (h : Sound s) {r : Nat} (hl : Live s r .value) :
    ∃ o, s.heap[r]? = some o ∧ ValueOk s o := by
  obtain ⟨hf, o, ho, hsh⟩ := hl
  exact ⟨o, ho, valueOk_of_cell (h.cells r o ho hf) hsh⟩

theorem live_pair {s : VM} (h : Sound s) {r : Nat} (hl : Live s r .pair) :
    ∃ a d, s.heap[r]? = some (.cons a d) ∧ PartOk s a ∧ PartOk s d := by
  obtain ⟨hf, o, ho, hsh⟩ := hl
  have := h.cells r o ho hf
  cases o <;> simp [shape] at hsh
  exact ⟨_, _, ho, this.1, this.2⟩

theorem live_captured {s : VM} (h : Sound s) {r : Nat} (hl : Live s r .captured) :
    ∃ u, s.heap[r]? = some (.upvalue u) ∧ CellOk s (.upvalue u) := by
  obtain ⟨hf, o, ho, hsh⟩ := hl
  have := h.cells r o ho hf
  cases o <;> simp [shape] at hsh
  exact ⟨_, ho, this⟩

theorem live_captures {s : VM} (h : Sound s) {r n : Nat} (hl : Live s r (.captures n)) :
    ∃ b, s.heap[r]? = some (.upvalueArray b n) ∧ CellOk s (.upvalueArray b n) := by
  obtain ⟨hf, o, ho, hsh⟩ := hl
  have := h.cells r o ho hf
  cases o <;> simp [shape] at hsh
  subst hsh
  exact ⟨_, ho, this⟩

theorem live_parts {s : VM} (h : Sound s) {r : Nat} (hl : Live s r .parts) :
    ∃ t v f, s.heap[r]? = some (.internalComposite t v f) ∧ CellOk s (.internalComposite t v f) := by
  obtain ⟨hf, o, ho, hsh⟩ := hl
  have := h.cells r o ho hf
  cases o <;> simp [shape] at hsh
  exact ⟨_, _, _, ho, this⟩

theorem live_text {s : VM} (h : Sound s) {r n : Nat} (hl : Live s r (.text n)) :
    ∃ v, s.heap[r]? = some (.internalString v n) ∧ (v.getD []).length = n ∧ n < 2 ^ 63 := by
  obtain ⟨hf, o, ho, hsh⟩ := hl
  have := h.cells r o ho hf
  cases o <;> simp [shape] at hsh
  subst hsh
  exact ⟨_, ho, this⟩

theorem live_code {s : VM} (h : Sound s) {r : Nat} (hl : LiveCode s r) :
    ∃ blk n, s.heap[r]? = some (.bytecode (some blk) n) ∧ blk.bytes.length = n := by
  obtain ⟨_, hf, o, ho, hsh⟩ := hl
  have := h.cells r o ho hf
  cases o <;> simp [shape] at hsh
  obtain ⟨blk, rfl, hb⟩ := this
  exact ⟨blk, _, ho, hb⟩

theorem live_elements {s : VM} (h : Good s) {r cap : Nat} (hl : Live s r (.elements cap)) :
    ∃ vs n, s.heap[r]? = some (.internalVector vs n true) ∧ CellOk s (.internalVector vs n true) ∧
      (vs.getD []).length = cap := by
  obtain ⟨hf, o, ho, hsh⟩ := hl
  have hc := h.sound.cells r o ho hf
  have hu := h.finished r o ho hf
  cases o <;> simp [shape] at hsh
  rename_i vs n i
  cases i
  · exact absurd rfl hu
  · exact ⟨vs, n, ho, hc, hsh⟩

end DuckLisp.VM
