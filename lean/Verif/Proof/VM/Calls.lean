import Verif.Proof.VM.Pairs
import Verif.Proof.VM.Truth
import Verif.Spec.Calls

/-!
# Lemmas about calls
-/

namespace DuckLisp.VM

open DuckLisp DuckLisp.Spec

set_option linter.unusedSectionVars false

variable [Entries]

/-! ### Following composites -/

/-- `Callee`, with the cells on the way. -/
inductive Path' (vm : VM) : List Nat → Obj → Obj → Prop
  | self {f} (h : ∀ c, f ≠ .composite c) : Path' vm [] f f
  | part {r t x f g cs} (h : IsComposite vm r t x f) (hg : Path' vm cs f g) :
      Path' vm (r :: cs) (.composite (some r)) g

theorem path_of_callee {vm : VM} {f g : Obj} (h : Callee vm f g) : ∃ cs, Path' vm cs f g := by
  induction h with
  | self h => exact ⟨[], .self h⟩
  | part h _ ih =>
    obtain ⟨cs, ih⟩ := ih
    exact ⟨_, .part h ih⟩

theorem path_length {vm : VM} {cs cs' : List Nat} {f g g' : Obj} (h : Path' vm cs f g)
    (h' : Path' vm cs' f g') : cs = cs' ∧ g = g' := by
  induction h generalizing cs' with
  | self h =>
    cases h' with
    | self _ => exact ⟨rfl, rfl⟩
    | part => exact absurd rfl (h _)
  | part h _ ih =>
    cases h' with
    | self h' => exact absurd rfl (h' _)
    | part h' hg' =>
      obtain ⟨v, w, h1, h2, h3⟩ := h
      obtain ⟨v', w', h1', h2', h3'⟩ := h'
      rw [h1] at h1'
      cases h1'
      rw [h3] at h3'
      cases h3'
      obtain ⟨rfl, rfl⟩ := ih hg'
      exact ⟨rfl, rfl⟩

theorem path_suffix {vm : VM} {cs : List Nat} {f g : Obj} (h : Path' vm cs f g) {r : Nat} (hr : r ∈ cs) :
    ∃ cs', Path' vm cs' (.composite (some r)) g ∧ cs'.length ≤ cs.length := by
  induction h with
  | self => cases hr
  | @part r' t x f g cs h hg ih =>
    rcases List.mem_cons.1 hr with rfl | hr
    · exact ⟨_, .part h hg, Nat.le_refl _⟩
    · obtain ⟨cs', h1, h2⟩ := ih hr
      exact ⟨cs', h1, by simp; omega⟩

theorem path_nodup {vm : VM} {cs : List Nat} {f g : Obj} (h : Path' vm cs f g) : cs.Nodup := by
  induction h with
  | self => exact List.nodup_nil
  | part h hg ih =>
    refine List.nodup_cons.2 ⟨fun hr => ?_, ih⟩
    obtain ⟨cs', h1, h2⟩ := path_suffix hg hr
    have := (path_length h1 (.part h hg)).1
    rw [this] at h2
    simp at h2
    omega

theorem path_lt {vm : VM} {cs : List Nat} {f g : Obj} (h : Path' vm cs f g) :
    ∀ r ∈ cs, r < vm.heap.length := by
  induction h with
  | self => simp
  | part h _ ih =>
    intro r hr
    rcases List.mem_cons.1 hr with rfl | hr
    · obtain ⟨v, w, h1, -⟩ := h
      exact getElem?_lt h1
    · exact ih r hr

theorem nodup_length_le : ∀ (n : Nat) (l : List Nat), l.Nodup → (∀ x ∈ l, x < n) → l.length ≤ n
  | 0, l, _, h => by
    cases l with
    | nil => simp
    | cons x l => exact absurd (h x (by simp)) (by omega)
  | n + 1, l, hn, h => by
    have := nodup_length_le n (l.erase n) (hn.erase _) (fun x hx => by
      have h1 := h x (List.mem_of_mem_erase hx)
      have h2 := (List.Nodup.mem_erase_iff hn).1 hx
      have := h2.1
      omega)
    rw [List.length_erase] at this
    split at this <;> omega

theorem unwrap_path {vm : VM} {cs : List Nat} {f g : Obj} (h : Path' vm cs f g) :
    ∀ fuel, cs.length < fuel → unwrap fuel f vm = .ok g vm := by
  induction h with
  | @self f h =>
    intro fuel hf
    cases fuel with
    | zero => simp at hf
    | succ fuel =>
      cases f <;> first | rfl | exact absurd rfl (h _)
  | part h _ ih =>
    intro fuel hf
    cases fuel with
    | zero => simp at hf
    | succ fuel =>
      obtain ⟨v, w, h1, h2, h3⟩ := h
      unfold unwrap
      rw [M.bind_ok (show deref (some _) vm = .ok _ vm from readCell_some h1)]
      dsimp only
      rw [M.bind_ok (show deref (some _) vm = .ok _ vm from readCell_some h3)]
      exact ih fuel (by simp at hf; omega)

theorem unwrap_callee {vm : VM} {f g : Obj} (h : Callee vm f g) :
    unwrap (vm.heap.length + 2) f vm = .ok g vm := by
  obtain ⟨cs, h⟩ := path_of_callee h
  have := nodup_length_le _ _ (path_nodup h) (path_lt h)
  exact unwrap_path h _ (by omega)

/-! ### The collector looks only at what the objects on the stack refer to -/

theorem markStack_children {heap : List Obj} : ∀ {st st' : List Obj} {u : List Bool},
    st.map children = st'.map children → markStack heap u st = markStack heap u st'
  | [], [], _, _ => rfl
  | [], _ :: _, _, h => by simp at h
  | _ :: _, [], _, h => by simp at h
  | o :: st, o' :: st', u, h => by
    simp only [List.map_cons, List.cons.injEq] at h
    simp only [markStack, markStackObject, h.1]
    split
    · rfl
    · exact markStack_children h.2

/-- Another stack. -/
def reStack {α : Type} (st : List Obj) : Out α → Out α
  | .ok a s => .ok a { s with stack := st }
  | .err e s => .err e { s with stack := st }
  | .ub => .ub
  | .diverge => .diverge

theorem collect_reStack {s : VM} {st : List Obj} (h : st.map children = s.stack.map children) :
    garbageCollect { s with stack := st } = reStack st (garbageCollect s) := by
  have : markAll { s with stack := st } = markAll s := by
    show (match markStack s.heap (List.replicate s.heap.length false) st with
      | none => none
      | some inUse => markPointers s.heap inUse (rootPointers s)) = _
    rw [markStack_children h]
    rfl
  unfold garbageCollect
  rw [this]
  cases markAll s <;> rfl

theorem pushObject_reStack {s : VM} {o : Obj} {st : List Obj} (h : st.map children = s.stack.map children) :
    pushObject o { s with stack := st } = reStack st (pushObject o s) := by
  have take : ∀ t : VM, takeFree o { t with stack := st } = reStack st (takeFree o t) := by
    intro t
    unfold takeFree
    dsimp only
    cases t.free <;> rfl
  unfold pushObject
  rw [collect_reStack h]
  dsimp only
  split
  · cases garbageCollect s with
    | ok a t =>
      simp only [reStack]
      split
      · rfl
      · exact take t
    | _ => rfl
  · exact take s

/-! ### The list of surplus arguments -/

variable {U : Prop} {E : DlError → VM → Prop}

/-- What stands in for the temporary while the collector looks at the stack: it may be the address of
any value, and not only of a pair. -/
def standIn : Option Nat → Obj
  | none => .list none
  | some p => .user 0 [some p] false

theorem children_standIn (p : Option Nat) : children (standIn p) = children (.list p) := by
  cases p <;> rfl

theorem post_reStack {α : Type} {st : List Obj} {Q : α → VM → Prop} {out : Out α}
    (h : Post U (fun e s => E e { s with stack := st }) (fun a s => Q a { s with stack := st }) out) :
    Post U E Q (reStack st out) := by
  cases out <;> exact h

theorem used_congr {vm vm' : VM} {o : Obj} {c : Ref} (h : Used vm o c)
    (hh : ∀ r, Used vm o r → vm'.heap[r]? = vm.heap[r]?) : Used vm' o c := by
  induction h with
  | direct h => exact .direct h
  | step h ho hm ih => exact .step ih ((hh _ h).trans ho) hm

theorem reachable_used {vm : VM} {o : Obj} {c : Ref} (ho : o ∈ vm.stack) (h : Used vm o c) : Reachable vm c := by
  induction h with
  | direct h => exact .root (.stack ho h)
  | step _ h hm ih => exact .step ih h hm

theorem used_cdr {vm : VM} {p last : Option Ref} {c r : Ref} (hc : vm.heap[c]? = some (.cons p last))
    (h : Used vm (.list last) r) : Used vm (.list (some c)) r := by
  induction h with
  | direct h => cases h; exact .step (.direct .list) hc .cdr
  | step _ h hm ih => exact .step ih h hm

theorem used_element {vm : VM} {p : Option Ref} {xs : List Obj} (h : ListOf vm p xs) {x : Obj} (hx : x ∈ xs) {r : Ref}
    (hu : Used vm x r) : Used vm (.list p) r := by
  induction h with
  | nil => cases hx
  | @cons c a d y ys hc ha ht ih =>
    rcases List.mem_cons.1 hx with rfl | hx
    · clear ih
      induction hu with
      | direct hm =>
        cases ha with
        | empty => cases hm
        | pair h => cases hm; exact .step (.direct .list) hc .car
        | value h _ => exact .step (.step (.direct .list) hc .car) h hm
      | step _ h hm ih => exact .step ih h hm
    · exact used_cdr hc (ih hx)

/-- The state of `restLoop` that has made the list `last`: `xs`, with the list `tail` at its end.  `t` is the state
with the temporary replaced. -/
structure Collecting (s0 t : VM) (tail last top : Option Nat) (xs : List Obj) : Prop where
  stack : t.stack = s0.stack ++ [.list last, standIn top]
  upStack : t.upStack = s0.upStack ++ [none, none]
  good : Good t
  ext : Extends s0 t
  list : ListOf t last xs
  tail : ∀ c, Used s0 (.list tail) c → Used t (.list last) c ∧ t.heap[c]? = s0.heap[c]?

theorem Collecting.untouched {s0 t : VM} {tail last top : Option Nat} {xs : List Obj} (h : Collecting s0 t tail last top xs)
    (hg : Good s0) : Untouched s0 t [] := h.ext.untouched hg

theorem untouched_reStack {s0 t : VM} {st : List Obj} (h : Untouched s0 t []) :
    Untouched s0 { t with stack := st } [] :=
  ⟨h.cells, h.globals, h.callStack, h.upArrays, h.currentBytecode, h.nextUserType⟩

theorem set_append_one {xs : List Obj} {a b c : Obj} : (xs ++ [a, b]).set (xs.length + 1) c = xs ++ [a, c] := by
  rw [List.set_append_right _ _ (by omega)]
  simp

theorem set_append_two {xs : List Obj} {a b c : Obj} : (xs ++ [a, b]).set xs.length c = xs ++ [c, b] := by
  rw [List.set_append_right _ _ (by omega)]
  simp

theorem post_restStep {s0 t : VM} {tail last top : Option Nat} {xs : List Obj} (h : Collecting s0 t tail last top xs)
    (hg : Good s0) {k : Nat} {o : Obj} (ho : s0.stack.reverse[k]? = some o)
    (hE : ∀ s', Untouched s0 s' [] → E .outOfMemory s')
    {Q : Option Nat → VM → Prop} {rest : Nat → M (Option Nat)}
    (hQ : ∀ c p t', Collecting s0 t' tail (some c) (some p) (o :: xs) →
      Post U E Q (rest c { t' with stack := s0.stack ++ [.list (some c), .list (some p)] })) :
    Post U E Q ((do
      let h ← height
      let o ← stackAt (h - 3 - k)
      let p ← pushObject o
      let h ← height
      setStackAt (h - 1) (.list (some p))
      let c ← pushObject (.cons (some p) last)
      let h ← height
      setStackAt (h - 2) (.list (some c))
      rest c : M (Option Nat)) { t with stack := s0.stack ++ [.list last, .list top] }) := by
  have hk : k < s0.stack.length := by
    have := (List.getElem?_eq_some_iff.1 ho).1
    simpa using this
  have hidx : s0.stack[s0.stack.length - 1 - k]? = some o := by
    rw [List.getElem?_reverse (by omega)] at ho
    exact ho
  have hmem0 : o ∈ s0.stack := List.mem_of_getElem? hidx
  have hmem : o ∈ t.stack := by rw [h.stack]; exact List.mem_append_left _ hmem0
  rw [M.bind_ok (show height _ = .ok _ _ from rfl)]
  have hat : stackAt (((s0.stack ++ [Obj.list last, .list top]).length : Nat) - 3 - k)
      { t with stack := s0.stack ++ [.list last, .list top] } =
      .ok o { t with stack := s0.stack ++ [.list last, .list top] } := by
    unfold stackAt
    have e : (((s0.stack ++ [Obj.list last, .list top]).length : Nat) : Int) - 3 - k =
      ((s0.stack.length - 1 - k : Nat) : Int) := by
      simp
      omega
    rw [e, if_pos (by omega)]
    show M.need (s0.stack ++ [Obj.list last, .list top])[((s0.stack.length - 1 - k : Nat) : Int).toNat]? _ = _
    rw [Int.toNat_natCast, List.getElem?_append_left (by omega), hidx]
    rfl
  rw [M.bind_ok hat]
  have hch : (s0.stack ++ [Obj.list last, .list top]).map children = t.stack.map children := by
    rw [h.stack]
    simp [children_standIn]
  refine Post.bind (Q := fun p s => ∃ t1, Allocated t t1 p o ∧ Good t1 ∧
    s = { t1 with stack := s0.stack ++ [.list last, .list top] }) ?_ ?_
  · rw [pushObject_reStack hch]
    refine post_reStack ?_
    have hv := h.good.sound.stack o hmem
    refine (post_alloc h.good.sound hv (pinned_stack h.good.sound hmem) (fun s' h1 h2 h3 => ?_)).imp ?_
    · refine hE _ (untouched_reStack ?_)
      have := h.ext.trans h2.extends
      exact this.untouched hg
    · rintro r s' ⟨h1, h2⟩
      exact ⟨s', h1, ⟨h1.sound, h2 h.good.finished⟩, rfl⟩
  rintro p s ⟨t1, al, g1, rfl⟩
  have hv := h.good.sound.stack o hmem
  rw [M.bind_ok (show height _ = .ok _ _ from rfl)]
  have hset : setStackAt (((s0.stack ++ [Obj.list last, .list top]).length : Nat) - 1) (.list (some p))
      { t1 with stack := s0.stack ++ [.list last, .list top] } =
      .ok () { t1 with stack := s0.stack ++ [.list last, .list (some p)] } := by
    unfold setStackAt
    have e : (((s0.stack ++ [Obj.list last, .list top]).length : Nat) : Int) - 1 =
      ((s0.stack.length + 1 : Nat) : Int) := by
      simp
      omega
    rw [e, if_pos ⟨by omega, by show _ < (s0.stack ++ [_, _]).length; simp⟩, Int.toNat_natCast]
    show Out.ok () { t1 with stack := (s0.stack ++ [Obj.list last, .list top]).set (s0.stack.length + 1) (.list (some p)) } = _
    rw [set_append_one]
  rw [M.bind_ok hset]
  -- the state in which the pair is made
  let t2 : VM := { t1 with stack := s0.stack ++ [.list last, standIn (some p)] }
  have hst1 : t1.stack = s0.stack ++ [.list last, standIn top] := by rw [al.carried.roots.stack, h.stack]
  have hup1 : t1.upStack = s0.upStack ++ [none, none] := by rw [al.carried.roots.upStack, h.upStack]
  have hlp : Live t1 p .value := by
    have := al.live
    rwa [shape_value hv] at this
  have g2 : Good t2 := by
    have := g1.stacks (s0.stack ++ [.list last, standIn (some p)]) t1.upStack (fun x hx => ?_) (fun r hr => g1.sound.captured r hr)
    · exact this
    · rcases List.mem_append.1 hx with hx | hx
      · exact g1.sound.stack x (by rw [hst1]; exact List.mem_append_left _ hx)
      · simp only [List.mem_cons, List.not_mem_nil, or_false] at hx
        rcases hx with rfl | rfl
        · exact g1.sound.stack _ (by rw [hst1]; simp)
        · intro r hr
          simp at hr
          subst hr
          exact ⟨_, hlp⟩
  have e1 : Extends s0 t1 := h.ext.trans al.carried.extends
  have e2 : Extends s0 t2 :=
    ⟨⟨fun x hx => List.mem_append_left _ hx, e1.roots, e1.length, e1.heap, e1.free⟩, e1.globals, e1.callStack,
      e1.upArrays, e1.currentBytecode, e1.nextUserType⟩
  have tl : ∀ c, last = some c → Traced t c := by
    rintro c rfl
    exact .stack (o := .list (some c)) (by rw [h.stack]; simp) .list (by simp [UnderConstruction])
  have l1 : ListOf t1 last xs := listOf_keeps h.list (fun c hc => al.carried.heap c hc) tl
  have l2 : ListOf t2 last xs := listOf_heap l1 rfl
  have tp : Traced t2 p :=
    .stack (o := standIn (some p)) (List.mem_append_right _ (by simp)) (.user (by simp))
      (by simp [UnderConstruction, standIn])
  have tl2 : ∀ c, last = some c → Traced t2 c := by
    rintro c rfl
    exact .stack (o := .list (some c)) (List.mem_append_right _ (by simp)) .list (by simp [UnderConstruction])
  have hlast : PartOk t2 last := by
    cases last with
    | none => trivial
    | some c => exact .inr (g2.sound.stack (.list (some c)) (List.mem_append_right _ (by simp)))
  have hch2 : (s0.stack ++ [Obj.list last, .list (some p)]).map children = t2.stack.map children := by
    show _ = (s0.stack ++ [Obj.list last, standIn (some p)]).map children
    simp [children_standIn]
  refine Post.bind (Q := fun c s => ∃ t3, Allocated t2 t3 c (.cons (some p) last) ∧ Good t3 ∧
    s = { t3 with stack := s0.stack ++ [.list last, .list (some p)] }) ?_ ?_
  · have : ({ t1 with stack := s0.stack ++ [.list last, .list (some p)] } : VM) =
      { t2 with stack := s0.stack ++ [.list last, .list (some p)] } := rfl
    rw [this, pushObject_reStack hch2]
    refine post_reStack ?_
    refine (post_allocCell g2.sound (o := .cons (some p) last) (fun n => ⟨.inl hlp, hlast⟩) (fun n r _ hm => ?_)
      (fun s' h1 h2 h3 => ?_)).imp ?_
    · cases hm with
      | car => exact tp
      | cdr => exact tl2 _ rfl
    · exact hE _ (untouched_reStack ((e2.trans h2.extends).untouched hg))
    · rintro r s' ⟨n, h1, h2⟩
      exact ⟨s', h1, ⟨h1.sound, h2 g2.finished (by simp [UnderConstruction, store])⟩, rfl⟩
  rintro c s ⟨t3, al3, g3, rfl⟩
  rw [M.bind_ok (show height _ = .ok _ _ from rfl)]
  have hset : setStackAt (((s0.stack ++ [Obj.list last, .list (some p)]).length : Nat) - 2) (.list (some c))
      { t3 with stack := s0.stack ++ [.list last, .list (some p)] } =
      .ok () { t3 with stack := s0.stack ++ [.list (some c), .list (some p)] } := by
    unfold setStackAt
    have e : (((s0.stack ++ [Obj.list last, .list (some p)]).length : Nat) : Int) - 2 =
      ((s0.stack.length : Nat) : Int) := by
      simp
    rw [e, if_pos ⟨by omega, by show _ < (s0.stack ++ [_, _]).length; simp⟩, Int.toNat_natCast]
    show Out.ok () { t3 with stack := (s0.stack ++ [Obj.list last, .list (some p)]).set s0.stack.length (.list (some c)) } = _
    rw [set_append_two]
  rw [M.bind_ok hset]
  let t4 : VM := { t3 with stack := s0.stack ++ [.list (some c), standIn (some p)] }
  have ut1 : ∀ r, Used t (.list last) r → t1.heap[r]? = t.heap[r]? := fun r hr =>
    al.carried.heap r (traced_of_reachable h.good.sound h.good.finished (reachable_used (by rw [h.stack]; simp) hr))
  have ut3 : ∀ r, Used t2 (.list last) r → t3.heap[r]? = t2.heap[r]? := fun r hr =>
    al3.carried.heap r (traced_of_reachable g2.sound g2.finished
      (reachable_used (List.mem_append_right _ (by simp)) hr))
  refine hQ c p t4 ⟨rfl, ?_, ?_, ?_, ?_, fun r hr => ?_⟩
  · show t3.upStack = _
    rw [al3.carried.roots.upStack]
    exact hup1
  · have hst3 : t3.stack = s0.stack ++ [.list last, standIn (some p)] := al3.carried.roots.stack
    refine g3.stacks (s0.stack ++ [.list (some c), standIn (some p)]) t3.upStack (fun x hx => ?_)
      (fun r hr => g3.sound.captured r hr)
    rcases List.mem_append.1 hx with hx | hx
    · exact g3.sound.stack x (by rw [hst3]; exact List.mem_append_left _ hx)
    · simp only [List.mem_cons, List.not_mem_nil, or_false] at hx
      rcases hx with rfl | rfl
      · exact al3.live
      · exact g3.sound.stack _ (by rw [hst3]; simp)
  · have e3 : Extends s0 t3 := e2.trans al3.carried.extends
    exact ⟨⟨fun x hx => List.mem_append_left _ hx, e3.roots, e3.length, e3.heap, e3.free⟩, e3.globals, e3.callStack,
      e3.upArrays, e3.currentBytecode, e3.nextUserType⟩
  · refine listOf_heap (s := t3) ?_ rfl
    refine .cons al3.cell (.value (o := o) ?_ (valueOk_not_cons hv)) (listOf_keeps l2 (fun c hc => al3.carried.heap c hc) tl2)
    rw [al3.carried.heap p tp]
    exact al.cell
  · obtain ⟨u0, hh⟩ := h.tail r hr
    have u2 : Used t2 (.list last) r := used_congr (used_congr u0 ut1) fun _ _ => rfl
    have u3 : Used t3 (.list last) r := used_congr u2 ut3
    refine ⟨used_congr (used_cdr al3.cell u3) fun _ _ => rfl, ?_⟩
    show t3.heap[r]? = _
    rw [ut3 r u2]
    exact (ut1 r u0).trans hh

theorem post_restLoop {s0 : VM} (hg : Good s0) (hE : ∀ s', Untouched s0 s' [] → E .outOfMemory s')
    {below : List Obj} {tail : Option Nat} : ∀ (args : List Obj) (done : List Obj) (t : VM) (last top : Option Nat) (xs : List Obj),
    s0.stack = below ++ args ++ done → Collecting s0 t tail last top (done ++ xs) →
    Post U E (fun last s => ∃ t top, Collecting s0 t tail last top (args ++ done ++ xs) ∧
        s = { t with stack := s0.stack ++ [.list last, .list top] })
      (restLoop done.length args.length last { t with stack := s0.stack ++ [.list last, .list top] }) := by
  intro args
  induction hn : args.length generalizing args with
  | zero =>
    intro done t last top xs hst h
    have : args = [] := List.length_eq_zero_iff.1 hn
    subst this
    exact ⟨t, top, h, rfl⟩
  | succ n ih =>
    intro done t last top xs hst h
    obtain ⟨args', o, rfl⟩ : ∃ args' o, args = args' ++ [o] := by
      cases args.eq_nil_or_concat with
      | inl h => subst h; simp at hn
      | inr h => obtain ⟨a, o, h⟩ := h; exact ⟨a, o, by simpa using h⟩
    have hn' : args'.length = n := by simpa using hn
    unfold restLoop
    refine post_restStep h hg (o := o) ?_ hE (fun c p t' h' => ?_)
    · rw [hst]
      simp
    · have := ih args' hn' (o :: done) t' (some c) (some p) xs (by rw [hst]; simp) (by simpa using h')
      simpa using this

/-- `collectRest` puts the list of the surplus arguments, followed by `xs`, in their place. -/
theorem post_collectRest {s0 : VM} (hg : Good s0) (hlen : s0.upStack.length = s0.stack.length)
    (hE : ∀ s', Untouched s0 s' [] → E .outOfMemory s')
    {below args : List Obj} (hst : s0.stack = below ++ args) {tail : Option Nat} {xs : List Obj}
    (hv : ValueOk s0 (.list tail)) (hl : ListOf s0 tail xs) :
    Post U E (fun _ s => ∃ last, s.stack = below ++ [.list last] ∧
        s.upStack = (s0.upStack ++ [none]).take (below.length + 1) ∧
        ListOf s last (args ++ xs) ∧ Untouched s0 s [] ∧ Good s ∧
        (∀ c, Traced s0 c → s.heap[c]? = s0.heap[c]? ∧ (c ∉ s0.free → c ∉ s.free)) ∧
        (∀ c, Used s0 (.list tail) c → s.heap[c]? = s0.heap[c]?))
      (collectRest args.length tail s0) := by
  unfold collectRest
  rw [M.bind_ok (show push (.list tail) s0 = .ok () (pushed s0 (.list tail)) from rfl)]
  rw [M.bind_ok (show push .nil (pushed s0 (.list tail)) = .ok () (pushed (pushed s0 (.list tail)) .nil) from rfl)]
  have hs1 : pushed (pushed s0 (.list tail)) .nil = { pushed (pushed s0 (.list tail)) .nil with
      stack := s0.stack ++ [.list tail, .list none] } := by
    show VM.mk _ _ _ _ _ _ _ _ _ _ = VM.mk _ _ _ _ _ _ _ _ _ _
    simp [pushed, Obj.nil]
  have hc : Collecting s0 (pushed (pushed s0 (.list tail)) .nil) tail tail none ([] ++ xs) := by
    refine ⟨by simp [pushed, standIn, Obj.nil], by simp [pushed], (hg.pushed hv).pushed trivial,
      ((Extends.refl s0).pushed _).pushed _, listOf_heap hl rfl, fun c hc => ⟨used_congr hc fun _ _ => rfl, rfl⟩⟩
  rw [hs1]
  refine Post.bind (post_restLoop hg hE args [] _ _ _ xs (by simpa using hst) hc) ?_
  rintro last s ⟨t, top, h, rfl⟩
  have h : Collecting s0 t tail last top (args ++ xs) := by simpa using h
  have hpop : popStack { t with stack := s0.stack ++ [.list last, .list top] } =
      .ok (.list top) { t with stack := s0.stack ++ [.list last], upStack := s0.upStack ++ [none] } := by
    have hu := h.upStack
    rcases t with ⟨heap, free, stack, upStack, cs, ua, gl, cb, nu, ns⟩
    subst hu
    have e3 : (s0.stack ++ [Obj.list last, .list top]).dropLast = s0.stack ++ [.list last] := by
      rw [List.dropLast_append_of_ne_nil (by simp)]
      rfl
    have e4 : (s0.upStack ++ [none, none]).dropLast = s0.upStack ++ [none] := by
      rw [List.dropLast_append_of_ne_nil (by simp)]
      rfl
    simp only [popStack]
    rw [show (s0.stack ++ [Obj.list last, .list top]).getLast? = some (.list top) by simp]
    dsimp only
    split
    · rename_i h
      simp at h
    · rw [e3, e4]
  rw [M.bind_ok hpop, M.bind_ok (show height _ = .ok _ _ from rfl)]
  have hbl : s0.stack.length = below.length + args.length := by rw [hst, List.length_append]
  have hset : setStackAt (((s0.stack ++ [Obj.list last]).length : Nat) - 1 - (args.length : Nat)) (.list last)
      { t with stack := s0.stack ++ [.list last], upStack := s0.upStack ++ [none] } =
      .ok () { t with stack := (s0.stack ++ [Obj.list last]).set below.length (.list last), upStack := s0.upStack ++ [none] } := by
    unfold setStackAt
    have e : (((s0.stack ++ [Obj.list last]).length : Nat) : Int) - 1 - (args.length : Nat) =
      ((below.length : Nat) : Int) := by
      simp
      omega
    rw [e, if_pos ⟨by omega, by show _ < (s0.stack ++ [_]).length; simp; omega⟩, Int.toNat_natCast]
  rw [M.bind_ok hset, popMany_ok (by simp; omega) (by simp; omega)]
  have hstk : ((s0.stack ++ [Obj.list last]).set below.length (.list last)).take (below.length + 1) =
      below ++ [.list last] := by
    rw [hst, List.append_assoc, List.set_append_right _ _ (by omega), Nat.sub_self, List.take_append]
    rw [List.take_of_length_le (by omega), Nat.add_sub_cancel_left]
    cases args <;> rfl
  have hun : Untouched s0 t [] := h.untouched hg
  refine ⟨last, ?_, ?_, listOf_heap h.list rfl,
    ⟨hun.cells, hun.globals, hun.callStack, hun.upArrays, hun.currentBytecode, hun.nextUserType⟩, ?_,
    fun c hc => ⟨h.ext.heap c hc, h.ext.free c hc⟩, fun c hc => (h.tail c hc).2⟩
  · show List.take _ _ = _
    rw [← hstk]
    congr 1
    simp
    omega
  · show List.take _ _ = _
    congr 1
    simp
    omega
  · refine h.good.stacks _ _ (fun x hx => ?_) (fun r hr => ?_)
    · have hx := List.mem_of_mem_take hx
      rcases List.mem_or_eq_of_mem_set hx with hx | rfl
      · rcases List.mem_append.1 hx with hx | hx
        · exact h.good.sound.stack x (by rw [h.stack]; exact List.mem_append_left _ hx)
        · exact h.good.sound.stack x (by rw [h.stack]; simp at hx; simp [hx])
      · exact h.good.sound.stack _ (by rw [h.stack]; simp)
    · have hr := List.mem_of_mem_take hr
      refine h.good.sound.captured r ?_
      rw [h.upStack]
      rcases List.mem_append.1 hr with hr | hr
      · exact List.mem_append_left _ hr
      · simp at hr

end DuckLisp.VM
