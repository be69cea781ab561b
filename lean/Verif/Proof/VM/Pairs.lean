import Verif.Proof.VM.Safe
import Verif.Spec.Data

/-!
# Lemmas about pairs
-/

namespace DuckLisp.VM

open DuckLisp DuckLisp.Spec

set_option linter.unusedSectionVars false

variable [Entries]

/-- As `Keeps`, together with the parts of the state that most instructions leave alone. -/
structure Extends (vm vm' : VM) : Prop extends Keeps vm vm' where
  globals : vm'.globals = vm.globals
  callStack : vm'.callStack = vm.callStack
  upArrays : vm'.upArrays = vm.upArrays
  currentBytecode : vm'.currentBytecode = vm.currentBytecode
  nextUserType : vm'.nextUserType = vm.nextUserType

theorem Extends.refl (vm : VM) : Extends vm vm := ⟨.refl vm, rfl, rfl, rfl, rfl, rfl⟩

theorem Extends.trans {a b c : VM} (h : Extends a b) (h' : Extends b c) : Extends a c :=
  ⟨h.toKeeps.trans h'.toKeeps, h'.globals.trans h.globals, h'.callStack.trans h.callStack,
   h'.upArrays.trans h.upArrays, h'.currentBytecode.trans h.currentBytecode,
   h'.nextUserType.trans h.nextUserType⟩

theorem Carried.extends {a b : VM} (h : Carried a b) : Extends a b :=
  ⟨h.keeps, h.roots.globals, h.roots.callStack, h.roots.upArrays, h.roots.currentBytecode,
   h.roots.nextUserType⟩

theorem Extends.write {vm vm' : VM} (c : Extends vm vm') {r : Nat} (o : Obj) (h : ¬ Traced vm r) :
    Extends vm { vm' with heap := vm'.heap.set r o } :=
  ⟨c.toKeeps.write o h, c.globals, c.callStack, c.upArrays, c.currentBytecode, c.nextUserType⟩

theorem Extends.stacks {vm vm' : VM} (c : Extends vm vm') (st : List Obj) (up : List (Option Nat))
    (hst : ∀ o ∈ vm'.stack, o ∈ st) (hup : ∀ r, some r ∈ vm'.upStack → some r ∈ up) :
    Extends vm { vm' with stack := st, upStack := up } :=
  ⟨c.toKeeps.more st up hst hup, c.globals, c.callStack, c.upArrays, c.currentBytecode,
   c.nextUserType⟩

theorem Extends.pushed {vm vm' : VM} (c : Extends vm vm') (o : Obj) : Extends vm (pushed vm' o) :=
  c.stacks _ _ (fun _ h => List.mem_append_left _ h) (fun _ h => List.mem_append_left _ h)

theorem Extends.untouched {vm vm' : VM} (hg : Good vm) (h : Extends vm vm') :
    Untouched vm vm' [] :=
  ⟨fun c hc _ => h.heap c (traced_of_reachable hg.sound hg.finished hc), h.globals, h.callStack,
   h.upArrays, h.currentBytecode, h.nextUserType⟩

/-- A change of one cell. -/
theorem Extends.untouched_write {vm vm' : VM} (hg : Good vm) (h : Extends vm vm') (r : Nat) (o : Obj)
    (st : List Obj) (up : List (Option Nat)) :
    Untouched vm { vm' with heap := vm'.heap.set r o, stack := st, upStack := up } [r] :=
  ⟨fun c hc hn => by
    have : r ≠ c := fun e => hn (by simp [e])
    show (vm'.heap.set r o)[c]? = _
    rw [List.getElem?_set_ne this]
    exact h.heap c (traced_of_reachable hg.sound hg.finished hc),
   h.globals, h.callStack, h.upArrays, h.currentBytecode, h.nextUserType⟩

theorem part_congr {vm vm' : VM} {p : Option Nat} {o : Obj} (h : Part vm p o)
    (hh : ∀ c, p = some c → vm'.heap[c]? = vm.heap[c]?) : Part vm' p o := by
  cases h with
  | empty => exact .empty
  | pair h => exact .pair ((hh _ rfl).trans h)
  | value h ho => exact .value ((hh _ rfl).trans h) ho

/-- Overwriting a pair with another pair does not change which value a half stands for. -/
theorem part_write {vm : VM} {p : Option Nat} {o : Obj} {r : Nat} {a d a' d' : Option Nat}
    (hr : vm.heap[r]? = some (.cons a d)) (h : Part vm p o) :
    Part { vm with heap := vm.heap.set r (.cons a' d') } p o := by
  have hlt := getElem?_lt hr
  cases h with
  | empty => exact .empty
  | @pair c a1 d1 h =>
      by_cases e : r = c
      · subst e
        exact .pair (a := a') (d := d') (by simp [hlt])
      · exact .pair (by show (vm.heap.set r _)[c]? = _; rw [List.getElem?_set_ne e]; exact h)
  | @value c o h ho =>
      have e : r ≠ c := by
        rintro rfl
        rw [hr] at h
        cases h
        exact ho _ _ rfl
      exact .value (by show (vm.heap.set r _)[c]? = _; rw [List.getElem?_set_ne e]; exact h) ho

theorem valueOk_not_cons {vm : VM} {o : Obj} (h : ValueOk vm o) : ∀ a d, o ≠ .cons a d := by
  rintro a d rfl
  exact h

theorem partOk_live {vm : VM} {p : Option Nat} {c : Nat} (h : PartOk vm p) (hp : p = some c) :
    ∃ s, Live vm c s := by
  subst hp
  rcases h with h | h <;> exact ⟨_, h⟩

variable {U : Prop} {E : DlError → VM → Prop}

/-- Making a half of a pair from a value on the stack. -/
theorem post_part {s : VM} (hg : Good s) {o : Obj} (ho : o ∈ s.stack)
    (hE : ∀ s', Good s' → Carried s s' → E .outOfMemory s') :
    Post U E (fun p s' => Good s' ∧ Carried s s' ∧ PartOk s' p ∧ Part s' p o ∧ ∀ q, o = .list q → p = q) (part o s) := by
  have hv := hg.sound.stack o ho
  have key : (∀ q, o ≠ .list q) →
      Post U E (fun p s' => Good s' ∧ Carried s s' ∧ PartOk s' p ∧ Part s' p o ∧ ∀ q, o = .list q → p = q)
      ((do return some (← pushObject o) : M (Option Nat)) s) := by
    intro hne
    refine Post.bind (post_alloc hg.sound hv (pinned_stack hg.sound ho)
      (fun s' h1 h2 h3 => hE s' ⟨h1, h3.finished hg.finished⟩ h2)) ?_
    rintro r s' ⟨ha, hf⟩
    have hl := ha.live
    rw [shape_value hv] at hl
    exact ⟨⟨ha.sound, hf hg.finished⟩, ha.carried, .inl hl, .value ha.cell (valueOk_not_cons hv),
      fun q e => absurd e (hne q)⟩
  cases o with
  | list p =>
      show Post U E _ ((Pure.pure p : M (Option Nat)) s)
      refine Post.pure ⟨hg, .refl s, ?_⟩
      cases p with
      | none => exact ⟨trivial, .empty, fun q e => by cases e; rfl⟩
      | some r =>
          obtain ⟨a, d, h, -⟩ := live_pair hg.sound hv
          exact ⟨.inr hv, .pair h, fun q e => by cases e; rfl⟩
  | _ => exact key nofun

theorem partValue_eq {vm : VM} {p : Option Nat} {o : Obj} (h : Part vm p o) :
    partValue p vm = .ok o vm := by
  cases h with
  | empty => rfl
  | pair h => simp only [partValue]; rw [M.bind_ok (readCell_some h)]; rfl
  | @value c o h ho =>
      simp only [partValue]
      rw [M.bind_ok (readCell_some h)]
      cases o <;> first | rfl | exact absurd rfl (ho _ _)

theorem part_valueOk {vm : VM} (hs : Sound vm) {p : Option Nat} {o : Obj} (h : Part vm p o)
    (hp : PartOk vm p) : ValueOk vm o := by
  cases h with
  | empty => trivial
  | @pair c a d h =>
      rcases hp with ⟨hf, o, ho, hsh⟩ | hp
      · rw [h] at ho; cases ho; simp [shape] at hsh
      · exact hp
  | @value c o h ho =>
      rcases hp with ⟨hf, o', ho', hsh⟩ | ⟨hf, o', ho', hsh⟩
      · rw [h] at ho'; cases ho'
        exact valueOk_of_cell (hs.cells c _ h hf) hsh
      · rw [h] at ho'; cases ho'
        cases o <;> simp [shape] at hsh
        exact absurd rfl (ho _ _)

theorem part_total {vm : VM} (hs : Sound vm) {p : Option Nat} (hp : PartOk vm p) :
    ∃ o, Part vm p o ∧ ValueOk vm o := by
  cases p with
  | none => exact ⟨_, .empty, trivial⟩
  | some c =>
      rcases hp with hp | hp
      · obtain ⟨o, ho, hv⟩ := live_value hs hp
        exact ⟨o, .value ho (valueOk_not_cons hv), hv⟩
      · obtain ⟨a, d, h, -⟩ := live_pair hs hp
        exact ⟨_, .pair h, hp⟩

theorem set_last {l : List Obj} {o : Obj} : (l ++ [o]).set l.length o = l ++ [o] := by
  simp

theorem setCarCell_eq {s : VM} {r : Nat} {a d : Option Nat} (x : Option Nat)
    (h : s.heap[r]? = some (.cons a d)) :
    setCarCell r x s = .ok () { s with heap := s.heap.set r (.cons x d) } := by
  unfold setCarCell
  rw [M.bind_ok (readCell_some h)]
  simp [writeCell, getElem?_lt h]

theorem setCdrCell_eq {s : VM} {r : Nat} {a d : Option Nat} (x : Option Nat)
    (h : s.heap[r]? = some (.cons a d)) :
    setCdrCell r x s = .ok () { s with heap := s.heap.set r (.cons a x) } := by
  unfold setCdrCell
  rw [M.bind_ok (readCell_some h)]
  simp [writeCell, getElem?_lt h]

/-! ### Lists in memory -/

theorem part_keeps {s t : VM} {p : Option Nat} {o : Obj} (h : Part s p o)
    (hk : ∀ c, Traced s c → t.heap[c]? = s.heap[c]?) (ht : ∀ c, p = some c → Traced s c) : Part t p o :=
  part_congr h fun c hc => hk c (ht c hc)

theorem listOf_keeps {s t : VM} {p : Option Nat} {xs : List Obj} (h : ListOf s p xs)
    (hk : ∀ c, Traced s c → t.heap[c]? = s.heap[c]?) (ht : ∀ c, p = some c → Traced s c) : ListOf t p xs := by
  induction h with
  | nil => exact .nil
  | cons h ha _ ih =>
    have hr := ht _ rfl
    refine .cons ((hk _ hr).trans h) (part_keeps ha hk ?_) (ih ?_)
    · rintro c rfl
      exact .step hr h .car (by simp [UnderConstruction])
    · rintro c rfl
      exact .step hr h .cdr (by simp [UnderConstruction])

theorem listOf_heap {s t : VM} {p : Option Nat} {xs : List Obj} (h : ListOf s p xs)
    (hk : t.heap = s.heap) : ListOf t p xs := by
  induction h with
  | nil => exact .nil
  | cons h ha _ ih => exact .cons (by rw [hk]; exact h) (part_congr ha fun c _ => by rw [hk]) ih

/-- `cons`. -/
theorem post_cons {vm : VM} (hg : Good vm) {a b : Nat} {x y : Obj}
    (ha : operand vm a = some x) (hb : operand vm b = some y) :
    Post False (fun e s' => e = .outOfMemory ∧ Good s' ∧ Extends vm s')
      (fun _ s' => ∃ r, Good s' ∧ Extends vm s' ∧ ¬ Traced vm r ∧ IsPair s' r x y ∧
        s'.stack = vm.stack ++ [.list (some r)] ∧ s'.upStack = vm.upStack ++ [none] ∧
        ∀ q, y = .list q → ∃ a, s'.heap[r]? = some (.cons a q))
      (iCons a b vm) := by
  unfold iCons
  rw [M.bind_ok (getArg_some ha), M.bind_ok (getArg_some hb)]
  refine Post.bind (post_allocCell (o := .cons none none) hg.sound (fun _ => ⟨trivial, trivial⟩)
    (fun _ r _ hm => by cases hm)
    (fun s' h1 h2 h3 => ⟨rfl, ⟨h1, h3.finished hg.finished⟩, h2.extends⟩)) ?_
  rintro r s1 ⟨n, hal, hfin⟩
  have hg1 : Good s1 := ⟨hal.sound, hfin hg.finished (by simp [store, UnderConstruction])⟩
  have hx1 : x ∈ s1.stack := hal.mem (operand_mem ha)
  have hy1 : y ∈ s1.stack := hal.mem (operand_mem hb)
  have hlr : Live s1 r .pair := hal.live
  have hcell : s1.heap[r]? = some (.cons none none) := hal.cell
  refine Post.bind (post_push (Q := fun _ s => s = pushed s1 (.list (some r))) rfl) ?_
  rintro - s2 rfl
  have hg2 := hg1.pushed (o := .list (some r)) hlr
  have e2 : Extends vm (pushed s1 (.list (some r))) := hal.carried.extends.pushed _
  refine Post.bind (post_part hg2 (mem_pushed hx1)
    (fun s' h1 h2 => ⟨rfl, h1, e2.trans h2.extends⟩)) ?_
  rintro p s3 ⟨hg3, c3, hok3, hp3, -⟩
  have hrt2 : Traced (pushed s1 (.list (some r))) r :=
    pinned_stack hg2.sound mem_pushed_self r .list
  have hcell3 : s3.heap[r]? = some (.cons none none) := (c3.heap r hrt2).trans hcell
  have hf3 : r ∉ s3.free := c3.free r hrt2 hlr.1
  rw [M.bind_ok (setCarCell_eq p hcell3)]
  have hg4 : Good { s3 with heap := s3.heap.set r (.cons p none) } :=
    hg3.write hcell3 hf3 rfl ⟨hok3, trivial⟩ (by simp [UnderConstruction])
  have e4 : Extends vm { s3 with heap := s3.heap.set r (.cons p none) } :=
    (e2.trans c3.extends).write _ hal.fresh
  have hp4 := part_write (a' := p) (d' := none) hcell3 hp3
  have hst4 : s3.stack = vm.stack ++ [.list (some r)] := by
    rw [c3.roots.stack]; show s1.stack ++ _ = _; rw [hal.carried.roots.stack]
  have hup4 : s3.upStack = vm.upStack ++ [none] := by
    rw [c3.roots.upStack]; show s1.upStack ++ _ = _; rw [hal.carried.roots.upStack]
  refine Post.bind (post_part hg4 (o := y) (by
    show y ∈ s3.stack
    rw [hst4]; exact List.mem_append_left _ (operand_mem hb))
    (fun s' h1 h2 => ⟨rfl, h1, e4.trans h2.extends⟩)) ?_
  rintro q s5 ⟨hg5, c5, hok5, hp5, hq5⟩
  have hcell4 : ({ s3 with heap := s3.heap.set r (.cons p none) } : VM).heap[r]? =
      some (.cons p none) := by simp [getElem?_lt hcell3]
  have hrt4 : Traced { s3 with heap := s3.heap.set r (.cons p none) } r := by
    refine pinned_stack hg4.sound (o := .list (some r)) ?_ r .list
    show _ ∈ s3.stack
    rw [hst4]; simp
  have hcell5 : s5.heap[r]? = some (.cons p none) := (c5.heap r hrt4).trans hcell4
  have hf5 : r ∉ s5.free := c5.free r hrt4 hf3
  have hpt : ∀ c, p = some c → Traced { s3 with heap := s3.heap.set r (.cons p none) } c := by
    rintro c rfl
    exact .step hrt4 hcell4 .car (by simp [UnderConstruction])
  have hp5' : Part s5 p x := part_congr hp4 (fun c hc => c5.heap c (hpt c hc))
  have hpok5 : PartOk s5 p :=
    partOk_congr (partOk_congr hok3 (fun c s _ hl => live_write (o' := .cons p none) hcell3 rfl hl))
      (fun c s hc hl => c5.live (hpt c hc) hl)
  rw [M.bind_ok (setCdrCell_eq q hcell5)]
  have hg6 : Good { s5 with heap := s5.heap.set r (.cons p q) } :=
    hg5.write hcell5 hf5 rfl ⟨hpok5, hok5⟩ (by simp [UnderConstruction])
  have e6 : Extends vm { s5 with heap := s5.heap.set r (.cons p q) } :=
    (e4.trans c5.extends).write _ hal.fresh
  have hst5 : s5.stack = vm.stack ++ [.list (some r)] := by rw [c5.roots.stack]; exact hst4
  have hup5 : s5.upStack = vm.upStack ++ [none] := by rw [c5.roots.upStack]; exact hup4
  refine Post.bind (post_height (Q := fun n s => n = s5.stack.length ∧
    s = { s5 with heap := s5.heap.set r (.cons p q) }) ⟨rfl, rfl⟩) ?_
  rintro n s ⟨rfl, rfl⟩
  have hlen : s5.stack.length = vm.stack.length + 1 := by rw [hst5]; simp
  refine post_setStackAt (fun h => h ?_) (fun _ _ => ?_)
  · show _ ∧ _ < s5.stack.length
    omega
  · have hset : s5.stack.set (((s5.stack.length : Nat) : Int) - 1).toNat (.list (some r)) =
        s5.stack := by
      have : (((s5.stack.length : Nat) : Int) - 1).toNat = vm.stack.length := by omega
      rw [this, hst5, set_last]
    show ∃ r', _
    rw [hset]
    refine ⟨r, hg6, e6, hal.fresh, ⟨p, q, by simp [getElem?_lt hcell5], part_write hcell5 hp5', part_write hcell5 hp5⟩,
      hst5, hup5, fun q' e => ⟨p, ?_⟩⟩
    rw [← hq5 q' e]
    simp [getElem?_lt hcell5]

/-- The pair behind a list on the stack. -/
theorem pair_operand {vm : VM} (hg : Good vm) {b r : Nat} (hb : operand vm b = some (.list (some r))) :
    ∃ x y, IsPair vm r x y := by
  obtain ⟨a, d, h, ha, hd⟩ := live_pair hg.sound (hg.sound.stack _ (operand_mem hb))
  obtain ⟨x, hx, -⟩ := part_total hg.sound ha
  obtain ⟨y, hy, -⟩ := part_total hg.sound hd
  exact ⟨x, y, a, d, h, hx, hy⟩

/-- `set-car` on a pair. -/
theorem post_setCar_pair {vm : VM} (hg : Good vm) {a b r : Nat} {x x0 y0 : Obj}
    (ha : operand vm a = some x) (hb : operand vm b = some (.list (some r)))
    (hr : IsPair vm r x0 y0) :
    Post False (fun e s' => e = .outOfMemory ∧ Good s' ∧ Extends vm s')
      (fun _ s' => Good s' ∧ Untouched vm s' [r] ∧ IsPair s' r x y0 ∧
        s'.stack = vm.stack ++ [.list (some r)] ∧ s'.upStack = vm.upStack ++ [none])
      (iSetCar a b vm) := by
  unfold iSetCar
  rw [M.bind_ok (getArg_some ha), M.bind_ok (getArg_some hb)]
  obtain ⟨p0, d0, hcell, hp0, hd0⟩ := hr
  have hl : Live vm r .pair := hg.sound.stack _ (operand_mem hb)
  have hrt : Traced vm r := pinned_stack hg.sound (operand_mem hb) r .list
  refine Post.bind (post_part hg (operand_mem ha) (fun s' h1 h2 => ⟨rfl, h1, h2.extends⟩)) ?_
  rintro p s1 ⟨hg1, c1, hok, hp, -⟩
  have hcell1 : s1.heap[r]? = some (.cons p0 d0) := (c1.heap r hrt).trans hcell
  have hl1 := c1.live hrt hl
  have hdt : ∀ c, d0 = some c → Traced vm c := by
    rintro c rfl; exact .step hrt hcell .cdr (by simp [UnderConstruction])
  have hd1 : Part s1 d0 y0 := part_congr hd0 (fun c hc => c1.heap c (hdt c hc))
  have hdok : PartOk s1 d0 := (hg1.sound.cells r _ hcell1 hl1.1).2
  rw [M.bind_ok (setCarCell_eq p hcell1)]
  have hg2 : Good { s1 with heap := s1.heap.set r (.cons p d0) } :=
    hg1.write hcell1 hl1.1 rfl ⟨hok, hdok⟩ (by simp [UnderConstruction])
  refine post_push ⟨hg2.pushed (live_write (o' := .cons p d0) hcell1 rfl hl1), ?_, ?_, ?_, ?_⟩
  · exact c1.extends.untouched_write hg r _ _ _
  · exact ⟨p, d0, by simp [pushed, getElem?_lt hcell1],
      part_congr (part_write hcell1 hp) (fun _ _ => rfl),
      part_congr (part_write hcell1 hd1) (fun _ _ => rfl)⟩
  · show s1.stack ++ _ = _; rw [c1.roots.stack]
  · show s1.upStack ++ _ = _; rw [c1.roots.upStack]

/-- `set-cdr` on a pair. -/
theorem post_setCdr_pair {vm : VM} (hg : Good vm) {a b r : Nat} {y x0 y0 : Obj}
    (ha : operand vm a = some y) (hb : operand vm b = some (.list (some r)))
    (hr : IsPair vm r x0 y0) :
    Post False (fun e s' => e = .outOfMemory ∧ Good s' ∧ Extends vm s')
      (fun _ s' => Good s' ∧ Untouched vm s' [r] ∧ IsPair s' r x0 y ∧
        s'.stack = vm.stack ++ [.list (some r)] ∧ s'.upStack = vm.upStack ++ [none])
      (iSetCdr a b vm) := by
  unfold iSetCdr
  rw [M.bind_ok (getArg_some ha), M.bind_ok (getArg_some hb)]
  obtain ⟨p0, d0, hcell, hp0, hd0⟩ := hr
  have hl : Live vm r .pair := hg.sound.stack _ (operand_mem hb)
  have hrt : Traced vm r := pinned_stack hg.sound (operand_mem hb) r .list
  refine Post.bind (post_part hg (operand_mem ha) (fun s' h1 h2 => ⟨rfl, h1, h2.extends⟩)) ?_
  rintro p s1 ⟨hg1, c1, hok, hp, -⟩
  have hcell1 : s1.heap[r]? = some (.cons p0 d0) := (c1.heap r hrt).trans hcell
  have hl1 := c1.live hrt hl
  have hdt : ∀ c, p0 = some c → Traced vm c := by
    rintro c rfl; exact .step hrt hcell .car (by simp [UnderConstruction])
  have hd1 : Part s1 p0 x0 := part_congr hp0 (fun c hc => c1.heap c (hdt c hc))
  have hdok : PartOk s1 p0 := (hg1.sound.cells r _ hcell1 hl1.1).1
  rw [M.bind_ok (setCdrCell_eq p hcell1)]
  have hg2 : Good { s1 with heap := s1.heap.set r (.cons p0 p) } :=
    hg1.write hcell1 hl1.1 rfl ⟨hdok, hok⟩ (by simp [UnderConstruction])
  refine post_push ⟨hg2.pushed (live_write (o' := .cons p0 p) hcell1 rfl hl1), ?_, ?_, ?_, ?_⟩
  · exact c1.extends.untouched_write hg r _ _ _
  · exact ⟨p0, p, by simp [pushed, getElem?_lt hcell1],
      part_congr (part_write hcell1 hd1) (fun _ _ => rfl),
      part_congr (part_write hcell1 hp) (fun _ _ => rfl)⟩
  · show s1.stack ++ _ = _; rw [c1.roots.stack]
  · show s1.upStack ++ _ = _; rw [c1.roots.upStack]

/-- The two ways a plain instruction can end. -/
theorem exec_plain_post {env : Env} {bc : Nat} {st nx : CodePtr} {i : Instr} {vm : VM}
    {E : DlError → VM → Prop} {Q : Unit → VM → Prop} (hi : IsPlain i)
    (h : Post False E Q (plain env bc st i vm)) :
    (∃ vm', exec env bc st nx i vm = .ok (.goto nx) vm' ∧ Q () vm') ∨
    ∃ e vm', exec env bc st nx i vm = .err e vm' ∧ E e vm' := by
  cases ho : plain env bc st i vm with
  | ok a s => rw [ho] at h; exact .inl ⟨s, exec_plain_ok hi ho, h⟩
  | err e s => rw [ho] at h; exact .inr ⟨e, s, exec_plain_err hi ho, h⟩
  | ub => rw [ho] at h; exact h.elim
  | diverge => rw [ho] at h; exact h.elim

end DuckLisp.VM
