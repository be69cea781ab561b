import Verif.Proof.VM.Control
import Verif.Proof.VM.Closures
import Verif.Proof.VM.Grown

/-!
# Instructions for captured variables keep the machine in order
-/

namespace DuckLisp.VM

open DuckLisp DuckLisp.Spec

set_option linter.unusedSectionVars false

variable [Entries]

variable {s : VM} {env : Env} {bc : Nat} {st nx : CodePtr}

/-! ### Following the links -/

/-- `LeadsTo`, with the cells on the way. -/
inductive Leads (vm : VM) : List Nat → Option Nat → Option Upvalue → Prop
  | null : Leads vm [] none none
  | here {c u} (h : vm.heap[c]? = some (.upvalue u)) (hu : ∀ l, u ≠ .heapUpvalue l) : Leads vm [c] (some c) (some u)
  | link {c l e cs} (h : vm.heap[c]? = some (.upvalue (.heapUpvalue l))) (hl : Leads vm cs l e) :
      Leads vm (c :: cs) (some c) e

theorem leads_of {p : Option Nat} {e : Option Upvalue} (h : LeadsTo s p e) : ∃ cs, Leads s cs p e := by
  induction h with
  | null => exact ⟨_, .null⟩
  | here h hu => exact ⟨_, .here h hu⟩
  | link h _ ih =>
    obtain ⟨cs, ih⟩ := ih
    exact ⟨_, .link h ih⟩

theorem leads_unique {cs cs' : List Nat} {p : Option Nat} {e e' : Option Upvalue} (h : Leads s cs p e)
    (h' : Leads s cs' p e') : cs = cs' := by
  induction h generalizing cs' with
  | null => cases h'; rfl
  | here h hu =>
    cases h' with
    | here => rfl
    | link h2 => rw [h] at h2; cases h2; exact absurd rfl (hu _)
  | link h _ ih =>
    cases h' with
    | here h2 hu => rw [h] at h2; cases h2; exact absurd rfl (hu _)
    | link h2 h3 =>
      rw [h] at h2
      cases h2
      rw [ih h3]

theorem leads_suffix {cs : List Nat} {p : Option Nat} {e : Option Upvalue} (h : Leads s cs p e) {r : Nat}
    (hr : r ∈ cs) : ∃ cs', Leads s cs' (some r) e ∧ cs'.length ≤ cs.length := by
  induction h with
  | null => simp at hr
  | here h hu =>
    simp at hr
    subst hr
    exact ⟨_, .here h hu, Nat.le_refl _⟩
  | link h hl ih =>
    rcases List.mem_cons.1 hr with rfl | hr
    · exact ⟨_, .link h hl, Nat.le_refl _⟩
    · obtain ⟨cs', h1, h2⟩ := ih hr
      exact ⟨cs', h1, Nat.le_trans h2 (by simp)⟩

theorem leads_nodup {cs : List Nat} {p : Option Nat} {e : Option Upvalue} (h : Leads s cs p e) : cs.Nodup := by
  induction h with
  | null => simp
  | here => simp
  | @link c l e cs h hl ih =>
    refine List.nodup_cons.2 ⟨fun hc => ?_, ih⟩
    obtain ⟨cs', h1, h2⟩ := leads_suffix hl hc
    have := leads_unique (.link h hl) h1
    subst this
    simp at h2
    omega

theorem leads_lt {cs : List Nat} {p : Option Nat} {e : Option Upvalue} (h : Leads s cs p e) :
    ∀ c ∈ cs, c < s.heap.length := by
  induction h with
  | null => simp
  | here h => intro c hc; simp at hc; subst hc; exact getElem?_lt h
  | link h _ ih =>
    intro c hc
    rcases List.mem_cons.1 hc with rfl | hc
    · exact getElem?_lt h
    · exact ih c hc

/-- What following the links comes to. -/
def endOf (n : M Upvalue) : Option Upvalue → M Upvalue
  | none => n
  | some u => pure u

theorem chase_leads {n o : M Upvalue} {cs : List Nat} {p : Option Nat} {e : Option Upvalue} (h : Leads s cs p e) :
    ∀ k, cs.length + 1 ≤ k → chase n o k p s = endOf n e s := by
  induction h with
  | null =>
    intro k hk
    obtain ⟨k, rfl⟩ : ∃ j, k = j + 1 := ⟨k - 1, by omega⟩
    rfl
  | @here c u h hu =>
    intro k hk
    obtain ⟨k, rfl⟩ : ∃ j, k = j + 1 := ⟨k - 1, by omega⟩
    rw [chase, M.bind_ok (readCell_some h)]
    cases u <;> first | rfl | exact absurd rfl (hu _)
  | link h _ ih =>
    intro k hk
    obtain ⟨k, rfl⟩ : ∃ j, k = j + 1 := ⟨k - 1, by omega⟩
    rw [chase, M.bind_ok (readCell_some h)]
    exact ih k (by simp only [List.length_cons] at hk; omega)

theorem chase_leadsTo {n o : M Upvalue} {p : Option Nat} {e : Option Upvalue} (h : LeadsTo s p e) :
    chase n o (s.heap.length + 1) p s = endOf n e s := by
  obtain ⟨cs, h⟩ := leads_of h
  refine chase_leads h _ ?_
  have := nodup_length_le _ _ (leads_nodup h) (leads_lt h)
  omega

/-- An element of a captured array. -/
theorem element_live {j c : Nat} (hs : Sound s) (h : RunningElement s j (some c)) : Live s c .captured := by
  obtain ⟨r, serial, n, ups, m, h1, h2, h3⟩ := h
  have hf : r ∉ s.free := fun hf => hs.free_empty r hf _ h2 rfl
  exact (hs.cells r _ h2 hf).2 c (List.mem_of_getElem? h3)

theorem leadsTo_ok (hs : Sound s) {p : Option Nat} {u : Upvalue} (h : LeadsTo s p (some u))
    (hp : ∀ c, p = some c → Live s c .captured) : CellOk s (.upvalue u) := by
  generalize he : some u = e at h
  induction h with
  | null => cases he
  | here h hu =>
    cases he
    obtain ⟨u', h1, h2⟩ := live_captured hs (hp _ rfl)
    rw [h] at h1
    cases h1
    exact h2
  | link h _ ih =>
    obtain ⟨u', h1, h2⟩ := live_captured hs (hp _ rfl)
    rw [h] at h1
    cases h1
    exact ih h2 he

theorem leadsTo_end {p : Option Nat} {u : Upvalue} (h : LeadsTo s p (some u)) : ∀ l, u ≠ .heapUpvalue l := by
  generalize he : some u = e at h
  induction h with
  | null => cases he
  | here h hu => cases he; exact hu
  | link _ _ ih => exact ih he

theorem element_at {j : Nat} {p : Option Nat} (h : RunningElement s j p) (e : M UpArray) :
    ∃ u, topUpArray e s = .ok u s ∧ upvalueAt u j s = .ok p s := by
  obtain ⟨r, serial, n, ups, m, h1, h2, h3⟩ := h
  refine ⟨⟨some (r, serial), n⟩, by unfold topUpArray; rw [h1], ?_⟩
  unfold upvalueAt
  dsimp only
  rw [h2]
  dsimp only
  rw [if_pos rfl, h3]
  rfl

/-! ### Reading and writing captured variables -/

theorem post_pushUpvalue {j : Nat} (hr : Running bc s) (hf : ¬ Faulty s (.pushUpvalue j)) :
    Post False (fun _ _ => True) (fun _ s' => Running bc s') (iPushUpvalue j s) := by
  unfold iPushUpvalue
  by_cases he : s.upArrays = []
  · have : topUpArray (M.throw .bufferUnderflow) s = .err .bufferUnderflow s := by
      unfold topUpArray
      rw [he]
      rfl
    rw [M.bind_err this]
    trivial
  · obtain ⟨p, e, h1, h2⟩ : ∃ p e, RunningElement s j p ∧ LeadsTo s p e :=
      Classical.byContradiction fun h => hf ⟨he, h⟩
    obtain ⟨u, h3, h4⟩ := element_at h1 (M.throw .bufferUnderflow)
    rw [M.bind_ok h3, M.bind_ok h4, M.bind_ok (show chaseFuel s = .ok (s.heap.length + 1) s from rfl)]
    have h5 := chase_leadsTo (n := M.throw .nullPointer) (o := M.throw .invalidValue) h2
    have pushes : ∀ o, ValueOk s o → Running bc (pushed s o) := fun o ho =>
      ⟨hr.good.pushed ho, by simpa [Lockstep, pushed] using hr.level, hr.current⟩
    cases e with
    | none =>
      rw [M.bind_err (show _ = Out.err .nullPointer s from h5)]
      trivial
    | some u =>
      rw [M.bind_ok h5]
      have hok := leadsTo_ok hr.good.sound h2 (fun c hc => element_live hr.good.sound (hc ▸ h1))
      cases u with
      | stackIndex i =>
        refine Post.bind (post_getAbs trivial i) ?_
        rintro o s' ⟨rfl, ho⟩
        exact post_push (pushes o (hr.good.sound.stack o ho))
      | heapObject o =>
        obtain ⟨r, rfl, hl⟩ := hok
        obtain ⟨x, hx, hv⟩ := live_value hr.good.sound hl
        dsimp only
        rw [M.bind_ok (show deref (some r) s = .ok x s from readCell_some hx)]
        exact post_push (pushes x hv)
      | heapUpvalue l => exact absurd rfl (leadsTo_end h2 l)

theorem post_setUpvalue {j a : Nat} (hr : Running bc s) (hf : ¬ Faulty s (.setUpvalue j a)) :
    Post False (fun _ _ => True) (fun _ s' => Running bc s') (iSetUpvalue j a s) := by
  unfold iSetUpvalue
  cases ha : operand s a with
  | none => rw [M.bind_err (getArg_none ha)]; trivial
  | some o =>
    rw [M.bind_ok (getArg_some ha)]
    have hv := hr.good.sound.stack o (operand_mem ha)
    obtain ⟨p, u, h1, h2⟩ : ∃ p u, RunningElement s j p ∧ LeadsTo s p (some u) :=
      Classical.byContradiction fun h => hf ⟨by simp [ha], h⟩
    obtain ⟨u', h3, h4⟩ := element_at h1 M.ub
    rw [M.bind_ok h3, M.bind_ok h4, M.bind_ok (show chaseFuel s = .ok (s.heap.length + 1) s from rfl)]
    rw [M.bind_ok (chase_leadsTo (n := M.ub) (o := M.ub) h2)]
    have hok := leadsTo_ok hr.good.sound h2 (fun c hc => element_live hr.good.sound (hc ▸ h1))
    cases u with
    | stackIndex i =>
      dsimp only
      unfold setAbs
      split
      · refine ⟨hr.good.stacks _ _ (fun x hx => ?_) hr.good.sound.captured, ?_, hr.current⟩
        · rcases List.mem_or_eq_of_mem_set hx with hx | rfl
          · exact hr.good.sound.stack x hx
          · exact hv
        · have := hr.level
          simpa [Lockstep] using this
      · trivial
    | heapObject h =>
      obtain ⟨r, rfl, hl⟩ := hok
      obtain ⟨x, hx, hvx⟩ := live_value hr.good.sound hl
      dsimp only
      rw [M.bind_ok (show M.need (some r) s = .ok r s from rfl)]
      refine post_write (getElem?_lt hx) ⟨?_, hr.level, hr.current⟩
      exact hr.good.write hx hl.1 (by rw [shape_value hv, shape_value hvx]) (cellOk_of_valueOk hv) (valueOk_settled hv)
    | heapUpvalue l => exact absurd rfl (leadsTo_end h2 l)

/-! ### The end of a scope -/

theorem post_release1' {a : Nat} (hr : Running bc s) (ha : a ≠ 0) :
    Post False (fun _ _ => True) (fun _ s' => Running bc s') (release1 a s) := by
  have hlev := hr.level
  unfold Lockstep at hlev
  unfold release1
  rw [M.bind_ok (show M.get s = .ok s s from rfl)]
  split
  · trivial
  · dsimp only
    generalize hi : s.stack.length - a = idx
    have hidx : idx < s.stack.length := by omega
    rw [List.getElem?_eq_getElem (show idx < s.upStack.length by omega),
      M.bind_ok (show M.need (some _) s = .ok _ s from rfl)]
    have hget : s.upStack[idx]? = some (s.upStack[idx]'(by omega)) := List.getElem?_eq_getElem (by omega)
    cases hu : s.upStack[idx]'(by omega) with
    | none => exact hr
    | some u =>
      rw [hu] at hget
      have hlu := hr.good.sound.captured u (List.mem_of_getElem? hget)
      obtain ⟨up, hcu, -⟩ := live_captured hr.good.sound hlu
      dsimp only
      rw [M.bind_ok (readCell_some hcu)]
      have hst : s.stack[idx]? = some s.stack[idx] := List.getElem?_eq_getElem hidx
      generalize s.stack[idx] = o at hst
      have hmem := List.mem_of_getElem? hst
      have hat : stackAt idx s = .ok o s := by
        unfold stackAt
        rw [if_pos (by omega), Int.toNat_natCast, hst]
        rfl
      dsimp only
      rw [M.bind_ok hat]
      refine Post.bind (post_alloc hr.good.sound (hr.good.sound.stack o hmem) (pinned_stack hr.good.sound hmem)
        (fun _ _ _ _ => trivial)) ?_
      rintro r t ⟨al, hf⟩
      have hf := hf hr.good.finished
      have hcu' : t.heap[u]? = some (.upvalue up) :=
        (al.carried.heap u (traced_up (List.mem_of_getElem? hget))).trans hcu
      have hlu' : u ∉ t.free := al.carried.free u (traced_up (List.mem_of_getElem? hget)) hlu.1
      have gt : Good t := ⟨al.sound, hf⟩
      have hlr : Live t r .value := by
        have := al.live
        rwa [shape_value (hr.good.sound.stack o hmem)] at this
      have g2 : Good { t with heap := t.heap.set u (.upvalue (.heapObject (some r))) } :=
        gt.write hcu' hlu' rfl ⟨r, rfl, hlr⟩ (by simp [UnderConstruction])
      rw [M.bind_ok (show writeCell u (.upvalue (.heapObject (some r))) t =
        .ok () { t with heap := t.heap.set u (.upvalue (.heapObject (some r))) } by
          unfold writeCell
          rw [if_pos (getElem?_lt hcu')])]
      have hset : setStackAt idx .nil { t with heap := t.heap.set u (.upvalue (.heapObject (some r))) } =
          .ok () { t with heap := t.heap.set u (.upvalue (.heapObject (some r))), stack := t.stack.set idx .nil } := by
        unfold setStackAt
        rw [if_pos ⟨by omega, by
          show _ < t.stack.length
          rw [al.carried.roots.stack]
          exact hidx⟩]
        rfl
      rw [M.bind_ok hset]
      refine ⟨g2.stacks (t.stack.set idx .nil) (t.upStack.set idx none) (fun x hx => ?_) (fun c hc => ?_), ?_, ?_⟩
      · rcases List.mem_or_eq_of_mem_set hx with hx | rfl
        · exact g2.sound.stack x hx
        · trivial
      · rcases List.mem_or_eq_of_mem_set hc with hc | hc
        · exact g2.sound.captured c hc
        · cases hc
      · show (t.stack.set idx .nil).length = (t.upStack.set idx none).length
        rw [List.length_set, List.length_set, al.carried.roots.stack, al.carried.roots.upStack]
        exact hlev
      · exact al.carried.roots.currentBytecode.trans hr.current

theorem post_releaseUpvalues' : ∀ (as : List Nat) (s : VM), Running bc s → 0 ∉ as →
    Post False (fun _ _ => True) (fun _ s' => Running bc s') (iReleaseUpvalues as s)
  | [], s, hr, _ => hr
  | a :: as, s, hr, h => by
    unfold iReleaseUpvalues
    refine Post.bind (post_release1' hr (fun h0 => h (by simp [h0]))) ?_
    intro b s' h'
    cases b with
    | false => exact h'
    | true => exact post_releaseUpvalues' as s' h' (fun h0 => h (by simp [h0]))

/-! ### Making a closure -/

/-- The state in which the variables of a closure are captured. -/
structure Forming (bc : Nat) (vm s : VM) (clo : Obj) (cell n : Nat) (own : Bool) : Prop where
  good : Good s
  stack : s.stack = vm.stack ++ [clo]
  height : s.upStack.length = vm.stack.length + own.toNat
  current : s.currentBytecode = some bc
  men : Mentions clo cell
  cell : Live s cell (.captures n)

theorem Forming.traced {vm : VM} {clo : Obj} {cell n : Nat} {own : Bool} (h : Forming bc vm s clo cell n own) :
    Traced s cell :=
  pinned_stack h.good.sound (o := clo) (by rw [h.stack]; simp) cell h.men

/-- Why the captured variables of the running function that are still needed, those for `vs`, are there. -/
inductive Avail (vm s : VM) (cell : Nat) (vs : List Nat) : Prop
  /-- none are needed -/
  | none (h : ∀ v ∈ vs, v < 2 ^ 31)
  /-- they are within reach -/
  | kept (hk : Keeps vm s) (ha : s.upArrays = vm.upArrays)
      (ht : ∀ r serial n, vm.upArrays.getLast? = some ⟨some (r, serial), n⟩ → Traced vm r)
      (hf : ¬ Traced vm cell) (hel : ∀ v ∈ vs, 2 ^ 31 ≤ v → ∃ p, RunningElement vm (2 ^ 32 - 1 - v) p)
  /-- there are enough free cells, and no collection -/
  | free (hh : ∀ r, r ∉ vm.free → s.heap[r]? = vm.heap[r]? ∧ r ∉ s.free) (ha : s.upArrays = vm.upArrays)
      (hc : cell ∈ vm.free) (hn : vs.length ≤ s.free.length)
      (hel : ∀ v ∈ vs, 2 ^ 31 ≤ v → ∃ p, RunningElement vm (2 ^ 32 - 1 - v) p)

/-- What an allocation during the construction does. -/
structure Formed (bc : Nat) (vm s s' : VM) (cell n : Nat) (vs : List Nat) (r : Nat) : Prop where
  good : Good s'
  stack : s'.stack = s.stack
  upStack : s'.upStack = s.upStack
  current : s'.currentBytecode = some bc
  array : Live s' cell (.captures n)
  new : Live s' r .captured
  avail : Avail vm s' cell vs

theorem Formed.up {vm s s' : VM} {clo : Obj} {cell n r : Nat} {own own' : Bool} {vs : List Nat}
    (f : Forming bc vm s clo cell n own) (h : Formed bc vm s s' cell n vs r) (up : List (Option Nat))
    (hup : ∀ c, some c ∈ s.upStack → some c ∈ up) (hnew : ∀ c, some c ∈ up → some c ∈ s.upStack ∨ c = r)
    (hlen : up.length = vm.stack.length + own'.toNat) :
    Forming bc vm { s' with upStack := up } clo cell n own' ∧ Avail vm { s' with upStack := up } cell vs ∧
      Live { s' with upStack := up } r .captured := by
  refine ⟨⟨?_, h.stack.trans f.stack, hlen, h.current, f.men, h.array⟩, ?_, h.new⟩
  · refine h.good.stacks s'.stack up h.good.sound.stack fun c hc => ?_
    rcases hnew c hc with hc | rfl
    · exact h.good.sound.captured c (by rw [h.upStack]; exact hc)
    · exact h.new
  · cases h.avail with
    | none h => exact .none h
    | kept hk ha ht hf hel =>
      exact .kept (hk.more s'.stack up (fun _ h => h) (fun c hc => hup c (by rw [← h.upStack]; exact hc))) ha ht hf hel
    | free hh ha hc hn hel => exact .free hh ha hc hn hel

theorem post_form {vm : VM} {clo : Obj} {cell n v : Nat} {own : Bool} {vs : List Nat} {u : Upvalue}
    (f : Forming bc vm s clo cell n own) (av : Avail vm s cell (v :: vs)) (hok : CellOk s (.upvalue u))
    (hp : (∃ i, u = .stackIndex i) ∨ ∃ l, u = .heapUpvalue l ∧ RunningElement vm (2 ^ 32 - 1 - v) l ∧ 2 ^ 31 ≤ v) :
    Post False (fun _ _ => True) (fun r s' => Formed bc vm s s' cell n vs r) (pushObject (.upvalue u) s) := by
  have viaGc : (∀ r, Mentions (.upvalue u) r → Traced s r) → (∀ s', Carried s s' → Avail vm s' cell vs) →
      Post False (fun _ _ => True) (fun r s' => Formed bc vm s s' cell n vs r) (pushObject (.upvalue u) s) := by
    intro hm hav
    refine (post_allocCell f.good.sound (o := .upvalue u) (fun _ => hok) (fun _ r _ h => hm r h)
      (fun _ _ _ _ => trivial)).imp ?_
    rintro r s' ⟨k, al, hf⟩
    exact ⟨⟨al.sound, hf f.good.finished (by simp [UnderConstruction, store])⟩, al.carried.roots.stack,
      al.carried.roots.upStack, al.carried.roots.currentBytecode.trans f.current, al.carried.live f.traced f.cell,
      al.live, hav s' al.carried⟩
  cases av with
  | none h =>
    refine viaGc (fun r hm => ?_) (fun s' _ => .none fun x hx => h x (by simp [hx]))
    rcases hp with ⟨i, rfl⟩ | ⟨l, rfl, _, h2⟩
    · cases hm
    · have := h v (by simp); omega
  | kept hk ha ht hf hel =>
    refine viaGc (fun r hm => ?_) (fun s' hc => .kept (hk.trans hc.keeps) (hc.roots.upArrays.trans ha) ht hf
      fun x hx => hel x (by simp [hx]))
    rcases hp with ⟨i, rfl⟩ | ⟨l, rfl, h1, h2⟩
    · cases hm
    · cases hm
      obtain ⟨ra, serial, m, ups, k, h3, h4, h5⟩ := h1
      have htr := hk.traced (ht _ _ _ h3)
      have h4' : s.heap[ra]? = _ := (hk.heap ra (ht _ _ _ h3)).trans h4
      have hfr : ra ∉ s.free := fun hf => f.good.sound.free_empty ra hf _ h4' rfl
      have hlen := (f.good.sound.cells ra _ h4' hfr).1
      have := getElem?_lt h5
      exact .step htr h4' (.capturedArray (by simp at hlen; omega) h5) (by simp [UnderConstruction])
  | free hh ha hc hn hel =>
    have hne : s.free ≠ [] := by
      intro h0
      rw [h0] at hn
      simp at hn
    obtain ⟨r, k, s', h1, h2, h3, h4, h5, h6⟩ := take_ok f.good.sound hne (o := .upvalue u) (fun _ => hok)
      (fun _ => by simp [UnderConstruction, store])
    rw [h1]
    refine ⟨⟨h2, h3 f.good.finished⟩, h4.roots.stack, h4.roots.upStack, h4.roots.currentBytecode.trans f.current,
      h4.live f.cell, ⟨h6, _, h5, rfl⟩, .free (fun c hcf => ?_) (h4.roots.upArrays.trans ha) hc ?_
        fun x hx => hel x (by simp [hx])⟩
    · obtain ⟨h7, h8⟩ := hh c hcf
      refine ⟨(h4.heap c h8).trans h7, fun hm => h8 ?_⟩
      rw [h4.free] at hm
      exact List.mem_of_mem_drop hm
    · rw [h4.free, List.length_drop]
      simp only [List.length_cons] at hn
      omega

/-- The captured variables of the running function are where they were. -/
theorem Avail.element {vm : VM} {cell v : Nat} {vs : List Nat} (av : Avail vm s cell (v :: vs)) (hv : 2 ^ 31 ≤ v)
    (hg : Good vm) (hgs : Good s) :
    ∃ p, RunningElement vm (2 ^ 32 - 1 - v) p ∧ RunningElement s (2 ^ 32 - 1 - v) p ∧
      CellOk s (.upvalue (.heapUpvalue p)) := by
  have key : ∀ p, RunningElement s (2 ^ 32 - 1 - v) p → CellOk s (.upvalue (.heapUpvalue p)) := by
    intro p hp r hr
    subst hr
    exact element_live hgs.sound hp
  cases av with
  | none h => have := h v (by simp); omega
  | kept hk ha ht hf hel =>
    obtain ⟨p, hp⟩ := hel v (by simp) hv
    have hp' : RunningElement s (2 ^ 32 - 1 - v) p := by
      obtain ⟨ra, serial, m, ups, k, h3, h4, h5⟩ := hp
      exact ⟨ra, serial, m, ups, k, by rw [ha]; exact h3, (hk.heap ra (ht _ _ _ h3)).trans h4, h5⟩
    exact ⟨p, hp, hp', key p hp'⟩
  | free hh ha hc hn hel =>
    obtain ⟨p, hp⟩ := hel v (by simp) hv
    have hp' : RunningElement s (2 ^ 32 - 1 - v) p := by
      obtain ⟨ra, serial, m, ups, k, h3, h4, h5⟩ := hp
      have hfr : ra ∉ vm.free := fun hf => hg.sound.free_empty ra hf _ h4 rfl
      exact ⟨ra, serial, m, ups, k, by rw [ha]; exact h3, (hh ra hfr).1.trans h4, h5⟩
    exact ⟨p, hp, hp', key p hp'⟩

theorem post_capture' {vm : VM} {clo : Obj} {cell n v : Nat} {own : Bool} {vs : List Nat} (hg : Good vm)
    (f : Forming bc vm s clo cell n own) (av : Avail vm s cell (v :: vs)) :
    Post False (fun _ _ => True) (fun x s' => ∃ c, x.1 = some c ∧ Forming bc vm s' clo cell n (own || x.2) ∧
      Avail vm s' cell vs ∧ Live s' c .captured) (capture v s) := by
  unfold capture
  by_cases hv : v > 0x7FFFFFFF
  · rw [if_pos hv]
    obtain ⟨p, h1, h2, h3⟩ := av.element (by omega) hg f.good
    obtain ⟨u, h4, h5⟩ := element_at h2 M.ub
    rw [M.bind_ok h4, show 0x100000000 - v - 1 = 2 ^ 32 - 1 - v by omega, M.bind_ok h5]
    refine Post.bind (post_form f av h3 (.inr ⟨p, rfl, h1, by omega⟩)) ?_
    intro r s' h
    obtain ⟨h6, h7, h8⟩ := h.up (own' := own) f s.upStack (fun _ h => h) (fun _ h => .inl h) f.height
    have e : ({ s' with upStack := s.upStack } : VM) = s' := by rw [← h.upStack]
    rw [e] at h6 h7 h8
    exact ⟨r, rfl, by simpa using h6, h7, h8⟩
  · rw [if_neg hv, M.bind_ok (show M.get s = .ok s s from rfl)]
    split
    · trivial
    · rename_i hi
      generalize hidx : ((s.stack.length : Int) - 1 - v) = idx at hi
      split
      · rename_i hself
        have hlen : s.stack.length = vm.stack.length + 1 := by rw [f.stack]; simp
        have hsf : own = false := by
          cases own with
          | false => rfl
          | true => have := f.height; simp at this; omega
        subst hsf
        have hpost := post_form f av (u := .stackIndex idx) trivial (.inl ⟨_, rfl⟩)
        cases he : pushObject (Obj.upvalue (Upvalue.stackIndex idx)) s with
        | ok r s' =>
          rw [he] at hpost
          have h : Formed bc vm s s' cell n vs r := hpost
          dsimp only
          rw [M.bind_ok (show M.set s' s = .ok () s' from rfl),
            M.bind_ok (show pushUpOnly (some r) s' = .ok () { s' with upStack := s'.upStack ++ [some r] } from rfl)]
          obtain ⟨h6, h7, h8⟩ := h.up (own' := true) f (s'.upStack ++ [some r])
            (fun c hc => List.mem_append_left _ (by rw [h.upStack]; exact hc))
            (fun c hc => by
              rcases List.mem_append.1 hc with hc | hc
              · exact .inl (by rw [← h.upStack]; exact hc)
              · simp at hc; exact .inr hc)
            (by rw [h.upStack, List.length_append, f.height]; simp)
          exact ⟨r, rfl, h6, h7, h8⟩
        | err e s' => trivial
        | ub => rw [he] at hpost; exact hpost.elim
        | diverge => rw [he] at hpost; exact hpost.elim
      · cases hu : s.upStack[idx.toNat]? with
        | none => trivial
        | some w =>
          have hlt := getElem?_lt hu
          cases w with
          | none =>
            dsimp only
            refine Post.bind (post_form f av (u := .stackIndex idx) trivial (.inl ⟨_, rfl⟩)) ?_
            intro r s' h
            rw [M.bind_ok (show M.modify _ s' = .ok () { s' with upStack := s'.upStack.set idx.toNat (some r) } from rfl)]
            obtain ⟨h6, h7, h8⟩ := h.up (own' := own) f (s'.upStack.set idx.toNat (some r))
              (fun c hc => by
                rw [h.upStack]
                obtain ⟨k, hk⟩ := List.mem_iff_getElem?.1 hc
                refine List.mem_iff_getElem?.2 ⟨k, ?_⟩
                rw [List.getElem?_set_ne]
                · exact hk
                · rintro rfl
                  rw [hu] at hk
                  cases hk)
              (fun c hc => by
                rcases List.mem_or_eq_of_mem_set hc with hc | hc
                · exact .inl (by rw [← h.upStack]; exact hc)
                · cases hc; exact .inr rfl)
              (by rw [List.length_set, h.upStack, f.height])
            exact ⟨r, rfl, by simpa using h6, h7, h8⟩
          | some r =>
            have hlr := f.good.sound.captured r (List.mem_of_getElem? hu)
            obtain ⟨u, hr, -⟩ := live_captured f.good.sound hlr
            dsimp only
            rw [M.bind_ok (readCell_some hr)]
            refine ⟨r, rfl, by simpa using f, ?_, hlr⟩
            cases av with
            | none h => exact .none fun x hx => h x (by simp [hx])
            | kept hk ha ht hf hel => exact .kept hk ha ht hf fun x hx => hel x (by simp [hx])
            | free hh ha hc hn hel =>
              exact .free hh ha hc (by simp at hn; omega) fun x hx => hel x (by simp [hx])

theorem post_setCapture' {vm : VM} {clo : Obj} {cell n k c : Nat} {own : Bool} {vs : List Nat}
    (f : Forming bc vm s clo cell n own) (av : Avail vm s cell vs) (hk : k < n) (hl : Live s c .captured) :
    Post False (fun _ _ => True) (fun _ s' => Forming bc vm s' clo cell n own ∧ Avail vm s' cell vs)
      (setCapture cell k (some c) s) := by
  obtain ⟨b, h1, hok⟩ := live_captures f.good.sound f.cell
  have hlen := hok.1
  cases b with
  | none => simp at hlen; omega
  | some blk =>
    have hlen : blk.ups.length = n := hlen
    unfold setCapture
    rw [M.bind_ok (readCell_some h1)]
    dsimp only
    rw [if_pos (by omega)]
    have hlt := getElem?_lt h1
    refine post_write hlt ⟨⟨?_, f.stack, f.height, f.current, f.men, f.cell.1, _, List.getElem?_set_self hlt, rfl⟩, ?_⟩
    · refine f.good.write h1 f.cell.1 rfl ⟨by simpa using hlen, fun r hr => ?_⟩ (by simp [UnderConstruction])
      rcases List.mem_or_eq_of_mem_set hr with hr | hr
      · exact hok.2 r hr
      · cases hr
        exact hl
    · cases av with
      | none h => exact .none h
      | kept hk ha ht hf hel => exact .kept (hk.write _ hf) ha ht hf hel
      | free hh ha hc hn hel =>
        refine .free (fun r hr => ⟨?_, (hh r hr).2⟩) ha hc hn hel
        have : cell ≠ r := fun e => hr (e ▸ hc)
        show (s.heap.set cell _)[r]? = _
        rw [List.getElem?_set_ne this]
        exact (hh r hr).1

theorem post_captures' {vm : VM} {clo : Obj} {cell n : Nat} (hg : Good vm) :
    ∀ (vs : List Nat) (k : Nat) (s : VM) (own : Bool), k + vs.length = n → Forming bc vm s clo cell n own →
      Avail vm s cell vs →
      Post False (fun _ _ => True) (fun own s' => Forming bc vm s' clo cell n own) (captures cell k vs own s)
  | [], _, _, _, _, f, _ => f
  | v :: vs, k, s, own, hlen, f, av => by
    unfold captures
    refine Post.bind (post_capture' hg f av) ?_
    rintro ⟨p, self⟩ s1 ⟨c, hp, h1, h2, h3⟩
    cases hp
    dsimp only at h1 ⊢
    refine Post.bind (post_setCapture' h1 h2 (by simp at hlen; omega) h3) ?_
    rintro _ s2 ⟨h4, h5⟩
    exact post_captures' hg vs (k + 1) s2 (own || self) (by simp at hlen; omega) h4 h5

/-- If the instruction makes a function, the function starts where one may. -/
def StartsOk (s : VM) (bc : Nat) (st : CodePtr) : Instr → Prop
  | .pushClosure variadic base disp arity _ =>
      ∀ blk n, s.heap[bc]? = some (.bytecode (some blk) n) → st = ⟨bc, blk.serial, st.off⟩ →
        Entries.ok blk (disp + (st.off + base)) arity variadic
  | _ => True

theorem post_pushClosure' {variadic : Bool} {base : Nat} {disp : Int} {arity : UInt8} {vs : List Nat}
    (hr : Running bc s) (hcode : IsCode s bc st.off st) (hen : StartsOk s bc st (.pushClosure variadic base disp arity vs))
    (hf : ¬ Faulty s (.pushClosure variadic base disp arity vs)) :
    Post False (fun _ _ => True) (fun _ s' => Running bc s') (iPushClosure bc st variadic base disp arity vs s) := by
  have hg := hr.good
  have hlev := hr.level
  unfold Lockstep at hlev
  obtain ⟨blk, n, hb, hst⟩ := hcode
  unfold iPushClosure
  rw [M.bind_ok (show codeSerial bc s = .ok blk.serial s by unfold codeSerial; rw [hb])]
  rw [if_pos (by rw [hst]; exact ⟨rfl, rfl⟩)]
  have hlbc : Live s bc (.code (some blk)) := ⟨(hg.sound.running bc hr.current).elim fun _ h => h.1, _, hb, rfl⟩
  have htbc : Traced s bc := traced_running hr.current
  have hcell : ∀ k, CellOk s (store k (.upvalueArray none vs.length)) := by
    intro k
    rw [store_captures]
    split
    · exact ⟨rfl, by simp⟩
    · exact ⟨by simp, fun r hr => by simp at hr⟩
  have hucon : ∀ k, ¬ UnderConstruction (store k (.upvalueArray none vs.length)) := by
    intro k
    rw [store_captures]
    split <;> simp [UnderConstruction]
  have hshape : ∀ k, shape (store k (.upvalueArray none vs.length)) = .captures vs.length := by
    intro k
    clear hlbc hb hen
    rw [store_captures]
    split <;> simp_all [shape]
  have hcon : Post False (fun _ _ => True) (fun cell s' => Good s' ∧ SameRoots s s' ∧ Live s' bc (.code (some blk)) ∧
      Live s' cell (.captures vs.length) ∧ Avail s s' cell vs) (pushObject (.upvalueArray none vs.length) s) := by
    have viaGc : (∀ cell s', Carried s s' → ¬ Traced s cell → Avail s s' cell vs) →
        Post False (fun _ _ => True) (fun cell s' => Good s' ∧ SameRoots s s' ∧ Live s' bc (.code (some blk)) ∧
          Live s' cell (.captures vs.length) ∧ Avail s s' cell vs) (pushObject (.upvalueArray none vs.length) s) := by
      intro hav
      refine (post_allocCell hg.sound hcell (fun k r _ hm => ?_) (fun _ _ _ _ => trivial)).imp ?_
      · rw [store_captures] at hm
        split at hm
        · cases hm
        · cases hm with
          | capturedArray hi h =>
            rw [List.getElem?_replicate] at h
            split at h <;> cases h
      · rintro r s' ⟨k, al, hf⟩
        refine ⟨⟨al.sound, hf hg.finished (hucon k)⟩, al.carried.roots, al.carried.live htbc hlbc, ?_,
          hav r s' al.carried al.fresh⟩
        have := al.live
        rwa [hshape] at this
    by_cases hv : ∃ v ∈ vs, 2 ^ 31 ≤ v
    · have hel : ∀ v ∈ vs, 2 ^ 31 ≤ v → ∃ p, RunningElement s (2 ^ 32 - 1 - v) p := by
        intro v hm hb
        refine Classical.byContradiction fun h => hf (.inl ⟨v, hm, hb, fun p hp => h ⟨p, hp⟩⟩)
      by_cases hk : CapturesKept s
      · exact viaGc fun cell s' hc hfr => .kept hc.keeps hc.roots.upArrays
          (fun r serial n h => traced_of_reachable hg.sound hg.finished (hk r serial n h)) hfr hel
      · have hfree : vs.length < s.free.length := Nat.lt_of_not_le fun h => hf (.inr ⟨hv, hk, h⟩)
        have hne : s.free ≠ [] := by
          intro h0
          rw [h0] at hfree
          simp at hfree
        obtain ⟨r, k, s', h1, h2, h3, h4, h5, h6⟩ := take_ok hg.sound hne hcell hucon
        rw [h1]
        refine ⟨⟨h2, h3 hg.finished⟩, h4.roots, h4.live hlbc, ⟨h6, _, h5, hshape k⟩,
          .free (fun c hcf => ⟨h4.heap c hcf, fun hm => hcf ?_⟩) h4.roots.upArrays ?_ ?_ hel⟩
        · rw [h4.free] at hm
          exact List.mem_of_mem_drop hm
        · cases hfl : s.free with
          | nil => exact absurd hfl hne
          | cons x xs =>
            have := pushObject_take (o := .upvalueArray none vs.length) hfl
            rw [this] at h1
            cases h1
            simp
        · rw [h4.free, List.length_drop]
          omega
    · exact viaGc fun cell s' _ _ => .none fun v hm => Nat.lt_of_not_le fun h => hv ⟨v, hm, h⟩
  refine Post.bind hcon ?_
  rintro cell s1 ⟨g1, hroots, hbc1, hc1, av⟩
  generalize hclo : Obj.closure (disp + (st.off + base)) (some bc) (some cell) arity variadic = clo
  dsimp only
  rw [M.bind_ok (show pushStackOnly clo s1 = .ok () { s1 with stack := s1.stack ++ [clo] } from rfl)]
  have hclok : ValueOk s1 clo := by
    rw [← hclo]
    exact ⟨bc, cell, vs.length, rfl, rfl, ⟨blk, hbc1, hen _ _ hb hst⟩, hc1⟩
  have f0 : Forming bc s { s1 with stack := s1.stack ++ [clo] } clo cell vs.length false := by
    refine ⟨?_, by rw [← hroots.stack], ?_, hroots.currentBytecode.trans hr.current, ?_, hc1⟩
    · refine g1.stacks (s1.stack ++ [clo]) s1.upStack (fun o ho => ?_) g1.sound.captured
      rcases List.mem_append.1 ho with ho | ho
      · exact g1.sound.stack o ho
      · simp at ho
        subst ho
        exact hclok
    · show s1.upStack.length = _
      rw [hroots.upStack, ← hlev]
      rfl
    · rw [← hclo]
      exact .captured
  have av0 : Avail s { s1 with stack := s1.stack ++ [clo] } cell vs := by
    cases av with
    | none h => exact .none h
    | kept hk ha ht hf hel =>
      exact .kept (hk.more (s1.stack ++ [clo]) s1.upStack (fun o ho => List.mem_append_left _ ho) (fun _ h => h)) ha ht hf hel
    | free hh ha hc hn hel => exact .free hh ha hc hn hel
  refine Post.bind (post_captures' hg vs 0 _ false (by simp) f0 av0) ?_
  intro own s2 f2
  have fin : ∀ s3 : VM, s3.stack = s.stack ++ [clo] → s3.upStack.length = s3.stack.length → Good s3 →
      s3.currentBytecode = some bc → Post False (fun _ _ => True) (fun _ s' => Running bc s')
        ((do let n ← height; setStackAt (n - 1) clo : M Unit) s3) := by
    intro s3 h1 h2 h3 h4
    rw [M.bind_ok (show height s3 = .ok s3.stack.length s3 from rfl)]
    have hset : setStackAt ((s3.stack.length : Int) - 1) clo s3 = .ok () s3 := by
      unfold setStackAt
      have e : ((s3.stack.length : Int) - 1) = ((s.stack.length : Nat) : Int) := by rw [h1]; simp
      rw [e, if_pos ⟨by omega, by rw [h1]; simp⟩, Int.toNat_natCast]
      have : s3.stack.set s.stack.length clo = s3.stack := by
        rw [h1, List.set_append_right _ _ (Nat.le_refl _)]
        simp
      rw [this]
    rw [hset]
    exact ⟨h3, h2.symm, h4⟩
  cases own with
  | true => exact fin s2 f2.stack (by rw [f2.height, f2.stack]; simp) f2.good f2.current
  | false =>
    show Post False _ _ ((pushUpOnly none >>= fun _ => _) s2)
    rw [M.bind_ok (show pushUpOnly none s2 = .ok () { s2 with upStack := s2.upStack ++ [none] } from rfl)]
    refine fin { s2 with upStack := s2.upStack ++ [none] } f2.stack ?_ ?_ f2.current
    · show (s2.upStack ++ [none]).length = s2.stack.length
      rw [f2.stack, List.length_append, f2.height]
      simp
    · refine f2.good.stacks s2.stack (s2.upStack ++ [none]) f2.good.sound.stack (fun r hr => ?_)
      rcases List.mem_append.1 hr with hr | hr
      · exact f2.good.sound.captured r hr
      · simp at hr

/-! ### All instructions -/

theorem post_variable {i : Instr} (hr : Running bc s) (hv : IsVariable i) (hm : MakesFunction i → IsCode s bc st.off st)
    (hen : StartsOk s bc st i) (hf : ¬ Faulty s i) : Post False (fun _ _ => True) (fun _ s' => Running bc s') (exec env bc st nx i s) := by
  have key : Post False (fun _ _ => True) (fun _ s' => Running bc s') (plain env bc st i s) := by
    cases i <;> simp only [IsVariable] at hv <;> simp only [plain]
    case pushUpvalue j => exact post_pushUpvalue hr hf
    case setUpvalue j a => exact post_setUpvalue hr hf
    case releaseUpvalues as => exact post_releaseUpvalues' as s hr hf
    case pushClosure => exact post_pushClosure' hr (hm trivial) hen hf
  have hp : IsPlain i := by cases i <;> first | trivial | exact hv.elim
  cases ho : plain env bc st i s with
  | ok a s' => rw [ho] at key; rw [exec_plain_ok hp ho]; exact key
  | err e s' => rw [exec_plain_err hp ho]; trivial
  | ub => rw [ho] at key; exact key.elim
  | diverge => rw [ho] at key; exact key.elim

theorem instr_kinds (i : Instr) : IsData i ∨ IsControl i ∨ IsVariable i := by
  cases i <;> simp [IsData, IsControl, IsVariable]

/-- One instruction. -/
theorem post_exec {i : Instr} (hr : Running bc s) (hh : HostBehaves env bc) (hl : LiteralsFitMachine i)
    (hm : MakesFunction i → IsCode s bc st.off st) (hen : StartsOk s bc st i) (hf : ¬ Faulty s i) :
    Post False (fun _ _ => True) (fun _ s' => Running bc s') (exec env bc st nx i s) := by
  rcases instr_kinds i with hd | hc | hv
  · have h := post_data (env := env) (bc := bc) (st := st) hr.good hd hl hf
    have hp : IsPlain i := by cases i <;> first | trivial | exact hd.elim
    cases ho : plain env bc st i s with
    | ok a s' =>
      rw [ho] at h
      rw [exec_plain_ok hp ho]
      obtain ⟨h1, h2⟩ := data_keeps hd ho
      exact ⟨h, h2 hr.level, h1.trans hr.current⟩
    | err e s' => rw [exec_plain_err hp ho]; trivial
    | ub => rw [ho] at h; exact h.elim
    | diverge => rw [ho] at h; exact h.elim
  · exact post_control hr hh hc hf
  · exact post_variable hr hv hm hen hf

theorem step_at {ip : CodePtr} {i : Instr} {blk : CodeBlock} {n : Nat} {rest : Bytes}
    (h1 : s.heap[ip.cell]? = some (.bytecode (some blk) n)) (h2 : blk.serial = ip.serial) (h3 : 0 ≤ ip.off)
    (h4 : ip.off.toNat ≤ blk.bytes.length) (h5 : decode (blk.bytes.drop ip.off.toNat) = some (i, rest)) :
    step env bc ip s = exec env bc ip { ip with off := ip.off + ((blk.bytes.drop ip.off.toNat).length - rest.length : Nat) } i s := by
  have hfe : fetch ip s = .ok (blk.bytes.drop ip.off.toNat) s := by
    unfold fetch
    rw [h1]
    exact if_pos ⟨h2, h3, h4⟩
  unfold step
  rw [M.bind_ok hfe, M.bind_ok (show M.need (decode _) s = .ok (i, rest) s by rw [h5]; rfl)]

theorem step_eq {ip : CodePtr} {i : Instr} (h : InstructionAt s ip i) :
    ∃ nx, step env bc ip s = exec env bc ip nx i s := by
  obtain ⟨blk, n, rest, h1, h2, h3, h4, h5⟩ := h
  exact ⟨_, step_at h1 h2 h3 h4 h5⟩

theorem post_step {ip : CodePtr} (hr : Running bc s) (hh : HostBehaves env bc) (hp : ¬ Pitfall s ip)
    (hen : ∀ i, InstructionAt s ip i → StartsOk s bc ip i) :
    Post False (fun _ _ => True) (fun _ s' => Running bc s') (step env bc ip s) := by
  by_cases hi : ∃ i, InstructionAt s ip i
  · obtain ⟨i, hi⟩ := hi
    obtain ⟨nx, hn⟩ := step_eq (env := env) (bc := bc) hi
    rw [hn]
    have hen := hen i hi
    obtain ⟨blk, n, rest, h1, h2, h3, h4, h5⟩ := hi
    refine post_exec hr hh (decode_fits h5) (fun hm => ?_) hen fun h => hp (.inr ⟨i, ⟨blk, n, rest, h1, h2, h3, h4, h5⟩, .inl h⟩)
    have hc : s.currentBytecode = some ip.cell :=
      Classical.byContradiction fun h => hp (.inr ⟨i, ⟨blk, n, rest, h1, h2, h3, h4, h5⟩, .inr ⟨hm, h⟩⟩)
    have hb : ip.cell = bc := by
      rw [hr.current] at hc
      exact (Option.some.inj hc).symm
    exact ⟨blk, n, hb ▸ h1, by rw [h2, ← hb]⟩
  · exact absurd (.inl hi) hp

end DuckLisp.VM
