import Verif.Props.VM.HostSequences
import Verif.Props.VM.Closures

/-!
# C60: closures in the hands of the host
-/

namespace DuckLisp.VM

open DuckLisp DuckLisp.Spec DuckLisp.Props

/-! ### Helpers -/

theorem closureUpvalue_some {vm : VM} {u k c : Nat} {b : Option UpBlock} {n : Nat}
    (hb : vm.heap[u]? = some (.upvalueArray b n)) (hc : ((b.map UpBlock.ups).getD [])[k]? = some (some c)) :
    closureUpvalue (some u) k vm = .ok (some c) vm := by
  unfold closureUpvalue
  simp only
  rw [M.bind_ok (readCell_some hb)]
  simp only
  rw [if_pos (by omega)]
  cases b with
  | none => simp at hc
  | some b =>
    rw [M.bind_ok (show M.need (some b) vm = .ok b vm from rfl), Int.toNat_natCast]
    simp only [Option.map_some, Option.getD_some] at hc
    rw [hc]
    rfl

theorem closureGet_eq {vm : VM} {u k c : Nat} {b : Option UpBlock} {n : Nat} {pl : Place} {o : Obj}
    (hb : vm.heap[u]? = some (.upvalueArray b n)) (hc : ((b.map UpBlock.ups).getD [])[k]? = some (some c))
    (hd : Denotes vm c pl) (ho : contents vm pl = some o) : closureGet (some u) k vm = .ok o vm := by
  unfold closureGet
  rw [M.bind_ok (closureUpvalue_some hb hc), M.bind_ok (show chaseFuel vm = .ok (vm.heap.length + 1) vm from rfl),
    M.bind_ok (chase_denotes hd)]
  cases pl with
  | slot i =>
    show getAbs i vm = _
    unfold getAbs M.orErr
    rw [if_pos (by omega), Int.toNat_natCast]
    have : vm.stack[i]? = some o := ho
    rw [this]
    rfl
  | cell r => exact readCell_some ho

theorem closureSet_eq {vm : VM} {u k c q : Nat} {b : Option UpBlock} {n : Nat} {pl : Place} {o x : Obj}
    (hb : vm.heap[u]? = some (.upvalueArray b n)) (hc : ((b.map UpBlock.ups).getD [])[k]? = some (some c))
    (hd : Denotes vm c pl) (ho : contents vm pl = some o) (hq : vm.heap[q]? = some x) :
    closureSet (some u) k q vm = .ok () (assigned vm x pl) := by
  unfold closureSet
  rw [M.bind_ok (closureUpvalue_some hb hc), M.bind_ok (show chaseFuel vm = .ok (vm.heap.length + 1) vm from rfl),
    M.bind_ok (chase_denotes hd)]
  cases pl with
  | slot i =>
    show (readCell q >>= fun x => setAbs i x) vm = _
    rw [M.bind_ok (readCell_some hq)]
    unfold setAbs
    rw [if_pos ⟨by omega, by rw [Int.toNat_natCast]; exact getElem?_lt ho⟩, Int.toNat_natCast]
    rfl
  | cell r =>
    show (M.need (some r) >>= _) vm = _
    rw [M.bind_ok (show M.need (some r) vm = .ok r vm from rfl), M.bind_ok (readCell_some hq)]
    unfold writeCell
    rw [if_pos (getElem?_lt ho)]
    rfl

/-! ### Theorems -/

/-- C60: the host reads where the code of a closure on top of the stack begins, how many arguments it takes and whether it
takes more, and can get at the code. -/
theorem C60_parts (vm : VM) (pos : Int) (code u : Nat) (arity : UInt8) (variadic : Bool) (x : Obj)
    (h : operand vm 1 = some (.closure pos (some code) (some u) arity variadic)) (hx : vm.heap[code]? = some x) :
    apiCopyClosureName vm = .ok pos vm ∧ apiCopyClosureArity vm = .ok arity vm ∧
    apiCopyClosureIsVariadic vm = .ok variadic vm ∧ apiPushClosureBytecode vm = .ok () (pushed vm x) := by
  refine ⟨?_, ?_, ?_, ?_⟩
  · unfold apiCopyClosureName
    rw [M.bind_ok (getTop_some h)]
    rfl
  · unfold apiCopyClosureArity
    rw [M.bind_ok (getTop_some h)]
    rfl
  · unfold apiCopyClosureIsVariadic
    rw [M.bind_ok (getTop_some h)]
    rfl
  · unfold apiPushClosureBytecode
    rw [M.bind_ok (getTop_some h)]
    simp only [pushPtr]
    rw [M.bind_ok (readCell_some hx)]
    rfl

/-- C60: the length of a closure is the number of variables it has captured, and it is empty if there are none. -/
theorem C60_length (vm : VM) (pos : Int) (code : Option Nat) (u : Nat) (arity : UInt8) (variadic : Bool) (pls : List Place)
    (h : operand vm 1 = some (.closure pos code (some u) arity variadic)) (hu : IsClosureOver vm u pls) :
    apiLength vm = .ok pls.length vm ∧ apiIsEmpty vm = .ok (decide (pls = [])) vm := by
  obtain ⟨b, hb, _⟩ := hu
  constructor
  · unfold apiLength
    rw [M.bind_ok (getTop_some h)]
    simp only
    rw [M.bind_ok (readCell_some hb)]
    rfl
  · unfold apiIsEmpty
    rw [M.bind_ok (getTop_some h)]
    simp only
    rw [M.bind_ok (readCell_some hb)]
    cases pls <;> rfl

/-- C60: the elements of a closure are the values that the variables it has captured have now, wherever they live. -/
theorem C60_element (vm : VM) (pos : Int) (code : Option Nat) (u k : Nat) (arity : UInt8) (variadic : Bool)
    (pls : List Place) (pl : Place) (o : Obj) (h : operand vm 1 = some (.closure pos code (some u) arity variadic))
    (hu : IsClosureOver vm u pls) (hk : pls[k]? = some pl) (ho : contents vm pl = some o) :
    apiPushElement k vm = .ok () (pushed vm o) ∧ (k = 0 → apiPushFirst vm = .ok () (pushed vm o)) := by
  obtain ⟨b, hb, hcs⟩ := hu
  obtain ⟨c, hc, hd⟩ := hcs k pl hk
  constructor
  · unfold apiPushElement
    rw [M.bind_ok (getTop_some h)]
    simp only
    rw [M.bind_ok (closureGet_eq hb hc hd ho)]
    rfl
  · rintro rfl
    unfold apiPushFirst
    rw [M.bind_ok (getTop_some h)]
    simp only
    rw [M.bind_ok (show orGarbage (closureGet (some u) 0) vm = .ok o vm by
      have := closureGet_eq hb hc hd ho
      unfold orGarbage
      rw [show (0 : Int) = ((0 : Nat) : Int) from rfl, this])]
    rfl

/-- C60: setting an element of a closure at any place of the stack assigns to the captured variable where it lives, so that
all closures that have captured it see the new value.  All variables in reach live where they lived, all closures have
captured what they had captured, and the other variables keep their values.  Otherwise memory ran out, and nothing
changed. -/
theorem C60_set_element (vm : VM) (hg : Good vm) (hl : Linked vm) (i : Int) (pos : Int) (code : Option Nat) (u k : Nat)
    (arity : UInt8) (variadic : Bool) (pls : List Place) (pl : Place) (o x : Obj) (h : operand vm 1 = some x)
    (hi : slot vm i = some (.closure pos code (some u) arity variadic)) (hu : IsClosureOver vm u pls)
    (hk : pls[k]? = some pl) (ho : contents vm pl = some o) :
    (∃ vm', apiSetElement k i vm = .ok () vm' ∧ (k = 0 → apiSetFirst i vm = .ok () vm') ∧
      contents vm' pl = some x ∧
      (∀ c p, Reachable vm c → Denotes vm c p → Denotes vm' c p ∧ (p ≠ pl → contents vm' p = contents vm p)) ∧
      (∀ v qls, Reachable vm v → IsClosureOver vm v qls → IsClosureOver vm' v qls) ∧
      Untouched vm vm' (match pl with | .slot _ => [] | .cell r => [r]) ∧
      vm'.stack.length = vm.stack.length ∧ (∀ j : Nat, pl ≠ .slot j → vm'.stack[j]? = vm.stack[j]?) ∧
      vm'.upStack = vm.upStack ∧ Good vm' ∧ Linked vm') ∨
    ∃ vm', apiSetElement k i vm = .err .outOfMemory vm' ∧ vm'.stack = vm.stack ∧ Untouched vm vm' [] ∧ Good vm' := by
  obtain ⟨b, hb, hcs⟩ := hu
  obtain ⟨c, hc, hd⟩ := hcs k pl hk
  have hT := fun r => traced_of_reachable (r := r) hg.sound hg.finished
  have hut : Traced vm u := pinned_stack hg.sound (slot_mem hi) u .captured
  have hkn : k < pls.length := getElem?_lt hk
  have hct : Traced vm c := by
    cases b with
    | none => simp at hc
    | some b => exact .step hut hb (.capturedArray hkn hc) (by simp [UnderConstruction])
  obtain ⟨_, hul⟩ := hut.live hg.sound
  have hcl : Live vm c .captured := (hg.sound.cells u _ hb hul.1).2 c (List.mem_of_getElem? hc)
  rcases (post_copy (U := False) (E := fun e s' => e = .outOfMemory ∧ Good s' ∧ Carried vm s') hg (operand_mem h)
      (fun s' h1 h2 => ⟨rfl, h1, h2⟩)).cases with ⟨q, s1, hq, hg1, al, hlq, hv⟩ | ⟨e, s1, hq, rfl, hg1, c1⟩
  · have c1 := al.carried
    have hl1 : Linked s1 := linked_alloc hl al (fun j => value_not_upvalue hv _)
    have hb1 := (c1.heap u hut).trans hb
    have hd1 : ∀ c p, Traced vm c → Denotes vm c p → Denotes s1 c p := fun c p ht hd =>
      denotes_keeps (fun r hr => c1.heap r hr) hd ht
    have hv1 : ∀ c p, Traced vm c → Denotes vm c p → contents s1 p = contents vm p := by
      intro c p ht hd
      cases p with
      | slot j =>
        show s1.stack[j]? = _
        rw [c1.roots.stack]
        rfl
      | cell r => exact c1.heap r (denotes_traced hd ht rfl)
    have ho1 := (hv1 c pl hct hd).trans ho
    have hget : stackGet i s1 = .ok (.closure pos code (some u) arity variadic) s1 := by
      rw [stackGet_eq, show slot s1 i = slot vm i by unfold slot slotNumber; rw [c1.roots.stack], hi]
    obtain ⟨k1, k2, k3⟩ := good_assigned hg1 hl1
      (fun r hr => denotes_live hg1.sound (hd1 c pl hct hd) (c1.live hct hcl) hr) ho1 hv
    have hset := closureSet_eq hb1 hc (hd1 c pl hct hd) ho1 al.cell
    have hkeep : ∀ d, Reachable vm d → pl ≠ .cell d → (assigned s1 x pl).heap[d]? = vm.heap[d]? := by
      intro d hr hp
      refine Eq.trans ?_ (c1.heap d (hT d hr))
      cases pl with
      | slot j => rfl
      | cell r => exact List.getElem?_set_ne (fun e => hp (by rw [e]))
    have hden : ∀ d p, Reachable vm d → Denotes vm d p → Denotes (assigned s1 x pl) d p := fun d p hr hdp =>
      (k3.denotes d p).2 (hd1 d p (hT d hr) hdp)
    refine .inl ⟨assigned s1 x pl, ?_, ?_, k3.here, ?_, ?_, ?_, ?_, ?_, ?_, k1, k2⟩
    · unfold apiSetElement
      rw [M.bind_ok (getTop_some h), M.bind_ok hq, M.bind_ok hget]
      exact hset
    · rintro rfl
      unfold apiSetFirst
      rw [M.bind_ok (getTop_some h), M.bind_ok hq, M.bind_ok hget]
      exact hset
    · intro d p hr hdp
      exact ⟨hden d p hr hdp, fun hp => (k3.others p hp).trans (hv1 d p (hT d hr) hdp)⟩
    · rintro v qls hr ⟨b', hb', hcs'⟩
      refine ⟨b', (hkeep v hr ?_).trans hb', fun k p hk => ?_⟩
      · rintro rfl
        have hov := contents_value hg hd hcl ho
        have : vm.heap[v]? = some o := ho
        rw [hb'] at this
        cases this
        exact hov
      · obtain ⟨d, hd1, hd2⟩ := hcs' k p hk
        refine ⟨d, hd1, hden d p ?_ hd2⟩
        cases b' with
        | none => simp at hd1
        | some b' => exact .step hr hb' (.capturedArray (getElem?_lt hk) hd1)
    · cases pl with
      | slot j =>
        exact ⟨fun d hr _ => hkeep d hr (by simp), c1.roots.globals, c1.roots.callStack, c1.roots.upArrays,
          c1.roots.currentBytecode, c1.roots.nextUserType⟩
      | cell r =>
        exact ⟨fun d hr hn => hkeep d hr (by rintro ⟨⟩; simp at hn), c1.roots.globals, c1.roots.callStack,
          c1.roots.upArrays, c1.roots.currentBytecode, c1.roots.nextUserType⟩
    · rw [← c1.roots.stack]
      cases pl <;> simp [assigned]
    · intro j hj
      have := k3.others (.slot j) (fun e => hj e.symm)
      exact this.trans (by show s1.stack[j]? = _; rw [c1.roots.stack])
    · rw [← c1.roots.upStack]
      cases pl <;> rfl
  · refine .inr ⟨s1, ?_, c1.roots.stack, c1.extends.untouched hg, hg1⟩
    unfold apiSetElement
    rw [M.bind_ok (getTop_some h), M.bind_run, hq]

/-- C60: once an element of a closure has been set, that variable has the new value in every closure that has captured it,
under whatever number. -/
theorem C60_shared (vm vm' : VM) (hg : Good vm) (hl : Linked vm) (i : Int) (pos pos' : Int) (code code' : Option Nat)
    (u k v m : Nat) (arity arity' : UInt8) (variadic variadic' : Bool) (pls qls : List Place) (pl : Place) (o x : Obj)
    (h : operand vm 1 = some x) (hi : slot vm i = some (.closure pos code (some u) arity variadic))
    (hu : IsClosureOver vm u pls) (hk : pls[k]? = some pl) (ho : contents vm pl = some o) (hv : Reachable vm v)
    (hv' : IsClosureOver vm v qls) (hm : qls[m]? = some pl) (hset : apiSetElement k i vm = .ok () vm') :
    ∃ s, s = pushed vm' (.closure pos' code' (some v) arity' variadic') ∧ apiPushElement m s = .ok () (pushed s x) := by
  rcases C60_set_element vm hg hl i pos code u k arity variadic pls pl o x h hi hu hk ho with
    ⟨s, hs, _, hx, _, hc, _⟩ | ⟨s, hs, _⟩
  · rw [hset] at hs
    cases hs
    refine ⟨_, rfl, (C60_element _ pos' code' v m arity' variadic' qls pl x (operand_pushed _ _) ?_ hm ?_).1⟩
    · obtain ⟨b, hb, hcs⟩ := hc v qls hv hv'
      refine ⟨b, hb, fun k p hk => ?_⟩
      obtain ⟨c, h1, h2⟩ := hcs k p hk
      exact ⟨c, h1, denotes_heap (a := vm') (b := pushed vm' _) rfl h2⟩
    · cases pl with
      | slot j => exact (List.getElem?_append_left (getElem?_lt hx)).trans hx
      | cell r => exact hx
  · rw [hset] at hs
    cases hs

/-- C60, violated: nothing checks the number of the variable; one the closure has not captured is read from beyond its
captured variables. -/
theorem C60_element_beyond (vm : VM) (hg : Good vm) (pos : Int) (code : Option Nat) (u : Nat) (k : Int) (arity : UInt8)
    (variadic : Bool) (pls : List Place) (h : operand vm 1 = some (.closure pos code (some u) arity variadic))
    (hu : IsClosureOver vm u pls) (hk : k < 0 ∨ (pls.length : Int) ≤ k) : apiPushElement k vm = .ub := by
  obtain ⟨b, hb, _⟩ := hu
  obtain ⟨_, hul⟩ := (pinned_stack hg.sound (operand_mem h) u .captured).live hg.sound
  have hlen := (hg.sound.cells u _ hb hul.1).1
  have : closureUpvalue (some u) k vm = .ub := by
    unfold closureUpvalue
    simp only
    rw [M.bind_ok (readCell_some hb)]
    simp only
    by_cases h0 : 0 ≤ k
    · rw [if_pos h0]
      cases b with
      | none => rfl
      | some b =>
        rw [M.bind_ok (show M.need (some b) vm = .ok b vm from rfl)]
        simp at hlen
        rw [List.getElem?_eq_none (by omega)]
        rfl
    · rw [if_neg h0]
      rfl
  unfold apiPushElement
  rw [M.bind_ok (getTop_some h)]
  simp only [closureGet]
  rw [M.bind_run, M.bind_run, this]

/-- C60, violated: closures have no rest, but instead of an error the host gets an object that was never set. -/
theorem C60_rest (vm : VM) (pos : Int) (code u : Option Nat) (arity : UInt8) (variadic : Bool)
    (h : operand vm 1 = some (.closure pos code u arity variadic)) : apiPushRest vm = .ub := by
  unfold apiPushRest
  rw [M.bind_ok (getTop_some h)]
  rfl

/-! ### A machine with two closures over the same variable -/

/-- The two closures of `sharingVM` have captured the variable in slot 0, the second through the first. -/
theorem sharingVM_closures : IsClosureOver sharingVM 2 [.slot 0] ∧ IsClosureOver sharingVM 4 [.slot 0] := by
  refine ⟨⟨_, rfl, ?_⟩, ⟨_, rfl, ?_⟩⟩
  · intro k pl hk
    match k with
    | 0 => cases hk; exact ⟨1, rfl, .slot rfl⟩
    | k + 1 => simp at hk
  · intro k pl hk
    match k with
    | 0 => cases hk; exact ⟨3, rfl, .link rfl (.slot rfl)⟩
    | k + 1 => simp at hk

example : Good sharingVM ∧ Linked sharingVM ∧ operand sharingVM 1 = some (.integer 9) ∧
    slot sharingVM (-2) = some (.closure 0 (some 0) (some 4) 0 false) ∧ contents sharingVM (.slot 0) = some (.integer 7) :=
  ⟨sharingVM_good, sharingVM_linked, rfl, rfl, rfl⟩

/-- The second closure is set, and the first, which is in reach, has captured the same variable. -/
example : Reachable sharingVM 2 ∧ IsClosureOver sharingVM 2 [.slot 0] ∧
    (match apiSetElement 0 (-2) sharingVM with
      | .ok _ vm' => decide (vm'.stack[0]? = some (.integer 9))
      | _ => false) = true :=
  ⟨.root (.stack (o := .closure 0 (some 0) (some 2) 0 false) (by simp [sharingVM]) .captured),
    sharingVM_closures.1, by decide +kernel⟩

/-- Once a closure is on top, its parts can be read. -/
example : operand (pushed sharingVM (.closure 0 (some 0) (some 4) 0 false)) 1 =
    some (.closure 0 (some 0) (some 4) 0 false) ∧
    IsClosureOver (pushed sharingVM (.closure 0 (some 0) (some 4) 0 false)) 4 [.slot 0] ∧
    contents (pushed sharingVM (.closure 0 (some 0) (some 4) 0 false)) (.slot 0) = some (.integer 7) := by
  refine ⟨rfl, ⟨_, rfl, ?_⟩, rfl⟩
  intro k pl hk
  match k with
  | 0 => cases hk; exact ⟨3, rfl, .link rfl (.slot rfl)⟩
  | k + 1 => simp at hk

#print axioms C60_parts
#print axioms C60_length
#print axioms C60_element
#print axioms C60_set_element
#print axioms C60_shared
#print axioms C60_element_beyond
#print axioms C60_rest

end DuckLisp.VM
