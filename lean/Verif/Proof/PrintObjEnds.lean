import Verif.Proof.PrintObj
import Verif.Proof.PrintObjSafe
import Mathlib.Data.Finite.Defs
import Mathlib.Data.Set.Finite.List
import Mathlib.Data.Fintype.Order
import Mathlib.Order.WellFounded

/-!
# Printing objects ends if there is no cycle: helper lemmas
-/

namespace DuckLisp.PrintObj

open DuckLisp DuckLisp.VM DuckLisp.DlString DuckLisp.Spec

/-! ### Without cycles, parts are well-founded -/

theorem part_mem {vm : VM} {o z : Obj} (h : HasPart vm o z) : z ∈ vm.heap ++ vm.stack := by
  induction h with
  | slot h => exact List.mem_append_right _ (List.mem_of_getElem? h)
  | vector _ _ ih | closure _ _ ih | composite _ _ ih => exact ih
  | list h | first h | rest h | element _ h | capture _ h | own h | other h | value h | function h =>
    exact List.mem_append_left _ (List.mem_of_getElem? h)

theorem acc_of_no_cycle {vm : VM} {o : Obj} (h : ¬ HasCycle vm o) : Acc (PartOf vm) o := by
  let S : Set Obj := {z | z ∈ o :: (vm.heap ++ vm.stack) ∧ IsMadeOf vm o z}
  have hfin : Finite S := by
    have h1 : (S : Set Obj).Finite := (List.finite_toSet (o :: (vm.heap ++ vm.stack))).subset fun z hz => hz.1
    exact h1
  let R : S → S → Prop := fun a b => Relation.TransGen (HasPart vm) b.1 a.1
  have hwf : WellFounded R := by
    haveI : IsTrans S R := ⟨fun a b c h1 h2 => Relation.TransGen.trans h2 h1⟩
    haveI : Std.Irrefl R := ⟨fun a ha => h ⟨a.1, a.2.2, ha⟩⟩
    exact Finite.wellFounded_of_trans_of_irrefl R
  have key : ∀ a : S, Acc (PartOf vm) a.1 := by
    intro a
    induction a using hwf.induction with
    | _ a ih =>
      refine ⟨_, fun z hz => ?_⟩
      exact ih ⟨z, List.mem_cons_of_mem _ (part_mem hz), Relation.ReflTransGen.tail a.2.2 hz⟩ (Relation.TransGen.single hz)
  exact key ⟨o, List.mem_cons_self, Relation.ReflTransGen.refl⟩

/-! ### Texts that no longer change -/

/-- From some depth on, always the same text. -/
def Settles (f : Nat → Printed) : Prop := ∃ t k, ∀ n, k ≤ n → f n = .text t

theorem settles_text (t : Bytes) : Settles fun _ => .text t := ⟨t, 0, fun _ _ => rfl⟩
theorem settles_str (s : String) : Settles fun _ => str s := settles_text _
theorem settles_size (n : Nat) : Settles fun _ => size n := settles_text _
theorem settles_number (n : Int) : Settles fun _ => number n := settles_text _

theorem settles_and {f g : Nat → Printed} (hf : Settles f) (hg : Settles g) : Settles fun n => f n ++ g n := by
  obtain ⟨t, k, hf⟩ := hf
  obtain ⟨s, l, hg⟩ := hg
  exact ⟨t ++ s, k + l, fun n hn => by simp only [hf n (by omega), hg n (by omega)]; rfl⟩

theorem settles_ite {c : Prop} [Decidable c] {f g : Nat → Printed} (hf : Settles f) (hg : Settles g) :
    Settles fun n => if c then f n else g n := by
  split <;> assumption

theorem settles_const {p : Printed} (h : ∃ t, p = .text t) : Settles fun _ => p := by
  obtain ⟨t, rfl⟩ := h
  exact settles_text t

variable [Entries] {vm : VM} {flag : Where → Bool}

/-- The parts of an object settle. -/
def PartsSettle (flag : Where → Bool) (vm : VM) (o : Obj) : Prop :=
  ∀ w z, HasPart vm o z → Fine vm z → Settles fun n => print flag vm n w z

theorem deref_settles {r : Nat} {s : Shape} (h : Live vm r s)
    (hr : ∀ z, vm.heap[r]? = some z → Fine vm z → Settles fun n => print flag vm n (.cell r) z) :
    Settles fun n => deref vm (print flag vm n) (some r) := by
  obtain ⟨o, ho, _, hf⟩ := live_fine h
  simp only [deref, ho]
  exact hr o ho hf

theorem derefOrNull_settles {p : Option Nat} (h : ∀ r, p = some r → ∃ s, Live vm r s)
    (hr : ∀ r z, p = some r → vm.heap[r]? = some z → Fine vm z → Settles fun n => print flag vm n (.cell r) z) :
    Settles fun n => derefOrNull vm (print flag vm n) p := by
  cases p with
  | none => exact settles_str _
  | some r =>
    obtain ⟨s, h⟩ := h r rfl
    exact deref_settles h fun z => hr r z rfl

theorem sequence_settles : ∀ {ps : List (Option Nat)}, (∀ p ∈ ps, ∃ r s, p = some r ∧ Live vm r s) →
    (∀ r z, some r ∈ ps → vm.heap[r]? = some z → Fine vm z → Settles fun n => print flag vm n (.cell r) z) →
    Settles fun n => sequence vm (print flag vm n) ps
  | [], _, _ => settles_text _
  | [p], h, hr => by
    obtain ⟨r, s, rfl, hl⟩ := h p (by simp)
    exact deref_settles hl fun z => hr r z (by simp)
  | p :: q :: ps, h, hr => by
    obtain ⟨r, s, rfl, hl⟩ := h p (by simp)
    exact settles_and (deref_settles hl fun z => hr r z (by simp)) (settles_and (settles_str _)
      (sequence_settles (fun x hx => h x (List.mem_cons_of_mem _ hx)) fun r z hx => hr r z (List.mem_cons_of_mem _ hx)))

theorem firstOf_settles {ps : List (Option Nat)} {m : Nat} (hm : m ≤ ps.length)
    (h : ∀ p ∈ ps.take m, ∃ r s, p = some r ∧ Live vm r s)
    (hr : ∀ r z, some r ∈ ps.take m → vm.heap[r]? = some z → Fine vm z → Settles fun n => print flag vm n (.cell r) z) :
    Settles fun n => firstOf vm (print flag vm n) ps m := by
  simp only [firstOf, if_pos hm]
  exact sequence_settles h hr

theorem internalString_settles (hs : Sound vm) {r n : Nat} (h : Live vm r (.text n)) :
    Settles fun _ => internalStringAt vm r := by
  obtain ⟨hf, o, ho, hsh⟩ := h
  have hc := hs.cells r o ho hf
  cases o <;> simp only [shape] at hsh <;> try (cases hsh; done)
  simp only [CellOk] at hc
  simp only [internalStringAt, ho, printInternalString]
  rw [if_pos (by omega)]
  exact settles_const ⟨_, rfl⟩

theorem captures_settles (hs : Sound vm) (ha : AllCaptured vm) {r : Nat} {b : Option UpBlock} {m : Nat}
    (ho : vm.heap[r]? = some (.upvalueArray b m)) (hf : r ∉ vm.free) (hr : PartsSettle flag vm (.upvalueArray b m)) :
    Settles fun n => firstOf vm (print flag vm n) ((b.map UpBlock.ups).getD []) m := by
  have hc := hs.cells _ _ ho hf
  simp only [CellOk] at hc
  refine firstOf_settles (by omega) (fun p hp => ?_) (fun c z hm hz hf => ?_)
  · have hp := List.mem_of_mem_take hp
    cases p with
    | none => exact absurd hp (ha r b m ho hf)
    | some c => exact ⟨c, _, rfl, hc.2 c hp⟩
  · cases b with
    | none => simp at hm
    | some b => exact hr _ _ (.capture hm hz) hf

theorem internalVector_settles {vs : Option (List Slot)} {m : Nat} {init : Bool} (hc : CellOk vm (.internalVector vs m init))
    (hr : PartsSettle flag vm (.internalVector vs m init)) :
    Settles fun n => printInternalVector vm (print flag vm n) vs m init := by
  simp only [CellOk] at hc
  refine settles_and (settles_str _) (settles_and ?_ (settles_str _))
  cases init with
  | false => exact settles_str _
  | true =>
    refine settles_and (settles_str _) (settles_and (settles_size _) (settles_and (settles_str _) (settles_and ?_ (settles_str _))))
    refine firstOf_settles (by simpa using hc.1) (fun p hp => ?_) (fun c z hm hz hf => ?_)
    · obtain ⟨i, hlt, rfl⟩ := List.mem_iff_getElem.1 hp
      have hin : i < m := by
        have := hlt
        simp only [List.length_take] at this
        omega
      obtain ⟨c, h1, h2⟩ := hc.2.2 rfl i hin
      refine ⟨c, _, ?_, h2⟩
      have h3 := (List.getElem?_eq_some_iff.1 h1).2
      simp [h3, slotPointer]
    · cases vs with
      | none => simp at hm
      | some vs =>
        rw [Option.getD_some, ← List.map_take] at hm
        obtain ⟨sl, h1, h2⟩ := List.mem_map.1 hm
        cases sl with
        | uninit => cases h2
        | ptr p =>
          cases h2
          exact hr _ _ (.element h1 hz) hf

/-- The chain of a captured variable settles, however long chains may be. -/
def ChainSettles (flag : Where → Bool) (vm : VM) (u : Upvalue) : Prop :=
  ∃ t k, ∀ n m, k ≤ n → k ≤ m → printChain vm (print flag vm n) m u = .text t

theorem chain_settles (hs : Sound vm) (hk : Linked vm) (hl : Lockstep vm) {u : Upvalue} {r : Nat}
    (ho : vm.heap[r]? = some (.upvalue u)) (hf : r ∉ vm.free) (hr : PartsSettle flag vm (.upvalue u))
    (hu : ∀ u', HasPart vm (.upvalue u) (.upvalue u') → Fine vm (.upvalue u') → ChainSettles flag vm u') :
    ChainSettles flag vm u := by
  have hc := hs.cells _ _ ho hf
  cases u with
  | stackIndex i =>
    obtain ⟨h0, hi⟩ := hk.cell r i hf ho
    have hlt : i.toNat < vm.stack.length := by
      rw [hl]
      exact (List.getElem?_eq_some_iff.1 hi).1
    obtain ⟨j, rfl⟩ : ∃ j : Nat, i = j := ⟨i.toNat, by omega⟩
    simp only [Int.toNat_natCast] at hlt
    obtain ⟨t, k, h⟩ := settles_and (hr (.slot j) _ (.slot (List.getElem?_eq_getElem hlt)) (.inl (hs.stack _ (List.getElem_mem hlt))))
      (settles_and (settles_str ", ") (settles_and (settles_str "type = ") (settles_str "duckVM_upvalue_type_stack_index")))
    refine ⟨t, k + 1, fun n m hn hm => ?_⟩
    obtain ⟨m, rfl⟩ : ∃ l, m = l + 1 := ⟨m - 1, by omega⟩
    simp only [printChain, h0, if_true, Int.toNat_natCast, List.getElem?_eq_getElem hlt]
    exact h n (by omega)
  | heapObject p =>
    obtain ⟨c, rfl, hc⟩ := hc
    obtain ⟨t, k, h⟩ := settles_and (deref_settles hc fun z hz hf => hr _ z (.own hz) hf)
      (settles_and (settles_str ", ") (settles_and (settles_str "type = ") (settles_str "duckVM_upvalue_type_heap_object")))
    refine ⟨t, k + 1, fun n m hn hm => ?_⟩
    obtain ⟨m, rfl⟩ : ∃ l, m = l + 1 := ⟨m - 1, by omega⟩
    exact h n (by omega)
  | heapUpvalue p =>
    cases p with
    | none =>
      refine ⟨ascii "-> " ++ (ascii "NULL" ++ (ascii ", " ++ (ascii "type = " ++ ascii "duckVM_upvalue_type_heap_upvalue"))), 1, fun n m _ hm => ?_⟩
      obtain ⟨m, rfl⟩ : ∃ l, m = l + 1 := ⟨m - 1, by omega⟩
      rfl
    | some c =>
      obtain ⟨hf', o, ho', hsh⟩ := hc c rfl
      cases o <;> simp only [shape] at hsh <;> try (cases hsh; done)
      rename_i u
      obtain ⟨t, k, h⟩ := hu u (.other ho') (.inr ⟨c, ho', hf'⟩)
      refine ⟨ascii "-> " ++ t, k + 1, fun n m hn hm => ?_⟩
      obtain ⟨m, rfl⟩ : ∃ l, m = l + 1 := ⟨m - 1, by omega⟩
      simp only [printChain, ho', h n m (by omega) (by omega)]
      rfl

theorem composite_settles {t : Nat} {v f : Option Nat} (hc : CellOk vm (.internalComposite t v f))
    (hr : PartsSettle flag vm (.internalComposite t v f)) :
    Settles fun n => printInternalComposite vm (print flag vm n) t v f :=
  settles_and (settles_str _) (settles_and (settles_str _) (settles_and (settles_size _) (settles_and (settles_str _)
    (settles_and (settles_str _) (settles_and (derefOrNull_settles (fun r h => ⟨_, hc.1 r h⟩)
      fun r z h hz hf => hr _ z (by subst h; exact .value hz) hf) (settles_and (settles_str _) (settles_and (settles_str _)
      (settles_and (derefOrNull_settles (fun r h => ⟨_, hc.2 r h⟩)
        fun r z h hz hf => hr _ z (by subst h; exact .function hz) hf) (settles_str _)))))))))

theorem value_settles (hs : Sound vm) (ha : AllCaptured vm) (hk : Linked vm) (hl : Lockstep vm) (o : Obj) (h : Fine vm o)
    (hr : PartsSettle flag vm o)
    (hu : ∀ u u', o = .upvalue u → HasPart vm (.upvalue u) (.upvalue u') → Fine vm (.upvalue u') → ChainSettles flag vm u') :
    Settles fun n => printValue vm (print flag vm n) n o := by
  have hc := fine_cell hs h
  cases o with
  | none => exact settles_str _
  | bool b => exact settles_const ⟨_, rfl⟩
  | integer i => exact settles_const ⟨_, rfl⟩
  | float b => exact settles_const ⟨_, rfl⟩
  | type t => exact settles_const ⟨_, rfl⟩
  | function c => exact settles_const ⟨_, rfl⟩
  | string p off len =>
    refine settles_and (settles_str _) (settles_and ?_ (settles_str _))
    cases p with
    | none => exact settles_str _
    | some r =>
      simp only [CellOk, ValueOk] at hc
      obtain ⟨_, _, m, _, hm⟩ := hc
      exact settles_and (settles_str _) (settles_and (internalString_settles hs hm) (settles_const ⟨_, rfl⟩))
  | symbol id p =>
    refine settles_and (settles_str _) (settles_and ?_ (settles_const ⟨_, rfl⟩))
    cases p with
    | none => exact settles_str _
    | some r =>
      obtain ⟨m, hm⟩ := hc
      exact settles_and (settles_str _) (settles_and (internalString_settles hs hm) (settles_str _))
  | list p =>
    refine settles_and (settles_str _) (settles_and (derefOrNull_settles (fun r hp => ?_) fun r z hp hz hf => ?_) (settles_str _))
    · subst hp
      exact ⟨_, hc⟩
    · subst hp
      exact hr _ z (.list hz) hf
  | cons a d =>
    obtain ⟨h1, h2⟩ := hc
    have key : ∀ p, PartOk vm p → ∀ r, p = some r → ∃ s, Live vm r s := by
      intro p hp r hr
      subst hr
      rcases hp with hp | hp
      · exact ⟨_, hp⟩
      · exact ⟨_, hp⟩
    exact settles_and (settles_str _) (settles_and (derefOrNull_settles (key _ h1) fun r z hp hz hf => hr _ z (by subst hp; exact .first hz) hf)
      (settles_and (settles_str _) (settles_and (derefOrNull_settles (key _ h2) fun r z hp hz hf => hr _ z (by subst hp; exact .rest hz) hf)
        (settles_str _))))
  | closure name code ups arity variadic =>
    obtain ⟨b, u, m, rfl, rfl, ⟨blk, hb, _⟩, hu⟩ := hc
    refine settles_and (settles_str _) (settles_and (settles_str _) (settles_and (settles_number _) (settles_and (settles_str _)
      (settles_and ?_ (settles_and (settles_str _) (settles_and ?_ (settles_const ⟨_, rfl⟩)))))))
    · obtain ⟨o, ho, hsh, _⟩ := live_fine hb
      cases o <;> simp only [shape] at hsh <;> try (cases hsh; done)
      simp only [printCode, ho]
      exact settles_and (settles_str _) (settles_and (settles_size _) (settles_and (settles_str _) (settles_ite (settles_str _) (settles_str _))))
    · obtain ⟨hf, o, ho, hsh⟩ := hu
      cases o <;> simp only [shape] at hsh <;> try (cases hsh; done)
      rename_i block len
      simp only [printCaptures, ho]
      refine settles_and (settles_str _) (settles_and (settles_size _) (settles_and (settles_str _) ?_))
      cases block with
      | none => exact settles_str _
      | some b => exact captures_settles hs ha ho hf fun w z hz hf => hr w z (.closure ho hz) hf
  | vector p off =>
    refine settles_and (settles_str _) (settles_and ?_ (settles_str _))
    cases p with
    | none => exact settles_str _
    | some r =>
      obtain ⟨cap, ⟨hf, o, ho, hsh⟩, _⟩ := hc
      have hc := hs.cells _ _ ho hf
      cases o <;> simp only [shape] at hsh <;> try (cases hsh; done)
      simp only [ho]
      refine settles_and (internalVector_settles hc fun w z hz hf => ?_) (settles_const ⟨_, rfl⟩)
      cases hz with
      | element hm hz => exact hr w z (.vector ho (.element hm hz)) hf
  | composite p =>
    obtain ⟨r, rfl, hf, o, ho, hsh⟩ := hc
    have hc := hs.cells _ _ ho hf
    cases o <;> simp only [shape] at hsh <;> try (cases hsh; done)
    refine settles_and (settles_str _) (settles_and ?_ (settles_str _))
    simp only [ho]
    exact composite_settles hc fun w z hz hf => hr w z (.composite ho hz) hf
  | user data marks d =>
    exact settles_and (settles_str _) (settles_and (settles_str _) (settles_and (settles_ite (settles_str _) (settles_str _))
      (settles_and (settles_str _) (settles_and (settles_ite (settles_str _) (settles_str _)) (settles_and (settles_str _)
      (settles_and (settles_ite (settles_str _) (settles_str _)) (settles_str _)))))))
  | upvalue u =>
    rcases h with h | ⟨r, ho, hf⟩
    · exact h.elim
    · obtain ⟨t, k, h⟩ := chain_settles hs hk hl ho hf hr (hu u · rfl)
      exact settles_and (settles_str _) (settles_and (settles_str _) (settles_and ⟨t, k, fun n hn => h n n hn hn⟩ (settles_str _)))
  | upvalueArray b m =>
    rcases h with h | ⟨r, ho, hf⟩
    · exact h.elim
    · exact settles_and (settles_str _) (settles_and (settles_str _) (settles_and (settles_size _) (settles_and (settles_str _)
        (settles_and (captures_settles hs ha ho hf hr) (settles_and (settles_str _) (settles_str _))))))
  | internalVector vs m init => exact internalVector_settles hc hr
  | bytecode b m =>
    exact settles_and (settles_str _) (settles_and (settles_str _) (settles_and (settles_size _) (settles_and (settles_str _)
      (settles_and (settles_ite (settles_str _) (settles_str _)) (settles_and (settles_str _) (settles_str _))))))
  | internalComposite t v f => exact composite_settles hc hr
  | internalString v m =>
    simp only [CellOk] at hc
    simp only [printValue, printInternalString]
    rw [if_pos (by omega)]
    exact settles_const ⟨_, rfl⟩

theorem print_settles (hs : Sound vm) (ha : AllCaptured vm) (hk : Linked vm) (hl : Lockstep vm) {o : Obj}
    (hacc : Acc (PartOf vm) o) : Fine vm o → (∀ w, Settles fun n => print flag vm n w o) ∧
      ∀ u, o = .upvalue u → ChainSettles flag vm u := by
  induction hacc with
  | intro o _ ih =>
    intro h
    have hr : PartsSettle flag vm o := fun w z hz hf => (ih z hz hf).1 w
    have hu : ∀ u u', o = .upvalue u → HasPart vm (.upvalue u) (.upvalue u') → Fine vm (.upvalue u') → ChainSettles flag vm u' := by
      intro u u' ho hz hf
      subst ho
      exact (ih _ hz hf).2 u' rfl
    refine ⟨fun w => ?_, fun u ho => ?_⟩
    · obtain ⟨t, k, h⟩ := settles_and (settles_str "(duckVM_object_t) {") (settles_and (settles_str "inUse = ")
        (settles_and (settles_ite (c := flag w) (settles_str "true") (settles_str "false"))
        (settles_and (value_settles hs ha hk hl o h hr hu) (settles_str "}"))))
      refine ⟨t, k + 1, fun n hn => ?_⟩
      obtain ⟨n, rfl⟩ : ∃ l, n = l + 1 := ⟨n - 1, by omega⟩
      exact h n (by omega)
    · subst ho
      rcases h with h | ⟨r, ho, hf⟩
      · exact h.elim
      · exact chain_settles hs hk hl ho hf hr (hu u · rfl)

end DuckLisp.PrintObj
