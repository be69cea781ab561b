import Verif.Proof.VM.Vectors
import Verif.Proof.VM.Numbers
import Verif.Proof.VM.Lists

/-!
# Lemmas about strings
-/

namespace DuckLisp.VM

open DuckLisp DuckLisp.Spec

set_option linter.unusedSectionVars false

variable [Entries]

variable {U : Prop} {E : DlError → VM → Prop}

/-- Storage of a string in a cell. -/
theorem store_string (m : Nat) (bytes : Bytes) :
    ∃ v, store m (.internalString (some bytes) bytes.length) = .internalString v bytes.length ∧
      v.getD [] = bytes := by
  by_cases h : bytes.length = 0
  · rw [List.length_eq_zero_iff] at h
    subst h
    exact ⟨none, rfl, rfl⟩
  · exact ⟨some bytes, by simp [store, h], rfl⟩

theorem text_cell {vm : VM} {r off len n : Nat} {v : Option Bytes}
    (h : vm.heap[r]? = some (.internalString v n)) :
    text vm (.string (some r) off len) = ((v.getD []).take len).drop off := by
  cases v <;> simp [text, h]

/-- The result of making a string. -/
structure NewString (vm s : VM) (o : Obj) (bytes : Bytes) : Prop where
  good : Good s
  carried : Carried vm s
  value : ∃ r, o = .string (some r) 0 bytes.length ∧ ¬ Traced vm r ∧ Live s r (.text bytes.length)
  ok : ValueOk s o
  text : text s o = bytes

theorem newString_of {vm s : VM} {r : Nat} {bytes : Bytes} {v : Option Bytes} (hg : Good s)
    (al : Allocated vm s r (.internalString v bytes.length)) (hv : v.getD [] = bytes) :
    NewString vm s (.string (some r) 0 bytes.length) bytes := by
  refine ⟨hg, al.carried, ⟨r, rfl, al.fresh, al.live⟩,
    ⟨by omega, by omega, bytes.length, Nat.le_refl _, al.live⟩, ?_⟩
  have := text_cell (off := 0) (len := bytes.length) al.cell
  rw [hv] at this
  simpa using this

theorem post_newString {vm : VM} (hg : Good vm) {bytes : Bytes} (hn : bytes.length < 2 ^ 63)
    (hE : ∀ s', Good s' → Carried vm s' → E .outOfMemory s') :
    Post U E (fun o s => NewString vm s o bytes) (newString bytes vm) := by
  unfold newString
  refine Post.bind (post_allocCell hg.sound ?_ ?_ (fun s' h1 h2 h3 =>
    hE s' ⟨h1, h3.finished hg.finished⟩ h2)) ?_
  · intro m
    obtain ⟨v, hv, hb⟩ := store_string m bytes
    rw [hv]
    exact ⟨by rw [hb], hn⟩
  · intro m r _ hm
    obtain ⟨v, hv, hb⟩ := store_string m bytes
    rw [hv] at hm
    cases hm
  · rintro r s1 ⟨m, al, hf⟩
    obtain ⟨v, hv, hb⟩ := store_string m bytes
    rw [hv] at al hf
    exact newString_of ⟨al.sound, hf hg.finished (by simp [UnderConstruction])⟩ al hb

/-- Which cell is taken does not depend on what it is for. -/
theorem pushObject_other {vm s : VM} {o o' : Obj} {r : Nat} (h : pushObject o vm = .ok r s) :
    ∃ m, pushObject o' vm = .ok r { s with heap := s.heap.set r (store m o') } := by
  have take : ∀ vm1 : VM, takeFree o vm1 = .ok r s →
      ∃ m, takeFree o' vm1 = .ok r { s with heap := s.heap.set r (store m o') } := by
    intro vm1 h
    unfold takeFree at h ⊢
    cases hf : vm1.free with
    | nil => simp [hf] at h
    | cons c free =>
        simp only [hf] at h ⊢
        injection h with h1 h2
        subst h1 h2
        exact ⟨vm1.nextSerial, by simp⟩
  unfold pushObject at h ⊢
  by_cases hf : vm.free = []
  · rw [if_pos hf] at h ⊢
    cases hc : garbageCollect vm with
    | ok u vm1 =>
        simp only [hc] at h ⊢
        by_cases hf1 : vm1.free = []
        · rw [if_pos hf1] at h; cases h
        · rw [if_neg hf1] at h ⊢
          exact take vm1 h
    | err e vm1 => simp [hc] at h
    | ub => simp [hc] at h
    | diverge => simp [hc] at h
  · rw [if_neg hf] at h ⊢
    exact take vm h

/-- The bytes of a text operand as `concatenate` sees them are right if the string starts at 0. -/
theorem concatBytes_eq {vm : VM} (hs : Sound vm) {r len : Nat}
    (h : ValueOk vm (.string (some r) 0 len)) :
    concatBytes (.string (some r) 0 len) vm = .ok (text vm (.string (some r) 0 len)) vm := by
  obtain ⟨h1, h2⟩ := string_ok hs h
  obtain ⟨-, -, n, hn, hl⟩ := h
  obtain ⟨v, hv, hlen, hb⟩ := live_text hs hl
  simp only [concatBytes]
  rw [M.bind_ok (deref_some hv)]
  have hsz : stringSize 0 len = len := by
    have := stringSize_eq (off := 0) (len := len) (by omega) (by omega) (by omega)
    simpa using this
  rw [hsz] at h1 h2
  by_cases h0 : len = 0
  · subst h0
    have : text vm (.string (some r) 0 0) = [] := List.length_eq_zero_iff.mp h1.symm
    rw [this]
    unfold stringBytes
    rw [M.bind_ok (deref_some hv)]
    simp
  · exact h2 h0

/-- The second half of `concatenate`. -/
theorem post_join {vm : VM} (hg : Good vm) {x y : Bytes} (hlt : x.length + y.length < 2 ^ 63) :
    Post False (fun e s' => e = .outOfMemory ∧ Good s' ∧ Carried vm s')
      (fun _ s' => ∃ s o, NewString vm s o (x ++ y) ∧ s' = pushed s o)
      ((do
        let o ← newString x
        match o with
        | .string (some r) _ _ => do
            if 2 ^ 63 ≤ x.length + y.length then M.throw .outOfMemory
            writeCell r (.internalString (some (x ++ y)) (x.length + y.length))
            push (.string (some r) 0 (x.length + y.length))
        | _ => M.ub : M Unit) vm) := by
  have hnew := post_newString (U := False) (E := fun e s' => e = .outOfMemory ∧ Good s' ∧ Carried vm s')
    hg (bytes := x ++ y) (by simpa using hlt) (fun s' q1 q2 => ⟨rfl, q1, q2⟩)
  have hnew0 := post_newString (U := False) (E := fun e s' => e = .outOfMemory ∧ Good s' ∧ Carried vm s')
    hg (bytes := x) (by omega) (fun s' q1 q2 => ⟨rfl, q1, q2⟩)
  cases hp : pushObject (.internalString (some x) x.length) vm with
  | err e s =>
      have : newString x vm = .err e s := by unfold newString; rw [M.bind_err hp]
      rw [M.bind_err this]
      rw [this] at hnew0
      exact hnew0
  | ub =>
      have : newString x vm = .ub := by unfold newString; rw [M.bind_ub hp]
      rw [this] at hnew0
      exact hnew0.elim
  | diverge =>
      have : newString x vm = .diverge := by unfold newString; rw [M.bind_run, hp]
      rw [this] at hnew0
      exact hnew0.elim
  | ok r s =>
      have hnx : newString x vm = .ok (.string (some r) 0 x.length) s := by
        unfold newString; rw [M.bind_ok hp]; rfl
      rw [M.bind_ok hnx]
      simp only
      rw [if_neg (by omega)]
      rw [hnx] at hnew0
      have hlive : r < s.heap.length := by
        obtain ⟨r', h, -, -, o, ho, -⟩ := hnew0.value
        cases h
        exact getElem?_lt ho
      obtain ⟨m, hp'⟩ := pushObject_other (o' := .internalString (some (x ++ y)) (x ++ y).length) hp
      obtain ⟨v, hv, hb'⟩ := store_string m (x ++ y)
      rw [hv] at hp'
      have hnxy : newString (x ++ y) vm = .ok (.string (some r) 0 (x ++ y).length)
          { s with heap := s.heap.set r (.internalString v (x ++ y).length) } := by
        unfold newString; rw [M.bind_ok hp']; rfl
      rw [hnxy] at hnew
      have hwr : writeCell r (.internalString (some (x ++ y)) (x.length + y.length)) s =
          .ok () { s with heap := s.heap.set r (.internalString (some (x ++ y)) (x.length + y.length)) } := by
        unfold writeCell
        rw [if_pos hlive]
      rw [M.bind_ok hwr]
      refine post_push ⟨_, .string (some r) 0 (x.length + y.length), ?_, rfl⟩
      obtain ⟨q1, q2, ⟨r', q3, q4, q5⟩, q6, q7⟩ := hnew
      cases q3
      have hcell : ({ s with heap := s.heap.set r (.internalString v (x ++ y).length) } : VM).heap[r]? =
          some (.internalString v (x ++ y).length) := by simp [hlive]
      have hg2 := q1.write (o' := .internalString (some (x ++ y)) (x ++ y).length) hcell q5.1
        rfl ⟨rfl, by simpa using hlt⟩ (by simp [UnderConstruction])
      have hc2 : Carried vm { s with heap := s.heap.set r (.internalString (some (x ++ y)) (x ++ y).length) } := by
        refine ⟨⟨q2.roots.stack, q2.roots.upStack, q2.roots.callStack, q2.roots.upArrays, q2.roots.globals,
          q2.roots.currentBytecode, q2.roots.nextUserType⟩, by simpa using q2.length, fun c hc => ?_, q2.free⟩
        have hne : r ≠ c := fun e => q4 (e ▸ hc)
        have := q2.heap c hc
        simp only [List.getElem?_set_ne hne] at this ⊢
        exact this
      simp only [List.set_set] at hg2
      have hlen : (x ++ y).length = x.length + y.length := by simp
      rw [hlen] at hg2 hc2
      have hl2 : Live { s with heap := s.heap.set r (.internalString (some (x ++ y)) (x.length + y.length)) } r
          (.text (x.length + y.length)) :=
        ⟨q5.1, .internalString (some (x ++ y)) (x.length + y.length), by simp [hlive], rfl⟩
      refine ⟨hg2, hc2, ⟨r, by simp, q4, by rw [hlen]; exact hl2⟩,
        ⟨by omega, by omega, _, Nat.le_refl _, hl2⟩, ?_⟩
      have := text_cell (vm := { s with heap := s.heap.set r (.internalString (some (x ++ y)) (x.length + y.length)) })
        (r := r) (off := 0) (len := x.length + y.length) (v := some (x ++ y)) (n := x.length + y.length)
        (by simp [hlive])
      simp only [Option.getD_some, List.drop_zero] at this
      rw [← hlen, List.take_length] at this
      simpa using this

theorem post_concat {vm : VM} (hg : Good vm) {a b r1 r2 n1 n2 : Nat}
    (ha : operand vm a = some (.string (some r1) 0 n1))
    (hb : operand vm b = some (.string (some r2) 0 n2))
    (hsum : n1 + n2 < 2 ^ 63) :
    Post False (fun e s' => e = .outOfMemory ∧ Good s' ∧ Carried vm s')
      (fun _ s' => ∃ s o, NewString vm s o (text vm (.string (some r1) 0 n1) ++
          text vm (.string (some r2) 0 n2)) ∧ s' = pushed s o)
      (iConcatenate a b vm) := by
  have hs := hg.sound
  have h1 := hs.stack _ (operand_mem ha)
  have h2 := hs.stack _ (operand_mem hb)
  have l1 := (string_ok hs h1).1
  have l2 := (string_ok hs h2).1
  have e1 : stringSize 0 n1 = n1 := by
    have := stringSize_eq (off := 0) (len := n1) (by omega) (by omega) (by omega)
    simpa using this
  have e2 : stringSize 0 n2 = n2 := by
    have := stringSize_eq (off := 0) (len := n2) (by omega) (by omega) (by omega)
    simpa using this
  rw [e1] at l1
  rw [e2] at l2
  generalize hx : text vm (.string (some r1) 0 n1) = x at l1 ⊢
  generalize hy : text vm (.string (some r2) 0 n2) = y at l2 ⊢
  have hxe : concatBytes (.string (some r1) 0 n1) vm = .ok x vm := by rw [concatBytes_eq hs h1, hx]
  have hye : concatBytes (.string (some r2) 0 n2) vm = .ok y vm := by rw [concatBytes_eq hs h2, hy]
  unfold iConcatenate
  rw [M.bind_ok (getArg_some ha)]
  simp only
  rw [if_neg (by simp), M.bind_ok (getArg_some hb), if_neg (by simp), M.bind_ok hxe, M.bind_ok hye]
  exact post_join hg (by omega)

theorem string_cell {vm : VM} (hg : Good vm) {a r : Nat} {off : Int} {len : Nat}
    (ha : operand vm a = some (.string (some r) off len)) :
    ∃ (k : Nat) (v : Bytes) (n : Nat) (w : Option Bytes), off = k ∧ k ≤ len ∧ len ≤ n ∧ n < 2 ^ 63 ∧
      vm.heap[r]? = some (.internalString w n) ∧ w.getD [] = v ∧ v.length = n ∧
      Live vm r (.text n) ∧
      ∀ i j : Nat, text vm (.string (some r) i j) = (v.take j).drop i := by
  obtain ⟨h1, h2, n, hn, h3⟩ := hg.sound.stack _ (operand_mem ha)
  obtain ⟨w, hw, hlen, hb⟩ := live_text hg.sound h3
  exact ⟨off.toNat, w.getD [], n, w, by omega, by omega, hn, hb, hw, rfl, hlen, h3,
    fun i j => text_cell hw⟩

theorem byte_at {vm : VM} {r i n : Nat} {w : Option Bytes} (hw : vm.heap[r]? = some (.internalString w n))
    {b : UInt8} (hb : (w.getD [])[i]? = some b) :
    byteValue (some r) (i : Nat) vm = .ok (.integer b.toNat) vm := by
  cases w with
  | none => simp at hb
  | some v =>
      simp only [Option.getD_some] at hb
      have hlt : i < v.length := by
        rw [List.getElem?_eq_some_iff] at hb
        exact hb.1
      unfold byteValue stringBytes
      rw [M.bind_run, M.bind_ok (deref_some hw)]
      simp only
      rw [if_neg (by omega), M.bind_ok (m := M.need (some v)) (a := v) (s' := vm) rfl, if_pos (by omega)]
      have : (v.drop ((i : Nat) : Int).toNat).take 1 = [b] := by
        rw [show ((i : Nat) : Int).toNat = i from by omega, List.drop_eq_getElem_cons hlt]
        rw [List.getElem?_eq_getElem hlt] at hb
        simp at hb
        simp [hb]
      rw [this]
      rfl

theorem vectorBytes_eq {vm : VM} {vs : Option (List Slot)} {xs : List Obj}
    (hel : ∀ i, i < xs.length → ∃ c, (vs.getD [])[i]? = some (.ptr (some c)) ∧ vm.heap[c]? = xs[i]?) :
    ∀ (is : List Int) (i : Nat), xs.drop i = is.map .integer →
      vectorBytes vs is.length i vm = .ok (some (is.map UInt8.ofInt)) vm := by
  intro is
  induction is with
  | nil => intro i _; rfl
  | cons j is ih =>
      intro i h
      have hlt : i < xs.length := by
        by_contra hge
        rw [List.drop_eq_nil_of_le (by omega)] at h
        simp at h
      rw [List.drop_eq_getElem_cons hlt] at h
      simp only [List.map_cons] at h
      injection h with h1 h2
      obtain ⟨c, q1, q2⟩ := hel i hlt
      rw [List.getElem?_eq_getElem hlt, h1] at q2
      simp only [List.length_cons, vectorBytes]
      rw [M.bind_ok (slotValue_some q1 q2)]
      simp only
      rw [M.bind_ok (ih (i + 1) h2)]
      rfl

theorem ListOf.chain {vm : VM} {p : Option Nat} {xs : List Obj} (h : ListOf vm p xs) :
    ∃ cs, Chain vm.heap p cs none ∧ cs.length = xs.length := by
  induction h with
  | nil => exact ⟨[], .nil, rfl⟩
  | cons h _ _ ih =>
      obtain ⟨cs, h1, h2⟩ := ih
      exact ⟨_, .cons h h1, by simp [h2]⟩

theorem ListOf.length_le {vm : VM} {p : Option Nat} {xs : List Obj} (h : ListOf vm p xs) :
    xs.length ≤ vm.heap.length := by
  obtain ⟨cs, h1, h2⟩ := ListOf.chain h
  rw [← h2]
  exact chain_length h1

theorem listBytes_eq {vm : VM} {p : Option Nat} {xs : List Obj} (h : ListOf vm p xs) :
    ∀ (is : List Int) (fuel : Nat), xs = is.map .integer → xs.length < fuel →
      listBytes fuel p vm = .ok (some (is.map UInt8.ofInt)) vm := by
  induction h with
  | nil =>
      intro is fuel h hf
      cases is with
      | cons => simp at h
      | nil =>
          cases fuel with
          | zero => omega
          | succ => rfl
  | @cons r a d x xs h ha ht ih =>
      intro is fuel he hf
      cases is with
      | nil => simp at he
      | cons i is =>
          simp only [List.map_cons] at he
          injection he with h1 h2
          subst h1
          cases fuel with
          | zero => simp at hf
          | succ fuel =>
              simp only [listBytes]
              rw [M.bind_ok (readCell_some h)]
              simp only
              cases ha with
              | @value c _ hc ho =>
                  rw [M.bind_ok (deref_some hc)]
                  simp only
                  rw [M.bind_ok (ih is fuel h2 (by simp at hf; omega))]
                  rfl

theorem post_makeStringList {vm : VM} (hg : Good vm) {a : Nat} {p : Option Nat} {is : List Int}
    (ha : operand vm a = some (.list p)) (hp : ListOf vm p (is.map .integer)) :
    Post False (fun e s => e = .outOfMemory ∧ Good s ∧ Carried vm s)
      (fun _ s' => ∃ s o, NewString vm s o (is.map UInt8.ofInt) ∧ s' = pushed s o)
      (iMakeString a vm) := by
  have hlen := ListOf.length_le hp
  have hh := hg.sound.heap_size
  unfold iMakeString
  rw [M.bind_ok (getArg_some ha)]
  simp only
  rw [M.bind_ok (m := M.get) (a := vm) (s' := vm) rfl]
  rw [M.bind_ok (listBytes_eq hp is _ rfl (by omega))]
  simp only
  simp at hlen
  refine Post.bind (post_newString hg (by simp; omega) (fun s' h1 h2 => ⟨rfl, h1, h2⟩)) ?_
  intro o s h
  exact post_push ⟨s, o, h, rfl⟩

end DuckLisp.VM
