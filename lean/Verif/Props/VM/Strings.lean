import Verif.Proof.VM.Strings
import Verif.Props.VM.Vectors
import Verif.Props.VM.Pairs

/-!
# C32: strings

`text vm o` is the sequence of bytes of the string `o`.
-/

namespace DuckLisp.VM

open DuckLisp DuckLisp.Spec

/-- C32: `length` of a string is the number of its bytes. -/
theorem C32_length (env : Env) (bc : Nat) (st nx : CodePtr) (vm : VM) (hg : Good vm) (a : Nat)
    (p : Option Nat) (off : Int) (len : Nat) (ha : operand vm a = some (.string p off len)) :
    exec env bc st nx (.length a) vm =
      .ok (.goto nx) (pushed vm (.integer (text vm (.string p off len)).length)) := by
  have hv := hg.sound.stack _ (operand_mem ha)
  have hl := (string_ok hg.sound hv).1
  refine exec_plain_ok trivial (unary_ok _ ha ?_)
  simp only [lengthValue, hl]
  rw [toPtrdiffS_nat]
  · rfl
  · rw [← hl]
    cases p with
    | none => obtain ⟨rfl, rfl⟩ := hv; decide
    | some r =>
        obtain ⟨h1, h2, n, hn, h3⟩ := hv
        obtain ⟨v, hv, hlen, hb⟩ := live_text hg.sound h3
        rw [stringSize_eq h1 h2 (by omega)]
        omega

/-- C32: `car` of a string is its first byte, as an integer; of an empty one, the empty string. -/
theorem C32_car (env : Env) (bc : Nat) (st nx : CodePtr) (vm : VM) (hg : Good vm) (a : Nat)
    (p : Option Nat) (off : Int) (len : Nat) (ha : operand vm a = some (.string p off len)) :
    exec env bc st nx (.car a) vm = .ok (.goto nx) (pushed vm
      (match text vm (.string p off len) with
      | [] => .string none 0 0
      | b :: _ => .integer b.toNat)) := by
  refine exec_plain_ok trivial (unary_ok _ ha ?_)
  cases p with
  | none => rfl
  | some r =>
      obtain ⟨k, v, n, w, rfl, h1, h2, h3, hw, hwv, hv, hl, ht⟩ := string_cell hg ha
      rw [ht]
      simp only [carValue]
      rw [M.bind_ok (readCell_some hw)]
      simp only
      rw [toSize_nat (by omega)]
      by_cases hk : k < len
      · rw [if_neg (by omega)]
        have hkv : k < (v.take len).length := by simp; omega
        rw [List.drop_eq_getElem_cons hkv]
        simp only
        refine byte_at hw ?_
        rw [hwv, List.getElem?_eq_getElem (by omega)]
        simp
      · rw [if_pos (by omega), List.drop_eq_nil_of_le (by simp; omega)]
        rfl

/-- C32: `cdr` of a string is a string of the rest of its bytes. -/
theorem C32_cdr (env : Env) (bc : Nat) (st nx : CodePtr) (vm : VM) (hg : Good vm) (a : Nat)
    (p : Option Nat) (off : Int) (len : Nat) (ha : operand vm a = some (.string p off len)) :
    ∃ q off' len', exec env bc st nx (.cdr a) vm =
        .ok (.goto nx) (pushed vm (.string q off' len')) ∧
      text vm (.string q off' len') = (text vm (.string p off len)).tail ∧
      Good (pushed vm (.string q off' len')) := by
  cases p with
  | none =>
      refine ⟨none, 0, 0, exec_plain_ok trivial (unary_ok _ ha rfl), by simp [text], hg.pushed ⟨rfl, rfl⟩⟩
  | some r =>
      obtain ⟨k, v, n, w, rfl, h1, h2, h3, hw, hwv, hv, hl, ht⟩ := string_cell hg ha
      by_cases hk : k + 1 < len
      · refine ⟨some r, (k + 1 : Nat), len, exec_plain_ok trivial (unary_ok _ ha ?_), ?_, ?_⟩
        · simp only [cdrValue]
          rw [M.bind_ok (readCell_some hw)]
          simp only
          rw [toSize_nat (by omega), if_neg (by omega)]
          rw [M.bind_ok (ckInt_ok (by unfold InRange; omega))]
          rfl
        · rw [ht, ht]; simp
        · exact hg.pushed ⟨by omega, by omega, n, h2, hl⟩
      · refine ⟨none, 0, 0, exec_plain_ok trivial (unary_ok _ ha ?_), ?_, hg.pushed ⟨rfl, rfl⟩⟩
        · simp only [cdrValue]
          rw [M.bind_ok (readCell_some hw)]
          simp only
          rw [toSize_nat (by omega), if_pos (by omega)]
          rfl
        · rw [ht]
          have : ((v.take len).drop k).length ≤ 1 := by simp; omega
          cases hd : (v.take len).drop k with
          | nil => rfl
          | cons b t =>
              rw [hd] at this
              simp at this
              subst this
              rfl

/-- C32: reading byte `i` of a string gives that byte if there is one, and is otherwise an error that
changes nothing. -/
theorem C32_get (env : Env) (bc : Nat) (st nx : CodePtr) (vm : VM) (hg : Good vm) (a b : Nat)
    (p : Option Nat) (off i : Int) (len : Nat) (ha : operand vm a = some (.string p off len))
    (hb : operand vm b = some (.integer i)) :
    exec env bc st nx (.getVecElt a b) vm =
      match if 0 ≤ i then (text vm (.string p off len))[i.toNat]? else none with
      | some c => .ok (.goto nx) (pushed vm (.integer c.toNat))
      | none => .err .invalidValue vm := by
  have hi := hg.sound.stack _ (operand_mem hb)
  have hi' : -(2 ^ 63) ≤ i ∧ i < 2 ^ 63 := hi
  have hv := hg.sound.stack _ (operand_mem ha)
  have hsz := (string_ok hg.sound hv).1
  have hget : iGetVecElt a b vm = (if i < 0 ∨ toSize i ≥ stringSize off len then M.throw .invalidValue
          else do
            let j ← ckInt (off + i)
            push (← byteValue p j) : M Unit) vm := by
    unfold iGetVecElt
    rw [M.bind_ok (getArg_some ha)]
    simp only
    rw [M.bind_ok (getArg_some hb)]
  by_cases h0 : 0 ≤ i
  · rw [if_pos h0]
    have hti := toSize_of_lt h0 hi'.2
    by_cases hlt : i.toNat < (text vm (.string p off len)).length
    · rw [List.getElem?_eq_getElem hlt]
      simp only
      refine exec_plain_ok trivial ?_
      show iGetVecElt a b vm = _
      rw [hget, if_neg (by omega)]
      cases p with
      | none => simp [text] at hlt
      | some r =>
          obtain ⟨k, v, n, w, rfl, h1, h2, h3, hw, hwv, hv, hl, ht⟩ := string_cell hg ha
          simp only [ht] at hlt ⊢
          have hlt' := hlt
          simp at hlt'
          rw [M.bind_ok (ckInt_ok (by unfold InRange; omega))]
          have hb := byte_at (i := k + i.toNat) hw (b := ((v.take len).drop k)[i.toNat]) (by
            rw [hwv, List.getElem?_eq_getElem (by omega)]
            simp)
          rw [show (k : Int) + i = ((k + i.toNat : Nat) : Int) from by omega, M.bind_ok hb]
          rfl
    · rw [List.getElem?_eq_none (by omega)]
      simp only
      refine exec_plain_err trivial ?_
      show iGetVecElt a b vm = _
      rw [hget, if_pos (by omega)]
      rfl
  · rw [if_neg h0]
    simp only
    refine exec_plain_err trivial ?_
    show iGetVecElt a b vm = _
    rw [hget, if_pos (by omega)]
    rfl

/-- C32: `substring` from `i` to `j` gives exactly the bytes at positions `i` to `j - 1` if
`0 ≤ i ≤ j` and `j` is at most the length; otherwise it is an error that changes nothing. -/
theorem C32_substring (env : Env) (bc : Nat) (st nx : CodePtr) (vm : VM) (hg : Good vm) (a b c : Nat)
    (p : Option Nat) (off i j : Int) (len : Nat) (ha : operand vm a = some (.string p off len))
    (hb : operand vm b = some (.integer i)) (hc : operand vm c = some (.integer j)) :
    (0 ≤ i ∧ i ≤ j ∧ j ≤ (text vm (.string p off len)).length →
      ∃ q off' len', exec env bc st nx (.substring a b c) vm =
          .ok (.goto nx) (pushed vm (.string q off' len')) ∧
        text vm (.string q off' len') =
          ((text vm (.string p off len)).drop i.toNat).take (j - i).toNat ∧
        Good (pushed vm (.string q off' len'))) ∧
    (¬ (0 ≤ i ∧ i ≤ j ∧ j ≤ (text vm (.string p off len)).length) →
      exec env bc st nx (.substring a b c) vm = .err .invalidValue vm) := by
  have hi : -(2 ^ 63) ≤ i ∧ i < 2 ^ 63 := hg.sound.stack _ (operand_mem hb)
  have hj : -(2 ^ 63) ≤ j ∧ j < 2 ^ 63 := hg.sound.stack _ (operand_mem hc)
  have hv := hg.sound.stack _ (operand_mem ha)
  have hsz := (string_ok hg.sound hv).1
  have hsub : iSubstring a b c vm = (if i < 0 ∨ toSize i > stringSize off len then M.throw .invalidValue
          else do
            match ← getArg c with
            | .integer j =>
                if j < 0 ∨ toSize j > stringSize off len then M.throw .invalidValue
                else if j < i then M.throw .invalidValue
                else do
                  let e ← ckInt (off + j)
                  let st ← ckInt (off + i)
                  push (.string p st (toSize e))
            | _ => M.throw .invalidValue : M Unit) vm := by
    unfold iSubstring
    rw [M.bind_ok (getArg_some ha)]
    simp only
    rw [M.bind_ok (getArg_some hb)]
    rfl
  constructor
  · rintro ⟨h0, hij, hjl⟩
    have hti := toSize_of_lt h0 hi.2
    have htj := toSize_of_lt (by omega) hj.2
    have hrun : ∀ (k : Nat), off = k → k + j.toNat < 2 ^ 63 → exec env bc st nx (.substring a b c) vm =
        .ok (.goto nx) (pushed vm (.string p ((k + i.toNat : Nat) : Int) (k + j.toNat))) := by
      rintro k rfl hk
      refine exec_plain_ok trivial ?_
      show iSubstring a b c vm = _
      rw [hsub, if_neg (by omega), M.bind_ok (getArg_some hc)]
      simp only
      rw [if_neg (by omega), if_neg (by omega), M.bind_ok (ckInt_ok (by unfold InRange; omega)),
        M.bind_ok (ckInt_ok (by unfold InRange; omega))]
      rw [show (k : Int) + j = ((k + j.toNat : Nat) : Int) from by omega,
        show (k : Int) + i = ((k + i.toNat : Nat) : Int) from by omega, toSize_nat (by omega)]
      rfl
    cases p with
    | none =>
        obtain ⟨rfl, rfl⟩ := hv
        have : j = 0 := by simp [text] at hjl; omega
        subst this
        have : i = 0 := by omega
        subst this
        exact ⟨none, 0, 0, hrun 0 rfl (by omega), by simp [text], hg.pushed ⟨rfl, rfl⟩⟩
    | some r =>
        obtain ⟨k, v, n, w, rfl, h1, h2, h3, hw, hwv, hv, hl, ht⟩ := string_cell hg ha
        rw [ht] at hjl
        simp at hjl
        refine ⟨some r, _, _, hrun k rfl (by omega), ?_, hg.pushed ⟨by omega, by omega, n, by omega, hl⟩⟩
        rw [ht, ht]
        rw [List.drop_drop, List.drop_take, List.drop_take, List.take_take]
        congr 1
        omega
  · intro hn
    refine exec_plain_err trivial ?_
    show iSubstring a b c vm = _
    rw [hsub]
    by_cases q1 : i < 0 ∨ toSize i > stringSize off len
    · rw [if_pos q1]; rfl
    · rw [if_neg q1, M.bind_ok (getArg_some hc)]
      simp only
      by_cases q2 : j < 0 ∨ toSize j > stringSize off len
      · rw [if_pos q2]; rfl
      · rw [if_neg q2]
        have htj := toSize_of_lt (i := j) (by omega) hj.2
        rw [if_pos (by omega)]
        rfl

/-- C32: a string literal puts a string of exactly its bytes on the stack; nothing the program could
see before changes.  When no cell is free for it, the machine goes on with a nameless object in place
of the string instead of reporting the lack of memory. -/
theorem C32_literal (env : Env) (bc : Nat) (st nx : CodePtr) (vm : VM) (hg : Good vm) (bytes : Bytes)
    (hn : bytes.length < 2 ^ 63) :
    (∃ vm' o, exec env bc st nx (.pushString bytes) vm = .ok (.goto nx) vm' ∧
        vm'.stack = vm.stack ++ [o] ∧ text vm' o = bytes ∧ (∃ p off len, o = .string p off len) ∧
        Untouched vm vm' [] ∧ Good vm') ∨
    ∃ vm', exec env bc st nx (.pushString bytes) vm = .ok (.goto nx) vm' ∧
      vm'.stack = vm.stack ++ [.none] ∧ Untouched vm vm' [] ∧ Good vm' := by
  have h := post_newString (U := False) (E := fun e s => e = .outOfMemory ∧ Good s ∧ Carried vm s) hg hn
    (fun s' h1 h2 => ⟨rfl, h1, h2⟩)
  cases ho : newString bytes vm with
  | ok o s =>
      rw [ho] at h
      have h : NewString vm s o bytes := h
      refine .inl ⟨pushed s o, o, exec_plain_ok trivial (?_ : iPushString bytes vm = _), ?_, ?_, ?_, ?_, ?_⟩
      · unfold iPushString; rw [ho]; rfl
      · show s.stack ++ _ = _; rw [h.carried.roots.stack]
      · exact h.text
      · obtain ⟨r, rfl, -⟩ := h.value; exact ⟨_, _, _, rfl⟩
      · exact (h.carried.extends.pushed o).untouched hg
      · exact h.good.pushed h.ok
  | err e s =>
      rw [ho] at h
      obtain ⟨rfl, h1, h2⟩ := h
      refine .inr ⟨pushed s .none, exec_plain_ok trivial (?_ : iPushString bytes vm = _), ?_, ?_, ?_⟩
      · unfold iPushString; rw [ho]; rfl
      · show s.stack ++ _ = _; rw [h2.roots.stack]
      · exact (h2.extends.pushed .none).untouched hg
      · exact h1.pushed trivial
  | ub => rw [ho] at h; exact h.elim
  | diverge => rw [ho] at h; exact h.elim

/-- C32, partial: `concatenate` of two strings gives a new string of the bytes of the first followed
by those of the second, and changes nothing the program could see before.

Missing: strings that are a slice of longer storage and the empty string without storage.  For these
the claim is false: see `C32_concatenate_of_slices` and `C32_concatenate_of_empty`. -/
theorem C32_concatenate_partial (env : Env) (bc : Nat) (st nx : CodePtr) (vm : VM) (hg : Good vm)
    (a b r1 r2 n1 n2 : Nat)
    (ha : operand vm a = some (.string (some r1) 0 n1))
    (hb : operand vm b = some (.string (some r2) 0 n2)) (hsum : n1 + n2 < 2 ^ 63) :
    (∃ vm' o, exec env bc st nx (.concatenate a b) vm = .ok (.goto nx) vm' ∧
        vm'.stack = vm.stack ++ [o] ∧ (∃ p off len, o = .string p off len) ∧
        text vm' o = text vm (.string (some r1) 0 n1) ++ text vm (.string (some r2) 0 n2) ∧
        Untouched vm vm' [] ∧ Good vm') ∨
    ∃ vm', exec env bc st nx (.concatenate a b) vm = .err .outOfMemory vm' ∧ Untouched vm vm' [] ∧
      Good vm' := by
  rcases exec_plain_post (i := .concatenate a b) trivial (post_concat hg ha hb hsum) with
    ⟨vm', he, s, o, h, rfl⟩ | ⟨e, vm', he, rfl, h1, h2⟩
  · refine .inl ⟨_, o, he, ?_, ?_, h.text, (h.carried.extends.pushed o).untouched hg, h.good.pushed h.ok⟩
    · show s.stack ++ _ = _; rw [h.carried.roots.stack]
    · obtain ⟨r, rfl, -⟩ := h.value; exact ⟨_, _, _, rfl⟩
  · exact .inr ⟨vm', he, h2.extends.untouched hg, h1⟩

/-- C32: the string of a symbol is its name. -/
theorem C32_symbol_string (env : Env) (bc : Nat) (st nx : CodePtr) (vm : VM) (hg : Good vm)
    (a id r : Nat) (ha : operand vm a = some (.symbol id (some r))) :
    ∃ v n, vm.heap[r]? = some (.internalString v n) ∧
      exec env bc st nx (.symbolString a) vm = .ok (.goto nx) (pushed vm (.string (some r) 0 n)) ∧
      text vm (.string (some r) 0 n) = v.getD [] ∧ Good (pushed vm (.string (some r) 0 n)) := by
  obtain ⟨n, hl⟩ := hg.sound.stack _ (operand_mem ha)
  obtain ⟨v, hv, hlen, hb⟩ := live_text hg.sound hl
  refine ⟨v, n, hv, exec_plain_ok trivial (unary_ok _ ha ?_), ?_,
    hg.pushed ⟨by omega, by omega, n, Nat.le_refl _, hl⟩⟩
  · simp only [symbolStringValue]
    rw [M.bind_ok (deref_some hv)]
    rfl
  · have := text_cell (off := 0) (len := n) hv
    rw [← hlen, List.take_length] at this
    rw [← hlen]
    simpa using this

/-- C32: `symbol-id` of a symbol is its number. -/
theorem C32_symbol_id (env : Env) (bc : Nat) (st nx : CodePtr) (vm : VM) (a id : Nat) (p : Option Ref)
    (ha : operand vm a = some (.symbol id p)) (hid : id < 2 ^ 63) :
    exec env bc st nx (.symbolId a) vm = .ok (.goto nx) (pushed vm (.integer id)) := by
  refine exec_plain_ok trivial (unary_ok _ ha ?_)
  show Out.ok (Obj.integer (toPtrdiffS id)) vm = _
  have : toPtrdiffS id = id := by
    unfold toPtrdiffS
    omega
  rw [this]

/-- C32: `make-string` of a vector of integers is the string of these integers, each reduced to a
byte. -/
theorem C32_make_string_of_vector (env : Env) (bc : Nat) (st nx : CodePtr) (vm : VM) (hg : Good vm)
    (a r off : Nat) (xs : List Obj) (is : List Int)
    (ha : operand vm a = some (.vector (some r) off)) (hr : IsVector vm r xs)
    (his : xs.drop off = is.map .integer) (hoff : off ≤ xs.length) :
    (∃ vm' o, exec env bc st nx (.makeString a) vm = .ok (.goto nx) vm' ∧
        vm'.stack = vm.stack ++ [o] ∧ (∃ p off len, o = .string p off len) ∧
        text vm' o = is.map UInt8.ofInt ∧ Untouched vm vm' [] ∧ Good vm') ∨
    ∃ vm', exec env bc st nx (.makeString a) vm = .err .outOfMemory vm' ∧ Untouched vm vm' [] ∧
      Good vm' := by
  obtain ⟨xs', hx', hxl, -⟩ := vector_operand hg ha
  obtain ⟨vs, n, hcell, rfl, hel⟩ := hr
  have hn : xs.length < 2 ^ 60 := by
    obtain ⟨vs', n', hcell', rfl, -⟩ := hx'
    rw [hcell] at hcell'
    simp at hcell'
    omega
  have hlen : is.length = xs.length - off := by
    have := congrArg List.length his
    simpa using this.symm
  have hpost : Post False (fun e s => e = .outOfMemory ∧ Good s ∧ Carried vm s)
      (fun _ s' => ∃ s o, NewString vm s o (is.map UInt8.ofInt) ∧ s' = pushed s o)
      (iMakeString a vm) := by
    unfold iMakeString
    rw [M.bind_ok (getArg_some ha)]
    simp only
    rw [M.bind_ok (vectorStorage_some hcell)]
    simp only
    rw [if_pos (by omega)]
    have hvb := vectorBytes_eq hel is off his
    rw [hlen] at hvb
    rw [show ((off : Nat) : Int).toNat = off from by omega, M.bind_ok hvb]
    simp only
    refine Post.bind (post_newString hg (by simp; omega) (fun s' h1 h2 => ⟨rfl, h1, h2⟩)) ?_
    intro o s h
    exact post_push ⟨s, o, h, rfl⟩
  rcases exec_plain_post (i := .makeString a) trivial hpost with
    ⟨vm', he, s, o, h, rfl⟩ | ⟨e, vm', he, rfl, h1, h2⟩
  · refine .inl ⟨_, o, he, ?_, ?_, h.text, (h.carried.extends.pushed o).untouched hg, h.good.pushed h.ok⟩
    · show s.stack ++ _ = _; rw [h.carried.roots.stack]
    · obtain ⟨r, rfl, -⟩ := h.value; exact ⟨_, _, _, rfl⟩
  · exact .inr ⟨vm', he, h2.extends.untouched hg, h1⟩

/-- C32: `make-string` of a list of integers is the string of these integers, each reduced to a
byte. -/
theorem C32_make_string_of_list (env : Env) (bc : Nat) (st nx : CodePtr) (vm : VM) (hg : Good vm)
    (a : Nat) (p : Option Nat) (is : List Int) (ha : operand vm a = some (.list p))
    (hp : ListOf vm p (is.map .integer)) :
    (∃ vm' o, exec env bc st nx (.makeString a) vm = .ok (.goto nx) vm' ∧
        vm'.stack = vm.stack ++ [o] ∧ (∃ p off len, o = .string p off len) ∧
        text vm' o = is.map UInt8.ofInt ∧ Untouched vm vm' [] ∧ Good vm') ∨
    ∃ vm', exec env bc st nx (.makeString a) vm = .err .outOfMemory vm' ∧ Untouched vm vm' [] ∧
      Good vm' := by
  rcases exec_plain_post (i := .makeString a) trivial (post_makeStringList hg ha hp) with
    ⟨vm', he, s, o, h, rfl⟩ | ⟨e, vm', he, rfl, h1, h2⟩
  · refine .inl ⟨_, o, he, ?_, ?_, h.text, (h.carried.extends.pushed o).untouched hg, h.good.pushed h.ok⟩
    · show s.stack ++ _ = _; rw [h.carried.roots.stack]
    · obtain ⟨r, rfl, -⟩ := h.value; exact ⟨_, _, _, rfl⟩
  · exact .inr ⟨vm', he, h2.extends.untouched hg, h1⟩

/-! ### Where the code departs from the claim -/

/-- A machine with the string "abc", its rest "bc" and "b", and the empty string on the stack. -/
def stringVM : VM :=
  { heap := [.internalString (some [97, 98, 99]) 3, .none, .none]
    free := [1, 2]
    stack := [.string (some 0) 0 3, .string (some 0) 1 3, .string (some 0) 1 2, .string none 0 0,
      .integer 1, .integer 2, .list none]
    upStack := [none, none, none, none, none, none, none], callStack := [], globals := [],
    currentBytecode := none, nextSerial := 1 }

theorem stringVM_good : Good stringVM := by
  have l0 : Live stringVM 0 (.text 3) := ⟨by decide, _, rfl, rfl⟩
  refine ⟨⟨by decide, by decide, ?_, by decide, ?_, by simp [stringVM], by simp [stringVM],
    by simp [stringVM], by simp [stringVM], ?_⟩, ?_⟩
  · intro r hr o ho
    simp [stringVM] at hr
    rcases hr with rfl | rfl <;> (simp [stringVM] at ho; subst ho; simp [OwnsBlock])
  · intro o ho
    simp [stringVM] at ho
    rcases ho with rfl | rfl | rfl | rfl | rfl | rfl | rfl
    · exact ⟨by decide, by decide, 3, by decide, l0⟩
    · exact ⟨by decide, by decide, 3, by decide, l0⟩
    · exact ⟨by decide, by decide, 3, by decide, l0⟩
    · exact ⟨rfl, rfl⟩
    · exact ⟨by decide, by decide⟩
    · exact ⟨by decide, by decide⟩
    · trivial
  · intro r o ho hf
    match r with
    | 0 => simp [stringVM] at ho; subst ho; exact ⟨by decide, by decide⟩
    | 1 => exact absurd (by decide) hf
    | 2 => exact absurd (by decide) hf
    | n + 3 => simp [stringVM] at ho
  · intro r o ho hf
    match r with
    | 0 => simp [stringVM] at ho; subst ho; simp [UnderConstruction]
    | 1 => exact absurd (by decide) hf
    | 2 => exact absurd (by decide) hf
    | n + 3 => simp [stringVM] at ho

/-- C32, violated: `concatenate` takes as many bytes from a string as its end position says, starting
from its start position.  Concatenating "b", a slice of "abc", with "abc" gives "bcabc". -/
theorem C32_concatenate_of_slices :
    Good stringVM ∧ operand stringVM 5 = some (.string (some 0) 1 2) ∧
    text stringVM (.string (some 0) 1 2) = [98] ∧
    operand stringVM 7 = some (.string (some 0) 0 3) ∧
    text stringVM (.string (some 0) 0 3) = [97, 98, 99] ∧
    ∃ vm' o, exec plainEnv 0 ⟨0, 0, 0⟩ ⟨0, 0, 1⟩ (.concatenate 5 7) stringVM =
        .ok (.goto ⟨0, 0, 1⟩) vm' ∧ vm'.stack = stringVM.stack ++ [o] ∧
      text vm' o = [98, 99, 97, 98, 99] :=
  ⟨stringVM_good, rfl, rfl, rfl, rfl, _, .string (some 1) 0 5, rfl, rfl, rfl⟩

/-- C32, violated: concatenating "bc", the rest of "abc", reads beyond the end of the storage. -/
theorem C32_concatenate_reads_beyond_end :
    operand stringVM 6 = some (.string (some 0) 1 3) ∧
    exec plainEnv 0 ⟨0, 0, 0⟩ ⟨0, 0, 1⟩ (.concatenate 6 7) stringVM = .ub := ⟨rfl, rfl⟩

/-- C32, violated: concatenating the empty string that `cdr` returns dereferences a null pointer. -/
theorem C32_concatenate_of_empty (env : Env) (bc : Nat) (st nx : CodePtr) (vm : VM) (a b : Nat)
    (p : Option Nat) (off : Int) (len : Nat) (ha : operand vm a = some (.string none 0 0))
    (hb : operand vm b = some (.string p off len)) :
    exec env bc st nx (.concatenate a b) vm = .ub := by
  refine exec_plain_ub trivial ?_
  show iConcatenate a b vm = _
  unfold iConcatenate
  rw [M.bind_ok (getArg_some ha)]
  simp only
  rw [if_neg (by simp), M.bind_ok (getArg_some hb), if_neg (by simp)]
  rfl

/-- C32, violated: the string of a symbol without a name (as compiled with stripped names)
dereferences a null pointer. -/
theorem C32_symbol_string_of_stripped (env : Env) (bc : Nat) (st nx : CodePtr) (vm : VM) (a id : Nat)
    (ha : operand vm a = some (.symbol id none)) :
    exec env bc st nx (.symbolString a) vm = .ub := by
  refine exec_plain_ub trivial ?_
  show unary a symbolStringValue vm = _
  rw [unary_eq _ ha]
  rfl

/-! ### Examples -/

example : exec plainEnv 0 ⟨0, 0, 0⟩ ⟨0, 0, 1⟩ (.substring 6 3 2) stringVM =
    .ok (.goto ⟨0, 0, 1⟩) (pushed stringVM (.string (some 0) 2 3)) := rfl
example : exec plainEnv 0 ⟨0, 0, 0⟩ ⟨0, 0, 1⟩ (.getVecElt 7 2) stringVM =
    .ok (.goto ⟨0, 0, 1⟩) (pushed stringVM (.integer 99)) := rfl
example : ∃ vm', exec plainEnv 0 ⟨0, 0, 0⟩ ⟨0, 0, 1⟩ (.concatenate 7 7) stringVM =
    .ok (.goto ⟨0, 0, 1⟩) vm' := ⟨_, rfl⟩
example : ∃ vm', exec plainEnv 0 ⟨0, 0, 0⟩ ⟨0, 0, 1⟩ (.makeString 5) vectorVM =
    .ok (.goto ⟨0, 0, 1⟩) vm' ∧ text vm' (.string (some 3) 0 3) = [5, 6, 5] := ⟨_, rfl, rfl⟩
example : operand pairVM 2 = some (.list (some 0)) ∧
    ListOf { pairVM with heap := [.cons (some 1) none, .integer 300] } (some 0) ([300].map .integer) :=
  ⟨rfl, .cons rfl (.value rfl (by simp)) .nil⟩

#print axioms C32_length
#print axioms C32_car
#print axioms C32_cdr
#print axioms C32_get
#print axioms C32_substring
#print axioms C32_literal
#print axioms C32_concatenate_partial
#print axioms C32_symbol_string
#print axioms C32_symbol_id
#print axioms C32_make_string_of_vector
#print axioms C32_make_string_of_list
#print axioms C32_concatenate_of_slices
#print axioms C32_concatenate_reads_beyond_end
#print axioms C32_concatenate_of_empty
#print axioms C32_symbol_string_of_stripped

end DuckLisp.VM
