import Verif.Model.PrintObj
import Verif.Spec.PrintObj
import Verif.Proof.Print
import Mathlib.Data.List.Forall2

/-!
# Printing objects: helper lemmas
-/

namespace DuckLisp.PrintObj

open DuckLisp DuckLisp.VM DuckLisp.DlString DuckLisp.Spec
open DuckLisp.Print (split_at)

/-! ### Numbers -/

theorem decDigit_mem {c : Byte} {n : Nat} (h : DecDigit c n) : c ≠ 125 ∧ c ≠ 58 ∧ c ≠ 93 ∧ c ≠ 45 ∧ c ≠ 44 := by
  cases h with
  | mk _ h => revert n; decide

theorem decDigit_fun {c : Byte} {n m : Nat} (h : DecDigit c n) (h' : DecDigit c m) : n = m := by
  obtain ⟨_, h⟩ := h
  generalize hc : UInt8.ofNat (48 + n) = c at h'
  obtain ⟨_, h'⟩ := h'
  have key : ∀ n < 10, ∀ m < 10, UInt8.ofNat (48 + n) = UInt8.ofNat (48 + m) → n = m := by decide
  exact key _ h _ h' hc

theorem digits_mem {s : Bytes} {n : Nat} (h : Digits DecDigit 10 s n) : 125 ∉ s ∧ 58 ∉ s ∧ 93 ∉ s ∧ 45 ∉ s ∧ 44 ∉ s := by
  induction h with
  | nil => simp
  | snoc _ hd ih =>
    obtain ⟨a, b, c, d, e⟩ := decDigit_mem hd
    simp [ih, a.symm, b.symm, c.symm, d.symm, e.symm]

theorem digits_fun {s : Bytes} {n : Nat} (h : Digits DecDigit 10 s n) : ∀ {m}, Digits DecDigit 10 s m → n = m := by
  induction h with
  | nil =>
    intro m h'
    generalize hs : ([] : Bytes) = s at h'
    cases h' with
    | nil => rfl
    | snoc => simp at hs
  | @snoc s n c d hs hd ih =>
    intro m h'
    generalize ht : s ++ [c] = t at h'
    cases h' with
    | nil => simp at ht
    | snoc hs' hd' =>
      obtain ⟨rfl, h2⟩ := List.append_inj' ht rfl
      injection h2 with h2 _
      subst h2
      rw [ih hs', decDigit_fun hd hd']

theorem size_digits (n : Nat) : Digits DecDigit 10 (fromSize [] n) n := by
  unfold fromSize
  split
  · subst n
    exact Digits.snoc (s := []) (n := 0) (c := 48) (d := 0) .nil (DecDigit.mk 0 (by omega))
  · simpa using revDigitsPos_digits n

theorem number_digits (i : Int) : (∃ n : Nat, i = n ∧ Digits DecDigit 10 (fromPtrdiff [] i) n) ∨
    ∃ n : Nat, n ≠ 0 ∧ i = -n ∧ ∃ s, fromPtrdiff [] i = 45 :: s ∧ Digits DecDigit 10 s n := by
  unfold fromPtrdiff
  split
  · subst i
    exact .inl ⟨0, rfl, Digits.snoc (s := []) (n := 0) (c := 48) (d := 0) .nil (DecDigit.mk 0 (by omega))⟩
  · split
    · right
      obtain ⟨n, rfl⟩ : ∃ n : Nat, i = -n := ⟨(-i).toNat, by omega⟩
      refine ⟨n, by omega, rfl, (revDigitsPos n).reverse, ?_, revDigitsPos_digits n⟩
      simp [revDigitsNeg_eq]
    · left
      obtain ⟨n, rfl⟩ : ∃ n : Nat, i = n := ⟨i.toNat, by omega⟩
      exact ⟨n, rfl, by simpa using revDigitsPos_digits n⟩

theorem number_mem (i : Int) : 125 ∉ fromPtrdiff [] i ∧ 58 ∉ fromPtrdiff [] i := by
  rcases number_digits i with ⟨n, _, h⟩ | ⟨n, _, _, s, h, hd⟩
  · exact ⟨(digits_mem h).1, (digits_mem h).2.1⟩
  · rw [h]
    simp [(digits_mem hd).1, (digits_mem hd).2.1]

theorem number_inj {i j : Int} (h : fromPtrdiff [] i = fromPtrdiff [] j) : i = j := by
  rcases number_digits i with ⟨n, hi, hn⟩ | ⟨n, _, hi, s, hs, hn⟩ <;>
    rcases number_digits j with ⟨m, hj, hm⟩ | ⟨m, _, hj, t, ht, hm⟩
  · rw [h] at hn
    have := digits_fun hn hm
    omega
  · rw [h, ht] at hn
    exact absurd (List.mem_cons_self) (digits_mem hn).2.2.2.1
  · rw [← h, hs] at hm
    exact absurd (List.mem_cons_self) (digits_mem hm).2.2.2.1
  · rw [hs, ht] at h
    injection h with _ h
    subst h
    have := digits_fun hn hm
    omega

theorem size_inj {n m : Nat} (h : fromSize [] n = fromSize [] m) : n = m :=
  digits_fun (size_digits n) (h ▸ size_digits m)

theorem size_before {c : Byte} (hc : c = 125 ∨ c = 93 ∨ c = 44) {n m : Nat} {r r' : Bytes}
    (h : fromSize [] n ++ c :: r = fromSize [] m ++ c :: r') : n = m ∧ r = r' := by
  have key : ∀ n, c ∉ fromSize [] n := by
    intro n
    obtain ⟨a, _, b, _, c⟩ := digits_mem (size_digits n)
    rcases hc with rfl | rfl | rfl <;> assumption
  obtain ⟨h1, h2⟩ := split_at (key n) (key m) h
  exact ⟨size_inj h1, h2⟩

theorem number_before {c : Byte} (hc : c = 125 ∨ c = 58) {i j : Int} {r r' : Bytes}
    (h : fromPtrdiff [] i ++ c :: r = fromPtrdiff [] j ++ c :: r') : i = j ∧ r = r' := by
  have key : ∀ n, c ∉ fromPtrdiff [] n := by
    intro n
    obtain ⟨a, b⟩ := number_mem n
    rcases hc with rfl | rfl <;> assumption
  obtain ⟨h1, h2⟩ := split_at (key i) (key j) h
  exact ⟨number_inj h1, h2⟩

theorem bool_before {b c : Bool} {r r' : Bytes} (h : fromBool [] b ++ r = fromBool [] c ++ r') : b = c ∧ r = r' := by
  unfold fromBool at h
  cases b <;> cases c <;> simp at h ⊢ <;> exact h

/-! ### What is printed, as a tree -/

mutual
inductive V where
  | bool (b : Bool)
  | int (i : Int)
  | float
  | type (n : Nat)
  | noStr
  | str (s : Bytes) (off : Int) (len : Nat)
  | noSym (id : Nat)
  | sym (id : Nat) (s : Bytes)
  | nil
  | list (t : T)
  | cons (a d : P)
  | noVec
  | vec (ts : L) (off : Int)
  | inst (n : Nat) (v f : P)
inductive T where
  | mk (f : Bool) (v : V)
inductive P where
  | null
  | obj (t : T)
inductive L where
  | nil
  | cons (t : T) (ts : L)
end

def heads : List Bytes :=
  [ascii "bool: (dl_bool_t) ", ascii "integer: (dl_ptrdiff_t) ", ascii "float: (double) ...", ascii "type: (dl_size_t) ",
    ascii "(duckVM_string_t) {", ascii "(duckVM_symbol_t) {", ascii "(duckVM_list_t) {", ascii "(duckVM_cons_t) {",
    ascii "(duckVM_vector_t) {", ascii "(duckVM_composite_t) {"]

def tag : V → Fin 10
  | .bool _ => 0
  | .int _ => 1
  | .float => 2
  | .type _ => 3
  | .noStr | .str .. => 4
  | .noSym _ | .sym .. => 5
  | .nil | .list _ => 6
  | .cons .. => 7
  | .noVec | .vec .. => 8
  | .inst .. => 9

def head (i : Fin 10) : Bytes := heads[i.val]?.getD []

theorem heads_free : ∀ i j : Fin 10, head i <+: head j → i = j := by decide +kernel

theorem head_inj {i j : Fin 10} {x y : Bytes} (h : head i ++ x = head j ++ y) : i = j := by
  rcases List.prefix_or_prefix_of_prefix (⟨x, rfl⟩ : head i <+: head i ++ x) (⟨y, h.symm⟩ : head j <+: head i ++ x) with h | h
  · exact heads_free _ _ h
  · exact (heads_free _ _ h).symm

def L.length : L → Nat
  | .nil => 0
  | .cons _ ts => ts.length + 1

/-- The bytes of a string or name. -/
def inner (s : Bytes) : Bytes :=
  ascii "(duckVM_internalString_t) {" ++ (ascii "value[" ++ (fromSize [] s.length ++ (ascii "] = \"" ++ (s ++ (ascii "\"" ++ ascii "}")))))

theorem inner_inj {s t r r' : Bytes} (h : inner s ++ r = inner t ++ r') : s = t ∧ r = r' := by
  simp only [inner, List.append_assoc, List.append_cancel_left_eq, show ascii "] = \"" = 93 :: ascii " = \"" by decide +kernel,
    List.cons_append] at h
  obtain ⟨h1, h2⟩ := size_before (.inr (.inl rfl)) h
  rw [List.append_cancel_left_eq] at h2
  obtain ⟨h3, h4⟩ := List.append_inj h2 h1
  exact ⟨h3, by simpa using h4⟩

mutual
def body : V → Bytes
  | .bool b => fromBool [] b
  | .int i => fromPtrdiff [] i
  | .float => []
  | .type n => fromSize [] n
  | .noStr => ascii "NULL" ++ ascii "}"
  | .str s off len => ascii "\"" ++ (inner s ++ (ascii "\"[" ++ (fromPtrdiff [] off ++ (ascii ":" ++
      (fromSize [] len ++ (ascii "]" ++ ascii "}"))))))
  | .noSym id => ascii "NULL" ++ (ascii ", " ++ (ascii "id = " ++ (fromSize [] id ++ ascii "}")))
  | .sym id s => ascii "\"" ++ (inner s ++ (ascii "\"" ++ (ascii ", " ++ (ascii "id = " ++ (fromSize [] id ++ ascii "}")))))
  | .nil => ascii "NULL" ++ ascii "}"
  | .list t => full t ++ ascii "}"
  | .cons a d => part a ++ (ascii "." ++ (part d ++ ascii "}"))
  | .noVec => ascii "NULL" ++ ascii "}"
  | .vec ts off => ascii "(duckVM_internalVector_t) {" ++ (ascii "values[" ++ (fromSize [] ts.length ++ (ascii "] = {" ++
      (elements ts ++ (ascii "}" ++ (ascii "}" ++ (ascii "[" ++ (fromPtrdiff [] off ++ (ascii ":]" ++ ascii "}")))))))))
  | .inst n v f => ascii "(duckVM_internalComposite_t) {" ++ (ascii "type = " ++ (fromSize [] n ++ (ascii ", " ++ (ascii "value = " ++
      (part v ++ (ascii ", " ++ (ascii "function = " ++ (part f ++ (ascii "}" ++ ascii "}")))))))))
def full : T → Bytes
  | .mk f v => ascii "(duckVM_object_t) {" ++ (ascii "inUse = " ++ (fromBool [] f ++ (head (tag v) ++ (body v ++ ascii "}"))))
def part : P → Bytes
  | .null => ascii "NULL"
  | .obj t => full t
def elements : L → Bytes
  | .nil => []
  | .cons t .nil => full t
  | .cons t (.cons t' ts) => full t ++ (ascii ", " ++ elements (.cons t' ts))
end

theorem full_head (t : T) : ∃ x, full t = 40 :: x := by
  cases t
  rw [full, show ascii "(duckVM_object_t) {" = 40 :: ascii "duckVM_object_t) {" by decide +kernel]
  exact ⟨_, rfl⟩

theorem null_eq : ascii "NULL" = [78, 85, 76, 76] := by decide +kernel
theorem brace_eq : ascii "}" = [125] := by decide +kernel
theorem quote_eq : ascii "\"" = [34] := by decide +kernel

theorem values_inj (v v' : V) (r r' : Bytes) (ih : body v ++ 125 :: r = body v' ++ 125 :: r' → tag v = tag v' → v = v' ∧ r = r')
    (h : head (tag v) ++ (body v ++ 125 :: r) = head (tag v') ++ (body v' ++ 125 :: r')) : v = v' ∧ r = r' := by
  have ht := head_inj h
  rw [ht, List.append_cancel_left_eq] at h
  exact ih h ht

mutual
theorem body_inj : ∀ (v v' : V) (r r' : Bytes), body v ++ 125 :: r = body v' ++ 125 :: r' → tag v = tag v' → v = v' ∧ r = r'
  | .bool b, v', r, r', h, ht => by
    cases v' <;> first | (simp [tag] at ht; done) | skip
    replace h := bool_before h
    obtain ⟨rfl, h⟩ := h
    exact ⟨rfl, by simpa using h⟩
  | .int i, v', r, r', h, ht => by
    cases v' <;> first | (simp [tag] at ht; done) | skip
    obtain ⟨rfl, rfl⟩ := number_before (.inl rfl) h
    exact ⟨rfl, rfl⟩
  | .float, v', r, r', h, ht => by
    cases v' <;> first | (simp [tag] at ht; done) | skip
    simpa [body] using h
  | .type n, v', r, r', h, ht => by
    cases v' <;> first | (simp [tag] at ht; done) | skip
    obtain ⟨rfl, rfl⟩ := size_before (.inl rfl) h
    exact ⟨rfl, rfl⟩
  | .noStr, v', r, r', h, ht => by
    cases v' <;> first | (simp [tag] at ht; done) | skip
    · simpa [body] using h
    · simp [body, null_eq, quote_eq] at h
  | .str s off len, v', r, r', h, ht => by
    cases v' <;> first | (simp [tag] at ht; done) | skip
    · simp [body, null_eq, quote_eq] at h
    · simp only [body, List.append_assoc, List.append_cancel_left_eq] at h
      replace h := inner_inj h
      obtain ⟨rfl, h⟩ := h
      simp only [List.append_cancel_left_eq, show ascii ":" = [58] by decide +kernel, List.cons_append, List.nil_append] at h
      replace h := number_before (.inr rfl) h
      obtain ⟨rfl, h⟩ := h
      simp only [show ascii "]" = [93] by decide +kernel, List.cons_append, List.nil_append] at h
      replace h := size_before (.inr (.inl rfl)) h
      obtain ⟨rfl, h⟩ := h
      exact ⟨rfl, by simpa using h⟩
  | .noSym id, v', r, r', h, ht => by
    cases v' <;> first | (simp [tag] at ht; done) | skip
    · simp only [body, List.append_assoc, List.append_cancel_left_eq, brace_eq, List.cons_append, List.nil_append] at h
      replace h := size_before (.inl rfl) h
      obtain ⟨rfl, h⟩ := h
      exact ⟨rfl, by simpa using h⟩
    · simp [body, null_eq, quote_eq] at h
  | .sym id s, v', r, r', h, ht => by
    cases v' <;> first | (simp [tag] at ht; done) | skip
    · simp [body, null_eq, quote_eq] at h
    · simp only [body, List.append_assoc, List.append_cancel_left_eq] at h
      replace h := inner_inj h
      obtain ⟨rfl, h⟩ := h
      simp only [List.append_cancel_left_eq, brace_eq, List.cons_append, List.nil_append] at h
      replace h := size_before (.inl rfl) h
      obtain ⟨rfl, h⟩ := h
      exact ⟨rfl, by simpa using h⟩
  | .nil, v', r, r', h, ht => by
    cases v' <;> first | (simp [tag] at ht; done) | skip
    · simpa [body] using h
    · rename_i t
      obtain ⟨x, hx⟩ := full_head t
      simp [body, null_eq, hx] at h
  | .list t, v', r, r', h, ht => by
    cases v' <;> first | (simp [tag] at ht; done) | skip
    · obtain ⟨x, hx⟩ := full_head t
      simp [body, null_eq, hx] at h
    · rename_i t'
      simp only [body, List.append_assoc] at h
      replace h := full_inj t t' _ _ h
      obtain ⟨rfl, h⟩ := h
      exact ⟨rfl, by simpa using h⟩
  | .cons a d, v', r, r', h, ht => by
    cases v' <;> first | (simp [tag] at ht; done) | skip
    rename_i a' d'
    simp only [body, List.append_assoc] at h
    replace h := part_inj a a' _ _ h
    obtain ⟨rfl, h⟩ := h
    rw [List.append_cancel_left_eq] at h
    replace h := part_inj d d' _ _ h
    obtain ⟨rfl, h⟩ := h
    exact ⟨rfl, by simpa using h⟩
  | .noVec, v', r, r', h, ht => by
    cases v' <;> first | (simp [tag] at ht; done) | skip
    · simpa [body] using h
    · simp [body, null_eq, show ascii "(duckVM_internalVector_t) {" = 40 :: ascii "duckVM_internalVector_t) {" by decide +kernel] at h
  | .vec ts off, v', r, r', h, ht => by
    cases v' <;> first | (simp [tag] at ht; done) | skip
    · simp [body, null_eq, show ascii "(duckVM_internalVector_t) {" = 40 :: ascii "duckVM_internalVector_t) {" by decide +kernel] at h
    · rename_i ts' off'
      simp only [body, List.append_assoc, List.append_cancel_left_eq, show ascii "] = {" = 93 :: ascii " = {" by decide +kernel,
        List.cons_append] at h
      replace h := size_before (.inr (.inl rfl)) h
      obtain ⟨hl, h⟩ := h
      rw [List.append_cancel_left_eq] at h
      replace h := elements_inj ts ts' _ _ hl h
      obtain ⟨rfl, h⟩ := h
      simp only [List.append_cancel_left_eq, show ascii ":]" = [58, 93] by decide +kernel, List.cons_append, List.nil_append] at h
      replace h := number_before (.inr rfl) h
      obtain ⟨rfl, h⟩ := h
      exact ⟨rfl, by simpa using h⟩
  | .inst n v f, v', r, r', h, ht => by
    cases v' <;> first | (simp [tag] at ht; done) | skip
    rename_i n' a' d'
    simp only [body, List.append_assoc, List.append_cancel_left_eq, show ascii ", " = 44 :: ascii " " by decide +kernel,
      List.cons_append] at h
    replace h := size_before (.inr (.inr rfl)) h
    obtain ⟨rfl, h⟩ := h
    simp only [List.append_cancel_left_eq] at h
    replace h := part_inj v a' _ _ h
    obtain ⟨rfl, h⟩ := h
    simp only [List.cons.injEq, true_and, List.append_cancel_left_eq] at h
    replace h := part_inj f d' _ _ h
    obtain ⟨rfl, h⟩ := h
    exact ⟨rfl, by simpa using h⟩
theorem full_inj : ∀ (t t' : T) (r r' : Bytes), full t ++ r = full t' ++ r' → t = t' ∧ r = r'
  | .mk f v, .mk f' v', r, r', h => by
    simp only [full, List.append_assoc, List.append_cancel_left_eq] at h
    replace h := bool_before h
    obtain ⟨rfl, h⟩ := h
    rw [brace_eq] at h
    simp only [List.cons_append, List.nil_append] at h
    replace h := values_inj v v' _ _ (body_inj v v' r r') h
    obtain ⟨rfl, h⟩ := h
    exact ⟨rfl, h⟩
theorem part_inj : ∀ (p p' : P) (r r' : Bytes), part p ++ r = part p' ++ r' → p = p' ∧ r = r'
  | .null, p', r, r', h => by
    cases p' with
    | null => simpa [part] using h
    | obj t =>
      obtain ⟨x, hx⟩ := full_head t
      simp [part, null_eq, hx] at h
  | .obj t, p', r, r', h => by
    cases p' with
    | null =>
      obtain ⟨x, hx⟩ := full_head t
      simp [part, null_eq, hx] at h
    | obj t' =>
      replace h := full_inj t t' _ _ h
      obtain ⟨rfl, h⟩ := h
      exact ⟨rfl, h⟩
theorem elements_inj : ∀ (ts ts' : L) (r r' : Bytes), ts.length = ts'.length → elements ts ++ r = elements ts' ++ r' →
    ts = ts' ∧ r = r'
  | .nil, ts', r, r', hl, h => by
    cases ts' with
    | nil => simpa [elements] using h
    | cons => simp [L.length] at hl
  | .cons t .nil, ts', r, r', hl, h => by
    cases ts' with
    | nil => simp [L.length] at hl
    | cons t' ts' =>
      cases ts' with
      | nil =>
        replace h := full_inj t t' _ _ h
        obtain ⟨rfl, h⟩ := h
        exact ⟨rfl, h⟩
      | cons => simp [L.length] at hl
  | .cons t (.cons u ts), ts', r, r', hl, h => by
    cases ts' with
    | nil => simp [L.length] at hl
    | cons t' ts' =>
      cases ts' with
      | nil => simp [L.length] at hl
      | cons u' ts' =>
        simp only [elements, List.append_assoc] at h
        replace h := full_inj t t' _ _ h
        obtain ⟨rfl, h⟩ := h
        rw [List.append_cancel_left_eq] at h
        replace h := elements_inj (.cons u ts) (.cons u' ts') _ _ (by simpa [L.length] using hl) h
        obtain ⟨h1, h⟩ := h
        exact ⟨by rw [h1], h⟩
end

/-! ### What the tree says -/

mutual
def showsV : V → Content
  | .bool b => .bool b
  | .int i => .int i
  | .float => .float 0
  | .type n => .type n
  | .noStr => .string []
  | .str s off len => .string ((s.take len).drop off.toNat)
  | .noSym id => .symbol id none
  | .sym id s => .symbol id (some s)
  | .nil => .nil
  | .list t => showsT t
  | .cons a d => .pair (showsP a) (showsP d)
  | .noVec => .vector []
  | .vec ts off => .vector ((showsL ts).drop off.toNat)
  | .inst n v f => .instance_ n (showsP v) (showsP f)
def showsT : T → Content
  | .mk _ v => showsV v
def showsP : P → Content
  | .null => .nil
  | .obj t => showsT t
def showsL : L → List Content
  | .nil => []
  | .cons t ts => showsT t :: showsL ts
end

theorem withoutFloatsAll_map : ∀ ds : List Content, Content.withoutFloatsAll ds = ds.map Content.withoutFloats
  | [] => rfl
  | d :: ds => by rw [Content.withoutFloatsAll, withoutFloatsAll_map ds]; rfl

/-! ### Data is printed as such a tree -/

@[simp] theorem text_append (s t : Bytes) : (Printed.text s ++ Printed.text t : Printed) = .text (s ++ t) := rfl

theorem print_value {flag : Where → Bool} {vm : VM} {n : Nat} {w : Where} {o : Obj} {v : V}
    (h : printValue vm (print flag vm n) n o = .text (head (tag v) ++ body v)) :
    print flag vm (n + 1) w o = .text (full (.mk (flag w) v)) := by
  rw [print, h, full]
  simp only [str]
  rw [show (if flag w = true then Printed.text (ascii "true") else .text (ascii "false")) = .text (fromBool [] (flag w)) by
    cases flag w <;> decide +kernel]
  simp

theorem head_str : head 4 = ascii "(duckVM_string_t) {" := rfl
theorem head_sym : head 5 = ascii "(duckVM_symbol_t) {" := rfl
theorem head_list : head 6 = ascii "(duckVM_list_t) {" := rfl
theorem head_cons : head 7 = ascii "(duckVM_cons_t) {" := rfl
theorem head_vec : head 8 = ascii "(duckVM_vector_t) {" := rfl
theorem head_inst : head 9 = ascii "(duckVM_composite_t) {" := rfl

/-- From some depth on, the value is printed as `v`. -/
def Prints (flag : Where → Bool) (vm : VM) (o : Obj) (v : V) : Prop :=
  ∃ k, ∀ n, k ≤ n → printValue vm (print flag vm n) n o = .text (head (tag v) ++ body v)

/-- The same for the cell of a pair. -/
def CellPrints (flag : Where → Bool) (vm : VM) (r : Nat) (t : T) : Prop :=
  ∃ k, ∀ n, k ≤ n → deref vm (print flag vm n) (some r) = .text (full t)

theorem cell_of_value {flag : Where → Bool} {vm : VM} {r : Nat} {o : Obj} {v : V} (hr : vm.heap[r]? = some o)
    (h : Prints flag vm o v) : CellPrints flag vm r (.mk (flag (.cell r)) v) := by
  obtain ⟨k, h⟩ := h
  refine ⟨k + 1, fun n hn => ?_⟩
  obtain ⟨n, rfl⟩ : ∃ m, n = m + 1 := ⟨n - 1, by omega⟩
  simp only [deref, hr]
  exact print_value (h n (by omega))

/-- What is to be shown for an object. -/
def Goal (flag : Where → Bool) (vm : VM) (o : Obj) (d : Content) : Prop :=
  (∃ v, Prints flag vm o v ∧ showsV v = d.withoutFloats) ∧
    ∀ r, o = .list (some r) → ∃ t, CellPrints flag vm r t ∧ showsT t = d.withoutFloats

theorem atom {flag : Where → Bool} {vm : VM} {o : Obj} {d : Content} (v : V)
    (h : ∀ recur n, printValue vm recur n o = .text (head (tag v) ++ body v)) (hs : showsV v = d.withoutFloats)
    (ho : ∀ r, o ≠ .list (some r)) : Goal flag vm o d :=
  ⟨⟨v, ⟨0, fun n _ => h _ n⟩, hs⟩, fun r h => absurd h (ho r)⟩

theorem part_prints {flag : Where → Bool} {vm : VM} {p : Option Nat} {x : Obj} {d : Content} (hp : Part vm p x)
    (hx : Carries vm x d) (hg : Goal flag vm x d) :
    ∃ q, (∃ k, ∀ n, k ≤ n → derefOrNull vm (print flag vm n) p = .text (part q)) ∧ showsP q = d.withoutFloats := by
  cases hp with
  | empty =>
    cases hx
    exact ⟨.null, ⟨0, fun _ _ => rfl⟩, rfl⟩
  | pair h =>
    obtain ⟨t, h1, h2⟩ := hg.2 _ rfl
    exact ⟨.obj t, h1, h2⟩
  | value h _ =>
    obtain ⟨v, h1, h2⟩ := hg.1
    exact ⟨.obj (.mk _ v), cell_of_value h h1, h2⟩

theorem pointers {vm : VM} : ∀ (xs : List Obj) (ps : List Slot),
    (∀ i, i < xs.length → ∃ c, ps[i]? = some (.ptr (some c)) ∧ vm.heap[c]? = xs[i]?) →
    ∃ cs : List Nat, (ps.map slotPointer).take xs.length = cs.map some ∧ xs.length ≤ ps.length ∧
      List.Forall₂ (fun c x => vm.heap[c]? = some x) cs xs
  | [], ps, _ => ⟨[], by simp, by simp, .nil⟩
  | x :: xs, ps, h => by
    obtain ⟨c, h1, h2⟩ := h 0 (by simp)
    cases ps with
    | nil => simp at h1
    | cons p ps =>
      obtain ⟨cs, h3, h4, h5⟩ := pointers xs ps (fun i hi => by simpa using h (i + 1) (by simpa using hi))
      simp only [List.getElem?_cons_zero, Option.some.injEq] at h1 h2
      subst h1
      exact ⟨c :: cs, by simp [h3, slotPointer], by simpa using h4, .cons h2 h5⟩

theorem internalString_prints {vm : VM} {r : Nat} {v : Option Bytes}
    (h : vm.heap[r]? = some (.internalString v (v.getD []).length)) : internalStringAt vm r = .text (inner (v.getD [])) := by
  simp [internalStringAt, h, printInternalString, inner, str, size]

mutual
theorem carries_prints {flag : Where → Bool} {vm : VM} : ∀ {o : Obj} {d : Content}, Carries vm o d → Goal flag vm o d
  | _, _, .nil => ⟨⟨.nil, ⟨0, fun _ _ => rfl⟩, rfl⟩, fun _ h => by simp at h⟩
  | _, _, .bool b => atom (.bool (b ≠ 0)) (fun _ _ => rfl) rfl (by simp)
  | _, _, .int i => atom (.int i) (fun _ _ => rfl) rfl (by simp)
  | _, _, .float _ => atom .float (fun _ _ => by simp [printValue, str, head, tag, body, heads]) rfl (by simp)
  | _, _, .type n => atom (.type n) (fun _ _ => rfl) rfl (by simp)
  | _, _, .string (v := v) (off := off) (len := len) h => atom (.str (v.getD []) off len)
      (fun _ _ => by
        simp only [printValue, printString, internalString_prints h, str, number, size]
        simp [body, tag, head_str, head_sym, head_list, head_cons]) rfl (by simp)
  | _, _, .noString => atom .noStr (fun _ _ => rfl) rfl (by simp)
  | _, _, .symbol (id := id) (v := v) h => atom (.sym id (v.getD []))
      (fun _ _ => by
        simp only [printValue, printSymbol, internalString_prints h, str, size]
        simp [body, tag, head_str, head_sym, head_list, head_cons]) rfl (by simp)
  | _, _, .nameless (id := id) => atom (.noSym id) (fun _ _ => rfl) rfl (by simp)
  | _, _, .pair (r := r) (a := a) (d := d) ⟨p, q, hr, hp, hq⟩ ha hd => by
    obtain ⟨a', ⟨k, h1⟩, h2⟩ := part_prints hp ha (carries_prints (flag := flag) ha)
    obtain ⟨d', ⟨l, g1⟩, g2⟩ := part_prints hq hd (carries_prints (flag := flag) hd)
    have hc : CellPrints flag vm r (.mk (flag (.cell r)) (.cons a' d')) := by
      refine cell_of_value hr ⟨k + l, fun n hn => ?_⟩
      simp only [printValue, printCons, h1 n (by omega), g1 n (by omega), str]
      simp [body, tag, head_str, head_sym, head_list, head_cons]
    have hs : showsV (.cons a' d') = (Content.pair a d).withoutFloats := by rw [showsV, h2, g2]; rfl
    refine ⟨⟨.list (.mk (flag (.cell r)) (.cons a' d')), ?_, hs⟩, fun r' h => ?_⟩
    · obtain ⟨m, hm⟩ := hc
      refine ⟨m, fun n hn => ?_⟩
      simp only [printValue, printList, derefOrNull, hm n hn, str]
      simp [body, tag, head_str, head_sym, head_list, head_cons]
    · injection h with h
      injection h with h
      subst h
      exact ⟨_, hc, hs⟩
  | _, _, .vector (r := r) (off := off) ⟨slots, n, hr, hn, hx⟩ hs => by
    subst hn
    obtain ⟨cs, h1, h2, h3⟩ := pointers _ _ hx
    obtain ⟨ts, ⟨k, g1⟩, g2, g3⟩ := all_print (flag := flag) hs h3
    refine ⟨⟨.vec ts off, ⟨k, fun n hn => ?_⟩, ?_⟩, fun _ h => by simp at h⟩
    · simp only [printValue, printVector, hr, printInternalVector, firstOf, List.length_map, h2, if_true, h1, g1 n hn, str,
        number, size]
      simp [body, tag, head_vec, g2]
    · rw [showsV, g3, Content.withoutFloats, withoutFloatsAll_map, withoutFloatsAll_map, Int.toNat_natCast, List.map_drop]
  | _, _, .noVector => atom .noVec (fun _ _ => rfl) rfl (by simp)
  | _, _, .instance_ (r := r) (t := t) (a := a) (d := d) ⟨p, q, hr, hp, hq⟩ ha hd => by
    obtain ⟨v, hv, h2⟩ := (carries_prints (flag := flag) ha).1
    obtain ⟨f, hf, g2⟩ := (carries_prints (flag := flag) hd).1
    obtain ⟨k, h1⟩ := cell_of_value hp hv
    obtain ⟨l, g1⟩ := cell_of_value hq hf
    refine ⟨⟨.inst t (.obj (.mk (flag (.cell p)) v)) (.obj (.mk (flag (.cell q)) f)), ⟨k + l, fun n hn => ?_⟩, ?_⟩, fun _ h => by simp at h⟩
    · simp only [printValue, printComposite, hr, printInternalComposite, derefOrNull, h1 n (by omega), g1 n (by omega), str, size]
      simp [body, part, tag, head_inst]
    · simp only [showsV, showsP, showsT, h2, g2, Content.withoutFloats]
theorem all_print {flag : Where → Bool} {vm : VM} : ∀ {xs : List Obj} {ds : List Content}, CarryAll vm xs ds →
    ∀ {cs : List Nat}, List.Forall₂ (fun c x => vm.heap[c]? = some x) cs xs →
    ∃ ts, (∃ k, ∀ n, k ≤ n → sequence vm (print flag vm n) (cs.map some) = .text (elements ts)) ∧
      ts.length = xs.length ∧ showsL ts = Content.withoutFloatsAll ds
  | _, _, .nil, _, hc => by
    cases hc
    exact ⟨.nil, ⟨0, fun _ _ => rfl⟩, rfl, rfl⟩
  | _, _, .cons h hs, _, hc => by
    obtain ⟨v, hv, h1⟩ := (carries_prints (flag := flag) h).1
    cases hc with
    | @cons c _ _ _ hx hc =>
      obtain ⟨ts, ⟨k, g1⟩, g2, g3⟩ := all_print (flag := flag) hs hc
      obtain ⟨l, hl⟩ := cell_of_value hx hv
      refine ⟨.cons (.mk (flag (.cell c)) v) ts, ⟨k + l, fun n hn => ?_⟩, by simp [L.length, g2], by simp [showsL, showsT, h1, g3, Content.withoutFloatsAll]⟩
      cases hc with
      | nil =>
        cases ts with
        | nil => exact hl n (by omega)
        | cons => simp [L.length] at g2
      | cons hx' hc =>
        cases ts with
        | nil => simp [L.length] at g2
        | cons t ts =>
          rw [List.map_cons, List.map_cons, sequence, ← List.map_cons, g1 n (by omega), hl n (by omega), str]
          · rfl
          · simp
end

/-! ### Cycles -/

theorem and_text {a b : Printed} {t : Bytes} (h : a ++ b = .text t) : (∃ s, a = .text s) ∧ ∃ s, b = .text s := by
  cases a with
  | text s =>
    cases b with
    | text s' => exact ⟨⟨s, rfl⟩, s', rfl⟩
    | ub => cases h
    | deeper => cases h
  | ub => cases b <;> cases h
  | deeper => cases b <;> cases h

theorem sequence_text {vm : VM} {recur : Where → Obj → Printed} : ∀ {ps : List (Option Nat)} {t : Bytes},
    sequence vm recur ps = .text t → ∀ p ∈ ps, ∃ s, deref vm recur p = .text s
  | [], _, _, p, hp => by simp at hp
  | [q], t, h, p, hp => by
    simp only [List.mem_singleton] at hp
    subst hp
    exact ⟨t, h⟩
  | q :: q' :: ps, t, h, p, hp => by
    obtain ⟨h1, h2⟩ := and_text h
    obtain ⟨_, h2⟩ := h2
    obtain ⟨_, _, h2⟩ := and_text h2
    rcases List.mem_cons.1 hp with rfl | hp
    · exact h1
    · exact sequence_text h2 p hp

theorem deref_text {vm : VM} {recur : Where → Obj → Printed} {c : Nat} {z : Obj} {t : Bytes}
    (h : deref vm recur (some c) = .text t) (hz : vm.heap[c]? = some z) : recur (.cell c) z = .text t := by
  simpa only [deref, hz] using h

/-- The parts of an object, from the object up. -/
def PartOf (vm : VM) (z o : Obj) : Prop := HasPart vm o z

section
variable {vm : VM} {recur : Where → Obj → Printed} (hr : ∀ w z t, recur w z = .text t → Acc (PartOf vm) z)
include hr

theorem captures_acc {b : Option UpBlock} {n : Nat} {t : Bytes} (h : firstOf vm recur ((b.map UpBlock.ups).getD []) n = .text t)
    {z : Obj} (hz : HasPart vm (.upvalueArray b n) z) : Acc (PartOf vm) z := by
  cases hz with
  | capture hc hz =>
    unfold firstOf at h
    split at h
    · obtain ⟨_, h⟩ := sequence_text h _ hc
      exact hr _ _ _ (deref_text h hz)
    · cases h

theorem elements_acc {vs : Option (List Slot)} {n : Nat} {init : Bool} {t : Bytes}
    (h : printInternalVector vm recur vs n init = .text t) {z : Obj} (hz : HasPart vm (.internalVector vs n init) z) :
    Acc (PartOf vm) z := by
  cases hz with
  | element hc hz =>
    obtain ⟨_, _, h⟩ := and_text h
    obtain ⟨⟨_, h⟩, _⟩ := and_text h
    simp only [if_true] at h
    obtain ⟨_, _, h⟩ := and_text h
    obtain ⟨_, _, h⟩ := and_text h
    obtain ⟨_, _, h⟩ := and_text h
    obtain ⟨⟨_, h⟩, _⟩ := and_text h
    unfold firstOf at h
    split at h
    · obtain ⟨_, h⟩ := sequence_text h _ (by
        rw [Option.getD_some, ← List.map_take]
        exact List.mem_map.2 ⟨_, hc, rfl⟩)
      exact hr _ _ _ (deref_text h hz)
    · cases h

theorem composite_acc {ty : Nat} {v f : Option Nat} {t : Bytes}
    (h : printInternalComposite vm recur ty v f = .text t) {z : Obj} (hz : HasPart vm (.internalComposite ty v f) z) :
    Acc (PartOf vm) z := by
  obtain ⟨_, _, h⟩ := and_text h
  obtain ⟨_, _, h⟩ := and_text h
  obtain ⟨_, _, h⟩ := and_text h
  obtain ⟨_, _, h⟩ := and_text h
  obtain ⟨_, _, h⟩ := and_text h
  obtain ⟨⟨_, h1⟩, _, h⟩ := and_text h
  obtain ⟨_, _, h⟩ := and_text h
  obtain ⟨_, _, h⟩ := and_text h
  obtain ⟨⟨_, h2⟩, _⟩ := and_text h
  cases hz with
  | value hz => exact hr _ _ _ (deref_text h1 hz)
  | function hz => exact hr _ _ _ (deref_text h2 hz)

theorem chain_acc : ∀ (n : Nat) (u : Upvalue) (t : Bytes), printChain vm recur n u = .text t → Acc (PartOf vm) (.upvalue u)
  | 0, _, _, h => by cases h
  | n + 1, u, t, h => by
    refine ⟨_, fun z hz => ?_⟩
    cases hz with
    | slot hz =>
      rename_i i
      simp only [printChain, show (0 : Int) ≤ i from Int.natCast_nonneg i, if_true, Int.toNat_natCast, hz] at h
      obtain ⟨⟨_, h⟩, _⟩ := and_text h
      exact hr _ _ _ h
    | own hz =>
      obtain ⟨⟨_, h⟩, _⟩ := and_text h
      exact hr _ _ _ (deref_text h hz)
    | other hz =>
      simp only [printChain, hz] at h
      obtain ⟨_, _, h⟩ := and_text h
      exact chain_acc n _ _ h

theorem value_acc (n : Nat) (o : Obj) (t : Bytes) (h : printValue vm recur n o = .text t) : Acc (PartOf vm) o := by
  refine ⟨_, fun z hz => ?_⟩
  cases hz with
  | list hz =>
    obtain ⟨_, _, h⟩ := and_text h
    obtain ⟨⟨_, h⟩, _⟩ := and_text h
    exact hr _ _ _ (deref_text h hz)
  | first hz =>
    obtain ⟨_, _, h⟩ := and_text h
    obtain ⟨⟨_, h⟩, _⟩ := and_text h
    exact hr _ _ _ (deref_text h hz)
  | rest hz =>
    obtain ⟨_, _, h⟩ := and_text h
    obtain ⟨_, _, h⟩ := and_text h
    obtain ⟨_, _, h⟩ := and_text h
    obtain ⟨⟨_, h⟩, _⟩ := and_text h
    exact hr _ _ _ (deref_text h hz)
  | element hc hz => exact elements_acc hr h (.element hc hz)
  | vector hv hz =>
    obtain ⟨_, _, h⟩ := and_text h
    obtain ⟨⟨_, h⟩, _⟩ := and_text h
    simp only [hv] at h
    obtain ⟨⟨_, h⟩, _⟩ := and_text h
    exact elements_acc hr h hz
  | capture hc hz =>
    obtain ⟨_, _, h⟩ := and_text h
    obtain ⟨_, _, h⟩ := and_text h
    obtain ⟨_, _, h⟩ := and_text h
    obtain ⟨_, _, h⟩ := and_text h
    obtain ⟨⟨_, h⟩, _⟩ := and_text h
    exact captures_acc hr h (.capture hc hz)
  | closure hu hz =>
    obtain ⟨_, _, h⟩ := and_text h
    obtain ⟨_, _, h⟩ := and_text h
    obtain ⟨_, _, h⟩ := and_text h
    obtain ⟨_, _, h⟩ := and_text h
    obtain ⟨_, _, h⟩ := and_text h
    obtain ⟨_, _, h⟩ := and_text h
    obtain ⟨⟨_, h⟩, _⟩ := and_text h
    simp only [printCaptures, hu] at h
    obtain ⟨_, _, h⟩ := and_text h
    obtain ⟨_, _, h⟩ := and_text h
    obtain ⟨_, _, h⟩ := and_text h
    cases hz with
    | @capture b _ _ _ hc hz => exact captures_acc hr (b := some b) h (.capture hc hz)
  | slot hz =>
    obtain ⟨_, _, h⟩ := and_text h
    obtain ⟨_, _, h⟩ := and_text h
    obtain ⟨⟨_, h⟩, _⟩ := and_text h
    exact (chain_acc hr n _ _ h).inv (.slot hz)
  | own hz =>
    obtain ⟨_, _, h⟩ := and_text h
    obtain ⟨_, _, h⟩ := and_text h
    obtain ⟨⟨_, h⟩, _⟩ := and_text h
    exact (chain_acc hr n _ _ h).inv (.own hz)
  | other hz =>
    obtain ⟨_, _, h⟩ := and_text h
    obtain ⟨_, _, h⟩ := and_text h
    obtain ⟨⟨_, h⟩, _⟩ := and_text h
    exact (chain_acc hr n _ _ h).inv (.other hz)
  | value hz => exact composite_acc hr h (.value hz)
  | function hz => exact composite_acc hr h (.function hz)
  | composite hc hz =>
    obtain ⟨_, _, h⟩ := and_text h
    obtain ⟨⟨_, h⟩, _⟩ := and_text h
    simp only [hc] at h
    exact composite_acc hr h hz
end

/-- What is printed is well-founded. -/
theorem print_acc {flag : Where → Bool} {vm : VM} : ∀ (n : Nat) (w : Where) (o : Obj) (t : Bytes),
    print flag vm n w o = .text t → Acc (PartOf vm) o
  | 0, _, _, _, h => by cases h
  | n + 1, w, o, t, h => by
    rw [print] at h
    obtain ⟨_, _, h⟩ := and_text h
    obtain ⟨_, _, h⟩ := and_text h
    obtain ⟨_, _, h⟩ := and_text h
    obtain ⟨⟨_, h⟩, _⟩ := and_text h
    exact value_acc (print_acc n) n o _ h

theorem acc_no_cycle {vm : VM} {o : Obj} (h : Acc (PartOf vm) o) : ¬ HasCycle vm o := by
  rintro ⟨z, hw, hc⟩
  have hz : Acc (PartOf vm) z := by
    unfold IsMadeOf at hw
    clear hc
    induction hw with
    | refl => exact h
    | tail _ hs ih => exact ih.inv hs
  have : ∀ z, Acc (PartOf vm) z → ¬ ContainsItself vm z := by
    intro z hz
    have hz' := hz.transGen
    induction hz' with
    | intro z _ ih =>
      intro hc
      have hc' : Relation.TransGen (PartOf vm) z z := Relation.transGen_swap.1 hc
      exact ih z hc' hz hc
  exact this z hz hc

end DuckLisp.PrintObj
