import Verif.Model.DynArray
import Verif.Spec.ListOps

namespace DuckLisp.DynArray
open DuckLisp.Spec

/-- The array holds the elements `l`. -/
structure Rep (a : Arr) (l : List Bytes) : Prop where
  size_pos : 0 < a.elementSize
  sizes : ∀ e ∈ l, e.length = a.elementSize
  length : a.length = l.length
  cap : l.length * a.elementSize ≤ a.memorySize
  block : (a.elements.getD []).length = a.memorySize
  bytes : (a.elements.getD []).take (l.length * a.elementSize) = l.flatten

theorem flatten_length {l : List Bytes} {n : Nat} (h : ∀ e ∈ l, e.length = n) :
    l.flatten.length = l.length * n := by
  induction l with
  | nil => simp
  | cons a l ih =>
    simp only [List.flatten_cons, List.length_append, List.length_cons]
    rw [h a (by simp), ih (fun e he => h e (by simp [he])), Nat.succ_mul]; omega

theorem flatten_drop {l : List Bytes} {n : Nat} (h : ∀ e ∈ l, e.length = n) :
    ∀ i, l.flatten.drop (i * n) = (l.drop i).flatten := by
  induction l with
  | nil => simp
  | cons a l ih =>
    intro i
    cases i with
    | zero => simp
    | succ i =>
      have ha : a.length = n := h a (by simp)
      simp only [List.flatten_cons, List.drop_succ_cons]
      rw [List.drop_append, List.drop_eq_nil_of_le (by rw [Nat.succ_mul]; omega), List.nil_append,
        show (i + 1) * n - a.length = i * n by rw [Nat.succ_mul]; omega]
      exact ih (fun e he => h e (by simp [he])) i

theorem flatten_take {l : List Bytes} {n : Nat} (h : ∀ e ∈ l, e.length = n) :
    ∀ i, l.flatten.take (i * n) = (l.take i).flatten := by
  induction l with
  | nil => simp
  | cons a l ih =>
    intro i
    cases i with
    | zero => simp
    | succ i =>
      have ha : a.length = n := h a (by simp)
      simp only [List.flatten_cons, List.take_succ_cons]
      rw [List.take_append, List.take_of_length_le (by rw [Nat.succ_mul]; omega),
        show (i + 1) * n - a.length = i * n by rw [Nat.succ_mul]; omega,
        ih (fun e he => h e (by simp [he])) i]

theorem chunks_flatten {n : Nat} : ∀ (l : List Bytes), (∀ e ∈ l, e.length = n) →
    chunks n l.length l.flatten = l
  | [], _ => rfl
  | a :: l, h => by
    have ha : a.length = n := h a (by simp)
    simp only [List.length_cons, chunks, List.flatten_cons]
    rw [List.take_append, List.take_of_length_le (by omega), List.drop_append,
      List.drop_eq_nil_of_le (by omega), show n - a.length = 0 by omega]
    simp [chunks_flatten l (fun e he => h e (by simp [he]))]

theorem Rep.block_some {a : Arr} {l : List Bytes} (h : Rep a l) (hl : 0 < l.length) :
    ∃ b, a.elements = some b ∧ b.length = a.memorySize ∧
      b.take (l.length * a.elementSize) = l.flatten := by
  cases he : a.elements with
  | none =>
    have h1 := h.block; have h2 := h.cap
    rw [he] at h1
    simp at h1
    have := Nat.mul_pos hl h.size_pos
    omega
  | some b =>
    have h1 := h.block; have h2 := h.bytes
    rw [he] at h1 h2
    exact ⟨b, rfl, h1, h2⟩

/-- Reading `n` elements from index `i`. -/
theorem Rep.read_ok {a : Arr} {l : List Bytes} (h : Rep a l) (i n : Nat) (hn : 0 < n)
    (hi : i + n ≤ l.length) :
    read a.elements (i * a.elementSize) (n * a.elementSize) = some ((l.drop i).take n).flatten := by
  obtain ⟨b, e, hb, ht⟩ := h.block_some (by omega)
  have hle : i * a.elementSize + n * a.elementSize ≤ l.length * a.elementSize := by
    rw [← Nat.add_mul]; exact Nat.mul_le_mul_right _ hi
  have hcap := h.cap
  unfold read
  rw [e]; simp only
  rw [if_pos (by omega)]
  congr 1
  rw [← flatten_take (fun e he => h.sizes e (List.mem_of_mem_drop he)), ← flatten_drop h.sizes, ← ht,
    List.drop_take, List.take_take]
  congr 1
  omega

theorem read_one {a : Arr} {l : List Bytes} (h : Rep a l) (i : Nat) (hi : i < l.length) :
    read a.elements (i * a.elementSize) a.elementSize = some l[i] := by
  have := h.read_ok i 1 (by omega) (by omega)
  rw [Nat.one_mul] at this
  rw [this]
  have e : (l.drop i).take 1 = [l[i]] := by
    rw [List.drop_eq_getElem_cons hi]; rfl
  rw [e]
  simp

theorem set_flatten {l : List Bytes} {n : Nat} (h : ∀ e ∈ l, e.length = n) (i : Nat) (e : Bytes)
    (hi : i < l.length) :
    (l.set i e).flatten = l.flatten.take (i * n) ++ e ++ l.flatten.drop (i * n + n) := by
  have : i * n + n = (i + 1) * n := by rw [Nat.succ_mul]
  rw [this, flatten_take h, flatten_drop h, List.set_eq_take_append_cons_drop, if_pos hi]
  simp

theorem Rep.write_one {a : Arr} {l : List Bytes} (h : Rep a l) (i : Nat) (hi : i < l.length)
    (e : Bytes) (he : e.length = a.elementSize) :
    ∃ b, write a.elements (i * a.elementSize) e = some b ∧
      Rep { a with elements := some b } (l.set i e) := by
  obtain ⟨b, eb, hb, ht⟩ := h.block_some (by omega)
  have hle : i * a.elementSize + a.elementSize ≤ l.length * a.elementSize := by
    rw [← Nat.succ_mul]; exact Nat.mul_le_mul_right _ hi
  have hcap := h.cap
  refine ⟨b.take (i * a.elementSize) ++ e ++ b.drop (i * a.elementSize + e.length), ?_, ?_⟩
  · unfold write
    rw [eb]; simp only
    rw [if_pos (by omega)]
  · refine ⟨h.size_pos, ?_, by simpa using h.length, by simpa using hcap, ?_, ?_⟩
    · intro x hx
      rcases List.mem_or_eq_of_mem_set hx with hx | rfl
      · exact h.sizes x hx
      · exact he
    · simp only [Option.getD_some, List.length_append, List.length_take, List.length_drop]
      omega
    · simp only [Option.getD_some, List.length_set]
      rw [set_flatten h.sizes i e hi, ← ht, List.take_take, List.drop_take, he,
        List.take_append, List.take_append, List.take_take]
      have e1 : min (l.length * a.elementSize) (i * a.elementSize) =
          min (i * a.elementSize) (l.length * a.elementSize) := Nat.min_comm _ _
      rw [e1]
      congr 1
      · congr 1
        rw [List.take_of_length_le]
        simp only [List.length_take]; omega
      · congr 1
        simp only [List.length_append, List.length_take]; omega

theorem realloc_spec {o : Oracle} {old : Option Bytes} {size : Nat} {b : Bytes}
    (h : realloc o old size = some b) :
    b.length = size ∧ ∀ n, n ≤ size → n ≤ (old.getD []).length → b.take n = (old.getD []).take n := by
  unfold realloc at h
  cases ho : o size with
  | none => rw [ho] at h; cases h
  | some junk =>
    rw [ho] at h
    simp only [Option.some.injEq] at h
    subst h
    refine ⟨by simp, ?_⟩
    intro n h1 h2
    apply List.ext_getElem?
    intro i
    simp only [List.getElem?_take, List.getElem?_map]
    split
    · rename_i hi
      rw [List.getElem?_range (by omega)]
      simp only [Option.map_some]
      rw [List.getElem?_eq_getElem (by omega)]
      rfl
    · rfl

/-- Either the block is large enough and still holds the elements, or allocation failed. -/
theorem grow_spec {o : Oracle} {a : Arr} {l : List Bytes} (h : Rep a l) (n : Nat) :
    (∃ a', grow o a n = (true, a') ∧ Rep a' l ∧ a'.elementSize = a.elementSize ∧
      (l.length + n) * a.elementSize ≤ a'.memorySize ∧ (0 < n → ∃ b, a'.elements = some b) ∧
      a'.strategy = a.strategy) ∨
    (grow o a n = (false, { a with elements := none }) ∧ ∃ s, o s = none) := by
  have hle : l.length * a.elementSize ≤ (l.length + n) * a.elementSize :=
    Nat.mul_le_mul_right _ (by omega)
  have hcap := h.cap
  have hblk := h.block
  have hlen := h.length
  unfold grow
  have hneed : (a.length + n) * a.elementSize = (l.length + n) * a.elementSize := by rw [hlen]
  rw [hneed]
  cases hs : a.strategy with
  | fit =>
    dsimp only
    cases hr : realloc o a.elements ((l.length + n) * a.elementSize) with
    | none =>
      refine Or.inr ⟨rfl, (l.length + n) * a.elementSize, ?_⟩
      · unfold realloc at hr
        cases ho : o ((l.length + n) * a.elementSize) with
        | none => rfl
        | some j => rw [ho] at hr; cases hr
    | some b =>
      obtain ⟨h1, h2⟩ := realloc_spec hr
      refine Or.inl ⟨_, rfl, ⟨h.size_pos, h.sizes, h.length, hle, h1, ?_⟩, rfl, Nat.le_refl _,
        fun _ => ⟨b, rfl⟩, rfl⟩
      simp only [Option.getD_some]
      rw [h2 _ hle (by omega)]
      exact h.bytes
  | double =>
    dsimp only
    by_cases hm : (l.length + n) * a.elementSize > a.memorySize
    · rw [if_pos hm]
      cases hr : realloc o a.elements (2 * ((l.length + n) * a.elementSize)) with
      | none =>
        refine Or.inr ⟨rfl, 2 * ((l.length + n) * a.elementSize), ?_⟩
        · unfold realloc at hr
          cases ho : o (2 * ((l.length + n) * a.elementSize)) with
          | none => rfl
          | some j => rw [ho] at hr; cases hr
      | some b =>
        obtain ⟨h1, h2⟩ := realloc_spec hr
        refine Or.inl ⟨_, rfl, ⟨h.size_pos, h.sizes, h.length, by simp only; omega, h1, ?_⟩, rfl,
          by simp only; omega, fun _ => ⟨b, rfl⟩, rfl⟩
        simp only [Option.getD_some]
        rw [h2 _ (by omega) (by omega)]
        exact h.bytes
    · rw [if_neg hm]
      refine Or.inl ⟨a, rfl, h, rfl, by omega, ?_, hs⟩
      intro hn
      cases he : a.elements with
      | none =>
        rw [he] at hblk; simp at hblk
        have := Nat.mul_pos (show 0 < l.length + n by omega) h.size_pos
        omega
      | some b => exact ⟨b, rfl⟩

/-- Pushing the bytes of `es`. -/
theorem pushBytes_spec {o : Oracle} {a : Arr} {l : List Bytes} (h : Rep a l) (es : List Bytes)
    (hs : ∀ e ∈ es, e.length = a.elementSize) :
    (∃ a', pushBytes o a es.length es.flatten = some (a', .ok []) ∧ Rep a' (l ++ es) ∧
      a'.elementSize = a.elementSize ∧ a'.strategy = a.strategy) ∨
    (pushBytes o a es.length es.flatten =
      some ({ a with elements := none }, .error .outOfMemory) ∧ ∃ s, o s = none) := by
  unfold pushBytes
  rcases grow_spec (o := o) h es.length with ⟨a', e, ha, hes, hc, hb, hst⟩ | ⟨e, hf⟩
  · rw [e]; dsimp only
    by_cases hne : es = []
    · subst hne
      exact Or.inl ⟨a', by simp, by simpa using ha, hes, hst⟩
    have hpos : 0 < es.length := List.length_pos_iff.2 hne
    have hflne : es.flatten ≠ [] := by
      intro e
      have h1 := flatten_length hs
      rw [e] at h1
      have := Nat.mul_pos hpos h.size_pos
      simp at h1; omega
    rw [if_neg hflne]
    obtain ⟨b, eb⟩ := hb hpos
    have hbl : b.length = a'.memorySize := by have := ha.block; rwa [eb] at this
    have hfl : es.flatten.length = es.length * a.elementSize := flatten_length hs
    have hoff : a'.elementSize * a'.length = l.length * a.elementSize := by
      rw [ha.length, hes, Nat.mul_comm]
    have hadd : (l.length + es.length) * a.elementSize =
        l.length * a.elementSize + es.length * a.elementSize := Nat.add_mul _ _ _
    have hbytes : b.take (l.length * a.elementSize) = l.flatten := by
      have := ha.bytes; rw [eb, hes] at this; exact this
    refine Or.inl ⟨{ a' with elements := some (b.take (l.length * a.elementSize) ++ es.flatten ++
        b.drop (l.length * a.elementSize + es.flatten.length)), length := a'.length + es.length },
      ?_, ?_, hes, hst⟩
    · unfold write
      rw [eb]; dsimp only
      rw [hoff, if_pos (by omega)]
    · refine ⟨ha.size_pos, ?_, ?_, ?_, ?_, ?_⟩
      · intro x hx
        simp only [List.mem_append] at hx
        rcases hx with hx | hx
        · exact ha.sizes x hx
        · rw [hs x hx]; exact hes.symm
      · simp [ha.length]
      · simp only [List.length_append]; rw [hes]; exact hc
      · simp only [Option.getD_some, List.length_append, List.length_take, List.length_drop]
        omega
      · simp only [Option.getD_some, List.length_append, List.flatten_append]
        rw [hbytes, List.take_append, List.take_of_length_le]
        · rw [show (l.length + es.length) * a'.elementSize - (l.flatten ++ es.flatten).length = 0 by
            rw [List.length_append, hfl, flatten_length (n := a.elementSize)
              (fun e he => by rw [← hes]; exact ha.sizes e he), hes, hadd]; omega]
          simp
        · rw [List.length_append, hfl, flatten_length (n := a.elementSize)
              (fun e he => by rw [← hes]; exact ha.sizes e he), hes, hadd]
          exact Nat.le_refl _
  · rw [e]
    exact Or.inr ⟨rfl, hf⟩

theorem replicate_flatten (n k : Nat) :
    (List.replicate n (List.replicate k (0 : Byte))).flatten = List.replicate (n * k) 0 := by
  induction n with
  | zero => simp
  | succ n ih => rw [List.replicate_succ, List.flatten_cons, ih, Nat.succ_mul, List.replicate_append_replicate, Nat.add_comm]

theorem step_spec {o : Oracle} {a : Arr} {l : List Bytes} (h : Rep a l) (op : Op)
    (hop : OpOk a.elementSize op) :
    (∃ a', step o a op = some (a', (listStep a.elementSize l op).2) ∧
      Rep a' (listStep a.elementSize l op).1 ∧ a'.elementSize = a.elementSize ∧
      a'.strategy = a.strategy) ∨
    (step o a op = some ({ a with elements := none }, .error .outOfMemory) ∧ ∃ s, o s = none) := by
  cases op with
  | push e =>
    have key := fun (e : Bytes) (he : e.length = a.elementSize) =>
      pushBytes_spec (o := o) h [e] (by simpa using he)
    cases e with
    | none => simpa [step, pushElement, listStep] using key (List.replicate a.elementSize 0) (by simp)
    | some e => simpa [step, pushElement, listStep] using key e hop
  | pushMany n es =>
    simp only [step, pushElements]
    by_cases hn : n = 0
    · subst hn
      refine Or.inl ⟨a, ?_, ?_, rfl, rfl⟩
      · cases es <;> simp [listStep]
      · cases es with
        | none => simpa [listStep] using h
        | some es =>
          have : es = [] := List.eq_nil_of_length_eq_zero hop.1
          subst this
          simpa [listStep] using h
    · rw [if_neg hn]
      cases es with
      | none =>
        have key := pushBytes_spec (o := o) h (List.replicate n (List.replicate a.elementSize 0))
          (by intro e he; rw [List.eq_of_mem_replicate he]; simp)
        rw [replicate_flatten] at key
        simpa [listStep] using key
      | some es =>
        obtain ⟨h1, h2⟩ := hop
        have key := pushBytes_spec (o := o) h es h2
        rw [h1] at key
        simpa [listStep] using key
  | pop =>
    left
    simp only [step, popElement, h.length]
    by_cases hl : l = []
    · subst hl
      exact ⟨a, by simp [listStep], by simpa [listStep] using h, rfl, rfl⟩
    · have hpos : 0 < l.length := List.length_pos_iff.2 hl
      have hr := read_one h (l.length - 1) (by omega)
      rw [if_pos hpos, hr]
      have hr2 : Rep { a with length := l.length - 1 } (l.take (l.length - 1)) := by
        have hle : (l.length - 1) * a.elementSize ≤ l.length * a.elementSize :=
          Nat.mul_le_mul_right _ (by omega)
        have hlt : (l.take (l.length - 1)).length = l.length - 1 := by simp
        refine ⟨h.size_pos, fun e he => h.sizes e (List.mem_of_mem_take he), hlt.symm, ?_, h.block, ?_⟩
        · rw [hlt]; exact Nat.le_trans hle h.cap
        · rw [hlt]
          rw [← flatten_take h.sizes, ← h.bytes, List.take_take, Nat.min_eq_left hle]
      refine ⟨{ a with length := l.length - 1 }, ?_, ?_, ?_, ?_⟩
      · simp only [listStep, if_neg hl]
        congr 2
        rw [List.drop_eq_getElem_cons (by omega), List.drop_eq_nil_of_le (by omega)]
      · simpa [listStep, hl] using hr2
      · rfl
      · rfl
  | popMany n =>
    left
    simp only [step, popElements, h.length]
    by_cases hn : n > 0
    · rw [if_pos hn]
      by_cases hl : l.length ≥ n
      · rw [if_pos hl, h.read_ok (l.length - n) n hn (by omega)]
        have hle : (l.length - n) * a.elementSize ≤ l.length * a.elementSize :=
          Nat.mul_le_mul_right _ (by omega)
        have hlt : (l.take (l.length - n)).length = l.length - n := by simp
        refine ⟨{ a with length := l.length - n }, ?_, ?_, rfl, rfl⟩
        · simp only [listStep]
          rw [if_neg (by omega)]
          congr 3
          have hd : (l.drop (l.length - n)).length = n := by simp; omega
          rw [List.take_of_length_le (by omega)]
          have := chunks_flatten (n := a.elementSize) (l.drop (l.length - n))
            (fun e he => h.sizes e (List.mem_of_mem_drop he))
          rw [hd] at this
          exact this
        · simp only [listStep]
          rw [if_neg (by omega)]
          refine ⟨h.size_pos, fun e he => h.sizes e (List.mem_of_mem_take he), hlt.symm, ?_, h.block, ?_⟩
          · simp only [hlt]; exact Nat.le_trans hle h.cap
          · simp only [hlt]
            rw [← flatten_take h.sizes, ← h.bytes, List.take_take, Nat.min_eq_left hle]
      · rw [if_neg hl]
        refine ⟨a, ?_, ?_, rfl, rfl⟩
        · simp only [listStep]; rw [if_pos (by omega)]
        · simp only [listStep]; rw [if_pos (by omega)]; exact h
    · obtain rfl : n = 0 := by omega
      rw [if_neg (by omega)]
      refine ⟨a, ?_, ?_, rfl, rfl⟩
      · simp [listStep]
      · simpa [listStep] using h
  | getTop =>
    left
    simp only [step, getTop, h.length]
    by_cases hl : l = []
    · subst hl
      exact ⟨a, by simp [listStep], by simpa [listStep] using h, rfl, rfl⟩
    · have hpos : 0 < l.length := List.length_pos_iff.2 hl
      rw [if_pos hpos, read_one h (l.length - 1) (by omega)]
      have : l.getLast? = some l[l.length - 1] := by
        rw [List.getLast?_eq_getElem?, List.getElem?_eq_getElem (by omega)]
      refine ⟨a, ?_, ?_, rfl, rfl⟩ <;> simp only [listStep, this]
      exact h
  | setTop e =>
    left
    simp only [step, setTop, h.length]
    by_cases hl : l = []
    · subst hl
      exact ⟨a, by simp [listStep], by simpa [listStep] using h, rfl, rfl⟩
    · have hpos : 0 < l.length := List.length_pos_iff.2 hl
      obtain ⟨b, eb, hb⟩ := h.write_one (l.length - 1) (by omega) e hop
      rw [if_pos hpos, eb]
      refine ⟨{ a with elements := some b }, ?_, ?_, ?_, ?_⟩
      · simp only [listStep, if_neg hl, h.length]
      · simpa [listStep, hl] using hb
      · rfl
      · rfl
  | get i =>
    left
    simp only [step, get, h.length]
    by_cases hi : i ≥ 0 ∧ i < l.length
    · rw [if_pos hi, read_one h i.toNat (by omega)]
      have : l[i.toNat]? = some l[i.toNat] := List.getElem?_eq_getElem (by omega)
      refine ⟨a, ?_, ?_, rfl, rfl⟩
      · simp only [listStep]; rw [if_neg (by omega), this]
      · simp only [listStep]; rw [if_neg (by omega), this]; exact h
    · rw [if_neg hi]
      refine ⟨a, ?_, ?_, rfl, rfl⟩
      · simp only [listStep]
        by_cases hn : i < 0
        · rw [if_pos hn]
        · rw [if_neg hn, List.getElem?_eq_none (by omega)]
      · simp only [listStep]
        by_cases hn : i < 0
        · rw [if_pos hn]; exact h
        · rw [if_neg hn, List.getElem?_eq_none (by omega)]; exact h
  | set e i =>
    left
    simp only [step, set, h.length]
    by_cases hi : i ≥ 0 ∧ i < l.length
    · obtain ⟨b, eb, hb⟩ := h.write_one i.toNat (by omega) e hop
      rw [if_pos hi, eb]
      refine ⟨{ a with elements := some b }, ?_, ?_, ?_, ?_⟩
      · simp only [listStep]; rw [if_neg (by omega), h.length]
      · simp only [listStep]; rw [if_neg (by omega)]; exact hb
      · rfl
      · rfl
    · rw [if_neg hi]
      refine ⟨a, ?_, ?_, rfl, rfl⟩ <;> simp only [listStep] <;> rw [if_pos (by omega)]
      exact h
  | append src =>
    simpa [step, append, listStep] using pushBytes_spec (o := o) h src hop
  | clear =>
    left
    simp only [step, clear, h.length]
    by_cases hl : l = []
    · subst hl
      exact ⟨a, by simp [listStep], by simpa [listStep] using h, rfl, rfl⟩
    · have hpos : ¬ l.length = 0 := fun e => hl (List.eq_nil_of_length_eq_zero e)
      rw [if_neg hpos]
      refine ⟨{ a with length := 0, memorySize := 0, elements := none }, ?_, ?_, ?_, ?_⟩
      · simp [listStep]
      · exact ⟨h.size_pos, by simp [listStep], by simp [listStep], by simp [listStep], by simp,
          by simp [listStep]⟩
      · rfl
      · rfl

theorem init_rep (size : Nat) (h : 0 < size) (s : Strategy) : Rep (init size s) [] :=
  ⟨h, by simp, rfl, by simp [init], by simp [init], by simp [init]⟩

theorem run_spec : ∀ (ops : List (Oracle × Op)) (a : Arr) (l : List Bytes), Rep a l →
    (∀ p ∈ ops, OpOk a.elementSize p.2 ∧ ∀ s, p.1 s ≠ none) →
    ∃ a', run a ops = some (a', (listRun a.elementSize l (ops.map (·.2))).2) ∧
      Rep a' (listRun a.elementSize l (ops.map (·.2))).1 ∧ a'.elementSize = a.elementSize
  | [], a, l, h, _ => ⟨a, rfl, h, rfl⟩
  | (o, op) :: ops, a, l, h, hall => by
    obtain ⟨h1, h3⟩ := hall (o, op) (by simp)
    rcases step_spec (o := o) h op h1 with ⟨a1, e1, r1, s1, _⟩ | ⟨_, s, hs⟩
    · obtain ⟨a2, e2, r2, s2⟩ := run_spec ops a1 _ r1 (by
        intro p hp; rw [s1]; exact hall p (by simp [hp]))
      rw [s1] at e2 r2
      exact ⟨a2, by simp [run, e1, e2, listRun], by simpa [listRun] using r2, s2.trans s1⟩
    · exact absurd hs (h3 s)

end DuckLisp.DynArray
