import Verif.Spec.Reader
import Verif.Proof.DlString

/-! Helper lemmas: positions in the text, white space and the readers of single tokens. -/

namespace DuckLisp.Reader

open DuckLisp.DlString DuckLisp.Spec

theorem bind_ok {α β : Type} {m : R α} {f : α → R β} {s s' : RState} {a : α} (h : m s = .ok a s') :
    (m >>= f) s = f a s' := by
  show R.bind m f s = _
  simp only [R.bind, h]

theorem bind_err {α β : Type} {m : R α} {f : α → R β} {s s' : RState} {e : DlError} (h : m s = .err e s') :
    (m >>= f) s = .err e s' := by
  show R.bind m f s = _
  simp only [R.bind, h]

theorem bind_ub {α β : Type} {m : R α} {f : α → R β} {s : RState} (h : m s = .ub) :
    (m >>= f) s = .ub := by
  show R.bind m f s = _
  simp only [R.bind, h]

theorem bind_diverge {α β : Type} {m : R α} {f : α → R β} {s : RState} (h : m s = .diverge) :
    (m >>= f) s = .diverge := by
  show R.bind m f s = _
  simp only [R.bind, h]

theorem pure_run {α : Type} (a : α) (s : RState) : (pure a : R α) s = .ok a s := rfl

theorem invalid_run {α : Type} (s : RState) : (R.invalid : R α) s = .err .invalidValue s := rfl

theorem getElem?_of_drop {src l : Bytes} {i : Nat} (h : src.drop i = l) (j : Nat) : src[i + j]? = l[j]? := by
  rw [← h, List.getElem?_drop]

theorem drop_of_drop {src l : Bytes} {i : Nat} (h : src.drop i = l) (j : Nat) : src.drop (i + j) = l.drop j := by
  rw [← h, List.drop_drop]

theorem lt_of_drop {src l : Bytes} {i : Nat} {c : Byte} (h : src.drop i = c :: l) : i < src.length := by
  have := congrArg List.length h
  simp only [List.length_drop, List.length_cons] at this
  omega

theorem length_of_drop {src l : Bytes} {i : Nat} {c : Byte} (h : src.drop i = c :: l) :
    src.length = i + (l.length + 1) := by
  have := congrArg List.length h
  simp only [List.length_drop, List.length_cons] at this
  omega

theorem byteAt_of_drop {src l : Bytes} {i : Nat} {c : Byte} (h : src.drop i = c :: l) (s : RState) :
    byteAt src i s = .ok c s := by
  have := getElem?_of_drop h 0
  simp only [Nat.add_zero, List.getElem?_cons_zero] at this
  simp only [byteAt, this, pure_run]

theorem byteAt_of_drop_add {src l : Bytes} {i j : Nat} {c : Byte} (h : src.drop i = l) (hc : l[j]? = some c)
    (s : RState) : byteAt src (i + j) s = .ok c s := by
  have := getElem?_of_drop h j
  rw [hc] at this
  simp only [byteAt, this, pure_run]

theorem takeWhile_all {p : Byte → Bool} {a b : Bytes} (ha : ∀ c ∈ a, p c = true)
    (hb : ∀ c t, b = c :: t → p c = false) : (a ++ b).takeWhile p = a := by
  induction a with
  | nil =>
    cases b with
    | nil => rfl
    | cons c t => simp [hb c t rfl]
  | cons c a ih =>
    simp only [List.cons_append, List.takeWhile, ha c (by simp)]
    rw [ih (fun d hd => ha d (by simp [hd]))]

theorem skip_of_drop {p : Byte → Bool} {src a b : Bytes} {i : Nat} (h : src.drop i = a ++ b)
    (ha : ∀ c ∈ a, p c = true) (hb : ∀ c t, b = c :: t → p c = false) : skip p src i = i + a.length := by
  simp only [skip, h, takeWhile_all ha hb]

theorem slice_of_drop {src a b : Bytes} {i : Nat} (h : src.drop i = a ++ b) :
    slice src i (i + a.length) = a := by
  simp [slice, h]

theorem isIdentifierSymbol_eq (c : Byte) : isIdentifierSymbol c = !delimiter c := by
  simp only [isIdentifierSymbol, delimiter, isSpace, blank]
  by_cases h : c ≤ 32 <;> simp [h]

/-! ## White space -/

theorem sep_loop {src : Bytes} {sep : Bytes} (hsep : Sep sep) : ∀ (i fuel : Nat) (c : Byte) (t : Bytes),
    src.drop i = sep ++ c :: t → blank c = false → c ≠ 59 → sep.length < fuel → ∀ s,
    irrelevantLoop src fuel i s = .ok (some (i + sep.length)) s := by
  -- blanks before the rest can be peeled off
  have peel : ∀ (b : Bytes), (∀ x ∈ b, blank x = true) → ∀ (rest : Bytes) (i fuel : Nat) (c : Byte)
      (t : Bytes) (s : RState), src.drop i = b ++ (rest ++ c :: t) →
      (∀ x r, rest = x :: r → x = 59) → blank c = false →
      irrelevantLoop src (fuel + 1) i s =
        ((do match ← parseComment src (i + b.length) with
             | none => return some (i + b.length)
             | some k => irrelevantLoop src fuel k) : R (Option Nat)) s := by
    intro b hb rest i fuel c t s h hrest hc
    have hi : i < src.length := by
      cases b with
      | nil =>
        cases rest with
        | nil => exact lt_of_drop h
        | cons x r => exact lt_of_drop h
      | cons x b => exact lt_of_drop h
    have hskip : skip isSpace src i = i + b.length := by
      refine skip_of_drop h hb ?_
      intro x r hx
      cases rest with
      | nil =>
        rw [List.nil_append] at hx
        cases hx; exact hc
      | cons y r' =>
        rw [List.cons_append] at hx
        have := hrest y r' rfl
        cases hx
        rw [this]; rfl
    have hlt : i + b.length < src.length := by
      have h' := drop_of_drop h b.length
      rw [List.drop_left] at h'
      cases rest with
      | nil => exact lt_of_drop h'
      | cons x r => exact lt_of_drop h'
    simp only [irrelevantLoop, if_neg (Nat.not_le.2 hi)]
    refine bind_ok (s' := s) ?_
    simp only [skipSpaces, hskip, if_pos hlt, pure_run]
  -- the general statement, with blanks collected in front
  have main : ∀ sep, Sep sep → ∀ (b : Bytes), (∀ x ∈ b, blank x = true) → ∀ (i fuel : Nat) (c : Byte)
      (t : Bytes) (s : RState), src.drop i = b ++ (sep ++ c :: t) → blank c = false → c ≠ 59 →
      sep.length < fuel → irrelevantLoop src fuel i s = .ok (some (i + (b.length + sep.length))) s := by
    intro sep hsep
    induction hsep with
    | nil =>
      intro b hb i fuel c t s h hc hc' hf
      obtain ⟨fuel, rfl⟩ : ∃ f, fuel = f + 1 := ⟨fuel - 1, by simp at hf; omega⟩
      rw [peel b hb [] i fuel c t s (by simpa using h) (by simp) hc]
      have hd := drop_of_drop h b.length
      rw [List.drop_left, List.nil_append] at hd
      refine (bind_ok (s' := s) (a := none) ?_).trans rfl
      simp only [parseComment]
      rw [bind_ok (byteAt_of_drop hd s)]
      simp only [ne_eq, hc', not_false_eq_true, if_true]
      rfl
    | blank d hd _ ih =>
      intro b hb i fuel c t s h hc hc' hf
      have := ih (b ++ [d]) (by
        intro x hx
        simp only [List.mem_append, List.mem_singleton] at hx
        rcases hx with hx | hx
        · exact hb x hx
        · rw [hx]; exact hd) i fuel c t s (by rw [h]; simp) hc hc' (by simp at hf; omega)
      rw [this]
      simp only [List.length_append, List.length_cons, List.length_nil]
      congr 3; omega
    | comment body e hbody he hs ih =>
      rename_i sep'
      intro b hb i fuel c t s h hc hc' hf
      obtain ⟨fuel, rfl⟩ : ∃ f, fuel = f + 1 := ⟨fuel - 1, by simp at hf; omega⟩
      rw [peel b hb (59 :: (body ++ e :: sep')) i fuel c t s h (by rintro x r h; cases h; rfl) hc]
      have hd := drop_of_drop h b.length
      rw [List.drop_left] at hd
      have hcomment : parseComment src (i + b.length) s =
          .ok (some (i + b.length + (59 :: body).length)) s := by
        simp only [parseComment]
        rw [bind_ok (byteAt_of_drop (by simpa using hd) s)]
        simp only [ne_eq, not_true, if_false]
        rw [skip_of_drop (a := 59 :: body) (b := e :: (sep' ++ c :: t)) (by simpa using hd)]
        · rfl
        · intro x hx
          simp only [List.mem_cons] at hx
          rcases hx with hx | hx
          · subst hx; decide
          · have := hbody x hx
            simp [this.1, this.2]
        · intro x r hx
          cases hx
          rcases he with he | he <;> subst he <;> decide
      rw [bind_ok hcomment]
      have hd' := drop_of_drop hd (59 :: body).length
      have := ih [e] (by
        intro x hx
        rw [List.mem_singleton] at hx
        rw [hx]
        rcases he with he | he <;> subst he <;> decide) (i + b.length + (59 :: body).length) fuel c t s
        (by rw [hd']; simp) hc hc' (by simp only [List.length_cons, List.length_append] at hf; omega)
      exact this.trans (congrArg (fun k => ROut.ok (some k) s) (by
        simp only [List.length_append, List.length_cons, List.length_nil]; omega))
  intro i fuel c t h hc hc' hf s
  have := main sep hsep [] (by simp) i fuel c t s h hc hc' hf
  simpa using this

/-- White space and comments are skipped. -/
theorem irrelevant_sep {src sep : Bytes} (hsep : Sep sep) {i : Nat} {c : Byte} {t : Bytes}
    (h : src.drop i = sep ++ c :: t) (hc : blank c = false) (hc' : c ≠ 59) (s : RState) :
    irrelevant src i s = .ok (i + sep.length) s := by
  have hlen := congrArg List.length h
  simp only [List.length_drop, List.length_append, List.length_cons] at hlen
  simp only [irrelevant]
  rw [bind_ok (sep_loop hsep i _ c t h hc hc' (by omega) s)]
  rfl

/-! ## Booleans -/

theorem lift_run_ok {α : Type} {r : Res α} {a : α} (h : r = .ok a) (s : RState) : R.lift r s = .ok a s := by
  rw [h]; rfl

theorem take_isPrefix {a l : Bytes} : l.take a.length = a ↔ a <+: l := by
  rw [List.prefix_iff_eq_take]; exact eq_comm

theorem parseBool_true {src post : Bytes} {i : Nat} {c : Byte}
    (h : src.drop i = [116, 114, 117, 101] ++ c :: post) (s : RState) :
    parseBool src i s = .ok (.bool true, i + 4) s := by
  have hlen := congrArg List.length h
  simp only [List.length_drop, List.length_append, List.length_cons, List.length_nil] at hlen
  simp only [parseBool]
  rw [if_neg (by omega)]
  have h1 : comparePartial (src.drop i) [116, 114, 117, 101] 4 = .ok true := by
    rw [h]; rfl
  have h2 : slice src i (i + 4) = [116, 114, 117, 101] := slice_of_drop h
  refine (bind_ok (a := true) (s' := s) (by rw [h1]; rfl)).trans ?_
  simp only [if_true]
  refine (bind_ok (a := i + 4) (s' := s) rfl).trans ?_
  rw [h2]
  rfl

theorem parseBool_false {src post : Bytes} {i : Nat} {c : Byte}
    (h : src.drop i = [102, 97, 108, 115, 101] ++ c :: post) (s : RState) :
    parseBool src i s = .ok (.bool false, i + 5) s := by
  have hlen := congrArg List.length h
  simp only [List.length_drop, List.length_append, List.length_cons, List.length_nil] at hlen
  simp only [parseBool]
  rw [if_neg (by omega)]
  have h1 : comparePartial (src.drop i) [116, 114, 117, 101] 4 = .ok false := by
    rw [h]; rfl
  have h3 : comparePartial (src.drop i) [102, 97, 108, 115, 101] 5 = .ok true := by
    rw [h]; rfl
  have h2 : slice src i (i + 5) = [102, 97, 108, 115, 101] := slice_of_drop h
  have hnot : ¬ src.length ≤ i + 5 := by omega
  refine (bind_ok (a := false) (s' := s) (by rw [h1]; rfl)).trans ?_
  simp only [Bool.false_eq_true, if_false, if_neg hnot]
  refine (bind_ok (a := true) (s' := s) (by rw [h3]; rfl)).trans ?_
  simp only [if_true]
  refine (bind_ok (a := i + 5) (s' := s) rfl).trans ?_
  rw [h2]
  rfl

theorem parseBool_no {src : Bytes} {i : Nat} (h1 : ¬ [116, 114, 117, 101] <+: src.drop i)
    (h2 : ¬ [102, 97, 108, 115, 101] <+: src.drop i) (s : RState) :
    parseBool src i s = .err .invalidValue s := by
  simp only [parseBool]
  by_cases hl : src.length ≤ i + 4
  · rw [if_pos hl]; rfl
  rw [if_neg hl]
  have hl1 : 4 ≤ (src.drop i).length := by rw [List.length_drop]; omega
  have e1 : comparePartial (src.drop i) [116, 114, 117, 101] 4 = .ok false := by
    rw [comparePartial, compareLoop_ok 4 _ _ hl1 (by simp)]
    congr 1
    rw [decide_eq_false_iff_not]
    intro e
    exact h1 (take_isPrefix.1 (by simpa using e))
  refine (bind_ok (a := false) (s' := s) (by rw [e1]; rfl)).trans ?_
  by_cases hl' : src.length ≤ i + 5
  · simp only [if_pos hl', Bool.false_eq_true, if_false]
    exact bind_err rfl
  have hl2 : 5 ≤ (src.drop i).length := by rw [List.length_drop]; omega
  have e2 : comparePartial (src.drop i) [102, 97, 108, 115, 101] 5 = .ok false := by
    rw [comparePartial, compareLoop_ok 5 _ _ hl2 (by simp)]
    congr 1
    rw [decide_eq_false_iff_not]
    intro e
    exact h2 (take_isPrefix.1 (by simpa using e))
  simp only [if_neg hl', Bool.false_eq_true, if_false]
  refine (bind_ok (a := false) (s' := s) (by rw [e2]; rfl)).trans ?_
  simp only [Bool.false_eq_true, if_false]
  exact bind_err rfl

theorem parseBool_head {src t : Bytes} {i : Nat} {c : Byte} (h : src.drop i = c :: t) (h1 : c ≠ 116)
    (h2 : c ≠ 102) (s : RState) : parseBool src i s = .err .invalidValue s := by
  refine parseBool_no ?_ ?_ s
  · rw [h, List.cons_prefix_cons]; exact fun e => h1 e.1.symm
  · rw [h, List.cons_prefix_cons]; exact fun e => h2 e.1.symm

end DuckLisp.Reader
