import Verif.Props.Reader

/-!
# C48: decimal notation
-/

namespace DuckLisp.Props

open DuckLisp DuckLisp.DlString DuckLisp.Spec

/-- C48: a text that denotes a number is accepted.  Whatever arithmetic the machine has, it does the same calculation,
which gives the number denoted if it is carried out exactly.

Missing for the whole property: a minus sign before digits that end with the point (`C48_sign_lost`), the exponent `-0`
(`C48_zero_exponent`), more than 18 digits after the point (`C48_long_fraction`) and exponents near 2 ^ 63. -/
theorem C48_value_partial (negative point : Bool) (whole fraction exponent : Bytes) (m f : Rat) (n : Nat)
    (beyond : Option Byte) (hb : Ended beyond) (hm : Significand whole point fraction m) (hf : Factor exponent n f)
    (hlen : fraction.length ≤ 18) (hn : n + 48 < 2 ^ 63) (h0 : ∀ e ds, exponent = e :: 45 :: ds → 0 < n)
    (hend : ¬ (negative = true ∧ point = true ∧ fraction = [] ∧ exponent = [])) :
    ∃ c : Calc, c.result exact = (if negative then -(m * f) else m * f) ∧
      ∀ (α : Type) (o : Arith α), toDouble o (spell negative whole point fraction exponent) beyond = .ok (c.result o) := by
  have key : toDouble exact (spell negative whole point fraction exponent) beyond =
      .ok (if negative then -(m * f) else m * f) := by
    by_cases hc : fraction = [] ∧ exponent = [] ∧ point = true
    · obtain ⟨rfl, rfl, rfl⟩ := hc
      have hneg : negative = false := by cases negative; rfl; exact absurd ⟨rfl, rfl, rfl, rfl⟩ hend
      subst hneg
      cases hf
      cases hm with
      | point h hfr hne =>
        obtain ⟨h1, rfl⟩ := digits_val h
        obtain ⟨-, rfl⟩ := digits_val hfr
        have hne' : whole ≠ [] := hne.resolve_right fun h => h rfl
        have := mantissa_end whole h1 hne' beyond
        cases whole with
        | nil => exact absurd rfl hne'
        | cons c cs =>
          have h45 := (digit_not (h1 c (List.mem_cons_self ..))).2.2
          simp only [spell, Bool.false_eq_true, if_false, if_true, List.nil_append, List.append_nil, toDouble,
            List.cons_append] at this ⊢
          simp only [h45, false_and, if_false]
          rw [this]
          simp [val, Rat.add_zero, Rat.mul_one]
          grind
    · have hx := factor_tail hf
      have h1 := mantissa_ok hm hlen hx hc hb
      have h2 := exponent_ok hf hn h0 hb m
      cases negative with
      | true =>
        have hne : whole ++ ((if point then [46] else []) ++ (fraction ++ exponent)) ≠ [] := by
          intro e
          rw [e] at h1
          cases h1
        simp only [spell, if_true, List.cons_append, List.nil_append, toDouble]
        rw [if_neg (fun h => hne h.2), h1, Res.bind_ok]
        simp only
        rw [h2]
        rfl
      | false =>
        simp only [spell, Bool.false_eq_true, if_false, List.nil_append]
        cases hu : whole ++ ((if point then [46] else []) ++ (fraction ++ exponent)) with
        | nil => rw [hu] at h1; cases h1
        | cons c cs =>
          have h45 : c ≠ 45 := by
            rintro rfl
            rw [hu] at h1
            cases h1
          simp only [toDouble, h45, false_and, if_false]
          rw [← hu, h1, Res.bind_ok]
          simp only
          rw [h2]
          rfl
  rw [toDouble_formulas exact] at key
  cases hc : toDouble formulas (spell negative whole point fraction exponent) beyond with
  | ok c =>
    rw [hc] at key
    refine ⟨c, Res.ok.inj key, fun α o => ?_⟩
    rw [toDouble_formulas o, hc]
    rfl
  | _ => rw [hc] at key; cases key

/-- C48: nothing else is accepted.  Of a text that is not empty the result is the number it denotes, or the error
`invalidValue`; or it denotes that number but for a minus sign that is lost, or the text is so long that numbers within
the calculation overflow. -/
theorem C48_only_numbers (w : Bytes) (hw : w ≠ []) (beyond : Option Byte) (hb : Ended beyond) :
    (∃ c : Calc, (Decimal w (c.result exact) ∨
        ∃ ds n, w = 45 :: (ds ++ [46]) ∧ Digits DecDigit 10 ds n ∧ c.result exact = n) ∧
      ∀ (α : Type) (o : Arith α), toDouble o w beyond = .ok (c.result o)) ∨
    (∀ (α : Type) (o : Arith α), toDouble o w beyond = .err .invalidValue) ∨
    (∀ (α : Type) (o : Arith α), toDouble o w beyond = .ub) ∧ 19 ≤ w.length := by
  have key : (∃ q, (Decimal w q ∨ ∃ ds n, w = 45 :: (ds ++ [46]) ∧ Digits DecDigit 10 ds n ∧ q = n) ∧
        toDouble exact w beyond = .ok q) ∨
      toDouble exact w beyond = .err .invalidValue ∨ toDouble exact w beyond = .ub ∧ 19 ≤ w.length := by
    cases w with
    | nil => exact absurd rfl hw
    | cons c cs =>
      by_cases hc : c = 45 ∧ cs = []
      · exact .inr (.inl (by rw [toDouble, if_pos hc]))
      · obtain ⟨u, hu⟩ : ∃ u, u = (if c = 45 then cs else c :: cs) := ⟨_, rfl⟩
        have hune : u ≠ [] := by
          rw [hu]
          split
          · exact fun h => hc ⟨‹_›, h⟩
          · exact nofun
        have hspell : c :: cs = (if decide (c = 45) = true then [45] else []) ++ u := by
          rw [hu]
          by_cases h : c = 45 <;> simp [h]
        have hlen : u.length ≤ (c :: cs).length := by
          rw [hu]
          split
          · simp
          · exact Nat.le_refl _
        simp only [toDouble, if_neg hc]
        rw [← hu]
        rcases mantissa_cases u hune hb with ⟨ds, n, h1, h2, h3, h4⟩ | ⟨ds, point, fs, m, x, h1, h2, h3, h4⟩ | h | ⟨h, h'⟩
        · rw [h4]
          refine .inl ⟨n, ?_, rfl⟩
          by_cases h45 : c = 45
          · right
            refine ⟨ds, n, ?_, h2, rfl⟩
            rw [hspell, h1]
            simp [h45]
          · left
            refine ⟨false, ds, true, [], [], _, _, _, .point h2 .nil (.inl h3), .none, ?_, ?_⟩
            · rw [hspell, h1]
              simp [h45, spell]
            · simp [Rat.mul_one]
              grind
        · rw [h4, Res.bind_ok]
          simp only
          rcases exponent_cases x h3 hb m with ⟨n, f, g1, g2⟩ | g | ⟨g, g'⟩
          · rw [g2]
            refine .inl ⟨if c = 45 then -(m * f) else m * f, .inl ⟨decide (c = 45), ds, point, fs, x, m, n, f, h2, g1, ?_, ?_⟩, ?_⟩
            · rw [hspell, h1]
              rfl
            · simp
            · rfl
          · exact .inr (.inl (by rw [g]; rfl))
          · refine .inr (.inr ⟨by rw [g]; rfl, ?_⟩)
            have : x.length ≤ u.length := by
              rw [h1]
              simp only [List.length_append]
              omega
            omega
        · exact .inr (.inl (by rw [h]; rfl))
        · exact .inr (.inr ⟨by rw [h]; rfl, by omega⟩)
  have free := fun (α : Type) (o : Arith α) => toDouble_formulas o w beyond
  rw [free] at key
  cases hc : toDouble formulas w beyond with
  | ok c =>
    rw [hc] at key
    refine .inl ⟨c, ?_, fun α o => by rw [free, hc]; rfl⟩
    rcases key with ⟨q, h1, h2⟩ | h | ⟨h, -⟩
    · cases h2
      exact h1
    · cases h
    · cases h
  | err e =>
    rw [hc] at key
    rcases key with ⟨q, -, h⟩ | h | ⟨h, -⟩
    · cases h
    · cases h
      exact .inr (.inl fun α o => by rw [free, hc]; rfl)
    · cases h
  | ub =>
    rw [hc] at key
    rcases key with ⟨q, -, h⟩ | h | ⟨-, h⟩
    · cases h
    · cases h
    · exact .inr (.inr ⟨fun α o => by rw [free, hc]; rfl, h⟩)
  | timeout =>
    rw [hc] at key
    rcases key with ⟨q, -, h⟩ | h | ⟨h, -⟩ <;> cases h

theorem decimals {s : Bytes} {n : Nat} (h : Digits DecDigit 10 s n) : ∀ c ∈ s, decimal c = true :=
  fun c hc => (digits_val h).1 c hc

theorem floatText {negative point : Bool} {whole fraction exponent : Bytes} {m f : Rat} {n : Nat}
    (hm : Significand whole point fraction m) (hf : Factor exponent n f) (hp : point = true ∨ exponent ≠ []) :
    FloatText (spell negative whole point fraction exponent) := by
  have hx : Exponent exponent (!exponent.isEmpty) := by
    cases hf with
    | none => exact .none
    | pos he hd hne => exact .pos _ _ he hne (decimals hd)
    | neg he hd hne => exact .neg _ _ he hne (decimals hd)
  have hmant : Mantissa (whole ++ ((if point then [46] else []) ++ fraction)) point := by
    cases hm with
    | whole h hne => simpa using Mantissa.whole whole hne (decimals h)
    | point h hfr hne =>
      by_cases hw : whole = []
      · subst hw
        exact .fraction fraction (hne.resolve_left fun h => h rfl) (decimals hfr)
      · exact .point whole fraction hw (decimals h) (decimals hfr)
  refine ⟨if negative then [45] else [], _, exponent, point, _, by cases negative <;> simp, hmant, hx, ?_, ?_⟩
  · rcases hp with rfl | hp
    · rfl
    · cases exponent with
      | nil => exact absurd rfl hp
      | cons => simp
  · simp [spell]

/-- C48: a number in a program is read as the double calculated like this.

What is missing is as in `C48_value_partial`. -/
theorem C48_literal_partial (cfg : Reader.Config) (hact : Reader.NoActions cfg) (negative point : Bool)
    (whole fraction exponent : Bytes) (m f : Rat) (n : Nat) (hm : Significand whole point fraction m)
    (hf : Factor exponent n f) (hp : point = true ∨ exponent ≠ []) (hlen : fraction.length ≤ 18) (hn : n + 48 < 2 ^ 63)
    (h0 : ∀ e ds, exponent = e :: 45 :: ds → 0 < n)
    (hend : ¬ (negative = true ∧ point = true ∧ fraction = [] ∧ exponent = []))
    (pre sep post : Bytes) (c : Byte) (hsep : Sep sep) (hc : delimiter c = true) (hd : 1 < cfg.maxDepth) (s : Reader.RState) :
    ∃ calculation : Calc, calculation.result exact = (if negative then -(m * f) else m * f) ∧
      Reader.read cfg (pre ++ sep ++ spell negative whole point fraction exponent ++ c :: post) pre.length s =
        .ok (.float (calculation.result cfg.arith)) { s with depth := 0 } := by
  obtain ⟨k, h1, h2⟩ := C48_value_partial negative point whole fraction exponent m f n (some 32) Reader.ended_blank hm hf hlen
    hn h0 hend
  refine ⟨k, h1, Reader.C09_read_plain cfg hact (.float (floatText hm hf hp) ?_) trivial pre sep (c :: post) hsep
    ⟨c, post, rfl, hc⟩ hd s⟩
  simp only [Reader.Config.toDouble, Reader.valueOf, h2]
  rfl

/-- C48 fails for `-1.`, which is read as 1: the minus sign is lost if the text ends with the point. -/
theorem C48_sign_lost : Decimal (ascii "-1.") (-1) ∧ ∀ (α : Type) (o : Arith α),
    toDouble o (ascii "-1.") (some 32) = .ok (o.ofNat 1) := by
  refine ⟨⟨true, [49], true, [], [], _, _, _, .point (Digits.snoc (s := []) .nil (.mk 1 (by decide))) .nil (.inl nofun),
    .none, by decide +kernel, by decide +kernel⟩, fun α o => by
      rw [show ascii "-1." = [45, 49, 46] by decide +kernel]; with_unfolding_all rfl⟩

/-- C48 fails for `1e-0`, which is rejected. -/
theorem C48_zero_exponent : Decimal (ascii "1e-0") 1 ∧ ∀ (α : Type) (o : Arith α),
    toDouble o (ascii "1e-0") (some 32) = .err .invalidValue := by
  refine ⟨⟨false, [49], false, [], [101, 45, 48], _, _, _, .whole (Digits.snoc (s := []) .nil (.mk 1 (by decide))) nofun,
    .neg (.inl rfl) (Digits.snoc (s := []) .nil (.mk 0 (by decide))) nofun, by decide +kernel, by decide +kernel⟩,
    fun α o => by rw [show ascii "1e-0" = [49, 101, 45, 48] by decide +kernel]; with_unfolding_all rfl⟩

/-- C48 fails for a number with 19 digits after the point: a power of ten overflows, which is undefined behaviour.  With 18
digits it is accepted. -/
theorem C48_long_fraction (α : Type) (o : Arith α) :
    toDouble o (ascii "0.1234567890123456789") (some 32) = .ub ∧
    ∃ x, toDouble o (ascii "0.123456789012345678") (some 32) = .ok x := by
  rw [show ascii "0.1234567890123456789" = [48, 46, 49, 50, 51, 52, 53, 54, 55, 56, 57, 48, 49, 50, 51, 52, 53, 54, 55, 56, 57] by decide +kernel,
    show ascii "0.123456789012345678" = [48, 46, 49, 50, 51, 52, 53, 54, 55, 56, 57, 48, 49, 50, 51, 52, 53, 54, 55, 56] by
      decide +kernel]
  exact ⟨by with_unfolding_all rfl, _, by with_unfolding_all rfl⟩

/-! ### A number

`-12.5e-3` -/

example : ∃ c : Calc, c.result exact = -1 / 80 ∧ ∀ (α : Type) (o : Arith α),
    toDouble o (ascii "-12.5e-3") (some 41) = .ok (c.result o) := by
  have h := C48_value_partial true true [49, 50] [53] [101, 45, 51] _ _ _ (some 41) ⟨41, rfl, by decide, by decide, by decide⟩
    (.point (Digits.snoc (s := [49]) (Digits.snoc (s := []) .nil (.mk 1 (by decide))) (.mk 2 (by decide)))
      (Digits.snoc (s := []) .nil (.mk 5 (by decide))) (.inl nofun))
    (.neg (.inl rfl) (Digits.snoc (s := []) .nil (.mk 3 (by decide))) nofun) (by decide) (by decide) (fun _ _ _ => by decide)
    (by decide)
  obtain ⟨c, h1, h2⟩ := h
  rw [show ascii "-12.5e-3" = [45, 49, 50, 46, 53, 101, 45, 51] by decide +kernel]
  exact ⟨c, h1.trans (by decide +kernel), h2⟩

/-- `1.2.3` is not a number. -/
example (α : Type) (o : Arith α) : toDouble o (ascii "1.2.3") (some 41) = .err .invalidValue := by
  rw [show ascii "1.2.3" = [49, 46, 50, 46, 51] by decide +kernel]
  with_unfolding_all rfl

#print axioms C48_value_partial
#print axioms C48_only_numbers
#print axioms C48_literal_partial
#print axioms C48_sign_lost
#print axioms C48_zero_exponent
#print axioms C48_long_fraction

end DuckLisp.Props
