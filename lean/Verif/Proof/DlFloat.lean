import Verif.Spec.Decimal
import Verif.Proof.DlString

/-!
# Helper lemmas for decimal notation
-/

namespace DuckLisp.DlString

open DuckLisp.Spec

/-! ### Digits -/

/-- The number a row of digits denotes. -/
def val : Bytes → Nat
  | [] => 0
  | c :: cs => digitOf c * 10 ^ cs.length + val cs

def AllDigits (s : Bytes) : Prop := ∀ c ∈ s, isDigit c = true

theorem val_snoc (s : Bytes) (c : Byte) : val (s ++ [c]) = 10 * val s + digitOf c := by
  induction s with
  | nil => simp [val]
  | cons d s ih =>
    simp only [List.cons_append, val, ih, List.length_append, List.length_singleton]
    rw [Nat.pow_succ]
    grind

theorem digit_dec {c : Byte} (h : isDigit c = true) : DecDigit c (digitOf c) := by
  rw [decDigit_iff]
  have := isDigit_iff_toNat.1 h
  unfold digitOf
  omega

theorem dec_digit {c : Byte} {d : Nat} (h : DecDigit c d) : isDigit c = true ∧ digitOf c = d := by
  rw [decDigit_iff] at h
  refine ⟨isDigit_iff_toNat.2 (by omega), ?_⟩
  unfold digitOf
  omega

theorem digits_val {s : Bytes} {n : Nat} (h : Digits DecDigit 10 s n) : AllDigits s ∧ n = val s := by
  induction h with
  | nil => exact ⟨nofun, rfl⟩
  | snoc _ hc ih =>
    obtain ⟨h1, rfl⟩ := ih
    obtain ⟨h2, rfl⟩ := dec_digit hc
    refine ⟨fun x hx => ?_, by rw [val_snoc]⟩
    rcases List.mem_append.1 hx with hx | hx
    · exact h1 x hx
    · rw [List.mem_singleton.1 hx]; exact h2

theorem val_digits (s : Bytes) (h : AllDigits s) : Digits DecDigit 10 s (val s) := by
  suffices key : ∀ r : Bytes, AllDigits r.reverse → Digits DecDigit 10 r.reverse (val r.reverse) by
    simpa using key s.reverse (by simpa using h)
  intro r
  induction r with
  | nil => exact fun _ => .nil
  | cons c r ih =>
    intro h
    rw [List.reverse_cons] at h ⊢
    rw [val_snoc]
    exact .snoc (ih fun x hx => h x (List.mem_append_left _ hx)) (digit_dec (h c (by simp)))

theorem digitOf_lt {c : Byte} (h : isDigit c = true) : digitOf c < 10 := by
  have := isDigit_iff_toNat.1 h
  unfold digitOf
  omega

theorem val_lt (s : Bytes) (h : AllDigits s) : val s < 10 ^ s.length := by
  induction s with
  | nil => simp [val]
  | cons c s ih =>
    have h1 := ih fun x hx => h x (List.mem_cons_of_mem _ hx)
    have h2 := digitOf_lt (h c (List.mem_cons_self ..))
    simp only [val, List.length_cons, Nat.pow_succ]
    have : digitOf c * 10 ^ s.length ≤ 9 * 10 ^ s.length := Nat.mul_le_mul_right _ (by omega)
    omega

/-- Every string begins with some digits and goes on with something else, or ends. -/
theorem split_digits (s : Bytes) : ∃ ds t, s = ds ++ t ∧ AllDigits ds ∧ ∀ c u, t = c :: u → isDigit c = false := by
  induction s with
  | nil => exact ⟨[], [], rfl, nofun, nofun⟩
  | cons c s ih =>
    by_cases hc : isDigit c = true
    · obtain ⟨ds, t, rfl, h1, h2⟩ := ih
      exact ⟨c :: ds, t, rfl, List.forall_mem_cons.2 ⟨hc, h1⟩, h2⟩
    · exact ⟨[], c :: s, rfl, nofun, fun _ _ e => by cases e; simpa using hc⟩

theorem isE_iff {c : Byte} : isE c = true ↔ c = 101 ∨ c = 69 := by
  simp only [isE, decide_eq_true_eq]
  constructor
  · split
    · rename_i h
      simp only [Bool.and_eq_true, decide_eq_true_eq, UInt8.le_iff_toNat_le] at h
      intro e
      right
      have e' := congrArg UInt8.toNat e
      apply byte_ext
      simp only [UInt8.toNat_add, UInt8.toNat_sub, UInt8.reduceToNat] at e' h ⊢
      omega
    · exact .inl
  · rintro (rfl | rfl) <;> decide

theorem digit_not {c : Byte} (h : isDigit c = true) : isE c = false ∧ c ≠ 46 ∧ c ≠ 45 := by
  have h1 := isDigit_iff_toNat.1 h
  refine ⟨Bool.eq_false_iff.2 fun e => ?_, fun e => ?_, fun e => ?_⟩
  · rcases isE_iff.1 e with rfl | rfl <;> simp at h1
  · subst e; simp at h1
  · subst e; simp at h1

theorem isE_not {c : Byte} (h : isE c = true) : isDigit c = false ∧ c ≠ 46 ∧ c ≠ 45 := by
  rcases isE_iff.1 h with rfl | rfl <;> decide

/-! ### The loops, calculating exactly -/

/-- What ends the digits after the point. -/
def Tail (t : Bytes) : Prop := ∀ c u, t = c :: u → isE c = true

theorem wholeLoop_digits (ds t : Bytes) (h : AllDigits ds) (ht : ∀ c u, t = c :: u → (isE c || c = 46) = true) (r : Rat) :
    wholeLoop exact r (ds ++ t) = .ok (r * 10 ^ ds.length + val ds, t) := by
  induction ds generalizing r with
  | nil =>
    cases t with
    | nil => simp [wholeLoop, val]; grind
    | cons c u => simp only [List.nil_append, wholeLoop, ht c u rfl, if_true, val]; simp; grind
  | cons c ds ih =>
    have hc := h c (List.mem_cons_self ..)
    obtain ⟨h1, h2, -⟩ := digit_not hc
    simp only [List.cons_append, wholeLoop, h1, h2, hc, decide_false, Bool.or_self, Bool.false_eq_true, if_false,
      Bool.not_true]
    rw [ih fun x hx => h x (List.mem_cons_of_mem _ hx)]
    simp only [exact, val, List.length_cons, Rat.natCast_add, Rat.natCast_mul, Rat.natCast_pow, Res.ok.injEq, Prod.mk.injEq,
      and_true]
    grind

theorem wholeLoop_stuck (ds : Bytes) (c : Byte) (t : Bytes) (h : AllDigits ds) (h1 : (isE c || c = 46) = false)
    (h2 : isDigit c = false) (r : Rat) : wholeLoop exact r (ds ++ c :: t) = .err .invalidValue := by
  induction ds generalizing r with
  | nil => simp [wholeLoop, h1, h2]
  | cons d ds ih =>
    have hc := h d (List.mem_cons_self ..)
    obtain ⟨h1, h2, -⟩ := digit_not hc
    simp only [List.cons_append, wholeLoop, h1, h2, hc, decide_false, Bool.or_self, Bool.false_eq_true, if_false,
      Bool.not_true]
    exact ih (fun x hx => h x (List.mem_cons_of_mem _ hx)) _

theorem pow10_ne (k : Nat) : (10 : Rat) ^ k ≠ 0 := by
  induction k with
  | zero => simp
  | succ k ih => rw [Rat.pow_succ]; intro h; rcases Rat.mul_eq_zero.1 h with h | h; exact ih h; cases h

theorem natCast_ne {n : Nat} (h : 0 < n) : ((n : Nat) : Rat) ≠ 0 := by
  intro h
  have := Rat.natCast_eq_zero_iff.1 h
  omega

theorem chk_le {n : Nat} (h : n < 2 ^ 63) : chk (n : Int) = .ok (n : Int) :=
  if_pos ⟨by unfold ptrdiffMin; omega, by unfold ptrdiffMax; omega⟩

theorem chk_gt {n : Nat} (h : 2 ^ 63 ≤ n) : chk (n : Int) = .ub :=
  if_neg (by unfold ptrdiffMax; omega)

theorem fractionLoop_digits (fs t : Bytes) (h : AllDigits fs) (ht : Tail t) (p : Nat) (hp : 0 < p)
    (hlim : p * 10 ^ fs.length < 2 ^ 63) (r : Rat) :
    fractionLoop exact p r (fs ++ t) = .ok (r + val fs / (p * 10 ^ fs.length), t) := by
  induction fs generalizing r p with
  | nil =>
    have e : r + (val [] : Nat) / ((p : Rat) * 10 ^ ([] : Bytes).length) = r := by simp [val]; grind
    rw [e]
    cases t with
    | nil => rfl
    | cons c u => simp only [List.nil_append, fractionLoop, ht c u rfl, if_true]
  | cons c fs ih =>
    have hc := h c (List.mem_cons_self ..)
    obtain ⟨h1, -, -⟩ := digit_not hc
    rw [List.length_cons, Nat.pow_succ] at hlim
    have hlim' : 10 * p * 10 ^ fs.length < 2 ^ 63 := by grind
    have hlt : 10 * p < 2 ^ 63 :=
      Nat.lt_of_le_of_lt (Nat.le_mul_of_pos_right _ (Nat.pow_pos (by omega))) hlim'
    have hchk : chk (10 * (p : Int)) = .ok ((10 * p : Nat) : Int) := by
      have := chk_le hlt
      simpa using this
    simp only [List.cons_append, fractionLoop, h1, hchk, hc, Bool.false_eq_true, if_false, Bool.not_true, Res.bind_ok]
    rw [ih (fun x hx => h x (List.mem_cons_of_mem _ hx)) _ (by omega) hlim']
    have n1 := natCast_ne hp
    have n2 := pow10_ne fs.length
    simp only [exact, val, List.length_cons, Rat.natCast_add, Rat.natCast_mul, Rat.natCast_pow, Res.ok.injEq, Prod.mk.injEq,
      and_true, Int.toNat_natCast]
    grind

theorem fractionLoop_cases (s : Bytes) (p : Nat) (hp : 0 < p) (hp' : p < 2 ^ 63) (r : Rat) :
    (∃ fs t, s = fs ++ t ∧ AllDigits fs ∧ Tail t ∧ p * 10 ^ fs.length < 2 ^ 63 ∧
      fractionLoop exact p r s = .ok (r + val fs / (p * 10 ^ fs.length), t)) ∨
    fractionLoop exact p r s = .err .invalidValue ∨
    fractionLoop exact p r s = .ub ∧ 2 ^ 63 ≤ p * 10 ^ s.length := by
  induction s generalizing p r with
  | nil => exact .inl ⟨[], [], rfl, nofun, nofun, by simpa using hp', fractionLoop_digits [] [] nofun nofun p hp (by simpa using hp') r⟩
  | cons c s ih =>
    by_cases he : isE c = true
    · have ht : Tail (c :: s) := fun _ _ e => by cases e; exact he
      exact .inl ⟨[], c :: s, rfl, nofun, ht, by simpa using hp', fractionLoop_digits [] (c :: s) nofun ht p hp (by simpa using hp') r⟩
    · have he' : isE c = false := by simpa using he
      by_cases hlt : 10 * p < 2 ^ 63
      · have hchk : chk (10 * (p : Int)) = .ok ((10 * p : Nat) : Int) := by
          have := chk_le hlt
          simpa using this
        by_cases hc : isDigit c = true
        · have step : ∀ r, fractionLoop exact p r (c :: s) = fractionLoop exact ((10 * p : Nat) : Int)
              (exact.add r (exact.div (exact.ofNat (digitOf c)) (exact.ofNat (10 * p)))) s := fun r => by
            simp only [fractionLoop, he', hchk, hc, Bool.false_eq_true, if_false, Bool.not_true, Res.bind_ok, Int.toNat_natCast]
          rcases ih (10 * p) (by omega) hlt (exact.add r (exact.div (exact.ofNat (digitOf c)) (exact.ofNat (10 * p)))) with
            ⟨fs, t, rfl, h1, h2, h3, h4⟩ | h | ⟨h, h'⟩
          · have h3' : p * 10 ^ (c :: fs).length < 2 ^ 63 := by rw [List.length_cons, Nat.pow_succ]; grind
            have h1' : AllDigits (c :: fs) := List.forall_mem_cons.2 ⟨hc, h1⟩
            exact .inl ⟨c :: fs, t, rfl, h1', h2, h3', fractionLoop_digits (c :: fs) t h1' h2 p hp h3' r⟩
          · exact .inr (.inl ((step r).trans h))
          · refine .inr (.inr ⟨(step r).trans h, ?_⟩)
            rw [List.length_cons, Nat.pow_succ]
            grind
        · right; left
          simp [fractionLoop, he', hchk, hc]
      · right; right
        have hchk : chk (10 * (p : Int)) = .ub := by
          have := chk_gt (n := 10 * p) (by omega)
          simpa using this
        refine ⟨by simp [fractionLoop, he', hchk], ?_⟩
        rw [List.length_cons, Nat.pow_succ]
        have : 1 ≤ 10 ^ s.length := Nat.pow_pos (by omega)
        have := Nat.mul_le_mul_left (10 * p) this
        grind

/-! ### The exponent -/

theorem powerLoop_digits (ds : Bytes) (h : AllDigits ds) (p : Nat) (hlim : p * 10 ^ ds.length + val ds + 48 < 2 ^ 63) :
    powerLoop p ds = .ok ((p * 10 ^ ds.length + val ds : Nat) : Int) := by
  induction ds generalizing p with
  | nil => simp [powerLoop, val]
  | cons c ds ih =>
    have hc := h c (List.mem_cons_self ..)
    have hn := isDigit_iff_toNat.1 hc
    have hd : digitOf c + 48 = c.toNat := by unfold digitOf; omega
    rw [List.length_cons, Nat.pow_succ, val] at hlim
    have h1 : 1 ≤ 10 ^ ds.length := Nat.pow_pos (by omega)
    have h2 : (p * 10 + digitOf c) * 10 ^ ds.length + val ds + 48 < 2 ^ 63 := by grind
    have h3 := Nat.mul_le_mul_left (p * 10 + digitOf c) h1
    have c1 : chk ((p : Int) * 10) = .ok ((p * 10 : Nat) : Int) := by
      have := chk_le (n := p * 10) (by omega)
      simpa using this
    have c2 : chk (((p * 10 : Nat) : Int) + (c.toNat : Int)) = .ok ((p * 10 + c.toNat : Nat) : Int) := by
      have := chk_le (n := p * 10 + c.toNat) (by omega)
      simpa using this
    have c3 : chk (((p * 10 + c.toNat : Nat) : Int) - 48) = .ok ((p * 10 + digitOf c : Nat) : Int) := by
      have := chk_le (n := p * 10 + digitOf c) (by omega)
      rwa [show ((p * 10 + c.toNat : Nat) : Int) - 48 = ((p * 10 + digitOf c : Nat) : Int) by omega]
    simp only [powerLoop, hc, Bool.not_true, Bool.false_eq_true, if_false]
    rw [c1, Res.bind_ok, c2, Res.bind_ok, c3, Res.bind_ok, ih (fun x hx => h x (List.mem_cons_of_mem _ hx)) _ h2]
    congr 2
    rw [List.length_cons, Nat.pow_succ, val]
    grind

theorem powerLoop_cases (s : Bytes) (p k : Nat) (hp : p < 10 ^ k) :
    (∃ q : Nat, AllDigits s ∧ q = p * 10 ^ s.length + val s ∧ powerLoop p s = .ok (q : Int)) ∨
    powerLoop p s = .err .invalidValue ∨ powerLoop p s = .ub ∧ 19 ≤ k + s.length := by
  induction s generalizing p k with
  | nil => exact .inl ⟨p, nofun, by simp [val], rfl⟩
  | cons c s ih =>
    by_cases hc : isDigit c = true
    · have hn := isDigit_iff_toNat.1 hc
      have hd : digitOf c + 48 = c.toNat := by unfold digitOf; omega
      have hp2 : p * 10 + digitOf c < 10 ^ (k + 1) := by
        rw [Nat.pow_succ]
        omega
      by_cases hbig : p * 10 + c.toNat < 2 ^ 63
      · have c1 : chk ((p : Int) * 10) = .ok ((p * 10 : Nat) : Int) := by
          have := chk_le (n := p * 10) (by omega)
          simpa using this
        have c2 : chk (((p * 10 : Nat) : Int) + (c.toNat : Int)) = .ok ((p * 10 + c.toNat : Nat) : Int) := by
          have := chk_le (n := p * 10 + c.toNat) (by omega)
          simpa using this
        have c3 : chk (((p * 10 + c.toNat : Nat) : Int) - 48) = .ok ((p * 10 + digitOf c : Nat) : Int) := by
          have := chk_le (n := p * 10 + digitOf c) (by omega)
          rwa [show ((p * 10 + c.toNat : Nat) : Int) - 48 = ((p * 10 + digitOf c : Nat) : Int) by omega]
        have step : powerLoop p (c :: s) = powerLoop ((p * 10 + digitOf c : Nat) : Int) s := by
          simp only [powerLoop, hc, Bool.not_true, Bool.false_eq_true, if_false]
          rw [c1, Res.bind_ok, c2, Res.bind_ok, c3, Res.bind_ok]
        rw [step]
        rcases ih _ (k + 1) hp2 with ⟨q, h1, rfl, h2⟩ | h | ⟨h, h'⟩
        · refine .inl ⟨_, List.forall_mem_cons.2 ⟨hc, h1⟩, ?_, h2⟩
          rw [List.length_cons, Nat.pow_succ, val]
          grind
        · exact .inr (.inl h)
        · exact .inr (.inr ⟨h, by rw [List.length_cons]; omega⟩)
      · right; right
        have hk : 19 ≤ k + 1 := by
          by_cases hk : k + 1 ≤ 18
          · have := Nat.pow_le_pow_right (n := 10) (by omega) hk
            omega
          · omega
        refine ⟨?_, by rw [List.length_cons]; omega⟩
        simp only [powerLoop, hc, Bool.not_true, Bool.false_eq_true, if_false]
        by_cases h1 : p * 10 < 2 ^ 63
        · have c1 : chk ((p : Int) * 10) = .ok ((p * 10 : Nat) : Int) := by
            have := chk_le (n := p * 10) h1
            simpa using this
          have c2 : chk (((p * 10 : Nat) : Int) + (c.toNat : Int)) = .ub := by
            have := chk_gt (n := p * 10 + c.toNat) (by omega)
            simpa using this
          rw [c1, Res.bind_ok, c2]
          rfl
        · have c1 : chk ((p : Int) * 10) = .ub := by
            have := chk_gt (n := p * 10) (by omega)
            simpa using this
          rw [c1]
          rfl
    · exact .inr (.inl (by simp [powerLoop, hc]))

theorem scale_mul (n : Nat) (r : Rat) : scale (fun r => exact.mul r (exact.ofNat 10)) n r = r * 10 ^ n := by
  induction n generalizing r with
  | zero => simp [scale]
  | succ n ih =>
    rw [scale, ih]
    simp only [exact]
    grind

theorem scale_div (n : Nat) (r : Rat) : scale (fun r => exact.div r (exact.ofNat 10)) n r = r * (1 / 10 ^ n) := by
  induction n generalizing r with
  | zero => simp [scale]; grind
  | succ n ih =>
    rw [scale, ih]
    have := pow10_ne n
    simp only [exact]
    grind

theorem digits_cons {c : Byte} {ds : Bytes} {n : Nat} (h : Digits DecDigit 10 (c :: ds) n) :
    isDigit c = true ∧ AllDigits ds ∧ n = digitOf c * 10 ^ ds.length + val ds := by
  obtain ⟨h1, h2⟩ := digits_val h
  exact ⟨h1 c (List.mem_cons_self ..), fun x hx => h1 x (List.mem_cons_of_mem _ hx), h2⟩

theorem exponentDigits_ok {ds : Bytes} {n : Nat} (h : Digits DecDigit 10 ds n) (hne : ds ≠ []) (hn : n + 48 < 2 ^ 63) (r : Rat) :
    exponentDigits exact false r ds = .ok (r * 10 ^ n) ∧ (0 < n → exponentDigits exact true r ds = .ok (r * (1 / 10 ^ n))) := by
  cases ds with
  | nil => exact absurd rfl hne
  | cons c ds =>
    obtain ⟨h1, h2, h3⟩ := digits_cons h
    have hp := powerLoop_digits ds h2 (digitOf c) (by omega)
    rw [← h3] at hp
    constructor
    · simp only [exponentDigits, h1, hp, Bool.not_true, Bool.false_eq_true, if_false, Res.bind_ok, Int.toNat_natCast, Res.pure_eq]
      rw [scale_mul]
    · intro h0
      have h0' : ¬ (n : Int) = 0 := by omega
      simp only [exponentDigits, h1, hp, Bool.not_true, Bool.false_eq_true, if_false, Res.bind_ok, Int.toNat_natCast, Res.pure_eq,
        if_true, h0']
      rw [scale_div]

theorem exponentDigits_cases (negative : Bool) (s : Bytes) (r : Rat) :
    (∃ n, Digits DecDigit 10 s n ∧ s ≠ [] ∧ exponentDigits exact negative r s =
      .ok (r * if negative then 1 / 10 ^ n else 10 ^ n)) ∨
    exponentDigits exact negative r s = .err .invalidValue ∨ exponentDigits exact negative r s = .ub ∧ 19 ≤ s.length := by
  cases s with
  | nil => exact .inr (.inl rfl)
  | cons c cs =>
    by_cases hc : isDigit c = true
    · rcases powerLoop_cases cs (digitOf c) 1 (digitOf_lt hc) with ⟨q, h1, h2, h3⟩ | h | ⟨h, h'⟩
      · have hd := val_digits (c :: cs) (List.forall_mem_cons.2 ⟨hc, h1⟩)
        have hq : val (c :: cs) = q := h2.symm
        rw [hq] at hd
        cases negative with
        | false =>
          refine .inl ⟨q, hd, nofun, ?_⟩
          simp only [exponentDigits, hc, h3, Bool.not_true, Bool.false_eq_true, if_false, Res.bind_ok, Int.toNat_natCast, Res.pure_eq]
          rw [scale_mul]
        | true =>
          by_cases h0 : (q : Int) = 0
          · right; left
            simp only [exponentDigits, hc, h3, Bool.not_true, Bool.false_eq_true, if_false, Res.bind_ok, if_true, h0]
          · refine .inl ⟨q, hd, nofun, ?_⟩
            simp only [exponentDigits, hc, h3, Bool.not_true, Bool.false_eq_true, if_false, Res.bind_ok, Int.toNat_natCast, Res.pure_eq,
              if_true, h0]
            rw [scale_div]
      · right; left
        simp only [exponentDigits, hc, h, Bool.not_true, Bool.false_eq_true, if_false, Res.bind_err]
      · right; right
        refine ⟨?_, by rw [List.length_cons]; omega⟩
        simp only [exponentDigits, hc, h, Bool.not_true, Bool.false_eq_true, if_false, Res.bind_ub]
    · right; left
      simp [exponentDigits, hc]

theorem peek_cons (c : Byte) (t : Bytes) (beyond : Option Byte) : peek (c :: t) beyond = .ok c := rfl

theorem peek_end {beyond : Option Byte} (h : Ended beyond) : ∃ c, peek [] beyond = .ok c ∧ c ≠ 46 ∧ isE c = false := by
  obtain ⟨c, rfl, h1, h2, h3⟩ := h
  refine ⟨c, rfl, h1, Bool.eq_false_iff.2 fun e => ?_⟩
  rcases isE_iff.1 e with e | e
  · exact h2 e
  · exact h3 e

theorem exponent_ok {x : Bytes} {n : Nat} {f : Rat} (h : Factor x n f) (hn : n + 48 < 2 ^ 63)
    (h0 : ∀ e ds, x = e :: 45 :: ds → 0 < n) {beyond : Option Byte} (hb : Ended beyond) (r : Rat) :
    exponent exact r x beyond = .ok (r * f) := by
  cases h with
  | none =>
    obtain ⟨c, h1, -, h2⟩ := peek_end hb
    simp [exponent, h1, h2]
  | @pos e ds n he hd hne =>
    have hE : isE e = true := isE_iff.2 he
    cases ds with
    | nil => exact absurd rfl hne
    | cons c ds =>
      have hc := (digit_not (digits_cons hd).1).2.2
      simp only [exponent, peek_cons, Res.bind_ok, hE, if_true, List.tail_cons, hc, if_false]
      exact (exponentDigits_ok hd hne hn r).1
  | @neg e ds n he hd hne =>
    have hE : isE e = true := isE_iff.2 he
    simp only [exponent, peek_cons, Res.bind_ok, hE, if_true, List.tail_cons]
    exact (exponentDigits_ok hd hne hn r).2 (h0 e ds rfl)

theorem exponent_cases (t : Bytes) (ht : Tail t) {beyond : Option Byte} (hb : Ended beyond) (r : Rat) :
    (∃ n f, Factor t n f ∧ exponent exact r t beyond = .ok (r * f)) ∨
    exponent exact r t beyond = .err .invalidValue ∨ exponent exact r t beyond = .ub ∧ 19 ≤ t.length := by
  cases t with
  | nil =>
    obtain ⟨c, h1, -, h2⟩ := peek_end hb
    exact .inl ⟨0, 1, .none, by simp [exponent, h1, h2]⟩
  | cons e t =>
    have hE := ht e t rfl
    cases t with
    | nil => right; left; simp [exponent, peek_cons, hE]
    | cons c cs =>
      by_cases hc : c = 45
      · subst hc
        have step : exponent exact r (e :: 45 :: cs) beyond = exponentDigits exact true r cs := by
          simp only [exponent, peek_cons, Res.bind_ok, hE, if_true, List.tail_cons]
        rw [step]
        rcases exponentDigits_cases true cs r with ⟨n, h1, h2, h3⟩ | h | ⟨h, h'⟩
        · exact .inl ⟨n, _, .neg (isE_iff.1 hE) h1 h2, h3⟩
        · exact .inr (.inl h)
        · exact .inr (.inr ⟨h, by simp only [List.length_cons]; omega⟩)
      · have step : exponent exact r (e :: c :: cs) beyond = exponentDigits exact false r (c :: cs) := by
          simp only [exponent, peek_cons, Res.bind_ok, hE, if_true, List.tail_cons, hc, if_false]
        rw [step]
        rcases exponentDigits_cases false (c :: cs) r with ⟨n, h1, h2, h3⟩ | h | ⟨h, h'⟩
        · exact .inl ⟨n, _, .pos (isE_iff.1 hE) h1 h2, h3⟩
        · exact .inr (.inl h)
        · exact .inr (.inr ⟨h, by simp only [List.length_cons] at h' ⊢; omega⟩)

/-! ### The significand -/

theorem factor_tail {x : Bytes} {n : Nat} {f : Rat} (h : Factor x n f) : Tail x := by
  cases h with
  | none => exact nofun
  | pos he => exact fun _ _ e => by cases e; exact isE_iff.2 he
  | neg he => exact fun _ _ e => by cases e; exact isE_iff.2 he

theorem tail_stop {t : Bytes} (ht : Tail t) : ∀ c u, t = c :: u → (isE c || c = 46) = true :=
  fun c u e => by rw [ht c u e]; rfl

/-- `.` and digits. -/
theorem mantissa_point (fs t : Bytes) (hf : AllDigits fs) (hne : fs ≠ []) (hlen : fs.length ≤ 18) (ht : Tail t)
    (beyond : Option Byte) : mantissa exact (46 :: (fs ++ t)) beyond = .ok ((val fs : Rat) / 10 ^ fs.length, some t) := by
  cases fs with
  | nil => exact absurd rfl hne
  | cons d ds =>
    have hd := hf d (List.mem_cons_self ..)
    have hlim : 10 * 10 ^ ds.length < 2 ^ 63 := by
      have := Nat.pow_le_pow_right (n := 10) (by omega) (show ds.length + 1 ≤ 18 from hlen)
      rw [Nat.pow_succ] at this
      omega
    have h := fractionLoop_digits ds t (fun x hx => hf x (List.mem_cons_of_mem _ hx)) ht 10 (by omega) hlim
    simp only [mantissa, List.cons_append, hd, Bool.not_true, Bool.false_eq_true, if_false, if_true]
    rw [show ((10 : Nat) : Int) = 10 from rfl] at h
    rw [h, Res.bind_ok]
    simp only [Res.pure_eq, Res.ok.injEq, Prod.mk.injEq, and_true, exact, val, List.length_cons, Rat.natCast_add, Rat.natCast_mul,
      Rat.natCast_pow]
    have := pow10_ne ds.length
    grind

/-- The first loop, after the first digit. -/
theorem wholeLoop_first (c : Byte) (ds t : Bytes) (h : AllDigits ds) (ht : ∀ c u, t = c :: u → (isE c || c = 46) = true) :
    wholeLoop exact (exact.ofNat (digitOf c)) (ds ++ t) = .ok ((val (c :: ds) : Rat), t) := by
  rw [wholeLoop_digits ds t h ht]
  simp only [exact, val, Rat.natCast_add, Rat.natCast_mul, Rat.natCast_pow, Res.ok.injEq, Prod.mk.injEq, and_true]
  rfl

theorem fractionLoop_none (t : Bytes) (ht : Tail t) (r : Rat) : fractionLoop exact 0 r t = .ok (r, t) := by
  cases t with
  | nil => rfl
  | cons c t => simp [fractionLoop, ht c t rfl]

/-- Digits without a point. -/
theorem mantissa_whole (ds t : Bytes) (hd : AllDigits ds) (hne : ds ≠ []) (ht : Tail t) {beyond : Option Byte} (hb : Ended beyond) :
    mantissa exact (ds ++ t) beyond = .ok ((val ds : Rat), some t) := by
  cases ds with
  | nil => exact absurd rfl hne
  | cons c ds =>
    have hc := hd c (List.mem_cons_self ..)
    have hpeek : ∃ b, peek t beyond = .ok b ∧ b ≠ 46 := by
      cases t with
      | nil => obtain ⟨b, h1, h2, -⟩ := peek_end hb; exact ⟨b, h1, h2⟩
      | cons b t => exact ⟨b, rfl, (isE_not (ht b t rfl)).2.1⟩
    obtain ⟨b, h1, h2⟩ := hpeek
    simp only [mantissa, List.cons_append, (digit_not hc).2.1, hc, Bool.not_true, Bool.false_eq_true, if_false]
    rw [wholeLoop_first c ds t (fun x hx => hd x (List.mem_cons_of_mem _ hx)) (tail_stop ht), Res.bind_ok]
    simp only [h1, Res.bind_ok, h2, if_false, fractionLoop_none t ht, Res.pure_eq]

/-- Digits, a point and nothing else. -/
theorem mantissa_end (ds : Bytes) (hd : AllDigits ds) (hne : ds ≠ []) (beyond : Option Byte) :
    mantissa exact (ds ++ [46]) beyond = .ok ((val ds : Rat), none) := by
  cases ds with
  | nil => exact absurd rfl hne
  | cons c ds =>
    have hc := hd c (List.mem_cons_self ..)
    simp only [mantissa, List.cons_append, (digit_not hc).2.1, hc, Bool.not_true, Bool.false_eq_true, if_false]
    rw [wholeLoop_first c ds [46] (fun x hx => hd x (List.mem_cons_of_mem _ hx)) (fun _ _ e => by cases e; rfl), Res.bind_ok]
    simp only [peek_cons, Res.bind_ok, if_true, List.tail_cons, Res.pure_eq]

/-- Digits, a point and more. -/
theorem mantissa_mixed (ds u : Bytes) (hd : AllDigits ds) (hne : ds ≠ []) (hu : u ≠ []) (beyond : Option Byte) :
    mantissa exact (ds ++ 46 :: u) beyond = (fractionLoop exact 1 (val ds : Rat) u >>= fun p => .ok (p.1, some p.2)) := by
  cases ds with
  | nil => exact absurd rfl hne
  | cons c ds =>
    have hc := hd c (List.mem_cons_self ..)
    simp only [mantissa, List.cons_append, (digit_not hc).2.1, hc, Bool.not_true, Bool.false_eq_true, if_false]
    rw [wholeLoop_first c ds (46 :: u) (fun x hx => hd x (List.mem_cons_of_mem _ hx)) (fun _ _ e => by cases e; rfl), Res.bind_ok]
    simp only [peek_cons, Res.bind_ok, if_true, List.tail_cons]
    cases u with
    | nil => exact absurd rfl hu
    | cons d u => rfl

theorem pow18 {k : Nat} (h : k ≤ 18) : 1 * 10 ^ k < 2 ^ 63 := by
  have := Nat.pow_le_pow_right (n := 10) (by omega) h
  omega

theorem mantissa_ok {ds : Bytes} {point : Bool} {fs x : Bytes} {m : Rat} (h : Significand ds point fs m) (hlen : fs.length ≤ 18)
    (hx : Tail x) (hend : ¬ (fs = [] ∧ x = [] ∧ point = true)) {beyond : Option Byte} (hb : Ended beyond) :
    mantissa exact (ds ++ ((if point then [46] else []) ++ (fs ++ x))) beyond = .ok (m, some x) := by
  cases h with
  | whole h hne =>
    obtain ⟨h1, rfl⟩ := digits_val h
    simpa using mantissa_whole ds x h1 hne hx hb
  | point h hf hne =>
    obtain ⟨h1, rfl⟩ := digits_val h
    obtain ⟨h2, rfl⟩ := digits_val hf
    simp only [if_true, List.singleton_append]
    by_cases hds : ds = []
    · subst hds
      have := mantissa_point fs x h2 (hne.resolve_left fun h => h rfl) hlen hx beyond
      rw [List.nil_append, this]
      simp only [val, Res.ok.injEq, Prod.mk.injEq, and_true]
      simp [Rat.zero_add]
    · rw [mantissa_mixed ds (fs ++ x) h1 hds (fun e => hend (by simp_all)) beyond]
      have := fractionLoop_digits fs x h2 hx 1 (by omega) (pow18 hlen) (val ds : Rat)
      rw [show ((1 : Nat) : Int) = 1 from rfl] at this
      rw [this, Res.bind_ok]
      simp

theorem mantissa_cases (u : Bytes) (hu : u ≠ []) {beyond : Option Byte} (hb : Ended beyond) :
    (∃ ds n, u = ds ++ [46] ∧ Digits DecDigit 10 ds n ∧ ds ≠ [] ∧ mantissa exact u beyond = .ok ((n : Rat), none)) ∨
    (∃ ds point fs m x, u = ds ++ ((if point then [46] else []) ++ (fs ++ x)) ∧ Significand ds point fs m ∧ Tail x ∧
      mantissa exact u beyond = .ok (m, some x)) ∨
    mantissa exact u beyond = .err .invalidValue ∨ mantissa exact u beyond = .ub ∧ 19 ≤ u.length := by
  cases u with
  | nil => exact absurd rfl hu
  | cons c cs =>
    by_cases hp : c = 46
    · subst hp
      right
      cases cs with
      | nil => exact .inr (.inl rfl)
      | cons d ds =>
        by_cases hd : isDigit d = true
        · have step : mantissa exact (46 :: d :: ds) beyond =
              (fractionLoop exact 10 (exact.add (exact.ofNat 0) (exact.div (exact.ofNat (digitOf d)) (exact.ofNat 10))) ds >>=
                fun p => .ok (p.1, some p.2)) := by
            simp only [mantissa, hd, Bool.not_true, Bool.false_eq_true, if_false, if_true]
            rfl
          rcases fractionLoop_cases ds 10 (by omega) (by omega)
            (exact.add (exact.ofNat 0) (exact.div (exact.ofNat (digitOf d)) (exact.ofNat 10))) with
            ⟨fs, t, rfl, h1, h2, h3, h4⟩ | h | ⟨h, h'⟩
          · have h1' : AllDigits (d :: fs) := List.forall_mem_cons.2 ⟨hd, h1⟩
            have hlen : (d :: fs).length ≤ 18 := by
              by_cases hl : fs.length ≤ 17
              · simpa using hl
              · have := Nat.pow_le_pow_right (n := 10) (by omega) (show 18 ≤ fs.length by omega)
                omega
            refine .inl ⟨[], true, d :: fs, _, t, rfl, .point .nil (val_digits _ h1') (.inr nofun), h2, ?_⟩
            have := mantissa_point (d :: fs) t h1' nofun hlen h2 beyond
            rw [List.cons_append] at this
            rw [this]
            simp [Rat.zero_add]
          · rw [show ((10 : Nat) : Int) = 10 from rfl] at h
            exact .inr (.inl (by rw [step, h]; rfl))
          · rw [show ((10 : Nat) : Int) = 10 from rfl] at h
            refine .inr (.inr ⟨by rw [step, h]; rfl, ?_⟩)
            by_cases hl : ds.length ≤ 17
            · have := Nat.pow_le_pow_right (n := 10) (by omega) hl
              omega
            · simp only [List.length_cons]; omega
        · exact .inr (.inl (by simp [mantissa, hd]))
    · by_cases hc : isDigit c = true
      · obtain ⟨ds, t, rfl, h1, h2⟩ := split_digits cs
        have h1' : AllDigits (c :: ds) := List.forall_mem_cons.2 ⟨hc, h1⟩
        by_cases ht : Tail t
        · refine .inr (.inl ⟨c :: ds, false, [], _, t, rfl, .whole (val_digits _ h1') nofun, ht, ?_⟩)
          exact mantissa_whole (c :: ds) t h1' nofun ht hb
        · obtain ⟨b, u, rfl, hE⟩ : ∃ b u, t = b :: u ∧ isE b = false := by
            cases t with
            | nil => exact absurd nofun ht
            | cons b u =>
              refine ⟨b, u, rfl, Bool.eq_false_iff.2 fun h => ht fun _ _ e => ?_⟩
              cases e
              exact h
          by_cases hb46 : b = 46
          · subst hb46
            by_cases hu : u = []
            · subst hu
              exact .inl ⟨c :: ds, _, rfl, val_digits _ h1', nofun, mantissa_end (c :: ds) h1' nofun beyond⟩
            · right
              have step := mantissa_mixed (c :: ds) u h1' nofun hu beyond
              rw [List.cons_append] at step
              rw [step]
              rcases fractionLoop_cases u 1 (by omega) (by omega) (val (c :: ds) : Rat) with
                ⟨fs, x, rfl, g1, g2, g3, g4⟩ | h | ⟨h, h'⟩
              · refine .inl ⟨c :: ds, true, fs, _, x, rfl, .point (val_digits _ h1') (val_digits _ g1) (.inl nofun), g2, ?_⟩
                rw [show ((1 : Nat) : Int) = 1 from rfl] at g4
                rw [g4, Res.bind_ok]
                simp
              · rw [show ((1 : Nat) : Int) = 1 from rfl] at h
                exact .inr (.inl (by rw [h]; rfl))
              · rw [show ((1 : Nat) : Int) = 1 from rfl] at h
                refine .inr (.inr ⟨by rw [h]; rfl, ?_⟩)
                by_cases hl : u.length ≤ 18
                · have := pow18 hl
                  omega
                · simp only [List.length_cons, List.length_append]; omega
          · right; right; left
            simp only [mantissa, hp, hc, Bool.not_true, Bool.false_eq_true, if_false]
            rw [wholeLoop_stuck ds b u h1 (by simp [hE, hb46]) (h2 b u rfl)]
            rfl
      · right; right; left
        simp [mantissa, hp, hc]

/-! ### What follows a number -/

section
variable {α : Type} (o : Arith α) {b b' : Option Byte} (h : Ended b) (h' : Ended b')

include h h' in
theorem exponent_ended (r : α) (t : Bytes) : exponent o r t b = exponent o r t b' := by
  cases t with
  | cons c t => rfl
  | nil =>
    obtain ⟨c, h1, -, h2⟩ := peek_end h
    obtain ⟨c', h1', -, h2'⟩ := peek_end h'
    simp only [exponent, h1, h1', Res.bind_ok, h2, h2']

include h h' in
theorem mantissa_ended (s : Bytes) : mantissa o s b = mantissa o s b' := by
  cases s with
  | nil => rfl
  | cons c cs =>
    unfold mantissa
    by_cases h46 : c = 46
    · simp only [h46, if_true]
    · simp only [h46, if_false]
      split
      · rfl
      · refine congrArg _ (funext fun p => ?_)
        obtain ⟨r, t⟩ := p
        cases t with
        | cons c t => rfl
        | nil =>
          obtain ⟨c, h1, h2, -⟩ := peek_end h
          obtain ⟨c', h1', h2', -⟩ := peek_end h'
          simp only [h1, h1', Res.bind_ok, h2, h2']

include h h' in
/-- What follows a number does not matter, if it does not belong to it. -/
theorem toDouble_ended (s : Bytes) : toDouble o s b = toDouble o s b' := by
  cases s with
  | nil => rfl
  | cons c cs =>
    simp only [toDouble, mantissa_ended o h h', exponent_ended o h h']

end

/-! ### Other arithmetics -/

/-- Calculating with formulas. -/
def formulas : Arith Calc := ⟨.num, .add, .mul, .div, .neg⟩

def Res.map {α β : Type} (f : α → β) : Res α → Res β
  | .ok a => .ok (f a)
  | .err e => .err e
  | .ub => .ub
  | .timeout => .timeout

theorem Res.map_bind {α β γ : Type} (f : β → γ) (m : Res α) (k : α → Res β) :
    Res.map f (m >>= k) = m >>= fun a => Res.map f (k a) := by cases m <;> rfl

theorem Res.bind_map {α β γ : Type} (f : α → β) (m : Res α) (k : β → Res γ) :
    Res.map f m >>= k = m >>= fun a => k (f a) := by cases m <;> rfl

variable {α : Type} (o : Arith α)

theorem wholeLoop_formulas (s : Bytes) (r : Calc) :
    wholeLoop o (r.result o) s = Res.map (fun p => (p.1.result o, p.2)) (wholeLoop formulas r s) := by
  induction s generalizing r with
  | nil => rfl
  | cons c s ih =>
    unfold wholeLoop
    split
    · rfl
    · split
      · rfl
      · exact ih (.add (.mul r (.num 10)) (.num (digitOf c)))

theorem fractionLoop_formulas (s : Bytes) (p : Int) (r : Calc) :
    fractionLoop o p (r.result o) s = Res.map (fun p => (p.1.result o, p.2)) (fractionLoop formulas p r s) := by
  induction s generalizing r p with
  | nil => rfl
  | cons c s ih =>
    unfold fractionLoop
    split
    · rfl
    · rw [Res.map_bind]
      refine congrArg _ (funext fun p => ?_)
      split
      · rfl
      · exact ih p (.add r (.div (.num (digitOf c)) (.num p.toNat)))

theorem mantissa_formulas (s : Bytes) (beyond : Option Byte) :
    mantissa o s beyond = Res.map (fun p => (p.1.result o, p.2)) (mantissa formulas s beyond) := by
  cases s with
  | nil => rfl
  | cons c cs =>
    unfold mantissa
    by_cases h : c = 46
    · simp only [h, if_true]
      cases cs with
      | nil => rfl
      | cons d ds =>
        simp only
        split
        · rfl
        · rw [Res.map_bind]
          refine (congrArg (fun m => m >>= _) (fractionLoop_formulas o ds 10
            (.add (.num 0) (.div (.num (digitOf d)) (.num 10))))).trans ?_
          rw [Res.bind_map]
          rfl
    · simp only [h, if_false]
      split
      · rfl
      · rw [Res.map_bind]
        refine (congrArg (fun m => m >>= _) (wholeLoop_formulas o cs (.num (digitOf c)))).trans ?_
        rw [Res.bind_map]
        refine congrArg _ (funext fun p => ?_)
        obtain ⟨r, t⟩ := p
        simp only
        rw [Res.map_bind]
        refine congrArg _ (funext fun b => ?_)
        split
        · split
          · rfl
          · rw [Res.map_bind, fractionLoop_formulas, Res.bind_map]
            rfl
        · rw [Res.map_bind, fractionLoop_formulas, Res.bind_map]
          rfl

theorem scale_formulas (f : α → α) (g : Calc → Calc) (h : ∀ r, f (r.result o) = (g r).result o) (n : Nat) (r : Calc) :
    scale f n (r.result o) = (scale g n r).result o := by
  induction n generalizing r with
  | zero => rfl
  | succ n ih => rw [scale, scale, h, ih]

theorem exponentDigits_formulas (negative : Bool) (s : Bytes) (r : Calc) :
    exponentDigits o negative (r.result o) s = Res.map (Calc.result o) (exponentDigits formulas negative r s) := by
  cases s with
  | nil => rfl
  | cons c cs =>
    simp only [exponentDigits]
    split
    · rfl
    · rw [Res.map_bind]
      refine congrArg _ (funext fun p => ?_)
      split
      · split
        · rfl
        · rw [scale_formulas o _ (fun r => formulas.div r (formulas.ofNat 10)) fun _ => rfl]
          rfl
      · rw [scale_formulas o _ (fun r => formulas.mul r (formulas.ofNat 10)) fun _ => rfl]
        rfl

theorem exponent_formulas (t : Bytes) (beyond : Option Byte) (r : Calc) :
    exponent o (r.result o) t beyond = Res.map (Calc.result o) (exponent formulas r t beyond) := by
  unfold exponent
  rw [Res.map_bind]
  refine congrArg _ (funext fun b => ?_)
  split
  · split
    · rfl
    · split
      · exact exponentDigits_formulas o _ _ _
      · exact exponentDigits_formulas o _ _ _
  · split <;> rfl

theorem toDouble_formulas (s : Bytes) (beyond : Option Byte) :
    toDouble o s beyond = Res.map (Calc.result o) (toDouble formulas s beyond) := by
  cases s with
  | nil => rfl
  | cons c cs =>
    unfold toDouble
    by_cases h : c = 45 ∧ cs = []
    · simp only [h, and_self, if_true]
      rfl
    · simp only [h, if_false]
      rw [Res.map_bind, mantissa_formulas, Res.bind_map]
      refine congrArg _ (funext fun p => ?_)
      obtain ⟨r, t | t⟩ := p
      · rfl
      · simp only
        rw [Res.map_bind, exponent_formulas, Res.bind_map]
        refine congrArg _ (funext fun x => ?_)
        split <;> rfl

end DuckLisp.DlString
