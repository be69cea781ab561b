import Verif.Spec.Asm

/-!
# Lemmas on the encoding of instructions
-/

namespace DuckLisp.Asm

open DuckLisp DuckLisp.VM DuckLisp.Spec

/-! ### Bytes -/

theorem byteAt_toNat (x : Int) (k : Nat) : ((byteAt x k).toNat : Int) = (x / 256 ^ k) % 256 := by
  have h1 : 0 ≤ (x / 256 ^ k) % 256 := Int.emod_nonneg _ (by decide)
  have h2 : (x / 256 ^ k) % 256 < 256 := Int.emod_lt_of_pos _ (by decide)
  unfold byteAt
  rw [UInt8.toNat_ofNat']
  omega

theorem emod_pow_succ (x : Int) (n : Nat) :
    x % 256 ^ (n + 1) = (x / 256 ^ n) % 256 * 256 ^ n + x % 256 ^ n := by
  have hm : (0 : Int) < 256 ^ n := Int.pow_pos (by decide)
  have h1 := Int.emod_add_mul_ediv x (256 ^ n)
  have h2 := Int.emod_add_mul_ediv (x / 256 ^ n) 256
  have h3 : 0 ≤ x % 256 ^ n := Int.emod_nonneg _ (by omega)
  have h4 : x % 256 ^ n < 256 ^ n := Int.emod_lt_of_pos _ hm
  have h5 : 0 ≤ (x / 256 ^ n) % 256 := Int.emod_nonneg _ (by decide)
  have h6 : (x / 256 ^ n) % 256 < 256 := Int.emod_lt_of_pos _ (by decide)
  generalize hd : (x / 256 ^ n) % 256 = d at *
  generalize hr : x % 256 ^ n = r at *
  generalize hq : x / 256 ^ n / 256 = q at *
  generalize hg : x / 256 ^ n = g at *
  have hb : 0 ≤ d * 256 ^ n := Int.mul_nonneg h5 (by omega)
  have hb2 : d * 256 ^ n ≤ 255 * 256 ^ n := Int.mul_le_mul_of_nonneg_right (by omega) (by omega)
  have hx : x = (d * 256 ^ n + r) + 256 ^ (n + 1) * q := by
    rw [← h1, ← h2, Int.pow_succ]
    grind
  have h256 : (256 : Int) ^ (n + 1) = 256 * 256 ^ n := by rw [Int.pow_succ, Int.mul_comm]
  rw [hx, Int.add_mul_emod_self_left, Int.emod_eq_of_lt (by omega) (by rw [h256]; omega)]

theorem be_bytesOf (x : Int) (n acc : Nat) (rest : Bytes) :
    Dec.be acc n (bytesOf x n ++ rest) = some (acc * 256 ^ n + (x % 256 ^ n).toNat, rest) := by
  induction n generalizing acc with
  | zero => simp [bytesOf, Dec.be]
  | succ n ih =>
    simp only [bytesOf, List.cons_append, Dec.be]
    rw [ih]
    have hb := byteAt_toNat x n
    have hm := emod_pow_succ x n
    have hpos : (0 : Int) < 256 ^ n := Int.pow_pos (by decide)
    have h3 : 0 ≤ x % 256 ^ n := Int.emod_nonneg _ (by omega)
    rw [← hb] at hm
    have : (x % 256 ^ (n + 1)).toNat = (byteAt x n).toNat * 256 ^ n + (x % 256 ^ n).toNat := by
      rw [hm]
      have e : ((byteAt x n).toNat : Int) * 256 ^ n = (((byteAt x n).toNat * 256 ^ n : Nat) : Int) := by
        rw [Int.natCast_mul, Int.natCast_pow]; rfl
      rw [e]
      omega
    rw [this]
    congr 2
    rw [Nat.pow_succ]
    grind

theorem bytesOf_length (x : Int) (n : Nat) : (bytesOf x n).length = n := by
  induction n with
  | zero => rfl
  | succ n ih => simp [bytesOf, ih]

theorem operand_bytesOf (x : Int) (w : Width) (rest : Bytes) :
    Dec.operand w (bytesOf x w.bytes ++ rest) = some ((x % 256 ^ w.bytes).toNat, rest) := by
  unfold Dec.operand
  rw [be_bytesOf]
  simp

/-- The operand fits the size. -/
def FitsWidth (w : Width) (x : Int) : Prop := 0 ≤ x ∧ x < 256 ^ w.bytes

theorem operand_fits {x : Int} {w : Width} (h : FitsWidth w x) (rest : Bytes) :
    Dec.operand w (bytesOf x w.bytes ++ rest) = some (x.toNat, rest) := by
  rw [operand_bytesOf, Int.emod_eq_of_lt h.1 h.2]

theorem byte_octet {x : Int} (h : Octet x) (rest : Bytes) :
    Dec.byte (bytesOf x 1 ++ rest) = some (x.toNat, rest) := by
  obtain ⟨h1, h2⟩ := h
  simp only [bytesOf, List.cons_append, List.nil_append, Dec.byte]
  have := byteAt_toNat x 0
  simp only [Int.pow_zero, Int.ediv_one] at this
  rw [Int.emod_eq_of_lt h1 (by omega)] at this
  congr 2
  omega

theorem operands_fits {w : Width} (as : List Int) (h : ∀ a ∈ as, FitsWidth w a) (rest : Bytes) :
    Dec.operands w as.length ((as.flatMap fun x => bytesOf x w.bytes) ++ rest) =
      some (as.map Int.toNat, rest) := by
  induction as with
  | nil => rfl
  | cons a as ih =>
    simp only [List.flatMap_cons, List.length_cons, Dec.operands, List.append_assoc]
    rw [operand_fits (h a (by simp))]
    simp only
    rw [ih (fun b hb => h b (by simp [hb]))]
    rfl

/-! ### Sizes -/

theorem below8_iff {x : Int} (h : Word x) : below8 x = true ↔ Octet x := by
  obtain ⟨h1, h2⟩ := h
  simp only [below8, Octet, decide_eq_true_eq]
  omega

theorem below16_iff {x : Int} (h : Word x) : below16 x = true ↔ Short x := by
  obtain ⟨h1, h2⟩ := h
  simp only [below16, Short, decide_eq_true_eq]
  omega

theorem fits8 {x : Int} : FitsWidth .w8 x ↔ Octet x := Iff.rfl
theorem fits16 {x : Int} : FitsWidth .w16 x ↔ Short x := Iff.rfl
theorem fits32 {x : Int} : FitsWidth .w32 x ↔ Word x := Iff.rfl

/-- An operand that is small whenever all those looked at are small fits the size chosen. -/
theorem widthOf_fits {xs : List Int} (hx : ∀ a ∈ xs, Word a) {y : Int} (hy : Word y)
    (h8 : (∀ a ∈ xs, Octet a) → Octet y) (h16 : (∀ a ∈ xs, Short a) → Short y) :
    FitsWidth (widthOf xs) y := by
  unfold widthOf
  split
  · rename_i h
    rw [List.all_eq_true] at h
    exact fits8.2 (h8 fun a ha => (below8_iff (hx a ha)).1 (h a ha))
  · split
    · rename_i h
      rw [List.all_eq_true] at h
      exact fits16.2 (h16 fun a ha => (below16_iff (hx a ha)).1 (h a ha))
    · exact fits32.2 hy

theorem widthOf_mem {xs : List Int} (hx : ∀ a ∈ xs, Word a) {y : Int} (hy : y ∈ xs) :
    FitsWidth (widthOf xs) y :=
  widthOf_fits hx (hx y hy) (fun h => h y hy) (fun h => h y hy)

/-! ### Reading -/

theorem dec_bind {α β : Type} {m : Dec α} {f : α → Dec β} {bs rest : Bytes} {a : α}
    (h : m bs = some (a, rest)) : (m >>= f) bs = f a rest := by
  show Dec.bind m f bs = _
  unfold Dec.bind
  rw [h]

theorem dec_pure {α : Type} (a : α) (bs : Bytes) : (pure a : Dec α) bs = some (a, bs) := rfl

theorem opcodes_nth : ∀ p ∈ opcodes, opcodes[(code p.1 p.2).toNat]? = some p := by decide +kernel

theorem decode_code {o : Opc} {w : Width} (h : (o, w) ∈ opcodes) (bs : Bytes) :
    decode (code o w :: bs) = decodeArgs o w bs := by
  unfold decode
  simp only
  rw [opcodes_nth (o, w) h]

/-- The operation comes in all three sizes. -/
def AllSizes (o : Opc) : Prop := ∀ w, (o, w) ∈ opcodes

instance (o : Opc) : Decidable (AllSizes o) :=
  decidable_of_iff ((o, .w8) ∈ opcodes ∧ (o, .w16) ∈ opcodes ∧ (o, .w32) ∈ opcodes)
    ⟨fun h w => by cases w; exact h.1; exact h.2.1; exact h.2.2, fun h => ⟨h _, h _, h _⟩⟩

theorem decode_one {o : Opc} {f : Nat → Instr} (ho : AllSizes o) {a : Int} (ha : Word a)
    (hd : ∀ w, decodeArgs o w = (do return f (← Dec.operand w))) (rest : Bytes) :
    decode ((uniform o (widthOf [a]) [a]).1 :: (uniform o (widthOf [a]) [a]).2 ++ rest) =
      some (f a.toNat, rest) := by
  simp only [uniform, List.cons_append]
  rw [decode_code (ho _), hd]
  simp only [List.flatMap_cons, List.flatMap_nil, List.append_nil]
  rw [dec_bind (operand_fits (widthOf_mem (by simpa using ha) (by simp)) rest)]
  rfl

theorem decode_two' {o : Opc} {f : Nat → Nat → Instr} {w : Width} (ho : (o, w) ∈ opcodes) {a b : Int}
    (ha : FitsWidth w a) (hb : FitsWidth w b)
    (hd : decodeArgs o w = (do let x ← Dec.operand w; return f x (← Dec.operand w)))
    (rest : Bytes) :
    decode ((uniform o w [a, b]).1 :: (uniform o w [a, b]).2 ++ rest) =
      some (f a.toNat b.toNat, rest) := by
  simp only [uniform, List.cons_append]
  rw [decode_code ho, hd]
  simp only [List.flatMap_cons, List.flatMap_nil, List.append_nil, List.append_assoc]
  rw [dec_bind (operand_fits ha _), dec_bind (operand_fits hb rest)]
  rfl

theorem decode_two {o : Opc} {f : Nat → Nat → Instr} (ho : AllSizes o) {a b : Int} (ha : Word a)
    (hb : Word b) (hd : ∀ w, decodeArgs o w = (do let x ← Dec.operand w; return f x (← Dec.operand w)))
    (rest : Bytes) :
    decode ((uniform o (widthOf [a, b]) [a, b]).1 :: (uniform o (widthOf [a, b]) [a, b]).2 ++ rest) =
      some (f a.toNat b.toNat, rest) := by
  have hw : ∀ x ∈ [a, b], Word x := by simp [ha, hb]
  exact decode_two' (ho _) (widthOf_mem hw (by simp)) (widthOf_mem hw (by simp)) (hd _) rest

theorem decode_three {o : Opc} {f : Nat → Nat → Nat → Instr} {w : Width} (ho : AllSizes o)
    {a b c : Int} (ha : FitsWidth w a) (hb : FitsWidth w b) (hc : FitsWidth w c)
    (hd : ∀ w, decodeArgs o w =
      (do let x ← Dec.operand w; let y ← Dec.operand w; return f x y (← Dec.operand w)))
    (rest : Bytes) :
    decode ((uniform o w [a, b, c]).1 :: (uniform o w [a, b, c]).2 ++ rest) =
      some (f a.toNat b.toNat c.toNat, rest) := by
  simp only [uniform, List.cons_append]
  rw [decode_code (ho _), hd]
  simp only [List.flatMap_cons, List.flatMap_nil, List.append_nil, List.append_assoc]
  rw [dec_bind (operand_fits ha _), dec_bind (operand_fits hb _), dec_bind (operand_fits hc rest)]
  rfl

theorem take_append (s rest : Bytes) : Dec.take s.length (s ++ rest) = some (s, rest) := by
  unfold Dec.take
  simp

end DuckLisp.Asm
