import Verif.Proof.Asm.Encode
import Verif.Proof.VM.Operand

/-!
# C21 and C22: operands and integer literals

`encode` gives the opcode and the operand bytes the assembler emits for an instruction; `decode` is
how the machine reads them.  Instructions that name a label are the subject of C24.
-/

namespace DuckLisp.Props

open DuckLisp DuckLisp.VM DuckLisp.Asm DuckLisp.Spec

theorem all2 {p : Int → Prop} {a b : Int} : (∀ x ∈ [a, b], p x) ↔ p a ∧ p b := by simp

theorem all1 {p : Int → Prop} {a : Int} : (∀ x ∈ [a], p x) ↔ p a := by simp

theorem decode_octet_count {o : Opc} {f : Nat → Nat → Instr} (ho : AllSizes o) {a n : Int}
    (ha : Word a) (hn : Octet n)
    (hd : ∀ w, decodeArgs o w = (do let x ← Dec.operand w; return f x (← Dec.byte))) (rest : Bytes) :
    decode (code o (widthOf [a]) :: (bytesOf a (widthOf [a]).bytes ++ bytesOf n 1) ++ rest) =
      some (f a.toNat n.toNat, rest) := by
  rw [List.cons_append, decode_code (ho _), hd, List.append_assoc,
    dec_bind (operand_fits (widthOf_mem (by simpa using ha) (by simp)) _), dec_bind (byte_octet hn rest)]
  rfl

theorem decode_float (bits : UInt64) (rest : Bytes) :
    decode (code .pushDoubleFloat .w8 :: bytesOf bits.toNat 8 ++ rest) =
      some (.pushFloat bits, rest) := by
  rw [List.cons_append, decode_code (by decide)]
  simp only [decodeArgs]
  rw [dec_bind (be_bytesOf _ _ _ _)]
  simp only [dec_pure]
  have h := bits.toNat_lt
  rw [Int.emod_eq_of_lt (by omega) (by omega)]
  simp

theorem symbol_fits {id len x : Int} (hi : Word id) (hl : Word len)
    (hx : 0 ≤ x) (h : x ≤ max id len) : FitsWidth (widthSymbol id len) x := by
  obtain ⟨h1, h2⟩ := hi
  obtain ⟨h3, h4⟩ := hl
  unfold widthSymbol
  split
  · refine fits8.2 ⟨hx, ?_⟩; omega
  · split
    · refine fits16.2 ⟨hx, ?_⟩; omega
    · refine fits32.2 ⟨hx, ?_⟩; omega

theorem decode_stripped {id len : Int} (hi : Word id) (hl : Word len) (rest : Bytes) :
    decode ((uniform .pushStrippedSymbol (widthSymbol id len) [id]).1 ::
      (uniform .pushStrippedSymbol (widthSymbol id len) [id]).2 ++ rest) =
      some (.pushStrippedSymbol id.toNat, rest) := by
  simp only [uniform, List.cons_append]
  rw [decode_code ((by decide : AllSizes .pushStrippedSymbol) _)]
  simp only [decodeArgs, List.flatMap_cons, List.flatMap_nil, List.append_nil]
  rw [dec_bind (operand_fits (symbol_fits hi hl hi.1 (by omega)) rest)]
  rfl

theorem signed_bytes {v : Int} {w : Width} (h1 : -2 ^ (8 * w.bytes - 1) ≤ v)
    (h2 : v < 2 ^ (8 * w.bytes - 1)) : signed w (v % 256 ^ w.bytes).toNat = v := by
  unfold signed
  cases w <;> simp only [Width.bytes] at h1 h2 ⊢ <;> simp at h1 h2 ⊢ <;> split <;> omega

theorem decode_integer {v : Int} {w : Width} (h1 : -2 ^ (8 * w.bytes - 1) ≤ v)
    (h2 : v < 2 ^ (8 * w.bytes - 1)) (rest : Bytes) :
    decode ((uniform .pushInteger w [v]).1 :: (uniform .pushInteger w [v]).2 ++ rest) =
      some (.pushInteger v, rest) := by
  simp only [uniform, List.cons_append]
  rw [decode_code ((by decide : AllSizes .pushInteger) _)]
  simp only [decodeArgs, List.flatMap_cons, List.flatMap_nil, List.append_nil]
  rw [dec_bind (operand_bytesOf v w rest), signed_bytes h1 h2]
  rfl

theorem decode_literal {v : Int} (h : -2 ^ 31 ≤ v ∧ v < 2 ^ 31) (rest : Bytes) :
    decode ((uniform .pushInteger (widthInteger v) [v]).1 ::
      (uniform .pushInteger (widthInteger v) [v]).2 ++ rest) = some (.pushInteger v, rest) := by
  unfold widthInteger
  split
  · exact decode_integer (by simp [Width.bytes]; omega) (by simp [Width.bytes]; omega) rest
  · split
    · exact decode_integer (by simp [Width.bytes]; omega) (by simp [Width.bytes]; omega) rest
    · exact decode_integer (by simp [Width.bytes]; omega) (by simp [Width.bytes]; omega) rest

/-- The bytes the assembler emits for an instruction without a label. -/
def Emitted (strip : Bool) (prev : Option UInt8) (i : Ins) (bytes : Bytes) : Prop :=
  ∃ op args, encode strip prev i = some (op, args) ∧ bytes = op :: args

theorem emitted_of {strip : Bool} {prev : Option UInt8} {i : Ins} {op : UInt8} {args rest : Bytes}
    {m : Instr} (h : encode strip prev i = some (op, args))
    (hd : decode (op :: args ++ rest) = some (m, rest)) :
    ∃ bytes, Emitted strip prev i bytes ∧ decode (bytes ++ rest) = some (m, rest) :=
  ⟨_, ⟨_, _, h, rfl⟩, hd⟩

set_option maxRecDepth 2000 in
/-- C21: whatever comes after it, an instruction the assembler emits is read by the machine as the
instruction that was meant, with the same operands, and reading stops right behind it.  Partial: six
instructions with operands of more than 8 bits are excluded; the next theorem shows that they must
be. -/
theorem C21_operands_partial (strip : Bool) (prev : Option UInt8) (i : Ins) (m : Instr) (rest : Bytes)
    (hm : meaning strip i = some m) (hf : InFormat i) (hs : SmallWhereNeeded i) :
    ∃ bytes, Emitted strip prev i bytes ∧ decode (bytes ++ rest) = some (m, rest) := by
  cases i <;> simp only [meaning, Option.some.injEq, reduceCtorEq] at hm <;> try subst hm
  case nop => exact emitted_of rfl rfl
  case pushIndex a => exact emitted_of rfl (decode_one (by decide) hf (fun w => rfl) rest)
  case pushBoolean v =>
    refine emitted_of rfl ?_
    by_cases hv : v = 0
    · rw [if_pos hv, decide_eq_false (by simpa using hv)]
      exact decode_code (by decide) rest
    · rw [if_neg hv, decide_eq_true (by simpa using hv)]
      exact decode_code (by decide) rest
  case pushInteger v => exact emitted_of rfl (decode_literal hf rest)
  case pushFloat bits => exact emitted_of rfl (decode_float bits rest)
  case pushString len s =>
    obtain ⟨rfl, hl⟩ := hf
    refine emitted_of rfl ?_
    rw [List.cons_append, decode_code ((by decide : AllSizes .pushString) _), List.append_assoc]
    simp only [decodeArgs]
    rw [dec_bind (operand_fits (widthOf_mem (by simpa using hl) (by simp)) _)]
    rw [Int.toNat_natCast, dec_bind (take_append s rest)]
    rfl
  case pushSymbol id len name =>
    obtain ⟨hi, rfl, hl⟩ := hf
    cases strip with
    | true => exact emitted_of rfl (decode_stripped hi hl rest)
    | false =>
      refine emitted_of rfl ?_
      rw [List.cons_append, decode_code ((by decide : AllSizes .pushSymbol) _), List.append_assoc,
        List.append_assoc]
      simp only [decodeArgs]
      rw [dec_bind (operand_fits (symbol_fits hi hl hi.1 (by omega)) _),
        dec_bind (operand_fits (symbol_fits hi hl hl.1 (by omega)) _), Int.toNat_natCast,
        dec_bind (take_append name rest)]
      rfl
  case pushStrippedSymbol id len name =>
    obtain ⟨hi, rfl, hl⟩ := hf
    exact emitted_of rfl (decode_stripped hi hl rest)
  case pushUpvalue u =>
    refine emitted_of rfl ?_
    simp only [List.cons_append]
    rw [decode_code ((by decide : AllSizes .pushUpvalue) _)]
    simp only [decodeArgs, List.flatMap_cons, List.flatMap_nil, List.append_nil]
    rw [dec_bind (operand_fits _ rest)]
    · rfl
    · obtain ⟨h1, h2⟩ := hf
      unfold widthSigned
      split
      · exact ⟨h1, by simp only [Width.bytes]; omega⟩
      · split
        · exact ⟨h1, by simp only [Width.bytes]; omega⟩
        · exact ⟨h1, by simp only [Width.bytes]; omega⟩
  case pushGlobal k => exact emitted_of rfl (decode_one (by decide) hf (fun w => rfl) rest)
  case setUpvalue u a =>
    obtain ⟨hu, ha⟩ := hs
    have hw : widthSigned u = .w8 := by unfold widthSigned; exact if_pos hu.2
    refine emitted_of rfl ?_
    rw [hw, List.cons_append, decode_code (by decide), List.append_assoc]
    simp only [decodeArgs]
    rw [dec_bind (byte_octet hu _), dec_bind (operand_fits (w := .w8) ha rest)]
    rfl
  case setGlobal a k => exact emitted_of rfl (decode_two (by decide) hf.1 hf.2 (fun w => rfl) rest)
  case move a b => exact emitted_of rfl (decode_two (by decide) hf.1 hf.2 (fun w => rfl) rest)
  case pop n => exact emitted_of rfl (decode_one (by decide) hf (fun w => rfl) rest)
  case not a => exact emitted_of rfl (decode_one (by decide) hf (fun w => rfl) rest)
  case arith op a b =>
    cases op
    · exact emitted_of rfl (decode_two (by decide) hf.1 hf.2 (fun w => rfl) rest)
    · exact emitted_of rfl (decode_two (by decide) hf.1 hf.2 (fun w => rfl) rest)
    · exact emitted_of rfl (decode_two (by decide) hf.1 hf.2 (fun w => rfl) rest)
    · exact emitted_of rfl (decode_two (by decide) hf.1 hf.2 (fun w => rfl) rest)
  case equal a b =>
    have hw : ∀ x ∈ [a, b], Word x := all2.2 hf
    refine emitted_of rfl (decode_two' ((by decide : AllSizes .equal) _) (widthOf_mem hw (by simp))
      (widthOf_mem hw (by simp)) ?_ rest)
    have hne : widthOf [a, b] ≠ .w16 := by
      unfold widthOf
      rcases hs with ⟨h1, h2⟩ | h
      · rw [if_pos (by simp [(below8_iff hf.1).2 h1, (below8_iff hf.2).2 h2])]; decide
      · split
        · decide
        · rw [if_neg]
          · decide
          · simp only [List.all_cons, List.all_nil, Bool.and_true, Bool.and_eq_true]
            rw [below16_iff hf.1, below16_iff hf.2]
            exact h
    revert hne
    cases widthOf [a, b] <;> intro hne
    · rfl
    · exact absurd rfl hne
    · rfl
  case greater a b => exact emitted_of rfl (decode_two (by decide) hf.1 hf.2 (fun w => rfl) rest)
  case less a b => exact emitted_of rfl (decode_two (by decide) hf.1 hf.2 (fun w => rfl) rest)
  case cons a b => exact emitted_of rfl (decode_two (by decide) hf.1 hf.2 (fun w => rfl) rest)
  case vector n as =>
    obtain ⟨rfl, hn, ha⟩ := hf
    refine emitted_of rfl ?_
    have hw : ∀ x ∈ [(as.length : Int)], Word x := all1.2 hn
    simp only [List.cons_append]
    rw [decode_code ((by decide : AllSizes .vector) _)]
    simp only [decodeArgs, List.flatMap_cons, List.append_assoc]
    rw [dec_bind (operand_fits (widthOf_mem hw (by simp)) _), Int.toNat_natCast,
      dec_bind (operands_fits as (fun a h => widthOf_fits hw (ha a h)
        (fun h8 => hs.1 (all1.1 h8) a h) (fun h16 => hs.2 (all1.1 h16) a h)) rest)]
    rfl
  case makeVector a b => exact emitted_of rfl (decode_two (by decide) hf.1 hf.2 (fun w => rfl) rest)
  case getVecElt a b => exact emitted_of rfl (decode_two (by decide) hf.1 hf.2 (fun w => rfl) rest)
  case setVecElt a b c =>
    obtain ⟨ha, hb, hc⟩ := hf
    have hw : ∀ x ∈ [a, b], Word x := all2.2 ⟨ha, hb⟩
    exact emitted_of rfl (decode_three (by decide) (widthOf_mem hw (by simp))
      (widthOf_mem hw (by simp)) (widthOf_fits hw hc (fun h => hs.1 (all2.1 h))
        (fun h => hs.2 (all2.1 h))) (fun w => rfl) rest)
  case car a => exact emitted_of rfl (decode_one (by decide) hf (fun w => rfl) rest)
  case cdr a => exact emitted_of rfl (decode_one (by decide) hf (fun w => rfl) rest)
  case setCar a b => exact emitted_of rfl (decode_two (by decide) hf.1 hf.2 (fun w => rfl) rest)
  case setCdr a b => exact emitted_of rfl (decode_two (by decide) hf.1 hf.2 (fun w => rfl) rest)
  case nullp a => exact emitted_of rfl (decode_one (by decide) hf (fun w => rfl) rest)
  case typeof a => exact emitted_of rfl (decode_one (by decide) hf (fun w => rfl) rest)
  case makeType => exact emitted_of rfl rfl
  case makeInstance a b c =>
    obtain ⟨ha, hb, hc⟩ := hf
    have hw : ∀ x ∈ [a, b, c], Word x := by simp [ha, hb, hc]
    exact emitted_of rfl (decode_three (by decide) (widthOf_mem hw (by simp))
      (widthOf_mem hw (by simp)) (widthOf_mem hw (by simp)) (fun w => rfl) rest)
  case compositeValue a => exact emitted_of rfl (decode_one (by decide) hf (fun w => rfl) rest)
  case compositeFunction a => exact emitted_of rfl (decode_one (by decide) hf (fun w => rfl) rest)
  case setCompositeValue a b =>
    exact emitted_of rfl (decode_two (by decide) hf.1 hf.2 (fun w => rfl) rest)
  case setCompositeFunction a b =>
    exact emitted_of rfl (decode_two (by decide) hf.1 hf.2 (fun w => rfl) rest)
  case length a => exact emitted_of rfl (decode_one (by decide) hf (fun w => rfl) rest)
  case symbolString a => exact emitted_of rfl (decode_one (by decide) hf (fun w => rfl) rest)
  case symbolId a => exact emitted_of rfl (decode_one (by decide) hf (fun w => rfl) rest)
  case makeString a => exact emitted_of rfl (decode_one (by decide) hf (fun w => rfl) rest)
  case concatenate a b => exact emitted_of rfl (decode_two (by decide) hf.1 hf.2 (fun w => rfl) rest)
  case substring a b c =>
    obtain ⟨ha, hb, hc⟩ := hf
    have hw : ∀ x ∈ [a, b], Word x := all2.2 ⟨ha, hb⟩
    exact emitted_of rfl (decode_three (by decide) (widthOf_mem hw (by simp))
      (widthOf_mem hw (by simp)) (widthOf_fits hw hc (fun h => hs.1 (all2.1 h))
        (fun h => hs.2 (all2.1 h))) (fun w => rfl) rest)
  case nil => exact emitted_of rfl rfl
  case releaseUpvalues as =>
    obtain ⟨hne, hl, -⟩ := hf
    have hlast : ∃ a, as.getLast? = some a ∧ a ∈ as := by
      refine ⟨as.getLast hne, List.getLast?_eq_some_getLast hne, List.getLast_mem hne⟩
    obtain ⟨a, h1, h2⟩ := hlast
    have hw : widthLast as = some .w8 := by
      unfold widthLast
      rw [h1]
      obtain ⟨h3, h4⟩ := hs a h2
      simp only [Option.map_some]
      rw [if_pos (by omega)]
    refine emitted_of (by simp only [encode, hw]; rfl) ?_
    simp only [List.cons_append]
    rw [decode_code (by decide)]
    simp only [decodeArgs, List.flatMap_cons, List.append_assoc]
    rw [dec_bind (m := Dec.byte) (bs := bytesOf (as.length : Int) Width.w8.bytes ++ _)
        (byte_octet hl _), Int.toNat_natCast,
      dec_bind (operands_fits (w := .w8) as (fun a h => hs a h) rest)]
    rfl
  case ccall k => exact emitted_of rfl (decode_one (by decide) hf (fun w => rfl) rest)
  case funcall a n => exact emitted_of rfl (decode_octet_count (by decide) hf.1 hf.2 (fun w => rfl) rest)
  case apply a n => exact emitted_of rfl (decode_octet_count (by decide) hf.1 hf.2 (fun w => rfl) rest)
  case return_ n =>
    by_cases hn : n = 0
    · rw [if_pos hn]
      exact emitted_of (by simp only [encode, if_pos hn]; rfl) rfl
    · rw [if_neg hn]
      exact emitted_of (by simp only [encode, if_neg hn]; rfl)
        (decode_one (by decide) hf (fun w => rfl) rest)
  case halt => exact emitted_of rfl rfl

/-! ### The excluded operands -/

theorem mod_ne {w : Width} {x : Int} (hx : 0 ≤ x) (h : ¬ FitsWidth w x) :
    (x % 256 ^ w.bytes).toNat ≠ x.toNat := by
  intro he
  have h1 := Int.emod_nonneg x (b := 256 ^ w.bytes) (by cases w <;> decide)
  have h2 := Int.emod_lt_of_pos x (b := 256 ^ w.bytes) (by cases w <;> decide)
  exact h ⟨hx, by omega⟩

theorem operands_bytesOf {w : Width} (as : List Int) (rest : Bytes) :
    Dec.operands w as.length ((as.flatMap fun x => bytesOf x w.bytes) ++ rest) =
      some (as.map (fun a => (a % 256 ^ w.bytes).toNat), rest) := by
  induction as with
  | nil => rfl
  | cons a as ih =>
    simp only [List.flatMap_cons, List.length_cons, Dec.operands, List.append_assoc]
    rw [operand_bytesOf]
    simp only
    rw [ih]
    rfl

theorem map_ne {w : Width} {as : List Int} (hw : ∀ a ∈ as, Word a) {a : Int} (ha : a ∈ as)
    (h : ¬ FitsWidth w a) : as.map (fun a => (a % 256 ^ w.bytes).toNat) ≠ as.map Int.toNat := by
  intro he
  rw [List.map_inj_left] at he
  exact mod_ne (hw a ha).1 h (he a ha)

theorem widthOf_misfit {xs : List Int} (hx : ∀ a ∈ xs, Word a) {y : Int}
    (h : ¬ (((∀ a ∈ xs, Octet a) → Octet y) ∧ ((∀ a ∈ xs, Short a) → Short y))) :
    ¬ FitsWidth (widthOf xs) y := by
  intro hf
  refine h ⟨fun h8 => ?_, fun h16 => ?_⟩
  · have : widthOf xs = .w8 := by
      unfold widthOf
      exact if_pos (List.all_eq_true.2 fun a ha => (below8_iff (hx a ha)).2 (h8 a ha))
    rw [this] at hf
    exact hf
  · have : widthOf xs = .w8 ∨ widthOf xs = .w16 := by
      unfold widthOf
      split
      · exact .inl rfl
      · rw [if_pos (List.all_eq_true.2 fun a ha => (below16_iff (hx a ha)).2 (h16 a ha))]
        exact .inr rfl
    rcases this with h1 | h1 <;> rw [h1] at hf
    · exact ⟨hf.1, Int.lt_trans hf.2 (by decide)⟩
    · exact hf

theorem three_wrong {o : Opc} {f : Nat → Nat → Nat → Instr} {a b c : Int} (ho : AllSizes o)
    (hf : ∀ x y z x' y' z', f x y z = f x' y' z' → z = z')
    (hd : ∀ w, decodeArgs o w =
      (do let x ← Dec.operand w; let y ← Dec.operand w; return f x y (← Dec.operand w)))
    (ha : Word a) (hb : Word b) (hc : Word c)
    (h : ¬ ((Octet a ∧ Octet b → Octet c) ∧ (Short a ∧ Short b → Short c))) (rest : Bytes) :
    decode ((uniform o (widthOf [a, b]) [a, b, c]).1 ::
      (uniform o (widthOf [a, b]) [a, b, c]).2 ++ rest) ≠ some (f a.toNat b.toNat c.toNat, rest) := by
  simp only [uniform, List.cons_append]
  rw [decode_code (ho _), hd]
  simp only [List.flatMap_cons, List.flatMap_nil, List.append_nil, List.append_assoc]
  rw [dec_bind (operand_bytesOf a _ _), dec_bind (operand_bytesOf b _ _),
    dec_bind (operand_bytesOf c _ _)]
  intro he
  simp only [dec_pure, Option.some.injEq, Prod.mk.injEq, and_true] at he
  refine mod_ne hc.1 (widthOf_misfit (xs := [a, b]) (all2.2 ⟨ha, hb⟩) ?_) (hf _ _ _ _ _ _ he)
  rwa [all2, all2]

/-- C21 is false of the code for the operands excluded above, all of them: such an instruction is
read as another one, or reading it does not stop behind it. -/
theorem C21_defects (strip : Bool) (prev : Option UInt8) (i : Ins) (m : Instr) (bytes rest : Bytes)
    (hm : meaning strip i = some m) (hf : InFormat i) (hs : ¬ SmallWhereNeeded i)
    (hb : Emitted strip prev i bytes) : decode (bytes ++ rest) ≠ some (m, rest) := by
  obtain ⟨op, args, he, rfl⟩ := hb
  cases i <;> try exact absurd trivial hs
  case setUpvalue u a =>
    simp only [meaning, Option.some.injEq] at hm
    simp only [encode, Option.some.injEq, Prod.mk.injEq] at he
    obtain ⟨rfl, rfl⟩ := he
    subst hm
    obtain ⟨hu, ha⟩ := hf
    rw [List.cons_append, decode_code ((by decide : AllSizes .setUpvalue) _), List.append_assoc]
    simp only [decodeArgs]
    have hbyte : Dec.byte (bytesOf u 1 ++ (bytesOf a (widthSigned u).bytes ++ rest)) =
        some ((u % 256).toNat, bytesOf a (widthSigned u).bytes ++ rest) := by
      simp only [bytesOf, List.cons_append, List.nil_append, Dec.byte, Option.some.injEq,
        Prod.mk.injEq, and_true]
      have := byteAt_toNat u 0
      simp only [Int.pow_zero, Int.ediv_one, Int.pow_zero] at this
      omega
    rw [dec_bind hbyte, dec_bind (operand_bytesOf a _ _)]
    intro heq
    simp only [dec_pure, Option.some.injEq, Prod.mk.injEq, and_true, Instr.setUpvalue.injEq] at heq
    obtain ⟨h1, h2⟩ := heq
    obtain ⟨hu1, hu2⟩ := hu
    have hu8 : u < 256 := by omega
    have hw : widthSigned u = .w8 := by unfold widthSigned; exact if_pos hu8
    rw [hw] at h2
    refine hs ⟨⟨hu1, hu8⟩, ?_⟩
    refine Decidable.byContradiction fun hn => ?_
    exact mod_ne (w := .w8) ha.1 hn h2
  case equal a b =>
    simp only [meaning, Option.some.injEq] at hm
    simp only [encode, encode.two, Option.some.injEq] at he
    subst hm
    obtain ⟨ha, hb⟩ := hf
    have hw : widthOf [a, b] = .w16 := by
      unfold widthOf
      have h1 : ¬ (Octet a ∧ Octet b) := fun h => hs (.inl h)
      have h2 : Short a ∧ Short b := Decidable.byContradiction fun h => hs (.inr h)
      rw [if_neg, if_pos]
      · simp [(below16_iff ha).2 h2.1, (below16_iff hb).2 h2.2]
      · simp only [List.all_cons, List.all_nil, Bool.and_true, Bool.and_eq_true]
        rwa [below8_iff ha, below8_iff hb]
    simp only [uniform, hw, Prod.mk.injEq] at he
    obtain ⟨rfl, rfl⟩ := he
    rw [List.cons_append, decode_code (by decide)]
    simp only [decodeArgs, List.flatMap_cons, List.flatMap_nil, List.append_nil, List.append_assoc]
    rw [dec_bind (operand_bytesOf a _ _), dec_bind (operand_bytesOf b _ _)]
    intro heq
    cases rest with
    | nil => cases heq
    | cons x rest =>
      cases rest with
      | nil => cases heq
      | cons y rest =>
        have h2 := congrArg (Option.map Prod.snd) heq
        simp only [Option.map_some] at h2
        have h3 : Option.map Prod.snd ((Dec.operand .w8 >>= fun a => Dec.operand .w8 >>= fun b =>
            pure (Instr.equal a b)) (x :: y :: rest)) = some rest := rfl
        rw [show (Option.map Prod.snd ((Dec.operand .w8 >>= fun a => Dec.operand .w8 >>= fun b =>
            pure (Instr.equal a b)) (x :: y :: rest)) : Option Bytes) = some (x :: y :: rest)
            from h2] at h3
        have := congrArg (fun o => (o.getD []).length) h3
        simp at this
        omega
  case vector n as =>
    simp only [meaning, Option.some.injEq] at hm
    simp only [encode, Option.some.injEq, uniform, Prod.mk.injEq] at he
    obtain ⟨rfl, rfl⟩ := he
    subst hm
    obtain ⟨rfl, hn, ha⟩ := hf
    have hw : ∀ x ∈ [(as.length : Int)], Word x := all1.2 hn
    rw [List.cons_append, decode_code ((by decide : AllSizes .vector) _)]
    simp only [decodeArgs, List.flatMap_cons, List.append_assoc]
    rw [dec_bind (operand_fits (widthOf_mem hw (by simp)) _), Int.toNat_natCast,
      dec_bind (operands_bytesOf as rest)]
    intro heq
    simp only [dec_pure, Option.some.injEq, Prod.mk.injEq, and_true, Instr.vector.injEq] at heq
    refine hs ⟨fun h8 a h => ?_, fun h16 a h => ?_⟩
    · refine Decidable.byContradiction fun hno => map_ne ha h (widthOf_misfit hw fun hk => ?_) heq
      exact hno (hk.1 (all1.2 h8))
    · refine Decidable.byContradiction fun hno => map_ne ha h (widthOf_misfit hw fun hk => ?_) heq
      exact hno (hk.2 (all1.2 h16))
  case setVecElt a b c =>
    simp only [meaning, Option.some.injEq] at hm
    simp only [encode, Option.some.injEq] at he
    subst hm
    have := three_wrong (o := .setVecElt) (f := .setVecElt) (by decide)
      (fun _ _ _ _ _ _ h => by cases h; rfl) (fun _ => rfl) hf.1 hf.2.1 hf.2.2 hs rest
    rw [he] at this
    exact this
  case substring a b c =>
    simp only [meaning, Option.some.injEq] at hm
    simp only [encode, Option.some.injEq] at he
    subst hm
    have := three_wrong (o := .substring) (f := .substring) (by decide)
      (fun _ _ _ _ _ _ h => by cases h; rfl) (fun _ => rfl) hf.1 hf.2.1 hf.2.2 hs rest
    rw [he] at this
    exact this
  case releaseUpvalues as =>
    simp only [meaning, Option.some.injEq] at hm
    subst hm
    obtain ⟨hne, hl, ha⟩ := hf
    have hwl : ∃ w, widthLast as = some w := by
      unfold widthLast
      rw [List.getLast?_eq_some_getLast hne]
      exact ⟨_, rfl⟩
    obtain ⟨w, hw⟩ := hwl
    simp only [encode, hw, Option.some.injEq, uniform, Prod.mk.injEq] at he
    obtain ⟨rfl, rfl⟩ := he
    rw [List.cons_append, decode_code ((by decide : AllSizes .releaseUpvalues) _)]
    simp only [decodeArgs, List.flatMap_cons, List.append_assoc]
    obtain ⟨hl1, hl2⟩ := hl
    cases w with
    | w8 =>
      rw [dec_bind (m := Dec.byte) (bs := bytesOf (as.length : Int) Width.w8.bytes ++ _)
        (byte_octet ⟨hl1, hl2⟩ _), Int.toNat_natCast, dec_bind (operands_bytesOf as rest)]
      intro heq
      simp only [dec_pure, Option.some.injEq, Prod.mk.injEq, and_true,
        Instr.releaseUpvalues.injEq] at heq
      refine hs fun a h => Decidable.byContradiction fun hno => ?_
      exact map_ne (w := .w8) ha h hno heq
    | w16 =>
      have h0 : ∀ bs, Dec.byte (bytesOf (as.length : Int) Width.w16.bytes ++ bs) =
          some (0, bytesOf (as.length : Int) 1 ++ bs) := by
        intro bs
        simp only [Width.bytes, bytesOf, List.cons_append, Dec.byte, Option.some.injEq, Prod.mk.injEq,
          and_true]
        have := byteAt_toNat (as.length : Int) 1
        omega
      rw [dec_bind (h0 _)]
      intro heq
      have h3 := congrArg (Option.map Prod.fst) heq
      simp only [Option.map_some] at h3
      have h4 : (Instr.releaseUpvalues [] : Instr) = Instr.releaseUpvalues (as.map Int.toNat) :=
        Option.some.inj h3
      cases as with
      | nil => exact hne rfl
      | cons => simp at h4
    | w32 =>
      have h0 : ∀ bs, Dec.byte (bytesOf (as.length : Int) Width.w32.bytes ++ bs) =
          some (0, bytesOf (as.length : Int) 3 ++ bs) := by
        intro bs
        simp only [Width.bytes, bytesOf, List.cons_append, Dec.byte, Option.some.injEq, Prod.mk.injEq,
          and_true]
        have := byteAt_toNat (as.length : Int) 3
        omega
      rw [dec_bind (h0 _)]
      intro heq
      have h3 := congrArg (Option.map Prod.fst) heq
      simp only [Option.map_some] at h3
      have h4 : (Instr.releaseUpvalues [] : Instr) = Instr.releaseUpvalues (as.map Int.toNat) :=
        Option.some.inj h3
      cases as with
      | nil => exact hne rfl
      | cons => simp at h4

/-! ### Integer literals -/

/-- The code of a literal is at the instruction pointer: running it pushes the literal. -/
theorem push_literal (env : Env) (bc : Nat) (ip : CodePtr) (vm : VM) (bytes rest : Bytes) (v : Int)
    (hfetch : fetch ip vm = .ok (bytes ++ rest) vm)
    (hd : decode (bytes ++ rest) = some (.pushInteger v, rest)) :
    step env bc ip vm =
      .ok (.goto { ip with off := ip.off + bytes.length }) (pushed vm (.integer v)) := by
  unfold step
  rw [M.bind_ok hfetch, hd]
  rw [M.bind_ok (m := M.need _) (a := (Instr.pushInteger v, rest)) (s' := vm) rfl]
  simp only [List.length_append, Nat.add_sub_cancel]
  rfl

/-- C22: an integer literal of at most 32 bits is the integer the machine pushes, whatever the
machine and whatever follows in the code.  Partial: literals of more bits are not pushed, see the
next theorem. -/
theorem C22_integer_literals_partial (env : Env) (bc : Nat) (ip : CodePtr) (vm : VM) (strip : Bool)
    (prev : Option UInt8) (v : Int) (hv : -2 ^ 31 ≤ v ∧ v < 2 ^ 31) (rest bytes : Bytes)
    (hb : Emitted strip prev (.pushInteger v) bytes) (hfetch : fetch ip vm = .ok (bytes ++ rest) vm) :
    step env bc ip vm =
      .ok (.goto { ip with off := ip.off + bytes.length }) (pushed vm (.integer v)) := by
  obtain ⟨bs, ⟨op, args, h1, rfl⟩, h2⟩ :=
    C21_operands_partial strip prev (.pushInteger v) _ rest rfl hv trivial
  obtain ⟨op', args', h3, rfl⟩ := hb
  rw [h1] at h3
  cases h3
  exact push_literal env bc ip vm _ rest v hfetch h2

/-- C22 is false of the code for every literal of more than 32 bits: the machine pushes another
integer. -/
theorem C22_large_literals_are_wrong (env : Env) (bc : Nat) (ip : CodePtr) (vm : VM) (strip : Bool)
    (prev : Option UInt8) (v : Int) (hv : ¬ (-2 ^ 31 ≤ v ∧ v < 2 ^ 31)) (rest bytes : Bytes)
    (hb : Emitted strip prev (.pushInteger v) bytes) (hfetch : fetch ip vm = .ok (bytes ++ rest) vm) :
    ∃ v', v' ≠ v ∧ -2 ^ 31 ≤ v' ∧ v' < 2 ^ 31 ∧ step env bc ip vm =
      .ok (.goto { ip with off := ip.off + bytes.length }) (pushed vm (.integer v')) := by
  obtain ⟨op, args, h, rfl⟩ := hb
  have hw : widthInteger v = .w32 := by
    unfold widthInteger
    rw [if_neg (by omega), if_neg (by omega)]
  simp only [encode, uniform, hw, Option.some.injEq, Prod.mk.injEq] at h
  obtain ⟨rfl, rfl⟩ := h
  refine ⟨signed .w32 (v % 256 ^ 4).toNat, ?_, ?_, ?_, push_literal env bc ip vm _ rest _ hfetch ?_⟩
  · unfold signed; simp only [Width.bytes]; simp; split <;> omega
  · unfold signed; simp only [Width.bytes]; simp; split <;> omega
  · unfold signed; simp only [Width.bytes]; simp; split <;> omega
  · rw [List.cons_append, decode_code ((by decide : AllSizes .pushInteger) _)]
    simp only [decodeArgs, List.flatMap_cons, List.flatMap_nil, List.append_nil]
    rw [dec_bind (operand_bytesOf v .w32 rest)]
    rfl

/-! ### Examples -/

/-- The hypotheses of C21 are met by instructions of each size. -/
example : meaning false (.arith .add 300 70000) = some (.arith .add 300 70000) ∧
    InFormat (.arith .add 300 70000) ∧ SmallWhereNeeded (.arith .add 300 70000) ∧
    encode false none (.arith .add 300 70000) = some (78, [0, 0, 1, 44, 0, 1, 17, 112]) :=
  ⟨rfl, ⟨by decide, by decide⟩, trivial, by decide +kernel⟩
example : InFormat (.vector 2 [1, 300]) ∧ ¬ SmallWhereNeeded (.vector 2 [1, 300]) := by
  refine ⟨⟨rfl, by decide, by decide⟩, fun h => ?_⟩
  exact absurd (h.1 (by decide) 300 (by simp)) (by decide)
/-- `(setf-vec-elt v 1 x)` with `x` deep in the stack: the third operand loses its upper byte. -/
example : encode false none (.setVecElt 1 2 300) = some (103, [1, 2, 44]) := by decide +kernel
/-- A literal that loses its upper half: 2^32 + 1 becomes 1. -/
example : ∃ bytes, Emitted false none (.pushInteger (2 ^ 32 + 1)) bytes ∧
    decode bytes = some (.pushInteger 1, []) := ⟨_, ⟨_, _, rfl, rfl⟩, by decide +kernel⟩

#print axioms C21_operands_partial
#print axioms C21_defects
#print axioms C22_integer_literals_partial
#print axioms C22_large_literals_are_wrong

end DuckLisp.Props
