import Verif.Model.Disasm
import Verif.Spec.Listing

/-!
# Lemmas about the disassembler
-/

namespace DuckLisp.Disasm

open DuckLisp DuckLisp.VM DuckLisp.Spec.Listing

theorem hexByte_eq (b : Byte) : hexByte b = hex 2 b.toNat := by
  have h : ∀ k : Fin 256, hexByte (UInt8.ofNat k) = hex 2 k := by decide +kernel
  have := h ⟨b.toNat, b.toNat_lt⟩
  simpa using this

theorem hex_add (m k v : Nat) : hex (m + k) v = hex m (v / 16 ^ k) ++ hex k v := by
  induction k generalizing v with
  | zero => simp [hex]
  | succ k ih =>
    rw [← Nat.add_assoc]
    simp only [hex]
    rw [ih, List.append_assoc, Nat.div_div_eq_div_mul, Nat.pow_succ, Nat.mul_comm]

theorem hex_mod (v : Nat) : hex 2 v = hex 2 (v % 256) := by
  simp only [hex, List.nil_append]
  congr 2
  · congr 1
    omega
  · congr 1
    omega

theorem be_div {n acc : Nat} {code rest : Bytes} {v : Nat} (h : Dec.be acc n code = some (v, rest)) :
    v / 256 ^ n = acc ∧ acc * 256 ^ n ≤ v := by
  induction n generalizing acc code with
  | zero => simp only [Dec.be] at h; cases h; simp
  | succ n ih =>
    cases code with
    | nil => simp [Dec.be] at h
    | cons b code =>
      simp only [Dec.be] at h
      obtain ⟨h1, h2⟩ := ih h
      have hb := b.toNat_lt
      refine ⟨?_, ?_⟩
      · rw [Nat.pow_succ, ← Nat.div_div_eq_div_mul, h1]
        omega
      · refine Nat.le_trans ?_ h2
        rw [Nat.pow_succ, Nat.mul_comm (256 ^ n), ← Nat.mul_assoc]
        exact Nat.mul_le_mul_right _ (Nat.le_add_right _ _)

theorem be_drop {n acc : Nat} {code rest : Bytes} {v : Nat} (h : Dec.be acc n code = some (v, rest)) :
    code.drop n = rest := by
  induction n generalizing acc code with
  | zero => simp only [Dec.be] at h; cases h; rfl
  | succ n ih =>
    cases code with
    | nil => simp [Dec.be] at h
    | cons b code => simp only [Dec.be] at h; simpa using ih h

theorem be_lt {n : Nat} {code rest : Bytes} {v : Nat} (h : Dec.be 0 n code = some (v, rest)) : v < 256 ^ n := by
  have := (be_div h).1
  exact (Nat.div_eq_zero_iff_lt (Nat.pow_pos (by omega))).1 this

theorem number_some {n acc : Nat} {code rest : Bytes} {v : Nat} (h : Dec.be acc n code = some (v, rest)) :
    number n acc code = some (hex (2 * n) v, v, rest) := by
  induction n generalizing acc code with
  | zero => simp only [Dec.be] at h; cases h; simp [number, hex]
  | succ n ih =>
    cases code with
    | nil => simp [Dec.be] at h
    | cons b code =>
      simp only [Dec.be] at h
      simp only [number, ih h]
      have h1 := (be_div h).1
      have h2 : v / 16 ^ (2 * n) = acc * 256 + b.toNat := by
        rw [← h1, Nat.pow_mul]
      have hb := b.toNat_lt
      rw [show 2 * (n + 1) = 2 + 2 * n from by omega, hex_add, h2, hex_mod (acc * 256 + b.toNat), hexByte_eq]
      rw [show (acc * 256 + b.toNat) % 256 = b.toNat from by omega]

theorem number_none {n acc : Nat} {code : Bytes} (h : Dec.be acc n code = none) : number n acc code = none := by
  induction n generalizing acc code with
  | zero => simp [Dec.be] at h
  | succ n ih =>
    cases code with
    | nil => rfl
    | cons b code =>
      simp only [Dec.be] at h
      simp only [number, ih h]

/-- The numbers of a list. -/
def shownList (size : Nat) (as : List Nat) : Bytes := as.flatMap fun a => 32 :: hex (2 * size) a

theorem numbers_some {w : Width} {n : Nat} {code rest : Bytes} {as : List Nat}
    (h : Dec.operands w n code = some (as, rest)) : as.length = n ∧ numbers w.bytes n code = some (shownList w.bytes as, rest) := by
  induction n generalizing code as rest with
  | zero => simp only [Dec.operands] at h; cases h; exact ⟨rfl, rfl⟩
  | succ n ih =>
    simp only [Dec.operands] at h
    rcases h1 : Dec.operand w code with _ | ⟨a, rest1⟩
    · rw [h1] at h; cases h
    · rw [h1] at h
      simp only at h
      rcases h2 : Dec.operands w n rest1 with _ | ⟨as', rest2⟩
      · rw [h2] at h; cases h
      · rw [h2] at h
        cases h
        obtain ⟨h3, h4⟩ := ih h2
        refine ⟨by simp [h3], ?_⟩
        simp only [numbers, number_some h1, h4]
        rfl

theorem stringChar_eq (c : Byte) : stringChar c = visible c := by
  have h : ∀ k : Fin 256, stringChar (UInt8.ofNat k) = visible (UInt8.ofNat k) := by decide +kernel
  have := h ⟨c.toNat, c.toNat_lt⟩
  simpa using this

theorem characters_some {n : Nat} {code rest s : Bytes} (h : Dec.take n code = some (s, rest)) :
    s.length = n ∧ characters n code = some (s.map visible, rest) := by
  unfold Dec.take at h
  split at h
  · rename_i hn
    cases h
    refine ⟨by simp [hn], ?_⟩
    induction n generalizing code with
    | zero => simp [characters]
    | succ n ih =>
      cases code with
      | nil => simp at hn
      | cons c code =>
        have := ih (code := code) (by simpa using hn)
        simp only [characters, this, List.take_succ_cons, List.map_cons, List.drop_succ_cons, stringChar_eq]
  · cases h

/-- The formats of the instructions. -/
def shape : Opc → Width → List Directive
  | .nop, _ | .pushBooleanFalse, _ | .pushBooleanTrue, _ | .makeType, _ | .return0, _ | .halt, _ | .nil, _ => []
  | .pushString, w => [.number w.bytes, .string 0]
  | .pushDoubleFloat, _ => [.float]
  | .pushSymbol, w | .pushStrippedSymbol, w => [.number w.bytes, .number w.bytes, .string 1]
  | .pushClosure, w | .pushVaClosure, w => [.number w.bytes, .number 1, .number 4, .wideList 2]
  | .setUpvalue, w => [.number 1, .number w.bytes]
  | .releaseUpvalues, w => [.number w.bytes, .list 0]
  | .funcall, w | .apply, w | .brnz, w | .brz, w => [.number w.bytes, .number 1]
  | .call, _ | .acall, _ => [.invalid]
  | .vector, w => [.number w.bytes, .wideList 0]
  | .pushInteger, w | .pushIndex, w | .pushUpvalue, w | .pushGlobal, w | .ccall, w | .not, w | .car, w | .cdr, w
  | .nullp, w | .typeof, w | .compositeValue, w | .compositeFunction, w | .makeString, w | .length, w
  | .symbolString, w | .symbolId, w | .pop, w | .return_, w | .jump, w => [.number w.bytes]
  | .setGlobal, w | .move, w | .mul, w | .div, w | .add, w | .sub, w | .equal, w | .greater, w | .less, w
  | .cons, w | .makeVector, w | .getVecElt, w | .setCar, w | .setCdr, w | .setCompositeValue, w
  | .setCompositeFunction, w | .concatenate, w => [.number w.bytes, .number w.bytes]
  | .setVecElt, w | .makeInstance, w | .substring, w => [.number w.bytes, .number w.bytes, .number w.bytes]

/-- The name in the table. -/
def label (o : Opc) (w : Width) : Bytes :=
  match o with
  | .pushGlobal => mnemonic .pushGlobal .w8
  | .call | .acall => ascii "obsolete:"
  | o => mnemonic o w

/-- The whole table. -/
theorem table : ∀ k : Fin 167, ∀ p, opcodes[k.val]? = some p → ∃ f, format (UInt8.ofNat k) = some f ∧
    (f.takeWhile fun c => !DlString.isSpace c) = label p.1 p.2 ∧
    directives (f.drop ((f.takeWhile fun c => !DlString.isSpace c).length + 1)) = shape p.1 p.2 := by
  have h : ∀ k : Fin 167, (match opcodes[k.val]?, format (UInt8.ofNat k) with
      | some p, some f => decide ((f.takeWhile fun c => !DlString.isSpace c) = label p.1 p.2 ∧
          directives (f.drop ((f.takeWhile fun c => !DlString.isSpace c).length + 1)) = shape p.1 p.2)
      | _, _ => false) = true := by decide +kernel
  intro k p hp
  have := h k
  rw [hp] at this
  rcases hf : format (UInt8.ofNat k) with _ | f
  · rw [hf] at this; cases this
  · rw [hf] at this
    exact ⟨f, rfl, of_decide_eq_true this⟩

theorem line_eq {op : Byte} {o : Opc} {w : Width} (h : opcodes[op.toNat]? = some (o, w)) (code : Bytes) :
    line op code = match operands [] (shape o w) code with
      | .ok (text, code') => .ok (label o w ++ text ++ [10], code')
      | r => r := by
  have hlt : op.toNat < 167 := (List.getElem?_eq_some_iff.1 h).1
  obtain ⟨f, h1, h2, h3⟩ := table ⟨op.toNat, hlt⟩ (o, w) h
  simp only [UInt8.ofNat_toNat] at h1
  simp only [line, h1, h3]
  rw [h2]
  rcases operands [] (shape o w) code with ⟨_, _⟩ | _ | _ <;> rfl

/-- The text of fields. -/
def shownFields (fs : List Field) : Bytes := fs.flatMap fun f => 32 :: f.shown

theorem prepend_ok (t t' code : Bytes) : prepend t (.ok (t', code)) = .ok (t ++ t', code) := rfl

theorem twos_shown {w : Width} {n : Nat} {code rest : Bytes} (h : Dec.operand w code = some (n, rest)) :
    twos w (signed w n) = .number w.bytes n := by
  have hb := be_lt h
  unfold twos
  congr 1
  unfold signed
  by_cases hn : n < 2 ^ (8 * w.bytes - 1)
  · rw [if_pos hn]
    cases w <;> simp only [Width.bytes] at hb ⊢ <;> omega
  · rw [if_neg hn]
    cases w <;> simp only [Width.bytes] at hb hn ⊢ <;> omega

theorem octet {n : Nat} {code rest : Bytes} (h : Dec.byte code = some (n, rest)) : Dec.be 0 1 code = some (n, rest) := by
  cases code with
  | nil => cases h
  | cons b code => simp only [Dec.byte] at h; cases h; simp [Dec.be]

theorem arity_eq {n : Nat} {code rest : Bytes} (h : Dec.byte code = some (n, rest)) : (UInt8.ofNat n).toNat = n := by
  have := be_lt (octet h)
  simp only [UInt8.toNat_ofNat']
  omega

theorem dec_bind {α β : Type} {m : Dec α} {f : α → Dec β} {code : Bytes} {r : β × Bytes}
    (h : (m >>= f) code = some r) : ∃ a rest, m code = some (a, rest) ∧ f a rest = some r := by
  change Dec.bind m f code = some r at h
  unfold Dec.bind at h
  split at h
  · rename_i a rest e
    exact ⟨a, rest, e, h⟩
  · cases h

theorem dec_pure {α : Type} {a b : α} {code rest : Bytes} (h : (pure a : Dec α) code = some (b, rest)) :
    a = b ∧ code = rest := by
  change some (a, code) = some (b, rest) at h
  cases h
  exact ⟨rfl, rfl⟩

theorem ops0 (args : List (Nat × Nat)) (code : Bytes) : operands args [] code = .ok ([], code) := rfl

theorem ops_number {args : List (Nat × Nat)} {size : Nat} {f : List Directive} {code rest : Bytes} {v : Nat}
    (h : Dec.be 0 size code = some (v, rest)) :
    operands args (.number size :: f) code = prepend (32 :: hex (2 * size) v) (operands (args ++ [(v, size)]) f rest) := by
  simp only [operands, number_some h]

theorem one_operand {w : Width} {g : Nat → Instr} {code rest : Bytes} {i : Instr}
    (h : (do return g (← Dec.operand w) : Dec Instr) code = some (i, rest)) :
    ∃ n, i = g n ∧ Dec.operand w code = some (n, rest) := by
  obtain ⟨a, r, h1, h2⟩ := dec_bind h
  obtain ⟨rfl, rfl⟩ := dec_pure h2
  exact ⟨a, rfl, h1⟩

theorem two_operands {w : Width} {g : Nat → Nat → Instr} {code rest : Bytes} {i : Instr}
    (h : decodeArgs.two w g code = some (i, rest)) : ∃ a b r, i = g a b ∧ Dec.operand w code = some (a, r) ∧
      Dec.operand w r = some (b, rest) := by
  unfold decodeArgs.two at h
  obtain ⟨a, r, h1, h2⟩ := dec_bind h
  obtain ⟨b, rfl, h3⟩ := one_operand h2
  exact ⟨a, b, r, rfl, h1, h3⟩

theorem three_operands {w : Width} {g : Nat → Nat → Nat → Instr} {code rest : Bytes} {i : Instr}
    (h : decodeArgs.three w g code = some (i, rest)) : ∃ a b c r r', i = g a b c ∧ Dec.operand w code = some (a, r) ∧
      Dec.operand w r = some (b, r') ∧ Dec.operand w r' = some (c, rest) := by
  unfold decodeArgs.three at h
  obtain ⟨a, r, h1, h2⟩ := dec_bind h
  obtain ⟨b, r', h3, h4⟩ := dec_bind h2
  obtain ⟨c, rfl, h5⟩ := one_operand h4
  exact ⟨a, b, c, r, r', rfl, h1, h3, h5⟩

theorem then_octet {g : Nat → Instr} {code rest : Bytes} {i : Instr}
    (h : (do return g (← Dec.byte) : Dec Instr) code = some (i, rest)) : ∃ n, i = g n ∧ Dec.byte code = some (n, rest) := by
  obtain ⟨a, r, h1, h2⟩ := dec_bind h
  obtain ⟨rfl, rfl⟩ := dec_pure h2
  exact ⟨a, rfl, h1⟩

theorem shown_one (w : Width) {code rest : Bytes} {n : Nat} (h : Dec.operand w code = some (n, rest)) :
    operands [] [.number w.bytes] code = .ok (shownFields [.number w.bytes n], rest) := by
  rw [ops_number h, ops0, prepend_ok]
  simp [shownFields, Field.shown]

theorem shown_two {s1 s2 : Nat} {code r rest : Bytes} {a b : Nat} (h1 : Dec.be 0 s1 code = some (a, r))
    (h2 : Dec.be 0 s2 r = some (b, rest)) :
    operands [] [.number s1, .number s2] code = .ok (shownFields [.number s1 a, .number s2 b], rest) := by
  rw [ops_number h1, ops_number h2, ops0, prepend_ok, prepend_ok]
  simp [shownFields, Field.shown]

theorem shown_three {s : Nat} {code r r' rest : Bytes} {a b c : Nat} (h1 : Dec.be 0 s code = some (a, r))
    (h2 : Dec.be 0 s r = some (b, r')) (h3 : Dec.be 0 s r' = some (c, rest)) :
    operands [] [.number s, .number s, .number s] code =
      .ok (shownFields [.number s a, .number s b, .number s c], rest) := by
  rw [ops_number h1, ops_number h2, ops_number h3, ops0, prepend_ok, prepend_ok, prepend_ok]
  simp [shownFields, Field.shown]

theorem shown_list (size : Nat) (as : List Nat) : shownList size as = shownFields (as.map (.number size)) := by
  simp [shownList, shownFields, List.flatMap_map, Field.shown]

/-- Fields for the formats. -/
def outline (o : Opc) (w : Width) (i : Instr) : List Field := match o with | .pushDoubleFloat => [] | _ => fields w i

theorem shown {o : Opc} {w : Width} {code rest : Bytes} {i : Instr} (ha : Shows o w = true)
    (h : decodeArgs o w code = some (i, rest)) :
    operands [] (shape o w) code = .ok (shownFields (outline o w i), rest) := by
  cases o <;> simp only [decodeArgs] at h <;> simp only [shape, outline]
  case nop | pushBooleanFalse | pushBooleanTrue | makeType | return0 | halt | nil =>
    obtain ⟨rfl, rfl⟩ := dec_pure h
    rfl
  case pushIndex | pushUpvalue | pushGlobal | ccall | not | car | cdr | nullp | typeof | compositeValue
      | compositeFunction | makeString | length | symbolString | symbolId | pop | return_ =>
    obtain ⟨n, rfl, h1⟩ := one_operand h
    exact shown_one w h1
  case pushInteger | jump =>
    obtain ⟨n, rfl, h1⟩ := one_operand (g := fun x => _) h
    rw [shown_one w h1]
    simp only [fields, twos_shown h1]
  case setGlobal | move | mul | div | add | sub | greater | less | cons | makeVector | getVecElt | setCar | setCdr
      | setCompositeValue | setCompositeFunction | concatenate =>
    obtain ⟨a, b, r, rfl, h1, h2⟩ := two_operands h
    exact shown_two h1 h2
  case setVecElt | makeInstance | substring =>
    obtain ⟨a, b, c, r, r', rfl, h1, h2, h3⟩ := three_operands h
    exact shown_three h1 h2 h3
  case pushString =>
    obtain ⟨n, r, h1, h2⟩ := dec_bind h
    obtain ⟨s, r', h3, h4⟩ := dec_bind h2
    obtain ⟨rfl, rfl⟩ := dec_pure h4
    obtain ⟨rfl, h5⟩ := characters_some h3
    rw [ops_number h1]
    simp only [operands, List.nil_append, List.getElem?_cons_zero, h5, prepend_ok]
    simp [shownFields, fields, fields.num, Field.shown]
  case pushSymbol =>
    obtain ⟨id, r, h1, h2⟩ := dec_bind h
    obtain ⟨n, r', h3, h4⟩ := dec_bind h2
    obtain ⟨s, r'', h5, h6⟩ := dec_bind h4
    obtain ⟨rfl, rfl⟩ := dec_pure h6
    obtain ⟨rfl, h7⟩ := characters_some h5
    rw [ops_number h1, ops_number h3]
    simp only [operands, List.nil_append, List.cons_append, List.getElem?_cons_succ, List.getElem?_cons_zero, h7,
      prepend_ok]
    simp [shownFields, fields, fields.num, Field.shown]
  case pushDoubleFloat =>
    obtain ⟨n, r, h1, h2⟩ := dec_bind h
    obtain ⟨rfl, rfl⟩ := dec_pure h2
    simp only [operands, be_drop h1]
    rfl
  case pushClosure | pushVaClosure =>
    obtain ⟨d, r, h1, h2⟩ := dec_bind h
    obtain ⟨arity, r1, h3, h4⟩ := dec_bind h2
    obtain ⟨n, r2, h5, h6⟩ := dec_bind h4
    obtain ⟨cs, r3, h7, h8⟩ := dec_bind h6
    obtain ⟨rfl, rfl⟩ := dec_pure h8
    obtain ⟨rfl, h9⟩ := numbers_some h7
    rw [ops_number h1, ops_number (octet h3), ops_number (size := 4) h5]
    simp only [operands, List.nil_append, List.cons_append, List.getElem?_cons_succ, List.getElem?_cons_zero,
      show (4 : Nat) = Width.w32.bytes from rfl, h9, prepend_ok, shown_list]
    simp [shownFields, fields, Field.shown, twos_shown h1, arity_eq h3, Width.bytes]
  case setUpvalue =>
    obtain ⟨u, r, h1, h2⟩ := dec_bind h
    obtain ⟨a, rfl, h3⟩ := one_operand h2
    exact shown_two (octet h1) h3
  case funcall | apply =>
    obtain ⟨a, r, h1, h2⟩ := dec_bind h
    obtain ⟨n, rfl, h3⟩ := then_octet h2
    exact shown_two h1 (octet h3)
  case brnz =>
    obtain ⟨a, r, h1, h2⟩ := dec_bind h
    obtain ⟨n, rfl, h3⟩ := then_octet h2
    simp only [fields, twos_shown h1]
    exact shown_two h1 (octet h3)
  case equal =>
    cases w
    case w16 => cases ha
    all_goals
      obtain ⟨a, b, r, rfl, h1, h2⟩ := two_operands h
      exact shown_two h1 h2
  case releaseUpvalues =>
    cases w
    case w16 | w32 => cases ha
    obtain ⟨n, r, h1, h2⟩ := dec_bind h
    obtain ⟨as, r', h3, h4⟩ := dec_bind h2
    obtain ⟨rfl, rfl⟩ := dec_pure h4
    obtain ⟨rfl, h5⟩ := numbers_some h3
    rw [ops_number (size := Width.w8.bytes) (octet h1)]
    simp only [operands, List.nil_append, List.getElem?_cons_zero, h5, prepend_ok, shown_list]
    simp [shownFields, fields, fields.num, Field.shown, Width.bytes]
    rfl
  case vector =>
    cases w
    case w8 | w16 => cases ha
    obtain ⟨n, r, h1, h2⟩ := dec_bind h
    obtain ⟨as, r', h3, h4⟩ := dec_bind h2
    obtain ⟨rfl, rfl⟩ := dec_pure h4
    obtain ⟨rfl, h5⟩ := numbers_some h3
    rw [ops_number h1]
    simp only [operands, List.nil_append, List.getElem?_cons_zero, show (4 : Nat) = Width.w32.bytes from rfl, h5,
      prepend_ok, shown_list]
    simp [shownFields, fields, fields.num, Field.shown, Width.bytes]
    rfl
  case call | acall | brz | pushStrippedSymbol => cases w <;> cases ha

theorem line_row {piece text : Bytes} (h : Row piece text) : ∃ op args, piece = op :: args ∧
    ∀ rest, line op (args ++ rest) = .ok (text, rest) := by
  have main : ∀ {o w i}, Instruction piece o w i → Shows o w = true →
      text = row (label o w) (outline o w i) → ∃ op args, piece = op :: args ∧
        ∀ rest, line op (args ++ rest) = .ok (text, rest) := by
    rintro o w i ⟨⟨op, args, rfl, ho⟩, hd⟩ ha rfl
    refine ⟨op, args, rfl, fun rest => ?_⟩
    have := hd rest
    simp only [List.cons_append, decode, ho] at this
    rw [line_eq ho, shown ha this]
    rfl
  cases h with
  | listed hi hl =>
    refine main hi (by simp [Shows, hl]) ?_
    rename_i o w i
    cases o <;> first | rfl | (cases w <;> first | rfl | cases hl)
  | float hi => exact main hi (by simp [Shows]) rfl
  | global hi => exact main hi (by simp [Shows]) rfl
  | illegal h =>
    refine ⟨_, [], rfl, fun rest => ?_⟩
    simp only [line, format, List.getElem?_eq_none h, hexByte_eq]
    rfl

theorem lines_rows {pieces texts : List Bytes} (h : Rows pieces texts) (fuel : Nat) (hf : pieces.flatten.length ≤ fuel) :
    lines fuel pieces.flatten = .ok texts.flatten := by
  induction h generalizing fuel with
  | nil => cases fuel <;> rfl
  | cons hr _ ih =>
    obtain ⟨op, args, rfl, hl⟩ := line_row hr
    simp only [List.flatten_cons, List.length_append, List.cons_append, List.length_cons] at hf ⊢
    cases fuel with
    | zero => omega
    | succ fuel =>
      simp only [lines, hl, ih fuel (by omega)]

/-- Each piece of code of an instruction has a line. -/
theorem row_of_decode {p : Bytes} {m : Instr} (hm : ∀ rest, decode (p ++ rest) = some (m, rest))
    (hop : ∀ op args o w, p = op :: args → opcodes[op.toNat]? = some (o, w) → Shows o w = true) : ∃ text, Row p text := by
  cases p with
  | nil => have := hm []; simp [decode] at this
  | cons op args =>
    rcases ho : opcodes[op.toNat]? with _ | ⟨o, w⟩
    · have h1 := hm []
      simp only [List.append_nil, decode, ho, Option.some.injEq, Prod.mk.injEq] at h1
      obtain ⟨-, rfl⟩ := h1
      exact ⟨_, .illegal (List.getElem?_eq_none_iff.1 ho)⟩
    · have hi : Instruction (op :: args) o w m := ⟨⟨op, args, rfl, ho⟩, hm⟩
      have hs := hop op args o w rfl ho
      by_cases hl : Listed o w = true
      · exact ⟨_, .listed hi hl⟩
      · simp only [Shows, hl, Bool.false_or, Bool.or_eq_true, beq_iff_eq] at hs
        rcases hs with rfl | rfl
        · exact ⟨_, .float hi⟩
        · exact ⟨_, .global hi⟩

theorem rows_of_pieces {pieces : List Bytes} (h : ∀ p ∈ pieces, p = [] ∨ ∃ text, Row p text) :
    ∃ texts, Rows (pieces.filter (· ≠ [])) texts := by
  induction pieces with
  | nil => exact ⟨[], .nil⟩
  | cons p pieces ih =>
    obtain ⟨texts, ht⟩ := ih fun q hq => h q (List.mem_cons_of_mem _ hq)
    rcases h p List.mem_cons_self with rfl | ⟨text, hr⟩
    · exact ⟨texts, by rw [List.filter_cons_of_neg (by simp)]; exact ht⟩
    · obtain ⟨op, args, rfl, -⟩ := line_row hr
      exact ⟨text :: texts, by rw [List.filter_cons_of_pos (by simp)]; exact .cons hr ht⟩

theorem flatten_filter (pieces : List Bytes) : (pieces.filter (· ≠ [])).flatten = pieces.flatten := by
  induction pieces with
  | nil => rfl
  | cons p pieces ih =>
    by_cases hp : p = []
    · rw [List.filter_cons_of_neg (by simp [hp]), ih, hp]
      rfl
    · rw [List.filter_cons_of_pos (by simp [hp]), List.flatten_cons, ih, List.flatten_cons]

end DuckLisp.Disasm
