import Verif.Proof.Listing
import Verif.Props.Compile.Labels

/-!
# C53: a listing shows the code
-/

namespace DuckLisp.Props

open DuckLisp DuckLisp.VM DuckLisp.Asm DuckLisp.Spec DuckLisp.Spec.Listing DuckLisp.Disasm

/-- C53: the disassembly of instructions is one line for each of them, with its name and its operands as the machine
reads them.  Missing: the instructions that are not `Listed`, see below. -/
theorem C53_listing_partial (pieces texts : List Bytes) (h : Rows pieces texts) :
    disassemble pieces.flatten = .ok (listing texts) := by
  simp only [disassemble, lines_rows h _ (Nat.le_refl _), listing]

/-- C53, for code from the assembler: the disassembly has a line for each instruction of the program that has code, in
their order. -/
theorem C53_assembled_partial (strip : Bool) (program : List Ins) (bytes : Bytes) (pieces : List Bytes)
    (hp : Pieces strip program bytes pieces) (hl : AllLand program pieces) (hd : LabelsDefined program)
    (hfmt : ∀ i ∈ program, InFormat i ∧ SmallWhereNeeded i)
    (hop : ∀ p ∈ pieces, ∀ op args o w, p = op :: args → opcodes[op.toNat]? = some (o, w) → Shows o w = true) :
    ∃ texts, Rows (pieces.filter (· ≠ [])) texts ∧ disassemble bytes = .ok (listing texts) := by
  have hrow : ∀ p ∈ pieces, p = [] ∨ ∃ text, Row p text := by
    intro p hpm
    obtain ⟨k, hk⟩ := List.getElem?_of_mem hpm
    have hlt : k < program.length := by
      rw [← hp.length]
      exact (List.getElem?_eq_some_iff.1 hk).1
    obtain ⟨i, hi⟩ : ∃ i, program[k]? = some i := ⟨_, List.getElem?_eq_getElem hlt⟩
    obtain ⟨hf, hs⟩ := hfmt i (List.mem_of_getElem? hi)
    have plain : ∀ m, meaning strip i = some m → p = [] ∨ ∃ text, Row p text := fun m hm =>
      .inr (row_of_decode (hp.plain k i p m hi hk hm hf hs) (hop p hpm))
    have named : ∀ l, labelOf i = some l → p = [] ∨ ∃ text, Row p text := by
      intro l hl'
      obtain ⟨j, hj⟩ := List.getElem?_of_mem (hd k i l hi hl')
      obtain ⟨p', w, d, m, h1, -, h3, -⟩ := hl k i l j hi hl' hf hj
      rw [hk] at h1
      cases h1
      exact .inr (row_of_decode h3 (hop p hpm))
    cases i
    case internalNop => exact .inl (hp.none k _ p hi hk (.inl rfl))
    case label l => exact .inl (hp.none k _ p hi hk (.inr ⟨l, rfl⟩))
    case pushClosure | call | jump | brnz => exact named _ rfl
    all_goals exact plain _ rfl
  obtain ⟨texts, ht⟩ := rows_of_pieces hrow
  refine ⟨texts, ht, ?_⟩
  rw [← hp.flatten, ← flatten_filter]
  exact C53_listing_partial _ _ ht

/-! ### A program -/

/-- `(+ 1 2)`, and a string. -/
def shownProgram : List Ins := [.pushInteger 1, .pushInteger (-2), .arith .add 1 2, .label 0, .pushString 2 [104, 105], .halt]

def shownPieces : List Bytes := [[6, 1], [6, 254], [76, 1, 2], [], [1, 2, 104, 105], [165]]

/-- The hypotheses are met. -/
example : Pieces false shownProgram shownPieces.flatten shownPieces ∧ AllLand shownProgram shownPieces ∧
    LabelsDefined shownProgram ∧ (∀ i ∈ shownProgram, InFormat i ∧ SmallWhereNeeded i) ∧
    ∀ p ∈ shownPieces, ∀ op args o w, p = op :: args → opcodes[op.toNat]? = some (o, w) → Shows o w = true := by
  refine ⟨⟨rfl, rfl, ?_, ?_⟩, ?_, ?_, ?_, ?_⟩
  · intro k i p hi hp h
    rcases k with _ | _ | _ | _ | _ | _ | k <;> simp [shownProgram, shownPieces] at hi hp <;> subst hi <;> subst hp <;>
      simp_all
  · intro k i p m hi hp hm _ _
    rcases k with _ | _ | _ | _ | _ | _ | k <;> simp [shownProgram, shownPieces] at hi hp <;> subst hi <;> subst hp <;>
      cases hm <;> intro rest <;> rfl
  · intro k i l j hi hl
    rcases k with _ | _ | _ | _ | _ | _ | k <;> simp [shownProgram] at hi <;> subst hi <;> cases hl
  · intro k i l hi hl
    rcases k with _ | _ | _ | _ | _ | _ | k <;> simp [shownProgram] at hi <;> subst hi <;> cases hl
  · intro i hi
    simp only [shownProgram, List.mem_cons, List.not_mem_nil, or_false] at hi
    rcases hi with rfl | rfl | rfl | rfl | rfl | rfl <;> simp [InFormat, SmallWhereNeeded, Word]
  · intro p hp op args o w h ho
    simp only [shownPieces, List.mem_cons, List.not_mem_nil, or_false] at hp
    rcases hp with rfl | rfl | rfl | rfl | rfl | rfl <;> cases h <;> cases ho <;> rfl

/-- What is shown. -/
example : disassemble shownPieces.flatten = .ok (ascii
    "DISASSEMBLY START\ninteger.8 01\ninteger.8 FE\nadd.8 01 02\nstring.8 02 \"hi\"\nhalt\nDISASSEMBLY END\n" ++ [0]) := by
  decide +kernel

/-! ### Where the listing is wrong -/

/-- Code with stripped symbols: the disassembler takes what follows for the length of a name and reads beyond the end
of the code. -/
theorem C53_stripped_symbols_ub : ∃ bytes, assemble ⟨false, false, true⟩ 0 [.pushSymbol 3 1 [97], .halt] = .ok bytes ∧
    decode bytes = some (.pushStrippedSymbol 3, [165]) ∧ disassemble bytes = .ub := by
  exact ⟨[16, 3, 165], by decide +kernel⟩

/-- Code that makes a vector: the elements are taken for numbers of four bytes. -/
theorem C53_vector_ub : ∃ bytes, assemble ⟨false, false, false⟩ 0 [.nil, .vector 1 [1], .halt] = .ok bytes ∧
    decode (bytes.drop 1) = some (.vector [1], [165]) ∧ disassemble bytes = .ub := by
  exact ⟨[166, 94, 1, 1, 165], by decide +kernel⟩

/-- So loading `(vector 1 2 3)` is undefined behaviour if disassemblies are asked for. -/
theorem C53_loading_vector_ub : saved (Load.loadString
    ⟨Reader.exampleConfig, ⟨Trie.init (-1), 100⟩, ⟨true, true, false⟩, 100⟩ (ascii "(vector 1 2 3)") 0
      ⟨{}, Compile.CState.init⟩) = some .ub := by
  decide +kernel

/-- The same for a longer program: two instructions are taken for a part of the vector's, and not shown. -/
theorem C53_vector_out_of_step : ∃ bytes,
    assemble ⟨false, false, false⟩ 0 [.nil, .vector 1 [1], .pop 2, .halt] = .ok bytes ∧
    disassemble bytes = .ok (listing [ascii "nil\n", ascii "vector.8 01 019E02A5\n"]) := by
  exact ⟨[166, 94, 1, 1, 158, 2, 165], by decide +kernel⟩

/-- Floats are not shown: the code of all of them has the same disassembly. -/
theorem C53_floats_hidden (a b : UInt64) : ∃ ta tb, assemble ⟨false, false, false⟩ 0 [.pushFloat a, .halt] = .ok ta ∧
    assemble ⟨false, false, false⟩ 0 [.pushFloat b, .halt] = .ok tb ∧ disassemble ta = disassemble tb := by
  have hrow : ∀ x : UInt64, ∃ t, assemble ⟨false, false, false⟩ 0 [.pushFloat x, .halt] = .ok t ∧
      disassemble t = .ok (listing [row (mnemonic .pushDoubleFloat .w8) [], row (mnemonic .halt .w8) []]) := by
    intro x
    refine ⟨_, rfl, ?_⟩
    have h9 : code Opc.pushDoubleFloat Width.w8 = 9 := by decide +kernel
    have h165 : code Opc.halt Width.w8 = 165 := by decide +kernel
    simp only [resolveFixed, emitStart, List.nil_append, h9, h165]
    obtain ⟨c0, c1, c2, c3, c4, c5, c6, c7, hb⟩ : ∃ c0 c1 c2 c3 c4 c5 c6 c7 : Byte,
        bytesOf (x.toNat : Int) 8 = [c0, c1, c2, c3, c4, c5, c6, c7] := ⟨_, _, _, _, _, _, _, _, rfl⟩
    rw [hb]
    exact C53_listing_partial [[9, c0, c1, c2, c3, c4, c5, c6, c7], [165]] _
      (.cons (.float ⟨⟨_, _, rfl, rfl⟩, fun _ => rfl⟩)
        (.cons (.listed (i := .halt) ⟨⟨_, _, rfl, rfl⟩, fun _ => rfl⟩ rfl) .nil))
  obtain ⟨ta, h1, h2⟩ := hrow a
  obtain ⟨tb, h3, h4⟩ := hrow b
  exact ⟨ta, tb, h1, h3, by rw [h2, h4]⟩

/-- Code with a call of the old kind is not shown at all. -/
theorem C53_call_fails : ∃ bytes, assemble ⟨false, false, false⟩ 1 [.label 0, .call 0 0, .halt] = .ok bytes ∧
    disassemble bytes = .err .invalidValue := by
  exact ⟨[48, 255, 255, 255, 251, 0, 165], by decide +kernel⟩

/-- Globals with large numbers have the name of those with small ones. -/
theorem C53_globals_named_wrongly : ∃ bytes, assemble ⟨false, false, false⟩ 0 [.pushGlobal 256] = .ok bytes ∧
    disassemble bytes = .ok (listing [ascii "global.8 0100\n"]) := by
  exact ⟨[29, 1, 0], by decide +kernel⟩

#print axioms C53_listing_partial
#print axioms C53_assembled_partial
#print axioms C53_stripped_symbols_ub
#print axioms C53_vector_ub
#print axioms C53_loading_vector_ub
#print axioms C53_vector_out_of_step
#print axioms C53_floats_hidden
#print axioms C53_call_fails
#print axioms C53_globals_named_wrongly

end DuckLisp.Props
