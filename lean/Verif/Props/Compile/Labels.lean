import Verif.Proof.Compile.Labels
import Verif.Props.Load
import Verif.Props.VM.Inside

/-!
# C52: whatever the compiler accepts is code in order

For all programs, functions inside functions included: each jump, branch and function of the code that the compiler
makes refers to a place in it, and to one only.  So the assembler accepts it.
-/

namespace DuckLisp.Props

open DuckLisp DuckLisp.VM DuckLisp.Asm DuckLisp.Spec

/-- C52: in the code of every program that is accepted, each of the labels that were handed out stands at exactly one
place, and no others are used; the code ends with an exit. -/
theorem C52_labels (cfg : Compile.Config) (n : Nat) (e : Reader.Ast) (s s' : Compile.CState)
    (hc : Compile.compileAST cfg n e s.renew = .ok () s') (hg : s'.gensymNumber ≤ 2 ^ 64) :
    (∀ l, l < s'.scopes.runtime.labelNumber → ∃ j : Nat, s'.assembly[j]? = some (.label l) ∧
      ∀ j' : Nat, s'.assembly[j']? = some (.label l) → j' = j) ∧
    InOrder s'.scopes.runtime.labelNumber s'.assembly := by
  obtain ⟨h1, h2, h3, h4⟩ := Compile.compiled_labels hc hg
  have hmem : ∀ l, Ins.label l ∈ s'.assembly ↔ l < s'.scopes.runtime.labelNumber := by
    intro l
    rw [← List.mem_range, ← h1.mem_iff]
    unfold Compile.labels
    rw [List.mem_filterMap]
    constructor
    · exact fun h => ⟨_, h, rfl⟩
    · rintro ⟨i, hi, hl⟩
      cases i <;> cases hl
      exact hi
  have honce : ∀ (j j' l : Nat), s'.assembly[j]? = some (.label l) → s'.assembly[j']? = some (.label l) → j = j' :=
    Compile.labels_once (h1.nodup_iff.2 List.nodup_range)
  refine ⟨fun l hl => ?_, h2, fun l hl => (hmem l).1 hl, honce, h3, h4⟩
  obtain ⟨j, hj⟩ := List.getElem?_of_mem ((hmem l).2 hl)
  exact ⟨j, hj, fun j' hj' => honce _ _ l hj' hj⟩

/-- C52: so every program that is accepted is assembled, with any options. -/
theorem C52_assembles (cfg : Compile.Config) (n : Nat) (e : Reader.Ast) (s s' : Compile.CState) (opt : Options)
    (hc : Compile.compileAST cfg n e s.renew = .ok () s') (hg : s'.gensymNumber ≤ 2 ^ 64) :
    ∃ bytes, assemble opt s'.scopes.runtime.labelNumber s'.assembly = .ok bytes :=
  C24_assembles opt _ _ (C52_labels cfg n e s s' hc hg).2

/-- C52: so when a text is loaded, there is code as soon as the reader and the code generators accept it. -/
theorem C52_loads (cfg : Load.Config) (text : Bytes) (beyond : Byte) (s : Load.State) (source : Bytes) (e : Reader.Ast)
    (r : Reader.RState) (s' : Compile.CState) (ht : Load.trim text beyond = some source)
    (hr : Reader.read cfg.reader source 0 s.reader = .ok e r)
    (hc : Compile.compileAST cfg.compiler cfg.fuel e s.compiler.renew = .ok () s') (hg : s'.gensymNumber ≤ 2 ^ 64) :
    ∃ bytes, Load.loadString cfg text beyond s = .code bytes ⟨r, s'⟩ := by
  obtain ⟨bytes, hb⟩ := C52_assembles cfg.compiler cfg.fuel e s.compiler s' cfg.assembler hc hg
  exact ⟨bytes, by simp only [Load.loadString, ht, hr, Load.compileProgram, hc, hb]⟩

/-- C45, for all programs that the compiler accepts: if the jumps of the code land and its numbers fit, it is whole
and leads only to where its instructions start. -/
theorem C45_accepted_partial (cfg : Compile.Config) (n : Nat) (e : Reader.Ast) (s s' : Compile.CState) (opt : Options)
    (bytes : Bytes) (hc : Compile.compileAST cfg n e s.renew = .ok () s') (hg : s'.gensymNumber ≤ 2 ^ 64)
    (hj : JumpsLand opt s'.assembly bytes) (hfmt : ∀ i ∈ rewritten opt s'.assembly, InFormat i ∧ SmallWhereNeeded i) :
    ∃ pieces, Pieces opt.strip (rewritten opt s'.assembly) bytes pieces ∧ Whole bytes ∧
      ∀ p, Flow bytes p → ∃ k m, AtInstruction (rewritten opt s'.assembly) pieces p k m := by
  obtain ⟨pieces, hp, hl⟩ := hj
  have hd := Compile.labelsDefined_rewritten (p := s'.assembly) (by
    intro k i l hk hl
    obtain ⟨h1, h2⟩ := C52_labels cfg n e s s' hc hg
    obtain ⟨j, hj, -⟩ := h1 l (h2.named i (List.mem_of_getElem? hk) l hl)
    exact List.mem_of_getElem? hj) opt
  refine ⟨pieces, hp, C45_boundaries _ _ _ _ hp hl hd hfmt ?_⟩
  have hlast := (C52_labels cfg n e s s' hc hg).2.halts
  unfold rewritten
  split
  · rw [List.getLast?_eq_getElem?] at hlast ⊢
    rw [(kept_peephole _ s'.assembly rfl).1]
    exact Compile.peephole_keeps hlast rfl (by simp)
  · exact hlast

/-! ### A program with functions inside functions that capture variables, a loop and branches

`((var x 1) (defun f (y &rest z) (lambda (w) (while (if w x y) (setq x (f w)) (when z (setq z w))))) (unless x (f 2)))` -/

/-- A name. -/
def word (name : String) : Reader.Ast := .identifier (ascii name)

def tangled : Reader.Ast := .expression [
  .expression [word "var", word "x", .int 1],
  .expression [word "defun", word "f", .expression [word "y", word "&rest", word "z"],
    .expression [word "lambda", .expression [word "w"],
      .expression [word "while", .expression [word "if", word "w", word "x", word "y"],
        .expression [word "setq", word "x", .expression [word "f", word "w"]],
        .expression [word "when", word "z", .expression [word "setq", word "z", word "w"]]]]],
  .expression [word "unless", word "x", .expression [word "f", .int 2]]]

/-- The state of the compiler after it. -/
def tangledState : Option Compile.CState :=
  match Compile.compileAST ⟨Trie.init (-1), 100⟩ 100 tangled Compile.CState.init.renew with
  | .ok () s => some s
  | _ => none

/-- Its code. -/
def tangledCode : List Ins := [
  .pushInteger 1, .pushIndex 1, .pop 1, .jump 2, .label 3, .jump 4, .label 5, .pushGlobal 0, .pushIndex 2,
  .funcall 2 1, .setUpvalue 0 1, .pop 2, .pushUpvalue 1, .brnz 6 0, .nil, .jump 7, .label 6, .pushIndex 2,
  .setUpvalue 1 1, .label 7, .move 1 2, .pop 1, .pop 1, .label 4, .pushIndex 1, .brnz 8 0, .pushUpvalue 2,
  .jump 9, .label 8, .pushUpvalue 0, .label 9, .brnz 5 2, .nil, .return_ 1, .label 2, .jump 0, .label 1,
  .pushClosure false 3 1 [-1, 1, 2], .releaseUpvalues [2, 3], .return_ 2, .label 0, .pushClosure true 1 1 [1],
  .pushIndex 1, .pop 1, .pushIndex 2, .brnz 10 0, .pushIndex 2, .pushInteger 2, .funcall 4 1, .move 1 2, .pop 1,
  .jump 11, .label 10, .nil, .label 11, .move 1 2, .pop 1, .releaseUpvalues [3], .move 1 3, .pop 2, .halt]

theorem tangled_state : (tangledState.map fun s => (s.gensymNumber, s.scopes.runtime.labelNumber, s.assembly)) =
    some (12, 12, tangledCode) := by decide +kernel

theorem tangled_compiles : ∃ s, Compile.compileAST ⟨Trie.init (-1), 100⟩ 100 tangled Compile.CState.init.renew = .ok () s ∧
    s.gensymNumber = 12 ∧ s.scopes.runtime.labelNumber = 12 ∧ s.assembly = tangledCode := by
  have h := tangled_state
  rcases hs : tangledState with _ | s
  · rw [hs] at h; cases h
  · rw [hs] at h
    simp only [Option.map_some, Option.some.injEq, Prod.mk.injEq] at h
    refine ⟨s, ?_, h⟩
    unfold tangledState at hs
    split at hs
    · rename_i e
      cases hs
      exact e
    · cases hs

/-- It has code with addresses of fixed size, which leads only to where its instructions start: the hypotheses of the
theorems are met. -/
example : ∃ s' bytes, Compile.compileAST ⟨Trie.init (-1), 100⟩ 100 tangled Compile.CState.init.renew = .ok () s' ∧
    assemble ⟨false, false, false⟩ s'.scopes.runtime.labelNumber s'.assembly = .ok bytes ∧ Whole bytes := by
  obtain ⟨s', hc, h1, h2, h3⟩ := tangled_compiles
  have hg : s'.gensymNumber ≤ 2 ^ 64 := by rw [h1]; decide
  obtain ⟨bytes, hb⟩ := C52_assembles _ _ _ _ s' ⟨false, false, false⟩ hc hg
  have hlen : bytes.length < 2 ^ 31 := by
    have : (match assemble ⟨false, false, false⟩ 12 tangledCode with | .ok b => decide (b.length < 2 ^ 31) | _ => false) = true := by
      decide +kernel
    rw [h2, h3] at hb
    rw [hb] at this
    simpa using this
  obtain ⟨_, -, h, -⟩ := C45_accepted_partial _ _ _ _ s' ⟨false, false, false⟩ bytes hc hg
    (C24_fixed_size _ _ _ _ rfl hb hlen) (by
      show ∀ i ∈ s'.assembly, _
      rw [h3]
      intro i hi
      simp only [tangledCode, List.mem_cons, List.not_mem_nil, or_false] at hi
      rcases hi with rfl | rfl | rfl | rfl | rfl | rfl | rfl | rfl | rfl | rfl | rfl | rfl | rfl | rfl | rfl | rfl | rfl | rfl | rfl | rfl | rfl | rfl | rfl | rfl | rfl | rfl | rfl | rfl | rfl | rfl | rfl | rfl | rfl | rfl | rfl | rfl | rfl | rfl | rfl | rfl | rfl | rfl | rfl | rfl | rfl | rfl | rfl | rfl | rfl | rfl | rfl | rfl | rfl | rfl | rfl | rfl | rfl | rfl | rfl | rfl | rfl <;>
        simp [InFormat, SmallWhereNeeded, Word, Octet])
  exact ⟨s', bytes, hc, hb, h⟩

#print axioms C52_labels
#print axioms C52_assembles
#print axioms C52_loads
#print axioms C45_accepted_partial

end DuckLisp.Props
