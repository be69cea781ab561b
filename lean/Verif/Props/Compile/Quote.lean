import Verif.Spec.Quote
import Verif.Props.Compile.Eval

/-!
# C20: `quote` builds the quoted datum
-/

namespace DuckLisp.Props

open DuckLisp DuckLisp.VM DuckLisp.Asm DuckLisp.Compile DuckLisp.Spec DuckLisp.Reader

theorem datum_quoted (fl : FloatOps) {assignable : Bytes → Bool} {e : Ast} (h : ShortTexts e) :
    Eval.datum ⟨fl, true, assignable⟩ e = .ok (quoted e) := by
  induction h with
  | bool b => rw [Eval.datum, quoted, Eval.boolean]
  | int i => rw [Eval.datum, quoted]
  | float b => rw [Eval.datum, quoted]
  | string s hs => rw [Eval.datum, quoted, Eval.text, if_pos ⟨rfl, by omega⟩]
  | symbol x hs => rw [Eval.datum, quoted, if_pos ⟨rfl, hs⟩]
  | list es hall ih =>
    rw [Eval.datum, quoted]
    clear hall
    induction es with
    | nil => rw [Eval.data, quotedList]
    | cons e es ih' =>
      rw [Eval.data, ih' (fun e he => ih e (List.mem_cons_of_mem _ he)), quotedList]
      show Eval.Result.bind (Eval.datum _ e) _ = _
      rw [ih e List.mem_cons_self]
      rfl

/-- What the code of a quoted tree consists of. -/
def QuotePlain : Ins → Prop
  | .pushBoolean _ | .pushInteger _ | .pushFloat _ | .pushString .. | .pushSymbol .. | .nil | .cons .. => True
  | _ => False

/-- Quoted trees, and forms that stand for themselves. -/
def QuoteData : Piece → Prop
  | .quoted e => Datum e
  | .quotes es => ∀ e ∈ es, Datum e
  | .form e => Datum e ∧ (∀ x, e ≠ .identifier x) ∧ ∀ es, e ≠ .expression es
  | _ => False

theorem quotePlain_code [Keys] {k bs L l code bs' L' l'} (h : Code k bs L l code bs' L' l') :
    QuoteData k → ∀ i ∈ code, QuotePlain i := by
  induction h
  case bool | int | float | string | quotedName =>
    intro _ i hi
    rw [List.mem_singleton] at hi
    subst hi
    trivial
  case quotedForm h1 h2 _ ih => exact fun hk => ih ⟨hk, h1, h2⟩
  case quotedList ih =>
    intro hk
    simp only [List.forall_mem_append, List.forall_mem_singleton]
    refine ⟨trivial, ih ?_⟩
    cases hk
    assumption
  case quotesNil => intro _ i hi; cases hi
  case quotesCons ih ih2 =>
    intro hk
    have h := List.forall_mem_cons.1 hk
    simp only [List.forall_mem_append, List.forall_mem_singleton]
    exact ⟨⟨ih h.2, ih2 h.1⟩, trivial⟩
  all_goals
    intro hk
    first
    | exact absurd hk id
    | exact absurd rfl (hk.2.1 _)
    | exact absurd rfl (hk.2.2 _)

theorem quote_code [Keys] {name : Bytes} {d : Ast} {code : List Ins} {L l : Nat} (hq : Spelled name "quote") (hd : Datum d)
    (h : Code (.form (.expression [.identifier name, d])) [[]] 0 0 code [[]] L l) : ∀ i ∈ code, QuotePlain i := by
  have key := keyword_called (by decide +kernel) hq
  cases h
  case quote h => exact quotePlain_code h hd
  case scope ho _ => cases ho
  case op1 hg _ =>
    have key : generator name = some .quote := by rcases hq with rfl | rfl <;> decide +kernel
    rw [key] at hg
    cases hg
  all_goals
    exfalso
    have clash : ∀ k : String, k ∈ Eval.keywords → k ≠ "quote" → ¬ Spelled name k := fun k h1 h2 h3 =>
      h2 (Option.some.inj ((keyword_called h1 h3).symm.trans key))
    first
    | exact clash "declare" (by decide +kernel) (by decide) (by assumption)
    | exact clash "list" (by decide +kernel) (by decide) (by assumption)
    | exact clash "vector" (by decide +kernel) (by decide) (by assumption)
    | exact clash "when" (by decide +kernel) (by decide) (by assumption)
    | exact clash "unless" (by decide +kernel) (by decide) (by assumption)
    | exact clash "while" (by decide +kernel) (by decide) (by assumption)
    | exact clash "lambda" (by decide +kernel) (by decide) (by assumption)
    | exact clash "funcall" (by decide +kernel) (by decide) (by assumption)
    | exact clash "apply" (by decide +kernel) (by decide) (by assumption)
    | (have hg : generator name = some .quote := by rcases hq with rfl | rfl <;> decide +kernel
       rename_i hcall _ _
       rw [(Keys.callable _ hcall).1] at hg
       cases hg)

theorem plain_whole {code : List Ins} {L : Nat} (h : ∀ i ∈ code, QuotePlain i) :
    (∀ i ∈ code ++ epilogue L ++ [Ins.halt], labelOf i = none ∧ SmallWhereNeeded i ∧ ∀ a n, i ≠ .funcall a n ∧ i ≠ .apply a n) ∧
    ∀ strip, NoGarbage strip (code ++ epilogue L ++ [Ins.halt]) := by
  constructor
  · intro i hi
    rw [List.append_assoc] at hi
    rcases List.mem_append.1 hi with hi | hi
    · have := h i hi
      cases i <;> first | exact absurd this id | exact ⟨rfl, trivial, fun _ _ => ⟨nofun, nofun⟩⟩
    · unfold epilogue at hi
      split at hi
      · simp only [List.cons_append, List.nil_append, List.mem_cons, List.not_mem_nil, or_false] at hi
        rcases hi with rfl | rfl | rfl <;> exact ⟨rfl, trivial, fun _ _ => ⟨nofun, nofun⟩⟩
      · simp only [List.nil_append, List.mem_singleton] at hi
        subst hi
        exact ⟨rfl, trivial, fun _ _ => ⟨nofun, nofun⟩⟩
  · intro strip k i n hi hn hp
    exfalso
    have hlt : ¬ k + 1 < code.length := by
      intro hlt
      rw [List.append_assoc, List.getElem?_append_left hlt] at hn
      exact h _ (List.mem_of_getElem? hn)
    unfold epilogue at hi hn
    split at hn
    · rename_i hL
      rw [if_pos hL, List.append_assoc] at hi
      rw [List.append_assoc, List.getElem?_append_right (by omega)] at hn
      have : k = code.length := by
        match hm : k + 1 - code.length, hn with
        | 0, hn => simp at hn
        | 1, _ => omega
        | 2, hn => simp at hn
        | m + 3, hn => simp at hn
      rw [this, List.getElem?_append_right (Nat.le_refl _)] at hi
      simp at hi
      subst hi
      cases hp
    · rw [List.append_nil, List.getElem?_append_right (by omega)] at hn
      match hm : k + 1 - code.length, hn with
      | 0, hn => simp at hn
      | m + 1, hn => simp at hn

theorem room_plain {code : List Ins} (h : ∀ i ∈ code, labelOf i = none) : room code = code.length := by
  induction code with
  | nil => rfl
  | cons i code ih =>
    have h1 : Spec.Ins.room i = 1 := by
      have := h i (List.mem_cons_self ..)
      cases i <;> first | rfl | cases this
    rw [room_cons, ih fun i hi => h i (List.mem_cons_of_mem _ hi), h1, List.length_cons]
    omega

theorem bounded_word {N : Nat} (hN : N < 2 ^ 31) {i : Ins} (h : Within N i) (hb : labelOf i = none) (hf : ∀ a n, i ≠ .funcall a n ∧ i ≠ .apply a n)
    (hl : LiteralsFit i) : InFormat i := by
  have up : ∀ {x : Int}, Upto N x → Word x := fun h => ⟨h.1, by have := h.2; omega⟩
  cases i
  case pushString => exact ⟨h.1, by obtain ⟨h1, h2⟩ := h; subst h1; exact ⟨by omega, by omega⟩⟩
  case pushSymbol => exact ⟨hl, h.1, by obtain ⟨h1, h2⟩ := h; subst h1; exact ⟨by omega, by omega⟩⟩
  case vector n as => exact ⟨h.1, hl, fun a ha => up (h.2 a ha)⟩
  case setVecElt => exact ⟨up h.1, up h.2.1, up h.2.2⟩
  case substring => exact ⟨up h.1, up h.2.1, up h.2.2⟩
  case makeInstance => exact ⟨up h.1, up h.2.1, up h.2.2⟩
  case brnz => cases hb
  case pushClosure => cases hb
  case funcall => exact absurd rfl (hf _ _).1
  case apply => exact absurd rfl (hf _ _).2
  case setGlobal => exact ⟨up h, hl⟩
  all_goals
    first
    | exact trivial
    | exact absurd h id
    | exact hl
    | exact up h
    | exact ⟨up h.1, up h.2⟩

/-- C20: the code of `(quote d)`, compiled and assembled with any options and run in any machine that is in
order, leaves on top of the stack the value that `d` stands for, unless memory runs out.  `d` is any tree of
constants, strings, names and lists, of any size and depth.

Missing for the whole property: strings and names of 65535 bytes and more, which the compiler cuts after a
warning; integers of more than 32 bits, which the assembler cuts (C22); names with parser actions. -/
theorem C20_quote_partial (cfg : Compile.Config) (n : Nat) (name : Bytes) (d : Ast) (s s' : CState) (opt : Options)
    (bytes : Bytes) (env : VM.Env) (vm : VM)
    (hcb : KeywordsFree cfg) (hq : Spelled name "quote") (hd : Datum d) (hd' : ShortTexts d) (hs : Fresh s)
    (hc : compileAST cfg n (.expression [.identifier name, d]) s = .ok () s') (hg : s'.gensymNumber ≤ 2 ^ 64)
    (ha : assemble opt s'.scopes.runtime.labelNumber s'.assembly = .ok bytes)
    (hlen : s'.assembly.length < 2 ^ 31) (hb : bytes.length < 2 ^ 31) (hl : ∀ i ∈ s'.assembly, LiteralsFit i)
    (hvm : Good vm) (hup : vm.upStack.length = vm.stack.length) (hfree : ¬ Full vm) :
    (∃ N vm' o, (∀ fuel, N ≤ fuel → execute env fuel bytes vm = .ok () vm') ∧ Good vm' ∧
      vm'.stack.take vm.stack.length = vm.stack ∧ vm.stack.length < vm'.stack.length ∧
      vm'.stack.getLast? = some o ∧ Eval.Holds (reading s'.symbols) vm' o (quoted d)) ∨
    MemoryRunsOut env bytes vm := by
  have he : Form (.expression [.identifier name, d]) := .quote _ _ hq hd
  obtain ⟨-, code, L, l, h1, h2, h3⟩ := fresh_code hcb (callsFree_core _) he hs hc hg
  letI : Keys := (Keys.from s'.symbols .core (unclaimed (callsFree_core cfg))).upTo (room s'.assembly)
  obtain ⟨p1, p2⟩ := plain_whole (L := L) (quote_code hq hd h1)
  rw [← h2] at p1 p2
  have hfmt : ∀ i ∈ s'.assembly, InFormat i ∧ SmallWhereNeeded i := by
    intro i hi
    refine ⟨?_, (p1 i hi).2.1⟩
    refine bounded_word (N := room s'.assembly) (by rw [room_plain fun i hi => (p1 i hi).1]; exact hlen) ?_ (p1 i hi).1
      (p1 i hi).2.2 (hl i hi)
    rw [h2] at hi ⊢
    exact whole_bounded h1 i hi
  have h := C19_memory_partial cfg .core n _ s s' opt bytes env vm 0 (fun _ => false) [] hcb (callsFree_core _) he hs hc hg ha
    (jumpsLand_none ha (fun i hi => (p1 i hi).1) fun _ => hb) hlen hfmt (fun _ => p2 _) (fun _ h => by cases h) noGlobals hvm hup hfree
  have hr : Eval.program ⟨env.fl, true, fun _ => false⟩ 0 [] (.expression [.identifier name, d]) = .ok (quoted d, []) := by
    unfold Eval.program
    rw [eval_quote hq, datum_quoted _ hd']
    rfl
  rw [hr] at h
  refine h.imp_left ?_
  rintro ⟨N, vm', a, b, c, d, e, o, f, g, -⟩
  exact ⟨N, vm', o, a, b, d, e, f, g⟩

/-- `(quote (a ("b" 1) () a))` -/
private def sample : Ast := .expression [.identifier (ascii "a"), .expression [.string (ascii "b"), .int 1],
  .expression [], .identifier (ascii "a")]

private theorem sample_datum : Datum sample := by
  refine .list _ ?_
  simp only [List.forall_mem_cons, List.not_mem_nil, false_imp_iff, implies_true, and_true]
  refine ⟨.symbol _, .list _ ?_, .list _ (by simp), .symbol _⟩
  simp only [List.forall_mem_cons, List.not_mem_nil, false_imp_iff, implies_true, and_true]
  exact ⟨.string _, .int _⟩

private theorem sample_short : ShortTexts sample := by
  refine .list _ ?_
  simp only [List.forall_mem_cons, List.not_mem_nil, false_imp_iff, implies_true, and_true]
  refine ⟨.symbol _ (by decide +kernel), .list _ ?_, .list _ (by simp), .symbol _ (by decide +kernel)⟩
  simp only [List.forall_mem_cons, List.not_mem_nil, false_imp_iff, implies_true, and_true]
  exact ⟨.string _ (by decide +kernel), .int _⟩

/-- The hypotheses are met by this program, with all optimisations, in a new machine. -/
example (env : VM.Env) (m : Nat) (hm : m + 1 < 2 ^ 60) : ∃ s' bytes,
    compileAST ⟨Trie.init (-1), 100⟩ 100 (.expression [.identifier (ascii "quote"), sample]) .init = .ok () s' ∧
    assemble {} s'.scopes.runtime.labelNumber s'.assembly = .ok bytes ∧
    (MemoryRunsOut env bytes (init (m + 1)) ∨ ∃ N vm' o,
      (∀ fuel, N ≤ fuel → execute env fuel bytes (init (m + 1)) = .ok () vm') ∧ vm'.stack.getLast? = some o ∧
      Eval.Holds (reading s'.symbols) vm' o (.pair (.symbol (ascii "a"))
        (.pair (.pair (.string (ascii "b")) (.pair (.int 1) .nil))
          (.pair .nil (.pair (.symbol (ascii "a")) .nil))))) := by
  obtain ⟨s', hs'⟩ := Option.isSome_iff_exists.1
    (by decide +kernel : (compiled (.expression [.identifier (ascii "quote"), sample])).isSome = true)
  have key : ∀ p : CState → Bool, (compiled (.expression [.identifier (ascii "quote"), sample])).all p = true →
      p s' = true := by
    intro p hp
    rw [hs'] at hp
    exact hp
  have hq : Spelled (ascii "quote") "quote" := .inl rfl
  have hg : s'.gensymNumber ≤ 2 ^ 64 :=
    of_decide_eq_true (key (fun s => s.gensymNumber ≤ 2 ^ 64) (by decide +kernel))
  have hlen : s'.assembly.length < 2 ^ 31 :=
    of_decide_eq_true (key (fun s => s.assembly.length < 2 ^ 31) (by decide +kernel))
  have hl : ∀ i ∈ s'.assembly, LiteralsFit i :=
    of_decide_eq_true (key (fun s => ∀ i ∈ s.assembly, LiteralsFit i) (by decide +kernel))
  obtain ⟨bytes, ha⟩ := C19_assembles _ .core _ _ _ _ {} (keywordsFree_none 100) (callsFree_core _) (.quote _ _ hq sample_datum) fresh_init
    (compiled_ok hs') hg
  have hb : bytes.length < 2 ^ 31 := by
    have := key (fun s => match assemble {} s.scopes.runtime.labelNumber s.assembly with
      | .ok bytes => decide (bytes.length < 2 ^ 31)
      | _ => false) (by decide +kernel)
    rw [ha] at this
    exact of_decide_eq_true this
  have h := C20_quote_partial _ _ _ sample _ s' {} bytes env (init (m + 1)) (keywordsFree_none 100) hq sample_datum
    sample_short fresh_init (compiled_ok hs') hg ha hlen hb hl (init_good _ hm) rfl (fun h => init_free m h.1)
  refine ⟨s', bytes, compiled_ok hs', ha, h.symm.imp_right ?_⟩
  rintro ⟨N, vm', o, h1, -, -, -, h2, h3⟩
  exact ⟨N, vm', o, h1, h2, h3⟩

#print axioms C20_quote_partial

end DuckLisp.Props
