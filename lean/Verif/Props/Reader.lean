import Verif.Proof.Reader.Print

/-! # C09, C10, C11, C12, C17: reading source text -/

namespace DuckLisp.Reader
open DuckLisp.DlString DuckLisp.Spec

/-! ## C09 -/

/-- **C09, what is written is read.** Whenever the text `w` denotes the tree `e`, then wherever `w` stands in
a source text, after any white space and comments, with anything after it that ends the form, the reader
returns exactly `e`, stops exactly after `w`, reports nothing and leaves the counter alone. -/
theorem C09_reads (cfg : Config) (hact : NoActions cfg) {e : Ast} {w : Bytes} (h : Written cfg.toDouble e w)
    (pre sep post : Bytes) (hsep : Sep sep) (hpost : Stops e post) (s : RState)
    (hh : s.depth + height e < cfg.maxDepth) (n : Nat) (hn : height e ≤ n) :
    compound cfg (pre ++ sep ++ w ++ post) n pre.length s = .ok (e, (pre ++ sep ++ w).length) s := by
  have := reads_written (pre ++ sep ++ w ++ post) hact h sep hsep pre.length post n s (by simp) hpost hh hn
  rw [this]
  simp

/-- **C09, whole reads.** `duckLisp_read` returns the tree, with the hash signs of callbacks and literal
expressions dropped, for every tree nested less deeply than the limit. -/
theorem C09_read (cfg : Config) (hact : NoActions cfg) {e : Ast} {w : Bytes} (h : Written cfg.toDouble e w)
    (pre sep post : Bytes) (hsep : Sep sep) (hpost : Stops e post) (hh : height e < cfg.maxDepth) (s : RState) :
    read cfg (pre ++ sep ++ w ++ post) pre.length s = .ok (postprocess e) { s with depth := 0 } := by
  simp only [read]
  rw [C09_reads cfg hact h pre sep post hsep hpost { s with depth := 0 } (by simpa using hh) _ (by omega)]

/-- Trees without hash signs come back as they are. -/
theorem C09_read_plain (cfg : Config) (hact : NoActions cfg) {e : Ast} {w : Bytes}
    (h : Written cfg.toDouble e w) (hp : Plain e) (pre sep post : Bytes) (hsep : Sep sep) (hpost : Stops e post)
    (hh : height e < cfg.maxDepth) (s : RState) :
    read cfg (pre ++ sep ++ w ++ post) pre.length s = .ok e { s with depth := 0 } := by
  rw [C09_read cfg hact h pre sep post hsep hpost hh s, postprocess_plain e hp]

/-- **C09, printing then reading** (partial: the smallest integer, floating point numbers and names that look
like something else are left out, see `C09_true_inside_a_name`, `C09_point_hangs`).  Every tree of booleans,
integers, strings, names, callbacks, expressions and literal expressions is read back from its canonical
form. -/
theorem C09_print_read_partial (cfg : Config) (hact : NoActions cfg) (e : Ast) (he : Printable e)
    (pre post : Bytes) (hpost : Stops e post) (s : RState) (hh : s.depth + height e < cfg.maxDepth)
    (n : Nat) (hn : height e ≤ n) :
    compound cfg (pre ++ print (fromPtrdiff []) escape e ++ post) n pre.length s =
      .ok (e, (pre ++ print (fromPtrdiff []) escape e).length) s := by
  have := C09_reads cfg hact (print_written e he) pre [] post .nil hpost s hh n hn
  simpa using this

/-- The notation is unambiguous: two trees written the same way are the same tree. -/
theorem C09_unambiguous (arith : Arith UInt64) {e e' : Ast} {w : Bytes}
    (h : Written (valueOf arith) e w) (h' : Written (valueOf arith) e' w) : e = e' := by
  have hs : ∀ e : Ast, Stops e [32] := by
    intro e
    cases e <;> first | trivial | exact List.cons_ne_nil _ _ | exact ⟨32, [], rfl, by decide⟩
  let cfg : Config := ⟨[], height e + height e' + 1, arith, fun _ => none⟩
  have h1 := C09_reads cfg (fun _ => rfl) h [] [] [32] .nil (hs e) {} (show 0 + height e < _ by simp [cfg]; omega)
    (height e + height e') (by omega)
  have h2 := C09_reads cfg (fun _ => rfl) h' [] [] [32] .nil (hs e') {} (show 0 + height e' < _ by simp [cfg]; omega)
    (height e + height e') (by omega)
  rw [h1] at h2
  cases h2
  rfl

/-- A host without parser actions and whose numbers are all zero, for the examples. -/
def exampleConfig : Config := ⟨[102], 10, ⟨fun _ => 0, fun _ _ => 0, fun _ _ => 0, fun _ _ => 0, fun _ => 0⟩, fun _ => none⟩

/-- **C09 fails for names that begin like a boolean**: `truer` is read as `true`, with `r` left over. -/
theorem C09_true_inside_a_name :
    compound exampleConfig [116, 114, 117, 101, 114, 32] 5 0 {} = .ok (.bool true, 4) {} := by rfl

/-- **C09 fails at the end of the text**: reading `(1.` never ends. -/
theorem C09_point_hangs : read exampleConfig [40, 49, 46] 0 {} = .diverge := by rfl

/-- An opening parenthesis that is never closed, as in `(a`, makes the reader leave its text (undefined
behaviour) instead of reporting the error. -/
theorem C09_unmatched_parenthesis : read exampleConfig [40, 97] 0 {} = .ub := by rfl

/-- A number at the end of the text, `12`, makes the reader leave its text as well. -/
theorem C09_number_at_the_end : read exampleConfig [49, 50] 0 {} = .ub := by rfl

/-- `#()` at the end of the text is not read as the empty literal expression but as a nameless callback. -/
theorem C09_literal_at_the_end :
    compound exampleConfig [35, 40, 41] 5 0 {} = .ok (.callback [], 1) {} := by rfl

/-- `(print "a\"b" -7 #(x))` is a tree the theorems cover. -/
example : Printable (.expression [.identifier [112, 114, 105, 110, 116], .string [97, 34, 98], .int (-7),
    .literal [.identifier [120]]]) := by
  refine ⟨?_, trivial, (show (-7 : Int).natAbs < 2 ^ 63 by decide), ⟨?_, trivial⟩, trivial⟩
  · exact name_of_first (by decide) (by decide) (by decide) (by decide) (by decide) (by decide) (by decide)
  · exact name_of_first (by decide) (by decide) (by decide) (by decide) (by decide) (by decide) (by decide)

/-- And this is how it is written. -/
example : print (fromPtrdiff []) escape (.expression [.identifier [112, 114, 105, 110, 116], .string [97, 34, 98],
    .int (-7), .literal [.identifier [120]]]) =
    [40, 112, 114, 105, 110, 116, 32, 34, 97, 92, 34, 98, 34, 32, 45, 55, 32, 35, 40, 120, 41, 41] := by
  decide +kernel

/-! ## C10 -/

/-- **C10, before a form.** White space and comments before a form change nothing: reading from before them
and reading from after them give the same outcome - tree, position, error, log - whatever follows. -/
theorem C10_skipped (cfg : Config) (pre sep : Bytes) (hsep : Sep sep) (c : Byte) (t : Bytes)
    (hc : blank c = false) (hc' : c ≠ 59) (s : RState) (hd : s.depth + 1 < cfg.maxDepth) (n : Nat) :
    compound cfg (pre ++ sep ++ c :: t) n pre.length s =
      compound cfg (pre ++ sep ++ c :: t) n (pre ++ sep).length s := by
  cases n with
  | zero => rfl
  | succ n =>
    rw [compound_succ, compound_succ, counted_run hd, counted_run hd]
    refine congrArg uncount ?_
    refine (bind_ok (irrelevant_sep (t := t) hsep (by simp) hc hc' _)).trans ?_
    refine Eq.trans ?_ (bind_ok (irrelevant_sep (t := t) (sep := []) .nil (by simp) hc hc' _)).symm
    simp only [List.length_append, List.length_nil, Nat.add_zero]

/-- **C10, around the elements of an expression** (partial: an expression without elements may not contain
white space, see `C10_blank_between_parentheses`).  Two ways of writing the same elements, which differ only
in the white space and the comments before, between and after them, read as the same expression. -/
theorem C10_layout_partial (cfg : Config) (hact : NoActions cfg) {e : Ast} {es : List Ast} {body body' : Bytes}
    (h : Row cfg.toDouble (e :: es) body) (h' : Row cfg.toDouble (e :: es) body') (sep sep' post post' : Bytes)
    (hsep : Sep sep) (hsep' : Sep sep') (hh : heightAll (e :: es) + 1 < cfg.maxDepth) (s : RState) :
    read cfg (sep ++ 40 :: (body ++ 41 :: post)) 0 s = read cfg (sep' ++ 40 :: (body' ++ 41 :: post')) 0 s ∧
    read cfg (sep ++ 40 :: (body ++ 41 :: post)) 0 s =
      .ok (postprocess (.expression (e :: es))) { s with depth := 0 } := by
  have h1 := C09_read cfg hact (.expression h) [] sep post hsep trivial (by simpa [height] using hh) s
  have h2 := C09_read cfg hact (.expression h') [] sep' post' hsep' trivial (by simpa [height] using hh) s
  simp only [List.nil_append, List.append_assoc, List.cons_append, List.length_nil] at h1 h2
  exact ⟨h1.trans h2.symm, h1⟩

/-- **C10 fails between the parentheses of an empty expression**: `()` is read, `( )` is an error. -/
theorem C10_blank_between_parentheses :
    (∃ s, read exampleConfig [40, 41] 0 {} = .ok (.expression []) s) ∧
    ∃ s, read exampleConfig [40, 32, 41] 0 {} = .err .invalidValue s :=
  ⟨⟨_, rfl⟩, ⟨_, rfl⟩⟩

/-- **C10 fails at the end of the text**: white space after the last element of an expression that is not
closed, `(() `, takes the reader out of the text. -/
theorem C10_blank_at_the_end : read exampleConfig [40, 40, 41, 32] 0 {} = .ub := by rfl

/-- ` ;c⏎ ` is skipped. -/
example : Sep [32, 59, 99, 10, 9] :=
  .blank 32 (by decide) (.comment [99] 10 (by decide) (.inl rfl) (.blank 9 (by decide) .nil))

/-- `( ;)⏎ 1 ;(⏎)` and `(1)` are two ways of writing the same expression. -/
example : Row (fun _ => none) [.int 1] [32, 59, 41, 10, 32, 49, 32, 59, 40, 10] ∧
    Row (fun _ => none) [.int 1] [49] := by
  have h1 : Written (fun _ => none) (.int 1) [49] := by
    have := print_written (toDouble := fun _ => none) (.int 1) (show (1 : Int).natAbs < 2 ^ 63 by decide)
    have e : print (fromPtrdiff []) escape (.int 1) = [49] := by decide +kernel
    rwa [e] at this
  constructor
  · refine Row.cons (s := [32, 59, 41, 10, 32]) (w := [49]) (r := [32, 59, 40, 10])
      (.blank 32 (by decide) (.comment [41] 10 (by decide) (.inl rfl) (.blank 32 (by decide) .nil))) h1
      (.inr (.inr ⟨32, _, rfl, by decide⟩)) (.nil (.blank 32 (by decide) (.comment [40] 10 (by decide) (.inl rfl) .nil)))
  · exact Row.cons (s := []) (w := [49]) (r := []) .nil h1 (.inr (.inl rfl)) (.nil .nil)

/-! ## C11 -/

/-- **C11, the counter is restored.** However reading a form ends, with a tree or with an error, for every
text, position and limit, the recursion counter is what it was - provided the parser actions of the host see
to that. -/
theorem C11_counter_restored (cfg : Config) (hact : ActionsKeep cfg) (src : Bytes) (i n : Nat) (s s' : RState) :
    (∀ r, compound cfg src n i s = .ok r s' → s'.depth = s.depth) ∧
    ∀ e, compound cfg src n i s = .err e s' → s'.depth = s.depth :=
  ⟨fun r h => ((keeps_compound hact n i s).1 r s' h).1, fun e h => ((keeps_compound hact n i s).2 e s' h).1⟩

/-- Every read starts from zero and ends at zero. -/
theorem C11_read_ends_at_zero (cfg : Config) (hact : ActionsKeep cfg) (src : Bytes) (i : Nat) (s s' : RState) :
    (∀ r, read cfg src i s = .ok r s' → s'.depth = 0) ∧ ∀ e, read cfg src i s = .err e s' → s'.depth = 0 := by
  have h := keeps_compound (src := src) hact (cfg.maxDepth + 1) i { s with depth := 0 }
  simp only [read]
  cases hc : compound cfg src (cfg.maxDepth + 1) i { s with depth := 0 } with
  | ok r s1 => exact ⟨fun r' hr => by cases hr; exact (h.1 _ _ hc).1, fun _ hr => by cases hr⟩
  | err e s1 => exact ⟨(fun r' hr => by cases hr), fun _ hr => by cases hr; exact (h.2 _ _ hc).1⟩
  | ub => exact ⟨(fun r' hr => by cases hr), fun _ hr => by cases hr⟩
  | diverge => exact ⟨(fun r' hr => by cases hr), fun _ hr => by cases hr⟩

/-- **C11, too deep.** Text that denotes a tree nested as deeply as the limit, or deeper, is refused with
`bufferOverflow`. -/
theorem C11_too_deep (cfg : Config) (hact : NoActions cfg) {e : Ast} {w : Bytes} (h : Written cfg.toDouble e w)
    (pre sep post : Bytes) (hsep : Sep sep) (hpost : Stops e post) (hh : cfg.maxDepth ≤ height e) (s : RState) :
    ∃ s', read cfg (pre ++ sep ++ w ++ post) pre.length s = .err .bufferOverflow s' := by
  obtain ⟨s', h'⟩ := overflows_written (pre ++ sep ++ w ++ post) hact h sep hsep pre.length post (cfg.maxDepth + 1)
    { s with depth := 0 } (by simp) hpost (by simpa using hh) (by omega) (by simp)
  exact ⟨s', by simp only [read]; rw [h']⟩

/-- **C11, not too deep.** For every text whatsoever: if reading fails with `bufferOverflow` then the limit is
one, or the text contains so many opening parentheses that it could be nested that deeply.  All other failures
are `invalidValue`. -/
theorem C11_only_when_deep (cfg : Config) (hact : NoActions cfg) (src : Bytes) (i : Nat) (s s' : RState)
    (e : DlError) (h : read cfg src i s = .err e s') :
    e = .invalidValue ∨ e = .bufferOverflow ∧ cfg.maxDepth ≤ 1 + (src.drop i).count 40 := by
  simp only [read] at h
  cases hc : compound cfg src (cfg.maxDepth + 1) i { s with depth := 0 } with
  | err e1 s1 =>
    rw [hc] at h
    cases h
    rcases (bounded_compound hact (cfg.maxDepth + 1) i { s with depth := 0 }).2 _ _ hc with h | ⟨h1, h2⟩
    · exact .inl h
    · exact .inr ⟨h1, by simpa [parens] using h2⟩
  | ok r s1 => rw [hc] at h; cases h
  | ub => rw [hc] at h; cases h
  | diverge => rw [hc] at h; cases h

/-- **C11, the recursion is bounded.** The reader never calls itself more deeply than the limit allows: any
two bounds on the nesting of calls that are at least the limit give the same outcome. -/
theorem C11_bounded_recursion (cfg : Config) (hact : ActionsKeep cfg) (src : Bytes) (i : Nat) (s : RState)
    (n m : Nat) (hn : 1 ≤ n) (hm : 1 ≤ m) (h1 : cfg.maxDepth ≤ s.depth + n) (h2 : cfg.maxDepth ≤ s.depth + m) :
    compound cfg src n i s = compound cfg src m i s :=
  compound_fuel hact n m i s hn hm h1 h2

/-- `((()))` is nested three deep: it is read with the limit 4 and refused with the limit 3. -/
example : height (.expression [.expression [.expression []]]) = 3 ∧
    (∃ r s, read { exampleConfig with maxDepth := 4 } [40, 40, 40, 41, 41, 41] 0 {} = .ok r s) ∧
    ∃ s, read { exampleConfig with maxDepth := 3 } [40, 40, 40, 41, 41, 41] 0 {} = .err .bufferOverflow s :=
  ⟨by decide, ⟨_, _, rfl⟩, ⟨_, rfl⟩⟩

/-! ## C12 -/

/-- **C12, what a string literal denotes.** A literal is read as exactly the bytes it stands for, provided it
is not the last thing in the text. -/
theorem C12_denotes_partial (cfg : Config) (hact : NoActions cfg) {raw v : Bytes} (h : StringBody raw v)
    (pre sep post : Bytes) (hsep : Sep sep) (hpost : post ≠ []) (hd : 1 < cfg.maxDepth) (s : RState) :
    read cfg (pre ++ sep ++ (34 :: (raw ++ [34])) ++ post) pre.length s = .ok (.string v) { s with depth := 0 } :=
  C09_read_plain cfg hact (.string h) trivial pre sep post hsep hpost hd s

/-- **C12, every byte string.** Every byte string can be written, and is read back from what is written. -/
theorem C12_every_string (cfg : Config) (hact : NoActions cfg) (v pre post : Bytes) (hpost : post ≠ [])
    (hd : 1 < cfg.maxDepth) (s : RState) :
    read cfg (pre ++ (34 :: (escape v ++ [34])) ++ post) pre.length s = .ok (.string v) { s with depth := 0 } := by
  have := C12_denotes_partial cfg hact (escape_body v) pre [] post .nil hpost hd s
  simpa using this

/-- **C12, nothing else.** For every text with a quote at the position read from: if anything is read there it
is a string, the text goes on with a string body that stands for that string and with the closing quote, and
the reader stops right after it. -/
theorem C12_only_literals (cfg : Config) (hact : NoActions cfg) (src t : Bytes) (i n k : Nat) (e : Ast)
    (s s' : RState) (h0 : src.drop i = 34 :: t) (h : compound cfg src n i s = .ok (e, k) s') :
    ∃ raw v post, StringBody raw v ∧ t = raw ++ 34 :: post ∧ e = .string v ∧
      k = i + (34 :: (raw ++ [34])).length := by
  cases n with
  | zero => cases h
  | succ n =>
    by_cases hd : s.depth + 1 < cfg.maxDepth
    · rw [compound_succ, counted_run hd] at h
      replace h := (congrArg uncount (bind_ok (irrelevant_sep (sep := []) .nil (by simpa using h0) (by decide)
        (by decide) _)).symm).trans h
      simp only [List.length_nil, Nat.add_zero] at h
      cases hr : readers cfg src (compound cfg src n) i { s with depth := s.depth + 1 } with
      | ok a s1 =>
        replace h := (congrArg uncount (bind_ok hr).symm).trans h
        obtain ⟨e1, k1⟩ := a
        simp only [] at h
        replace h := (congrArg uncount (bind_ok (runAction_none hact e1 s1)).symm).trans h
        cases h
        obtain ⟨raw, v, post, h1, h2, _, h4, h5, _⟩ := parseString_inv h0 (readers_quote_inv h0 hr)
        exact ⟨raw, v, post, h1, h2, h4, h5⟩
      | err er s1 =>
        replace h := (congrArg uncount (bind_err hr).symm).trans h
        cases h
      | ub =>
        replace h := (congrArg uncount (bind_ub hr).symm).trans h
        cases h
      | diverge =>
        replace h := (congrArg uncount (bind_diverge hr).symm).trans h
        cases h
    · rw [compound_succ] at h
      simp only [counted] at h
      rw [if_pos (by omega)] at h
      obtain ⟨s1, h1, _⟩ := pushSyntax_ok cfg "Max expression recursion depth met."
        (Nat.le_of_lt (lt_of_drop h0)) (i : Int) { s with depth := s.depth + 1 }
      rw [bind_ok h1] at h
      cases h

/-- What a string body stands for is determined by it. -/
theorem C12_functional {raw v v' : Bytes} (h : StringBody raw v) (h' : StringBody raw v') : v = v' := by
  have := C09_unambiguous exampleConfig.arith (.string h) (.string h')
  cases this
  rfl

/-- **C12 fails at the end of the text**: a string literal that is the last thing in the text is refused,
whatever it contains, although it is complete. -/
theorem C12_last_in_text (cfg : Config) {raw v : Bytes} (h : StringBody raw v) (pre : Bytes)
    (hd : 1 < cfg.maxDepth) (s : RState) :
    ∃ s', read cfg (pre ++ (34 :: (raw ++ [34]))) pre.length s = .err .invalidValue s' := by
  obtain ⟨s1, hr⟩ := readers_string_at_end (cfg := cfg) (src := pre ++ (34 :: (raw ++ [34])))
    (inner := compound cfg (pre ++ (34 :: (raw ++ [34]))) cfg.maxDepth) (i := pre.length) h (by simp)
    { s with depth := 1 }
  have := compound_err_of_readers (cfg := cfg) (sep := []) (t := raw ++ [34]) (c := 34) .nil
    (src := pre ++ (34 :: (raw ++ [34]))) (i := pre.length) (n := cfg.maxDepth) (s := { s with depth := 0 })
    (by simp) (by decide) (by decide) hd hr
  exact ⟨_, by simp only [read]; rw [this]⟩

/-- `a\n\"\\` stands for `a`, a line break, a quote and a backslash. -/
example : StringBody [97, 92, 110, 92, 34, 92, 92] [97, 10, 34, 92] :=
  .plain 97 (by decide) (by decide) (.newline (.escape 34 (by decide) (.escape 92 (by decide) .nil)))

/-! ## C17 -/

/-- **C17, the reader.** Whatever is read, however it ends, the error log only grows: what was in it stays. -/
theorem C17_reader (cfg : Config) (hact : ActionsKeep cfg) (src : Bytes) (i : Nat) (s s' : RState) :
    (∀ r, read cfg src i s = .ok r s' → s.errors <+: s'.errors) ∧
    ∀ e, read cfg src i s = .err e s' → s.errors <+: s'.errors := by
  have h := keeps_compound (src := src) hact (cfg.maxDepth + 1) i { s with depth := 0 }
  simp only [read]
  cases hc : compound cfg src (cfg.maxDepth + 1) i { s with depth := 0 } with
  | ok r s1 => exact ⟨fun r' hr => by cases hr; exact (h.1 _ _ hc).2, fun _ hr => by cases hr⟩
  | err e s1 => exact ⟨(fun r' hr => by cases hr), fun _ hr => by cases hr; exact (h.2 _ _ hc).2⟩
  | ub => exact ⟨(fun r' hr => by cases hr), fun _ hr => by cases hr⟩
  | diverge => exact ⟨(fun r' hr => by cases hr), fun _ hr => by cases hr⟩

/-- A report of the reader is separated by a line break from what is in the log. -/
theorem C17_syntax_report (cfg : Config) (src : Bytes) (message : String) (i : Nat) (hi : i ≤ src.length)
    (j : Int) (s : RState) :
    ∃ report s', pushSyntax cfg src message i j s = .ok () s' ∧ s'.depth = s.depth ∧
      s'.errors = (if s.errors = [] then [] else s.errors ++ [10]) ++ (cfg.fileName ++ 58 :: report) := by
  have key : ∀ l : Bytes, (if s.errors = [] then [] else s.errors ++ [10]) ++ cfg.fileName ++ [58] <+: l →
      ∃ report, l = (if s.errors = [] then [] else s.errors ++ [10]) ++ (cfg.fileName ++ 58 :: report) := by
    rintro l ⟨report, rfl⟩
    exact ⟨report, by simp⟩
  simp only [pushSyntax]
  rw [if_neg (by omega)]
  refine (key _ ?_).elim (fun report h => ⟨report, _, rfl, rfl, h⟩)
  simp only []
  repeat apply prefix_append_right
  apply prefix_fromPtrdiff
  repeat apply prefix_append_right
  apply prefix_fromPtrdiff
  have : (if s.errors.length > 0 then s.errors ++ [10] else s.errors) =
      (if s.errors = [] then [] else s.errors ++ [10]) := by
    cases s.errors <;> simp
  rw [this]
  exact List.prefix_refl _

#print axioms C09_reads
#print axioms C09_read
#print axioms C09_read_plain
#print axioms C09_print_read_partial
#print axioms C09_unambiguous
#print axioms C09_true_inside_a_name
#print axioms C09_point_hangs
#print axioms C09_unmatched_parenthesis
#print axioms C09_number_at_the_end
#print axioms C09_literal_at_the_end
#print axioms C10_skipped
#print axioms C10_layout_partial
#print axioms C10_blank_between_parentheses
#print axioms C10_blank_at_the_end
#print axioms C11_counter_restored
#print axioms C11_read_ends_at_zero
#print axioms C11_too_deep
#print axioms C11_only_when_deep
#print axioms C11_bounded_recursion
#print axioms C12_denotes_partial
#print axioms C12_every_string
#print axioms C12_only_literals
#print axioms C12_functional
#print axioms C12_last_in_text
#print axioms C17_reader
#print axioms C17_syntax_report

end DuckLisp.Reader
