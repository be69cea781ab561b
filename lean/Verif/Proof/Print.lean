import Verif.Model.Print
import Verif.Spec.Print
import Verif.Spec.Reader
import Verif.Props.DlString

/-!
# The printer: helper lemmas
-/

namespace DuckLisp.Print

open DuckLisp DuckLisp.Reader DuckLisp.DlString DuckLisp.Spec

theorem fromPtrdiff_append (out : Bytes) (i : Int) : fromPtrdiff out i = out ++ fromPtrdiff [] i := by
  unfold fromPtrdiff
  split
  · simp
  · split <;> simp

mutual
theorem print_append : ∀ (e : Ast) (out : Bytes), print out e = out ++ print [] e
  | .bool _, out => by simp [print, printBool, fromBool]
  | .float _, out => by simp [print, printFloat]
  | .garbage, out => by simp [print, printFloat]
  | .int i, out => by
    simp only [print, printInteger]
    rw [fromPtrdiff_append (_ ++ _), fromPtrdiff_append ([] ++ _ ++ _ ++ _ ++ _ ++ _ ++ _)]
    simp
  | .string _, out => by simp [print, printString]
  | .callback _, out => by simp [print, printIdentifier]
  | .identifier _, out => by simp [print, printIdentifier]
  | .literal es, out => by
    simp only [print]
    rw [printAll_append es (_ ++ _), printAll_append es ([] ++ _ ++ _ ++ _ ++ _ ++ _ ++ _)]
    simp [typeName]
  | .expression es, out => by
    simp only [print]
    rw [printAll_append es (_ ++ _), printAll_append es ([] ++ _ ++ _ ++ _ ++ _ ++ _ ++ _)]
    simp [typeName]
theorem printAll_append : ∀ (es : List Ast) (out : Bytes), printAll out es = out ++ printAll [] es
  | [], out => by simp [printAll]
  | [e], out => by simp only [printAll]; exact print_append e out
  | e :: e' :: es, out => by
    simp only [printAll]
    rw [printAll_append (e' :: es), print_append e out, printAll_append (e' :: es) (print [] e ++ _)]
    simp
end

/-! ### Texts up to a delimiter -/

theorem split_at {c : Byte} : ∀ {a b x y : Bytes}, c ∉ a → c ∉ b → a ++ c :: x = b ++ c :: y → a = b ∧ x = y
  | [], [], x, y, _, _, h => ⟨rfl, by simpa using h⟩
  | [], b :: bs, x, y, _, hb, h => by
    simp only [List.nil_append, List.cons_append, List.cons.injEq] at h
    exact absurd (h.1 ▸ List.mem_cons_self) hb
  | a :: as, [], x, y, ha, _, h => by
    simp only [List.nil_append, List.cons_append, List.cons.injEq] at h
    exact absurd (h.1 ▸ List.mem_cons_self) ha
  | a :: as, b :: bs, x, y, ha, hb, h => by
    simp only [List.cons_append, List.cons.injEq] at h
    simp only [List.mem_cons, not_or] at ha hb
    obtain ⟨rfl, h⟩ := h
    obtain ⟨rfl, h'⟩ := split_at ha.2 hb.2 h
    exact ⟨rfl, h'⟩

theorem digits_brace {P : Byte → Nat → Prop} {base : Nat} (hP : ∀ d n, P d n → d ≠ 125) {s : Bytes} {n : Nat} (h : Digits P base s n) :
    125 ∉ s := by
  induction h with
  | nil => simp
  | snoc _ hd ih => simp [ih, (hP _ _ hd).symm]

/-! ### What is printed, in parts -/

/-- The names of the types. -/
def names : List Bytes :=
  [ascii "duckLisp_ast_type_bool", ascii "duckLisp_ast_type_float", ascii "duckLisp_ast_type_int",
    ascii "duckLisp_ast_type_string", ascii "duckLisp_ast_type_callback", ascii "duckLisp_ast_type_identifier",
    ascii "duckLisp_ast_type_literalExpression", ascii "duckLisp_ast_type_expression"]

/-- Which of them. -/
def tag : Ast → Fin 8
  | .bool _ => 0
  | .float _ | .garbage => 1
  | .int _ => 2
  | .string _ => 3
  | .callback _ => 4
  | .identifier _ => 5
  | .literal _ => 6
  | .expression _ => 7

theorem names_inj : ∀ i j : Fin 8, names[i.val]? = names[j.val]? → i = j := by decide +kernel

theorem names_comma : ∀ i : Fin 8, ∀ n ∈ names[i.val]?, 44 ∉ n := by decide +kernel

theorem typeName_eq (e : Ast) : names[(tag e).val]? = some (typeName e) := by cases e <;> rfl

/-- What is printed for the value. -/
def content : Ast → Bytes
  | .bool b => printBool [] b
  | .float _ | .garbage => printFloat []
  | .int i => printInteger [] i
  | .string s => printString [] s
  | .callback s | .identifier s => printIdentifier [] s
  | .literal es | .expression es => printAll (ascii "(duckLisp_ast_expression_t) {") es ++ ascii "}"

theorem comma : ascii ", " = [44, 32] := by decide +kernel
theorem brace : ascii "}" = [125] := by decide +kernel
theorem quoteMark : ascii "\"" = [34] := by decide +kernel

theorem print_eq (e : Ast) : print [] e = ascii "(duckLisp_ast_compoundExpression_t) {" ++ (ascii "type = " ++
    (typeName e ++ 44 :: (32 :: (ascii "value = " ++ (content e ++ [125]))))) := by
  cases e with
  | int i =>
    simp only [print, content, printInteger, comma, brace]
    rw [fromPtrdiff_append (_ ++ _), fromPtrdiff_append ([] ++ ascii "(duckLisp_ast_integer_t) {")]
    simp
  | literal es =>
    simp only [print, content, comma, brace]
    rw [printAll_append es (_ ++ _), printAll_append es (ascii "(duckLisp_ast_expression_t) {")]
    simp
  | expression es =>
    simp only [print, content, comma, brace]
    rw [printAll_append es (_ ++ _), printAll_append es (ascii "(duckLisp_ast_expression_t) {")]
    simp
  | _ => simp [print, content, comma, brace, printBool, printFloat, printString, printIdentifier, fromBool]

theorem parts {e e' : Ast} {r r' : Bytes} (h : print [] e ++ r = print [] e' ++ r') :
    tag e = tag e' ∧ content e ++ 125 :: r = content e' ++ 125 :: r' := by
  rw [print_eq, print_eq] at h
  simp only [List.append_assoc, List.append_cancel_left_eq, List.cons_append] at h
  obtain ⟨h1, h2⟩ := split_at (names_comma _ _ (typeName_eq e)) (names_comma _ _ (typeName_eq e')) h
  refine ⟨names_inj _ _ (by rw [typeName_eq, typeName_eq, h1]), ?_⟩
  simpa using h2

theorem quoted_inj {p s s' r r' : Bytes} (hs : 34 ∉ s) (hs' : 34 ∉ s')
    (h : p ++ ascii "\"" ++ s ++ ascii "\"" ++ ascii "}" ++ 125 :: r =
      p ++ ascii "\"" ++ s' ++ ascii "\"" ++ ascii "}" ++ 125 :: r') : s = s' ∧ r = r' := by
  rw [quoteMark, brace] at h
  simp only [List.append_assoc, List.append_cancel_left_eq, List.cons_append, List.nil_append, List.cons.injEq, true_and] at h
  obtain ⟨h1, h2⟩ := split_at hs hs' h
  exact ⟨h1, by simpa using h2⟩

theorem print_head (e : Ast) : ∃ t, print [] e = 40 :: t := by
  rw [print_eq, show ascii "(duckLisp_ast_compoundExpression_t) {" = 40 :: ascii "duckLisp_ast_compoundExpression_t) {"
    by decide +kernel]
  exact ⟨_, rfl⟩

/-- What follows the first element. -/
def following : List Ast → Bytes
  | [] => []
  | e :: es => 44 :: 32 :: printAll [] (e :: es)

theorem printAll_cons (e : Ast) (es : List Ast) : printAll [] (e :: es) = print [] e ++ following es := by
  cases es with
  | nil => simp [printAll, following]
  | cons a as =>
    rw [printAll, printAll_append, comma, following]
    simp
    simp

theorem printAll_head (e : Ast) (es : List Ast) : ∃ t, printAll [] (e :: es) = 40 :: t := by
  obtain ⟨t, ht⟩ := print_head e
  exact ⟨_, by rw [printAll_cons, ht]; rfl⟩

/-! ### Numbers -/

theorem decDigit_ne {d : Byte} {n : Nat} (h : DecDigit d n) : d ≠ 125 := by
  cases h with
  | mk _ h => revert n; decide

theorem hexDigit_ne {d : Byte} {n : Nat} (h : HexDigit d n) : d ≠ 125 := by
  cases h with
  | dec _ h => revert n; decide
  | lower d h => revert d; decide
  | upper d h => revert d; decide

theorem numeral_brace {s : Bytes} {i : Int} (h : Numeral s i) : 125 ∉ s := by
  have key : ∀ {s n}, UNumeral s n → 125 ∉ s := by
    intro s n h
    cases h with
    | dec h _ => exact digits_brace (fun _ _ => decDigit_ne) h
    | hex x hx h =>
      have := digits_brace (fun _ _ => hexDigit_ne) h
      rcases hx with rfl | rfl <;> simp [this]
  cases h with
  | pos h => exact key h
  | neg h => simp [key h]

theorem fromPtrdiff_inj {i j : Int} (hi : -(2 ^ 63) ≤ i ∧ i < 2 ^ 63) (hj : -(2 ^ 63) ≤ j ∧ j < 2 ^ 63)
    (h : fromPtrdiff [] i = fromPtrdiff [] j) : i = j := by
  obtain ⟨s, h1, h2⟩ := C04_print_denotes [] i
  obtain ⟨t, g1, g2⟩ := C04_print_denotes [] j
  rw [h1, g1] at h
  simp only [List.nil_append] at h
  subst h
  have a := C05_accepts_numerals _ _ h2
  have b := C05_accepts_numerals _ _ g2
  rw [a] at b
  unfold ptrdiffMax at b
  split at b <;> split at b
  · injection b
  · cases b
  · cases b
  · omega

theorem integer_inj {i j : Int} (hi : -(2 ^ 63) ≤ i ∧ i < 2 ^ 63) (hj : -(2 ^ 63) ≤ j ∧ j < 2 ^ 63) {r r' : Bytes}
    (h : printInteger [] i ++ 125 :: r = printInteger [] j ++ 125 :: r') : i = j ∧ r = r' := by
  unfold printInteger at h
  rw [fromPtrdiff_append (_ ++ _) i, fromPtrdiff_append (_ ++ _) j, brace] at h
  simp only [List.append_assoc, List.append_cancel_left_eq, List.cons_append, List.nil_append] at h
  have key : ∀ i, 125 ∉ fromPtrdiff [] i := by
    intro i
    obtain ⟨s, h1, h2⟩ := C04_print_denotes [] i
    rw [h1]
    exact numeral_brace h2
  obtain ⟨h1, h2⟩ := split_at (key i) (key j) h
  exact ⟨fromPtrdiff_inj hi hj h1, by simpa using h2⟩

theorem bool_inj {b c : Bool} {r r' : Bytes} (h : printBool [] b ++ 125 :: r = printBool [] c ++ 125 :: r') :
    b = c ∧ r = r' := by
  unfold printBool fromBool at h
  simp only [List.append_assoc, List.append_cancel_left_eq, List.nil_append] at h
  cases b <;> cases c <;> simp [brace] at h ⊢ <;> exact h

/-! ### Trees -/

mutual
theorem print_inj : ∀ (e e' : Ast) (r r' : Bytes), Unquoted e → Unquoted e' → print [] e ++ r = print [] e' ++ r' →
    withoutFloats e = withoutFloats e' ∧ r = r'
  | .bool b, e', r, r', _, he', h => by
    obtain ⟨ht, hc⟩ := parts h
    cases e' <;> first | (simp [tag] at ht; done) | skip
    obtain ⟨rfl, rfl⟩ := bool_inj hc
    exact ⟨rfl, rfl⟩
  | .float _, e', r, r', _, he', h => by
    obtain ⟨ht, hc⟩ := parts h
    cases e' <;> first | (simp [tag] at ht; done) | (simp only [content, List.append_cancel_left_eq] at hc; exact ⟨rfl, by simpa using hc⟩)
  | .garbage, e', r, r', _, he', h => by
    obtain ⟨ht, hc⟩ := parts h
    cases e' <;> first | (simp [tag] at ht; done) | (simp only [content, List.append_cancel_left_eq] at hc; exact ⟨rfl, by simpa using hc⟩)
  | .int i, e', r, r', he, he', h => by
    obtain ⟨ht, hc⟩ := parts h
    cases e' <;> first | (simp [tag] at ht; done) | skip
    simp only [Unquoted] at he he'
    obtain ⟨rfl, rfl⟩ := integer_inj he he' hc
    exact ⟨rfl, rfl⟩
  | .string s, e', r, r', he, he', h => by
    obtain ⟨ht, hc⟩ := parts h
    cases e' <;> first | (simp [tag] at ht; done) | skip
    simp only [Unquoted] at he he'
    obtain ⟨rfl, rfl⟩ := quoted_inj he he' hc
    exact ⟨rfl, rfl⟩
  | .callback s, e', r, r', he, he', h => by
    obtain ⟨ht, hc⟩ := parts h
    cases e' <;> first | (simp [tag] at ht; done) | skip
    simp only [Unquoted] at he he'
    obtain ⟨rfl, rfl⟩ := quoted_inj he he' hc
    exact ⟨rfl, rfl⟩
  | .identifier s, e', r, r', he, he', h => by
    obtain ⟨ht, hc⟩ := parts h
    cases e' <;> first | (simp [tag] at ht; done) | skip
    simp only [Unquoted] at he he'
    obtain ⟨rfl, rfl⟩ := quoted_inj he he' hc
    exact ⟨rfl, rfl⟩
  | .literal es, e', r, r', he, he', h => by
    obtain ⟨ht, hc⟩ := parts h
    cases e' <;> first | (simp [tag] at ht; done) | skip
    rename_i es'
    simp only [Unquoted] at he he'
    simp only [content] at hc
    rw [printAll_append es, printAll_append es', brace] at hc
    simp only [List.append_assoc, List.append_cancel_left_eq, List.cons_append, List.nil_append] at hc
    obtain ⟨h1, h2⟩ := printAll_inj es es' _ _ he he' hc
    simp only [withoutFloats, h1]
    exact ⟨trivial, by simpa using h2⟩
  | .expression es, e', r, r', he, he', h => by
    obtain ⟨ht, hc⟩ := parts h
    cases e' <;> first | (simp [tag] at ht; done) | skip
    rename_i es'
    simp only [Unquoted] at he he'
    simp only [content] at hc
    rw [printAll_append es, printAll_append es', brace] at hc
    simp only [List.append_assoc, List.append_cancel_left_eq, List.cons_append, List.nil_append] at hc
    obtain ⟨h1, h2⟩ := printAll_inj es es' _ _ he he' hc
    simp only [withoutFloats, h1]
    exact ⟨trivial, by simpa using h2⟩
theorem printAll_inj : ∀ (es es' : List Ast) (r r' : Bytes), UnquotedAll es → UnquotedAll es' →
    printAll [] es ++ 125 :: r = printAll [] es' ++ 125 :: r' →
    withoutFloatsAll es = withoutFloatsAll es' ∧ r = r'
  | [], es', r, r', _, _, h => by
    cases es' with
    | nil => simpa [printAll, withoutFloatsAll] using h
    | cons e' es' =>
      obtain ⟨t, ht⟩ := printAll_head e' es'
      rw [ht] at h
      simp [printAll] at h
  | e :: es, es', r, r', he, he', h => by
    simp only [UnquotedAll] at he
    cases es' with
    | nil =>
      obtain ⟨t, ht⟩ := printAll_head e es
      rw [ht] at h
      simp [printAll] at h
    | cons e' es' =>
      simp only [UnquotedAll] at he'
      rw [printAll_cons, printAll_cons, List.append_assoc, List.append_assoc] at h
      obtain ⟨h1, h2⟩ := print_inj e e' _ _ he.1 he'.1 h
      cases es with
      | nil =>
        cases es' with
        | nil => simp only [following, List.nil_append, List.cons.injEq, true_and] at h2; simp [withoutFloatsAll, h1, h2]
        | cons => simp [following] at h2
      | cons a as =>
        cases es' with
        | nil => simp [following] at h2
        | cons a' as' =>
          simp only [following, List.cons_append, List.cons.injEq, true_and] at h2
          obtain ⟨g1, g2⟩ := printAll_inj (a :: as) (a' :: as') _ _ he.2 he'.2 h2
          exact ⟨by rw [show withoutFloatsAll (e :: a :: as) = withoutFloats e :: withoutFloatsAll (a :: as) from rfl, h1, g1]; rfl, g2⟩
end

mutual
theorem print_withoutFloats : ∀ (e : Ast) (out : Bytes), print out (withoutFloats e) = print out e
  | .bool _, out | .garbage, out | .int _, out | .string _, out | .callback _, out | .identifier _, out => rfl
  | .float _, out => by simp [withoutFloats, print, typeName]
  | .literal es, out => by simp [withoutFloats, print, typeName, printAll_withoutFloats es]
  | .expression es, out => by simp [withoutFloats, print, typeName, printAll_withoutFloats es]
theorem printAll_withoutFloats : ∀ (es : List Ast) (out : Bytes), printAll out (withoutFloatsAll es) = printAll out es
  | [], out => rfl
  | [e], out => by
    simp only [withoutFloatsAll, printAll]
    exact print_withoutFloats e out
  | e :: e' :: es, out => by
    have := printAll_withoutFloats (e' :: es)
    simp only [withoutFloatsAll, printAll] at this ⊢
    rw [print_withoutFloats e, this]
end

theorem stringBody_unquoted {raw s : Bytes} (h : StringBody raw s) : 92 ∉ raw → 34 ∉ s := by
  induction h with
  | nil => simp
  | plain c h1 h2 _ ih => intro h; simp at h ⊢; exact ⟨fun e => h1 e.symm, ih h.2⟩
  | newline => simp
  | escape => simp

theorem unquoted_of_written {toDouble : Bytes → Option UInt64} {e : Ast} {w : Bytes} (h : Written toDouble e w) :
    92 ∉ w → Unquoted e := by
  refine Written.rec (toDouble := toDouble) (motive_1 := fun e w _ => 92 ∉ w → Unquoted e)
    (motive_2 := fun es r _ => 92 ∉ r → UnquotedAll es)
    ?_ ?_ ?_ ?_ ?_ ?_ ?_ ?_ ?_ ?_ ?_ ?_ ?_ h
  all_goals simp only [Unquoted, UnquotedAll, List.mem_cons, List.mem_append, not_or]
  · exact fun _ => trivial
  · exact fun _ => trivial
  · intro n w _ hr _
    omega
  · exact fun _ _ _ => trivial
  · exact fun h hb => stringBody_unquoted h hb.2.1
  · exact fun h _ hq => absurd (h.symbols _ hq) (by decide)
  · exact fun _ h _ hq => absurd (h _ hq) (by decide)
  · exact fun _ => trivial
  · exact fun _ ih hb => ih hb.2.1
  · exact fun _ => trivial
  · exact fun _ ih hb => ih hb.2.2.1
  · exact fun _ _ => trivial
  · exact fun _ _ _ _ ih1 ih2 hb => ⟨ih1 hb.2.1, ih2 hb.2.2⟩

end DuckLisp.Print
