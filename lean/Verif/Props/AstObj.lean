import Verif.Proof.AstObj
import Verif.Props.Compile.Quote

/-!
# C46: syntax trees and objects

`objectToAST` makes trees of the results of macros and compile-time code, `astToObject` makes objects of trees
that were read.
-/

namespace DuckLisp.Props

open DuckLisp.VM DuckLisp.Reader DuckLisp.Spec DuckLisp.AstObj DuckLisp.Compile DuckLisp.Asm

/-- C46: an object is converted to the tree `e` exactly if `e` is what the object is when it is written
down. -/
theorem C46_object_to_tree (vm : VM) (o : Obj) (e : Ast) :
    (∃ fuel, objectToAST vm true fuel o = .ok e) ↔ Shown (fun _ _ => True) vm o e := by
  constructor
  · rintro ⟨f, h⟩
    exact (shown_inv vm f).1 o e h
  · intro h
    obtain ⟨N, h⟩ := (objectToAST_of h).1
    exact ⟨N, h N (Nat.le_refl _)⟩

/-- C46: the conversion ends. -/
theorem C46_object_to_tree_ends (ids : Bytes → Nat → Prop) (vm : VM) (o : Obj) (e : Ast) (h : Shown ids vm o e) :
    ∃ N, ∀ fuel, N ≤ fuel → objectToAST vm true fuel o = .ok e := (objectToAST_of h).1

/-- C46: there is only one way to write an object down. -/
theorem C46_one_tree (ids ids' : Bytes → Nat → Prop) (vm : VM) (o : Obj) (e e' : Ast) (h : Shown ids vm o e)
    (h' : Shown ids' vm o e') : e = e' := by
  obtain ⟨N, h⟩ := (objectToAST_of h).1
  obtain ⟨N', h'⟩ := (objectToAST_of h').1
  have h1 := h (N + N') (by omega)
  have h2 := h' (N + N') (by omega)
  rw [h1] at h2
  exact Res.ok.inj h2

/-- C46: in a machine that is in order, the conversion of a value goes wrong only if there is a symbol without
its name or a pair that is not a list in it. -/
theorem C46_wrong_only (vm : VM) (o : Obj) (fuel : Nat) (hvm : Good vm) (ho : ValueOk vm o)
    (h : objectToAST vm true fuel o = .ub) : ∃ z, Inside vm z o ∧ (Stripped z ∨ Improper vm z) := by
  obtain ⟨z, hz, h⟩ := (ub_inv hvm.sound true fuel).1 o ho h
  exact ⟨z, hz, h.imp id And.right⟩

/-- C46: the conversion of compile-time results goes wrong only if there is a symbol without its name in
them. -/
theorem C46_comptime_wrong_only (vm : VM) (o : Obj) (fuel : Nat) (hvm : Good vm) (ho : ValueOk vm o)
    (h : objectToAST vm false fuel o = .ub) : ∃ z, Inside vm z o ∧ Stripped z := by
  obtain ⟨z, hz, h⟩ := (ub_inv hvm.sound false fuel).1 o ho h
  refine ⟨z, hz, h.resolve_right fun h => ?_⟩
  cases h.1

/-- C46: the result of compile-time code is put into the program as a tree with the same value, pairs that are
not lists included; parts of texts become texts of their own.

Missing: symbols, which become variables; truth values other than true and false; texts of more than 65535
bytes. -/
theorem C46_comptime_partial (ids : Eval.Reading) (vm : VM) (o : Obj) (v : Eval.Value) (hvm : Good vm)
    (ho : ValueOk vm o) (h : Eval.Holds ids vm o v) (hv : Nameless v) :
    ∃ e, (∃ N, ∀ fuel, N ≤ fuel → objectToAST vm false fuel o = .ok e) ∧
      ∀ (S : Eval.Rules) F inBlock env, S.memory = true → Eval.eval S F inBlock e env = .ok (wholeTexts v, env) := by
  obtain ⟨e, hw, hN⟩ := consForm_of hvm.sound h ho hv
  exact ⟨e, hN, hw.2⟩

/-- C46: a tree is converted to an object that is the tree when it is written down, with the numbers of the
symbols right.  The names that were in the table keep their numbers, no cell in use changes, and the machine
stays in order.

Missing: that no collection happens is assumed by there being enough free cells; if one happens, the object is
lost (`C46_collected`). -/
theorem C46_tree_to_object_partial (e : Ast) (history : List Bytes) (vm : VM) (he : Proper e) (hvm : Good vm)
    (hfree : cellsFor e ≤ vm.free.length) :
    ∃ o later vm', astToObject e (Tables.createAll .init history) vm =
        .ok (o, Tables.createAll .init (history ++ later)) vm' ∧
      Shown (numbers (Tables.createAll .init (history ++ later))) vm' o (asCode e) ∧ Good vm' ∧ ValueOk vm' o ∧
      vm'.stack = vm.stack ∧ (∀ r, r ∉ vm.free → vm'.heap[r]? = vm.heap[r]? ∧ r ∉ vm'.free) := by
  have ht : Tables.Holds (Tables.createAll .init history) history := by
    simpa using Tables.holds_createAll Tables.holds_init history
  obtain ⟨o, t', vm', h1, h2⟩ := astToObject_ok e he hvm.sound ht hfree
  obtain ⟨later, hl⟩ := h2.made
  have hl' : t' = Tables.createAll .init (history ++ later) := by
    rw [hl]
    simp [Tables.createAll]
  subst hl'
  refine ⟨o, later, vm', h1, h2.shown vm' 0 _ (Grown.refl vm') (Extends.refl _), ⟨h2.sound, h2.finished hvm.finished⟩,
    h2.value, h2.grown.roots.stack, fun r hr => ⟨h2.grown.heap r hr, fun hm => hr ?_⟩⟩
  rw [h2.grown.free] at hm
  exact List.mem_of_mem_drop hm

/-- C46: to objects and back.  A tree comes back as it was, but quoted expressions come back as expressions and
the names of host functions as names. -/
theorem C46_roundtrip_partial (e : Ast) (history : List Bytes) (vm : VM) (he : Proper e) (hvm : Good vm)
    (hfree : cellsFor e ≤ vm.free.length) :
    ∃ o t vm', astToObject e (Tables.createAll .init history) vm = .ok (o, t) vm' ∧
      ∃ N, ∀ fuel, N ≤ fuel → objectToAST vm' true fuel o = .ok (asCode e) := by
  obtain ⟨o, later, vm', h1, h2, -⟩ := C46_tree_to_object_partial e history vm he hvm hfree
  exact ⟨o, _, vm', h1, (objectToAST_of h2).1⟩

/-- C46: so data, which have neither, come back as they were. -/
theorem C46_data (e : Ast) (h : Datum e) : asCode e = e := by
  induction h with
  | list es _ ih =>
      have : asCodeList es = es := by
        induction es with
        | nil => rfl
        | cons e es ihl =>
            rw [asCodeList, ih e (by simp), ihl (fun e he => by simp_all) (fun e he => ih e (by simp [he]))]
      rw [asCode, this]
  | _ => rfl

theorem shown_quoted {ids : Eval.Reading} {vm : VM} (hs : Sound vm) {d : Ast} (hd : Datum d) :
    ∀ {o}, Eval.Holds ids vm o (quoted d) → ValueOk vm o → (∀ z, Inside vm z o → ¬ Stripped z) →
      Shown ids.number vm o d := by
  have lists : ∀ es : List Ast, (∀ e ∈ es, ∀ {o}, Eval.Holds ids vm o (quoted e) → ValueOk vm o →
      (∀ z, Inside vm z o → ¬ Stripped z) → Shown ids.number vm o e) →
      ∀ {o}, Eval.Holds ids vm o (quotedList es) → ValueOk vm o → (∀ z, Inside vm z o → ¬ Stripped z) →
      Shown ids.number vm o (.expression es) := by
    intro es
    induction es with
    | nil =>
        intro _ o h _ _
        rw [quotedList] at h
        cases h
        exact .nil
    | cons e es ih =>
        intro hes o h hv hn
        rw [quotedList] at h
        cases h with
        | @pair r x y _ _ hp hl ha hd =>
            obtain ⟨a', d', x', y', hr, -, -, hx, hy, hvx, hvy⟩ := pair_parts hs hv
            obtain ⟨a'', d'', hr', hx', hy'⟩ := id hp
            rw [hr] at hr'
            cases hr'
            cases part_unique hx hx'
            cases part_unique hy hy'
            exact .pair hp (hes e (by simp) ha hvx fun z hz => hn z (.first hp hz))
              (ih (fun e he => hes e (by simp [he])) hd hvy fun z hz => hn z (.rest hp hz))
  induction hd with
  | bool b =>
      intro o h _ _
      rw [quoted] at h
      cases h
      have := Shown.bool (ids := ids.number) (vm := vm) (if b then 1 else 0)
      cases b <;> simpa using this
  | int i => intro o h _ _; rw [quoted] at h; cases h; exact .int i
  | float i => intro o h _ _; rw [quoted] at h; cases h; exact .float i
  | string s =>
      intro o h hv _
      rw [quoted] at h
      cases h with
      | @string r n _ ht =>
          have := stringBytes_ok hs hv
          rw [ht] at this
          obtain ⟨h1, -⟩ := shown_inv vm 1
          have := h1 (.string (some r) 0 n) (.string s) (by simp [objectToAST, this])
          cases this with
          | string h ho hl => exact .string h ho hl
          | noText => exact .noText
  | symbol name =>
      intro o h hv hn
      rw [quoted] at h
      cases h with
      | @symbol id _ p hid hp =>
          cases p with
          | none => exact absurd ⟨id, rfl⟩ (hn _ .here)
          | some r =>
              obtain ⟨v, hr, hg⟩ := hp r rfl
              have e : (v.getD []).take name.length = name := by rw [hg]; simp
              have := Shown.symbol (ids := ids.number) (vm := vm) (id := id) hr (by rw [hg])
                (by rw [e]; exact hid)
              rw [e] at this
              exact this
  | list es _ ih =>
      intro o h hv hn
      rw [quoted] at h
      exact lists es (fun e he => ih e he) h hv hn

/-- C46: quoted code that a macro returns is the code that was written: run the code of `(quote d)` and convert
what it leaves on the stack.  The exceptions are code assembled without the names of symbols, and memory running
out.

Missing: what is missing in `C20_quote_partial`. -/
theorem C46_quote_partial (cfg : Compile.Config) (n : Nat) (name : Bytes) (d : Ast) (s s' : CState) (opt : Options)
    (bytes : Bytes) (env : VM.Env) (vm : VM)
    (hcb : KeywordsFree cfg) (hq : Spelled name "quote") (hd : Datum d) (hd' : ShortTexts d) (hs : Fresh s)
    (hc : compileAST cfg n (.expression [.identifier name, d]) s = .ok () s') (hg : s'.gensymNumber ≤ 2 ^ 64)
    (ha : assemble opt s'.scopes.runtime.labelNumber s'.assembly = .ok bytes)
    (hlen : s'.assembly.length < 2 ^ 31) (hb : bytes.length < 2 ^ 31) (hl : ∀ i ∈ s'.assembly, LiteralsFit i)
    (hvm : Good vm) (hup : vm.upStack.length = vm.stack.length) (hfree : ¬ Full vm) :
    (∃ N vm' o, (∀ fuel, N ≤ fuel → execute env fuel bytes vm = .ok () vm' ∧
        objectToAST vm' true fuel o = .ok d) ∧ vm'.stack.getLast? = some o) ∨
    (∃ N vm' o z, (∀ fuel, N ≤ fuel → execute env fuel bytes vm = .ok () vm') ∧
      vm'.stack.getLast? = some o ∧ Inside vm' z o ∧ Stripped z) ∨
    MemoryRunsOut env bytes vm := by
  rcases C20_quote_partial cfg n name d s s' opt bytes env vm hcb hq hd hd' hs hc hg ha hlen hb hl hvm hup hfree with
    ⟨N, vm', o, h1, h2, -, -, h5, h6⟩ | h
  · by_cases hz : ∃ z, Inside vm' z o ∧ Stripped z
    · obtain ⟨z, hz, hz'⟩ := hz
      exact .inr (.inl ⟨N, vm', o, z, h1, h5, hz, hz'⟩)
    · refine .inl ?_
      have hv : ValueOk vm' o := h2.sound.stack o (List.mem_of_getLast? h5)
      have := shown_quoted h2.sound hd h6 hv fun z hz1 hz2 => hz ⟨z, hz1, hz2⟩
      obtain ⟨N', h⟩ := (objectToAST_of this).1
      exact ⟨N + N', vm', o, fun fuel hf => ⟨h1 fuel (by omega), h fuel (by omega)⟩, h5⟩
  · exact .inr (.inr h)

/-! ### Where the property fails -/

/-- While it is being made, the pieces of the object are in no place that the collector looks at.  In a machine
with four cells, the tree `("A" 2)` is converted without an error to an object that refers to freed memory. -/
theorem C46_collected : ∃ o t vm', astToObject (.expression [.string [65], .int 2]) .init (init 4) = .ok (o, t) vm' ∧
    objectToAST vm' true 9 o = .ub := by
  have h : (match astToObject (.expression [.string [65], .int 2]) .init (init 4) with
    | .ok (o, _) vm' => (match objectToAST vm' true 9 o with | .ub => true | _ => false)
    | _ => false) = true := by decide +kernel
  split at h
  · rename_i o t vm' e
    refine ⟨o, t, vm', e, ?_⟩
    split at h
    · assumption
    · cases h
  · cases h

/-- A pair that is not a list: `(1 . 2)`. -/
def dotted : VM :=
  { heap := [.cons (some 1) (some 2), .integer 1, .integer 2], free := [], stack := [.list (some 0)] }

/-- The array for the elements of `(1 . 2)` has no room for the element that is written to it. -/
theorem C46_dotted_pair (fuel : Nat) : objectToAST dotted true (fuel + 3) (.list (some 0)) = .ub := rfl

/-- A list that is its own rest. -/
def endless : VM := { heap := [.cons (some 1) (some 0), .integer 1], free := [], stack := [.list (some 0)] }

/-- The conversion of a list that is its own rest does not end. -/
theorem C46_circular (fuel : Nat) : objectToAST endless true fuel (.list (some 0)) = .timeout := by
  have key : ∀ f n, consListLength endless f (some 0) n = .timeout := by
    intro f
    induction f with
    | zero => intro n; rfl
    | succ f ih => intro n; exact ih (n + 1)
  cases fuel with
  | zero => rfl
  | succ f =>
      cases f with
      | zero => rfl
      | succ f =>
          simp only [objectToAST, consToExprAST, if_true, key]
          rfl

/-! ### The hypotheses are met -/

/-- `(a "b" (1) ())` as objects. -/
def listed : VM :=
  { heap := [.cons (some 1) (some 2), .symbol 0 (some 8), .cons (some 3) (some 4), .string (some 9) 0 1,
      .cons (some 5) (some 6), .cons (some 7) none, .cons none none, .integer 1,
      .internalString (some [97]) 1, .internalString (some [98]) 1],
    free := [], stack := [.list (some 0)] }

example : objectToAST listed true 20 (.list (some 0)) =
    .ok (.expression [.identifier [97], .string [98], .expression [.int 1], .expression []]) := rfl

example : Shown (fun _ _ => True) listed (.list (some 0))
    (.expression [.identifier [97], .string [98], .expression [.int 1], .expression []]) :=
  (C46_object_to_tree _ _ _).1 ⟨20, rfl⟩

example : objectToAST listed false 20 (.list (some 4)) = .ok (.expression [.identifier [95, 95, 99, 111, 110, 115],
    .expression [.identifier [95, 95, 99, 111, 110, 115], .int 1, .expression []],
    .expression [.identifier [95, 95, 99, 111, 110, 115], .expression [], .expression []]]) := rfl

/-- A tree with everything in it. -/
def sample : Ast :=
  .expression [.identifier [97], .literal [.int 1, .bool true], .callback [98], .string [99], .float 5, .identifier [97]]

example : Proper sample := by simp [sample, Proper, ProperList]
example : cellsFor sample = 20 := rfl
example : Good (init 20) := init_good 20 (by decide)
example : ∃ o t vm', astToObject sample (Tables.createAll .init [[97]]) (init 20) = .ok (o, t) vm' ∧
    ∃ N, ∀ fuel, N ≤ fuel → objectToAST vm' true fuel o = .ok (.expression [.identifier [97],
      .expression [.int 1, .bool true], .identifier [98], .string [99], .float 5, .identifier [97]]) :=
  C46_roundtrip_partial sample [[97]] (init 20) (by simp [sample, Proper, ProperList]) (init_good 20 (by decide))
    (by decide)

theorem dotted_good : Good dotted := by
  have cells : ∀ r o, dotted.heap[r]? = some o →
      (r = 0 ∧ o = .cons (some 1) (some 2)) ∨ (r = 1 ∧ o = .integer 1) ∨ (r = 2 ∧ o = .integer 2) := by
    intro r o h
    match r with
    | 0 => cases h; exact .inl ⟨rfl, rfl⟩
    | 1 => cases h; exact .inr (.inl ⟨rfl, rfl⟩)
    | 2 => cases h; exact .inr (.inr ⟨rfl, rfl⟩)
    | n + 3 => cases h
  refine ⟨⟨.nil, fun r h => (nomatch h), fun r h => (nomatch h), by decide, ?_, fun r h => (nomatch h),
    fun k r h => (nomatch h), fun f h => (nomatch h), fun r h => (nomatch h), ?_⟩, ?_⟩
  · intro o ho
    cases List.mem_singleton.mp ho
    exact ⟨nofun, _, rfl, rfl⟩
  · intro r o h _
    rcases cells r o h with ⟨rfl, rfl⟩ | ⟨rfl, rfl⟩ | ⟨rfl, rfl⟩
    · exact ⟨.inl ⟨nofun, _, rfl, rfl⟩, .inl ⟨nofun, _, rfl, rfl⟩⟩
    · exact ⟨by decide, by decide⟩
    · exact ⟨by decide, by decide⟩
  · intro r o h _
    rcases cells r o h with ⟨rfl, rfl⟩ | ⟨rfl, rfl⟩ | ⟨rfl, rfl⟩ <;> exact nofun

example : Good dotted ∧ ValueOk dotted (.list (some 0)) ∧ objectToAST dotted true 3 (.list (some 0)) = .ub ∧
    Eval.Holds ⟨fun _ _ => True, fun _ _ _ _ => False⟩ dotted (.list (some 0)) (.pair (.int 1) (.int 2)) ∧
    Nameless (.pair (.int 1) (.int 2)) :=
  ⟨dotted_good, dotted_good.sound.stack _ (by simp [dotted]), rfl,
    .pair ⟨some 1, some 2, rfl, .value rfl nofun, .value rfl nofun⟩ nofun (.int 1) (.int 2), .pair (.int 1) (.int 2)⟩

#print axioms C46_object_to_tree
#print axioms C46_object_to_tree_ends
#print axioms C46_one_tree
#print axioms C46_wrong_only
#print axioms C46_comptime_wrong_only
#print axioms C46_comptime_partial
#print axioms C46_tree_to_object_partial
#print axioms C46_roundtrip_partial
#print axioms C46_data
#print axioms C46_quote_partial
#print axioms C46_collected
#print axioms C46_dotted_pair
#print axioms C46_circular

end DuckLisp.Props
