import Verif.Model.Actions
import Verif.Proof.Reader.Actions
import Verif.Props.Reader
import Verif.Props.Trie
import Verif.Spec.FiniteMap

/-!
# C56: parser actions rewrite the forms that begin with their name

`Spec/Actions.lean` says what the actions of the host make of a tree.
-/

namespace DuckLisp.Reader
open DuckLisp.DlString DuckLisp.Spec

/-! ## The table -/

/-- The trie and the array of a table, for a history of registrations. -/
def Fits {α : Type} (hist : List (Bytes × α)) (t : Actions.Table α) : Prop :=
  ∃ writes : List (Bytes × Int), t.trie = writes.foldl (fun t w => Trie.insert t w.1 w.2) (Trie.init (-1)) ∧
    ∀ name, (lastWrite (fun _ => -1) writes name = -1 ∧
        lastWrite (fun _ => none) (hist.map fun w => (w.1, some w.2)) name = none) ∨
      ∃ i f, lastWrite (fun _ => -1) writes name = ((i : Nat) : Int) ∧
        lastWrite (fun _ => none) (hist.map fun w => (w.1, some w.2)) name = some f ∧ t.array[i]? = some f

theorem find_history {α : Type} (hist : List (Bytes × α)) :
    Fits hist (hist.foldl (fun t w => Actions.add t w.1 w.2) Actions.empty) := by
  suffices ∀ (l hist : List (Bytes × α)), hist.reverse = l →
      Fits hist (hist.foldl (fun t w => Actions.add t w.1 w.2) Actions.empty) from this _ hist rfl
  intro l
  induction l with
  | nil =>
    intro hist h
    cases List.reverse_eq_nil_iff.1 h
    exact ⟨[], rfl, fun _ => .inl ⟨rfl, rfl⟩⟩
  | cons w l ih =>
    intro hist h
    obtain rfl : hist = l.reverse ++ [w] := by rw [← List.reverse_reverse hist, h]; simp
    obtain ⟨writes, h1, h2⟩ := ih l.reverse (by simp)
    refine ⟨writes ++ [(w.1, ((l.reverse.foldl (fun t w => Actions.add t w.1 w.2) Actions.empty).array.length : Int))], ?_, ?_⟩
    · simp only [List.foldl_append, List.foldl_cons, List.foldl_nil, ← h1]
      rfl
    · intro name
      simp only [List.foldl_append, List.foldl_cons, List.foldl_nil, List.map_append, List.map_cons, List.map_nil,
        lastWrite_snoc]
      by_cases hn : w.1 = name
      · refine .inr ⟨_, w.2, if_pos hn, if_pos hn, ?_⟩
        simp [Actions.add]
      · rw [if_neg hn, if_neg hn]
        rcases h2 name with h | ⟨i, f, h3, h4, h5⟩
        · exact .inl h
        · refine .inr ⟨i, f, h3, h4, ?_⟩
          show (_ ++ [w.2])[i]? = some f
          rw [List.getElem?_append_left (List.getElem?_eq_some_iff.1 h5).1, h5]

/-- C56: after any history of registrations the action of a name is the one registered last under it; other names have
none. -/
theorem C56_registered {α : Type} (hist : List (Bytes × α)) (name : Bytes) :
    Actions.find (hist.foldl (fun t w => Actions.add t w.1 w.2) Actions.empty) name =
      lastWrite (fun _ => none) (hist.map fun w => (w.1, some w.2)) name := by
  obtain ⟨writes, h1, h2⟩ := find_history hist
  have h3 := Trie.C01_trie_is_finite_map (-1) writes name
  simp only [ite_self] at h3
  unfold Actions.find
  rw [h1, h3]
  rcases h2 name with ⟨h4, h5⟩ | ⟨i, f, h4, h5, h6⟩
  · rw [h4, h5]
    rfl
  · rw [h4, h5, ← h6]
    simp

example : Actions.find (Actions.add (Actions.add (Actions.add Actions.empty [97] 1) [98] 2) [97] 3) [97] = some 3 ∧
    Actions.find (Actions.add (Actions.add (Actions.add Actions.empty [97] 1) [98] 2) [97] 3) [98] = some 2 ∧
    Actions.find (Actions.add (Actions.add (Actions.add Actions.empty [97] 1) [98] 2) [97] 3) [] = none :=
  ⟨by decide, by decide, by decide⟩

/-! ## Reading -/

/-- C56: whenever a text denotes a tree, then wherever it stands in a source, the reader returns what the actions of the
host make of the tree, or the error with which the first of them fails, and the log contains what they have written.
The reader stops exactly after the text.  Missing because false of the code: actions that fail with "invalid value" inside
literal expressions (`C56_failure_lost`). -/
theorem C56_rewrites_partial (cfg : Config) (act : Bytes → Option Action) (hact : Performs cfg act) {e : Ast} {w : Bytes}
    (h : Written cfg.toDouble e w) (pre sep post : Bytes) (hsep : Sep sep) (hpost : Stops e post) (s : RState)
    (hh : s.depth + height e < cfg.maxDepth) (n : Nat) (hn : height e ≤ n)
    (hlit : ∀ log, rewritten act e s.errors = (.error .invalidValue, log) → NoLiterals e) :
    (∀ e' log, rewritten act e s.errors = (.ok e', log) →
      compound cfg (pre ++ sep ++ w ++ post) n pre.length s = .ok (e', (pre ++ sep ++ w).length) { s with errors := log }) ∧
    (∀ er log, rewritten act e s.errors = (.error er, log) →
      compound cfg (pre ++ sep ++ w ++ post) n pre.length s = .err er { s with errors := log }) := by
  have := acted_written (pre ++ sep ++ w ++ post) hact h sep hsep pre.length post n s (by simp) hpost hh hn hlit
  constructor
  · intro e' log he
    rw [this, he]
    simp [settled]
  · intro er log he
    rw [this, he]
    rfl

/-- C56, whole reads: so does `duckLisp_read`, except that hash signs are dropped from the result. -/
theorem C56_read_partial (cfg : Config) (act : Bytes → Option Action) (hact : Performs cfg act) {e : Ast} {w : Bytes}
    (h : Written cfg.toDouble e w) (pre sep post : Bytes) (hsep : Sep sep) (hpost : Stops e post) (s : RState)
    (hh : height e < cfg.maxDepth)
    (hlit : ∀ log, rewritten act e s.errors = (.error .invalidValue, log) → NoLiterals e) :
    (∀ e' log, rewritten act e s.errors = (.ok e', log) →
      read cfg (pre ++ sep ++ w ++ post) pre.length s = .ok (postprocess e') { errors := log, depth := 0 }) ∧
    (∀ er log, rewritten act e s.errors = (.error er, log) →
      read cfg (pre ++ sep ++ w ++ post) pre.length s = .err er { errors := log, depth := 0 }) := by
  obtain ⟨h1, h2⟩ := C56_rewrites_partial cfg act hact h pre sep post hsep hpost { s with depth := 0 } (by simpa using hh)
    (cfg.maxDepth + 1) (by omega) hlit
  constructor
  · intro e' log he
    simp only [read]
    rw [h1 e' log he]
  · intro er log he
    simp only [read]
    rw [h2 er log he]

mutual
theorem rewritten_same (act : Bytes → Option Action) (e : Ast) (log : Bytes) (h : ∀ name, Heads name e → act name = none) :
    rewritten act e log = (.ok e, log) := by
  cases e with
  | expression es =>
    simp only [rewritten]
    rw [rewrittenAll_same act es log fun name hn => h name (.inr hn)]
    have : (firstName (.expression es)).bind act = none := by
      cases hf : firstName (.expression es) with
      | none => rfl
      | some name => exact h name (.inl hf)
    simp only [replaced, this]
  | literal es =>
    simp only [rewritten]
    rw [rewrittenAll_same act es log fun name hn => h name (.inr hn)]
    have : (firstName (.literal es)).bind act = none := by
      cases hf : firstName (.literal es) with
      | none => rfl
      | some name => exact h name (.inl hf)
    simp only [replaced, this]
  | _ => rfl
theorem rewrittenAll_same (act : Bytes → Option Action) (es : List Ast) (log : Bytes)
    (h : ∀ name, HeadsAny name es → act name = none) : rewrittenAll act es log = (.ok es, log) := by
  cases es with
  | nil => rfl
  | cons e es =>
    simp only [rewrittenAll]
    rw [rewritten_same act e log fun name hn => h name (.inl hn)]
    dsimp only
    rw [rewrittenAll_same act es log fun name hn => h name (.inr hn)]
end

/-- C56: an action does nothing to programs in which no form begins with its name: they are read as if there were no
actions. -/
theorem C56_others_untouched (cfg : Config) (act : Bytes → Option Action) (hact : Performs cfg act) {e : Ast} {w : Bytes}
    (h : Written cfg.toDouble e w) (hno : ∀ name, Heads name e → act name = none) (pre sep post : Bytes) (hsep : Sep sep)
    (hpost : Stops e post) (s : RState) (hh : height e < cfg.maxDepth) :
    read cfg (pre ++ sep ++ w ++ post) pre.length s = .ok (postprocess e) { s with depth := 0 } := by
  have he := rewritten_same act e s.errors hno
  refine (C56_read_partial cfg act hact h pre sep post hsep hpost s hh ?_).1 e s.errors he
  intro log hl
  rw [he] at hl
  cases hl

/-! ## Examples -/

/-- `(d x)` becomes `(x x)` and writes `!` to the log; `b` fails. -/
def sampleActions : Bytes → Option Action := fun name =>
  if name = [100] then some fun e log =>
    match e with
    | .expression [_, x] => (.ok (.expression [x, x]), log ++ [33])
    | _ => (.error .bufferUnderflow, log)
  else if name = [98] then some fun _ log => (.error .invalidValue, log)
  else none

/-- The reader with these actions. -/
def sampleConfig : Config := { exampleConfig with
  action := fun name => (sampleActions name).map fun f e s =>
    match f e s.errors with
    | (.ok e', log) => .ok e' { s with errors := log }
    | (.error er, log) => .err er { s with errors := log } }

example : Performs sampleConfig sampleActions := fun _ => rfl

/-- `(f (d (d 1)))`, with the inner `d` first. -/
example : rewritten sampleActions (.expression [.identifier [102], .expression [.identifier [100],
      .expression [.identifier [100], .int 1]]]) [] =
    (.ok (.expression [.identifier [102], .expression [.expression [.int 1, .int 1], .expression [.int 1, .int 1]]]), [33, 33]) ∧
    read sampleConfig [40, 102, 32, 40, 100, 32, 40, 100, 32, 49, 41, 41, 41] 0 {} =
      .ok (.expression [.identifier [102], .expression [.expression [.int 1, .int 1], .expression [.int 1, .int 1]]])
        ⟨[33, 33], 0⟩ :=
  ⟨rfl, rfl⟩

example : Written sampleConfig.toDouble (.expression [.identifier [102], .expression [.identifier [100], .int 1]])
    (40 :: (([] ++ ([102] ++ ([32] ++ ((40 :: (([] ++ ([100] ++ ([32] ++ ([49] ++ [])))) ++ [41])) ++ [])))) ++ [41])) := by
  have name : ∀ c, c = 102 ∨ c = 100 → Name [c] := by
    rintro c (rfl | rfl) <;>
      exact name_of_first (by decide) (by decide) (by decide) (by decide) (by decide) (by decide) (by decide)
  have sp : Sep [32] := .blank 32 (by decide) .nil
  have one : Written sampleConfig.toDouble (.int 1) [49] := by
    have h : fromPtrdiff [] 1 = [49] := by decide +kernel
    exact .int (h ▸ fromPtrdiff_intText 1) (by decide)
  refine .expression (.cons .nil (.identifier (name _ (.inl rfl))) (.inr (.inr ⟨32, _, rfl, by decide⟩))
    (.cons sp (.expression (.cons .nil (.identifier (name _ (.inr rfl))) (.inr (.inr ⟨32, _, rfl, by decide⟩))
      (.cons sp one (.inr (.inl rfl)) (.nil .nil)))) (.inl rfl) (.nil .nil)))

/-- An action that fails: `(f (b))`. -/
example : read sampleConfig [40, 102, 32, 40, 98, 41, 41] 0 {} = .err .invalidValue {} := rfl

/-- C56: the failure of an action is lost inside a literal expression: with an action `b` that fails with "invalid value"
`#((b))` is read, without an error, as a nameless symbol, with the rest of the text left over. -/
theorem C56_failure_lost :
    (∀ log, rewritten sampleActions (.literal [.expression [.identifier [98]]]) log = (.error .invalidValue, log)) ∧
    compound sampleConfig [35, 40, 40, 98, 41, 41, 32] 5 0 {} = .ok (.callback [], 1) {} ∧
    read sampleConfig [35, 40, 40, 98, 41, 41, 32] 0 {} = .ok (.identifier []) {} :=
  ⟨fun _ => rfl, rfl, rfl⟩

#print axioms C56_registered
#print axioms C56_rewrites_partial
#print axioms C56_read_partial
#print axioms C56_others_untouched
#print axioms C56_failure_lost

end DuckLisp.Reader
