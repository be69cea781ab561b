import Verif.Model.Compile.Generate
import Verif.Proof.Compile.Scope
import Verif.Proof.Compile.Tables
import Verif.Spec.Registry
import Verif.Spec.Core
import Verif.Spec.Eval

/-!
# Lemmas about the state of the compiler: what the emitters do to it
-/

namespace DuckLisp.Compile

open DuckLisp.Asm DuckLisp.Reader

/-! ## The monad -/

theorem CM.bind_ok {α β : Type} {m : CM α} {f : α → CM β} {s s1 : CState} {a : α} (h : m s = .ok a s1) :
    (m >>= f) s = f a s1 := by
  show CM.bind m f s = _
  simp only [CM.bind, h]

theorem CM.bind_inv {α β : Type} {m : CM α} {f : α → CM β} {s s' : CState} {b : β}
    (h : (m >>= f) s = .ok b s') : ∃ a s1, m s = .ok a s1 ∧ f a s1 = .ok b s' := by
  change CM.bind m f s = _ at h
  simp only [CM.bind] at h
  cases hm : m s with
  | ok a s1 => rw [hm] at h; exact ⟨a, s1, rfl, h⟩
  | err e => rw [hm] at h; simp at h
  | ub => rw [hm] at h; simp at h
  | outside => rw [hm] at h; simp at h
  | timeout => rw [hm] at h; simp at h

theorem CM.pure_inv {α : Type} {a b : α} {s s' : CState} (h : (pure a : CM α) s = .ok b s') : a = b ∧ s = s' := by
  change COut.ok a s = .ok b s' at h
  cases h
  exact ⟨rfl, rfl⟩

/-! ## The view of a state -/

/-- The variables of the open blocks, the innermost block and the newest variable first, with their slots. -/
abbrev Blocks := List (List (Bytes × Nat))

/-- The slot of a variable. -/
def findVar : Blocks → Bytes → Option Nat
  | [], _ => none
  | b :: bs, x => match b.lookup x with
    | some k => some k
    | none => findVar bs x

/-- The names by which functions are called have no meaning of their own. -/
def Unclaimed (D : Spec.Dialect) : Prop :=
  ∀ x, D.callable x = true → generator x = none ∧ special (.expression [.identifier x]) = none ∧ Spec.Eval.keyword x = none

theorem unclaimed_core : Unclaimed .core := fun _ h => nomatch h

/-- The numbers that names are to have as keys of globals, and the language that is compiled. -/
class Keys where
  key : Bytes → Int → Prop
  height : Nat → Prop
  dialect : Spec.Dialect
  callable : Unclaimed dialect

/-- The scopes around a function have none of the names that the function may mention. -/
def Hidden [Keys] (ss : List Scope) : Prop := ∀ s ∈ ss,
  (∀ x, Keys.dialect.Mentions true x → Trie.find s.locals x = -1) ∧
  ∀ x, x ≠ ascii "self" → Trie.find s.functionLocals x = -1 ∧ Trie.find s.functions x = -1

/-- What is around the scope of a function. -/
def Around [Keys] (inside : Bool) (ss : List Scope) : Prop := if inside then Hidden ss else ss = []

/-- The scopes, the innermost first, are as the blocks say, and nothing was captured. -/
def Corr [Keys] (inside : Bool) : List Scope → Blocks → Prop
  | [], [] => True
  | [], [b] => b = []
  | s :: ss, b :: bs => Reads s.locals b ∧ (s.functions = Trie.init (-1) ∧ s.functionLocals = Trie.init (-1)) ∧
      s.labels.WF ∧ (s.scopeUvs = [] ∧ s.functionUvs = []) ∧
      if s.functionScope then Around inside ss ∧ bs = [] else Corr inside ss bs
  | _, _ => False

variable [Keys] {m : Bool}

/-- The tables of names are in order; `h` are the names in the order in which they got numbers. -/
structure Tabled (s : CState) (h : List Bytes) : Prop where
  made : s.symbols = Tables.createAll .init h
  runtime : Spec.Registers s.symbols s.runtimeGlobals
  comptime : Spec.Registers s.symbols s.comptimeGlobals

omit [Keys] in
theorem Tabled.symbols {s h} (ht : Tabled s h) : Tables.Holds s.symbols h := by
  rw [ht.made]
  exact Tables.holds_createAll Tables.holds_init h

/-- What the compiler knows, for code of the core language. -/
structure View (m : Bool) (s : CState) (bs : Blocks) (L l : Nat) : Prop where
  runtime : s.scopes.inComptime = false
  body : s.body.isSome = m
  names : m = false → ∀ b ∈ bs, ∀ x ∈ b, Keys.dialect.outer x.1 = true
  corr : Corr m s.scopes.runtime.scopes.reverse bs
  some : bs ≠ []
  length : s.scopes.runtime.localsLength = L
  label : s.scopes.runtime.labelNumber = l
  tables : ∃ h, Tabled s h

/-- The `k`-th generated name. -/
def gname (k : Nat) : Bytes := (Tables.gensym (UInt64.ofNat k)).1

omit [Keys] in
theorem gname_inj {j k : Nat} (hj : j < 2 ^ 64) (hk : k < 2 ^ 64) (h : gname j = gname k) : j = k := by
  have := Tables.gensym_inj h
  have h1 : (UInt64.ofNat j).toNat = (UInt64.ofNat k).toNat := by rw [this]
  simp only [UInt64.toNat_ofNat'] at h1
  omega

/-- The top scope. -/
def top (s : CState) : Scope := (getTop s.scopes.runtime.scopes).2

/-- Where the code goes: into the function that is being compiled, or into the program. -/
def sink (s : CState) : List Ins := s.body.getD s.assembly

/-- What code generation may change: it appends code, may use generated names, and keeps the older labels. -/
structure Ext (s s' : CState) (code : List Ins) : Prop where
  code : sink s' = sink s ++ code
  inner : s'.body.isSome = s.body.isSome
  program : s.body.isSome = true → s'.assembly = s.assembly
  gensyms : s.gensymNumber ≤ s'.gensymNumber
  comptime : s'.scopes.comptime = s.scopes.comptime
  outer : s'.scopes.runtime.scopes.dropLast = s.scopes.runtime.scopes.dropLast
  nonempty : s.scopes.runtime.scopes ≠ [] → s'.scopes.runtime.scopes ≠ []
  labels : s'.gensymNumber ≤ 2 ^ 64 → ∀ k, k < s.gensymNumber →
    Trie.find (top s').labels (gname k) = Trie.find (top s).labels (gname k)

omit [Keys] in
theorem Ext.refl (s : CState) : Ext s s [] :=
  ⟨by simp, rfl, fun _ => rfl, Nat.le_refl _, rfl, rfl, id, fun _ _ _ => rfl⟩

omit [Keys] in
theorem Ext.trans {a b c : CState} {x y : List Ins} (h : Ext a b x) (g : Ext b c y) : Ext a c (x ++ y) where
  code := by rw [g.code, h.code, List.append_assoc]
  inner := g.inner.trans h.inner
  program := fun hb => (g.program (h.inner.trans hb)).trans (h.program hb)
  gensyms := Nat.le_trans h.gensyms g.gensyms
  comptime := g.comptime.trans h.comptime
  outer := g.outer.trans h.outer
  nonempty := g.nonempty ∘ h.nonempty
  labels := fun hc k hk => (g.labels hc k (Nat.lt_of_lt_of_le hk h.gensyms)).trans
    (h.labels (Nat.le_trans g.gensyms hc) k hk)

omit [Keys] in
/-- Outside of functions. -/
theorem Ext.outside {s s' : CState} {code : List Ins} (h : Ext s s' code) (hs : s.body = none) :
    s'.body = none ∧ s'.assembly = s.assembly ++ code := by
  have h1 := h.inner
  rw [hs] at h1
  have h2 : s'.body = none := by
    cases hb : s'.body with
    | none => rfl
    | some b => rw [hb] at h1; cases h1
  have h3 := h.code
  simp only [sink, hs, h2, Option.getD_none] at h3
  exact ⟨h2, h3⟩

omit [Keys] in
theorem Ext.cast {a b : CState} {x y : List Ins} (h : Ext a b x) (e : x = y) : Ext a b y := e ▸ h

/-! ## Emitters -/

/-- The state after code that leaves the scopes alone. -/
def grow (s : CState) (code : List Ins) (L : Nat) : CState :=
  { s with
    assembly := if s.body.isSome then s.assembly else s.assembly ++ code
    body := s.body.map (· ++ code)
    scopes := { s.scopes with runtime := { s.scopes.runtime with localsLength := L } } }

theorem View.grow {s bs L l} (h : View m s bs L l) (code : List Ins) (L' : Nat) : View m (grow s code L') bs L' l :=
  ⟨h.runtime, by rw [← h.body]; exact Option.isSome_map, h.names, h.corr, h.some, rfl, h.label,
    h.tables.imp fun _ h => ⟨h.1, h.2, h.3⟩⟩

omit [Keys] in
theorem Ext.grow (s : CState) (code : List Ins) (L' : Nat) : Ext s (grow s code L') code := by
  refine ⟨?_, Option.isSome_map, ?_, Nat.le_refl _, rfl, rfl, id, fun _ _ _ => rfl⟩
  · simp only [sink, Compile.grow]
    cases s.body <;> rfl
  · intro hb
    exact if_pos hb

omit [Keys] in
theorem grow_grow (s : CState) (a b : List Ins) (L L' : Nat) :
    Compile.grow (Compile.grow s a L) b L' = Compile.grow s (a ++ b) L' := by
  cases hb : s.body <;> simp [Compile.grow, hb]

theorem View.grow_self {s bs L l} (h : View m s bs L l) : Compile.grow s [] L = s := by
  have := h.length
  rcases s with ⟨_, _, _, _, _, _, body⟩
  subst this
  cases body <;> simp [Compile.grow]

theorem View.current {s bs L l} (h : View m s bs L l) : s.scopes.current = s.scopes.runtime := by
  simp [Scopes.current, h.runtime]

theorem View.setCurrent {s bs L l} (h : View m s bs L l) (sub : Sub) :
    s.scopes.setCurrent sub = { s.scopes with runtime := sub } := by
  simp [Scopes.setCurrent, h.runtime]

theorem localsLength_eq {s bs L l} (h : View m s bs L l) : localsLength s = .ok L s := by
  simp [localsLength, h.current, h.length]

theorem setLocalsLength_eq {s bs L l} (h : View m s bs L l) (n : Nat) :
    setLocalsLength n s = .ok () (grow s [] n) := by
  simp [setLocalsLength, modify, h.current, h.setCurrent, grow]

theorem increment_eq {s bs L l} (h : View m s bs L l) : increment s = .ok () (grow s [] (L + 1)) :=
  (CM.bind_ok (localsLength_eq h)).trans (setLocalsLength_eq h _)

theorem decrease_eq {s bs L l} (h : View m s bs L l) {n : Nat} (hn : n ≤ L) :
    decrease n s = .ok () (grow s [] (L - n)) := by
  refine (CM.bind_ok (localsLength_eq h)).trans ?_
  rw [if_pos hn]
  exact setLocalsLength_eq h _

theorem put_eq {s bs L l} (h : View m s bs L l) (i : Ins) : put i s = .ok () (grow s [i] L) := by
  have := h.length
  rcases s with ⟨_, _, _, _, _, _, body⟩
  subst this
  cases body <;> simp [put, modify, grow]

theorem operand_eq {s bs L l} (h : View m s bs L l) (index : Int) : operand index s = .ok ((L : Int) - index) s :=
  (CM.bind_ok (localsLength_eq h)).trans rfl

theorem emitPush_eq {s bs L l} (h : View m s bs L l) (i : Ins) : emitPush i s = .ok () (grow s [i] (L + 1)) := by
  refine (CM.bind_ok (put_eq h i)).trans ?_
  rw [increment_eq (h.grow _ _), grow_grow]
  rfl

theorem emitUnary_eq {s bs L l} (h : View m s bs L l) (ins : Int → Ins) (a : Int) :
    emitUnary ins a s = .ok () (grow s [ins ((L : Int) - a)] (L + 1)) :=
  (CM.bind_ok (operand_eq h _)).trans (emitPush_eq h _)

theorem emitBinary_eq {s bs L l} (h : View m s bs L l) (ins : Int → Int → Ins) (a b : Int) :
    emitBinary ins a b s = .ok () (grow s [ins ((L : Int) - a) ((L : Int) - b)] (L + 1)) :=
  (CM.bind_ok (operand_eq h _)).trans ((CM.bind_ok (operand_eq h _)).trans (emitPush_eq h _))

theorem emitTernary_eq {s bs L l} (h : View m s bs L l) (ins : Int → Int → Int → Ins) (a b c : Int) :
    emitTernary ins a b c s
      = .ok () (grow s [ins ((L : Int) - a) ((L : Int) - b) ((L : Int) - c)] (L + 1)) :=
  (CM.bind_ok (operand_eq h _)).trans ((CM.bind_ok (operand_eq h _)).trans
    ((CM.bind_ok (operand_eq h _)).trans (emitPush_eq h _)))

theorem emitVector_eq {s bs L l} (h : View m s bs L l) (is : List Int) :
    emitVector is s = .ok () (grow s [.vector is.length (is.map fun i => (L : Int) - i)] (L + 1)) :=
  (CM.bind_ok (localsLength_eq h)).trans (emitPush_eq h _)

theorem emitPop_eq {s bs L l} (h : View m s bs L l) {n : Nat} (hn : n ≤ L) :
    emitPop n s = .ok () (grow s (if n = 0 then [] else [.pop n]) (L - n)) := by
  by_cases h0 : n = 0
  · subst h0
    simp only [emitPop, if_true, Nat.sub_zero]
    rw [h.grow_self]
    rfl
  · simp only [emitPop, h0, if_false]
    refine (CM.bind_ok (put_eq h _)).trans ?_
    rw [decrease_eq (h.grow _ _) hn, grow_grow]
    rfl

theorem emitMove_eq {s bs L l} (h : View m s bs L l) (d src : Int) :
    emitMove d src s = .ok () (grow s (if d = src then [] else [.move ((L : Int) - src) ((L : Int) - d)]) L) := by
  by_cases h0 : d = src
  · simp only [emitMove, h0, if_true]
    rw [h.grow_self]
    rfl
  · simp only [emitMove, h0, if_false]
    exact (CM.bind_ok (operand_eq h _)).trans ((CM.bind_ok (operand_eq h _)).trans (put_eq h _))

theorem emitSetStatic_eq {s bs L l} (h : View m s bs L l) (key index : Int) :
    emitSetStatic key index s
      = .ok () (grow s (if key = index then [] else [.setGlobal ((L : Int) - index) key]) L) := by
  by_cases h0 : key = index
  · simp only [emitSetStatic, h0, if_true]
    rw [h.grow_self]
    rfl
  · simp only [emitSetStatic, h0, if_false]
    exact (CM.bind_ok (operand_eq h _)).trans (put_eq h _)

/-! ## Symbols and globals -/

omit [Keys] in
theorem number_grows {t t' : Tables.Symbols} {h more : List Bytes} (ht : Tables.Holds t h)
    (ht' : Tables.Holds t' (h ++ more)) {x : Bytes} (hx : Tables.nameToValue t x ≠ -1) :
    Tables.nameToValue t' x = Tables.nameToValue t x := by
  have hm : x ∈ h := by
    by_cases hm : x ∈ h
    · exact hm
    · rw [ht.find, if_neg hm] at hx
      exact absurd rfl hx
  rw [ht.find, ht'.find, if_pos hm, if_pos (by simp [hm])]
  obtain ⟨r, hr⟩ := Tables.firsts_append_prefix h more
  rw [← hr, List.idxOf_append, if_pos ((Tables.mem_firsts _ _).2 hm)]

omit [Keys] in
theorem registers_grow {t t' : Tables.Symbols} {h more : List Bytes} (ht : Tables.Holds t h)
    (ht' : Tables.Holds t' (h ++ more)) {g : Trie.Node} (hg : Spec.Registers t g) : Spec.Registers t' g := by
  obtain ⟨names, h1, rfl⟩ := hg
  have he : ∀ x ∈ names, Tables.nameToValue t' x = Tables.nameToValue t x := fun x hx =>
    number_grows ht ht' (h1 x hx)
  refine ⟨names, fun x hx => by rw [he x hx]; exact h1 x hx, ?_⟩
  generalize Trie.init (-1) = g
  clear h1
  induction names generalizing g with
  | nil => rfl
  | cons x xs ih =>
    simp only [List.foldl_cons]
    rw [he x (by simp)]
    exact ih (fun y hy => he y (by simp [hy])) _

omit [Keys] in
theorem registers_insert {t : Tables.Symbols} {g : Trie.Node} {x : Bytes} (hg : Spec.Registers t g)
    (hx : Tables.nameToValue t x ≠ -1) : Spec.Registers t (Trie.insert g x (Tables.nameToValue t x)) := by
  obtain ⟨names, h1, rfl⟩ := hg
  refine ⟨names ++ [x], ?_, by simp⟩
  intro y hy
  rcases List.mem_append.1 hy with hy | hy
  · exact h1 y hy
  · rw [List.mem_singleton.1 hy]; exact hx

omit [Keys] in
/-- A registered global has the number of its name as its key. -/
theorem registers_find {t : Tables.Symbols} {g : Trie.Node} (hg : Spec.Registers t g) (x : Bytes) :
    Trie.find g x = -1 ∨ Trie.find g x = Tables.nameToValue t x := by
  obtain ⟨names, -, rfl⟩ := hg
  have h0 : Trie.find (Trie.init (-1)) x = -1 := by
    simp only [Trie.init, Trie.find]
    cases x <;> simp [Trie.Node.find, Trie.Kids.find]
  have hw := Trie.init_WF (-1)
  generalize Trie.init (-1) = g at h0 hw
  replace h0 : Trie.find g x = -1 ∨ Trie.find g x = Tables.nameToValue t x := .inl h0
  induction names generalizing g with
  | nil => exact h0
  | cons y ys ih =>
    obtain ⟨h1, h2⟩ := Trie.insert_find g y (Tables.nameToValue t y) hw
    refine ih _ h1 ?_
    rw [h2 x]
    split
    · rename_i e; subst e; exact .inr rfl
    · exact h0

omit [Keys] in
theorem createAll_snoc {t symbols : Tables.Symbols} {h : List Bytes} {name : Bytes} {r : Option DlError}
    (ht : t = Tables.createAll .init h) (heq : Tables.create .enough t name = (symbols, r)) :
    symbols = Tables.createAll .init (h ++ [name]) := by
  subst ht
  unfold Tables.createAll at heq ⊢
  rw [List.foldl_append, List.foldl_cons, List.foldl_nil, heq]

omit [Keys] in
theorem intern_tables {s s' name key h} (ht : Tabled s h) (e : intern name s = .ok key s') :
    Tabled s' (h ++ [name]) ∧ key = Tables.nameToValue s'.symbols name ∧ key ≠ -1 := by
  have hc := Tables.holds_create ht.symbols name
  unfold intern at e
  split at e
  · rename_i symbols heq
    rw [heq] at hc
    cases e
    refine ⟨⟨createAll_snoc ht.made heq, registers_grow ht.symbols hc ht.runtime, registers_grow ht.symbols hc ht.comptime⟩, rfl, ?_⟩
    rw [hc.find, if_pos (by simp)]
    omega
  · cases e

/-- Changes of the tables are no changes of the view. -/
theorem intern_inv {s s' bs L l name key} (h : View m s bs L l) (e : intern name s = .ok key s') :
    View m s' bs L l ∧ Ext s s' [] ∧ key = Tables.nameToValue s'.symbols name ∧ key ≠ -1 := by
  obtain ⟨hist, ht⟩ := h.tables
  obtain ⟨ht', hk⟩ := intern_tables ht e
  unfold intern at e
  split at e
  · cases e
    exact ⟨⟨h.runtime, h.body, h.names, h.corr, h.some, h.length, h.label, _, ht'⟩,
      ⟨by simp [sink], rfl, fun _ => rfl, Nat.le_refl _, rfl, rfl, id, fun _ _ _ => rfl⟩, hk⟩
  · cases e

theorem globalKey_inv {s s' bs L l name key} (h : View m s bs L l) (e : globalKey name s = .ok key s') :
    View m s' bs L l ∧ Ext s s' [] ∧ key = Tables.nameToValue s'.symbols name ∧ key ≠ -1 := by
  obtain ⟨k, s1, e1, e2⟩ := CM.bind_inv e
  unfold globalFromName at e1
  rw [h.runtime] at e1
  cases e1
  rw [if_neg (show ¬ (false = true) by simp)] at e2
  by_cases hne : Trie.find s.runtimeGlobals name = -1
  · rw [if_pos hne] at e2
    exact intern_inv h e2
  · rw [if_neg hne] at e2
    obtain ⟨rfl, rfl⟩ := CM.pure_inv e2
    obtain ⟨hist, ht⟩ := h.tables
    refine ⟨h, Ext.refl _, ?_, hne⟩
    exact (registers_find ht.runtime name).resolve_left hne

omit [Keys] in
theorem addGlobal_tables {s s' name key h} (ht : Tabled s h) (e : addGlobal name s = .ok key s') :
    Tabled s' (h ++ [name]) ∧ key = Tables.nameToValue s'.symbols name ∧ key ≠ -1 := by
  obtain ⟨k, s1, e1, e2⟩ := CM.bind_inv e
  obtain ⟨ht1, hk, hn⟩ := intern_tables ht e1
  obtain ⟨_, s2, e3, e4⟩ := CM.bind_inv e2
  obtain ⟨rfl, rfl⟩ := CM.pure_inv e4
  unfold modify at e3
  cases e3
  rw [hk] at hn
  clear e e2 e4
  dsimp only
  refine ⟨⟨?_, ?_, ?_⟩, ?_, by rwa [hk]⟩
  · split <;> exact ht1.made
  · split
    · exact ht1.runtime
    · rw [hk]; exact registers_insert ht1.runtime hn
  · split
    · rw [hk]; exact registers_insert ht1.comptime hn
    · exact ht1.comptime
  · split <;> exact hk

theorem addGlobal_inv {s s' bs L l name key} (h : View m s bs L l) (e : addGlobal name s = .ok key s') :
    View m s' bs L l ∧ Ext s s' [] ∧ key = Tables.nameToValue s'.symbols name ∧ key ≠ -1 := by
  obtain ⟨hist, ht⟩ := h.tables
  obtain ⟨ht', hk⟩ := addGlobal_tables ht e
  obtain ⟨k, s1, e1, e2⟩ := CM.bind_inv e
  obtain ⟨h1, x1, -⟩ := intern_inv h e1
  obtain ⟨_, s2, e3, e4⟩ := CM.bind_inv e2
  obtain ⟨-, rfl⟩ := CM.pure_inv e4
  unfold modify at e3
  cases e3
  simp only [h1.runtime, Bool.false_eq_true, if_false] at ht' hk ⊢
  exact ⟨⟨h1.runtime, h1.body, h1.names, h1.corr, h1.some, h1.length, h1.label, _, ht'⟩,
    ⟨x1.code, x1.inner, x1.program, x1.gensyms, x1.comptime, x1.outer, x1.nonempty, x1.labels⟩, hk⟩

/-! ## Variables -/

/-- Where a name is found: among the variables, or among the functions, which have no names here. -/
def found (functionsOnly : Bool) (bs : Blocks) (name : Bytes) : Option Nat :=
  if functionsOnly then none else findVar bs name

omit [Keys] in
theorem find_init (name : Bytes) : Trie.find (Trie.init (-1)) name = -1 := Reads.init.2 name

theorem corr_local (f : Bool) (name : Bytes) (scopes : List Scope) :
    ∀ (n : Nat) (bs : Blocks), n ≤ scopes.length → Corr m (below n scopes) bs →
      localIndex f name scopes n = match found f bs name with | some k => (k : Int) | none => -1
  | 0, bs, _, h => by
    rw [below_zero] at h
    match bs, h with
    | [], _ => cases f <;> rfl
    | [b], h => simp only [Corr] at h; subst h; cases f <;> rfl
  | n + 1, bs, hn, h => by
    obtain ⟨s, hs⟩ : ∃ s, scopes[n]? = some s := ⟨scopes[n], List.getElem?_eq_getElem (by omega)⟩
    rw [below_succ hs] at h
    match bs, h with
    | b :: bs, h =>
      obtain ⟨h1, ⟨h2, h2'⟩, h3, h4, h5⟩ := (show _ ∧ _ ∧ _ ∧ _ ∧ _ from h)
      rw [localIndex, hs]
      dsimp only
      have hrest : (if s.functionScope = true then (-1 : Int) else localIndex f name scopes n)
          = match found f bs name with | some k => (k : Int) | none => -1 := by
        cases hf : s.functionScope
        · rw [hf] at h5
          exact corr_local f name scopes n bs (by omega) h5
        · rw [hf] at h5
          obtain ⟨-, rfl⟩ := (show _ ∧ _ from h5)
          cases f <;> rfl
      cases f
      · rw [show s.table false = s.locals from rfl, h1.2 name]
        simp only [found, Bool.false_eq_true, if_false] at hrest ⊢
        rw [findVar]
        cases hb : b.lookup name with
        | some k =>
          have : (k : Int) ≠ -1 := by omega
          simp only [this, ne_eq, not_false_eq_true, if_true]
        | none =>
          simp only [ne_eq, not_true_eq_false, if_false]
          exact hrest
      · rw [show s.table true = s.functionLocals from rfl, h2', find_init name]
        simp only [ne_eq, not_true_eq_false, if_false]
        exact hrest

theorem hidden_below {scopes : List Scope} {n : Nat} {s : Scope} (hs : scopes[n]? = some s)
    (h : Hidden (below (n + 1) scopes)) :
    ((∀ x, Keys.dialect.Mentions true x → Trie.find s.locals x = -1) ∧
      ∀ x, x ≠ ascii "self" → Trie.find s.functionLocals x = -1 ∧ Trie.find s.functions x = -1) ∧
      Hidden (below n scopes) := by
  rw [below_succ hs] at h
  exact ⟨h s (by simp), fun t ht => h t (by simp [ht])⟩

theorem hidden_function {name : Bytes} (hm : name ≠ ascii "self") (scopes : List Scope) :
    ∀ (n : Nat), n ≤ scopes.length → Hidden (below n scopes) → nearest Scope.functions name scopes n = -1
  | 0, _, _ => rfl
  | n + 1, hn, h => by
    obtain ⟨s, hs⟩ : ∃ s, scopes[n]? = some s := ⟨scopes[n], List.getElem?_eq_getElem (by omega)⟩
    obtain ⟨⟨-, h1⟩, h2⟩ := hidden_below hs h
    rw [nearest, hs]
    dsimp only
    rw [(h1 name hm).2, hidden_function hm scopes n (by omega) h2]
    rfl

theorem hidden_free {name : Bytes} (hm : Keys.dialect.Mentions true name) (f : Bool) (scopes : List Scope) :
    ∀ (n : Nat) (t : Scope) (k : Nat), n ≤ scopes.length → Hidden (below n scopes) →
      freeIndexHelper f name scopes t k n = (scopes, none)
  | 0, _, _, _, _ => rfl
  | n + 1, t, k, hn, h => by
    obtain ⟨s, hs⟩ : ∃ s, scopes[n]? = some s := ⟨scopes[n], List.getElem?_eq_getElem (by omega)⟩
    obtain ⟨⟨h1, h1'⟩, h2⟩ := hidden_below hs h
    rw [freeIndexHelper, hs]
    dsimp only
    have : Trie.find (s.table f) name = -1 := by
      cases f
      · exact h1 name hm
      · exact (h1' name (hm rfl).2).1
    rw [this, hidden_free hm f scopes n s n (by omega) h2, hidden_free hm f scopes n t k (by omega) h2]
    simp

theorem below_nil {scopes : List Scope} {n : Nat} (hn : n < scopes.length) (h : below n scopes = []) : n = 0 := by
  have : (below n scopes).length = 0 := by rw [h]; rfl
  simp only [below, List.length_reverse, List.length_take] at this
  omega

theorem corr_function {name : Bytes} (hm : name ≠ ascii "self" ∨ m = false) (scopes : List Scope) :
    ∀ (n : Nat) (bs : Blocks), n ≤ scopes.length → Corr m (below n scopes) bs →
      nearest Scope.functions name scopes n = -1
  | 0, bs, _, h => rfl
  | n + 1, bs, hn, h => by
    obtain ⟨s, hs⟩ : ∃ s, scopes[n]? = some s := ⟨scopes[n], List.getElem?_eq_getElem (by omega)⟩
    rw [below_succ hs] at h
    match bs, h with
    | b :: bs, h =>
      obtain ⟨h1, ⟨h2, h2'⟩, h3, h4, h5⟩ := (show _ ∧ _ ∧ _ ∧ _ ∧ _ from h)
      rw [nearest, hs]
      dsimp only
      rw [h2, find_init name]
      simp only [ne_eq, not_true_eq_false, if_false]
      cases hf : s.functionScope
      · rw [hf] at h5
        exact corr_function hm scopes n bs (by omega) h5
      · rw [hf] at h5
        obtain ⟨h6, -⟩ := (show Around m _ ∧ _ from h5)
        cases m
        · have := below_nil (by omega) (show below n scopes = [] from h6)
          subst this
          rfl
        · exact hidden_function (by simpa using hm) scopes n (by omega) h6

theorem corr_free {name : Bytes} (hm : Keys.dialect.Mentions m name) (f : Bool) (scopes : List Scope) :
    ∀ (n : Nat) (bs : Blocks), n ≤ scopes.length → Corr m (below n scopes) bs →
      ∀ k s, currentFunction scopes n = some (k, s) → freeIndexHelper f name scopes s k k = (scopes, none)
  | 0, bs, _, h, k, s, e => by simp [currentFunction] at e
  | n + 1, bs, hn, h, k, s, e => by
    obtain ⟨t, hs⟩ : ∃ s, scopes[n]? = some s := ⟨scopes[n], List.getElem?_eq_getElem (by omega)⟩
    rw [below_succ hs] at h
    match bs, h with
    | b :: bs, h =>
      obtain ⟨h1, ⟨h2, h2'⟩, h3, h4, h5⟩ := (show _ ∧ _ ∧ _ ∧ _ ∧ _ from h)
      rw [currentFunction, hs] at e
      dsimp only at e
      cases hf : t.functionScope
      · rw [hf] at e h5
        simp at e
        exact corr_free hm f scopes n bs (by omega) h5 k s e
      · rw [hf] at e h5
        simp at e
        obtain ⟨rfl, rfl⟩ := e
        obtain ⟨h6, -⟩ := (show Around m _ ∧ _ from h5)
        cases m
        · have := below_nil (by omega) (show below n scopes = [] from h6)
          subst this
          rfl
        · exact hidden_free hm f scopes n t n (by omega) h6

theorem place_any {s bs L l} (h : View m s bs L l) {name : Bytes} (hm : Keys.dialect.Mentions m name) (f : Bool) :
    place f name s = .ok (match found f bs name with | some k => .slot k | none => .absent) s := by
  have hc : Corr m (below s.scopes.runtime.scopes.length s.scopes.runtime.scopes) bs := by
    rw [below_length]; exact h.corr
  have h1 : getLocalIndexFromName f name s.scopes.current
      = match found f bs name with | some k => (k : Int) | none => -1 := by
    rw [h.current]
    exact corr_local f name _ _ _ (Nat.le_refl _) hc
  unfold place
  rw [h1]
  cases found f bs name with
  | some k =>
    have : (k : Int) ≠ -1 := by omega
    simp [this]
  | none =>
    simp only [ne_eq, not_true_eq_false, if_false]
    have h2 : getFreeLocalIndexFromName f name s.scopes.current = (s.scopes.current, none) := by
      rw [h.current]
      unfold getFreeLocalIndexFromName
      cases hf : currentFunction s.scopes.runtime.scopes s.scopes.runtime.scopes.length with
      | none => rfl
      | some r =>
        obtain ⟨k, t⟩ := r
        have := corr_free hm f _ _ _ (Nat.le_refl _) hc k t hf
        dsimp only
        rw [this]
    rw [h2]
    simp only [h.current, h.setCurrent]

theorem place_eq {s bs L l} (h : View m s bs L l) {name : Bytes} (hm : Keys.dialect.Mentions m name) :
    place false name s = .ok (match findVar bs name with | some k => .slot k | none => .absent) s :=
  place_any h hm false

theorem place_function {s bs L l} (h : View m s bs L l) {name : Bytes} (hm : Keys.dialect.Mentions m name) :
    place true name s = .ok .absent s := place_any h hm true

theorem functionType_eq {s bs L l} (h : View m s bs L l) {name : Bytes} (hm : name ≠ ascii "self" ∨ m = false) :
    functionType name s.scopes.current = -1 := by
  rw [h.current]
  exact corr_function hm _ _ _ (Nat.le_refl _) (by rw [below_length]; exact h.corr)

/-! ## The top scope -/

theorem getTop_reverse {scopes : List Scope} {b bs} (h : Corr m scopes.reverse (b :: bs)) :
    ∃ s ss, (getTop scopes).1.reverse = s :: ss ∧ (getTop scopes).2 = s ∧ Corr m (s :: ss) (b :: bs) ∧
      (getTop scopes).1.dropLast = scopes.dropLast := by
  rcases List.eq_nil_or_concat scopes with rfl | ⟨init, last, rfl⟩
  · refine ⟨Scope.init true, [], rfl, rfl, ?_, rfl⟩
    match bs, h with
    | [], h =>
      simp only [List.reverse_nil, Corr] at h
      subst h
      refine ⟨Reads.init, ⟨rfl, rfl⟩, Trie.init_WF _, ⟨rfl, rfl⟩, ?_, rfl⟩
      cases m
      · rfl
      · exact fun _ h => by cases h
  · refine ⟨last, init.reverse, ?_, ?_, ?_, ?_⟩
    · simp [getTop]
    · simp [getTop]
    · simpa using h
    · simp [getTop]

theorem changeTop_corr {sub : Sub} {b b' bs} (f : Scope → Scope) (h : Corr m sub.scopes.reverse (b :: bs))
    (h1 : ∀ s, Reads s.locals b → Reads (f s).locals b')
    (h2 : ∀ s, (f s).functions = s.functions ∧ (f s).functionLocals = s.functionLocals)
    (h3 : ∀ s, s.labels.WF → (f s).labels.WF)
    (h4 : ∀ s, (f s).scopeUvs = s.scopeUvs ∧ (f s).functionUvs = s.functionUvs) (h5 : ∀ s, (f s).functionScope = s.functionScope) :
    Corr m (changeTop f sub).scopes.reverse (b' :: bs) ∧
      (changeTop f sub).scopes.dropLast = sub.scopes.dropLast ∧ (changeTop f sub).scopes ≠ [] ∧
      (getTop (changeTop f sub).scopes).2 = f (getTop sub.scopes).2 := by
  obtain ⟨s, ss, g1, g2, g3, g4⟩ := getTop_reverse h
  have e : (getTop sub.scopes).1 = ss.reverse ++ [s] := by
    rw [← List.reverse_reverse (getTop sub.scopes).1, g1]; simp
  have e2 : (changeTop f sub).scopes = ss.reverse ++ [f s] := by
    show setTop (getTop sub.scopes).1 (f (getTop sub.scopes).2) = _
    rw [g2, e]
    simp [setTop]
  obtain ⟨c1, c2, c3, c4, c5⟩ := (show _ ∧ _ ∧ _ ∧ _ ∧ _ from g3)
  refine ⟨?_, ?_, ?_, ?_⟩
  · rw [e2]
    simp only [List.reverse_append, List.reverse_cons, List.reverse_nil, List.nil_append, List.reverse_reverse,
      List.singleton_append]
    exact ⟨h1 s c1, ⟨(h2 s).1.trans c2.1, (h2 s).2.trans c2.2⟩, h3 s c3, ⟨(h4 s).1.trans c4.1, (h4 s).2.trans c4.2⟩,
      by rw [h5]; exact c5⟩
  · rw [e2, ← g4, e]
    simp
  · rw [e2]; simp
  · rw [e2, g2]
    simp [getTop]

theorem View.cons {s bs L l} (h : View m s bs L l) : ∃ b bs', bs = b :: bs' := by
  match bs, h.some with
  | b :: bs', _ => exact ⟨b, bs', rfl⟩

/-- A new variable in the top scope. -/
theorem addVariable_eq {s b bs L l} (h : View m s (b :: bs) L l) {name : Bytes}
    (hn : m = false → Keys.dialect.outer name = true) :
    ∃ s', addVariable name s = .ok () s' ∧ View m s' (((name, L) :: b) :: bs) L l ∧ Ext s s' [] := by
  obtain ⟨c1, c2, c3, c4⟩ := changeTop_corr (b' := (name, L) :: b) (sub := s.scopes.runtime)
    (fun scope => { scope with locals := Trie.insert scope.locals name s.scopes.runtime.localsLength }) h.corr
    (fun t ht => by dsimp only; rw [h.length]; exact ht.insert name L)
    (fun _ => ⟨rfl, rfl⟩) (fun _ hw => hw) (fun _ => ⟨rfl, rfl⟩) (fun _ => rfl)
  refine ⟨_, rfl, ?_, ?_⟩
  · refine ⟨?_, h.body, ?_, ?_, by simp, ?_, ?_, h.tables.imp fun _ h => ⟨h.1, h.2, h.3⟩⟩
    rotate_left
    · intro hm c hc x hx
      have := h.names hm
      grind
    rotate_right
    · simp [addObject, h.current, h.setCurrent, h.runtime]
    · simpa [addObject, h.current, h.setCurrent] using c1
    · simpa [addObject, h.current, h.setCurrent, changeTop] using h.length
    · simpa [addObject, h.current, h.setCurrent, changeTop] using h.label
  · refine ⟨by simp [sink], rfl, fun _ => rfl, Nat.le_refl _, ?_, ?_, ?_, ?_⟩
    · simp [addObject, h.current, h.setCurrent]
    · simpa [addObject, h.current, h.setCurrent] using c2
    · intro _
      simpa [addObject, h.current, h.setCurrent] using c3
    · intro _ k _
      simp only [top, addObject, h.current, h.setCurrent]
      rw [c4]

/-! ## Labels -/

/-- The label of a generated name is `l` in the top scope. -/
def HasLabel (s : CState) (k l : Nat) : Prop :=
  k < s.gensymNumber ∧ Trie.find (top s).labels (gname k) = (l : Int)

omit [Keys] in
theorem HasLabel.ext {s s' k l code} (h : HasLabel s k l) (x : Ext s s' code) (hg : s'.gensymNumber ≤ 2 ^ 64) :
    HasLabel s' k l :=
  ⟨Nat.lt_of_lt_of_le h.1 x.gensyms, (x.labels hg k h.1).trans h.2⟩

omit [Keys] in
theorem gensym_eq (s : CState) :
    gensym s = .ok (gname s.gensymNumber) { s with gensymNumber := s.gensymNumber + 1 } := rfl

theorem View.gensym {s bs L l} (h : View m s bs L l) : View m { s with gensymNumber := s.gensymNumber + 1 } bs L l :=
  ⟨h.runtime, h.body, h.names, h.corr, h.some, h.length, h.label, h.tables.imp fun _ h => ⟨h.1, h.2, h.3⟩⟩

omit [Keys] in
theorem Ext.gensym (s : CState) : Ext s { s with gensymNumber := s.gensymNumber + 1 } [] :=
  ⟨by simp [sink], rfl, fun _ => rfl, Nat.le_succ _, rfl, rfl, id, fun _ _ _ => rfl⟩

theorem label_WF {s bs L l} (h : View m s bs L l) : (top s).labels.WF := by
  obtain ⟨b, bs', rfl⟩ := h.cons
  obtain ⟨t, ss, g1, g2, g3, g4⟩ := getTop_reverse h.corr
  unfold top
  rw [g2]
  exact g3.2.2.1

/-- A generated name that is registered when it was made after `s`. -/
theorem register_eq {s bs L l} (h : View m s bs L l) (k : Nat) (hk : k < s.gensymNumber) (h0 : s.gensymNumber ≤ 2 ^ 64) :
    ∃ s', register (gname k) s = .ok () s' ∧ View m s' bs L (l + 1) ∧ s'.gensymNumber = s.gensymNumber ∧
      (s'.assembly = s.assembly ∧ s'.body = s.body) ∧ s'.scopes.comptime = s.scopes.comptime ∧
      s'.scopes.runtime.scopes.dropLast = s.scopes.runtime.scopes.dropLast ∧ s'.scopes.runtime.scopes ≠ [] ∧
      HasLabel s' k l ∧ (∀ j, j < s.gensymNumber → j ≠ k →
        Trie.find (top s').labels (gname j) = Trie.find (top s).labels (gname j)) := by
  have hw := label_WF h
  obtain ⟨b, bs', rfl⟩ := h.cons
  obtain ⟨c1, c2, c3, c4⟩ := changeTop_corr (b' := b) (sub := s.scopes.runtime)
    (fun scope => { scope with labels := Trie.insert scope.labels (gname k) s.scopes.runtime.labelNumber }) h.corr
    (fun t ht => ht)
    (fun _ => ⟨rfl, rfl⟩) (fun _ hw => (Trie.insert_find _ _ _ hw).1) (fun _ => ⟨rfl, rfl⟩) (fun _ => rfl)
  have hfind := (Trie.insert_find (top s).labels (gname k) s.scopes.runtime.labelNumber hw).2
  refine ⟨_, rfl, ?_, rfl, ⟨rfl, rfl⟩, ?_, ?_, ?_, ⟨hk, ?_⟩, ?_⟩
  · refine ⟨?_, h.body, h.names, ?_, by simp, ?_, ?_, h.tables.imp fun _ h => ⟨h.1, h.2, h.3⟩⟩
    · simp [registerLabel, h.current, h.setCurrent, h.runtime]
    · simpa [registerLabel, h.current, h.setCurrent] using c1
    · simpa [registerLabel, h.current, h.setCurrent, changeTop] using h.length
    · simpa [registerLabel, h.current, h.setCurrent, changeTop] using h.label
  · simp [registerLabel, h.current, h.setCurrent]
  · simpa [registerLabel, h.current, h.setCurrent] using c2
  · simpa [registerLabel, h.current, h.setCurrent] using c3
  · simp only [top, registerLabel, h.current, h.setCurrent]
    rw [c4]
    refine (hfind _).trans ?_
    rw [if_pos rfl, h.label]
  · intro j hj hjk
    simp only [top, registerLabel, h.current, h.setCurrent]
    rw [c4]
    refine (hfind _).trans ?_
    rw [if_neg fun e => hjk (gname_inj (by omega) (by omega) e)]
    rfl

/-- A new label. -/
theorem newLabel_eq {s bs L l} (h : View m s bs L l) (h0 : s.gensymNumber < 2 ^ 64) :
    ∃ s', (do let a ← gensym; register a; return a : CM Bytes) s = .ok (gname s.gensymNumber) s' := by
  obtain ⟨s', e, -⟩ := register_eq h.gensym s.gensymNumber (Nat.lt_succ_self _) (by simp only; omega)
  exact ⟨s', (CM.bind_ok (gensym_eq s)).trans ((CM.bind_ok e).trans rfl)⟩

/-- Two generated names, both registered after both were made, as all generators do. -/
theorem twoLabels {s : CState} {bs L l} (h : View m s bs L l) (h0 : s.gensymNumber + 2 ≤ 2 ^ 64) :
    ∃ s1 s2, register (gname s.gensymNumber) { s with gensymNumber := s.gensymNumber + 1 + 1 } = .ok () s1 ∧
      register (gname (s.gensymNumber + 1)) s1 = .ok () s2 ∧ View m s2 bs L (l + 2) ∧ Ext s s2 [] ∧
      s2.scopes.runtime.scopes ≠ [] ∧ HasLabel s2 s.gensymNumber l ∧ HasLabel s2 (s.gensymNumber + 1) (l + 1) := by
  have hv : View m { s with gensymNumber := s.gensymNumber + 1 + 1 } bs L l := h.gensym.gensym
  obtain ⟨s1, e1, v1, g1, a1, c1, d1, n1, l1, o1⟩ := register_eq hv s.gensymNumber
    (by simp only; omega) (by simp only; omega)
  simp only at g1 a1 c1 d1 o1
  obtain ⟨s2, e2, v2, g2, a2, c2, d2, n2, l2, o2⟩ := register_eq v1 (s.gensymNumber + 1)
    (by rw [g1]; omega) (by rw [g1]; omega)
  refine ⟨s1, s2, e1, e2, v2, ?_, n2, ?_, l2⟩
  · refine ⟨by simp [sink, a2, a1], by simp [a2, a1], fun _ => by simp [a2, a1], by rw [g2, g1]; omega, c2.trans c1, d2.trans d1, fun _ => n2, ?_⟩
    intro _ k hk
    rw [o2 k (by rw [g1]; omega) (by omega), o1 k (by omega) (by omega)]
    rfl
  · exact ⟨by rw [g2, g1]; omega, by rw [o2 _ (by rw [g1]; omega) (by omega)]; exact l1.2⟩

omit [Keys] in
theorem getLast_of_ne {α : Type} {l : List α} (h : l ≠ []) : ∃ i a, l = i ++ [a] := by
  rcases List.eq_nil_or_concat l with rfl | ⟨i, a, rfl⟩
  · exact absurd rfl h
  · exact ⟨i, a, by simp⟩

theorem getLabel_eq {s bs L l k n} (h : View m s bs L l) (hl : HasLabel s k n)
    (hn : s.scopes.runtime.scopes ≠ []) : getLabelFromName (gname k) s.scopes.current = (n : Int) := by
  obtain ⟨i, a, e⟩ := getLast_of_ne hn
  have ht : top s = a := by simp [top, e, getTop]
  rw [h.current]
  unfold getLabelFromName
  rw [e]
  simp only [List.length_append, List.length_cons, List.length_nil, Nat.zero_add, nearest]
  simp only [Nat.le_refl, List.getElem?_append_right, Nat.sub_self, List.getElem?_cons_zero]
  rw [← ht, hl.2]
  have : (n : Int) ≠ -1 := by omega
  simp [this]

theorem labelNumber_eq {s bs L l k n} (h : View m s bs L l) (hl : HasLabel s k n)
    (hn : s.scopes.runtime.scopes ≠ []) : labelNumber (gname k) s = .ok n s := by
  unfold labelNumber
  refine (CM.bind_ok (show get s = .ok s s from rfl)).trans ?_
  rw [getLabel_eq h hl hn, if_neg (by omega)]
  rfl

theorem emitJump_eq {s bs L l k n} (h : View m s bs L l) (hl : HasLabel s k n)
    (hn : s.scopes.runtime.scopes ≠ []) : emitJump (gname k) s = .ok () (grow s [.jump n] L) :=
  (CM.bind_ok (labelNumber_eq h hl hn)).trans (put_eq h _)

theorem emitBrnz_eq {s bs L l k n} (h : View m s bs L l) (hl : HasLabel s k n)
    (hn : s.scopes.runtime.scopes ≠ []) {p : Nat} (hp : p ≤ L) :
    emitBrnz (gname k) p s = .ok () (grow s [.brnz n p] (L - p)) := by
  unfold emitBrnz
  rw [if_neg (by omega)]
  refine (CM.bind_ok (labelNumber_eq h hl hn)).trans ((CM.bind_ok (put_eq h _)).trans ?_)
  rw [Int.toNat_natCast, decrease_eq (h.grow _ _) hp, grow_grow]
  rfl

theorem emitLabel_eq {s bs L l k n} (h : View m s bs L l) (hl : HasLabel s k n)
    (hn : s.scopes.runtime.scopes ≠ []) : emitLabel (gname k) s = .ok () (grow s [.label n] L) := by
  obtain ⟨i, a, e⟩ := getLast_of_ne hn
  have ht : getTop s.scopes.runtime.scopes = (s.scopes.runtime.scopes, a) := by simp [e, getTop]
  have ha : Trie.find a.labels (gname k) = (n : Int) := by
    have := hl.2
    unfold top at this
    rw [ht] at this
    exact this
  unfold emitLabel
  refine (CM.bind_ok (show get s = .ok s s from rfl)).trans ?_
  dsimp only
  rw [h.current, ht]
  refine (CM.bind_ok (s1 := s) (a := ()) ?_).trans ?_
  · simp only [modify, h.setCurrent]
  · rw [ha, if_neg (by omega)]
    exact put_eq h _

theorem topScope_both {s bs L l} (h : View m s bs L l) (hn : s.scopes.runtime.scopes ≠ []) :
    ∃ t, topScope s = .ok t s ∧ t.scopeUvs = [] ∧ t.functionUvs = [] ∧ (getTop s.scopes.runtime.scopes) = (s.scopes.runtime.scopes, t) := by
  obtain ⟨b, bs', rfl⟩ := h.cons
  obtain ⟨t, ss, g1, g2, g3, g4⟩ := getTop_reverse h.corr
  obtain ⟨i, a, e⟩ := getLast_of_ne hn
  have ht : getTop s.scopes.runtime.scopes = (s.scopes.runtime.scopes, a) := by simp [e, getTop]
  refine ⟨a, ?_, ?_⟩
  · unfold topScope
    refine (CM.bind_ok (show get s = .ok s s from rfl)).trans ?_
    rw [h.current, ht]
    refine (CM.bind_ok (s1 := s) (a := ()) ?_).trans ?_
    · simp only [modify, h.setCurrent]
    · rfl
  · rw [ht] at g2
    dsimp only at g2
    rw [g2]
    exact ⟨g3.2.2.2.1.1, g3.2.2.2.1.2, g2 ▸ ht⟩

theorem topScope_inv {s bs L l} (h : View m s bs L l) (hn : s.scopes.runtime.scopes ≠ []) :
    ∃ t, topScope s = .ok t s ∧ t.scopeUvs = [] := by
  obtain ⟨t, e, h1, -⟩ := topScope_both h hn
  exact ⟨t, e, h1⟩

/-! ## Scopes -/

/-- The state with one more scope. -/
def opened (s : CState) : CState := { s with scopes := pushScope false s.scopes }

theorem View.opened {s bs L l} (h : View m s bs L l) : View m (opened s) ([] :: bs) L l := by
  refine ⟨h.runtime, h.body, fun hm => by simpa using h.names hm, ?_, by simp, h.length, h.label, h.tables.imp fun _ h => ⟨h.1, h.2, h.3⟩⟩
  simp only [Compile.opened, pushScope, List.reverse_append, List.reverse_cons, List.reverse_nil, List.nil_append,
    List.singleton_append, Bool.false_and]
  exact ⟨Reads.init, ⟨rfl, rfl⟩, Trie.init_WF _, ⟨rfl, rfl⟩, h.corr⟩

/-- Code in a scope of its own. -/
theorem close_eq {s s1 : CState} {b bs L l L1 l1 code} (h : View m s bs L l) (x : Ext (opened s) s1 code)
    (h1 : View m s1 (b :: bs) L1 l1) :
    ∃ s2, closeScope s1 = .ok () s2 ∧ View m s2 bs L1 l1 ∧ Ext s s2 code ∧
      s2.scopes.runtime.scopes = s.scopes.runtime.scopes ∧ s2.gensymNumber = s1.gensymNumber := by
  have hc : s1.scopes.comptime.scopes = s.scopes.comptime.scopes ++ [Scope.init false] := by
    rw [x.comptime]
    simp [opened, pushScope]
  have hr : s1.scopes.runtime.scopes.dropLast = s.scopes.runtime.scopes := by
    rw [x.outer]
    simp [opened, pushScope]
  have hcl : s1.scopes.comptime.localsLength = s.scopes.comptime.localsLength ∧
      s1.scopes.comptime.labelNumber = s.scopes.comptime.labelNumber := by
    rw [x.comptime]
    exact ⟨rfl, rfl⟩
  have e : popScope s1.scopes = ({ s1.scopes with
      runtime := { s1.scopes.runtime with scopes := s.scopes.runtime.scopes }
      comptime := s.scopes.comptime }, none) := by
    unfold popScope
    rw [hr, hc]
    rcases hs : s.scopes.comptime with ⟨a, b, c⟩
    rcases hs1 : s1.scopes.comptime with ⟨a1, b1, c1⟩
    rw [hs, hs1] at hcl
    simp only at hcl
    simp [hcl.1, hcl.2]
  refine ⟨{ s1 with scopes := { s1.scopes with
      runtime := { s1.scopes.runtime with scopes := s.scopes.runtime.scopes }
      comptime := s.scopes.comptime } }, by unfold closeScope; rw [e], ?_, ?_, rfl, rfl⟩
  · exact ⟨h1.runtime, h1.body, h.names, h.corr, h.some, h1.length, h1.label, h1.tables.imp fun _ h => ⟨h.1, h.2, h.3⟩⟩
  · refine ⟨x.code, x.inner, x.program, x.gensyms, rfl, rfl, id, fun _ _ _ => rfl⟩

omit [Keys] in
theorem openScope_eq (s : CState) : openScope false s = .ok () (opened s) := rfl

end DuckLisp.Compile
