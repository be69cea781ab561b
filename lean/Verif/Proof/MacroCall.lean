import Verif.Proof.Macro
import Verif.Props.Compile.Quote
import Verif.Spec.Macro

/-!
# The code of the call of a macro's function
-/

namespace DuckLisp.Macro

open DuckLisp.Asm DuckLisp.Reader DuckLisp.Compile DuckLisp.Spec

/-! ## Emitters, in code for the machine of the compiler -/

/-- Code is compiled for the machine of the compiler, to an array of its own, with `L` values on the stack. -/
structure Inside (s : CState) (L : Nat) : Prop where
  comptime : s.scopes.inComptime = true
  body : s.body.isSome = true
  length : s.scopes.comptime.localsLength = L

/-- The state after code that leaves the scopes alone. -/
def more (s : CState) (code : List Ins) (L : Nat) : CState :=
  { s with
    body := s.body.map (· ++ code)
    scopes := { s.scopes with comptime := { s.scopes.comptime with localsLength := L } } }

/-- Code was added. -/
structure Adds (s s' : CState) (code : List Ins) : Prop where
  body : s'.body.getD [] = s.body.getD [] ++ code
  assembly : s'.assembly = s.assembly
  machine : s'.machine = s.machine
  scopes : s'.scopes = { s.scopes with
    comptime := { s.scopes.comptime with localsLength := s'.scopes.comptime.localsLength } }
  symbols : (∃ history, Tables.Holds s.symbols history) → (∃ history, Tables.Holds s'.symbols history) ∧
    (∀ i, Numbered s.symbols i → Numbered s'.symbols i) ∧ ∀ i ∈ code, Numbered s'.symbols i

theorem Adds.refl (s : CState) : Adds s s [] := ⟨by simp, rfl, rfl, rfl, fun h => ⟨h, fun _ h => h, by simp⟩⟩

theorem Adds.trans {a b c : CState} {x y : List Ins} (h : Adds a b x) (g : Adds b c y) : Adds a c (x ++ y) := by
  refine ⟨by rw [g.body, h.body, List.append_assoc], g.assembly.trans h.assembly, g.machine.trans h.machine, ?_, fun hs => ?_⟩
  · rw [g.scopes, h.scopes]
  · obtain ⟨h1, h2, h3⟩ := h.symbols hs
    obtain ⟨g1, g2, g3⟩ := g.symbols h1
    refine ⟨g1, fun i hi => g2 i (h2 i hi), fun i hi => ?_⟩
    rcases List.mem_append.1 hi with hi | hi
    · exact g2 i (h3 i hi)
    · exact g3 i hi

theorem Adds.cast {a b : CState} {x y : List Ins} (h : Adds a b x) (e : x = y) : Adds a b y := e ▸ h

theorem Inside.more {s : CState} {L : Nat} (h : Inside s L) (code : List Ins) (L' : Nat) : Inside (more s code L') L' :=
  ⟨h.comptime, by rw [← h.body]; exact Option.isSome_map, rfl⟩

theorem Adds.more {s : CState} {L : Nat} (h : Inside s L) (code : List Ins) (L' : Nat)
    (hn : (∃ history, Tables.Holds s.symbols history) → ∀ i ∈ code, Numbered s.symbols i) : Adds s (more s code L') code := by
  refine ⟨?_, rfl, rfl, rfl, fun hs => ⟨hs, fun _ h => h, hn hs⟩⟩
  have := h.body
  simp only [Macro.more]
  cases hb : s.body
  · rw [hb] at this; cases this
  · rfl

theorem Adds.push {s s1 : CState} {L : Nat} (x : Adds s s1 []) (h : Inside s1 L) (i : Ins) (L' : Nat)
    (hn : (∃ history, Tables.Holds s.symbols history) → Numbered s1.symbols i) : Adds s (Macro.more s1 [i] L') [i] := by
  refine ⟨?_, x.assembly, x.machine, ?_, fun hs => ?_⟩
  · have := h.body
    have hx := x.body
    simp only [Macro.more]
    cases hb : s1.body
    · rw [hb] at this; cases this
    · rw [hb, List.append_nil] at hx
      simp only [Option.map_some, Option.getD_some] at hx ⊢
      rw [hx]
  · simp only [Macro.more]
    rw [x.scopes]
  · obtain ⟨h1, h2, -⟩ := x.symbols hs
    exact ⟨h1, h2, fun j hj => by rw [List.mem_singleton] at hj; subst hj; exact hn hs⟩

theorem more_more (s : CState) (a b : List Ins) (L L' : Nat) : more (more s a L) b L' = more s (a ++ b) L' := by
  cases hb : s.body <;> simp [more, hb]

theorem Inside.more_self {s : CState} {L : Nat} (h : Inside s L) : Macro.more s [] L = s := by
  have := h.length
  rcases s with ⟨_, _, _, _, _, _, body⟩
  subst this
  cases body <;> simp [Macro.more]

theorem Inside.current {s : CState} {L : Nat} (h : Inside s L) : s.scopes.current = s.scopes.comptime := by
  simp [Scopes.current, h.comptime]

theorem Inside.setCurrent {s : CState} {L : Nat} (h : Inside s L) (sub : Sub) :
    s.scopes.setCurrent sub = { s.scopes with comptime := sub } := by
  simp [Scopes.setCurrent, h.comptime]

/-- None of the instructions pushes a symbol. -/
macro "numbered" : tactic => `(tactic| (
  intro _ i hi
  refine Numbered.plain ?_
  first
  | (rw [List.mem_singleton] at hi; subst hi; rfl)
  | (split at hi
     · cases hi
     · rw [List.mem_singleton] at hi; subst hi; rfl)))

theorem localsLength_in {s : CState} {L : Nat} (h : Inside s L) : localsLength s = .ok L s := by
  simp [localsLength, h.current, h.length]

theorem setLocalsLength_in {s : CState} {L : Nat} (h : Inside s L) (n : Nat) :
    setLocalsLength n s = .ok () (more s [] n) := by
  simp [setLocalsLength, Compile.modify, h.current, h.setCurrent, more]

theorem increment_in {s : CState} {L : Nat} (h : Inside s L) : increment s = .ok () (more s [] (L + 1)) :=
  (CM.bind_ok (localsLength_in h)).trans (setLocalsLength_in h _)

theorem decrease_in {s : CState} {L : Nat} (h : Inside s L) {n : Nat} (hn : n ≤ L) :
    decrease n s = .ok () (more s [] (L - n)) := by
  refine (CM.bind_ok (localsLength_in h)).trans ?_
  rw [if_pos hn]
  exact setLocalsLength_in h _

theorem put_in {s : CState} {L : Nat} (h : Inside s L) (i : Ins) : put i s = .ok () (more s [i] L) := by
  have h1 := h.length
  have h2 := h.body
  rcases s with ⟨_, _, _, _, _, _, body⟩
  subst h1
  cases body
  · cases h2
  · simp [put, Compile.modify, more]

theorem operand_in {s : CState} {L : Nat} (h : Inside s L) (index : Int) : operand index s = .ok ((L : Int) - index) s :=
  (CM.bind_ok (localsLength_in h)).trans rfl

theorem emitPush_in {s : CState} {L : Nat} (h : Inside s L) (i : Ins) : emitPush i s = .ok () (more s [i] (L + 1)) := by
  refine (CM.bind_ok (put_in h i)).trans ?_
  rw [increment_in (h.more _ _), more_more]
  rfl

theorem emitBinary_in {s : CState} {L : Nat} (h : Inside s L) (ins : Int → Int → Ins) (a b : Int) :
    emitBinary ins a b s = .ok () (more s [ins ((L : Int) - a) ((L : Int) - b)] (L + 1)) :=
  (CM.bind_ok (operand_in h _)).trans ((CM.bind_ok (operand_in h _)).trans (emitPush_in h _))

theorem emitPop_in {s : CState} {L : Nat} (h : Inside s L) {n : Nat} (hn : n ≤ L) :
    emitPop n s = .ok () (more s (if n = 0 then [] else [.pop n]) (L - n)) := by
  by_cases h0 : n = 0
  · subst h0
    simp only [emitPop, if_true, Nat.sub_zero]
    rw [h.more_self]
    rfl
  · simp only [emitPop, h0, if_false]
    refine (CM.bind_ok (put_in h _)).trans ?_
    rw [decrease_in (h.more _ _) hn, more_more]
    rfl

theorem emitMove_in {s : CState} {L : Nat} (h : Inside s L) (d src : Int) :
    emitMove d src s = .ok () (more s (if d = src then [] else [.move ((L : Int) - src) ((L : Int) - d)]) L) := by
  by_cases h0 : d = src
  · simp only [emitMove, h0, if_true]
    rw [h.more_self]
    rfl
  · simp only [emitMove, h0, if_false]
    exact (CM.bind_ok (operand_in h _)).trans ((CM.bind_ok (operand_in h _)).trans (put_in h _))

theorem emitFuncall_in {s : CState} {L : Nat} (h : Inside s L) (i : Int) (n : Nat) :
    emitFuncall i n s = .ok () (more s [.funcall ((L : Int) - i) ((n % 256 : Nat) : Int)] (L + 1)) :=
  (CM.bind_ok (operand_in h _)).trans (emitPush_in h _)

theorem intern_in {s s' : CState} {L : Nat} {name : Bytes} {key : Int} (h : Inside s L) (e : intern name s = .ok key s') :
    Inside s' L ∧ Adds s s' [] ∧ ((∃ history, Tables.Holds s.symbols history) →
      Tables.nameToValue s'.symbols name = key ∧ key ≠ -1) := by
  unfold intern at e
  split at e
  · rename_i t hc
    cases e
    have : t = (Tables.create .enough s.symbols name).1 := by rw [hc]
    subst this
    refine ⟨⟨h.comptime, h.body, h.length⟩, ⟨by simp, rfl, rfl, rfl, ?_⟩, ?_⟩
    · rintro ⟨history, ht⟩
      exact ⟨⟨_, Tables.holds_create ht name⟩, fun i hi => hi.create ht name, by simp⟩
    · rintro ⟨history, ht⟩
      refine ⟨rfl, ?_⟩
      have := (Tables.holds_create ht name).find name
      rw [if_pos (by simp)] at this
      omega
  · cases e

theorem settle_in {s : CState} {L L' : Nat} (h : Inside s L') (hL : L < L') :
    ∃ s', settle L s = .ok () s' ∧ Inside s' (L + 1) ∧ Adds s s' (settleCode L L') := by
  have e1 := emitMove_in h (L : Int) ((L' - 1 : Nat) : Int)
  have hv := h.more (if (L : Int) = ((L' - 1 : Nat) : Int) then [] else [.move ((L' : Int) - ((L' - 1 : Nat) : Int)) ((L' : Int) - L)]) L'
  have e2 := emitPop_in hv (n := L' - L - 1) (by omega)
  have h0 : L' - (L' - L - 1) = L + 1 := by omega
  rw [h0] at e2
  refine ⟨_, ?_, hv.more (if L' - L - 1 = 0 then [] else [.pop ((L' - L - 1 : Nat) : Int)]) _, ?_⟩
  rotate_left
  · refine ((Adds.more h _ _ (by numbered)).trans (Adds.more hv _ _ (by numbered))).cast ?_
    unfold settleCode
    by_cases hl : L' - 1 = L
    · have h1 : (L : Int) = ((L' - 1 : Nat) : Int) := by omega
      have h2 : L' - L - 1 = 0 := by omega
      simp only [if_pos h1, if_pos h2, if_pos hl, List.append_nil]
    · have h1 : ¬ (L : Int) = ((L' - 1 : Nat) : Int) := by omega
      have h2 : ¬ L' - L - 1 = 0 := by omega
      simp only [if_neg h1, if_neg h2, if_neg hl, List.cons_append, List.nil_append]
      have h3 : (L' : Int) - ((L' - 1 : Nat) : Int) = 1 := by omega
      have h4 : (L' : Int) - L = ((L' - L : Nat) : Int) := by omega
      rw [h3, h4]
  · unfold settle
    rw [CM.bind_ok (localsLength_in h), if_neg (by omega)]
    exact (CM.bind_ok e1).trans e2

/-! ## Quoted trees -/

section
variable [Keys]

mutual
theorem quoteTree_in : ∀ (e : Ast) {s L s'}, Datum e → Inside s L → quoteTree e s = .ok () s' →
    ∃ code L', Code (.quoted e) [[]] L 0 code [[]] L' 0 ∧ Inside s' L' ∧ Adds s s' code
  | .bool b, s, L, s', _, h, e => by
    rw [quoteTree, emitPush_in h] at e
    cases e
    exact ⟨_, _, Code.quotedForm (by simp) (by simp) (Code.bool b), h.more _ _, Adds.more h _ _ (by numbered)⟩
  | .int i, s, L, s', _, h, e => by
    rw [quoteTree, emitPush_in h] at e
    cases e
    exact ⟨_, _, Code.quotedForm (by simp) (by simp) (Code.int i), h.more _ _, Adds.more h _ _ (by numbered)⟩
  | .float i, s, L, s', _, h, e => by
    rw [quoteTree, emitPush_in h] at e
    cases e
    exact ⟨_, _, Code.quotedForm (by simp) (by simp) (Code.float i), h.more _ _, Adds.more h _ _ (by numbered)⟩
  | .string i, s, L, s', _, h, e => by
    rw [quoteTree, emitPushString, emitPush_in h] at e
    cases e
    exact ⟨_, _, Code.quotedForm (by simp) (by simp) (Code.string i), h.more _ _, Adds.more h _ _ (by numbered)⟩
  | .identifier x, s, L, s', _, h, e => by
    rw [quoteTree] at e
    obtain ⟨id, s1, e1, e2⟩ := CM.bind_inv e
    obtain ⟨v1, x1, k1⟩ := intern_in h e1
    rw [emitPushSymbol, emitPush_in v1] at e2
    cases e2
    refine ⟨_, _, Code.quotedName id, v1.more _ _, x1.push v1 _ _ fun hs => ?_⟩
    rintro _ _ _ ⟨⟩
    exact ⟨x, (k1 hs).1, (k1 hs).2, rfl⟩
  | .expression es, s, L, s', hd, h, e => by
    have hd' : ∀ e ∈ es, Datum e := by cases hd; assumption
    rw [quoteTree, CM.bind_ok (show emitNil s = _ from emitPush_in h .nil)] at e
    obtain ⟨code, L', c, v, x⟩ := quoteElements_in es hd' (h.more _ _) (Nat.succ_pos L) e
    exact ⟨_, _, Code.quotedList c, v, (Adds.more h _ _ (by numbered)).trans x⟩
  | .callback _, _, _, _, hd, _, _ => by cases hd
  | .literal _, _, _, _, hd, _, _ => by cases hd
  | .garbage, _, _, _, hd, _, _ => by cases hd
theorem quoteElements_in : ∀ (es : List Ast) {s L s'}, (∀ e ∈ es, Datum e) → Inside s L → 0 < L →
    quoteElements es s = .ok () s' →
    ∃ code L', Code (.quotes es) [[]] L 0 code [[]] L' 0 ∧ Inside s' L' ∧ Adds s s' code
  | [], s, L, s', _, h, _, e => by
    rw [quoteElements] at e
    obtain ⟨-, rfl⟩ := CM.pure_inv e
    exact ⟨_, _, Code.quotesNil, h, Adds.refl _⟩
  | a :: es, s, L, s', hd, h, hL, e => by
    rw [quoteElements] at e
    obtain ⟨_, s1, e1, e2⟩ := CM.bind_inv e
    obtain ⟨code, L1, c1, v1, x1⟩ := quoteElements_in es (fun e he => hd e (by simp [he])) h hL e1
    rw [CM.bind_ok (localsLength_in v1)] at e2
    obtain ⟨_, s2, e3, e4⟩ := CM.bind_inv e2
    obtain ⟨code2, L2, c2, v2, x2⟩ := quoteTree_in a (hd a (by simp)) v1 e3
    have h1 : L ≤ L1 := c1.after.1
    have h2 : L1 < L2 := c2.after.1
    rw [CM.bind_ok (localsLength_in v2), emitBinary_in v2] at e4
    cases e4
    refine ⟨_, _, Code.quotesCons c1 c2, v2.more _ _, ((x1.trans x2).trans (Adds.more v2 _ _ (by numbered))).cast ?_⟩
    have h4 : (L2 : Int) - ((L1 - 1 : Nat) : Int) = ((L2 - L1 + 1 : Nat) : Int) := by omega
    rw [show (L2 : Int) - ((L2 : Int) - 1) = 1 by omega, h4]
end

end

/-! ## The code -/

/-- No labels, and nothing is popped but after a move. -/
inductive Calm : List Ins → Prop
  | nil : Calm []
  | cons {i is} : labelOf i = none → (∀ n, i ≠ .pop n) → Calm is → Calm (i :: is)
  | move {a b n is} : Calm is → Calm (.move a b :: .pop n :: is)

theorem Calm.append {a b : List Ins} (h : Calm a) (g : Calm b) : Calm (a ++ b) := by
  induction h with
  | nil => exact g
  | cons h1 h2 _ ih => exact .cons h1 h2 ih
  | move _ ih => exact .move ih

theorem Calm.labels {a : List Ins} (h : Calm a) : ∀ i ∈ a, labelOf i = none := by
  induction h with
  | nil => simp
  | cons h1 _ _ ih => exact List.forall_mem_cons.2 ⟨h1, ih⟩
  | move _ ih => exact List.forall_mem_cons.2 ⟨rfl, List.forall_mem_cons.2 ⟨rfl, ih⟩⟩

theorem Calm.pops {a : List Ins} (h : Calm a) : (∀ n, a[0]? ≠ some (.pop n)) ∧
    ∀ (k : Nat) (n : Int), a[k + 1]? = some (.pop n) → ∃ x y, a[k]? = some (.move x y) := by
  induction h with
  | nil => simp
  | cons _ h2 _ ih =>
    refine ⟨fun n h => h2 n (by simpa using h), fun k n h => ?_⟩
    rw [List.getElem?_cons_succ] at h
    cases k with
    | zero => exact absurd h (ih.1 n)
    | succ k => simpa using ih.2 k n h
  | move _ ih =>
    refine ⟨fun n h => by simp at h, fun k n h => ?_⟩
    rw [List.getElem?_cons_succ] at h
    match k with
    | 0 => exact ⟨_, _, rfl⟩
    | 1 => exact absurd (by simpa using h) (ih.1 n)
    | k + 2 =>
      obtain ⟨x, y, h⟩ := ih.2 k n (by simpa using h)
      exact ⟨x, y, by simpa using h⟩

theorem Calm.noGarbage {a : List Ins} (h : Calm a) (strip : Bool) : NoGarbage strip a := by
  intro k i n hi hn hp
  obtain ⟨x, y, h⟩ := h.pops.2 k n hn
  rw [hi] at h
  cases h
  cases hp

theorem calm_quote [Keys] {e : Ast} {bs L l code bs' L' l'} (hd : Datum e)
    (h : Code (.quoted e) bs L l code bs' L' l') : Calm code := by
  have := Props.quotePlain_code h hd
  clear h
  induction code with
  | nil => exact .nil
  | cons i is ih =>
    have h1 := this i (by simp)
    refine .cons ?_ ?_ (ih fun i hi => this i (by simp [hi]))
    · cases i <;> first | rfl | exact absurd h1 id
    · rintro n rfl
      exact h1

theorem calm_settle (L L' : Nat) : Calm (settleCode L L') := by
  unfold settleCode
  split
  · exact .nil
  · exact .move .nil

/-! ## The arguments -/

/-- The arguments, quoted. -/
def quoteArguments : List Ast → CM Unit
  | [] => pure ()
  | e :: es => do
      let start ← localsLength
      quoteTree e
      keep
      settle start
      quoteArguments es

/-- `__quote` is the keyword. -/
structure QuoteFree (cfg : Compile.Config) (s : CState) : Prop where
  scopes : functionType (ascii "__quote") s.scopes.comptime = -1
  host : Trie.find cfg.callbacks (ascii "__quote") = -1

theorem QuoteFree.adds {cfg : Compile.Config} {s s' : CState} {code : List Ins} (h : QuoteFree cfg s) (x : Adds s s' code) :
    QuoteFree cfg s' := by
  refine ⟨?_, h.host⟩
  rw [x.scopes]
  exact h.scopes

theorem quotation_inv {cfg : Compile.Config} {c : Setting} {n depth : Nat} {e : Ast} {s s' : CState} {i : Option Int} {L : Nat}
    (h : Inside s L) (hq : QuoteFree cfg s) (hx : compound cfg c n depth (quotation e) true s = .ok i s') :
    (quoteTree e >>= fun _ => keep) s = .ok () s' := by
  cases n with
  | zero => simp only [compound] at hx; cases hx
  | succ n =>
    simp only [quotation, compound] at hx
    split at hx
    · cases hx
    · obtain ⟨o, s1, e1, e2⟩ := CM.bind_inv hx
      cases n with
      | zero => simp only [expression] at e1; cases e1
      | succ n =>
        have hs : s1 = s' := by
          cases o with
          | some i => exact (CM.pure_inv e2).2
          | none =>
            obtain ⟨l, s2, e3, e4⟩ := CM.bind_inv e2
            cases e3
            exact (CM.pure_inv e4).2
        subst hs
        simp only [expression, dispatch] at e1
        obtain ⟨s0, s2, e3, e4⟩ := CM.bind_inv e1
        cases e3
        have hg : generator (ascii "__quote") = some .quote := by decide +kernel
        rw [h.current, hq.scopes] at e4
        rw [if_neg (by decide), if_neg (by decide), if_neg (by simp), if_neg (by simp [hq.host]), hg] at e4
        dsimp only [generate] at e4
        obtain ⟨_, s3, e5, e6⟩ := CM.bind_inv e4
        obtain ⟨_, s4, e7, e8⟩ := CM.bind_inv e6
        obtain ⟨-, rfl⟩ := CM.pure_inv e8
        have : quoteTree e s = .ok () s3 := e5
        exact (CM.bind_ok this).trans e7

theorem genArguments_inv {cfg : Compile.Config} {c : Setting} {n depth : Nat} {r : Rec}
    (hr : r.compound = compound cfg c n depth) [Keys] : ∀ (es : List Ast) {s s' : CState} {L : Nat}, (∀ e ∈ es, Datum e) →
    Inside s L → QuoteFree cfg s → genArguments r (es.map quotation) s = .ok () s' →
    quoteArguments es s = .ok () s' ∧ ∃ code, Code (.args (es.map quotation)) [[]] L 0 code [[]] (L + es.length) 0 ∧
      Inside s' (L + es.length) ∧ Adds s s' code ∧ Calm code
  | [], s, s', L, _, h, _, e => by
    obtain ⟨-, rfl⟩ := CM.pure_inv (show (pure () : CM Unit) s = .ok () s' from e)
    exact ⟨rfl, _, Code.argsNil, h, Adds.refl _, .nil⟩
  | a :: es, s, s', L, hd, h, hq, e => by
    rw [List.map_cons, genArguments, CM.bind_ok (localsLength_in h)] at e
    obtain ⟨i, s1, e1, e2⟩ := CM.bind_inv e
    obtain ⟨_, s2, e3, e4⟩ := CM.bind_inv e2
    rw [hr] at e1
    have e5 := quotation_inv h hq e1
    obtain ⟨_, s3, e6, e7⟩ := CM.bind_inv e5
    obtain ⟨code, L1, c1, v1, x1⟩ := quoteTree_in a (hd a (by simp)) h e6
    cases e7
    have v1' : Inside { s3 with expansion := none } L1 := ⟨v1.comptime, v1.body, v1.length⟩
    have x1' : Adds s { s3 with expansion := none } code := ⟨x1.body, x1.assembly, x1.machine, x1.scopes, x1.symbols⟩
    have hL : L < L1 := c1.after.1
    obtain ⟨s4, g4, v4, x4⟩ := settle_in v1' hL
    have : s2 = s4 := by
      have := e3.symm.trans g4
      cases this
      rfl
    subst this
    obtain ⟨k2, code2, c2, v2, x2, m2⟩ := genArguments_inv hr es (fun a ha => hd a (by simp [ha])) v4
      ((hq.adds x1').adds x4) e4
    have el : L + 1 + es.length = L + (a :: es).length := by simp; omega
    rw [el] at c2 v2
    refine ⟨?_, _, Code.argsCons (Code.quote (.inr rfl) c1) c2, v2, (x1'.trans x4).trans x2,
      .append (.append (calm_quote (hd a (by simp)) c1) (calm_settle L L1)) m2⟩
    rw [quoteArguments, CM.bind_ok (localsLength_in h), CM.bind_ok e6, CM.bind_ok (show keep s3 = .ok () _ from rfl), CM.bind_ok g4]
    exact k2

/-! ## The call -/

/-- What is compiled for a call. -/
structure CallCode (s s' : CState) (name : Bytes) (es : List Ast) (code : List Ins) (arguments : List Ins) : Prop where
  whole : code = arguments ++ [.funcall (((s.machine.stack.length + es.length : Nat) : Int) -
    getMacroFromName name s.scopes.comptime) ((es.length % 256 : Nat) : Int)]
  adds : Adds s s' code
  calm : Calm arguments

theorem callCode_inv {cfg : Compile.Config} {c : Setting} {n depth : Nat} {r : Rec} {name : Bytes} {es : List Ast} {s s' : CState}
    {code : List Ins} [Keys] (hr : r.compound = compound cfg c n depth) (hd : ∀ e ∈ es, Datum e)
    (hin : s.scopes.inComptime = true) (hb : s.body = some []) (hq : QuoteFree cfg s)
    (h : callCode r name es s = .ok code s') :
    ∃ arguments, CallCode s s' name es code arguments ∧ Code (.args (es.map quotation)) [[]] s.machine.stack.length 0 arguments
      [[]] (s.machine.stack.length + es.length) 0 := by
  have h0 : Inside s s.scopes.comptime.localsLength := ⟨hin, by rw [hb]; rfl, rfl⟩
  unfold callCode at h
  obtain ⟨s0, s1, e1, e2⟩ := CM.bind_inv h
  cases e1
  rw [CM.bind_ok (setLocalsLength_in h0 _)] at e2
  obtain ⟨s2, s3, e3, e4⟩ := CM.bind_inv e2
  cases e3
  have v1 := h0.more [] s.machine.stack.length
  have x1 := Adds.more h0 [] s.machine.stack.length (by simp)
  obtain ⟨_, s4, e5, e6⟩ := CM.bind_inv e4
  obtain ⟨-, arguments, c1, v2, x2, m2⟩ := genArguments_inv hr es hd v1 (hq.adds x1) e5
  rw [CM.bind_ok (emitFuncall_in v2 _ _)] at e6
  obtain ⟨s5, s6, e7, e8⟩ := CM.bind_inv e6
  cases e7
  obtain ⟨e9, rfl⟩ := CM.pure_inv e8
  have hi : getMacroFromName name (more s [] s.machine.stack.length).scopes.current =
      getMacroFromName name s.scopes.comptime := by rw [v1.current]; rfl
  rw [hi] at e9
  have x := (x1.trans x2).trans (Adds.more v2
    [.funcall (((s.machine.stack.length + es.length : Nat) : Int) - getMacroFromName name s.scopes.comptime)
      ((es.length % 256 : Nat) : Int)] (s.machine.stack.length + es.length + 1) (by numbered))
  have hx := x.body
  rw [hb, e9] at hx
  simp only [Option.getD_some, List.nil_append] at hx x
  rw [hi]
  exact ⟨arguments, ⟨hx, hx ▸ x, m2⟩, c1⟩

theorem eval_quotations {S : Eval.Rules} {F : Nat} (hm : S.memory = true) : ∀ (es : List Ast) (env : Eval.Env), (∀ e ∈ es, ShortTexts e) →
    Eval.arguments S F (es.map quotation) env = .ok (es.map quoted, env)
  | [], env, _ => by rw [List.map_nil, Eval.arguments]; rfl
  | a :: es, env, h => by
    rcases S with ⟨⟨fl, memory, assignable⟩, apply⟩
    obtain rfl : memory = true := hm
    rw [List.map_cons, Eval.arguments, quotation, eval_quote (name := ascii "__quote") (.inr rfl), Props.datum_quoted _ (h a (by simp))]
    show Eval.Result.bind (Eval.arguments _ F (es.map quotation) env) _ = _
    rw [eval_quotations rfl es env fun e he => h e (by simp [he])]
    rfl

theorem peephole_halt : ∀ (k : Nat) (p : List Ins), p.length = k → peephole (p ++ [.halt]) = peephole p ++ [.halt]
  | _, [], _ => by simp [peephole]
  | _, [a], _ => by
    have : peepholeStep a .halt = (a, .halt) := rfl
    simp [peephole, this]
  | k + 1, a :: b :: rest, hk => by
    have := peephole_halt k ((peepholeStep a b).2 :: rest) (by simpa using hk)
    rw [List.cons_append, List.cons_append, peephole, peephole, ← List.cons_append, this]
    rfl

theorem pieces_halt {strip : Bool} {target : List Ins} {bytes : Bytes} {pieces : List Bytes} (h : Pieces strip target bytes pieces) :
    Pieces strip (target ++ [.halt]) (bytes ++ [halt]) (pieces ++ [[halt]]) := by
  have hl := h.length
  have key : ∀ (k : Nat) (i : Ins) (p : Bytes), (target ++ [.halt])[k]? = some i → (pieces ++ [[halt]])[k]? = some p →
      (target[k]? = some i ∧ pieces[k]? = some p) ∨ (i = .halt ∧ p = [halt]) := by
    intro k i p hi hp
    by_cases hk : k < target.length
    · rw [List.getElem?_append_left hk] at hi
      rw [List.getElem?_append_left (by omega)] at hp
      exact .inl ⟨hi, hp⟩
    · rw [List.getElem?_append_right (by omega)] at hi
      rw [List.getElem?_append_right (by omega)] at hp
      have : k - target.length = 0 := by
        have := (List.getElem?_eq_some_iff.1 hi).1
        simp at this
        omega
      rw [this] at hi
      rw [hl, this] at hp
      exact .inr ⟨by simpa using hi.symm, by simpa using hp.symm⟩
  refine ⟨by simp [hl], by simp [h.flatten], fun k i p hi hp hn => ?_, fun k i p m hi hp hm hf hs => ?_⟩
  · rcases key k i p hi hp with ⟨h1, h2⟩ | ⟨rfl, rfl⟩
    · exact h.none k i p h1 h2 hn
    · rcases hn with hn | ⟨l, hn⟩ <;> cases hn
  · rcases key k i p hi hp with ⟨h1, h2⟩ | ⟨rfl, rfl⟩
    · exact h.plain k i p m h1 h2 hm hf hs
    · cases hm
      intro rest
      rfl

/-- The bytes are those of the code. -/
theorem call_pieces [Keys] {opt : Options} {l : Nat} {code : List Ins} {bytes : Bytes} (ha : assemble opt l code = .ok bytes)
    (hn : ∀ i ∈ code, labelOf i = none) (hb : bytes.length < 2 ^ 31) :
    ∃ pieces, Pieces opt.strip (if opt.pushPops then peephole (code ++ [.halt]) else code ++ [.halt]) (bytes ++ [halt]) pieces ∧
      AllLand (if opt.pushPops then peephole (code ++ [.halt]) else code ++ [.halt]) pieces := by
  obtain ⟨pieces, h1, -⟩ := jumpsLand_none ha hn fun _ => hb
  have he : (if opt.pushPops then peephole (code ++ [.halt]) else code ++ [.halt]) =
      (if opt.pushPops then peephole code else code) ++ [.halt] := by
    split
    · exact peephole_halt _ _ rfl
    · rfl
  refine ⟨pieces ++ [[halt]], by rw [he]; exact pieces_halt h1, ?_⟩
  intro k i n j hk hi _ _
  have := rewritten_labels (opt := opt) (program := code ++ [.halt])
    (List.forall_mem_append.2 ⟨hn, by simp [labelOf]⟩) i (List.mem_of_getElem? hk)
  rw [this] at hi
  cases hi

/-- The code of the call does what it is for. -/
theorem runs_call {cfg : Compile.Config} {c : Setting} {n depth l : Nat} {r : Rec} {name : Bytes} {es : List Ast} {s s' : CState}
    {code : List Ins} {bytes : Bytes} {i : Nat} {f : VM.Obj} (hr : r.compound = compound cfg c n depth)
    (hd : ∀ e ∈ es, Datum e) (hs : ∀ e ∈ es, ShortTexts e) (hn : es.length < 256)
    (hin : s.scopes.inComptime = true) (hb : s.body = some []) (hq : QuoteFree cfg s)
    (hsym : ∃ history, Tables.Holds s.symbols history)
    (h : callCode r name es s = .ok code s') (ha : assemble c.options l code = .ok bytes)
    (hlen : code.length + 1 < 2 ^ 31) (hbytes : bytes.length < 2 ^ 31)
    (hfmt : ∀ i ∈ code, InFormat i ∧ SmallWhereNeeded i)
    (hi : getMacroFromName name s.scopes.comptime = (i : Int)) (hf : s.machine.stack[i]? = some f)
    (hvm : Good s.machine) (hup : s.machine.upStack.length = s.machine.stack.length) (hfree : ¬ Full s.machine) :
    LeadsToCall c.env (reading s'.symbols) (bytes ++ [halt]) s.machine f es ∨
      MemoryRunsOut c.env (bytes ++ [halt]) s.machine := by
  let _ : Keys := Keys.from s'.symbols .core unclaimed_core
  obtain ⟨arguments, hc, h1⟩ := callCode_inv hr hd hin hb hq h
  obtain ⟨hw, hadd, hcalm⟩ := hc
  obtain ⟨hsym', -, hnum⟩ := hadd.symbols hsym
  have hnum' : AllNumbered [] { s' with assembly := code ++ [.halt], body := none } := by
    refine ⟨hsym', fun i hi => ?_⟩
    simp only [List.nil_append, Option.getD_none, List.append_nil, List.mem_append, List.mem_singleton] at hi
    rcases hi with hi | rfl
    · exact hnum i hi
    · exact .plain rfl
  have hi' : i < s.machine.stack.length := (List.getElem?_eq_some_iff.1 hf).1
  have hcalm2 : Calm (code ++ [.halt]) := by
    rw [hw]
    exact .append (.append hcalm (.cons rfl nofun .nil)) (.cons rfl nofun .nil)
  obtain ⟨pieces, hcut, hland⟩ := call_pieces ha (fun i hi => hcalm2.labels i (by simp [hi])) hbytes
  have hfmt' : ∀ i ∈ code ++ [Ins.halt], InFormat i ∧ SmallWhereNeeded i :=
    List.forall_mem_append.2 ⟨hfmt, by simp [InFormat, SmallWhereNeeded]⟩
  let C (cell serial : Nat) : Setup := {
    env := c.env, cell := cell, serial := serial, strip := c.options.strip, program := code ++ [.halt], bytes := bytes ++ [halt]
    off := offset pieces, ids := ⟨numbers s'.symbols, Defines (code ++ [.halt]) (offset pieces) cell⟩, below := s.machine.stack
    memory := true, origin := s.machine.stack.length
    kept := fun _ _ => False, callStack := s.machine.callStack, upArrays := s.machine.upArrays, hkept := nofun
    hids := fun a b i j => ids_inj hsym'.choose_spec a b i j
    hints := fun v hv => by
      obtain ⟨h1, h2⟩ := (hfmt' _ hv).1
      exact ⟨by omega, by omega⟩
    hsymbols := fun id len name hm hl => ids_symbol hnum' hm hl }
  have hfew : FewPops (code ++ [Ins.halt]) := by
    constructor
    · intro m hm
      rw [hw] at hm
      simp only [List.append_assoc, List.mem_append, List.mem_cons, List.not_mem_nil, reduceCtorEq, or_false] at hm
      exact h1.pop_pos _ hm m rfl
    · have h2 := h1.popped_le
      show Compile.popped (code ++ [.halt]) < _
      have h3 : Compile.popped (code ++ [.halt]) = Compile.popped arguments := by
        rw [hw, popped_append, popped_append]
        simp [Compile.popped, Spec.pops]
      have h4 : code.length = arguments.length + 1 := by rw [hw]; simp
      rw [h3]
      omega
  have H (cell serial : Nat) : (C cell serial).Loaded
      (if c.options.pushPops then peephole (code ++ [.halt]) else code ++ [.halt]) pieces := by
    have hf : ∀ i ∈ (if c.options.pushPops then peephole (code ++ [.halt]) else code ++ [.halt]), InFormat i ∧ SmallWhereNeeded i := by
      split
      · exact peephole_format hfew hfmt'
      · exact hfmt'
    refine ⟨?_, hcut, hland, fun i hi => (hf i hi).1, fun i hi => (hf i hi).2, fun _ => rfl⟩
    split
    · exact .inr ⟨rfl, hcalm2.noGarbage _, hfew⟩
    · exact .inl rfl
  obtain ⟨cell, serial, vm1, vm2, hl⟩ := load (bytes := bytes ++ [halt]) hvm (by simp) hfree
  have hready : (C cell serial).Ready vm2 s.machine.stack.length := by
    refine ⟨hl.good, Nat.le_refl _, ?_, ?_, by rw [hl.state], ?_, by rw [hl.callStack], ?_⟩
    · rw [hl.stack]; show _ = s.machine.stack.length + s.machine.stack.length - s.machine.stack.length; omega
    · rw [hl.upStack, hup]; show _ = s.machine.stack.length + s.machine.stack.length - s.machine.stack.length; omega
    rotate_left
    · rw [hl.state]; exact hl.extends_.upArrays
    · refine ⟨⟨serial, bytes ++ [halt]⟩, (bytes ++ [halt]).length, ?_, rfl, rfl⟩
      rw [hl.state]
      exact hl.code
  have hat : (C cell serial).At vm2 s.machine.stack.length ⟨fun _ => none, fun _ => none⟩ :=
    ⟨hready, by rw [hl.stack]; exact List.take_length, fun _ _ _ h => (nomatch h),
      fun _ _ h => (nomatch h), fun _ _ h => h.elim⟩
  have hhas : (C cell serial).Has 0 (arguments ++ [.funcall (((s.machine.stack.length + es.length : Nat) : Int) -
      getMacroFromName name s.scopes.comptime) ((es.length % 256 : Nat) : Int)]) := by
    rw [← hw]
    intro j i hj
    show (code ++ [.halt])[0 + j]? = _
    rw [Nat.zero_add, List.getElem?_append_left (List.getElem?_eq_some_iff.1 hj).1, hj]
  have hsim := simulates (S := ⟨c.env.fl, true, fun _ => false⟩) 0 (C := C cell serial) rfl rfl rfl
    (fun x key => Props.from_keys hnum') (fun x _ _ h => nomatch h) h1 0 _ ⟨[[]], []⟩ vm2 .nil
    hhas.left ⟨by simp [slots], by simp [slots]⟩ trivial hat ⟨⟨trivial, trivial⟩, fun _ _ h => nomatch h⟩
  simp only [Piece.result] at hsim
  rw [eval_quotations rfl es _ hs] at hsim
  have hb0 : (C cell serial).at_ 0 = ⟨cell, serial, 0⟩ := by
    simp only [Setup.at_, (H cell serial).off, offset, List.take_zero, List.flatten_nil, List.length_nil]
    rfl
  rcases hsim with ⟨m, vm3, hsteps, σ', h3, -, -, vs, h4, h5, h6⟩ | ⟨-, m, k, vm', hsteps, hloud, hx⟩
  · left
    have hvs := ofList_inj h4
    subst hvs
    have hi2 := hhas.right.head
    have hloud : (C cell serial).Loud (0 + arguments.length) := ⟨_, hi2, rfl⟩
    obtain ⟨N, -, hN⟩ := (H cell serial).reach hsteps hloud h3.ready.code
    rw [hb0] at hN
    have hheight := h3.ready.height
    have hbelow : vm3.stack.take s.machine.stack.length = s.machine.stack := h3.below
    have hpos : ∀ k, (C cell serial).pos k = k := fun k =>
      show s.machine.stack.length + k - s.machine.stack.length = k by omega
    have hheight : vm3.stack.length = s.machine.stack.length + es.length := by
      rw [hheight]
      show s.machine.stack.length + (s.machine.stack.length + es.length) - s.machine.stack.length = _
      omega
    refine ⟨cell, serial, vm1, N, _, (C cell serial).at_ (0 + arguments.length + 1), vm3, vm3.stack.drop s.machine.stack.length,
      s.machine.stack.length + es.length - i, hl.push, hl.serial_eq, by rw [← hl.state]; exact hN, h3.ready.good,
      h3.ready.callStack, ?_, by simp; omega, ?_, ?_, ?_⟩
    · conv => lhs; rw [← List.take_append_drop s.machine.stack.length vm3.stack]
      rw [hbelow]
    · intro k o e ho he
      obtain ⟨-, o', h7, h8⟩ := h3.values (s.machine.stack.length + k)
        (by have := (List.getElem?_eq_some_iff.1 he).1; omega) (quoted e) (h6 k _ (by simp [he]))
      rw [hpos] at h7
      rw [List.getElem?_drop, h7] at ho
      cases ho
      exact Props.holds_mono (R := ⟨numbers s'.symbols, Defines (code ++ [.halt]) (offset pieces) cell⟩) (R' := reading s'.symbols)
        (fun _ _ h => h) (fun _ _ _ _ h => Props.isFunction h) h8
    · unfold VM.getArg VM.argIndex
      rw [hheight, if_pos (by omega), Option.bind_some,
        show s.machine.stack.length + es.length - (s.machine.stack.length + es.length - i) = i by omega]
      have : vm3.stack[i]? = some f := by
        rw [← List.getElem?_take_of_lt hi', hbelow, hf]
      rw [this]
    · rw [(H cell serial).step_plain ((H cell serial).loud_get hi2 rfl) rfl h3.ready.code]
      rw [hi, Nat.mod_eq_of_lt hn, show (((s.machine.stack.length + es.length : Nat) : Int) - (i : Int)).toNat =
        s.machine.stack.length + es.length - i by omega]
      rfl
  · right
    have hcode : HasCode vm' ⟨cell, serial, 0⟩ (bytes ++ [halt]) := by
      rcases hx with ⟨h, _⟩ | ⟨_, h⟩
      · exact h
      · exact h.1
    obtain ⟨N, -, hN⟩ := (H cell serial).reach hsteps hloud hcode
    rw [hb0] at hN
    refine ⟨cell, serial, vm1, N, _, vm', hl.push, hl.serial_eq, by rw [← hl.state]; exact hN, ?_⟩
    rcases hx with ⟨_, h⟩ | ⟨s, h⟩
    · exact .inl h
    · rcases (H cell serial).loud h hloud with ⟨_, _, h⟩ | h
      · cases h
      · exact .inr ⟨s, h⟩

/-! ## Expansion -/

/-- The state in which the call is compiled. -/
def forCall (s : CState) : CState :=
  { s with
    scopes := { s.scopes with inComptime := true }
    assembly := if s.scopes.inComptime then s.assembly else []
    body := some [] }

theorem machine_inv {α : Type} {m : VM.M α} {s s' : CState} {a : α} (h : machine m s = .ok a s') :
    ∃ vm, m s.machine = .ok a vm ∧ s' = { s with machine := vm } := by
  unfold machine at h
  split at h <;> cases h
  exact ⟨_, by assumption, rfl⟩

theorem result_inv {α : Type} {r : Res α} {s s' : CState} {a : α} (h : result r s = .ok a s') : r = .ok a ∧ s' = s := by
  unfold result at h
  split at h <;> cases h
  exact ⟨rfl, rfl⟩

theorem expand_inv {c : Setting} {r : Rec} {n : Nat} {name : Bytes} {es : List Ast} {s s' : CState} {tree : Ast}
    (h : expand c r n name es s = .ok tree s') :
    ∃ code s1 bytes vm o, callCode r name es (forCall s) = .ok code s1 ∧
      assemble c.options s1.scopes.current.labelNumber code = .ok bytes ∧
      VM.execute c.env n (bytes ++ [halt]) s1.machine = .ok () vm ∧
      vm.stack.getLast? = some o ∧ AstObj.objectToAST vm true n o = .ok tree ∧
      VM.apiPop vm = .ok () s'.machine ∧
      s'.scopes.inComptime = s.scopes.inComptime ∧ s'.assembly = s.assembly ∧ s'.body = s.body ∧ s'.symbols = s1.symbols ∧
      s'.scopes = { s1.scopes.setCurrent { s1.scopes.current with localsLength := s.scopes.comptime.localsLength } with
        inComptime := s.scopes.inComptime } := by
  unfold expand at h
  obtain ⟨s0, _, e1, h⟩ := CM.bind_inv h
  cases e1
  obtain ⟨_, s2, e2, h⟩ := CM.bind_inv h
  obtain rfl : s2 = forCall s := by cases e2; rfl
  obtain ⟨len, s3, e3, h⟩ := CM.bind_inv h
  cases e3
  obtain ⟨code, s1, e4, h⟩ := CM.bind_inv h
  obtain ⟨b, s5, e5, h⟩ := CM.bind_inv h
  unfold assembled at e5
  obtain ⟨s6, _, e6, k6⟩ := CM.bind_inv e5
  cases e6
  obtain ⟨bytes, s7, e7, k7⟩ := CM.bind_inv k6
  obtain ⟨e7, rfl⟩ := result_inv e7
  obtain ⟨rfl, rfl⟩ := CM.pure_inv k7
  obtain ⟨_, s8, e8, h⟩ := CM.bind_inv h
  obtain ⟨vm, k8, rfl⟩ := machine_inv e8
  obtain ⟨o, s9, e9, h⟩ := CM.bind_inv h
  have k9 : vm.stack.getLast? = some o ∧ s9 = { s7 with machine := vm } := by
    unfold top at e9
    split at e9 <;> cases e9
    exact ⟨by assumption, rfl⟩
  obtain ⟨k9, rfl⟩ := k9
  obtain ⟨s10, _, e10, h⟩ := CM.bind_inv h
  cases e10
  obtain ⟨t, s11, e11, h⟩ := CM.bind_inv h
  obtain ⟨k11, rfl⟩ := result_inv e11
  obtain ⟨_, s12, e12, h⟩ := CM.bind_inv h
  obtain ⟨vm', k12, rfl⟩ := machine_inv e12
  obtain ⟨_, s13, e13, h⟩ := CM.bind_inv h
  cases e13
  obtain ⟨_, s14, e14, h⟩ := CM.bind_inv h
  cases e14
  obtain ⟨rfl, rfl⟩ := CM.pure_inv h
  exact ⟨code, _, bytes, vm, o, e4, e7, k8, k9, k11, k12, rfl, rfl, rfl, rfl, rfl⟩

end DuckLisp.Macro
