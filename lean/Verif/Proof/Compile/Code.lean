import Verif.Spec.Core
import Verif.Proof.Compile.State

/-!
# The code of the core language, as a relation
-/

namespace DuckLisp.Compile

open DuckLisp.Asm DuckLisp.Reader DuckLisp.Spec

/-- Parts of a program. -/
inductive Piece where
  /-- a form whose value is pushed -/
  | form (e : Ast)
  /-- an operand, whose value is at the slot -/
  | operand (e : Ast) (slot : Nat)
  /-- a block of its own -/
  | block (es : List Ast)
  /-- the rest of a block -/
  | body (es : List Ast)
  /-- the rest of a list, the last argument first; the list so far is at the slot -/
  | conses (es : List Ast) (slot : Nat)
  /-- the rest of the elements of a vector, the last first, and the slots of all -/
  | elements (es : List Ast) (slots all : List Nat)
  /-- a quoted tree -/
  | quoted (e : Ast)
  /-- the elements of a quoted list, onto the list on top of the stack -/
  | quotes (es : List Ast)
  /-- the rest of the arguments of a call, each at the slot where it is pushed -/
  | args (es : List Ast)

/-- Bring the value on top to the slot `start`. -/
def settleCode (start length : Nat) : List Ins :=
  if length - 1 = start then [] else [.move 1 ((length - start : Nat) : Int), .pop ((length - start - 1 : Nat) : Int)]

/-- Add a variable to the innermost block. -/
def addVar (x : Bytes) (slot : Nat) : Blocks → Blocks
  | [] => [[(x, slot)]]
  | b :: bs => ((x, slot) :: b) :: bs

@[simp] theorem addVar_tail (x : Bytes) (k : Nat) (bs : Blocks) : (addVar x k bs).tail = bs.tail := by
  cases bs <;> rfl

/-- What a condition leaves to be popped when it is decided. -/
def condPops (c : Ast) (L L1 : Nat) : Nat :=
  match c with
  | .expression _ => L1 - L
  | _ => 0

theorem condPops_le (c : Ast) (L L1 : Nat) : condPops c L L1 ≤ L1 - L := by
  unfold condPops
  split <;> omega

/-- The parameters of a function, the last one first, with their slots. -/
def paramBlock (start : Nat) (params : List Bytes) : List (Bytes × Nat) :=
  (params.zipIdx start).reverse

/-- The slot of the function that a call reads. -/
def callee (bs : Blocks) (f : Ast) (L : Nat) : Nat :=
  match f with
  | .identifier x => (findVar bs x).getD (L - 1)
  | _ => L - 1

/-- The code of a part of a program, compiled with blocks `bs`, `L` values on the stack and `l` labels used: the
code, the blocks, the number of values and of labels afterwards. -/
inductive Code [Keys] : Piece → Blocks → Nat → Nat → List Ins → Blocks → Nat → Nat → Prop
  | bool {bs L l} (b : Bool) : Code (.form (.bool b)) bs L l [.pushBoolean (if b then 1 else 0)] bs (L + 1) l
  | int {bs L l} (i : Int) : Code (.form (.int i)) bs L l [.pushInteger i] bs (L + 1) l
  | float {bs L l} (bits : UInt64) : Code (.form (.float bits)) bs L l [.pushFloat bits] bs (L + 1) l
  | string {bs L l} (s : Bytes) : Code (.form (.string s)) bs L l
      [.pushString ((s.take 65535).length : Nat) (s.take 65535)] bs (L + 1) l
  | var {bs L l x k} : findVar bs x = some k →
      Code (.form (.identifier x)) bs L l [.pushIndex ((L : Int) - k)] bs (L + 1) l
  | global {bs L l x} (key : Int) : Keys.key x key → findVar bs x = none →
      Code (.form (.identifier x)) bs L l [.pushGlobal key] bs (L + 1) l
  | slot {bs L l x k} : findVar bs x = some k → Code (.operand (.identifier x) k) bs L l [] bs L l
  | globalSlot {bs L l x} (key : Int) : Keys.key x key → findVar bs x = none →
      Code (.operand (.identifier x) L) bs L l [.pushGlobal key] bs (L + 1) l
  | temp {bs L l e code L' l'} : (∀ x, e ≠ .identifier x) → Code (.form e) bs L l code bs L' l' →
      Code (.operand e (L' - 1)) bs L l code bs L' l'
  | empty {bs L l} : Code (.form (.expression [])) bs L l [.nil] bs (L + 1) l
  | scope {bs L l e es code L' l'} : Opens e → Code (.block (e :: es)) bs L l code bs L' l' →
      Code (.form (.expression (e :: es))) bs L l code bs L' l'
  | block {bs L l es code b L' l'} : Code (.body es) ([] :: bs) L l code (b :: bs) L' l' →
      Code (.block es) bs L l (code ++ settleCode L L') bs (L + 1) l'
  | bodyNil {bs L l} : Code (.body []) bs L l [.nil] bs (L + 1) l
  | bodyLast {bs L l f code L' l'} : special f = none → Code (.form f) bs L l code bs L' l' →
      Code (.body [f]) bs L l (code ++ settleCode L L') bs (L + 1) l'
  | bodyCons {bs L l f rest code L1 l1 code2 bs2 L2 l2} : special f = none → Code (.form f) bs L l code bs L1 l1 →
      rest ≠ [] → Code (.body rest) bs L l1 code2 bs2 L2 l2 →
      Code (.body (f :: rest)) bs L l (code ++ [.pop ((L1 - L : Nat) : Int)] ++ code2) bs2 L2 l2
  | varLast {bs L l name x e code L' l'} : Spelled name "var" → Code (.form e) bs L l code bs L' l' →
      Code (.body [.expression [.identifier name, .identifier x, e]]) bs L l
        (code ++ settleCode L L' ++ [.pushIndex 1]) (addVar x L bs) (L + 2) l'
  | varCons {bs L l name x e code L1 l1 rest code2 bs2 L2 l2} : Spelled name "var" →
      Code (.form e) bs L l code bs L1 l1 → rest ≠ [] →
      Code (.body rest) (addVar x L bs) (L + 1) l1 code2 bs2 L2 l2 →
      Code (.body (.expression [.identifier name, .identifier x, e] :: rest)) bs L l
        (code ++ settleCode L L1 ++ [.pushIndex 1, .pop 1] ++ code2) bs2 L2 l2
  | noscopeLast {bs L l name es code bs' L' l'} : Spelled name "noscope" →
      Code (.body es) bs L l code bs' L' l' →
      Code (.body [.expression (.identifier name :: es)]) bs L l code bs' L' l'
  | noscopeCons {bs L l name es code bs1 L1 l1 rest code2 bs2 L2 l2} : Spelled name "noscope" →
      Code (.body es) bs L l code bs1 L1 l1 → rest ≠ [] →
      Code (.body rest) bs1 (L1 - 1) l1 code2 bs2 L2 l2 →
      Code (.body (.expression (.identifier name :: es) :: rest)) bs L l (code ++ [.pop 1] ++ code2) bs2 L2 l2
  | setq {bs L l name x k e code L' l'} : Spelled name "setq" → Code (.form e) bs L l code bs L' l' →
      findVar bs x = some k →
      Code (.form (.expression [.identifier name, .identifier x, e])) bs L l
        (code ++ if (k : Int) = (L' : Int) - 1 then [] else [.move 1 ((L' : Int) - k)]) bs L' l'
  | setqGlobal {bs L l name x e code L' l'} (key : Int) : Keys.key x key → Keys.height L' → Spelled name "setq" →
      Code (.form e) bs L l code bs L' l' → findVar bs x = none →
      Code (.form (.expression [.identifier name, .identifier x, e])) bs L l
        (code ++ if key = (L' : Int) - 1 then [] else [.setGlobal 1 key]) bs L' l'
  | defGlobal {bs L l name x e code L' l'} (key : Int) : Keys.key x key → Keys.height L' → Spelled name "global" →
      Code (.form e) bs L l code bs L' l' →
      Code (.form (.expression [.identifier name, .identifier x, e])) bs L l
        (code ++ if key = (L' : Int) - 1 then [] else [.setGlobal 1 key]) bs L' l'
  | op0 {bs L l name} : generator name = some .makeType →
      Code (.form (.expression [.identifier name])) bs L l [.makeType] bs (L + 1) l
  | op1 {bs L l name a i code L' l'} (op : Op1) : generator name = some (.op1 op) →
      Code (.operand a i) bs L l code bs L' l' →
      Code (.form (.expression [.identifier name, a])) bs L l (code ++ [op.ins ((L' : Int) - i)]) bs (L' + 1) l'
  | op2 {bs L l name a i code L1 l1 b j code2 L2 l2} (op : Op2) : generator name = some (.op2 op) →
      Code (.operand a i) bs L l code bs L1 l1 → Code (.operand b j) bs L1 l1 code2 bs L2 l2 →
      Code (.form (.expression [.identifier name, a, b])) bs L l
        (code ++ code2 ++ [op.ins ((L2 : Int) - i) ((L2 : Int) - j)]) bs (L2 + 1) l2
  | op3 {bs L l name a i code L1 l1 b j code2 L2 l2 c k code3 L3 l3} (op : Op3) :
      generator name = some (.op3 op) →
      Code (.operand a i) bs L l code bs L1 l1 → Code (.operand b j) bs L1 l1 code2 bs L2 l2 →
      Code (.operand c k) bs L2 l2 code3 bs L3 l3 →
      Code (.form (.expression [.identifier name, a, b, c])) bs L l
        (code ++ code2 ++ code3 ++ [op.ins ((L3 : Int) - i) ((L3 : Int) - j) ((L3 : Int) - k)]) bs (L3 + 1) l3
  | declare {bs L l name es} : Spelled name "declare" →
      Code (.form (.expression (.identifier name :: es))) bs L l [.nil] bs (L + 1) l
  | list {bs L l name es code L' l'} : Spelled name "list" →
      Code (.conses es.reverse L) bs (L + 1) l code bs L' l' →
      Code (.form (.expression (.identifier name :: es))) bs L l ([.nil] ++ code) bs L' l'
  | consNil {bs L l i} : Code (.conses [] i) bs L l [] bs L l
  | consCons {bs L l a es i j code L1 l1 code2 L2 l2} : Code (.operand a j) bs L l code bs L1 l1 →
      Code (.conses es L1) bs (L1 + 1) l1 code2 bs L2 l2 →
      Code (.conses (a :: es) i) bs L l (code ++ [.cons ((L1 : Int) - j) ((L1 : Int) - i)] ++ code2) bs L2 l2
  | vector {bs L l name es is code L' l'} : Spelled name "vector" →
      Code (.elements es.reverse [] is) bs (L + 1) l code bs L' l' →
      Code (.form (.expression (.identifier name :: es))) bs L l
        ([.nil] ++ code ++ [.vector is.length (is.map fun (i : Nat) => (L' : Int) - i)]) bs (L' + 1) l'
  | elemNil {bs L l is} : Code (.elements [] is is) bs L l [] bs L l
  | elemCons {bs L l a es i is all code L1 l1 code2 L2 l2} : Code (.operand a i) bs L l code bs L1 l1 →
      Code (.elements es (i :: is) all) bs L1 l1 code2 bs L2 l2 →
      Code (.elements (a :: es) is all) bs L l (code ++ code2) bs L2 l2
  | quote {bs L l name e code L'} : Spelled name "quote" → Code (.quoted e) bs L l code bs L' l →
      Code (.form (.expression [.identifier name, e])) bs L l code bs L' l
  | quotedForm {bs L l e code} : (∀ x, e ≠ .identifier x) → (∀ es, e ≠ .expression es) →
      Code (.form e) bs L l code bs (L + 1) l → Code (.quoted e) bs L l code bs (L + 1) l
  | quotedName {bs L l x} (id : Int) : Code (.quoted (.identifier x)) bs L l
      [.pushSymbol id ((x.take 65535).length : Nat) (x.take 65535)] bs (L + 1) l
  | quotedList {bs L l es code L'} : Code (.quotes es) bs (L + 1) l code bs L' l →
      Code (.quoted (.expression es)) bs L l ([.nil] ++ code) bs L' l
  | quotesNil {bs L l} : Code (.quotes []) bs L l [] bs L l
  | quotesCons {bs L l e es code L1 code2 L2} : Code (.quotes es) bs L l code bs L1 l →
      Code (.quoted e) bs L1 l code2 bs L2 l →
      Code (.quotes (e :: es)) bs L l (code ++ code2 ++ [.cons 1 ((L2 - L1 + 1 : Nat) : Int)]) bs (L2 + 1) l
  | ifConst {bs L l name c e f b code L' l'} : Spelled name "if" → constant c = some b →
      Code (.form (if b then e else f)) bs L l code bs L' l' →
      Code (.form (.expression [.identifier name, c, e, f])) bs L l code bs L' l'
  | if_ {bs L l name c e f code L1 l1 codeF Lf lf codeE Le le B} : Spelled name "if" → computed c = true →
      Code (.form c) bs L l code bs L1 l1 → B = L1 - condPops c L L1 →
      Code (.form f) bs B (l1 + 2) codeF bs Lf lf → Code (.form e) bs B lf codeE bs Le le →
      Code (.form (.expression [.identifier name, c, e, f])) bs L l
        (code ++ [.brnz l1 ((condPops c L L1 : Nat) : Int)] ++ codeF ++ settleCode B Lf ++
          [.jump (l1 + 1), .label l1] ++ codeE ++ settleCode B Le ++ [.label (l1 + 1)]) bs (B + 1) le
  | whenTrue {bs L l name c es code L' l'} : Spelled name "when" → constant c = some true →
      Code (.block es) bs L l code bs L' l' →
      Code (.form (.expression (.identifier name :: c :: es))) bs L l code bs L' l'
  | whenFalse {bs L l name c es} : Spelled name "when" → constant c = some false →
      Code (.form (.expression (.identifier name :: c :: es))) bs L l [.nil] bs (L + 1) l
  | when_ {bs L l name c es code L1 l1 codeE Le le B} : Spelled name "when" → computed c = true →
      Code (.form c) bs L l code bs L1 l1 → B = L1 - condPops c L L1 →
      Code (.block es) bs B (l1 + 2) codeE bs Le le →
      Code (.form (.expression (.identifier name :: c :: es))) bs L l
        (code ++ [.brnz l1 ((condPops c L L1 : Nat) : Int)] ++ [.nil, .jump (l1 + 1), .label l1] ++ codeE ++
          [.label (l1 + 1)]) bs Le le
  | unlessTrue {bs L l name c es} : Spelled name "unless" → constant c = some true →
      Code (.form (.expression (.identifier name :: c :: es))) bs L l [.nil] bs (L + 1) l
  | unlessFalse {bs L l name c es code L' l'} : Spelled name "unless" → constant c = some false →
      Code (.block es) bs L l code bs L' l' →
      Code (.form (.expression (.identifier name :: c :: es))) bs L l code bs L' l'
  | unless_ {bs L l name c es code L1 l1 codeE Le le B} : Spelled name "unless" → computed c = true →
      Code (.form c) bs L l code bs L1 l1 → B = L1 - condPops c L L1 →
      Code (.block es) bs B (l1 + 2) codeE bs Le le →
      Code (.form (.expression (.identifier name :: c :: es))) bs L l
        (code ++ [.brnz l1 ((condPops c L L1 : Nat) : Int)] ++ codeE ++ [.jump (l1 + 1), .label l1, .nil] ++
          [.label (l1 + 1)]) bs (B + 1) le
  | while_ {bs L l name c es code L1 l1 codeC Lc lc} : Spelled name "while" → constant c ≠ some true →
      Code (.block es) ([] :: bs) L (l + 2) code ([] :: bs) L1 l1 →
      Code (.form c) bs L l1 codeC bs Lc lc →
      Code (.form (.expression (.identifier name :: c :: es))) bs L l
        ([.jump l, .label (l + 1)] ++ code ++ [.pop ((L1 - L : Nat) : Int)] ++ [.label l] ++ codeC ++
          [.brnz (l + 1) ((Lc - L : Nat) : Int), .nil]) bs (L + 1) lc
  | lambda {bs L l name params rest forms code l'} : Keys.dialect.functions = true → Spelled name "lambda" →
      (∀ p ∈ params, p ≠ ascii "&rest") →
      Code (.block forms) [paramBlock (L + 1) (params ++ rest.toList)] (L + 1 + (params ++ rest.toList).length) (l + 2) code
        [paramBlock (L + 1) (params ++ rest.toList)] (L + 2 + (params ++ rest.toList).length) l' →
      Code (.form (.expression (.identifier name :: .expression ((signature params rest).map .identifier) :: forms))) bs L l
        ([.jump l, .label (l + 1)] ++ code ++ [.return_ ((params ++ rest.toList).length : Nat), .label l,
          .pushClosure rest.isSome (l + 1) (params.length : Nat) []]) bs (L + 1) l'
  | funcall {bs L l name f code L1 l1 es code2 l2} : Keys.dialect.functions = true → Spelled name "funcall" →
      Code (.form f) bs L l code bs L1 l1 → Code (.args es) bs L1 l1 code2 bs (L1 + es.length) l2 →
      Code (.form (.expression (.identifier name :: f :: es))) bs L l
        (code ++ code2 ++ [.funcall (((L1 + es.length : Nat) : Int) - callee bs f L1) ((es.length % 256 : Nat) : Int)])
        bs (L1 + 1) l2
  | apply {bs L l name f code L1 l1 es code2 l2} : Keys.dialect.functions = true → Spelled name "apply" → es ≠ [] →
      Code (.form f) bs L l code bs L1 l1 → Code (.args es) bs L1 l1 code2 bs (L1 + es.length) l2 →
      Code (.form (.expression (.identifier name :: f :: es))) bs L l
        (code ++ code2 ++
          [.apply (((L1 + es.length : Nat) : Int) - callee bs f L1) (((es.length - 1) % 256 : Nat) : Int)])
        bs (L1 + 1) l2
  | call {bs L l name es code l1} (key : Int) : Keys.dialect.functions = true → Keys.dialect.callable name = true →
      Keys.key name key → Code (.args es) bs (L + 1) l code bs (L + 1 + es.length) l1 →
      Code (.form (.expression (.identifier name :: es))) bs L l
        ([.pushGlobal key] ++ code ++ [.funcall ((es.length + 1 : Nat) : Int) ((es.length % 256 : Nat) : Int)])
        bs (L + 2) l1
  | argsNil {bs L l} : Code (.args []) bs L l [] bs L l
  | argsCons {bs L l a es code L1 l1 code2 L2 l2} : Code (.form a) bs L l code bs L1 l1 →
      Code (.args es) bs (L + 1) l1 code2 bs L2 l2 →
      Code (.args (a :: es)) bs L l (code ++ settleCode L L1 ++ code2) bs L2 l2

/-- What holds of the number of values and the blocks after a piece. -/
def Piece.After (k : Piece) (bs : Blocks) (L l : Nat) (bs' : Blocks) (L' l' : Nat) : Prop :=
  match k with
  | .form _ => L < L' ∧ l ≤ l' ∧ bs' = bs
  | .operand _ _ => L ≤ L' ∧ l ≤ l' ∧ bs' = bs
  | .block _ => L' = L + 1 ∧ l ≤ l' ∧ bs' = bs
  | .body _ => L < L' ∧ l ≤ l' ∧ bs'.tail = bs.tail
  | .conses _ _ => L ≤ L' ∧ l ≤ l' ∧ bs' = bs
  | .elements _ _ _ => L ≤ L' ∧ l ≤ l' ∧ bs' = bs
  | .quoted _ => L < L' ∧ l ≤ l' ∧ bs' = bs
  | .quotes _ => L ≤ L' ∧ l ≤ l' ∧ bs' = bs
  | .args es => L' = L + es.length ∧ l ≤ l' ∧ bs' = bs

theorem Code.after [Keys] {k bs L l code bs' L' l'} (h : Code k bs L l code bs' L' l') : k.After bs L l bs' L' l' := by
  induction h
  all_goals simp only [Piece.After] at *
  all_goals
    refine ⟨?_, ?_, ?_⟩ <;> first
      | omega
      | rfl
      | (simp_all; done)
      | grind [condPops_le]

end DuckLisp.Compile
