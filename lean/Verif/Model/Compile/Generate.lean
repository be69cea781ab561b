import Verif.Model.Compile.Emit

/-!
# Model of the code generators (/repo/generators.c and the section "Compiler" of /repo/duckLisp.c)

Not modelled, and given the outcome `outside`: what runs code during compilation (`comptime`, `defmacro`, and the
use of a macro).  Simplifications are those of Model/Compile/Emit.lean.  The functions that call each other without
bound in C take fuel here; the recursion depth that the C code counts is the argument `depth`.
-/

namespace DuckLisp.Compile

open DuckLisp.Asm DuckLisp.Reader

/-- What `duckLisp_t` fixes during one compilation: the host's callbacks, and
`generators_max_recursion_depth`. -/
structure Config where
  callbacks : Trie.Node
  maxDepth : Nat

/-- Operators with one operand: name of the emitter. -/
inductive Op1 where
  | not | makeString | length | symbolString | symbolId | typeof | compositeValue | compositeFunction
  | nullp | car | cdr
deriving DecidableEq, Repr

/-- Operators with two operands. -/
inductive Op2 where
  | multiply | divide | add | sub | equal | less | greater | cons | makeVector | getVecElt | setCar | setCdr
  | setCompositeValue | setCompositeFunction | concatenate
deriving DecidableEq, Repr

/-- Operators with three operands. -/
inductive Op3 where
  | setVecElt | makeInstance | substring
deriving DecidableEq, Repr

/-- /repo/emitters.c:218-227, 257-299, 332-352, 385-394, 426-446, 697-702: the instruction of an emitter. -/
def Op1.ins : Op1 → Int → Ins
  | .not => .not
  | .makeString => .makeString
  | .length => .length
  | .symbolString => .symbolString
  | .symbolId => .symbolId
  | .typeof => .typeof
  | .compositeValue => .compositeValue
  | .compositeFunction => .compositeFunction
  | .nullp => .nullp
  | .car => .car
  | .cdr => .cdr

/-- /repo/emitters.c:229-240, 354-383, 396-424, 448-459, 504-536, 658-695, 704-754. -/
def Op2.ins : Op2 → Int → Int → Ins
  | .multiply => .arith .mul
  | .divide => .arith .div
  | .add => .arith .add
  | .sub => .arith .sub
  | .equal => .equal
  | .less => .less
  | .greater => .greater
  | .cons => .cons
  | .makeVector => .makeVector
  | .getVecElt => .getVecElt
  | .setCar => .setCar
  | .setCdr => .setCdr
  | .setCompositeValue => .setCompositeValue
  | .setCompositeFunction => .setCompositeFunction
  | .concatenate => .concatenate

/-- /repo/emitters.c:242-255, 305-330, 538-563. -/
def Op3.ins : Op3 → Int → Int → Int → Ins
  | .setVecElt => .setVecElt
  | .makeInstance => .makeInstance
  | .substring => .substring

/-- The generators that /repo/duckLisp.c:1623-1907 registers. -/
inductive Gen where
  | declare | nop | funcall | apply | dummy | global | setq
  | op1 (op : Op1) | op2 (op : Op2) | op3 (op : Op3) | makeType
  | while_ | if_ | when_ | unless_ | lambda | defmacro | comptime | quote | list | vector | error
deriving DecidableEq, Repr

/-- /repo/duckLisp.c:1623-1907, without the names that also exist with two underscores in front. -/
def names : List (String × Gen) := [
  ("declare", .declare), ("nop", .nop), ("funcall", .funcall), ("apply", .apply), ("var", .dummy),
  ("global", .global), ("setq", .setq), ("not", .op1 .not), ("*", .op2 .multiply), ("/", .op2 .divide),
  ("+", .op2 .add), ("-", .op2 .sub), ("while", .while_), ("if", .if_), ("when", .when_), ("unless", .unless_),
  ("=", .op2 .equal), ("<", .op2 .less), (">", .op2 .greater), ("defun", .dummy), ("lambda", .lambda),
  ("defmacro", .defmacro), ("noscope", .dummy), ("comptime", .comptime), ("quote", .quote), ("list", .list),
  ("vector", .vector), ("make-vector", .op2 .makeVector), ("get-vector-element", .op2 .getVecElt),
  ("set-vector-element", .op3 .setVecElt), ("cons", .op2 .cons), ("car", .op1 .car), ("cdr", .op1 .cdr),
  ("set-car", .op2 .setCar), ("set-cdr", .op2 .setCdr), ("null?", .op1 .nullp), ("type-of", .op1 .typeof),
  ("make-type", .makeType), ("make-instance", .op3 .makeInstance), ("composite-value", .op1 .compositeValue),
  ("composite-function", .op1 .compositeFunction), ("set-composite-value", .op2 .setCompositeValue),
  ("set-composite-function", .op2 .setCompositeFunction), ("make-string", .op1 .makeString),
  ("concatenate", .op2 .concatenate), ("substring", .op3 .substring), ("length", .op1 .length),
  ("symbol-string", .op1 .symbolString), ("symbol-id", .op1 .symbolId)]

/-- /repo/duckLisp.c:1623-1907, all names; a string literal with a zero byte is written as bytes. -/
def generators : List (Bytes × Gen) :=
  names.map (fun entry => (ascii entry.1, entry.2)) ++
  names.map (fun entry => (ascii ("__" ++ entry.1), entry.2)) ++
  [(0 :: ascii "defun:lambda", .lambda), (0 :: ascii "defmacro:lambda", .lambda), (ascii "__error", .error)]

/-- `dl_trie_find` in `generators_trie`, which /repo/duckLisp.c:2041-2059 fills with the table. -/
def generator (name : Bytes) : Option Gen := (generators.find? (fun entry => entry.1 == name)).map (·.2)

/-- What a generator calls: `duckLisp_compile_compoundExpression` and `duckLisp_compile_expression`; and `left`, the
tree as the former has left it: a macro call is replaced by its expansion (/repo/generators.c:3713-3718), see
Model/Macro.lean. -/
structure Rec where
  compound : Ast → Bool → CM (Option Int)
  expression : List Ast → CM Unit
  left : Ast → CM Ast

/-- A variable that the callee may have left without a value. -/
def initialized (index : Option Int) : CM Int :=
  match index with
  | some index => pure index
  | none => CM.ub

/-- /repo/duckLisp.c:58-122 `duckLisp_checkArgsAndReportError`. -/
def checkArgs (es : List Ast) (count : Nat) (variadic : Bool) : CM Unit :=
  match es with
  | .identifier _ :: _ =>
    if (if variadic then es.length < count else es.length ≠ count) then CM.fail .invalidValue else pure ()
  | _ => CM.fail .invalidValue

/-- /repo/duckLisp.c:697-715 `duckLisp_gensym`, then /repo/duckLisp.c:717-738 `duckLisp_register_label` when
`register` says so below. -/
def gensym : CM Bytes := fun s =>
  .ok (Tables.gensym (UInt64.ofNat s.gensymNumber)).1 { s with gensymNumber := s.gensymNumber + 1 }

/-- /repo/duckLisp.c:717-738 `duckLisp_register_label`. -/
def register (name : Bytes) : CM Unit := modify fun s => { s with scopes := registerLabel name s.scopes }

/-- /repo/duckLisp.c:267-301 `duckLisp_pushScope`. -/
def openScope (isFunction : Bool) : CM Unit := modify fun s => { s with scopes := pushScope isFunction s.scopes }

/-- /repo/duckLisp.c:325-358 `duckLisp_popScope`. -/
def closeScope : CM Unit := fun s =>
  match popScope s.scopes with
  | (scopes, none) => .ok () { s with scopes := scopes }
  | (_, some e) => .err e

/-- /repo/duckLisp.c:200-222 `duckLisp_symbol_create` and 190-197 `duckLisp_symbol_nameToValue`. -/
def intern (name : Bytes) : CM Int := fun s =>
  match Tables.create .enough s.symbols name with
  | (symbols, none) => .ok (Tables.nameToValue symbols name) { s with symbols := symbols }
  | (_, some e) => .err e

/-- /repo/duckLisp.c:645-653 `duckLisp_scope_getGlobalFromName`. -/
def globalFromName (name : Bytes) : CM Int := fun s =>
  .ok (Trie.find (if s.scopes.inComptime then s.comptimeGlobals else s.runtimeGlobals) name) s

/-- /repo/duckLisp.c:2240-2258 `duckLisp_addGlobal`. -/
def addGlobal (name : Bytes) : CM Int := do
  let key ← intern name
  modify fun s =>
    if s.scopes.inComptime then { s with comptimeGlobals := Trie.insert s.comptimeGlobals name key }
    else { s with runtimeGlobals := Trie.insert s.runtimeGlobals name key }
  return key

/-- Where a name was found. -/
inductive Place where
  | slot (index : Int)
  | free (index : Int)
  | absent

/-- /repo/generators.c:2963-2986, /repo/duckLisp.c:965-989 and /repo/generators.c:3232-3251: the variable of the
function that is compiled, or else a captured one. -/
def place (functionsOnly : Bool) (name : Bytes) : CM Place := fun s =>
  let index := getLocalIndexFromName functionsOnly name s.scopes.current
  if index ≠ -1 then .ok (.slot index) s
  else
    match getFreeLocalIndexFromName functionsOnly name s.scopes.current with
    | (sub, some index) => .ok (.free index) { s with scopes := s.scopes.setCurrent sub }
    | (sub, none) => .ok .absent { s with scopes := s.scopes.setCurrent sub }

/-- The key of a global: a registered one, or a symbol (/repo/duckLisp.c:990-1026, /repo/generators.c:2987-3027). -/
def globalKey (name : Bytes) : CM Int := do
  let key ← globalFromName name
  if key = -1 then intern name else return key

/-- The scopes' part of what the generators below read: the top scope. -/
def topScope : CM Scope := do
  let sub := (← get).scopes.current
  let top := getTop sub.scopes
  modify fun s => { s with scopes := s.scopes.setCurrent { sub with scopes := top.1 } }
  return top.2

/-- `duckLisp_scope_addObject`. -/
def addVariable (name : Bytes) : CM Unit := modify fun s => { s with scopes := addObject name s.scopes }

/-- `duckLisp_addInterpretedFunction`. -/
def addFunction (name : Bytes) : CM Unit :=
  modify fun s => { s with scopes := addInterpretedFunction name s.scopes }

/-- /repo/generators.c:57-95 `duckLisp_generator_unaryArithmeticOperator`. -/
def genUnary (r : Rec) (ins : Int → Ins) (es : List Ast) : CM Unit := do
  checkArgs es 2 false
  match es with
  | [_, a] => do
      let index ← r.compound a false
      emitUnary ins (← initialized index)
  | _ => CM.ub

/-- /repo/generators.c:97-148 `duckLisp_generator_binaryArithmeticOperator`. -/
def genBinary (r : Rec) (ins : Int → Int → Ins) (es : List Ast) : CM Unit := do
  checkArgs es 3 false
  match es with
  | [_, a, b] => do
      let index0 ← r.compound a false
      let index1 ← r.compound b false
      emitBinary ins (← initialized index0) (← initialized index1)
  | _ => CM.ub

/-- /repo/generators.c:150-216 `duckLisp_generator_ternaryArithmeticOperator`. -/
def genTernary (r : Rec) (ins : Int → Int → Int → Ins) (es : List Ast) : CM Unit := do
  checkArgs es 4 false
  match es with
  | [_, a, b, c] => do
      let index0 ← r.compound a false
      let index1 ← r.compound b false
      let index2 ← r.compound c false
      emitTernary ins (← initialized index0) (← initialized index1) (← initialized index2)
  | _ => CM.ub

/-- The loop of /repo/generators.c:450-468, over the arguments from the last to the first. -/
def genListLoop (r : Rec) : List Ast → Int → CM Unit
  | [], _ => pure ()
  | a :: rest, consIndex => do
      let index ← r.compound a false
      emitBinary .cons (← initialized index) consIndex
      genListLoop r rest ((← localsLength) - 1)

/-- /repo/generators.c:436-475 `duckLisp_generator_list`. -/
def genList (r : Rec) (es : List Ast) : CM Unit := do
  emitNil
  genListLoop r es.tail.reverse ((← localsLength) - 1)

/-- The loop of /repo/generators.c:500-514, over the arguments from the last to the first: the indices, in the
order of the arguments. -/
def genVectorLoop (r : Rec) : List Ast → List Int → CM (List Int)
  | [], indexes => pure indexes
  | a :: rest, indexes => do
      let index ← r.compound a false
      genVectorLoop r rest ((← initialized index) :: indexes)

/-- /repo/generators.c:477-532 `duckLisp_generator_vector`. -/
def genVector (r : Rec) (es : List Ast) : CM Unit := do
  emitNil
  emitVector (← genVectorLoop r es.tail.reverse [])

mutual
/-- /repo/generators.c:614-738 `duckLisp_generator_quote_helper`, and the cases of 740-867
`duckLisp_generator_quote`, which are the same.  What the helper writes to `stack_index` is not read. -/
def quoteTree : Ast → CM Unit
  | .bool b => emitPush (.pushBoolean (if b then 1 else 0))
  | .int i => emitPush (.pushInteger i)
  | .float bits => emitPush (.pushFloat bits)
  | .string s => emitPushString s
  | .identifier name => do emitPushSymbol (← intern name) name
  | .expression es => do
      emitNil
      quoteElements es
  | _ => pure ()
/-- The loop of /repo/generators.c:703-718 over the elements, which starts with the last one. -/
def quoteElements : List Ast → CM Unit
  | [] => pure ()
  | e :: es => do
      quoteElements es
      let last := (← localsLength) - 1
      quoteTree e
      emitBinary .cons ((← localsLength) - 1) last
end

/-- /repo/generators.c:740-867 `duckLisp_generator_quote`. -/
def genQuote (es : List Ast) : CM Unit := do
  checkArgs es 2 false
  match es with
  | [_, tree] => quoteTree tree
  | _ => CM.ub

/-- `emit_move(start, L - 1)` and `emit_pop(L - start - 1)` if that is positive, which bring the value on top of
the stack to the slot `start` (/repo/generators.c:1770-1776, 3289-3301 and others).  Simplification: if nothing was
pushed, the count wraps in C and is `outside` here. -/
def settle (start : Nat) : CM Unit := do
  let length ← localsLength
  if length ≤ start then CM.outside
  else do
    emitMove start (length - 1 : Nat)
    emitPop (length - start - 1)

/-- /repo/generators.c:1719-1787 `duckLisp_generator_createVar_raw`. -/
def createVar (r : Rec) (es : List Ast) : CM Unit := do
  let start ← localsLength
  checkArgs es 3 false
  match es with
  | [_, .identifier name, value] => do
      let _ ← r.compound value true
      let length ← localsLength
      setLocalsLength start
      addVariable name
      setLocalsLength length
      emitMove start (length - 1 : Int)
      if length > start + 1 then emitPop (length - start - 1) else pure ()
      emitPushIndex start
  | [_, _, _] => pure ()
  | _ => CM.ub

/-- /repo/generators.c:1868-1953 `duckLisp_generator_defun`. -/
def genDefun (r : Rec) (es : List Ast) : CM Unit := do
  checkArgs es 4 true
  match es with
  | _ :: .identifier name :: parameters :: body => do
      match parameters with
      | .int i => if i ≠ 0 then CM.fail .invalidValue else pure ()
      | _ => pure ()
      createVar r [.identifier (0 :: ascii "defun:var"), .identifier name,
        .expression (.identifier (0 :: ascii "defun:lambda") :: parameters :: body)]
      decrease 2
      addFunction name
      increment
      increment
  | _ => CM.fail .invalidValue

/-- The three heads that /repo/generators.c:901-945 looks for. -/
inductive Special where
  | var | defun | noscope
deriving DecidableEq, Repr

/-- /repo/generators.c:898-946: which of them a form begins with. -/
def special : Ast → Option Special
  | .expression (.identifier name :: _) =>
      if name = ascii "__var" ∨ name = ascii "var" then some .var
      else if name = ascii "__defun" ∨ name = ascii "defun" then some .defun
      else if name = ascii "__noscope" ∨ name = ascii "noscope" then some .noscope
      else none
  | _ => none

/-- `DL_DOTIMES(l, n) emit_pushIndex(L - 1)` (/repo/generators.c:979-984). -/
def pushAgain : Nat → CM Unit
  | 0 => pure ()
  | n + 1 => do
      emitPushIndex ((← localsLength) - 1)
      pushAgain n

/-- /repo/generators.c:947-995: what follows the compilation of one form; `last` says whether it is the last one.
`inner` is `duckLisp_generator_noscope` on the forms of a nested `noscope` (1004-1036). -/
def afterForm (r : Rec) (inner : List Ast → CM Unit) (form : Ast) (start : Nat) (last : Bool) : CM Unit :=
  match special form, form with
  | some .noscope, .expression (_ :: forms) => do
      inner forms
      if last then pure () else emitPop 1
  | some .var, .expression es => do
      createVar r es
      if last then pure () else emitPop 1
  | some .defun, .expression es => do
      genDefun r es
      if last then pure () else emitPop 1
  | _, _ => do
      let length ← localsLength
      let pops : Int := length - start - (if last then 1 else 0)
      if pops > 0 then do
        if last then emitMove (length - 1 - pops) (length - 1) else pure ()
        emitPop pops.toNat
      else pushAgain (-pops).toNat

/-- The loop of /repo/generators.c:886-996. -/
def noscopeForms (r : Rec) (inner : List Ast → CM Unit) : List Ast → CM Unit
  | [] => pure ()
  | form :: rest => do
      let start ← localsLength
      let _ ← r.compound form true
      let form ← r.left form
      afterForm r inner form start rest.isEmpty
      noscopeForms r inner rest

/-- /repo/generators.c:869-1002 `duckLisp_generator_noscope`; the fuel is for `noscope` inside `noscope`. -/
def noscope (r : Rec) : Nat → List Ast → CM Unit
  | 0, _ => CM.timeout
  | n + 1, forms =>
      match forms with
      | [] => emitNil
      | forms => noscopeForms r (noscope r n) forms

/-- /repo/generators.c:3744-3792 `duckLisp_generator_expression`. -/
def genExpression (r : Rec) (n : Nat) (forms : List Ast) : CM Unit := do
  openScope false
  let start ← localsLength
  noscope r n forms
  let scope ← topScope
  if scope.scopeUvs = [] then pure () else emitReleaseUpvalues scope.scopeUvs
  let length ← localsLength
  if (start : Int) < length - 1 then emitMove start (length - 1 : Int) else pure ()
  if length > start + 1 then emitPop (length - start - 1) else pure ()
  closeScope

/-- The loop of /repo/generators.c:1517-1551 over the parameters: whether there is a rest parameter. -/
def addParameters : List Ast → Bool → CM Bool
  | [], variadic => pure variadic
  | .identifier name :: rest, variadic =>
      if name = ascii "&rest" then
        if rest.length ≠ 1 then CM.fail .invalidValue else addParameters rest true
      else do
        addVariable name
        increment
        addParameters rest variadic
  | _ :: _, _ => CM.fail .invalidValue

/-- /repo/generators.c:1430-1710 `duckLisp_generator_lambda_raw`.  The array that the instructions of the body go
to is `body` of the state; the array `assembly` of the C function is put back before the closure is pushed. -/
def genLambda (r : Rec) (n : Nat) (es : List Ast) : CM Unit := do
  checkArgs es 3 true
  match es with
  | _ :: .expression parameters :: forms => do
      openScope false
      addVariable (ascii "self")
      addFunction (ascii "self")
      increment
      openScope true
      let after ← gensym
      register after
      let outer := (← get).body
      modify fun s => { s with body := some [] }
      emitJump after
      let self ← gensym
      register self
      emitLabel self
      let label := getLabelFromName self (← get).scopes.current
      if label = -1 then CM.fail .cantHappen else pure ()
      let start ← localsLength
      let variadic ← addParameters parameters false
      genExpression r n forms
      let scope ← topScope
      if scope.scopeUvs = [] then pure () else emitReleaseUpvalues scope.scopeUvs
      let length ← localsLength
      if length < start + 1 then CM.outside else emitReturn (length - start - 1)
      setLocalsLength start
      emitLabel after
      modify fun s => { s with assembly := s.assembly ++ s.body.getD [], body := outer }
      let scope ← topScope
      decrease 1
      emitPushClosure variadic label.toNat (if variadic then parameters.length - 2 else parameters.length)
        scope.functionUvs
      let scopes := (← get).scopes.current.scopes
      match scopes[scopes.length - 2]? with
      | none => CM.ub
      | some scope =>
          if scope.scopeUvs = [] then pure ()
          else do
            let length ← localsLength
            emitPushIndex (length - 1 : Int)
            emitReleaseUpvalues scope.scopeUvs
            let length ← localsLength
            emitMove (length - 2 : Int) (length - 1 : Int)
            emitPop 1
      closeScope
      closeScope
  | _ => CM.fail .invalidValue

/-- /repo/generators.c:1809-1866 `duckLisp_generator_global`. -/
def genGlobal (r : Rec) (es : List Ast) : CM Unit := do
  checkArgs es 3 false
  match es with
  | [_, .identifier name, value] => do
      let _ ← r.compound value true
      let key ← addGlobal name
      emitSetStatic key ((← localsLength) - 1)
  | [_, _, _] => pure ()
  | _ => CM.ub

/-- /repo/generators.c:2920-3055 `duckLisp_generator_setq`. -/
def genSetq (r : Rec) (es : List Ast) : CM Unit := do
  checkArgs es 3 false
  match es with
  | [_, .identifier name, value] => do
      let _ ← r.compound value true
      match ← place false name with
      | .slot index => emitMove index ((← localsLength) - 1)
      | .free index => emitSetUpvalue index ((← localsLength) - 1)
      | .absent => do
          let key ← globalKey name
          emitSetStatic key ((← localsLength) - 1)
  | _ => CM.fail .invalidValue

/-- The conditions that the generators decide themselves (/repo/generators.c:2127-2152, 2370-2386, 2557-2573,
2743-2759), or `none`.  `0.0` and `-0.0` are the floats that compare equal to zero. -/
def constant : Ast → Option Bool
  | .bool b => some b
  | .int i => some (i != 0)
  | .float bits => some (bits != 0 && bits != 0x8000000000000000)
  | .string s => some (s.length > 0)
  | _ => none

/-- The conditions that they compile. -/
def computed : Ast → Bool
  | .identifier _ | .expression _ => true
  | _ => false

/-- /repo/generators.c:2095-2342 `duckLisp_generator_while`. -/
def genWhile (r : Rec) (n : Nat) (es : List Ast) : CM Unit := do
  checkArgs es 3 true
  match es with
  | _ :: condition :: forms =>
      if constant condition = none ∧ computed condition = false then pure ()
      else if constant condition = some true then do
        let start ← gensym
        register start
        emitLabel start
        openScope false
        let length ← localsLength
        genExpression r n forms
        emitPop ((← localsLength) - length)
        closeScope
        emitJump start
      else do
        let start ← gensym
        let loop ← gensym
        register start
        register loop
        emitJump start
        emitLabel loop
        openScope false
        let length ← localsLength
        genExpression r n forms
        emitPop ((← localsLength) - length)
        closeScope
        emitLabel start
        let length ← localsLength
        let _ ← r.compound condition true
        emitBrnz loop ((← localsLength) - length : Int)
        emitNil
  | _ => CM.ub

/-- /repo/generators.c:2370-2411, 2557-2598: the condition of `unless` and `when`, and how many values it leaves to
be popped. -/
def genCondition (r : Rec) (condition : Ast) : CM Int := do
  let start ← localsLength
  let _ ← r.compound condition true
  match condition with
  | .expression _ => return (← localsLength) - start
  | _ => return 0

/-- /repo/generators.c:2344-2528 `duckLisp_generator_unless`. -/
def genUnless (r : Rec) (n : Nat) (es : List Ast) : CM Unit := do
  checkArgs es 3 true
  match es with
  | _ :: condition :: forms =>
      match constant condition with
      | some true => emitNil
      | some false => genExpression r n forms
      | none =>
          if computed condition = false then pure ()
          else do
            let pops ← genCondition r condition
            let then_ ← gensym
            let end_ ← gensym
            register then_
            register end_
            emitBrnz then_ pops
            let start ← localsLength
            genExpression r n forms
            setLocalsLength start
            emitJump end_
            emitLabel then_
            emitNil
            emitLabel end_
  | _ => CM.ub

/-- /repo/generators.c:2530-2713 `duckLisp_generator_when`. -/
def genWhen (r : Rec) (n : Nat) (es : List Ast) : CM Unit := do
  checkArgs es 3 true
  match es with
  | _ :: condition :: forms =>
      match constant condition with
      | some true => genExpression r n forms
      | some false => emitNil
      | none =>
          if computed condition = false then pure ()
          else do
            let pops ← genCondition r condition
            let then_ ← gensym
            let end_ ← gensym
            register then_
            register end_
            emitBrnz then_ pops
            let start ← localsLength
            emitNil
            setLocalsLength start
            emitJump end_
            emitLabel then_
            genExpression r n forms
            emitLabel end_
  | _ => CM.ub

/-- /repo/generators.c:2750-2783: the condition of `if`, which calls `duckLisp_compile_expression` itself. -/
def genIfCondition (r : Rec) (condition : Ast) : CM Int := do
  let start ← localsLength
  match condition with
  | .expression es => do
      r.expression es
      return (← localsLength) - start
  | _ => do
      let _ ← r.compound condition true
      return 0

/-- /repo/generators.c:2830-2849, 2866-2885: the value of a branch is brought to the slot `start`. -/
def settleBranch (start : Nat) : CM Unit := do
  let length ← localsLength
  if length < start + 1 then pure ()
  else do
    emitMove start (length - 1 : Int)
    emitPop (length - start - 1)

/-- /repo/generators.c:2715-2918 `duckLisp_generator_if`. -/
def genIf (r : Rec) (es : List Ast) : CM Unit := do
  checkArgs es 4 false
  match es with
  | [_, condition, consequent, alternative] =>
      match constant condition with
      | some b => do
          let _ ← r.compound (if b then consequent else alternative) true
      | none =>
          if computed condition = false then pure ()
          else do
            let pops ← genIfCondition r condition
            let then_ ← gensym
            let end_ ← gensym
            register then_
            register end_
            emitBrnz then_ pops
            let start ← localsLength
            let _ ← r.compound alternative true
            settleBranch start
            emitJump end_
            emitLabel then_
            setLocalsLength start
            let _ ← r.compound consequent true
            settleBranch start
            emitLabel end_
  | _ => CM.ub

/-- The loop of /repo/generators.c:3275-3302, 3349-3376, 3430-3457 and 3503-3530 over the arguments. -/
def genArguments (r : Rec) : List Ast → CM Unit
  | [] => pure ()
  | a :: rest => do
      let start ← localsLength
      let _ ← r.compound a true
      settle start
      genArguments r rest

/-- /repo/generators.c:3215-3320 `duckLisp_generator_funcall`: a call of a function by its name. -/
def genCall (r : Rec) (name : Bytes) (arguments : List Ast) : CM Unit := do
  let index ← (do
    match ← place true name with
    | .slot index => do
        emitPushIndex index
        return index
    | .free index => do
        emitPush (.pushUpvalue index)
        return (← localsLength) - 1
    | .absent => do
        emitPush (.pushGlobal (← intern name))
        return (← localsLength) - 1)
  let start ← localsLength
  genArguments r arguments
  emitFuncall index arguments.length
  setLocalsLength (start + 1)

/-- /repo/generators.c:3324-3395 `duckLisp_generator_funcall2`.  With no arguments the C code reads past the
expression. -/
def genFuncall (r : Rec) (es : List Ast) : CM Unit :=
  match es with
  | _ :: function :: arguments => do
      let index ← r.compound function true
      let start ← localsLength
      genArguments r arguments
      emitFuncall (← initialized index) arguments.length
      setLocalsLength (start + 1)
  | _ => CM.ub

/-- /repo/generators.c:3397-3473 `duckLisp_generator_apply`. -/
def genApply (r : Rec) (es : List Ast) : CM Unit := do
  checkArgs es 3 true
  match es with
  | _ :: function :: arguments => do
      let index ← r.compound function true
      let start ← localsLength
      genArguments r arguments
      emitApply (← initialized index) (arguments.length - 1)
      setLocalsLength (start + 1)
  | _ => CM.ub

/-- /repo/generators.c:3475-3541 `duckLisp_generator_callback`.  A name without a symbol is reported without an
error. -/
def genCallback (r : Rec) (name : Bytes) (arguments : List Ast) : CM Unit := do
  let key := Tables.nameToValue (← get).symbols name
  if key = -1 then pure ()
  else do
    let start ← localsLength
    genArguments r arguments
    emitPush (.ccall key)
    setLocalsLength (start + 1)

/-- The generator for a form. -/
def generate (r : Rec) (n : Nat) (es : List Ast) : Gen → CM Unit
  | .declare => emitNil
  | .nop => emitNop
  | .funcall => genFuncall r es
  | .apply => genApply r es
  | .dummy => pure ()
  | .global => genGlobal r es
  | .setq => genSetq r es
  | .op1 op => genUnary r op.ins es
  | .op2 op => genBinary r op.ins es
  | .op3 op => genTernary r op.ins es
  | .makeType => do
      checkArgs es 1 false
      emitPush .makeType
  | .while_ => genWhile r n es
  | .if_ => genIf r es
  | .when_ => genWhen r n es
  | .unless_ => genUnless r n es
  | .lambda => genLambda r n es
  | .defmacro => CM.outside
  | .comptime => CM.outside
  | .quote => genQuote es
  | .list => genList r es
  | .vector => genVector r es
  | .error => CM.fail .invalidValue

/-- /repo/duckLisp.c:1124-1170: a form whose head is a name; 588-643 `duckLisp_scope_getFunctionFromName`. -/
def dispatch (cfg : Config) (r : Rec) (n : Nat) (name : Bytes) (arguments : List Ast) : CM Unit := do
  let t := functionType name (← get).scopes.current
  if t = functionTypeMacro then CM.outside
  else if t = functionTypeDucklisp then genCall r name arguments
  else if t ≠ -1 then pure ()
  else if Trie.find cfg.callbacks name ≠ -1 then genCallback r name arguments
  else
    match generator name with
    | some g => generate r n (.identifier name :: arguments) g
    | none => genCall r name arguments

/-- /repo/duckLisp.c:960-1050: a variable. -/
def genVariable (name : Bytes) (pushReference : Bool) : CM (Option Int) := do
  match ← place false name with
  | .slot index => do
      if pushReference then emitPushIndex index else pure ()
      return some index
  | .free index => do
      emitPush (.pushUpvalue index)
      return some ((← localsLength) - 1)
  | .absent => do
      emitPush (.pushGlobal (← globalKey name))
      return some ((← localsLength) - 1)

mutual
/-- /repo/duckLisp.c:903-1078 `duckLisp_compile_compoundExpression`: the result is `*index`, or `none` if it is
left alone. -/
def compound (cfg : Config) : Nat → Nat → Ast → Bool → CM (Option Int)
  | 0, _, _, _ => CM.timeout
  | n + 1, depth, e, pushReference =>
    if depth + 1 ≥ cfg.maxDepth then CM.fail .bufferOverflow
    else
      match e with
      | .bool b => do
          emitPush (.pushBoolean (if b then 1 else 0))
          return some ((← localsLength) - 1)
      | .int i => do
          emitPush (.pushInteger i)
          return some ((← localsLength) - 1)
      | .float bits => do
          emitPush (.pushFloat bits)
          return some ((← localsLength) - 1)
      | .string s => do
          emitPushString s
          return some ((← localsLength) - 1)
      | .identifier name => genVariable name pushReference
      | .expression es => do
          expression cfg n (depth + 1) es
          return some ((← localsLength) - 1)
      | _ => pure none
/-- /repo/duckLisp.c:1085-1185 `duckLisp_compile_expression`. -/
def expression (cfg : Config) : Nat → Nat → List Ast → CM Unit
  | 0, _, _ => CM.timeout
  | n + 1, depth, es =>
    let r : Rec := ⟨compound cfg n depth, expression cfg n depth, pure⟩
    match es with
    | [] => emitNil
    | .identifier name :: arguments => dispatch cfg r n name arguments
    | .bool _ :: _ | .int _ :: _ | .float _ :: _ | .string _ :: _ | .expression _ :: _ => genExpression r n es
    | _ => pure ()
end

/-- /repo/duckLisp.c:1234-1262, the part of `duckLisp_compileAST` before `duckLisp_assemble`. -/
def compileAST (cfg : Config) (n : Nat) (e : Ast) : CM Unit := do
  modify fun s => { s with scopes := s.scopes.setCurrent { s.scopes.current with labelNumber := 0 } }
  let _ ← compound cfg n 0 e true
  let length ← localsLength
  if length > 1 then do
    emitMove (length - 2 : Int) (length - 1 : Int)
    emitPop 1
  else pure ()
  emitExit

/-- A compiler that has compiled nothing (/repo/duckLisp.c:1923-2092 `duckLisp_init`, and 2108-2122
`duckLisp_compileState_init`, which `duckLisp_loadString` calls each time). -/
def CState.init : CState where
  scopes := Scopes.init
  symbols := Tables.Symbols.init
  gensymNumber := 0
  runtimeGlobals := Trie.init (-1)
  comptimeGlobals := Trie.init (-1)
  assembly := []
  body := none

/-- /repo/duckLisp.c:2118-2122 `duckLisp_compileState_init` and 2094-2106 `duckLisp_subCompileState_init`, which
`duckLisp_loadString` (2183-2184) calls for each program: no scopes and no code; the tables of symbols and of globals
belong to the compiler (/repo/duckLisp.h:169-176) and stay. -/
def CState.renew (s : CState) : CState := { s with scopes := Scopes.init, assembly := [], body := none, expansion := none }

end DuckLisp.Compile
