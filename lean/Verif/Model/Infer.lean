import Verif.Model.Reader
import Verif.Model.Trie

/-!
# Model of /repo/parenthesis-inferrer.c (built with `USE_PARENTHESIS_INFERENCE`)

The elements of an expression are changed in place in C.  Here what has been looked at already and what is left are two
lists.  Messages and the log are not modelled.  An error ends inference, so no state is left after one.  Allocations are
assumed to find memory.

Scripts are run by a compiler and a machine of their own (`inferrerState_t.duckLisp`, `inferrerState_t.duckVM`).  These
are a parameter: `σ` is their state, and of a running script only what it asks the inferrer to do is seen (`Script`).
-/

namespace DuckLisp.Infer

open DuckLisp.Reader

/-- `inferrerTypeSignature_t`, parenthesis-inferrer.c:212-226: `L`, `I`, the types of parameters, and with `&rest` also how
many further arguments there are without parentheses, and their type. -/
inductive Sig where
  | literal
  | infer
  | fixed (positional : List Sig)
  | variadic (positional : List Sig) (count : Int) (rest : Sig)

/-- `value.expression` of a signature that is one of a function. -/
def Sig.function? : Sig → Option (List Sig × Option (Int × Sig))
  | .fixed ps => some (ps, none)
  | .variadic ps n r => some (ps, some (n, r))
  | _ => none

/-- What a script does: it ends, and leaves a new state of compiler and machine; it stops with an error; or it goes
wrong or does not end; it calls `infer-and-get-next-argument` and goes on with what that returns, or `declare-identifier`;
or it begins or ends a declaration scope. -/
inductive Script (σ : Type) where
  | done (s : σ)
  | fail (e : DlError)
  | ub
  | diverge
  | next (s : σ) (continue_ : Ast → σ → Script σ)
  | declare (name : Bytes) (type : Ast) (continue_ : Script σ)
  | push (continue_ : Script σ)
  | pop (continue_ : Script σ)

/-- `inferrerType_t`: a signature, and the code of a script. -/
structure Decl (σ : Type) where
  sig : Sig
  script : Option (σ → Script σ)

/-- `inferrerScope_t`. -/
structure Scope (σ : Type) where
  names : Trie.Node
  types : List (Decl σ)

/-- `inferrerState_t`: the scopes, the innermost first, and the state of compiler and machine. -/
structure State (σ : Type) where
  scopes : List (Scope σ)
  inner : σ

/-- What runs scripts: `duckLisp_compileAST` makes the code of a script. -/
structure Config (σ : Type) where
  compile : Ast → σ → Res ((σ → Script σ) × σ)

/-- Functions of the inferrer. -/
def M (σ α : Type) : Type := State σ → Res (α × State σ)

variable {σ α β : Type}

/-- One after the other. -/
def M.bind (m : M σ α) (f : α → M σ β) : M σ β := fun s =>
  match m s with
  | .ok (a, s) => f a s
  | .err e => .err e
  | .ub => .ub
  | .timeout => .timeout

instance : Monad (M σ) where
  pure a := fun s => .ok (a, s)
  bind := M.bind

/-- An error. -/
def M.err (e : DlError) : M σ α := fun _ => .err e

/-- Undefined behaviour. -/
def M.ub : M σ α := fun _ => .ub

/-- The fuel is used up, or the code does not end. -/
def M.timeout : M σ α := fun _ => .timeout

/-! ### Declarations -/

/-- `&rest`, as a name or as `#&rest`. -/
def isRest : Ast → Bool
  | .identifier x => x == ascii "&rest"
  | .callback x => x == ascii "&rest"
  | _ => false

/-- `L` or `I`, lines 707-732. -/
def symbol (x : Bytes) : Res Sig :=
  if x = ascii "L" then .ok .literal
  else if x = ascii "I" then .ok .infer
  else .err .invalidValue

mutual
/-- parenthesis-inferrer.c:698-840 `inferrerTypeSignature_fromAst`. -/
def fromAst : Ast → Res Sig
  | .identifier x => symbol x
  | .callback x => symbol x
  | .expression es => do
      match ← fromAll es with
      | (ps, none) => return .fixed ps
      | (ps, some (n, r)) => return .variadic ps n r
  | .literal _ => .err .cantHappen
  | _ => .err .invalidValue
/-- Its loop over the elements, lines 742-804: the types of parameters, and what follows `&rest`. -/
def fromAll : List Ast → Res (List Sig × Option (Int × Sig))
  | [] => .ok ([], none)
  | e :: es =>
      if isRest e then fromRest es
      else do
        let s ← fromAst e
        let (ps, r) ← fromAll es
        return (s :: ps, r)
/-- Exactly two forms have to follow `&rest` (lines 787-793), an integer (743-753) and a type (755-768). -/
def fromRest : List Ast → Res (List Sig × Option (Int × Sig))
  | [.int n, t] => do
      let s ← fromAst t
      return ([], some (n, s))
  | _ => .err .invalidValue
end

/-- parenthesis-inferrer.c:855-858 `inferrerScope_init`. -/
def Scope.new : Scope σ := ⟨Trie.init (-1), []⟩

/-- parenthesis-inferrer.c:936-938 `pushDeclarationScope` with a new scope. -/
def pushScope : M σ Unit := fun s => .ok ((), { s with scopes := .new :: s.scopes })

/-- parenthesis-inferrer.c:940-952 `popDeclarationScope`. -/
def popScope : M σ Unit := fun s =>
  match s.scopes with
  | [] => .err .bufferUnderflow
  | _ :: rest => .ok ((), { s with scopes := rest })

/-- The declaration of a name in a scope, parenthesis-inferrer.c:966-974. -/
def Scope.find (x : Bytes) (c : Scope σ) : Option (Decl σ) :=
  match Trie.find c.names x with
  | .ofNat i => c.types[i]?
  | .negSucc _ => none

/-- parenthesis-inferrer.c:954-978 `findDeclaration`. -/
def lookup (x : Bytes) : List (Scope σ) → Option (Decl σ)
  | [] => none
  | c :: rest => (c.find x).or (lookup x rest)

/-- See `lookup`. -/
def find (x : Bytes) : M σ (Option (Decl σ)) := fun s => .ok (lookup x s.scopes, s)

/-- Lines 1011-1014: a declaration is added to a scope. -/
def Scope.add (x : Bytes) (d : Decl σ) (c : Scope σ) : Scope σ :=
  ⟨Trie.insert c.names x c.types.length, c.types ++ [d]⟩

/-- parenthesis-inferrer.c:980-1019 `addDeclaration`. -/
def addDeclaration (x : Bytes) (type : Ast) (script : Option (σ → Script σ)) : M σ Unit := fun s =>
  match s.scopes with
  | [] => .err .bufferUnderflow
  | c :: rest =>
      match fromAst type with
      | .ok sig =>
          if sig.function?.isNone ∧ script.isSome then .err .invalidValue
          else .ok ((), { s with scopes := c.add x ⟨sig, script⟩ :: rest })
      | .err e => .err e
      | .ub => .ub
      | .timeout => .timeout

/-- Compile the script of a declaration, lines 1034-1048. -/
def compileScript (cfg : Config σ) (e : Ast) : M σ (σ → Script σ) := fun s =>
  match cfg.compile e s.inner with
  | .ok (code, inner) => .ok (code, { s with inner := inner })
  | .err e => .err e
  | .ub => .ub
  | .timeout => .timeout

/-- parenthesis-inferrer.c:1021-1057 `compileAndAddDeclaration`. -/
def compileAndAdd (cfg : Config σ) (x : Bytes) (type : Ast) (script : Option Ast) : M σ Unit :=
  match script with
  | none => addDeclaration x type none
  | some e => do
      let code ← compileScript cfg e
      addDeclaration x type (some code)

/-- The keyword, lines 1280-1289. -/
def isDeclare (x : Bytes) : Bool := x == ascii "__declare" || x == ascii "declare"

/-- parenthesis-inferrer.c:1263-1308 `interpretDeclare`. -/
def interpretDeclare (cfg : Config σ) : Ast → M σ Unit
  | .expression [.identifier k, .identifier x, type] => if isDeclare k then compileAndAdd cfg x type none else pure ()
  | .expression [.identifier k, .identifier x, type, script] =>
      if isDeclare k then compileAndAdd cfg x type (some script) else pure ()
  | _ => pure ()

/-! ### Inference -/

/-- How far the inference of a call has come: `type_index`, the name and the arguments so far, and the forms left.
Without parentheses the name and the arguments are `newExpression`, with parentheses they are the beginning of the
expression. -/
structure Progress where
  index : Nat
  taken : List Ast
  rest : List Ast

/-- Whether a signature is `I`, in the positions where only `L` and `I` are supported. -/
def Sig.kind? : Sig → Option Bool
  | .literal => some false
  | .infer => some true
  | _ => none

/-- Make the head of a literal expression an identifier, line 1562: lines 1104-1111 `infer_callback` change the type of a
form but not its value, which is undefined behaviour unless the value is a name. -/
def headName : Ast → Option Bytes
  | .identifier x => some x
  | .callback x => some x
  | _ => none

mutual
/-- parenthesis-inferrer.c:1635-1677 `infer_compoundExpression` and 1525-1633 `infer_expression`. -/
def compound (cfg : Config σ) : Nat → Bool → Ast → M σ Ast
  | 0, _, _ => M.timeout
  | n + 1, infer, e =>
      match e with
      | .callback x => pure (.identifier x)
      | .literal (h :: es) =>
          if infer then
            match headName h with
            | some x => do
                let es ← arguments cfg n false es
                return .expression (.identifier x :: es)
            | none => M.ub
          else pure e
      | .expression (.callback x :: es) =>
          if infer then do
            let es ← arguments cfg n true es
            return .expression (.identifier x :: es)
          else pure e
      | .expression (.identifier x :: es) =>
          if infer then do
            match ← find x with
            | some d => call cfg n x d es
            | none =>
                let _ ← arguments cfg n true es
                M.err .invalidValue
          else pure e
      | .expression (h :: es) =>
          if infer then do
            pushScope
            let es ← arguments cfg n true (h :: es)
            popScope
            return .expression es
          else pure e
      | e => pure e
/-- parenthesis-inferrer.c:1311-1500 `inferArgument` with `parenthesized`: called at line 1594 only, for the expression
that begins with `x`, and with `infer`.  Line 1437 has no effect, since what it looks at is a name. -/
def call (cfg : Config σ) : Nat → Bytes → Decl σ → List Ast → M σ Ast
  | 0, _, _, _ => M.timeout
  | n + 1, x, d, es =>
      match d.sig.function? with
      | some (ps, r) => do
          let p ← begin cfg n true ps r d.script ⟨0, [.identifier x], es⟩
          let p ← finish cfg n true ps r p
          match p.rest with
          | [] => return .expression p.taken
          | _ :: _ => M.err .invalidValue
      | none =>
          match d.sig with
          | .literal => do
              let es ← arguments cfg n true es
              return .expression (.identifier x :: es)
          | _ => M.err .invalidValue
/-- parenthesis-inferrer.c:1311-1500 `inferArgument` without `parenthesized`: the next argument, and what is left. -/
def argument (cfg : Config σ) : Nat → Bool → List Ast → M σ (Ast × List Ast)
  | 0, _, _ => M.timeout
  | n + 1, infer, ts =>
      match ts with
      | [] => M.err .invalidValue
      | .identifier x :: ts => do
          match ← find x with
          | some d =>
              if infer then
                match d.sig.function? with
                | some (ps, r) => do
                    let p ← begin cfg n false ps r d.script ⟨0, [.identifier x], ts⟩
                    let p ← finish cfg n false ps r p
                    interpretDeclare cfg (.expression p.taken)
                    return (.expression p.taken, p.rest)
                | none => return (.identifier x, ts)
              else return (.identifier x, ts)
          | none => if infer then M.err .invalidValue else return (.identifier x, ts)
      | e :: ts => do
          let e ← compound cfg n infer e
          interpretDeclare cfg e
          return (e, ts)
/-- parenthesis-inferrer.c:1503-1523 `inferArguments`. -/
def arguments (cfg : Config σ) : Nat → Bool → List Ast → M σ (List Ast)
  | 0, _, _ => M.timeout
  | n + 1, infer, ts =>
      match ts with
      | [] => pure []
      | t :: ts => do
          let (e, ts) ← argument cfg n infer (t :: ts)
          interpretDeclare cfg e
          let es ← arguments cfg n infer ts
          return e :: es
/-- parenthesis-inferrer.c:1375-1387: run the script of a declaration, if it has one. -/
def begin (cfg : Config σ) : Nat → Bool → List Sig → Option (Int × Sig) → Option (σ → Script σ) → Progress → M σ Progress
  | 0, _, _, _, _, _ => M.timeout
  | n + 1, parenthesized, ps, r, code, p =>
      match code with
      | none => pure p
      | some code => fun s => run cfg n parenthesized ps r (code s.inner) p s
/-- parenthesis-inferrer.c:1118-1155 `runVm`, and the functions a script can call: 1680-1754
`callback_declareIdentifier`, 1756-1834 `callback_inferAndGetNextArgument`, 1836-1870 `callback_pushScope` and
`callback_popScope`. -/
def run (cfg : Config σ) : Nat → Bool → List Sig → Option (Int × Sig) → Script σ → Progress → M σ Progress
  | 0, _, _, _, _, _ => M.timeout
  | n + 1, parenthesized, ps, r, script, p =>
      match script with
      | .done inner => fun s => .ok (p, { s with inner := inner })
      | .fail e => M.err e
      | .ub => M.ub
      | .diverge => M.timeout
      | .next inner k => do
          let q ← (fun s => step cfg n parenthesized ps r p { s with inner := inner })
          -- lines 1797-1825: all further arguments, or the last argument
          let response := if r.isSome ∧ p.index = ps.length then .expression (q.taken.drop p.taken.length)
            else q.taken.getLastD .garbage
          fun s => run cfg n parenthesized ps r (k response s.inner) q s
      | .declare x type k => do
          addDeclaration x type none
          run cfg n parenthesized ps r k p
      | .push k => do
          pushScope
          run cfg n parenthesized ps r k p
      | .pop k => do
          popScope
          run cfg n parenthesized ps r k p
/-- parenthesis-inferrer.c:1158-1260 `inferIncrementally`, with `infer`. -/
def step (cfg : Config σ) : Nat → Bool → List Sig → Option (Int × Sig) → Progress → M σ Progress
  | 0, _, _, _, _ => M.timeout
  | n + 1, parenthesized, ps, r, p =>
      match ps[p.index]? with
      | some sig =>
          match sig.kind? with
          | some kind => do
              let (e, ts) ← argument cfg n kind p.rest
              return ⟨p.index + 1, p.taken ++ [e], ts⟩
          | none => M.err .invalidValue
      | none =>
          if p.index = ps.length then
            match r with
            | none => pure { p with index := p.index + 1 }
            | some (count, sig) =>
                if !parenthesized && count < 0 then M.err .invalidValue
                else do
                  let (es, ts) ← further cfg n (if parenthesized then none else some count.toNat) sig p.rest
                  return ⟨p.index + 1, p.taken ++ es, ts⟩
          else M.err .invalidValue
/-- The loop over further arguments, lines 1216-1246: a number of them, or all.  If their type is not supported an error
is noted, but the loop goes on, without end if all arguments are to be taken. -/
def further (cfg : Config σ) : Nat → Option Nat → Sig → List Ast → M σ (List Ast × List Ast)
  | 0, _, _, _ => M.timeout
  | n + 1, count, sig, ts =>
      match count, ts with
      | none, [] => pure ([], [])
      | some 0, ts => pure ([], ts)
      | count, ts =>
          match sig.kind? with
          | some kind => do
              let (e, ts) ← argument cfg n kind ts
              let (es, ts) ← further cfg n (count.map (· - 1)) sig ts
              return (e :: es, ts)
          | none => if count.isSome then M.err .invalidValue else M.timeout
/-- parenthesis-inferrer.c:1389-1403: infer what is left to be inferred. -/
def finish (cfg : Config σ) : Nat → Bool → List Sig → Option (Int × Sig) → Progress → M σ Progress
  | 0, _, _, _, _ => M.timeout
  | n + 1, parenthesized, ps, r, p =>
      if p.index ≤ ps.length then do
        let p ← step cfg n parenthesized ps r p
        finish cfg n parenthesized ps r p
      else pure p
end

/-- A prototype of a declaration: `duckLisp_parenthesisInferrer_declarationPrototype_t`, parenthesis-inferrer.h. -/
structure Prototype where
  name : Bytes
  type : Bytes
  script : Bytes

/-- Lines 1982-1990: what is declared always. -/
def builtin : List Prototype :=
  [⟨ascii "__declare", ascii "(L L &rest 0 I)", []⟩, ⟨ascii "declare", ascii "(L L &rest 0 I)", []⟩,
    ⟨ascii "__infer-and-get-next-argument", ascii "()", []⟩, ⟨ascii "infer-and-get-next-argument", ascii "()", []⟩,
    ⟨ascii "__declare-identifier", ascii "(I I)", []⟩, ⟨ascii "declare-identifier", ascii "(I I)", []⟩,
    ⟨ascii "__declaration-scope", ascii "(&rest 1 I)", []⟩, ⟨ascii "declaration-scope", ascii "(&rest 1 I)", []⟩]

/-- `duckLisp_read` with the compiler of the inferrer, without inference. -/
def readText (reader : Reader.Config) (text : Bytes) : M σ Ast := fun s =>
  match Reader.read reader text 0 {} with
  | .ok e _ => .ok (e, s)
  | .err e _ => .err e
  | .ub => .ub
  | .diverge => .timeout

/-- Lines 1991-2035 and 2037-2089: read the type and the script, and declare the name. -/
def declarePrototype (cfg : Config σ) (reader : Reader.Config) (d : Prototype) : M σ Unit := do
  let type ← readText reader d.type
  if d.script = [] then compileAndAdd cfg d.name type none
  else do
    let script ← readText reader d.script
    compileAndAdd cfg d.name type (some script)

/-- The loops over prototypes. -/
def declareAll (cfg : Config σ) (reader : Reader.Config) : List Prototype → M σ Unit
  | [] => pure ()
  | d :: ds => do
      declarePrototype cfg reader d
      declareAll cfg reader ds

/-- parenthesis-inferrer.c:1932-2128 `duckLisp_inferParentheses`.  The functions scripts can call are linked in the state
`inner` already. -/
def inferParentheses (cfg : Config σ) (reader : Reader.Config) (fuel : Nat) (externals : List Prototype) (inner : σ)
    (e : Ast) : Res Ast :=
  match (do pushScope; declareAll cfg reader (builtin ++ externals); compound cfg fuel true e : M σ Ast) ⟨[], inner⟩ with
  | .ok (e, _) => .ok e
  | .err e => .err e
  | .ub => .ub
  | .timeout => .timeout

/-- /repo/parser.c:1501-1546 `duckLisp_read` with `parenthesisInferenceEnabled`. -/
def read (cfg : Config σ) (reader : Reader.Config) (fuel : Nat) (externals : List Prototype) (inner : σ) (text : Bytes)
    (i : Nat) : Reader.R Ast := fun s =>
  match Reader.compound reader text (reader.maxDepth + 1) i { s with depth := 0 } with
  | .ok (e, _) s' =>
      match inferParentheses cfg reader fuel externals inner e with
      | .ok e => .ok (postprocess e) s'
      | .err e => .err e s'
      | .ub => .ub
      | .timeout => .diverge
  | .err e s' => .err e s'
  | .ub => .ub
  | .diverge => .diverge

end DuckLisp.Infer
