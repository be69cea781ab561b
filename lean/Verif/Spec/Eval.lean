import Verif.Spec.Core
import Verif.Spec.Data
import Verif.Spec.Machine
import Verif.Model.VM.Float

/-!
# Direct evaluation of the core language

What a form of the core language means, given by recursion on the form, without code and without a
machine: values, an environment of blocks of variables, globals, numeric promotion, truth, branching,
loops, blocks, declarations, and functions that use no variables of the blocks around them.  Where the
language reads memory it shares with others (vectors, composites, assignment to pairs), or globals that
nothing is known about, the evaluator does not say anything: the result is `outside`.
-/

namespace DuckLisp.Reader

mutual
/-- Whether two trees are the same. -/
def Ast.same : Ast → Ast → Bool
  | .bool a, .bool b => a == b
  | .float a, .float b => a == b
  | .int a, .int b => a == b
  | .string a, .string b => a == b
  | .callback a, .callback b => a == b
  | .identifier a, .identifier b => a == b
  | .literal a, .literal b => Ast.sameAll a b
  | .expression a, .expression b => Ast.sameAll a b
  | .garbage, .garbage => true
  | _, _ => false
/-- See `Ast.same`. -/
def Ast.sameAll : List Ast → List Ast → Bool
  | [], [] => true
  | a :: as, b :: bs => Ast.same a b && Ast.sameAll as bs
  | _, _ => false
end

mutual
theorem Ast.same_iff : ∀ a b : Ast, Ast.same a b = true ↔ a = b
  | .bool a, b => by cases b <;> simp [Ast.same]
  | .float a, b => by cases b <;> simp [Ast.same]
  | .int a, b => by cases b <;> simp [Ast.same]
  | .string a, b => by cases b <;> simp [Ast.same]
  | .callback a, b => by cases b <;> simp [Ast.same]
  | .identifier a, b => by cases b <;> simp [Ast.same]
  | .literal as, b => by
    cases b <;> simp [Ast.same]
    exact Ast.sameAll_iff as _
  | .expression as, b => by
    cases b <;> simp [Ast.same]
    exact Ast.sameAll_iff as _
  | .garbage, b => by cases b <;> simp [Ast.same]
theorem Ast.sameAll_iff : ∀ a b : List Ast, Ast.sameAll a b = true ↔ a = b
  | [], b => by cases b <;> simp [Ast.sameAll]
  | a :: as, b => by
    cases b with
    | nil => simp [Ast.sameAll]
    | cons b bs => simp [Ast.sameAll, Ast.same_iff a b, Ast.sameAll_iff as bs]
end

instance : DecidableEq Ast := fun a b => decidable_of_iff _ (Ast.same_iff a b)

end DuckLisp.Reader

namespace DuckLisp.Spec.Eval

open DuckLisp DuckLisp.VM DuckLisp.Reader

/-- Values. -/
inductive Value where
  | nil
  | bool (b : UInt8)
  | int (i : Int)
  | float (bits : UInt64)
  | symbol (name : Bytes)
  | string (s : Bytes)
  /-- a text that is a part of another one -/
  | slice (s : Bytes)
  | pair (car cdr : Value)
  /-- the type of something, by its number -/
  | type (n : Nat)
  /-- a function: the names of its parameters, that of the parameter for all further arguments if there is one, and
  the forms of its body -/
  | function (params : List Bytes) (rest : Option Bytes) (forms : List Ast)
  /-- something that can be passed on, but nothing else is said about it -/
  | unknown
deriving DecidableEq

/-- What evaluation comes to. -/
inductive Result (α : Type) where
  | ok (a : α)
  /-- the program is stopped with an error -/
  | error (e : DlError)
  /-- signed overflow or an integer division by zero, which C leaves undefined -/
  | undefined
  /-- the allowance of loop rounds is used up -/
  | unfinished
  /-- not described here -/
  | outside
deriving DecidableEq, Repr

/-- One after the other. -/
def Result.bind {α β : Type} (r : Result α) (f : α → Result β) : Result β :=
  match r with
  | .ok a => f a
  | .error e => .error e
  | .undefined => .undefined
  | .unfinished => .unfinished
  | .outside => .outside

instance : Monad Result where
  pure := .ok
  bind := Result.bind

/-- What evaluation depends on: floating-point arithmetic, whether programs that need memory are
described, and for which globals assignments are described. -/
structure Setting where
  fl : FloatOps
  memory : Bool
  assignable : Bytes → Bool

/-! ### Variables -/

/-- Names with values, the newest first. -/
abbrev Block := List (Bytes × Value)

/-- The variables in sight: blocks, the innermost first, and the globals. -/
structure Env where
  blocks : List Block
  globals : Block
deriving DecidableEq

/-- The value of a variable in a block. -/
def lookupBlock (x : Bytes) : Block → Option Value
  | [] => none
  | (y, v) :: rest => if x = y then some v else lookupBlock x rest

/-- The value of a variable in the innermost block that has it. -/
def lookupBlocks (x : Bytes) : List Block → Option Value
  | [] => none
  | b :: bs => (lookupBlock x b).or (lookupBlocks x bs)

/-- The value of a variable: globals are outside of all blocks. -/
def lookup (x : Bytes) (env : Env) : Option Value := (lookupBlocks x env.blocks).or (lookupBlock x env.globals)

/-- Assign to the variable of a block. -/
def assignBlock (x : Bytes) (v : Value) : Block → Block
  | [] => []
  | (y, w) :: rest => if x = y then (y, v) :: rest else (y, w) :: assignBlock x v rest

/-- Assign to the variable of the innermost block that has it. -/
def assignBlocks (x : Bytes) (v : Value) : List Block → List Block
  | [] => []
  | b :: bs => if (lookupBlock x b).isSome then assignBlock x v b :: bs else b :: assignBlocks x v bs

/-- Assign to the variable in a block that the name refers to. -/
def assign (x : Bytes) (v : Value) (env : Env) : Env := { env with blocks := assignBlocks x v env.blocks }

/-- A new variable in the innermost block. -/
def declareBlocks (x : Bytes) (v : Value) : List Block → List Block
  | [] => [[(x, v)]]
  | b :: bs => ((x, v) :: b) :: bs

/-- See `declareBlocks`. -/
def declare (x : Bytes) (v : Value) (env : Env) : Env := { env with blocks := declareBlocks x v env.blocks }

/-- A global has a value from now on. -/
def define (x : Bytes) (v : Value) (env : Env) : Env := { env with globals := (x, v) :: env.globals }

/-- Begin a block. -/
def Env.enter (env : Env) : Env := { env with blocks := [] :: env.blocks }

/-- End the innermost block. -/
def Env.leave (env : Env) : Env := { env with blocks := env.blocks.tail }

/-! ### Operators -/

/-- The integer an integer or boolean stands for. -/
def integer : Value → Option Int
  | .int i => some i
  | .bool b => some b.toNat
  | _ => none

/-- The double a number stands for. -/
def double (fl : FloatOps) : Value → Option UInt64
  | .float x => some x
  | v => (integer v).map fl.ofInt

/-- A result of integer arithmetic. -/
def inRange (i : Int) : Result Value :=
  if -(2 ^ 63) ≤ i ∧ i < 2 ^ 63 then .ok (.int i) else .undefined

/-- Arithmetic: in doubles if there is one, else in integers if there is one, else in bytes. -/
def arith (fl : FloatOps) (op : Arith) (x y : Value) : Result Value :=
  match x, y with
  | .unknown, _ => .outside
  | _, .unknown => .outside
  | .bool a, .bool b =>
      match op with
      | .add => .ok (.bool (a + b))
      | .sub => .ok (.bool (a - b))
      | .mul => .ok (.bool (a * b))
      | .div => if b = 0 then .undefined else .ok (.bool (a / b))
  | x, y =>
      match integer x, integer y with
      | some a, some b =>
          match op with
          | .add => inRange (a + b)
          | .sub => inRange (a - b)
          | .mul => inRange (a * b)
          | .div => if b = 0 then .undefined else inRange (a.tdiv b)
      | _, _ =>
          match double fl x, double fl y with
          | some a, some b =>
              match op with
              | .add => .ok (.float (fl.add a b))
              | .sub => .ok (.float (fl.sub a b))
              | .mul => .ok (.float (fl.mul a b))
              | .div => .ok (.float (fl.div a b))
          | _, _ => .error .invalidValue

/-- A truth value. -/
def boolean (b : Bool) : Value := .bool (if b then 1 else 0)

/-- The order of numbers. -/
def less (fl : FloatOps) (x y : Value) : Result Value :=
  match x, y with
  | .unknown, _ => .outside
  | _, .unknown => .outside
  | x, y =>
      match integer x, integer y with
      | some a, some b => .ok (boolean (a < b))
      | _, _ =>
          match double fl x, double fl y with
          | some a, some b => .ok (boolean (Float64.lt a b))
          | _, _ => .error .invalidValue

/-- Values of different kinds are not equal.  Two lists are equal if they are the same object, which
is not described here.  A function cannot be compared to something. -/
def equal : Value → Value → Result Value
  | .unknown, _ => .outside
  | .function .., _ => .error .invalidValue
  | _, .unknown => .outside
  | .nil, .nil => .ok (boolean true)
  | .pair .., .pair .. => .outside
  | .bool a, .bool b => .ok (boolean (a = b))
  | .int a, .int b => .ok (boolean (a = b))
  | .float a, .float b => .ok (boolean (Float64.eq a b))
  | .symbol a, .symbol b => .ok (boolean (a = b))
  | .string a, .string b => .ok (boolean (a = b))
  | .string a, .slice b => .ok (boolean (a = b))
  | .slice a, .string b => .ok (boolean (a = b))
  | .slice a, .slice b => .ok (boolean (a = b))
  | .type a, .type b => .ok (boolean (a = b))
  | _, _ => .ok (boolean false)

/-- Negation keeps the type. -/
def negate : Value → Result Value
  | .nil => .ok (boolean true)
  | .pair .. => .ok (boolean false)
  | .bool b => .ok (boolean (b = 0))
  | .int i => .ok (.int (if i = 0 then 1 else 0))
  | .float x => .ok (.float (if Float64.isZero x then Float64.one else Float64.zero))
  | .unknown => .outside
  | _ => .error .invalidValue

/-- What counts as true in a computed condition: a string is not described if it is empty, and a type is not. -/
def truth : Value → Result Bool
  | .nil => .ok false
  | .bool b => .ok (b ≠ 0)
  | .int i => .ok (i ≠ 0)
  | .float x => .ok (!Float64.isZero x)
  | .symbol _ => .ok true
  | .string [] => .outside
  | .string (_ :: _) => .ok true
  | .slice [] => .outside
  | .slice (_ :: _) => .ok true
  | .pair .. => .ok true
  | .function .. => .ok true
  | .type _ => .outside
  | .unknown => .outside

/-- The values in a list. -/
def toList : Value → Option (List Value)
  | .nil => some []
  | .pair v d => (toList d).map (v :: ·)
  | _ => none

/-- Whether something is empty. -/
def isNull : Value → Result Value
  | .unknown => .outside
  | .nil => .ok (boolean true)
  | .string s => .ok (boolean s.isEmpty)
  | .slice s => .ok (boolean s.isEmpty)
  | _ => .ok (boolean false)

/-- The first byte of a text; that of an empty one is an empty text. -/
def firstByte : Bytes → Value
  | [] => .slice []
  | b :: _ => .int b.toNat

/-- The first element. -/
def first : Value → Result Value
  | .unknown => .outside
  | .nil => .ok .nil
  | .pair a _ => .ok a
  | .string s => .ok (firstByte s)
  | .slice s => .ok (firstByte s)
  | _ => .error .invalidValue

/-- All elements but the first. -/
def rest : Value → Result Value
  | .unknown => .outside
  | .nil => .ok .nil
  | .pair _ d => .ok d
  | .string s => .ok (.slice s.tail)
  | .slice s => .ok (.slice s.tail)
  | _ => .error .invalidValue

/-- The number of elements.  Lists that do not end in nil are not described. -/
def count : Value → Result Value
  | .unknown => .outside
  | .nil => .ok (.int 0)
  | .pair a d =>
      match toList (.pair a d) with
      | some vs => .ok (.int vs.length)
      | none => .outside
  | .string s => .ok (.int s.length)
  | .slice s => .ok (.int s.length)
  | _ => .error .invalidValue

/-- The bytes that integers stand for. -/
def bytes : List Value → Option Bytes
  | [] => some []
  | .int i :: vs => (bytes vs).map (UInt8.ofInt i :: ·)
  | _ :: _ => none

/-- The text of a list of integers.  Lists of other things are not described. -/
def makeString (S : Setting) : Value → Result Value
  | .unknown => .outside
  | .nil => if S.memory then .ok (.string []) else .outside
  | .pair a d =>
      match (toList (.pair a d)).bind bytes with
      | some s => if S.memory then .ok (.string s) else .outside
      | none => .outside
  | _ => .error .invalidValue

/-- The byte at a position of a text. -/
def byteAt (s : Bytes) : Value → Result Value
  | .unknown => .outside
  | .int i =>
      match if 0 ≤ i then s[i.toNat]? else none with
      | some b => .ok (.int b.toNat)
      | none => .error .invalidValue
  | _ => .error .invalidValue

/-- The element at a position. -/
def element : Value → Value → Result Value
  | .unknown, _ => .outside
  | .string s, y => byteAt s y
  | .slice s, y => byteAt s y
  | _, _ => .error .invalidValue

/-- Texts and names. -/
def hasText : Value → Bool
  | .symbol _ => true
  | .string _ => true
  | .slice _ => true
  | _ => false

/-- Two texts in a row.  It is not described what comes of parts of texts, which the machine joins wrongly, and of
names. -/
def concatenate (S : Setting) : Value → Value → Result Value
  | .unknown, _ => .outside
  | _, .unknown => .outside
  | .string a, .string b => if S.memory ∧ a.length + b.length < 2 ^ 63 then .ok (.string (a ++ b)) else .outside
  | x, y => if hasText x ∧ hasText y then .outside else .error .invalidValue

/-- The part of a text from one position up to another. -/
def between (s : Bytes) : Value → Value → Result Value
  | .int i, .int j =>
      if 0 ≤ i ∧ i ≤ j ∧ j ≤ s.length then .ok (.slice ((s.drop i.toNat).take (j - i).toNat)) else .error .invalidValue
  | .int _, .unknown => .outside
  | .unknown, _ => .outside
  | _, _ => .error .invalidValue

/-- A part of something: only texts have parts. -/
def substring : Value → Value → Value → Result Value
  | .unknown, _, _ => .outside
  | .string s, i, j => between s i j
  | .slice s, i, j => between s i j
  | _, _, _ => .error .invalidValue

/-- The number of the type of a value. -/
def kind : Value → Option Nat
  | .bool _ => some 1
  | .int _ => some 2
  | .float _ => some 3
  | .string _ => some 4
  | .slice _ => some 4
  | .nil => some 5
  | .pair .. => some 5
  | .symbol _ => some 6
  | .function .. => some 8
  | .type _ => some 10
  | .unknown => none

/-- The type of something. -/
def typeOf (v : Value) : Result Value :=
  match kind v with
  | some n => .ok (.type n)
  | none => .outside

/-- Only symbols have numbers; which ones is not described. -/
def symbolId : Value → Result Value
  | .symbol _ => .outside
  | .unknown => .outside
  | _ => .error .invalidValue

/-- Operators with one operand. -/
def apply1 (S : Setting) (op : String) (x : Value) : Result Value :=
  match op with
  | "not" => negate x
  | "null?" => isNull x
  | "car" => first x
  | "cdr" => rest x
  | "length" => count x
  | "make-string" => makeString S x
  | "type-of" => typeOf x
  | "symbol-id" => symbolId x
  | _ => .outside

/-- Operators with two operands. -/
def apply2 (S : Setting) (op : String) (x y : Value) : Result Value :=
  match op with
  | "+" => arith S.fl .add x y
  | "-" => arith S.fl .sub x y
  | "*" => arith S.fl .mul x y
  | "/" => arith S.fl .div x y
  | "=" => equal x y
  | "<" => less S.fl x y
  | ">" => less S.fl y x
  | "cons" => if S.memory then .ok (.pair x y) else .outside
  | "get-vector-element" => element x y
  | "concatenate" => concatenate S x y
  | _ => .outside

/-- Operators with three operands. -/
def apply3 (op : String) (x y z : Value) : Result Value :=
  match op with
  | "substring" => substring x y z
  | _ => .outside

/-! ### Names and literals -/

/-- Everything with a meaning of its own. -/
def keywords : List String :=
  operators 0 ++ operators 1 ++ operators 2 ++ operators 3 ++
    ["list", "vector", "declare", "quote", "setq", "global", "if", "when", "unless", "while", "var", "noscope",
      "lambda", "funcall", "apply", "defun", "defmacro", "comptime", "nop", "error"]

/-- The keyword a name stands for. -/
def keyword (name : Bytes) : Option String :=
  keywords.find? fun k => name = ascii k ∨ name = ascii ("__" ++ k)

/-- A text; those that do not fit into one instruction are not described. -/
def text (S : Setting) (s : Bytes) : Result Value :=
  if S.memory ∧ s.length < 65536 then .ok (.string s) else .outside

mutual
/-- The value of a quoted tree. -/
def datum (S : Setting) : Ast → Result Value
  | .bool b => .ok (boolean b)
  | .int i => .ok (.int i)
  | .float bits => .ok (.float bits)
  | .string s => text S s
  | .identifier name => if S.memory ∧ name.length < 65535 then .ok (.symbol name) else .outside
  | .expression es => data S es
  | _ => .outside
/-- The list of quoted trees. -/
def data (S : Setting) : List Ast → Result Value
  | [] => .ok .nil
  | e :: es => do
      let d ← data S es
      let a ← datum S e
      if S.memory then .ok (.pair a d) else .outside
end

/-! ### Evaluation -/

/-- An operand: a plain variable of a block is read when the operator is applied, that is after the operands
that follow it have been evaluated. -/
inductive Operand where
  | value (v : Value)
  | variable (x : Bytes)

/-- The operand that the evaluation of `e` to `v` makes. -/
def operand (e : Ast) (v : Value) (env : Env) : Operand :=
  match e with
  | .identifier x => if (lookupBlocks x env.blocks).isSome then .variable x else .value v
  | _ => .value v

/-- The value of the operand. -/
def Operand.get (o : Operand) (env : Env) : Result Value :=
  match o with
  | .value v => .ok v
  | .variable x =>
      match lookup x env with
      | some v => .ok v
      | none => .outside

/-- Set a global. -/
def setGlobal (S : Setting) (x : Bytes) (v : Value) (env : Env) : Result (Value × Env) :=
  if S.memory ∧ S.assignable x then .ok (v, define x v env) else .outside

/-- Rounds of a loop: the condition, then the body.  The first argument is the allowance. -/
def loop (condition : Env → Result (Value × Env)) (body : Env → Result (Value × Env)) :
    Nat → Env → Result (Value × Env)
  | 0, _ => .unfinished
  | F + 1, env => do
      let (c, env) ← condition env
      if ← truth c then
        let (_, env) ← body env
        loop condition body F env
      else .ok (.nil, env)

/-- The name after `&rest`, which is the last. -/
def restName : List Ast → Option Bytes
  | [.identifier rest] => some rest
  | _ => none

/-- The names of parameters, and the name after `&rest`. -/
def parameters : List Ast → Option (List Bytes × Option Bytes)
  | [] => some ([], none)
  | .identifier x :: es =>
      if x = ascii "&rest" then (restName es).map fun rest => ([], some rest)
      else (parameters es).map fun (params, rest) => (x :: params, rest)
  | _ => none

/-- Parameters with the values of arguments, the last first. -/
def bind (params : List Bytes) (args : List Value) : Block := (params.zip args).reverse

/-- The list of the values. -/
def ofList : List Value → Value
  | [] => .nil
  | v :: vs => .pair v (ofList vs)

/-- The variables of a function that gets these arguments: one for each parameter, and a list of all others if there is
a parameter for it; nothing if the number of arguments is not right. -/
def received (params : List Bytes) (rest : Option Bytes) (args : List Value) : Option Block :=
  match rest with
  | none => if params.length = args.length then some (bind params args) else none
  | some rest =>
      if params.length ≤ args.length then
        some (bind (params ++ [rest]) (args.take params.length ++ [ofList (args.drop params.length)]))
      else none

/-- What evaluation depends on, with what the body of a function comes to if it is called. -/
structure Rules extends Setting where
  call : List Ast → Env → Result (Value × Env)

/-- Run the body of a function.  There are only its parameters and the globals in it. -/
def invoke (S : Rules) (params : List Bytes) (rest : Option Bytes) (forms : List Ast) (args : List Value) (env : Env) :
    Result (Value × Env) :=
  match received params rest args with
  | some block =>
      if rest = none ∨ S.memory then do
        let (v, inner) ← S.call forms ⟨[[], block], env.globals⟩
        .ok (v, { env with globals := inner.globals })
      else .outside
  | none => .error .invalidValue

/-- Call a function. -/
def call (S : Rules) (f : Value) (args : List Value) (env : Env) : Result (Value × Env) :=
  match f with
  | .function params rest forms => if 256 ≤ args.length then .outside else invoke S params rest forms args env
  | .unknown => .outside
  | _ => .error .invalidValue

/-- Apply a function to arguments and the elements of a list.  It is not described what happens if there are more
elements than the function takes, because the machine drops them. -/
def applyTo (S : Rules) (f : Value) (args : List Value) (last : Value) (env : Env) : Result (Value × Env) :=
  match f with
  | .function params rest forms =>
      match toList last with
      | some vs =>
          if 256 ≤ args.length ∨ rest = none ∧ args.length ≤ params.length ∧ params.length < args.length + vs.length then
            .outside
          else invoke S params rest forms (args ++ vs) env
      | none =>
          match last with
          | .unknown => .outside
          | .pair .. => .outside
          | _ => .error .invalidValue
  | .unknown => .outside
  | _ => .error .invalidValue

/-- A condition that may be a literal text, which is true if there is something in it. -/
def decided (c : Ast) (r : Result (Value × Env)) (env : Env) : Result (Bool × Env) :=
  match c with
  | .string s => .ok (s ≠ [], env)
  | _ => do
      let (v, env) ← r
      let b ← truth v
      .ok (b, env)

mutual
/-- The value of a form, and the variables afterwards.  Loops have an allowance of `F` rounds.  `inBlock`: the
form stands in a block, so that it can declare variables there. -/
def eval (S : Rules) (F : Nat) (inBlock : Bool) : Ast → Env → Result (Value × Env)
  | .bool b, env => .ok (boolean b, env)
  | .int i, env => .ok (.int i, env)
  | .float bits, env => .ok (.float bits, env)
  | .string s, env => do
      let v ← text S.toSetting s
      .ok (v, env)
  | .identifier x, env =>
      match lookup x env with
      | some v => .ok (v, env)
      | none => .outside
  | .expression [], env => .ok (.nil, env)
  | .expression (.identifier name :: args), env =>
      match keyword name, args with
      | some "declare", _ => .ok (.nil, env)
      | some "quote", [e] => do
          let v ← datum S.toSetting e
          .ok (v, env)
      | some "list", es => elements S F es env
      | some "setq", [.identifier x, e] => do
          let (v, env) ← eval S F false e env
          if (lookupBlocks x env.blocks).isSome then .ok (v, assign x v env) else setGlobal S.toSetting x v env
      | some "global", [.identifier x, e] => do
          let (v, env) ← eval S F false e env
          setGlobal S.toSetting x v env
      | some "var", [.identifier x, e] =>
          if inBlock then do
            let (v, env) ← eval S F false e env
            .ok (v, declare x v env)
          else .outside
      | some "noscope", es => if inBlock then body S F es env else .outside
      | some "if", [c, e, f] => do
          let (b, env) ← decided c (eval S F false c env) env
          if b then eval S F false e env else eval S F false f env
      | some "when", c :: es => do
          let (b, env) ← decided c (eval S F false c env) env
          if b then do
            let (v, env) ← body S F es env.enter
            .ok (v, env.leave)
          else .ok (.nil, env)
      | some "unless", c :: es => do
          let (b, env) ← decided c (eval S F false c env) env
          if b then .ok (.nil, env)
          else do
            let (v, env) ← body S F es env.enter
            .ok (v, env.leave)
      | some "while", c :: es =>
          -- the loop is a block, and its body another one
          loop (eval S F false c) (fun env => do
            let (v, env) ← body S F es env.enter.enter
            .ok (v, env.leave.leave)) F env
      | some "lambda", .expression params :: forms =>
          match parameters params with
          | some (params, rest) =>
              if S.memory ∧ params.length < 256 then .ok (.function params rest forms, env) else .outside
          | none => .outside
      | some "funcall", f :: args => do
          let (v, env) ← eval S F false f env
          let (args, env) ← arguments S F args env
          let f ← (operand f v env).get env
          call S f args env
      | some "apply", f :: a :: args => do
          let (v, env) ← eval S F false f env
          let (w, env) ← eval S F false a env
          let (args, env) ← arguments S F args env
          let f ← (operand f v env).get env
          applyTo S f (w :: args).dropLast ((w :: args).getLastD .nil) env
      | none, args =>
          -- functions are looked up among the globals
          match lookupBlock name env.globals with
          | some f => do
              let (args, env) ← arguments S F args env
              call S f args env
          | none => .outside
      | some "global", _ => .outside
      | some "vector", _ => .outside
      | some "lambda", _ => .outside
      | some "funcall", _ => .outside
      | some "apply", _ => .outside
      | some k, [a] => do
          let (x, env) ← eval S F false a env
          let x ← (operand a x env).get env
          let v ← apply1 S.toSetting k x
          .ok (v, env)
      | some k, [a, b] => do
          let (x, env) ← eval S F false a env
          let (y, env) ← eval S F false b env
          let x ← (operand a x env).get env
          let y ← (operand b y env).get env
          let v ← apply2 S.toSetting k x y
          .ok (v, env)
      | some "substring", [a, b, c] => do
          let (x, env) ← eval S F false a env
          let (y, env) ← eval S F false b env
          let (z, env) ← eval S F false c env
          let x ← (operand a x env).get env
          let y ← (operand b y env).get env
          let z ← (operand c z env).get env
          let v ← apply3 "substring" x y z
          .ok (v, env)
      | _, _ => .outside
  | .expression (e :: es), env => do
      let (v, env) ← body S F (e :: es) env.enter
      .ok (v, env.leave)
  | _, _ => .outside
/-- The elements of a list, the last first. -/
def elements (S : Rules) (F : Nat) : List Ast → Env → Result (Value × Env)
  | [], env => .ok (.nil, env)
  | e :: es, env => do
      let (d, env) ← elements S F es env
      let (a, env) ← eval S F false e env
      if S.memory then .ok (.pair a d, env) else .outside
/-- The arguments of a call, the first first. -/
def arguments (S : Rules) (F : Nat) : List Ast → Env → Result (List Value × Env)
  | [], env => .ok ([], env)
  | e :: es, env => do
      let (v, env) ← eval S F false e env
      let (vs, env) ← arguments S F es env
      .ok (v :: vs, env)
/-- Forms in a row: the value is that of the last. -/
def body (S : Rules) (F : Nat) : List Ast → Env → Result (Value × Env)
  | [], env => .ok (.nil, env)
  | e :: es, env => do
      let (v, env) ← eval S F true e env
      if es = [] then .ok (v, env) else body S F es env
end

/-- What the body of a function comes to.  Calls within calls have an allowance of `F`. -/
def run (S : Setting) : Nat → List Ast → Env → Result (Value × Env)
  | 0, _, _ => .unfinished
  | F + 1, forms, env => body ⟨S, run S F⟩ F forms env

/-- A whole program: nothing is declared yet.  The value, and the globals afterwards. -/
def program (S : Setting) (F : Nat) (globals : Block) (e : Ast) : Result (Value × Block) := do
  let (v, env) ← eval ⟨S, run S F⟩ F false e ⟨[[]], globals⟩
  .ok (v, env.globals)

/-- What is left of a value when the program that made it is done: nothing is said about functions any more. -/
def Value.forget : Value → Value
  | .pair a d => .pair a.forget d.forget
  | .function .. => .unknown
  | v => v

/-! ### Values in the machine -/

/-- How values are found in the machine: which names have which numbers, and which objects are which functions. -/
structure Reading where
  number : Bytes → Nat → Prop
  function : Obj → List Bytes → Option Bytes → List Ast → Prop

/-- `Holds R vm o v`: the object `o` of the machine is the value `v`.  The rest of a list is the cell that the pair
points to, not a copy. -/
inductive Holds (R : Reading) (vm : VM) : Obj → Value → Prop
  | nil : Holds R vm (.list none) .nil
  | bool (b) : Holds R vm (.bool b) (.bool b)
  | int (i) : Holds R vm (.integer i) (.int i)
  | float (bits) : Holds R vm (.float bits) (.float bits)
  | symbol {id name p} (h : R.number name id)
      (hp : ∀ r, p = some r → ∃ v, vm.heap[r]? = some (.internalString v name.length) ∧ v.getD [] = name) :
      Holds R vm (.symbol id p) (.symbol name)
  | string {r n s} (h : Spec.text vm (.string (some r) 0 n) = s) : Holds R vm (.string (some r) 0 n) (.string s)
  | slice {p off len s} (h : Spec.text vm (.string p off len) = s) : Holds R vm (.string p off len) (.slice s)
  | pair {r x y a d} (h : IsPair vm r x y) (hl : ∀ p, y = .list p → ∃ b, vm.heap[r]? = some (.cons b p)) (ha : Holds R vm x a) (hd : Holds R vm y d) :
      Holds R vm (.list (some r)) (.pair a d)
  | type (n) : Holds R vm (.type n) (.type n)
  | function {name code ups arity variadic params rest forms}
      (h : R.function (.closure name code ups arity variadic) params rest forms) :
      Holds R vm (.closure name code ups arity variadic) (.function params rest forms)
  | unknown (o) : Holds R vm o .unknown

end DuckLisp.Spec.Eval
