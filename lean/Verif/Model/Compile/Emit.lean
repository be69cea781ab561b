import Verif.Model.Compile.Scope
import Verif.Model.Tables
import Verif.Model.Reader
import Verif.Model.Asm.Encode
import Verif.Model.VM.Types

/-!
# Model of the emitters (/repo/emitters.c)

An emitter appends an instruction to an array and keeps `locals_length`, the number of values that will be on
the stack of the machine when the code has run.

Simplifications: memory allocation succeeds; the texts of reports are not modelled (`duckLisp_error_pushRuntime`
is, in Model/Tables.lean); `locals_length` and the arguments of instructions are unbounded, and a `locals_length`
that would become negative, which wraps in C, is the outcome `outside`.
-/

namespace DuckLisp.Compile

open DuckLisp.Asm

/-- What the compiler keeps between two emitters.  `assembly` is that of the current sub-state; `body` is the
array that a `lambda` fills before it appends it there (/repo/generators.c:1443-1447), and the emitters append to
it if there is one, to `assembly` otherwise.  `gensymNumber` is the number of generated names so far; in C it wraps
to 64 bits, here its low 64 bits are used.  `machine` is the machine that runs code during compilation (/repo/duckLisp.h:184
`vm`), and `expansion` what the last form compiled was replaced by if it was a macro call
(/repo/generators.c:3713-3718); only Model/Macro.lean uses them. -/
structure CState where
  scopes : Scopes
  symbols : Tables.Symbols
  gensymNumber : Nat
  runtimeGlobals : Trie.Node
  comptimeGlobals : Trie.Node
  assembly : List Ins
  body : Option (List Ins)
  machine : VM.VM := { heap := [], free := [] }
  expansion : Option (List Reader.Ast) := none

/-- Outcome of a part of the compiler: `outside` is what the model does not cover (code run during compilation),
`timeout` is "not finished with the fuel given". -/
inductive COut (α : Type) where
  | ok (a : α) (s : CState)
  | err (e : DlError)
  | ub
  | outside
  | timeout

/-- The part of the compiler that changes the state. -/
def CM (α : Type) := CState → COut α

namespace CM

/-- The idiom `e = f(...); if (e) goto cleanup;`. -/
def bind {α β : Type} (m : CM α) (f : α → CM β) : CM β := fun s =>
  match m s with
  | .ok a s => f a s
  | .err e => .err e
  | .ub => .ub
  | .outside => .outside
  | .timeout => .timeout

instance : Monad CM where
  pure a := fun s => .ok a s
  bind := bind

/-- `return e`. -/
def fail {α : Type} (e : DlError) : CM α := fun _ => .err e

/-- Not modelled. -/
def outside {α : Type} : CM α := fun _ => .outside

/-- Undefined behaviour: a variable without a value is used. -/
def ub {α : Type} : CM α := fun _ => .ub

/-- Out of fuel. -/
def timeout {α : Type} : CM α := fun _ => .timeout

end CM

/-- The state. -/
def get : CM CState := fun s => .ok s s

/-- Change the state. -/
def modify (f : CState → CState) : CM Unit := fun s => .ok () (f s)

/-- /repo/duckLisp.c:248-250 `duckLisp_localsLength_get`. -/
def localsLength : CM Nat := fun s => .ok s.scopes.current.localsLength s

/-- Assignment to `locals_length` of the current sub-state. -/
def setLocalsLength (n : Nat) : CM Unit :=
  modify fun s => { s with scopes := s.scopes.setCurrent { s.scopes.current with localsLength := n } }

/-- /repo/duckLisp.c:252-254 `duckLisp_localsLength_increment`. -/
def increment : CM Unit := do setLocalsLength ((← localsLength) + 1)

/-- `locals_length -= n`. -/
def decrease (n : Nat) : CM Unit := do
  let length ← localsLength
  if n ≤ length then setLocalsLength (length - n) else CM.outside

/-- `dl_array_pushElement(assembly, &instruction)`. -/
def put (i : Ins) : CM Unit :=
  modify fun s =>
    match s.body with
    | some body => { s with body := some (body ++ [i]) }
    | none => { s with assembly := s.assembly ++ [i] }

/-- The operand for a slot: `duckLisp_localsLength_get(compileState) - index`. -/
def operand (index : Int) : CM Int := do return (← localsLength) - index

/-- /repo/emitters.c:27-49 `duckLisp_emit_nullaryOperator`; also the emitters that append an instruction whose
arguments are not slots and count one value more: 824-845 `pushBoolean`, 847-864 `pushInteger`, 866-887
`pushDoubleFloat`, 788-800 `pushGlobal`, 1133-1141 `ccall`, 1154-1166 `pushUpvalue`. -/
def emitPush (i : Ins) : CM Unit := do
  put i
  increment

/-- /repo/emitters.c:153-166 `duckLisp_emit_unaryStackOperator`. -/
def emitUnary (ins : Int → Ins) (index : Int) : CM Unit := do
  emitPush (ins (← operand index))

/-- /repo/emitters.c:168-186 `duckLisp_emit_binaryStackOperator`. -/
def emitBinary (ins : Int → Int → Ins) (index0 index1 : Int) : CM Unit := do
  emitPush (ins (← operand index0) (← operand index1))

/-- /repo/emitters.c:188-211 `duckLisp_emit_ternaryStackOperator`. -/
def emitTernary (ins : Int → Int → Int → Ins) (index0 index1 index2 : Int) : CM Unit := do
  emitPush (ins (← operand index0) (← operand index1) (← operand index2))

/-- /repo/emitters.c:214-216 `duckLisp_emit_nil`. -/
def emitNil : CM Unit := emitPush .nil

/-- /repo/emitters.c:756-759 `duckLisp_emit_nop`: the decrement after the `return` is never reached. -/
def emitNop : CM Unit := emitPush .nop

/-- /repo/emitters.c:461-502 `duckLisp_emit_vector`. -/
def emitVector (indexes : List Int) : CM Unit := do
  let length ← localsLength
  emitPush (.vector indexes.length (indexes.map fun index => (length : Int) - index))

/-- /repo/emitters.c:565-594 `duckLisp_emit_return`. -/
def emitReturn (count : Nat) : CM Unit := do
  put (.return_ count)
  decrease count

/-- /repo/emitters.c:596-617 `duckLisp_emit_exit`.  Simplification: the value of `locals_length` afterwards, which
is not used, is left as it was. -/
def emitExit : CM Unit := put .halt

/-- /repo/emitters.c:619-656 `duckLisp_emit_pop`. -/
def emitPop (count : Nat) : CM Unit :=
  if count = 0 then pure ()
  else do
    put (.pop count)
    decrease count

/-- /repo/emitters.c:761-786 `duckLisp_emit_setStatic`, which compares a symbol's number with a slot. -/
def emitSetStatic (key index : Int) : CM Unit :=
  if key = index then pure ()
  else do put (.setGlobal (← operand index) key)

/-- /repo/emitters.c:802-822 `duckLisp_emit_move`. -/
def emitMove (destination source : Int) : CM Unit :=
  if destination = source then pure ()
  else do put (.move (← operand source) (← operand destination))

/-- /repo/emitters.c:889-949 `duckLisp_emit_pushString`: longer strings are cut. -/
def emitPushString (s : Bytes) : CM Unit :=
  emitPush (.pushString ((s.take 65535).length : Nat) (s.take 65535))

/-- /repo/emitters.c:951-1014 `duckLisp_emit_pushSymbol`. -/
def emitPushSymbol (id : Int) (name : Bytes) : CM Unit :=
  emitPush (.pushSymbol id ((name.take 65535).length : Nat) (name.take 65535))

/-- /repo/emitters.c:1016-1081 `duckLisp_emit_pushClosure`. -/
def emitPushClosure (variadic : Bool) (label : Nat) (arity : Nat) (captures : List Int) : CM Unit := do
  let length ← localsLength
  emitPush (.pushClosure variadic label arity
    (captures.map fun c => if 0 ≤ c then (length : Int) - c else c))

/-- /repo/emitters.c:1083-1131 `duckLisp_emit_releaseUpvalues`. -/
def emitReleaseUpvalues (upvalues : List Int) : CM Unit := do
  let length ← localsLength
  let slots := upvalues.filter (fun u => 0 ≤ u)
  if slots = [] then pure ()
  else put (.releaseUpvalues (slots.map fun u => (length : Int) - u))

/-- /repo/emitters.c:1143-1152 `duckLisp_emit_pushIndex`. -/
def emitPushIndex (index : Int) : CM Unit := emitUnary .pushIndex index

/-- /repo/emitters.c:1168-1194 `duckLisp_emit_setUpvalue`. -/
def emitSetUpvalue (upvalue index : Int) : CM Unit := do
  put (.setUpvalue upvalue (← operand index))

/-- /repo/emitters.c:1196-1215 `duckLisp_emit_funcall`: the number of arguments becomes a `dl_uint8_t`. -/
def emitFuncall (index : Int) (arity : Nat) : CM Unit := do
  emitPush (.funcall (← operand index) ((arity % 256 : Nat) : Int))

/-- /repo/emitters.c:1217-1236 `duckLisp_emit_apply`. -/
def emitApply (index : Int) (arity : Nat) : CM Unit := do
  emitPush (.apply (← operand index) ((arity % 256 : Nat) : Int))

/-- The part that /repo/emitters.c:1409-1487 and 1489-1552 share: the number of the label. -/
def labelNumber (name : Bytes) : CM Nat := do
  let l := getLabelFromName name (← get).scopes.current
  if l = -1 then CM.fail .invalidValue else return l.toNat

/-- /repo/emitters.c:1409-1487 `duckLisp_emit_brnz`. -/
def emitBrnz (name : Bytes) (pops : Int) : CM Unit :=
  if pops < 0 then CM.fail .invalidValue
  else do
    put (.brnz (← labelNumber name) pops)
    decrease pops.toNat

/-- /repo/emitters.c:1489-1552 `duckLisp_emit_jump`. -/
def emitJump (name : Bytes) : CM Unit := do put (.jump (← labelNumber name))

/-- /repo/emitters.c:1554-1622 `duckLisp_emit_label`: only the top scope is searched. -/
def emitLabel (name : Bytes) : CM Unit := do
  let sub := (← get).scopes.current
  let top := getTop sub.scopes
  modify fun s => { s with scopes := s.scopes.setCurrent { sub with scopes := top.1 } }
  let l := Trie.find top.2.labels name
  if l = -1 then CM.fail .invalidValue else put (.label l.toNat)

end DuckLisp.Compile
