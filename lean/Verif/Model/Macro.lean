import Verif.Model.Load
import Verif.Model.AstObj
import Verif.Model.VM.Api

/-!
# Model of macros and compile-time code

The compiler has a machine of its own, which runs code while a program is compiled: the arguments of `comptime`, the
functions of macros when they are defined, and calls of them.  Model/Compile/Generate.lean is the compiler without that
(`CM.outside`); this file has the three generators and the compiler with them, which uses all other generators as they
are.

Simplifications: what the machine reports is not modelled (/repo/generators.c:1267-1272, 1388-1393 and 3679-3684 move
its messages to those of the compiler); disassemblies are not saved.  An error ends the compilation of the program, and
the states it leaves behind are not modelled.
-/

namespace DuckLisp.Macro

open DuckLisp.Asm DuckLisp.Reader DuckLisp.Compile

/-- What is set when a `duckLisp_t` is made: the functions of the host that the machine knows, and the options with
which the assembler was built.  The code for the machine keeps the names of symbols (`dl_false` at
/repo/generators.c:1244, 1366 and 3659). -/
structure Setting where
  env : VM.Env
  pushPops : Bool := true
  jumps : Bool := true

/-- The options of the assembler for the code of the machine. -/
def Setting.options (c : Setting) : Options := { pushPops := c.pushPops, jumps := c.jumps, strip := false }

/-- An operation of the machine of the compiler. -/
def machine {α : Type} (m : VM.M α) : CM α := fun s =>
  match m s.machine with
  | .ok a vm => .ok a { s with machine := vm }
  | .err e _ => .err e
  | .ub => .ub
  | .diverge => .timeout

/-- A part of the compiler that leaves its state alone. -/
def result {α : Type} (r : Res α) : CM α := fun s =>
  match r with
  | .ok a => .ok a s
  | .err e => .err e
  | .ub => .ub
  | .timeout => .timeout

/-- The byte of the instruction `halt`, which is put after the code (/repo/generators.c:1247, 1369 and 3662). -/
def halt : Byte := 165

/-- /repo/generators.c:1240-1248, 1362-1370 and 3659-3663: the code for the machine. -/
def assembled (c : Setting) (code : List Ins) : CM Bytes := do
  let bytes ← result (assemble c.options (← get).scopes.current.labelNumber code)
  return bytes ++ [halt]

/-- `DL_ARRAY_GETTOPADDRESS(duckLisp->vm.stack, duckVM_object_t)` reads before the start of an empty array. -/
def top : CM VM.Obj := fun s =>
  match s.machine.stack.getLast? with
  | some o => .ok o s
  | none => .ub

/-- /repo/generators.c:1265-1273: the code is run, and the value on top of the stack is read before it is known
whether there was an error. -/
def runForValue (c : Setting) (n : Nat) (bytes : Bytes) : CM VM.Obj := fun s =>
  match VM.execute c.env n bytes s.machine with
  | .ok () vm => top { s with machine := vm }
  | .err e vm => if vm.stack = [] then .ub else .err e
  | .ub => .ub
  | .diverge => .timeout

/-- `compileState->currentCompileState = &compileState->comptimeCompileState`, with `array` for what is compiled next:
`none` is the `assembly` of the sub-state.  That is empty unless it is the current one already: it is emptied each time
its code has been run (/repo/generators.c:1250-1252 and 1372-1374). -/
def enter (array : Option (List Ins)) : CM Unit := modify fun s =>
  { s with
    scopes := { s.scopes with inComptime := true }
    assembly := if s.scopes.inComptime then s.assembly else []
    body := array }

/-- `compileState->currentCompileState = lastSubCompileState`, and the array that the generator was given. -/
def leave (last : CState) : CM Unit := modify fun s =>
  { s with
    scopes := { s.scopes with inComptime := last.scopes.inComptime }
    assembly := last.assembly
    body := last.body }

/-- /repo/generators.c:1200-1309 `duckLisp_generator_comptime`.  Functions in the forms are compiled to the array of the
sub-state, all else to `compAssembly`, which is put after them (1234-1237). -/
def genComptime (c : Setting) (r : Rec) (n : Nat) (es : List Ast) : CM Unit := do
  let last ← get
  if last.scopes.inComptime then noscope r n es.tail
  else do
    enter (some [])
    noscope r n es.tail
    let code := (← get).assembly ++ (← get).body.getD []
    let o ← runForValue c n (← assembled c code)
    let tree ← result (AstObj.objectToAST (← get).machine false n o)
    machine VM.apiPop
    decrease 1
    leave last
    let _ ← r.compound tree true

/-- /repo/duckLisp.c:2288-2320 `duckLisp_addInterpretedGenerator`. -/
def addMacro (name : Bytes) : CM Unit := modify fun s => { s with scopes := addInterpretedGenerator name s.scopes }

/-- /repo/generators.c:1311-1428 `duckLisp_generator_defmacro`: the function is left on the stack of the machine. -/
def genDefmacro (c : Setting) (r : Rec) (n : Nat) (es : List Ast) : CM Unit := do
  checkArgs es 4 true
  match es with
  | _ :: .identifier name :: .expression _ :: _ => do
      let last ← get
      if last.scopes.inComptime then CM.fail .invalidValue
      else do
        enter none
        genDefun r es
        let code := (← get).assembly
        machine (VM.execute c.env n (← assembled c code))
        addMacro name
        leave last
        emitNil
        addMacro name
  | _ => CM.fail .invalidValue

/-- /repo/generators.c:3607-3612: an argument of a macro is quoted. -/
def quotation (e : Ast) : Ast := .expression [.identifier (ascii "__quote"), e]

/-- /repo/generators.c:3577-3655: the code of the call of the function of the macro, with the arguments as they are
written.  The number of values on the stack is taken from the machine. -/
def callCode (r : Rec) (name : Bytes) (arguments : List Ast) : CM (List Ins) := do
  setLocalsLength (← get).machine.stack.length
  let index := getMacroFromName name (← get).scopes.current
  genArguments r (arguments.map quotation)
  emitFuncall index arguments.length
  return (← get).body.getD []

/-- /repo/generators.c:3558-3722, the part of `duckLisp_generator_macro` before the expansion is compiled: the result of
the call is the expansion. -/
def expand (c : Setting) (r : Rec) (n : Nat) (name : Bytes) (arguments : List Ast) : CM Ast := do
  let last ← get
  enter (some [])
  let length ← localsLength
  let code ← callCode r name arguments
  machine (VM.execute c.env n (← assembled c code))
  let o ← top
  let tree ← result (AstObj.objectToAST (← get).machine true n o)
  machine VM.apiPop
  setLocalsLength length
  leave last
  return tree

/-- /repo/generators.c:3542-3742 `duckLisp_generator_macro`: the expansion is compiled in place of the call.  If it is an
expression, it also replaces the call in the tree (3726-3733). -/
def genMacro (c : Setting) (r : Rec) (n : Nat) (name : Bytes) (arguments : List Ast) : CM (Option Int) := do
  let tree ← expand c r n name arguments
  let index ← r.compound tree false
  modify fun s => { s with
    expansion := match tree with
      | .expression es => some (s.expansion.getD es)
      | _ => none }
  return index

/-- Nothing was replaced. -/
def keep : CM Unit := modify fun s => { s with expansion := none }

/-- The generator for a form. -/
def generate (c : Setting) (r : Rec) (n : Nat) (es : List Ast) : Gen → CM Unit
  | .defmacro => genDefmacro c r n es
  | .comptime => genComptime c r n es
  | g => Compile.generate r n es g

/-- /repo/duckLisp.c:1124-1170: a form whose head is a name. -/
def dispatch (cfg : Compile.Config) (c : Setting) (r : Rec) (n : Nat) (name : Bytes) (arguments : List Ast) :
    CM (Option Int) := do
  let t := functionType name (← get).scopes.current
  if t = functionTypeMacro then genMacro c r n name arguments
  else do
    if t = functionTypeDucklisp then genCall r name arguments
    else if t ≠ -1 then pure ()
    else if Trie.find cfg.callbacks name ≠ -1 then genCallback r name arguments
    else
      match generator name with
      | some g => generate c r n (.identifier name :: arguments) g
      | none => genCall r name arguments
    keep
    return none

/-- The tree as its compilation has left it. -/
def replaced (e : Ast) : CM Ast := fun s => .ok (match s.expansion with | some es => .expression es | none => e) s

mutual
/-- /repo/duckLisp.c:903-1078 `duckLisp_compile_compoundExpression`: the result is `*index`, or `none` if it is
left alone. -/
def compound (cfg : Compile.Config) (c : Setting) : Nat → Nat → Ast → Bool → CM (Option Int)
  | 0, _, _, _ => CM.timeout
  | n + 1, depth, e, pushReference =>
    if depth + 1 ≥ cfg.maxDepth then CM.fail .bufferOverflow
    else
      match e with
      | .expression es => do
          match ← expression cfg c n (depth + 1) es with
          | some index => return some index
          | none => return some ((← localsLength) - 1)
      | e => do
          let index ← Compile.compound cfg (n + 1) depth e pushReference
          keep
          return index
/-- /repo/duckLisp.c:1085-1185 `duckLisp_compile_expression`: the result is `*index`, or `none` if it is left alone. -/
def expression (cfg : Compile.Config) (c : Setting) : Nat → Nat → List Ast → CM (Option Int)
  | 0, _, _ => CM.timeout
  | n + 1, depth, es =>
    let r : Rec := ⟨compound cfg c n depth, fun es => do let _ ← expression cfg c n depth es, replaced⟩
    match es with
    | .identifier name :: arguments => dispatch cfg c r n name arguments
    | [] => do
        emitNil
        keep
        return none
    | .bool _ :: _ | .int _ :: _ | .float _ :: _ | .string _ :: _ | .expression _ :: _ => do
        genExpression r n es
        keep
        return none
    | _ => do
        keep
        return none
end

/-- /repo/duckLisp.c:1234-1262, the part of `duckLisp_compileAST` before `duckLisp_assemble`. -/
def compileAST (cfg : Compile.Config) (c : Setting) (n : Nat) (e : Ast) : CM Unit := do
  modify fun s => { s with scopes := s.scopes.setCurrent { s.scopes.current with labelNumber := 0 } }
  let _ ← compound cfg c n 0 e true
  let length ← localsLength
  if length > 1 then do
    emitMove (length - 2 : Int) (length - 1 : Int)
    emitPop 1
  else pure ()
  emitExit

/-- /repo/duckLisp.c:2181-2188, the call of `duckLisp_compileAST` (1213-1330) with a new compilation state.  The machine
is that of the compiler and stays as it is. -/
def compileProgram (cfg : Load.Config) (c : Setting) (e : Ast) (s : Load.State) : Load.Out :=
  match compileAST cfg.compiler c cfg.fuel e s.compiler.renew with
  | .ok () compiler =>
      match Asm.assemble cfg.assembler compiler.scopes.runtime.labelNumber compiler.assembly with
      | .ok bytes => .code bytes { s with compiler }
      | .err e => .invalid e
      | .ub => .ub
      | .timeout => .timeout
  | .err e => .invalid e
  | .ub => .ub
  | .outside => .outside
  | .timeout => .timeout

/-- /repo/duckLisp.c:2137-2215 `duckLisp_loadString`, with macros and compile-time code. -/
def loadString (cfg : Load.Config) (c : Setting) (text : Bytes) (beyond : Byte) (s : Load.State) : Load.Out :=
  match Load.trim text beyond with
  | none => .ub
  | some source =>
      match read cfg.reader source 0 s.reader with
      | .ok e r => compileProgram cfg c e { s with reader := r }
      | .err e r => .unreadable e { s with reader := r }
      | .ub => .ub
      | .diverge => .timeout

end DuckLisp.Macro
