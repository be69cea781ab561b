import Verif.Model.AstObj
import Verif.Model.VM.Api

/-!
# The host functions that come with the language

Models /repo/duckLisp.c:1406-1598, the functions `gensym`, `intern` and `read` that programs call
(registered at duckLisp.c:1916-1918), in a build without parenthesis inference.

Simplifications: `malloc` succeeds, freeing memory does too (as the system's `free` does; DuckLib's reports an error
for the null pointer that stands for an empty text), and the runtime error log is left out.  The names that `read`
enters into the symbol table before memory runs out are left out.
-/

namespace DuckLisp.Callbacks

open DuckLisp DuckLisp.VM

/-- The parts of `duckLisp_t` these functions use: the symbol table, the counter of generated names and
the parts the reader changes. -/
structure Lisp where
  symbols : Tables.Symbols
  counter : UInt64
  reader : Reader.RState

/-- `dl_error_t`, /repo/DuckLib/core.h:58-68, as a number. -/
def errorNumber : DlError → Int
  | .invalidValue => 1
  | .bufferUnderflow => 2
  | .bufferOverflow => 3
  | .nullPointer => 4
  | .danglingPointer => 5
  | .outOfMemory => 6
  | .shouldntHappen => 7
  | .cantHappen => 8

/-- /repo/duckLisp.c:1406-1430 `duckLisp_callback_gensym`. -/
def gensym (l : Lisp) (vm : VM) : Lisp × Out Unit :=
  let g := Tables.gensym l.counter
  let t := (Tables.create .enough l.symbols g.1).1
  ({ l with symbols := t, counter := g.2 }, apiPushSymbol (Tables.nameToValue t g.1).toNat g.1 vm)

/-- /repo/duckLisp.c:1449-1470, what `duckLisp_callback_intern` does with a string: the result of freeing
the copy of the string replaces every error. -/
def internString (l : Lisp) (vm : VM) : Lisp × Out Unit :=
  match apiCopyString vm with
  | .ok s vm =>
      match apiPop vm with
      | .ok _ vm =>
          let t := (Tables.create .enough l.symbols s).1
          ({ l with symbols := t },
            match apiPushSymbol (Tables.nameToValue t s).toNat s vm with
            | .err _ vm => .ok () vm
            | out => out)
      | .err _ vm => (l, .ok () vm)
      | .ub => (l, .ub)
      | .diverge => (l, .diverge)
  | .err _ vm => (l, .ok () vm)
  | .ub => (l, .ub)
  | .diverge => (l, .diverge)

/-- /repo/duckLisp.c:1432-1473 `duckLisp_callback_intern`. -/
def intern (l : Lisp) (vm : VM) : Lisp × Out Unit :=
  match apiTypeOf vm with
  | .ok type vm => if type ≠ 4 then (l, .err .invalidValue vm) else internString l vm
  | .err e vm => (l, .err e vm)
  | .ub => (l, .ub)
  | .diverge => (l, .diverge)

/-- /repo/duckLisp.c:1566-1589: the pair of the tree and the status is made and left on the stack. -/
def pushResult (object : Obj) (status : Int) : M Unit := do
  apiPushCons
  apiPushInteger
  apiSetInteger status
  apiSetRest (-2)
  apiPop
  push object
  apiSetFirst (-2)
  apiPop

/-- /repo/duckLisp.c:1531-1589: the text is read and the result pushed. -/
def readText (cfg : Reader.Config) (l : Lisp) (text : Bytes) (vm : VM) : Lisp × Out Unit :=
  match Reader.read cfg text 0 l.reader with
  | .ok e rs =>
      match AstObj.astToObject e l.symbols vm with
      | .ok (o, t) vm => ({ l with symbols := t, reader := rs }, pushResult o 0 vm)
      | .err er vm => ({ l with reader := rs }, .err er vm)
      | .ub => (l, .ub)
      | .diverge => (l, .diverge)
  | .err er rs => ({ l with reader := rs }, pushResult (.list none) (errorNumber er) vm)
  | .ub => (l, .ub)
  | .diverge => (l, .diverge)

/-- What follows uses the result although there is an error: it was never written. -/
def unchecked {α : Type} (m : M α) : M α := fun vm =>
  match m vm with
  | .err _ _ => .ub
  | out => out

/-- /repo/duckLisp.c:1485-1529 with the arguments looked at: the boolean is popped and must be false, the string
is copied and popped.  If nothing is left after the boolean, the type that is compared at 1514 was never
written. -/
def readArguments : M Bytes := do
  if (← apiTypeOf) = 1 then
    let boolean ← apiCopyBoolean
    apiPop
    if boolean = 0 then
      if (← unchecked apiTypeOf) = 4 then
        let text ← apiCopyString
        apiPop
        return text
      else M.throw .invalidValue
    else M.throw .invalidValue
  else M.throw .invalidValue

/-- /repo/duckLisp.c:1475-1598 `duckLisp_callback_read`. -/
def read (cfg : Reader.Config) (l : Lisp) (vm : VM) : Lisp × Out Unit :=
  match readArguments vm with
  | .ok text vm => readText cfg l text vm
  | .err e vm => (l, .err e vm)
  | .ub => (l, .ub)
  | .diverge => (l, .diverge)

end DuckLisp.Callbacks
