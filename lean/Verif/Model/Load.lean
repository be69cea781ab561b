import Verif.Model.Reader
import Verif.Model.Compile.Generate
import Verif.Model.Asm.Link

/-!
# Model of /repo/duckLisp.c:2137-2215 `duckLisp_loadString`

Reader, compiler and assembler together.  The disassembly (2190-2203) is not modelled, nor are messages of the compiler.
-/

namespace DuckLisp.Load

open DuckLisp.DlString DuckLisp.Reader DuckLisp.Compile

/-- What is set when a `duckLisp_t` is made: the reader (the name of the file is an argument of `duckLisp_loadString`),
the compiler, the options of the assembler, and the fuel of the model. -/
structure Config where
  reader : Reader.Config
  compiler : Compile.Config
  assembler : Asm.Options
  fuel : Nat

/-- `duckLisp_t`: the state of the reader and that of the compiler. -/
structure State where
  reader : RState
  compiler : CState

/-- Outcome: code or an error, and the state left behind; undefined behaviour; a part of the compiler that is not
modelled; not finished.  An error of the compiler may leave behind any state of the compiler. -/
inductive Out where
  | code (bytes : Bytes) (s : State)
  | unreadable (e : DlError) (s : State)
  | invalid (e : DlError)
  | ub
  | outside
  | timeout

/-- /repo/duckLisp.c:2181-2188, the call of `duckLisp_compileAST` (1213-1330) with a new compilation state. -/
def compileProgram (cfg : Config) (e : Ast) (s : State) : Out :=
  match compileAST cfg.compiler cfg.fuel e s.compiler.renew with
  | .ok () c =>
      match Asm.assemble cfg.assembler c.scopes.runtime.labelNumber c.assembly with
      | .ok bytes => .code bytes { s with compiler := c }
      | .err e => .invalid e
      | .ub => .ub
      | .timeout => .timeout
  | .err e => .invalid e
  | .ub => .ub
  | .outside => .outside
  | .timeout => .timeout

/-- /repo/duckLisp.c:2157-2160: white space is to be skipped, but the loop never repeats, and the length stays what it
was.  So if there is white space the reader is given the text without its first byte and with `beyond`, the byte in memory
after the text. -/
def trim (text : Bytes) (beyond : Byte) : Option Bytes :=
  match text with
  | [] => none
  | c :: rest => some (if isSpace c then rest ++ [beyond] else text)

/-- /repo/duckLisp.c:2137-2215 `duckLisp_loadString`, without parenthesis inference.  It looks at the first byte of the
empty text, which is undefined behaviour. -/
def loadString (cfg : Config) (text : Bytes) (beyond : Byte) (s : State) : Out :=
  match trim text beyond with
  | none => .ub
  | some source =>
      match read cfg.reader source 0 s.reader with
      | .ok e r => compileProgram cfg e { s with reader := r }
      | .err e r => .unreadable e { s with reader := r }
      | .ub => .ub
      | .diverge => .timeout

end DuckLisp.Load
