import Verif.Model.DlFloat

/-!
# Model of /repo/parser.c (the reader)

The text is a byte list and a position in it a `Nat`.  Reading a byte outside the text is undefined
behaviour (`ROut.ub`).  A loop that makes no progress is `ROut.diverge`.  Allocations are assumed to find
memory.  The readers of the single forms are only ever called with `throwErrors` false (parser.c:1448-1460),
so only those error messages are modelled that are logged regardless of it.  The arithmetic of
doubles and the parser actions of the host are parameters.  Parenthesis inference
(`USE_PARENTHESIS_INFERENCE`) is off.
-/

namespace DuckLisp.Reader

open DuckLisp.DlString

/-- /repo/duckLisp.h `duckLisp_ast_compoundExpression_t`.  `garbage` is a float whose value was never
written (parser.c:1067-1072). -/
inductive Ast where
  | bool (b : Bool)
  | float (bits : UInt64)
  | int (i : Int)
  | string (s : Bytes)
  | callback (name : Bytes)
  | identifier (name : Bytes)
  | literal (es : List Ast)
  | expression (es : List Ast)
  | garbage

/-- The parts of `duckLisp_t` the reader changes: the error log and the recursion counter. -/
structure RState where
  errors : Bytes := []
  depth : Nat := 0
deriving DecidableEq, Repr

/-- Outcome of a reader: success or error, with the state left behind; undefined behaviour; no end. -/
inductive ROut (α : Type) where
  | ok (a : α) (s : RState)
  | err (e : DlError) (s : RState)
  | ub
  | diverge

/-- Readers. -/
def R (α : Type) : Type := RState → ROut α

namespace R

/-- Success without effect. -/
protected def pure {α : Type} (a : α) : R α := fun s => .ok a s

/-- `e = f(...); if (e) goto cleanup;` -/
protected def bind {α β : Type} (m : R α) (f : α → R β) : R β := fun s =>
  match m s with
  | .ok a s' => f a s'
  | .err e s' => .err e s'
  | .ub => .ub
  | .diverge => .diverge

instance : Monad R where
  pure := R.pure
  bind := R.bind

/-- A reported error. -/
def throw {α : Type} (e : DlError) : R α := fun s => .err e s

/-- `e = eError ? eError : dl_error_invalidValue` without a message. -/
def invalid {α : Type} : R α := throw .invalidValue

/-- Undefined behaviour. -/
def ub {α : Type} : R α := fun _ => .ub

/-- No end. -/
def diverge {α : Type} : R α := fun _ => .diverge

/-- A conversion function of /repo/DuckLib/string.c. -/
def lift {α : Type} : Res α → R α
  | .ok a => R.pure a
  | .err e => throw e
  | .ub => ub
  | .timeout => diverge

end R

/-- What the reader is given besides the text. -/
structure Config where
  /-- name of the file, for messages -/
  fileName : Bytes
  /-- /repo/duckLisp.h:202 `parser_max_recursion_depth` -/
  maxDepth : Nat
  /-- how the machine calculates with doubles, given by their bits -/
  arith : Arith UInt64
  /-- the parser action of the host for a name, if any -/
  action : Bytes → Option (Ast → R Ast)

/-- The value of a number that is followed by a blank. -/
def valueOf (arith : Arith UInt64) (w : Bytes) : Option UInt64 := (toDouble arith w (some 32)).toOption

/-- The value of a number, for this reader. -/
def Config.toDouble (cfg : Config) : Bytes → Option UInt64 := valueOf cfg.arith

/-- `source[i]`. -/
def byteAt (src : Bytes) (i : Nat) : R Byte :=
  match src[i]? with
  | some b => pure b
  | none => R.ub

/-- `while (i < source_length && p(source[i])) i++`. -/
def skip (p : Byte → Bool) (src : Bytes) (i : Nat) : Nat := i + ((src.drop i).takeWhile p).length

/-- The bytes from `i` up to `j`. -/
def slice (src : Bytes) (i j : Nat) : Bytes := (src.drop i).take (j - i)

/-- /repo/parser.c:32-113 `duckLisp_error_pushSyntax` with `throwErrors` true.  The loop that looks for
the line (58-67) counts with an unsigned upper bound, so with a negative `start` it leaves the text. -/
def pushSyntax (cfg : Config) (src : Bytes) (message : String) (start stop : Int) : R Unit := fun s =>
  if start < 0 ∨ (src.length : Int) < start then .ub
  else
    let before := src.take start.toNat
    let line := 1 + before.count 10
    let startColumn := (before.reverse.takeWhile (· != 10)).length
    let column0 := start.toNat - startColumn
    let endColumn := startColumn + ((src.drop start.toNat).takeWhile (· != 10)).length
    let log := if s.errors.length > 0 then s.errors ++ [10] else s.errors
    let log := log ++ cfg.fileName ++ [58]
    let log := fromPtrdiff log line ++ [58]
    let log := fromPtrdiff log startColumn ++ [10]
    let log := log ++ ascii message ++ [10] ++ (src.drop column0).take endColumn ++ [10]
    let log := log ++ List.replicate startColumn 32
    let log := log ++ (if stop = -1 then [94] else List.replicate (stop - start).toNat 94)
    .ok () { s with errors := log }

/-- /repo/parser.c:128-139 `isIdentifierSymbol`. -/
def isIdentifierSymbol (c : Byte) : Bool :=
  if isSpace c then false else !(c = 34 || c = 40 || c = 41 || c = 59)

/-- /repo/DuckLib/string.c:14-16 `dl_string_isAlpha`. -/
def isAlpha (c : Byte) : Bool := (97 ≤ c && c ≤ 122) || (65 ≤ c && c ≤ 90)

/-- /repo/DuckLib/string.h:31 `dl_string_toLower`. -/
def toLower (c : Byte) : Byte := if 65 ≤ c && c ≤ 90 then c - 65 + 97 else c

/-- /repo/parser.c:142-166 `parse_comment`: where the comment ends, if there is one. -/
def parseComment (src : Bytes) (i : Nat) : R (Option Nat) := do
  if (← byteAt src i) ≠ 59 then return none
  else return some (skip (fun c => c != 13 && c != 10) src i)

/-- /repo/parser.c:183 `while (dl_string_isSpace(source[indexCopy])) indexCopy++;`, which does not look
for the end of the text. -/
def skipSpaces (src : Bytes) (i : Nat) : R Nat :=
  if skip isSpace src i < src.length then pure (skip isSpace src i) else R.ub

/-- The loop of /repo/parser.c:179-186; the result is `none` if it ends with an error. -/
def irrelevantLoop (src : Bytes) : Nat → Nat → R (Option Nat)
  | 0, _ => R.diverge
  | fuel + 1, i =>
    if src.length ≤ i then pure none
    else do
      let j ← skipSpaces src i
      match ← parseComment src j with
      | none => return some j
      | some k => irrelevantLoop src fuel k

/-- /repo/parser.c:168-190 `parse_irrelevant`, as it is called: errors are ignored, and leave the position
as it was. -/
def irrelevant (src : Bytes) (i : Nat) : R Nat := do
  match ← irrelevantLoop src (src.length + 1) i with
  | some j => return j
  | none => return i

/-- /repo/parser.c:663-762 `parse_bool`. -/
def parseBool (src : Bytes) (i : Nat) : R (Ast × Nat) := do
  if src.length ≤ i + 4 then R.invalid
  else
    let stop ← do
      if ← R.lift (comparePartial (src.drop i) [116, 114, 117, 101] 4) then pure (i + 4)
      else if src.length ≤ i + 5 then R.invalid
      else if ← R.lift (comparePartial (src.drop i) [102, 97, 108, 115, 101] 5) then pure (i + 5)
      else R.invalid
    let b ← R.lift (toBool (slice src i stop))
    return (.bool b, stop)

/-- The optional minus sign, /repo/parser.c:804-821 and 948-965. -/
def parseSign (src : Bytes) (i : Nat) : R Nat := do
  if src.length ≤ i then R.invalid
  else if (← byteAt src i) = 45 then
    if src.length ≤ i + 1 then R.invalid else pure (i + 1)
  else pure i

/-- /repo/parser.c:778-895 `parse_int`. -/
def parseInt (src : Bytes) (i : Nat) : R (Ast × Nat) := do
  let j ← parseSign src i
  let c ← byteAt src j
  if !isDigit c then R.invalid
  else
    let (hex, k) ← do                                                        -- 839-862
      if j + 1 < src.length then
        let x ← byteAt src (j + 1)
        if c = 48 && (x = 120 || x = 88) then
          if isHexDigit (← byteAt src (j + 2)) then pure (true, j + 3) else R.invalid
        else pure (false, j + 1)
      else pure (false, j + 1)
    let stop := skip isIdentifierSymbol src k                                -- 864-877
    if (slice src k stop).all (if hex then isHexDigit else isDigit) then
      match toPtrdiff (slice src i stop) with                                -- 880-892
      | .ok n => return (.int n, stop)
      | .err _ => R.invalid
      | .ub => R.ub
      | .timeout => R.diverge
    else R.invalid

/-- The part of a float before its exponent, /repo/parser.c:968-1086: where it ends and whether it has a
decimal point.  `none` is the exit at 1067-1072. -/
def parseMantissa (src : Bytes) (j : Nat) : R (Option (Nat × Bool)) := do
  let c ← byteAt src j
  if c = 46 then
    if src.length ≤ j + 1 then R.invalid
    else if !isDigit (← byteAt src (j + 1)) then R.invalid
    else return some (skip (fun c => isIdentifierSymbol c && toLower c != 101 && isDigit c) src (j + 2), true)
  else if !isDigit c then R.invalid
  else
    let k := skip (fun c => isIdentifierSymbol c && toLower c != 101 && c != 46 && isDigit c) src (j + 1)
    if (← byteAt src k) = 46 then
      if src.length ≤ k + 1 then return none
      else return some (skip (fun c => isIdentifierSymbol c && toLower c != 101 && isDigit c) src (k + 1), true)
    else return some (skip (fun c => isIdentifierSymbol c && toLower c != 101 && isDigit c) src k, false)

/-- The exponent, /repo/parser.c:1088-1146: where it ends and whether it is there. -/
def parseExponent (src : Bytes) (k : Nat) : R (Nat × Bool) := do
  if toLower (← byteAt src k) = 101 then
    if src.length ≤ k + 1 then R.invalid
    else
      let k ← do
        if (← byteAt src (k + 1)) = 45 then
          if src.length ≤ k + 2 then R.invalid else pure (k + 2)
        else pure (k + 1)
      if !isDigit (← byteAt src k) then R.invalid
      else return (skip (fun c => isIdentifierSymbol c && isDigit c) src (k + 1), true)
  else return (k, false)

/-- /repo/parser.c:907-1150 `parse_float`. -/
def parseFloat (cfg : Config) (src : Bytes) (i : Nat) : R (Ast × Nat) := do
  let j ← parseSign src i
  match ← parseMantissa src j with
  | none => return (.garbage, i)
  | some (k, point) =>
    let (stop, exponent) ← parseExponent src k
    if !(point || exponent) then R.invalid
    else match toDouble cfg.arith (slice src i stop) src[stop]? with
      | .ok bits => return (.float bits, stop)
      | .err _ => R.invalid
      | .ub => R.ub
      | .timeout => R.diverge

/-- /repo/parser.c:1203-1230, the search for the closing quote: how many bytes it goes over.  `none`: the
text ends after a backslash. -/
def scanString : Bytes → Nat → Option Nat
  | [], n => some n
  | [c], n => if c = 92 then none else some (n + 1)
  | c :: d :: cs, n =>
    if c = 92 then scanString cs (n + 2)
    else if c = 34 then some (n + 1)
    else scanString (d :: cs) (n + 1)

/-- /repo/parser.c:1280-1296, the copy of the contents; the flag is `escape`.  The length recorded
(1278, 1290) is that of the copy. -/
def decode : Bool → Bytes → Bytes
  | _, [] => []
  | true, c :: cs => (if c = 110 then 10 else c) :: decode false cs
  | false, c :: cs => if c = 92 then decode true cs else c :: decode false cs

/-- /repo/parser.c:1173-1304 `parse_string`. -/
def parseString (cfg : Config) (src : Bytes) (i : Nat) : R (Ast × Nat) := do
  if src.length ≤ i then R.invalid
  else if (← byteAt src i) = 34 then
    match scanString (src.drop (i + 1)) 0 with
    | none => R.invalid
    | some n =>
      let stop := i + 1 + n
      if src.length ≤ stop then do
        pushSyntax cfg src "String missing closing quote." i (-1)
        R.invalid
      else return (.string (decode false (slice src (i + 1) (stop - 1))), stop)
  else R.invalid

/-- /repo/parser.c:578-650 `parse_callback`. -/
def parseCallback (src : Bytes) (i : Nat) : R (Ast × Nat) := do
  if src.length ≤ i then R.invalid
  else if (← byteAt src i) ≠ 35 then R.invalid
  else
    let stop := skip (fun c => isAlpha c || isDigit c || isIdentifierSymbol c) src (i + 1)
    return (.callback (slice src (i + 1) stop), stop)

/-- /repo/parser.c:503-575 `parse_identifier`. -/
def parseIdentifier (src : Bytes) (i : Nat) : R (Ast × Nat) := do
  if src.length ≤ i then R.invalid
  else if !isIdentifierSymbol (← byteAt src i) then R.invalid
  else
    let stop := skip isIdentifierSymbol src (i + 1)
    return (.identifier (slice src i stop), stop)

/-- The loop over the elements of an expression, /repo/parser.c:293-347 and 394-447. -/
def elements (cfg : Config) (src : Bytes) (compound : Nat → R (Ast × Nat)) :
    Nat → Nat → List Ast → R (List Ast × Nat)
  | 0, _, _ => R.diverge
  | fuel + 1, i, es =>
    if src.length ≤ i then do
      pushSyntax cfg src "Unmatched parenthesis." (-1) (-1)
      R.invalid
    else do
      if (← byteAt src i) = 41 then return (es, i + 1)
      else
        let (e, j) ← compound i
        let k ← irrelevant src j
        elements cfg src compound fuel k (es ++ [e])

/-- /repo/parser.c:214-353 `parse_literalExpression`. -/
def parseLiteral (cfg : Config) (src : Bytes) (compound : Nat → R (Ast × Nat)) (i : Nat) : R (Ast × Nat) := do
  if src.length ≤ i + 3 then R.invalid
  else if (← byteAt src i) ≠ 35 then R.invalid
  else if (← byteAt src (i + 1)) ≠ 40 then R.invalid
  else
    let (es, j) ← elements cfg src compound (src.length + 1) (i + 2) []
    return (.literal es, j)

/-- /repo/parser.c:355-455 `parse_expression`. -/
def parseExpression (cfg : Config) (src : Bytes) (compound : Nat → R (Ast × Nat)) (i : Nat) : R (Ast × Nat) := do
  if src.length ≤ i then R.invalid
  else if (← byteAt src i) ≠ 40 then do
    pushSyntax cfg src "Unbalanced parenthesis." i i
    R.invalid
  else if src.length ≤ i + 1 then R.invalid
  else
    let (es, j) ← elements cfg src compound (src.length + 1) (i + 1) []
    return (.expression es, j)

/-- The loop of /repo/parser.c:1444-1476 over the readers: the next one is tried if one fails with
`invalidValue`. -/
def orElse {α : Type} (m next : R α) : R α := fun s =>
  match m s with
  | .err .invalidValue s' => next s'
  | r => r

/-- /repo/parser.c:1350-1378 `runAction`. -/
def runAction (cfg : Config) (e : Ast) : R Ast :=
  match e with
  | .expression (.identifier name :: _) | .expression (.callback name :: _)
  | .literal (.identifier name :: _) | .literal (.callback name :: _) =>
      match cfg.action name with
      | some f => f e
      | none => pure e
  | _ => pure e

/-- /repo/parser.c:1428-1443 and 1478-1480: the recursion counter around `m`. -/
def counted {α : Type} (cfg : Config) (src : Bytes) (i : Nat) (m : R α) : R α := fun s =>
  let s1 := { s with depth := s.depth + 1 }
  let run : R α := if cfg.maxDepth ≤ s1.depth then do
      pushSyntax cfg src "Max expression recursion depth met." i i
      R.throw .bufferOverflow
    else m
  match run s1 with
  | .ok a s' => .ok a { s' with depth := s'.depth - 1 }
  | .err e s' => .err e { s' with depth := s'.depth - 1 }
  | .ub => .ub
  | .diverge => .diverge

/-- /repo/parser.c:1380-1482 `duckLisp_parse_compoundExpression`.  The first argument bounds the nesting of
calls, which the recursion counter does as well. -/
def compound (cfg : Config) (src : Bytes) : Nat → Nat → R (Ast × Nat)
  | 0, _ => R.diverge
  | n + 1, i => counted cfg src i do
      let j ← irrelevant src i
      let (e, k) ← orElse (parseBool src j) <| orElse (parseFloat cfg src j) <| orElse (parseInt src j) <|
        orElse (parseString cfg src j) <| orElse (parseLiteral cfg src (compound cfg src n) j) <|
        orElse (parseCallback src j) <| orElse (parseIdentifier src j) <|
        parseExpression cfg src (compound cfg src n) j
      let e ← runAction cfg e
      return (e, k)

mutual
/-- /repo/parser.c:1485-1498 `parser_postprocess_compoundExpression`. -/
def postprocess : Ast → Ast
  | .callback name => .identifier name
  | .literal es => .expression (postprocessAll es)
  | .expression es => .expression (postprocessAll es)
  | e => e
/-- Its loop. -/
def postprocessAll : List Ast → List Ast
  | [] => []
  | e :: es => postprocess e :: postprocessAll es
end

/-- /repo/parser.c:1501-1546 `duckLisp_read`. -/
def read (cfg : Config) (src : Bytes) (i : Nat) : R Ast := fun s =>
  match compound cfg src (cfg.maxDepth + 1) i { s with depth := 0 } with
  | .ok (e, _) s' => .ok (postprocess e) s'
  | .err e s' => .err e s'
  | .ub => .ub
  | .diverge => .diverge

end DuckLisp.Reader
