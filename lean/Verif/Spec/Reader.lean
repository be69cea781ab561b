import Verif.Model.Reader
import Verif.Spec.Numeral

/-!
# Specification: how programs are written

Which texts denote which syntax trees, stated without reference to the reader.  The only thing taken from
the model is the type of syntax trees.
-/

namespace DuckLisp.Spec

open DuckLisp.Reader (Ast)

/-- White space: blank, tab, line breaks, and all other control characters. -/
def blank (c : Byte) : Bool := c ≤ 32

/-- What separates names and numbers from what follows them: white space, `"`, `(`, `)`, `;`. -/
def delimiter (c : Byte) : Bool := blank c || c = 34 || c = 40 || c = 41 || c = 59

/-- `0` to `9`. -/
def decimal (c : Byte) : Bool := 48 ≤ c && c ≤ 57

/-- White space and comments; a comment is a semicolon, anything without a line break, a line break. -/
inductive Sep : Bytes → Prop
  | nil : Sep []
  | blank (c : Byte) {s : Bytes} (hc : blank c = true) (hs : Sep s) : Sep (c :: s)
  | comment (body : Bytes) (c : Byte) {s : Bytes} (hb : ∀ b ∈ body, b ≠ 10 ∧ b ≠ 13)
      (hc : c = 10 ∨ c = 13) (hs : Sep s) : Sep (59 :: (body ++ c :: s))

/-- What is written between the quotes of a string, and the bytes it stands for. -/
inductive StringBody : Bytes → Bytes → Prop
  | nil : StringBody [] []
  | plain (c : Byte) {raw s : Bytes} (h1 : c ≠ 34) (h2 : c ≠ 92) (h : StringBody raw s) :
      StringBody (c :: raw) (c :: s)
  | newline {raw s : Bytes} (h : StringBody raw s) : StringBody (92 :: 110 :: raw) (10 :: s)
  | escape (c : Byte) {raw s : Bytes} (h1 : c ≠ 110) (h : StringBody raw s) :
      StringBody (92 :: c :: raw) (c :: s)

/-- Integers are written as numerals; `0x` needs a digit after it. -/
def IntText (w : Bytes) (n : Int) : Prop :=
  Numeral w n ∧ ∀ x, (x = 120 ∨ x = 88) → w ≠ [48, x] ∧ w ≠ [45, 48, x]

/-- Digits with or without a decimal point; the flag tells whether there is a point. -/
inductive Mantissa : Bytes → Bool → Prop
  | whole (ds : Bytes) (hne : ds ≠ []) (hd : ∀ c ∈ ds, decimal c = true) : Mantissa ds false
  | point (ds fs : Bytes) (hne : ds ≠ []) (hd : ∀ c ∈ ds, decimal c = true)
      (hf : ∀ c ∈ fs, decimal c = true) : Mantissa (ds ++ 46 :: fs) true
  | fraction (fs : Bytes) (hne : fs ≠ []) (hf : ∀ c ∈ fs, decimal c = true) : Mantissa (46 :: fs) true

/-- An exponent, or nothing; the flag tells which. -/
inductive Exponent : Bytes → Bool → Prop
  | none : Exponent [] false
  | pos (e : Byte) (ds : Bytes) (he : e = 101 ∨ e = 69) (hne : ds ≠ [])
      (hd : ∀ c ∈ ds, decimal c = true) : Exponent (e :: ds) true
  | neg (e : Byte) (ds : Bytes) (he : e = 101 ∨ e = 69) (hne : ds ≠ [])
      (hd : ∀ c ∈ ds, decimal c = true) : Exponent (e :: 45 :: ds) true

/-- Floating point numbers: a sign, digits, an exponent, with at least a point or an exponent. -/
def FloatText (w : Bytes) : Prop :=
  ∃ sign m x a b, (sign = [] ∨ sign = [45]) ∧ Mantissa m a ∧ Exponent x b ∧ (a || b) = true ∧
    w = sign ++ (m ++ x)

/-- Names: not empty, no delimiters, and not to be taken for something else. -/
structure Name (w : Bytes) : Prop where
  nonempty : w ≠ []
  symbols : ∀ c ∈ w, delimiter c = false
  no_hash : w.head? ≠ some 35
  no_true : ¬ [116, 114, 117, 101] <+: w
  no_false : ¬ [102, 97, 108, 115, 101] <+: w
  no_float : ∀ p, p <+: w → ¬ FloatText p
  no_int : ∀ n, ¬ IntText w n

/-- Forms whose own last character ends them. -/
def closed : Ast → Bool
  | .string _ => true
  | .literal _ => true
  | .expression _ => true
  | _ => false

/-- `r` may come right after the form `e` inside an expression (the empty `r` being followed by the closing
parenthesis). -/
def Apart (e : Ast) (r : Bytes) : Prop :=
  closed e = true ∨ r = [] ∨ ∃ c t, r = c :: t ∧ delimiter c = true

variable (toDouble : Bytes → Option UInt64)

mutual
/-- `Written e w`: the text `w` denotes the tree `e`.  `toDouble` gives the value of floating point
numerals. -/
inductive Written : Ast → Bytes → Prop
  | true : Written (.bool true) [116, 114, 117, 101]
  | false : Written (.bool false) [102, 97, 108, 115, 101]
  | int {n : Int} {w : Bytes} (h : IntText w n) (hr : n.natAbs < 2 ^ 63) : Written (.int n) w
  | float {x : UInt64} {w : Bytes} (h : FloatText w) (hx : toDouble w = some x) : Written (.float x) w
  | string {s raw : Bytes} (h : StringBody raw s) : Written (.string s) (34 :: (raw ++ [34]))
  | identifier {w : Bytes} (h : Name w) : Written (.identifier w) w
  | callback {w : Bytes} (hne : w ≠ []) (h : ∀ c ∈ w, delimiter c = Bool.false) : Written (.callback w) (35 :: w)
  | empty : Written (.expression []) [40, 41]
  | expression {e : Ast} {es : List Ast} {body : Bytes} (h : Row (e :: es) body) :
      Written (.expression (e :: es)) (40 :: (body ++ [41]))
  | emptyLiteral : Written (.literal []) [35, 40, 41]
  | literal {e : Ast} {es : List Ast} {body : Bytes} (h : Row (e :: es) body) :
      Written (.literal (e :: es)) (35 :: 40 :: (body ++ [41]))
/-- A row of forms with white space and comments around them. -/
inductive Row : List Ast → Bytes → Prop
  | nil {s : Bytes} (hs : Sep s) : Row [] s
  | cons {e : Ast} {es : List Ast} {s w r : Bytes} (hs : Sep s) (hw : Written e w) (ha : Apart e r)
      (hr : Row es r) : Row (e :: es) (s ++ (w ++ r))
end

mutual
/-- How deeply a tree is nested. -/
def height : Ast → Nat
  | .literal es => heightAll es + 1
  | .expression es => heightAll es + 1
  | _ => 1
/-- The deepest nesting among several trees. -/
def heightAll : List Ast → Nat
  | [] => 0
  | e :: es => max (height e) (heightAll es)
end

/-- What has to follow a form at the end of a piece of text: something that ends it, and for strings and
literal expressions anything at all. -/
def Stops (e : Ast) (post : Bytes) : Prop :=
  match e with
  | .expression _ => True
  | .literal _ | .string _ => post ≠ []
  | _ => ∃ c t, post = c :: t ∧ delimiter c = true

mutual
/-- A canonical way to write a tree: one blank between the elements of an expression. -/
def print (numeral : Int → Bytes) (escape : Bytes → Bytes) : Ast → Bytes
  | .bool true => [116, 114, 117, 101]
  | .bool false => [102, 97, 108, 115, 101]
  | .int n => numeral n
  | .string s => 34 :: (escape s ++ [34])
  | .identifier w => w
  | .callback w => 35 :: w
  | .expression [] => [40, 41]
  | .expression (e :: es) => 40 :: (print numeral escape e ++ printRow numeral escape es ++ [41])
  | .literal [] => [35, 40, 41]
  | .literal (e :: es) => 35 :: 40 :: (print numeral escape e ++ printRow numeral escape es ++ [41])
  | .float _ => []
  | .garbage => []
/-- The elements after the first. -/
def printRow (numeral : Int → Bytes) (escape : Bytes → Bytes) : List Ast → Bytes
  | [] => []
  | e :: es => 32 :: (print numeral escape e ++ printRow numeral escape es)
end

/-- Writing a string: quotes and backslashes get a backslash. -/
def escape : Bytes → Bytes
  | [] => []
  | c :: s => if c = 34 ∨ c = 92 then 92 :: c :: escape s else c :: escape s

mutual
/-- Trees the canonical form covers: no floating point numbers, integers other than the smallest, proper
names. -/
def Printable : Ast → Prop
  | .bool _ => True
  | .int n => n.natAbs < 2 ^ 63
  | .string _ => True
  | .identifier w => Name w
  | .callback w => w ≠ [] ∧ ∀ c ∈ w, delimiter c = false
  | .expression es => PrintableAll es
  | .literal es => PrintableAll es
  | .float _ => False
  | .garbage => False
/-- All elements. -/
def PrintableAll : List Ast → Prop
  | [] => True
  | e :: es => Printable e ∧ PrintableAll es
end

mutual
/-- Trees without hash signs. -/
def Plain : Ast → Prop
  | .callback _ => False
  | .literal _ => False
  | .expression es => PlainAll es
  | _ => True
/-- All elements. -/
def PlainAll : List Ast → Prop
  | [] => True
  | e :: es => Plain e ∧ PlainAll es
end

end DuckLisp.Spec
