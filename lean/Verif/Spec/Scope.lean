import Verif.Model.Compile.Scope

/-!
# Specification of the compiler's scopes

The scopes that are open at a point of a program are a list of blocks, the innermost first.  A block is the
body of a function or not, and has the declarations made in it so far.
-/

namespace DuckLisp.Spec

open DuckLisp.Compile

/-- One open scope: whether it is the body of a function, and its declarations, the newest first, each with
the slot of the stack that it names.  Variables and functions have separate names. -/
structure Block where
  isFunction : Bool
  variables : List (Bytes × Nat)
  functions : List (Bytes × Nat)

/-- The newest declaration of a name in a block. -/
def Block.find (functionsOnly : Bool) (name : Bytes) (b : Block) : Option Nat :=
  (if functionsOnly then b.functions else b.variables).lookup name

/-- The binding that a name refers to: how many functions have to be left to reach it, and its slot.  It is
the newest declaration in the nearest block that has one. -/
def innermost (functionsOnly : Bool) (name : Bytes) : List Block → Option (Nat × Nat)
  | [] => none
  | b :: rest =>
    match b.find functionsOnly name with
    | some slot => some (0, slot)
    | none => (innermost functionsOnly name rest).map
        (fun (d, slot) => (if b.isFunction then d + 1 else d, slot))

/-- The blocks outside the function that the innermost block belongs to. -/
def outside : List Block → List Block
  | [] => []
  | b :: rest => if b.isFunction then rest else outside rest

/-- What a compiler does to its scopes while it goes through a program. -/
inductive Move where
  /-- A scope begins, which may be the body of a function. -/
  | opened (isFunction : Bool)
  /-- The innermost scope ends. -/
  | closed
  /-- The next slot of the stack is the given one from now on. -/
  | slot (n : Nat)
  /-- A variable is declared; it has the next slot. -/
  | variable (name : Bytes)
  /-- A function is declared; it has the next slot. -/
  | function (name : Bytes)
  | macro (name : Bytes)
  | label (name : Bytes)
  /-- A name is looked for outside the current function, which records captures. -/
  | captured (functionsOnly : Bool) (name : Bytes)
  /-- The compiler turns to code that runs during compilation, or back. -/
  | turned (comptime : Bool)

/-- The open scopes on either side: the program's (`false`), and that of the code that runs during
compilation (`true`). -/
structure Nesting where
  blocks : Bool → List Block
  slot : Bool → Nat
  side : Bool

/-- Change the innermost block.  If there is none, one is made, a function's. -/
def declare (f : Block → Block) : List Block → List Block
  | [] => [f ⟨true, [], []⟩]
  | b :: rest => f b :: rest

/-- Change the blocks of one side. -/
def Nesting.at (n : Nesting) (side : Bool) (f : List Block → List Block) : Nesting :=
  { n with blocks := fun s => if s = side then f (n.blocks s) else n.blocks s }

/-- The effect of a move on the open scopes.  Scopes begin and end on both sides at once, but only the
current side enters a function. -/
def Nesting.move (n : Nesting) : Move → Nesting
  | .opened isFunction =>
    { n with blocks := fun s => ⟨isFunction && (s == n.side), [], []⟩ :: n.blocks s }
  | .closed => { n with blocks := fun s => (n.blocks s).tail }
  | .slot k => { n with slot := fun s => if s = n.side then k else n.slot s }
  | .variable name =>
    n.at n.side (declare fun b => { b with variables := (name, n.slot n.side) :: b.variables })
  | .function name =>
    n.at n.side (declare fun b => { b with functions := (name, n.slot n.side) :: b.functions })
  -- these add no variable, but make a block where there is none.
  | .macro _ => (n.at n.side (declare id)).at true (declare id)
  | .label _ => n.at n.side (declare id)
  | .captured _ _ => n
  | .turned comptime => { n with side := comptime }

/-- The open scopes after a history. -/
def nesting (history : List Move) : Nesting :=
  history.foldl Nesting.move ⟨fun _ => [], fun _ => 0, false⟩

/-- The compiler's own call for each move. -/
def call (st : Scopes) : Move → Scopes
  | .opened isFunction => pushScope isFunction st
  | .closed => (popScope st).1
  | .slot n => st.setCurrent { st.current with localsLength := n }
  | .variable name => addObject name st
  | .function name => addInterpretedFunction name st
  | .macro name => addInterpretedGenerator name st
  | .label name => registerLabel name st
  | .captured functionsOnly name => st.setCurrent (getFreeLocalIndexFromName functionsOnly name st.current).1
  | .turned comptime => { st with inComptime := comptime }

/-- The compiler's state after a history. -/
def compiling (history : List Move) : Scopes := history.foldl call Scopes.init

/-- One side of the compiler's state. -/
def sideOf (st : Scopes) (side : Bool) : Sub := if side then st.comptime else st.runtime

/-- Moves after which the scopes that were open before are open again, and only those. -/
inductive Balanced : List Move → Prop where
  | nil : Balanced []
  | variable (name) : Balanced [.variable name]
  | function (name) : Balanced [.function name]
  | macro (name) : Balanced [.macro name]
  | label (name) : Balanced [.label name]
  | captured (functionsOnly name) : Balanced [.captured functionsOnly name]
  | slot (n) : Balanced [.slot n]
  | turned (comptime) : Balanced [.turned comptime]
  | scope (isFunction) {body} : Balanced body → Balanced (.opened isFunction :: body ++ [.closed])
  | append {a b} : Balanced a → Balanced b → Balanced (a ++ b)

/-- The capture lists of the functions that are open, the innermost first. -/
def captureLists (scopes : List Scope) : List (List Int) :=
  (scopes.reverse.filter (·.functionScope)).map (·.functionUvs)

/-- Where capture `j` of the innermost function is found when its closure is made: an entry `u ≥ 0` is slot
`u` of the function just outside, and an entry `-(i + 1)` is capture `i` of that function.  The result counts
the functions that are left beyond the first. -/
def leadsTo : List (List Int) → Nat → Option (Nat × Nat)
  | [], _ => none
  | captures :: outer, j =>
    match captures[j]? with
    | none => none
    | some u =>
      if 0 ≤ u then some (0, u.toNat)
      else (leadsTo outer (-u - 1).toNat).map (fun (d, slot) => (d + 1, slot))

end DuckLisp.Spec
