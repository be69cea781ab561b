import Verif.Model.VM.Heap
import Verif.Model.Reader
import Verif.Model.Tables

/-!
# Syntax trees and objects

Models the conversions between syntax trees and objects of the machine: /repo/duckLisp.c:746-897 and
/repo/generators.c:1050-1199.  The compiler uses `objectToAST` on the result of `comptime`
(generators.c:1274) and of macros (generators.c:3689), and the callback `read` uses `astToObject`
(duckLisp.c:1556).

Simplifications: `malloc` finds memory, also for zero bytes; a tree's boolean is true or false, where the C
code copies the byte.  A pointer to an object that is followed although it is null, or although the object
is of another type than the code expects, is undefined behaviour.
-/

namespace DuckLisp.AstObj

open DuckLisp.VM DuckLisp.Reader

/-- Where the loops of /repo/generators.c:1052-1068 and 1093-1124 go from a pair with rest `d`: the next pair
or the end, or `none` if the rest is something else. -/
def rest (vm : VM) (d : Option Ref) : Res (Option (Option Ref)) :=
  match d with
  | none => .ok (some none)
  | some t =>
      match vm.heap[t]? with
      | some (.list p) => .ok (some p)
      | some (.cons ..) => .ok (some (some t))
      | some _ => .ok none
      | none => .ub

/-- /repo/generators.c:1050-1070 `duckLisp_consList_length`: the loop at `cons` with `length` counted so far.
A pair whose rest is neither a pair nor a list is not counted. -/
def consListLength (vm : VM) : Nat → Option Ref → Nat → Res Nat
  | 0, _, _ => .timeout
  | _ + 1, none, length => .ok length
  | fuel + 1, some c, length =>
      match vm.heap[c]? with
      | some (.cons _ d) =>
          match rest vm d with
          | .ok (some next) => consListLength vm fuel next (length + 1)
          | .ok none => .ok length
          | .err e => .err e
          | .ub => .ub
          | .timeout => .timeout
      | _ => .ub

/-- /repo/duckLisp.c:765-781, the bytes of a string: those from `offset` to `length`, counted as an unsigned
number. -/
def stringBytes (vm : VM) (p : Option Ref) (offset : Int) (length : Nat) : Res Bytes :=
  if offset = length then .ok []
  else match p with
    | none => .ub
    | some r =>
        match vm.heap[r]? with
        | some (.internalString (some bytes) _) =>
            if 0 ≤ offset ∧ offset ≤ length ∧ length ≤ bytes.length then .ok ((bytes.take length).drop offset.toNat)
            else .ub
        | _ => .ub

/-- /repo/duckLisp.c:790-799, the bytes of the name of a symbol. -/
def symbolBytes (vm : VM) (p : Option Ref) : Res Bytes :=
  match p with
  | none => .ub
  | some r =>
      match vm.heap[r]? with
      | some (.internalString v n) => if n ≤ (v.getD []).length then .ok ((v.getD []).take n) else .ub
      | _ => .ub

mutual
/-- /repo/duckLisp.c:746-822 `duckLisp_objectToAST`. -/
def objectToAST (vm : VM) (useExprs : Bool) : Nat → Obj → Res Ast
  | 0, _ => .timeout
  | fuel + 1, o =>
      match o with
      | .bool b => .ok (.bool (b ≠ 0))
      | .integer i => .ok (.int i)
      | .float bits => .ok (.float bits)
      | .string p offset length => do
          let s ← stringBytes vm p offset length
          .ok (.string s)
      | .list p => if useExprs then consToExprAST vm fuel p else consToConsAST vm fuel p
      | .symbol _ p => do
          let s ← symbolBytes vm p
          .ok (.identifier s)
      | .type t => .ok (.int t)
      | _ => .err .invalidValue

/-- The conversion of one part of a pair: /repo/generators.c:1094-1112 and 1164-1189.  A missing part is an
empty list and a pair stands for the list that starts there. -/
def partToAST (vm : VM) (useExprs : Bool) : Nat → Option Ref → Res Ast
  | 0, _ => .timeout
  | fuel + 1, none => if useExprs then consToExprAST vm fuel none else consToConsAST vm fuel none
  | fuel + 1, some r =>
      match vm.heap[r]? with
      | some (.cons ..) => if useExprs then consToExprAST vm fuel (some r) else consToConsAST vm fuel (some r)
      | some o => objectToAST vm useExprs fuel o
      | none => .ub

/-- /repo/generators.c:1072-1138 `duckLisp_consToExprAST`. -/
def consToExprAST (vm : VM) : Nat → Option Ref → Res Ast
  | 0, _ => .timeout
  | _ + 1, none => .ok (.expression [])
  | fuel + 1, some c => do
      let length ← consListLength vm fuel (some c) 0
      let es ← exprElements vm fuel (some c) 0 length
      .ok (.expression es)

/-- The loop of /repo/generators.c:1092-1124 at element `j`, for an array with room for `length` elements.
Converting an element beyond the array writes outside of it.  Elements that are never written are
`garbage`. -/
def exprElements (vm : VM) : Nat → Option Ref → Nat → Nat → Res (List Ast)
  | 0, _, _, _ => .timeout
  | _ + 1, none, j, length => .ok (List.replicate (length - j) .garbage)
  | fuel + 1, some c, j, length =>
      match vm.heap[c]? with
      | some (.cons a d) =>
          if j < length then do
            let e ← partToAST vm true fuel a
            match ← rest vm d with
            | some next => do
                let es ← exprElements vm fuel next (j + 1) length
                .ok (e :: es)
            | none => .err .invalidValue
          else .ub
      | _ => .ub

/-- /repo/generators.c:1140-1199 `duckLisp_consToConsAST`. -/
def consToConsAST (vm : VM) : Nat → Option Ref → Res Ast
  | 0, _ => .timeout
  | _ + 1, none => .ok (.expression [])
  | fuel + 1, some c =>
      match vm.heap[c]? with
      | some (.cons a d) => do
          let x ← partToAST vm false fuel a
          let y ← partToAST vm false fuel d
          .ok (.expression [.identifier [95, 95, 99, 111, 110, 115], x, y])
      | _ => .ub
end

/-- /repo/duckVM.c:4798-4815 `duckVM_object_makeString`. -/
def makeString (s : Bytes) : M Obj := do
  let r ← pushObject (.internalString (some s) s.length)
  return .string (some r) 0 s.length

/-- /repo/duckVM.c:4825-4842 `duckVM_object_makeSymbol`. -/
def makeSymbol (id : Nat) (name : Bytes) : M Obj := do
  let r ← pushObject (.internalString (some name) name.length)
  return .symbol id (some r)

mutual
/-- /repo/duckLisp.c:824-899 `duckLisp_astToObject`.  The table of symbols is threaded through; it has memory
(`Memory.enough`). -/
def astToObject : Ast → Tables.Symbols → M (Obj × Tables.Symbols)
  | .expression es, t => do
      let (tail, t) ← elementsToObject es t
      return (.list tail, t)
  | .literal es, t => do
      let (tail, t) ← elementsToObject es t
      return (.list tail, t)
  | .identifier name, t => do
      let t := (Tables.create .enough t name).1
      let o ← makeSymbol (Tables.nameToValue t name).toNat name
      return (o, t)
  | .callback name, t => do
      let t := (Tables.create .enough t name).1
      let o ← makeSymbol (Tables.nameToValue t name).toNat name
      return (o, t)
  | .string s, t => do
      let o ← makeString s
      return (o, t)
  | .float bits, t => return (.float bits, t)
  | .int i, t => return (.integer i, t)
  | .bool b, t => return (.bool (if b then 1 else 0), t)
  | .garbage, _ => M.ub

/-- The loop of /repo/duckLisp.c:838-857: the elements from the last to the first, each copied into a cell of
its own and put in front of the list made so far. -/
def elementsToObject : List Ast → Tables.Symbols → M (Option Ref × Tables.Symbols)
  | [], t => return (none, t)
  | e :: es, t => do
      let (tail, t) ← elementsToObject es t
      let (head, t) ← astToObject e t
      let hp ← pushObject head
      let tp ← pushObject (.cons (some hp) tail)
      return (some tp, t)
end

end DuckLisp.AstObj
