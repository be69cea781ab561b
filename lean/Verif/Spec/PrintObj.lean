import Verif.Spec.Data
import Mathlib.Logic.Relation

/-!
# Data that is printed
-/

namespace DuckLisp.Spec

open DuckLisp DuckLisp.VM

/-- Data: what a value is made of. -/
inductive Content where
  | nil
  | bool (b : Bool)
  | int (i : Int)
  | float (bits : UInt64)
  | type (n : Nat)
  | string (s : Bytes)
  /-- its number, and its name if that was kept -/
  | symbol (id : Nat) (name : Option Bytes)
  | pair (first rest : Content)
  | vector (elements : List Content)
  /-- an instance of a type of the user, with its value and its function -/
  | instance_ (type : Nat) (value function : Content)

mutual
/-- `Carries vm o d`: the object `o` stands for `d`. -/
inductive Carries (vm : VM) : Obj → Content → Prop
  | nil : Carries vm (.list none) .nil
  | bool (b) : Carries vm (.bool b) (.bool (b ≠ 0))
  | int (i) : Carries vm (.integer i) (.int i)
  | float (bits) : Carries vm (.float bits) (.float bits)
  | type (n) : Carries vm (.type n) (.type n)
  /-- the bytes of the storage from the start position to the end -/
  | string {r} {v : Option Bytes} {off len : Nat} (h : vm.heap[r]? = some (.internalString v (v.getD []).length)) :
      Carries vm (.string (some r) off len) (.string (((v.getD []).take len).drop off))
  | noString {off len} : Carries vm (.string none off len) (.string [])
  | symbol {id r} {v : Option Bytes} (h : vm.heap[r]? = some (.internalString v (v.getD []).length)) :
      Carries vm (.symbol id (some r)) (.symbol id (some (v.getD [])))
  | nameless {id} : Carries vm (.symbol id none) (.symbol id none)
  | pair {r x y a d} (h : IsPair vm r x y) (ha : Carries vm x a) (hd : Carries vm y d) :
      Carries vm (.list (some r)) (.pair a d)
  /-- the elements from the start position on -/
  | vector {r xs ds} {off : Nat} (h : IsVector vm r xs) (hs : CarryAll vm xs ds) :
      Carries vm (.vector (some r) off) (.vector (ds.drop off))
  | noVector {off} : Carries vm (.vector none off) (.vector [])
  | instance_ {r t x y a d} (h : IsComposite vm r t x y) (ha : Carries vm x a) (hd : Carries vm y d) :
      Carries vm (.composite (some r)) (.instance_ t a d)
@[inherit_doc Carries]
inductive CarryAll (vm : VM) : List Obj → List Content → Prop
  | nil : CarryAll vm [] []
  | cons {x xs d ds} (h : Carries vm x d) (hs : CarryAll vm xs ds) : CarryAll vm (x :: xs) (d :: ds)
end

mutual
/-- The data with 0 in place of all numbers with a fraction. -/
def Content.withoutFloats : Content → Content
  | .float _ => .float 0
  | .pair a d => .pair a.withoutFloats d.withoutFloats
  | .vector ds => .vector (Content.withoutFloatsAll ds)
  | .instance_ t a d => .instance_ t a.withoutFloats d.withoutFloats
  | d => d
@[inherit_doc Content.withoutFloats]
def Content.withoutFloatsAll : List Content → List Content
  | [] => []
  | d :: ds => d.withoutFloats :: Content.withoutFloatsAll ds
end

/-- `HasPart vm o z`: `z` is one of the things that `o` is made of. -/
inductive HasPart (vm : VM) : Obj → Obj → Prop
  | list {c z} (h : vm.heap[c]? = some z) : HasPart vm (.list (some c)) z
  | first {c d z} (h : vm.heap[c]? = some z) : HasPart vm (.cons (some c) d) z
  | rest {a c z} (h : vm.heap[c]? = some z) : HasPart vm (.cons a (some c)) z
  /-- an element of a vector -/
  | element {slots n c z} (hc : .ptr (some c) ∈ slots.take n) (h : vm.heap[c]? = some z) :
      HasPart vm (.internalVector (some slots) n true) z
  | vector {r off slots n z} (hr : vm.heap[r]? = some (.internalVector slots n true))
      (h : HasPart vm (.internalVector slots n true) z) : HasPart vm (.vector (some r) off) z
  /-- a captured variable of a closure -/
  | capture {b n c z} (hc : some c ∈ b.ups.take n) (h : vm.heap[c]? = some z) : HasPart vm (.upvalueArray (some b) n) z
  | closure {name code u arity variadic b n z} (hu : vm.heap[u]? = some (.upvalueArray b n))
      (h : HasPart vm (.upvalueArray b n) z) : HasPart vm (.closure name code (some u) arity variadic) z
  /-- the value of a captured variable: on the stack, in a cell of its own, or that of another captured variable -/
  | slot {i : Nat} {z} (h : vm.stack[i]? = some z) : HasPart vm (.upvalue (.stackIndex i)) z
  | own {c z} (h : vm.heap[c]? = some z) : HasPart vm (.upvalue (.heapObject (some c))) z
  | other {c u} (h : vm.heap[c]? = some (.upvalue u)) : HasPart vm (.upvalue (.heapUpvalue (some c))) (.upvalue u)
  /-- the two parts of a composite -/
  | value {t c f z} (h : vm.heap[c]? = some z) : HasPart vm (.internalComposite t (some c) f) z
  | function {t v c z} (h : vm.heap[c]? = some z) : HasPart vm (.internalComposite t v (some c)) z
  | composite {r t v f z} (hr : vm.heap[r]? = some (.internalComposite t v f))
      (h : HasPart vm (.internalComposite t v f) z) : HasPart vm (.composite (some r)) z

/-- `IsMadeOf vm o z`: one gets from `o` to `z` through parts, in any number of steps. -/
def IsMadeOf (vm : VM) : Obj → Obj → Prop := Relation.ReflTransGen (HasPart vm)

/-- The object contains itself: one gets from it to itself through parts, in at least one step. -/
def ContainsItself (vm : VM) (o : Obj) : Prop := Relation.TransGen (HasPart vm) o o

/-- There is a cycle: something in `o` contains itself. -/
def HasCycle (vm : VM) (o : Obj) : Prop := ∃ z, IsMadeOf vm o z ∧ ContainsItself vm z

/-- No closure is half built: each captured variable of each closure is there.  (An array of captured variables has an
empty place only while the instruction that makes the closure runs, and after that if memory ran out in it.) -/
def AllCaptured (vm : VM) : Prop :=
  ∀ r b n, vm.heap[r]? = some (.upvalueArray b n) → r ∉ vm.free → none ∉ (b.map UpBlock.ups).getD []

end DuckLisp.Spec
