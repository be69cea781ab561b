import Verif.Model.DynArray

/-!
# Specification: the calls of the array API on a mathematical list

Elements are byte strings of `size` bytes.  A null element stands for `size` zero bytes.
-/

namespace DuckLisp.Spec
open DuckLisp.DynArray (Op)

/-- A call is well formed if all elements passed have the element size of the array (in C: the
pointers point to that many bytes). -/
def OpOk (size : Nat) : Op → Prop
  | .push (some e) => e.length = size
  | .pushMany n (some es) => es.length = n ∧ ∀ e ∈ es, e.length = size
  | .setTop e => e.length = size
  | .set e _ => e.length = size
  | .append src => ∀ e ∈ src, e.length = size
  | _ => True

/-- Result and effect of a call on a list, last element = top. -/
def listStep (size : Nat) (l : List Bytes) : Op → List Bytes × Except DlError (List Bytes)
  | .push none => (l ++ [List.replicate size 0], .ok [])
  | .push (some e) => (l ++ [e], .ok [])
  | .pushMany n none => (l ++ List.replicate n (List.replicate size 0), .ok [])
  | .pushMany _ (some es) => (l ++ es, .ok [])
  | .pop => if l = [] then (l, .error .bufferUnderflow)
      else (l.take (l.length - 1), .ok (l.drop (l.length - 1)))
  | .popMany n => if l.length < n then (l, .error .bufferUnderflow)
      else (l.take (l.length - n), .ok (l.drop (l.length - n)))
  | .getTop => match l.getLast? with
      | none => (l, .error .bufferUnderflow)
      | some e => (l, .ok [e])
  | .setTop e => if l = [] then (l, .error .bufferUnderflow)
      else (l.set (l.length - 1) e, .ok [])
  | .get i => if i < 0 then (l, .error .invalidValue) else match l[i.toNat]? with
      | none => (l, .error .invalidValue)
      | some e => (l, .ok [e])
  | .set e i => if i < 0 ∨ (l.length : Int) ≤ i then (l, .error .invalidValue)
      else (l.set i.toNat e, .ok [])
  | .append src => (l ++ src, .ok [])
  | .clear => ([], .ok [])

/-- The results of a history of calls, and the final list. -/
def listRun (size : Nat) : List Bytes → List Op → List Bytes × List (Except DlError (List Bytes))
  | l, [] => (l, [])
  | l, op :: rest =>
    let r := listStep size l op
    let rs := listRun size r.1 rest
    (rs.1, r.2 :: rs.2)

end DuckLisp.Spec
