/-!
# Shared vocabulary of the model

`DlError` models `dl_error_t` (/repo/DuckLib/core.h:58-68), without `dl_error_ok`,
which is `Res.ok`.  `Res.ub` is the outcome "the C code has undefined behaviour
here" (out-of-bounds access, null dereference, signed overflow, division by
zero); it is kept apart from the errors the code reports.
-/

namespace DuckLisp

/-- /repo/DuckLib/core.h:33 `typedef unsigned char dl_uint8_t`. -/
abbrev Byte := UInt8

/-- A byte string: models the pairs (`dl_uint8_t *`, `dl_size_t`) used throughout the code. -/
abbrev Bytes := List UInt8

/-- /repo/DuckLib/core.h:58-68, all constructors of `dl_error_t` except `dl_error_ok`. -/
inductive DlError where
  | invalidValue | bufferUnderflow | bufferOverflow | nullPointer | danglingPointer
  | outOfMemory | shouldntHappen | cantHappen
deriving DecidableEq, Repr

/-- Result of a modelled C function: success, a reported error, undefined behaviour, or (for
functions that take fuel) "not finished within the given fuel". -/
inductive Res (α : Type) where
  | ok (a : α)
  | err (e : DlError)
  | ub
  | timeout
deriving DecidableEq, Repr

namespace Res

/-- Sequencing: the idiom `e = f(...); if (e) goto cleanup;` of the C code. -/
@[simp] def bind {α β : Type} : Res α → (α → Res β) → Res β
  | ok a, f => f a
  | err e, _ => err e
  | ub, _ => ub
  | timeout, _ => timeout

instance : Monad Res where
  pure := ok
  bind := bind

@[simp] theorem pure_eq {α : Type} (a : α) : (pure a : Res α) = ok a := rfl
@[simp] theorem bind_ok {α β : Type} (a : α) (f : α → Res β) : (ok a >>= f) = f a := rfl
@[simp] theorem bind_err {α β : Type} (e : DlError) (f : α → Res β) :
    ((err e : Res α) >>= f) = err e := rfl
@[simp] theorem bind_ub {α β : Type} (f : α → Res β) : ((ub : Res α) >>= f) = ub := rfl

@[simp] theorem bind_timeout {α β : Type} (f : α → Res β) :
    ((timeout : Res α) >>= f) = timeout := rfl

/-- `some` for success. -/
def toOption {α : Type} : Res α → Option α
  | ok a => some a
  | _ => none

end Res

/-- The text of a string literal as bytes; for writing examples (ASCII only). -/
def ascii (s : String) : Bytes := s.toUTF8.toList

end DuckLisp
