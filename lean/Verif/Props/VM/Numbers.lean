import Verif.Proof.VM.Numbers

/-!
# C33: arithmetic
-/

namespace DuckLisp.VM

open DuckLisp DuckLisp.Spec

/-- C33: whenever the exact result of an operation on integers fits a machine integer, the
instruction pushes exactly that result and changes nothing else.  Booleans count as integers, as
long as at least one operand is an integer.

Partial: when the result does not fit, and for a division by zero, the behaviour of the program is
undefined instead of an error (`C33_overflow_is_undefined`, `C33_division_by_zero_is_undefined`). -/
theorem C33_integer_arithmetic_is_exact_partial (env : Env) (bc : Nat) (st nx : CodePtr) (vm : VM)
    (op : Arith) (a b : Nat) (ox oy : Obj) (x y r : Int)
    (ha : operand vm a = some ox) (hb : operand vm b = some oy)
    (hx : asInteger ox = some x) (hy : asInteger oy = some y)
    (hint : ox = .integer x ∨ oy = .integer y)
    (hr : Exact op x y r) (hfit : InRange r) :
    exec env bc st nx (.arith op a b) vm = .ok (.goto nx) (pushed vm (.integer r)) := by
  refine exec_plain_ok trivial ?_
  refine binary_ok _ ha hb ?_
  have key := intArith_exact (vm := vm) hr hfit
  cases ox <;> cases oy <;> simp [asInteger] at hx hy hint <;> subst hx <;> subst hy <;>
    simp only [arithValue] <;> rw [M.bind_ok key] <;> rfl

/-- The double an operand counts as when it is mixed with a double. -/
def asDouble (fl : FloatOps) : Obj → Option UInt64
  | .float x => some x
  | .integer x => some (fl.ofInt x)
  | .bool b => some (fl.ofInt b.toNat)
  | _ => none

/-- C33: if one of two numbers is a float, the other is converted and the result is the float the
machine computes from the two; nothing else changes. -/
theorem C33_mixing_promotes_to_float (env : Env) (bc : Nat) (st nx : CodePtr) (vm : VM)
    (op : Arith) (a b : Nat) (ox oy : Obj) (x y : UInt64)
    (ha : operand vm a = some ox) (hb : operand vm b = some oy)
    (hx : asDouble env.fl ox = some x) (hy : asDouble env.fl oy = some y)
    (hfloat : ox = .float x ∨ oy = .float y) :
    exec env bc st nx (.arith op a b) vm = .ok (.goto nx) (pushed vm (.float
      (match op with
        | .add => env.fl.add x y
        | .sub => env.fl.sub x y
        | .mul => env.fl.mul x y
        | .div => env.fl.div x y))) := by
  refine exec_plain_ok trivial ?_
  refine binary_ok _ ha hb ?_
  cases ox <;> cases oy <;> simp [asDouble] at hx hy hfloat <;> subst hx <;> subst hy <;>
    cases op <;> rfl

/-- C33: an operation on anything but two numbers is an error; nothing is pushed, and the machine
is as before. -/
theorem C33_non_numbers_are_rejected (env : Env) (bc : Nat) (st nx : CodePtr) (vm : VM)
    (op : Arith) (a b : Nat) (ox oy : Obj)
    (ha : operand vm a = some ox) (hb : operand vm b = some oy)
    (h : ¬ (IsNumber ox ∧ IsNumber oy)) :
    exec env bc st nx (.arith op a b) vm = .err .invalidValue vm := by
  refine exec_plain_err trivial ?_
  show binary a b (arithValue env.fl op) vm = _
  rw [binary_eq _ ha hb]
  cases ox <;> cases oy <;> simp [IsNumber] at h <;> rfl

/-- C33, why the first theorem is partial: a result that does not fit is undefined behaviour. -/
theorem C33_overflow_is_undefined (env : Env) (bc : Nat) (st nx : CodePtr) (vm : VM)
    (op : Arith) (a b : Nat) (x y r : Int)
    (ha : operand vm a = some (.integer x)) (hb : operand vm b = some (.integer y))
    (hr : Exact op x y r) (hfit : ¬ InRange r) :
    exec env bc st nx (.arith op a b) vm = .ub := by
  refine exec_plain_ub trivial ?_
  show binary a b (arithValue env.fl op) vm = _
  rw [binary_eq _ ha hb]
  simp only [arithValue]
  rw [M.bind_ub (intArith_overflow hr hfit)]

/-- C33, why the first theorem is partial: so is a division by zero. -/
theorem C33_division_by_zero_is_undefined (env : Env) (bc : Nat) (st nx : CodePtr) (vm : VM)
    (a b : Nat) (x : Int)
    (ha : operand vm a = some (.integer x)) (hb : operand vm b = some (.integer 0)) :
    exec env bc st nx (.arith .div a b) vm = .ub := by
  refine exec_plain_ub trivial ?_
  show binary a b (arithValue env.fl .div) vm = _
  rw [binary_eq _ ha hb]
  rfl

/-- C33: arithmetic of two booleans wraps around in 8 bits: `false - true` is the boolean 255. -/
theorem C33_boolean_arithmetic_wraps (env : Env) (bc : Nat) (st nx : CodePtr) (vm : VM) (a b : Nat)
    (ha : operand vm a = some (.bool 0)) (hb : operand vm b = some (.bool 1)) :
    exec env bc st nx (.arith .sub a b) vm = .ok (.goto nx) (pushed vm (.bool 255)) := by
  refine exec_plain_ok trivial ?_
  exact binary_ok _ ha hb rfl

/-- A machine with two integers, a string and a float on the stack. -/
def numbersVM : VM :=
  { heap := [], free := [], stack := [.integer (-7), .integer 2, .string none 0 0, .float 0],
    upStack := [none, none, none, none] }

example : operand numbersVM 4 = some (.integer (-7)) := rfl
example : operand numbersVM 3 = some (.integer 2) := rfl
example : operand numbersVM 2 = some (.string none 0 0) := rfl
example : operand numbersVM 1 = some (.float 0) := rfl
example : Exact .div (-7) 2 (-3) := ⟨by decide, -1, by decide⟩
example : InRange (-3) := by unfold InRange; decide
example : ¬ InRange (2 ^ 63) := by unfold InRange; decide
example : Exact .mul (2 ^ 62) 2 (2 ^ 63) := by unfold Exact; decide
example : ¬ (IsNumber (.string none 0 0) ∧ IsNumber (.integer 2)) := by simp [IsNumber]

#print axioms C33_integer_arithmetic_is_exact_partial
#print axioms C33_mixing_promotes_to_float
#print axioms C33_non_numbers_are_rejected
#print axioms C33_overflow_is_undefined
#print axioms C33_division_by_zero_is_undefined
#print axioms C33_boolean_arithmetic_wraps

end DuckLisp.VM
