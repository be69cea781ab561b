import Verif.Model.VM.Types
import Verif.Model.DlString

/-!
# Printing objects of the machine

Models /repo/duckVM.c:6827-6838 and 7116-7816, with enough memory for the text.  The functions only add to the end of
the array they are given; here their result is what they add.  References to cells are followed by calling the printer
again, however deep; the first argument of `print` is how deep calls may be nested, and `deeper` says that this was not
enough.
-/

namespace DuckLisp.PrintObj

open DuckLisp DuckLisp.VM DuckLisp.DlString

/-- What printing comes to: a text, undefined behaviour, or calls nested deeper than allowed. -/
inductive Printed where
  | text (t : Bytes)
  | ub
  | deeper
deriving DecidableEq, Repr

/-- One after the other; `if (e) goto cleanup`. -/
def Printed.and : Printed → Printed → Printed
  | .text s, .text t => .text (s ++ t)
  | .text _, p => p
  | p, _ => p

instance : Append Printed := ⟨Printed.and⟩

/-- `dl_array_pushElements(string_array, DL_STR(...))`. -/
def str (s : String) : Printed := .text (ascii s)

/-- `dl_string_fromSize(string_array, n)`. -/
def size (n : Nat) : Printed := .text (fromSize [] n)

/-- `dl_string_fromPtrdiff(string_array, i)`. -/
def number (i : Int) : Printed := .text (fromPtrdiff [] i)

/-- Where an object is: handed over by the caller, in a cell, or in a slot of the stack. -/
inductive Where where
  | given
  | cell (r : Ref)
  | slot (i : Nat)
deriving DecidableEq, Repr

/-- /repo/duckVM.c:7116-7137 `duckVM_internalString_prettyPrint`. -/
def printInternalString (value : Option Bytes) (n : Nat) : Printed :=
  str "(duckVM_internalString_t) {" ++ (str "value[" ++ (size n ++ (str "] = \"" ++
    ((if n ≤ (value.getD []).length then .text ((value.getD []).take n) else .ub) ++ (str "\"" ++ str "}")))))

/-- `duckVM_internalString_prettyPrint(string_array, p->value.internalString)`. -/
def internalStringAt (vm : VM) (r : Ref) : Printed :=
  match vm.heap[r]? with
  | some (.internalString value n) => printInternalString value n
  | _ => .ub

/-- /repo/duckVM.c:7139-7170 `duckVM_string_prettyPrint`. -/
def printString (vm : VM) (p : Option Ref) (offset : Int) (length : Nat) : Printed :=
  str "(duckVM_string_t) {" ++
    ((match p with
      | none => str "NULL"
      | some r => str "\"" ++ (internalStringAt vm r ++ (str "\"[" ++ (number offset ++ (str ":" ++ (size length ++ str "]")))))) ++
    str "}")

/-- /repo/duckVM.c:7172-7203 `duckVM_symbol_prettyPrint`. -/
def printSymbol (vm : VM) (id : Nat) (p : Option Ref) : Printed :=
  str "(duckVM_symbol_t) {" ++
    ((match p with
      | none => str "NULL"
      | some r => str "\"" ++ (internalStringAt vm r ++ str "\"")) ++
    (str ", " ++ (str "id = " ++ (size id ++ str "}"))))

/-- /repo/duckVM.c:7205-7224 `duckVM_function_prettyPrint`; the callbacks of the model are never null. -/
def printFunction : Printed := str "(duckVM_function_t) {" ++ (str "..." ++ str "}")

section
variable (vm : VM) (recur : Where → Obj → Printed)

/-- `duckVM_object_prettyPrint(string_array, *p, duckVM)`. -/
def deref : Option Ref → Printed
  | none => .ub
  | some r =>
    match vm.heap[r]? with
    | some o => recur (.cell r) o
    | none => .ub

/-- `if (p == dl_null)` NULL, else the object. -/
def derefOrNull : Option Ref → Printed
  | none => str "NULL"
  | some r => deref vm recur (some r)

/-- The loops of /repo/duckVM.c:7285-7294, 7435-7442 and 7467-7474. -/
def sequence : List (Option Ref) → Printed
  | [] => .text []
  | [p] => deref vm recur p
  | p :: ps => deref vm recur p ++ (str ", " ++ sequence ps)

/-- The first `n` of them; there may be fewer. -/
def firstOf (ps : List (Option Ref)) (n : Nat) : Printed :=
  if n ≤ ps.length then sequence vm recur (ps.take n) else .ub

/-- An element that was never written is no pointer. -/
def slotPointer : Slot → Option Ref
  | .uninit => none
  | .ptr p => p

/-- The code of a closure: /repo/duckVM.c:7240-7261. -/
def printCode : Option Ref → Printed
  | none => str "bytecode = NULL"
  | some r =>
    match vm.heap[r]? with
    | some (.bytecode block n) => str "bytecode[" ++ (size n ++ (str "] = " ++ (if block.isNone then str "NULL" else str "...")))
    | _ => .ub

/-- The captured variables of a closure: /repo/duckVM.c:7266-7297. -/
def printCaptures : Option Ref → Printed
  | none => str "upvalue_array = NULL"
  | some r =>
    match vm.heap[r]? with
    | some (.upvalueArray block n) => str "upvalue_array[" ++ (size n ++ (str "] = " ++
        (match block with
        | none => str "NULL"
        | some b => firstOf vm recur b.ups n)))
    | _ => .ub

/-- /repo/duckVM.c:7226-7320 `duckVM_closure_prettyPrint`. -/
def printClosure (name : Int) (code ups : Option Ref) (arity : UInt8) (variadic : Bool) : Printed :=
  str "(duckVM_closure_t) {" ++ (str "name = " ++ (number name ++ (str ", " ++ (printCode vm code ++ (str ", " ++
    (printCaptures vm recur ups ++ (str ", " ++ (str "arity = " ++ (.text (fromUint8 [] arity) ++ (str ", " ++
    (str "variadic = " ++ (.text (fromBool [] variadic) ++ str "}"))))))))))))

/-- /repo/duckVM.c:7322-7341 `duckVM_list_prettyPrint`. -/
def printList (p : Option Ref) : Printed := str "(duckVM_list_t) {" ++ (derefOrNull vm recur p ++ str "}")

/-- /repo/duckVM.c:7343-7372 `duckVM_cons_prettyPrint`. -/
def printCons (a d : Option Ref) : Printed :=
  str "(duckVM_cons_t) {" ++ (derefOrNull vm recur a ++ (str "." ++ (derefOrNull vm recur d ++ str "}")))

/-- The end of the chain that a captured variable is, for /repo/duckVM.c:7384-7392; it may go on for ever. -/
def printChain : Nat → Upvalue → Printed
  | 0, _ => .deeper
  | _ + 1, .stackIndex i =>
    (if 0 ≤ i then
      match vm.stack[i.toNat]? with
      | some o => recur (.slot i.toNat) o
      | none => .ub
    else .ub) ++ (str ", " ++ (str "type = " ++ str "duckVM_upvalue_type_stack_index"))
  | _ + 1, .heapObject p => deref vm recur p ++ (str ", " ++ (str "type = " ++ str "duckVM_upvalue_type_heap_object"))
  | _ + 1, .heapUpvalue none =>
    str "-> " ++ (str "NULL" ++ (str ", " ++ (str "type = " ++ str "duckVM_upvalue_type_heap_upvalue")))
  | n + 1, .heapUpvalue (some r) => str "-> " ++
    (match vm.heap[r]? with
    | some (.upvalue u) => printChain n u
    | _ => .ub)

/-- /repo/duckVM.c:7374-7420 `duckVM_upvalue_prettyPrint`. -/
def printUpvalue (n : Nat) (u : Upvalue) : Printed :=
  str "(duckVM_upvalue_t) {" ++ (str "value = " ++ (printChain vm recur n u ++ str "}"))

/-- /repo/duckVM.c:7422-7450 `duckVM_upvalueArray_prettyPrint`. -/
def printUpvalueArray (block : Option UpBlock) (n : Nat) : Printed :=
  str "(duckVM_upvalueArray_t) {" ++ (str "upvalues[" ++ (size n ++ (str "] = {" ++
    (firstOf vm recur ((block.map UpBlock.ups).getD []) n ++ (str "}" ++ str "}")))))

/-- /repo/duckVM.c:7452-7489 `duckVM_internalVector_prettyPrint`. -/
def printInternalVector (values : Option (List Slot)) (n : Nat) (initialized : Bool) : Printed :=
  str "(duckVM_internalVector_t) {" ++
    ((if initialized then
      str "values[" ++ (size n ++ (str "] = {" ++ (firstOf vm recur ((values.getD []).map slotPointer) n ++ str "}")))
    else str "values = UNINITIALIZED") ++ str "}")

/-- /repo/duckVM.c:7491-7517 `duckVM_vector_prettyPrint`. -/
def printVector (p : Option Ref) (offset : Int) : Printed :=
  str "(duckVM_vector_t) {" ++
    ((match p with
      | none => str "NULL"
      | some r =>
        (match vm.heap[r]? with
        | some (.internalVector values n initialized) => printInternalVector vm recur values n initialized
        | _ => .ub) ++ (str "[" ++ (number offset ++ str ":]"))) ++
    str "}")

/-- /repo/duckVM.c:7519-7547 `duckVM_bytecode_prettyPrint`. -/
def printBytecode (block : Option CodeBlock) (n : Nat) : Printed :=
  str "(duckVM_bytecode_t) {" ++ (str "bytecode[" ++ (size n ++ (str "] = {" ++
    ((if block.isNone then str "NULL" else str "...") ++ (str "}" ++ str "}")))))

/-- /repo/duckVM.c:7549-7595 `duckVM_internalComposite_prettyPrint`. -/
def printInternalComposite (type : Nat) (value function : Option Ref) : Printed :=
  str "(duckVM_internalComposite_t) {" ++ (str "type = " ++ (size type ++ (str ", " ++ (str "value = " ++
    (derefOrNull vm recur value ++ (str ", " ++ (str "function = " ++ (derefOrNull vm recur function ++ str "}"))))))))

/-- /repo/duckVM.c:7597-7616 `duckVM_composite_prettyPrint`. -/
def printComposite (p : Option Ref) : Printed :=
  str "(duckVM_composite_t) {" ++
    ((match p with
      | none => str "NULL"
      | some r =>
        match vm.heap[r]? with
        | some (.internalComposite type value function) => printInternalComposite vm recur type value function
        | _ => .ub) ++
    str "}")

/-- /repo/duckVM.c:7618-7661 `duckVM_user_prettyPrint`.  Objects of the model do not say whether data and marker are
null: here data is if it is 0, and the marker is if there is nothing to mark. -/
def printUser (data : Nat) (marks : List (Option Ref)) (destructor : Bool) : Printed :=
  str "(duckVM_user_t) {" ++ (str "data = " ++ ((if data = 0 then str "NULL" else str "...") ++
    (str "destructor = " ++ ((if destructor then str "..." else str "NULL") ++
    (str "marker = " ++ ((if marks.isEmpty then str "NULL" else str "...") ++ str "}"))))))

/-- /repo/duckVM.c:7723-7810: the switch. -/
def printValue (n : Nat) : Obj → Printed
  | .bool b => str "bool: (dl_bool_t) " ++ .text (fromBool [] (b ≠ 0))
  | .integer i => str "integer: (dl_ptrdiff_t) " ++ number i
  | .float _ => str "float: (double) ..."
  | .internalString value len => printInternalString value len
  | .string p offset len => printString vm p offset len
  | .symbol id p => printSymbol vm id p
  | .function _ => printFunction
  | .closure name code ups arity variadic => printClosure vm recur name code ups arity variadic
  | .list p => printList vm recur p
  | .cons a d => printCons vm recur a d
  | .upvalue u => printUpvalue vm recur n u
  | .upvalueArray block len => printUpvalueArray vm recur block len
  | .internalVector values len initialized => printInternalVector vm recur values len initialized
  | .vector p offset => printVector vm recur p offset
  | .bytecode block len => printBytecode block len
  | .type t => str "type: (dl_size_t) " ++ size t
  | .internalComposite type value function => printInternalComposite vm recur type value function
  | .composite p => printComposite vm recur p
  | .user data marks destructor => printUser data marks destructor
  | .none => str "INVALID"
end

/-- /repo/duckVM.c:7708-7816 `duckVM_object_prettyPrint`.  `flag` is what the field `inUse` of an object happens to
be: nothing ever writes it.  The bound on the length of chains of captured variables is the one on the depth of calls. -/
def print (flag : Where → Bool) (vm : VM) : Nat → Where → Obj → Printed
  | 0, _, _ => .deeper
  | n + 1, w, o => str "(duckVM_object_t) {" ++ (str "inUse = " ++ ((if flag w then str "true" else str "false") ++
      (printValue vm (print flag vm n) n o ++ str "}")))

end DuckLisp.PrintObj
