import Verif.Model.Trie
import Verif.Model.DynArray

/-!
# Model of the compiler's symbol table, generated names and error logs

/repo/duckLisp.c (`duckLisp_symbol_create`, `duckLisp_symbol_nameToValue`, `duckLisp_gensym`,
`duckLisp_error_pushRuntime`) and /repo/duckVM.c (`duckVM_error_pushRuntime`).
-/

namespace DuckLisp.Tables

open DuckLisp.DynArray

/-- The fields `symbols_trie` and `symbols_array` of `duckLisp_t`.  The array is modelled by its elements. -/
structure Symbols where
  trie : Trie.Node
  array : List Bytes

/-- /repo/duckLisp.c:1957-1961, part of `duckLisp_init`. -/
def Symbols.init : Symbols := ⟨Trie.init (-1), []⟩

/-- /repo/duckLisp.c:190-197 `duckLisp_symbol_nameToValue`. -/
def nameToValue (t : Symbols) (name : Bytes) : Int := Trie.find t.trie name

/-- What happens to the two allocations of `duckLisp_symbol_create`: that of the copy of the name, and that
of the array. -/
inductive Memory where
  | enough | noCopy | noArray
deriving DecidableEq, Repr

/-- /repo/duckLisp.c:200-222 `duckLisp_symbol_create`: the table and whether an error is reported.  If memory
runs out, the trie already has the new entry.  Simplification: a failed `dl_array_pushElement` is modelled as
leaving the elements alone. -/
def create (memory : Memory) (t : Symbols) (name : Bytes) : Symbols × Option DlError :=
  if nameToValue t name = -1 then
    let trie := Trie.insert t.trie name t.array.length
    match memory with
    | .enough => ({ trie := trie, array := t.array ++ [name] }, none)
    | _ => ({ t with trie := trie }, some .outOfMemory)
  else (t, none)

/-- A history of creations with enough memory. -/
def createAll (t : Symbols) (names : List Bytes) : Symbols :=
  names.foldl (fun t name => (create .enough t name).1) t

/-- /repo/DuckLib/core.c:72-80 `dl_nybbleToHexChar`. -/
def nybbleToHexChar (i : Byte) : Byte :=
  let i := i &&& 15
  if i < 10 then i + 48 else i - 10 + 65

/-- The loop of /repo/duckLisp.c:709-712, which fills the sixteen places after the first from the right;
`i` counts down here. -/
def hexPlaces (number : UInt64) : Nat → Bytes
  | 0 => []
  | i + 1 => nybbleToHexChar ((number >>> (4 * i).toUInt64) &&& 15).toUInt8 :: hexPlaces number i

/-- /repo/duckLisp.c:697-715 `duckLisp_gensym` (with memory available): the name, and the counter left. -/
def gensym (number : UInt64) : Bytes × UInt64 := (0 :: hexPlaces number 16, number + 1)

/-- The names of `k` calls in a row. -/
def gensyms : Nat → UInt64 → List Bytes
  | 0, _ => []
  | k + 1, number => (gensym number).1 :: gensyms k (gensym number).2

/-- /repo/duckLisp.c:46-58 `duckLisp_error_pushRuntime`, and /repo/duckVM.c:35-46 `duckVM_error_pushRuntime`,
which does the same.  The oracles are the allocator during the two pushes; `none` is undefined behaviour. -/
def pushRuntime (o1 o2 : Oracle) (log : Arr) (message : Bytes) : Option (Arr × Option DlError) :=
  let push (o : Oracle) (log : Arr) (text : Bytes) : Option (Arr × Option DlError) :=
    match pushElements o log text.length (some (text.map ([·]))) with
    | none => none
    | some (log, .error e) => some (log, some e)
    | some (log, .ok _) => some (log, none)
  if log.length > 0 then
    match push o1 log [10] with
    | some (log, none) => push o2 log message
    | r => r
  else push o2 log message

/-- A history of reports. -/
def pushAll : Arr → List (Oracle × Oracle × Bytes) → Option (Arr × List (Option DlError))
  | log, [] => some (log, [])
  | log, (o1, o2, message) :: rest =>
    match pushRuntime o1 o2 log message with
    | none => none
    | some (log, r) =>
      match pushAll log rest with
      | none => none
      | some (log, rs) => some (log, r :: rs)

/-- /repo/duckLisp.c:1935-1938 and /repo/duckVM.c:442: the log starts empty. -/
def emptyLog : Arr := DynArray.init 1 .double

/-- The bytes in the log. -/
def contents (log : Arr) : Bytes := (log.elements.getD []).take log.length

end DuckLisp.Tables
