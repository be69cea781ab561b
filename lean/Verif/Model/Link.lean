import Verif.Model.Tables
import Verif.Model.VM.Exec

/-!
# Linking functions of the host
-/

namespace DuckLisp.Link

open DuckLisp.Tables

/-- The fields of `duckLisp_t` that take part: the symbols, `callbacks_trie` and the machine. -/
structure Host where
  symbols : Symbols
  callbacks : Trie.Node
  machine : VM.VM

/-- /repo/duckLisp.c:2395-2443 `duckLisp_linkCFunction`, without parenthesis inference; `none` is undefined behaviour.
Simplification: the compiler's own allocations succeed; the machine may be out of memory. -/
def link (h : Host) (name : Bytes) (callback : Nat) : Option (Host × Option DlError) :=
  let symbols := (create .enough h.symbols name).1
  let key := nameToValue symbols name
  let callbacks := Trie.insert h.callbacks name key
  match VM.linkCFunction key callback h.machine with
  | .ok _ machine => some (⟨symbols, callbacks, machine⟩, none)
  | .err e machine => some (⟨symbols, callbacks, machine⟩, some e)
  | _ => none

end DuckLisp.Link
