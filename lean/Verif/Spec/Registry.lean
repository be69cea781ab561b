import Verif.Model.Tables
import Verif.Model.Trie

/-! # Specification: the table of globals that the compiler keeps -/

namespace DuckLisp.Spec

/-- Some names were registered as globals, each with its number in the table of symbols. -/
def Registers (t : Tables.Symbols) (globals : Trie.Node) : Prop :=
  ∃ names : List Bytes, (∀ x ∈ names, Tables.nameToValue t x ≠ -1) ∧
    globals = names.foldl (fun g x => Trie.insert g x (Tables.nameToValue t x)) (Trie.init (-1))

end DuckLisp.Spec
