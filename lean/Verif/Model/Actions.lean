import Verif.Model.Trie

/-! # Model: the table of the host's parser actions -/

namespace DuckLisp.Actions

/-- /repo/duckLisp.h:177-178 `parser_actions_trie`, `parser_actions_array`.  An action is a value of `α`. -/
structure Table (α : Type) where
  trie : Trie.Node
  array : List α

/-- /repo/duckLisp.c:1963-1967, in `duckLisp_init`. -/
def empty {α : Type} : Table α := ⟨Trie.init (-1), []⟩

/-- /repo/duckLisp.c:2321-2338 `duckLisp_addParserAction`, with enough memory. -/
def add {α : Type} (t : Table α) (name : Bytes) (f : α) : Table α :=
  ⟨Trie.insert t.trie name t.array.length, t.array ++ [f]⟩

/-- /repo/parser.c:1365-1374, in `runAction`: which action is called for a name.  `dl_array_get` reports an error
for indices beyond the end, which `C56_registered` excludes. -/
def find {α : Type} (t : Table α) (name : Bytes) : Option α :=
  let index := Trie.find t.trie name
  if 0 ≤ index then t.array[index.toNat]? else none

end DuckLisp.Actions
