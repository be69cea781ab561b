import Verif.Model.Link
import Verif.Spec.Globals
import Verif.Spec.Sound

/-!
# Histories of a host that links functions
-/

namespace DuckLisp.Link

open DuckLisp.Tables DuckLisp.VM DuckLisp.Spec

/-- The function last linked under a name. -/
def lastLinked : List (Bytes × Nat) → Bytes → Option Nat
  | [], _ => none
  | (n, cb) :: earlier, name => if name = n then some cb else lastLinked earlier name

/-- What can have happened to a host, with the functions that were linked, the last one first: functions are linked,
symbols are made for other names, and the machine does something (runs programs, say) that leaves the globals of
linked names as they are; what it does to other globals does not matter. -/
inductive Linking : Host → List (Bytes × Nat) → Prop
  | start {vm} (h : Good vm) : Linking ⟨.init, Trie.init (-1), vm⟩ []
  | symbol {h ls} (l : Linking h ls) (name : Bytes) :
      Linking { h with symbols := (create .enough h.symbols name).1 } ls
  | runs {h ls vm} (l : Linking h ls) (hg : Good vm) (hr : ∀ name cb (k : Nat), (name, cb) ∈ ls →
      nameToValue h.symbols name = k → ∀ x, Reads h.machine k x → Reads vm k x) :
      Linking { h with machine := vm } ls
  | link {h h' ls name cb} (l : Linking h ls) (hl : link h name cb = some (h', none)) : Linking h' ((name, cb) :: ls)

end DuckLisp.Link
