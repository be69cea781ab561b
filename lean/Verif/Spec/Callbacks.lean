import Verif.Model.Callbacks
import Verif.Spec.AstObj
import Verif.Spec.Machine

/-!
# Histories of the symbol table
-/

namespace DuckLisp.Spec

open DuckLisp DuckLisp.Callbacks

/-- `Uses n l l'`: one thing that happens to the symbol table and to the counter of generated names, which takes `n`
numbers from the counter.  A program names things, the compiler takes a number for a label, or a program calls
`gensym`, `read` or `intern`, the last with a text that does not begin with a zero byte. -/
inductive Uses : Nat → Lisp → Lisp → Prop
  | named (l : Lisp) (name : Bytes) (h : name.head? ≠ some 0) :
      Uses 0 l { l with symbols := (Tables.create .enough l.symbols name).1 }
  | label (l : Lisp) : Uses 1 l { l with counter := l.counter + 1 }
  | gensym (l : Lisp) (vm : VM.VM) : Uses 1 l (gensym l vm).1
  | read (l : Lisp) (cfg : Reader.Config) (hact : ∀ name, cfg.action name = none) (vm : VM.VM) : Uses 0 l (read cfg l vm).1
  | intern (l : Lisp) (vm : VM.VM)
      (h : ∀ s vm', VM.apiCopyString vm = .ok s vm' → s.head? ≠ some 0) :
      Uses 0 l (intern l vm).1

/-- A history of such things, which takes `n` numbers from the counter. -/
inductive History : Nat → Lisp → Lisp → Prop
  | nil (l) : History 0 l l
  | snoc {l l1 l2 n k} (h : History n l l1) (h' : Uses k l1 l2) : History (n + k) l l2

/-- A new compiler. -/
def newLisp : Lisp := ⟨.init, 0, {}⟩

/-- `NamedSymbol t vm o name`: the object is the symbol that is written `name`: it has the number that the table has for the
name, and it carries the name. -/
def NamedSymbol (t : Tables.Symbols) (vm : VM.VM) (o : VM.Obj) (name : Bytes) : Prop :=
  Shown (fun w id => Tables.nameToValue t w = id) vm o (.identifier name)

end DuckLisp.Spec
