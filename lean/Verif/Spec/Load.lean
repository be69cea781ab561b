import Verif.Model.Load
import Verif.Spec.Reader
import Verif.Spec.Run

/-!
# Specification: programs given as texts
-/

namespace DuckLisp.Spec

open DuckLisp.Reader (Ast)

/-- A text: white space and comments, one way to write the program `e`, and anything after it that does not belong to it
(nothing needs to come after an expression). -/
def ProgramText (arith : DlString.Arith UInt64) (e : Ast) (text : Bytes) : Prop :=
  ∃ sep w post, Sep sep ∧ Written (Reader.valueOf arith) e w ∧ Stops e post ∧ text = sep ++ w ++ post

/-- Texts are loaded, one after the other; `beyond` are the bytes in memory after them.  The code of each is within the
limits of the machine's format (`Loadable`). -/
inductive LoadsAll (cfg : Load.Config) (D : Dialect) (assignable : Bytes → Bool) :
    Load.State → List (Bytes × Byte) → List Ast → List Bytes → Load.State → Prop
  | nil {s} : LoadsAll cfg D assignable s [] [] [] s
  | cons {s text beyond e bytes s1 texts es codes s2} : ProgramText cfg.reader.arith e text →
      height e < cfg.reader.maxDepth → Term D false (Reader.postprocess e) →
      Load.loadString cfg text beyond s = .code bytes s1 → Loadable cfg.assembler assignable s1.compiler bytes →
      LoadsAll cfg D assignable s1 texts es codes s2 →
      LoadsAll cfg D assignable s ((text, beyond) :: texts) (Reader.postprocess e :: es) (bytes :: codes) s2

end DuckLisp.Spec
