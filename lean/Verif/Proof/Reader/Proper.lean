import Verif.Spec.Reader
import Verif.Spec.AstObj
import Verif.Model.Reader

/-!
# Trees that have been written are proper
-/

namespace DuckLisp.Reader

open DuckLisp DuckLisp.Spec

theorem stringBody_length {raw s : Bytes} (h : StringBody raw s) : s.length ≤ raw.length := by
  induction h <;> simp_all <;> omega

theorem proper_of_written {toDouble : Bytes → Option UInt64} {e : Ast} {w : Bytes} (h : Written toDouble e w) :
    w.length < 2 ^ 63 → Proper (postprocess e) := by
  refine Written.rec (toDouble := toDouble) (motive_1 := fun e w _ => w.length < 2 ^ 63 → Proper (postprocess e))
    (motive_2 := fun es r _ => r.length < 2 ^ 63 → ProperList (postprocessAll es))
    ?_ ?_ ?_ ?_ ?_ ?_ ?_ ?_ ?_ ?_ ?_ ?_ ?_ h
  all_goals simp only [postprocess, postprocessAll, Proper, ProperList, List.length_cons, List.length_append]
  · exact fun _ => trivial
  · exact fun _ => trivial
  · intro n w _ hr _
    omega
  · exact fun _ _ _ => trivial
  · intro s raw h hl
    have := stringBody_length h
    omega
  · exact fun _ h => h
  · intro w _ _ h
    omega
  · exact fun _ => trivial
  · exact fun _ ih hl => ih (by omega)
  · exact fun _ => trivial
  · exact fun _ ih hl => ih (by omega)
  · exact fun _ _ => trivial
  · exact fun _ _ _ _ ih1 ih2 hl => ⟨ih1 (by omega), ih2 (by omega)⟩

end DuckLisp.Reader
