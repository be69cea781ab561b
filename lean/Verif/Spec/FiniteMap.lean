import Verif.Model.Basic

/-!
# Specification: finite maps by their history of writes
-/

namespace DuckLisp.Spec

/-- The value a history of writes (oldest first) leaves at `k`: that of the latest write to `k`,
and `dflt k` if `k` was never written. -/
def lastWrite {K V : Type} [DecidableEq K] (dflt : K → V) (hist : List (K × V)) (k : K) : V :=
  match hist.reverse.find? (fun w => w.1 = k) with
  | some w => w.2
  | none => dflt k

theorem lastWrite_nil {K V : Type} [DecidableEq K] (d : K → V) (k : K) :
    lastWrite d [] k = d k := rfl

theorem lastWrite_snoc {K V : Type} [DecidableEq K] (d : K → V) (h : List (K × V)) (k' : K) (v : V)
    (k : K) : lastWrite d (h ++ [(k', v)]) k = if k' = k then v else lastWrite d h k := by
  unfold lastWrite
  by_cases hk : k' = k <;> simp [hk]

end DuckLisp.Spec
