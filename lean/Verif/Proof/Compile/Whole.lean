import Verif.Proof.Compile.Produce
import Verif.Proof.Compile.Shape
import Verif.Proof.Compile.Symbols
import Verif.Proof.Compile.Simulate

/-!
# Whole programs
-/

namespace DuckLisp.Compile

open DuckLisp DuckLisp.VM DuckLisp.Asm DuckLisp.Spec DuckLisp.Reader DuckLisp.Props

/-- The numbers that names have in a table of symbols. -/
@[reducible] def Keys.from (t : Tables.Symbols) (D : Dialect) (hD : Unclaimed D) : Keys :=
  ⟨fun x k => Tables.nameToValue t x = k ∧ k ≠ -1, fun _ => True, D, hD⟩

theorem bounded_from {s : CState} {D : Dialect} {hD : Unclaimed D} (h : s.gensymNumber ≤ 2 ^ 64) :
    @Bounded (.from s.symbols D hD) s :=
  letI : Keys := .from s.symbols D hD
  ⟨h, fun _ _ _ hx => ⟨rfl, hx⟩, fun _ => trivial⟩

theorem Mono.compileAST (cfg : Config) (n : Nat) (e : Ast) : Mono (compileAST cfg n e) := by
  unfold Compile.compileAST
  refine Mono.bind (Mono.modify fun s => ⟨rfl, rfl, rfl, rfl⟩) fun _ => Mono.bind (Mono.compound _ _ _ _ _) fun _ =>
    Mono.bind Mono.localsLength fun L => ?_
  split
  · exact Mono.bind (Mono.emitMove _ _) fun _ => Mono.bind (Mono.emitPop _) fun _ => Mono.emitExit
  · exact Mono.emitExit

variable [Keys]

/-- Bring the value of the program to the place below. -/
def epilogue (L : Nat) : List Ins := if L > 1 then [.move 1 2, .pop 1] else []

theorem compileAST_code {cfg : Config} {n : Nat} {e : Ast} {s s' : CState} (hcb : FreeNames cfg) (hf : Term Keys.dialect false e)
    (hs : s.scopes = Scopes.init) (ha : s.assembly = []) (hbody : s.body = none)
    (ht : ∃ h, Tabled s h) (hn : AllNumbered [] s) (h : compileAST cfg n e s = .ok () s') (hb : Bounded s') :
    AllNumbered [] s' ∧ ∃ code L l, Code (.form e) [[]] 0 0 code [[]] L l ∧ s'.assembly = code ++ epilogue L ++ [.halt] ∧
      s'.scopes.runtime.labelNumber = l := by
  have h0 : View false { s with scopes := s.scopes.setCurrent { s.scopes.current with labelNumber := 0 } } [[]] 0 0 := by
    rw [hs]
    exact ⟨rfl, by simp [hbody], by simp, rfl, by simp, rfl, rfl, ht.imp fun _ h => ⟨h.1, h.2, h.3⟩⟩
  unfold compileAST at h
  obtain ⟨_, s0, h1, h⟩ := CM.bind_inv h
  cases h1
  obtain ⟨i, s1, h1, h⟩ := CM.bind_inv h
  have main : ∀ (hb1 : Bounded s1), Made false (.form e) [[]] 0 0 _ s1 := fun hb1 =>
    (goodRec hcb n 0).form hf h0 h1 hb1
  have hmono : Le s1 s' := by
    have hm : Mono (do
        let length ← localsLength
        if length > 1 then do
          emitMove (length - 2 : Int) (length - 1 : Int)
          emitPop 1
          emitExit
        else emitExit : CM Unit) := by
      refine Mono.bind Mono.localsLength fun L => ?_
      split
      · exact Mono.bind (Mono.emitMove _ _) fun _ => Mono.bind (Mono.emitPop _) fun _ => Mono.emitExit
      · exact Mono.emitExit
    exact hm _ _ _ h
  obtain ⟨code, L, l, hc, hv, hx⟩ := main (hb.back hmono)
  have hbody1 := (hx.outside hbody).1
  have hcode : s1.assembly = code := by
    rw [(hx.outside hbody).2]
    show s.assembly ++ code = code
    rw [ha]
    rfl
  have hn1 : AllNumbered [] s1 := (Keeps.compound cfg n 0 e true).use h1 hn
  have hplain : ∀ (is : List Ins) (L' : Nat), (∀ i ∈ is, notSymbol i = true) → AllNumbered [] (grow s1 is L') := by
    intro is L' his
    refine ⟨hn1.1, fun i hi => ?_⟩
    have hi : i ∈ [] ++ ((s1.assembly ++ is) ++ s1.body.getD []) := by
      simpa [grow, hbody1] using hi
    simp only [List.nil_append, List.mem_append] at hi
    rcases hi with (hi | hi) | hi
    · exact hn1.2 i (by simp [hi])
    · exact Numbered.plain (his i hi)
    · exact hn1.2 i (by simp [hi])
  rw [CM.bind_ok (localsLength_eq hv)] at h
  by_cases hL : L > 1
  · rw [if_pos hL] at h
    obtain ⟨_, s3, h3, h⟩ := CM.bind_inv h
    obtain ⟨_, s2, h2, h⟩ := CM.bind_inv h
    rw [emitMove_eq hv] at h3
    cases h3
    rw [emitPop_eq (hv.grow _ _) (by omega)] at h2
    cases h2
    have hv2 := (hv.grow (if (L : Int) - 2 = L - 1 then [] else [.move ((L : Int) - (L - 1)) ((L : Int) - (L - 2))]) L).grow
      (if 1 = 0 then [] else [.pop (1 : Nat)]) (L - 1)
    change put .halt _ = _ at h
    rw [put_eq hv2] at h
    cases h
    rw [if_neg (by omega), show (L : Int) - (L - 1) = 1 by omega, show (L : Int) - (L - 2) = 2 by omega]
    refine ⟨?_, code, L, l, hc, ?_, ?_⟩
    · rw [grow_grow, grow_grow]
      exact hplain _ _ (by decide)
    · simp only [grow, hbody1, hcode, epilogue, if_pos hL]
      simp
    · simp only [grow]
      exact hv.label
  · rw [if_neg hL] at h
    change put .halt s1 = _ at h
    rw [put_eq hv] at h
    cases h
    refine ⟨?_, code, L, l, hc, ?_, ?_⟩
    · exact hplain _ _ (by decide)
    · simp only [grow, hbody1, hcode, epilogue, if_neg hL]
      simp
    · simp only [grow]
      exact hv.label

theorem epilogue_own {L l : Nat} : Own (epilogue L ++ [.halt]) l l := by
  unfold epilogue
  split <;> exact .plain rfl (by simp [labelOf])

/-- The program is in order for the assembler. -/
theorem inOrder_of_own {program : List Ins} {l : Nat} (h : Own program 0 l) (hh : program.getLast? = some .halt)
    (hrel : .releaseUpvalues [] ∉ program) : InOrder l program where
  named i hi n hn := (h.mem n (h.named i hi n hn)).2
  placed n hn := by
    refine (h.mem n ?_).2
    unfold labels
    rw [List.mem_filterMap]
    exact ⟨_, hn, rfl⟩
  once j j' n hj hj' := by
    have key : ∀ (p : List Ins), (labels p).Nodup → ∀ (j j' : Nat), p[j]? = some (.label n) →
        p[j']? = some (.label n) → j ≤ j' → j = j' := by
      intro p
      induction p with
      | nil => intro _ j j' h; simp at h
      | cons i p ih =>
        intro hn j j' h1 h2 hle
        have hp : (labels p).Nodup := by
          have : labels (i :: p) = labels [i] ++ labels p := labels_append [i] p
          rw [this] at hn
          exact (List.nodup_append.1 hn).2.1
        cases j with
        | zero =>
          cases j' with
          | zero => rfl
          | succ j' =>
            simp only [List.getElem?_cons_zero, Option.some.injEq, List.getElem?_cons_succ] at h1 h2
            subst h1
            have : labels (.label n :: p) = n :: labels p := rfl
            rw [this] at hn
            refine absurd ?_ (List.nodup_cons.1 hn).1
            unfold labels
            rw [List.mem_filterMap]
            exact ⟨_, List.mem_of_getElem? h2, rfl⟩
        | succ j =>
          cases j' with
          | zero => omega
          | succ j' =>
            rw [ih hp j j' (by simpa using h1) (by simpa using h2) (by omega)]
    rcases Nat.le_total j j' with hle | hle
    · exact key program h.nodup j j' hj hj' hle
    · exact (key program h.nodup j' j hj' hj hle).symm
  halts := hh
  releases := hrel

end DuckLisp.Compile
