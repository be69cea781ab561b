import Verif.Proof.Compile.Shape
import Verif.Proof.Compile.Mono

/-!
# The labels of all code that the compiler makes

Whatever is compiled, functions inside functions included: the labels that a part of the compiler registers are those
that its code has, each once, and its jumps, branches and functions name no others.
-/

namespace DuckLisp.Compile

open DuckLisp.Asm DuckLisp.Reader DuckLisp.Spec

/-- The scopes once the top one has been asked for. -/
def norm (ss : List Scope) : List Scope := (getTop ss).1

/-- The labels of the scopes. -/
def labs (s : CState) : List Trie.Node := (norm s.scopes.runtime.scopes).map Scope.labels

/-- What the label tables say about the names generated before the `g`-th. -/
def known (g : Nat) (ts : List Trie.Node) : List (Nat → Int) :=
  ts.map fun t k => if k < g then Trie.find t (gname k) else 0

/-- The number of the next label. -/
abbrev lnum (s : CState) : Nat := s.scopes.runtime.labelNumber

theorem norm_of_ne {ss : List Scope} (h : ss ≠ []) : norm ss = ss := by
  unfold norm getTop
  rw [List.getLast?_eq_some_getLast h]

theorem norm_nil : norm [] = [Scope.init true] := rfl

theorem norm_ne (ss : List Scope) : norm ss ≠ [] := by
  by_cases h : ss = []
  · subst h; simp [norm_nil]
  · rwa [norm_of_ne h]

theorem norm_norm (ss : List Scope) : norm (norm ss) = norm ss := norm_of_ne (norm_ne ss)

theorem getTop_eq (ss : List Scope) : getTop ss = (norm ss, (getTop ss).2) := rfl

theorem norm_last (ss : List Scope) : (norm ss).getLast? = some (getTop ss).2 := by
  by_cases h : ss = []
  · subst h; rfl
  · rw [norm_of_ne h]
    unfold getTop
    rw [List.getLast?_eq_some_getLast h]

theorem norm_split (ss : List Scope) : norm ss = (norm ss).dropLast ++ [(getTop ss).2] := by
  have h := norm_last ss
  rw [List.getLast?_eq_some_getLast (norm_ne ss)] at h
  injection h with h
  rw [← h, List.dropLast_append_getLast]

theorem labs_split (s : CState) :
    labs s = ((norm s.scopes.runtime.scopes).dropLast).map Scope.labels ++ [(top s).labels] := by
  unfold labs
  rw [norm_split, List.map_append]
  simp [top]

theorem labs_ne (s : CState) : labs s ≠ [] := by rw [labs_split]; simp

theorem setTop_norm (ss : List Scope) (a : Scope) : setTop (norm ss) a = (norm ss).dropLast ++ [a] := by
  have h := norm_split ss
  generalize (norm ss).dropLast = d at h
  rw [h]
  unfold setTop
  simp

theorem norm_snoc (d : List Scope) (a : Scope) : norm (d ++ [a]) = d ++ [a] := norm_of_ne (by simp)

theorem labels_app (a b : List Ins) : labels (a ++ b) = labels a ++ labels b := by simp [labels]

/-- Everything that the invariant looks at is the same. -/
structure Quiet (s s' : CState) : Prop where
  run : s'.scopes.inComptime = s.scopes.inComptime
  labs : labs s' = labs s
  gens : s'.gensymNumber = s.gensymNumber
  lnum : lnum s' = lnum s
  assembly : s'.assembly = s.assembly
  body : s'.body = s.body

/-- Compiling the program, with proper tables of labels. -/
structure Good (s : CState) : Prop where
  run : s.scopes.inComptime = false
  wf : ∀ t ∈ labs s, t.WF

theorem Good.current {s : CState} (h : Good s) : s.scopes.current = s.scopes.runtime := by
  simp [Scopes.current, h.run]

theorem Good.setCurrent {s : CState} (h : Good s) (sub : Sub) :
    s.scopes.setCurrent sub = { s.scopes with runtime := sub } := by simp [Scopes.setCurrent, h.run]

/-- The code between two states, the labels named in `F` known at the end, those in `Q` registered but not yet
placed. -/
structure Core (s0 : CState) (F : List (Nat × Nat)) (Q : List Nat) (s : CState) : Prop where
  view : known s0.gensymNumber (labs s) = known s0.gensymNumber (labs s0)
  found : ∀ p ∈ F, s0.gensymNumber ≤ p.1 ∧ p.1 < s.gensymNumber ∧ lnum s0 ≤ p.2 ∧ p.2 < lnum s ∧
    Trie.find (top s).labels (gname p.1) = (p.2 : Int)
  code : ∃ A B, s.assembly = s0.assembly ++ A ∧ s.body = s0.body.map (· ++ B) ∧ (s0.body = none → B = []) ∧
    (labels A ++ labels B ++ Q).Perm (List.range' (lnum s0) (lnum s - lnum s0)) ∧
    (∀ i ∈ A ++ B, ∀ n, labelOf i = some n → lnum s0 ≤ n ∧ n < lnum s) ∧
    Ins.releaseUpvalues [] ∉ A ++ B

/-- The invariant: unless the counter of generated names has wrapped, the code is in order. -/
structure W (s0 : CState) (F : List (Nat × Nat)) (Q : List Nat) (s : CState) : Prop where
  good : Good s
  gens : s0.gensymNumber ≤ s.gensymNumber
  le : lnum s0 ≤ lnum s
  ok : s.gensymNumber ≤ 2 ^ 64 → Core s0 F Q s

theorem W.refl {s : CState} (h : Good s) : W s [] [] s := by
  refine ⟨h, Nat.le_refl _, Nat.le_refl _, fun _ => ⟨rfl, fun p hp => (by cases hp), [], [], by simp, by simp, fun _ => rfl, ?_, by simp, by simp⟩⟩
  simp [labels]

theorem W.quiet {s s' : CState} (h : Good s) (q : Quiet s s') : W s [] [] s' := by
  refine ⟨⟨q.run.trans h.run, q.labs ▸ h.wf⟩, Nat.le_of_eq q.gens.symm, Nat.le_of_eq q.lnum.symm,
    fun _ => ⟨by rw [q.labs], fun p hp => (by cases hp), [], [], by simp [q.assembly], by simp [q.body],
      fun _ => rfl, ?_, by simp, by simp⟩⟩
  simp [labels, q.lnum]

theorem known_mono {g g' : Nat} {a b : List Trie.Node} (hg : g ≤ g') (h : known g' a = known g' b) :
    known g a = known g b := by
  have := congrArg (List.map fun (f : Nat → Int) k => if k < g then f k else 0) h
  unfold known at this ⊢
  simp only [List.map_map, Function.comp_def] at this
  have e : ∀ t : Trie.Node, (fun k => if k < g then (if k < g' then Trie.find t (gname k) else 0) else 0) =
      fun k => if k < g then Trie.find t (gname k) else 0 := by
    intro t
    funext k
    by_cases hk : k < g
    · rw [if_pos hk, if_pos hk, if_pos (by omega)]
    · rw [if_neg hk, if_neg hk]
  have e2 := funext e
  rw [e2] at this
  exact this

theorem known_top {g : Nat} {s s' : CState} (h : known g (labs s') = known g (labs s)) {k : Nat} (hk : k < g) :
    Trie.find (top s').labels (gname k) = Trie.find (top s).labels (gname k) := by
  unfold known at h
  rw [labs_split, labs_split s, List.map_append, List.map_append] at h
  have := (List.append_inj' h rfl).2
  simp only [List.map_cons, List.map_nil, List.cons.injEq, and_true] at this
  have := congrFun this k
  simpa [hk] using this

theorem W.trans {s0 F Q s s'} (h : W s0 F Q s) (g : W s [] [] s') : W s0 F Q s' := by
  refine ⟨g.good, Nat.le_trans h.gens g.gens, Nat.le_trans h.le g.le, fun hb => ?_⟩
  have c := h.ok (Nat.le_trans g.gens hb)
  have d := g.ok hb
  have hl := h.le
  have gl := g.le
  have hg := g.gens
  obtain ⟨A, B, a1, a2, a3, a4, a5, a6⟩ := c.code
  obtain ⟨A', B', b1, b2, b3, b4, b5, b6⟩ := d.code
  refine ⟨(known_mono h.gens d.view).trans c.view, fun p hp => ?_, A ++ A', B ++ B', ?_, ?_, ?_, ?_, ?_, ?_⟩
  · obtain ⟨f1, f2, f3, f4, f5⟩ := c.found p hp
    exact ⟨f1, by omega, f3, by omega, (known_top d.view f2).trans f5⟩
  · rw [b1, a1, List.append_assoc]
  · rw [b2, a2]
    cases s0.body <;> simp
  · intro hn
    rw [a3 hn, b3 (by rw [a2, hn]; rfl)]; rfl
  · have e : lnum s' - lnum s0 = (lnum s - lnum s0) + (lnum s' - lnum s) := by omega
    rw [e, ← List.range'_append_1]
    rw [show lnum s0 + (lnum s - lnum s0) = lnum s by omega]
    refine List.Perm.trans ?_ (List.Perm.append a4 b4)
    rw [labels_app, labels_app]
    simp only [List.append_nil]
    refine List.perm_iff_count.2 fun x => ?_
    simp only [List.count_append]
    omega
  · intro i hi n hn
    have : i ∈ A ++ B ∨ i ∈ A' ++ B' := by
      simp only [List.mem_append] at hi ⊢
      tauto
    rcases this with h1 | h1
    · have := a5 i h1 n hn
      omega
    · have := b5 i h1 n hn
      omega
  · simp only [List.mem_append, not_or] at a6 b6 ⊢
    tauto

theorem W.weaken {s0 F F' Q s} (h : W s0 F Q s) (hs : ∀ p ∈ F', p ∈ F) : W s0 F' Q s :=
  ⟨h.good, h.gens, h.le, fun hb => ⟨(h.ok hb).view, fun p hp => (h.ok hb).found p (hs p hp), (h.ok hb).code⟩⟩

/-- Where the code goes. -/
def putState (i : Ins) (s : CState) : CState :=
  match s.body with
  | some body => { s with body := some (body ++ [i]) }
  | none => { s with assembly := s.assembly ++ [i] }

theorem putState_scopes (i : Ins) (s : CState) : (putState i s).scopes = s.scopes := by
  unfold putState; split <;> rfl

theorem putState_gens (i : Ins) (s : CState) : (putState i s).gensymNumber = s.gensymNumber := by
  unfold putState; split <;> rfl

/-- An instruction with a label is added. -/
theorem W.label {s0 F Q Q' s n} (h : W s0 F Q s) (hq : s.gensymNumber ≤ 2 ^ 64 → Q.Perm (n :: Q')) : W s0 F Q' (putState (.label n) s) := by
  have hs := putState_scopes (.label n) s
  have hg := putState_gens (.label n) s
  have hl : labs (putState (.label n) s) = labs s := by unfold labs; rw [hs]
  have ht : top (putState (.label n) s) = top s := by unfold top; rw [hs]
  refine ⟨⟨by rw [hs]; exact h.good.run, by rw [hl]; exact h.good.wf⟩, by rw [hg]; exact h.gens,
    by unfold lnum; rw [hs]; exact h.le, fun hb => ?_⟩
  rw [hg] at hb
  have c := h.ok hb
  obtain ⟨A, B, a1, a2, a3, a4, a5, a6⟩ := c.code
  have hln : lnum (putState (.label n) s) = lnum s := by unfold lnum; rw [hs]
  refine ⟨by rw [hl]; exact c.view, by rw [hg, hln, ht]; exact c.found, ?_⟩
  rw [hln]
  rcases hbd : s0.body with _ | b0
  · have hbs : s.body = none := by rw [a2, hbd]; rfl
    have e : putState (.label n) s = { s with assembly := s.assembly ++ [.label n] } := by unfold putState; rw [hbs]
    obtain rfl := a3 hbd
    refine ⟨A ++ [.label n], [], ?_, ?_, fun _ => rfl, ?_, ?_, ?_⟩
    · rw [e]; simp [a1]
    · rw [e]; simp [hbs]
    · refine List.Perm.trans ?_ a4
      refine List.perm_iff_count.2 fun x => ?_
      have := List.perm_iff_count.1 (hq hb) x
      rw [labels_app]
      simp only [List.count_append, this, List.count_cons]
      simp [labels, List.count_cons]
      omega
    · intro i hi m hm
      simp only [List.append_nil, List.mem_append, List.mem_singleton] at hi
      rcases hi with hi | rfl
      · exact a5 i (by simpa using hi) m hm
      · cases hm
    · simpa using a6
  · have hbs : s.body = some (b0 ++ B) := by rw [a2, hbd]; rfl
    have e : putState (.label n) s = { s with body := some (b0 ++ B ++ [.label n]) } := by unfold putState; rw [hbs]
    refine ⟨A, B ++ [.label n], ?_, ?_, fun h => (by cases h), ?_, ?_, ?_⟩
    · rw [e]; exact a1
    · rw [e]; simp
    · refine List.Perm.trans ?_ a4
      refine List.perm_iff_count.2 fun x => ?_
      have := List.perm_iff_count.1 (hq hb) x
      rw [labels_app]
      simp only [List.count_append, this, List.count_cons]
      simp [labels, List.count_cons]
      omega
    · intro i hi m hm
      simp only [← List.append_assoc, List.mem_append, List.mem_singleton] at hi
      rcases hi with hi | rfl
      · exact a5 i (by simpa using hi) m hm
      · cases hm
    · simpa using a6

/-- Another instruction is added. -/
theorem W.put {s0 F Q s i} (h : W s0 F Q s) (hi : ∀ n, i ≠ .label n) (hr : i ≠ .releaseUpvalues [])
    (hn : ∀ n, s.gensymNumber ≤ 2 ^ 64 → labelOf i = some n → lnum s0 ≤ n ∧ n < lnum s) :
    W s0 F Q (putState i s) := by
  have hs := putState_scopes i s
  have hg := putState_gens i s
  have hl : labs (putState i s) = labs s := by unfold labs; rw [hs]
  have ht : top (putState i s) = top s := by unfold top; rw [hs]
  refine ⟨⟨by rw [hs]; exact h.good.run, by rw [hl]; exact h.good.wf⟩, by rw [hg]; exact h.gens,
    by unfold lnum; rw [hs]; exact h.le, fun hb => ?_⟩
  rw [hg] at hb
  have c := h.ok hb
  obtain ⟨A, B, a1, a2, a3, a4, a5, a6⟩ := c.code
  have hln : lnum (putState i s) = lnum s := by unfold lnum; rw [hs]
  have h0 : labels [i] = [] := by
    unfold labels
    cases i <;> first | rfl | exact absurd rfl (hi _)
  refine ⟨by rw [hl]; exact c.view, by rw [hg, hln, ht]; exact c.found, ?_⟩
  rw [hln]
  rcases hbd : s0.body with _ | b0
  · have hbs : s.body = none := by rw [a2, hbd]; rfl
    have e : putState i s = { s with assembly := s.assembly ++ [i] } := by unfold putState; rw [hbs]
    obtain rfl := a3 hbd
    refine ⟨A ++ [i], [], ?_, ?_, fun _ => rfl, ?_, ?_, ?_⟩
    · rw [e]; simp [a1]
    · rw [e]; simp [hbs]
    · rw [labels_app, h0, List.append_nil]; exact a4
    · intro j hj m hm
      simp only [List.append_nil, List.mem_append, List.mem_singleton] at hj
      rcases hj with hj | rfl
      · exact a5 j (by simpa using hj) m hm
      · exact hn m hb hm
    · simp only [List.append_nil, List.mem_append, List.mem_singleton, not_or] at a6 ⊢
      exact ⟨a6, fun h => hr h.symm⟩
  · have hbs : s.body = some (b0 ++ B) := by rw [a2, hbd]; rfl
    have e : putState i s = { s with body := some (b0 ++ B ++ [i]) } := by unfold putState; rw [hbs]
    refine ⟨A, B ++ [i], ?_, ?_, fun h => (by cases h), ?_, ?_, ?_⟩
    · rw [e]; exact a1
    · rw [e]; simp
    · rw [labels_app, h0, List.append_nil]; exact a4
    · intro j hj m hm
      simp only [← List.append_assoc, List.mem_append, List.mem_singleton] at hj
      rcases hj with hj | rfl
      · exact a5 j (by simpa using hj) m hm
      · exact hn m hb hm
    · simp only [List.mem_append, List.mem_singleton, not_or] at a6 ⊢
      exact ⟨a6.1, a6.2, fun h => hr h.symm⟩

/-- A name is generated. -/
theorem W.gensym {s0 F Q s} (h : W s0 F Q s) : W s0 F Q { s with gensymNumber := s.gensymNumber + 1 } := by
  refine ⟨⟨h.good.run, h.good.wf⟩, Nat.le_succ_of_le h.gens, h.le, fun hb => ?_⟩
  have c := h.ok (by simp only at hb; omega)
  refine ⟨c.view, fun p hp => ?_, c.code⟩
  obtain ⟨f1, f2, f3⟩ := c.found p hp
  exact ⟨f1, by simp only; omega, f3⟩

/-- The state after a label is registered. -/
def regState (k : Nat) (s : CState) : CState :=
  { s with scopes := { s.scopes with runtime := { s.scopes.runtime with
      scopes := (norm s.scopes.runtime.scopes).dropLast ++
        [{ top s with labels := Trie.insert (top s).labels (gname k) (lnum s : Int) }],
      labelNumber := lnum s + 1 } } }

theorem register_state {s : CState} (h : Good s) (k : Nat) : register (gname k) s = .ok () (regState k s) := by
  unfold register modify registerLabel
  simp only [h.current, h.setCurrent, changeTop, regState]
  rw [getTop_eq]
  simp only [setTop_norm]
  rfl

theorem regState_labs (k : Nat) (s : CState) :
    labs (regState k s) = ((norm s.scopes.runtime.scopes).dropLast).map Scope.labels ++
      [Trie.insert (top s).labels (gname k) (lnum s : Int)] := by
  unfold labs regState
  simp only [norm_snoc, List.map_append, List.map_cons, List.map_nil]

theorem regState_top (k : Nat) (s : CState) :
    (top (regState k s)).labels = Trie.insert (top s).labels (gname k) (lnum s : Int) := by
  show (getTop ((norm s.scopes.runtime.scopes).dropLast ++ [_])).2.labels = _
  unfold getTop
  rw [List.getLast?_concat]

/-- A label is registered. -/
theorem W.register {s0 F Q s k} (h : W s0 F Q s) (h0 : s0.gensymNumber ≤ k) (hk : k < s.gensymNumber)
    (hF : s.gensymNumber ≤ 2 ^ 64 → ∀ p ∈ F, p.1 ≠ k) : W s0 ((k, lnum s) :: F) (Q ++ [lnum s]) (regState k s) := by
  have hw : (top s).labels.WF := h.good.wf _ (by rw [labs_split]; simp)
  have hi := Trie.insert_find (top s).labels (gname k) (lnum s : Int) hw
  have hl := h.le
  refine ⟨⟨h.good.run, fun t ht => ?_⟩, h.gens, by show lnum s0 ≤ lnum s + 1; omega, fun hb => ?_⟩
  · rw [regState_labs] at ht
    rcases List.mem_append.1 ht with ht | ht
    · exact h.good.wf t (by rw [labs_split]; exact List.mem_append_left _ ht)
    · rw [List.mem_singleton.1 ht]; exact hi.1
  · have hb' : s.gensymNumber ≤ 2 ^ 64 := hb
    have c := h.ok hb'
    obtain ⟨A, B, a1, a2, a3, a4, a5, a6⟩ := c.code
    refine ⟨?_, ?_, A, B, a1, a2, a3, ?_, ?_, a6⟩
    · rw [← c.view, regState_labs, labs_split s]
      unfold known
      rw [List.map_append, List.map_append]
      congr 1
      simp only [List.map_cons, List.map_nil, List.cons.injEq, and_true]
      funext j
      by_cases hj : j < s0.gensymNumber
      · rw [if_pos hj, if_pos hj, hi.2, if_neg]
        intro e
        have := gname_inj (by omega) (by omega) e
        omega
      · rw [if_neg hj, if_neg hj]
    · intro p hp
      rcases List.mem_cons.1 hp with rfl | hp
      · refine ⟨h0, hk, hl, Nat.lt_succ_self _, ?_⟩
        rw [regState_top, hi.2, if_pos rfl]
      · obtain ⟨f1, f2, f3, f4, f5⟩ := c.found p hp
        refine ⟨f1, f2, f3, Nat.lt_succ_of_lt f4, ?_⟩
        rw [regState_top, hi.2, if_neg, f5]
        intro e
        exact hF hb' p hp (gname_inj (by omega) (by omega) e)
    · show List.Perm _ (List.range' (lnum s0) (lnum s + 1 - lnum s0))
      rw [show lnum s + 1 - lnum s0 = (lnum s - lnum s0) + 1 by omega, List.range'_concat, ← List.append_assoc,
        show lnum s0 + 1 * (lnum s - lnum s0) = lnum s by omega]
      exact List.Perm.append_right _ a4
    · intro i hi' n hn
      have := a5 i hi' n hn
      show lnum s0 ≤ n ∧ n < lnum s + 1
      omega

/-! ## The parts of the compiler -/

theorem put_state (i : Ins) (s : CState) : put i s = .ok () (putState i s) := rfl

theorem nearest_last {ss : List Scope} {a : Scope} {name : Bytes} {v : Int} (hl : ss.getLast? = some a)
    (h : Trie.find a.labels name = v) (hv : v ≠ -1) : nearest Scope.labels name ss ss.length = v := by
  obtain ⟨d, rfl⟩ : ∃ d, ss = d ++ [a] := by
    rw [List.getLast?_eq_some_iff] at hl
    exact hl
  simp only [List.length_append, List.length_cons, List.length_nil, Nat.zero_add, nearest]
  simp only [Nat.le_refl, List.getElem?_append_right, Nat.sub_self, List.getElem?_cons_zero]
  rw [h, if_pos hv]

theorem W.number {s0 F Q s k n} (h : W s0 F Q s) (hm : (k, n) ∈ F) (hb : s.gensymNumber ≤ 2 ^ 64) :
    getLabelFromName (gname k) s.scopes.current = (n : Int) := by
  have hf := ((h.ok hb).found _ hm).2.2.2.2
  rw [h.good.current]
  unfold getLabelFromName
  by_cases hn : s.scopes.runtime.scopes = []
  · unfold top at hf
    rw [hn] at hf
    have : Trie.find (getTop []).2.labels (gname k) = -1 := find_init _
    simp only at hf
    omega
  · refine nearest_last (a := top s) ?_ hf (by omega)
    have := norm_last s.scopes.runtime.scopes
    rw [norm_of_ne hn] at this
    exact this

theorem W.normalize {s0 F Q s} (h : W s0 F Q s) : W s0 F Q { s with
    scopes := s.scopes.setCurrent { s.scopes.current with scopes := (getTop s.scopes.current.scopes).1 } } := by
  refine h.trans (W.quiet h.good ?_)
  rw [h.good.current, h.good.setCurrent]
  refine ⟨rfl, ?_, rfl, rfl, rfl, rfl⟩
  unfold labs
  exact congrArg _ (norm_norm _)

theorem W.emitJump {s0 F Q s s' k n u} (h : W s0 F Q s) (hm : (k, n) ∈ F) (e : emitJump (gname k) s = .ok u s') :
    W s0 F Q s' := by
  obtain ⟨l, s1, e1, e2⟩ := CM.bind_inv e
  obtain ⟨st, s2, e3, e4⟩ := CM.bind_inv e1
  cases e3
  dsimp only at e4
  split at e4
  · cases e4
  obtain ⟨rfl, rfl⟩ := CM.pure_inv e4
  rw [put_state] at e2
  cases e2
  refine h.put (fun _ => by simp) (by simp) fun m hb hm' => ?_
  rw [h.number hm hb] at hm'
  have := (h.ok hb).found _ hm
  cases hm'
  exact ⟨this.2.2.1, this.2.2.2.1⟩

theorem W.emitLabel {s0 F Q Q' s s' k n u} (h : W s0 F Q s) (hm : (k, n) ∈ F) (hq : Q.Perm (n :: Q'))
    (e : emitLabel (gname k) s = .ok u s') : W s0 F Q' s' := by
  obtain ⟨st, s2, e3, e4⟩ := CM.bind_inv e
  cases e3
  dsimp only at e4
  obtain ⟨_, s3, e5, e6⟩ := CM.bind_inv e4
  have h3 := h.normalize
  cases e5
  split at e6
  · cases e6
  rw [put_state] at e6
  cases e6
  refine h3.label fun hb => ?_
  have := ((h.ok hb).found _ hm).2.2.2.2
  rw [h.good.current]
  unfold top at this
  rw [this]
  exact hq

/-- A part of the compiler that leaves the labels in order. -/
def Lab {α : Type} (m : CM α) : Prop := ∀ s a s', Good s → m s = .ok a s' → W s [] [] s'

theorem Lab.bind {α β : Type} {m : CM α} {f : α → CM β} (h : Lab m) (g : ∀ a, Lab (f a)) : Lab (m >>= f) := by
  intro s b s' hs e
  obtain ⟨a, s1, e1, e2⟩ := CM.bind_inv e
  have w := h s a s1 hs e1
  exact w.trans (g a s1 b s' w.good e2)

theorem Lab.pure {α : Type} (a : α) : Lab (pure a : CM α) := by
  intro s b s' hs e
  obtain ⟨-, rfl⟩ := CM.pure_inv e
  exact W.refl hs

theorem Lab.fail {α : Type} (e : DlError) : Lab (CM.fail e : CM α) := by intro s b s' _ h; cases h
theorem Lab.outside {α : Type} : Lab (CM.outside : CM α) := by intro s b s' _ h; cases h
theorem Lab.ub {α : Type} : Lab (CM.ub : CM α) := by intro s b s' _ h; cases h
theorem Lab.timeout {α : Type} : Lab (CM.timeout : CM α) := by intro s b s' _ h; cases h
theorem Lab.get : Lab get := by intro s b s' hs h; cases h; exact W.refl hs
theorem Lab.localsLength : Lab localsLength := by intro s b s' hs h; cases h; exact W.refl hs

theorem Lab.modify {f : CState → CState} (h : ∀ s, Good s → Quiet s (f s)) : Lab (modify f) := by
  intro s b s' hs e
  cases e
  exact W.quiet hs (h s hs)

theorem Lab.setLocalsLength (n : Nat) : Lab (setLocalsLength n) := by
  refine Lab.modify fun s hs => ?_
  rw [hs.setCurrent, hs.current]
  exact ⟨rfl, rfl, rfl, rfl, rfl, rfl⟩

theorem Lab.topScope : Lab topScope := by
  intro s a s' hs e
  obtain ⟨st, s2, e3, e4⟩ := CM.bind_inv e
  cases e3
  dsimp only at e4
  obtain ⟨_, s3, e5, e6⟩ := CM.bind_inv e4
  have h3 := (W.refl hs).normalize
  cases e5
  obtain ⟨-, rfl⟩ := CM.pure_inv e6
  exact h3

theorem changeTop_quiet {s : CState} (f : Scope → Scope) (hf : ∀ t, (f t).labels = t.labels) :
    Quiet s { s with scopes := { s.scopes with runtime := changeTop f s.scopes.runtime } } := by
  refine ⟨rfl, ?_, rfl, rfl, rfl, rfl⟩
  unfold labs changeTop
  rw [getTop_eq]
  simp only [setTop_norm, norm_snoc, List.map_append, List.map_cons, List.map_nil, hf]
  exact (labs_split s).symm

theorem Lab.addVariable (name : Bytes) : Lab (addVariable name) := by
  refine Lab.modify fun s hs => ?_
  simp only [addObject, hs.current, hs.setCurrent]
  exact changeTop_quiet _ fun _ => rfl

theorem Lab.addFunction (name : Bytes) : Lab (addFunction name) := by
  refine Lab.modify fun s hs => ?_
  simp only [addInterpretedFunction, hs.current, hs.setCurrent]
  exact changeTop_quiet _ fun _ => rfl

theorem Lab.intern (name : Bytes) : Lab (intern name) := by
  intro s b s' hs h
  unfold Compile.intern at h
  split at h <;> cases h
  exact W.quiet hs ⟨rfl, rfl, rfl, rfl, rfl, rfl⟩

theorem Lab.globalFromName (name : Bytes) : Lab (globalFromName name) := by
  intro s b s' hs h
  cases h
  exact W.refl hs

theorem Lab.addGlobal (name : Bytes) : Lab (addGlobal name) := by
  refine Lab.bind (Lab.intern _) fun _ => Lab.bind (Lab.modify fun s hs => ?_) fun _ => Lab.pure _
  split <;> exact ⟨rfl, rfl, rfl, rfl, rfl, rfl⟩

/-- The same labels in the same scopes. -/
def SameLabs (a b : List Scope) : Prop := b.map Scope.labels = a.map Scope.labels

theorem set_same {ss : List Scope} {n : Nat} {a b : Scope} (h : ss[n]? = some a) (hb : b.labels = a.labels) :
    SameLabs ss (ss.set n b) := by
  unfold SameLabs
  rw [List.map_set, hb]
  apply List.ext_getElem?
  intro i
  rw [List.getElem?_set]
  split
  · rename_i hi
    subst hi
    obtain ⟨hlt, he⟩ := List.getElem?_eq_some_iff.1 h
    simp [hlt, he]
  · rfl

theorem registerUpvalue_same (ss : List Scope) (fs : Scope) (fi : Nat) (sc : Scope) (si : Nat) (index : Int) :
    SameLabs ss (registerUpvalue ss fs fi sc si index).1 := by
  unfold registerUpvalue
  have h1 : SameLabs ss (captureIn ss fs fi index).1 := by
    unfold captureIn
    split
    · rfl
    · split
      · rfl
      · rename_i h
        exact set_same h rfl
  have h2 : ∀ ts, SameLabs ts (noteIn ts sc si index) := by
    intro ts
    unfold noteIn
    split
    · rfl
    · split
      · rfl
      · rename_i h
        exact set_same h rfl
  exact (h2 _).trans h1

theorem freeIndex_same (fo : Bool) (name : Bytes) : ∀ (n : Nat) (ss : List Scope) (fs : Scope) (fi : Nat),
    SameLabs ss (freeIndexHelper fo name ss fs fi n).1
  | 0, ss, _, _ => rfl
  | n + 1, ss, fs, fi => by
    unfold freeIndexHelper
    split
    · rfl
    · rename_i sc _
      dsimp only
      split
      · exact registerUpvalue_same _ _ _ _ _ _
      · split
        · have ih := freeIndex_same fo name n ss sc n
          split
          · rename_i h; rw [h] at ih; exact ih
          · rename_i h; rw [h] at ih
            exact (registerUpvalue_same _ _ _ _ _ _).trans ih
        · exact freeIndex_same fo name n ss fs fi

theorem same_norm {a b : List Scope} (h : SameLabs a b) : (norm b).map Scope.labels = (norm a).map Scope.labels := by
  unfold SameLabs at h
  by_cases ha : a = []
  · subst ha
    have : b = [] := by simpa using h
    rw [this]
  · have hb : b ≠ [] := by
      rintro rfl
      exact ha (by simpa using h.symm)
    rw [norm_of_ne ha, norm_of_ne hb, h]

theorem Lab.place (fo : Bool) (name : Bytes) : Lab (place fo name) := by
  intro s b s' hs h
  have q : W s [] [] { s with scopes := s.scopes.setCurrent (getFreeLocalIndexFromName fo name s.scopes.current).1 } := by
    refine W.quiet hs ?_
    rw [hs.current, hs.setCurrent]
    unfold getFreeLocalIndexFromName
    split
    · exact ⟨rfl, rfl, rfl, rfl, rfl, rfl⟩
    · refine ⟨rfl, ?_, rfl, rfl, rfl, rfl⟩
      exact same_norm (freeIndex_same _ _ _ _ _ _)
  unfold Compile.place at h
  dsimp only at h
  split at h
  · cases h; exact W.refl hs
  · split at h <;> (rename_i e; rw [e] at q; cases h; exact q)

/-- An instruction that is no label, names none and releases something. -/
structure Bare (i : Ins) : Prop where
  label : ∀ n, i ≠ .label n
  names : labelOf i = none
  releases : i ≠ .releaseUpvalues []

theorem Lab.put {i : Ins} (h : Bare i) : Lab (put i) := by
  intro s a s' hs e
  rw [put_state] at e
  cases e
  exact (W.refl hs).put h.label h.releases fun n _ hn => by rw [h.names] at hn; cases hn

/-- One step of a proof of `Lab`. -/
syntax "lab1" : tactic
macro_rules | `(tactic| lab1) => `(tactic| first
  | (with_reducible assumption) | (with_reducible refine Lab.bind ?_ fun _ => ?_) | split | dsimp only)
macro_rules | `(tactic| lab1) => `(tactic| with_reducible exact Lab.pure _)
macro_rules | `(tactic| lab1) => `(tactic| with_reducible exact Lab.fail _)
macro_rules | `(tactic| lab1) => `(tactic| with_reducible exact Lab.outside)
macro_rules | `(tactic| lab1) => `(tactic| with_reducible exact Lab.ub)
macro_rules | `(tactic| lab1) => `(tactic| with_reducible exact Lab.timeout)
macro_rules | `(tactic| lab1) => `(tactic| with_reducible exact Lab.get)
macro_rules | `(tactic| lab1) => `(tactic| with_reducible exact Lab.localsLength)
macro_rules | `(tactic| lab1) => `(tactic| with_reducible exact Lab.intern _)
macro_rules | `(tactic| lab1) => `(tactic| with_reducible exact Lab.globalFromName _)
macro_rules | `(tactic| lab1) => `(tactic| with_reducible exact Lab.place _ _)
macro_rules | `(tactic| lab1) => `(tactic| with_reducible exact Lab.setLocalsLength _)
macro_rules | `(tactic| lab1) => `(tactic| with_reducible exact Lab.topScope)
macro_rules | `(tactic| lab1) => `(tactic| with_reducible exact Lab.addVariable _)
macro_rules | `(tactic| lab1) => `(tactic| with_reducible exact Lab.addFunction _)
macro_rules | `(tactic| lab1) => `(tactic| with_reducible exact Lab.addGlobal _)
macro_rules | `(tactic| lab1) => `(tactic| exact Lab.put ⟨fun _ => by simp, rfl, by simp⟩)

/-- A proof of `Lab` for a definition that is given. -/
macro "lab" d:ident : tactic => `(tactic| (unfold $d; repeat' lab1))

theorem Lab.increment : Lab (increment) := by lab Compile.increment
macro_rules | `(tactic| lab1) => `(tactic| with_reducible exact Lab.increment)
theorem Lab.decrease (n : Nat) : Lab (decrease n) := by lab Compile.decrease
macro_rules | `(tactic| lab1) => `(tactic| with_reducible exact Lab.decrease _)
theorem Lab.operand (i : Int) : Lab (operand i) := by lab Compile.operand
macro_rules | `(tactic| lab1) => `(tactic| with_reducible exact Lab.operand _)
theorem Lab.emitPush {i : Ins} (h : Bare i) : Lab (emitPush i) := Lab.bind (Lab.put h) fun _ => Lab.increment
macro_rules | `(tactic| lab1) => `(tactic| exact Lab.emitPush ⟨fun _ => by simp, rfl, by simp⟩)
theorem Lab.emitUnary {f : Int → Ins} (h : ∀ a, Bare (f a)) (a : Int) : Lab (emitUnary f a) := by
  unfold Compile.emitUnary
  exact Lab.bind (Lab.operand _) fun _ => Lab.emitPush (h _)
theorem Lab.emitBinary {f : Int → Int → Ins} (h : ∀ a b, Bare (f a b)) (a b : Int) : Lab (emitBinary f a b) := by
  unfold Compile.emitBinary
  exact Lab.bind (Lab.operand _) fun _ => Lab.bind (Lab.operand _) fun _ => Lab.emitPush (h _ _)
theorem Lab.emitTernary {f : Int → Int → Int → Ins} (h : ∀ a b c, Bare (f a b c)) (a b c : Int) :
    Lab (emitTernary f a b c) := by
  unfold Compile.emitTernary
  exact Lab.bind (Lab.operand _) fun _ => Lab.bind (Lab.operand _) fun _ => Lab.bind (Lab.operand _) fun _ =>
    Lab.emitPush (h _ _ _)
theorem Lab.cons (a b : Int) : Lab (Compile.emitBinary .cons a b) :=
  Lab.emitBinary (fun _ _ => ⟨fun _ => by simp, rfl, by simp⟩) _ _
macro_rules | `(tactic| lab1) => `(tactic| with_reducible exact Lab.cons _ _)
theorem Lab.emitNil : Lab (emitNil) := by lab Compile.emitNil
macro_rules | `(tactic| lab1) => `(tactic| with_reducible exact Lab.emitNil)
theorem Lab.emitNop : Lab (emitNop) := by lab Compile.emitNop
macro_rules | `(tactic| lab1) => `(tactic| with_reducible exact Lab.emitNop)
theorem Lab.emitVector (is : List Int) : Lab (emitVector is) := by lab Compile.emitVector
macro_rules | `(tactic| lab1) => `(tactic| with_reducible exact Lab.emitVector _)
theorem Lab.emitReturn (n : Nat) : Lab (emitReturn n) := by lab Compile.emitReturn
macro_rules | `(tactic| lab1) => `(tactic| with_reducible exact Lab.emitReturn _)
theorem Lab.emitExit : Lab (emitExit) := by lab Compile.emitExit
macro_rules | `(tactic| lab1) => `(tactic| with_reducible exact Lab.emitExit)
theorem Lab.emitPop (n : Nat) : Lab (emitPop n) := by lab Compile.emitPop
macro_rules | `(tactic| lab1) => `(tactic| with_reducible exact Lab.emitPop _)
theorem Lab.emitSetStatic (a b : Int) : Lab (emitSetStatic a b) := by lab Compile.emitSetStatic
macro_rules | `(tactic| lab1) => `(tactic| with_reducible exact Lab.emitSetStatic _ _)
theorem Lab.emitMove (a b : Int) : Lab (emitMove a b) := by lab Compile.emitMove
macro_rules | `(tactic| lab1) => `(tactic| with_reducible exact Lab.emitMove _ _)
theorem Lab.emitPushString (s : Bytes) : Lab (emitPushString s) := by lab Compile.emitPushString
macro_rules | `(tactic| lab1) => `(tactic| with_reducible exact Lab.emitPushString _)
theorem Lab.emitPushSymbol (i : Int) (s : Bytes) : Lab (emitPushSymbol i s) := by lab Compile.emitPushSymbol
macro_rules | `(tactic| lab1) => `(tactic| with_reducible exact Lab.emitPushSymbol _ _)
theorem Lab.emitReleaseUpvalues (c : List Int) : Lab (emitReleaseUpvalues c) := by
  unfold Compile.emitReleaseUpvalues
  refine Lab.bind Lab.localsLength fun _ => ?_
  dsimp only
  split
  · exact Lab.pure _
  · rename_i h
    exact Lab.put ⟨fun _ => by simp, rfl, by simpa using h⟩
macro_rules | `(tactic| lab1) => `(tactic| with_reducible exact Lab.emitReleaseUpvalues _)
theorem Lab.emitPushIndex (a : Int) : Lab (emitPushIndex a) :=
  Lab.emitUnary (fun _ => ⟨fun _ => by simp, rfl, by simp⟩) _
macro_rules | `(tactic| lab1) => `(tactic| with_reducible exact Lab.emitPushIndex _)
theorem Lab.emitSetUpvalue (a b : Int) : Lab (emitSetUpvalue a b) := by lab Compile.emitSetUpvalue
macro_rules | `(tactic| lab1) => `(tactic| with_reducible exact Lab.emitSetUpvalue _ _)
theorem Lab.emitFuncall (a : Int) (b : Nat) : Lab (emitFuncall a b) := by lab Compile.emitFuncall
macro_rules | `(tactic| lab1) => `(tactic| with_reducible exact Lab.emitFuncall _ _)
theorem Lab.emitApply (a : Int) (b : Nat) : Lab (emitApply a b) := by lab Compile.emitApply
macro_rules | `(tactic| lab1) => `(tactic| with_reducible exact Lab.emitApply _ _)
theorem Lab.initialized (i : Option Int) : Lab (initialized i) := by lab Compile.initialized
macro_rules | `(tactic| lab1) => `(tactic| with_reducible exact Lab.initialized _)
theorem Lab.checkArgs (es : List Ast) (n : Nat) (v : Bool) : Lab (checkArgs es n v) := by lab Compile.checkArgs
macro_rules | `(tactic| lab1) => `(tactic| with_reducible exact Lab.checkArgs _ _ _)
theorem Lab.globalKey (s : Bytes) : Lab (globalKey s) := by lab Compile.globalKey
macro_rules | `(tactic| lab1) => `(tactic| with_reducible exact Lab.globalKey _)
theorem Lab.settle (n : Nat) : Lab (settle n) := by lab Compile.settle
macro_rules | `(tactic| lab1) => `(tactic| with_reducible exact Lab.settle _)
theorem Lab.settleBranch (n : Nat) : Lab (settleBranch n) := by lab Compile.settleBranch
macro_rules | `(tactic| lab1) => `(tactic| with_reducible exact Lab.settleBranch _)

theorem Lab.pushAgain : ∀ n, Lab (pushAgain n)
  | 0 => Lab.pure _
  | n + 1 => by
    have := Lab.pushAgain n
    lab Compile.pushAgain
macro_rules | `(tactic| lab1) => `(tactic| with_reducible exact Lab.pushAgain _)

mutual
theorem Lab.quoteTree (e : Ast) : Lab (quoteTree e) := by
  cases e with
  | expression es =>
    have := Lab.quoteElements es
    lab Compile.quoteTree
  | _ => lab Compile.quoteTree
theorem Lab.quoteElements (es : List Ast) : Lab (quoteElements es) := by
  cases es with
  | nil => lab Compile.quoteElements
  | cons e es =>
    have h1 := Lab.quoteElements es
    have h2 := Lab.quoteTree e
    lab Compile.quoteElements
end
macro_rules | `(tactic| lab1) => `(tactic| with_reducible exact Lab.quoteTree _)

theorem Lab.addParameters : ∀ es b, Lab (addParameters es b)
  | [], b => Lab.pure _
  | e :: es, b => by
    have := Lab.addParameters es
    cases e
    case identifier name =>
      unfold Compile.addParameters
      repeat' first | exact this _ | lab1
    all_goals lab Compile.addParameters
macro_rules | `(tactic| lab1) => `(tactic| with_reducible exact Lab.addParameters _ _)

/-! ## Scopes -/

/-- The state in a new scope. -/
def nested (b : Bool) (s : CState) : CState := { s with scopes := pushScope b s.scopes }

theorem nested_labs (b : Bool) (s : CState) :
    labs (nested b s) = s.scopes.runtime.scopes.map Scope.labels ++ [Trie.init (-1)] := by
  unfold labs nested pushScope
  simp only [norm_snoc, List.map_append, List.map_cons, List.map_nil]
  rfl

theorem mem_norm {ss : List Scope} {a : Scope} (h : a ∈ ss) : a ∈ norm ss := by
  rwa [norm_of_ne (List.ne_nil_of_mem h)]

theorem Good.nested {s : CState} (h : Good s) (b : Bool) : Good (nested b s) := by
  refine ⟨h.run, fun t ht => ?_⟩
  rw [nested_labs] at ht
  rcases List.mem_append.1 ht with ht | ht
  · obtain ⟨a, ha, rfl⟩ := List.mem_map.1 ht
    exact h.wf _ (List.mem_map_of_mem (mem_norm ha))
  · rw [List.mem_singleton.1 ht]; exact Trie.init_WF _

theorem W.close {s sE s' : CState} {b : Bool} {F : List (Nat × Nat)} {Q : List Nat} {u : Unit} (h : W (nested b s) F Q sE)
    (e : closeScope sE = .ok u s') : W s [] Q s' := by
  unfold closeScope at e
  split at e
  case _ scopes hp =>
    cases e
    unfold popScope at hp
    injection hp with h1 h2
    subst h1
    refine ⟨⟨h.good.run, fun t ht => ?_⟩, h.gens, h.le, fun hb => ?_⟩
    · unfold labs at ht
      obtain ⟨a, ha, rfl⟩ := List.mem_map.1 ht
      by_cases hd : sE.scopes.runtime.scopes.dropLast = []
      · simp only [hd, norm_nil, List.mem_singleton] at ha
        subst ha
        exact Trie.init_WF _
      · simp only [norm_of_ne hd] at ha
        exact h.good.wf _ (List.mem_map_of_mem (mem_norm (List.dropLast_subset _ ha)))
    · have c := h.ok hb
      refine ⟨?_, fun p hp => (by cases hp), c.code⟩
      have hv := c.view
      rw [nested_labs] at hv
      unfold known labs at hv ⊢
      have hgen : (nested b s).gensymNumber = s.gensymNumber := rfl
      rw [hgen] at hv
      simp only
      by_cases hs : s.scopes.runtime.scopes = []
      · rw [hs] at hv ⊢
        have hl := congrArg List.length hv
        simp only [List.length_map, List.length_append, List.length_nil, List.length_cons] at hl
        have : sE.scopes.runtime.scopes.dropLast = [] := by
          by_cases hE : sE.scopes.runtime.scopes = []
          · rw [hE]; rfl
          · rw [norm_of_ne hE] at hl
            match hx : sE.scopes.runtime.scopes, hl with
            | [a], _ => rfl
        rw [this]
      · have hE : sE.scopes.runtime.scopes ≠ [] := by
          intro hE
          rw [hE] at hv
          have hl := congrArg List.length hv
          simp only [List.length_map, List.length_append, List.length_cons, norm_nil, List.length_nil] at hl
          exact hs (List.eq_nil_of_length_eq_zero (by omega))
        rw [norm_of_ne hE] at hv
        have hd := congrArg List.dropLast hv
        simp only [← List.map_dropLast, List.dropLast_concat] at hd
        have hne : sE.scopes.runtime.scopes.dropLast ≠ [] := by
          intro h0
          rw [h0] at hd
          exact hs (by simpa using hd.symm)
        rw [norm_of_ne hne, norm_of_ne hs, hd]
  · cases e

/-- A part of the compiler that leaves a scope that was opened before it. -/
def Closes {α : Type} (m : CM α) : Prop :=
  ∀ s a s', Good s → m s = .ok a s' → ∃ sE, W s [] [] sE ∧ closeScope sE = .ok () s'

theorem Closes.close : Closes closeScope := fun s _ _ hs e => ⟨s, W.refl hs, e⟩

theorem Closes.bind {α β : Type} {m : CM α} {f : α → CM β} (h : Lab m) (g : ∀ a, Closes (f a)) : Closes (m >>= f) := by
  intro s b s' hs e
  obtain ⟨a, s1, e1, e2⟩ := CM.bind_inv e
  have w := h s a s1 hs e1
  obtain ⟨sE, w2, e3⟩ := g a s1 b s' w.good e2
  exact ⟨sE, w.trans w2, e3⟩

theorem Lab.scope {α : Type} {b : Bool} {f : Unit → CM α} (h : ∀ u, Closes (f u)) : Lab (openScope b >>= f) := by
  intro s a s' hs e
  obtain ⟨u, s1, e1, e2⟩ := CM.bind_inv e
  cases e1
  obtain ⟨sE, w, e3⟩ := h _ _ _ _ (hs.nested b) e2
  exact w.close e3

/-! ## New labels -/

theorem new_one {α : Type} {f : Bytes → CM α} {s0 F Q s a s'} (w : W s0 F Q s)
    (e : (gensym >>= fun a => register a >>= fun _ => f a) s = .ok a s') :
    ∃ k n s1, W s0 ((k, n) :: F) (Q ++ [n]) s1 ∧ f (gname k) s1 = .ok a s' := by
  obtain ⟨_, s1, e1, e⟩ := CM.bind_inv e
  rw [gensym_eq] at e1
  cases e1
  obtain ⟨_, s3, e3, e⟩ := CM.bind_inv e
  have w' := w.gensym
  rw [register_state w'.good] at e3
  cases e3
  have w1 := w'.register (k := s.gensymNumber) w.gens (Nat.lt_succ_self _) (fun hb p hp => by
    have := ((w.ok (by simp only at hb; omega)).found p hp).2.1
    omega)
  exact ⟨_, _, _, w1, e⟩

theorem new_two {α : Type} {f : Bytes → Bytes → CM α} {s a s'} (hs : Good s)
    (e : (gensym >>= fun a => gensym >>= fun b => register a >>= fun _ => register b >>= fun _ => f a b) s = .ok a s') :
    ∃ k k' n n' s1, W s [(k', n'), (k, n)] [n, n'] s1 ∧ f (gname k) (gname k') s1 = .ok a s' := by
  obtain ⟨_, s1, e1, e⟩ := CM.bind_inv e
  rw [gensym_eq] at e1
  cases e1
  obtain ⟨_, s2, e2, e⟩ := CM.bind_inv e
  rw [gensym_eq] at e2
  cases e2
  obtain ⟨_, s3, e3, e⟩ := CM.bind_inv e
  have w := (W.refl hs).gensym.gensym
  rw [register_state w.good] at e3
  cases e3
  have w1 := w.register (k := s.gensymNumber) (Nat.le_refl _) (by simp only; omega) (fun _ p hp => by cases hp)
  obtain ⟨_, s4, e4, e⟩ := CM.bind_inv e
  rw [register_state w1.good] at e4
  cases e4
  have w2 := w1.register (k := s.gensymNumber + 1) (by omega) (by simp only [regState]; omega) (fun _ p hp => by
    rw [List.mem_singleton.1 hp]; simp)
  exact ⟨_, _, _, _, _, w2, e⟩

theorem W.then {α : Type} {s0 F Q s} {m : CM α} {a s'} (w : W s0 F Q s) (h : Lab m) (e : m s = .ok a s') :
    W s0 F Q s' := w.trans (h s a s' w.good e)

theorem W.emitBrnz {s0 F Q s s' k n p u} (h : W s0 F Q s) (hm : (k, n) ∈ F) (e : emitBrnz (gname k) p s = .ok u s') :
    W s0 F Q s' := by
  unfold Compile.emitBrnz at e
  split at e
  · cases e
  obtain ⟨l, s1, e1, e2⟩ := CM.bind_inv e
  obtain ⟨st, s2, e3, e4⟩ := CM.bind_inv e1
  cases e3
  dsimp only at e4
  split at e4
  · cases e4
  obtain ⟨rfl, rfl⟩ := CM.pure_inv e4
  obtain ⟨_, s3, e5, e6⟩ := CM.bind_inv e2
  rw [put_state] at e5
  cases e5
  refine W.then (h.put (fun _ => by simp) (by simp) fun m hb hm' => ?_) (Lab.decrease _) e6
  rw [h.number hm hb] at hm'
  have := (h.ok hb).found _ hm
  cases hm'
  exact ⟨this.2.2.1, this.2.2.2.1⟩

theorem W.emitPushClosure {s0 F Q s s' v l c u} {n : Nat} (h : W s0 F Q s)
    (hl : s.gensymNumber ≤ 2 ^ 64 → lnum s0 ≤ l ∧ l < lnum s) (e : emitPushClosure v l n c s = .ok u s') : W s0 F Q s' := by
  obtain ⟨_, s1, e1, e⟩ := CM.bind_inv e
  cases e1
  obtain ⟨_, s2, e1, e⟩ := CM.bind_inv e
  rw [put_state] at e1
  cases e1
  refine W.then (h.put (fun _ => by simp) (by simp) fun m hb hm => ?_) Lab.increment e
  cases hm
  exact hl hb

/-- A statement that is left out in some cases. -/
theorem skip_inv {α : Type} {c : Prop} [Decidable c] {m : CM Unit} {f : Unit → CM α} {s0 F Q s a s'}
    (w : W s0 F Q s) (hm : Lab m) (e : (if c then f () else m >>= f) s = .ok a s') :
    ∃ s1, W s0 F Q s1 ∧ s.gensymNumber ≤ s1.gensymNumber ∧ f () s1 = .ok a s' := by
  split at e
  · exact ⟨s, w, Nat.le_refl _, e⟩
  · obtain ⟨_, s1, e1, e⟩ := CM.bind_inv e
    have v := hm _ _ _ w.good e1
    exact ⟨s1, w.trans v, v.gens, e⟩

/-- A statement that is an error in some cases. -/
theorem fail_inv {α : Type} {c : Prop} [Decidable c] {e0 : DlError} {f : Unit → CM α} {s a s'}
    (e : (if c then CM.fail e0 >>= f else f ()) s = .ok a s') : f () s = .ok a s' := by
  split at e
  · obtain ⟨_, s1, e1, e⟩ := CM.bind_inv e
    cases e1
  · exact e

theorem outside_inv {α : Type} {c : Prop} [Decidable c] {m : CM Unit} {f : Unit → CM α} {s a s'}
    (e : (if c then CM.outside >>= f else m >>= f) s = .ok a s') : (m >>= f) s = .ok a s' := by
  split at e
  · obtain ⟨_, s1, e1, e⟩ := CM.bind_inv e
    cases e1
  · exact e

/-- The code of a function goes to the end of the program. -/
theorem W.hoist {s0 F Q s} (w : W { s0 with body := some [] } F Q s) :
    W s0 F Q { s with assembly := s.assembly ++ s.body.getD [], body := s0.body } := by
  refine ⟨⟨w.good.run, w.good.wf⟩, w.gens, w.le, fun hb => ?_⟩
  have c := w.ok hb
  obtain ⟨A, B, a1, a2, a3, a4, a5, a6⟩ := c.code
  refine ⟨c.view, c.found, A ++ B, [], ?_, ?_, fun _ => rfl, ?_, ?_, ?_⟩
  · show s.assembly ++ s.body.getD [] = _
    rw [a1, a2]
    simp
  · cases s0.body <;> simp
  · rw [labels_app]
    simpa [labels] using a4
  · simpa using a5
  · simpa using a6

/-! ## What a generator calls -/

/-- Both callees are so. -/
structure LabRec (r : Rec) : Prop where
  compound : ∀ e b, Lab (r.compound e b)
  expression : ∀ es, Lab (r.expression es)
  left : ∀ e, Lab (r.left e)

macro_rules | `(tactic| lab1) => `(tactic| with_reducible first | exact LabRec.compound ‹_› _ _ | exact LabRec.expression ‹_› _ | exact LabRec.left ‹_› _)

section
variable {r : Rec} (hr : LabRec r)
include hr

theorem Lab.genListLoop : ∀ es i, Lab (genListLoop r es i)
  | [], _ => Lab.pure _
  | e :: es, i => by
    have := Lab.genListLoop es
    unfold Compile.genListLoop
    repeat' first | exact this _ | lab1

theorem Lab.genVectorLoop : ∀ es is, Lab (genVectorLoop r es is)
  | [], _ => Lab.pure _
  | e :: es, i => by
    have := Lab.genVectorLoop es
    unfold Compile.genVectorLoop
    repeat' first | exact this _ | lab1

theorem Lab.genArguments : ∀ es, Lab (genArguments r es)
  | [] => Lab.pure _
  | e :: es => by
    have := Lab.genArguments es
    unfold Compile.genArguments
    repeat' first | exact this | lab1

theorem Lab.createVar (es : List Ast) : Lab (createVar r es) := by lab Compile.createVar
macro_rules | `(tactic| lab1) => `(tactic| with_reducible exact Lab.createVar ‹_› _)
theorem Lab.genDefun (es : List Ast) : Lab (genDefun r es) := by lab Compile.genDefun
macro_rules | `(tactic| lab1) => `(tactic| with_reducible exact Lab.genDefun ‹_› _)

theorem Lab.afterForm {inner : List Ast → CM Unit} (hi : ∀ es, Lab (inner es)) (f : Ast) (start : Nat)
    (last : Bool) : Lab (afterForm r inner f start last) := by
  unfold Compile.afterForm
  repeat' first | exact hi _ | lab1

theorem Lab.noscopeForms {inner : List Ast → CM Unit} (hi : ∀ es, Lab (inner es)) :
    ∀ es, Lab (noscopeForms r inner es)
  | [] => Lab.pure _
  | e :: es => by
    have := Lab.noscopeForms hi es
    unfold Compile.noscopeForms
    repeat' first | exact this | exact Lab.afterForm hr hi _ _ _ | lab1

theorem Lab.noscope : ∀ n es, Lab (noscope r n es)
  | 0, _ => Lab.timeout
  | n + 1, es => by
    have := Lab.noscope n
    unfold Compile.noscope
    repeat' first | exact Lab.noscopeForms hr this _ | lab1
macro_rules | `(tactic| lab1) => `(tactic| with_reducible exact Lab.noscope ‹_› _ _)

theorem Lab.genExpression (n : Nat) (es : List Ast) : Lab (genExpression r n es) := by
  unfold Compile.genExpression
  refine Lab.scope fun _ => ?_
  repeat' first | exact Closes.close | (refine Closes.bind ?_ fun _ => ?_) | lab1
macro_rules | `(tactic| lab1) => `(tactic| with_reducible exact Lab.genExpression ‹_› _ _)
theorem Lab.genCondition (c : Ast) : Lab (genCondition r c) := by lab Compile.genCondition
macro_rules | `(tactic| lab1) => `(tactic| with_reducible exact Lab.genCondition ‹_› _)
theorem Lab.genIfCondition (c : Ast) : Lab (genIfCondition r c) := by lab Compile.genIfCondition
macro_rules | `(tactic| lab1) => `(tactic| with_reducible exact Lab.genIfCondition ‹_› _)
macro_rules | `(tactic| lab1) => `(tactic| with_reducible exact Lab.genArguments ‹_› _)
macro_rules | `(tactic| lab1) => `(tactic| with_reducible exact Lab.genListLoop ‹_› _ _)
macro_rules | `(tactic| lab1) => `(tactic| with_reducible exact Lab.genVectorLoop ‹_› _ _)
theorem Lab.genCall (name : Bytes) (es : List Ast) : Lab (genCall r name es) := by lab Compile.genCall
theorem Lab.genCallback (name : Bytes) (es : List Ast) : Lab (genCallback r name es) := by lab Compile.genCallback

theorem Lab.genUnary (op : Op1) (es : List Ast) : Lab (genUnary r op.ins es) := by
  have : ∀ a, Bare (op.ins a) := fun a => by cases op <;> exact ⟨fun _ => by simp [Op1.ins], rfl, by simp [Op1.ins]⟩
  unfold Compile.genUnary
  repeat' first | exact Lab.emitUnary this _ | lab1
theorem Lab.genBinary (op : Op2) (es : List Ast) : Lab (genBinary r op.ins es) := by
  have : ∀ a b, Bare (op.ins a b) := fun a b => by cases op <;> exact ⟨fun _ => by simp [Op2.ins], rfl, by simp [Op2.ins]⟩
  unfold Compile.genBinary
  repeat' first | exact Lab.emitBinary this _ _ | lab1
theorem Lab.genTernary (op : Op3) (es : List Ast) : Lab (genTernary r op.ins es) := by
  have : ∀ a b c, Bare (op.ins a b c) := fun a b c => by
    cases op <;> exact ⟨fun _ => by simp [Op3.ins], rfl, by simp [Op3.ins]⟩
  unfold Compile.genTernary
  repeat' first | exact Lab.emitTernary this _ _ _ | lab1

theorem Lab.genIf (es : List Ast) : Lab (genIf r es) := by
  unfold Compile.genIf
  refine Lab.bind (Lab.checkArgs _ _ _) fun _ => ?_
  split
  · split
    · repeat' lab1
    · split
      · exact Lab.pure _
      · refine Lab.bind (Lab.genIfCondition hr _) fun pops => ?_
        intro s a s' hs e
        obtain ⟨k, k', n, n', s1, w, e⟩ := new_two hs e
        obtain ⟨_, s2, e1, e⟩ := CM.bind_inv e
        replace w := w.emitBrnz (n := n) (by simp) e1
        obtain ⟨start, s3, e1, e⟩ := CM.bind_inv e
        replace w := w.then Lab.localsLength e1
        obtain ⟨_, s4, e1, e⟩ := CM.bind_inv e
        replace w := w.then (hr.compound _ _) e1
        obtain ⟨_, s5, e1, e⟩ := CM.bind_inv e
        replace w := w.then (Lab.settleBranch _) e1
        obtain ⟨_, s6, e1, e⟩ := CM.bind_inv e
        replace w := w.emitJump (n := n') (by simp) e1
        obtain ⟨_, s7, e1, e⟩ := CM.bind_inv e
        replace w := w.emitLabel (n := n) (by simp) (List.Perm.refl _) e1
        obtain ⟨_, s8, e1, e⟩ := CM.bind_inv e
        replace w := w.then (Lab.setLocalsLength _) e1
        obtain ⟨_, s9, e1, e⟩ := CM.bind_inv e
        replace w := w.then (hr.compound _ _) e1
        obtain ⟨_, s10, e1, e⟩ := CM.bind_inv e
        replace w := w.then (Lab.settleBranch _) e1
        replace w := w.emitLabel (n := n') (by simp) (List.Perm.refl _) e
        exact w.weaken (fun p hp => by cases hp)
  · exact Lab.ub

theorem Lab.genUnless (n : Nat) (es : List Ast) : Lab (genUnless r n es) := by
  unfold Compile.genUnless
  refine Lab.bind (Lab.checkArgs _ _ _) fun _ => ?_
  split
  · split
    · repeat' lab1
    · repeat' lab1
    · split
      · exact Lab.pure _
      · refine Lab.bind (Lab.genCondition hr _) fun pops => ?_
        intro s a s' hs e
        obtain ⟨k, k', n, n', s1, w, e⟩ := new_two hs e
        obtain ⟨_, s2, e1, e⟩ := CM.bind_inv e
        replace w := w.emitBrnz (n := n) (by simp) e1
        obtain ⟨start, s3, e1, e⟩ := CM.bind_inv e
        replace w := w.then Lab.localsLength e1
        obtain ⟨_, s4, e1, e⟩ := CM.bind_inv e
        replace w := w.then (Lab.genExpression hr _ _) e1
        obtain ⟨_, s5, e1, e⟩ := CM.bind_inv e
        replace w := w.then (Lab.setLocalsLength _) e1
        obtain ⟨_, s6, e1, e⟩ := CM.bind_inv e
        replace w := w.emitJump (n := n') (by simp) e1
        obtain ⟨_, s7, e1, e⟩ := CM.bind_inv e
        replace w := w.emitLabel (n := n) (by simp) (List.Perm.refl _) e1
        obtain ⟨_, s8, e1, e⟩ := CM.bind_inv e
        replace w := w.then Lab.emitNil e1
        replace w := w.emitLabel (n := n') (by simp) (List.Perm.refl _) e
        exact w.weaken (fun p hp => by cases hp)
  · exact Lab.ub

theorem Lab.genWhen (n : Nat) (es : List Ast) : Lab (genWhen r n es) := by
  unfold Compile.genWhen
  refine Lab.bind (Lab.checkArgs _ _ _) fun _ => ?_
  split
  · split
    · repeat' lab1
    · repeat' lab1
    · split
      · exact Lab.pure _
      · refine Lab.bind (Lab.genCondition hr _) fun pops => ?_
        intro s a s' hs e
        obtain ⟨k, k', n, n', s1, w, e⟩ := new_two hs e
        obtain ⟨_, s2, e1, e⟩ := CM.bind_inv e
        replace w := w.emitBrnz (n := n) (by simp) e1
        obtain ⟨start, s3, e1, e⟩ := CM.bind_inv e
        replace w := w.then Lab.localsLength e1
        obtain ⟨_, s4, e1, e⟩ := CM.bind_inv e
        replace w := w.then Lab.emitNil e1
        obtain ⟨_, s5, e1, e⟩ := CM.bind_inv e
        replace w := w.then (Lab.setLocalsLength _) e1
        obtain ⟨_, s6, e1, e⟩ := CM.bind_inv e
        replace w := w.emitJump (n := n') (by simp) e1
        obtain ⟨_, s7, e1, e⟩ := CM.bind_inv e
        replace w := w.emitLabel (n := n) (by simp) (List.Perm.refl _) e1
        obtain ⟨_, s8, e1, e⟩ := CM.bind_inv e
        replace w := w.then (Lab.genExpression hr _ _) e1
        replace w := w.emitLabel (n := n') (by simp) (List.Perm.refl _) e
        exact w.weaken (fun p hp => by cases hp)
  · exact Lab.ub

/-- The body of a loop, in its own scope. -/
theorem loop_body {α : Type} {n : Nat} {forms : List Ast} {f : CM α} {s0 F Q s a s'} (w : W s0 F Q s)
    (e : (openScope false >>= fun _ => localsLength >>= fun length => genExpression r n forms >>= fun _ =>
      localsLength >>= fun l => emitPop (l - length) >>= fun _ => closeScope >>= fun _ => f) s = .ok a s') :
    ∃ s1, W s0 F Q s1 ∧ f s1 = .ok a s' := by
  obtain ⟨_, s1, e1, e⟩ := CM.bind_inv e
  cases e1
  have v := W.refl (w.good.nested false)
  obtain ⟨_, s3, e1, e⟩ := CM.bind_inv e
  replace v := v.then Lab.localsLength e1
  obtain ⟨_, s3, e1, e⟩ := CM.bind_inv e
  replace v := v.then (Lab.genExpression hr _ _) e1
  obtain ⟨_, s3, e1, e⟩ := CM.bind_inv e
  replace v := v.then Lab.localsLength e1
  obtain ⟨_, s3, e1, e⟩ := CM.bind_inv e
  replace v := v.then (Lab.emitPop _) e1
  obtain ⟨_, s3, e1, e⟩ := CM.bind_inv e
  exact ⟨_, w.trans (v.close e1), e⟩

theorem Lab.genWhile (n : Nat) (es : List Ast) : Lab (genWhile r n es) := by
  unfold Compile.genWhile
  refine Lab.bind (Lab.checkArgs _ _ _) fun _ => ?_
  split
  · split
    · exact Lab.pure _
    · split
      · intro s a s' hs e
        obtain ⟨k, n, s1, w, e⟩ := new_one (W.refl hs) e
        obtain ⟨_, s2, e1, e⟩ := CM.bind_inv e
        replace w := w.emitLabel (n := n) (by simp) (List.Perm.refl _) e1
        obtain ⟨s3, w, e⟩ := loop_body hr w e
        replace w := w.emitJump (n := n) (by simp) e
        exact w.weaken (fun p hp => by cases hp)
      · intro s a s' hs e
        obtain ⟨k, k', n, n', s1, w, e⟩ := new_two hs e
        obtain ⟨_, s2, e1, e⟩ := CM.bind_inv e
        replace w := w.emitJump (n := n) (by simp) e1
        obtain ⟨_, s3, e1, e⟩ := CM.bind_inv e
        replace w := w.emitLabel (n := n') (Q' := [n]) (by simp) (List.Perm.swap _ _ _) e1
        obtain ⟨s4, w, e⟩ := loop_body hr w e
        obtain ⟨_, s5, e1, e⟩ := CM.bind_inv e
        replace w := w.emitLabel (n := n) (by simp) (List.Perm.refl _) e1
        obtain ⟨_, s6, e1, e⟩ := CM.bind_inv e
        replace w := w.then Lab.localsLength e1
        obtain ⟨_, s7, e1, e⟩ := CM.bind_inv e
        replace w := w.then (hr.compound _ _) e1
        obtain ⟨_, s8, e1, e⟩ := CM.bind_inv e
        replace w := w.then Lab.localsLength e1
        obtain ⟨_, s9, e1, e⟩ := CM.bind_inv e
        replace w := w.emitBrnz (n := n') (by simp) e1
        replace w := w.then Lab.emitNil e
        exact w.weaken (fun p hp => by cases hp)
  · exact Lab.ub

theorem Lab.genLambda (n : Nat) (es : List Ast) : Lab (genLambda r n es) := by
  unfold Compile.genLambda
  refine Lab.bind (Lab.checkArgs _ _ _) fun _ => ?_
  split
  · refine Lab.scope fun _ => Closes.bind (Lab.addVariable _) fun _ => Closes.bind (Lab.addFunction _) fun _ =>
      Closes.bind Lab.increment fun _ => ?_
    intro s a s' hs e
    obtain ⟨_, s1, e1, e⟩ := CM.bind_inv e
    obtain rfl : nested true s = s1 := by cases e1; rfl
    clear e1
    have g0 := hs.nested true
    generalize hsc : nested true s = sc at *
    obtain ⟨_, s1, e1, e⟩ := CM.bind_inv e
    rw [gensym_eq] at e1
    cases e1
    obtain ⟨_, s2, e1, e⟩ := CM.bind_inv e
    have w := (W.refl (s := { sc with body := some [] }) ⟨g0.run, g0.wf⟩).gensym
    rw [register_state (s := { sc with gensymNumber := sc.gensymNumber + 1 }) ⟨g0.run, g0.wf⟩] at e1
    cases e1
    replace w := w.register (k := sc.gensymNumber) (Nat.le_refl _) (Nat.lt_succ_self _) (fun _ p hp => by cases hp)
    obtain ⟨_, s3, e1, e⟩ := CM.bind_inv e
    cases e1
    dsimp only at e
    obtain ⟨_, s4, e1, e⟩ := CM.bind_inv e
    have e4 : regState sc.gensymNumber { { sc with body := some [] } with gensymNumber := sc.gensymNumber + 1 } = s4 := by
      cases e1; rfl
    have hb : (regState sc.gensymNumber { sc with gensymNumber := sc.gensymNumber + 1 }).body = sc.body := rfl
    simp only [hb] at e
    clear e1 hb
    replace w : W { sc with body := some [] } [(sc.gensymNumber, lnum sc)] [lnum sc] s4 := e4 ▸ w
    clear e4
    generalize hla : lnum sc = na at *
    obtain ⟨_, s5, e1, e⟩ := CM.bind_inv e
    replace w := w.emitJump (n := na) (by simp) e1
    obtain ⟨kb, nb, s6, w, e⟩ := new_one w e
    obtain ⟨_, s7, e1, e⟩ := CM.bind_inv e
    replace w := w.emitLabel (n := nb) (Q' := [na]) (by simp) (List.Perm.swap _ _ _) e1
    obtain ⟨_, s8, e1, e⟩ := CM.bind_inv e
    cases e1
    have hlab := fun hb => w.number (k := kb) (n := nb) (by simp) hb
    generalize getLabelFromName (gname kb) s7.scopes.current = label at *
    replace e := fail_inv e
    obtain ⟨start, s8, e1, e⟩ := CM.bind_inv e
    have v := (W.refl w.good).then Lab.localsLength e1
    obtain ⟨variadic, s9, e1, e⟩ := CM.bind_inv e
    replace v := v.then (Lab.addParameters _ _) e1
    obtain ⟨_, s10, e1, e⟩ := CM.bind_inv e
    replace v := v.then (Lab.genExpression hr _ _) e1
    obtain ⟨scope, s11, e1, e⟩ := CM.bind_inv e
    replace v := v.then Lab.topScope e1
    obtain ⟨s12, v, -, e⟩ := skip_inv v (Lab.emitReleaseUpvalues _) e
    obtain ⟨length, s13, e1, e⟩ := CM.bind_inv e
    replace v := v.then Lab.localsLength e1
    replace e := outside_inv e
    obtain ⟨_, s14, e1, e⟩ := CM.bind_inv e
    replace v := v.then (Lab.emitReturn _) e1
    obtain ⟨_, s15, e1, e⟩ := CM.bind_inv e
    replace v := v.then (Lab.setLocalsLength _) e1
    replace w := w.trans v
    have hg := v.gens
    obtain ⟨_, s16, e1, e⟩ := CM.bind_inv e
    replace w := w.emitLabel (n := na) (Q' := []) (by simp) (List.Perm.refl _) e1
    have hg1 := (Mono.emitLabel _ _ _ _ e1).gensym
    obtain ⟨_, s17, e1, e⟩ := CM.bind_inv e
    replace w := W.hoist (s0 := sc) w
    cases e1
    obtain ⟨scope, s18, e1, e⟩ := CM.bind_inv e
    replace w := w.then Lab.topScope e1
    have hg2 := (Mono.topScope _ _ _ e1).gensym
    obtain ⟨_, s19, e1, e⟩ := CM.bind_inv e
    replace w := w.then (Lab.decrease _) e1
    have hg3 := (Mono.decrease _ _ _ _ e1).gensym
    obtain ⟨_, s20, e1, e⟩ := CM.bind_inv e
    replace w := w.emitPushClosure (fun hb => by
      have hb' : s7.gensymNumber ≤ 2 ^ 64 := by simp only at hg2; omega
      have := (w.ok hb).found (kb, nb) (by simp)
      rw [hlab hb']
      exact ⟨this.2.2.1, this.2.2.2.1⟩) e1
    obtain ⟨_, s22, e1, e⟩ := CM.bind_inv e
    cases e1
    replace w := w.weaken (F' := []) (fun p hp => by cases hp)
    have hend : ∃ sE, W sc [] [] sE ∧ (closeScope >>= fun _ => closeScope) sE = .ok a s' := by
      rcases hd : s20.scopes.current.scopes[s20.scopes.current.scopes.length - 2]? with _ | sc2
      · rw [hd] at e
        obtain ⟨_, _, e1, _⟩ := CM.bind_inv e
        cases e1
      · rw [hd] at e
        dsimp only at e
        split at e
        · exact ⟨_, w, e⟩
        · obtain ⟨_, s23, e1, e⟩ := CM.bind_inv e
          replace w := w.then Lab.localsLength e1
          obtain ⟨_, s24, e1, e⟩ := CM.bind_inv e
          replace w := w.then (Lab.emitPushIndex _) e1
          obtain ⟨_, s25, e1, e⟩ := CM.bind_inv e
          replace w := w.then (Lab.emitReleaseUpvalues _) e1
          obtain ⟨_, s26, e1, e⟩ := CM.bind_inv e
          replace w := w.then Lab.localsLength e1
          obtain ⟨_, s27, e1, e⟩ := CM.bind_inv e
          replace w := w.then (Lab.emitMove _ _) e1
          obtain ⟨_, s28, e1, e⟩ := CM.bind_inv e
          replace w := w.then (Lab.emitPop _) e1
          exact ⟨_, w, e⟩
    obtain ⟨sE, w, e⟩ := hend
    obtain ⟨_, sF, e9, e10⟩ := CM.bind_inv e
    subst hsc
    exact ⟨sF, w.close e9, e10⟩
  · exact Lab.fail _

theorem Lab.generate (n : Nat) (es : List Ast) (g : Gen) : Lab (generate r n es g) := by
  cases g <;> simp only [Compile.generate]
  case funcall => lab Compile.genFuncall
  case apply => lab Compile.genApply
  case global => lab Compile.genGlobal
  case setq => lab Compile.genSetq
  case op1 => exact Lab.genUnary hr _ _
  case op2 => exact Lab.genBinary hr _ _
  case op3 => exact Lab.genTernary hr _ _
  case while_ => exact Lab.genWhile hr _ _
  case if_ => exact Lab.genIf hr _
  case when_ => exact Lab.genWhen hr _ _
  case unless_ => exact Lab.genUnless hr _ _
  case lambda => exact Lab.genLambda hr _ _
  case quote => lab Compile.genQuote
  case list => lab Compile.genList
  case vector => lab Compile.genVector
  all_goals repeat' lab1

theorem Lab.dispatch (cfg : Config) (n : Nat) (name : Bytes) (es : List Ast) : Lab (dispatch cfg r n name es) := by
  unfold Compile.dispatch
  repeat' first | exact Lab.genCall hr _ _ | exact Lab.genCallback hr _ _ | exact Lab.generate hr _ _ _ | lab1

end

theorem Lab.genVariable (name : Bytes) (b : Bool) : Lab (genVariable name b) := by lab Compile.genVariable

mutual
theorem Lab.compound (cfg : Config) : ∀ n depth e b, Lab (compound cfg n depth e b)
  | 0, _, _, _ => Lab.timeout
  | n + 1, depth, e, b => by
    have := Lab.expression cfg n
    cases e <;> simp only [Compile.compound]
    all_goals repeat' first | exact this _ _ | exact Lab.genVariable _ _ | lab1
theorem Lab.expression (cfg : Config) : ∀ n depth es, Lab (expression cfg n depth es)
  | 0, _, _ => Lab.timeout
  | n + 1, depth, es => by
    have hr : LabRec ⟨Compile.compound cfg n depth, Compile.expression cfg n depth, Pure.pure⟩ :=
      ⟨Lab.compound cfg n depth, Lab.expression cfg n depth, fun _ => Lab.pure _⟩
    unfold Compile.expression
    repeat' first | exact Lab.dispatch hr _ _ _ _ | exact Lab.genExpression hr _ _ | lab1
end

/-! ## Places of labels -/

theorem labels_once : ∀ {p : List Ins}, (labels p).Nodup →
    ∀ (j j' l : Nat), p[j]? = some (.label l) → p[j']? = some (.label l) → j = j'
  | [], _, j, j', l, h, _ => by simp at h
  | i :: p, hn, j, j', l, h, h' => by
    have hp : (labels p).Nodup := by
      have : labels (i :: p) = labels [i] ++ labels p := labels_app [i] p
      rw [this] at hn
      exact (List.nodup_append.1 hn).2.1
    have hm : ∀ k : Nat, p[k]? = some (Ins.label l) → l ∈ labels p := fun k hk =>
      List.mem_filterMap.2 ⟨_, List.mem_of_getElem? hk, rfl⟩
    have hhead : i = .label l → l ∉ labels p := by
      rintro rfl
      exact (List.nodup_cons.1 hn).1
    match j, j' with
    | 0, 0 => rfl
    | 0, k + 1 =>
      simp only [List.getElem?_cons_zero, Option.some.injEq, List.getElem?_cons_succ] at h h'
      exact absurd (hm k h') (hhead h)
    | k + 1, 0 =>
      simp only [List.getElem?_cons_zero, Option.some.injEq, List.getElem?_cons_succ] at h h'
      exact absurd (hm k h) (hhead h')
    | k + 1, k' + 1 =>
      simp only [List.getElem?_cons_succ] at h h'
      rw [labels_once hp k k' l h h']

/-- The labels of the code of a whole program. -/
theorem compiled_labels {cfg : Config} {n : Nat} {e : Reader.Ast} {s s' : CState}
    (hc : compileAST cfg n e s.renew = .ok () s') (hg : s'.gensymNumber ≤ 2 ^ 64) :
    (labels s'.assembly).Perm (List.range s'.scopes.runtime.labelNumber) ∧
      (∀ i ∈ s'.assembly, ∀ l, labelOf i = some l → l < s'.scopes.runtime.labelNumber) ∧
      s'.assembly.getLast? = some .halt ∧ Ins.releaseUpvalues [] ∉ s'.assembly := by
  unfold compileAST at hc
  obtain ⟨_, s1, e1, hc⟩ := CM.bind_inv hc
  have h1 : s1 = s.renew := by cases e1; rfl
  subst h1
  have hgood : Good s.renew := by
    refine ⟨rfl, fun t ht => ?_⟩
    have : t = Trie.init (-1) := by simpa [labs, norm, CState.renew, Scopes.init,
      Sub.init, getTop, Scope.init] using ht
    rw [this]; exact Trie.init_WF _
  obtain ⟨_, s2, e1, hc⟩ := CM.bind_inv hc
  have w := Lab.compound cfg n 0 e true _ _ _ hgood e1
  obtain ⟨length, s3, e1, hc⟩ := CM.bind_inv hc
  replace w := w.then Lab.localsLength e1
  have hend : ∃ s4, W s.renew [] [] s4 ∧ emitExit s4 = .ok () s' := by
    split at hc
    · obtain ⟨_, s4, e1, hc⟩ := CM.bind_inv hc
      replace w := w.then (Lab.emitMove _ _) e1
      obtain ⟨_, s5, e1, hc⟩ := CM.bind_inv hc
      exact ⟨_, w.then (Lab.emitPop _) e1, hc⟩
    · exact ⟨_, w, hc⟩
  obtain ⟨s4, w, hx⟩ := hend
  have g4 : s4.gensymNumber ≤ 2 ^ 64 := Nat.le_trans (Mono.emitExit _ _ _ hx).gensym hg
  obtain ⟨A, B, a1, a2, a3, a4, a5, a6⟩ := (w.ok g4).code
  obtain rfl := a3 rfl
  have hb : s4.body = none := by rw [a2]; rfl
  have hs' : s' = { s4 with assembly := s4.assembly ++ [.halt] } := by
    unfold emitExit at hx
    rw [put_state] at hx
    cases hx
    unfold putState
    rw [hb]
  have hA : s'.assembly = A ++ [.halt] := by
    rw [hs', a1]; rfl
  have hl : s'.scopes.runtime.labelNumber = lnum s4 := by rw [hs']
  rw [hA, hl]
  refine ⟨?_, ?_, by simp, ?_⟩
  · rw [labels_app]
    have h0 : lnum s.renew = 0 := rfl
    rw [h0] at a4
    simpa [labels, List.range_eq_range'] using a4
  · intro i hi l hn
    rcases List.mem_append.1 hi with hi | hi
    · exact (a5 i (by simpa using hi) l hn).2
    · rw [List.mem_singleton.1 hi] at hn
      cases hn
  · simpa using a6

end DuckLisp.Compile
