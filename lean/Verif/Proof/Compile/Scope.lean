import Verif.Spec.Scope
import Verif.Proof.Trie

/-!
# Lemmas about the compiler's scopes
-/

namespace DuckLisp.Compile

open DuckLisp.Spec

/-! ## Tables -/

/-- A table holds exactly the declarations of a list, the newest first. -/
def Reads (t : Trie.Node) (l : List (Bytes × Nat)) : Prop :=
  t.WF ∧ ∀ name, Trie.find t name = match l.lookup name with | some k => (k : Int) | none => -1

theorem Reads.init : Reads (Trie.init (-1)) [] :=
  ⟨Trie.init_WF _, fun name => by cases name <;> rfl⟩

theorem Reads.insert {t : Trie.Node} {l} (h : Reads t l) (name : Bytes) (k : Nat) :
    Reads (Trie.insert t name k) ((name, k) :: l) := by
  obtain ⟨hw, hf⟩ := Trie.insert_find t name k h.1
  refine ⟨hw, fun n => ?_⟩
  rw [hf n, List.lookup_cons]
  by_cases hn : n = name
  · subst hn
    simp
  · have : (n == name) = false := by simp [hn]
    rw [if_neg hn, this, h.2 n]

/-- A scope is as a block says. -/
structure Rel (s : Scope) (b : Block) : Prop where
  flag : s.functionScope = b.isFunction
  variables : Reads s.locals b.variables
  functions : Reads s.functionLocals b.functions

theorem Rel.find {s b} (h : Rel s b) (fo : Bool) (name : Bytes) :
    Trie.find (s.table fo) name = match b.find fo name with | some k => (k : Int) | none => -1 := by
  cases fo
  · exact h.variables.2 name
  · exact h.functions.2 name

/-- The scopes, the innermost first, are as the blocks say. -/
def Match : List Scope → List Block → Prop
  | [], [] => True
  | s :: ss, b :: bs => Rel s b ∧ Match ss bs
  | _, _ => False

/-- The scopes below index `n`, the innermost first. -/
def below (n : Nat) (scopes : List Scope) : List Scope := (scopes.take n).reverse

theorem below_succ {n : Nat} {scopes : List Scope} {s : Scope} (h : scopes[n]? = some s) :
    below (n + 1) scopes = s :: below n scopes := by
  simp [below, List.take_add_one, h]

theorem below_length (scopes : List Scope) : below scopes.length scopes = scopes.reverse := by
  simp [below]

theorem below_none {n : Nat} {scopes : List Scope} (h : scopes[n]? = none) :
    below (n + 1) scopes = below n scopes := by
  simp [below, List.take_add_one, h]

theorem below_zero (scopes : List Scope) : below 0 scopes = [] := by simp [below]

/-! ## Lookup inside a function -/

theorem localIndex_eq (fo : Bool) (name : Bytes) (scopes : List Scope) :
    ∀ (n : Nat) (blocks : List Block), n ≤ scopes.length → Match (below n scopes) blocks →
      localIndex fo name scopes n = match innermost fo name blocks with
        | some (0, k) => (k : Int)
        | _ => -1
  | 0, blocks, _, h => by
    rw [below_zero] at h
    cases blocks with
    | nil => rfl
    | cons b bs => exact h.elim
  | n + 1, blocks, hn, h => by
    obtain ⟨s, hs⟩ : ∃ s, scopes[n]? = some s := ⟨scopes[n], List.getElem?_eq_getElem (by omega)⟩
    rw [below_succ hs] at h
    cases blocks with
    | nil => exact h.elim
    | cons b bs =>
      have ih := localIndex_eq fo name scopes n bs (by omega) h.2
      rw [localIndex, hs]
      dsimp only
      rw [h.1.find fo name, h.1.flag, innermost]
      cases hb : b.find fo name with
      | some k =>
        have : (k : Int) ≠ -1 := by omega
        simp only [this, ne_eq, not_false_eq_true, if_true]
      | none =>
        simp only [ne_eq, not_true_eq_false, if_false]
        rw [ih]
        cases b.isFunction
        · cases innermost fo name bs with
          | none => simp
          | some r => obtain ⟨d, k⟩ := r; cases d <;> simp
        · cases innermost fo name bs with
          | none => simp
          | some r => obtain ⟨d, k⟩ := r; simp

/-! ## Captures -/

/-- A scope after captures have been recorded. -/
structure Grown (s s' : Scope) : Prop where
  locals : s'.locals = s.locals
  functionLocals : s'.functionLocals = s.functionLocals
  functions : s'.functions = s.functions
  labels : s'.labels = s.labels
  flag : s'.functionScope = s.functionScope
  captures : s.functionUvs <+: s'.functionUvs
  notes : s.scopeUvs <+: s'.scopeUvs
  nodup : s.functionUvs.Nodup → s'.functionUvs.Nodup
  noted : s.scopeUvs.Nodup → s'.scopeUvs.Nodup

theorem Grown.refl (s : Scope) : Grown s s :=
  ⟨rfl, rfl, rfl, rfl, rfl, List.prefix_refl _, List.prefix_refl _, id, id⟩

theorem Grown.trans {a b c : Scope} (h : Grown a b) (g : Grown b c) : Grown a c :=
  ⟨g.locals.trans h.locals, g.functionLocals.trans h.functionLocals, g.functions.trans h.functions,
    g.labels.trans h.labels, g.flag.trans h.flag, h.captures.trans g.captures, h.notes.trans g.notes,
    g.nodup ∘ h.nodup, g.noted ∘ h.noted⟩

/-- The same for a whole stack. -/
structure Grows (ss ss' : List Scope) : Prop where
  length : ss'.length = ss.length
  each : ∀ (m : Nat) s, ss[m]? = some s → ∃ s', ss'[m]? = some s' ∧ Grown s s'

theorem Grows.refl (ss : List Scope) : Grows ss ss := ⟨rfl, fun _ s h => ⟨s, h, Grown.refl s⟩⟩

theorem Grows.trans {a b c : List Scope} (h : Grows a b) (g : Grows b c) : Grows a c := by
  refine ⟨g.length.trans h.length, fun m s hs => ?_⟩
  obtain ⟨s', hs', hg⟩ := h.each m s hs
  obtain ⟨s'', hs'', hg'⟩ := g.each m s' hs'
  exact ⟨s'', hs'', hg.trans hg'⟩

theorem Grows.set {ss : List Scope} {n : Nat} {s s' : Scope} (hs : ss[n]? = some s) (h : Grown s s') :
    Grows ss (ss.set n s') := by
  refine ⟨List.length_set .., fun m t ht => ?_⟩
  by_cases hm : n = m
  · subst hm
    rw [hs] at ht
    cases ht
    have hn : n < ss.length := (List.getElem?_eq_some_iff.1 hs).1
    exact ⟨s', List.getElem?_set_self hn, h⟩
  · exact ⟨t, by rw [List.getElem?_set_ne hm]; exact ht, Grown.refl t⟩

theorem nodup_concat {l : List Int} {u : Int} (h : l.Nodup) (hu : u ∉ l) : (l ++ [u]).Nodup := by
  refine List.nodup_append.2 ⟨h, by simp, ?_⟩
  intro a ha b hb
  simp only [List.mem_singleton] at hb
  subst hb
  exact fun e => hu (e ▸ ha)

theorem captureIn_spec {ss : List Scope} {fs : Scope} {fsi : Nat} (u : Int) (hs : ss[fsi]? = some fs) :
    ∃ (j : Nat) (fs' : Scope), (captureIn ss fs fsi u).2 = (j : Int) ∧ Grows ss (captureIn ss fs fsi u).1 ∧
      (∀ m : Nat, m ≠ fsi → (captureIn ss fs fsi u).1[m]? = ss[m]?) ∧
      (captureIn ss fs fsi u).1[fsi]? = some fs' ∧ fs'.functionUvs[j]? = some u ∧ fs'.scopeUvs = fs.scopeUvs := by
  by_cases hu : u ∈ fs.functionUvs
  · refine ⟨fs.functionUvs.idxOf u, fs, ?_⟩
    have e : captureIn ss fs fsi u = (ss, ((fs.functionUvs.idxOf u : Nat) : Int)) := by
      simp only [captureIn, hu, if_true]
    rw [e]
    refine ⟨rfl, Grows.refl _, fun _ _ => rfl, hs, ?_, rfl⟩
    rw [List.getElem?_eq_getElem (List.idxOf_lt_length_of_mem hu), List.getElem_idxOf]
  · have hn : fsi < ss.length := (List.getElem?_eq_some_iff.1 hs).1
    refine ⟨fs.functionUvs.length, { fs with functionUvs := fs.functionUvs ++ [u] }, ?_⟩
    have e : captureIn ss fs fsi u = (ss.set fsi { fs with functionUvs := fs.functionUvs ++ [u] },
        ((fs.functionUvs.length : Nat) : Int)) := by
      simp only [captureIn, hu, if_false, hs]
    rw [e]
    refine ⟨rfl, Grows.set hs ⟨rfl, rfl, rfl, rfl, rfl, List.prefix_append .., List.prefix_refl _,
      fun h => nodup_concat h hu, id⟩, fun m hm => List.getElem?_set_ne (Ne.symm hm),
      List.getElem?_set_self hn, by simp, rfl⟩

theorem noteIn_spec {ss : List Scope} {s s₀ : Scope} {n : Nat} (u : Int) (hs : ss[n]? = some s)
    (hc : s₀.scopeUvs = s.scopeUvs) :
    ∃ s', Grows ss (noteIn ss s₀ n u) ∧ (∀ m : Nat, m ≠ n → (noteIn ss s₀ n u)[m]? = ss[m]?) ∧
      (noteIn ss s₀ n u)[n]? = some s' ∧ s'.functionUvs = s.functionUvs ∧ u ∈ s'.scopeUvs := by
  by_cases hu : u ∈ s₀.scopeUvs
  · refine ⟨s, ?_⟩
    have e : noteIn ss s₀ n u = ss := by simp only [noteIn, hu, if_true]
    rw [e]
    exact ⟨Grows.refl _, fun _ _ => rfl, hs, rfl, hc ▸ hu⟩
  · have hn : n < ss.length := (List.getElem?_eq_some_iff.1 hs).1
    refine ⟨{ s with scopeUvs := s.scopeUvs ++ [u] }, ?_⟩
    have e : noteIn ss s₀ n u = ss.set n { s with scopeUvs := s.scopeUvs ++ [u] } := by
      simp only [noteIn, hu, if_false, hs]
    rw [e]
    refine ⟨Grows.set hs ⟨rfl, rfl, rfl, rfl, rfl, List.prefix_refl _, List.prefix_append .., id,
      fun h => nodup_concat h (hc ▸ hu)⟩, fun m hm => List.getElem?_set_ne (Ne.symm hm),
      List.getElem?_set_self hn, rfl, by simp⟩

/-- The capture lists of the functions in a list of scopes, the innermost first. -/
def caps (l : List Scope) : List (List Int) := (l.filter (·.functionScope)).map (·.functionUvs)

/-- A capture entry leads to a slot. -/
def Points (u : Int) (outer : List (List Int)) (place : Nat × Nat) : Prop :=
  if 0 ≤ u then place = (0, u.toNat)
  else ∃ d, place.1 = d + 1 ∧ leadsTo outer (-u - 1).toNat = some (d, place.2)

theorem leadsTo_points {captures : List Int} {outer : List (List Int)} {j : Nat} {u : Int} {place : Nat × Nat}
    (hj : captures[j]? = some u) (h : Points u outer place) : leadsTo (captures :: outer) j = some place := by
  rw [leadsTo, hj]
  unfold Points at h
  by_cases hu : 0 ≤ u
  · rw [if_pos hu] at h
    simp [hu, h]
  · rw [if_neg hu] at h
    obtain ⟨d, hd, hf⟩ := h
    obtain ⟨a, b⟩ := place
    dsimp only at hd hf ⊢
    subst hd
    rw [if_neg hu, hf]
    rfl

theorem below_congr {ss ss' : List Scope} {n : Nat} (h : ∀ m : Nat, m < n → ss'[m]? = ss[m]?) :
    below n ss' = below n ss := by
  unfold below
  congr 1
  refine List.ext_getElem? fun i => ?_
  rw [List.getElem?_take, List.getElem?_take]
  split
  · exact h _ (by assumption)
  · rfl

theorem caps_map {l l' : List Scope}
    (h : l'.map (fun s => (s.functionScope, s.functionUvs)) = l.map (fun s => (s.functionScope, s.functionUvs))) :
    caps l' = caps l := by
  induction l generalizing l' with
  | nil => simp at h; subst h; rfl
  | cons a as ih =>
    cases l' with
    | nil => simp at h
    | cons b bs =>
      simp only [List.map_cons, List.cons.injEq, Prod.mk.injEq] at h
      have ih := ih h.2
      unfold caps at ih ⊢
      rw [List.filter_cons, List.filter_cons, h.1.1]
      cases a.functionScope
      · simpa using ih
      · simp [ih, h.1.2]

/-- The captures of the scopes below an index only depend on the capture lists and flags there. -/
theorem caps_below_congr {ss ss' : List Scope} {n : Nat}
    (h : ∀ m : Nat, m < n → (ss'[m]?).map (fun s => (s.functionScope, s.functionUvs))
      = (ss[m]?).map (fun s => (s.functionScope, s.functionUvs))) :
    caps (below n ss') = caps (below n ss) := by
  refine caps_map ?_
  unfold below
  rw [List.map_reverse, List.map_reverse, List.map_take, List.map_take]
  congr 1
  refine List.ext_getElem? fun i => ?_
  rw [List.getElem?_take, List.getElem?_take, List.getElem?_map, List.getElem?_map]
  split
  · exact h _ (by assumption)
  · rfl

/-- The nearest scope below `n` that declares the name is `m`, and the slot is noted there. -/
def Noted (fo : Bool) (name : Bytes) (ss ss' : List Scope) (n slot : Nat) : Prop :=
  ∃ m s s', m < n ∧ ss[m]? = some s ∧ Trie.find (s.table fo) name ≠ -1 ∧
    (∀ (i : Nat) t, m < i → i < n → ss[i]? = some t → Trie.find (t.table fo) name = -1) ∧
    ss'[m]? = some s' ∧ (slot : Int) ∈ s'.scopeUvs

theorem Noted.succ {fo name ss ss' n slot} {s : Scope} (h : Noted fo name ss ss' n slot) (hs : ss[n]? = some s)
    (hf : Trie.find (s.table fo) name = -1) : Noted fo name ss ss' (n + 1) slot := by
  obtain ⟨m, t, t', hm, ht, hft, hi, ht', hk⟩ := h
  refine ⟨m, t, t', by omega, ht, hft, fun i x h1 h2 hx => ?_, ht', hk⟩
  by_cases hin : i = n
  · subst hin
    rw [hs] at hx
    cases hx
    exact hf
  · exact hi i x h1 (by omega) hx

theorem Noted.grows {fo name ss ss' ss'' n slot} (h : Noted fo name ss ss' n slot) (g : Grows ss' ss'') :
    Noted fo name ss ss'' n slot := by
  obtain ⟨m, t, t', hm, ht, hft, hi, ht', hk⟩ := h
  obtain ⟨t'', ht'', hg⟩ := g.each m t' ht'
  exact ⟨m, t, t'', hm, ht, hft, hi, ht'', hg.notes.subset hk⟩

/-- What the helper does. -/
def HelperSpec (fo : Bool) (name : Bytes) (ss : List Scope) (fs : Scope) (fsi n : Nat) (blocks : List Block) :
    Prop :=
  match innermost fo name blocks with
  | none => freeIndexHelper fo name ss fs fsi n = (ss, none)
  | some (d, k) => ∃ (j : Nat) (ss' : List Scope) (fs' : Scope) (u : Int),
      freeIndexHelper fo name ss fs fsi n = (ss', some (j : Int)) ∧ Grows ss ss' ∧
      (∀ m : Nat, fsi < m → ss'[m]? = ss[m]?) ∧ ss'[fsi]? = some fs' ∧ fs'.functionUvs[j]? = some u ∧
      fs'.scopeUvs = fs.scopeUvs ∧ Points u (caps (below n ss')) (d, k) ∧ Noted fo name ss ss' n k

theorem freeIndexHelper_spec (fo : Bool) (name : Bytes) :
    ∀ (n : Nat) (ss : List Scope) (fs : Scope) (fsi : Nat) (blocks : List Block), n ≤ fsi → ss[fsi]? = some fs →
      Match (below n ss) blocks → HelperSpec fo name ss fs fsi n blocks
  | 0, ss, fs, fsi, blocks, _, _, h => by
    rw [below_zero] at h
    cases blocks with
    | nil => exact (rfl : freeIndexHelper fo name ss fs fsi 0 = (ss, none))
    | cons b bs => exact h.elim
  | n + 1, ss, fs, fsi, blocks, hn, hfs, h => by
    have hl : fsi < ss.length := (List.getElem?_eq_some_iff.1 hfs).1
    obtain ⟨s, hs⟩ : ∃ s, ss[n]? = some s := ⟨ss[n], List.getElem?_eq_getElem (by omega)⟩
    rw [below_succ hs] at h
    cases blocks with
    | nil => exact h.elim
    | cons b bs =>
      have hr := h.1
      have hfind := hr.find fo name
      unfold HelperSpec
      rw [innermost, freeIndexHelper, hs]
      dsimp only
      cases hb : b.find fo name with
      | some k =>
        rw [hb] at hfind
        dsimp only at hfind ⊢
        have hk : Trie.find (s.table fo) name ≠ -1 := by
          intro e
          have := hfind.symm.trans e
          simp at this
        rw [if_pos hk]
        obtain ⟨j, fs', h1, h2, h3, h4, h5, h6⟩ := captureIn_spec (k : Int) hfs
        rw [hfind]
        have hs' : (captureIn ss fs fsi k).1[n]? = some s := by rw [h3 n (by omega)]; exact hs
        obtain ⟨s', g1, g2, g3, g4, g5⟩ := noteIn_spec (s₀ := s) (k : Int) hs' rfl
        refine ⟨j, noteIn (captureIn ss fs fsi k).1 s n k, fs', k, ?_, h2.trans g1, ?_, ?_, h5, h6, ?_, ?_⟩
        · simp only [registerUpvalue, h1]
        · intro m hm
          rw [g2 m (by omega), h3 m (by omega)]
        · rw [g2 fsi (by omega), h4]
        · simp [Points]
        · exact ⟨n, s, s', by omega, hs, hk, fun i t h1 h2 => by omega, g3, g5⟩
      | none =>
        rw [hb] at hfind
        dsimp only at hfind ⊢
        rw [if_neg (by simp [hfind])]
        cases hf : s.functionScope with
        | false =>
          have hbf : b.isFunction = false := by rw [← hr.flag]; exact hf
          have ih := freeIndexHelper_spec fo name n ss fs fsi bs (by omega) hfs h.2
          unfold HelperSpec at ih
          simp only [Bool.false_eq_true, if_false, hbf]
          cases hi : innermost fo name bs with
          | none =>
            rw [hi] at ih
            exact ih
          | some r =>
            obtain ⟨d, k⟩ := r
            rw [hi] at ih
            obtain ⟨j, ss', fs', u, h1, h2, h3, h4, h5, h6, h7, h8⟩ := ih
            refine ⟨j, ss', fs', u, h1, h2, h3, h4, h5, h6, ?_, h8.succ hs hfind⟩
            obtain ⟨s', hs', hg⟩ := h2.each n s hs
            rw [below_succ hs']
            have : caps (s' :: below n ss') = caps (below n ss') := by
              unfold caps
              rw [List.filter_cons, hg.flag, hf]
              rfl
            rw [this]
            exact h7
        | true =>
          have hbf : b.isFunction = true := by rw [← hr.flag]; exact hf
          have ih := freeIndexHelper_spec fo name n ss s n bs (Nat.le_refl _) hs h.2
          unfold HelperSpec at ih
          simp only [if_true, hbf]
          cases hi : innermost fo name bs with
          | none =>
            rw [hi] at ih
            simp only [Option.map_none]
            rw [ih]
          | some r =>
            obtain ⟨d, k⟩ := r
            rw [hi] at ih
            obtain ⟨j', ss1, s1, u', h1, h2, h3, h4, h5, h6, h7, h8⟩ := ih
            simp only [Option.map_some]
            rw [h1]
            have hpos : (0 : Int) ≤ (j' : Int) := by omega
            simp only [hpos, if_true]
            have hfs1 : ss1[fsi]? = some fs := by rw [h3 fsi (by omega)]; exact hfs
            obtain ⟨j, fs', c1, c2, c3, c4, c5, c6⟩ := captureIn_spec (-((j' : Int) + 1)) hfs1
            have hs1 : (captureIn ss1 fs fsi (-((j' : Int) + 1))).1[n]? = some s1 := by
              rw [c3 n (by omega)]; exact h4
            obtain ⟨s2, g1, g2, g3, g4, g5⟩ := noteIn_spec (s₀ := s) (-((j' : Int) + 1)) hs1 h6.symm
            refine ⟨j, noteIn (captureIn ss1 fs fsi (-((j' : Int) + 1))).1 s n (-((j' : Int) + 1)), fs',
              -((j' : Int) + 1), ?_, (h2.trans c2).trans g1, ?_, ?_, c5, c6, ?_, ?_⟩
            · simp only [registerUpvalue, c1]
            · intro m hm
              rw [g2 m (by omega), c3 m (by omega), h3 m (by omega)]
            · rw [g2 fsi (by omega), c4]
            · unfold Points
              rw [if_neg (by omega)]
              refine ⟨d, rfl, ?_⟩
              rw [below_succ g3]
              obtain ⟨s1', hs1', hg1⟩ := h2.each n s hs
              rw [h4] at hs1'
              cases hs1'
              obtain ⟨s2', hs2', hg2⟩ := g1.each n s1 hs1
              rw [g3] at hs2'
              cases hs2'
              have hflag : s2.functionScope = true := by rw [hg2.flag, hg1.flag]; exact hf
              have hb2 : caps (s2 :: below n (noteIn (captureIn ss1 fs fsi (-((j' : Int) + 1))).1 s n
                  (-((j' : Int) + 1)))) = s1.functionUvs :: caps (below n ss1) := by
                have : below n (noteIn (captureIn ss1 fs fsi (-((j' : Int) + 1))).1 s n (-((j' : Int) + 1)))
                    = below n ss1 := below_congr fun m hm => by
                  rw [g2 m (by omega), c3 m (by omega)]
                rw [this]
                unfold caps
                rw [List.filter_cons, hflag]
                simp [g4]
              rw [hb2]
              have hj : (-(-((j' : Int) + 1)) - 1).toNat = j' := by omega
              rw [hj]
              exact leadsTo_points h5 h7
            · exact ((h8.succ hs hfind).grows c2).grows g1

/-! ## The functions the compiler calls -/

theorem currentFunction_spec (ss : List Scope) :
    ∀ (n : Nat) (blocks : List Block), n ≤ ss.length → Match (below n ss) blocks →
      match currentFunction ss n with
      | none => outside blocks = []
      | some (m, s) => m < n ∧ ss[m]? = some s ∧ s.functionScope = true ∧ Match (below m ss) (outside blocks) ∧
          (∀ (i : Nat) t, m < i → i < n → ss[i]? = some t → t.functionScope = false)
  | 0, blocks, _, h => by
    rw [below_zero] at h
    cases blocks with
    | nil => rfl
    | cons b bs => exact h.elim
  | n + 1, blocks, hn, h => by
    obtain ⟨s, hs⟩ : ∃ s, ss[n]? = some s := ⟨ss[n], List.getElem?_eq_getElem (by omega)⟩
    rw [below_succ hs] at h
    cases blocks with
    | nil => exact h.elim
    | cons b bs =>
      have ih := currentFunction_spec ss n bs (by omega) h.2
      rw [currentFunction, hs]
      dsimp only
      rw [outside, ← h.1.flag]
      cases hf : s.functionScope with
      | true =>
        simp only [if_true]
        exact ⟨by omega, hs, hf, h.2, fun i t h1 h2 => by omega⟩
      | false =>
        simp only [Bool.false_eq_true, if_false]
        cases hc : currentFunction ss n with
        | none => rw [hc] at ih; exact ih
        | some r =>
          obtain ⟨m, t⟩ := r
          rw [hc] at ih
          obtain ⟨h1, h2, h3, h4, h5⟩ := ih
          refine ⟨by omega, h2, h3, h4, fun i x hi1 hi2 hx => ?_⟩
          by_cases hin : i = n
          · subst hin
            rw [hs] at hx
            cases hx
            exact hf
          · exact h5 i x hi1 (by omega) hx

/-- The capture lists of a whole stack, given the scope of the current function. -/
theorem captureLists_current {ss : List Scope} {m : Nat} {s : Scope} (hs : ss[m]? = some s)
    (hf : s.functionScope = true) :
    ∀ n, m < n → n ≤ ss.length → (∀ (i : Nat) t, m < i → i < n → ss[i]? = some t → t.functionScope = false) →
      caps (below n ss) = s.functionUvs :: caps (below m ss)
  | 0, h, _, _ => by omega
  | n + 1, hm, hn, ho => by
    obtain ⟨t, ht⟩ : ∃ s, ss[n]? = some s := ⟨ss[n], List.getElem?_eq_getElem (by omega)⟩
    rw [below_succ ht]
    by_cases hmn : m = n
    · subst hmn
      rw [hs] at ht
      cases ht
      unfold caps
      rw [List.filter_cons, hf]
      simp
    · have ih := captureLists_current hs hf n (by omega) (by omega) fun i t h1 h2 => ho i t h1 (by omega)
      have := ho n t (by omega) (by omega) ht
      unfold caps at ih ⊢
      rw [List.filter_cons, this]
      exact ih

theorem captureLists_eq (ss : List Scope) : captureLists ss = caps (below ss.length ss) := by
  rw [below_length]; rfl

theorem captureLists_prefix {ss ss' : List Scope} (h : Grows ss ss') :
    ∀ n, n ≤ ss.length → (caps (below n ss')).length = (caps (below n ss)).length ∧
      ∀ (i : Nat) l, (caps (below n ss))[i]? = some l → ∃ l', (caps (below n ss'))[i]? = some l' ∧ l <+: l' ∧
        (l.Nodup → l'.Nodup)
  | 0, _ => by
    refine ⟨rfl, fun i l hl => ?_⟩
    simp [below, caps] at hl
  | n + 1, hn => by
    obtain ⟨s, hs⟩ : ∃ s, ss[n]? = some s := ⟨ss[n], List.getElem?_eq_getElem (by omega)⟩
    obtain ⟨s', hs', hg⟩ := h.each n s hs
    obtain ⟨ih1, ih2⟩ := captureLists_prefix h n (by omega)
    rw [below_succ hs, below_succ hs']
    unfold caps at ih1 ih2 ⊢
    rw [List.filter_cons, List.filter_cons, hg.flag]
    cases s.functionScope with
    | false => exact ⟨ih1, ih2⟩
    | true =>
      simp only [if_true, List.map_cons, List.length_cons]
      refine ⟨by rw [ih1], fun i l hl => ?_⟩
      cases i with
      | zero =>
        simp only [List.getElem?_cons_zero, Option.some.injEq] at hl
        subst hl
        exact ⟨s'.functionUvs, rfl, hg.captures, hg.nodup⟩
      | succ i => exact ih2 i l hl

/-- Longer lists still lead to the same places. -/
theorem leadsTo_mono : ∀ (a b : List (List Int)), b.length = a.length →
    (∀ (i : Nat) l, a[i]? = some l → ∃ l', b[i]? = some l' ∧ l <+: l') →
    ∀ j place, leadsTo a j = some place → leadsTo b j = some place
  | [], _, _, _, j, place, h => by simp [leadsTo] at h
  | x :: a, [], hl, _, _, _, _ => by simp at hl
  | x :: a, y :: b, hl, h, j, place, hf => by
    obtain ⟨y', hy, hp⟩ := h 0 x rfl
    simp only [List.getElem?_cons_zero, Option.some.injEq] at hy
    subst hy
    have ih := leadsTo_mono a b (by simpa using hl) (fun i l hl => by simpa using h (i + 1) l (by simpa using hl))
    rw [leadsTo] at hf ⊢
    cases hx : x[j]? with
    | none => rw [hx] at hf; cases hf
    | some u =>
      obtain ⟨t, rfl⟩ := hp
      have hj : j < x.length := (List.getElem?_eq_some_iff.1 hx).1
      have hy : (x ++ t)[j]? = some u := by rw [List.getElem?_append_left hj]; exact hx
      rw [hx] at hf
      rw [hy]
      dsimp only at hf ⊢
      by_cases hu : 0 ≤ u
      · rw [if_pos hu] at hf ⊢; exact hf
      · rw [if_neg hu] at hf ⊢
        cases hr : leadsTo a (-u - 1).toNat with
        | none => rw [hr] at hf; cases hf
        | some r => rw [hr] at hf; rw [ih _ _ hr]; exact hf

/-! ## Histories -/

theorem Match.reverse_nil : Match ([] : List Scope).reverse [] := trivial

theorem getTop_match {ss : List Scope} {blocks : List Block} (h : Match ss.reverse blocks)
    {f : Scope → Scope} {g : Block → Block} (hfg : ∀ s b, Rel s b → Rel (f s) (g b)) :
    Match (setTop (getTop ss).1 (f (getTop ss).2)).reverse (declare g blocks) := by
  cases List.eq_nil_or_concat ss with
  | inl h0 =>
    subst h0
    cases blocks with
    | cons b bs => exact h.elim
    | nil => exact ⟨hfg _ _ ⟨rfl, Reads.init, Reads.init⟩, trivial⟩
  | inr h0 =>
    obtain ⟨ss, s, rfl⟩ := h0
    rw [List.concat_eq_append] at h ⊢
    have hg : getTop (ss ++ [s]) = (ss ++ [s], s) := by simp [getTop]
    have hset : setTop (ss ++ [s]) (f s) = ss ++ [f s] := by simp [setTop]
    rw [hg]
    dsimp only
    rw [hset]
    rw [List.reverse_append] at h ⊢
    cases blocks with
    | nil => exact h.elim
    | cons b bs => exact ⟨hfg _ _ h.1, h.2⟩

theorem Match.grows : ∀ {ss ss' : List Scope} {blocks : List Block}, Match ss blocks → ss'.length = ss.length →
    (∀ (m : Nat) s, ss[m]? = some s → ∃ s', ss'[m]? = some s' ∧ Grown s s') → Match ss' blocks
  | [], [], [], _, _, _ => trivial
  | [], [], _ :: _, h, _, _ => h.elim
  | s :: ss, [], _, _, hl, _ => by simp at hl
  | [], _ :: _, _, _, hl, _ => by simp at hl
  | s :: ss, s' :: ss', [], h, _, _ => h.elim
  | s :: ss, s' :: ss', b :: bs, h, hl, hg => by
    obtain ⟨t, ht, hgt⟩ := hg 0 s rfl
    simp only [List.getElem?_cons_zero, Option.some.injEq] at ht
    subst ht
    refine ⟨⟨hgt.flag.trans h.1.flag, ?_, ?_⟩, Match.grows h.2 (by simpa using hl) fun m x hx => ?_⟩
    · rw [hgt.locals]; exact h.1.variables
    · rw [hgt.functionLocals]; exact h.1.functions
    · exact hg (m + 1) x hx

theorem Grows.reverse {ss ss' : List Scope} (h : Grows ss ss') :
    ∀ (m : Nat) s, ss.reverse[m]? = some s → ∃ s', ss'.reverse[m]? = some s' ∧ Grown s s' := by
  intro m s hs
  have hm : m < ss.length := by
    have := (List.getElem?_eq_some_iff.1 hs).1
    simpa using this
  rw [List.getElem?_reverse hm] at hs
  obtain ⟨s', hs', hg⟩ := h.each _ s hs
  refine ⟨s', ?_, hg⟩
  rw [List.getElem?_reverse (by rw [h.length]; exact hm), h.length]
  exact hs'

/-- Looking outside the current function: everything about it. -/
theorem getFree_spec (fo : Bool) (name : Bytes) (sub : Sub) (blocks : List Block)
    (h : Match sub.scopes.reverse blocks) :
    match innermost fo name (outside blocks) with
    | none => getFreeLocalIndexFromName fo name sub = (sub, none)
    | some place => ∃ (j : Nat) (ss' : List Scope) (m : Nat) (s : Scope),
        getFreeLocalIndexFromName fo name sub = ({ sub with scopes := ss' }, some (j : Int)) ∧
        Grows sub.scopes ss' ∧ leadsTo (captureLists ss') j = some place ∧
        currentFunction sub.scopes sub.scopes.length = some (m, s) ∧ Noted fo name sub.scopes ss' m place.2 := by
  have hm : Match (below sub.scopes.length sub.scopes) blocks := by rw [below_length]; exact h
  have hc := currentFunction_spec sub.scopes sub.scopes.length blocks (Nat.le_refl _) hm
  cases hcf : currentFunction sub.scopes sub.scopes.length with
  | none =>
    rw [hcf] at hc
    dsimp only at hc
    rw [hc]
    simp only [innermost, getFreeLocalIndexFromName, hcf]
  | some r =>
    obtain ⟨m, s⟩ := r
    rw [hcf] at hc
    obtain ⟨h1, h2, h3, h4, h5⟩ := hc
    have hh := freeIndexHelper_spec fo name m sub.scopes s m (outside blocks) (Nat.le_refl _) h2 h4
    unfold HelperSpec at hh
    cases hi : innermost fo name (outside blocks) with
    | none =>
      rw [hi] at hh
      simp only [getFreeLocalIndexFromName, hcf, hh]
    | some place =>
      obtain ⟨d, k⟩ := place
      rw [hi] at hh
      obtain ⟨j, ss', fs', u, g1, g2, g3, g4, g5, g6, g7, g8⟩ := hh
      refine ⟨j, ss', m, s, by simp only [getFreeLocalIndexFromName, hcf, g1], g2, ?_, rfl, g8⟩
      have hflag : fs'.functionScope = true := by
        obtain ⟨t, ht, hg⟩ := g2.each m s h2
        rw [g4] at ht
        cases ht
        rw [hg.flag]; exact h3
      have hlen := g2.length
      rw [captureLists_eq, captureLists_current g4 hflag ss'.length (by omega) (Nat.le_refl _)]
      · exact leadsTo_points g5 g7
      · intro i t hi1 hi2 ht
        have hi3 : i < sub.scopes.length := by omega
        rw [g3 i hi1] at ht
        exact h5 i t hi1 hi3 ht

theorem getFree_grows (fo : Bool) (name : Bytes) (sub : Sub) (blocks : List Block)
    (h : Match sub.scopes.reverse blocks) :
    Grows sub.scopes (getFreeLocalIndexFromName fo name sub).1.scopes := by
  have hs := getFree_spec fo name sub blocks h
  cases hi : innermost fo name (outside blocks) with
  | none => rw [hi] at hs; dsimp only at hs; rw [hs]; exact Grows.refl _
  | some place =>
    rw [hi] at hs
    obtain ⟨j, ss', m, s, h1, h2, _⟩ := hs
    rw [h1]
    exact h2

theorem getFree_locals (fo : Bool) (name : Bytes) (sub : Sub) :
    (getFreeLocalIndexFromName fo name sub).1.localsLength = sub.localsLength := by
  unfold getFreeLocalIndexFromName
  split <;> rfl

/-- The compiler's state is as the open scopes say. -/
structure Follows (st : Scopes) (n : Nesting) : Prop where
  side : st.inComptime = n.side
  slot : ∀ s, (sideOf st s).localsLength = n.slot s
  scopes : ∀ s, Match (sideOf st s).scopes.reverse (n.blocks s)

theorem sideOf_current (st : Scopes) : sideOf st st.inComptime = st.current := by
  cases h : st.inComptime <;> simp [sideOf, Scopes.current, h]

theorem sideOf_setCurrent (st : Scopes) (sub : Sub) (s : Bool) :
    sideOf (st.setCurrent sub) s = if s = st.inComptime then sub else sideOf st s := by
  cases h : st.inComptime <;> cases s <;> simp [sideOf, Scopes.setCurrent, h]

theorem setCurrent_side (st : Scopes) (sub : Sub) : (st.setCurrent sub).inComptime = st.inComptime := by
  unfold Scopes.setCurrent
  split <;> rfl

theorem changeTop_scopes (f : Scope → Scope) (sub : Sub) :
    (changeTop f sub).scopes = setTop (getTop sub.scopes).1 (f (getTop sub.scopes).2) := rfl

theorem Follows.change {st : Scopes} {n : Nesting} (h : Follows st n) {f : Scope → Scope} {g : Block → Block}
    (hfg : ∀ s b, Rel s b → Rel (f s) (g b)) :
    Follows (st.setCurrent (changeTop f st.current)) (n.at n.side (declare g)) := by
  refine ⟨by rw [setCurrent_side]; exact h.side, fun s => ?_, fun s => ?_⟩
  · rw [sideOf_setCurrent]
    split
    · rename_i hs
      subst hs
      have := h.slot st.inComptime
      rw [sideOf_current] at this
      exact this
    · exact h.slot s
  · rw [sideOf_setCurrent]
    show Match _ (if s = n.side then declare g (n.blocks s) else n.blocks s)
    rw [← h.side]
    split
    · rename_i hs
      subst hs
      rw [changeTop_scopes]
      refine getTop_match ?_ hfg
      rw [← sideOf_current]
      exact h.scopes _
    · exact h.scopes s

theorem match_dropLast {ss : List Scope} {blocks : List Block} (h : Match ss.reverse blocks) :
    Match ss.dropLast.reverse blocks.tail := by
  rw [← List.tail_reverse]
  revert h
  generalize ss.reverse = l
  intro h
  cases l with
  | nil =>
    cases blocks with
    | nil => exact trivial
    | cons b bs => exact h.elim
  | cons a l =>
    cases blocks with
    | nil => exact h.elim
    | cons b bs => exact h.2

theorem follows_call {st : Scopes} {n : Nesting} (h : Follows st n) (m : Move) :
    Follows (call st m) (n.move m) := by
  have hcur : (n.slot n.side : Nat) = st.current.localsLength := by
    rw [← h.slot, ← h.side, sideOf_current]
  cases m with
  | opened f =>
    refine ⟨h.side, fun s => ?_, fun s => ?_⟩
    · have := h.slot s
      cases s <;> exact this
    · have := h.scopes s
      have hs := h.side
      cases s
      · show Match (st.runtime.scopes ++ [Scope.init (f && !st.inComptime)]).reverse
          (⟨f && (false == n.side), [], []⟩ :: n.blocks false)
        rw [List.reverse_append]
        refine ⟨⟨?_, Reads.init, Reads.init⟩, this⟩
        rw [← hs]
        cases st.inComptime <;> rfl
      · show Match (st.comptime.scopes ++ [Scope.init (f && st.inComptime)]).reverse
          (⟨f && (true == n.side), [], []⟩ :: n.blocks true)
        rw [List.reverse_append]
        refine ⟨⟨?_, Reads.init, Reads.init⟩, this⟩
        rw [← hs]
        cases st.inComptime <;> rfl
  | closed =>
    refine ⟨h.side, fun s => ?_, fun s => ?_⟩
    · have := h.slot s
      cases s <;> exact this
    · have := match_dropLast (h.scopes s)
      cases s <;> exact this
  | slot k =>
    refine ⟨(setCurrent_side ..).trans h.side, fun s => ?_, fun s => ?_⟩
    · show (sideOf (st.setCurrent _) s).localsLength = if s = n.side then k else n.slot s
      rw [sideOf_setCurrent, ← h.side]
      split
      · rfl
      · exact h.slot s
    · show Match (sideOf (st.setCurrent _) s).scopes.reverse (n.blocks s)
      rw [sideOf_setCurrent]
      split
      · rename_i hs
        subst hs
        have := h.scopes st.inComptime
        rw [sideOf_current] at this
        exact this
      · exact h.scopes s
  | «variable» name =>
    simp only [call, Nesting.move, addObject]
    rw [hcur]
    exact h.change fun s b hr => ⟨hr.flag, hr.variables.insert _ _, hr.functions⟩
  | function name =>
    simp only [call, Nesting.move, addInterpretedFunction]
    rw [hcur]
    exact h.change fun s b hr => ⟨hr.flag, hr.variables, hr.functions.insert _ _⟩
  | «macro» name =>
    have hadd : ∀ s b, Rel s b → Rel { s with functions := Trie.insert s.functions name functionTypeMacro } (id b) :=
      fun s b hr => ⟨hr.flag, hr.variables, hr.functions⟩
    refine ⟨h.side, fun s => ?_, fun s => ?_⟩
    · have := h.slot s
      cases s
      · show (if st.inComptime then st.runtime else _).localsLength = _
        cases st.inComptime <;> exact this
      · exact this
    · have h1 := h.scopes s
      have hs := h.side
      cases s
      · simp only [call, addInterpretedGenerator, sideOf, Nesting.move, Nesting.at, ← hs, Bool.false_eq_true, if_false]
        cases hc : st.inComptime
        · exact getTop_match h1 hadd
        · exact h1
      · simp only [call, addInterpretedGenerator, sideOf, Nesting.move, Nesting.at, if_true]
        have : declare id (if true = n.side then declare id (n.blocks true) else n.blocks true)
            = declare id (n.blocks true) := by
          split
          · cases n.blocks true <;> rfl
          · rfl
        rw [this]
        exact getTop_match h1 hadd
  | label name =>
    have := h.change (f := fun scope => { scope with labels := Trie.insert scope.labels name st.current.labelNumber })
      (g := id) fun s b hr => ⟨hr.flag, hr.variables, hr.functions⟩
    refine ⟨(setCurrent_side ..).trans h.side, fun s => ?_, fun s => ?_⟩
    · have := this.slot s
      simp only [call, registerLabel]
      rw [sideOf_setCurrent] at this ⊢
      split
      · rw [if_pos (by assumption)] at this; exact this
      · rw [if_neg (by assumption)] at this; exact this
    · have := this.scopes s
      simp only [call, registerLabel]
      rw [sideOf_setCurrent] at this ⊢
      split
      · rw [if_pos (by assumption)] at this; exact this
      · rw [if_neg (by assumption)] at this; exact this
  | captured fo name =>
    have h1 := h.scopes st.inComptime
    rw [sideOf_current] at h1
    have hg := getFree_grows fo name st.current _ h1
    refine ⟨(setCurrent_side ..).trans h.side, fun s => ?_, fun s => ?_⟩
    · simp only [call]
      rw [sideOf_setCurrent]
      show _ = n.slot s
      split
      · rename_i hs
        subst hs
        rw [getFree_locals, ← sideOf_current]
        exact h.slot _
      · exact h.slot s
    · simp only [call]
      rw [sideOf_setCurrent]
      show Match _ (n.blocks s)
      split
      · rename_i hs
        subst hs
        exact h1.grows (by simp [hg.length]) hg.reverse
      · exact h.scopes s
  | turned c =>
    exact ⟨rfl, h.slot, h.scopes⟩

theorem follows_init : Follows Scopes.init ⟨fun _ => [], fun _ => 0, false⟩ :=
  ⟨rfl, fun s => by cases s <;> rfl, fun s => by cases s <;> exact trivial⟩

theorem follows_foldl (history : List Move) : ∀ {st n}, Follows st n →
    Follows (history.foldl call st) (history.foldl Nesting.move n) := by
  induction history with
  | nil => exact id
  | cons m ms ih => exact fun h => ih (follows_call h m)

theorem follows (history : List Move) : Follows (compiling history) (nesting history) :=
  follows_foldl history follows_init

/-! ## Balanced histories -/

/-- Blocks that differ at most in the innermost one, which keeps its place. -/
def SameBelow (a b : List Block) : Prop := a.tail = b.tail ∧ b ≠ []

theorem balanced_blocks {body : List Move} (h : Balanced body) :
    ∀ n : Nesting, (∀ s, n.blocks s ≠ []) →
      ∀ s, ((body.foldl Nesting.move n).blocks s).tail = (n.blocks s).tail ∧
        (body.foldl Nesting.move n).blocks s ≠ [] := by
  have hd : ∀ (g : Block → Block) (l : List Block), l ≠ [] → (declare g l).tail = l.tail ∧ declare g l ≠ [] := by
    intro g l hl
    cases l with
    | nil => exact (hl rfl).elim
    | cons b bs => exact ⟨rfl, by simp [declare]⟩
  have hat : ∀ (n : Nesting) (side : Bool) (g : Block → Block), (∀ s, n.blocks s ≠ []) → ∀ s,
      ((n.at side (declare g)).blocks s).tail = (n.blocks s).tail ∧ (n.at side (declare g)).blocks s ≠ [] := by
    intro n side g hn s
    simp only [Nesting.at]
    by_cases hs : s = side
    · rw [if_pos hs]; exact hd g _ (hn s)
    · rw [if_neg hs]; exact ⟨rfl, hn s⟩
  induction h with
  | nil => exact fun n hn s => ⟨rfl, hn s⟩
  | «variable» name => exact fun n hn s => hat n _ _ hn s
  | function name => exact fun n hn s => hat n _ _ hn s
  | «macro» name =>
    intro n hn s
    have h1 := hat n n.side id hn
    have h2 := hat (n.at n.side (declare id)) true id (fun s => (h1 s).2) s
    exact ⟨h2.1.trans (h1 s).1, h2.2⟩
  | label name => exact fun n hn s => hat n _ _ hn s
  | captured fo name => exact fun n hn s => ⟨rfl, hn s⟩
  | slot k => exact fun n hn s => ⟨rfl, hn s⟩
  | turned c => exact fun n hn s => ⟨rfl, hn s⟩
  | scope f hb ih =>
    intro n hn s
    rw [List.foldl_append]
    obtain ⟨h1, h2⟩ := ih (n.move (.opened f)) (fun s => by simp [Nesting.move]) s
    rw [← List.foldl_cons] at h1 h2
    show (List.tail (List.tail _)) = _ ∧ (List.tail _) ≠ []
    rw [h1]
    exact ⟨rfl, hn s⟩
  | append ha hb iha ihb =>
    intro n hn s
    rw [List.foldl_append]
    have h1 := iha n hn
    have h2 := ihb _ (fun s => (h1 s).2) s
    exact ⟨h2.1.trans (h1 s).1, h2.2⟩

/-! ## No duplicates -/

/-- No capture list and no list of notes has duplicates. -/
def Distinct (ss : List Scope) : Prop := ∀ s ∈ ss, s.functionUvs.Nodup ∧ s.scopeUvs.Nodup

theorem distinct_changeTop {f : Scope → Scope} (hf : ∀ s, (f s).functionUvs = s.functionUvs ∧ (f s).scopeUvs = s.scopeUvs)
    {sub : Sub} (h : Distinct sub.scopes) : Distinct (changeTop f sub).scopes := by
  rw [changeTop_scopes]
  cases List.eq_nil_or_concat sub.scopes with
  | inl h0 =>
    rw [h0]
    intro s hs
    have hs : s = f (Scope.init true) := by simpa [getTop, setTop] using hs
    subst hs
    rw [(hf _).1, (hf _).2]
    exact ⟨List.nodup_nil, List.nodup_nil⟩
  | inr h0 =>
    obtain ⟨ss, t, h0⟩ := h0
    rw [h0, List.concat_eq_append] at h
    rw [h0, List.concat_eq_append]
    have hg : getTop (ss ++ [t]) = (ss ++ [t], t) := by simp [getTop]
    have hset : setTop (ss ++ [t]) (f t) = ss ++ [f t] := by simp [setTop]
    rw [hg]
    dsimp only
    rw [hset]
    intro s hs
    rcases List.mem_append.1 hs with h1 | h1
    · exact h s (by simp [h1])
    · simp only [List.mem_singleton] at h1
      subst h1
      rw [(hf _).1, (hf _).2]
      exact h t (by simp)

theorem distinct_grows {ss ss' : List Scope} (h : Distinct ss) (hg : Grows ss ss') : Distinct ss' := by
  intro s' hs'
  obtain ⟨m, hm⟩ := List.mem_iff_getElem?.1 hs'
  have hml : m < ss.length := by
    rw [← hg.length]
    exact (List.getElem?_eq_some_iff.1 hm).1
  obtain ⟨t, ht, hgt⟩ := hg.each m ss[m] (List.getElem?_eq_getElem hml)
  rw [hm] at ht
  cases ht
  have := h ss[m] (List.getElem_mem hml)
  exact ⟨hgt.nodup this.1, hgt.noted this.2⟩

theorem distinct_call {st : Scopes} {n : Nesting} (hf : Follows st n) (h : ∀ s, Distinct (sideOf st s).scopes)
    (m : Move) : ∀ s, Distinct (sideOf (call st m) s).scopes := by
  have hset : ∀ sub, Distinct sub.scopes → ∀ s, Distinct (sideOf (st.setCurrent sub) s).scopes := by
    intro sub hsub s
    rw [sideOf_setCurrent]
    split
    · exact hsub
    · exact h s
  have hcur : Distinct st.current.scopes := by rw [← sideOf_current]; exact h _
  have hnew : ∀ (ss : List Scope) b, Distinct ss → Distinct (ss ++ [Scope.init b]) := by
    intro ss b hd s hs
    rcases List.mem_append.1 hs with h1 | h1
    · exact hd s h1
    · simp only [List.mem_singleton] at h1
      subst h1
      exact ⟨List.nodup_nil, List.nodup_nil⟩
  cases m with
  | opened f =>
    intro s
    have := h s
    cases s <;> exact hnew _ _ this
  | closed =>
    intro s
    have := h s
    cases s <;> exact fun t ht => this t ((List.dropLast_sublist _).subset ht)
  | slot k => exact hset _ hcur
  | «variable» name =>
    refine hset _ (distinct_changeTop ?_ hcur)
    exact fun s => ⟨rfl, rfl⟩
  | function name =>
    refine hset _ (distinct_changeTop ?_ hcur)
    exact fun s => ⟨rfl, rfl⟩
  | «macro» name =>
    intro s
    have hs := h s
    cases s
    · show Distinct (if st.inComptime then st.runtime else _).scopes
      cases st.inComptime
      · rw [if_neg (by decide)]
        refine distinct_changeTop (sub := st.runtime) ?_ hs
        exact fun s => ⟨rfl, rfl⟩
      · exact hs
    · simp only [call, addInterpretedGenerator, sideOf, if_true]
      refine distinct_changeTop (sub := st.comptime) ?_ hs
      exact fun s => ⟨rfl, rfl⟩
  | label name =>
    refine hset _ (distinct_changeTop (f := fun scope => { scope with
      labels := Trie.insert scope.labels name st.current.labelNumber }) (sub := st.current) ?_ hcur)
    exact fun s => ⟨rfl, rfl⟩
  | captured fo name =>
    refine hset _ (distinct_grows hcur (getFree_grows fo name st.current (n.blocks st.inComptime) ?_))
    rw [← sideOf_current]
    exact hf.scopes _
  | turned c => exact h

theorem distinct_foldl (history : List Move) : ∀ {st n}, Follows st n → (∀ s, Distinct (sideOf st s).scopes) →
    ∀ s, Distinct (sideOf (history.foldl call st) s).scopes := by
  induction history with
  | nil => exact fun _ h => h
  | cons m ms ih => exact fun hf h => ih (follows_call hf m) (distinct_call hf h m)

theorem distinct (history : List Move) (s : Bool) : Distinct (sideOf (compiling history) s).scopes :=
  distinct_foldl history follows_init (fun s => by cases s <;> exact fun t ht => (by cases ht)) s

/-! ## The declaring scope -/

theorem match_split (fo : Bool) (name : Bytes) (ss : List Scope) {m : Nat} {s : Scope} (hs : ss[m]? = some s)
    (hf : Trie.find (s.table fo) name ≠ -1) :
    ∀ (n : Nat) (blocks : List Block), m < n → n ≤ ss.length → Match (below n ss) blocks →
      (∀ (i : Nat) t, m < i → i < n → ss[i]? = some t → Trie.find (t.table fo) name = -1) →
      ∃ before b after k, blocks = before ++ b :: after ∧ after.length = m ∧ b.find fo name = some k ∧
        (∀ x ∈ before, x.find fo name = none)
  | 0, _, h, _, _, _ => by omega
  | n + 1, blocks, hm, hn, h, hi => by
    obtain ⟨t, ht⟩ : ∃ s, ss[n]? = some s := ⟨ss[n], List.getElem?_eq_getElem (by omega)⟩
    rw [below_succ ht] at h
    cases blocks with
    | nil => exact h.elim
    | cons b bs =>
      by_cases hmn : m = n
      · subst hmn
        rw [hs] at ht
        cases ht
        have hr := h.1.find fo name
        cases hb : b.find fo name with
        | none => rw [hb] at hr; exact (hf hr).elim
        | some k =>
          refine ⟨[], b, bs, k, rfl, ?_, hb, by simp⟩
          have : ∀ (l : List Scope) (bs : List Block), Match l bs → bs.length = l.length := by
            intro l
            induction l with
            | nil => intro bs h; cases bs with | nil => rfl | cons _ _ => exact h.elim
            | cons a l ih =>
              intro bs h
              cases bs with
              | nil => exact h.elim
              | cons b bs => simp [ih bs h.2]
          rw [this _ _ h.2]
          simp [below]
          omega
      · obtain ⟨before, c, after, k, h1, h2, h3, h4⟩ := match_split fo name ss hs hf n bs (by omega) (by omega) h.2
          fun i t h1 h2 => hi i t h1 (by omega)
        refine ⟨b :: before, c, after, k, by rw [h1]; rfl, h2, h3, ?_⟩
        intro x hx
        rcases List.mem_cons.1 hx with rfl | hx
        · have hr := h.1.find fo name
          rw [hi n t (by omega) (by omega) ht] at hr
          cases hb : x.find fo name with
          | none => rfl
          | some k => rw [hb] at hr; simp at hr
        · exact h4 x hx

theorem innermost_split {fo : Bool} {name : Bytes} {b : Block} {after : List Block} {k : Nat}
    (hb : b.find fo name = some k) :
    ∀ before : List Block, (∀ x ∈ before, x.find fo name = none) →
      ∃ d, innermost fo name (before ++ b :: after) = some (d, k)
  | [], _ => ⟨0, by simp [innermost, hb]⟩
  | x :: before, h => by
    obtain ⟨d, hd⟩ := innermost_split hb before fun y hy => h y (by simp [hy])
    refine ⟨if x.isFunction then d + 1 else d, ?_⟩
    rw [List.cons_append, innermost, h x (by simp), hd]
    rfl

end DuckLisp.Compile
