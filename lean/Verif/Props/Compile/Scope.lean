import Verif.Proof.Compile.Scope

/-!
# C15 and C16: names refer to the right binding, and captures lead to it

A history is any sequence of the calls that the compiler makes: scopes begin and end, names are declared, names
are looked for outside the current function (which records captures).  `nesting` describes the scopes that are
then open, and `innermost` the binding that a name has in them.
-/

namespace DuckLisp.Compile

open DuckLisp.Spec

/-- C15: after every history, looking up a name gives the slot of the newest declaration in the nearest open
scope of the current function, and nothing (-1) if the binding is outside that function or there is none.
`functionsOnly` selects the names of functions. -/
theorem C15_lookup (history : List Move) (side functionsOnly : Bool) (name : Bytes) :
    getLocalIndexFromName functionsOnly name (sideOf (compiling history) side)
      = match innermost functionsOnly name ((nesting history).blocks side) with
        | some (0, slot) => (slot : Int)
        | _ => -1 := by
  have h := (follows history).scopes side
  unfold getLocalIndexFromName
  refine localIndex_eq functionsOnly name _ _ _ (Nat.le_refl _) ?_
  rw [below_length]
  exact h

/-- C15: bindings of a closed scope are not visible after it ends.  Whatever is done in a scope, once it is
closed every name refers to the slot it referred to before. -/
theorem C15_closed_scope (history body : List Move) (hb : Balanced body) (isFunction : Bool)
    (side functionsOnly : Bool) (name : Bytes) :
    getLocalIndexFromName functionsOnly name
        (sideOf (compiling (history ++ .opened isFunction :: body ++ [.closed])) side)
      = getLocalIndexFromName functionsOnly name (sideOf (compiling history) side) := by
  rw [C15_lookup, C15_lookup]
  have : (nesting (history ++ .opened isFunction :: body ++ [.closed])).blocks side
      = (nesting history).blocks side := by
    unfold nesting
    rw [List.append_assoc, List.foldl_append]
    generalize history.foldl Nesting.move _ = n
    rw [List.foldl_append]
    have h1 := (balanced_blocks hb (n.move (.opened isFunction)) (fun s => by simp [Nesting.move]) side).1
    rw [← List.foldl_cons] at h1
    show (List.tail _) = _
    rw [h1]
    rfl
  rw [this]

/-- C15: a declaration is found at once, at the slot that was next when it was made, whatever was declared
before; other names are not affected by it. -/
theorem C15_declared (history : List Move) (name other : Bytes) :
    let st := compiling history
    let after := compiling (history ++ [.variable name])
    getLocalIndexFromName false name after.current = (st.current.localsLength : Int) ∧
      (other ≠ name → getLocalIndexFromName false other after.current
        = getLocalIndexFromName false other st.current) ∧
      getLocalIndexFromName true other after.current = getLocalIndexFromName true other st.current := by
  intro st after
  have hf := follows history
  have hf' := follows (history ++ [.variable name])
  have hside : (nesting (history ++ [.variable name])).side = (nesting history).side := by
    simp [nesting, List.foldl_append, Nesting.move, Nesting.at]
  have hcur : after.current = sideOf after (nesting history).side := by
    rw [← hside, ← hf'.side, sideOf_current]
  have hcur0 : st.current = sideOf st (nesting history).side := by
    rw [← hf.side, sideOf_current]
  have hblocks : (nesting (history ++ [.variable name])).blocks (nesting history).side
      = declare (fun b => { b with variables := (name, st.current.localsLength) :: b.variables })
          ((nesting history).blocks (nesting history).side) := by
    rw [hcur0, hf.slot]
    simp [nesting, List.foldl_append, Nesting.move, Nesting.at]
  have hfind : ∀ (b : Block), ({ b with variables := (name, st.current.localsLength) :: b.variables } : Block).find
      false name = some st.current.localsLength := by
    intro b; simp [Block.find]
  have hother : ∀ (b : Block), other ≠ name → ({ b with variables := (name, st.current.localsLength) :: b.variables }
      : Block).find false other = b.find false other := by
    intro b h
    have : (other == name) = false := by simp [h]
    simp [Block.find, List.lookup_cons, this]
  refine ⟨?_, fun hne => ?_, ?_⟩
  · rw [hcur, C15_lookup, hblocks]
    cases (nesting history).blocks (nesting history).side with
    | nil =>
      have := hfind ⟨true, [], []⟩
      simp only [declare, innermost, this]
    | cons b bs => simp only [declare, innermost, hfind]
  · rw [hcur, hcur0, C15_lookup, C15_lookup, hblocks]
    cases (nesting history).blocks (nesting history).side with
    | nil =>
      have := hother ⟨true, [], []⟩ hne
      simp only [declare, innermost, this]
      rfl
    | cons b bs => simp only [declare, innermost, hother _ hne]
  · rw [hcur, hcur0, C15_lookup, C15_lookup, hblocks]
    cases (nesting history).blocks (nesting history).side with
    | nil => rfl
    | cons b bs => rfl

/-- Names for the examples. -/
private def x : Bytes := [120]
@[inherit_doc x]
private def y : Bytes := [121]
@[inherit_doc x]
private def z : Bytes := [122]

/-- `(var x) (block (var x) (lambda (y) ... (block (var y))))` while the innermost block is open. -/
private def nested : List Move :=
  [.opened false, .variable x, .slot 1, .opened false, .variable x, .slot 2, .opened true, .slot 0, .variable y,
    .slot 1, .opened false, .slot 3, .variable y]

-- The newest `y` is found; the `x` outside the function is not a local.
example : getLocalIndexFromName false y (compiling nested).current = 3 := by decide +kernel
example : getLocalIndexFromName false x (compiling nested).current = -1 := by decide +kernel
example : innermost false x ((nesting nested).blocks false) = some (1, 1) := by decide +kernel
-- Shadowing ends with the scope.
example : getLocalIndexFromName false x
    (compiling [.variable x, .opened false, .slot 5, .variable x, .closed]).current = 0 := by decide +kernel
example : Balanced [.slot 5, .variable x] := Balanced.append (.slot 5) (.variable x)

/-- C16: looking for a name outside the current function finds nothing, and changes nothing, exactly if no
enclosing function has a binding of it.  Otherwise it gives a position in the current function's list of
captures, and following that list, and from there those of the enclosing functions, leads to exactly the slot
of the innermost enclosing binding. -/
theorem C16_capture (history : List Move) (side functionsOnly : Bool) (name : Bytes) :
    let sub := sideOf (compiling history) side
    let r := getFreeLocalIndexFromName functionsOnly name sub
    match innermost functionsOnly name (outside ((nesting history).blocks side)) with
    | none => r = (sub, none)
    | some place => ∃ j : Nat, r.2 = some (j : Int) ∧ leadsTo (captureLists r.1.scopes) j = some place := by
  intro sub r
  have h := getFree_spec functionsOnly name sub _ ((follows history).scopes side)
  cases hi : innermost functionsOnly name (outside ((nesting history).blocks side)) with
  | none => rw [hi] at h; exact h
  | some place =>
    rw [hi] at h
    obtain ⟨j, ss', m, s, h1, h2, h3, h4, h5⟩ := h
    refine ⟨j, ?_, ?_⟩
    · show (getFreeLocalIndexFromName functionsOnly name sub).2 = _
      rw [h1]
    · show leadsTo (captureLists (getFreeLocalIndexFromName functionsOnly name sub).1.scopes) j = _
      rw [h1]
      exact h3

/-- C16: recording a capture leaves every earlier capture, of every function, where it was and leading where it
led; the lists only get longer.  What names refer to does not change either. -/
theorem C16_kept (history : List Move) (side functionsOnly : Bool) (name : Bytes) :
    let sub := sideOf (compiling history) side
    let after := (getFreeLocalIndexFromName functionsOnly name sub).1
    (captureLists after.scopes).length = (captureLists sub.scopes).length ∧
      (∀ (i : Nat) captures, (captureLists sub.scopes)[i]? = some captures →
        ∃ captures', (captureLists after.scopes)[i]? = some captures' ∧ captures <+: captures') ∧
      (∀ j place, leadsTo (captureLists sub.scopes) j = some place →
        leadsTo (captureLists after.scopes) j = some place) ∧
      (∀ fo other, getLocalIndexFromName fo other after = getLocalIndexFromName fo other sub) := by
  intro sub after
  have hm := (follows history).scopes side
  have hg : Grows sub.scopes after.scopes := getFree_grows functionsOnly name sub _ hm
  obtain ⟨h1, h2⟩ := captureLists_prefix hg sub.scopes.length (Nat.le_refl _)
  have e1 : captureLists sub.scopes = caps (below sub.scopes.length sub.scopes) := captureLists_eq _
  have e2 : captureLists after.scopes = caps (below sub.scopes.length after.scopes) := by
    rw [captureLists_eq, hg.length]
  have h3 : ∀ (i : Nat) captures, (captureLists sub.scopes)[i]? = some captures →
        ∃ captures', (captureLists after.scopes)[i]? = some captures' ∧ captures <+: captures' := by
    intro i l hl
    rw [e1] at hl
    rw [e2]
    obtain ⟨l', a, b, _⟩ := h2 i l hl
    exact ⟨l', a, b⟩
  refine ⟨by rw [e1, e2]; exact h1, h3, ?_, ?_⟩
  · exact leadsTo_mono _ _ (by rw [e1, e2]; exact h1) h3
  · intro fo other
    have hm' : Match after.scopes.reverse ((nesting history).blocks side) :=
      Match.grows hm (by simp [hg.length]; rfl) hg.reverse
    unfold getLocalIndexFromName
    rw [localIndex_eq fo other after.scopes _ _ (Nat.le_refl _) (by rw [below_length]; exact hm'),
      localIndex_eq fo other sub.scopes _ _ (Nat.le_refl _) (by rw [below_length]; exact hm)]

/-- C16: no function's list of captures, and no scope's list of captured variables, ever has the same entry
twice. -/
theorem C16_no_duplicates (history : List Move) (side : Bool) :
    (∀ captures ∈ captureLists (sideOf (compiling history) side).scopes, captures.Nodup) ∧
      ∀ scope ∈ (sideOf (compiling history) side).scopes, scope.scopeUvs.Nodup := by
  have h := distinct history side
  refine ⟨fun l hl => ?_, fun s hs => (h s hs).2⟩
  unfold captureLists at hl
  obtain ⟨s, hs, rfl⟩ := List.mem_map.1 hl
  exact (h s (List.mem_reverse.1 (List.mem_filter.1 hs).1)).1

/-- C16: the scope that declares a captured variable records its slot, so that the variable is given its own
cell when that scope ends. -/
theorem C16_recorded (history : List Move) (side functionsOnly : Bool) (name : Bytes) (place : Nat × Nat)
    (hp : innermost functionsOnly name (outside ((nesting history).blocks side)) = some place) :
    let after := (getFreeLocalIndexFromName functionsOnly name (sideOf (compiling history) side)).1
    ∃ before block further scope, outside ((nesting history).blocks side) = before ++ block :: further ∧
      (∀ b ∈ before, b.find functionsOnly name = none) ∧ block.find functionsOnly name = some place.2 ∧
      after.scopes[further.length]? = some scope ∧ (place.2 : Int) ∈ scope.scopeUvs := by
  intro after
  have hm := (follows history).scopes side
  have h := getFree_spec functionsOnly name (sideOf (compiling history) side) _ hm
  rw [hp] at h
  obtain ⟨j, ss', m, s, h1, h2, h3, h4, h5⟩ := h
  have hc := currentFunction_spec (sideOf (compiling history) side).scopes _ _ (Nat.le_refl _)
    (by rw [below_length]; exact hm)
  rw [h4] at hc
  obtain ⟨c1, c2, c3, c4, c5⟩ := hc
  obtain ⟨i, t, t', n1, n2, n3, n4, n5, n6⟩ := h5
  obtain ⟨before, b, further, k, s1, s2, s3, s4⟩ := match_split functionsOnly name _ n2 n3 m _ n1 (by omega) c4 n4
  obtain ⟨d, hd⟩ := innermost_split (after := further) s3 before s4
  rw [s1, hd] at hp
  have hk : place.2 = k := by
    cases hp
    rfl
  refine ⟨before, b, further, t', s1, s4, by rw [hk]; exact s3, ?_, n6⟩
  show (getFreeLocalIndexFromName functionsOnly name (sideOf (compiling history) side)).1.scopes[further.length]? = _
  rw [h1, s2]
  exact n5

/-- A function in a function in a function; `z` and `x` are variables of the outermost. -/
private def threeDeep : List Move :=
  [.opened false, .slot 3, .variable z, .slot 7, .variable x, .opened true, .slot 0, .variable y, .opened true,
    .captured false z, .opened true, .opened false]

-- Capturing `x` from the innermost function: two chain links, then slot 7; `z` already had an entry.
example : innermost false x (outside ((nesting threeDeep).blocks false)) = some (2, 7) := by decide +kernel
example : (getFreeLocalIndexFromName false x (compiling threeDeep).current).2 = some 0 := by decide +kernel
example : captureLists (getFreeLocalIndexFromName false x (compiling threeDeep).current).1.scopes
    = [[-2], [-1, -2], [3, 7]] := by decide +kernel
example : leadsTo [[-2], [-1, -2], [3, 7]] 0 = some (2, 7) := by decide +kernel
-- A variable of the function just outside is captured directly.
example : captureLists (getFreeLocalIndexFromName false y (compiling
    [.opened false, .opened true, .slot 4, .variable y, .opened true]).current).1.scopes = [[4], []] := by
  decide +kernel

#print axioms C15_lookup
#print axioms C15_closed_scope
#print axioms C15_declared
#print axioms C16_capture
#print axioms C16_kept
#print axioms C16_no_duplicates
#print axioms C16_recorded

end DuckLisp.Compile
