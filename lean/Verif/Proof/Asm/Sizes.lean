import Verif.Model.Asm.Link
import Verif.Proof.Sort
import Verif.Props.Sort

/-!
# Positions and sizes of addresses

Helper lemmas.  Whatever sizes a pass chooses, the positions it leaves are those of the code with
addresses of these sizes put in.
-/

namespace DuckLisp.Asm

open DuckLisp DuckLisp.VM

/-- The bytes put in before position `x` of the code without addresses. -/
def before (old new : List Link) (x : Int) : Int :=
  ((old.zip new).map fun z => if z.1.source < x then (z.2.size : Int) else 0).sum

theorem before_set : ∀ (old new : List Link) (i : Nat) (o c l : Link) (x : Int), old[i]? = some o →
    new[i]? = some c →
    before old (new.set i l) x =
      before old new x + if o.source < x then (l.size : Int) - c.size else 0
  | o' :: old, c' :: new, 0, o, c, l, x, ho, hc => by
    simp only [List.getElem?_cons_zero, Option.some.injEq] at ho hc
    subst ho hc
    simp only [before, List.set_cons_zero, List.zip_cons_cons, List.map_cons, List.sum_cons]
    split <;> omega
  | o' :: old, c' :: new, i + 1, o, c, l, x, ho, hc => by
    simp only [List.getElem?_cons_succ] at ho hc
    have := before_set old new i o c l x ho hc
    simp only [before, List.set_cons_succ, List.zip_cons_cons, List.map_cons, List.sum_cons] at this ⊢
    omega
  | [], _, _, _, _, _, _, ho, _ => by simp at ho
  | _ :: _, [], _, _, _, _, _, _, hc => by simp at hc

theorem before_set_same {old new : List Link} {i : Nat} {c l : Link} (x : Int) (hl : old.length = new.length)
    (hc : new[i]? = some c) (hs : l.size = c.size) : before old (new.set i l) x = before old new x := by
  have hi := (List.getElem?_eq_some_iff.1 hc).1
  have ho : old[i]? = some old[i] := List.getElem?_eq_getElem (by omega)
  rw [before_set old new i _ c l x ho hc, hs]
  split <;> omega

/-- The positions are those of the code with addresses of the sizes in `new`. -/
structure Laid (old new : List Link) : Prop where
  length : new.length = old.length
  at_ : ∀ (i : Nat) (o n : Link), old[i]? = some o → new[i]? = some n →
    n.source = o.source + before old new o.source ∧
    n.target = o.target + before old new (o.target + 1)

theorem before_zero (old : List Link) (h : ∀ o ∈ old, o.size = 0) (x : Int) : before old old x = 0 := by
  induction old with
  | nil => rfl
  | cons o old ih =>
    have h1 := ih fun o ho => h o (List.mem_cons_of_mem _ ho)
    have h2 := h o List.mem_cons_self
    unfold before at h1 ⊢
    simp only [List.zip_cons_cons, List.map_cons, List.sum_cons, h1, h2]
    split <;> rfl

theorem laid_start (old : List Link) (h : ∀ o ∈ old, o.size = 0) : Laid old old := by
  refine ⟨rfl, fun i o n ho hn => ?_⟩
  rw [ho] at hn
  cases hn
  rw [before_zero old h, before_zero old h]
  omega

/-- The state in the middle of a pass. -/
structure Mid (old start : List Link) (done : List End) (cur : List Link) (off : Int) : Prop where
  len : cur.length = old.length
  slen : start.length = old.length
  size : ∀ (i : Nat) (c s : Link), cur[i]? = some c → start[i]? = some s → End.mk i false ∉ done → c.size = s.size
  off : ∀ X, (∀ (i : Nat) (o : Link), End.mk i false ∈ done → old[i]? = some o → o.source < X) →
    off = before old cur X - before old start X
  source : ∀ (i : Nat) (o c : Link), old[i]? = some o → cur[i]? = some c →
    c.source = o.source + if End.mk i false ∈ done then before old cur o.source
      else before old start o.source
  target : ∀ (i : Nat) (o c : Link), old[i]? = some o → cur[i]? = some c →
    c.target = o.target + if End.mk i true ∈ done then before old cur (o.target + 1)
      else before old start (o.target + 1)

theorem mid_start {old start : List Link} (h : Laid old start) : Mid old start [] start 0 := by
  refine ⟨h.length, h.length, fun i c s h1 h2 _ => ?_, fun X _ => by omega, fun i o c h1 h2 => ?_,
    fun i o c h1 h2 => ?_⟩
  · rw [h1] at h2; cases h2; rfl
  · simpa using (h.at_ i o c h1 h2).1
  · simpa using (h.at_ i o c h1 h2).2

/-- No two addresses are at the same place. -/
def Apart (old : List Link) : Prop :=
  ∀ (i j : Nat) (o p : Link), old[i]? = some o → old[j]? = some p → o.source = p.source → i = j

theorem mid_visit {old start : List Link} (ha : Apart old) {done : List End} {cur : List Link}
    {off : Int} (h : Mid old start done cur off) {p : End} (hp : p.index < old.length)
    (hnew : p ∉ done) (hle : ∀ q ∈ done, key old q ≤ key old p) :
    Mid old start (done ++ [p]) (visit (cur, off) p).1 (visit (cur, off) p).2 := by
  obtain ⟨i, isT⟩ := p
  have hpi : i < old.length := hp
  have hci : i < cur.length := by have := h.len; omega
  have hc : cur[i]? = some cur[i] := List.getElem?_eq_getElem hci
  have ho : old[i]? = some old[i] := List.getElem?_eq_getElem hpi
  generalize hcc : cur[i] = c at hc
  generalize hoo : old[i] = o at ho
  cases isT with
  | true =>
    have hv : visit (cur, off) ⟨i, true⟩ = (cur.set i { c with target := c.target + off }, off) := by
      simp only [visit, hc, if_true]
    rw [hv]
    have hb : ∀ x, before old (cur.set i { c with target := c.target + off }) x = before old cur x :=
      fun x => before_set_same x h.len.symm hc rfl
    have hmem : ∀ j, End.mk j false ∈ done ++ [End.mk i true] ↔ End.mk j false ∈ done := by
      intro j; simp
    refine ⟨by simp [h.len], h.slen, fun j c' s h1 h2 h3 => ?_, fun X hX => ?_, fun j o' c' h1 h2 => ?_,
      fun j o' c' h1 h2 => ?_⟩
    · rw [hmem] at h3
      rw [List.getElem?_set] at h1
      split at h1
      · rename_i he
        subst he
        cases h1
        exact h.size i c s hc h2 h3
      · exact h.size j c' s h1 h2 h3
    · rw [hb]
      exact h.off X fun j o' hj => hX j o' (by rw [hmem]; exact hj)
    · simp only [hb, hmem]
      rw [List.getElem?_set] at h2
      split at h2
      · rename_i he
        subst he
        cases h2
        exact h.source i o' c h1 hc
      · exact h.source j o' c' h1 h2
    · simp only [hb]
      rw [List.getElem?_set] at h2
      split at h2
      · rename_i he
        subst he
        cases h2
        rw [ho] at h1
        cases h1
        rw [if_pos (by simp)]
        have h3 := h.target i o c ho hc
        rw [if_neg hnew] at h3
        have h4 := h.off (o.target + 1) fun j o' hj hj' => by
          have := hle _ hj
          simp only [key, hj', ho, if_true, Bool.false_eq_true, if_false] at this
          omega
        dsimp only
        omega
      · rename_i he
        have := h.target j o' c' h1 h2
        have hm : (End.mk j true ∈ done ++ [End.mk i true]) ↔ End.mk j true ∈ done := by
          simp [Ne.symm he]
        simp only [hm]
        exact this
  | false =>
    generalize hl' : ({ c with source := c.source + off } : Link) = l'
    generalize hn : sizeFor l'.distance = n
    have hv : visit (cur, off) ⟨i, false⟩ =
        (cur.set i { l' with size := n }, off + ((n : Int) - c.size)) := by
      simp only [visit, hc, Bool.false_eq_true, if_false, hl', hn]
      rw [← hl']
    rw [hv]
    have hls : l'.source = c.source + off := by rw [← hl']
    have hlt : l'.target = c.target := by rw [← hl']
    have hb : ∀ x, before old (cur.set i { l' with size := n }) x =
        before old cur x + if o.source < x then (n : Int) - c.size else 0 :=
      fun x => before_set old cur i o c _ x ho hc
    have hmem : ∀ j, j ≠ i → (End.mk j false ∈ done ++ [End.mk i false] ↔ End.mk j false ∈ done) := by
      intro j hj; simp [hj]
    have hmemT : ∀ j, (End.mk j true ∈ done ++ [End.mk i false] ↔ End.mk j true ∈ done) := by
      intro j; simp
    have hlast : ∀ j o', End.mk j false ∈ done → old[j]? = some o' → o'.source < o.source := by
      intro j o' hj hj'
      have h1 := hle _ hj
      simp only [key, hj', ho, Bool.false_eq_true, if_false] at h1
      have h2 : o'.source ≠ o.source := fun he => by
        have := ha j i o' o hj' ho he
        subst this
        exact hnew hj
      omega
    have hoff := h.off o.source hlast
    have hsrc := h.source i o c ho hc
    rw [if_neg hnew] at hsrc
    refine ⟨by simp [h.len], h.slen, fun j c' s h1 h2 h3 => ?_, fun X hX => ?_, fun j o' c' h1 h2 => ?_,
      fun j o' c' h1 h2 => ?_⟩
    · rw [List.getElem?_set] at h1
      split at h1
      · rename_i he
        subst he
        exact absurd (by simp) h3
      · rename_i he
        rw [hmem j (Ne.symm he)] at h3
        exact h.size j c' s h1 h2 h3
    · rw [hb, if_pos (hX i o (by simp) ho)]
      have := h.off X fun j o' hj => hX j o' (by simp [hj])
      omega
    · rw [List.getElem?_set] at h2
      split at h2
      · rename_i he
        subst he
        cases h2
        rw [ho] at h1
        cases h1
        rw [if_pos (by simp), hb, if_neg (by omega)]
        dsimp only
        omega
      · rename_i he
        have h3 := h.source j o' c' h1 h2
        rw [show (if End.mk j false ∈ done ++ [End.mk i false] then
            before old (cur.set i { l' with size := n }) o'.source else before old start o'.source) =
            if End.mk j false ∈ done then before old cur o'.source else before old start o'.source from ?_]
        · exact h3
        · simp only [hmem j (Ne.symm he)]
          split
          · rename_i hd
            rw [hb, if_neg (by have := hlast j o' hd h1; omega)]
            omega
          · rfl
    · have h3 : ∃ c'', cur[j]? = some c'' ∧ c''.target = c'.target := by
        rw [List.getElem?_set] at h2
        split at h2
        · rename_i he
          subst he
          cases h2
          exact ⟨c, hc, hlt.symm⟩
        · exact ⟨c', h2, rfl⟩
      obtain ⟨c'', h4, h5⟩ := h3
      have h6 := h.target j o' c'' h1 h4
      rw [← h5, h6]
      simp only [hmemT]
      split
      · rename_i hd
        rw [hb, if_neg]
        · omega
        · have := hle _ hd
          simp only [key, h1, ho, Bool.false_eq_true, if_false, if_true] at this
          omega
      · rfl

theorem mid_foldl {old start : List Link} (ha : Apart old) : ∀ (todo done : List End)
    (cur : List Link) (off : Int), Mid old start done cur off → (∀ p ∈ todo, p.index < old.length) →
    (done ++ todo).Nodup → (done ++ todo).Pairwise (fun p q => key old p ≤ key old q) →
    Mid old start (done ++ todo) (todo.foldl visit (cur, off)).1 (todo.foldl visit (cur, off)).2
  | [], done, cur, off, h, _, _, _ => by simpa using h
  | p :: todo, done, cur, off, h, hi, hd, hs => by
    have h1 : Mid old start (done ++ [p]) (visit (cur, off) p).1 (visit (cur, off) p).2 := by
      refine mid_visit ha h (hi p List.mem_cons_self) ?_ ?_
      · intro hp
        rw [List.nodup_append] at hd
        exact hd.2.2 p hp p List.mem_cons_self rfl
      · intro q hq
        rw [List.pairwise_append] at hs
        exact hs.2.2 q hq p List.mem_cons_self
    rw [List.append_cons] at hd hs ⊢
    exact mid_foldl ha todo (done ++ [p]) _ _ h1 (fun q hq => hi q (List.mem_cons_of_mem _ hq)) hd hs

/-- The order in which a pass visits the ends. -/
structure Ordered (old : List Link) (order : List End) : Prop where
  perm : order.Perm (ends old.length)
  sorted : order.Pairwise (fun p q => key old p ≤ key old q)

theorem mem_ends {n : Nat} {p : End} : p ∈ ends n ↔ p.index < n := by
  obtain ⟨i, b⟩ := p
  cases b <;> simp [ends]

theorem nodup_ends (n : Nat) : (ends n).Nodup := by
  unfold ends
  rw [List.nodup_append]
  have hr : (List.range n).Nodup := List.nodup_range
  refine ⟨?_, ?_, ?_⟩
  · exact List.Pairwise.map _ (fun a b h he => h (by cases he; rfl)) hr
  · exact List.Pairwise.map _ (fun a b h he => h (by cases he; rfl)) hr
  · intro a ha b hb he
    subst he
    simp at ha hb
    obtain ⟨_, _, rfl⟩ := ha
    obtain ⟨_, _, h⟩ := hb
    cases h

/-- Everything a pass leaves is where the sizes it leaves put it. -/
theorem laid_pass {old start : List Link} {order : List End} (ha : Apart old) (ho : Ordered old order)
    (h : Laid old start) : Laid old (pass order start).1 := by
  have := mid_foldl ha order [] start 0 (mid_start h)
    (fun p hp => mem_ends.1 (ho.perm.mem_iff.1 hp))
    (by simpa using ho.perm.nodup_iff.2 (nodup_ends _)) (by simpa using ho.sorted)
  rw [List.nil_append] at this
  have hall : ∀ i b, i < old.length → End.mk i b ∈ order :=
    fun i b hi => ho.perm.mem_iff.2 (mem_ends.2 hi)
  refine ⟨this.len, fun i o n h1 h2 => ?_⟩
  have hi := (List.getElem?_eq_some_iff.1 h1).1
  have h3 := this.source i o n h1 h2
  have h4 := this.target i o n h1 h2
  rw [if_pos (hall i _ hi)] at h3 h4
  exact ⟨h3, h4⟩

theorem laid_passes {old : List Link} {order : List End} (ha : Apart old) (ho : Ordered old order) :
    ∀ (n : Nat) (start : List Link), Laid old start → Laid old (passes order n start)
  | 0, start, h => h
  | n + 1, start, h => by
    have h1 := laid_pass ha ho h
    unfold passes
    rcases hp : pass order start with ⟨l, off⟩
    rw [hp] at h1
    dsimp only
    split
    · exact laid_passes ha ho n l h1
    · exact h1

/-! ### The order of the ends -/

theorem ordered_sortedEnds (links : List Link) :
    ∃ order, sortedEnds links = .ok order ∧ Ordered links order := by
  have hlen : (ends links.length).length = 2 * links.length := by
    simp only [ends, List.length_append, List.length_map, List.length_range]; omega
  obtain ⟨ys, h1, h2⟩ := Sort.C03_quicksort_hoare_sorts
    (cmp := fun a b => key links a - key links b) ⟨fun a b => by omega, fun a b c => by omega⟩
    (ends links.length) 0 (2 * links.length) (2 * links.length + 1) (by omega) (by omega)
  have h3 : ((0 : Nat) : Int) + ((2 * links.length : Nat) : Int) - 1 = 2 * (links.length : Int) - 1 := by
    omega
  rw [h3] at h1
  refine ⟨ys, h1, ?_, ?_⟩
  · have := h2.perm
    simp only [Spec.slice, List.drop_zero] at this
    rwa [List.take_of_length_le (by have := h2.length; omega), List.take_of_length_le (by omega)] at this
  · have := h2.sorted
    simp only [Spec.slice, List.drop_zero] at this
    rw [List.take_of_length_le (by have := h2.length; omega)] at this
    exact this.imp fun h => by omega

/-! ### Sizes -/

/-- An address has one, two or four bytes. -/
def Chosen (n : Nat) : Prop := n = 1 ∨ n = 2 ∨ n = 4

theorem sizeFor_chosen (d : Int) : Chosen (sizeFor d) := by
  unfold sizeFor Chosen
  split
  · exact .inl rfl
  · split
    · exact .inr (.inl rfl)
    · exact .inr (.inr rfl)

theorem chosen_foldl : ∀ (todo done : List End) (cur : List Link) (off : Int),
    (∀ i c, cur[i]? = some c → End.mk i false ∈ done → Chosen c.size) →
    ∀ i c, (todo.foldl visit (cur, off)).1[i]? = some c → End.mk i false ∈ done ++ todo → Chosen c.size
  | [], done, cur, off, h => by simpa using h
  | p :: todo, done, cur, off, h => by
    rw [List.append_cons]
    refine chosen_foldl todo (done ++ [p]) (visit (cur, off) p).1 (visit (cur, off) p).2 ?_
    intro i c hc hi
    unfold visit at hc
    split at hc
    · rename_i l hl
      dsimp only at hl hc
      split at hc
      · rename_i ht
        have hi' : End.mk i false ∈ done := by
          rw [List.mem_append, List.mem_singleton] at hi
          rcases hi with hi | hi
          · exact hi
          · rw [← hi] at ht; cases ht
        dsimp only at hc
        rw [List.getElem?_set] at hc
        split at hc
        · rename_i he
          split at hc <;> cases hc
          exact h i l (by rw [← he]; exact hl) hi'
        · exact h i c hc hi'
      · rename_i ht
        dsimp only at hc
        rw [List.getElem?_set] at hc
        split at hc
        · split at hc <;> cases hc
          exact sizeFor_chosen _
        · rename_i he
          refine h i c hc ?_
          rw [List.mem_append, List.mem_singleton] at hi
          rcases hi with hi | hi
          · exact hi
          · rw [← hi] at he; exact absurd rfl he
    · rename_i hn
      rw [List.mem_append, List.mem_singleton] at hi
      rcases hi with hi | hi
      · exact h i c hc hi
      · rw [← hi] at hn
        rw [show cur[i]? = none from hn] at hc
        cases hc

theorem chosen_pass {old start : List Link} {order : List End} (ho : Ordered old order)
    (hl : (pass order start).1.length = old.length) :
    ∀ c ∈ (pass order start).1, Chosen c.size := by
  intro c hc
  obtain ⟨i, hi, rfl⟩ := List.mem_iff_getElem.1 hc
  refine chosen_foldl order [] start 0 (fun _ _ _ h => by cases h) i _ (List.getElem?_eq_getElem hi) ?_
  rw [List.nil_append]
  exact ho.perm.mem_iff.2 (mem_ends.2 (by rw [← hl]; exact hi))

theorem chosen_passes {old : List Link} {order : List End} (ha : Apart old) (ho : Ordered old order) :
    ∀ (n : Nat) (start : List Link), Laid old start → ∀ c ∈ passes order (n + 1) start, Chosen c.size
  | 0, start, h => by
    have h1 := laid_pass ha ho h
    have h2 := chosen_pass (start := start) ho h1.length
    unfold passes
    rcases hp : pass order start with ⟨l, off⟩
    rw [hp] at h1 h2
    simp only [passes, ite_self]
    exact h2
  | n + 1, start, h => by
    have h1 := laid_pass ha ho h
    have h2 := chosen_pass (start := start) ho h1.length
    unfold passes
    rcases hp : pass order start with ⟨l, off⟩
    rw [hp] at h1 h2
    dsimp only
    split
    · exact chosen_passes ha ho n l h1
    · exact h2

/-! ### Short code -/

theorem before_bounds : ∀ (old new : List Link) (x : Int), (∀ c ∈ new, c.size ≤ 1) →
    0 ≤ before old new x ∧ before old new x ≤ old.length
  | [], _, x, _ => by simp [before]
  | o :: old, [], x, _ => by simp [before]; omega
  | o :: old, c :: new, x, h => by
    have h1 := before_bounds old new x fun c hc => h c (List.mem_cons_of_mem _ hc)
    have h2 := h c List.mem_cons_self
    simp only [before, List.zip_cons_cons, List.map_cons, List.sum_cons, List.length_cons] at h1 ⊢
    split <;> omega

/-- All positions are in a code of at most 126 bytes. -/
structure Short (old : List Link) (n : Nat) : Prop where
  source : ∀ o ∈ old, 0 ≤ o.source ∧ o.source ≤ n
  target : ∀ o ∈ old, 0 ≤ o.target ∧ o.target ≤ n
  small : n + old.length ≤ 126

theorem short_visit {old start : List Link} (ha : Apart old) {done : List End} {cur : List Link}
    {off : Int} (h : Mid old start done cur off) {p : End} (hp : p.index < old.length)
    (hnew : p ∉ done) (hle : ∀ q ∈ done, key old q ≤ key old p) {n : Nat} (hs : Short old n)
    (h1 : ∀ c ∈ start, c.size ≤ 1) (h2 : ∀ c ∈ cur, c.size ≤ 1) :
    ∀ c ∈ (visit (cur, off) p).1, c.size ≤ 1 := by
  obtain ⟨i, isT⟩ := p
  have hpi : i < old.length := hp
  have hci : i < cur.length := by have := h.len; omega
  have hc : cur[i]? = some cur[i] := List.getElem?_eq_getElem hci
  have ho : old[i]? = some old[i] := List.getElem?_eq_getElem hpi
  have hom : old[i] ∈ old := List.getElem_mem hpi
  have hcm : cur[i] ∈ cur := List.getElem_mem hci
  generalize cur[i] = c at hc hcm
  generalize old[i] = o at ho hom
  cases isT with
  | true =>
    simp only [visit, hc, if_true]
    intro d hd
    rcases List.mem_or_eq_of_mem_set hd with hd | rfl
    · exact h2 d hd
    · exact h2 c hcm
  | false =>
    simp only [visit, hc, Bool.false_eq_true, if_false]
    intro d hd
    rcases List.mem_or_eq_of_mem_set hd with hd | rfl
    · exact h2 d hd
    · have hlast : ∀ j o', End.mk j false ∈ done → old[j]? = some o' → o'.source < o.source := by
        intro j o' hj hj'
        have h1 := hle _ hj
        simp only [key, hj', ho, Bool.false_eq_true, if_false] at h1
        have h2 : o'.source ≠ o.source := fun he => by
          have := ha j i o' o hj' ho he
          subst this
          exact hnew hj
        omega
      have hoff := h.off o.source hlast
      have hsrc := h.source i o c ho hc
      rw [if_neg hnew] at hsrc
      have htgt := h.target i o c ho hc
      have b1 := before_bounds old cur o.source h2
      have b2 := before_bounds old cur (o.target + 1) h2
      have b3 := before_bounds old start (o.target + 1) h1
      have s1 := hs.source o hom
      have s2 := hs.target o hom
      have s3 := hs.small
      have s4 := h2 c hcm
      have : sizeFor (Link.distance { c with source := c.source + off }) = 1 := by
        unfold sizeFor
        rw [if_pos]
        unfold Link.distance
        dsimp only
        split at htgt <;> omega
      show sizeFor _ ≤ 1
      omega

theorem short_foldl {old start : List Link} (ha : Apart old) {n : Nat} (hs : Short old n)
    (h1 : ∀ c ∈ start, c.size ≤ 1) : ∀ (todo done : List End)
    (cur : List Link) (off : Int), Mid old start done cur off → (∀ p ∈ todo, p.index < old.length) →
    (done ++ todo).Nodup → (done ++ todo).Pairwise (fun p q => key old p ≤ key old q) →
    (∀ c ∈ cur, c.size ≤ 1) → ∀ c ∈ (todo.foldl visit (cur, off)).1, c.size ≤ 1
  | [], done, cur, off, _, _, _, _, h2 => h2
  | p :: todo, done, cur, off, h, hi, hd, hs', h2 => by
    have hp : p ∉ done := by
      intro hp
      rw [List.nodup_append] at hd
      exact hd.2.2 p hp p List.mem_cons_self rfl
    have hle : ∀ q ∈ done, key old q ≤ key old p := by
      intro q hq
      rw [List.pairwise_append] at hs'
      exact hs'.2.2 q hq p List.mem_cons_self
    have h3 := mid_visit ha h (hi p List.mem_cons_self) hp hle
    have h4 := short_visit ha h (hi p List.mem_cons_self) hp hle hs h1 h2
    rw [List.append_cons] at hd hs'
    exact short_foldl ha hs h1 todo (done ++ [p]) _ _ h3
      (fun q hq => hi q (List.mem_cons_of_mem _ hq)) hd hs' h4

theorem short_passes {old : List Link} {order : List End} (ha : Apart old) (ho : Ordered old order)
    {k : Nat} (hs : Short old k) :
    ∀ (n : Nat) (start : List Link), Laid old start → (∀ c ∈ start, c.size ≤ 1) →
      ∀ c ∈ passes order n start, c.size ≤ 1
  | 0, start, _, h => h
  | n + 1, start, hl, h => by
    have h1 := laid_pass ha ho hl
    have h2 := short_foldl ha hs h order [] start 0 (mid_start hl)
      (fun p hp => mem_ends.1 (ho.perm.mem_iff.1 hp))
      (by simpa using ho.perm.nodup_iff.2 (nodup_ends _)) (by simpa using ho.sorted) h
    unfold passes
    rcases hp : pass order start with ⟨l, off⟩
    rw [hp] at h1
    have h2 : ∀ c ∈ (pass order start).1, c.size ≤ 1 := h2
    rw [hp] at h2
    dsimp only
    split
    · exact short_passes ha ho hs n l h1 h2
    · exact h2

end DuckLisp.Asm
