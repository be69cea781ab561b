import Verif.Model.Trie
import Verif.Spec.FiniteMap

namespace DuckLisp.Trie

/-- What `find` sees through an edge labelled `name`. -/
def look : Bytes → Node → Bytes → Int
  | [], n, key => n.find key
  | _ :: _, _, [] => -1
  | c :: cs, n, k :: ks => if k = c then look cs n ks else -1

def Kids.heads : Kids → List (Option UInt8)
  | .nil => []
  | .cons name _ rest => name.head? :: rest.heads

mutual
def Node.WF : Node → Prop
  | .mk _ kids => kids.WF
def Kids.WF : Kids → Prop
  | .nil => True
  | .cons name n rest => name ≠ [] ∧ n.WF ∧ rest.WF ∧ name.head? ∉ rest.heads
end

theorem scan_spec : ∀ (name key pre nr kr : Bytes), scan name key = (pre, nr, kr) →
    name = pre ++ nr ∧ key = pre ++ kr ∧ (nr = [] ∨ kr = [] ∨ nr.head? ≠ kr.head?)
  | [], key, pre, nr, kr, h => by
    simp [scan] at h; obtain ⟨rfl, rfl, rfl⟩ := h; simp
  | n :: ns, [], pre, nr, kr, h => by
    simp [scan] at h; obtain ⟨rfl, rfl, rfl⟩ := h; simp
  | n :: ns, k :: ks, pre, nr, kr, h => by
    simp only [scan] at h
    split at h
    · rename_i hk
      rcases hs : scan ns ks with ⟨p, a, b⟩
      rw [hs] at h; simp at h
      obtain ⟨rfl, rfl, rfl⟩ := h
      obtain ⟨h1, h2, h3⟩ := scan_spec ns ks p a b hs
      subst hk
      refine ⟨by simp [h1], by simp [h2], h3⟩
    · rename_i hk
      simp at h; obtain ⟨rfl, rfl, rfl⟩ := h
      refine ⟨rfl, rfl, Or.inr (Or.inr ?_)⟩
      simp; exact fun e => hk e.symm

theorem look_append (n : Node) (a : Bytes) : ∀ (pre b : Bytes),
    look (pre ++ a) n (pre ++ b) = look a n b
  | [], b => rfl
  | c :: cs, b => by simp [look, look_append n a cs b]

/-- A key that does not start with `pre` is not found through an edge starting with `pre`. -/
theorem look_noPrefix (n : Node) (a : Bytes) : ∀ (pre key : Bytes), (¬ ∃ r, key = pre ++ r) →
    look (pre ++ a) n key = -1
  | [], key, h => absurd ⟨key, rfl⟩ h
  | c :: cs, [], _ => by simp [look]
  | c :: cs, k :: ks, h => by
    simp only [List.cons_append, look]
    split
    · rename_i hk
      apply look_noPrefix
      rintro ⟨r, hr⟩
      exact h ⟨r, by simp [hk, hr]⟩
    · rfl

theorem look_head_ne (n : Node) (a key : Bytes) (ha : a ≠ []) (h : a.head? ≠ key.head?) :
    look a n key = -1 := by
  cases a with
  | nil => exact absurd rfl ha
  | cons c cs =>
    cases key with
    | nil => rfl
    | cons k ks =>
      simp at h
      simp only [look, if_neg (fun e => h (Eq.symm e))]

theorem look_nil_key (n : Node) (a : Bytes) (ha : a ≠ []) : look a n [] = -1 := by
  cases a with
  | nil => exact absurd rfl ha
  | cons c cs => rfl

theorem Kids.find_cons (name : Bytes) (n : Node) (rest : Kids) (k : UInt8) (ks : Bytes)
    (hn : name ≠ []) :
    (Kids.cons name n rest).find (k :: ks) =
      if name.head? = some k then look name n (k :: ks) else rest.find (k :: ks) := by
  obtain ⟨c, cs, rfl⟩ : ∃ c cs, name = c :: cs := by
    cases name with
    | nil => exact absurd rfl hn
    | cons c cs => exact ⟨c, cs, rfl⟩
  rcases hs : scan (c :: cs) (k :: ks) with ⟨pre, a, b⟩
  obtain ⟨h1, h2, h3⟩ := scan_spec _ _ _ _ _ hs
  simp only [Kids.find, hs]
  cases pre with
  | nil =>
    simp at h1 h2
    subst h1 h2
    simp at h3
    simp [Ne, h3]
  | cons p ps =>
    simp at h1 h2
    have e : c = k := h1.1.trans h2.1.symm
    simp only [List.head?_cons, e, if_true]
    have key : look (k :: cs) n (k :: ks) = look a n b := by
      rw [h1.2, h2.2]
      exact look_append n a (k :: ps) b
    rw [key]
    cases a with
    | nil => rfl
    | cons x xs =>
      cases b with
      | nil => simp [look]
      | cons y ys =>
        simp at h3
        simp only [look]
        have h3' : ¬ (y = x) := fun e => h3 e.symm
        simp [h3']

theorem Kids.find_notin : ∀ (kids : Kids) (k : UInt8) (ks : Bytes), kids.WF →
    some k ∉ kids.heads → kids.find (k :: ks) = -1
  | .nil, _, _, _, _ => by simp [Kids.find]
  | .cons name n rest, k, ks, hw, hk => by
    simp only [Kids.WF] at hw
    simp [Kids.heads] at hk
    rw [Kids.find_cons _ _ _ _ _ hw.1, if_neg (fun e => hk.1 e.symm)]
    exact Kids.find_notin rest k ks hw.2.2.1 hk.2

theorem Kids.heads_push : ∀ (kids : Kids) (name : Bytes) (n : Node),
    (kids.push name n).heads = kids.heads ++ [name.head?]
  | .nil, _, _ => by simp [Kids.push, Kids.heads]
  | .cons a b rest, name, n => by simp [Kids.push, Kids.heads, Kids.heads_push rest]

theorem Kids.push_WF : ∀ (kids : Kids) (name : Bytes) (n : Node), kids.WF → name ≠ [] → n.WF →
    name.head? ∉ kids.heads → (kids.push name n).WF
  | .nil, _, _, _, h1, h2, _ => by simp [Kids.push, Kids.WF, Kids.heads, h1, h2]
  | .cons a b rest, name, n, hw, h1, h2, h3 => by
    simp only [Kids.WF] at hw
    simp [Kids.heads] at h3
    simp only [Kids.push, Kids.WF, Kids.heads_push]
    refine ⟨hw.1, hw.2.1, Kids.push_WF rest name n hw.2.2.1 h1 h2 h3.2, ?_⟩
    simp [hw.2.2.2]
    exact fun e => h3.1 e.symm

theorem Kids.push_find : ∀ (kids : Kids) (name : Bytes) (n : Node) (k : UInt8) (ks : Bytes),
    kids.WF → name ≠ [] → n.WF → name.head? ∉ kids.heads →
    (kids.push name n).find (k :: ks) =
      if name.head? = some k then look name n (k :: ks) else kids.find (k :: ks)
  | .nil, name, n, k, ks, _, h1, _, _ => by
    simp only [Kids.push]
    rw [Kids.find_cons _ _ _ _ _ h1]
  | .cons a b rest, name, n, k, ks, hw, h1, h2, h3 => by
    simp only [Kids.WF] at hw
    simp [Kids.heads] at h3
    simp only [Kids.push]
    rw [Kids.find_cons _ _ _ _ _ hw.1, Kids.find_cons _ _ _ _ _ hw.1,
      Kids.push_find rest name n k ks hw.2.2.1 h1 h2 h3.2]
    by_cases ha : a.head? = some k
    · rw [if_pos ha, if_pos ha, if_neg]
      rw [← ha]; exact h3.1
    · rw [if_neg ha, if_neg ha]

theorem look_leaf (index : Int) : ∀ (name key : Bytes),
    look name (leaf index) key = if key = name then index else -1
  | [], [] => by simp [look, leaf, Node.find]
  | [], k :: ks => by simp [look, leaf, Node.find, Kids.find]
  | c :: cs, [] => by simp [look]
  | c :: cs, k :: ks => by
    simp only [look, look_leaf index cs ks]
    by_cases h : k = c <;> simp [h]

mutual
theorem Node.insert_spec : ∀ (n : Node) (name key : Bytes) (index : Int), n.WF →
    (n.insert name key index = none → name ≠ [] ∧ key ≠ [] ∧ name.head? ≠ key.head?) ∧
    (∀ name' n', n.insert name key index = some (name', n') →
      n'.WF ∧ (name ≠ [] → key ≠ [] → name' ≠ [] ∧ name'.head? = name.head? ∧
        name.head? = key.head?) ∧ (name = [] → name' = []) ∧
      ∀ key', look name' n' key' = if key' = key then index else look name n key')
  | .mk i kids, name, key, index, hw => by
    simp only [Node.WF] at hw
    rcases hs : scan name key with ⟨pre, nr, kr⟩
    obtain ⟨h1, h2, h3⟩ := scan_spec _ _ _ _ _ hs
    subst h1 h2
    -- It is enough to look at keys that start with `pre`.
    have red : ∀ (nr' : Bytes) (n' : Node),
        (∀ r, look nr' n' r = if r = kr then index else look nr (.mk i kids) r) →
        ∀ key', look (pre ++ nr') n' key' =
          if key' = pre ++ kr then index else look (pre ++ nr) (.mk i kids) key' := by
      intro nr' n' h key'
      by_cases hp : ∃ r, key' = pre ++ r
      · obtain ⟨r, rfl⟩ := hp
        simp [look_append, h]
      · rw [look_noPrefix _ _ _ _ hp, look_noPrefix _ _ _ _ hp, if_neg]
        exact fun e => hp ⟨_, e⟩
    have hd : ∀ nr', (pre ++ nr ≠ [] → pre ++ kr ≠ [] → pre ≠ []) →
        nr' = [] →
        (pre ++ nr ≠ [] → pre ++ kr ≠ [] → pre ++ nr' ≠ [] ∧ (pre ++ nr').head? = (pre ++ nr).head? ∧
        (pre ++ nr).head? = (pre ++ kr).head?) := by
      intro nr' hpre hn' a b
      have := hpre a b
      cases pre with
      | nil => exact absurd rfl this
      | cons p ps => simp
    simp only [Node.insert, hs]
    cases nr with
    | nil =>
      cases kr with
      | nil =>
        simp only [reduceCtorEq, false_implies, Option.some.injEq, Prod.mk.injEq, true_and]
        rintro name' n' ⟨rfl, rfl⟩
        refine ⟨by simpa [Node.WF], ?_, by simp, ?_⟩
        · have := hd [] (by simp) rfl
          simpa using this
        · have := red [] (.mk index kids) (by
            intro r; cases r <;> simp [look, Node.find])
          simpa using this
      | cons k ks =>
        obtain ⟨ih1, ih2⟩ := Kids.insert_spec kids k ks index hw
        cases hk : kids.insert (k :: ks) index with
        | none =>
          have hno := ih1 hk
          simp only [hk, reduceCtorEq, false_implies, Option.some.injEq, Prod.mk.injEq, true_and]
          rintro name' n' ⟨rfl, rfl⟩
          refine ⟨?_, ?_, by simp, ?_⟩
          · simp only [Node.WF]
            exact Kids.push_WF _ _ _ hw (by simp) (by simp [leaf, Node.WF, Kids.WF]) (by simpa using hno)
          · have := hd [] (by simp) rfl
            simpa using this
          · have := red [] (.mk i (kids.push (k :: ks) (leaf index))) (by
              intro r
              cases r with
              | nil => simp [look, Node.find]
              | cons a as =>
                simp only [look, Node.find]
                rw [Kids.push_find _ _ _ _ _ hw (by simp) (by simp [leaf, Node.WF, Kids.WF])
                  (by simpa using hno), look_leaf]
                by_cases e : k = a
                · subst e
                  simp [Kids.find_notin _ _ _ hw hno]
                · have e' : ¬ (a = k) := fun h => e h.symm
                  simp [e, e'])
            simpa using this
        | some kids' =>
          obtain ⟨hw', _, hf⟩ := ih2 kids' hk
          simp only [hk, reduceCtorEq, false_implies, Option.some.injEq, Prod.mk.injEq, true_and]
          rintro name' n' ⟨rfl, rfl⟩
          refine ⟨by simpa [Node.WF], ?_, by simp, ?_⟩
          · have := hd [] (by simp) rfl
            simpa using this
          · have := red [] (.mk i kids') (by
              intro r
              cases r with
              | nil => simp [look, Node.find]
              | cons a as => simp only [look, Node.find, hf])
            simpa using this
    | cons n ns =>
      cases kr with
      | nil =>
        simp only [reduceCtorEq, false_implies, Option.some.injEq, Prod.mk.injEq, true_and]
        rintro name' n' ⟨rfl, rfl⟩
        refine ⟨by simp [Node.WF, Kids.WF, Kids.heads, hw], ?_, by simp, ?_⟩
        · have := hd [] (by simp) rfl
          simpa using this
        · have := red [] (.mk index (.cons (n :: ns) (.mk i kids) .nil)) (by
            intro r
            cases r with
            | nil => simp [look, Node.find]
            | cons a as =>
              simp only [look, Node.find]
              rw [Kids.find_cons _ _ _ _ _ (by simp)]
              by_cases e : a = n
              · simp [e, look]
              · have e' : ¬ (n = a) := fun h => e h.symm
                simp [e, e', Kids.find])
          simpa using this
      | cons k ks =>
        simp at h3
        by_cases hpre : pre = []
        · subst hpre
          simp [h3]
        · simp only [ne_eq, hpre, not_false_eq_true, if_true, reduceCtorEq, false_implies,
            Option.some.injEq, Prod.mk.injEq, true_and]
          rintro name' n' ⟨rfl, rfl⟩
          refine ⟨?_, ?_, by simp, ?_⟩
          · simp [Node.WF, Kids.WF, Kids.heads, hw, leaf, h3]
          · have := hd [] (by simp [hpre]) rfl
            simpa using this
          · have := red [] (.mk (-1) (.cons (n :: ns) (.mk i kids) (.cons (k :: ks) (leaf index) .nil)))
              (by
              intro r
              cases r with
              | nil => simp [look, Node.find]
              | cons a as =>
                simp only [look, Node.find]
                rw [Kids.find_cons _ _ _ _ _ (by simp), Kids.find_cons _ _ _ _ _ (by simp), look_leaf]
                by_cases e : a = n
                · subst e
                  have h3' : ¬ (a = k) := h3
                  simp [look, h3']
                · have e' : ¬ (n = a) := fun h => e h.symm
                  by_cases e2 : k = a
                  · subst e2
                    simp [e, e']
                  · have e2' : ¬ (a = k) := fun h => e2 h.symm
                    simp [e, e', e2, e2', Kids.find])
            simpa using this
theorem Kids.insert_spec : ∀ (kids : Kids) (k : UInt8) (ks : Bytes) (index : Int), kids.WF →
    (kids.insert (k :: ks) index = none → some k ∉ kids.heads) ∧
    (∀ kids', kids.insert (k :: ks) index = some kids' →
      kids'.WF ∧ kids'.heads = kids.heads ∧
      ∀ a as, kids'.find (a :: as) = if (a :: as) = (k :: ks) then index else kids.find (a :: as))
  | .nil, k, ks, index, hw => by simp [Kids.insert, Kids.heads]
  | .cons name n rest, k, ks, index, hw => by
    simp only [Kids.WF] at hw
    obtain ⟨hn, hnw, hrw, hnotin⟩ := hw
    obtain ⟨ih1, ih2⟩ := Node.insert_spec n name (k :: ks) index hnw
    obtain ⟨jh1, jh2⟩ := Kids.insert_spec rest k ks index hrw
    simp only [Kids.insert]
    cases hi : n.insert name (k :: ks) index with
    | some r =>
      obtain ⟨name', n'⟩ := r
      obtain ⟨hw', hne, _, hlook⟩ := ih2 _ _ hi
      obtain ⟨hne', hhd, hhk⟩ := hne hn (by simp)
      simp only [reduceCtorEq, false_implies, Option.some.injEq, true_and]
      rintro kids' rfl
      refine ⟨?_, by simp [Kids.heads, hhd], ?_⟩
      · simp only [Kids.WF]; exact ⟨hne', hw', hrw, hhd ▸ hnotin⟩
      · intro a as
        rw [Kids.find_cons _ _ _ _ _ hne', Kids.find_cons _ _ _ _ _ hn, hlook, hhd]
        by_cases e : name.head? = some a
        · simp [e]
        · rw [if_neg e, if_neg e, if_neg]
          intro h
          simp at h
          rw [hhk] at e
          simp [h.1] at e
    | none =>
      obtain ⟨_, _, hne⟩ := ih1 hi
      cases hj : rest.insert (k :: ks) index with
      | none =>
        have := jh1 hj
        simp only [Kids.heads, List.mem_cons, not_or, forall_const, reduceCtorEq, false_implies,
          implies_true, and_true]
        exact ⟨fun e => hne (by simp [e]), this⟩
      | some rest' =>
        obtain ⟨hw', hh, hf⟩ := jh2 _ hj
        simp only [reduceCtorEq, false_implies, Option.some.injEq, true_and]
        rintro kids' rfl
        refine ⟨?_, by simp [Kids.heads, hh], ?_⟩
        · simp only [Kids.WF]; exact ⟨hn, hnw, hw', hh ▸ hnotin⟩
        · intro a as
          rw [Kids.find_cons _ _ _ _ _ hn, Kids.find_cons _ _ _ _ _ hn, hf]
          by_cases e : name.head? = some a
          · rw [if_pos e, if_pos e, if_neg]
            intro h; simp at h
            rw [e] at hne; simp [h.1] at hne
          · rw [if_neg e, if_neg e]
end

theorem insert_find (t : Node) (key : Bytes) (index : Int) (hw : t.WF) :
    (insert t key index).WF ∧
    ∀ key', find (insert t key index) key' = if key' = key then index else find t key' := by
  obtain ⟨h1, h2⟩ := Node.insert_spec t [] key index hw
  unfold insert find
  cases h : t.insert [] key index with
  | none => exact absurd rfl (h1 h).1
  | some r =>
    obtain ⟨name', t'⟩ := r
    obtain ⟨hw', _, hn, hl⟩ := h2 _ _ h
    have := hn rfl
    subst this
    exact ⟨hw', fun key' => by simpa [look] using hl key'⟩

theorem init_WF (d : Int) : (init d).WF := by simp [init, Node.WF, Kids.WF]

/-- The trie reached from a fresh one by a sequence of inserts, oldest first. -/
def build (nullIndex : Int) (hist : List (Bytes × Int)) : Node :=
  hist.foldl (fun t w => insert t w.1 w.2) (init nullIndex)

theorem build_WF (d : Int) (hist : List (Bytes × Int)) : (build d hist).WF := by
  unfold build
  suffices ∀ t : Node, t.WF → (hist.foldl (fun t w => insert t w.1 w.2) t).WF from this _ (init_WF d)
  induction hist with
  | nil => exact fun t h => h
  | cons w ws ih => exact fun t h => ih _ (insert_find t w.1 w.2 h).1

end DuckLisp.Trie
