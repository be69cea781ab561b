import Verif.Proof.Trie

/-! # C01: name tables behave as finite maps -/

namespace DuckLisp.Trie
open DuckLisp.Spec

/-- **C01.** After any history of inserts into a fresh trie, looking a key up gives the value of
the most recent insert of exactly that key; a key never inserted gives -1 (and the empty key the
null index the trie was created with). -/
theorem C01_trie_is_finite_map (nullIndex : Int) (hist : List (Bytes × Int)) (key : Bytes) :
    find (hist.foldl (fun t w => insert t w.1 w.2) (init nullIndex)) key =
      lastWrite (fun k => if k = [] then nullIndex else -1) hist key := by
  suffices ∀ l : List (Bytes × Int), ∀ hist, hist.reverse = l →
      find (build nullIndex hist) key =
      lastWrite (fun k => if k = [] then nullIndex else -1) hist key from this _ hist rfl
  intro l
  induction l with
  | nil =>
    intro hist h
    have : hist = [] := by simpa using h
    subst this
    simp only [build, List.foldl_nil, lastWrite_nil]
    cases key <;> simp [init, find, Node.find, Kids.find]
  | cons w l ih =>
    intro hist h
    obtain rfl : hist = l.reverse ++ [w] := by
      have := congrArg List.reverse h; simpa using this
    rw [lastWrite_snoc, ← ih l.reverse (by simp)]
    have hw := build_WF nullIndex l.reverse
    have := (insert_find _ w.1 w.2 hw).2 key
    simp only [build, List.foldl_append, List.foldl_cons, List.foldl_nil] at this ⊢
    rw [this]
    by_cases e : key = w.1
    · simp [e]
    · have e' : ¬ (w.1 = key) := fun h => e h.symm
      simp [e, e']

/-- C01, second half: an insert changes the value of no other key, whatever was inserted before. -/
theorem C01_insert_other (nullIndex : Int) (hist : List (Bytes × Int)) (k k' : Bytes) (v : Int)
    (h : k' ≠ k) :
    find (insert (hist.foldl (fun t w => insert t w.1 w.2) (init nullIndex)) k v) k' =
      find (hist.foldl (fun t w => insert t w.1 w.2) (init nullIndex)) k' := by
  have := (insert_find _ k v (build_WF nullIndex hist)).2 k'
  simpa [build, h] using this

/-- Non-vacuity: keys that are prefixes and extensions of each other, a split and an overwrite. -/
example :
    let t := [(ascii "cat", 1), (ascii "cart", 2), (ascii "ca", 3), (ascii "cat", 4), ([], 9)].foldl
      (fun t w => insert t w.1 w.2) (init (-1))
    [ascii "cat", ascii "cart", ascii "ca", ascii "c", ascii "cats", [], ascii "x"].map (find t) =
      [4, 2, 3, -1, -1, 9, -1] := by decide +kernel

#print axioms C01_trie_is_finite_map
#print axioms C01_insert_other

end DuckLisp.Trie
