import Verif.Proof.Compile.Tables

/-! # C13, C14, C17: symbols, generated names, error reports -/

namespace DuckLisp.Tables
open DuckLisp.Spec DuckLisp.DynArray

/-! ## C13 -/

/-- **C13** (partial: memory is assumed not to run out, see `C13_out_of_memory`).  After any history of creations: the id of a name that was created is its place among the distinct
names in order of first creation, a name that was not created has none (-1), and the table of names is that
list, so that the name recorded for an id is the name it was created with. -/
theorem C13_ids_partial (history : List Bytes) (name : Bytes) :
    nameToValue (createAll .init history) name =
      (if name ∈ history then ((firsts history).idxOf name : Int) else -1) ∧
    (createAll .init history).array = firsts history := by
  have := holds_createAll holds_init history
  rw [List.nil_append] at this
  exact ⟨this.find name, this.array⟩

/-- **C13, interning.** Two names that were created have the same id if and only if they are equal. -/
theorem C13_injective_partial (history : List Bytes) (a b : Bytes) (ha : a ∈ history) (hb : b ∈ history) :
    nameToValue (createAll .init history) a = nameToValue (createAll .init history) b ↔ a = b := by
  rw [(C13_ids_partial history a).1, (C13_ids_partial history b).1, if_pos ha, if_pos hb]
  constructor
  · intro h
    have h := Int.ofNat.inj h
    have ha' := (mem_firsts history a).2 ha
    have h1 := List.getElem_idxOf (List.idxOf_lt_length_of_mem ha')
    have h2 := List.getElem_idxOf (List.idxOf_lt_length_of_mem ((mem_firsts history b).2 hb))
    rw [← h1, ← h2]
    congr 1
  · rintro rfl; rfl

/-- **C13, stability.** Later creations change neither the id of a name nor the name of an id. -/
theorem C13_stable_partial (history later : List Bytes) (name : Bytes) (h : name ∈ history) :
    nameToValue (createAll .init (history ++ later)) name = nameToValue (createAll .init history) name ∧
    (createAll .init history).array <+: (createAll .init (history ++ later)).array ∧
    ∃ i : Nat, nameToValue (createAll .init history) name = i ∧
      (createAll .init history).array[i]? = some name := by
  have hp := firsts_append_prefix history later
  have hm := (mem_firsts history name).2 h
  rw [(C13_ids_partial _ name).1, (C13_ids_partial history name).1, (C13_ids_partial (history ++ later) name).2,
    (C13_ids_partial history name).2, if_pos h, if_pos (by simp [h])]
  refine ⟨?_, hp, _, rfl, ?_⟩
  · obtain ⟨t, ht⟩ := hp
    rw [← ht, List.idxOf_append, if_pos hm]
  · rw [List.getElem?_eq_getElem (List.idxOf_lt_length_of_mem hm), List.getElem_idxOf]

/-- The list of distinct names has no repetitions and the names created, so the ids are 0, 1, 2, .... -/
theorem C13_dense_partial (history : List Bytes) :
    (createAll .init history).array.Nodup ∧ ∀ name, name ∈ (createAll .init history).array ↔ name ∈ history := by
  rw [(C13_ids_partial history []).2]
  exact ⟨nodup_firsts history, mem_firsts history⟩

/-- **C13 fails when memory runs out.** If the copy of the name cannot be allocated the error is reported, but
the name keeps its id; the next new name, created with enough memory, gets the same id. -/
theorem C13_out_of_memory (a b : Bytes) (ha : a ≠ b) :
    (create .noCopy .init a).2 = some .outOfMemory ∧
    (create .enough (create .noCopy .init a).1 b).2 = none ∧
    nameToValue (create .enough (create .noCopy .init a).1 b).1 a = 0 ∧
    nameToValue (create .enough (create .noCopy .init a).1 b).1 b = 0 := by
  have h0 : ∀ name, nameToValue .init name = -1 := fun name => by
    have := holds_init.find name
    simpa using this
  have hw := Trie.build_WF (-1) []
  have e1 : create .noCopy .init a = ({ trie := Trie.insert (Trie.init (-1)) a 0, array := [] }, some .outOfMemory) := by
    simp only [create]
    rw [if_pos (h0 a)]
    rfl
  have hi := Trie.insert_find (Trie.init (-1)) a 0 hw
  have hb : nameToValue { trie := Trie.insert (Trie.init (-1)) a 0, array := [] } b = -1 := by
    simp only [nameToValue]
    rw [hi.2 b, if_neg (Ne.symm ha)]
    exact h0 b
  have e2 : create .enough { trie := Trie.insert (Trie.init (-1)) a 0, array := [] } b =
      ({ trie := Trie.insert (Trie.insert (Trie.init (-1)) a 0) b 0, array := [b] }, none) := by
    simp only [create]
    rw [if_pos hb]
    rfl
  have hi2 := Trie.insert_find (Trie.insert (Trie.init (-1)) a 0) b 0 hi.1
  rw [e1, e2]
  refine ⟨rfl, rfl, ?_, ?_⟩
  · simp only [nameToValue]
    rw [hi2.2 a, if_neg ha, hi.2 a, if_pos rfl]
  · simp only [nameToValue]
    rw [hi2.2 b, if_pos rfl]

example : (createAll .init [[97], [98], [97], [97, 98], [98]]).array = [[97], [98], [97, 98]] ∧
    [[98], [97, 98], [99]].map (nameToValue (createAll .init [[97], [98], [97], [97, 98], [98]])) = [1, 2, -1] := by
  decide +kernel

/-! ## C14 -/

/-- **C14, never twice.** The names of any number of calls in a row up to 2^64, from any state of the counter,
are all different. -/
theorem C14_distinct (k : Nat) (hk : k ≤ 2 ^ 64) (counter : UInt64) : (gensyms k counter).Nodup :=
  nodup_gensyms k counter hk

/-- Two calls in a history, the `i`-th and the `j`-th, give the same name only if they are the same call. -/
theorem C14_calls_differ (k : Nat) (hk : k ≤ 2 ^ 64) (counter : UInt64) (i j : Nat) (hi : i < k)
    (h : (gensyms k counter)[i]? = (gensyms k counter)[j]?) : i = j := by
  have hl : ∀ k n, (gensyms k n).length = k := by
    intro k
    induction k with
    | zero => intro n; rfl
    | succ k ih => intro n; simp only [gensyms, List.length_cons, ih]
  have hi' : i < (gensyms k counter).length := by rw [hl]; exact hi
  exact (List.getElem?_inj hi' (nodup_gensyms k counter hk)).1 h

/-- **C14, never in a program.** For every source text, no identifier anywhere in the tree that is read from
it has a generated name. -/
theorem C14_not_in_source (cfg : Reader.Config) (hact : Reader.NoActions cfg) (src : Bytes) (i : Nat)
    (s s' : Reader.RState) (e : Reader.Ast) (h : Reader.read cfg src i s = .ok e s') (counter : UInt64) :
    ¬ Occurs (gensym counter).1 e := by
  intro ho
  simp only [Reader.read] at h
  cases hc : Reader.compound cfg src (cfg.maxDepth + 1) i { s with depth := 0 } with
  | ok r s1 =>
    rw [hc] at h
    obtain ⟨e1, k⟩ := r
    cases h
    have hcl := Reader.clean_postprocess e1 (Reader.clean_compound hact _ _ _ _ _ hc)
    have := Reader.occurs_clean _ hcl ho 0 (by simp [gensym])
    exact absurd this (by decide)
  | err er s1 => rw [hc] at h; cases h
  | ub => rw [hc] at h; cases h
  | diverge => rw [hc] at h; cases h

/-- The first three generated names. -/
example : gensyms 3 0 = [0 :: ascii "0000000000000000", 0 :: ascii "0000000000000001",
    0 :: ascii "0000000000000002"] := by decide +kernel

/-! ## C17 -/

/-- **C17.** Any history of reports, the allocator supplying memory: nothing is undefined, no report fails, and
the log contains each message in order, set apart by a line break from what was there before. -/
theorem C17_reports_partial (history : List (Oracle × Oracle × Bytes))
    (hmem : ∀ m ∈ history, (∀ s, m.1 s ≠ none) ∧ ∀ s, m.2.1 s ≠ none) :
    ∃ log, pushAll emptyLog history = some (log, history.map fun _ => none) ∧
      contents log = (history.map (·.2.2)).foldl logged [] := by
  obtain ⟨log, e, h⟩ := logs_pushAll history logs_empty hmem
  exact ⟨log, e, h.contents⟩

/-- With messages that are not empty the log is the messages joined by line breaks. -/
theorem C17_joined (messages : List Bytes) (h : ∀ m ∈ messages, m ≠ []) :
    messages.foldl logged [] = [10].intercalate messages := by
  suffices ∀ (ms : List Bytes) (first : Bytes), first ≠ [] → (∀ m ∈ ms, m ≠ []) →
      ms.foldl logged first = [10].intercalate (first :: ms) by
    cases messages with
    | nil => rfl
    | cons m ms =>
      have h1 := h m (by simp)
      simp only [List.foldl_cons, logged, if_true]
      exact this ms m h1 (fun x hx => h x (by simp [hx]))
  intro ms
  induction ms with
  | nil => intro first _ _; simp [List.intercalate]
  | cons m ms ih =>
    intro first hf hms
    simp only [List.foldl_cons, logged, hf, if_false]
    rw [ih _ (by simp) (fun x hx => hms x (by simp [hx]))]
    cases ms with
    | nil => simp [List.intercalate]
    | cons x xs => simp [List.intercalate, List.intersperse]

/-- Earlier reports stay as they are. -/
theorem C17_nothing_lost (earlier later : List Bytes) :
    earlier.foldl logged [] <+: (earlier ++ later).foldl logged [] := by
  rw [List.foldl_append]
  generalize earlier.foldl logged [] = l
  induction later generalizing l with
  | nil => exact List.prefix_refl _
  | cons m ms ih =>
    refine List.IsPrefix.trans ?_ (ih (logged l m))
    simp only [logged]
    split
    · rename_i h; subst h; exact List.nil_prefix
    · exact List.prefix_append _ _

/-- **C17 fails when memory runs out.** A report whose allocation fails loses the whole log: after it, the log
has the length it had, but no contents. -/
theorem C17_out_of_memory :
    ∃ log log', pushRuntime (fun _ => some fun _ => 0) (fun _ => some fun _ => 0) emptyLog [65] = some (log, none) ∧
      contents log = [65] ∧
      pushRuntime (fun _ => none) (fun _ => none) log (List.replicate 8 66) = some (log', some .outOfMemory) ∧
      log'.length = 2 ∧ log'.elements = none := by
  refine ⟨_, _, rfl, by decide +kernel, rfl, by decide +kernel, by decide +kernel⟩

example : ∃ log, pushAll emptyLog [(fun _ => some fun _ => 7, fun _ => some fun _ => 7, [65]),
    (fun _ => some fun _ => 7, fun _ => some fun _ => 7, [66, 67])] = some (log, [none, none]) ∧
    contents log = [65, 10, 66, 67] := ⟨_, rfl, by decide +kernel⟩

#print axioms C13_ids_partial
#print axioms C13_injective_partial
#print axioms C13_stable_partial
#print axioms C13_dense_partial
#print axioms C13_out_of_memory
#print axioms C14_distinct
#print axioms C14_calls_differ
#print axioms C14_not_in_source
#print axioms C17_reports_partial
#print axioms C17_joined
#print axioms C17_nothing_lost
#print axioms C17_out_of_memory

end DuckLisp.Tables
