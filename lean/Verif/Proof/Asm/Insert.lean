import Verif.Proof.Asm.Sizes
import Verif.Proof.Asm.Encode

/-!
# Putting the addresses in

Helper lemmas: the list of bytes with the addresses put in, read from its start, is the code in
which each opcode that needs one is followed by its address.
-/

namespace DuckLisp.Asm

open DuckLisp DuckLisp.VM

/-- The address that is put after byte `p`. -/
def addrOf (zs : List (Link × Link)) (p : Nat) : Option Link :=
  (zs.find? fun z => decide (z.1.source = (p : Int) + 1)).map (·.2)

/-- What is added to the opcode. -/
def bump (n : Nat) : UInt8 := if n = 1 then 0 else if n = 2 then 1 else 2

/-- What becomes of byte `p`. -/
def piece (zs : List (Link × Link)) (p : Nat) (b : UInt8) : Bytes :=
  match addrOf zs p with
  | none => [b]
  | some l => (b + bump l.size) :: bytesOf l.distance l.size

/-- What becomes of bytes `p` and following. -/
def expand (zs : List (Link × Link)) : Nat → Bytes → Bytes
  | _, [] => []
  | p, b :: bs => piece zs p b ++ expand zs (p + 1) bs

theorem expand_append (zs : List (Link × Link)) : ∀ (p : Nat) (a b : Bytes),
    expand zs p (a ++ b) = expand zs p a ++ expand zs (p + a.length) b
  | p, [], b => by simp [expand]
  | p, x :: a, b => by
    simp only [List.cons_append, expand, List.length_cons, List.append_assoc]
    rw [expand_append zs (p + 1) a b]
    simp only [Nat.add_assoc, Nat.add_comm 1]

theorem expand_none (zs : List (Link × Link)) : ∀ (p : Nat) (a : Bytes),
    (∀ q, p ≤ q → q < p + a.length → addrOf zs q = none) → expand zs p a = a
  | p, [], _ => rfl
  | p, x :: a, h => by
    simp only [expand, piece]
    rw [h p (Nat.le_refl _) (by simp), expand_none zs (p + 1) a fun q h1 h2 =>
      h q (by omega) (by simp only [List.length_cons]; omega)]
    rfl

/-! ### Lengths -/

/-- No two addresses go to the same place. -/
def Distinct (zs : List (Link × Link)) : Prop := zs.Pairwise fun a b => a.1.source ≠ b.1.source

/-- The size of everything put in between two positions. -/
def inserted (zs : List (Link × Link)) (a b : Int) : Int :=
  (zs.map fun z => if a < z.1.source ∧ z.1.source ≤ b then (z.2.size : Int) else 0).sum

theorem inserted_split (zs : List (Link × Link)) {a b c : Int} (h1 : a ≤ b) (h2 : b ≤ c) :
    inserted zs a c = inserted zs a b + inserted zs b c := by
  induction zs with
  | nil => rfl
  | cons z zs ih =>
    simp only [inserted, List.map_cons, List.sum_cons] at ih ⊢
    split <;> split <;> split <;> omega

theorem inserted_empty (zs : List (Link × Link)) (a : Int) : inserted zs a a = 0 := by
  induction zs with
  | nil => rfl
  | cons z zs ih =>
    simp only [inserted, List.map_cons, List.sum_cons] at ih ⊢
    split <;> omega

theorem inserted_absent {zs : List (Link × Link)} {p : Nat}
    (h : ∀ z ∈ zs, z.1.source ≠ (p : Int) + 1) : inserted zs p (p + 1) = 0 := by
  induction zs with
  | nil => rfl
  | cons z zs ih =>
    have h1 := ih fun z hz => h z (List.mem_cons_of_mem _ hz)
    have h2 := h z List.mem_cons_self
    simp only [inserted, List.map_cons, List.sum_cons] at h1 ⊢
    rw [if_neg (by omega)]
    omega

theorem inserted_one {zs : List (Link × Link)} (hd : Distinct zs) (p : Nat) :
    inserted zs p (p + 1) = (((addrOf zs p).map fun l => l.size).getD 0 : Nat) := by
  induction zs with
  | nil => rfl
  | cons z zs ih =>
    have h1 := ih (List.Pairwise.of_cons hd)
    unfold addrOf at h1 ⊢
    rw [List.find?_cons]
    by_cases hz : z.1.source = (p : Int) + 1
    · simp only [hz, decide_true]
      have h2 : inserted zs p (p + 1) = 0 :=
        inserted_absent fun y hy => by rw [← hz]; exact Ne.symm (List.rel_of_pairwise_cons hd hy)
      simp only [inserted, List.map_cons, List.sum_cons] at h2 ⊢
      rw [if_pos (by omega), h2]
      simp
    · simp only [hz, decide_false]
      rw [← h1]
      simp only [inserted, List.map_cons, List.sum_cons]
      rw [if_neg (by omega)]
      omega

theorem piece_length (zs : List (Link × Link)) (p : Nat) (b : UInt8) :
    (piece zs p b).length = 1 + ((addrOf zs p).map fun l => l.size).getD 0 := by
  unfold piece
  cases addrOf zs p with
  | none => rfl
  | some l =>
    simp only [List.length_cons, Option.map_some, Option.getD_some]
    rw [bytesOf_length]
    omega

theorem expand_length {zs : List (Link × Link)} (hd : Distinct zs) : ∀ (p : Nat) (bs : Bytes),
    ((expand zs p bs).length : Int) = bs.length + inserted zs p (p + bs.length)
  | p, [] => by simp [expand, inserted_empty]
  | p, b :: bs => by
    have ih := expand_length hd (p + 1) bs
    simp only [expand, List.length_append, List.length_cons, piece_length]
    have h1 := inserted_one hd p
    have h2 := inserted_split zs (a := p) (b := p + 1) (c := p + (bs.length + 1 : Nat)) (by omega)
      (by omega)
    have h3 : ((p : Int) + 1 + bs.length) = p + (bs.length + 1 : Nat) := by omega
    simp only [Int.natCast_add, Int.natCast_one] at ih h1 h2 h3 ⊢
    rw [h3] at ih
    omega

theorem before_eq_inserted {old new : List Link} {x : Int} (h : ∀ o ∈ old, 0 < o.source) :
    before old new (x + 1) = inserted (old.zip new) 0 x := by
  unfold before inserted
  congr 1
  refine List.map_congr_left fun z hz => ?_
  have := h z.1 (List.of_mem_zip hz).1
  by_cases hx : z.1.source < x + 1
  · rw [if_pos hx, if_pos (by omega)]
  · rw [if_neg hx, if_neg (by omega)]

/-! ### The list of bytes -/

/-- The place after byte `p`. -/
def after (bytes : Bytes) (p : Nat) : Option Nat := if p + 1 < bytes.length then some (p + 1) else none

/-- The nodes of an inserted address, from index `k` of the array on. -/
def chainNodes (k : Nat) (stop : Option Nat) : Bytes → List Node
  | [] => []
  | [b] => [⟨b, stop⟩]
  | b :: c :: rest => ⟨b, some (k + 1)⟩ :: chainNodes (k + 1) stop (c :: rest)

theorem chainNodes_length : ∀ (k : Nat) (stop : Option Nat) (bs : Bytes),
    (chainNodes k stop bs).length = bs.length
  | _, _, [] => rfl
  | _, _, [_] => rfl
  | k, stop, b :: c :: rest => by
    simp only [chainNodes, List.length_cons]
    rw [chainNodes_length (k + 1) stop (c :: rest)]
    rfl

theorem insertBytes_eq (source : Nat) : ∀ (bs : Bytes) (prev : Nat) (nodes : List Node) (p : Node),
    bs ≠ [] → nodes[prev]? = some p → source < nodes.length →
    insertBytes source bs prev nodes =
      .ok (nodes.set prev { p with next := some nodes.length } ++
        chainNodes nodes.length (some source) bs)
  | [], _, _, _, h, _, _ => absurd rfl h
  | [b], prev, nodes, p, _, hp, hs => by
    simp only [insertBytes, hp, if_pos hs, chainNodes]
  | b :: c :: rest, prev, nodes, p, _, hp, hs => by
    unfold insertBytes
    simp only [hp, if_pos hs]
    have hlen : (nodes.set prev { p with next := some nodes.length } ++
        [(⟨b, some source⟩ : Node)]).length = nodes.length + 1 := by simp
    rw [insertBytes_eq source (c :: rest) nodes.length _ ⟨b, some source⟩ (by simp)
      (by simp) (by omega), hlen]
    simp only [chainNodes, Res.ok.injEq]
    rw [List.set_append_right _ _ (by simp)]
    simp

theorem insertBytes_ok {source : Nat} {b : UInt8} {bs : Bytes} {prev : Nat} {nodes out : List Node}
    (h : insertBytes source (b :: bs) prev nodes = .ok out) : source < nodes.length := by
  unfold insertBytes at h
  split at h
  · split at h
    · assumption
    · cases h
  · cases h

theorem chainNodes_stop (stop stop' : Option Nat) : ∀ (bs : Bytes) (k : Nat), bs ≠ [] →
    ∃ t, (chainNodes k stop bs)[bs.length - 1]? = some t ∧
      (chainNodes k stop bs).set (bs.length - 1) { t with next := stop' } = chainNodes k stop' bs
  | [], _, h => absurd rfl h
  | [b], k, _ => ⟨⟨b, stop⟩, rfl, rfl⟩
  | b :: c :: rest, k, _ => by
    obtain ⟨t, h1, h2⟩ := chainNodes_stop stop stop' (c :: rest) (k + 1) (by simp)
    refine ⟨t, ?_, ?_⟩
    · simp only [chainNodes, List.length_cons, Nat.add_sub_cancel] at h1 ⊢
      rw [List.getElem?_cons_succ]
      exact h1
    · simp only [chainNodes, List.length_cons, Nat.add_sub_cancel] at h2 ⊢
      rw [List.set_cons_succ, h2]

/-- The array holds the code with the addresses `zs` put in. -/
structure Held (bytes : Bytes) (zs : List (Link × Link)) (nodes : List Node) : Prop where
  len : nodes.length = bytes.length + (zs.map fun z => z.2.size).sum
  plain : ∀ p b, bytes[p]? = some b → addrOf zs p = none → nodes[p]? = some ⟨b, after bytes p⟩
  linked : ∀ p b l, bytes[p]? = some b → addrOf zs p = some l →
    ∃ k, (bytes.length ≤ k ∧ k ≤ nodes.length) ∧ nodes[p]? = some ⟨b + bump l.size, some k⟩ ∧
      ∃ tail, nodes.drop k = chainNodes k (after bytes p) (bytesOf l.distance l.size) ++ tail

theorem nodesFrom_get : ∀ (k : Nat) (bytes : Bytes) (p : Nat) (b : UInt8), bytes[p]? = some b →
    (nodesFrom k bytes)[p]? = some ⟨b, if p + 1 < bytes.length then some (k + p + 1) else none⟩
  | k, [], p, b, h => by simp at h
  | k, [x], p, b, h => by
    cases p with
    | zero => simp at h; subst h; simp [nodesFrom]
    | succ p => simp at h
  | k, x :: y :: rest, 0, b, h => by simp at h; subst h; simp [nodesFrom]
  | k, x :: y :: rest, p + 1, b, h => by
    simp only [List.getElem?_cons_succ] at h
    have := nodesFrom_get (k + 1) (y :: rest) p b h
    simp only [nodesFrom, List.getElem?_cons_succ, this, List.length_cons, Option.some.injEq,
      Node.mk.injEq, true_and]
    by_cases hp : p + 1 < rest.length + 1
    · rw [if_pos hp, if_pos (by omega)]; congr 1; omega
    · rw [if_neg hp, if_neg (by omega)]

theorem nodesFrom_length : ∀ (k : Nat) (bytes : Bytes), (nodesFrom k bytes).length = bytes.length
  | _, [] => rfl
  | _, [_] => rfl
  | k, _ :: y :: rest => by
    simp only [nodesFrom, List.length_cons]
    rw [nodesFrom_length (k + 1) (y :: rest)]
    rfl

theorem held_start (bytes : Bytes) : Held bytes [] (nodesFrom 0 bytes) := by
  refine ⟨by simp [nodesFrom_length], fun p b h _ => ?_, fun p b l _ h => by simp [addrOf] at h⟩
  rw [nodesFrom_get 0 bytes p b h]
  simp [after]

theorem addrOf_append (zs : List (Link × Link)) (z : Link × Link) (q : Nat) :
    addrOf (zs ++ [z]) q =
      (addrOf zs q).or (if z.1.source = (q : Int) + 1 then some z.2 else none) := by
  unfold addrOf
  rw [List.find?_append]
  cases List.find? (fun z => decide (z.1.source = (q : Int) + 1)) zs with
  | some y => rfl
  | none =>
    simp only [Option.none_or, Option.map_none, List.find?_singleton, decide_eq_true_eq]
    split <;> rfl

theorem chosen_ne {new : Link} (h : Chosen new.size) : bytesOf new.distance new.size ≠ [] := by
  rcases h with h | h | h <;> rw [h] <;> simp [bytesOf]

theorem held_of {bytes : Bytes} {zs : List (Link × Link)} {nodes : List Node}
    (h : Held bytes zs nodes) {old new : Link} {p : Nat} {b : UInt8} (hb : bytes[p]? = some b)
    (hold : old.source = (p : Int) + 1) (hfree : addrOf zs p = none) (hn : Chosen new.size) :
    Held bytes (zs ++ [(old, new)])
      (nodes.set p ⟨b + bump new.size, some nodes.length⟩ ++
        chainNodes nodes.length (after bytes p) (bytesOf new.distance new.size)) := by
  have hlen := h.len
  have hp : p < bytes.length := (List.getElem?_eq_some_iff.1 hb).1
  refine ⟨?_, fun q c hq ha => ?_, fun q c l hq ha => ?_⟩
  · simp only [List.length_append, List.length_set, chainNodes_length, List.map_append, List.map_cons,
      List.map_nil, List.sum_append, List.sum_cons, List.sum_nil, bytesOf_length]
    omega
  · have hql : q < bytes.length := (List.getElem?_eq_some_iff.1 hq).1
    rw [addrOf_append] at ha
    have hqp : q ≠ p := by
      intro he
      subst he
      simp only [hfree, hold, if_true, Option.none_or] at ha
      cases ha
    have ha' : addrOf zs q = none := by
      cases hz : addrOf zs q with
      | none => rfl
      | some l => rw [hz] at ha; cases ha
    rw [List.getElem?_append_left (by simp; omega), List.getElem?_set_ne (Ne.symm hqp)]
    exact h.plain q c hq ha'
  · have hql : q < bytes.length := (List.getElem?_eq_some_iff.1 hq).1
    rw [addrOf_append] at ha
    by_cases hqp : q = p
    · subst hqp
      rw [hb] at hq
      cases hq
      simp only [hfree, hold, if_true, Option.none_or, Option.some.injEq] at ha
      subst ha
      refine ⟨nodes.length, ⟨by omega, by simp⟩, ?_, [], ?_⟩
      · rw [List.getElem?_append_left (by simp; omega), List.getElem?_set_self (by omega)]
      · rw [List.drop_append_of_le_length (by simp), List.append_nil,
          List.drop_of_length_le (by simp), List.nil_append]
    · have hne : ¬ old.source = (q : Int) + 1 := by omega
      simp only [hne, if_false, Option.or_none] at ha
      obtain ⟨k, hk1, hk2, tail, hk3⟩ := h.linked q c l hq ha
      refine ⟨k, ⟨hk1.1, by simp; omega⟩, ?_, tail ++ chainNodes nodes.length (after bytes p)
        (bytesOf new.distance new.size), ?_⟩
      · rw [List.getElem?_append_left (by simp; omega), List.getElem?_set_ne (Ne.symm hqp)]
        exact hk2
      · have hkl : k ≤ nodes.length := hk1.2
        rw [List.drop_append_of_le_length (by simpa using hkl), List.drop_set, if_pos (by omega), hk3,
          List.append_assoc]

theorem set_twice {nodes : List Node} {p : Nat} {a b : Node} : (nodes.set p a).set p b = nodes.set p b :=
  List.set_set _

/-- What is written for one address. -/
theorem insertLink_eq {bytes : Bytes} {zs : List (Link × Link)} {nodes : List Node}
    (h : Held bytes zs nodes) {new : Link} {p : Nat} {b : UInt8} (hb : bytes[p]? = some b)
    (hfree : addrOf zs p = none) (hn : Chosen new.size) (hs : p + 1 < nodes.length) :
    insertLink (p + 1) new nodes = .ok (nodes.set p ⟨b + bump new.size, some nodes.length⟩ ++
      chainNodes nodes.length (after bytes p) (bytesOf new.distance new.size)) := by
  have hlen := h.len
  have hp : p < bytes.length := (List.getElem?_eq_some_iff.1 hb).1
  have hnp := h.plain p b hb hfree
  unfold insertLink
  simp only [Nat.add_sub_cancel, hnp]
  rw [show (if new.size = 1 then (0 : UInt8) else if new.size = 2 then 1 else 2) = bump new.size from rfl,
    insertBytes_eq (p + 1) _ p _ ⟨b + bump new.size, after bytes p⟩ (chosen_ne hn)
    (List.getElem?_set_self (by omega)) (by simpa using hs)]
  simp only [List.length_set, set_twice]
  show (if after bytes p = none then _ else _) = _
  by_cases ha : p + 1 < bytes.length
  · have : after bytes p = some (p + 1) := if_pos ha
    simp only [this]
    rw [if_neg (by simp)]
  · have : after bytes p = none := if_neg ha
    rw [if_pos this, this]
    have hbl : 0 < (bytesOf new.distance new.size).length :=
      List.length_pos_iff.2 (chosen_ne hn)
    obtain ⟨t, h1, h2⟩ := chainNodes_stop (some (p + 1)) none (bytesOf new.distance new.size)
      nodes.length (chosen_ne hn)
    have hix : (nodes.set p ⟨b + bump new.size, some nodes.length⟩ ++
        chainNodes nodes.length (some (p + 1)) (bytesOf new.distance new.size)).length - 1 =
        nodes.length + ((bytesOf new.distance new.size).length - 1) := by
      simp only [List.length_append, List.length_set, chainNodes_length]; omega
    simp only [hix]
    rw [List.getElem?_append_right (by simp)]
    simp only [List.length_set, Nat.add_sub_cancel_left, h1]
    rw [List.set_append_right _ _ (by simp)]
    simp only [List.length_set, Nat.add_sub_cancel_left, h2]

theorem insertLink_inside {bytes : Bytes} {zs : List (Link × Link)} {nodes : List Node}
    (h : Held bytes zs nodes) {new : Link} {p : Nat} {b : UInt8} (hb : bytes[p]? = some b)
    (hfree : addrOf zs p = none) (hn : Chosen new.size) {out : List Node}
    (ho : insertLink (p + 1) new nodes = .ok out) : p + 1 < nodes.length := by
  have hnp := h.plain p b hb hfree
  unfold insertLink at ho
  simp only [Nat.add_sub_cancel, hnp] at ho
  cases hbs : bytesOf new.distance new.size with
  | nil => exact absurd hbs (chosen_ne hn)
  | cons x xs =>
    rw [hbs] at ho
    rcases hi : insertBytes (p + 1) (x :: xs) p (nodes.set p
      { byte := b + if new.size = 1 then 0 else if new.size = 2 then 1 else 2, next := after bytes p })
      with out' | e | _ | _
    · have := insertBytes_ok hi
      simpa using this
    all_goals rw [hi] at ho; cases ho

/-- The sources of `zs` are opcodes of `bytes` that have no address yet. -/
def Sites (bytes : Bytes) (zs : List (Link × Link)) : Prop :=
  ∀ z ∈ zs, 0 < z.1.source ∧ z.1.source ≤ bytes.length ∧ Chosen z.2.size

theorem addrOf_free {zs : List (Link × Link)} {z : Link × Link} {p : Nat}
    (h : ∀ y ∈ zs, y.1.source ≠ z.1.source) (hp : z.1.source = (p : Int) + 1) : addrOf zs p = none := by
  unfold addrOf
  rw [Option.map_eq_none_iff, List.find?_eq_none]
  intro y hy
  rw [decide_eq_true_eq, ← hp]
  exact h y hy

theorem held_insertLinks {bytes : Bytes} : ∀ (todo done : List (Link × Link)) (nodes out : List Node),
    Held bytes done nodes → Distinct (done ++ todo) → Sites bytes todo →
    insertLinks todo nodes = .ok out → Held bytes (done ++ todo) out
  | [], done, nodes, out, h, _, _, ho => by
    cases ho
    simpa using h
  | (old, new) :: todo, done, nodes, out, h, hd, hs, ho => by
    obtain ⟨h1, h2, h3⟩ := hs _ List.mem_cons_self
    dsimp only at h1 h2 h3
    obtain ⟨p, hp⟩ : ∃ p : Nat, old.source = (p : Int) + 1 := ⟨(old.source - 1).toNat, by omega⟩
    have hpl : p < bytes.length := by omega
    have hb : bytes[p]? = some bytes[p] := List.getElem?_eq_getElem hpl
    have hfree : addrOf done p = none := by
      refine addrOf_free (z := (old, new)) (fun y hy => ?_) hp
      rw [Distinct, List.pairwise_append] at hd
      exact hd.2.2 y hy _ List.mem_cons_self
    have hsrc : old.source.toNat = p + 1 := by omega
    unfold insertLinks at ho
    rw [hsrc] at ho
    rcases hi : insertLink (p + 1) new nodes with out' | e | _ | _
    · rw [hi] at ho
      have hin := insertLink_inside h hb hfree h3 hi
      rw [insertLink_eq h hb hfree h3 hin] at hi
      cases hi
      have hh := held_of h hb hp hfree h3
      rw [List.append_cons] at hd ⊢
      exact held_insertLinks todo (done ++ [(old, new)]) _ out hh hd
        (fun z hz => hs z (List.mem_cons_of_mem _ hz)) ho
    all_goals rw [hi] at ho; cases ho

theorem insertLinks_ok {bytes : Bytes} : ∀ (todo done : List (Link × Link)) (nodes : List Node),
    Held bytes done nodes → Distinct (done ++ todo) → Sites bytes todo →
    (∀ z ∈ todo, z.1.source < bytes.length) → ∃ out, insertLinks todo nodes = .ok out
  | [], done, nodes, h, _, _, _ => ⟨_, rfl⟩
  | (old, new) :: todo, done, nodes, h, hd, hs, hlt => by
    obtain ⟨h1, h2, h3⟩ := hs _ List.mem_cons_self
    have h4 := hlt _ List.mem_cons_self
    dsimp only at h1 h2 h3 h4
    obtain ⟨p, hp⟩ : ∃ p : Nat, old.source = (p : Int) + 1 := ⟨(old.source - 1).toNat, by omega⟩
    have hpl : p < bytes.length := by omega
    have hb : bytes[p]? = some bytes[p] := List.getElem?_eq_getElem hpl
    have hfree : addrOf done p = none := by
      refine addrOf_free (z := (old, new)) (fun y hy => ?_) hp
      rw [Distinct, List.pairwise_append] at hd
      exact hd.2.2 y hy _ List.mem_cons_self
    have hsrc : old.source.toNat = p + 1 := by omega
    have hlen := h.len
    unfold insertLinks
    rw [hsrc, insertLink_eq h hb hfree h3 (by omega)]
    have hh := held_of h hb hp hfree h3
    rw [List.append_cons] at hd
    exact insertLinks_ok todo (done ++ [(old, new)]) _ hh hd
      (fun z hz => hs z (List.mem_cons_of_mem _ hz)) (fun z hz => hlt z (List.mem_cons_of_mem _ hz))

/-! ### Reading the list -/

theorem flatten_chain {nodes : List Node} (stop : Option Nat) : ∀ (bs : Bytes) (k fuel : Nat)
    (tail : List Node) (r : Bytes), bs ≠ [] → nodes.drop k = chainNodes k stop bs ++ tail →
    flatten nodes fuel stop = .ok r → flatten nodes (fuel + bs.length) (some k) = .ok (bs ++ r)
  | [], _, _, _, _, h, _, _ => absurd rfl h
  | [b], k, fuel, tail, r, _, hk, hr => by
    have : nodes[k]? = some ⟨b, stop⟩ := by
      have := congrArg (·[0]?) hk
      simpa [chainNodes] using this
    show flatten nodes (fuel + 1) (some k) = _
    unfold flatten
    simp only [this, hr]
    rfl
  | b :: c :: rest, k, fuel, tail, r, _, hk, hr => by
    have h0 : nodes[k]? = some ⟨b, some (k + 1)⟩ := by
      have := congrArg (·[0]?) hk
      simpa [chainNodes] using this
    have h1 : nodes.drop (k + 1) = chainNodes (k + 1) stop (c :: rest) ++ tail := by
      have := congrArg (List.drop 1) hk
      rw [List.drop_drop] at this
      simpa [chainNodes] using this
    have ih := flatten_chain stop (c :: rest) (k + 1) fuel tail r (by simp) h1 hr
    show flatten nodes ((fuel + (c :: rest).length) + 1) (some k) = _
    rw [flatten]
    simp only [h0, ih]
    rfl

theorem flatten_held {bytes : Bytes} {zs : List (Link × Link)} {nodes : List Node}
    (h : Held bytes zs nodes) (hs : ∀ p l, addrOf zs p = some l → Chosen l.size) (extra : Nat) :
    ∀ (bs : Bytes) (p : Nat), bytes.drop p = bs →
      flatten nodes (extra + (expand zs p bs).length) (if bs = [] then none else some p) =
        .ok (expand zs p bs)
  | [], p, _ => by
    cases extra <;> rfl
  | b :: bs, p, hp => by
    have hb : bytes[p]? = some b := by
      have := congrArg (·[0]?) hp
      simpa using this
    have hd : bytes.drop (p + 1) = bs := by
      have := congrArg (List.drop 1) hp
      rw [List.drop_drop] at this
      simpa using this
    have ih := flatten_held h hs extra bs (p + 1) hd
    have haft : (if bs = [] then none else some (p + 1)) = after bytes p := by
      have hl := congrArg List.length hd
      rw [List.length_drop] at hl
      unfold after
      cases bs with
      | nil => rw [if_pos rfl, if_neg (by simp at hl; omega)]
      | cons => rw [if_neg (by simp), if_pos (by simp at hl; omega)]
    rw [haft] at ih
    rw [if_neg (by simp)]
    simp only [expand]
    cases ha : addrOf zs p with
    | none =>
      have h1 := h.plain p b hb ha
      simp only [piece, ha, List.length_append, List.length_cons, List.length_nil]
      rw [show extra + (0 + 1 + (expand zs (p + 1) bs).length) =
        (extra + (expand zs (p + 1) bs).length) + 1 by omega]
      rw [flatten]
      simp only [h1, ih]
      rfl
    | some l =>
      obtain ⟨k, _, h2, tail, h3⟩ := h.linked p b l hb ha
      have h4 := flatten_chain (after bytes p) (bytesOf l.distance l.size) k _ tail _
        (chosen_ne (hs p l ha)) h3 ih
      simp only [piece, ha, List.length_append, List.length_cons]
      rw [show extra + ((bytesOf l.distance l.size).length + 1 + (expand zs (p + 1) bs).length) =
        (extra + (expand zs (p + 1) bs).length + (bytesOf l.distance l.size).length) + 1 by omega]
      rw [flatten]
      simp only [h2, h4]
      rfl

theorem inserted_le (zs : List (Link × Link)) (a b : Int) :
    inserted zs a b ≤ ((zs.map fun z => z.2.size).sum : Nat) := by
  induction zs with
  | nil => simp [inserted]
  | cons z zs ih =>
    simp only [inserted, List.map_cons, List.sum_cons, Int.natCast_add] at ih ⊢
    split <;> omega

/-- The whole of it. -/
theorem insert_flatten {bytes : Bytes} {zs : List (Link × Link)} {nodes : List Node}
    (hne : bytes ≠ []) (hd : Distinct zs) (hs : Sites bytes zs)
    (h : insertLinks zs (nodesFrom 0 bytes) = .ok nodes) :
    flatten nodes (nodes.length + 1) (some 0) = .ok (expand zs 0 bytes) := by
  have hh : Held bytes zs nodes := by
    simpa using held_insertLinks zs [] _ nodes (held_start bytes) (by simpa using hd) hs h
  have hlen := expand_length hd 0 bytes
  have hle := inserted_le zs 0 (0 + bytes.length)
  have hn := hh.len
  have := flatten_held hh (fun p l hp => by
    unfold addrOf at hp
    rw [Option.map_eq_some_iff] at hp
    obtain ⟨z, hz, rfl⟩ := hp
    exact (hs z (List.mem_of_find?_eq_some hz)).2.2)
    (nodes.length + 1 - (expand zs 0 bytes).length) bytes 0 (by simp)
  rw [if_neg hne] at this
  rw [← this]
  congr 1
  simp only [Int.natCast_zero] at hlen
  omega

end DuckLisp.Asm
