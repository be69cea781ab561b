import Verif.Spec.Linking
import Verif.Props.Tables
import Verif.Props.Trie
import Verif.Props.VM.Globals
import Verif.Props.VM.CallsByKey
import Verif.Proof.Compile.State

/-!
# C61: a name calls the function that was linked under it
-/

namespace DuckLisp.Link

open DuckLisp.Tables DuckLisp.VM DuckLisp.Spec

/-- What holds after every history. -/
structure Inv (h : Host) (ls : List (Bytes × Nat)) : Prop where
  symbols : ∃ hist, h.symbols = createAll .init hist ∧ ∀ n cb, lastLinked ls n = some cb → n ∈ hist
  callbacks : h.callbacks.WF
  good : Good h.machine
  free : ∀ n, lastLinked ls n = none → Trie.find h.callbacks n = -1
  taken : ∀ n cb, lastLinked ls n = some cb → ∃ key : Nat, nameToValue h.symbols n = key ∧
    Trie.find h.callbacks n = key ∧ Reads h.machine key (.function cb)

theorem mem_of_lastLinked {ls : List (Bytes × Nat)} {n : Bytes} {cb : Nat} (h : lastLinked ls n = some cb) :
    (n, cb) ∈ ls := by
  induction ls with
  | nil => cases h
  | cons p ls ih =>
    unfold lastLinked at h
    split at h
    · next e => cases h; simp [e]
    · exact List.mem_cons_of_mem _ (ih h)

theorem createAll_snoc (hist : List Bytes) (n : Bytes) :
    (create .enough (createAll .init hist) n).1 = createAll .init (hist ++ [n]) := by
  unfold createAll; rw [List.foldl_append]; rfl

theorem Linking.inv {h : Host} {ls : List (Bytes × Nat)} (l : Linking h ls) : Inv h ls := by
  induction l with
  | start hg =>
    refine ⟨⟨[], rfl, by simp [lastLinked]⟩, Trie.build_WF (-1) [], hg, fun n _ => ?_, by simp [lastLinked]⟩
    have := Trie.C01_trie_is_finite_map (-1) [] n
    simpa [lastWrite] using this
  | symbol l name ih =>
    obtain ⟨hist, hs, hm⟩ := ih.symbols
    refine ⟨⟨hist ++ [name], by rw [hs]; exact createAll_snoc hist name, fun n cb hn => by simp [hm n cb hn]⟩,
      ih.callbacks, ih.good, ih.free, fun n cb hn => ?_⟩
    obtain ⟨key, h1, h2, h3⟩ := ih.taken n cb hn
    refine ⟨key, ?_, h2, h3⟩
    show nameToValue (create .enough _ name).1 n = key
    rw [hs, createAll_snoc, (C13_stable_partial hist [name] n (hm n cb hn)).1, ← hs, h1]
  | runs l hg hr ih =>
    refine ⟨ih.symbols, ih.callbacks, hg, ih.free, fun n cb hn => ?_⟩
    obtain ⟨key, h1, h2, h3⟩ := ih.taken n cb hn
    exact ⟨key, h1, h2, hr n cb key (mem_of_lastLinked hn) h1 _ h3⟩
  | @link h h' ls name cb l hl ih =>
    obtain ⟨hist, hs, hm⟩ := ih.symbols
    obtain ⟨-, -, key, hk, -⟩ := C13_stable_partial (hist ++ [name]) [] name (by simp)
    have hsym : (create .enough h.symbols name).1 = createAll .init (hist ++ [name]) := by
      rw [hs, createAll_snoc]
    unfold Link.link at hl
    simp only [hsym, hk] at hl
    rcases C29_link_function h.machine ih.good key cb with ⟨vm', e, hg', -, r1, r2, -, -⟩ | ⟨vm', e, -⟩
    · rw [e] at hl
      simp only [Option.some.injEq, Prod.mk.injEq, and_true] at hl
      subst hl
      have hins := Trie.insert_find h.callbacks name key ih.callbacks
      refine ⟨⟨hist ++ [name], rfl, fun n c hn => ?_⟩, hins.1, hg', fun n hn => ?_, fun n c hn => ?_⟩
      · unfold lastLinked at hn
        split at hn
        · simp [*]
        · simp [hm n c hn]
      · unfold lastLinked at hn
        split at hn
        · cases hn
        · next hne => rw [hins.2, if_neg hne, ih.free n hn]
      · unfold lastLinked at hn
        split at hn
        · next he =>
            cases hn
            subst he
            exact ⟨key, hk, by rw [hins.2, if_pos rfl], r1⟩
        · next hne =>
            obtain ⟨key', h1, h2, h3⟩ := ih.taken n c hn
            have hst : nameToValue (createAll .init (hist ++ [name])) n = key' := by
              rw [(C13_stable_partial hist [name] n (hm n c hn)).1, ← hs, h1]
            refine ⟨key', hst, by rw [hins.2, if_neg hne, h2], r2 _ _ (fun hkk => hne ?_) h3⟩
            refine (C13_injective_partial (hist ++ [name]) n name (by simp [hm n c hn]) (by simp)).1 ?_
            rw [hst, hk, hkk]
    · rw [e] at hl
      simp at hl

/-- C61: after every history of linking, exactly the names under which functions were linked are known to the compiler
as names of functions of the host. -/
theorem C61_known (h : Host) (ls : List (Bytes × Nat)) (l : Linking h ls) (name : Bytes) :
    Trie.find h.callbacks name ≠ -1 ↔ ∃ cb, (name, cb) ∈ ls := by
  have key : ∀ ls : List (Bytes × Nat), (∃ cb, (name, cb) ∈ ls) ↔ lastLinked ls name ≠ none := by
    intro ls
    induction ls with
    | nil => simp [lastLinked]
    | cons p ls ih =>
      obtain ⟨n, c⟩ := p
      unfold lastLinked
      by_cases e : name = n
      · subst e; simp only [if_pos, ne_eq, reduceCtorEq, not_false_eq_true, iff_true]; exact ⟨c, by simp⟩
      · rw [if_neg e, ← ih]
        simp [e]
  rw [key]
  have hi := l.inv
  constructor
  · intro h1 h2; exact h1 (hi.free name h2)
  · intro h1
    obtain ⟨cb, hcb⟩ := Option.ne_none_iff_exists'.1 h1
    obtain ⟨k, -, h2, -⟩ := hi.taken name cb hcb
    rw [h2]; omega

/-- C61: a call by the key that the compiler has for a name runs the function that was last linked under the name, as
it is then on the machine, whatever else was linked before and after.  Missing because false of the code: programs that
store another value in the global variable of that name (`C38_by_key_not_checked`). -/
theorem C61_calls_partial (h : Host) (ls : List (Bytes × Nat)) (l : Linking h ls) (name : Bytes) (cb : Nat)
    (hn : lastLinked ls name = some cb) (env : Env) (bc : Nat) (st nx : CodePtr) :
    0 ≤ nameToValue h.symbols name ∧
    (∀ vm', env.host cb h.machine = .ok () vm' →
      exec env bc st nx (.ccall (nameToValue h.symbols name).toNat) h.machine = .ok (.goto nx) vm') ∧
    ∀ e vm', env.host cb h.machine = .err e vm' →
      exec env bc st nx (.ccall (nameToValue h.symbols name).toNat) h.machine = .err e vm' := by
  obtain ⟨k, h1, -, h3⟩ := l.inv.taken name cb hn
  rw [h1, Int.toNat_natCast]
  exact ⟨by omega, C38_by_key env bc st nx h.machine k cb h3⟩

/-- C61: linking succeeds or reports that there is no memory.  If it is reported, the name is known to the compiler all
the same, and functions linked before can still be called. -/
theorem C61_link (h : Host) (ls : List (Bytes × Nat)) (l : Linking h ls) (name : Bytes) (cb : Nat) :
    (∃ h', link h name cb = some (h', none)) ∨
    ∃ h', link h name cb = some (h', some .outOfMemory) ∧ Trie.find h'.callbacks name ≠ -1 ∧
      (∀ n c, lastLinked ls n = some c → ∃ key : Nat, nameToValue h'.symbols n = key ∧
        Reads h'.machine key (.function c)) := by
  have ih := l.inv
  obtain ⟨hist, hs, hm⟩ := ih.symbols
  obtain ⟨-, -, key, hk, -⟩ := C13_stable_partial (hist ++ [name]) [] name (by simp)
  have hsym : (create .enough h.symbols name).1 = createAll .init (hist ++ [name]) := by
    rw [hs, createAll_snoc]
  unfold Link.link
  simp only [hsym, hk]
  rcases C29_link_function h.machine ih.good key cb with ⟨vm', e, -⟩ | ⟨vm', e, -, r, -⟩
  · rw [e]; exact .inl ⟨_, rfl⟩
  · rw [e]
    refine .inr ⟨_, rfl, ?_, fun n c hn => ?_⟩
    · show Trie.find (Trie.insert h.callbacks name key) name ≠ -1
      rw [(Trie.insert_find h.callbacks name key ih.callbacks).2, if_pos rfl]; omega
    · obtain ⟨key', h1, -, h3⟩ := ih.taken n c hn
      refine ⟨key', ?_, r _ _ h3⟩
      show nameToValue (createAll .init (hist ++ [name])) n = key'
      rw [(C13_stable_partial hist [name] n (hm n c hn)).1, ← hs, h1]

/-- C61: programs that store values in other global variables are part of such histories. -/
theorem C61_other_globals (h : Host) (ls : List (Bytes × Nat)) (l : Linking h ls) (env : Env) (bc : Nat)
    (st nx : CodePtr) (a k : Nat) (x : Obj) (vm' : VM) (ha : operand h.machine a = some x)
    (hk : ∀ name cb, (name, cb) ∈ ls → nameToValue h.symbols name ≠ k)
    (he : exec env bc st nx (.setGlobal a k) h.machine = .ok (.goto nx) vm') :
    Linking { h with machine := vm' } ls := by
  rcases C29_set_global env bc st nx h.machine l.inv.good a k x ha with ⟨v, e, hg, -, -, hr, -⟩ | ⟨v, e, -⟩
  · rw [he] at e
    cases e
    exact .runs l hg fun name cb j hm hj y hy => hr j y (fun hjk => hk name cb hm (by rw [hj, hjk])) hy
  · rw [he] at e; cases e

example : ∃ h', link ⟨.init, Trie.init (-1), pairVM⟩ (ascii "f") 3 = some (h', none) := ⟨_, rfl⟩
example : ∃ h', Linking h' [(ascii "f", 3)] :=
  ⟨_, .link (.start pairVM_good) (show link ⟨.init, Trie.init (-1), pairVM⟩ (ascii "f") 3 = some (_, none) from rfl)⟩

/-- C61: a call by the name of a linked function, where no variable is a function of that name, is compiled to the code
of the arguments, and then the call by the key of the name: nothing else is added to the code. -/
theorem C61_compiled (h : Host) (ls : List (Bytes × Nat)) (l : Linking h ls) (name : Bytes) (cb : Nat)
    (hn : lastLinked ls name = some cb) (cfg : Compile.Config) (r : Compile.Rec) (n : Nat) (arguments : List Reader.Ast)
    (s s1 : Compile.CState) (hc : cfg.callbacks = h.callbacks) (hs : s.symbols = h.symbols)
    (ht : Compile.functionType name s.scopes.current = -1) (ha : Compile.genArguments r arguments s = .ok () s1) :
    ∃ s', Compile.dispatch cfg r n name arguments s = .ok () s' ∧
      (s1.body = none → s'.body = none ∧
        s'.assembly = s1.assembly ++ [.ccall (nameToValue h.symbols name)]) ∧
      (∀ body, s1.body = some body → s'.body = some (body ++ [.ccall (nameToValue h.symbols name)]) ∧
        s'.assembly = s1.assembly) := by
  obtain ⟨k, h1, h2, -⟩ := l.inv.taken name cb hn
  have hk : nameToValue s.symbols name = (k : Int) := by rw [hs, h1]
  have hd : Compile.dispatch cfg r n name arguments s = Compile.genCallback r name arguments s := by
    unfold Compile.dispatch
    rw [Compile.CM.bind_ok (show Compile.get s = .ok s s from rfl)]
    simp only [ht]
    rw [if_neg (by decide), if_neg (by decide), if_neg (by decide), if_pos (by rw [hc, h2]; omega)]
  have hg : Compile.genCallback r name arguments s =
      (do Compile.emitPush (.ccall k); Compile.setLocalsLength (s.scopes.current.localsLength + 1) : Compile.CM Unit)
        s1 := by
    unfold Compile.genCallback
    rw [Compile.CM.bind_ok (show Compile.get s = .ok s s from rfl)]
    simp only [hk]
    rw [if_neg (by omega)]
    rw [Compile.CM.bind_ok (show Compile.localsLength s = .ok _ s from rfl), Compile.CM.bind_ok ha]
  rw [hd, hg, h1]
  refine ⟨_, rfl, fun hb => ?_, fun body hb => ?_⟩ <;> simp [hb]

#print axioms C61_known
#print axioms C61_compiled
#print axioms C61_other_globals
#print axioms C61_calls_partial
#print axioms C61_link

end DuckLisp.Link
