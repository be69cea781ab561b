import Verif.Proof.Compile.State
import Verif.Proof.Compile.Code

/-!
# Lemmas about the state of the compiler inside a function
-/

namespace DuckLisp.Compile

open DuckLisp.Asm DuckLisp.Reader

/-- The scope that has nothing but the name of the function itself. -/
def selfScope (L : Nat) : Scope := { Scope.init false with
  locals := Trie.insert (Trie.init (-1)) (ascii "self") (L : Int)
  functionLocals := Trie.insert (Trie.init (-1)) (ascii "self") (L : Int)
  functions := Trie.insert (Trie.init (-1)) (ascii "self") functionTypeDucklisp }

/-- The state in which the compilation of a function begins. -/
def entered (s : CState) : CState := { s with scopes := { s.scopes with
  runtime := ⟨s.scopes.runtime.scopes ++ [selfScope s.scopes.runtime.localsLength, Scope.init true],
    s.scopes.runtime.localsLength + 1, s.scopes.runtime.labelNumber⟩
  comptime := { s.scopes.comptime with
    scopes := s.scopes.comptime.scopes ++ [Scope.init false, Scope.init false] } } }

theorem enter_eq {s : CState} (h : s.scopes.inComptime = false) {β : Type} (k : Unit → CM β) :
    (openScope false >>= fun _ => addVariable (ascii "self") >>= fun _ => addFunction (ascii "self") >>= fun _ =>
      increment >>= fun _ => openScope true >>= k) s = k () (entered s) := by
  rcases s with ⟨⟨⟨scopes, L, l⟩, ⟨scopes', L', l'⟩, c⟩, _, _, _, _, _, _⟩
  simp only at h
  subst h
  simp only [openScope]
  refine (CM.bind_ok rfl).trans ?_
  simp only [addVariable, modify]
  refine (CM.bind_ok rfl).trans ?_
  simp only [addFunction, modify]
  refine (CM.bind_ok rfl).trans ?_
  refine (CM.bind_ok (show increment _ = .ok () _ from rfl)).trans ?_
  refine (CM.bind_ok rfl).trans ?_
  congr 1
  simp [pushScope, addObject, addInterpretedFunction, Scopes.current, Scopes.setCurrent, changeTop, getTop, setTop,
    entered, selfScope, Scope.init]

theorem reads_names {n : Trie.Node} {b : List (Bytes × Nat)} (h : Reads n b) {x : Bytes} (hx : ∀ y ∈ b, y.1 ≠ x) :
    Trie.find n x = -1 := by
  rw [h.2 x]
  have : b.lookup x = none := by
    clear h
    induction b with
    | nil => rfl
    | cons y b ih =>
      rw [show y = (y.1, y.2) from rfl, List.lookup_cons]
      have := hx y (by simp)
      have : (x == y.1) = false := by simpa using fun e => this e.symm
      rw [this]
      exact ih fun y hy => hx y (by simp [hy])
  rw [this]

variable [Keys] {m : Bool}

theorem hidden_of_corr : ∀ (ss : List Scope) (bs : Blocks), Corr false ss bs →
    (∀ b ∈ bs, ∀ x ∈ b, Keys.dialect.outer x.1 = true) → Hidden ss
  | [], _, _, _ => fun _ h => by cases h
  | s :: ss, b :: bs, h, hn => by
    obtain ⟨h1, ⟨h2, h2'⟩, h3, h4, h5⟩ := (show _ ∧ _ ∧ _ ∧ _ ∧ _ from h)
    have hrest : Hidden ss := by
      cases hf : s.functionScope
      · rw [hf] at h5
        exact hidden_of_corr ss bs h5 fun b hb => hn b (by simp [hb])
      · rw [hf] at h5
        obtain ⟨h6, -⟩ := (show ss = [] ∧ _ from h5)
        rw [h6]
        exact fun _ h => by cases h
    intro t ht
    rcases List.mem_cons.1 ht with rfl | ht
    · refine ⟨fun x hx => reads_names h1 ?_, fun x _ => ?_⟩
      · rintro y hy rfl
        have := hn b (by simp) y hy
        rw [(hx rfl).1] at this
        cases this
      · rw [h2, h2']
        exact ⟨find_init x, find_init x⟩
    · exact hrest t ht

theorem enter_view {s bs L l} (h : View false s bs L l) :
    View true { entered s with body := some [] } [[]] (L + 1) l := by
  refine ⟨h.runtime, rfl, nofun, ?_, by simp, by simp [entered, h.length], by simp [entered, h.label],
    h.tables.imp fun _ h => ⟨h.1, h.2, h.3⟩⟩
  have hh := hidden_of_corr _ _ h.corr (h.names rfl)
  simp only [entered, List.reverse_append, List.reverse_cons, List.reverse_nil, List.nil_append,
    List.singleton_append, List.cons_append]
  refine ⟨Reads.init, ⟨rfl, rfl⟩, Trie.init_WF _, ⟨rfl, rfl⟩, ?_, rfl⟩
  intro t ht
  rcases List.mem_cons.1 ht with rfl | ht
  · have key : ∀ (v : Int) x, x ≠ ascii "self" → Trie.find (Trie.insert (Trie.init (-1)) (ascii "self") v) x = -1 := by
      intro v x hx
      rw [(Trie.insert_find _ _ _ (Trie.init_WF (-1))).2 x, if_neg (fun e => hx (by simpa using e))]
      exact find_init x
    exact ⟨fun x hx => key _ x (hx rfl).2, fun x hx => ⟨key _ x hx, key _ x hx⟩⟩
  · exact hh t ht

/-- The end of a function. -/
theorem leave_eq {t : CState} {A C : List Scope} {S1 S2 c1 c2 : Scope} {L lab n : Nat} {variadic : Bool}
    (h0 : t.scopes.inComptime = false) (h1 : t.body = none) (h2 : t.scopes.runtime.scopes = A ++ [S1, S2])
    (h3 : t.scopes.runtime.localsLength = L + 1) (h4 : t.scopes.comptime.scopes = C ++ [c1, c2])
    (hu : S2.functionUvs = []) (hv : S1.scopeUvs = []) :
    (do
      let scope ← topScope
      decrease 1
      emitPushClosure variadic lab n scope.functionUvs
      let scopes := (← get).scopes.current.scopes
      match scopes[scopes.length - 2]? with
      | none => CM.ub
      | some scope =>
          if scope.scopeUvs = [] then pure ()
          else do
            let length ← localsLength
            emitPushIndex (length - 1 : Int)
            emitReleaseUpvalues scope.scopeUvs
            let length ← localsLength
            emitMove (length - 2 : Int) (length - 1 : Int)
            emitPop 1
      closeScope
      closeScope : CM Unit) t = .ok () { t with
        assembly := t.assembly ++ [.pushClosure variadic lab n []]
        scopes := { t.scopes with
          runtime := { t.scopes.runtime with scopes := A }
          comptime := { t.scopes.comptime with scopes := C } } } := by
  rcases t with ⟨⟨⟨scopes, L', l⟩, ⟨scopes', L'', l'⟩, c⟩, _, _, _, _, _, _, _, _⟩
  simp only at h0 h1 h2 h3 h4
  subst h0 h1 h2 h3 h4
  generalize hs : CState.mk _ _ _ _ _ _ _ _ _ = s
  have h1 : topScope s = .ok S2 s := by
    subst hs
    unfold topScope
    refine (CM.bind_ok rfl).trans ?_
    refine (CM.bind_ok rfl).trans ?_
    simp [getTop, Scopes.current, Scopes.setCurrent]
    rfl
  rw [CM.bind_ok h1]
  subst hs
  rw [CM.bind_ok (show decrease 1 _ = .ok () _ from rfl), hu,
    CM.bind_ok (show emitPushClosure _ _ _ _ _ = .ok () _ from rfl), CM.bind_ok (show get _ = .ok _ _ from rfl)]
  simp only [Scopes.current, Scopes.setCurrent, Bool.false_eq_true, if_false, List.length_append,
    List.length_cons, List.length_nil, Nat.zero_add, Nat.reduceAdd, Nat.add_sub_cancel, Nat.le_refl,
    List.getElem?_append_right, Nat.sub_self, List.getElem?_cons_zero, hv, if_true]
  have close : ∀ (s : CState) (a b : List Scope) (x y : Scope), s.scopes.runtime.scopes = a ++ [x] →
      s.scopes.comptime.scopes = b ++ [y] → closeScope s = .ok () { s with scopes := { s.scopes with
        runtime := { s.scopes.runtime with scopes := a }, comptime := { s.scopes.comptime with scopes := b } } } := by
    intro s a b x y e1 e2
    simp [closeScope, popScope, e1, e2]
  refine (CM.bind_ok (close _ (A ++ [S1]) (C ++ [c1]) S2 c2 (by simp) (by simp))).trans ?_
  rw [close _ A C S1 c1 (by simp) (by simp)]
  rfl

end DuckLisp.Compile
