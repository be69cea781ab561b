import Verif.Spec.Callbacks
import Verif.Spec.Load
import Verif.Proof.Callbacks
import Verif.Proof.Reader.Proper
import Verif.Props.Tables
import Verif.Props.Reader
import Verif.Props.AstObj

/-!
# C55: `gensym`, `intern` and `read`
-/

namespace DuckLisp.Props

open DuckLisp DuckLisp.VM DuckLisp.Spec DuckLisp.Callbacks

/-! ### `gensym` -/

/-- C55: `gensym` pushes the symbol of the generated name, or reports that memory has run out. -/
theorem C55_gensym (history : List Bytes) (counter : UInt64) (rs : Reader.RState) (vm : VM) (hg : Good vm) :
    ∃ l', l'.symbols = Tables.createAll .init (history ++ [(Tables.gensym counter).1]) ∧ l'.counter = counter + 1 ∧
      l'.reader = rs ∧
      ((∃ vm' o, gensym ⟨Tables.createAll .init history, counter, rs⟩ vm = (l', .ok () vm') ∧
          vm'.stack = vm.stack ++ [o] ∧ NamedSymbol l'.symbols vm' o (Tables.gensym counter).1 ∧
          Untouched vm vm' [] ∧ Good vm') ∨
        ∃ vm', gensym ⟨Tables.createAll .init history, counter, rs⟩ vm = (l', .err .outOfMemory vm') ∧
          vm'.stack = vm.stack ∧ Untouched vm vm' [] ∧ Good vm') := by
  have ht : Tables.Holds (Tables.createAll .init history) history := by
    simpa using Tables.holds_createAll Tables.holds_init history
  have ht' := Tables.holds_create ht (Tables.gensym counter).1
  have hl : ((Tables.gensym counter).1).length < 2 ^ 63 := by
    simp [Tables.gensym, hexPlaces_length]
  refine ⟨⟨(Tables.create .enough (Tables.createAll .init history) (Tables.gensym counter).1).1, counter + 1, rs⟩,
    by simp [Tables.createAll], rfl, rfl, ?_⟩
  rcases pushSymbol_named ht' (by simp) hg hl with ⟨vm', o, h1, h2, -, h3, h4, h5⟩ | ⟨vm', h1, h2, h3, h4⟩
  · refine .inl ⟨vm', o, ?_, h2, h3, h4, h5⟩
    unfold gensym
    simp only
    rw [h1]
    rfl
  · refine .inr ⟨vm', ?_, h2, h3, h4⟩
    unfold gensym
    simp only
    rw [h1]
    rfl

/-- C55: a generated symbol is a new one.  Whatever programs named, read and interned before, if fewer than 2^64 numbers
have been taken and no interned text began with a zero byte, the name that `gensym` generates has no symbol yet: its symbol
differs from that of every other name.

Missing: interned texts that begin with a zero byte; see `C55_generated_name_interned`. -/
theorem C55_generated_is_new_partial (n : Nat) (l : Lisp) (h : History n newLisp l) (hn : n < 2 ^ 64) :
    Tables.nameToValue l.symbols (Tables.gensym l.counter).1 = -1 ∧
    ∀ vm name, Tables.nameToValue l.symbols name ≠ -1 →
      Tables.nameToValue (gensym l vm).1.symbols (Tables.gensym l.counter).1 ≠
        Tables.nameToValue (gensym l vm).1.symbols name := by
  have hgen : Generated n l := by
    clear hn
    have : ∀ {n l0 l}, History n l0 l → l0 = newLisp → Generated n l := by
      intro n l0 l h
      induction h with
      | nil l =>
          rintro rfl
          exact ⟨rfl, [], Tables.holds_init, by simp⟩
      | snoc _ hu ih => exact fun e => generated_uses (ih e) hu
    exact this h rfl
  obtain ⟨h1, hist, h2, h3⟩ := hgen
  have hnew : (Tables.gensym l.counter).1 ∉ hist := by
    intro hm
    rcases h3 _ hm with h0 | ⟨k, hk, e⟩
    · exact h0 rfl
    · have := Tables.gensym_inj e
      rw [h1] at this
      have := congrArg UInt64.toNat this
      simp only [UInt64.toNat_ofNat'] at this
      omega
  have hv : Tables.nameToValue l.symbols (Tables.gensym l.counter).1 = -1 := by
    rw [h2.find, if_neg hnew]
  refine ⟨hv, fun vm name hname e => ?_⟩
  have ht : Tables.Holds (gensym l vm).1.symbols (hist ++ [(Tables.gensym l.counter).1]) :=
    Tables.holds_create h2 _
  have hmem : name ∈ hist := by
    refine Classical.byContradiction fun hc => hname ?_
    rw [h2.find, if_neg hc]
  have hne : name ≠ (Tables.gensym l.counter).1 := fun e => hnew (e ▸ hmem)
  rw [ht.find, ht.find, if_pos (by simp), if_pos (by simp [hmem])] at e
  have e := Int.ofNat.inj e
  have m1 := (Tables.mem_firsts (hist ++ [(Tables.gensym l.counter).1]) (Tables.gensym l.counter).1).2 (by simp)
  have m2 := (Tables.mem_firsts (hist ++ [(Tables.gensym l.counter).1]) name).2 (by simp [hmem])
  have g1 := List.getElem_idxOf (List.idxOf_lt_length_of_mem m1)
  have g2 := List.getElem_idxOf (List.idxOf_lt_length_of_mem m2)
  refine hne ?_
  rw [← g1, ← g2]
  congr 1
  exact e.symm

/-! ### `intern` -/

theorem typeOf_pushed (vm : VM) (o : Obj) : apiTypeOf (pushed vm o) = .ok o.typeNumber (pushed vm o) := by
  unfold apiTypeOf
  rw [M.bind_ok (getTop_some (operand_pushed _ _))]
  rfl

theorem typeOf_empty {vm : VM} (h : vm.stack = []) : apiTypeOf vm = .err .bufferUnderflow vm := by
  unfold apiTypeOf
  rw [M.bind_run]
  have : getTop vm = .err .bufferUnderflow vm := by unfold getTop; rw [h]; rfl
  rw [this]

/-- C55: `intern` replaces a text by the symbol with that name: its number is the one that the name had, or the next one if
it had none.

Missing: if memory runs out, `intern` reports success although there is no result (the second case). -/
theorem C55_intern_partial (history : List Bytes) (counter : UInt64) (rs : Reader.RState) (base : VM) (p : Option Ref)
    (off : Int) (len : Nat) (name : Bytes) (hg : Good (pushed base (.string p off len)))
    (hname : name = text base (.string p off len)) (hlen : name.length < 2 ^ 63) :
    ∃ l', l'.symbols = Tables.createAll .init (history ++ [name]) ∧ l'.counter = counter ∧ l'.reader = rs ∧
      ((∃ vm' o, intern ⟨Tables.createAll .init history, counter, rs⟩ (pushed base (.string p off len)) = (l', .ok () vm') ∧
          vm'.stack = base.stack ++ [o] ∧ NamedSymbol l'.symbols vm' o name ∧ Untouched base vm' [] ∧ Good vm') ∨
        ∃ vm', intern ⟨Tables.createAll .init history, counter, rs⟩ (pushed base (.string p off len)) = (l', .ok () vm') ∧
          vm'.stack = base.stack ∧ Untouched base vm' [] ∧ Good vm' ∧
          ∃ id, apiPushSymbol id name base = .err .outOfMemory vm') := by
  have ht : Tables.Holds (Tables.createAll .init history) history := by
    simpa using Tables.holds_createAll Tables.holds_init history
  have ht' := Tables.holds_create ht name
  have hg' : Good base := good_popped hg
  have hcopy := C42_copy_string _ hg p off len (operand_pushed _ _)
  have htext : text (pushed base (.string p off len)) (.string p off len) = name := by rw [hname]; rfl
  rw [htext] at hcopy
  have hrun : intern ⟨Tables.createAll .init history, counter, rs⟩ (pushed base (.string p off len)) =
      (⟨(Tables.create .enough (Tables.createAll .init history) name).1, counter, rs⟩,
        match apiPushSymbol (Tables.nameToValue (Tables.create .enough (Tables.createAll .init history) name).1 name).toNat
          name base with
        | .err _ vm => .ok () vm
        | out => out) := by
    unfold intern
    rw [typeOf_pushed]
    dsimp only
    rw [if_neg (by simp [Obj.typeNumber])]
    unfold internString
    rw [hcopy]
    dsimp only
    rw [pop_pushed]
    rfl
  refine ⟨⟨(Tables.create .enough (Tables.createAll .init history) name).1, counter, rs⟩, by simp [Tables.createAll], rfl,
    rfl, ?_⟩
  rw [hrun]
  rcases pushSymbol_named ht' (by simp) hg' hlen with ⟨vm', o, h1, h2, -, h3, h4, h5⟩ | ⟨vm', h1, h2, h3, h4⟩
  · rw [h1]
    exact .inl ⟨vm', o, rfl, h2, h3, h4, h5⟩
  · refine .inr ⟨vm', ?_, h2, h3, h4, _, h1⟩
    rw [h1]

/-- C55: anything but a text is refused by `intern`, and nothing changes. -/
theorem C55_intern_refuses (l : Lisp) (base : VM) (o : Obj) (h : ∀ p off len, o ≠ .string p off len) :
    intern l (pushed base o) = (l, .err .invalidValue (pushed base o)) := by
  unfold intern
  rw [typeOf_pushed]
  dsimp only
  rw [if_pos]
  intro e
  cases o <;> first | exact h _ _ _ rfl | cases e

/-- A machine with one cell, which is in use, and an empty text on the stack. -/
def fullVM : VM :=
  { heap := [.internalVector (some [.ptr none]) 1 true], free := [], stack := [.vector (some 0) 0, .string none 0 0],
    upStack := [none, none] }

/-- C55 is false of the code if memory runs out: `intern` reports success although it has taken its argument from the
stack and put nothing in its place. -/
theorem C55_intern_error_lost : (intern newLisp fullVM).2 =
    .ok () { fullVM with stack := [.vector (some 0) 0], upStack := [none] } := by
  decide +kernel

/-- C55 is false of the code if a program interns the name that is generated next: `gensym` gives the same symbol. -/
theorem C55_generated_name_interned (vm : VM) (name : Bytes) (hn : name = (Tables.gensym 0).1) (r : Ref) (k : Nat)
    (base : VM) (hg : Good (pushed base (.string (some r) 0 k)))
    (ht : text base (.string (some r) 0 k) = name) :
    (intern newLisp (pushed base (.string (some r) 0 k))).1.symbols = Tables.createAll .init [name] ∧
    (gensym (intern newLisp (pushed base (.string (some r) 0 k))).1 vm).1.symbols = Tables.createAll .init [name] := by
  have hl : name.length < 2 ^ 63 := by rw [hn]; simp [Tables.gensym, hexPlaces_length]
  obtain ⟨l', h1, h2, h3, h4⟩ := C55_intern_partial [] 0 {} base (some r) 0 k name hg ht.symm hl
  have e : (intern newLisp (pushed base (.string (some r) 0 k))).1 = l' := by
    rcases h4 with ⟨vm', o, h, -⟩ | ⟨vm', h, -⟩
    · exact congrArg Prod.fst h
    · exact congrArg Prod.fst h
  rw [e]
  have h1 : l'.symbols = Tables.createAll .init [name] := h1
  refine ⟨h1, ?_⟩
  show (Tables.create .enough l'.symbols (Tables.gensym l'.counter).1).1 = _
  rw [h2, ← hn, h1]
  have ht1 : Tables.Holds (Tables.createAll .init [name]) ([] ++ [name]) :=
    Tables.holds_createAll Tables.holds_init [name]
  have hv := ht1.find name
  rw [if_pos (by simp)] at hv
  unfold Tables.create
  rw [if_neg (by rw [hv]; omega)]

/-! ### `read` -/

/-- `ReadResult cfg t vm o e status`: the object is the pair of the object that is written `e` and the number. -/
def ReadResult (t : Tables.Symbols) (vm : VM) (o : Obj) (e : Reader.Ast) (status : Int) : Prop :=
  ∃ r x, o = .list (some r) ∧ IsPair vm r x (.integer status) ∧
    Shown (fun w id => Tables.nameToValue t w = id) vm x e

/-- The arguments of `read`. -/
theorem readArguments_ok {base : VM} {p : Option Ref} {off : Int} {len : Nat}
    (hg : Good (pushed base (.string p off len))) :
    readArguments (pushed (pushed base (.string p off len)) (.bool 0)) = .ok (text base (.string p off len)) base := by
  unfold readArguments
  rw [M.bind_ok (typeOf_pushed _ _), if_pos (show (Obj.bool 0).typeNumber = 1 from rfl)]
  have h1 : apiCopyBoolean (pushed (pushed base (.string p off len)) (.bool 0)) =
      .ok 0 (pushed (pushed base (.string p off len)) (.bool 0)) := by
    unfold apiCopyBoolean
    rw [M.bind_ok (getTop_some (operand_pushed _ _))]
    rfl
  have h2 : unchecked apiTypeOf (pushed base (.string p off len)) = .ok 4 (pushed base (.string p off len)) := by
    unfold unchecked
    rw [typeOf_pushed]
    rfl
  rw [M.bind_ok h1, M.bind_ok (pop_pushed _ _), if_pos rfl, M.bind_ok h2, if_pos rfl,
    M.bind_ok (C42_copy_string _ hg p off len (operand_pushed _ _)), M.bind_ok (pop_pushed _ _)]
  rfl

theorem grown_of_taken {a b : VM} {k : Nat} (h : Taken a b k) (hr : SameRoots a b) : Grown a b k :=
  ⟨h.free, h.heap, h.length, hr⟩

/-- C55: `read` with a text and false replaces them by the pair of what the text says, as an object, and zero.  Symbols
in it have the numbers that their names have in programs.  Names that had a number keep it, and no cell in use changes.

Missing: as for `C46_tree_to_object_partial`, there must be enough free cells that no collection happens; otherwise the
object may be lost (`C55_read_collected`). -/
theorem C55_read_partial (cfg : Reader.Config) (hact : ∀ name, cfg.action name = none) (e : Reader.Ast) (src : Bytes)
    (hsrc : ProgramText cfg.arith e src) (hh : height e < cfg.maxDepth) (history : List Bytes)
    (counter : UInt64) (rs : Reader.RState) (base : VM) (p : Option Ref) (off : Int) (len : Nat)
    (hg : Good (pushed base (.string p off len))) (ht : text base (.string p off len) = src)
    (hfree : cellsFor (Reader.postprocess e) + 3 ≤ base.free.length) :
    ∃ l' later vm' o,
      read cfg ⟨Tables.createAll .init history, counter, rs⟩ (pushed (pushed base (.string p off len)) (.bool 0)) =
        (l', .ok () vm') ∧
      l'.symbols = Tables.createAll .init (history ++ later) ∧ (∀ w ∈ later, Occurs w (Reader.postprocess e)) ∧
      l'.counter = counter ∧ vm'.stack = base.stack ++ [o] ∧
      ReadResult l'.symbols vm' o (asCode (Reader.postprocess e)) 0 ∧ Good vm' ∧
      (∀ r, r ∉ base.free → vm'.heap[r]? = base.heap[r]? ∧ r ∉ vm'.free) := by
  have hbase : Good base := good_popped hg
  obtain ⟨sep, w, post, h1, h2, h3, h4⟩ := hsrc
  have hr := Reader.C09_read cfg hact h2 [] sep post h1 h3 hh rs
  rw [show [] ++ sep ++ w ++ post = src by simp [h4]] at hr
  have hlen : (text base (.string p off len)).length < 2 ^ 63 := by
    cases p with
    | none => simp [text]
    | some r =>
        obtain ⟨k, v, n, x, rfl, a1, a2, a3, -, -, hv, -, ha⟩ := string_cell hg (operand_pushed _ _)
        have := ha k len
        rw [show text base (.string (some r) k len) = text (pushed base (.string (some r) k len)) (.string (some r) k len) from rfl, this]
        simp
        omega
  have he : Proper (Reader.postprocess e) := by
    refine Reader.proper_of_written h2 ?_
    rw [ht, h4] at hlen
    simp at hlen
    omega
  have htab : Tables.Holds (Tables.createAll .init history) history := by
    simpa using Tables.holds_createAll Tables.holds_init history
  obtain ⟨o, t', vm1, e1, c1⟩ := AstObj.astToObject_ok (Reader.postprocess e) he hbase.sound htab (by omega)
  obtain ⟨later, l1, l2⟩ := astToObject_enters _ e1
  have hg1 : Good vm1 := ⟨c1.sound, c1.finished hbase.finished⟩
  have hfree1 : 3 ≤ vm1.free.length := by rw [c1.grown.free, List.length_drop]; omega
  obtain ⟨c, s', e2, g2, r2, t2, p2⟩ := pushResult_eq (status := 0) hg1 c1.value
    (show ValueOk vm1 (.integer 0) from ⟨by decide, by decide⟩) hfree1
  refine ⟨⟨t', counter, { rs with depth := 0 }⟩, later, pushed s' (.list (some c)), .list (some c), ?_, ?_, l2, rfl, ?_, ?_, g2, ?_⟩
  · unfold Callbacks.read
    rw [readArguments_ok hg, ht]
    dsimp only
    unfold readText
    rw [show ([] : Bytes).length = 0 from rfl] at hr
    rw [hr]
    dsimp only
    rw [e1]
    dsimp only
    rw [e2]
  · show t' = _
    rw [l1]
    simp [Tables.createAll]
  · show s'.stack ++ _ = _
    rw [r2.stack, c1.grown.roots.stack]
  · refine ⟨c, o, rfl, isPair_heap p2 rfl, shown_heap (a := s') ?_ rfl⟩
    exact c1.shown s' 3 t' (grown_of_taken t2 r2) (AstObj.Extends.refl _)
  · intro r hr
    have hr1 : r ∉ vm1.free := fun hm => hr (by rw [c1.grown.free] at hm; exact List.mem_of_mem_drop hm)
    refine ⟨(t2.heap r hr1).trans (c1.grown.heap r hr), fun hm => hr1 ?_⟩
    have hm : r ∈ s'.free := hm
    rw [t2.free] at hm
    exact List.mem_of_mem_drop hm

/-- C55: if the text cannot be read, the result is the pair of the empty list and the number of the error. -/
theorem C55_read_unreadable_partial (cfg : Reader.Config) (er : DlError) (rs' : Reader.RState) (l : Lisp) (base : VM)
    (p : Option Ref) (off : Int) (len : Nat) (hg : Good (pushed base (.string p off len)))
    (hr : Reader.read cfg (text base (.string p off len)) 0 l.reader = .err er rs') (hfree : 3 ≤ base.free.length) :
    ∃ vm' o, read cfg l (pushed (pushed base (.string p off len)) (.bool 0)) = ({ l with reader := rs' }, .ok () vm') ∧
      vm'.stack = base.stack ++ [o] ∧ ReadResult l.symbols vm' o (.expression []) (errorNumber er) ∧ errorNumber er ≠ 0 ∧
      Good vm' ∧ (∀ r, r ∉ base.free → vm'.heap[r]? = base.heap[r]? ∧ r ∉ vm'.free) := by
  have hbase : Good base := good_popped hg
  obtain ⟨c, s', e2, g2, r2, t2, p2⟩ := pushResult_eq (o := .list none) (status := errorNumber er) hbase trivial
    (show ValueOk base (.integer (errorNumber er)) by cases er <;> exact ⟨by decide, by decide⟩) hfree
  refine ⟨pushed s' (.list (some c)), .list (some c), ?_, ?_, ⟨c, .list none, rfl, isPair_heap p2 rfl, .nil⟩, by cases er <;> decide, g2, ?_⟩
  · unfold Callbacks.read
    rw [readArguments_ok hg]
    dsimp only
    unfold readText
    rw [hr]
    dsimp only
    rw [e2]
  · show s'.stack ++ _ = _
    rw [r2.stack]
  · intro r hr
    refine ⟨t2.heap r hr, fun hm => hr ?_⟩
    have hm : r ∈ s'.free := hm
    rw [t2.free] at hm
    exact List.mem_of_mem_drop hm

/-- C55: `read` refuses a second argument that is not a boolean. -/
theorem C55_read_refuses_flag (cfg : Reader.Config) (l : Lisp) (base : VM) (o : Obj) (h : ∀ b, o ≠ .bool b) :
    read cfg l (pushed base o) = (l, .err .invalidValue (pushed base o)) := by
  have : readArguments (pushed base o) = .err .invalidValue (pushed base o) := by
    unfold readArguments
    rw [M.bind_ok (typeOf_pushed _ _), if_neg]
    · rfl
    · intro e
      cases o <;> first | exact h _ rfl | cases e
  unfold Callbacks.read
  rw [this]

/-- C55: without parenthesis inference `read` refuses true, which asks for it. -/
theorem C55_read_refuses_inference (cfg : Reader.Config) (l : Lisp) (base : VM) (b : UInt8) (h : b ≠ 0) :
    read cfg l (pushed base (.bool b)) = (l, .err .invalidValue base) := by
  have : readArguments (pushed base (.bool b)) = .err .invalidValue base := by
    unfold readArguments
    rw [M.bind_ok (typeOf_pushed _ _), if_pos (show (Obj.bool b).typeNumber = 1 from rfl)]
    have h1 : apiCopyBoolean (pushed base (.bool b)) = .ok b (pushed base (.bool b)) := by
      unfold apiCopyBoolean
      rw [M.bind_ok (getTop_some (operand_pushed _ _))]
      rfl
    rw [M.bind_ok h1, M.bind_ok (pop_pushed _ _), if_neg h]
    rfl
  unfold Callbacks.read
  rw [this]

/-- C55: `read` refuses a first argument that is not a text. -/
theorem C55_read_refuses_text (cfg : Reader.Config) (l : Lisp) (base : VM) (o : Obj)
    (h : ∀ p off len, o ≠ .string p off len) :
    read cfg l (pushed (pushed base o) (.bool 0)) = (l, .err .invalidValue (pushed base o)) := by
  have : readArguments (pushed (pushed base o) (.bool 0)) = .err .invalidValue (pushed base o) := by
    unfold readArguments
    rw [M.bind_ok (typeOf_pushed _ _), if_pos (show (Obj.bool 0).typeNumber = 1 from rfl)]
    have h1 : apiCopyBoolean (pushed (pushed base o) (.bool 0)) = .ok 0 (pushed (pushed base o) (.bool 0)) := by
      unfold apiCopyBoolean
      rw [M.bind_ok (getTop_some (operand_pushed _ _))]
      rfl
    have h2 : unchecked apiTypeOf (pushed base o) = .ok o.typeNumber (pushed base o) := by
      unfold unchecked
      rw [typeOf_pushed]
    rw [M.bind_ok h1, M.bind_ok (pop_pushed _ _), if_pos rfl, M.bind_ok h2, if_neg]
    · rfl
    · intro e
      cases o <;> first | exact h _ _ _ rfl | cases e
  unfold Callbacks.read
  rw [this]

/-- C55 is false of the code if only the boolean is on the stack: what is not there is looked at (undefined
behaviour). -/
theorem C55_read_without_text (cfg : Reader.Config) (l : Lisp) (base : VM) (h : base.stack = []) :
    (read cfg l (pushed base (.bool 0))).2 = .ub := by
  have : readArguments (pushed base (.bool 0)) = .ub := by
    unfold readArguments
    rw [M.bind_ok (typeOf_pushed _ _), if_pos (show (Obj.bool 0).typeNumber = 1 from rfl)]
    have h1 : apiCopyBoolean (pushed base (.bool 0)) = .ok 0 (pushed base (.bool 0)) := by
      unfold apiCopyBoolean
      rw [M.bind_ok (getTop_some (operand_pushed _ _))]
      rfl
    have h2 : unchecked apiTypeOf base = .ub := by
      unfold unchecked
      rw [typeOf_empty h]
    rw [M.bind_ok h1, M.bind_ok (pop_pushed _ _), if_pos rfl, M.bind_run, h2]
  unfold Callbacks.read
  rw [this]

/-! ### Examples -/

/-- A machine with `n` free cells, and the text `(a "b") ` and false on the stack. -/
def readVM (n : Nat) : VM :=
  { heap := List.replicate n .none ++ [.internalString (some [40, 97, 32, 34, 98, 34, 41]) 7], free := List.range n,
    stack := [.string (some n) 0 7, .bool 0], upStack := [none, none] }

/-- C55 is false of the code if memory is short: `read` collects garbage while nothing refers to the object it has made,
and its cells are used again.  Here the object in the result is a list that is its own first pair. -/
theorem C55_read_collected : ∃ l' vm', read Reader.exampleConfig newLisp (readVM 7) = (l', .ok () vm') ∧
    vm'.stack = [.list (some 6)] ∧ vm'.heap[6]? = some (.cons (some 5) (some 7)) ∧ vm'.heap[5]? = some (.list (some 5)) := by
  have h : (match (read Reader.exampleConfig newLisp (readVM 7)).2 with
    | .ok () vm' => decide (vm'.stack = [.list (some 6)] ∧ vm'.heap[6]? = some (.cons (some 5) (some 7)) ∧
        vm'.heap[5]? = some (.list (some 5)))
    | _ => false) = true := by decide +kernel
  generalize read Reader.exampleConfig newLisp (readVM 7) = x at h
  obtain ⟨l', out⟩ := x
  cases out with
  | ok u vm' => exact ⟨l', vm', rfl, of_decide_eq_true h⟩
  | err e vm' => cases h
  | ub => cases h
  | diverge => cases h

/-- A machine in which the text `(a "b")` was made. -/
def textVM : VM :=
  { heap := List.replicate 11 .none ++ [.internalString (some [40, 97, 32, 34, 98, 34, 41]) 7],
    free := (List.range 11).reverse, stack := [], nextSerial := 1 }

theorem textVM_good : Good (pushed textVM (.string (some 11) 0 7)) := by
  have h := post_newString (U := False) (E := fun _ _ => True) (init_good 12 (by decide))
    (bytes := [40, 97, 32, 34, 98, 34, 41]) (by decide) (fun _ _ _ => trivial)
  have e : newString [40, 97, 32, 34, 98, 34, 41] (init 12) = .ok (.string (some 11) 0 7) textVM := by decide +kernel
  rw [e] at h
  have h : NewString (init 12) textVM (.string (some 11) 0 7) [40, 97, 32, 34, 98, 34, 41] := h
  exact h.good.pushed h.ok

/-- A machine in which a text that is a generated name was made. -/
def nameVM : VM :=
  { heap := List.replicate 11 .none ++ [.internalString (some (Tables.gensym 0).1) 17],
    free := (List.range 11).reverse, stack := [], nextSerial := 1 }

example : Good (pushed nameVM (.string (some 11) 0 17)) ∧ text nameVM (.string (some 11) 0 17) = (Tables.gensym 0).1 := by
  have h := post_newString (U := False) (E := fun _ _ => True) (init_good 12 (by decide))
    (bytes := (Tables.gensym 0).1) (by decide) (fun _ _ _ => trivial)
  have e : newString (Tables.gensym 0).1 (init 12) = .ok (.string (some 11) 0 17) nameVM := by decide +kernel
  rw [e] at h
  have h : NewString (init 12) nameVM (.string (some 11) 0 17) (Tables.gensym 0).1 := h
  exact ⟨h.good.pushed h.ok, h.text⟩

/-- The tree of the text. -/
def textTree : Reader.Ast := .expression [.identifier [97], .string [98]]

example : text textVM (.string (some 11) 0 7) = Spec.print (DlString.fromPtrdiff []) Spec.escape textTree := by
  decide +kernel
example : cellsFor (Reader.postprocess textTree) + 3 ≤ textVM.free.length ∧
    height textTree < Reader.exampleConfig.maxDepth :=
  ⟨by decide +kernel, by decide +kernel⟩

/-- What `read` does with it: the pair of `(a "b")` and zero. -/
example : (match read Reader.exampleConfig newLisp (pushed (pushed textVM (.string (some 11) 0 7)) (.bool 0)) with
    | (l, .ok () vm) => l.symbols.array = [[97]] ∧ vm.stack = [.list (some 4)] ∧ vm.heap[4]? = some (.cons (some 2) (some 3)) ∧
        vm.heap[2]? = some (.list (some 5)) ∧ vm.heap[3]? = some (.integer 0) ∧ AstObj.objectToAST vm true 9 (.list (some 5)) = .ok textTree
    | _ => false) = true := by decide +kernel

/-- What `intern` does with it: a symbol with that name. -/
example : (match intern newLisp (pushed textVM (.string (some 11) 0 7)) with
    | (l, .ok () vm) => l.symbols.array = [[40, 97, 32, 34, 98, 34, 41]] ∧ vm.stack = [.symbol 0 (some 10)]
    | _ => false) = true := by decide +kernel

/-- A text that cannot be read: `) `. -/
example : (match Reader.read Reader.exampleConfig [41, 32] 0 {} with | .err .. => true | _ => false) = true := by
  decide +kernel

/-- A program names `a` and calls `gensym` twice. -/
example (vm : VM) : ∃ l, History 2 newLisp l ∧ l.symbols.array = [[97], (Tables.gensym 0).1, (Tables.gensym 1).1] := by
  refine ⟨_, .snoc (.snoc (.snoc (.nil _) (.named _ [97] (by decide))) (.gensym _ vm)) (.gensym _ vm), ?_⟩
  simp only [gensym, newLisp, Tables.gensym]
  decide +kernel

#print axioms C55_gensym
#print axioms C55_generated_is_new_partial
#print axioms C55_intern_partial
#print axioms C55_intern_refuses
#print axioms C55_intern_error_lost
#print axioms C55_generated_name_interned
#print axioms C55_read_partial
#print axioms C55_read_unreadable_partial
#print axioms C55_read_refuses_flag
#print axioms C55_read_refuses_inference
#print axioms C55_read_refuses_text
#print axioms C55_read_without_text
#print axioms C55_read_collected

end DuckLisp.Props
