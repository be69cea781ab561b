import Verif.Proof.Compile.Level
import Verif.Proof.Compile.Load
import Verif.Proof.VM.Nested

/-!
# Compiled code is tidy
-/

namespace DuckLisp.Compile

open DuckLisp DuckLisp.VM DuckLisp.Asm DuckLisp.Spec DuckLisp.Props
open DuckLisp.Reader (Ast)

/-- Instructions that can be counted and do not assign to captured variables. -/
def Humble : Instr → Prop
  | .call _ | .ccall _ | .setUpvalue .. => False
  | _ => True

theorem Humble.countable {m : Instr} (h : Humble m) : Countable m := by
  cases m <;> first | trivial | exact h.elim

/-- The heights before and after an instruction of the machine. -/
structure Fine1 (h : Nat) (m : Instr) (h' : Nat) : Prop where
  humble : Humble m
  enough : atLeast m ≤ h
  leaves : ∀ n, leavesBehind m = some n → h = n + 1
  after : GoesOn m → h' = heightAfter h m

/-- The heights before and after instruction `k` of a program. -/
structure CountedAt (strip : Bool) (program : List Ins) (hs : Nat → Nat) (k : Nat) (i : Ins) : Prop where
  silent : (i = .internalNop ∨ ∃ l, i = .label l) → hs (k + 1) = hs k
  plain : ∀ m, meaning strip i = some m → Fine1 (hs k) m (hs (k + 1))
  land : ∀ l w d m j, labelOf i = some l → InFormat i → addressed w d i = some m → program[j]? = some (.label l) →
    Fine1 (hs k) m (hs (k + 1)) ∧ hs j = heightAtLanding (hs k) m

theorem decode_nil (m : Instr) (piece rest : Bytes) (h : ∀ rest, decode (piece ++ rest) = some (m, rest)) : piece ≠ [] := by
  rintro rfl
  have := h []
  simp [decode] at this

/-- Code with such heights is tidy. -/
theorem tidy_of_counted {strip : Bool} {program : List Ins} {bytes : Bytes} {pieces : List Bytes}
    (hp : Pieces strip program bytes pieces) (hl : AllLand program pieces) (hd : LabelsDefined program)
    (hfmt : ∀ i ∈ program, InFormat i ∧ SmallWhereNeeded i) (hend : program.getLast? = some .halt) (hs : Nat → Nat)
    (h0 : hs 0 = 0) (hc : ∀ k i, program[k]? = some i → CountedAt strip program hs k i) :
    Tidy bytes ∧ Unassigning bytes := by
  have hne : 0 < program.length := by
    cases program with
    | nil => cases hend
    | cons => simp
  -- the next instruction that has code
  have real : ∀ (d k : Nat), k + d + 1 = program.length → ∃ k' m i piece, program[k']? = some i ∧ pieces[k']? = some piece ∧
      offset pieces k = offset pieces k' ∧ hs k = hs k' ∧ (∀ rest, decode (piece ++ rest) = some (m, rest)) ∧
      Fine1 (hs k') m (hs (k' + 1)) ∧ (GoesOn m → i ≠ .halt) ∧ ∀ t, landing (offset pieces k') (offset pieces (k' + 1)) m = some t →
        ∃ j, j < program.length ∧ t = (offset pieces j : Nat) ∧ hs j = heightAtLanding (hs k') m := by
    intro d
    induction d with
    | zero =>
      intro k hk
      have hi : program[k]? = some .halt := by
        rw [List.getLast?_eq_getElem?] at hend
        rwa [show program.length - 1 = k by omega] at hend
      have hk' : k < pieces.length := by rw [hp.length]; omega
      exact ⟨k, .halt, .halt, pieces[k], hi, List.getElem?_eq_getElem hk', rfl, rfl,
        hp.plain k _ _ _ hi (List.getElem?_eq_getElem hk') rfl trivial trivial, (hc k _ hi).plain _ rfl, fun h => h.elim,
        fun t ht => (nomatch ht)⟩
    | succ d ih =>
      intro k hk
      have hk' : k < pieces.length := by rw [hp.length]; omega
      have hk2 : k < program.length := by omega
      have hi : program[k]? = some program[k] := List.getElem?_eq_getElem hk2
      have hpi : pieces[k]? = some pieces[k] := List.getElem?_eq_getElem hk'
      obtain ⟨hf1, hf2⟩ := hfmt program[k] (List.getElem_mem hk2)
      have hct := hc k _ hi
      generalize program[k] = i at *
      generalize pieces[k] = piece at *
      cases hm : meaning strip i with
      | some m =>
        refine ⟨k, m, i, piece, hi, hpi, rfl, rfl, hp.plain k _ _ _ hi hpi hm hf1 hf2, hct.plain _ hm, (meaning_lands hm 0 0).2, fun t ht => ?_⟩
        rw [(meaning_lands hm _ _).1] at ht
        cases ht
      | none =>
        cases hlab : labelOf i with
        | some l =>
          obtain ⟨j, hj⟩ := List.getElem?_of_mem (hd k i l hi hlab)
          obtain ⟨p, w, dd, m, g1, g2, g3, g4⟩ := hl k i l j hi hlab hf1 hj
          rw [hpi] at g1
          cases g1
          obtain ⟨k1, k2⟩ := hct.land l w dd m j hlab hf1 g2 hj
          refine ⟨k, m, i, piece, hi, hpi, rfl, rfl, g3, k1, fun _ h => ?_, fun t ht => ?_⟩
          · subst h; cases hlab
          · rw [g4] at ht
            cases ht
            exact ⟨j, (List.getElem?_eq_some_iff.1 hj).1, rfl, k2⟩
        | none =>
          have hsil : i = .internalNop ∨ ∃ l, i = .label l := by
            cases i <;> first | exact .inl rfl | exact .inr ⟨_, rfl⟩ | (cases hlab; done) | (cases hm; done) | (cases strip <;> cases hm; done)
          have hempty : piece = [] := hp.none k i piece hi hpi hsil
          obtain ⟨k', m, i', piece', h1, h2, h3, h4, h5⟩ := ih (k + 1) (by omega)
          refine ⟨k', m, i', piece', h1, h2, ?_, ?_, h5⟩
          · rw [← h3]
            have := pos_succ hpi
            rw [hempty] at this
            exact this.symm
          · rw [← h4]; exact (hct.silent hsil).symm
  have real' : ∀ k, k < program.length → ∃ k' m i piece, program[k']? = some i ∧ pieces[k']? = some piece ∧
      offset pieces k = offset pieces k' ∧ hs k = hs k' ∧ (∀ rest, decode (piece ++ rest) = some (m, rest)) ∧
      Fine1 (hs k') m (hs (k' + 1)) ∧ (GoesOn m → i ≠ .halt) ∧ ∀ t, landing (offset pieces k') (offset pieces (k' + 1)) m = some t →
        ∃ j, j < program.length ∧ t = (offset pieces j : Nat) ∧ hs j = heightAtLanding (hs k') m :=
    fun k hk => real (program.length - k - 1) k (by omega)
  have key : ∀ p h, HeightAt bytes p h → ∃ k, k < program.length ∧ p = (offset pieces k : Nat) ∧ h = hs k := by
    intro p h hh
    induction hh with
    | start => exact ⟨0, hne, by simp [offset], h0.symm⟩
    | @next p h i q h' hi hg ih =>
      obtain ⟨k, hk, rfl, rfl⟩ := ih
      obtain ⟨k', m, i', piece, h1, h2, h3, h4, h5, h6, h7, h8⟩ := real' k hk
      have hcd := codeAt_piece h2 h5
      rw [← h3, hp.flatten] at hcd
      obtain ⟨rfl, rfl⟩ := codeAt_unique hi hcd
      refine ⟨k' + 1, ?_, rfl, by rw [h4, h6.after hg]⟩
      have hlt := (List.getElem?_eq_some_iff.1 h1).1
      by_cases hk1 : k' + 1 = program.length
      · have hh : i' = .halt := by
          rw [List.getLast?_eq_getElem?, show program.length - 1 = k' by omega, h1] at hend
          exact Option.some.inj hend
        exact absurd hh (h7 hg)
      · omega
    | @land p h i q t h' hi ht ih =>
      obtain ⟨k, hk, rfl, rfl⟩ := ih
      obtain ⟨k', m, i', piece, h1, h2, h3, h4, h5, h6, h7, h8⟩ := real' k hk
      have hcd := codeAt_piece h2 h5
      rw [← h3, hp.flatten] at hcd
      obtain ⟨rfl, rfl⟩ := codeAt_unique hi hcd
      rw [h3] at ht
      obtain ⟨j, g1, g2, g3⟩ := h8 t ht
      exact ⟨j, g1, g2, by rw [g3, h4]⟩
  refine ⟨⟨fun p h hh => ?_, fun p h h' hh hh' => ?_⟩, fun p h j a q hh hcd' => ?_⟩
  · obtain ⟨k, hk, rfl, rfl⟩ := key _ _ hh
    obtain ⟨k', m, i', piece, h1, h2, h3, h4, h5, h6, -⟩ := real' k hk
    have hcd := codeAt_piece h2 h5
    rw [← h3, hp.flatten] at hcd
    rw [h4]
    exact ⟨m, _, hcd, h6.humble.countable, h6.enough, h6.leaves⟩
  · obtain ⟨k, hk, rfl, rfl⟩ := key _ _ hh
    obtain ⟨k2, hk2, he, rfl⟩ := key _ _ hh'
    obtain ⟨k', m, i', piece, h1, h2, h3, h4, h5, -⟩ := real' k hk
    obtain ⟨k2', m2, i2', piece2, g1, g2, g3, g4, g5, -⟩ := real' k2 hk2
    have heq : offset pieces k' = offset pieces k2' := by omega
    have hinj : ∀ a b pa, pieces[a]? = some pa → pa ≠ [] → a < b → offset pieces a < offset pieces b := by
      intro a b pa ha hne hlt
      have e1 : pos pieces (a + 1) = pos pieces a + pa.length := pos_succ ha
      have e2 : pos pieces (a + 1) ≤ pos pieces b := pos_mono _ hlt
      have : 0 < pa.length := by cases pa <;> simp at hne ⊢
      show pos pieces a < pos pieces b
      omega
    have : k' = k2' := by
      rcases Nat.lt_trichotomy k' k2' with h | h | h
      · have := hinj _ _ _ h2 (decode_nil m _ [] h5) h; omega
      · exact h
      · have := hinj _ _ _ g2 (decode_nil m2 _ [] g5) h; omega
    rw [h4, g4, this]
  · obtain ⟨k, hk, rfl, rfl⟩ := key _ _ hh
    obtain ⟨k', m, i', piece, h1, h2, h3, h4, h5, h6, -⟩ := real' k hk
    have hcd := codeAt_piece h2 h5
    rw [← h3, hp.flatten] at hcd
    obtain ⟨rfl, -⟩ := codeAt_unique hcd' hcd
    exact h6.humble

theorem Level.heights {ld : Nat → Nat × Nat} {x y : Nat × Nat} {code : List Ins} (h : Level ld x code y) :
    ∃ ds : Nat → Nat × Nat, ds 0 = x ∧ (∀ j, j ≤ code.length → (ds j).1 ≤ (ds j).2) ∧
      ∀ j i, code[j]? = some i → FineL ld i (ds j) (ds (j + 1)) := by
  induction h with
  | @nil c d hd => exact ⟨fun _ => (c, d), rfl, fun _ _ => hd, fun j i h => by simp at h⟩
  | @cons i c d x x' code hd hf _ ih =>
    obtain ⟨ds, h1, h3, h4⟩ := ih
    refine ⟨fun n => match n with
      | 0 => (c, d)
      | n + 1 => ds n, rfl, fun j hj => ?_, fun j k hk => ?_⟩
    · cases j with
      | zero => exact hd
      | succ j => exact h3 j (by simpa using hj)
    · cases j with
      | zero =>
        cases hk
        show FineL ld i (c, d) (ds 0)
        rw [h1]
        exact hf
      | succ j => exact h4 j k hk

theorem atLeast_places {strip : Bool} {i : Ins} {m : Instr} {h : Nat} (hm : meaning strip i = some m) (hp : PushesResult m)
    (ha : ∀ a ∈ places i, 1 ≤ a ∧ a ≤ (h : Int)) : atLeast m ≤ h := by
  cases i
  case pushSymbol id len name => cases strip <;> (cases hm; exact Nat.zero_le _)
  case return_ n =>
    simp only [meaning, Option.some.injEq] at hm
    subst hm
    split at hp <;> exact hp.elim
  case vector n as =>
    cases hm
    simp only [places] at ha
    simp only [atLeast]
    clear hp
    induction as with
    | nil => simp
    | cons a as ih =>
      simp only [List.map_cons, List.foldr_cons]
      have := ha a (by simp)
      have := ih fun b hb => ha b (by simp [hb])
      omega
  all_goals first
    | (cases hm; done)
    | (cases hm; exact hp.elim)
    | (cases hm; exact Nat.zero_le _)
    | (cases hm; simp [places] at ha; simp only [atLeast]; omega)

theorem fine1_pushes {m : Instr} {h : Nat} (hp : PushesResult m) (ha : atLeast m ≤ h) : Fine1 h m (h + 1) := by
  refine ⟨?_, ha, ?_, ?_⟩ <;> cases m <;> first | exact hp.elim | trivial | (intro _; rfl) | (intro _ h; cases h; done)

/-- From heights of the compiler to those of the machine. -/
theorem counted_of_level {strip : Bool} {program : List Ins} {ld : Nat → Nat × Nat} {ds : Nat → Nat × Nat}
    (hle : ∀ j, j ≤ program.length → (ds j).1 ≤ (ds j).2)
    (hf : ∀ j i, program[j]? = some i → FineL ld i (ds j) (ds (j + 1))) :
    ∀ k i, program[k]? = some i → CountedAt strip program (fun k => (ds k).2 - (ds k).1) k i := by
  intro k i hi
  have hk : k < program.length := (List.getElem?_eq_some_iff.1 hi).1
  have hlab : ∀ j l, program[j]? = some (.label l) → ds j = ld l := by
    intro j l hj
    have := hf _ _ hj
    generalize ds j = x, ds (j + 1) = y at this
    cases this with
    | label h => exact h.symm
    | plain h => obtain ⟨_, h, _⟩ := h false; cases h
  have h0 := hle k (by omega)
  have h1 := hle (k + 1) (by omega)
  have hfk := hf k i hi
  generalize hx : ds k = x at *
  generalize hy : ds (k + 1) = y at *
  have mk : ∀ {a b : Nat}, x.2 - x.1 = a → y.2 - y.1 = b →
      ((i = .internalNop ∨ ∃ l, i = .label l) → b = a) → (∀ m, meaning strip i = some m → Fine1 a m b) →
      (∀ (l : Nat) (w : Width) (d : Int) (m : Instr) (j : Nat), labelOf i = some l → InFormat i → addressed w d i = some m →
        program[j]? = some (.label l) → Fine1 a m b ∧ (ld l).2 - (ld l).1 = heightAtLanding a m) →
      CountedAt strip program (fun k => (ds k).2 - (ds k).1) k i := by
    intro a b ha hb g1 g2 g3
    refine ⟨?_, ?_, ?_⟩
    · show _ → (ds (k + 1)).2 - (ds (k + 1)).1 = (ds k).2 - (ds k).1
      rw [hx, hy, ha, hb]; exact g1
    · show ∀ m, _ → Fine1 ((ds k).2 - (ds k).1) m ((ds (k + 1)).2 - (ds (k + 1)).1)
      rw [hx, hy, ha, hb]; exact g2
    · intro l w d m j e1 e2 e3 e4
      show Fine1 ((ds k).2 - (ds k).1) m ((ds (k + 1)).2 - (ds (k + 1)).1) ∧ (ds j).2 - (ds j).1 = heightAtLanding ((ds k).2 - (ds k).1) m
      rw [hx, hy, ha, hb, hlab j l e4]
      exact g3 l w d m j e1 e2 e3 e4
  cases hfk with
  | label h => exact mk rfl rfl (fun _ => rfl) (fun m h => nomatch h) fun _ _ _ _ _ h => nomatch h
  | gone => exact mk rfl rfl (fun _ => rfl) (fun m h => nomatch h) fun _ _ _ _ _ h => nomatch h
  | halt =>
    refine mk rfl rfl (fun h => ?_) (fun m h => ?_) fun _ _ _ _ _ h => nomatch h
    · rcases h with h | ⟨_, h⟩ <;> cases h
    · cases h
      exact ⟨trivial, Nat.zero_le _, fun _ h => (nomatch h), fun h => h.elim⟩
  | jump _ h =>
    refine mk rfl rfl (fun h => ?_) (fun m h => nomatch h) fun l w d m j e1 e2 e3 e4 => ?_
    · rcases h with h | ⟨_, h⟩ <;> cases h
    · cases e1
      cases e3
      refine ⟨⟨trivial, Nat.zero_le _, fun _ h => (nomatch h), fun h => h.elim⟩, ?_⟩
      rw [h]
      rfl
  | @brnz l c d n g1 g2 g3 =>
    refine mk rfl rfl (fun h => ?_) (fun m h => nomatch h) fun l w d' m j e1 e2 e3 e4 => ?_
    · rcases h with h | ⟨_, h⟩ <;> cases h
    · cases e1
      cases e3
      dsimp only at *
      refine ⟨⟨trivial, ?_, fun _ h => (nomatch h), fun _ => ?_⟩, ?_⟩
      · simp only [atLeast, Int.toNat_natCast]; omega
      · simp only [heightAfter, Int.toNat_natCast]; omega
      · rw [g3]
        simp only [heightAtLanding, heightAfter, Int.toNat_natCast]
        omega
  | @closure l c d c1 n variadic g =>
    refine mk rfl rfl (fun h => ?_) (fun m h => nomatch h) fun l w d' m j e1 e2 e3 e4 => ?_
    · rcases h with h | ⟨_, h⟩ <;> cases h
    · cases e1
      cases e3
      obtain ⟨⟨-, hn⟩, -⟩ := e2
      dsimp only at *
      refine ⟨⟨trivial, Nat.zero_le _, fun _ h => (nomatch h), fun _ => ?_⟩, ?_⟩
      · simp only [heightAfter]; omega
      · rw [g]
        simp only [heightAtLanding, Int.toNat_natCast, UInt8.toNat_ofNat']
        rw [Nat.mod_eq_of_lt (by omega)]
        omega
  | @pop c d n g =>
    refine mk rfl rfl (fun h => ?_) (fun m h => ?_) fun _ _ _ _ _ h => nomatch h
    · rcases h with h | ⟨_, h⟩ <;> cases h
    · cases h
      dsimp only at *
      refine ⟨trivial, ?_, fun _ h => (nomatch h), fun _ => ?_⟩
      · simp only [atLeast, Int.toNat_natCast]; omega
      · simp only [heightAfter, Int.toNat_natCast]; omega
  | @move c d a k g1 g2 g3 g4 =>
    refine mk rfl rfl (fun h => ?_) (fun m h => ?_) fun _ _ _ _ _ h => nomatch h
    · rcases h with h | ⟨_, h⟩ <;> cases h
    · cases h
      dsimp only at *
      refine ⟨trivial, ?_, fun _ h => (nomatch h), fun _ => rfl⟩
      simp only [atLeast, Int.toNat_natCast]; omega
  | @set c d key a g1 g2 =>
    refine mk rfl rfl (fun h => ?_) (fun m h => ?_) fun _ _ _ _ _ h => nomatch h
    · rcases h with h | ⟨_, h⟩ <;> cases h
    · cases h
      dsimp only at *
      refine ⟨trivial, ?_, fun _ h => (nomatch h), fun _ => rfl⟩
      simp only [atLeast, Int.toNat_natCast]; omega
  | @funcall c d a n g1 g2 g3 =>
    refine mk rfl rfl (fun h => ?_) (fun m h => ?_) fun _ _ _ _ _ h => nomatch h
    · rcases h with h | ⟨_, h⟩ <;> cases h
    · cases h
      dsimp only at *
      refine ⟨trivial, ?_, fun _ h => (nomatch h), fun _ => ?_⟩
      · simp only [atLeast, Int.toNat_natCast]; omega
      · simp only [heightAfter, Int.toNat_natCast]; omega
  | @apply c d a n g1 g2 g3 =>
    refine mk rfl rfl (fun h => ?_) (fun m h => ?_) fun _ _ _ _ _ h => nomatch h
    · rcases h with h | ⟨_, h⟩ <;> cases h
    · cases h
      dsimp only at *
      refine ⟨trivial, ?_, fun _ h => (nomatch h), fun _ => ?_⟩
      · simp only [atLeast, Int.toNat_natCast]; omega
      · simp only [heightAfter, Int.toNat_natCast]; omega
  | @return_ c d n _ g =>
    refine mk rfl rfl (fun h => ?_) (fun m h => ?_) fun _ _ _ _ _ h => nomatch h
    · rcases h with h | ⟨_, h⟩ <;> cases h
    · simp only [meaning, Option.some.injEq] at h
      dsimp only at *
      split at h <;> subst h
      · refine ⟨trivial, ?_, fun k h => ?_, fun h => h.elim⟩
        · simp only [atLeast]; omega
        · cases h; omega
      · refine ⟨trivial, ?_, fun k h => ?_, fun h => h.elim⟩
        · simp only [atLeast, Int.toNat_natCast]; omega
        · simp only [leavesBehind, Int.toNat_natCast, Option.some.injEq] at h; omega
  | @plain _ c d g1 g2 =>
    obtain ⟨m0, q1, q2⟩ := g1 strip
    dsimp only at *
    have hno : ∀ l, labelOf i ≠ some l := by
      intro l hl
      cases i <;> first | (cases q1; done) | (cases hl; done)
    refine mk rfl (b := d - c + 1) (by omega) (fun h => ?_) (fun m h => ?_) fun l _ _ _ _ h => absurd h (hno l)
    · rcases h with rfl | ⟨_, rfl⟩ <;> cases q1
    · rw [q1] at h
      cases h
      exact fine1_pushes q2 (atLeast_places q1 q2 fun a ha => by have := g2 a ha; omega)

/-- The optimisation keeps this. -/
theorem peephole_level {ld : Nat → Nat × Nat} : ∀ (n : Nat) (p : List Ins), p.length = n → FewPops p → ∀ {x y : Nat × Nat},
    Level ld x p y → Level ld x (peephole p) y := by
  intro n
  induction n with
  | zero =>
    intro p hp _ x y h
    rw [List.length_eq_zero_iff] at hp
    subst hp
    simpa [peephole] using h
  | succ n ih =>
    intro p hp hf x y h
    match p, hp with
    | [a], _ => simpa [peephole] using h
    | a :: b :: rest, hp =>
      have pa : ∀ n, a = .pop n → 1 ≤ n := fun n h => hf.1 n (by simp [h])
      have pb : ∀ n, b = .pop n → 1 ≤ n := fun n h => hf.1 n (by simp [h])
      have hrest := pops_nonneg (is := rest) fun n hn => hf.1 n (by simp [hn])
      have hsum := hf.2
      simp only [List.map_cons, List.sum_cons] at hsum
      have pa0 : 0 ≤ pops a := by
        cases a <;> simp only [pops, Int.le_refl]
        have := pa _ rfl
        omega
      have pb0 : 0 ≤ pops b := by
        cases b <;> simp only [pops, Int.le_refl]
        have := pb _ rfl
        omega
      obtain ⟨f1, f2⟩ := step_pops pa pb (by omega)
      have hf' : FewPops ((peepholeStep a b).2 :: rest) := by
        refine ⟨fun n hn => ?_, ?_⟩
        · rcases List.mem_cons.1 hn with hn | hn
          · exact f1 n hn.symm
          · exact hf.1 n (by simp [hn])
        · simp only [List.map_cons, List.sum_cons]
          omega
      rw [peephole]
      cases h with
      | @cons _ c d x1 _ _ hle ha htail =>
      have done : ∀ {x1 : Nat × Nat}, FineL ld (peepholeStep a b).1 (c, d) x1 → Level ld x1 ((peepholeStep a b).2 :: rest) y →
          Level ld (c, d) ((peepholeStep a b).1 :: peephole ((peepholeStep a b).2 :: rest)) y :=
        fun g1 g2 => .cons hle g1 (ih _ (by simp at hp ⊢; omega) hf' g2)
      by_cases hb : ∃ n, b = .pop n
      · obtain ⟨nb, rfl⟩ := hb
        have hnb := pb _ rfl
        cases htail with
        | @cons _ c1 d1 x2 _ _ hle1 hb hr =>
        have hbx : ∃ n : Nat, nb = (n : Int) ∧ c1 + n ≤ d1 ∧ x2 = (c1, d1 - n) := by
          cases hb with
          | pop h => exact ⟨_, rfl, h, rfl⟩
          | plain h => obtain ⟨m, h, h'⟩ := h false; cases h; exact h'.elim
        obtain ⟨nb, rfl, hnb1, rfl⟩ := hbx
        by_cases hpu : a.onlyPushes = true
        · have hstep : peepholeStep a (.pop nb) = (.internalNop, if (nb : Int) - 1 = 0 then .internalNop else .pop (nb - 1)) := by
            simp only [peepholeStep, hpu, if_true]
          have hax : c1 = c ∧ d1 = d + 1 := by
            cases ha with
            | plain _ _ => exact ⟨rfl, rfl⟩
            | closure _ => exact ⟨rfl, rfl⟩
            | _ => cases hpu
          obtain ⟨rfl, rfl⟩ := hax
          rw [hstep] at done ⊢
          refine done .gone (.cons hle ?_ hr)
          dsimp only
          split
          · rw [show d + 1 - nb = d by omega]
            exact .gone
          · have := FineL.pop (ld := ld) (c := c1) (d := d) (n := nb - 1) (by omega)
            rw [show d - (nb - 1) = d + 1 - nb by omega] at this
            rwa [show ((nb - 1 : Nat) : Int) = nb - 1 by omega] at this
        · by_cases hpa : ∃ m, a = .pop m
          · obtain ⟨na, rfl⟩ := hpa
            have hax : ∃ n : Nat, na = (n : Int) ∧ c + n ≤ d ∧ (c1, d1) = (c, d - n) := by
              cases ha with
              | pop h => exact ⟨_, rfl, h, rfl⟩
              | plain h => obtain ⟨m, h, h'⟩ := h false; cases h; exact h'.elim
            obtain ⟨na, rfl, hna1, he⟩ := hax
            cases he
            have hstep : peepholeStep (.pop na) (.pop nb) = (.internalNop, .pop (na + nb : Nat)) := by
              simp only [peepholeStep, Ins.onlyPushes, Bool.false_eq_true, if_false, toInt32, Prod.mk.injEq, Ins.pop.injEq, true_and]
              simp only [pops] at hsum
              omega
            rw [hstep] at done ⊢
            refine done .gone (.cons hle ?_ hr)
            have := FineL.pop (ld := ld) (c := c) (d := d) (n := na + nb) (by omega)
            rwa [show d - (na + nb) = d - na - nb by omega] at this
          · have hstep : peepholeStep a (.pop nb) = (a, .pop nb) := by
              simp only [peepholeStep, hpu, Bool.false_eq_true, if_false]
              cases a <;> first | rfl | exact absurd ⟨_, rfl⟩ hpa
            rw [hstep] at done ⊢
            exact done ha (.cons hle1 hb hr)
      · have hstep : peepholeStep a b = (a, b) := by
          cases b <;> first | rfl | exact absurd ⟨_, rfl⟩ hb
        rw [hstep] at done ⊢
        exact done ha htail

section

variable [Keys]

theorem whole_level {e : Ast} {code : List Ins} {L l : Nat} (hc : Code (.form e) [[]] 0 0 code [[]] L l)
    (hw : ¬ Crowded Keys.dialect e) :
    ∃ ld y, Level ld (0, 0) (code ++ epilogue L ++ [.halt]) y := by
  obtain ⟨ld, H⟩ := hc.level
  obtain ⟨F, -⟩ := H 0 (ld 0) (fun _ _ _ => rfl) (Nat.le_refl _) ⟨by simp [slots], by simp [slots]⟩ trivial
    (fun _ _ _ => Nat.zero_le _) hw
  have e1 : ∃ y, Level (ld 0) (0, L) (epilogue L) (0, y) := by
    unfold epilogue
    split
    · refine ⟨L - 1, .cons (by omega) (x := (0, L)) ?_ (.one (by omega) (by omega) (FineL.pop (n := 1) (by omega)))⟩
      have := FineL.move (ld := ld 0) (c := 0) (d := L) (a := 1) (k := L - 2) (by omega) (by omega) (by omega) (by omega)
      rwa [show (L : Int) - (L - 2 : Nat) = 2 by omega] at this
    · exact ⟨L, .nil (by omega)⟩
  obtain ⟨y, e1⟩ := e1
  exact ⟨ld 0, (0, y), (F.append e1).append (.one (by omega) (by omega) .halt)⟩

end

end DuckLisp.Compile
