import Verif.Proof.VM.StaysInstr
import Verif.Proof.VM.Variables
import Verif.Spec.Inside
import Verif.Props.Asm.Running
import Verif.Proof.Compile.Execute

/-!
# Control stays inside the code
-/

namespace DuckLisp.VM

open DuckLisp DuckLisp.Spec

/-! ### What is left after an instruction has been read -/

/-- What `m` leaves is the end of what it was given. -/
def Tails {α : Type} (m : Dec α) : Prop := ∀ bs a rest, m bs = some (a, rest) → ∃ p, bs = p ++ rest

theorem tails_pure {α : Type} (a : α) : Tails (pure a : Dec α) := by
  intro bs b rest h
  cases h
  exact ⟨[], rfl⟩

theorem tails_bind {α β : Type} {m : Dec α} {f : α → Dec β} (hm : Tails m) (hf : ∀ a, Tails (f a)) :
    Tails (m >>= f) := by
  intro bs b rest h
  obtain ⟨a, mid, h1, h2⟩ := dec_bind h
  obtain ⟨p, rfl⟩ := hm _ _ _ h1
  obtain ⟨q, rfl⟩ := hf _ _ _ _ h2
  exact ⟨p ++ q, by simp⟩

theorem tails_byte : Tails Dec.byte := by
  intro bs a rest h
  cases bs with
  | nil => cases h
  | cons b bs => cases h; exact ⟨[b], rfl⟩

theorem tails_be (n : Nat) : ∀ acc, Tails (Dec.be acc n) := by
  induction n with
  | zero => intro acc bs a rest h; cases h; exact ⟨[], rfl⟩
  | succ n ih =>
    intro acc bs a rest h
    cases bs with
    | nil => cases h
    | cons b bs =>
      obtain ⟨p, rfl⟩ := ih _ _ _ _ h
      exact ⟨b :: p, rfl⟩

theorem tails_operand (w : Width) : Tails (Dec.operand w) := tails_be _ _

theorem tails_take (n : Nat) : Tails (Dec.take n) := by
  intro bs a rest h
  unfold Dec.take at h
  split at h
  · cases h
    exact ⟨bs.take n, (List.take_append_drop n bs).symm⟩
  · cases h

theorem tails_operands (w : Width) (n : Nat) : Tails (Dec.operands w n) := by
  induction n with
  | zero => intro bs a rest h; cases h; exact ⟨[], rfl⟩
  | succ n ih =>
    intro bs a rest h
    simp only [Dec.operands] at h
    split at h
    · rename_i h1
      split at h
      · rename_i h2
        cases h
        obtain ⟨p, rfl⟩ := tails_operand w _ _ _ h1
        obtain ⟨q, rfl⟩ := ih _ _ _ h2
        exact ⟨p ++ q, by simp⟩
      · cases h
    · cases h

theorem tails_args (o : Opc) (w : Width) : Tails (decodeArgs o w) := by
  cases o
  all_goals
    simp only [decodeArgs, decodeArgs.two, decodeArgs.three, decodeArgs.closure]
    repeat' first
      | exact tails_pure _
      | exact tails_byte
      | exact tails_operand _
      | exact tails_be _ _
      | exact tails_take _
      | exact tails_operands _ _
      | refine tails_bind ?_ (fun _ => ?_)
      | split

theorem decode_tails {bs rest : Bytes} {i : Instr} (h : decode bs = some (i, rest)) :
    ∃ p, p ≠ [] ∧ bs = p ++ rest := by
  unfold decode at h
  split at h
  · cases h
  · rename_i op bs'
    split at h
    · obtain ⟨p, rfl⟩ := tails_args _ _ _ _ _ h
      exact ⟨op :: p, by simp, rfl⟩
    · cases h
      exact ⟨[op], by simp, rfl⟩

theorem codeAt_of_decode {code rest : Bytes} {p : Int} {i : Instr} (h3 : 0 ≤ p) (h4 : p.toNat ≤ code.length)
    (h5 : decode (code.drop p.toNat) = some (i, rest)) :
    CodeAt code p i (p + ((code.drop p.toNat).length - rest.length : Nat)) := by
  obtain ⟨piece, -, he⟩ := decode_tails h5
  refine ⟨code.take p.toNat, piece, rest, ?_, ?_, ?_, he ▸ h5⟩
  · rw [List.append_assoc, ← he, List.take_append_drop]
  · rw [List.length_take]; omega
  · rw [he, List.length_append, List.length_take]; omega

theorem codeAt_decode {code : Bytes} {p q : Int} {i : Instr} (h : CodeAt code p i q) :
    ∃ rest, 0 ≤ p ∧ p.toNat ≤ code.length ∧ decode (code.drop p.toNat) = some (i, rest) ∧
      q + rest.length = code.length := by
  obtain ⟨before, bytes, after, rfl, rfl, rfl, h⟩ := h
  refine ⟨after, by omega, by simp, ?_, by simp; omega⟩
  rw [Int.toNat_natCast, List.append_assoc, List.drop_left]
  exact h

/-- An instruction is what it is. -/
theorem codeAt_unique {code : Bytes} {p q q' : Int} {i i' : Instr} (h : CodeAt code p i q) (h' : CodeAt code p i' q') :
    i = i' ∧ q = q' := by
  obtain ⟨r, -, -, h1, h2⟩ := codeAt_decode h
  obtain ⟨r', -, -, h3, h4⟩ := codeAt_decode h'
  rw [h1] at h3
  cases h3
  exact ⟨rfl, by omega⟩

/-! ### Where an instruction takes control -/

theorem goes_plain {env : Env} {bc : Ref} {st nx : CodePtr} {i : Instr} {s s' : VM} {c : Ctl} (hp : IsPlain i)
    (h : exec env bc st nx i s = .ok c s') : c = .goto nx := by
  rw [exec_plain hp, M.bind_run] at h
  cases ho : plain env bc st i s with
  | ok a s1 => rw [ho] at h; cases h; rfl
  | err e s1 => rw [ho] at h; cases h
  | ub => rw [ho] at h; cases h
  | diverge => rw [ho] at h; cases h

theorem stay_return {K : Rules} {env : Env} {bc : Ref} {st nx : CodePtr} (n : Nat) :
    Stays K false (fun c => ∀ ip, c = .goto ip → K.pos ip) (exec env bc st nx (.return_ n)) := by
  unfold exec
  stay_auto
  all_goals exact stay_leave

section

attribute [local instance] byFlow

/-- One instruction makes no code, and only pending calls inside the code. -/
theorem kept_step {env : Env} {vm0 : VM} {bc : Ref} {vm vm' : VM} {ip : CodePtr} {ctl : Ctl}
    (hc : Confined vm0 bc vm ip) (hh : HostBehaves env bc) (hl : HostLeavesCode env) (hp : ¬ Pitfall vm ip)
    (hs : step env bc ip vm = .ok ctl vm') :
    Running bc vm' ∧ (∀ (c : Ref) (blk : CodeBlock) (n : Nat), vm'.heap[c]? = some (.bytecode (some blk) n) →
      ∃ m, vm0.heap[c]? = some (.bytecode (some blk) m)) ∧ ∀ f ∈ vm'.callStack, InCode vm0 f.ip := by
  have hi : ∃ i, InstructionAt vm ip i := Classical.byContradiction fun h => hp (.inl h)
  obtain ⟨i, hi⟩ := hi
  have hf : ¬ Faulty vm i := fun h => hp (.inr ⟨i, hi, .inl h⟩)
  have hi' := hi
  obtain ⟨blk, n, rest, h1, h2, h3, h4, h5⟩ := hi'
  obtain ⟨m, hm⟩ := hc.code _ _ _ h1
  have hflow : Flow blk.bytes ip.off := by
    obtain ⟨blk', n', g1, g2, g3⟩ := hc.here
    rw [hm] at g1
    cases g1
    exact g3
  have hat := codeAt_of_decode h3 h4 h5
  have hse := step_at (env := env) (bc := bc) h1 h2 h3 h4 h5
  generalize hq : ip.off + ((blk.bytes.drop ip.off.toNat).length - rest.length : Nat) = q at hat hse
  rw [hse] at hs
  have inCode : ∀ t, Flow blk.bytes t → InCode vm0 { ip with off := t } := fun t ht => ⟨blk, m, hm, h2, ht⟩
  -- the machine stays in order
  have hrun : Running bc vm' := by
    have h := post_step (env := env) hc.running hh hp (fun j hj => by
      obtain ⟨blk', n', rest', k1, k2, k3, k4, k5⟩ := hj
      rw [h1] at k1
      cases k1
      rw [h5] at k5
      cases k5
      cases i <;> try trivial
      rename_i v base d ar vs
      intro b k hb he
      have hce : ip.cell = bc := by rw [he]
      rw [← hce, h1] at hb
      cases hb
      have := hflow.land hat (t := ip.off + base + d) rfl
      rwa [show ip.off + (base : Int) + d = d + (ip.off + base) by omega] at this)
    rw [hse, hs] at h
    exact h
  -- nothing makes code, and only calls make pending calls
  let K : Rules := ⟨fun c b => ∃ m, vm0.heap[c]? = some (.bytecode (some b) m), InCode vm0⟩
  have hinv : K.Inv true vm := by
    refine ⟨fun o ho _ => ?_, fun c o ho => ?_, hc.frames⟩
    · have := hc.running.good.sound.stack o ho
      cases o <;> first | trivial | exact this.elim
    · unfold Rules.CellFits
      split
      · exact hc.code _ _ _ ho
      · trivial
  have hhost : ∀ cb, Leaves K (env.host cb) := by
    intro cb s hs
    cases hs' : env.host cb s with
    | ok u s' =>
      obtain ⟨g1, g2⟩ := hl cb s s' hs'
      refine ⟨fun _ _ h => (nomatch h), fun c o ho => ?_, fun f hf => hs.frames f (g1 ▸ hf)⟩
      unfold Rules.CellFits
      split
      · obtain ⟨m, hm⟩ := g2 _ _ _ ho
        exact hs.heap _ _ hm
      · trivial
    | err e s' => trivial
    | ub => trivial
    | diverge => trivial
  have hnx : GoesOn i → InCode vm0 { ip with off := q } := fun h => inCode q (hflow.next hat h)
  have hinv' : K.Inv false vm' := by
    by_cases hgo : GoesOn i
    · have := leaves_exec (env := env) (bc := bc) (st := ip) hhost (hnx hgo) i vm hinv
      rw [hs] at this
      exact this
    · have hst : Stays K false (fun _ => True) (exec env bc ip { ip with off := q } i) := by
        cases i <;> first | exact absurd trivial hgo | skip
        case jump => exact stay_pure trivial
        case return_ => exact stay_any (stay_return _)
        case return0 => exact stay_any stay_leave
        case halt => exact stay_pure trivial
      exact (hst.ok hinv.false hs).2
  exact ⟨hrun, fun c b k hb => hinv'.heap c _ hb, hinv'.frames⟩

/-- What one instruction does to a machine that is confined to the code of `vm0`. -/
theorem confined_step {env : Env} {vm0 : VM} {bc : Ref} {vm vm' : VM} {ip ip' : CodePtr} (hc : Confined vm0 bc vm ip)
    (hh : HostBehaves env bc) (hl : HostLeavesCode env) (hp : ¬ Pitfall vm ip)
    (hs : step env bc ip vm = .ok (.goto ip') vm') : Confined vm0 bc vm' ip' := by
  obtain ⟨hrun, hcode, hframes⟩ := kept_step hc hh hl hp hs
  refine ⟨hrun, hcode, ?_, hframes⟩
  have hi : ∃ i, InstructionAt vm ip i := Classical.byContradiction fun h => hp (.inl h)
  obtain ⟨i, hi⟩ := hi
  have hf : ¬ Faulty vm i := fun h => hp (.inr ⟨i, hi, .inl h⟩)
  obtain ⟨blk, n, rest, h1, h2, h3, h4, h5⟩ := hi
  obtain ⟨m, hm⟩ := hc.code _ _ _ h1
  have hflow : Flow blk.bytes ip.off := by
    obtain ⟨blk', n', g1, g2, g3⟩ := hc.here
    rw [hm] at g1
    cases g1
    exact g3
  have hat := codeAt_of_decode h3 h4 h5
  have hse := step_at (env := env) (bc := bc) h1 h2 h3 h4 h5
  generalize hq : ip.off + ((blk.bytes.drop ip.off.toNat).length - rest.length : Nat) = q at hat hse
  rw [hse] at hs
  have inCode : ∀ t, Flow blk.bytes t → InCode vm0 { ip with off := t } := fun t ht => ⟨blk, m, hm, h2, ht⟩
  have hnx : GoesOn i → InCode vm0 { ip with off := q } := fun h => inCode q (hflow.next hat h)
  let K : Rules := ⟨fun c b => ∃ m, vm0.heap[c]? = some (.bytecode (some b) m), InCode vm0⟩
  have hinv : K.Inv true vm := by
    refine ⟨fun o ho _ => ?_, fun c o ho => ?_, hc.frames⟩
    · have := hc.running.good.sound.stack o ho
      cases o <;> first | trivial | exact this.elim
    · unfold Rules.CellFits
      split
      · exact hc.code _ _ _ ho
      · trivial
  -- where control is
  · have entry : ∀ {ip1}, EntryAt vm ip1 → InCode vm0 ip1 := by
      rintro ip1 ⟨b, k, ar, v, e1, e2, e3⟩
      obtain ⟨k', e4⟩ := hc.code _ _ _ e1
      exact ⟨b, k', e4, e2, e3⟩
    have goes : Goes vm { ip with off := q } (.goto ip') → GoesOn i → InCode vm0 ip' := by
      rintro ⟨ip1, e, h | h⟩ hg
      · cases e; subst h; exact hnx hg
      · cases e; exact entry h
    cases i
    case funcall a n =>
      have := post_funcall (env := env) (st := ip) (nx := { ip with off := q }) hc.running hh hf
      rw [hs] at this
      exact goes this.2 trivial
    case apply a n =>
      have := post_apply (env := env) (st := ip) (nx := { ip with off := q }) hc.running hf
      rw [hs] at this
      exact goes this.2 trivial
    case call d =>
      cases hs
      refine inCode _ (hflow.land hat ?_)
      show some (q - 1 + d) = some (q + d - 1)
      congr 1
      omega
    case jump d => cases hs; exact inCode _ (hflow.land hat rfl)
    case brnz d k =>
      simp only [exec] at hs
      rw [M.bind_run] at hs
      cases ho : getArg 1 vm with
      | ok o s1 =>
        rw [ho] at hs
        dsimp only at hs
        rw [M.bind_run] at hs
        cases hpo : popMany k s1 with
        | ok _ s2 =>
          rw [hpo] at hs
          dsimp only at hs
          rw [M.bind_run] at hs
          cases ht : truthy o s2 with
          | ok b s3 =>
            rw [ht] at hs
            dsimp only at hs
            cases b with
            | true =>
              cases hs
              refine inCode _ (hflow.land hat ?_)
              show some (q - 1 + d) = some (q + d - 1)
              congr 1
              omega
            | false => cases hs; exact hnx trivial
          | err e s3 => rw [ht] at hs; cases hs
          | ub => rw [ht] at hs; cases hs
          | diverge => rw [ht] at hs; cases hs
        | err e s2 => rw [hpo] at hs; cases hs
        | ub => rw [hpo] at hs; cases hs
        | diverge => rw [hpo] at hs; cases hs
      | err e s1 => rw [ho] at hs; cases hs
      | ub => rw [ho] at hs; cases hs
      | diverge => rw [ho] at hs; cases hs
    case return_ n => exact ((stay_return (K := K) n).ok hinv.false hs).1 _ rfl
    case return0 => exact ((stay_leave (K := K)).ok hinv.false hs).1 _ rfl
    case halt => cases hs
    all_goals
      have := goes_plain (by trivial) hs
      cases this
      exact hnx trivial

end

/-! ### Loading code -/

theorem release_code {o : Obj} {b : CodeBlock} {n : Nat} : release o ≠ .bytecode (some b) n := by
  cases o
  case internalVector vs k i => cases i <;> simp [release]
  all_goals simp [release]

theorem pushObject_code {o : Obj} {s s' : VM} {r c : Ref} {b : CodeBlock} {n : Nat} (h : pushObject o s = .ok r s')
    (hc : c ≠ r) (hb : s'.heap[c]? = some (.bytecode (some b) n)) : s.heap[c]? = some (.bytecode (some b) n) := by
  have take : ∀ {s1 : VM}, takeFree o s1 = .ok r s' → s1.heap[c]? = some (.bytecode (some b) n) := by
    intro s1 ht
    unfold takeFree at ht
    split at ht
    · cases ht
    · cases ht
      dsimp only at hb
      rwa [List.getElem?_set_ne (fun h => hc h.symm)] at hb
  unfold pushObject at h
  by_cases hf : s.free = []
  · rw [if_pos hf] at h
    cases hg : garbageCollect s with
    | ok a s1 =>
      rw [hg] at h
      dsimp only at h
      by_cases hf1 : s1.free = []
      · rw [if_pos hf1] at h; cases h
      · rw [if_neg hf1] at h
        have h1 := take h
        unfold garbageCollect at hg
        split at hg
        · cases hg
        · dsimp only at hg
          cases hg
          obtain ⟨o', h2, h3 | h3⟩ := sweep_get c h1
          · rw [h2, h3]
          · exact absurd h3.symm release_code
    | err e s1 => rw [hg] at h; cases h
    | ub => rw [hg] at h; cases h
    | diverge => rw [hg] at h; cases h
  · rw [if_neg hf] at h
    exact take h

/-! ### The positions of assembled code -/

open DuckLisp.Asm DuckLisp.Props in
theorem codeAt_piece {pieces : List Bytes} {k : Nat} {p : Bytes} {m : Instr} (hp : pieces[k]? = some p)
    (hm : ∀ rest, decode (p ++ rest) = some (m, rest)) :
    CodeAt pieces.flatten (offset pieces k) m (offset pieces (k + 1)) := by
  obtain ⟨hk, hke⟩ := List.getElem?_eq_some_iff.1 hp
  have hsplit : pieces = pieces.take k ++ p :: pieces.drop (k + 1) := by
    rw [← hke, List.getElem_cons_drop, List.take_append_drop]
  refine ⟨(pieces.take k).flatten, p, (pieces.drop (k + 1)).flatten, ?_, rfl, ?_, hm _⟩
  · conv => lhs; rw [hsplit]
    simp
  · have := pos_succ hp
    show ((pos pieces (k + 1) : Nat) : Int) = (pos pieces k : Nat) + _
    omega

open DuckLisp.Asm DuckLisp.Props in
/-- The position of piece `k` is that of an instruction, unless it is behind the last. -/
theorem at_instruction {strip : Bool} {program : List Ins} {bytes : Bytes} {pieces : List Bytes}
    (hp : Pieces strip program bytes pieces) (hl : AllLand program pieces) (hd : LabelsDefined program)
    (hfmt : ∀ i ∈ program, InFormat i ∧ SmallWhereNeeded i) (hend : program.getLast? = some .halt) :
    ∀ (d k : Nat), k + d + 1 = program.length →
      ∃ k' m i piece, program[k']? = some i ∧ pieces[k']? = some piece ∧ offset pieces k = offset pieces k' ∧
        (∀ rest, decode (piece ++ rest) = some (m, rest)) ∧ (meaning strip i = some m ∨
          ∃ l j, labelOf i = some l ∧ program[j]? = some (.label l) ∧
            landing (offset pieces k') (offset pieces (k' + 1)) m = some (offset pieces j : Int)) := by
  intro d
  induction d with
  | zero =>
    intro k hk
    have hi : program[k]? = some .halt := by
      rw [List.getLast?_eq_getElem?] at hend
      rwa [show program.length - 1 = k by omega] at hend
    have hk' : k < pieces.length := by rw [hp.length]; omega
    exact ⟨k, .halt, .halt, pieces[k], hi, List.getElem?_eq_getElem hk', rfl,
      hp.plain k _ _ _ hi (List.getElem?_eq_getElem hk') rfl trivial trivial, .inl rfl⟩
  | succ d ih =>
    intro k hk
    have hk' : k < pieces.length := by rw [hp.length]; omega
    have hk2 : k < program.length := by omega
    have hi : program[k]? = some program[k] := List.getElem?_eq_getElem hk2
    have hpi : pieces[k]? = some pieces[k] := List.getElem?_eq_getElem hk'
    obtain ⟨hf1, hf2⟩ := hfmt program[k] (List.getElem_mem hk2)
    generalize program[k] = i at *
    generalize pieces[k] = piece at *
    cases hm : meaning strip i with
    | some m => exact ⟨k, m, i, piece, hi, hpi, rfl, hp.plain k _ _ _ hi hpi hm hf1 hf2, .inl hm⟩
    | none =>
      cases hlab : labelOf i with
      | some l =>
        obtain ⟨j, hj⟩ := List.getElem?_of_mem (hd k i l hi hlab)
        obtain ⟨p, w, dd, m, g1, g2, g3, g4⟩ := hl k i l j hi hlab hf1 hj
        rw [hpi] at g1
        cases g1
        exact ⟨k, m, i, piece, hi, hpi, rfl, g3, .inr ⟨l, j, hlab, hj, g4⟩⟩
      | none =>
        have hempty : piece = [] := hp.none k i piece hi hpi (by
          cases i <;> first | exact .inl rfl | exact .inr ⟨_, rfl⟩ | (cases hlab; done) | (cases hm; done) | (cases strip <;> cases hm; done))
        obtain ⟨k', m, i', piece', h1, h2, h3, h4⟩ := ih (k + 1) (by omega)
        refine ⟨k', m, i', piece', h1, h2, ?_, h4⟩
        rw [← h3]
        have := pos_succ hpi
        rw [hempty] at this
        exact this.symm

open DuckLisp.Asm DuckLisp.Props in
theorem meaning_lands {strip : Bool} {i : Ins} {m : Instr} (h : meaning strip i = some m) (p q : Int) :
    landing p q m = none ∧ (GoesOn m → i ≠ .halt) := by
  cases i
  case pushSymbol id len name => cases strip <;> (cases h; exact ⟨rfl, fun _ h => nomatch h⟩)
  case return_ n =>
    simp only [meaning, Option.some.injEq] at h
    subst h
    split <;> exact ⟨rfl, fun _ h => nomatch h⟩
  case halt => cases h; exact ⟨rfl, fun h => h.elim⟩
  all_goals (cases h; try exact ⟨rfl, fun _ h => nomatch h⟩)

open DuckLisp.Asm DuckLisp.Props in
/-- Assembled code leads only to where instructions start. -/
theorem flow_at {strip : Bool} {program : List Ins} {bytes : Bytes} {pieces : List Bytes}
    (hp : Pieces strip program bytes pieces) (hl : AllLand program pieces) (hd : LabelsDefined program)
    (hfmt : ∀ i ∈ program, InFormat i ∧ SmallWhereNeeded i) (hend : program.getLast? = some .halt) {p : Int}
    (h : Flow bytes p) : ∃ k m, AtInstruction program pieces p k m := by
  have hne : 0 < program.length := by
    cases program with
    | nil => cases hend
    | cons => simp
  have at_ : ∀ k, k < program.length → ∃ k' m i piece, program[k']? = some i ∧ pieces[k']? = some piece ∧
      offset pieces k = offset pieces k' ∧ (∀ rest, decode (piece ++ rest) = some (m, rest)) ∧ (meaning strip i = some m ∨
        ∃ l j, labelOf i = some l ∧ program[j]? = some (.label l) ∧
          landing (offset pieces k') (offset pieces (k' + 1)) m = some (offset pieces j : Int)) :=
    fun k hk => at_instruction hp hl hd hfmt hend (program.length - k - 1) k (by omega)
  have key : ∃ k, k < program.length ∧ p = (offset pieces k : Nat) := by
    induction h with
    | start => exact ⟨0, hne, by simp [offset]⟩
    | @next p i q h hi hg ih =>
      obtain ⟨k, hk, rfl⟩ := ih
      obtain ⟨k', m, i', piece, h1, h2, h3, h4, h5⟩ := at_ k hk
      have hc := codeAt_piece h2 h4
      rw [← h3, hp.flatten] at hc
      obtain ⟨rfl, rfl⟩ := codeAt_unique hi hc
      refine ⟨k' + 1, ?_, rfl⟩
      have hlt := (List.getElem?_eq_some_iff.1 h1).1
      by_cases hk1 : k' + 1 = program.length
      · have hh : i' = .halt := by
          rw [List.getLast?_eq_getElem?, show program.length - 1 = k' by omega, h1] at hend
          exact Option.some.inj hend
        rcases h5 with h5 | ⟨l, j, h5, -⟩
        · exact absurd hh ((meaning_lands h5 0 0).2 hg)
        · rw [hh] at h5; cases h5
      · omega
    | @land p i q t h hi ht ih =>
      obtain ⟨k, hk, rfl⟩ := ih
      obtain ⟨k', m, i', piece, h1, h2, h3, h4, h5⟩ := at_ k hk
      have hc := codeAt_piece h2 h4
      rw [← h3, hp.flatten] at hc
      obtain ⟨rfl, rfl⟩ := codeAt_unique hi hc
      rcases h5 with h5 | ⟨l, j, h5, h6, h7⟩
      · rw [(meaning_lands h5 _ _).1] at ht; cases ht
      · rw [h3, h7] at ht
        cases ht
        exact ⟨j, (List.getElem?_eq_some_iff.1 h6).1, rfl⟩
  obtain ⟨k, hk, rfl⟩ := key
  obtain ⟨k', m, i', piece, h1, h2, h3, h4, -⟩ := at_ k hk
  refine ⟨k', m, i', piece, h1, h2, ?_, by rw [h3], h4⟩
  rintro rfl
  have := h4 []
  simp [decode] at this

end DuckLisp.VM
