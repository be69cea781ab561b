import Verif.Proof.VM.MemoryTexts
import Verif.Proof.VM.Lockstep
import Verif.Props.VM.Apply

/-!
# Control instructions keep the machine in order
-/

namespace DuckLisp.VM

open DuckLisp DuckLisp.Spec

set_option linter.unusedSectionVars false

variable [Entries]

/-! ### What is read from code fits the machine -/

theorem be_lt : ∀ (k acc : Nat) (bs rest : Bytes) (n : Nat), Dec.be acc k bs = some (n, rest) →
    n < (acc + 1) * 256 ^ k
  | 0, acc, bs, rest, n, h => by
    simp only [Dec.be, Option.some.injEq, Prod.mk.injEq] at h
    simp [← h.1]
  | k + 1, acc, [], rest, n, h => by simp [Dec.be] at h
  | k + 1, acc, b :: bs, rest, n, h => by
    have := be_lt k _ bs rest n h
    refine Nat.lt_of_lt_of_le this ?_
    rw [Nat.pow_succ, Nat.mul_comm (256 ^ k), ← Nat.mul_assoc]
    have := b.toNat_lt
    exact Nat.mul_le_mul_right _ (by omega)

theorem operand_lt {w : Width} {bs rest : Bytes} {n : Nat} (h : Dec.operand w bs = some (n, rest)) :
    n < 2 ^ (8 * w.bytes) := by
  have := be_lt _ _ _ _ _ h
  cases w <;> simpa [Width.bytes] using this

theorem operand_lt32 {w : Width} {bs rest : Bytes} {n : Nat} (h : Dec.operand w bs = some (n, rest)) :
    n < 2 ^ 32 := by
  have := operand_lt h
  cases w <;> simp only [Width.bytes] at this <;> omega

theorem signed_inRange {w : Width} {n : Nat} (h : n < 2 ^ (8 * w.bytes)) : InRange (signed w n) := by
  unfold signed InRange
  by_cases hc : n < 2 ^ (8 * w.bytes - 1)
  · rw [if_pos hc]
    cases w <;> simp only [Width.bytes] at h ⊢ <;> omega
  · rw [if_neg hc]
    cases w <;> simp only [Width.bytes] at h ⊢ <;> omega

theorem dec_bind {α β : Type} {m : Dec α} {f : α → Dec β} {bs rest : Bytes} {b : β}
    (h : (m >>= f) bs = some (b, rest)) : ∃ a mid, m bs = some (a, mid) ∧ f a mid = some (b, rest) := by
  simp only [bind, Dec.bind] at h
  split at h
  · exact ⟨_, _, by assumption, h⟩
  · cases h

theorem take_length {n : Nat} {bs rest out : Bytes} (h : Dec.take n bs = some (out, rest)) : out.length ≤ n := by
  unfold Dec.take at h
  split at h
  · simp only [Option.some.injEq, Prod.mk.injEq] at h
    rw [← h.1]
    simp
  · cases h

theorem operands_length {w : Width} : ∀ {n : Nat} {bs rest : Bytes} {as : List Nat},
    Dec.operands w n bs = some (as, rest) → as.length = n
  | 0, bs, rest, as, h => by
    simp only [Dec.operands, Option.some.injEq, Prod.mk.injEq] at h
    simp [← h.1]
  | n + 1, bs, rest, as, h => by
    simp only [Dec.operands] at h
    split at h
    · split at h
      · rename_i h2
        simp only [Option.some.injEq, Prod.mk.injEq] at h
        rw [← h.1]
        simp [operands_length h2]
      · cases h
    · cases h

theorem decode_fits {bs rest : Bytes} {i : Instr} (h : decode bs = some (i, rest)) : LiteralsFitMachine i := by
  unfold decode at h
  split at h
  · cases h
  · split at h
    · rename_i o w _
      cases o
      case pushSymbol =>
        obtain ⟨a, m, _, h⟩ := dec_bind h
        obtain ⟨n, m, hn, h⟩ := dec_bind h
        obtain ⟨x, m, hx, h⟩ := dec_bind h
        cases h
        have := operand_lt32 hn
        have := take_length hx
        show x.length < 2 ^ 63
        omega
      case pushString =>
        obtain ⟨n, m, hn, h⟩ := dec_bind h
        obtain ⟨x, m, hx, h⟩ := dec_bind h
        cases h
        have := operand_lt32 hn
        have := take_length hx
        show x.length < 2 ^ 63
        omega
      case pushInteger =>
        obtain ⟨n, m, hn, h⟩ := dec_bind h
        cases h
        exact signed_inRange (operand_lt hn)
      case vector =>
        obtain ⟨n, m, hn, h⟩ := dec_bind h
        obtain ⟨x, m, hx, h⟩ := dec_bind h
        cases h
        have := operand_lt32 hn
        have := operands_length hx
        show x.length < 2 ^ 60
        omega
      case equal =>
        simp only [decodeArgs] at h
        split at h
        all_goals
          try simp only [decodeArgs.two] at h
          repeat (obtain ⟨_, _, _, h⟩ := dec_bind h)
          cases h
          trivial
      all_goals
        simp only [decodeArgs, decodeArgs.two, decodeArgs.three, decodeArgs.closure] at h
        repeat (obtain ⟨_, _, _, h⟩ := dec_bind h)
        cases h
        trivial
    · cases h
      trivial

/-! ### Control -/

theorem good_calls {s : VM} (hg : Good s) {cs : List Frame} {ua : List UpArray}
    (h : ∀ f ∈ cs, ∀ r, f.bytecode = some r → LiveCode s r) :
    Good { s with callStack := cs, upArrays := ua } := by
  have hl : ∀ r k, Live s r k → Live { s with callStack := cs, upArrays := ua } r k := fun r k h => h
  obtain ⟨hs, hf⟩ := hg
  exact ⟨⟨hs.free_nodup, hs.free_lt, hs.free_empty, hs.heap_size,
    fun o ho => valueOk_congr (hs.stack o ho) fun r s _ => hl r s, hs.captured, hs.globals, h, hs.running,
    fun r o h1 h2 => cellOk_congr (hs.cells r o h1 h2) fun _ r s _ => hl r s⟩, hf⟩

variable {s : VM} {env : Env} {bc : Nat} {st nx : CodePtr}

theorem running_called (hr : Running bc s) (u : UpArray) :
    Running bc { s with callStack := s.callStack ++ [⟨nx, some bc⟩], upArrays := s.upArrays ++ [u] } := by
  refine ⟨good_calls hr.good fun f hf r hfr => ?_, hr.level, hr.current⟩
  rcases List.mem_append.1 hf with hf | hf
  · exact hr.good.sound.frames f hf r hfr
  · simp only [List.mem_singleton] at hf
    subst hf
    cases hfr
    exact hr.good.sound.running _ hr.current

theorem post_leave (hr : Running bc s) : Post U E (fun _ s' => Running bc s') (leave s) := by
  unfold leave
  have h : Post U E (fun _ s' => Running bc s') (popFrame s) := by
    unfold popFrame
    split
    · exact hr
    · have h1 : ∀ ua, Running bc { s with callStack := s.callStack.dropLast, upArrays := ua } := fun ua =>
        ⟨good_calls hr.good fun f hf r hfr => hr.good.sound.frames f (List.dropLast_subset _ hf) r hfr, hr.level,
          hr.current⟩
      simp only
      split
      · exact h1 _
      · exact h1 _
  refine Post.bind h ?_
  intro a s' h
  cases a <;> exact h

/-- Popping, with both stacks. -/
theorem popMany_running (hr : Running bc s) (n : Nat) :
    Post U (fun _ _ => True) (fun _ s' => Running bc s' ∧ s'.heap = s.heap ∧ s'.free = s.free) (popMany n s) := by
  unfold popMany
  split
  · trivial
  · simp only
    split
    · trivial
    · exact ⟨⟨good_fewer hr.good _ _, by
        have := hr.level
        simp only [Lockstep, List.length_take] at this ⊢
        omega, hr.current⟩, rfl, rfl⟩

theorem truthy_total (hg : Good s) {o : Obj} (ho : ValueOk s o) : ∃ b, truthy o s = .ok b s := by
  cases o
  case vector p off =>
    simp only [truthy]
    cases p with
    | none => exact ⟨_, rfl⟩
    | some r =>
      obtain ⟨cap, hl, -, -⟩ := ho
      obtain ⟨vs, n, hc, -, -⟩ := live_elements hg hl
      simp only [vectorInRange]
      rw [M.bind_ok (readCell_some hc)]
      exact ⟨_, rfl⟩
  all_goals exact ⟨_, rfl⟩

theorem find_lookup (k : Int) : ∀ (l : List (Int × Option Nat)) (p : Option Nat),
    l.lookup k = some p → ∃ kv, l.find? (fun kv => kv.1 == k) = some kv ∧ kv.2 = p
  | [], _, h => by simp at h
  | (k', q) :: l, p, h => by
    rw [List.lookup_cons] at h
    rw [List.find?_cons]
    by_cases hk : k' = k
    · subst hk
      simp at h ⊢
      exact h
    · have h1 : (k' == k) = false := by simpa using hk
      have h2 : (k == k') = false := by simpa using Ne.symm hk
      rw [h2] at h
      simp only [h1]
      exact find_lookup k l p h

theorem find_lookup_none (k : Int) : ∀ (l : List (Int × Option Nat)),
    l.lookup k = none → l.find? (fun kv => kv.1 == k) = none
  | [], _ => rfl
  | (k', q) :: l, h => by
    rw [List.lookup_cons] at h
    rw [List.find?_cons]
    by_cases hk : k' = k
    · subst hk
      simp at h
    · have h1 : (k' == k) = false := by simpa using hk
      have h2 : (k == k') = false := by simpa using Ne.symm hk
      rw [h2] at h
      simp only [h1]
      exact find_lookup_none k l h

theorem post_host (hr : Running bc s) (hh : HostBehaves env bc) (cb : Nat) :
    Post U (fun _ _ => True) (fun _ s' => Running bc s') (env.host cb s) := by
  rcases hh cb s hr with ⟨vm', h1, h2⟩ | ⟨e, vm', h1⟩
  · rw [h1]; exact h2
  · rw [h1]; trivial

/-- Position `ip` is one where a function may start. -/
def EntryAt (s : VM) (ip : CodePtr) : Prop :=
  ∃ blk n arity variadic, s.heap[ip.cell]? = some (.bytecode (some blk) n) ∧ blk.serial = ip.serial ∧
    Entries.ok blk ip.off arity variadic

/-- Control goes on, or to where a function may start. -/
def Goes (s : VM) (nx : CodePtr) (c : Ctl) : Prop := ∃ ip, c = .goto ip ∧ (ip = nx ∨ EntryAt s ip)

theorem entryAt_callee (hg : Good s) {a : Nat} {f : Obj} {pos : Int} {c : Nat} {u : Option Ref} {ar : UInt8} {v : Bool}
    {ip : CodePtr} (ha : operand s a = some f) (hcal : Callee s f (.closure pos (some c) u ar v))
    (hc : IsCode s c pos ip) : EntryAt s ip := by
  obtain ⟨c', u', n, h0, -, ⟨blk, h1, h2⟩, -⟩ := callee_valueOk hg hcal (hg.sound.stack f (operand_mem ha))
  cases h0
  obtain ⟨b, n, hb, rfl⟩ := hc
  obtain ⟨-, o, ho, hsh⟩ := h1
  rw [hb] at ho
  cases ho
  cases hsh
  exact ⟨_, _, _, _, hb, rfl, h2⟩

theorem post_funcall {a n : Nat} (hr : Running bc s) (hh : HostBehaves env bc) (hf : ¬ Faulty s (.funcall a n)) :
    Post False (fun _ _ => True) (fun c s' => Running bc s' ∧ Goes s nx c) (exec env bc st nx (.funcall a n) s) := by
  have hg := hr.good
  cases ha : operand s a with
  | none =>
    have : exec env bc st nx (.funcall a n) s = .err .invalidValue s := by
      simp only [exec, iFuncall]
      rw [M.bind_err (M.bind_err (getArg_none ha))]
    rw [this]
    trivial
  | some f =>
    by_cases hcal : ∃ g, Callee s f g
    · obtain ⟨g, hcal⟩ := hcal
      by_cases h1 : ∃ cb, g = .function cb
      · obtain ⟨cb, rfl⟩ := h1
        obtain ⟨h2, h3⟩ := C38_host_function env bc st nx s a n cb f ha hcal
        rcases hh cb s hr with ⟨vm', h4, h5⟩ | ⟨e, vm', h4⟩
        · rw [h2 _ h4]; exact ⟨h5, _, rfl, .inl rfl⟩
        · rw [h3 _ _ h4]; trivial
      · by_cases h2 : ∃ pos code ups arity variadic, g = .closure pos code ups arity variadic
        · obtain ⟨pos, code, ups, arity, variadic, rfl⟩ := h2
          obtain ⟨c, u, ip, us, rfl, rfl, hc, hu⟩ := C38_functions_have_code s hg a f pos _ _ arity _ ha hcal
          by_cases hn : if variadic = true then n < arity.toNat else n ≠ arity.toNat
          · rw [C38_wrong_count env bc st nx s a n f pos _ _ arity variadic ha hcal hn]
            trivial
          · cases variadic with
            | false =>
              simp only [Bool.false_eq_true, if_false, Decidable.not_not] at hn
              obtain ⟨vm', h3, h4⟩ := C38_fixed env bc st nx ip s a n c u f pos arity us ha hcal hn hc hu
              rw [h3]
              subst h4
              exact ⟨running_called hr _, _, rfl, .inr (entryAt_callee hg ha hcal hc)⟩
            | true =>
              simp only [if_true, Nat.not_lt] at hn
              have hlen : n ≤ s.stack.length := by
                refine Nat.le_of_not_lt fun h => hf ⟨f, ha, .inr ⟨_, _, _, _, hcal, h⟩⟩
              have hlev := hr.level
              unfold Lockstep at hlev
              obtain ⟨below, args, rest, hst, h5, h6⟩ : ∃ below args rest, s.stack = below ++ args ++ rest ∧
                  args.length = arity.toNat ∧ args.length + rest.length = n := by
                refine ⟨s.stack.take (s.stack.length - n), (s.stack.drop (s.stack.length - n)).take arity.toNat,
                  (s.stack.drop (s.stack.length - n)).drop arity.toNat, ?_, ?_, ?_⟩
                · rw [List.append_assoc, List.take_append_drop, List.take_append_drop]
                · simp only [List.length_take, List.length_drop]; omega
                · simp only [List.length_take, List.length_drop]; omega
              have h7 := C38_variadic env bc st nx ip s hg hlev.symm a c u f pos arity us below args rest hst h5 ha
                hcal hc hu
              rw [h6] at h7
              rcases h7 with ⟨vm1, vm', p, h8, h9, h10, h11, -, h12, h13⟩ | ⟨vm', h8, -⟩
              · rw [h8]
                subst h9
                refine ⟨running_called ⟨h13, ?_, h12.currentBytecode.trans hr.current⟩ _, _, rfl,
                  .inr (entryAt_callee hg ha hcal hc)⟩
                unfold Lockstep
                have := congrArg List.length hst
                simp only [List.length_append] at this
                rw [h10, h11]
                simp only [List.length_append, List.length_take, List.length_singleton]
                omega
              · rw [h8]; trivial
        · rw [C38_not_a_function env bc st nx s a n f g ha hcal (fun cb h => h1 ⟨cb, h⟩)
            (fun _ _ _ _ _ h => h2 ⟨_, _, _, _, _, h⟩)]
          trivial
    · exact absurd ⟨f, ha, .inl fun g h => hcal ⟨g, h⟩⟩ hf

/-- Spreading a list that need not be proper. -/
theorem post_spread (arity : Nat) : ∀ (todo n : Nat) (p : Option Nat) (s : VM), Good s → PartOk s p →
    Post U (fun _ _ => True) (fun _ s' => ∃ xs, s' = grown s xs ∧ ∀ x ∈ xs, ValueOk s x) (spread arity todo n p s)
  | 0, n, p, s, _, _ => ⟨[], (grown_nil s).symm, by simp⟩
  | todo + 1, n, p, s, hg, hp => by
    unfold spread
    by_cases hn : n < arity
    · rw [if_pos hn]
      cases p with
      | none => exact ⟨[], (grown_nil s).symm, by simp⟩
      | some r =>
        have hr : ∃ o, s.heap[r]? = some o := by
          rcases hp with ⟨_, o, ho, _⟩ | ⟨_, o, ho, _⟩ <;> exact ⟨o, ho⟩
        obtain ⟨o, ho⟩ := hr
        dsimp only
        rw [M.bind_ok (readCell_some ho)]
        cases o <;> try trivial
        rename_i car cdr
        have hcell : CellOk s (.cons car cdr) := by
          rcases hp with h | h
          · exact hg.sound.cells r _ ho h.1
          · exact hg.sound.cells r _ ho h.1
        obtain ⟨hcar, hcdr⟩ := hcell
        have next : ∀ x, ValueOk s x → Post U (fun _ _ => True)
            (fun _ s' => ∃ xs, s' = grown s xs ∧ ∀ x ∈ xs, ValueOk s x) ((do push x; spread arity todo (n + 1) cdr : M _) s) := by
          intro x hx
          rw [M.bind_ok (show push x s = .ok () (pushed s x) from rfl)]
          refine (post_spread arity todo (n + 1) cdr (pushed s x) (hg.pushed hx) hcdr).imp ?_
          rintro _ s' ⟨xs, h1, h2⟩
          refine ⟨x :: xs, by rw [h1, grown_cons], fun y hy => ?_⟩
          rcases List.mem_cons.1 hy with rfl | hy
          · exact hx
          · exact h2 y hy
        dsimp only
        cases car with
        | none => exact next _ trivial
        | some c =>
          dsimp only
          rcases hcar with hc | hc
          · obtain ⟨o, ho, hv⟩ := live_value hg.sound hc
            rw [M.bind_ok (readCell_some ho)]
            cases o <;> first | exact next _ hv | exact hv.elim
          · obtain ⟨a, d, ho, -, -⟩ := live_pair hg.sound hc
            rw [M.bind_ok (readCell_some ho)]
            exact next (.list (some c)) hc
    · rw [if_neg hn]
      exact ⟨[], (grown_nil s).symm, by simp⟩

theorem post_apply {a n : Nat} (hr : Running bc s) (hf : ¬ Faulty s (.apply a n)) :
    Post False (fun _ _ => True) (fun c s' => Running bc s' ∧ Goes s nx c) (exec env bc st nx (.apply a n) s) := by
  have hg := hr.good
  have hlev := hr.level
  unfold Lockstep at hlev
  cases ha : operand s a with
  | none =>
    have : exec env bc st nx (.apply a n) s = .err .invalidValue s := by
      simp only [exec, iApply]
      rw [M.bind_err (M.bind_err (getArg_none ha))]
    rw [this]
    trivial
  | some f =>
    by_cases hcal : ∃ g, Callee s f g
    · obtain ⟨g, hcal⟩ := hcal
      by_cases h2 : ∃ pos code ups arity variadic, g = .closure pos code ups arity variadic
      · obtain ⟨pos, code, ups, arity, variadic, rfl⟩ := h2
        obtain ⟨c, u, ip, us, rfl, rfl, hc, hu⟩ := C38_functions_have_code s hg a f pos _ _ arity _ ha hcal
        obtain ⟨stk, top, hst⟩ : ∃ stk top, s.stack = stk ++ [top] := by
          have hne : s.stack ≠ [] := List.ne_nil_of_mem (operand_mem ha)
          exact ⟨_, _, (List.dropLast_concat_getLast hne).symm⟩
        have hpop := popStack_top hst hlev.symm
        have hgo : iApply bc nx a n s = (do
            match ← popStack with
            | .list rest => do
                let (n, rest) ← spread arity.toNat arity.toNat n rest
                if variadic then
                  if n < arity.toNat then M.throw .invalidValue
                  else collectRest (n - arity.toNat) rest
                else if arity.toNat ≠ n then M.throw .invalidValue
                else pure ()
                enter bc nx pos (some c) (some u)
            | _ => M.throw .invalidValue : M CodePtr) s := by
          unfold iApply
          rw [M.bind_ok (getArg_some ha), M.bind_ok (show unwrapFuel s = .ok _ s from rfl), M.bind_ok (unwrap_callee hcal)]
          rfl
        by_cases htop : ∃ p, top = .list p
        · obtain ⟨p, rfl⟩ := htop
          have hvp : ValueOk s (.list p) := hg.sound.stack _ (by rw [hst]; simp)
          cases variadic with
          | false =>
            simp only [exec]
            refine Post.bind (Q := fun ip s' => Running bc s' ∧ EntryAt s ip) ?_ fun _ _ h => ⟨h.1, _, rfl, .inr h.2⟩
            rw [hgo, M.bind_ok hpop]
            dsimp only
            have hgs : Good (spreadOut s []) := spreadOut_good hg (by simp)
            refine Post.bind (post_spread arity.toNat arity.toNat n p (spreadOut s []) hgs ?_) ?_
            · cases p with
              | none => trivial
              | some r => exact .inr hvp
            · rintro ⟨n', rest⟩ s' ⟨xs, rfl, hx⟩
              rw [grown_spreadOut] at *
              dsimp only
              rw [if_neg (by simp)]
              split
              · trivial
              · have hgs' : Good (spreadOut s xs) := spreadOut_good hg hx
                have hrs : Running bc (spreadOut s xs) := ⟨hgs', by
                  unfold Lockstep spreadOut
                  simp only [List.length_append, List.length_dropLast, List.length_map]
                  omega, hr.current⟩
                obtain ⟨vm', h1, h2⟩ := enter_eq (vm := spreadOut s xs) (bc := bc) (nx := nx) (isCode_keeps hc rfl)
                  (isCaptures_keeps hu rfl)
                rw [h1]
                refine ⟨?_, entryAt_callee hg ha hcal hc⟩
                rw [h2]
                exact running_called hrs _
          | true =>
            have hlen : n < s.stack.length :=
              Nat.lt_of_not_le fun h => hf ⟨f, ha, .inr ⟨_, _, _, _, hcal, .inl h⟩⟩
            have hop : operand s 1 = some (.list p) := by
              rw [operand, hst]
              simp
            obtain ⟨xs, hx⟩ : ∃ xs, ListOf s p xs := by
              refine Classical.byContradiction fun h => ?_
              exact hf ⟨f, ha, .inr ⟨_, _, _, _, hcal, .inr ⟨p, hop, fun xs hx => h ⟨xs, hx⟩⟩⟩⟩
            have hsl : s.stack.length = stk.length + 1 := by rw [hst]; simp
            obtain ⟨below, args, hst2, h5⟩ : ∃ below args, stk = below ++ args ∧ args.length = n :=
              ⟨stk.take (stk.length - n), stk.drop (stk.length - n), (List.take_append_drop _ _).symm, by
                rw [List.length_drop]; omega⟩
            subst hst2 h5
            by_cases hn : arity.toNat ≤ args.length + xs.length
            · rcases C39_variadic env bc st nx ip s hg hlev.symm a c u f pos arity us below args xs p hst hx hn ha hcal hc hu with
                ⟨vm1, vm', q, h1, h2, h3, h4, -, -, h5, h6, -⟩ | ⟨vm', h1, -⟩
              · rw [h1]
                refine ⟨?_, _, rfl, .inr (entryAt_callee hg ha hcal hc)⟩
                rw [h2]
                exact running_called ⟨h6, h4.symm, h5.currentBytecode.trans hr.current⟩ _
              · rw [h1]; trivial
            · obtain ⟨vm', h1⟩ := C39_wrong_count_partial env bc st nx s hg hlev.symm a f pos _ _ arity true below args xs p hst
                hx (.inl (by omega)) ha hcal
              rw [h1]; trivial
        · have : exec env bc st nx (.apply a n) s = .err .invalidValue (spreadOut s []) := by
            simp only [exec]
            rw [M.bind_err]
            rw [hgo, M.bind_ok hpop]
            cases top <;> first | rfl | exact absurd ⟨_, rfl⟩ htop
          rw [this]; trivial
      · have : exec env bc st nx (.apply a n) s = .err .invalidValue s := by
          simp only [exec, iApply]
          rw [M.bind_err]
          rw [M.bind_ok (getArg_some ha), M.bind_ok (show unwrapFuel s = .ok _ s from rfl), M.bind_ok (unwrap_callee hcal)]
          cases g <;> first | rfl | exact absurd ⟨_, _, _, _, _, rfl⟩ h2
        rw [this]; trivial
    · exact absurd ⟨f, ha, .inl fun g h => hcal ⟨g, h⟩⟩ hf

theorem post_control {i : Instr} (hr : Running bc s) (hh : HostBehaves env bc) (hc : IsControl i)
    (hf : ¬ Faulty s i) : Post False (fun _ _ => True) (fun _ s' => Running bc s') (exec env bc st nx i s) := by
  cases i <;> simp only [IsControl] at hc <;> simp only [exec]
  case jump d => exact hr
  case halt => exact hr
  case return0 => exact post_leave hr
  case call d =>
    refine Post.bind (Q := fun _ s' => Running bc s') ?_ ?_
    · exact post_modify (running_called hr _)
    · intro _ s' h
      exact h
  case brnz d n =>
    refine Post.bind (post_getArg trivial 1) ?_
    rintro o s ⟨rfl, ho⟩
    have hv := hr.good.sound.stack o (operand_mem ho)
    refine Post.bind (popMany_running hr n) ?_
    rintro _ s' ⟨h1, h2, h3⟩
    have hv' : ValueOk s' o := valueOk_congr hv fun r k _ h => by
      unfold Live at h ⊢
      rwa [h2, h3]
    obtain ⟨b, hb⟩ := truthy_total h1.good hv'
    rw [M.bind_ok hb]
    cases b <;> exact h1
  case return_ n =>
    rw [M.bind_ok (show M.get s = .ok s s from rfl)]
    have hv : ValueOk s (s.stack.getLast?.getD .none) := by
      cases hl : s.stack.getLast? with
      | none => trivial
      | some o => exact hr.good.sound.stack o (List.mem_of_getLast? hl)
    refine Post.bind (popMany_running hr n) ?_
    rintro _ s' ⟨h1, h2, h3⟩
    rw [M.bind_ok (show M.get s' = .ok s' s' from rfl)]
    split
    · refine Post.bind (popMany_running h1 1) ?_
      rintro _ s2 ⟨h4, h5, h6⟩
      refine Post.bind (Q := fun _ s' => Running bc s') ?_ fun _ _ h => post_leave h
      have hv' : ValueOk s2 (s.stack.getLast?.getD .none) := valueOk_congr hv fun r k _ h => by
        unfold Live at h ⊢
        rwa [h5, h6, h2, h3]
      refine post_push ⟨h4.good.pushed hv', ?_, h4.current⟩
      have := h4.level
      simpa [Lockstep, pushed] using this
    · exact post_leave h1
  case funcall a n => exact (post_funcall (st := st) hr hh hf).imp fun _ _ h => h.1
  case apply a n => exact (post_apply (env := env) (st := st) hr hf).imp fun _ _ h => h.1
  case ccall k =>
    refine Post.bind (Q := fun _ s' => Running bc s') ?_ fun _ _ h => h
    simp only [plain, iCcall]
    cases hl : s.globals.lookup (k : Int) with
    | none =>
      have : globalGet (k : Int) s = .err .invalidValue s := by
        unfold globalGet
        rw [find_lookup_none _ _ hl]
      rw [M.bind_err this]
      trivial
    | some p =>
      have h1 : globalGet (k : Int) s = .ok p s := by
        unfold globalGet
        obtain ⟨kv, h1, rfl⟩ := find_lookup _ _ _ hl
        rw [h1]
      rw [M.bind_ok h1]
      cases p with
      | none => exact absurd ⟨none, hl, fun r cb h => by cases h⟩ hf
      | some r =>
        by_cases hx : ∃ cb, s.heap[r]? = some (.function cb)
        · obtain ⟨cb, hx⟩ := hx
          rw [M.bind_ok (show deref (some r) s = .ok _ s from readCell_some hx)]
          exact post_host hr hh cb
        · exact absurd ⟨some r, hl, fun r' cb h h2 => hx ⟨cb, by cases h; exact h2⟩⟩ hf

/-! ### What stays -/

theorem currentPrims : Prims (fun s s' => s'.currentBytecode = s.currentBytecode) (fun _ _ => True) where
  refl _ := rfl
  trans h h' := h'.trans h
  weak _ := trivial
  transE _ _ := trivial
  collect h := by
    have := garbageCollect_same h
    simp_all
  take o := by
    intro s
    unfold takeFree
    split <;> rename_i hc <;> split at hc <;> cases hc <;> first | rfl | trivial
  heap _ _ _ _ := rfl
  «stacks» _ _ _ _ := rfl
  stacksE _ _ _ _ := trivial
  calls _ _ _ _ := rfl

/-- An environment without functions of the host. -/
def hostless (env : Env) : Env := { env with host := fun _ => pure () }

theorem plain_hostless {i : Instr} (hd : IsData i) : plain env bc st i = plain (hostless env) bc st i := by
  cases i <;> first | rfl | exact hd.elim

theorem data_keeps {i : Instr} (hd : IsData i) {s' : VM} (h : plain env bc st i s = .ok () s') :
    s'.currentBytecode = s.currentBytecode ∧ (Lockstep s → Lockstep s') := by
  rw [plain_hostless hd] at h
  constructor
  · refine Rel.ok (rel_plain (E := fun _ _ => True) currentPrims (fun _ => rel_pure currentPrims.toPre ()) bc st i
      (fun _ _ _ _ _ => rel_modify fun _ => rfl) (fun _ => ?_) fun _ => currentPrims.all (fun _ _ _ => rfl)) h
    exact fun s => rfl
  · refine Rel.ok (rel_plain (E := fun _ _ => True) stepPrims'.toPrims (fun _ => rel_pure stepPrims'.toPre ()) bc st i
      (fun _ _ _ _ _ => rel_modify fun _ => id) (fun _ => ?_) fun _ => stepPrims') h
    intro s
    show Lockstep s → Lockstep _
    intro h
    simpa [Lockstep, push] using h

end DuckLisp.VM
