import Verif.Spec.Later
import Verif.Spec.Safety
import Verif.Proof.VM.SpareApi
import Verif.Proof.VM.Api
import Verif.Proof.VM.Globals
import Verif.Proof.VM.Variables
import Verif.Proof.Compile.Execute
import Verif.Props.VM.Safety

/-!
# Histories and globals
-/

namespace DuckLisp.VM

open DuckLisp DuckLisp.Spec

variable {K : Guarded} {nb : Bool} {α β : Type}

theorem Guarded.After.ends {m : M α} {s s' : VM} (h : K.After nb m s) (he : GetsTo m s s') : K.Inv nb s' := by
  unfold Guarded.After at h
  rcases he with ⟨a, he⟩ | ⟨e, he⟩ <;> rw [he] at h <;> exact h

theorem after_of_ends {m : M α} {s : VM} (h : ∀ s', GetsTo m s s' → K.Inv nb s') : K.After nb m s := by
  unfold Guarded.After
  cases hm : m s with
  | ok a s' => exact h s' (.inl ⟨a, hm⟩)
  | err e s' => exact h s' (.inr ⟨e, hm⟩)
  | ub => trivial
  | diverge => trivial

/-- In a machine in order no captured variable is on the stack. -/
theorem Guarded.Inv.whole {s : VM} (h : K.Inv Bool.false s) (hg : Good s) : K.Inv true s := by
  refine { h with stack := fun o ho _ => ?_ }
  rintro rfl
  exact hg.sound.stack _ ho

theorem later_inv {k : Nat} {vm vm' : VM} (h : Later k vm vm') (hk : K.key = k) (hi : K.Inv true vm) : K.Inv false vm' := by
  induction h with
  | now => exact Guarded.Inv.false hi
  | instruction env bc st nx i h hg hn hh he ih ihh =>
    have h1 := (ih hi).whole hg
    refine (exec_spared hg h1 i (fun cb => after_of_ends fun s' hs' => ihh cb _ s' hg hs' h1) ?_).ends he
    intro a k' e
    subst e
    intro hkk
    rw [hk] at hkk
    exact hn a (by rw [Int.ofNat.inj hkk])
  | call env c h hg hp hn he ih =>
    refine (hostCall_spared hg ((ih hi).whole hg) c hp ?_).ends he
    rintro cb rfl
    exact hn hk
  | load code h hg he ih => exact ((spare_pushObject _ (by simp [NotTo])).after (ih hi)).ends he
  | switch r h ih => exact { ih hi with }

/-- Storing a value establishes the invariant. -/
theorem stored_inv {vm vm' : VM} (hg : Good vm) {o : Obj} (hv : ValueOk vm o) (hp : Pinned vm o) {k : Nat}
    (h : (do let p ← pushObject o; globalSet (some p) k : M Unit) vm = .ok () vm') :
    ∃ r hs, (⟨k, r, o, hs⟩ : Guarded).Inv true vm' := by
  have hpost := post_store hg hv hp (k : Int)
  rw [h] at hpost
  obtain ⟨r, s1, h1, h2, h3⟩ := hpost
  obtain ⟨r', s1', h4, h5⟩ := M.bind_eq_ok.mp h
  obtain ⟨vm1, hvm1, free, hfree, rfl⟩ := pushObject_eq_ok h4
  have hs1 : Sound vm1 := by
    rcases hvm1 with ⟨rfl, -⟩ | ⟨-, hc⟩
    · exact hg.sound
    · exact (collect_carried hc hg.sound).1
  have hsh : shape o = .value := shape_value hv
  have hst : store vm1.nextSerial o = o := store_value hv _
  rw [hst] at h5
  have h5' : vm' = { vm1 with
      heap := vm1.heap.set r' o, free, nextSerial := vm1.nextSerial + 1,
      globals := setAssoc (k : Int) (some r') vm1.globals } := by
    cases h5
    rfl
  have hrlt : r' < vm1.heap.length := hs1.free_lt r' (by simp [hfree])
  have hnd := hs1.free_nodup
  rw [hfree] at hnd
  refine ⟨r', hsh, ?_⟩
  refine Guarded.Inv.whole ?_ h1
  subst h5'
  constructor
  · show bound _ (k : Int) = _
    unfold bound
    rw [find_setAssoc, if_pos rfl]
  · exact List.getElem?_set_self hrlt
  · exact (List.nodup_cons.mp hnd).1
  · intro x _ h
    cases h
  · intro u x hu hx
    show x ≠ _
    rintro rfl
    by_cases hur : u = r'
    · subst hur
      rw [List.getElem?_set_self hrlt] at hx
      injection hx with hx
      rw [hx] at hsh
      cases hsh
    · rw [List.getElem?_set_ne (fun e => hur e.symm)] at hx
      have := hs1.cells u _ hx (by rw [hfree]; simp [hur]; exact hu)
      obtain ⟨r2, h6, h7⟩ := this
      cases h6
      exact h7.1 (by simp [hfree])

theorem kept_reads {vm : VM} {k r : Nat} {o : Obj} {hs : shape o = .value}
    (h : (⟨k, r, o, hs⟩ : Guarded).Inv nb vm) : Reads vm k o := reads_iff.mpr (.inr ⟨r, h.bound, h.cell⟩)

/-! ### Keys under which nothing is stored -/

/-- Nothing is stored under key `k`, whether or not `m` succeeds. -/
def StaysUnset (k : Nat) (m : M α) (s : VM) : Prop := ∀ s', GetsTo m s s' → bound s' k = none

theorem unset_bind {k : Nat} {m : M α} {f : α → M β} {s : VM} (he : ∀ e s', m s = .err e s' → bound s' k = none)
    (h : ∀ a s', m s = .ok a s' → StaysUnset k (f a) s') : StaysUnset k (m >>= f) s := by
  intro s'' hs
  unfold GetsTo at hs
  rw [M.bind_run] at hs
  cases hm : m s with
  | ok a s' => rw [hm] at hs; exact h a s' hm s'' hs
  | err e s' =>
    rw [hm] at hs
    rcases hs with ⟨a, hs⟩ | ⟨e, hs⟩ <;> cases hs
    exact he _ _ hm
  | ub => rw [hm] at hs; rcases hs with ⟨a, hs⟩ | ⟨e, hs⟩ <;> cases hs
  | diverge => rw [hm] at hs; rcases hs with ⟨a, hs⟩ | ⟨e, hs⟩ <;> cases hs

/-- Whatever was not stored under is still not stored under. -/
def UnsetKept (k : Nat) (s s' : VM) : Prop := bound s k = none → bound s' k = none

theorem same_globals {k : Nat} {s s' : VM} (h : s'.globals = s.globals) : UnsetKept k s s' := by
  intro hb
  unfold bound at hb ⊢
  rw [h]
  exact hb

theorem unsetPrims (k : Nat) : Prims (UnsetKept k) (UnsetKept k) where
  refl _ h := h
  trans h1 h2 h := h2 (h1 h)
  weak h := h
  transE h1 h2 h := h2 (h1 h)
  collect h := same_globals (garbageCollect_same h).2.2.2.2.1
  take o := by
    intro s
    unfold takeFree
    cases s.free
    · trivial
    · exact same_globals rfl
  heap _ _ _ _ := same_globals rfl
  «stacks» _ _ _ _ := same_globals rfl
  stacksE _ _ _ _ := same_globals rfl
  calls _ _ _ _ := same_globals rfl

theorem unset_of_rel {k : Nat} {m : M α} (h : RelE (UnsetKept k) (UnsetKept k) m) {s : VM} (hb : bound s k = none) :
    StaysUnset k m s := by
  intro s' hs
  have := h s
  rcases hs with ⟨a, hs⟩ | ⟨e, hs⟩ <;> rw [hs] at this <;> exact this hb

theorem unset_globalSet {k : Nat} {j : Int} (hj : j ≠ k) (p : Option Ref) :
    RelE (UnsetKept k) (UnsetKept k) (globalSet p j) := by
  intro s
  show UnsetKept k s { s with globals := setAssoc j p s.globals }
  intro hb
  unfold bound at hb ⊢
  show ((setAssoc j p s.globals).find? _).map _ = _
  rw [find_setAssoc, if_neg (fun e => hj e.symm)]
  exact hb

theorem unset_then {k : Nat} {m : M α} {s : VM} (h : StaysUnset k m s) (c : α → Ctl) :
    StaysUnset k (m >>= fun a => pure (c a)) s :=
  unset_bind (fun e s' he => h s' (.inr ⟨e, he⟩)) fun a s' ha s'' hs => by
    rcases hs with ⟨b, hs⟩ | ⟨e, hs⟩ <;> cases hs
    exact h _ (.inl ⟨a, ha⟩)

theorem unset_exec {k : Nat} {env : Env} {bc : Ref} {st nx : CodePtr} {s : VM} (hb : bound s k = none) (i : Instr)
    (hh : ∀ cb, StaysUnset k (env.host cb) s) (hi : ∀ a, i ≠ .setGlobal a k) : StaysUnset k (exec env bc st nx i) s := by
  have P := unsetPrims k
  by_cases hf : ∃ a n, i = .funcall a n
  · obtain ⟨a, n, rfl⟩ := hf
    refine unset_then (c := Ctl.goto) ?_
    unfold iFuncall
    have h1 := unset_of_rel (rel_getArg P.toPre a) hb
    refine unset_bind (fun e s' h => h1 s' (.inr ⟨e, h⟩)) fun f s1 hf => ?_
    obtain ⟨rfl, -⟩ := getArg_ok hf
    have h2 := unset_of_rel (rel_prepareForFuncall P f n) hb
    refine unset_bind (fun e s' h => h2 s' (.inr ⟨e, h⟩)) fun g s2 hg => ?_
    have hb2 := h2 s2 (.inl ⟨g, hg⟩)
    split
    · have := prepare_same hg
      subst this
      have h := hh ‹_›
      refine unset_bind (fun e s' he => h s' (.inr ⟨e, he⟩)) fun a s' ha s'' hs => ?_
      rcases hs with ⟨b, hs⟩ | ⟨e, hs⟩ <;> cases hs
      exact h _ (.inl ⟨a, ha⟩)
    · exact unset_of_rel (rel_enter P _ _ _ _ _) hb2
    · exact unset_of_rel (rel_throw P.toPre _) hb2
  · by_cases hcc : ∃ k, i = .ccall k
    · obtain ⟨j, rfl⟩ := hcc
      refine unset_then (m := iCcall env j) (c := fun _ => Ctl.goto nx) ?_
      unfold iCcall
      have h1 := unset_of_rel (rel_globalGet P.toPre j) hb
      refine unset_bind (fun e s' h => h1 s' (.inr ⟨e, h⟩)) fun p s1 hp => ?_
      have e1 : s1 = s := by
        rw [globalGet_eq] at hp
        split at hp <;> cases hp
        rfl
      subst e1
      have h2 := unset_of_rel (rel_deref P.toPre p) hb
      refine unset_bind (fun e s' h => h2 s' (.inr ⟨e, h⟩)) fun o s2 ho => ?_
      have e2 : s2 = s1 := deref_same ho
      subst e2
      split
      · exact hh _
      · exact unset_of_rel rel_ub hb
    · by_cases hs : ∃ a j, i = .setGlobal a j
      · obtain ⟨a, j, rfl⟩ := hs
        have hj : (j : Int) ≠ k := fun e => hi a (by rw [Int.ofNat.inj e])
        refine unset_then (m := plain env bc st (.setGlobal a j)) (c := fun _ => Ctl.goto nx) ?_
        simp only [plain]
        refine unset_of_rel ?_ hb
        refine rel_bind P.toPre (rel_height P.toPre) fun _ => rel_bind P.toPre (rel_stackAt P.toPre _) fun _ =>
          rel_bind P.toPre (rel_pushObject P _) fun _ => unset_globalSet hj _
      · have he : exec env bc st nx i = exec ⟨env.fl, fun _ => M.throw .invalidValue⟩ bc st nx i := by
          cases i <;> first | rfl | exact absurd ⟨_, _, rfl⟩ hf | exact absurd ⟨_, rfl⟩ hcc
        rw [he]
        refine unset_of_rel (rel_exec P (fun _ => rel_throw P.toPre _) bc st nx i (fun a j h => absurd ⟨a, j, h⟩ hs)
          (fun _ _ => same_globals rfl) (fun _ => P.all fun _ _ _ => same_globals rfl)) hb

theorem later_unset {k : Nat} {vm vm' : VM} (h : Later k vm vm') (hb : bound vm k = none) : bound vm' k = none := by
  induction h with
  | now => exact hb
  | @instruction vm vm1 vm2 env bc st nx i h hg hn hh he ih ihh =>
    have hb1 := ih hb
    exact unset_exec hb1 i (fun cb s' hs => ihh cb vm1 s' hg hs hb1) hn vm2 he
  | call env c h hg hp hn he ih =>
    refine unset_of_rel (rel_hostCall' (unsetPrims k) c hp ?_ fun _ => ?_) (ih hb) _ he
    · rintro key cb rfl p
      exact unset_globalSet hn p
    · intro s
      exact same_globals rfl
  | load code h hg he ih => exact unset_of_rel (rel_pushObject (unsetPrims k) _) (ih hb) _ he
  | switch r h ih => exact same_globals (s := _) rfl (ih hb)

/-! ### Runs are histories -/

theorem getsTo_loop {k : Nat} {env : Env} {bc : Ref} (hh : HostBehaves env bc)
    (hl : ∀ cb s s', Good s → GetsTo (env.host cb) s s' → Later k s s') (fuel : Nat) :
    ∀ ip vm0 vm vm', Running bc vm → Later k vm0 vm →
      (∀ ip1 vm1, Arrives env bc ip vm ip1 vm1 → ¬ Pitfall vm1 ip1 ∧ ∀ a, ¬ InstructionAt vm1 ip1 (.setGlobal a k)) →
      GetsTo (VM.loop env bc fuel ip) vm vm' → Later k vm0 vm' := by
  induction fuel with
  | zero => intro ip vm0 vm vm' _ _ _ h; rcases h with ⟨_, h⟩ | ⟨_, h⟩ <;> cases h
  | succ fuel ih =>
    intro ip vm0 vm vm' hr h0 hno h
    obtain ⟨hp, hi⟩ := hno ip vm .here
    have hpost := post_step (env := env) hr hh hp fun i _ => Props.starts_anywhere vm bc ip i
    have hex : ∃ i, InstructionAt vm ip i := by
      by_cases hx : ∃ i, InstructionAt vm ip i
      · exact hx
      · exact absurd (.inl hx) hp
    obtain ⟨i, hat⟩ := hex
    obtain ⟨nx, hstep⟩ := step_eq (env := env) (bc := bc) hat
    have hnot : ∀ a, i ≠ .setGlobal a k := fun a e => hi a (e ▸ hat)
    unfold GetsTo at h
    rw [VM.loop, M.bind_run] at h
    cases hs : VM.step env bc ip vm with
    | ok c s =>
      rw [hs] at h hpost
      have h1 : Later k vm0 s := .instruction env bc ip nx i h0 hr.good hnot hl (.inl ⟨c, hstep ▸ hs⟩)
      cases c with
      | goto ip' =>
        exact ih ip' vm0 s vm' hpost h1 (fun ip1 vm1 ha => hno ip1 vm1 (.step hs ha)) h
      | halt => rcases h with ⟨_, h⟩ | ⟨_, h⟩ <;> cases h; exact h1
    | err e s =>
      rw [hs] at h
      have h1 : Later k vm0 s := .instruction env bc ip nx i h0 hr.good hnot hl (.inr ⟨e, hstep ▸ hs⟩)
      rcases h with ⟨_, h⟩ | ⟨_, h⟩ <;> cases h
      exact h1
    | ub => rw [hs] at h; rcases h with ⟨_, h⟩ | ⟨_, h⟩ <;> cases h
    | diverge => rw [hs] at h; rcases h with ⟨_, h⟩ | ⟨_, h⟩ <;> cases h

end DuckLisp.VM
