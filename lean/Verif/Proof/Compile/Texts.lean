import Verif.Proof.Compile.Instr
import Verif.Props.VM.Strings
import Verif.Props.VM.Lists

/-!
# The instructions of texts and of sequences
-/

namespace DuckLisp.Compile

open DuckLisp DuckLisp.VM DuckLisp.Asm DuckLisp.Spec DuckLisp.Spec.Eval DuckLisp.Props

/-- The values of the list. -/
theorem holds_toList {ids : Reading} {s : VM} : ∀ {v : Value} {o : Obj} {vs : List Value}, Holds ids s o v →
    toList v = some vs → ∃ p objs, o = .list p ∧ ListOf s p objs ∧ List.Forall₂ (Holds ids s) objs vs
  | .nil, _, vs, h, hv => by
    cases h
    cases hv
    exact ⟨none, [], rfl, .nil, .nil⟩
  | .pair a d, _, vs, h, hv => by
    simp only [toList, Option.map_eq_some_iff] at hv
    obtain ⟨ds, h1, rfl⟩ := hv
    cases h with
    | @pair r x y _ _ hp hl ha hd =>
      obtain ⟨q, objs, rfl, h2, h3⟩ := holds_toList hd h1
      obtain ⟨b, hb⟩ := hl q rfl
      obtain ⟨p, q', hc, hp, -⟩ := hp
      rw [hb] at hc
      cases hc
      exact ⟨some r, x :: objs, rfl, .cons hb hp h2, .cons ha h3⟩
  | .bool _, _, _, _, hv | .int _, _, _, _, hv | .float _, _, _, _, hv | .symbol _, _, _, _, hv | .string _, _, _, _, hv
  | .slice _, _, _, _, hv | .type _, _, _, _, hv | .function .., _, _, _, hv | .unknown, _, _, _, hv => by simp [toList] at hv

/-- Integers, as objects and as bytes. -/
theorem holds_bytes {ids : Reading} {s : VM} : ∀ {vs : List Value} {objs : List Obj} {bs : Bytes},
    List.Forall₂ (Holds ids s) objs vs → Eval.bytes vs = some bs →
    ∃ is : List Int, objs = is.map .integer ∧ bs = is.map UInt8.ofInt
  | [], _, _, h, hb => by
    cases h
    cases hb
    exact ⟨[], rfl, rfl⟩
  | .int i :: vs, _, bs, h, hb => by
    simp only [Eval.bytes, Option.map_eq_some_iff] at hb
    obtain ⟨cs, h1, rfl⟩ := hb
    cases h with
    | cons h2 h3 =>
      cases h2
      obtain ⟨is, rfl, rfl⟩ := holds_bytes h3 h1
      exact ⟨i :: is, rfl, rfl⟩
  | .nil :: _, _, _, _, hb | .bool _ :: _, _, _, _, hb | .float _ :: _, _, _, _, hb | .symbol _ :: _, _, _, _, hb
  | .string _ :: _, _, _, _, hb | .slice _ :: _, _, _, _, hb | .pair .. :: _, _, _, _, hb
  | .type _ :: _, _, _, _, hb | .function .. :: _, _, _, _, hb | .unknown :: _, _, _, _, hb => by simp [Eval.bytes] at hb

namespace Setup

variable {C : Setup} {B k L i j : Nat} {vm : VM} {σ : Slots}

/-- What executing an instruction says about a result. -/
def Executes (C : Setup) (k : Nat) (vm : VM) (m : Instr) (r : Result Value) : Prop :=
  match r with
  | .ok v => ∃ o, exec C.env C.cell (C.at_ k) (C.at_ (k + 1)) m vm = .ok (.goto (C.at_ (k + 1))) (Spec.pushed vm o) ∧
      Good (Spec.pushed vm o) ∧ Holds C.ids vm o v
  | .error e => exec C.env C.cell (C.at_ k) (C.at_ (k + 1)) m vm = .err e vm
  | .undefined => exec C.env C.cell (C.at_ k) (C.at_ (k + 1)) m vm = .ub
  | .unfinished => False
  | .outside => True

theorem lead_exec {ins : Ins} {m : Instr} {r : Result Value} (hi : C.program[k]? = some ins)
    (hq : quiet C.strip ins = false) (hm : meaning C.strip ins = some m) (h : C.At vm L σ) (hr : Executes C k vm m r) :
    C.Leads B k vm r (k + 1) fun v vm' => C.At vm' (L + 1) (upd σ L v) := by
  cases r with
  | ok v =>
    obtain ⟨o, h1, h2, h3⟩ := hr
    exact Leads.step (goes_plain hi hm h.ready h1)
      (h.push h2 (Extends.refl vm |>.pushed o) rfl rfl (holds_heap (vm := vm) rfl h3))
  | error e => exact Leads.fails ⟨_, hi, hq⟩ (goes_plain hi hm h.ready hr)
  | undefined => exact Leads.undefined ⟨_, hi, hq⟩ (goes_plain hi hm h.ready hr)
  | unfinished => cases hr
  | outside => trivial

theorem lead_new {ins : Ins} {m : Instr} {s : Bytes} (hi : C.program[k]? = some ins)
    (hq : quiet C.strip ins = false) (hm : meaning C.strip ins = some m) (hp : IsPlain m) (h : C.At vm L σ)
    (hmem : C.memory = true)
    (post : Post False (fun e s' => e = .outOfMemory ∧ Good s' ∧ Carried vm s')
      (fun _ s' => ∃ s1 o, NewString vm s1 o s ∧ s' = Spec.pushed s1 o) (plain C.env C.cell (C.at_ k) m vm)) :
    C.Leads B k vm (.ok (.string s)) (k + 1) fun v vm' => C.At vm' (L + 1) (upd σ L v) := by
  rcases exec_plain_post (nx := C.at_ (k + 1)) hp post with ⟨vm', he, s1, o, hn, rfl⟩ | ⟨e, vm', he, rfl, -⟩
  · refine Leads.step (goes_plain hi hm h.ready he) ?_
    obtain ⟨r, rfl, -, -⟩ := hn.value
    refine h.push (hn.good.pushed hn.ok) ((hn.carried.extends).pushed _) ?_ ?_ (holds_heap (vm := s1) rfl (.string hn.text))
    · simp only [Spec.pushed]; rw [hn.carried.roots.stack]
    · simp only [Spec.pushed]; rw [hn.carried.roots.upStack]
  · exact .inr ⟨hmem, 0, _, _, .refl _, ⟨_, hi, hq⟩, .inr ⟨vm', goes_plain hi hm h.ready he⟩⟩

variable (C k)

theorem exec_car_text (hg : Good vm) {a : Nat} {p : Option Nat} {off : Int} {len : Nat} {s : Bytes}
    (ha : Spec.operand vm a = some (.string p off len)) (hs : Spec.text vm (.string p off len) = s) :
    Executes C k vm (.car a) (.ok (firstByte s)) := by
  have := C32_car C.env C.cell (C.at_ k) (C.at_ (k + 1)) vm hg a p off len ha
  rw [hs] at this
  cases s with
  | nil => exact ⟨_, this, hg.pushed ⟨rfl, rfl⟩, .slice rfl⟩
  | cons b s =>
    refine ⟨_, this, hg.pushed ?_, .int _⟩
    have := b.toNat_lt
    simp only [ValueOk]
    omega

theorem exec_cdr_text (hg : Good vm) {a : Nat} {p : Option Nat} {off : Int} {len : Nat} {s : Bytes}
    (ha : Spec.operand vm a = some (.string p off len)) (hs : Spec.text vm (.string p off len) = s) :
    Executes C k vm (.cdr a) (.ok (.slice s.tail)) := by
  obtain ⟨q, off', len', h1, h2, h3⟩ := C32_cdr C.env C.cell (C.at_ k) (C.at_ (k + 1)) vm hg a p off len ha
  exact ⟨_, h1, h3, .slice (by rw [h2, hs])⟩

theorem exec_length_text (hg : Good vm) {a : Nat} {p : Option Nat} {off : Int} {len : Nat} {s : Bytes}
    (ha : Spec.operand vm a = some (.string p off len)) (hs : Spec.text vm (.string p off len) = s) :
    Executes C k vm (.length a) (.ok (.int s.length)) := by
  have := C32_length C.env C.cell (C.at_ k) (C.at_ (k + 1)) vm hg a p off len ha
  rw [hs] at this
  refine ⟨_, this, hg.pushed ?_, .int _⟩
  have hlt : s.length < 2 ^ 63 := by
    rw [← hs]
    cases p with
    | none => simp [Spec.text]
    | some r =>
      obtain ⟨k, v, n, w, rfl, h1, h2, h3, hw, hwv, hv, hl, ht⟩ := string_cell hg ha
      rw [ht]
      simp
      omega
  simp only [ValueOk]
  omega

theorem exec_length_list (hg : Good vm) {a : Nat} {p : Option Nat} {xs : List Obj}
    (ha : Spec.operand vm a = some (.list p)) (hp : ListOf vm p xs) :
    Executes C k vm (.length a) (.ok (.int xs.length)) := by
  obtain ⟨cs, h1, h2⟩ := DuckLisp.VM.ListOf.chain hp
  obtain ⟨cs', t, h3, h4⟩ :=
    (C28_length_of_any_list C.env C.cell (C.at_ k) (C.at_ (k + 1)) vm hg.sound a p ha).2 (chain_not_endless h1)
  have hu : ∀ {p cs cs' t t'}, Chain vm.heap p cs t → Chain vm.heap p cs' t' → cs.length = cs'.length := by
    intro p cs cs' t t' h
    induction h generalizing cs' t' with
    | nil => intro h'; cases h'; rfl
    | tail h ho =>
      intro h'
      cases h' with
      | tail => rfl
      | cons h2 _ =>
        rw [h] at h2
        cases h2
        exact absurd rfl (ho _ _)
    | cons h _ ih =>
      intro h'
      cases h' with
      | tail h2 ho =>
        rw [h] at h2
        cases h2
        exact absurd rfl (ho _ _)
      | cons h2 h3 =>
        rw [h] at h2
        cases h2
        simp [ih h3]
  have he : cs'.length = xs.length := (hu h3 h1).trans h2
  have hh := hg.sound.heap_size
  have hl := DuckLisp.VM.ListOf.length_le hp
  rw [he] at h4
  refine ⟨_, h4, hg.pushed ?_, .int _⟩
  simp only [ValueOk]
  omega

theorem exec_get_text (hg : Good vm) {a b : Nat} {p : Option Nat} {off : Int} {len : Nat} {s : Bytes} {o : Obj} {y : Value}
    (ha : Spec.operand vm a = some (.string p off len)) (hs : Spec.text vm (.string p off len) = s)
    (hb : Spec.operand vm b = some o) (hy : Holds C.ids vm o y) :
    Executes C k vm (.getVecElt a b) (Eval.byteAt s y) := by
  have other : (∀ i, o ≠ .integer i) → Executes C k vm (.getVecElt a b) (.error .invalidValue) := by
    intro hne
    refine exec_plain_err trivial ?_
    show iGetVecElt a b vm = _
    unfold iGetVecElt
    rw [M.bind_ok (getArg_some ha)]
    simp only
    rw [M.bind_ok (getArg_some hb)]
    cases o <;> first | rfl | exact absurd rfl (hne _)
  cases hy with
  | unknown => trivial
  | int i =>
    have := C32_get C.env C.cell (C.at_ k) (C.at_ (k + 1)) vm hg a b p off i len ha hb
    rw [hs] at this
    simp only [Eval.byteAt]
    cases hc : (if 0 ≤ i then s[i.toNat]? else none) with
    | none => rw [hc] at this; exact this
    | some c =>
      rw [hc] at this
      refine ⟨_, this, hg.pushed ?_, .int _⟩
      have := c.toNat_lt
      simp only [ValueOk]
      omega
  | _ => exact other (by intro i h; cases h)

theorem exec_substring_text (hg : Good vm) {a b c : Nat} {p : Option Nat} {off : Int} {len : Nat} {s : Bytes}
    {o q : Obj} {y z : Value}
    (ha : Spec.operand vm a = some (.string p off len)) (hs : Spec.text vm (.string p off len) = s)
    (hb : Spec.operand vm b = some o) (hy : Holds C.ids vm o y) (hc : Spec.operand vm c = some q) (hz : Holds C.ids vm q z) :
    Executes C k vm (.substring a b c) (between s y z) := by
  have first : (∀ i, o ≠ .integer i) → Executes C k vm (.substring a b c) (.error .invalidValue) := by
    intro hne
    refine exec_plain_err trivial ?_
    show iSubstring a b c vm = _
    unfold iSubstring
    rw [M.bind_ok (getArg_some ha)]
    simp only
    rw [M.bind_ok (getArg_some hb)]
    cases o <;> first | rfl | exact absurd rfl (hne _)
  have second : ∀ i, o = .integer i → (∀ i, q ≠ .integer i) → Executes C k vm (.substring a b c) (.error .invalidValue) := by
    rintro i rfl hne
    refine exec_plain_err trivial ?_
    show iSubstring a b c vm = _
    unfold iSubstring
    rw [M.bind_ok (getArg_some ha)]
    simp only
    rw [M.bind_ok (getArg_some hb)]
    simp only
    split
    · rfl
    · rw [M.bind_ok (getArg_some hc)]
      cases q <;> first | rfl | exact absurd rfl (hne _)
  cases hy with
  | unknown => trivial
  | int i =>
    cases hz with
    | unknown => trivial
    | int j =>
      have := C32_substring C.env C.cell (C.at_ k) (C.at_ (k + 1)) vm hg a b c p off i j len ha hb hc
      rw [hs] at this
      simp only [between]
      split
      · rename_i hr
        obtain ⟨q, off', len', h1, h2, h3⟩ := this.1 hr
        exact ⟨_, h1, h3, .slice h2⟩
      · rename_i hr
        exact this.2 hr
    | _ => exact second i rfl (by intro i h; cases h)
  | _ => exact first (by intro i h; cases h)

end Setup

end DuckLisp.Compile
