import Verif.Model.AstObj
import Verif.Spec.AstObj
import Verif.Proof.VM.Grown
import Verif.Proof.VM.Vectors
import Verif.Proof.Compile.Tables
import Verif.Proof.Compile.Rules

/-! # Syntax trees and objects: lemmas -/

namespace DuckLisp.AstObj

open DuckLisp.VM DuckLisp.Reader DuckLisp.Spec

set_option linter.unusedSectionVars false

variable [Entries]

/-! ### From objects to trees -/

theorem partToAST_of {vm : VM} {u : Bool} {a : Option Ref} {x : Obj} {e : Ast} {N : Nat} (h : Part vm a x)
    (he : ∀ f, N ≤ f → objectToAST vm u f x = .ok e) : ∀ f, N + 1 ≤ f → partToAST vm u f a = .ok e := by
  intro f hf
  obtain ⟨f, rfl⟩ : ∃ g, f = g + 1 := ⟨f - 1, by omega⟩
  cases h with
  | empty =>
      have := he (f + 1) (by omega)
      simpa only [objectToAST, partToAST] using this
  | pair h =>
      have := he (f + 1) (by omega)
      simp only [partToAST, h]
      simpa only [objectToAST] using this
  | value h ho =>
      have := he f (by omega)
      simp only [partToAST, h]
      exact this

theorem rest_of {vm : VM} {d p : Option Ref} (h : Part vm d (.list p)) : rest vm d = .ok (some p) := by
  cases h with
  | empty => rfl
  | pair h => simp [rest, h]
  | value h ho => simp [rest, h]

theorem objectToAST_of {ids : Bytes → Nat → Prop} {vm : VM} {o : Obj} {e : Ast} (h : Shown ids vm o e) :
    (∃ N, ∀ f, N ≤ f → objectToAST vm true f o = .ok e) ∧
    ∀ p es, o = .list p → e = .expression es → ∃ N, ∀ f, N ≤ f →
      (∀ n, consListLength vm f p n = .ok (n + es.length)) ∧
      ∀ j, exprElements vm f p j (j + es.length) = .ok es := by
  have one : ∀ {o : Obj} {e : Ast}, (∀ f, objectToAST vm true (f + 1) o = .ok e) →
      ∃ N, ∀ f, N ≤ f → objectToAST vm true f o = .ok e := by
    intro o e h
    refine ⟨1, fun f hf => ?_⟩
    obtain ⟨f, rfl⟩ : ∃ g, f = g + 1 := ⟨f - 1, by omega⟩
    exact h f
  induction h with
  | bool b => exact ⟨one fun f => by simp [objectToAST], fun p es h => by cases h⟩
  | int b => exact ⟨one fun f => by simp [objectToAST], fun p es h => by cases h⟩
  | float b => exact ⟨one fun f => by simp [objectToAST], fun p es h => by cases h⟩
  | type b => exact ⟨one fun f => by simp [objectToAST], fun p es h => by cases h⟩
  | @string r n len off bytes h ho hl =>
      refine ⟨one fun f => ?_, fun p es h => by cases h⟩
      have hb : stringBytes vm (some r) off len = .ok ((bytes.take len).drop off) := by
        unfold stringBytes
        by_cases hlen : (off : Int) = len
        · rw [if_pos hlen]
          have : off = len := by omega
          subst this
          rw [List.drop_eq_nil_of_le (by simp; omega)]
        · rw [if_neg hlen]
          simp only [h]
          rw [if_pos (by omega)]
          simp
      simp [objectToAST, hb]
  | noText =>
      refine ⟨one fun f => ?_, fun p es h => by cases h⟩
      simp [objectToAST, stringBytes]
  | @symbol id r n v h hn hid =>
      refine ⟨one fun f => ?_, fun p es h => by cases h⟩
      have hb : symbolBytes vm (some r) = .ok ((v.getD []).take n) := by
        simp only [symbolBytes, h]
        rw [if_pos hn]
      simp [objectToAST, hb]
  | nil =>
      refine ⟨⟨2, fun f hf => ?_⟩, fun p es h h' => ?_⟩
      · obtain ⟨f, rfl⟩ : ∃ g, f = g + 2 := ⟨f - 2, by omega⟩
        simp [objectToAST, consToExprAST]
      · cases h; cases h'
        refine ⟨1, fun f hf => ?_⟩
        obtain ⟨f, rfl⟩ : ∃ g, f = g + 1 := ⟨f - 1, by omega⟩
        exact ⟨fun n => by simp [consListLength], fun j => by simp [exprElements]⟩
  | @pair r x y e es h ha hd iha ihd =>
      obtain ⟨a, d, hr, hax, hdy⟩ := h
      obtain ⟨N1, h1⟩ := iha.1
      have hy : ∃ p, y = .list p := by
        cases hd with
        | nil => exact ⟨_, rfl⟩
        | pair _ _ _ => exact ⟨_, rfl⟩
      obtain ⟨p, rfl⟩ := hy
      obtain ⟨N2, h2⟩ := ihd.2 p es rfl rfl
      have hrest := rest_of hdy
      have key : ∀ f, N1 + N2 + 2 ≤ f →
          (∀ n, consListLength vm f (some r) n = .ok (n + (e :: es).length)) ∧
          ∀ j, exprElements vm f (some r) j (j + (e :: es).length) = .ok (e :: es) := by
        intro f hf
        obtain ⟨f, rfl⟩ : ∃ g, f = g + 1 := ⟨f - 1, by omega⟩
        refine ⟨fun n => ?_, fun j => ?_⟩
        · simp only [consListLength, hr, hrest, List.length_cons]
          rw [(h2 f (by omega)).1]
          congr 1; omega
        · simp only [exprElements, hr, List.length_cons]
          rw [if_pos (by omega), partToAST_of hax h1 f (by omega)]
          have := (h2 f (by omega)).2 (j + 1)
          rw [show j + 1 + es.length = j + (es.length + 1) by omega] at this
          simp [hrest, this]
      refine ⟨⟨N1 + N2 + 4, fun f hf => ?_⟩, fun p' es' h h' => ?_⟩
      · obtain ⟨f, rfl⟩ : ∃ g, f = g + 2 := ⟨f - 2, by omega⟩
        obtain ⟨k1, k2⟩ := key f (by omega)
        have k2 := k2 0
        have k1 := k1 0
        simp only [Nat.zero_add] at k1 k2
        simp only [objectToAST, if_true, consToExprAST, k1, Res.bind_ok, k2]
      · cases h; cases h'
        exact ⟨_, key⟩

theorem bind_ok_inv {α β : Type} {m : Res α} {f : α → Res β} {b : β} (h : (m >>= f) = .ok b) :
    ∃ a, m = .ok a ∧ f a = .ok b := by
  cases m with
  | ok a => exact ⟨a, rfl, h⟩
  | err e => cases h
  | ub => cases h
  | timeout => cases h

theorem rest_inv {vm : VM} {d : Option Ref} {p : Option Ref} (h : rest vm d = .ok (some p)) :
    Part vm d (.list p) := by
  unfold rest at h
  split at h
  · cases h; exact .empty
  · split at h
    · rename_i hh; cases h; exact .value hh (by intro a d h; cases h)
    · rename_i hh; cases h; exact .pair hh
    · cases h
    · cases h

theorem shown_inv (vm : VM) : ∀ f,
    (∀ o e, objectToAST vm true f o = .ok e → Shown (fun _ _ => True) vm o e) ∧
    (∀ a e, partToAST vm true f a = .ok e → ∃ x, Part vm a x ∧ Shown (fun _ _ => True) vm x e) ∧
    (∀ p e, consToExprAST vm f p = .ok e → Shown (fun _ _ => True) vm (.list p) e) ∧
    ∀ p j len es n, exprElements vm f p j len = .ok es → consListLength vm f p n = .ok (n + (len - j)) →
      Shown (fun _ _ => True) vm (.list p) (.expression es) := by
  intro f
  induction f with
  | zero =>
      refine ⟨?_, ?_, ?_, ?_⟩
      · intro o e h; simp [objectToAST] at h
      · intro o e h; simp [partToAST] at h
      · intro o e h; simp [consToExprAST] at h
      · intro p j len es n h; simp [exprElements] at h
  | succ f ih =>
      obtain ⟨ih1, ih2, ih3, ih4⟩ := ih
      refine ⟨?_, ?_, ?_, ?_⟩
      · intro o e h
        simp only [objectToAST] at h
        split at h
        · cases h; exact .bool _
        · cases h; exact .int _
        · cases h; exact .float _
        · rename_i p offset length
          obtain ⟨s, hs, h⟩ := bind_ok_inv h
          cases h
          unfold stringBytes at hs
          split at hs
          · rename_i hl; cases hs; subst hl; exact .noText
          · split at hs
            · cases hs
            · split at hs
              · rename_i r _ bytes n hr
                split at hs
                · rename_i hb
                  cases hs
                  obtain ⟨off, rfl⟩ : ∃ k : Nat, offset = k := ⟨offset.toNat, by omega⟩
                  exact .string hr (by omega) hb.2.2
                · cases hs
              · cases hs
        · rw [if_pos trivial] at h
          exact ih3 _ _ h
        · obtain ⟨s, hs, h⟩ := bind_ok_inv h
          cases h
          unfold symbolBytes at hs
          split at hs
          · cases hs
          · split at hs
            · rename_i r _ v n hr
              split at hs
              · rename_i hn
                cases hs
                exact .symbol hr hn trivial
              · cases hs
            · cases hs
        · cases h; exact .type _
        · cases h
      · intro a e h
        cases a with
        | none =>
            simp only [partToAST, if_true] at h
            exact ⟨_, .empty, ih3 _ _ h⟩
        | some r =>
            simp only [partToAST, if_true] at h
            split at h
            · rename_i hr
              exact ⟨_, .pair hr, ih3 _ _ h⟩
            · rename_i o ho hr
              exact ⟨_, .value hr (fun a d e => ho a d (by rw [e])), ih1 _ _ h⟩
            · cases h
      · intro p e h
        cases p with
        | none =>
            simp only [consToExprAST] at h
            cases h
            exact .nil
        | some c =>
            simp only [consToExprAST] at h
            obtain ⟨len, hl, h⟩ := bind_ok_inv h
            obtain ⟨es, he, h⟩ := bind_ok_inv h
            cases h
            exact ih4 _ _ _ _ 0 he (by simpa using hl)
      · intro p j len es n h hl
        cases p with
        | none =>
            simp only [exprElements] at h
            simp only [consListLength] at hl
            have : len - j = 0 := by
              have := Res.ok.inj hl
              omega
            rw [this] at h
            cases h
            exact .nil
        | some c =>
            simp only [exprElements] at h
            simp only [consListLength] at hl
            split at h
            · rename_i a d hc
              split at h
              · rename_i hj
                obtain ⟨e, he, h⟩ := bind_ok_inv h
                obtain ⟨next, hn, h⟩ := bind_ok_inv h
                cases next with
                | none => cases h
                | some next =>
                    obtain ⟨es', hes, h⟩ := bind_ok_inv h
                    cases h
                    simp only [hc, hn] at hl
                    obtain ⟨x, hx, hs⟩ := ih2 _ _ he
                    refine .pair ⟨a, d, hc, hx, rest_inv hn⟩ hs (ih4 _ _ _ _ (n + 1) hes ?_)
                    rw [hl]
                    congr 1; omega
              · cases h
            · cases h

/-! ### Where it goes wrong -/

theorem valueOk_of_cell {vm : VM} (hs : Sound vm) {r : Ref} (h : Live vm r .value) :
    ∃ o, vm.heap[r]? = some o ∧ ValueOk vm o ∧ ∀ a d, o ≠ .cons a d := by
  obtain ⟨hf, o, ho, hsh⟩ := h
  have hc := hs.cells r o ho hf
  refine ⟨o, ho, ?_, ?_⟩
  · cases o <;> first | exact hc | (simp [shape] at hsh)
  · intro a d e; subst e; simp [shape] at hsh

theorem cons_of_live {vm : VM} {r : Ref} (h : Live vm r .pair) : ∃ a d, vm.heap[r]? = some (.cons a d) := by
  obtain ⟨hf, o, ho, hsh⟩ := h
  cases o with
  | internalVector v n i => simp [shape] at hsh
  | cons a d => exact ⟨a, d, ho⟩
  | _ => simp [shape] at hsh

theorem part_exists {vm : VM} (hs : Sound vm) {a : Option Ref} (h : PartOk vm a) :
    ∃ x, Part vm a x ∧ ValueOk vm x := by
  cases a with
  | none => exact ⟨_, .empty, trivial⟩
  | some r =>
      rcases h with h | h
      · obtain ⟨o, ho, hv, hn⟩ := valueOk_of_cell hs h
        exact ⟨o, .value ho hn, hv⟩
      · obtain ⟨a, d, hr⟩ := cons_of_live h
        exact ⟨_, .pair hr, h⟩

theorem part_unique {vm : VM} {a : Option Ref} {x y : Obj} (hx : Part vm a x) (hy : Part vm a y) : x = y := by
  cases hx with
  | empty => cases hy; rfl
  | pair h =>
      cases hy with
      | pair h' => rfl
      | value h' ho => rw [h] at h'; cases h'; exact absurd rfl (ho _ _)
  | value h ho =>
      cases hy with
      | pair h' => rw [h] at h'; cases h'; exact absurd rfl (ho _ _)
      | value h' ho' => rw [h] at h'; cases h'; rfl

theorem pair_parts {vm : VM} (hs : Sound vm) {r : Ref} (h : Live vm r .pair) :
    ∃ a d x y, vm.heap[r]? = some (.cons a d) ∧ PartOk vm a ∧ PartOk vm d ∧ Part vm a x ∧ Part vm d y ∧
      ValueOk vm x ∧ ValueOk vm y := by
  obtain ⟨a, d, hr⟩ := cons_of_live h
  obtain ⟨ha, hd⟩ : PartOk vm a ∧ PartOk vm d := hs.cells r _ hr h.1
  obtain ⟨x, hx, hvx⟩ := part_exists hs ha
  obtain ⟨y, hy, hvy⟩ := part_exists hs hd
  exact ⟨a, d, x, y, hr, ha, hd, hx, hy, hvx, hvy⟩

theorem rest_part {vm : VM} {d : Option Ref} {y : Obj} (h : Part vm d y) :
    (∃ p, y = .list p ∧ rest vm d = .ok (some p)) ∨ ((∀ p, y ≠ .list p) ∧ rest vm d = .ok none) := by
  by_cases hy : ∃ p, y = .list p
  · obtain ⟨p, rfl⟩ := hy
    exact .inl ⟨p, rfl, rest_of h⟩
  · refine .inr ⟨fun p e => hy ⟨p, e⟩, ?_⟩
    cases h with
    | empty => exact absurd ⟨_, rfl⟩ hy
    | pair h => exact absurd ⟨_, rfl⟩ hy
    | @value c _ h ho =>
        simp only [rest, h]
        cases y with
        | list p => exact absurd ⟨p, rfl⟩ hy
        | cons a d => exact absurd rfl (ho a d)
        | _ => rfl

theorem stringBytes_ok {vm : VM} (hs : Sound vm) {p : Option Ref} {off : Int} {len : Nat}
    (h : ValueOk vm (.string p off len)) :
    stringBytes vm p off len = .ok (Spec.text vm (.string p off len)) := by
  cases p with
  | none =>
      obtain ⟨rfl, rfl⟩ : off = 0 ∧ len = 0 := h
      rfl
  | some r =>
      obtain ⟨h1, h2, n, hn, hf, o, ho, hsh⟩ : 0 ≤ off ∧ off ≤ len ∧ ∃ n, len ≤ n ∧ Live vm r (.text n) := h
      have hc := hs.cells r o ho hf
      obtain ⟨v, rfl⟩ : ∃ v, o = .internalString v n := by
        cases o <;> simp [shape] at hsh
        exact ⟨_, by rw [hsh]⟩
      obtain ⟨hc, -⟩ : (v.getD []).length = n ∧ n < 2 ^ 63 := hc
      cases v with
      | none =>
          simp at hc
          have hl : off = len := by omega
          simp only [stringBytes, Spec.text, ho]
          rw [if_pos hl]
      | some bytes =>
          simp only [Option.getD_some] at hc
          simp only [stringBytes, Spec.text, ho]
          by_cases hl : off = len
          · rw [if_pos hl, List.drop_eq_nil_of_le (by simp; omega)]
          · rw [if_neg hl, if_pos (by omega)]

theorem symbolBytes_ub {vm : VM} (hs : Sound vm) {id : Nat} {p : Option Ref} (h : ValueOk vm (.symbol id p))
    (hu : symbolBytes vm p = .ub) : p = none := by
  cases p with
  | none => rfl
  | some r =>
      obtain ⟨n, hf, o, ho, hsh⟩ : ∃ n, Live vm r (.text n) := h
      have hc := hs.cells r o ho hf
      obtain ⟨v, rfl⟩ : ∃ v, o = .internalString v n := by
        cases o <;> simp [shape] at hsh
        exact ⟨_, by rw [hsh]⟩
      obtain ⟨hc, -⟩ : (v.getD []).length = n ∧ n < 2 ^ 63 := hc
      simp only [symbolBytes, ho] at hu
      rw [if_pos (by omega)] at hu
      cases hu

theorem bind_ub_inv {α β : Type} {m : Res α} {f : α → Res β} (h : (m >>= f) = .ub) :
    m = .ub ∨ ∃ a, m = .ok a ∧ f a = .ub := by
  cases m with
  | ok a => exact .inr ⟨a, rfl, h⟩
  | err e => cases h
  | ub => exact .inl rfl
  | timeout => cases h

theorem consListLength_ub {vm : VM} (hs : Sound vm) : ∀ f p n, ValueOk vm (.list p) →
    consListLength vm f p n ≠ .ub := by
  intro f
  induction f with
  | zero => intro p n _ h; simp [consListLength] at h
  | succ f ih =>
      intro p n hv h
      cases p with
      | none => simp [consListLength] at h
      | some c =>
          obtain ⟨a, d, x, y, hr, ha, hd, hx, hy, hvx, hvy⟩ := pair_parts hs hv
          simp only [consListLength, hr] at h
          rcases rest_part hy with ⟨p, rfl, hp⟩ | ⟨-, hp⟩
          · simp only [hp] at h
            exact ih _ _ hvy h
          · simp only [hp] at h
            cases h

theorem consListLength_ge {vm : VM} : ∀ {f p} n L, consListLength vm f p n = .ok L → n ≤ L := by
  intro f
  induction f with
  | zero => intro p n L h; simp [consListLength] at h
  | succ f ih =>
      intro p n L h
      cases p with
      | none => simp only [consListLength] at h; cases h; omega
      | some c =>
          simp only [consListLength] at h
          split at h
          · split at h
            · have := ih _ _ h; omega
            · cases h; omega
            all_goals cases h
          · cases h

/-- Something that the conversion cannot deal with. -/
def Faulty (vm : VM) (u : Bool) (z : Obj) : Prop := Stripped z ∨ (u = true ∧ Improper vm z)

theorem ub_inv {vm : VM} (hs : Sound vm) (u : Bool) : ∀ f,
    (∀ o, ValueOk vm o → objectToAST vm u f o = .ub → ∃ z, Inside vm z o ∧ Faulty vm u z) ∧
    (∀ a x, Part vm a x → ValueOk vm x → partToAST vm u f a = .ub → ∃ z, Inside vm z x ∧ Faulty vm u z) ∧
    (∀ p, u = true → ValueOk vm (.list p) → consToExprAST vm f p = .ub →
      ∃ z, Inside vm z (.list p) ∧ Faulty vm u z) ∧
    (∀ p j len n, u = true → ValueOk vm (.list p) → exprElements vm f p j len = .ub →
      consListLength vm f p n = .ok (n + (len - j)) → ∃ z, Inside vm z (.list p) ∧ Faulty vm u z) ∧
    (∀ p, u = false → ValueOk vm (.list p) → consToConsAST vm f p = .ub →
      ∃ z, Inside vm z (.list p) ∧ Faulty vm u z) := by
  intro f
  induction f with
  | zero =>
      refine ⟨?_, ?_, ?_, ?_, ?_⟩
      · intro o _ h; simp [objectToAST] at h
      · intro a x _ _ h; simp [partToAST] at h
      · intro p _ _ h; simp [consToExprAST] at h
      · intro p j len n _ _ h; simp [exprElements] at h
      · intro p _ _ h; simp [consToConsAST] at h
  | succ f ih =>
      obtain ⟨ih1, ih2, ih3, ih4, ih5⟩ := ih
      have lists : ∀ p, ValueOk vm (.list p) →
          (if u then consToExprAST vm f p else consToConsAST vm f p) = .ub →
          ∃ z, Inside vm z (.list p) ∧ Faulty vm u z := by
        intro p hv h
        cases hu : u with
        | true =>
            rw [hu, if_pos rfl] at h
            rw [← hu]
            exact ih3 p hu hv h
        | false =>
            rw [hu, if_neg (by simp)] at h
            rw [← hu]
            exact ih5 p hu hv h
      refine ⟨?_, ?_, ?_, ?_, ?_⟩
      · intro o hv h
        simp only [objectToAST] at h
        split at h
        · cases h
        · cases h
        · cases h
        · rw [stringBytes_ok hs hv] at h
          cases h
        · exact lists _ hv h
        · rename_i id p
          rcases bind_ub_inv h with h | ⟨s, _, h⟩
          · cases symbolBytes_ub hs hv h
            exact ⟨_, .here, .inl ⟨_, rfl⟩⟩
          · cases h
        · cases h
        · cases h
      · intro a x hp hv h
        cases hp with
        | empty =>
            simp only [partToAST] at h
            exact lists _ hv h
        | pair hr =>
            simp only [partToAST, hr] at h
            exact lists _ hv h
        | value hr ho =>
            simp only [partToAST, hr] at h
            exact ih1 _ hv h
      · intro p hu hv h
        cases p with
        | none => simp [consToExprAST] at h
        | some c =>
            simp only [consToExprAST] at h
            rcases bind_ub_inv h with h | ⟨len, hl, h⟩
            · exact absurd h (consListLength_ub hs _ _ _ hv)
            · rcases bind_ub_inv h with h | ⟨es, he, h⟩
              · exact ih4 _ _ _ 0 hu hv h (by simpa using hl)
              · cases h
      · intro p j len n hu hv h hl
        cases p with
        | none => simp [exprElements] at h
        | some c =>
            obtain ⟨a, d, x, y, hr, ha, hd, hx, hy, hvx, hvy⟩ := pair_parts hs hv
            have hpair : IsPair vm c x y := ⟨a, d, hr, hx, hy⟩
            simp only [exprElements, hr] at h
            simp only [consListLength, hr] at hl
            rcases rest_part hy with ⟨p, rfl, hp⟩ | ⟨hn, hp⟩
            · simp only [hp] at hl
              by_cases hj : j < len
              · rw [if_pos hj] at h
                rcases bind_ub_inv h with h | ⟨e, he, h⟩
                · obtain ⟨z, hz, hf⟩ := ih2 _ _ hx hvx (by rw [hu]; exact h)
                  exact ⟨z, .first hpair hz, hf⟩
                · simp only [hp, Res.bind_ok] at h
                  rcases bind_ub_inv h with h | ⟨es, hes, h⟩
                  · obtain ⟨z, hz, hf⟩ := ih4 _ _ _ (n + 1) hu hvy h (by rw [hl]; congr 1; omega)
                    exact ⟨z, .rest hpair hz, hf⟩
                  · cases h
              · have := consListLength_ge _ _ hl
                omega
            · exact ⟨_, .here, .inr ⟨hu, _, _, _, rfl, hpair, hn⟩⟩
      · intro p hu hv h
        cases p with
        | none => simp [consToConsAST] at h
        | some c =>
            obtain ⟨a, d, x, y, hr, ha, hd, hx, hy, hvx, hvy⟩ := pair_parts hs hv
            have hpair : IsPair vm c x y := ⟨a, d, hr, hx, hy⟩
            simp only [consToConsAST, hr] at h
            subst hu
            rcases bind_ub_inv h with h | ⟨e, he, h⟩
            · obtain ⟨z, hz, hf⟩ := ih2 _ _ hx hvx h
              exact ⟨z, .first hpair hz, hf⟩
            · rcases bind_ub_inv h with h | ⟨e', he', h⟩
              · obtain ⟨z, hz, hf⟩ := ih2 _ _ hy hvy h
                exact ⟨z, .rest hpair hz, hf⟩
              · cases h

/-! ### Results of compile-time evaluation -/

theorem keyword_cons : Eval.keyword [95, 95, 99, 111, 110, 115] = some "cons" := by decide +kernel

/-- A tree whose value, wherever it stands, is `v`, and which is not a variable. -/
def Writes (e : Ast) (v : Eval.Value) : Prop :=
  (∀ x, e ≠ .identifier x) ∧ ∀ (S : Eval.Rules) F b env, S.memory = true → Eval.eval S F b e env = .ok (v, env)

theorem writes_pair {x y : Ast} {a d : Eval.Value} (hx : Writes x a) (hy : Writes y d) :
    Writes (.expression [.identifier [95, 95, 99, 111, 110, 115], x, y]) (.pair a d) := by
  refine ⟨fun x h => (nomatch h), fun S F b env hS => ?_⟩
  have ho : ∀ {e : Ast} {v}, (∀ x, e ≠ .identifier x) → Eval.operand e v env = .value v := by
    intro e v h
    cases e with
    | identifier x => exact absurd rfl (h x)
    | _ => rfl
  rw [Compile.eval_op2 .cons keyword_cons, hx.2 S F false env hS]
  show (do
    let (y, env) ← Eval.eval S F false y env
    let x ← (Eval.operand x a env).get env
    let y ← (Eval.operand _ y env).get env
    let v ← Eval.apply2 S.toSetting "cons" x y
    Eval.Result.ok (v, env)) = _
  rw [hy.2 S F false env hS]
  show (do
    let x ← (Eval.operand x a env).get env
    let y ← (Eval.operand y d env).get env
    let v ← Eval.apply2 S.toSetting "cons" x y
    Eval.Result.ok (v, env)) = _
  rw [ho hx.1, ho hy.1]
  show (do
    let v ← Eval.apply2 S.toSetting "cons" a d
    Eval.Result.ok (v, env)) = _
  simp only [Eval.apply2, hS]
  rfl

theorem consForm_of {ids : Eval.Reading} {vm : VM} (hs : Sound vm) {o : Obj} {v : Eval.Value}
    (h : Eval.Holds ids vm o v) (hv : ValueOk vm o) (hn : Nameless v) :
    ∃ e, Writes e (wholeTexts v) ∧ ∃ N, ∀ f, N ≤ f → objectToAST vm false f o = .ok e := by
  have one : ∀ {o : Obj} {e : Ast}, (∀ f, objectToAST vm false (f + 1) o = .ok e) →
      ∃ N, ∀ f, N ≤ f → objectToAST vm false f o = .ok e := by
    intro o e h
    refine ⟨1, fun f hf => ?_⟩
    obtain ⟨f, rfl⟩ : ∃ g, f = g + 1 := ⟨f - 1, by omega⟩
    exact h f
  induction h with
  | nil =>
      refine ⟨.expression [], ⟨fun x h => (nomatch h), fun S F b env _ => by simp [Eval.eval, wholeTexts]⟩, 2, fun f hf => ?_⟩
      obtain ⟨f, rfl⟩ : ∃ g, f = g + 2 := ⟨f - 2, by omega⟩
      simp [objectToAST, consToConsAST]
  | bool b =>
      refine ⟨.bool (b ≠ 0), ⟨fun x h => (nomatch h), fun S F b' env _ => ?_⟩, one fun f => by simp [objectToAST]⟩
      cases hn with
      | bool b => cases b <;> simp [Eval.eval, Eval.boolean, wholeTexts]
  | int i =>
      exact ⟨.int i, ⟨fun x h => (nomatch h), fun S F b env _ => by simp [Eval.eval, wholeTexts]⟩,
        one fun f => by simp [objectToAST]⟩
  | float i =>
      exact ⟨.float i, ⟨fun x h => (nomatch h), fun S F b env _ => by simp [Eval.eval, wholeTexts]⟩,
        one fun f => by simp [objectToAST]⟩
  | symbol => cases hn
  | type => cases hn
  | function => cases hn
  | unknown => cases hn
  | @string r n s ht =>
      cases hn with
      | string _ hlen =>
          refine ⟨.string s, ⟨fun x h => (nomatch h), fun S F b env hS => ?_⟩, one fun f => ?_⟩
          · simp only [Eval.eval, Eval.text, hS]
            rw [if_pos ⟨trivial, hlen⟩]
            rfl
          · simp only [objectToAST]
            rw [stringBytes_ok hs hv, ht]
            rfl
  | @slice p off len s ht =>
      cases hn with
      | slice _ hlen =>
          refine ⟨.string s, ⟨fun x h => (nomatch h), fun S F b env hS => ?_⟩, one fun f => ?_⟩
          · simp only [Eval.eval, Eval.text, hS]
            rw [if_pos ⟨trivial, hlen⟩]
            rfl
          · simp only [objectToAST]
            rw [stringBytes_ok hs hv, ht]
            rfl
  | @pair r x y a d h hl ha hd iha ihd =>
      cases hn with
      | pair na nd =>
          obtain ⟨a', d', x', y', hr, pa, pd, hx, hy, hvx, hvy⟩ := pair_parts hs hv
          obtain ⟨a'', d'', hr', hx', hy'⟩ := h
          rw [hr] at hr'
          cases hr'
          cases part_unique hx hx'
          cases part_unique hy hy'
          obtain ⟨e1, w1, N1, h1⟩ := iha hvx na
          obtain ⟨e2, w2, N2, h2⟩ := ihd hvy nd
          refine ⟨_, writes_pair w1 w2, N1 + N2 + 4, fun f hf => ?_⟩
          obtain ⟨f, rfl⟩ : ∃ g, f = g + 2 := ⟨f - 2, by omega⟩
          simp only [objectToAST, consToConsAST, hr]
          rw [if_neg (by simp), partToAST_of hx h1 f (by omega), partToAST_of hy h2 f (by omega)]
          rfl

/-! ### From trees to objects -/

/-- The names of one table have the same numbers in the other. -/
def Extends (t t' : Tables.Symbols) : Prop := ∀ name (id : Nat), numbers t name id → numbers t' name id

/-- What a conversion of something that takes `k` cells leaves behind. -/
structure Converted (vm : VM) (t : Tables.Symbols) (k : Nat) (t' : Tables.Symbols) (vm' : VM) (o : Obj) (e : Ast) : Prop where
  sound : Sound vm'
  finished : Finished vm → Finished vm'
  grown : Grown vm vm' k
  value : ValueOk vm' o
  made : ∃ later, t' = Tables.createAll t later
  shown : ∀ vm'' l t'', Grown vm' vm'' l → Extends t' t'' → Shown (numbers t'') vm'' o e

theorem extends_holds {t t' : Tables.Symbols} {h later : List Bytes} (ht : Tables.Holds t h)
    (ht' : Tables.Holds t' (h ++ later)) : Extends t t' := by
  intro name id hn
  have h1 := ht.find name
  have h2 := ht'.find name
  have hn' : Tables.nameToValue t name = id := hn
  by_cases hm : name ∈ h
  · rw [if_pos hm] at h1
    rw [if_pos (List.mem_append_left _ hm)] at h2
    show Tables.nameToValue t' name = id
    obtain ⟨tl, htl⟩ := Tables.firsts_append_prefix h later
    rw [h2, ← hn', h1, ← htl, List.idxOf_append, if_pos ((Tables.mem_firsts h name).2 hm)]
  · rw [if_neg hm] at h1
    omega

theorem Extends.refl (t : Tables.Symbols) : Extends t t := fun _ _ h => h
theorem Extends.trans {a b c : Tables.Symbols} (h : Extends a b) (h' : Extends b c) : Extends a c :=
  fun n i hn => h' n i (h n i hn)

theorem bind_at {α β : Type} {m : M α} {f : α → M β} {s s' : VM} {a : α} (h : m s = .ok a s') :
    (m >>= f) s = f a s' := by rw [M.bind_run, h]

/-- The cell of a text. -/
theorem text_ok {vm : VM} (hs : Sound vm) (s : Bytes) (hl : s.length < 2 ^ 63) (hf : vm.free ≠ []) :
    ∃ c v vm', pushObject (.internalString (some s) s.length) vm = .ok c vm' ∧ Sound vm' ∧
      (Finished vm → Finished vm') ∧ Grown vm vm' 1 ∧ vm'.heap[c]? = some (.internalString v s.length) ∧
      v.getD [] = s ∧ (s ≠ [] → v = some s) ∧ c ∉ vm'.free := by
  have hst : ∀ n, ∃ v, store n (.internalString (some s) s.length) = .internalString v s.length ∧ v.getD [] = s ∧
      (s ≠ [] → v = some s) := by
    intro n
    by_cases h0 : s.length = 0
    · have : s = [] := List.length_eq_zero_iff.mp h0
      subst this
      exact ⟨none, rfl, rfl, fun h => absurd rfl h⟩
    · refine ⟨some s, ?_, rfl, fun _ => rfl⟩
      simp [store, h0]
  obtain ⟨c, n, vm', h1, h2, h3, h4, h5, h6⟩ := take_ok (o := .internalString (some s) s.length) hs hf
    (fun n => by
      obtain ⟨v, hv, hg, -⟩ := hst n
      rw [hv]
      exact ⟨by rw [hg], hl⟩)
    (fun n => by
      obtain ⟨v, hv, hg, -⟩ := hst n
      rw [hv]
      simp [UnderConstruction])
  obtain ⟨v, hv, hg, hne⟩ := hst n
  rw [hv] at h5
  exact ⟨c, v, vm', h1, h2, h3, h4, h5, hg, hne, h6⟩

theorem name_ok {vm : VM} {t : Tables.Symbols} {h : List Bytes} (name : Bytes) (hs : Sound vm)
    (ht : Tables.Holds t h) (hl : name.length < 2 ^ 63) (hf : vm.free ≠ []) :
    ∃ o vm', makeSymbol (Tables.nameToValue (Tables.create .enough t name).1 name).toNat name vm = .ok o vm' ∧
      Converted vm t 1 (Tables.create .enough t name).1 vm' o (.identifier name) := by
  obtain ⟨c, v, vm', h1, h2, h3, h4, h5, h6, -, h7⟩ := text_ok hs name hl hf
  have htab := Tables.holds_create ht name
  refine ⟨.symbol (Tables.nameToValue (Tables.create .enough t name).1 name).toNat (some c), vm', ?_, h2, h3, h4, ?_,
    ⟨[name], rfl⟩, ?_⟩
  · unfold makeSymbol
    rw [bind_at h1]
    rfl
  · exact ⟨name.length, h7, _, h5, rfl⟩
  · intro vm'' l t'' hg he
    have hc := hg.heap c h7
    rw [h5] at hc
    have hid : numbers t'' name (Tables.nameToValue (Tables.create .enough t name).1 name).toNat := by
      refine he name _ ?_
      show Tables.nameToValue _ name = _
      have := htab.find name
      rw [if_pos (by simp)] at this
      rw [this]
      rfl
    have e : (v.getD []).take name.length = name := by rw [h6]; simp
    have := Shown.symbol (ids := numbers t'') (vm := vm'')
      (id := (Tables.nameToValue (Tables.create .enough t name).1 name).toNat) hc (by rw [h6]; exact Nat.le_refl _)
      (by rw [e]; exact hid)
    rw [e] at this
    exact this

theorem Grown.refl (vm : VM) : Grown vm vm 0 := ⟨rfl, fun _ _ => rfl, rfl, SameRoots.refl vm⟩

theorem constant_ok {vm : VM} {t : Tables.Symbols} {o : Obj} {e : Ast} (hs : Sound vm) (hv : ValueOk vm o) (hsh : ∀ ids vm, Shown ids vm o e) : Converted vm t 0 t vm o e :=
  ⟨hs, id, Grown.refl vm, hv, ⟨[], rfl⟩, fun _ _ _ _ _ => hsh _ _⟩

theorem enough_free {vm vm' : VM} {k n : Nat} (h : Grown vm vm' k) (hn : k + n ≤ vm.free.length) :
    n ≤ vm'.free.length := by
  rw [h.free, List.length_drop]; omega

theorem free_ne {vm : VM} (h : 1 ≤ vm.free.length) : vm.free ≠ [] := by
  intro e; rw [e] at h; simp at h

mutual
theorem astToObject_ok (e : Ast) {t : Tables.Symbols} {h : List Bytes} {vm : VM} (he : Proper e) (hs : Sound vm)
    (ht : Tables.Holds t h) (hf : cellsFor e ≤ vm.free.length) :
    ∃ o t' vm', astToObject e t vm = .ok (o, t') vm' ∧ Converted vm t (cellsFor e) t' vm' o (asCode e) := by
  match e with
  | .bool b =>
      refine ⟨.bool (if b then 1 else 0), t, vm, by rw [astToObject]; rfl, constant_ok hs trivial fun ids vm => ?_⟩
      have := Shown.bool (ids := ids) (vm := vm) (if b then 1 else 0)
      cases b <;> simpa [asCode] using this
  | .int i => exact ⟨.integer i, t, vm, by rw [astToObject]; rfl, constant_ok hs he fun ids vm => .int i⟩
  | .float i => exact ⟨.float i, t, vm, by rw [astToObject]; rfl, constant_ok hs trivial fun ids vm => .float i⟩
  | .garbage => exact absurd he (by simp [Proper])
  | .identifier name =>
      obtain ⟨o, vm', h1, h2⟩ := name_ok name hs ht he (free_ne hf)
      exact ⟨o, _, vm', by rw [astToObject, bind_at h1]; rfl, h2⟩
  | .callback name =>
      obtain ⟨o, vm', h1, h2⟩ := name_ok name hs ht he (free_ne hf)
      exact ⟨o, _, vm', by rw [astToObject, bind_at h1]; rfl, h2⟩
  | .string s =>
      obtain ⟨c, v, vm', h1, h2, h3, h4, h5, h6, h7, h8⟩ := text_ok hs s he (free_ne hf)
      have hm : makeString s vm = .ok (.string (some c) 0 s.length) vm' := by
        unfold makeString
        rw [bind_at h1]
        rfl
      refine ⟨_, t, vm', by rw [astToObject, bind_at hm]; rfl, h2, h3, h4, ?_, ⟨[], rfl⟩, ?_⟩
      · exact ⟨Int.le_refl _, by omega, s.length, Nat.le_refl _, h8, _, h5, rfl⟩
      · intro vm'' l t'' hg _
        have hc := hg.heap c h8
        rw [h5] at hc
        by_cases h0 : s = []
        · subst h0
          exact .noText
        · rw [h7 h0] at hc
          have := Shown.string (ids := numbers t'') (vm := vm'') (off := 0) (len := s.length) hc (Nat.zero_le _)
            (Nat.le_refl _)
          simpa [asCode] using this
  | .expression es =>
      obtain ⟨p, t', vm', h1, h2⟩ := elementsToObject_ok es he hs ht hf
      exact ⟨.list p, t', vm', by rw [astToObject, bind_at h1]; rfl, h2⟩
  | .literal es =>
      obtain ⟨p, t', vm', h1, h2⟩ := elementsToObject_ok es he hs ht hf
      exact ⟨.list p, t', vm', by rw [astToObject, bind_at h1]; rfl, h2⟩

theorem elementsToObject_ok (es : List Ast) {t : Tables.Symbols} {h : List Bytes} {vm : VM} (he : ProperList es)
    (hs : Sound vm) (ht : Tables.Holds t h) (hf : cellsForList es ≤ vm.free.length) :
    ∃ p t' vm', elementsToObject es t vm = .ok (p, t') vm' ∧
      Converted vm t (cellsForList es) t' vm' (.list p) (.expression (asCodeList es)) := by
  match es with
  | [] => exact ⟨none, t, vm, by rw [elementsToObject]; rfl, constant_ok hs trivial fun ids vm => .nil⟩
  | e :: es =>
      simp only [cellsForList] at hf
      obtain ⟨p, t1, vm1, e1, c1⟩ := elementsToObject_ok es he.2 hs ht (by omega)
      obtain ⟨l1, ht1'⟩ := c1.made
      have ht1 : Tables.Holds t1 (h ++ l1) := by rw [ht1']; exact Tables.holds_createAll ht l1
      obtain ⟨o, t2, vm2, e2, c2⟩ := astToObject_ok e (vm := vm1) he.1 c1.sound ht1
        (enough_free c1.grown (by omega))
      obtain ⟨l2, ht2'⟩ := c2.made
      have ht2 : Tables.Holds t2 (h ++ l1 ++ l2) := by rw [ht2']; exact Tables.holds_createAll ht1 l2
      have g2 := c1.grown.trans c2.grown
      have hso : ∀ n, store n o = o := store_value c2.value
      have hcons : ∀ a d, o ≠ .cons a d := by
        intro a d e
        have := c2.value
        rw [e] at this
        exact this
      have hsh : shape o = .value := by
        have := c2.value
        cases o <;> first | rfl | exact absurd this (by simp [ValueOk])
      obtain ⟨hp, n3, vm3, e3, s3, f3, g3, cell3, nf3⟩ := take_ok (vm := vm2) (o := o) c2.sound
        (free_ne (enough_free g2 (by omega)))
        (fun n => by rw [hso]; exact cellOk_of_valueOk c2.value)
        (fun n => by rw [hso]; exact valueOk_settled c2.value)
      rw [hso] at cell3
      have g12 := c2.grown
      have ptail : ValueOk vm3 (.list p) := g3.valueOk (g12.valueOk c1.value)
      obtain ⟨tp, n4, vm4, e4, s4, f4, g4, cell4, nf4⟩ := take_ok (vm := vm3) (o := .cons (some hp) p) s3
        (free_ne (enough_free (g2.trans g3) (by omega)))
        (fun n => by
          refine ⟨.inl ⟨nf3, o, cell3, hsh⟩, ?_⟩
          cases p with
          | none => trivial
          | some c => exact .inr ptail)
        (fun n => by simp [store, UnderConstruction])
      have g34 := g3.trans g4
      refine ⟨some tp, t2, vm4, ?_, s4, fun h => f4 (f3 (c2.finished (c1.finished h))), ?_, ?_, ?_, ?_⟩
      · rw [elementsToObject, bind_at e1]
        simp only
        rw [bind_at e2]
        simp only
        rw [bind_at e3, bind_at e4]
        rfl
      · have := (g2.trans g3).trans g4
        rw [show cellsForList (e :: es) = cellsForList es + cellsFor e + 1 + 1 by simp only [cellsForList]; omega]
        exact this
      · exact ⟨nf4, _, cell4, rfl⟩
      · exact ⟨l1 ++ l2, by rw [ht2', ht1']; simp [Tables.createAll]⟩
      · intro vm'' l t'' hg hext
        have k4 := hg.heap tp nf4
        rw [cell4] at k4
        have nf3' : hp ∉ vm4.free := fun hm => nf3 (by
          rw [g4.free] at hm
          exact List.mem_of_mem_drop hm)
        have k3 := hg.heap hp nf3'
        rw [g4.heap hp nf3, cell3] at k3
        have kt : Part vm'' p (.list p) := by
          cases p with
          | none => exact .empty
          | some c =>
              have hl : Live vm'' c .pair := hg.live (g34.live (g12.live c1.value))
              obtain ⟨a, d, hc⟩ := cons_of_live hl
              exact .pair hc
        refine .pair (x := o) (y := .list p) ⟨some hp, p, ?_, .value k3 hcons, kt⟩ ?_ ?_
        · rw [k4]; rfl
        · exact c2.shown vm'' _ t'' (g34.trans hg) hext
        · exact c1.shown vm'' _ t'' ((g12.trans g34).trans hg)
            ((extends_holds ht1 ht2).trans hext)
end

end DuckLisp.AstObj
