import Verif.Proof.VM.Rel
import Verif.Proof.VM.Operand

/-!
# C36: user-defined types
-/

namespace DuckLisp.VM

open DuckLisp DuckLisp.Spec

/-- A host callback that respects the API: it may make types of its own but never takes one back. -/
def KeepsTypes (m : M Unit) : Prop :=
  ∀ s, match m s with
    | .ok _ s' => s.nextUserType ≤ s'.nextUserType
    | .err _ s' => s.nextUserType ≤ s'.nextUserType
    | _ => True

/-- The histories of a machine: any instructions at all, each of which may succeed or fail.
`TypesMade env ts vm`: a history leads from a fresh machine to `vm`, and `ts` are the types that the
`make-type` instructions in it pushed, the latest first. -/
inductive TypesMade (env : Env) : List Nat → VM → Prop
  | start (maxObjects : Nat) : TypesMade env [] (init maxObjects)
  | make {ts vm vm' bc st nx c t} (h : TypesMade env ts vm)
      (he : exec env bc st nx .makeType vm = .ok c vm')
      (ht : vm'.stack.getLast? = some (.type t)) : TypesMade env (t :: ts) vm'
  | other {ts vm vm' bc st nx c i} (h : TypesMade env ts vm) (hi : i ≠ .makeType)
      (he : exec env bc st nx i vm = .ok c vm') : TypesMade env ts vm'
  | fail {ts vm vm' bc st nx e i} (h : TypesMade env ts vm)
      (he : exec env bc st nx i vm = .err e vm') : TypesMade env ts vm'

theorem typesPrims : Prims (fun s s' => s.nextUserType ≤ s'.nextUserType)
    (fun s s' => s.nextUserType ≤ s'.nextUserType) where
  refl _ := Nat.le_refl _
  trans := Nat.le_trans
  weak h := h
  transE := Nat.le_trans
  collect h := by have := garbageCollect_same h; omega
  take o := by
    intro s
    unfold takeFree
    split <;> rename_i hc <;> split at hc <;> cases hc <;> simp <;> split <;> simp
  heap _ _ _ _ := Nat.le_refl _
  stacks _ _ _ _ := Nat.le_refl _
  stacksE _ _ _ _ := Nat.le_refl _
  calls _ _ _ _ := Nat.le_refl _

theorem exec_keeps_types {env : Env} (hhost : ∀ n, KeepsTypes (env.host n)) (bc : Nat)
    (st nx : CodePtr) (i : Instr) :
    Rel (fun s s' => s.nextUserType ≤ s'.nextUserType) (exec env bc st nx i) := by
  refine rel_exec typesPrims (fun n s => ?_) bc st nx i ?_ ?_ (fun _ => typesPrims.all (fun _ _ _ => Nat.le_refl _))
  · have := hhost n s
    cases hm : env.host n s <;> rw [hm] at this <;> simp_all
  · intro a k _ p k' s
    unfold globalSet
    split <;> simp_all [M.modify]
    all_goals (rename_i h; obtain ⟨-, rfl⟩ := h; exact Nat.le_refl _)
  · intro _ s
    show s.nextUserType ≤ _
    simp

theorem makeType_eq (env : Env) (bc : Nat) (st nx : CodePtr) (vm : VM) :
    exec env bc st nx .makeType vm = .ok (.goto nx)
      (pushed { vm with nextUserType := vm.nextUserType + 1 } (.type vm.nextUserType)) := rfl

/-- C36: however a program runs, `make-type` never pushes the same type twice, and never one of the
types of the built-in values.  (The counter is a `dl_size_t`; that it wraps around after 2^64 types
is not modelled.) -/
theorem C36_types_are_unique (env : Env) (hhost : ∀ n, KeepsTypes (env.host n))
    (ts : List Nat) (vm : VM) (h : TypesMade env ts vm) :
    ts.Nodup ∧ ∀ t ∈ ts, ∀ o vm0, (∀ c, o ≠ .composite c) → typeValue o vm0 ≠ .ok (.type t) vm0 := by
  have key : ts.Nodup ∧ (∀ t ∈ ts, 20 ≤ t ∧ t < vm.nextUserType) ∧ 20 ≤ vm.nextUserType := by
    induction h with
    | start n => simp [init]
    | @make ts vm vm' bc st nx c t _ he ht ih =>
        obtain ⟨i1, i2, i3⟩ := ih
        rw [makeType_eq] at he
        cases he
        simp [pushed] at ht
        subst ht
        refine ⟨List.nodup_cons.mpr ⟨fun hm => by have := i2 _ hm; omega, i1⟩, ?_, ?_⟩
        · intro t' ht'
          simp only [pushed]
          rcases List.mem_cons.mp ht' with rfl | hm
          · omega
          · have := i2 _ hm; omega
        · simp only [pushed]; omega
    | other _ _ he ih =>
        have hle := Rel.ok (exec_keeps_types hhost _ _ _ _) he
        exact ⟨ih.1, fun t ht => by have := ih.2.1 t ht; omega, by omega⟩
    | fail _ he ih =>
        have hle := Rel.err (exec_keeps_types hhost _ _ _ _) he
        exact ⟨ih.1, fun t ht => by have := ih.2.1 t ht; omega, by omega⟩
  refine ⟨key.1, fun t ht o vm0 hc => ?_⟩
  have hge := (key.2.1 t ht).1
  cases o <;> simp only [typeValue] <;> first
    | exact absurd rfl (hc _)
    | (simp [Obj.typeNumber, M.pure_run]; omega)

/-- C36: `type-of` reports, for a composite, the type recorded in it, and for any other value the
type of the built-in kind. -/
theorem C36_type_of_composite (env : Env) (bc : Nat) (st nx : CodePtr) (vm : VM) (a r t : Nat)
    (v f : Option Nat) (ho : operand vm a = some (.composite (some r)))
    (hr : vm.heap[r]? = some (.internalComposite t v f)) :
    exec env bc st nx (.typeof a) vm = .ok (.goto nx) (pushed vm (.type t)) := by
  refine exec_plain_ok trivial (unary_ok _ ho ?_)
  simp only [typeValue]
  rw [M.bind_ok (compositeParts_some hr)]
  rfl

/-- The built-in kinds of value, in the words of the language. -/
def builtinKind : Obj → Option String
  | .bool _ => some "boolean"
  | .integer _ => some "integer"
  | .float _ => some "float"
  | .string .. => some "string"
  | .list _ => some "list"
  | .symbol .. => some "symbol"
  | .function _ => some "host function"
  | .closure .. => some "function"
  | .vector .. => some "vector"
  | .type _ => some "type"
  | .user .. => some "host value"
  | _ => none

/-- C36: `type-of` gives two values of built-in kinds the same type exactly if they are of the same kind,
and the type is not one that `make-type` can return. -/
theorem C36_type_of_builtin (env : Env) (bc : Nat) (st nx : CodePtr) (vm : VM) (a b : Nat) (x y : Obj)
    (k l : String) (ha : operand vm a = some x) (hb : operand vm b = some y)
    (hk : builtinKind x = some k) (hl : builtinKind y = some l) :
    ∃ t u, exec env bc st nx (.typeof a) vm = .ok (.goto nx) (pushed vm (.type t)) ∧
      exec env bc st nx (.typeof b) vm = .ok (.goto nx) (pushed vm (.type u)) ∧
      (t = u ↔ k = l) ∧ t < 20 ∧ u < 20 := by
  refine ⟨x.typeNumber, y.typeNumber, exec_plain_ok trivial (unary_ok _ ha ?_),
    exec_plain_ok trivial (unary_ok _ hb ?_), ?_⟩
  · cases x <;> first
      | rfl
      | exact nomatch hk
  · cases y <;> first
      | rfl
      | exact nomatch hl
  · cases x <;> simp only [builtinKind, Option.some.injEq, reduceCtorEq] at hk <;> subst hk <;>
      cases y <;> simp only [builtinKind, Option.some.injEq, reduceCtorEq] at hl <;> subst hl <;>
      simp [Obj.typeNumber]

/-- A history that makes two types, with another instruction in between. -/
example : ∃ vm, TypesMade plainEnv [21, 20] vm :=
  ⟨_, .make (.other (.make (.start 10) (makeType_eq plainEnv 0 ⟨0, 0, 0⟩ ⟨0, 0, 0⟩ _) rfl)
    (i := .pop 1) (c := .goto ⟨0, 0, 0⟩) (bc := 0) (st := ⟨0, 0, 0⟩) (nx := ⟨0, 0, 0⟩) (by decide) rfl)
    (makeType_eq plainEnv 0 ⟨0, 0, 0⟩ ⟨0, 0, 0⟩ _) rfl⟩
example : operand { heap := [], free := [], stack := [.integer 5, .list none] } 1 = some (.list none) ∧
    builtinKind (.list none) = some "list" := ⟨rfl, rfl⟩
example : ∀ n, KeepsTypes (plainEnv.host n) := fun _ _ => Nat.le_refl _

#print axioms C36_types_are_unique
#print axioms C36_type_of_composite
#print axioms C36_type_of_builtin

end DuckLisp.VM
