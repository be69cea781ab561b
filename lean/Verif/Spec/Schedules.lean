import Verif.Spec.Closures
import Verif.Spec.Safety

/-!
# Schedules of steps that captured variables go through
-/

namespace DuckLisp.Spec

open DuckLisp DuckLisp.VM

variable [Entries]

/-- The steps of a program: it computes values, makes and changes pairs, vectors, texts and instances, stores
globals, reads and assigns variables, makes closures, ends scopes, discards slots once they are not captured
any more, jumps and branches, calls and applies closures and returns from them. -/
inductive VariableStep (env : Env) (bc : Nat) (vm : VM) : Instr → VM → Prop
  | compute {i st nx ip o} (hi : ∀ a b, i ≠ .setUpvalue a b ∧ i ≠ .move a b) (hv : ValueOk vm o)
      (h : exec env bc st nx i vm = .ok (.goto ip) (pushed vm o)) :
      VariableStep env bc vm i (pushed vm o)
  | data {i st nx ip vm'} (hi : IsData i) (hm : ∀ a b, i ≠ .move a b) (hp : ∀ n, i ≠ .pop n)
      (hl : LiteralsFitMachine i) (hf : ¬ Faulty vm i) (h : exec env bc st nx i vm = .ok (.goto ip) vm') :
      VariableStep env bc vm i vm'
  | readCaptured {j st nx ip vm'} (h : exec env bc st nx (.pushUpvalue j) vm = .ok (.goto ip) vm') :
      VariableStep env bc vm (.pushUpvalue j) vm'
  | assignCaptured {j a st nx ip vm'} (h : exec env bc st nx (.setUpvalue j a) vm = .ok (.goto ip) vm') :
      VariableStep env bc vm (.setUpvalue j a) vm'
  | assign {a b st nx ip vm'} (h : exec env bc st nx (.move a b) vm = .ok (.goto ip) vm') :
      VariableStep env bc vm (.move a b) vm'
  | close {variadic base disp arity vs pls st nx ip vm'} (hcode : Reachable vm bc) (hst : IsCode vm bc st.off st)
      (hvs : NamesAll vm vs pls)
      (hrun : ∀ r s n, vm.upArrays.getLast? = some ⟨some (r, s), n⟩ → Reachable vm r)
      (h : exec env bc st nx (.pushClosure variadic base disp arity vs) vm = .ok (.goto ip) vm') :
      VariableStep env bc vm (.pushClosure variadic base disp arity vs) vm'
  | release {as st nx ip vm'} (has : ∀ a ∈ as, 0 < a ∧ a ≤ vm.stack.length)
      (h : exec env bc st nx (.releaseUpvalues as) vm = .ok (.goto ip) vm') :
      VariableStep env bc vm (.releaseUpvalues as) vm'
  | discard {n st nx ip vm'} (hn : UncapturedFrom vm (vm.stack.length - n))
      (h : exec env bc st nx (.pop n) vm = .ok (.goto ip) vm') : VariableStep env bc vm (.pop n) vm'
  | jump {d st nx ip vm'} (h : exec env bc st nx (.jump d) vm = .ok (.goto ip) vm') :
      VariableStep env bc vm (.jump d) vm'
  | branch {d n st nx ip vm'} (hn : UncapturedFrom vm (vm.stack.length - n))
      (h : exec env bc st nx (.brnz d n) vm = .ok (.goto ip) vm') : VariableStep env bc vm (.brnz d n) vm'
  | call {a n f pos c u arity st nx ip vm'} (hcode : LiveCode vm bc) (ha : operand vm a = some f)
      (hf : Callee vm f (.closure pos (some c) (some u) arity false))
      (h : exec env bc st nx (.funcall a n) vm = .ok (.goto ip) vm') :
      VariableStep env bc vm (.funcall a n) vm'
  | callVariadic {a n f pos c u arity st nx ip vm'} (hcode : vm.currentBytecode = some bc) (ha : operand vm a = some f)
      (hf : Callee vm f (.closure pos (some c) (some u) arity true)) (hl : n ≤ vm.stack.length)
      (hn : UncapturedFrom vm (vm.stack.length - (n - arity.toNat)))
      (h : exec env bc st nx (.funcall a n) vm = .ok (.goto ip) vm') :
      VariableStep env bc vm (.funcall a n) vm'
  | apply {a f pos c u arity variadic below args p xs st nx ip vm'} (hcode : vm.currentBytecode = some bc)
      (ha : operand vm a = some f) (hf : Callee vm f (.closure pos (some c) (some u) arity variadic))
      (hst : vm.stack = below ++ args ++ [.list p]) (hx : ListOf vm p xs)
      (hn : UncapturedFrom vm (below.length + min args.length arity.toNat))
      (h : exec env bc st nx (.apply a args.length) vm = .ok (.goto ip) vm') :
      VariableStep env bc vm (.apply a args.length) vm'
  | return_ {n st nx ip vm'} (hn : UncapturedFrom vm (vm.stack.length - (n + 1))) (hf : vm.callStack ≠ [])
      (hu : vm.upArrays ≠ []) (hl : n < vm.stack.length)
      (h : exec env bc st nx (returning n) vm = .ok (.goto ip) vm') : VariableStep env bc vm (returning n) vm'

/-- `Steps env bc cs vm vm'`: the program goes from `vm` to `vm'`, and the captured variables `cs` are in
reach all the time. -/
inductive Steps (env : Env) (bc : Nat) (cs : List Nat) : VM → VM → Prop
  | refl {vm} : Steps env bc cs vm vm
  | step {vm vm1 vm2 i} (h : Steps env bc cs vm vm1) (hs : VariableStep env bc vm1 i vm2)
      (hc : ∀ c ∈ cs, InReach vm2 c) : Steps env bc cs vm vm2

/-- `LastAssigned env bc c vm o vm' o'`: the program goes from `vm` to `vm'`, and `o'` is what has been
assigned last to the captured variable of cell `c` on the way, or `o` if nothing has. -/
inductive LastAssigned (env : Env) (bc c : Nat) : VM → Obj → VM → Obj → Prop
  | refl {vm o} : LastAssigned env bc c vm o vm o
  | assigned {vm vm1 vm2 i pl o o1 x} (h : LastAssigned env bc c vm o vm1 o1) (hs : VariableStep env bc vm1 i vm2)
      (hc : InReach vm2 c) (hd : Denotes vm1 c pl) (ha : Assigns vm1 i pl x) : LastAssigned env bc c vm o vm2 x
  | other {vm vm1 vm2 i pl o o1} (h : LastAssigned env bc c vm o vm1 o1) (hs : VariableStep env bc vm1 i vm2)
      (hc : InReach vm2 c) (hd : Denotes vm1 c pl) (ha : ∀ x, ¬ Assigns vm1 i pl x) :
      LastAssigned env bc c vm o vm2 o1

end DuckLisp.Spec
