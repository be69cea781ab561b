import Verif.Model.VM.Types

/-!
# What a program can still reach

The specification the collector is judged against.  It says which objects an object refers to and
which objects a program can get at, without mentioning how the collector traces them.
-/

namespace DuckLisp.Spec

open DuckLisp DuckLisp.VM

/-- `Mentions o r`: the object `o` refers to heap cell `r`. -/
inductive Mentions : Obj → Ref → Prop
  | list {r} : Mentions (.list (some r)) r
  | car {r d} : Mentions (.cons (some r) d) r
  | cdr {a r} : Mentions (.cons a (some r)) r
  | code {n r ua ar v} : Mentions (.closure n (some r) ua ar v) r
  | captured {n bc r ar v} : Mentions (.closure n bc (some r) ar v) r
  | capturedCell {r} : Mentions (.upvalue (.heapObject (some r))) r
  | capturedLink {r} : Mentions (.upvalue (.heapUpvalue (some r))) r
  | capturedArray {serial ups n i r} (hi : i < n) (h : ups[i]? = some (some r)) :
      Mentions (.upvalueArray (some ⟨serial, ups⟩) n) r
  | vector {r off} : Mentions (.vector (some r) off) r
  | element {slots n init i r} (hi : i < n) (h : slots[i]? = some (.ptr (some r))) :
      Mentions (.internalVector (some slots) n init) r
  | string {r off len} : Mentions (.string (some r) off len) r
  | symbol {id r} : Mentions (.symbol id (some r)) r
  | composite {r} : Mentions (.composite (some r)) r
  | compositeValue {t r f} : Mentions (.internalComposite t (some r) f) r
  | compositeFunction {t v r} : Mentions (.internalComposite t v (some r)) r
  | user {d ms b r} (h : some r ∈ ms) : Mentions (.user d ms b) r

/-- `Root vm r`: cell `r` is held directly by the running program. -/
inductive Root (vm : VM) : Ref → Prop
  /-- by a value on the stack -/
  | stack {o r} (ho : o ∈ vm.stack) (h : Mentions o r) : Root vm r
  /-- as the captured variable of a stack slot -/
  | captured {r} (h : some r ∈ vm.upStack) : Root vm r
  /-- as a global variable -/
  | global {k r} (h : (k, some r) ∈ vm.globals) : Root vm r
  /-- as the code a pending call belongs to -/
  | pending {f r} (hf : f ∈ vm.callStack) (h : f.bytecode = some r) : Root vm r
  /-- as the code being run -/
  | running {r} (h : vm.currentBytecode = some r) : Root vm r

/-- `Held vm r`: cell `r` is in use by a call in progress: it is the code a pending call returns
into, or holds the captured variables of a function that has not returned yet. -/
inductive Held (vm : VM) : Ref → Prop
  | returnAddress {f} (hf : f ∈ vm.callStack) : Held vm f.ip.cell
  | activeCaptures {u r s} (hu : u ∈ vm.upArrays) (h : u.block = some (r, s)) : Held vm r

/-- Cells the program can get at from the stack, the globals, captured variables and code. -/
inductive Reachable (vm : VM) : Ref → Prop
  | root {r} (h : Root vm r) : Reachable vm r
  | step {r o r'} (h : Reachable vm r) (ho : vm.heap[r]? = some o) (hm : Mentions o r') :
      Reachable vm r'

/-- Cells that belong to the value `o`. -/
inductive Used (vm : VM) (o : Obj) : Ref → Prop
  | direct {r} (h : Mentions o r) : Used vm o r
  | step {r o' r'} (h : Used vm o r) (ho : vm.heap[r]? = some o') (hm : Mentions o' r') : Used vm o r'

/-- Everything the program can still use: `Reachable`, plus what the calls in progress hold. -/
inductive InUse (vm : VM) : Ref → Prop
  | root {r} (h : Root vm r) : InUse vm r
  | held {r} (h : Held vm r) : InUse vm r
  | step {r o r'} (h : InUse vm r) (ho : vm.heap[r]? = some o) (hm : Mentions o r') :
      InUse vm r'

/-- A cell or value whose storage is all there: arrays are as long as they claim, and every element
has been written. -/
def Intact : Obj → Prop
  | .upvalueArray b n => ∀ i, i < n → ∃ blk, b = some blk ∧ i < blk.ups.length
  | .internalVector vs n init =>
      init = true ∧ ∀ i, i < n → ∃ slots p, vs = some slots ∧ slots[i]? = some (.ptr p)
  | _ => True

/-- A vector that is still being built. -/
def UnderConstruction : Obj → Prop
  | .internalVector _ _ init => init = false
  | _ => False

end DuckLisp.Spec

namespace DuckLisp.Spec

open DuckLisp DuckLisp.VM

/-- Nothing on the stack or within reach is a vector that is still being built. -/
def Settled (vm : VM) : Prop :=
  (∀ o ∈ vm.stack, ¬ UnderConstruction o) ∧
  ∀ r o, Reachable vm r → vm.heap[r]? = some o → ¬ UnderConstruction o

/-- Every reference the program can follow leads to a cell of the heap whose storage is there. -/
def WellFormed (vm : VM) : Prop :=
  (∀ o ∈ vm.stack, Intact o) ∧
  ∀ r, Reachable vm r → ∃ o, vm.heap[r]? = some o ∧ Intact o

/-- No cell the program can reach is on the free list. -/
def NoDangling (vm : VM) : Prop := ∀ r, Reachable vm r → r ∉ vm.free

/-- `HoldsCopy o o'`: a cell with contents `o'` holds a copy of `o`.  Strings, code and vectors have
the same elements in storage of their own; an array of captured variables starts out empty, and a
vector under construction without elements. -/
def HoldsCopy (o o' : Obj) : Prop :=
  match o with
  | .upvalueArray _ n => ∃ b, o' = .upvalueArray b n ∧
      ∀ i, i < n → b.bind (fun blk => blk.ups[i]?) = some none
  | .internalVector vs n true => ∃ vs', o' = .internalVector vs' n true ∧
      ∀ i : Nat, i < n → vs'.bind (fun l => l[i]?) = vs.bind (fun l => l[i]?)
  | .internalVector _ n false => ∃ vs', o' = .internalVector vs' n false
  | .bytecode b n => ∃ b', o' = .bytecode b' n ∧
      ∀ i, i < n → b'.bind (fun c => c.bytes[i]?) = b.bind (fun c => c.bytes[i]?)
  | .internalString v n => ∃ v', o' = .internalString v' n ∧
      ∀ i : Nat, i < n → v'.bind (fun l => l[i]?) = v.bind (fun l => l[i]?)
  | o => o' = o

end DuckLisp.Spec
