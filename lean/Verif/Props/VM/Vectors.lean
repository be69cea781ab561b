import Verif.Proof.VM.Vectors

/-!
# C31: vectors
-/

namespace DuckLisp.VM

open DuckLisp DuckLisp.Spec

/-- C31: `make-vector` makes a new vector of as many elements as asked for, each of them the given
value, and changes nothing the program could see before. -/
theorem C31_make_vector (env : Env) (bc : Nat) (st nx : CodePtr) (vm : VM) (hg : Good vm)
    (a b n : Nat) (x : Obj) (ha : operand vm a = some (.integer n)) (hn : n < 2 ^ 60)
    (hb : operand vm b = some x) :
    (∃ vm' r, exec env bc st nx (.makeVector a b) vm = .ok (.goto nx) vm' ∧
        vm'.stack = vm.stack ++ [.vector (some r) 0] ∧ ¬ Reachable vm r ∧
        IsVector vm' r (List.replicate n x) ∧ Untouched vm vm' [] ∧ Good vm') ∨
    ∃ vm', exec env bc st nx (.makeVector a b) vm = .err .outOfMemory vm' ∧ Untouched vm vm' [] ∧
      Sound vm' := by
  rcases exec_plain_post (i := .makeVector a b) trivial (post_makeVector hg ha hn hb) with
    ⟨vm', he, r, h1, h2, h3, h4, h5, -⟩ | ⟨e, vm', he, rfl, h1, h2⟩
  · exact .inl ⟨vm', r, he, h5, fun h => h3 (traced_of_reachable hg.sound hg.finished h), h4,
      h2.untouched hg, h1⟩
  · exact .inr ⟨vm', he, h2.untouched hg, h1⟩

/-- C31: a negative size is an error that changes nothing. -/
theorem C31_make_vector_negative (env : Env) (bc : Nat) (st nx : CodePtr) (vm : VM) (a b : Nat)
    (n : Int) (ha : operand vm a = some (.integer n)) (hn : n < 0) :
    exec env bc st nx (.makeVector a b) vm = .err .invalidValue vm := by
  refine exec_plain_err trivial ?_
  show iMakeVector a b vm = _
  unfold iMakeVector
  rw [M.bind_ok (getArg_some ha)]
  simp only
  rw [if_pos hn]
  rfl

/-- C31, partial: `vector` makes a new vector of exactly the given values in order and changes
nothing the program could see before, provided there are enough free cells for all of it.

Missing: the case in which the collector has to run while the vector is being filled.  There the
claim is false, see `C31_vector_loses_elements`. -/
theorem C31_vector_partial (env : Env) (bc : Nat) (st nx : CodePtr) (vm : VM) (hg : Good vm)
    (as : List Nat) (xs : List Obj) (hn : as.length < 2 ^ 60)
    (hxs : as.map (operand vm) = xs.map some) (hfree : as.length < vm.free.length) :
    ∃ vm' r, exec env bc st nx (.vector as) vm = .ok (.goto nx) vm' ∧
        vm'.stack = vm.stack ++ [.vector (some r) 0] ∧ ¬ Reachable vm r ∧
        IsVector vm' r xs ∧ Untouched vm vm' [] ∧ Good vm' := by
  obtain ⟨r, s', h0, h1, h2, h3, h4, h5, -⟩ := vector_ok hg hn hxs hfree
  exact ⟨s', r, exec_plain_ok trivial h0, h5,
    fun h => h3 (traced_of_reachable hg.sound hg.finished h), h4, h2.untouched hg, h1⟩

/-- C31: every vector on the stack of a machine in order is the empty one without storage, or a
slice from some position on of storage with some elements; so the theorems below apply to it. -/
theorem C31_vectors_have_elements (vm : VM) (hg : Good vm) (a : Nat) (p : Option Nat) (off : Int)
    (ha : operand vm a = some (.vector p off)) :
    (p = none ∧ off = 0) ∨
      ∃ (r k : Nat) (xs : List Obj), p = some r ∧ off = k ∧ k < 2 ^ 60 ∧ IsVector vm r xs := by
  cases p with
  | none =>
      have := hg.sound.stack _ (operand_mem ha)
      exact .inl ⟨rfl, this⟩
  | some r =>
      obtain ⟨xs, h1, h2, h3, h4⟩ := vector_operand hg ha
      exact .inr ⟨r, off.toNat, xs, rfl, by omega, by omega, h1⟩

/-- C31: reading element `i` of the slice of `xs` from `off` on gives that element if there is one,
and is otherwise an error that changes nothing. -/
theorem C31_get (env : Env) (bc : Nat) (st nx : CodePtr) (vm : VM) (a b r off i : Nat)
    (xs : List Obj) (ha : operand vm a = some (.vector (some r) off))
    (hb : operand vm b = some (.integer i)) (hr : IsVector vm r xs) (hin : off + i < 2 ^ 63) :
    exec env bc st nx (.getVecElt a b) vm =
      match (xs.drop off)[i]? with
      | some x => .ok (.goto nx) (pushed vm x)
      | none => .err .invalidValue vm := by
  obtain ⟨vs, n, hcell, rfl, hel⟩ := hr
  have hj : (i : Int) + off = ((off + i : Nat) : Int) := by omega
  have hck : ckInt ((i : Int) + off) vm = .ok ((off + i : Nat) : Int) vm := by
    rw [hj]
    exact ckInt_ok (by unfold InRange; omega)
  have hsz : toSize ((off + i : Nat) : Int) = off + i := toSize_nat (by omega)
  have hget : iGetVecElt a b vm = (if off + i ≥ xs.length then M.throw .invalidValue
      else do push (← slotValue vs ((off + i : Nat) : Int)) : M Unit) vm := by
    unfold iGetVecElt
    rw [M.bind_ok (getArg_some ha)]
    simp only
    rw [M.bind_ok (getArg_some hb)]
    simp only
    rw [if_neg (by omega), M.bind_ok (vectorStorage_some hcell)]
    simp only
    rw [M.bind_ok hck, hsz]
  rw [List.getElem?_drop]
  by_cases hlt : off + i < xs.length
  · obtain ⟨c, h1, h2⟩ := hel _ hlt
    rw [List.getElem?_eq_getElem hlt]
    simp only
    refine exec_plain_ok trivial ?_
    show iGetVecElt a b vm = _
    rw [hget, if_neg (by omega), M.bind_ok (slotValue_some h1 (h2.trans (List.getElem?_eq_getElem hlt)))]
    rfl
  · rw [List.getElem?_eq_none (by omega)]
    simp only
    refine exec_plain_err trivial ?_
    show iGetVecElt a b vm = _
    rw [hget, if_pos (by omega)]
    rfl

/-- C31: reading at a negative index is an error that changes nothing. -/
theorem C31_get_negative (env : Env) (bc : Nat) (st nx : CodePtr) (vm : VM) (a b : Nat)
    (p : Option Nat) (off i : Int) (ha : operand vm a = some (.vector p off))
    (hb : operand vm b = some (.integer i)) (hi : i < 0) :
    exec env bc st nx (.getVecElt a b) vm = .err .invalidValue vm := by
  refine exec_plain_err trivial ?_
  show iGetVecElt a b vm = _
  unfold iGetVecElt
  rw [M.bind_ok (getArg_some ha)]
  simp only
  rw [M.bind_ok (getArg_some hb)]
  simp only
  rw [if_pos hi]
  rfl

/-- C31: setting element `i ≥ 0` of the slice of `xs` from `off` on replaces exactly that element of
the storage, so every other slice of it sees the change, and changes nothing else.  If there is no
such element, that is an error that changes nothing. -/
theorem C31_set (env : Env) (bc : Nat) (st nx : CodePtr) (vm : VM) (hg : Good vm)
    (a b c r off i : Nat) (x : Obj) (xs : List Obj)
    (ha : operand vm a = some (.vector (some r) off)) (hb : operand vm b = some (.integer i))
    (hc : operand vm c = some x) (hr : IsVector vm r xs) (hin : off + i < 2 ^ 63) :
    (off + i < xs.length ∧
      ((∃ vm', exec env bc st nx (.setVecElt a b c) vm = .ok (.goto nx) vm' ∧
          vm'.stack = vm.stack ++ [x] ∧ IsVector vm' r (xs.set (off + i) x) ∧
          Untouched vm vm' [r] ∧ Good vm') ∨
        ∃ vm', exec env bc st nx (.setVecElt a b c) vm = .err .outOfMemory vm' ∧
          Untouched vm vm' [] ∧ Good vm')) ∨
    (xs.length ≤ off + i ∧ exec env bc st nx (.setVecElt a b c) vm = .err .invalidValue vm) := by
  rcases exec_plain_post (i := .setVecElt a b c) trivial (post_setVecElt (j := off + i) hg ha hb hc hr
    (by omega) hin) with
    ⟨vm', he, h0, h1, h2, h3, h4, -⟩ | ⟨e, vm', he, ⟨rfl, rfl, h1⟩ | ⟨rfl, h1, h2, h3⟩⟩
  · exact .inl ⟨h0, .inl ⟨vm', he, h4, h3, h2, h1⟩⟩
  · exact .inr ⟨h1, he⟩
  · exact .inl ⟨h3, .inr ⟨vm', he, h2.untouched hg, h1⟩⟩

/-- C31: `set-car` on a vector sets its first element. -/
theorem C31_set_car (env : Env) (bc : Nat) (st nx : CodePtr) (vm : VM) (hg : Good vm)
    (a b r off : Nat) (x : Obj) (xs : List Obj) (ha : operand vm a = some x)
    (hb : operand vm b = some (.vector (some r) off)) (hr : IsVector vm r xs) (hoff : off < xs.length) :
    (∃ vm', exec env bc st nx (.setCar a b) vm = .ok (.goto nx) vm' ∧
        vm'.stack = vm.stack ++ [.vector (some r) off] ∧ IsVector vm' r (xs.set off x) ∧
        Untouched vm vm' [r] ∧ Good vm') ∨
    ∃ vm', exec env bc st nx (.setCar a b) vm = .err .outOfMemory vm' ∧ Untouched vm vm' [] ∧
      Good vm' := by
  rcases exec_plain_post (i := .setCar a b) trivial (post_setCar_vector hg ha hb hr hoff) with
    ⟨vm', he, h1, h2, h3, h4, -⟩ | ⟨e, vm', he, rfl, h1, h2⟩
  · exact .inl ⟨vm', he, h4, h3, h2, h1⟩
  · exact .inr ⟨vm', he, h2.untouched hg, h1⟩

/-- C31: `cdr` of a vector is the rest of it, in the same storage; when nothing is left, it is the
empty vector without storage. -/
theorem C31_cdr (env : Env) (bc : Nat) (st nx : CodePtr) (vm : VM) (a r off : Nat)
    (xs : List Obj) (ha : operand vm a = some (.vector (some r) off)) (hoff : off < 2 ^ 60)
    (hr : IsVector vm r xs) :
    exec env bc st nx (.cdr a) vm = .ok (.goto nx) (pushed vm
      (if xs.drop (off + 1) = [] then .vector none 0 else .vector (some r) (off + 1 : Nat))) := by
  obtain ⟨vs, n, hcell, rfl, -⟩ := hr
  refine exec_plain_ok trivial (unary_ok _ ha ?_)
  simp only [cdrValue]
  rw [M.bind_ok (readCell_some hcell)]
  simp only
  rw [toSize_nat (by omega)]
  by_cases h : xs.length ≤ off + 1
  · rw [if_pos (List.drop_eq_nil_iff.2 h), if_pos (by omega)]
    rfl
  · rw [if_neg (fun h' => h (List.drop_eq_nil_iff.1 h')), if_neg (by omega)]
    have : ckInt ((off : Int) + 1) vm = .ok ((off + 1 : Nat) : Int) vm := by
      exact ckInt_ok (by unfold InRange; omega)
    rw [M.bind_ok this]
    rfl

/-- C31: `car` of a vector is its first element; of an empty one, the empty vector. -/
theorem C31_car (env : Env) (bc : Nat) (st nx : CodePtr) (vm : VM) (a r off : Nat)
    (xs : List Obj) (ha : operand vm a = some (.vector (some r) off)) (hoff : off < 2 ^ 60)
    (hr : IsVector vm r xs) :
    exec env bc st nx (.car a) vm = .ok (.goto nx) (pushed vm
      ((xs.drop off).headD (.vector none 0))) := by
  obtain ⟨vs, n, hcell, rfl, hel⟩ := hr
  refine exec_plain_ok trivial (unary_ok _ ha ?_)
  simp only [carValue]
  rw [M.bind_ok (readCell_some hcell)]
  simp only
  rw [toSize_nat (by omega)]
  by_cases h : off < xs.length
  · obtain ⟨c, h1, h2⟩ := hel _ h
    rw [if_neg (by omega), List.drop_eq_getElem_cons h]
    exact slotValue_some h1 (h2.trans (List.getElem?_eq_getElem h))
  · rw [if_pos (by omega), List.drop_eq_nil_of_le (by omega)]
    rfl

/-- C31: the length of a slice is the number of its elements. -/
theorem C31_length (env : Env) (bc : Nat) (st nx : CodePtr) (vm : VM) (a r off : Nat)
    (xs : List Obj) (ha : operand vm a = some (.vector (some r) off)) (hoff : off ≤ xs.length)
    (hlen : xs.length < 2 ^ 60) (hr : IsVector vm r xs) :
    exec env bc st nx (.length a) vm =
      .ok (.goto nx) (pushed vm (.integer (xs.drop off).length)) := by
  obtain ⟨vs, n, hcell, rfl, -⟩ := hr
  refine exec_plain_ok trivial (unary_ok _ ha ?_)
  simp only [lengthValue]
  rw [M.bind_ok (vectorStorage_some hcell)]
  simp only
  have : ((xs.length : Int) - off) = ((xs.drop off).length : Nat) := by simp; omega
  rw [this, toSize_nat (by simp; omega), toPtrdiffS_nat (by simp; omega)]
  rfl

/-- C31: the empty vector without storage has length 0, and its `car` and `cdr` are itself. -/
theorem C31_empty (env : Env) (bc : Nat) (st nx : CodePtr) (vm : VM) (a : Nat)
    (ha : operand vm a = some (.vector none 0)) :
    exec env bc st nx (.length a) vm = .ok (.goto nx) (pushed vm (.integer 0)) ∧
    exec env bc st nx (.car a) vm = .ok (.goto nx) (pushed vm (.vector none 0)) ∧
    exec env bc st nx (.cdr a) vm = .ok (.goto nx) (pushed vm (.vector none 0)) :=
  ⟨exec_plain_ok trivial (unary_ok _ ha rfl), exec_plain_ok trivial (unary_ok _ ha rfl),
    exec_plain_ok trivial (unary_ok _ ha rfl)⟩

/-! ### Where the code departs from the claim -/

/-- C31, violated: reading or setting an element of the empty vector that `cdr` returns is not
reported as an error; it dereferences a null pointer. -/
theorem C31_empty_access_undefined (env : Env) (bc : Nat) (st nx : CodePtr) (vm : VM)
    (a b c i : Nat) (x : Obj) (ha : operand vm a = some (.vector none 0))
    (hb : operand vm b = some (.integer i)) (hc : operand vm c = some x) :
    exec env bc st nx (.getVecElt a b) vm = .ub ∧ exec env bc st nx (.setVecElt a b c) vm = .ub := by
  constructor
  · refine exec_plain_ub trivial ?_
    show iGetVecElt a b vm = _
    unfold iGetVecElt
    rw [M.bind_ok (getArg_some ha)]
    simp only
    rw [M.bind_ok (getArg_some hb)]
    simp only
    rw [if_neg (by omega)]
    rfl
  · refine exec_plain_ub trivial ?_
    show iSetVecElt a b c vm = _
    unfold iSetVecElt
    rw [M.bind_ok (getArg_some ha)]
    simp only
    rw [M.bind_ok (getArg_some hb)]
    simp only
    rw [M.bind_ok (getArg_some hc)]
    rfl

/-- C31, violated: a negative index in `set-vec-elt` on a slice is not an error, but changes an
element before the slice. -/
theorem C31_set_negative_index (env : Env) (bc : Nat) (st nx : CodePtr) (vm : VM) (hg : Good vm)
    (a b c r off i : Nat) (x : Obj) (xs : List Obj)
    (ha : operand vm a = some (.vector (some r) off)) (hb : operand vm b = some (.integer (-i)))
    (hc : operand vm c = some x) (hr : IsVector vm r xs) (hi : 0 < i) (hio : i ≤ off)
    (hoff : off ≤ xs.length) :
    (∃ vm', exec env bc st nx (.setVecElt a b c) vm = .ok (.goto nx) vm' ∧
        IsVector vm' r (xs.set (off - i) x)) ∨
    ∃ vm', exec env bc st nx (.setVecElt a b c) vm = .err .outOfMemory vm' := by
  rcases exec_plain_post (i := .setVecElt a b c) trivial (post_setVecElt (j := off - i) hg ha hb hc hr
    (by omega) (by obtain ⟨-, -, -, -, h⟩ := vector_operand hg ha; omega)) with
    ⟨vm', he, h0, h1, h2, h3, h4, -⟩ | ⟨e, vm', he, ⟨rfl, rfl, h1⟩ | ⟨rfl, h1, h2, h3⟩⟩
  · exact .inl ⟨vm', he, h3⟩
  · omega
  · exact .inr ⟨vm', he⟩

/-- Two cells, both free, and two numbers on the stack. -/
def smallVM : VM :=
  { heap := [.none, .none]
    free := [0, 1]
    stack := [.integer 1, .integer 2]
    upStack := [none, none], callStack := [], globals := [], currentBytecode := none, nextSerial := 0 }

theorem smallVM_good : Good smallVM := by
  refine ⟨⟨by decide, by decide, ?_, by decide, ?_, by simp [smallVM], by simp [smallVM],
    by simp [smallVM], by simp [smallVM], ?_⟩, ?_⟩
  · intro r hr o ho
    simp [smallVM] at hr
    rcases hr with rfl | rfl <;> (simp [smallVM] at ho; subst ho; simp [OwnsBlock])
  · intro o ho
    simp [smallVM] at ho
    rcases ho with rfl | rfl <;> exact ⟨by decide, by decide⟩
  · intro r o ho hf
    match r with
    | 0 => exact absurd (by decide) hf
    | 1 => exact absurd (by decide) hf
    | n + 2 => simp [smallVM] at ho
  · intro r o ho hf
    match r with
    | 0 => exact absurd (by decide) hf
    | 1 => exact absurd (by decide) hf
    | n + 2 => simp [smallVM] at ho

/-- C31 and C25, violated: when the memory runs out while `vector` copies its operands, the collector
runs and frees the elements copied so far, because it does not look into vectors that are not
complete.  Here `(vector 1 2)` in a machine with two cells should report outOfMemory; instead it
succeeds with `[2 2]`. -/
theorem C31_vector_loses_elements :
    Good smallVM ∧ [2, 1].map (operand smallVM) = [.integer 1, .integer 2].map some ∧
    ∃ vm', exec plainEnv 0 ⟨0, 0, 0⟩ ⟨0, 0, 1⟩ (.vector [2, 1]) smallVM = .ok (.goto ⟨0, 0, 1⟩) vm' ∧
      vm'.stack = smallVM.stack ++ [.vector (some 0) 0] ∧
      IsVector vm' 0 [.integer 2, .integer 2] ∧ ¬ IsVector vm' 0 [.integer 1, .integer 2] := by
  refine ⟨smallVM_good, rfl, ?_⟩
  have h : exec plainEnv 0 ⟨0, 0, 0⟩ ⟨0, 0, 1⟩ (.vector [2, 1]) smallVM = .ok (.goto ⟨0, 0, 1⟩)
      { smallVM with
        heap := [.internalVector (some [.ptr (some 1), .ptr (some 1)]) 2 true, .integer 2]
        free := []
        stack := smallVM.stack ++ [.vector (some 0) 0]
        upStack := [none, none, none]
        nextSerial := 3 } := by
    decide +kernel
  refine ⟨_, h, rfl, ⟨_, _, rfl, rfl, ?_⟩, ?_⟩
  · intro i hi
    match i with
    | 0 => exact ⟨1, rfl, rfl⟩
    | 1 => exact ⟨1, rfl, rfl⟩
    | n + 2 => exact absurd hi (by simp)
  · rintro ⟨vs, n, h1, h2, h3⟩
    simp at h1
    obtain ⟨rfl, rfl⟩ := h1
    obtain ⟨c, q1, q2⟩ := h3 0 (by decide)
    simp at q1
    subst q1
    simp at q2

/-! ### Examples -/

/-- A machine with the vector `[5 6 5]`, its slice from 1 on, an index and a value on the stack, and
room for more. -/
def vectorVM : VM :=
  { heap := [.internalVector (some [.ptr (some 1), .ptr (some 2), .ptr (some 1)]) 3 true, .integer 5,
      .integer 6, .none, .none, .none]
    free := [3, 4, 5]
    stack := [.vector (some 0) 0, .vector (some 0) 1, .integer 1, .integer 9, .integer (-1)]
    upStack := [none, none, none, none, none], callStack := [], globals := [],
    currentBytecode := none, nextSerial := 1 }

theorem vectorVM_vector : IsVector vectorVM 0 [.integer 5, .integer 6, .integer 5] := by
  refine ⟨_, _, rfl, rfl, ?_⟩
  intro i hi
  match i with
  | 0 => exact ⟨1, rfl, rfl⟩
  | 1 => exact ⟨2, rfl, rfl⟩
  | 2 => exact ⟨1, rfl, rfl⟩
  | n + 3 => exact absurd hi (by simp)

theorem vectorVM_good : Good vectorVM := by
  have l0 : Live vectorVM 0 (.elements 3) := ⟨by decide, _, rfl, rfl⟩
  have l1 : Live vectorVM 1 .value := ⟨by decide, _, rfl, rfl⟩
  have l2 : Live vectorVM 2 .value := ⟨by decide, _, rfl, rfl⟩
  refine ⟨⟨by decide, by decide, ?_, by decide, ?_, by simp [vectorVM], by simp [vectorVM],
    by simp [vectorVM], by simp [vectorVM], ?_⟩, ?_⟩
  · intro r hr o ho
    simp [vectorVM] at hr
    rcases hr with rfl | rfl | rfl <;> (simp [vectorVM] at ho; subst ho; simp [OwnsBlock])
  · intro o ho
    simp [vectorVM] at ho
    rcases ho with rfl | rfl | rfl | rfl | rfl
    · exact ⟨3, l0, by decide, by decide⟩
    · exact ⟨3, l0, by decide, by decide⟩
    all_goals exact ⟨by decide, by decide⟩
  · intro r o ho hf
    match r with
    | 0 =>
        simp [vectorVM] at ho; subst ho
        refine ⟨by decide, by decide, fun _ i hi => ?_⟩
        match i with
        | 0 => exact ⟨1, rfl, l1⟩
        | 1 => exact ⟨2, rfl, l2⟩
        | 2 => exact ⟨1, rfl, l1⟩
        | n + 3 => exact absurd hi (by simp)
    | 1 => simp [vectorVM] at ho; subst ho; exact ⟨by decide, by decide⟩
    | 2 => simp [vectorVM] at ho; subst ho; exact ⟨by decide, by decide⟩
    | 3 => exact absurd (by decide) hf
    | 4 => exact absurd (by decide) hf
    | 5 => exact absurd (by decide) hf
    | n + 6 => simp [vectorVM] at ho
  · intro r o ho hf
    match r with
    | 0 => simp [vectorVM] at ho; subst ho; simp [UnderConstruction]
    | 1 => simp [vectorVM] at ho; subst ho; simp [UnderConstruction]
    | 2 => simp [vectorVM] at ho; subst ho; simp [UnderConstruction]
    | 3 => exact absurd (by decide) hf
    | 4 => exact absurd (by decide) hf
    | 5 => exact absurd (by decide) hf
    | n + 6 => simp [vectorVM] at ho

example : operand vectorVM 5 = some (.vector (some 0) (0 : Nat)) ∧
    operand vectorVM 4 = some (.vector (some 0) (1 : Nat)) ∧
    operand vectorVM 3 = some (.integer (1 : Nat)) ∧ operand vectorVM 1 = some (.integer (-(1 : Nat))) :=
  ⟨rfl, rfl, rfl, rfl⟩
/-- Element 1 of the slice is element 2 of the whole. -/
example : exec plainEnv 0 ⟨0, 0, 0⟩ ⟨0, 0, 1⟩ (.getVecElt 4 3) vectorVM =
    .ok (.goto ⟨0, 0, 1⟩) (pushed vectorVM (.integer 5)) := by decide +kernel
example : ∃ vm', exec plainEnv 0 ⟨0, 0, 0⟩ ⟨0, 0, 1⟩ (.setVecElt 4 3 2) vectorVM =
    .ok (.goto ⟨0, 0, 1⟩) vm' := ⟨_, rfl⟩
example : ∃ vm', exec plainEnv 0 ⟨0, 0, 0⟩ ⟨0, 0, 1⟩ (.vector [2, 3]) vectorVM =
    .ok (.goto ⟨0, 0, 1⟩) vm' := ⟨_, rfl⟩
example : ∃ vm', exec plainEnv 0 ⟨0, 0, 0⟩ ⟨0, 0, 1⟩ (.makeVector 2 3) vectorVM =
    .ok (.goto ⟨0, 0, 1⟩) vm' := ⟨_, rfl⟩
example : operand { vectorVM with stack := [.vector none 0, .integer 0] } 2 = some (.vector none 0) := rfl

#print axioms C31_make_vector
#print axioms C31_make_vector_negative
#print axioms C31_vector_partial
#print axioms C31_vectors_have_elements
#print axioms C31_get
#print axioms C31_get_negative
#print axioms C31_set
#print axioms C31_set_car
#print axioms C31_cdr
#print axioms C31_car
#print axioms C31_length
#print axioms C31_empty
#print axioms C31_empty_access_undefined
#print axioms C31_set_negative_index
#print axioms C31_vector_loses_elements

end DuckLisp.VM
