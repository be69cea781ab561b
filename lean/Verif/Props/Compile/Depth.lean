import Verif.Proof.Compile.Places
import Verif.Props.Compile.Eval

/-!
# C18: the compiler's stack bookkeeping matches the machine
-/

namespace DuckLisp.Props

open DuckLisp DuckLisp.VM DuckLisp.Asm DuckLisp.Compile DuckLisp.Spec DuckLisp.Reader

attribute [local instance] Keys.any

/-- C18: wherever in a program a form is compiled, each instruction of its code has a height of the stack that does not
depend on how control got there and never is below the one at the start.  It ends at the height the compiler recorded,
every operand is a value that is there, and whatever is below the start stays as it is, but for the variables that are
assigned to.  This holds in whatever program the code is, whatever is on the stack, for every path through the code and
every prefix of it. -/
theorem C18_depth (cfg : Compile.Config) (n depth : Nat) (e : Ast) (push : Bool) (s s' : CState) (table : Table)
    (i : Option Int) (hcb : KeywordsFree cfg) (hs : Reached cfg s table) (he : Form e)
    (hc : compound cfg n depth e push s = .ok i s') (hg : s'.gensymNumber ≤ 2 ^ 64) :
    ∃ (code : List Ins) (height : Nat → Nat), s'.assembly = s.assembly ++ code ∧
      height 0 = recorded s ∧ height code.length = recorded s' ∧ (push = true → recorded s < recorded s') ∧
      (∀ j, j ≤ code.length → recorded s ≤ height j) ∧
      (∀ j ins, code[j]? = some ins → ∀ a ∈ places ins, 1 ≤ a ∧ a ≤ (height j : Int)) ∧
      ∀ (env : VM.Env) (strip : Bool) (bc cell serial : Nat) (before after : List Ins) (base k : Nat) (vm vm' : VM),
        LabelsOnce (before ++ code ++ after) → vm.stack.length = base + recorded s →
        Walk env strip bc cell serial (before ++ code ++ after) before.length (before.length + code.length)
          (before.length, vm) (k, vm') →
        ∃ j, k = before.length + j ∧ j ≤ code.length ∧ vm'.stack.length = base + height j ∧
          ∀ q, q < base + recorded s → vm'.stack[q]? = vm.stack[q]? ∨
            ∃ x place, Spec.Assigning x e ∧ table.place x = some place ∧ q = base + place := by
  letI : Keys := .any
  obtain ⟨code, slot, l, l', -, h1, hf, c⟩ := Reached.code rfl (freeNames hcb _ rfl) hs he hc (bounded_any hg)
  obtain ⟨ld, ds, d0, d1, d2, -, d4⟩ := formPiece_flow rfl c hf
  refine ⟨code, ds, h1, d0, d1, ?_, d2, fun j ins hj => fine_places (d4 j ins hj), ?_⟩
  · rintro rfl
    exact c.after.1
  · intro env strip bc cell serial before after base k vm vm' honce hh hw
    obtain ⟨j, g1, g2, g3⟩ := walk_effect c.own honce d2 d4 (by rw [d0]; exact hh) hw rfl
    refine ⟨j, g1, g2, g3.height, fun q hq => (g3.below q hq).imp_right ?_⟩
    rintro ⟨slot, ⟨x, hx, hp⟩, rfl⟩
    exact ⟨x, slot, hx, hp, rfl⟩

/-- C18: the value of a form is where the compiler says it is, on top if it is to be pushed, and all variables have the
values they have in the evaluation of the form.  If the evaluation is an error then the code stops with that error.

Missing for the whole property: the forms for which the evaluator says `outside` (see C19; `C18_depth` and
`C18_operators` cover them); integers that do not fit 64 bits. -/
theorem C18_value_partial (cfg : Compile.Config) (n depth : Nat) (e : Ast) (push : Bool) (s s' : CState) (table : Table)
    (i : Option Int) (hcb : KeywordsFree cfg) (hs : Reached cfg s table) (he : Form e)
    (hc : compound cfg n depth e push s = .ok i s') (hg : s'.gensymNumber ≤ 2 ^ 64)
    (hints : ∀ v, .pushInteger v ∈ s'.assembly → -2 ^ 63 ≤ v ∧ v < 2 ^ 63) :
    ∃ (code : List Ins) (place : Nat), s'.assembly = s.assembly ++ code ∧
      (if push then place + 1 = recorded s' else i = some (place : Int)) ∧
      ∀ (env : VM.Env) (strip : Bool) (cell serial : Nat) (before after : List Ins) (base : Nat) (bytes : Bytes) (vm : VM)
        (memory : Bool) (rounds : Nat) (names : Eval.Env) (assignable : Bytes → Bool),
        NumbersFrom s'.symbols (recorded s + room s'.assembly) assignable →
        LabelsOnce (before ++ code ++ after) → Good vm → vm.stack.length = base + recorded s →
        vm.upStack.length = vm.stack.length → vm.currentBytecode = some cell →
        HasCode vm ⟨cell, serial, 0⟩ bytes → Holding (known s'.symbols) vm base table names →
        ComesTo env strip cell serial (before ++ code ++ after) before.length (before.length + code.length) vm
          (Eval.eval ⟨⟨env.fl, memory, assignable⟩, Eval.run ⟨env.fl, memory, assignable⟩ rounds⟩ rounds false e names) (fun r vm' =>
            Good vm' ∧ vm'.stack.length = base + recorded s' ∧ vm'.upStack.length = vm'.stack.length ∧
            Holding (known s'.symbols) vm' base table r.2 ∧
            ∃ o, vm'.stack[base + place]? = some o ∧ Eval.Holds (known s'.symbols) vm' o r.1) ∨
          (memory = true ∧ LacksMemory env strip cell serial (before ++ code ++ after) before.length
            (before.length + code.length) vm) := by
  letI : Keys := .from s'.symbols .core unclaimed_core
  obtain ⟨code, slot, l, l', hi, h1, hf, c⟩ := Reached.code rfl (freeNames hcb _ rfl) hs he hc (bounded_from hg)
  replace c := c.limited _ (recorded s + room s'.assembly) (by rw [h1, room_append]; omega)
  letI : Keys := (Keys.from s'.symbols .core unclaimed_core).upTo (recorded s + room s'.assembly)
  have hn : AllNumbered [] s' := Keeps.compound _ _ _ _ _ _ _ _ hc (Reached.numbered hs)
  have hmem : ∀ {ins}, ins ∈ code → ins ∈ s'.assembly := fun h => h1 ▸ List.mem_append_right _ h
  refine ⟨code, valuePlace push slot (recorded s'), h1, ?_, ?_⟩
  · cases push with
    | true =>
      have : recorded s < recorded s' := c.after.1
      simp [valuePlace]
      omega
    | false => exact hi rfl
  · intro env strip cell serial before after base bytes vm memory rounds names assignable hset honce hgood hh hup hrun hcode hnames
    exact comes rfl c hf (fun a b i j => ids_inj hn.1.choose_spec a b i j) (fun v hv => hints v (hmem hv))
      (fun id len name hm hl => ids_symbol hn (hmem hm) hl) (fun x key => from_keys (hD := unclaimed_core) hn) (from_clear (hD := unclaimed_core) hset) env strip memory rounds _ honce hgood hh hup hrun hcode hnames

/-! ### Operators -/

theorem Mono.gensyms {α : Type} {m : CM α} (hm : Mono m) {s a s'} (h : m s = .ok a s') :
    s.gensymNumber ≤ s'.gensymNumber := (hm s a s' h).gensym

theorem operands_mono {cfg : Compile.Config} {s s' : CState} {es : List Ast} {is : List Int}
    (h : Operands cfg s es s' is) : s.gensymNumber ≤ s'.gensymNumber := by
  induction h with
  | nil => exact Nat.le_refl _
  | cons h1 _ ih => exact Nat.le_trans (Mono.compound cfg _ _ _ _ _ _ _ h1).gensym ih

theorem operands_reached {cfg : Compile.Config} (hcb : KeywordsFree cfg) {s s' : CState} {es : List Ast} {is : List Int}
    {table : Table} (h : Operands cfg s es s' is) (hs : Reached cfg s table) (he : ∀ e ∈ es, Form e)
    (hg : s'.gensymNumber ≤ 2 ^ 64) : Reached cfg s' table := by
  induction h with
  | nil => exact hs
  | cons h1 h2 ih =>
    exact ih (.form hs (he _ (List.mem_cons_self ..)) h1 (Nat.le_trans (operands_mono h2) hg))
      (fun e h => he e (List.mem_cons_of_mem _ h)) hg

/-- The instruction is the one of the operator that the compiler looks up. -/
theorem instruction_of {name : Bytes} {keyword : String} {k : Nat} {g : Gen} (hk : keyword ∈ operators k)
    (hn : Spelled name keyword) (hg : generator name = some g) :
    match g with
    | .op1 op => ∀ a, instruction keyword [a] = some (op.ins a)
    | .op2 op => ∀ a b, instruction keyword [a, b] = some (op.ins a b)
    | .op3 op => ∀ a b c, instruction keyword [a, b, c] = some (op.ins a b c)
    | .makeType => instruction keyword [] = some .makeType
    | _ => True := by
  have hin : ∀ k, k < 4 → ∀ x ∈ operators k, x ∈ Eval.keywords := by decide +kernel
  have h := keyword_called (hin k (generator_operator hk hn).1 keyword hk) hn
  have h2 := generator_named hg
  cases g <;> try trivial
  case op1 op =>
    obtain rfl : keyword = name1 op := Option.some.inj (h.symm.trans h2)
    intro a
    cases op <;> rfl
  case op2 op =>
    obtain rfl : keyword = name2 op := Option.some.inj (h.symm.trans h2)
    intro a b
    cases op <;> rfl
  case op3 op =>
    obtain rfl : keyword = name3 op := Option.some.inj (h.symm.trans h2)
    intro a b c
    cases op <;> rfl
  case makeType =>
    obtain rfl : keyword = "make-type" := Option.some.inj (h.symm.trans h2)
    rfl

theorem initialized_ok {i : Option Int} {s s' : CState} {j : Int} (h : initialized i s = .ok j s') : i = some j ∧ s' = s := by
  cases i with
  | none => cases h
  | some k => cases h; exact ⟨rfl, rfl⟩

theorem keyword_generate {cfg : Compile.Config} (hcb : KeywordsFree cfg) {n depth : Nat} {name : Bytes} {args : List Ast}
    {push : Bool} {s s' : CState} {table : Table} {i : Option Int} {g : Gen} (hs : Reached cfg s table)
    (hgen : generator name = some g)
    (hc : compound cfg n depth (.expression (.identifier name :: args)) push s = .ok i s') :
    ∃ n' depth', generate ⟨compound cfg n' depth', expression cfg n' depth', pure⟩ n' (.identifier name :: args) g s = .ok () s' ∧
      i = some ((recorded s' : Int) - 1) := by
  obtain ⟨l, hv, -⟩ := Reached.view (freeNames hcb _ rfl) hs
  match n with
  | 0 => cases hc
  | 1 =>
    simp only [Compile.compound] at hc
    split at hc
    · cases hc
    · cases hc
  | n + 2 =>
    simp only [Compile.compound] at hc
    split at hc
    · cases hc
    · obtain ⟨_, s1, e1, e2⟩ := CM.bind_inv hc
      have e3 : dispatch cfg ⟨compound cfg n (depth + 1), expression cfg n (depth + 1), pure⟩ n name args s = .ok _ s1 := e1
      rw [dispatch_eq (freeNames hcb _ rfl) hv hgen] at e3
      cases e2
      exact ⟨n, depth + 1, e3, rfl⟩

theorem body_none {s : CState} {bs L l} (h : View false s bs L l) : s.body = none := by
  have := h.body
  cases hb : s.body with
  | none => rfl
  | some b => rw [hb] at this; cases this

/-- C18: the code of an operator is that of its operands, in order, and then the instruction of that name, whose operands
are the values where the compiler says they are; the result is on top. -/
theorem C18_operators (cfg : Compile.Config) (n depth : Nat) (name : Bytes) (keyword : String) (args : List Ast)
    (push : Bool) (s s' : CState) (table : Table) (i : Option Int) (hcb : KeywordsFree cfg) (hs : Reached cfg s table)
    (hk : keyword ∈ operators args.length) (hn : Spelled name keyword) (ha : ∀ a ∈ args, Form a)
    (hc : compound cfg n depth (.expression (.identifier name :: args)) push s = .ok i s')
    (hg : s'.gensymNumber ≤ 2 ^ 64) :
    ∃ s1 places ins, Operands cfg s args s1 places ∧ Reached cfg s1 table ∧
      instruction keyword (places.map fun p => (recorded s1 : Int) - p) = some ins ∧
      s'.assembly = s1.assembly ++ [ins] ∧ recorded s' = recorded s1 + 1 ∧ i = some (recorded s1 : Int) := by
  have key : ∃ s1 places ins, Operands cfg s args s1 places ∧
      instruction keyword (places.map fun p => (recorded s1 : Int) - p) = some ins ∧ s1.gensymNumber ≤ 2 ^ 64 ∧
      (Reached cfg s1 table → emitPush ins s1 = .ok () s' ∧ i = some ((recorded s' : Int) - 1)) := by
    obtain ⟨hk4, ho⟩ := generator_operator hk hn
    cases hgen : generator name with
    | none => rw [hgen] at ho; cases ho
    | some g =>
      rw [hgen] at ho
      have hins := instruction_of hk hn hgen
      obtain ⟨n', depth', e, hi⟩ := keyword_generate hcb hs hgen hc
      cases g <;> simp only [operatorFor, Bool.false_eq_true, beq_iff_eq] at ho
      case makeType =>
        obtain rfl := List.length_eq_zero_iff.1 ho
        have e' := skipCheck (show (checkArgs [Ast.identifier name] 1 false >>= fun _ => emitPush .makeType) s
          = .ok () s' from e)
        exact ⟨s, [], _, .nil, hins, (Nat.le_trans (Mono.gensyms (by repeat' mono1) e') hg), fun _ => ⟨e', hi⟩⟩
      case op1 op =>
        match args, ho with
        | [a], _ =>
          have e' := skipCheck (show (checkArgs [Ast.identifier name, a] 2 false >>= _) s = .ok () s' from e)
          obtain ⟨j, s1, e1, e2⟩ := CM.bind_inv e'
          obtain ⟨j', _, h1, e3⟩ := CM.bind_inv e2
          obtain ⟨rfl, rfl⟩ := initialized_ok h1
          exact ⟨_, [j'], _, .cons e1 .nil, hins _, Nat.le_trans (Mono.gensyms (by repeat' mono1) e3) hg, fun _ => ⟨e3, hi⟩⟩
      case op2 op =>
        match args, ho with
        | [a, b], _ =>
          have e' := skipCheck (show (checkArgs [Ast.identifier name, a, b] 3 false >>= _) s = .ok () s' from e)
          obtain ⟨j, s1, e1, e2⟩ := CM.bind_inv e'
          obtain ⟨k, s2, e3, e4⟩ := CM.bind_inv e2
          obtain ⟨j', _, h1, e5⟩ := CM.bind_inv e4
          obtain ⟨rfl, rfl⟩ := initialized_ok h1
          obtain ⟨k', _, h2, e6⟩ := CM.bind_inv e5
          obtain ⟨rfl, rfl⟩ := initialized_ok h2
          exact ⟨_, [j', k'], _, .cons e1 (.cons e3 .nil), hins _ _, Nat.le_trans (Mono.gensyms (by repeat' mono1) e6) hg,
            fun _ => ⟨e6, hi⟩⟩
      case op3 op =>
        match args, ho with
        | [a, b, c], _ =>
          have e' := skipCheck (show (checkArgs [Ast.identifier name, a, b, c] 4 false >>= _) s = .ok () s' from e)
          obtain ⟨j, s1, e1, e2⟩ := CM.bind_inv e'
          obtain ⟨k, s2, e3, e4⟩ := CM.bind_inv e2
          obtain ⟨m, s3, e5, e6⟩ := CM.bind_inv e4
          obtain ⟨j', _, h1, e7⟩ := CM.bind_inv e6
          obtain ⟨rfl, rfl⟩ := initialized_ok h1
          obtain ⟨k', _, h2, e8⟩ := CM.bind_inv e7
          obtain ⟨rfl, rfl⟩ := initialized_ok h2
          obtain ⟨m', _, h3, e9⟩ := CM.bind_inv e8
          obtain ⟨rfl, rfl⟩ := initialized_ok h3
          exact ⟨_, [j', k', m'], _, .cons e1 (.cons e3 (.cons e5 .nil)), hins _ _ _, Nat.le_trans (Mono.gensyms (by repeat' mono1) e9) hg,
            fun _ => ⟨e9, hi⟩⟩
  obtain ⟨s1, places, ins, h1, h2, h3, h4⟩ := key
  have hr := operands_reached hcb h1 hs ha h3
  obtain ⟨h5, h6⟩ := h4 hr
  obtain ⟨l, hv, -⟩ := Reached.view (freeNames hcb _ rfl) hr
  rw [emitPush_eq hv] at h5
  cases h5
  have hrec := recorded_view (hv.grow [ins] (recorded s1 + 1))
  refine ⟨s1, places, ins, h1, hr, h2, ((Ext.grow s1 [ins] (recorded s1 + 1)).outside (body_none hv)).2, hrec, ?_⟩
  rw [h6, hrec]
  simp

theorem vector_operands {cfg : Compile.Config} {n depth : Nat} : ∀ {es : List Ast} {s s' : CState} {acc is : List Int},
    genVectorLoop ⟨compound cfg n depth, expression cfg n depth, pure⟩ es acc s = .ok is s' →
    ∃ js, Operands cfg s es s' js ∧ is = js.reverse ++ acc
  | [], s, s', acc, is, h => by cases h; exact ⟨[], .nil, rfl⟩
  | e :: es, s, s', acc, is, h => by
    obtain ⟨j, s1, e1, e2⟩ := CM.bind_inv h
    obtain ⟨j', _, h1, e3⟩ := CM.bind_inv e2
    obtain ⟨rfl, rfl⟩ := initialized_ok h1
    obtain ⟨js, h2, rfl⟩ := vector_operands e3
    exact ⟨j' :: js, .cons e1 h2, by simp⟩

/-- C18: the elements of a vector are compiled from the last to the first, above a value that stays there, and are put
into the vector in the order in which they are written. -/
theorem C18_vector (cfg : Compile.Config) (n depth : Nat) (name : Bytes) (args : List Ast)
    (push : Bool) (s s' : CState) (table : Table) (i : Option Int) (hcb : KeywordsFree cfg) (hs : Reached cfg s table)
    (hn : Spelled name "vector") (ha : ∀ a ∈ args, Form a)
    (hc : compound cfg n depth (.expression (.identifier name :: args)) push s = .ok i s')
    (hg : s'.gensymNumber ≤ 2 ^ 64) :
    ∃ s0 s1 places, Reached cfg s0 table ∧ s0.assembly = s.assembly ++ [.nil] ∧ recorded s0 = recorded s + 1 ∧
      Operands cfg s0 args.reverse s1 places ∧ Reached cfg s1 table ∧
      s'.assembly = s1.assembly ++ [.vector args.length (places.reverse.map fun p => (recorded s1 : Int) - p)] ∧
      recorded s' = recorded s1 + 1 ∧ i = some (recorded s1 : Int) := by
  obtain ⟨n', depth', e, hi⟩ := keyword_generate hcb hs
    (generator_called (g := .vector) hn (by decide +kernel) (by decide +kernel)) hc
  obtain ⟨_, s0, e1, e2⟩ := CM.bind_inv e
  obtain ⟨is, s1, e3, e4⟩ := CM.bind_inv e2
  obtain ⟨js, hops, rfl⟩ := vector_operands e3
  obtain ⟨l, hv, -⟩ := Reached.view (freeNames hcb _ rfl) hs
  have hg1 : s1.gensymNumber ≤ 2 ^ 64 := Nat.le_trans (Mono.gensyms (by repeat' mono1) e4) hg
  have hg0 := Nat.le_trans (operands_mono hops) hg1
  have hd : ¬ 0 + 1 ≥ cfg.maxDepth := by
    intro hd
    cases n with
    | zero => cases hc
    | succ n =>
      simp only [Compile.compound] at hc
      rw [if_pos (by omega)] at hc
      cases hc
  have hr0 : Reached cfg s0 table := by
    refine .form (e := .expression []) (n := 2) (depth := 0) (push := true) (i := some ((recorded s0 : Int) - 1)) hs .empty
      ?_ hg0
    simp only [Compile.compound]
    rw [if_neg hd, CM.bind_ok (show expression cfg 1 1 [] s = .ok () s0 from e1)]
    rfl
  have hr1 := operands_reached hcb hops hr0 (fun a h => ha a (by simpa using h)) hg1
  obtain ⟨l1, hv1, -⟩ := Reached.view (freeNames hcb _ rfl) hr1
  rw [emitNil_eq hv] at e1
  cases e1
  rw [emitVector_eq hv1] at e4
  cases e4
  have hlen : js.length = args.length := by
    have : ∀ {s s' es js}, Operands cfg s es s' js → js.length = es.length := by
      intro s s' es js h
      induction h with
      | nil => rfl
      | cons _ _ ih => simp [ih]
    simpa using this hops
  refine ⟨_, s1, js, hr0, ((Ext.grow s [.nil] (recorded s + 1)).outside (body_none hv)).2, recorded_view (hv.grow [.nil] (recorded s + 1)), hops,
    hr1, ?_, recorded_view (hv1.grow _ (recorded s1 + 1)), ?_⟩
  · rw [((Ext.grow s1 _ (recorded s1 + 1)).outside (body_none hv1)).2]
    simp [hlen]
  · rw [hi, recorded_view (hv1.grow _ (recorded s1 + 1))]
    simp

/-! ### Where the count is wrong -/

private def nm (x : String) : Ast := .identifier (ascii x)

/-- Without callbacks. -/
private def none100 : Compile.Config := ⟨Trie.init (-1), 100⟩

/-- What a form is compiled to by a new compiler: the place of its value, the recorded height and the code. -/
private def compiledForm (e : Ast) : Option (Option Int × Nat × List Ins) :=
  match compound none100 100 0 e true .init with
  | .ok i s => some (i, recorded s, s.assembly)
  | _ => none

/-- C18 fails for `(nop)`, which is not one of the forms above: a value is recorded, but none is pushed. -/
theorem C18_nop : compiledForm (.expression [nm "nop"]) = some (some 0, 1, [.nop]) := by decide +kernel

/-- C18 fails for a `while` whose condition is a constant that is true: no value is recorded for it, nor for an `if` with
such a branch, whose other branch does push a value when it is taken. -/
theorem C18_endless_branch (env : VM.Env) : ∃ code vm',
    compiledForm (.expression [nm "if", .expression [nm "car", .expression []],
      .expression [nm "while", .bool true, .int 1], .int 5]) = some (some (-1), 0, code) ∧
    Walk env false 0 0 0 code 0 code.length (0, init 1) (code.length, vm') ∧ vm'.stack = [.integer 5] := by
  refine ⟨[.nil, .car 1, .brnz 0 2, .pushInteger 5, .jump 1, .label 0, .label 2, .pushInteger 1, .pop 1, .jump 2, .label 1],
    { init 1 with stack := [.integer 5], upStack := [none] }, by decide +kernel, ?_, rfl⟩
  have w : ∀ {a k vm m vm'} {k' : Nat} {program}, Walk env false 0 0 0 program 0 11 a (k, vm) → k < 11 →
      Indexed false program k m → exec env 0 ⟨0, 0, k⟩ ⟨0, 0, (k + 1 : Nat)⟩ m vm = .ok (.goto ⟨0, 0, k'⟩) vm' →
      Walk env false 0 0 0 program 0 11 a (k', vm') := fun h h1 h2 h3 => .step h (Nat.zero_le _) h1 h2 h3
  have h1 := w (program := [.nil, .car 1, .brnz 0 2, .pushInteger 5, .jump 1, .label 0, .label 2, .pushInteger 1, .pop 1,
    .jump 2, .label 1]) .here (k := 0) (vm := init 1) (k' := 1) (by decide) ⟨.nil, rfl, .inl rfl⟩ rfl
  have h2 := w h1 (k' := 2) (by decide) ⟨.car 1, rfl, .inl rfl⟩ rfl
  have h3 := w h2 (k' := 3) (by decide) ⟨.brnz 0 2, rfl, .inr (.inr ⟨0, 5, 3, rfl, rfl, rfl, by decide⟩)⟩ rfl
  have h4 := w h3 (k' := 4) (by decide) ⟨.pushInteger 5, rfl, .inl rfl⟩ rfl
  have h5 := w h4 (k' := 10) (by decide) ⟨.jump 1, rfl, .inr (.inr ⟨1, 10, 5, rfl, rfl, rfl, rfl⟩)⟩ rfl
  exact w h5 (k' := 11) (by decide) ⟨.label 1, rfl, .inr (.inl ⟨1, rfl, rfl⟩)⟩ rfl

/-- C19 fails for a global variable whose number happens to be the place of its value on the stack: it is not set.  In a
new compiler this is so for `(global x 5)`. -/
theorem C19_global_not_set :
    compiledForm (.expression [nm "global", nm "x", .int 5]) = some (some 0, 1, [.pushInteger 5]) := by decide +kernel

/-! ### A form

`(+ x 1)` after `(var x 5)` -/

/-- The compiler after `(var x 5)`. -/
private def afterVar : CState :=
  match createVar ⟨compound none100 100 0, expression none100 100 0, pure⟩ [nm "var", nm "x", .int 5] .init with
  | .ok _ s => s
  | _ => .init

private theorem afterVar_reached : Reached none100 afterVar [[(ascii "x", 0)]] :=
  .var (n := 100) (depth := 0) (s := .init) (name := ascii "var") (e := .int 5) (.start fresh_init) (.int _) rfl
    (by decide +kernel)

private def xPlus1 : Ast := .expression [nm "+", nm "x", .int 1]

private theorem xPlus1_form : Form xPlus1 :=
  .operator _ "+" _ (by decide) (.inl rfl) (by
    simp only [List.forall_mem_cons, List.not_mem_nil, false_imp_iff, implies_true, and_true]
    exact ⟨.name _ nofun, .int _⟩)

private def afterForm : CState :=
  match compound none100 100 0 xPlus1 true afterVar with
  | .ok _ s => s
  | _ => .init

private theorem afterForm_eq : ∃ i, compound none100 100 0 xPlus1 true afterVar = .ok i afterForm := by
  have h : (match compound none100 100 0 xPlus1 true afterVar with
    | .ok _ _ => true
    | _ => false) = true := by decide +kernel
  unfold afterForm
  cases hc : compound none100 100 0 xPlus1 true afterVar <;> rw [hc] at h <;> first | exact ⟨_, rfl⟩ | cases h

/-- Some arithmetic; the form has no use for it. -/
private def fl0 : FloatOps := ⟨fun a _ => a, fun a _ => a, fun a _ => a, fun a _ => a, fun _ => 0⟩

/-- In a machine that runs some code and has another value, 5, which is `x`, and a copy of it on the stack, the code of
the form gets to its end and leaves 6 at place 3. -/
example (env : VM.Env) (hfl : env.fl = fl0) (m : Nat) (hm : m + 1 < 2 ^ 60) : ∃ cell serial vm vm',
    vm.stack = [.list none, .integer 5, .integer 5] ∧ vm.currentBytecode = some cell ∧
    Walk env false cell cell serial [.nil, .pushInteger 1, .arith .add 3 1, .halt] 1 3 (1, vm) (3, vm') ∧
    vm'.stack[4]? = some (.integer 6) := by
  obtain ⟨i, hc⟩ := afterForm_eq
  have hints : ∀ ins ∈ afterForm.assembly, ∀ v, ins = .pushInteger v → -2 ^ 63 ≤ v ∧ v < 2 ^ 63 := by
    have h : afterForm.assembly = [.pushInteger 5, .pushIndex 1, .pushInteger 1, .arith .add 3 1] := by decide +kernel
    rw [h]
    simp +contextual
  obtain ⟨code, place, h1, h2, h3⟩ := C18_value_partial none100 100 0 xPlus1 true afterVar afterForm _ _
    (keywordsFree_none 100) afterVar_reached xPlus1_form hc (by decide +kernel) (fun v hv => hints _ hv v rfl)
  obtain rfl : code = [.pushInteger 1, .arith .add 3 1] := by
    have h : afterForm.assembly = afterVar.assembly ++ [.pushInteger 1, .arith .add 3 1] := by decide +kernel
    exact List.append_cancel_left (h1.symm.trans h)
  obtain rfl : place = 3 := by
    have : place + 1 = recorded afterForm := h2
    have h : recorded afterForm = 4 := by decide +kernel
    omega
  obtain ⟨cell, serial, vm1, vm2, hl⟩ := load (bytes := [0]) (init_good (m + 1) hm) (by simp) (fun h => init_free m h.1)
  have hcode : vm2.heap[cell]? = some (.bytecode (some ⟨serial, [0]⟩) 1) := by rw [hl.state]; exact hl.code
  have h := h3 env false cell serial [.nil] [.halt] 1 [0]
    { vm2 with stack := [.list none, .integer 5, .integer 5], upStack := [none, none, none] } false 10 ⟨[[(ascii "x", .int 5)]], []⟩ (fun _ => false) (fun _ h => by cases h)
    (by
      intro j k l hj
      exfalso
      match j with
      | 0 | 1 | 2 | 3 => cases hj
      | j + 4 => simp at hj)
    (hl.good.stacks _ _ (by simp [ValueOk]) (by simp)) rfl rfl (by rw [hl.state]) ⟨_, _, hcode, rfl, rfl⟩
    ⟨⟨⟨rfl, ⟨_, rfl, .int _⟩, trivial⟩, trivial⟩, noGlobals⟩
  rcases h with h | ⟨h, -⟩
  · have hr : Eval.eval ⟨⟨fl0, false, fun _ => false⟩, Eval.run ⟨fl0, false, fun _ => false⟩ 10⟩ 10 false xPlus1 ⟨[[(ascii "x", .int 5)]], []⟩ =
        .ok (.int 6, ⟨[[(ascii "x", .int 5)]], []⟩) := by decide +kernel
    rw [hfl, hr] at h
    obtain ⟨vm', hw, -, -, -, -, o, ho, hv⟩ := h
    cases hv
    exact ⟨cell, serial, _, vm', rfl, by rw [hl.state], hw, ho⟩
  · cases h

#print axioms C18_depth
#print axioms C18_value_partial
#print axioms C18_operators
#print axioms C18_vector
#print axioms C18_nop
#print axioms C18_endless_branch
#print axioms C19_global_not_set

end DuckLisp.Props
