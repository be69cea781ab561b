import Verif.Spec.Eval
import Verif.Model.Compile.Generate

/-!
# The rules of evaluation, one by one
-/

namespace DuckLisp.Compile

open DuckLisp DuckLisp.VM DuckLisp.Reader DuckLisp.Spec DuckLisp.Spec.Eval

theorem keyword_called {name : Bytes} {k : String} (hk : k ∈ keywords) (h : Spelled name k) :
    keyword name = some k := by
  have key : ∀ k ∈ keywords, keyword (ascii k) = some k ∧ keyword (ascii ("__" ++ k)) = some k := by decide +kernel
  rcases h with rfl | rfl
  · exact (key k hk).1
  · exact (key k hk).2

theorem called_keyword {name : Bytes} {k : String} (h : keyword name = some k) : Spelled name k := by
  have := List.find?_some h
  simpa [Spelled] using this

/-- The names of the operators. -/
def name1 : Op1 → String
  | .not => "not"
  | .car => "car"
  | .cdr => "cdr"
  | .nullp => "null?"
  | .typeof => "type-of"
  | .compositeValue => "composite-value"
  | .compositeFunction => "composite-function"
  | .makeString => "make-string"
  | .length => "length"
  | .symbolString => "symbol-string"
  | .symbolId => "symbol-id"

/-- See `name1`. -/
def name2 : Op2 → String
  | .multiply => "*"
  | .divide => "/"
  | .add => "+"
  | .sub => "-"
  | .equal => "="
  | .less => "<"
  | .greater => ">"
  | .makeVector => "make-vector"
  | .getVecElt => "get-vector-element"
  | .cons => "cons"
  | .setCar => "set-car"
  | .setCdr => "set-cdr"
  | .setCompositeValue => "set-composite-value"
  | .setCompositeFunction => "set-composite-function"
  | .concatenate => "concatenate"

/-- See `name1`. -/
def name3 : Op3 → String
  | .setVecElt => "set-vector-element"
  | .makeInstance => "make-instance"
  | .substring => "substring"

/-- The name has the meaning of the generator. -/
def Named (name : Bytes) : Gen → Prop
  | .op1 op => keyword name = some (name1 op)
  | .op2 op => keyword name = some (name2 op)
  | .op3 op => keyword name = some (name3 op)
  | .makeType => keyword name = some "make-type"
  | _ => True

instance (name : Bytes) : DecidablePred (Named name) := fun g => by
  cases g <;> unfold Named <;> infer_instance

theorem generator_named {name : Bytes} {g : Gen} (h : generator name = some g) : Named name g := by
  have key : ∀ entry ∈ generators, Named entry.1 entry.2 := by decide +kernel
  unfold generator at h
  obtain ⟨entry, he, rfl⟩ := Option.map_eq_some_iff.1 h
  have hn := List.find?_some he
  simp only [beq_iff_eq] at hn
  subst hn
  exact key entry (List.mem_of_find?_eq_some he)

variable {S : Rules} {F : Nat} {inBlock : Bool} {env : Env} {name : Bytes}

theorem eval_op1 {a : Ast} (op : Op1) (h : keyword name = some (name1 op)) :
    eval S F inBlock (.expression [.identifier name, a]) env = (do
      let (x, env) ← eval S F false a env
      let x ← (Eval.operand a x env).get env
      let v ← apply1 S.toSetting (name1 op) x
      .ok (v, env)) := by
  cases op <;> simp only [name1] at h ⊢ <;> rw [eval.eq_def] <;> simp only [h] <;> rfl

theorem eval_op2 {a b : Ast} (op : Op2) (h : keyword name = some (name2 op)) :
    eval S F inBlock (.expression [.identifier name, a, b]) env = (do
      let (x, env) ← eval S F false a env
      let (y, env) ← eval S F false b env
      let x ← (Eval.operand a x env).get env
      let y ← (Eval.operand b y env).get env
      let v ← apply2 S.toSetting (name2 op) x y
      .ok (v, env)) := by
  cases op <;> simp only [name2] at h ⊢ <;> rw [eval.eq_def] <;> simp only [h] <;> rfl

theorem eval_substring {a b c : Ast} (h : keyword name = some "substring") :
    eval S F inBlock (.expression [.identifier name, a, b, c]) env = (do
      let (x, env) ← eval S F false a env
      let (y, env) ← eval S F false b env
      let (z, env) ← eval S F false c env
      let x ← (Eval.operand a x env).get env
      let y ← (Eval.operand b y env).get env
      let z ← (Eval.operand c z env).get env
      let v ← apply3 "substring" x y z
      .ok (v, env)) := by
  rw [eval.eq_def]
  simp only [h]

theorem eval_op3 {a b c : Ast} (op : Op3) (ho : op ≠ .substring) (h : keyword name = some (name3 op)) :
    eval S F inBlock (.expression [.identifier name, a, b, c]) env = .outside := by
  cases op <;> simp only [name3] at h <;> first | exact absurd rfl ho | (rw [eval.eq_def]; simp only [h]; rfl)

theorem eval_op0 (h : keyword name = some "make-type") :
    eval S F inBlock (.expression [.identifier name]) env = .outside := by
  rw [eval.eq_def]
  simp only [h]
  rfl

theorem eval_declare {args : List Ast} (h : Spelled name "declare") :
    eval S F inBlock (.expression (.identifier name :: args)) env = .ok (.nil, env) := by
  have h := keyword_called (by decide +kernel) h
  simp only [eval, h]

theorem eval_quote {e : Ast} (h : Spelled name "quote") :
    eval S F inBlock (.expression [.identifier name, e]) env = (do
      let v ← datum S.toSetting e
      .ok (v, env)) := by
  have h := keyword_called (by decide +kernel) h
  simp only [eval, h]

theorem eval_list {es : List Ast} (h : Spelled name "list") :
    eval S F inBlock (.expression (.identifier name :: es)) env = Eval.elements S F es env := by
  have h := keyword_called (by decide +kernel) h
  simp only [eval, h]

theorem eval_global {x : Bytes} {e : Ast} (h : Spelled name "global") :
    eval S F inBlock (.expression [.identifier name, .identifier x, e]) env = (do
      let (v, env) ← eval S F false e env
      Eval.setGlobal S.toSetting x v env) := by
  have h := keyword_called (by decide +kernel) h
  simp only [eval, h]

theorem eval_vector {es : List Ast} (h : Spelled name "vector") :
    eval S F inBlock (.expression (.identifier name :: es)) env = .outside := by
  have h := keyword_called (by decide +kernel) h
  simp only [eval, h]

theorem eval_setq {x : Bytes} {e : Ast} (h : Spelled name "setq") :
    eval S F inBlock (.expression [.identifier name, .identifier x, e]) env = (do
      let (v, env) ← eval S F false e env
      if (lookupBlocks x env.blocks).isSome then .ok (v, assign x v env) else Eval.setGlobal S.toSetting x v env) := by
  have h := keyword_called (by decide +kernel) h
  simp only [eval, h]

theorem eval_var {x : Bytes} {e : Ast} (h : Spelled name "var") :
    eval S F true (.expression [.identifier name, .identifier x, e]) env = (do
      let (v, env) ← eval S F false e env
      .ok (v, declare x v env)) := by
  have h := keyword_called (by decide +kernel) h
  simp only [eval, h, ↓reduceIte]

theorem eval_noscope {es : List Ast} (h : Spelled name "noscope") :
    eval S F true (.expression (.identifier name :: es)) env = body S F es env := by
  have h := keyword_called (by decide +kernel) h
  simp only [eval, h, ↓reduceIte]

theorem eval_if {c e f : Ast} (h : Spelled name "if") :
    eval S F inBlock (.expression [.identifier name, c, e, f]) env = (do
      let (b, env) ← decided c (eval S F false c env) env
      if b then eval S F false e env else eval S F false f env) := by
  have h := keyword_called (by decide +kernel) h
  simp only [eval, h]

/-- A block of its own. -/
def inScope (S : Rules) (F : Nat) (es : List Ast) (env : Env) : Result (Value × Env) := do
  let (v, env) ← body S F es env.enter
  .ok (v, env.leave)

theorem eval_when {c : Ast} {es : List Ast} (h : Spelled name "when") :
    eval S F inBlock (.expression (.identifier name :: c :: es)) env = (do
      let (b, env) ← decided c (eval S F false c env) env
      if b then inScope S F es env else .ok (.nil, env)) := by
  have h := keyword_called (by decide +kernel) h
  simp only [eval, h]
  rfl

theorem eval_unless {c : Ast} {es : List Ast} (h : Spelled name "unless") :
    eval S F inBlock (.expression (.identifier name :: c :: es)) env = (do
      let (b, env) ← decided c (eval S F false c env) env
      if b then .ok (.nil, env) else inScope S F es env) := by
  have h := keyword_called (by decide +kernel) h
  simp only [eval, h]
  rfl

theorem Result.bind_assoc {α β γ : Type} (r : Result α) (f : α → Result β) (g : β → Result γ) :
    (r >>= f) >>= g = r >>= fun a => f a >>= g := by
  cases r <;> rfl

theorem eval_while {c : Ast} {es : List Ast} (h : Spelled name "while") :
    eval S F inBlock (.expression (.identifier name :: c :: es)) env =
      Eval.loop (eval S F false c) (fun env => do
        let (v, env) ← inScope S F es env.enter
        .ok (v, env.leave)) F env := by
  have h := keyword_called (by decide +kernel) h
  simp only [eval, h]
  congr 1
  funext env
  unfold inScope
  rw [Result.bind_assoc]
  rfl

theorem parameters_map (params : List Bytes) (rest : Option Bytes) (hp : ∀ p ∈ params, p ≠ ascii "&rest") :
    parameters ((signature params rest).map .identifier) = some (params, rest) := by
  induction params with
  | nil =>
    cases rest with
    | none => rfl
    | some r => simp [signature, parameters, restName]
  | cons x params ih =>
    have ih := ih fun p h => hp p (List.mem_cons_of_mem _ h)
    have e : signature (x :: params) rest = x :: signature params rest := by cases rest <;> rfl
    rw [e, List.map_cons, parameters, if_neg (hp x (by simp)), ih]
    rfl

theorem eval_lambda {params : List Bytes} {rest : Option Bytes} {forms : List Ast} (h : Spelled name "lambda")
    (hp : ∀ p ∈ params, p ≠ ascii "&rest") :
    eval S F inBlock (.expression (.identifier name :: .expression ((signature params rest).map .identifier) :: forms)) env =
      if S.memory = true ∧ params.length < 256 then .ok (.function params rest forms, env) else .outside := by
  have h := keyword_called (by decide +kernel) h
  simp only [eval, h, parameters_map params rest hp]

theorem eval_funcall {f : Ast} {args : List Ast} (h : Spelled name "funcall") :
    eval S F inBlock (.expression (.identifier name :: f :: args)) env = (do
      let (v, env) ← eval S F false f env
      let (args, env) ← arguments S F args env
      let f ← (Eval.operand f v env).get env
      call S f args env) := by
  have h := keyword_called (by decide +kernel) h
  simp only [eval, h]

theorem eval_apply {f a : Ast} {args : List Ast} (h : Spelled name "apply") :
    eval S F inBlock (.expression (.identifier name :: f :: a :: args)) env = (do
      let (v, env) ← eval S F false f env
      let (args, env) ← arguments S F (a :: args) env
      let f ← (Eval.operand f v env).get env
      applyTo S f args.dropLast (args.getLastD .nil) env) := by
  have h := keyword_called (by decide +kernel) h
  simp only [eval, h, arguments]
  congr 1
  funext p
  simp only [Result.bind_assoc]
  rfl

theorem eval_call {args : List Ast} (h : keyword name = none) :
    eval S F inBlock (.expression (.identifier name :: args)) env =
      match lookupBlock name env.globals with
      | some f => do
          let (args, env) ← arguments S F args env
          call S f args env
      | none => .outside := by
  simp only [eval, h]
  cases lookupBlock name env.globals <;> rfl

theorem eval_scope {e : Ast} {es : List Ast} (h : Opens e) :
    eval S F inBlock (.expression (e :: es)) env = inScope S F (e :: es) env := by
  cases h <;> simp only [eval] <;> rfl

theorem eval_special {f : Ast} (h : special f = none) (env : Env) : eval S F true f env = eval S F false f env := by
  cases f with
  | expression es =>
    cases es with
    | nil => simp only [eval]
    | cons a args =>
      cases a with
      | identifier name =>
        simp only [special] at h
        have h1 : keyword name ≠ some "var" := fun hk => by
          rcases called_keyword hk with rfl | rfl <;> revert h <;> decide +kernel
        have h2 : keyword name ≠ some "noscope" := fun hk => by
          rcases called_keyword hk with rfl | rfl <;> revert h <;> decide +kernel
        rw [eval.eq_def, eval.eq_def S F false]
        dsimp only
        split <;> simp_all
      | _ => simp only [eval]
  | _ => simp only [eval]

theorem body_cons {e : Ast} {es : List Ast} (h : es ≠ []) :
    body S F (e :: es) env = (do
      let (_, env) ← eval S F true e env
      body S F es env) := by
  simp only [body, if_neg h]

theorem body_last {e : Ast} : body S F [e] env = eval S F true e env := by
  simp only [body, ↓reduceIte]
  cases eval S F true e env <;> rfl

/-- A list, onto which elements are put one after the other. -/
def consOnto (S : Rules) (F : Nat) : List Ast → Value → Env → Result (Value × Env)
  | [], d, env => .ok (d, env)
  | e :: es, d, env => do
      let (a, env) ← eval S F false e env
      if S.memory then consOnto S F es (.pair a d) env else .outside

theorem consOnto_append (xs : List Ast) (e : Ast) (d : Value) (env : Env) :
    consOnto S F (xs ++ [e]) d env = (do
      let (d, env) ← consOnto S F xs d env
      let (a, env) ← eval S F false e env
      if S.memory then .ok (.pair a d, env) else .outside) := by
  induction xs generalizing d env with
  | nil => simp only [List.nil_append, consOnto]; rfl
  | cons x xs ih =>
    simp only [List.cons_append, consOnto]
    rw [Result.bind_assoc]
    congr 1
    funext p
    by_cases hm : S.memory = true
    · simp only [hm, ↓reduceIte]
      have := ih (.pair p.1 d) p.2
      simp only [hm, ↓reduceIte] at this
      exact this
    · simp only [hm]
      rfl

theorem elements_reverse (es : List Ast) (env : Env) :
    Eval.elements S F es env = consOnto S F es.reverse .nil env := by
  induction es generalizing env with
  | nil => simp only [Eval.elements, List.reverse_nil, consOnto]
  | cons e es ih =>
    rw [List.reverse_cons, consOnto_append, Eval.elements, ih]

end DuckLisp.Compile
