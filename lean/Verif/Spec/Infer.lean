import Verif.Model.Infer

/-!
# Specification: programs with parentheses left out
-/

namespace DuckLisp.Spec

open DuckLisp.Reader DuckLisp.Infer

/-- `Grouped ts es`: `es` are the forms `ts` in the same order, and some of them in a row, beginning with a name, have been
put into parentheses; the mark `#` may have been taken away. -/
inductive Grouped : List Ast → List Ast → Prop
  | nil : Grouped [] []
  | same (e) {ts es} : Grouped ts es → Grouped (e :: ts) (e :: es)
  | unmark (x) {ts es} : Grouped ts es → Grouped (.callback x :: ts) (.identifier x :: es)
  | inside {us fs ts es} : Grouped us fs → Grouped ts es → Grouped (.expression us :: ts) (.expression fs :: es)
  | unmarkAll {us fs ts es} : Grouped us fs → Grouped ts es → Grouped (.literal us :: ts) (.expression fs :: es)
  | group (f) {us fs ts es} : Grouped us fs → Grouped ts es →
      Grouped (.identifier f :: us ++ ts) (.expression (.identifier f :: fs) :: es)

mutual
/-- Nothing is marked with `#`. -/
def Unmarked : Ast → Prop
  | .callback _ => False
  | .literal _ => False
  | .expression es => AllUnmarked es
  | _ => True
/-- See `Unmarked`. -/
def AllUnmarked : List Ast → Prop
  | [] => True
  | e :: es => Unmarked e ∧ AllUnmarked es
end

/-! ### Rules of inference -/

namespace Inference

open Infer (Sig Script Decl Config)

/-- The form is this name, marked or not. -/
inductive Names : Ast → Bytes → Prop
  | plain (x) : Names (.identifier x) x
  | marked (x) : Names (.callback x) x

mutual
/-- The signatures that types denote: `L`, `I`, and lists, in which `&rest`, a number and a type may stand in the end. -/
inductive Denotes : Ast → Sig → Prop
  | literal {e} : Names e (ascii "L") → Denotes e .literal
  | infer {e} : Names e (ascii "I") → Denotes e .infer
  | fixed {es ss} : DenoteAll es ss → Denotes (.expression es) (.fixed ss)
  | variadic {es ss m n e s} : DenoteAll es ss → Names m (ascii "&rest") → Denotes e s →
      Denotes (.expression (es ++ [m, .int n, e])) (.variadic ss n s)
/-- See `Denotes`. -/
inductive DenoteAll : List Ast → List Sig → Prop
  | nil : DenoteAll [] []
  | cons {e es s ss} : Denotes e s → DenoteAll es ss → DenoteAll (e :: es) (s :: ss)
end

/-- What is declared: of the scopes the innermost first, of the declarations in a scope the latest first; and the state
of what runs scripts. -/
structure Env (σ : Type) where
  scopes : List (List (Bytes × Decl σ))
  inner : σ

variable {σ : Type}

/-- The declaration of a name: the latest in the innermost scope that has one. -/
def Env.declared (E : Env σ) (x : Bytes) : Option (Decl σ) := E.scopes.flatten.lookup x

/-- A new scope. -/
def Env.open_ (E : Env σ) : Env σ := { E with scopes := [] :: E.scopes }

/-- `Env.Close E E'`: the innermost scope of `E` ends. -/
inductive Env.Close : Env σ → Env σ → Prop
  | mk {c cs i} : Env.Close ⟨c :: cs, i⟩ ⟨cs, i⟩

/-- `Env.Declare x d E E'`: a name is declared in the innermost scope. -/
inductive Env.Declare (x : Bytes) (d : Decl σ) : Env σ → Env σ → Prop
  | mk {c cs i} : Env.Declare x d ⟨c :: cs, i⟩ ⟨((x, d) :: c) :: cs, i⟩

/-- The keyword. -/
def Keyword (k : Bytes) : Prop := k = ascii "declare" ∨ k = ascii "__declare"

/-- `(declare x type)` or `(declare x type script)`. -/
inductive Declaration : Ast → Prop
  | plain (k x t) : Keyword k → Declaration (.expression [.identifier k, .identifier x, t])
  | script (k x t c) : Keyword k → Declaration (.expression [.identifier k, .identifier x, t, c])

/-- What a form declares. -/
inductive Declares (cfg : Config σ) : Ast → Env σ → Env σ → Prop
  | other {e E} : ¬ Declaration e → Declares cfg e E E
  | plain {k x t s E E'} : Keyword k → Denotes t s → Env.Declare x ⟨s, none⟩ E E' →
      Declares cfg (.expression [.identifier k, .identifier x, t]) E E'
  | script {k x t c s code i E E'} : Keyword k → Denotes t s → s ≠ .literal → s ≠ .infer →
      cfg.compile c E.inner = .ok (code, i) → Env.Declare x ⟨s, some code⟩ { E with inner := i } E' →
      Declares cfg (.expression [.identifier k, .identifier x, t, c]) E E'

/-- Arguments that a function takes: one; or in the end further ones, without parentheses this many; or no further
ones. -/
inductive Slot where
  | one (s : Sig)
  | further (count : Int) (s : Sig)
  | nothing

/-- The arguments of a function. -/
def slots : Sig → Option (List Slot)
  | .fixed ps => some (ps.map .one ++ [.nothing])
  | .variadic ps n s => some (ps.map .one ++ [.further n s])
  | _ => none

/-- Whether parentheses are inferred in an argument of this type. -/
inductive Kind : Sig → Bool → Prop
  | literal : Kind .literal false
  | infer : Kind .infer true

/-- A call on the way: arguments to be taken, the function and the arguments taken, and what is written behind. -/
structure Call where
  slots : List Slot
  taken : List Ast
  rest : List Ast

/-- Forms in which nothing is inferred: constants, names, and empty lists. -/
inductive Plain : Ast → Prop
  | bool (b) : Plain (.bool b)
  | int (n) : Plain (.int n)
  | float (f) : Plain (.float f)
  | string (s) : Plain (.string s)
  | name (x) : Plain (.identifier x)
  | empty : Plain (.expression [])
  | emptyLiteral : Plain (.literal [])
  | garbage : Plain .garbage

mutual
/-- `Whole cfg i e E e' E'`: the form `e` stands for `e'`.  The flag says whether parentheses are inferred. -/
inductive Whole (cfg : Config σ) : Bool → Ast → Env σ → Ast → Env σ → Prop
  | marked {i x E} : Whole cfg i (.callback x) E (.identifier x) E
  | plain {i e E} : Plain e → Whole cfg i e E e E
  | kept {h es E} : Whole cfg false (.expression (h :: es)) E (.expression (h :: es)) E
  | keptLiteral {h es E} : Whole cfg false (.literal (h :: es)) E (.literal (h :: es)) E
  /-- `#(f …)`: nothing is inferred. -/
  | literal {h x es E es' E'} : Names h x → Every cfg false es E es' E' →
      Whole cfg true (.literal (h :: es)) E (.expression (.identifier x :: es')) E'
  /-- `(#f …)`: `f` is not taken for a function. -/
  | headMarked {x es E es' E'} : Every cfg true es E es' E' →
      Whole cfg true (.expression (.callback x :: es)) E (.expression (.identifier x :: es')) E'
  /-- A call in parentheses: its arguments are all that stands in the parentheses. -/
  | call {f d ss es E p E' es' E''} : E.declared f = some d → slots d.sig = some ss →
      Prepare cfg true d.script ⟨ss, [.identifier f], es⟩ E p E' → Fill cfg true p E' es' [] E'' →
      Whole cfg true (.expression (.identifier f :: es)) E (.expression es') E''
  /-- A variable of type `L` in front. -/
  | variable {f d es E es' E'} : E.declared f = some d → d.sig = .literal → Every cfg true es E es' E' →
      Whole cfg true (.expression (.identifier f :: es)) E (.expression (.identifier f :: es')) E'
  /-- A block is a scope. -/
  | block {h es E es' E' E''} : (∀ x, ¬ Names h x) → Every cfg true (h :: es) E.open_ es' E' → E'.Close E'' →
      Whole cfg true (.expression (h :: es)) E (.expression es') E''
/-- `Next cfg i ts E e rest E'`: the first of the written forms `ts`, and what follows as far as it belongs to it, stand
for `e`, and `rest` is what is left. -/
inductive Next (cfg : Config σ) : Bool → List Ast → Env σ → Ast → List Ast → Env σ → Prop
  | name {x ts E} : Next cfg false (.identifier x :: ts) E (.identifier x) ts E
  | variable {x d ts E} : E.declared x = some d → slots d.sig = none →
      Next cfg true (.identifier x :: ts) E (.identifier x) ts E
  /-- A call without parentheses. -/
  | call {f d ss ts E p E' es' rest E'' E₃} : E.declared f = some d → slots d.sig = some ss →
      Prepare cfg false d.script ⟨ss, [.identifier f], ts⟩ E p E' → Fill cfg false p E' es' rest E'' →
      Declares cfg (.expression es') E'' E₃ → Next cfg true (.identifier f :: ts) E (.expression es') rest E₃
  | form {i e ts E e' E' E''} : (∀ x, e ≠ .identifier x) → Whole cfg i e E e' E' → Declares cfg e' E' E'' →
      Next cfg i (e :: ts) E e' ts E''
/-- `Every cfg i ts E es E'`: the written forms `ts` stand for the forms `es`. -/
inductive Every (cfg : Config σ) : Bool → List Ast → Env σ → List Ast → Env σ → Prop
  | nil {i E} : Every cfg i [] E [] E
  | cons {i ts E e rest E' E'' es E₃} : Next cfg i ts E e rest E' → Declares cfg e E' E'' →
      Every cfg i rest E'' es E₃ → Every cfg i ts E (e :: es) E₃
/-- The further arguments of a call in parentheses: all forms that are left. -/
inductive Further (cfg : Config σ) : Sig → List Ast → Env σ → List Ast → Env σ → Prop
  | nil {s E} : Further cfg s [] E [] E
  | cons {s i ts E e rest E' es E''} : Kind s i → Next cfg i ts E e rest E' → Further cfg s rest E' es E'' →
      Further cfg s ts E (e :: es) E''
/-- The further arguments of a call without parentheses: as many as declared. -/
inductive Number (cfg : Config σ) : Sig → Nat → List Ast → Env σ → List Ast → List Ast → Env σ → Prop
  | zero {s ts E} : Number cfg s 0 ts E [] ts E
  | succ {s i n ts E e rest E' es rest' E''} : Kind s i → Next cfg i ts E e rest E' →
      Number cfg s n rest E' es rest' E'' → Number cfg s (n + 1) ts E (e :: es) rest' E''
/-- `Take cfg b p E e q E'`: a call, in parentheses or not, takes its next argument, `e`.  Further arguments are taken
together, as a list.  If there are none, then `e` is what was taken last. -/
inductive Take (cfg : Config σ) : Bool → Call → Env σ → Ast → Call → Env σ → Prop
  | one {b s i ss taken ts E e rest E'} : Kind s i → Next cfg i ts E e rest E' →
      Take cfg b ⟨.one s :: ss, taken, ts⟩ E e ⟨ss, taken ++ [e], rest⟩ E'
  | all {n s taken ts E es E'} : Further cfg s ts E es E' →
      Take cfg true ⟨[.further n s], taken, ts⟩ E (.expression es) ⟨[], taken ++ es, []⟩ E'
  | some {n : Nat} {s taken ts E es rest E'} : Number cfg s n ts E es rest E' →
      Take cfg false ⟨[.further n s], taken, ts⟩ E (.expression es) ⟨[], taken ++ es, rest⟩ E'
  | nothing {b taken e ts E} : Take cfg b ⟨[.nothing], taken ++ [e], ts⟩ E e ⟨[], taken ++ [e], ts⟩ E
/-- The remaining arguments are taken. -/
inductive Fill (cfg : Config σ) : Bool → Call → Env σ → List Ast → List Ast → Env σ → Prop
  | done {b taken ts E} : Fill cfg b ⟨[], taken, ts⟩ E taken ts E
  | take {b p E e q E' es rest E''} : Take cfg b p E e q E' → Fill cfg b q E' es rest E'' → Fill cfg b p E es rest E''
/-- The script of a function, if it has one, comes first. -/
inductive Prepare (cfg : Config σ) : Bool → Option (σ → Script σ) → Call → Env σ → Call → Env σ → Prop
  | none {b p E} : Prepare cfg b none p E p E
  | some {b code p E q E'} : Follow cfg b (code E.inner) p E q E' → Prepare cfg b (some code) p E q E'
/-- What a script does: it may take arguments, declare names, and open and close scopes. -/
inductive Follow (cfg : Config σ) : Bool → Script σ → Call → Env σ → Call → Env σ → Prop
  | done {b i p E} : Follow cfg b (.done i) p E p { E with inner := i }
  | next {b i k p E e q E' r E''} : Take cfg b p { E with inner := i } e q E' → Follow cfg b (k e E'.inner) q E' r E'' →
      Follow cfg b (.next i k) p E r E''
  | declare {b x t s k p E E' q E''} : Denotes t s → Env.Declare x ⟨s, Option.none⟩ E E' → Follow cfg b k p E' q E'' →
      Follow cfg b (.declare x t k) p E q E''
  | push {b k p E q E'} : Follow cfg b k p E.open_ q E' → Follow cfg b (.push k) p E q E'
  | pop {b k p E E' q E''} : E.Close E' → Follow cfg b k p E' q E'' → Follow cfg b (.pop k) p E q E''
end

/-- The text is read as this form. -/
def ReadAs (reader : Reader.Config) (text : Bytes) (e : Ast) : Prop := ∃ s, Reader.read reader text 0 {} = .ok e s

/-- What the host declares before a program is read.  `Reads text e`: the text is read as `e`. -/
inductive Provides (cfg : Config σ) (Reads : Bytes → Ast → Prop) : List Infer.Prototype → Env σ → Env σ → Prop
  | nil {E} : Provides cfg Reads [] E E
  | plain {x text t s ds E E' E''} : Reads text t → Denotes t s → Env.Declare x ⟨s, none⟩ E E' →
      Provides cfg Reads ds E' E'' → Provides cfg Reads (⟨x, text, []⟩ :: ds) E E''
  | script {x text t script c s code i ds E E' E''} : script ≠ [] → Reads text t → Denotes t s → s ≠ .literal → s ≠ .infer →
      Reads script c → cfg.compile c E.inner = .ok (code, i) → Env.Declare x ⟨s, some code⟩ { E with inner := i } E' →
      Provides cfg Reads ds E' E'' → Provides cfg Reads (⟨x, text, script⟩ :: ds) E E''

/-- The program `e` stands for `e'`, if these are declared. -/
def StandsFor (cfg : Config σ) (Reads : Bytes → Ast → Prop) (ds : List Infer.Prototype) (inner : σ) (e e' : Ast) : Prop :=
  ∃ E E', Provides cfg Reads ds ⟨[[]], inner⟩ E ∧ Whole cfg true e E e' E'

/-- There are no further arguments. -/
def NoFurther (ss : List Slot) : Prop := ∀ n s, .further n s ∉ ss

end Inference

end DuckLisp.Spec
