import Verif.Model.Trie

/-!
# Model of the compiler's scopes (/repo/duckLisp.c, section "Scope", and the functions that add names)

The compiler keeps two stacks of scopes, one for the program it compiles and one for code that runs during
compilation (`runtimeCompileState` and `comptimeCompileState`).  A stack is modelled by the list of its
elements, the oldest first, as `scope_stack` stores them.

Simplifications: memory allocation succeeds; `functions_length`, which is never read, is left out; the fields
that only the emitters use (`assembly`) are in the model of the emitters.  Function arguments that the C code
passes by value (`scope`, `function_scope`) are values here as well, so a stale copy stays stale.
-/

namespace DuckLisp.Compile

/-- /repo/duckLisp.h:107-125 `duckLisp_scope_t`. -/
structure Scope where
  locals : Trie.Node
  functionLocals : Trie.Node
  functions : Trie.Node
  labels : Trie.Node
  functionScope : Bool
  scopeUvs : List Int
  functionUvs : List Int

/-- /repo/duckLisp.c:230-242 `scope_init`. -/
def Scope.init (isFunction : Bool) : Scope where
  locals := Trie.init (-1)
  functionLocals := Trie.init (-1)
  functions := Trie.init (-1)
  labels := Trie.init (-1)
  functionScope := isFunction
  scopeUvs := []
  functionUvs := []

/-- /repo/duckLisp.h:127-133 `duckLisp_subCompileState_t`, without `assembly`. -/
structure Sub where
  scopes : List Scope
  localsLength : Nat
  labelNumber : Nat

/-- /repo/duckLisp.c:2094-2106 `duckLisp_subCompileState_init`. -/
def Sub.init : Sub := ⟨[], 0, 0⟩

/-- /repo/duckLisp.h:136-140 `duckLisp_compileState_t`; `currentCompileState` points to one of the two parts. -/
structure Scopes where
  runtime : Sub
  comptime : Sub
  inComptime : Bool

/-- /repo/duckLisp.c:2118-2122 `duckLisp_compileState_init`. -/
def Scopes.init : Scopes := ⟨Sub.init, Sub.init, false⟩

/-- `*compileState->currentCompileState`. -/
def Scopes.current (st : Scopes) : Sub := if st.inComptime then st.comptime else st.runtime

/-- Assignment to `*compileState->currentCompileState`. -/
def Scopes.setCurrent (st : Scopes) (sub : Sub) : Scopes :=
  if st.inComptime then { st with comptime := sub } else { st with runtime := sub }

/-- /repo/duckLisp.c:267-301 `duckLisp_pushScope` with `scope == dl_null`, as it is always called: a scope on
both stacks, which is a function's only on the current one. -/
def pushScope (isFunction : Bool) (st : Scopes) : Scopes :=
  { st with
    runtime := { st.runtime with scopes := st.runtime.scopes ++ [Scope.init (isFunction && !st.inComptime)] }
    comptime := { st.comptime with scopes := st.comptime.scopes ++ [Scope.init (isFunction && st.inComptime)] } }

/-- /repo/duckLisp.c:325-358 `duckLisp_popScope`: the second result is the error returned, which is that of
the second stack. -/
def popScope (st : Scopes) : Scopes × Option DlError :=
  ({ st with
      runtime := { st.runtime with scopes := st.runtime.scopes.dropLast }
      comptime := { st.comptime with scopes := st.comptime.scopes.dropLast } },
    if st.comptime.scopes = [] then some .bufferUnderflow else none)

/-- /repo/duckLisp.c:303-319 `duckLisp_scope_getTop`: the stack left and the top scope.  A function's scope is
pushed if there is none. -/
def getTop (scopes : List Scope) : List Scope × Scope :=
  match scopes.getLast? with
  | some scope => (scopes, scope)
  | none => ([Scope.init true], Scope.init true)

/-- /repo/duckLisp.c:321-323 `scope_setTop`. -/
def setTop (scopes : List Scope) (scope : Scope) : List Scope := scopes.set (scopes.length - 1) scope

/-- The common shape of /repo/duckLisp.c:2217-2238, 2261-2285, 2288-2320 and 717-738: get the top scope, change
it, put it back. -/
def changeTop (f : Scope → Scope) (sub : Sub) : Sub :=
  let (scopes, scope) := getTop sub.scopes
  { sub with scopes := setTop scopes (f scope) }

/-- /repo/duckLisp.c:2217-2238 `duckLisp_scope_addObject`: the name refers to the next slot of the stack. -/
def addObject (name : Bytes) (st : Scopes) : Scopes :=
  let sub := st.current
  st.setCurrent (changeTop
    (fun scope => { scope with locals := Trie.insert scope.locals name sub.localsLength }) sub)

/-- `duckLisp_functionType_ducklisp` and `duckLisp_functionType_macro`, /repo/duckLisp.h:99-105. -/
def functionTypeDucklisp : Int := 2
@[inherit_doc functionTypeDucklisp]
def functionTypeMacro : Int := 4

/-- /repo/duckLisp.c:2261-2285 `duckLisp_addInterpretedFunction`. -/
def addInterpretedFunction (name : Bytes) (st : Scopes) : Scopes :=
  let sub := st.current
  st.setCurrent (changeTop (fun scope => { scope with
    functionLocals := Trie.insert scope.functionLocals name sub.localsLength
    functions := Trie.insert scope.functions name functionTypeDucklisp }) sub)

/-- /repo/duckLisp.c:2288-2320 `duckLisp_addInterpretedGenerator`: the name is a macro in the current stack
and in that of compile time. -/
def addInterpretedGenerator (name : Bytes) (st : Scopes) : Scopes :=
  let add := changeTop (fun scope => { scope with
    functions := Trie.insert scope.functions name functionTypeMacro })
  { st with
    runtime := if st.inComptime then st.runtime else add st.runtime
    comptime := add st.comptime }

/-- /repo/duckLisp.c:717-738 `duckLisp_register_label`. -/
def registerLabel (name : Bytes) (st : Scopes) : Scopes :=
  let sub := st.current
  let sub' := changeTop (fun scope => { scope with
    labels := Trie.insert scope.labels name sub.labelNumber }) sub
  st.setCurrent { sub' with labelNumber := sub.labelNumber + 1 }

/-- The table that `functionsOnly` selects (/repo/duckLisp.c:415-420 and 463). -/
def Scope.table (functionsOnly : Bool) (scope : Scope) : Trie.Node :=
  if functionsOnly then scope.functionLocals else scope.locals

/-- The loop of /repo/duckLisp.c:406-425; the last argument is `scope_index` before it is decremented.
`dl_array_get` refuses an index outside the array. -/
def localIndex (functionsOnly : Bool) (name : Bytes) (scopes : List Scope) : Nat → Int
  | 0 => -1
  | n + 1 =>
    match scopes[n]? with
    | none => -1
    | some scope =>
      let index := Trie.find (scope.table functionsOnly) name
      if index ≠ -1 then index
      else if scope.functionScope then -1
      else localIndex functionsOnly name scopes n

/-- /repo/duckLisp.c:393-428 `duckLisp_scope_getLocalIndexFromName`. -/
def getLocalIndexFromName (functionsOnly : Bool) (name : Bytes) (sub : Sub) : Int :=
  localIndex functionsOnly name sub.scopes sub.scopes.length

/-- /repo/duckLisp.c:489-516: the position of the captured index among the captures of the function, which is
added if it is not there.  The copy of the function's scope is searched, but the array is extended. -/
def captureIn (scopes : List Scope) (functionScope : Scope) (functionScopeIndex : Nat) (index : Int) :
    List Scope × Int :=
  if index ∈ functionScope.functionUvs then
    (scopes, (functionScope.functionUvs.idxOf index : Nat))
  else
    match scopes[functionScopeIndex]? with
    | none => (scopes, -1)
    | some scope =>
      (scopes.set functionScopeIndex { scope with functionUvs := scope.functionUvs ++ [index] },
        (scope.functionUvs.length : Nat))

/-- /repo/duckLisp.c:518-542: note in the scope that a variable of it, or a capture of its function, is
captured. -/
def noteIn (scopes : List Scope) (scope : Scope) (scopeIndex : Nat) (index : Int) : List Scope :=
  if index ∈ scope.scopeUvs then scopes
  else
    match scopes[scopeIndex]? with
    | none => scopes
    | some scope => scopes.set scopeIndex { scope with scopeUvs := scope.scopeUvs ++ [index] }

/-- /repo/duckLisp.c:488-544, the end of the helper: the stack and the index returned. -/
def registerUpvalue (scopes : List Scope) (functionScope : Scope) (functionScopeIndex : Nat) (scope : Scope)
    (scopeIndex : Nat) (index : Int) : List Scope × Int :=
  let (scopes, returned) := captureIn scopes functionScope functionScopeIndex index
  (noteIn scopes scope scopeIndex index, returned)

/-- /repo/duckLisp.c:430-548 `duckLisp_scope_getFreeLocalIndexFromName_helper`.  The last argument is
`*scope_index` before it is decremented.  The result is the stack left and `*index`, or `none` if `*found` is
false. -/
def freeIndexHelper (functionsOnly : Bool) (name : Bytes) (scopes : List Scope) (functionScope : Scope)
    (functionScopeIndex : Nat) : Nat → List Scope × Option Int
  | 0 => (scopes, none)
  | n + 1 =>
    match scopes[n]? with
    | none => (scopes, none)
    | some scope =>
      let index := Trie.find (scope.table functionsOnly) name
      if index ≠ -1 then
        let (scopes, index) := registerUpvalue scopes functionScope functionScopeIndex scope n index
        (scopes, some index)
      else if scope.functionScope then
        -- lines 470-486: not in the function just outside; look further out and chain.
        match freeIndexHelper functionsOnly name scopes scope n n with
        | (scopes, none) => (scopes, none)
        | (scopes, some index) =>
          let index := if 0 ≤ index then -(index + 1) else index
          let (scopes, index) := registerUpvalue scopes functionScope functionScopeIndex scope n index
          (scopes, some index)
      else freeIndexHelper functionsOnly name scopes functionScope functionScopeIndex n

/-- The loop of /repo/duckLisp.c:562-571: the index and the scope of the current function. -/
def currentFunction (scopes : List Scope) : Nat → Option (Nat × Scope)
  | 0 => none
  | n + 1 =>
    match scopes[n]? with
    | none => none
    | some scope => if scope.functionScope then some (n, scope) else currentFunction scopes n

/-- /repo/duckLisp.c:550-586 `duckLisp_scope_getFreeLocalIndexFromName`. -/
def getFreeLocalIndexFromName (functionsOnly : Bool) (name : Bytes) (sub : Sub) : Sub × Option Int :=
  match currentFunction sub.scopes sub.scopes.length with
  | none => (sub, none)
  | some (n, scope) =>
    let (scopes, found) := freeIndexHelper functionsOnly name sub.scopes scope n n
    ({ sub with scopes := scopes }, found)

/-- The loop that /repo/duckLisp.c:371-384, 604-619 and 668-681 share: the entry for a name in the nearest
scope that has one, whichever function it belongs to. -/
def nearest (table : Scope → Trie.Node) (name : Bytes) (scopes : List Scope) : Nat → Int
  | 0 => -1
  | n + 1 =>
    match scopes[n]? with
    | none => -1
    | some scope =>
      let index := Trie.find (table scope) name
      if index ≠ -1 then index else nearest table name scopes n

/-- /repo/duckLisp.c:360-387 `duckLisp_scope_getMacroFromName`. -/
def getMacroFromName (name : Bytes) (sub : Sub) : Int :=
  nearest Scope.functionLocals name sub.scopes sub.scopes.length

/-- /repo/duckLisp.c:656-683 `duckLisp_scope_getLabelFromName`. -/
def getLabelFromName (name : Bytes) (sub : Sub) : Int :=
  nearest Scope.labels name sub.scopes sub.scopes.length

/-- /repo/duckLisp.c:604-619, the part of `duckLisp_scope_getFunctionFromName` that searches the scopes: the
type recorded, or -1. -/
def functionType (name : Bytes) (sub : Sub) : Int :=
  nearest Scope.functions name sub.scopes sub.scopes.length

end DuckLisp.Compile
