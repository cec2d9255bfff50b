import Verif.Model.Config
import Verif.Model.Span
/-!
# Finding candidates

Models backends/src/generic_visitor.rs, driven by a framework's visitor (backends/src/rust/visitor.rs,
backends/src/go/visitor.rs, backends/src/php/visitor.rs, backends/src/foundry/visitor/mod.rs,
backends/src/ts/inner/visitor.rs) over an abstract syntax tree.
-/
namespace Necessist.Visit

/-- What the visitor asks about a statement: its span, `statement_is_removable`, `statement_is_control` and
`statement_is_declaration` (backends/src/parsing.rs:138-159). Statements are compared with `==`
(backends/src/generic_visitor.rs:373): two statements are equal iff their keys are. -/
structure StmtInfo where
  span : Span
  key : Nat
  removable : Bool
  control : Bool
  declaration : Bool
deriving DecidableEq, Repr

/-- What the visitor asks about an expression: `Spanned` and `MaybeNamed` (backends/src/parsing.rs:53-71). -/
structure ExprInfo where
  span : Span
  name : Option Text
deriving DecidableEq, Repr

/-- Syntax trees, as the visitor sees them (`AbstractTypes`, backends/src/parsing.rs:74-87). An `exprStmt` is one for which
`statement_is_expression` is `Some`; everything else with children is `other`. -/
inductive Node where
  /-- a test with its last statement (`test_statements`) -/
  | test (name : Text) (last : Option Nat) (children : List Node)
  | stmt (s : StmtInfo) (children : List Node)
  | exprStmt (s : StmtInfo) (e : Node)
  | call (i : ExprInfo) (callName : Option Text) (callee : Node) (args : List Node)
  | macro_ (i : ExprInfo) (name : Text) (args : List Node)
  | field (i : ExprInfo) (fieldName : Option Text) (base : Node)
  | await (i : ExprInfo) (arg : Node)
  | other (i : ExprInfo) (children : List Node)

/-- The expression information; for statements and tests, which are never asked, something. -/
def Node.info : Node → ExprInfo
  | .test _ _ _ => ⟨default, none⟩
  | .stmt s _ => ⟨s.span, none⟩
  | .exprStmt s _ => ⟨s.span, none⟩
  | .call i _ _ _ => i
  | .macro_ i _ _ => i
  | .field i _ _ => i
  | .await i _ => i
  | .other i _ => i

/-- A local function; compared by key (`LocalFunction: Eq + Hash`). -/
structure LocalFn where
  key : Nat
  body : List Node

/-- The constant parts of a `GenericVisitor` (backends/src/generic_visitor.rs:36-42) and of the framework's visitor. -/
structure VCfg where
  config : Compiled
  /-- `Directives::skip` -/
  skip : Span → Bool
  /-- `walkable_functions` -/
  walkable : List (Text × List LocalFn)
  /-- `Span::trim_start` -/
  trim : Span → Span
  /-- Whether the framework's visitor descends into the callee when `visit_call` returns false: true for Rust
  (backends/src/rust/visitor.rs:190-192, 238-240), Foundry and TypeScript; false for Go and PHP (`cursor.skip()`). -/
  receiver : Bool
  /-- Whether the framework's visitor descends into field accesses and `await`s: false for Foundry
  (backends/src/foundry/visitor/mod.rs:146-172 ignores all expressions but calls), true otherwise. -/
  fields : Bool

/-- The changing parts (backends/src/generic_visitor.rs:43-75). Sets are lists without duplicates (their order is not
modelled); `SpanTestMaps` is its set of (span, test name) pairs: no span is ever mapped to the empty set. -/
structure VState where
  testNames : List Text := []
  last : Option Nat := none
  leaves : Nat := 0
  nBefore : List Nat := []
  callStatement : Option StmtInfo := none
  testSet : List Text := []
  statements : List (Span × Text) := []
  methodCalls : List (Span × Text) := []
  pending : List (LocalFn × List Text) := []
  returned : List Nat := []
  warnings : List Text := []

/-- Inserting into a set. -/
def insertSet {α} [DecidableEq α] (x : α) (l : List α) : List α := if x ∈ l then l else l ++ [x]
/-- Extending a set. -/
def extendSet {α} [DecidableEq α] (l xs : List α) : List α := xs.foldl (fun l x => insertSet x l) l

/-- `register_span` (backends/src/generic_visitor.rs:415-428); `none` is a panic. -/
def registerSpan (cfg : VCfg) (span : Span) (kind : SpanKind) (st : VState) : Option VState :=
  if st.testNames.isEmpty then none
  else if cfg.skip span then some st
  else match kind with
    | .statement => some { st with statements := extendSet st.statements (st.testNames.map fun t => (span, t)) }
    | .methodCall => some { st with methodCalls := extendSet st.methodCalls (st.testNames.map fun t => (span, t)) }

/-- `statement_is_call` (backends/src/generic_visitor.rs:378-407), on the statement's expression. -/
def stripsToCall : Node → Bool
  | .await _ arg => stripsToCall arg
  | .field _ _ base => stripsToCall base
  | .call _ _ _ _ => true
  | .macro_ _ _ _ => true
  | _ => false

/-- `VisitMaybeMacroCallArgs` (backends/src/generic_visitor.rs:85-92). -/
structure CallArgs where
  span : Span
  isIgnoredAsCall : Bool
  isMethodCall : Bool
  isIgnoredAsMethodCall : Bool
deriving DecidableEq, Repr

/-- The condition of the macro `visit_maybe_macro_call!` (backends/src/generic_visitor.rs:104-109), including
`is_last_statement_in_test` (:371-376). -/
def considered (names : List Text) (last : Option Nat) : Option StmtInfo → Bool
  | none => !names.isEmpty
  | some s => !names.isEmpty && (s.removable && !(last == some s.key))

/-- The macro `visit_maybe_macro_call!` (backends/src/generic_visitor.rs:100-132). -/
def visitMaybeMacroCall (cfg : VCfg) (a : CallArgs) (st : VState) : Option (Bool × VState) :=
  let statement := st.callStatement
  let st := { st with callStatement := none }
  if considered st.testNames st.last statement then
    (match statement with
      | none => some st
      | some s => if !a.isIgnoredAsCall then registerSpan cfg s.span .statement st else some st).bind fun st =>
    (if !a.isIgnoredAsCall && a.isMethodCall && !a.isIgnoredAsMethodCall then registerSpan cfg a.span .methodCall st
      else some st).bind fun st =>
    some ((!a.isIgnoredAsCall && !a.isIgnoredAsMethodCall) || cfg.config.visitIgnoredArguments, st)
  else some (true, st)

/-- `CallInfo` (backends/src/generic_visitor.rs:78-83). -/
structure CallInfo where
  span : Span
  isMethod : Bool
  isIgnored : Bool
  isNested : Bool
deriving DecidableEq, Repr

/-- `path_rev.iter().rev().join(".")` -/
def dotted (path : List Text) : Text := List.intercalate ['.'] path

/-- The loop of `call_info_inner` (backends/src/generic_visitor.rs:475-483): from the base of the callee's field, the base
left after following named fields, and the path in order. -/
def peelFields : Node → List Text → Node × List Text
  | .field _ (some name) base, path => peelFields base (name :: path)
  | base, path => (base, path)

/-- The decision for a named base (backends/src/generic_visitor.rs:527-537). -/
def isIgnoredPath (c : Compiled) (name path : Text) : Bool :=
  let asFunction := c.isIgnoredFunction (name ++ '.' :: path)
  let asMethod := c.isIgnoredMethod path
  match c.ignoredPathDisambiguation with
  | .none_ => asFunction || asMethod
  | .function => asFunction
  | .method => asMethod

/-- `call_info_inner` (backends/src/generic_visitor.rs:466-559) without the `innermost` flag: `base0` is the base of the
callee's field, `name` the field's name. -/
def callInfo (cfg : VCfg) (callSpan : Span) (base0 : Node) (name : Text) : CallInfo :=
  let r := peelFields base0 [name]
  ⟨cfg.trim { callSpan with start := r.1.info.span.stop }, true, cfg.config.isIgnoredMethod (dotted r.2), false⟩

/-- `call_info_inner` (backends/src/generic_visitor.rs:466-559) with the `innermost` flag: the loop over named fields and
the recursion are one recursion here. -/
def innermostInfo (cfg : VCfg) : Node → Span → List Text → Bool → CallInfo
  | .field _ (some name) base, callSpan, path, recursed => innermostInfo cfg base callSpan (name :: path) recursed
  | .call i _ (.field _ (some name) base) _, _, _, _ => innermostInfo cfg base i.span [name] true
  | .call i callName _ _, _, _, _ =>
    ⟨i.span, false, (match callName with | none => false | some n => cfg.config.isIgnoredFunction n), true⟩
  | .macro_ i macroName _, _, _, recursed => ⟨i.span, false, cfg.config.isIgnoredMacro macroName, recursed⟩
  | base, callSpan, path, recursed =>
    match base.info.name with
    | some n => ⟨callSpan, false, isIgnoredPath cfg.config n (dotted path), recursed⟩
    | none =>
      ⟨cfg.trim { callSpan with start := base.info.span.stop }, true, cfg.config.isIgnoredMethod (dotted path), recursed⟩

/-- `.entry(local_function).or_default().extend(test_names)` -/
def addPending (f : LocalFn) (names : List Text) : List (LocalFn × List Text) → List (LocalFn × List Text)
  | [] => [(f, extendSet [] names)]
  | (g, ns) :: rest => if g.key = f.key then (g, extendSet ns names) :: rest else (g, ns) :: addPending f names rest

/-- The conditions of the first `if` of `visit_call` (backends/src/generic_visitor.rs:273-283), including
`callee_is_walkable_function` (:576-590): the callee's name, the functions of that name, and the first of them, if it has not
been returned. -/
def walkTarget (cfg : VCfg) (returned : List Nat) (callee : Node) : Option (Text × List LocalFn × LocalFn) :=
  match callee.info.name with
  | none => none
  | some name => match cfg.walkable.lookup name with
    | none => none
    | some fs => match fs.head? with
      | none => none
      | some f => if f.key ∈ returned then none else some (name, fs, f)

/-- The arguments that `visit_call` passes to the macro (backends/src/generic_visitor.rs:299-326). The assertion
`call_info.is_method` (:303) holds by definition of `callInfo`. -/
def callArgs (cfg : VCfg) (i : ExprInfo) (callName : Option Text) : Node → CallArgs
  | .field _ (some name) base =>
    let inner := innermostInfo cfg base i.span [name] false
    let info := callInfo cfg i.span base name
    ⟨info.span, (!inner.isMethod && inner.isIgnored) || (!inner.isNested && info.isIgnored), true, info.isIgnored⟩
  | _ => ⟨i.span, (match callName with | none => false | some n => cfg.config.isIgnoredFunction n), false, false⟩

/-- `visit_call` (backends/src/generic_visitor.rs:268-327). -/
def visitCall (cfg : VCfg) (i : ExprInfo) (callName : Option Text) (callee : Node) (st : VState) :
    Option (Bool × VState) :=
  match walkTarget cfg st.returned callee with
  | some (name, fs, f) =>
    some (true, { st with
      warnings := if fs.length ≥ 2 then insertSet name st.warnings else st.warnings
      pending := addPending f st.testNames st.pending
      callStatement := none })
  | none => visitMaybeMacroCall cfg (callArgs cfg i callName callee) st

/-- The arguments that `visit_macro_call` passes to the macro. -/
def macroArgs (cfg : VCfg) (i : ExprInfo) (name : Text) : CallArgs :=
  ⟨i.span, cfg.config.isIgnoredMacro name, false, false⟩

/-- `visit_macro_call` (backends/src/generic_visitor.rs:341-357). -/
def visitMacroCall (cfg : VCfg) (i : ExprInfo) (name : Text) (st : VState) : Option (Bool × VState) :=
  visitMaybeMacroCall cfg (macroArgs cfg i name) st

/-- `visit_statement` (backends/src/generic_visitor.rs:216-230). -/
def visitStatement (s : StmtInfo) (isCall : Bool) (st : VState) : Option VState :=
  let st := { st with nBefore := st.leaves :: st.nBefore }
  if isCall then
    if st.callStatement.isSome then none else some { st with callStatement := some s }
  else some st

/-- `visit_statement_post` (backends/src/generic_visitor.rs:232-264). -/
def visitStatementPost (cfg : VCfg) (s : StmtInfo) (isCall : Bool) (st : VState) : Option VState :=
  if st.callStatement.isSome then none
  else match st.nBefore with
    | [] => none
    | n :: ns =>
      let st := { st with nBefore := ns }
      if n ≠ st.leaves then some st
      else
        let st := { st with leaves := st.leaves + 1 }
        if !st.testNames.isEmpty && s.removable && !(st.last == some s.key) && !isCall && !s.control && !s.declaration then
          registerSpan cfg s.span .statement st
        else some st

/-- `visit_test` (backends/src/generic_visitor.rs:174-196). -/
def visitTest (cfg : VCfg) (name : Text) (last : Option Nat) (st : VState) : Option (Bool × VState) :=
  if cfg.config.isIgnoredTest name then some (false, st)
  else if !st.testNames.isEmpty then none
  else if st.last.isSome then none
  else some (true, { st with testSet := insertSet name st.testSet, testNames := [name], last := last })

/-- `visit_test_post` (backends/src/generic_visitor.rs:198-214). The debug assertion is not modelled. -/
def visitTestPost (name : Text) (st : VState) : Option VState :=
  let st := { st with last := none }
  if st.testNames.isEmpty then some st
  else if st.testNames = [name] then some { st with testNames := [] }
  else none

mutual
/-- The framework's visitor on one node. `none` is a panic (a failed assertion). -/
def walk (cfg : VCfg) : Node → VState → Option VState
  | .test name last children, st =>
    (visitTest cfg name last st).bind fun (go, st) =>
    (if go then walkList cfg children st else some st).bind fun st =>
    visitTestPost name st
  | .stmt s children, st =>
    (visitStatement s false st).bind fun st =>
    (walkList cfg children st).bind fun st =>
    visitStatementPost cfg s false st
  | .exprStmt s e, st =>
    (visitStatement s (stripsToCall e) st).bind fun st =>
    (walk cfg e st).bind fun st =>
    visitStatementPost cfg s (stripsToCall e) st
  | .call i callName callee args, st =>
    (visitCall cfg i callName callee st).bind fun (go, st) =>
    if go then (walk cfg callee st).bind fun st => walkList cfg args st
    else if cfg.receiver then walk cfg callee st
    else some st
  | .macro_ i name args, st =>
    (visitMacroCall cfg i name st).bind fun (go, st) =>
    if go then walkList cfg args st else some st
  | .field _ _ base, st => if cfg.fields then walk cfg base st else some st
  | .await _ arg, st => if cfg.fields then walk cfg arg st else some st
  | .other _ children, st => walkList cfg children st
/-- … and on several. -/
def walkList (cfg : VCfg) : List Node → VState → Option VState
  | [], st => some st
  | n :: ns, st => (walk cfg n st).bind fun st => walkList cfg ns st
end

/-- `next_local_function` (backends/src/generic_visitor.rs:139-148): `IndexMap::pop` takes the last entry. -/
def nextLocalFunction (st : VState) : Option (LocalFn × VState) :=
  match st.pending.getLast? with
  | none => none
  | some (f, names) =>
    some (f, { st with pending := st.pending.dropLast, returned := insertSet f.key st.returned, testNames := names })

/-- How the visiting of a file ends; `walked` are the local functions walked, in order (they are not part of the program's
state). -/
inductive Visited where
  | done (st : VState) (walked : List LocalFn)
  | panic
  | more

/-- The loop `while let Some(local_function) = next_local_function()` (e.g. backends/src/rust/visitor.rs:59-61), for at most
`n` rounds: `more` means that there would be another. The last check is the assertion of `results`
(backends/src/generic_visitor.rs:157). -/
def localLoop (cfg : VCfg) : Nat → VState → List LocalFn → Visited
  | n, st, walked =>
    match nextLocalFunction st with
    | none => if st.pending.isEmpty then .done st walked else .panic
    | some (f, st) =>
      match n with
      | 0 => .more
      | n + 1 =>
        match walkList cfg f.body st with
        | none => .panic
        | some st => localLoop cfg n st (walked ++ [f])

/-- `visit` (e.g. backends/src/rust/visitor.rs:47-74): the file, then the local functions. -/
def visitFile (cfg : VCfg) (rounds : Nat) (tree : List Node) : Visited :=
  match walkList cfg tree {} with
  | none => .panic
  | some st => localLoop cfg rounds st []

end Necessist.Visit
