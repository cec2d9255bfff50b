import Verif.Model.LocalFunctions
import Verif.Model.Columns
import Verif.Model.Directives
/-!
# Foundry

Models backends/src/foundry/visitor/mod.rs and the parts of backends/src/foundry/mod.rs that concern finding candidates.
-/
namespace Necessist.Foundry
open Visit Columns

/-- `Loc::File(_, start, end)`: byte offsets. -/
structure Loc where
  start : Nat
  stop : Nat
deriving DecidableEq, Repr

/-- Expressions (`solang_parser::pt::Expression`). Only those that the visitor or the queries tell apart are distinct. -/
inductive Expr where
  | var (l : Loc) (name : Text)
  /-- `base.name` -/
  | member (l : Loc) (base : Expr) (name : Text)
  | call (l : Loc) (callee : Expr) (args : List Expr)
  /-- `callee{name: e, …}` (`FunctionCallBlock`), with the expressions in the braces -/
  | options (l : Loc) (callee : Expr) (parts : List Expr)
  /-- `(…, …)` (`Expression::List`), with the names of the variables that it declares: the entry is `none` if there is no parameter or
  if the parameter has no name -/
  | tuple (l : Loc) (names : List (Option Text))
  | assign (l : Loc) (lhs rhs : Expr)
  /-- all else, e.g. `e + e'`, `e[e']`, `new C(…)`, `f({name: e})`, `(e)` and types, with the parts -/
  | op (l : Loc) (parts : List Expr)

/-- `CodeLocation::loc`. -/
def Expr.loc : Expr → Loc
  | .var l _ | .member l _ _ | .call l _ _ | .options l _ _ | .tuple l _ | .assign l _ _ | .op l _ => l

mutual
/-- Statements (`solang_parser::pt::Statement`). -/
inductive Stmt where
  /-- `{ … }` or `unchecked { … }` -/
  | block (l : Loc) (ss : List Stmt)
  | expr (l : Loc) (e : Expr)
  /-- `break`, `continue`, `emit`, `return`, `revert`, with the expressions in it -/
  | control (l : Loc) (es : List Expr)
  /-- a variable definition, with the expressions in it -/
  | varDef (l : Loc) (es : List Expr)
  /-- `if`, `while`, `for`, `do`, `try`, `assembly` …, with the expressions and statements in it, in the order of the syntax tree's
  fields. (`assembly` has no parts: what is in it are neither `Expression`s nor `Statement`s.) -/
  | compound (l : Loc) (parts : List Part)
/-- A part of a statement. -/
inductive Part where
  | expr (e : Expr)
  | stmt (s : Stmt)
end

/-- `CodeLocation::loc`. -/
def Stmt.loc : Stmt → Loc
  | .block l _ | .expr l _ | .control l _ | .varDef l _ | .compound l _ => l

/-- Function definitions. -/
structure Fn where
  name : Option Text
  /-- `is_pure` (backends/src/foundry/visitor/mod.rs:190-199) -/
  pure_ : Bool
  /-- the expressions in the parameters, the attributes (the arguments of modifiers) and the return parameters, in this order -/
  head : List Expr
  body : Option Stmt

/-- What the visitor meets in a source unit: functions, and expressions outside functions. -/
inductive Item where
  | fn (f : Fn)
  | expr (e : Expr)

/-- The file, its contents, and how statements are told apart (`Eq` of `WithContents`, backends/src/foundry/mod.rs:58: by structure,
including the locations). -/
structure Ctx where
  file : SourceFile
  contents : Text
  key : Stmt → Nat
  /-- the key of `FAUX_CONTINUE` -/
  faux : Nat
  /-- the key of a function (`Eq` of `LocalFunction`, backends/src/foundry/mod.rs:43-56) -/
  fnKey : Fn → Nat

/-- The bytes of a text (`str::bytes`). -/
def bytes (t : Text) : List UInt8 := t.flatMap String.utf8EncodeChar

/-- `u8::is_ascii_whitespace` -/
def isAsciiSpace (b : UInt8) : Bool := b == 9 || b == 10 || b == 12 || b == 13 || b == 32

/-- `LocWithOptionalSemicolon for Statement` (backends/src/foundry/mod.rs:505-525). -/
def withSemicolon (contents : Text) (l : Loc) : Loc :=
  let rest := (bytes contents).drop l.stop
  let stop := l.stop + (rest.takeWhile isAsciiSpace).length
  if (rest.dropWhile isAsciiSpace).head? = some 59 then ⟨l.start, stop + 1⟩ else l

/-- `to_internal_span` (backends/src/foundry/mod.rs:531-539). -/
def toSpan (c : Ctx) (l : Loc) : Span :=
  ⟨c.file, offsetToLineColumn c.contents l.start, offsetToLineColumn c.contents l.stop⟩

/-- `is_prefix_cheatcode` (backends/src/foundry/visitor/mod.rs:218-231). -/
def isPrefixCheatcode : Stmt → Bool
  | .expr _ (.call _ (.member _ (.var _ v) method) _) =>
    v == "vm".toList && (method == "prank".toList || "expect".toList.isPrefixOf method)
  | _ => false

/-- The name of a call (`MaybeNamed for Call`, backends/src/foundry/mod.rs:137-145). -/
def callName : Expr → Option Text
  | .var _ name => some name
  | _ => none

/-- What the queries can see of an expression: `MaybeNamed` (backends/src/foundry/mod.rs:121-145), `Spanned` (:65-71),
`expression_is_field`, `expression_is_call`, `field_base` (:303-366). With `peel`, the expression is the callee of a call:
`call_callee` peels `FunctionCallBlock`s (:368-384). -/
def view (c : Ctx) : (peel : Bool) → Expr → Node
  | _, .var l name => .other ⟨toSpan c l, some name⟩ []
  | _, .member l base name => .field ⟨toSpan c l, none⟩ (some name) (view c false base)
  | _, .call l callee _ => .call ⟨toSpan c l, none⟩ (callName callee) (view c true callee) []
  | true, .options _ callee _ => view c true callee
  | _, e => .other ⟨toSpan c e.loc, none⟩ []

/-- `statement_is_declaration` for an expression (backends/src/foundry/mod.rs:280-292). -/
def declares : Expr → Bool
  | .assign _ (.tuple _ names) _ => names.any Option.isSome
  | _ => false

/-- `statement_is_control` (backends/src/foundry/mod.rs:253-269). -/
def isControl : Stmt → Bool
  | .control _ _ => true
  | _ => false

/-- `statement_is_declaration` (backends/src/foundry/mod.rs:271-293). -/
def isDeclaration : Stmt → Bool
  | .varDef _ _ => true
  | .expr _ e => declares e
  | _ => false

/-- What the visitor asks about a statement (backends/src/foundry/mod.rs:231-293, `Spanned` :65-71). -/
def info (c : Ctx) (s : Stmt) : StmtInfo :=
  ⟨toSpan c (withSemicolon c.contents s.loc), c.key s, true, isControl s, isDeclaration s⟩

/-- `FAUX_CONTINUE` (backends/src/foundry/visitor/mod.rs:13-14). It has no location, and as a control statement it is never asked for
its span: what stands here does not matter. -/
def fauxInfo (c : Ctx) : StmtInfo := ⟨⟨c.file, default, default⟩, c.faux, true, true, false⟩

mutual
/-- `visit_expression` (backends/src/foundry/visitor/mod.rs:147-172): of all expressions, only calls are looked into. -/
def visitExpr (c : Ctx) (cfg : VCfg) : Expr → VState → Option VState
  | .call l callee args, st =>
    (visitCall cfg ⟨toSpan c l, none⟩ (callName callee) (view c true callee) st).bind fun (go, st) =>
    if go then (visitExpr c cfg callee st).bind fun st => visitExprs c cfg args st
    else visitExpr c cfg callee st
  | .var _ _, st => some st
  | .member _ _ _, st => some st
  | .options _ _ _, st => some st
  | .tuple _ _, st => some st
  | .assign _ _ _, st => some st
  | .op _ _, st => some st
/-- … of several. -/
def visitExprs (c : Ctx) (cfg : VCfg) : List Expr → VState → Option VState
  | [], st => some st
  | e :: es, st => (visitExpr c cfg e st).bind fun st => visitExprs c cfg es st
end

/-- `visit_statement` of `FAUX_CONTINUE`. -/
def visitFaux (c : Ctx) (cfg : VCfg) (st : VState) : Option VState :=
  (visitStatement (fauxInfo c) false st).bind fun st => visitStatementPost cfg (fauxInfo c) false st

mutual
/-- `visit_statement` (backends/src/foundry/visitor/mod.rs:119-145); a statement's parts are visited by a function that is generated
from the definition of the syntax tree (backends/src/foundry/visitor/visit.rs:97). -/
def visitStmt (c : Ctx) (cfg : VCfg) : Stmt → VState → Option VState
  | .block _ ss, st => visitBlock c cfg none ss st
  | .expr l e, st =>
    (visitStatement (info c (.expr l e)) (stripsToCall (view c false e)) st).bind fun st =>
    (visitExpr c cfg e st).bind fun st =>
    visitStatementPost cfg (info c (.expr l e)) (stripsToCall (view c false e)) st
  | .control l es, st =>
    (visitStatement (info c (.control l es)) false st).bind fun st =>
    (visitExprs c cfg es st).bind fun st =>
    visitStatementPost cfg (info c (.control l es)) false st
  | .varDef l es, st =>
    (visitStatement (info c (.varDef l es)) false st).bind fun st =>
    (visitExprs c cfg es st).bind fun st =>
    visitStatementPost cfg (info c (.varDef l es)) false st
  | .compound l ps, st =>
    (visitStatement (info c (.compound l ps)) false st).bind fun st =>
    (visitParts c cfg ps st).bind fun st =>
    visitStatementPost cfg (info c (.compound l ps)) false st
/-- A part of a statement. -/
def visitPart (c : Ctx) (cfg : VCfg) : Part → VState → Option VState
  | .expr e, st => visitExpr c cfg e st
  | .stmt s, st => visitStmt c cfg s st
/-- Several. -/
def visitParts (c : Ctx) (cfg : VCfg) : List Part → VState → Option VState
  | [], st => some st
  | p :: ps, st => (visitPart c cfg p st).bind fun st => visitParts c cfg ps st
/-- The statements of a block, `prev` being the one before (`filter_statements`, backends/src/foundry/visitor/mod.rs:201-216). -/
def visitBlock (c : Ctx) (cfg : VCfg) (prev : Option Stmt) : List Stmt → VState → Option VState
  | [], st => some st
  | s :: ss, st =>
    (if prev.any isPrefixCheatcode then visitFaux c cfg st else visitStmt c cfg s st).bind fun st =>
    visitBlock c cfg (some s) ss st
end

/-- The key of a test's last statement (`test_statements`, backends/src/foundry/mod.rs:226-237): the statements are filtered. -/
def lastKey (c : Ctx) : List Stmt → Option Nat
  | [] => none
  | [s] => some (c.key s)
  | [p, s] => some (if isPrefixCheatcode p then c.faux else c.key s)
  | _ :: p :: ss => lastKey c (p :: ss)

/-- `is_test_function` (backends/src/foundry/visitor/mod.rs:175-189). -/
def testOf (f : Fn) : Option (Text × List Stmt) :=
  match f.name, f.body with
  | some name, some (.block _ ss) => if "test".toList.isPrefixOf name && !f.pure_ then some (name, ss) else none
  | _, _ => none

/-- The parts of a function (`visit_fns::visit_function_definition`, generated, and `visit_local_function`,
backends/src/foundry/visitor/mod.rs:91-95). -/
def visitFn (c : Ctx) (cfg : VCfg) (f : Fn) (st : VState) : Option VState :=
  (visitExprs c cfg f.head st).bind fun st => match f.body with
    | none => some st
    | some b => visitStmt c cfg b st

/-- `visit_function_definition` (backends/src/foundry/visitor/mod.rs:102-117): functions that are no tests are not visited. -/
def visitItem (c : Ctx) (cfg : VCfg) : Item → VState → Option VState
  | .expr e, st => visitExpr c cfg e st
  | .fn f, st => match testOf f with
    | none => some st
    | some (name, ss) =>
      (visitTest cfg name (lastKey c ss) st).bind fun (go, st) =>
      (if go then visitFn c cfg f st else some st).bind fun st =>
      visitTestPost name st

/-- The source unit. -/
def visitItems (c : Ctx) (cfg : VCfg) : List Item → VState → Option VState
  | [], st => some st
  | i :: is, st => (visitItem c cfg i st).bind fun st => visitItems c cfg is st

/-- `collect_local_functions` (backends/src/foundry/visitor/mod.rs:27-58): functions that have a name and are not `pure`. -/
def fns (items : List Item) : List (Text × Fn) :=
  items.filterMap fun
    | .fn f => match f.name with
      | some name => if f.pure_ then none else some (name, f)
      | none => none
    | .expr _ => none

/-- Where an expression is. This, and the functions `lower…`, model nothing: they present the syntax tree as one of the generic visitor's
trees, and `Verif.Lemmas.Foundry` shows what this has to do with the visit. -/
inductive Position where
  | plain
  | callee
  | peeled
deriving DecidableEq

mutual
/-- An expression is one node. The callee of a call, if it is `callee{…}`, is peeled for the queries, but nothing in it is visited:
a call there appears without its parts. -/
def lowerExpr (c : Ctx) : Position → Expr → Node
  | _, .var l name => .other ⟨toSpan c l, some name⟩ []
  | _, .member l base name => .field ⟨toSpan c l, none⟩ (some name) (lowerExpr c .plain base)
  | .peeled, .call l _ _ => .other ⟨toSpan c l, none⟩ []
  | _, .call l callee args => .call ⟨toSpan c l, none⟩ (callName callee) (lowerExpr c .callee callee) (lowerExprs c args)
  | .plain, .options l _ _ => .other ⟨toSpan c l, none⟩ []
  | _, .options _ callee _ => lowerExpr c .peeled callee
  | _, e => .other ⟨toSpan c e.loc, none⟩ []
/-- Several. -/
def lowerExprs (c : Ctx) : List Expr → List Node
  | [] => []
  | e :: es => lowerExpr c .plain e :: lowerExprs c es
end

/-- `FAUX_CONTINUE`. -/
def fauxNode (c : Ctx) : Node := .stmt (fauxInfo c) []

mutual
/-- A block is its statements. -/
def lowerStmt (c : Ctx) : Stmt → List Node
  | .block _ ss => lowerBlock c none ss
  | .expr l e => [.exprStmt (info c (.expr l e)) (lowerExpr c .plain e)]
  | .control l es => [.stmt (info c (.control l es)) (lowerExprs c es)]
  | .varDef l es => [.stmt (info c (.varDef l es)) (lowerExprs c es)]
  | .compound l ps => [.stmt (info c (.compound l ps)) (lowerParts c ps)]
/-- A part of a statement. -/
def lowerPart (c : Ctx) : Part → List Node
  | .expr e => [lowerExpr c .plain e]
  | .stmt s => lowerStmt c s
/-- Several. -/
def lowerParts (c : Ctx) : List Part → List Node
  | [] => []
  | p :: ps => lowerPart c p ++ lowerParts c ps
/-- The statements of a block. -/
def lowerBlock (c : Ctx) (prev : Option Stmt) : List Stmt → List Node
  | [] => []
  | s :: ss => (if prev.any isPrefixCheatcode then [fauxNode c] else lowerStmt c s) ++ lowerBlock c (some s) ss
end

/-- A function's parts. -/
def lowerFn (c : Ctx) (f : Fn) : List Node :=
  lowerExprs c f.head ++ match f.body with
    | none => []
    | some b => lowerStmt c b

/-- An item. -/
def lowerItem (c : Ctx) : Item → List Node
  | .expr e => [lowerExpr c .plain e]
  | .fn f => match testOf f with
    | none => []
    | some (name, ss) => [.test name (lastKey c ss) (lowerFn c f)]

/-- A function as a local function: it is known by its structure. -/
def localFn (c : Ctx) (f : Fn) : LocalFn := ⟨c.fnKey f, lowerFn c f⟩

/-- `collect_local_functions` (backends/src/foundry/visitor/mod.rs:27-58). -/
def localFns (c : Ctx) (items : List Item) : List (Text × LocalFn) := (fns items).map fun d => (d.1, localFn c d.2)

/-- The generic visitor's configuration: the walkable functions are the local functions whose names the configuration selects
(backends/src/parsing.rs:420-424). -/
def visitorCfg (c : Ctx) (config : Compiled) (skip : Span → Bool) (trim : Span → Span) (items : List Item) : VCfg :=
  { config, skip, trim, walkable := walkableOf config (localFns c items)
    receiver := true, fields := false }

/-- The loop over the local functions (backends/src/foundry/visitor/mod.rs:67-69), for at most `rounds` rounds, and the assertion of
`results`. `fs` are the functions of the file. -/
def loop (c : Ctx) (cfg : VCfg) (fs : List (Text × Fn)) : Nat → VState → List LocalFn → Visited
  | rounds, st, walked =>
    match nextLocalFunction st with
    | none => if st.pending.isEmpty then .done st walked else .panic
    | some (f, st) =>
      match rounds with
      | 0 => .more
      | rounds + 1 =>
        match fs.find? fun d => c.fnKey d.2 == f.key with
        | none => .panic
        | some d => match visitFn c cfg d.2 st with
          | none => .panic
          | some st => loop c cfg fs rounds st (walked ++ [f])

/-- `visit` (backends/src/foundry/visitor/mod.rs:60-71). -/
def visit (c : Ctx) (config : Compiled) (skip : Span → Bool) (trim : Span → Span) (rounds : Nat) (items : List Item) : Visited :=
  let cfg := visitorCfg c config skip trim items
  match visitItems c cfg items {} with
  | none => .panic
  | some st => loop c cfg (fns items) rounds st []

end Necessist.Foundry
