import Verif.Model.LocalFunctions
/-!
# TypeScript and JavaScript (Mocha, Hardhat, Anchor, Vitest)

Models backends/src/ts/inner/visitor.rs and the queries of backends/src/ts/inner/mod.rs: how swc's syntax trees are presented to the
generic visitor (`Verif.Model.Visitor`).
-/
namespace Necessist.Js
open Visit

/-- Syntax trees (`swc_core::ecma::ast`), as far as the visitor or the queries tell nodes apart; every node has its span. All other
nodes (and, for the expressions among them, this includes `a?.b`, `(e)`, `new C(…)`, `import(…)`'s callee …) are `other`, with their
parts in the order in which swc's generated `visit_children_with` visits them. Types contain nothing that is visited. -/
inductive Js where
  | ident (sp : Span) (name : Text)
  /-- a string literal (that is valid Unicode) -/
  | str (sp : Span) (value : Text)
  /-- `obj.name` -/
  | member (sp : Span) (obj : Js) (name : Text)
  /-- `obj[prop]`, or `obj.#name`, where `prop` has no parts -/
  | index (sp : Span) (obj prop : Js)
  | await (sp : Span) (arg : Js)
  /-- where the callee is `super` or `import`, it is an `other` without parts (`INVALID`, backends/src/ts/inner/mod.rs:43-48, 472-477) -/
  | call (sp : Span) (callee : Js) (args : List Js)
  /-- a function expression, or an arrow function whose body is a block; parameters may have default values -/
  | fn (sp : Span) (params body : List Js)
  /-- a function declaration; one without a body (an overload) has no statements -/
  | fnDecl (sp : Span) (name : Text) (params body : List Js)
  | other (sp : Span) (parts : List Js)
  /-- an expression statement -/
  | expr (sp : Span) (e : Js)
  /-- `break`, `continue`, `return`, `throw` -/
  | control (sp : Span) (parts : List Js)
  /-- a declaration -/
  | decl (sp : Span) (parts : List Js)
  /-- any other statement: `if`, `for`, a block, … -/
  | stmt (sp : Span) (parts : List Js)

def Js.span : Js → Span
  | .ident s _ | .str s _ | .member s _ _ | .index s _ _ | .await s _ | .call s _ _ | .fn s _ _ | .fnDecl s _ _ _ | .other s _
  | .expr s _ | .control s _ | .decl s _ | .stmt s _ => s

/-- `is_it_call_expr` (backends/src/ts/inner/mod.rs:497-532): the message, and the body of the function. `is_it_call_stmt` (:489-495) asks this
about the expression of an expression statement. -/
def itOf : Js → Option (Text × List Js)
  | .call _ (.ident _ name) [.str _ message, .fn _ _ body] => if name = "it".toList then some (message, body) else none
  | _ => none

/-- `MaybeNamed for Call` (backends/src/ts/inner/mod.rs:252-262). -/
def callName : Js → Option Text
  | .ident _ name => some name
  | _ => none

/-- What the queries can see of an expression: `MaybeNamed for Expression`, `MaybeNamed for Field` (backends/src/ts/inner/mod.rs:232-250),
`expression_is_await`, `expression_is_field`, `expression_is_call`, `await_arg`, `field_base`, `call_callee` (:390-478). -/
def view : Js → Node
  | .ident s name => .other ⟨s, some name⟩ []
  | .member s obj name => .field ⟨s, none⟩ (some name) (view obj)
  | .index s obj _ => .field ⟨s, none⟩ none (view obj)
  | .await s arg => .await ⟨s, none⟩ (view arg)
  | .call s callee _ => .call ⟨s, none⟩ (callName callee) (view callee) []
  | e => .other ⟨e.span, none⟩ []

/-- What the visitor asks about a statement (backends/src/ts/inner/mod.rs:349-388). Statements are compared by structure, including the
spans (`Eq` of `SourceMapped`, :194-203): `key` is equal for equal nodes only. -/
def info (key : Js → Nat) (x : Js) (control declaration : Bool) : StmtInfo := ⟨x.span, key x, true, control, declaration⟩

/-- The key of the last of the `test_statements` (backends/src/ts/inner/mod.rs:335-347). -/
def lastKey (key : Js → Nat) (body : List Js) : Option Nat := body.getLast?.map key

mutual
/-- `visit_stmt` and `visit_expr` (backends/src/ts/inner/visitor.rs:71-134), and swc's `visit_children_with` for all else. `none` is a
panic. -/
def visit (key : Js → Nat) (cfg : VCfg) : Js → VState → Option VState
  | .expr s e, st => match itOf e with
    | some (message, body) =>
      (visitTest cfg message (lastKey key body) st).bind fun (go, st) =>
      (if go then visit key cfg e st else some st).bind fun st =>
      visitTestPost message st
    | none =>
      (visitStatement (info key (.expr s e) false false) (stripsToCall (view e)) st).bind fun st =>
      (visit key cfg e st).bind fun st =>
      visitStatementPost cfg (info key (.expr s e) false false) (stripsToCall (view e)) st
  | .control s parts, st =>
    (visitStatement (info key (.control s parts) true false) false st).bind fun st =>
    (visitAll key cfg parts st).bind fun st =>
    visitStatementPost cfg (info key (.control s parts) true false) false st
  | .decl s parts, st =>
    (visitStatement (info key (.decl s parts) false true) false st).bind fun st =>
    (visitAll key cfg parts st).bind fun st =>
    visitStatementPost cfg (info key (.decl s parts) false true) false st
  | .stmt s parts, st =>
    (visitStatement (info key (.stmt s parts) false false) false st).bind fun st =>
    (visitAll key cfg parts st).bind fun st =>
    visitStatementPost cfg (info key (.stmt s parts) false false) false st
  | .call s callee args, st =>
    if (itOf (.call s callee args)).isSome then (visit key cfg callee st).bind fun st => visitAll key cfg args st
    else
      (visitCall cfg ⟨s, none⟩ (callName callee) (view callee) st).bind fun (go, st) =>
      if go then (visit key cfg callee st).bind fun st => visitAll key cfg args st
      else visit key cfg callee st
  | .ident _ _, st => some st
  | .str _ _, st => some st
  | .member _ obj _, st => visit key cfg obj st
  | .index _ obj prop, st => (visit key cfg obj st).bind fun st => visit key cfg prop st
  | .await _ arg, st => visit key cfg arg st
  | .fn _ params body, st => (visitAll key cfg params st).bind fun st => visitAll key cfg body st
  | .fnDecl _ _ params body, st => (visitAll key cfg params st).bind fun st => visitAll key cfg body st
  | .other _ parts, st => visitAll key cfg parts st
/-- … of several. -/
def visitAll (key : Js → Nat) (cfg : VCfg) : List Js → VState → Option VState
  | [], st => some st
  | x :: xs, st => (visit key cfg x st).bind fun st => visitAll key cfg xs st
end

/-- A function declaration. -/
structure Decl where
  node : Js
  name : Text
  params : List Js
  body : List Js

mutual
/-- `FnDeclCollector` (backends/src/ts/inner/visitor.rs:10-32): it does not look into the declarations that it finds. -/
def decls : Js → List Decl
  | .fnDecl s name params body => [⟨.fnDecl s name params body, name, params, body⟩]
  | .ident _ _ => []
  | .str _ _ => []
  | .member _ obj _ => decls obj
  | .index _ obj prop => decls obj ++ decls prop
  | .await _ arg => decls arg
  | .call _ callee args => decls callee ++ declsAll args
  | .fn _ params body => declsAll params ++ declsAll body
  | .other _ parts => declsAll parts
  | .expr _ e => decls e
  | .control _ parts => declsAll parts
  | .decl _ parts => declsAll parts
  | .stmt _ parts => declsAll parts
/-- … in several. -/
def declsAll : List Js → List Decl
  | [] => []
  | x :: xs => decls x ++ declsAll xs
end

/-- `visit_local_function` (backends/src/ts/inner/visitor.rs:65-67). -/
def visitDecl (key : Js → Nat) (cfg : VCfg) (d : Decl) (st : VState) : Option VState :=
  (visitAll key cfg d.params st).bind fun st => visitAll key cfg d.body st

/-- The loop over the local functions (backends/src/ts/inner/visitor.rs:41-43), for at most `rounds` rounds, and the assertion of
`results`. `fns` are the functions of the file. -/
def loop (key : Js → Nat) (cfg : VCfg) (fns : List Decl) : Nat → VState → List LocalFn → Visited
  | rounds, st, walked =>
    match nextLocalFunction st with
    | none => if st.pending.isEmpty then .done st walked else .panic
    | some (f, st) =>
      match rounds with
      | 0 => .more
      | rounds + 1 =>
        match fns.find? fun d => key d.node == f.key with
        | none => .panic
        | some d => match visitDecl key cfg d st with
          | none => .panic
          | some st => loop key cfg fns rounds st (walked ++ [f])

mutual
/-- Whether there is a statement or a call in it. -/
def hasWork : Js → Bool
  | .ident _ _ => false
  | .str _ _ => false
  | .member _ obj _ => hasWork obj
  | .index _ obj prop => hasWork obj || hasWork prop
  | .await _ arg => hasWork arg
  | .call _ _ _ => true
  | .fn _ params body => hasWorkAny params || hasWorkAny body
  | .fnDecl _ _ params body => hasWorkAny params || hasWorkAny body
  | .other _ parts => hasWorkAny parts
  | .expr _ _ => true
  | .control _ _ => true
  | .decl _ _ => true
  | .stmt _ _ => true
/-- … in one of them. -/
def hasWorkAny : List Js → Bool
  | [] => false
  | x :: xs => hasWork x || hasWorkAny xs
end

mutual
/-- The tree as one of the generic visitor's trees. This models nothing: the visit above does not use it, and
`Verif.Lemmas.TypeScript` shows what it has to do with it. -/
def lower (key : Js → Nat) : Js → Node
  | .ident s name => .other ⟨s, some name⟩ []
  | .str s _ => .other ⟨s, none⟩ []
  | .member s obj name => .field ⟨s, none⟩ (some name) (lower key obj)
  | .index s obj prop =>
    if hasWork prop then .other ⟨s, none⟩ [lower key obj, lower key prop] else .field ⟨s, none⟩ none (lower key obj)
  | .await s arg => .await ⟨s, none⟩ (lower key arg)
  | .call s callee args => .call ⟨s, none⟩ (callName callee) (lower key callee) (lowerAll key args)
  | .fn s params body => .other ⟨s, none⟩ (lowerAll key params ++ lowerAll key body)
  | .fnDecl s _ params body => .other ⟨s, none⟩ (lowerAll key params ++ lowerAll key body)
  | .other s parts => .other ⟨s, none⟩ (lowerAll key parts)
  | .expr s e => match itOf e with
    | some (message, body) => .test message (lastKey key body) [lower key e]
    | none => .exprStmt (info key (.expr s e) false false) (lower key e)
  | .control s parts => .stmt (info key (.control s parts) true false) (lowerAll key parts)
  | .decl s parts => .stmt (info key (.decl s parts) false true) (lowerAll key parts)
  | .stmt s parts => .stmt (info key (.stmt s parts) false false) (lowerAll key parts)
/-- … -/
def lowerAll (key : Js → Nat) : List Js → List Node
  | [] => []
  | x :: xs => lower key x :: lowerAll key xs
end

/-- A declaration as a local function: it is known by its structure (`&FnDecl`, backends/src/ts/inner/mod.rs:217). -/
def localFn (key : Js → Nat) (d : Decl) : LocalFn := ⟨key d.node, lowerAll key d.params ++ lowerAll key d.body⟩

/-- `collect_local_functions` (backends/src/ts/inner/visitor.rs:10-14, 26-29). -/
def localFns (key : Js → Nat) (fns : List Decl) : List (Text × LocalFn) := fns.map fun d => (d.name, localFn key d)

/-- The generic visitor's configuration: the walkable functions are the local functions whose names the configuration selects
(backends/src/parsing.rs:420-424). -/
def visitorCfg (key : Js → Nat) (config : Compiled) (skip : Span → Bool) (trim : Span → Span) (fns : List Decl) : VCfg :=
  { config, skip, trim, walkable := walkableOf config (localFns key fns)
    receiver := true, fields := true }

/-- `visit` (backends/src/ts/inner/visitor.rs:34-45), of a module. -/
def visitFile (key : Js → Nat) (config : Compiled) (skip : Span → Bool) (trim : Span → Span) (rounds : Nat) (file : Js) : Visited :=
  let cfg := visitorCfg key config skip trim (decls file)
  match visit key cfg file {} with
  | none => .panic
  | some st => loop key cfg (decls file) rounds st []

end Necessist.Js
