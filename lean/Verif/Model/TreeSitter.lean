import Verif.Model.Visitor
import Verif.Model.Cursor
/-!
# Go and PHP: from tree-sitter's syntax trees to the generic visitor

Models backends/src/go/visitor.rs and backends/src/php/visitor.rs, and the queries of backends/src/go/mod.rs and
backends/src/php/mod.rs: the visitor of either language moves a `BoundedCursor` (`Verif.Model.Cursor`) over tree-sitter's tree and
calls the generic visitor (`Verif.Model.Visitor`). What the two languages do alike is modelled once; `Lang` is what they do
differently.
-/
namespace Necessist.TS
open Visit

/-- What is asked about one of tree-sitter's nodes: `kind`, the name of the field in which it is in its parent, `is_named`,
`is_extra`, `range` and `utf8_text` (of a file that is valid UTF-8; `Verif.Model.Columns` has the conversion of ranges). `stmt`:
the node stands for the grammar's hidden `_statement` (the query `(_statement)`, backends/src/go/visitor.rs:37-39, 258-263). `id`: nodes
are compared by identity. -/
structure Attr where
  kind : Text
  field : Option Text
  named : Bool
  extra : Bool
  stmt : Bool
  span : Span
  text : Text
  id : Nat
deriving DecidableEq, Repr

/-- A syntax tree, with all nodes, named or not. -/
inductive Tree where
  | node (a : Attr) (children : List Tree)

def Tree.attr : Tree → Attr
  | .node a _ => a
def Tree.children : Tree → List Tree
  | .node _ cs => cs

/-- `child_by_field_id`: the first child in this field. -/
def childIdx (cs : List Tree) (field : Text) : Option Nat := cs.findIdx? fun c => c.attr.field == some field
/-- … itself. -/
def childByField (cs : List Tree) (field : Text) : Option Tree := cs.find? fun c => c.attr.field == some field

/-- What `call_callee` returns (backends/src/go/mod.rs:426-436, backends/src/php/mod.rs:489-513). -/
inductive Callee where
  /-- a child -/
  | child (k : Option Nat)
  /-- the call itself, as a field (PHP's `virtual_field`), whose base is a child (`field_base`) -/
  | virtualField (k : Option Nat) (name : Option Text)
deriving DecidableEq, Repr

/-- The child. -/
def Callee.idx : Callee → Option Nat
  | .child k | .virtualField k _ => k

/-- What differs between Go and PHP. `kind` is the node's kind, `cs` its children. -/
structure Lang where
  /-- whether `visit_current_node` takes the node for a statement; first argument: the parent's kind -/
  isStmt : Option Text → Attr → Bool
  /-- whether it otherwise takes it for a call; also `expression_is_call` -/
  isCall : Text → Bool
  /-- `statement_is_control` -/
  control : Attr → List Tree → Bool
  /-- `statement_is_declaration` -/
  declaration : Attr → Bool
  /-- `statement_is_expression`: the index of the child -/
  expr : Attr → List Tree → Option Nat
  /-- `MaybeNamed for Expression` -/
  name : Attr → Option Text
  /-- `MaybeNamed for Call` -/
  callName : Attr → List Tree → Option Text
  callee : Attr → List Tree → Callee
  /-- `expression_is_field`; `field_base`, and `MaybeNamed for Field` -/
  field : Attr → List Tree → Option (Option Nat × Option Text)

/-- The statement that a node is (`statement_is_removable` is true: backends/src/go/mod.rs:313-318, backends/src/php/mod.rs:344-349). -/
def info (L : Lang) (a : Attr) (cs : List Tree) : StmtInfo := ⟨a.span, a.id, true, L.control a cs, L.declaration a⟩

/-- The expression that a node is. -/
def exprInfo (L : Lang) (a : Attr) : ExprInfo := ⟨a.span, L.name a⟩

/-- The expression of an expression statement; `kids` are the children as the generic visitor sees them. -/
def exprOf (L : Lang) (a : Attr) (cs : List Tree) (kids : List Node) : Option Node := (L.expr a cs).bind fun k => kids[k]?

/-- The callee of a call; `none` is a panic (`unwrap`). -/
def calleeOf (L : Lang) (a : Attr) (cs : List Tree) (kids : List Node) : Option Node :=
  match L.callee a cs with
  | .child k => k.bind fun k => kids[k]?
  | .virtualField k name => (k.bind fun k => kids[k]?).map fun base => .field (exprInfo L a) name base

/-- What the generic visitor sees of a node, given what it sees of the children. -/
def mkNode (L : Lang) (parent : Option Text) (a : Attr) (cs : List Tree) (kids : List Node) : Node :=
  if L.isStmt parent a then
    match exprOf L a cs kids with
    | some e => .exprStmt (info L a cs) e
    | none => .stmt (info L a cs) kids
  else if L.isCall a.kind then
    match calleeOf L a cs kids, (L.callee a cs).idx with
    | some callee, some k => .call (exprInfo L a) (L.callName a cs) callee (kids.eraseIdx k)
    | _, _ => .other (exprInfo L a) kids
  else match L.field a cs with
    | some (some k, name) => match kids[k]? with
      | some base => .field (exprInfo L a) name base
      | none => .other (exprInfo L a) kids
    | _ => .other (exprInfo L a) kids

mutual
/-- What the generic visitor sees of a node. -/
def lower (L : Lang) (parent : Option Text) : Tree → Node
  | .node a cs => mkNode L parent a cs (lowerAll L a.kind cs)
/-- … and of the children of a node of kind `kind`. -/
def lowerAll (L : Lang) (kind : Text) : List Tree → List Node
  | [] => []
  | c :: cs => lower L (some kind) c :: lowerAll L kind cs
end

/-- `statement_is_call` (backends/src/generic_visitor.rs:378-407). -/
def isCallStmt (L : Lang) (a : Attr) (cs : List Tree) (kids : List Node) : Bool :=
  match exprOf L a cs kids with
  | some e => stripsToCall e
  | none => false

mutual
/-- The tree as the cursor sees it. -/
def Tree.shape : Tree → Cursor.Tree
  | .node _ cs => .node (shapes cs)
/-- … -/
def shapes : List Tree → List Cursor.Tree
  | [] => []
  | c :: cs => c.shape :: shapes cs
end

/-- The node at a position, and its parent's kind. -/
def Tree.at (t : Tree) : Cursor.Pos → Option (Option Text × Tree)
  | [] => some (none, t)
  | i :: p => (t.at p).bind fun (_, s) => (s.children[i]?).map fun c => (some s.attr.kind, c)

/-- `visit_statement`/`visit_call` of the generic visitor, when called at this node (backends/src/go/visitor.rs:160-205,
backends/src/php/visitor.rs:78-112), with the value of `walk`. `none` is a panic. -/
def enter (L : Lang) (cfg : VCfg) (parent : Option Text) (a : Attr) (cs : List Tree) (s : Option VState) : Bool × Option VState :=
  if L.isStmt parent a then
    (true, s.bind (visitStatement (info L a cs) (isCallStmt L a cs (lowerAll L a.kind cs))))
  else match calleeOf L a cs (lowerAll L a.kind cs) with
    | none => (false, none)
    | some callee => match s.bind (visitCall cfg (exprInfo L a) (L.callName a cs) callee) with
      | none => (false, none)
      | some (walk, st) => (walk, some st)

/-- `visit_statement_post`/`visit_call_post`, as called there (`visit_call_post` does nothing:
backends/src/generic_visitor.rs:134-136, 330-339). -/
def leave (L : Lang) (cfg : VCfg) (parent : Option Text) (a : Attr) (cs : List Tree) (s : Option VState) : Option VState :=
  if L.isStmt parent a then
    s.bind (visitStatementPost cfg (info L a cs) (isCallStmt L a cs (lowerAll L a.kind cs)))
  else s

/-- The visitor, for the subtree `t` (`visit_current_node`: backends/src/go/visitor.rs:246-273, backends/src/php/visitor.rs:142-166). -/
def visitor (L : Lang) (cfg : VCfg) (t : Tree) : Cursor.Visitor (Option VState) where
  see _ s := s
  handles p := match t.at p with
    | some (parent, .node a _) => L.isStmt parent a || L.isCall a.kind
    | none => false
  enter p s := match t.at p with
    | some (parent, .node a cs) => enter L cfg parent a cs s
    | none => (false, none)
  leave p s := match t.at p with
    | some (parent, .node a cs) => leave L cfg parent a cs s
    | none => none

/-- How a part of the visit ends; `more`: more steps are needed. -/
inductive Step where
  | ok (st : VState)
  | panic
  | more

/-- `walk_nodes(&mut BoundedCursor::new(body))` (backends/src/go/visitor.rs:123, 152, 221-241; backends/src/php/visitor.rs:70, 124-140), with at most
`fuel` steps. -/
def walkBody (L : Lang) (cfg : VCfg) (fuel : Nat) (body : Tree) (st : VState) : Step :=
  match Cursor.walkNodes body.shape (visitor L cfg body) fuel Cursor.Cursor.new (some st) with
  | .ok _ (some st) => .ok st
  | .ok _ none => .panic
  | .panic => .panic
  | .more => .more

/-- A function or method declaration, as captured by the query. -/
structure Decl where
  name : Text
  body : Tree

/-- A query `(kind name: (nameKind) @name body: (bodyKind) @body)` at one node (backends/src/go/visitor.rs:20-35,
backends/src/php/mod.rs:93-100). -/
def declHere (kind nameKind bodyKind : Text) (a : Attr) (cs : List Tree) : Option Decl :=
  if a.kind = kind then
    match childByField cs "name".toList, childByField cs "body".toList with
    | some n, some b => if n.attr.kind = nameKind ∧ b.attr.kind = bodyKind then some ⟨n.attr.text, b⟩ else none
    | _, _ => none
  else none

mutual
/-- The query's matches, in order. -/
def decls (kind nameKind bodyKind : Text) : Tree → List Decl
  | .node a cs => (declHere kind nameKind bodyKind a cs).toList ++ declsAll kind nameKind bodyKind cs
/-- … -/
def declsAll (kind nameKind bodyKind : Text) : List Tree → List Decl
  | [] => []
  | c :: cs => decls kind nameKind bodyKind c ++ declsAll kind nameKind bodyKind cs
end

/-- `visit_test_function_declaration` (backends/src/go/visitor.rs:128-158), `visit_test_method_declaration`
(backends/src/php/visitor.rs:54-76); `last` is the last of the `test_statements`. -/
def visitDecl (L : Lang) (cfg : VCfg) (last : Tree → Option Nat) (fuel : Nat) (d : Decl) (st : VState) : Step :=
  match visitTest cfg d.name (last d.body) st with
  | none => .panic
  | some (walk, st) =>
    match (if walk then walkBody L cfg fuel d.body st else .ok st) with
    | .more => .more
    | .panic => .panic
    | .ok st => match visitTestPost d.name st with
      | none => .panic
      | some st => .ok st

/-- `visit_tree` (backends/src/go/visitor.rs:106-118, backends/src/php/visitor.rs:40-52). -/
def visitDecls (L : Lang) (cfg : VCfg) (last : Tree → Option Nat) (fuel : Nat) : List Decl → VState → Step
  | [], st => .ok st
  | d :: ds, st => match visitDecl L cfg last fuel d st with
    | .more => .more
    | .panic => .panic
    | .ok st => visitDecls L cfg last fuel ds st

/-- A function as a local function: it is known by its body (`LocalFunction`, backends/src/go/mod.rs:112-115). -/
def localFn (L : Lang) (d : Decl) : LocalFn := ⟨d.body.attr.id, lowerAll L d.body.attr.kind d.body.children⟩

/-- The loop over the local functions (backends/src/go/visitor.rs:82-84, 120-126), for at most `rounds` rounds, and the assertion of
`results`. `fns` are the functions of the file. -/
def loop (L : Lang) (cfg : VCfg) (fns : List Decl) (fuel : Nat) : Nat → VState → List LocalFn → Visited
  | rounds, st, walked =>
    match nextLocalFunction st with
    | none => if st.pending.isEmpty then .done st walked else .panic
    | some (f, st) =>
      match rounds with
      | 0 => .more
      | rounds + 1 =>
        match fns.find? fun d => d.body.attr.id == f.key with
        | none => .panic
        | some d => match walkBody L cfg fuel d.body st with
          | .more => .more
          | .panic => .panic
          | .ok st => loop L cfg fns fuel rounds st (walked ++ [f])

/-- `visit` (backends/src/go/visitor.rs:75-86, backends/src/php/visitor.rs:11-20). -/
def visit (L : Lang) (cfg : VCfg) (last : Tree → Option Nat) (tests fns : List Decl) (fuel rounds : Nat) : Visited :=
  match visitDecls L cfg last fuel tests {} with
  | .more => .more
  | .panic => .panic
  | .ok st => loop L cfg fns fuel rounds st []

/-- Adding a function to the functions of its name. -/
def addFn (name : Text) (f : LocalFn) : List (Text × List LocalFn) → List (Text × List LocalFn)
  | [] => [(name, [f])]
  | (n, fs) :: rest => if n = name then (n, fs ++ [f]) :: rest else (n, fs) :: addFn name f rest

/-- The functions by name (`collect_local_functions`, backends/src/go/visitor.rs:47-73). -/
def localFunctions (L : Lang) (fns : List Decl) : List (Text × List LocalFn) :=
  fns.foldl (fun acc d => addFn d.name (localFn L d) acc) []

/-- The generic visitor's configuration: the walkable functions are the local functions whose names the configuration selects
(backends/src/parsing.rs:420-424). When `walk` is false, `cursor.skip()` passes over all of the call; otherwise all children are
walked. -/
def visitorCfg (L : Lang) (config : Compiled) (skip : Span → Bool) (trim : Span → Span) (fns : List Decl) : VCfg :=
  { config, skip, trim, walkable := (localFunctions L fns).filter (fun p => config.isWalkableFunction p.1)
    receiver := false, fields := true }

/-! ## Go -/
namespace Go

/-- A kind. -/
def k (s : String) : Text := s.toList

/-- Go (backends/src/go/mod.rs:184-436, backends/src/go/visitor.rs:246-273). `EXPRESSION_STATEMENT_EXPRESSION_QUERY` (:39-43)
captures the expression of an expression statement: the first named child that is not a comment. -/
def lang : Lang where
  isStmt _ a := a.stmt
  isCall kind := kind == k "call_expression"
  control a _ := a.kind == k "break_statement" || a.kind == k "continue_statement" || a.kind == k "defer_statement" ||
    a.kind == k "return_statement"
  declaration a := a.kind == k "const_declaration" || a.kind == k "short_var_declaration" || a.kind == k "type_declaration" ||
    a.kind == k "var_declaration"
  expr a cs := if a.kind = k "expression_statement" then cs.findIdx? (fun c => c.attr.named && !c.attr.extra) else none
  name a := if a.kind = k "identifier" then some a.text else none
  callName _ cs := (childByField cs (k "function")).map (·.attr.text)
  callee _ cs := .child (childIdx cs (k "function"))
  field a cs := if a.kind = k "selector_expression" then
      some (childIdx cs (k "operand"), (childByField cs (k "field")).map (·.attr.text))
    else none

/-- The last of the `test_statements` (backends/src/go/mod.rs:289-311, `BLOCK_STATEMENTS_QUERY` :29-37): statements of a statement
list of the block. -/
def last (body : Tree) : Option Nat :=
  (((body.children.filter fun c => c.attr.kind == k "statement_list").flatMap Tree.children).filter (·.attr.stmt)).getLast?.map
    (·.attr.id)

/-- All functions with bodies. -/
def fns (file : Tree) : List Decl := decls (k "function_declaration") (k "identifier") (k "block") file

/-- The tests (backends/src/go/visitor.rs:27-35, 141-143). -/
def tests (file : Tree) : List Decl := (fns file).filter fun d => (k "Test").isPrefixOf d.name && !(d.name == k "TestMain")

/-- The local functions (backends/src/go/visitor.rs:62-64). -/
def locals (file : Tree) : List Decl := (fns file).filter fun d => !(k "Test").isPrefixOf d.name

/-- `visit_file` with `local_functions`. -/
def visitFile (config : Compiled) (skip : Span → Bool) (trim : Span → Span) (fuel rounds : Nat) (file : Tree) : Visited :=
  visit lang (visitorCfg lang config skip trim (locals file)) last (tests file) (locals file) fuel rounds

end Go

/-! ## PHP -/
namespace Php
open Go (k)

/-- The first named child (`named_child(0)`). -/
def firstNamed (cs : List Tree) : Option Nat := cs.findIdx? (·.attr.named)

/-- Member calls. -/
def isMemberCall (kind : Text) : Bool :=
  kind == k "member_call_expression" || kind == k "nullsafe_member_call_expression" || kind == k "scoped_call_expression"

/-- The base of a field (`field_base`, backends/src/php/mod.rs:466-487). -/
def baseIdx (kind : Text) (cs : List Tree) : Option Nat :=
  if kind = k "scoped_call_expression" ∨ kind = k "scoped_property_access_expression" then childIdx cs (k "scope")
  else childIdx cs (k "object")

/-- PHP (backends/src/php/mod.rs:193-513, backends/src/php/visitor.rs:139-165). -/
def lang : Lang where
  isStmt parent a := a.named && !a.extra && parent == some (k "compound_statement")
  isCall kind := kind == k "function_call_expression" || isMemberCall kind
  control a cs := a.kind == k "return_statement" || a.kind == k "break_statement" || a.kind == k "continue_statement" ||
    (a.kind == k "expression_statement" &&
      match (firstNamed cs).bind fun i => cs[i]? with
      | some c => c.attr.kind == k "throw_expression"
      | none => false)
  declaration a := a.kind == k "function_definition" || a.kind == k "class_declaration" ||
    a.kind == k "function_static_declaration" || a.kind == k "global_declaration"
  expr a cs := if a.kind = k "expression_statement" then firstNamed cs else none
  name a := if a.kind = k "name" ∨ a.kind = k "qualified_name" then some a.text else none
  callName a cs := if a.kind = k "function_call_expression" then (childByField cs (k "function")).map (·.attr.text) else none
  callee a cs := if a.kind = k "function_call_expression" then .child (childIdx cs (k "function"))
    else .virtualField (baseIdx a.kind cs) ((childByField cs (k "name")).map (·.attr.text))
  field a cs :=
    if a.kind = k "member_access_expression" ∨ a.kind = k "nullsafe_member_access_expression" ∨
        a.kind = k "scoped_property_access_expression" then
      some (baseIdx a.kind cs, (childByField cs (k "name")).map (·.attr.text))
    else none

/-- The last of the `test_statements` (backends/src/php/mod.rs:324-342). -/
def last (body : Tree) : Option Nat :=
  (body.children.filter fun c => c.attr.named && !c.attr.extra).getLast?.map (·.attr.id)

/-- The tests (backends/src/php/mod.rs:93-100). -/
def tests (file : Tree) : List Decl :=
  (decls (k "method_declaration") (k "name") (k "compound_statement") file).filter fun d => (k "test").isPrefixOf d.name

/-- `visit_file`; there are no local functions (backends/src/php/mod.rs:307-322). -/
def visitFile (config : Compiled) (skip : Span → Bool) (trim : Span → Span) (fuel rounds : Nat) (file : Tree) : Visited :=
  visit lang (visitorCfg lang config skip trim []) last (tests file) [] fuel rounds

end Php
end Necessist.TS
