import Verif.Model.LocalFunctions
import Verif.Model.Rust
import Verif.Model.Parse
/-!
# Rust's front end

Models backends/src/rust/visitor.rs and the queries of backends/src/rust/mod.rs: how syn's syntax trees are presented to the generic
visitor (`Verif.Model.Visitor`).
-/
namespace Necessist.Rs
open Visit
open Rust (Cargo Caches St Found Err Segment isTest testNew join cachedFlags)
open Cache (Path)

/-- What kind of an expression or other node it is, as far as the queries tell. -/
inductive Kind where
  | async | block | const | forLoop | if_ | loop | tryBlock | unsafe_ | while_
  | break_ | continue_ | return_
  /-- any other -/
  | other
deriving DecidableEq, Repr

/-- Syntax trees (`syn`), as far as the visitor or the queries tell nodes apart; every node has its span. All other nodes are `other`, with
their parts in the order in which syn's generated `visit_*` functions visit them; `tag` stands for the rest of their contents. (The
expressions that attributes may contain are not modelled.) -/
inductive Syn where
  /-- `Expr::Path` that is a single identifier -/
  | ident (sp : Span) (name : Text)
  /-- any other `Expr::Path`: its tokens, and the expressions in generic arguments -/
  | path (sp : Span) (text : Text) (parts : List Syn)
  /-- `base.name`, or `base.0`, which has no name -/
  | field (sp : Span) (base : Syn) (name : Option Text)
  | await (sp : Span) (base : Syn)
  | call (sp : Span) (func : Syn) (args : List Syn)
  /-- `recv.name::<generics>(args)` -/
  | method (sp : Span) (recv : Syn) (name : Text) (generics args : List Syn)
  /-- `Expr::Macro`: what is passed to macros is not parsed -/
  | mac (sp : Span) (name : Text) (tokens : Text)
  | other (sp : Span) (kind : Kind) (tag : Text) (parts : List Syn)
  /-- `Stmt::Expr`: an expression, with or without a semicolon -/
  | expr (sp : Span) (e : Syn) (semi : Bool)
  /-- `Stmt::Macro` -/
  | macStmt (sp : Span) (name : Text) (tokens : Text)
  /-- `Stmt::Local` -/
  | local_ (sp : Span) (tag : Text) (parts : List Syn)
  /-- `Stmt::Item` -/
  | item (sp : Span) (i : Syn)
  /-- a module; one without a body has no items -/
  | mod_ (sp : Span) (name : Text) (items : List Syn)
  /-- a free function: the paths of its attributes, the expressions in its signature, the statements -/
  | fn (sp : Span) (name : Text) (attrs : List (List Segment)) (sig body : List Syn)
  /-- a function in an `impl` -/
  | implFn (sp : Span) (name : Text) (sig body : List Syn)

def Syn.span : Syn → Span
  | .ident s _ | .path s _ _ | .field s _ _ | .await s _ | .call s _ _ | .method s _ _ _ _ | .mac s _ _ | .other s _ _ _ | .expr s _ _
  | .macStmt s _ _ | .local_ s _ _ | .item s _ | .mod_ s _ _ | .fn s _ _ _ _ | .implFn s _ _ _ => s

/-- `expression_with_block` (backends/build/syn.rs:30-86, generated from backends/assets/syn_expr.rs: the kinds of expressions that have a
block as a part; so not `match`). -/
def withBlock : Syn → Bool
  | .other _ k _ _ => match k with
    | .async | .block | .const | .forLoop | .if_ | .loop | .tryBlock | .unsafe_ | .while_ => true
    | _ => false
  | _ => false

/-- `statement_is_control` (backends/src/rust/mod.rs:487-503), about the expression. -/
def isJump : Syn → Bool
  | .other _ k _ _ => match k with
    | .break_ | .continue_ | .return_ => true
    | _ => false
  | _ => false

/-- `MaybeNamed for Call` (backends/src/rust/mod.rs:256-275), of a function call, whose function this is. -/
def callName : Syn → Option Text
  | .ident _ name => some name
  | .path _ text _ => some text
  | _ => none

/-- `call_callee` (backends/src/rust/mod.rs:577-599) of a function call: only here can identifiers be named. `view` is how the function is
presented otherwise. -/
def calleeOf (func : Syn) (view : Node) : Node :=
  match func with
  | .ident s name => .other ⟨s, some name⟩ []
  | _ => view

/-- What the queries can see of an expression: `Expression::from` (backends/src/rust/mod.rs:150-166), `MaybeNamed for Expression` and `for
Field` (:221-254), `Spanned` (:283-337), `expression_is_await`, `expression_is_field`, `expression_is_call`, `expression_is_macro_call`,
`await_arg`, `field_base`, `call_callee` (:513-619). -/
def view : Syn → Node
  | .await s base => .await ⟨s, none⟩ (view base)
  | .field s base name => .field ⟨s, name⟩ name (view base)
  | .call s func _ => .call ⟨s, callName func⟩ (callName func)
      (calleeOf func (view func)) []
  | .method s recv name _ _ => .call ⟨s, some name⟩ (some name) (.field ⟨s, some name⟩ (some name) (view recv)) []
  | .mac s name _ => .macro_ ⟨s, some name⟩ name []
  | x => .other ⟨x.span, none⟩ []

/-- What is needed to visit a file. Statements are compared with syn's `==`, which disregards spans: `key` is equal for equal statements
only; likewise `bkey` for blocks. -/
structure Env (ω : Type) where
  cargo : Cargo ω
  args : List Text
  file : Path
  key : Syn → Nat
  bkey : List Syn → Nat
  cfg : VCfg

/-- Everything that changes during a visit. -/
structure Vis (ω : Type) where
  gen : VState
  found : Found
  st : St ω

variable {ω : Type}

/-- A step of the generic visitor. -/
def on (f : VState → Option VState) (v : Vis ω) : Option (Vis ω) := (f v.gen).map fun g => { v with gen := g }

/-- … that says whether to go on. -/
def ask (f : VState → Option (Bool × VState)) (v : Vis ω) : Option (Bool × Vis ω) :=
  (f v.gen).map fun p => (p.1, { v with gen := p.2 })

/-- What the visitor asks about a statement (backends/src/rust/mod.rs:462-511): `statement_is_removable`, `statement_is_control`,
`statement_is_declaration`. -/
def info (key : Syn → Nat) : Syn → StmtInfo
  | .expr s e semi => ⟨s, key (.expr s e semi), semi || withBlock e, isJump e, false⟩
  | .local_ s t ps => ⟨s, key (.local_ s t ps), true, false, true⟩
  | .item s i => ⟨s, key (.item s i), true, false, true⟩
  | x => ⟨x.span, key x, true, false, false⟩

/-- The key of the last of the `test_statements` (backends/src/rust/mod.rs:449-460). -/
def lastKey (key : Syn → Nat) (body : List Syn) : Option Nat := body.getLast?.map key

mutual
/-- `impl Visit for Visitor` (backends/src/rust/visitor.rs:117-243), and syn's `visit_*` for all else. `path` is `module_path`, and `inTest`
tells whether `test_ident` is set. `none` is a panic. -/
def visit (E : Env ω) (path : List Text) (inTest : Bool) : Syn → Vis ω → Option (Vis ω)
  | .mod_ _ name items, v => visitAll E (if inTest then path else path ++ [name]) inTest items v
  | .fn _ name attrs sig body, v =>
    if isTest attrs then
      if inTest then none
      else match testNew E.cargo E.args E.file path name v.found v.st with
        | (.error e, f, s) => some { v with found := { f with error := some e }, st := s }
        | (.ok none, f, s) => some { v with found := f, st := s }
        | (.ok (some p), f, s) =>
          (ask (visitTest E.cfg (join p) (lastKey E.key body)) { v with
            found := { f with tests := f.tests ++ [p] }, st := s }).bind fun (go, v) =>
          (if go then (visitAll E path true sig v).bind fun v => visitAll E path true body v else some v).bind fun v =>
          on (visitTestPost (join p)) v
    else some v
  | .implFn _ _ sig body, v => (visitAll E path inTest sig v).bind fun v => visitAll E path inTest body v
  | .expr s e semi, v =>
    (on (visitStatement (info E.key (.expr s e semi)) (stripsToCall (view e))) v).bind fun v =>
    (visit E path inTest e v).bind fun v =>
    on (visitStatementPost E.cfg (info E.key (.expr s e semi)) (stripsToCall (view e))) v
  | .macStmt s name tokens, v =>
    (on (visitStatement (info E.key (.macStmt s name tokens)) true) v).bind fun v =>
    (ask (visitMacroCall E.cfg ⟨s, some name⟩ name) v).bind fun (_, v) =>
    on (visitStatementPost E.cfg (info E.key (.macStmt s name tokens)) true) v
  | .local_ s t parts, v =>
    (on (visitStatement (info E.key (.local_ s t parts)) false) v).bind fun v =>
    (visitAll E path inTest parts v).bind fun v =>
    on (visitStatementPost E.cfg (info E.key (.local_ s t parts)) false) v
  | .item s i, v =>
    (on (visitStatement (info E.key (.item s i)) false) v).bind fun v =>
    (visit E path inTest i v).bind fun v =>
    on (visitStatementPost E.cfg (info E.key (.item s i)) false) v
  | .call s func args, v =>
    (ask (visitCall E.cfg ⟨s, callName func⟩ (callName func) (calleeOf func (view func))) v).bind fun (go, v) =>
    if go then (visit E path inTest func v).bind fun v => visitAll E path inTest args v
    else visit E path inTest func v
  | .method s recv name generics args, v =>
    (ask (visitCall E.cfg ⟨s, some name⟩ (some name) (.field ⟨s, some name⟩ (some name) (view recv))) v).bind fun (go, v) =>
    if go then (visit E path inTest recv v).bind fun v => (visitAll E path inTest generics v).bind fun v => visitAll E path inTest args v
    else visit E path inTest recv v
  | .mac s name _, v => (ask (visitMacroCall E.cfg ⟨s, some name⟩ name) v).bind fun (_, v) => some v
  | .ident _ _, v => some v
  | .path _ _ parts, v => visitAll E path inTest parts v
  | .field _ base _, v => visit E path inTest base v
  | .await _ base, v => visit E path inTest base v
  | .other _ _ _ parts, v => visitAll E path inTest parts v
/-- … of several. -/
def visitAll (E : Env ω) (path : List Text) (inTest : Bool) : List Syn → Vis ω → Option (Vis ω)
  | [], v => some v
  | x :: xs, v => (visit E path inTest x v).bind fun v => visitAll E path inTest xs v
end

mutual
/-- The names of the test functions that a visit (see above) comes to, if it goes into none of them, as is so if the tests' module path is
unknown, or if `cargo` fails to list the tests (then `considered` is never true, and no arguments are left out). -/
def testFns : Syn → List Text
  | .fn _ name attrs _ _ => if isTest attrs then [name] else []
  | .implFn _ _ sig body => testFnsAll sig ++ testFnsAll body
  | .ident _ _ => []
  | .path _ _ parts => testFnsAll parts
  | .field _ base _ => testFns base
  | .await _ base => testFns base
  | .call _ func args => testFns func ++ testFnsAll args
  | .method _ recv _ generics args => testFns recv ++ (testFnsAll generics ++ testFnsAll args)
  | .mac _ _ _ => []
  | .other _ _ _ parts => testFnsAll parts
  | .expr _ e _ => testFns e
  | .macStmt _ _ _ => []
  | .local_ _ _ parts => testFnsAll parts
  | .item _ i => testFns i
  | .mod_ _ _ items => testFnsAll items
/-- … in several. -/
def testFnsAll : List Syn → List Text
  | [] => []
  | x :: xs => testFns x ++ testFnsAll xs
end

/-- How the errors of `cached_source_file_fs_module_path` are displayed (backends/src/rust/storage.rs:63, 84-87, 107, 113, 130); simplification:
what `cargo` says when it fails is not modelled. -/
def errText (path : Path) : Err → Text
  | .relative => "failed to determine relative path of source file \"".toList ++ Rust.showPath path ++ "\"".toList
  | .parent => "failed to get parent directory".toList
  | .package => "failed to determine package".toList
  | .metadata | .flags | .list => []

/-- `module_path_unknown_msg` (backends/src/rust/visitor.rs:77-90). -/
def modulePathUnknownMsg (path : Path) (name : Text) (errors : List Err) : Text :=
  "failed to determine module path for test `".toList ++ name ++ "`: [\n".toList ++
    (errors.map fun e => "    ".toList ++ errText path e ++ ",\n".toList).flatten ++ "]".toList

/-- `tests_needing_warnings` (backends/src/rust/storage.rs:16, filled at backends/src/rust/mod.rs:93-98), a `BTreeMap`. -/
def needingWarnings (unknown : List (Text × Err)) : List (Text × List Err) :=
  unknown.foldl (fun m x => Parse.upsert compare [] x.1 (· ++ [x.2]) m) []

/-- The warnings given after a visit (backends/src/rust/visitor.rs:62-70). -/
def unknownCalls (path : Path) (unknown : List (Text × Err)) : List WarnCall :=
  (needingWarnings unknown).map fun x =>
    { warning := .modulePathUnknown
      source := none
      msg := modulePathUnknownMsg path x.1 x.2
      once := false }

/-- A function that may be gone into. -/
structure Fn where
  name : Text
  body : List Syn

mutual
/-- `BlockCollector` (backends/src/rust/visitor.rs:18-46): it does not look into the functions that it finds, nor into tests. -/
def fns : Syn → List Fn
  | .fn _ name attrs _ body => if isTest attrs then [] else [⟨name, body⟩]
  | .implFn _ name _ body => [⟨name, body⟩]
  | .ident _ _ => []
  | .path _ _ parts => fnsAll parts
  | .field _ base _ => fns base
  | .await _ base => fns base
  | .call _ func args => fns func ++ fnsAll args
  | .method _ recv _ generics args => fns recv ++ (fnsAll generics ++ fnsAll args)
  | .mac _ _ _ => []
  | .other _ _ _ parts => fnsAll parts
  | .expr _ e _ => fns e
  | .macStmt _ _ _ => []
  | .local_ _ _ parts => fnsAll parts
  | .item _ i => fns i
  | .mod_ _ _ items => fnsAll items
/-- … in several. -/
def fnsAll : List Syn → List Fn
  | [] => []
  | x :: xs => fns x ++ fnsAll xs
end

/-- How the visit of a file ends. -/
inductive Result (ω : Type) where
  | done (st : VState) (found : Found) (s : St ω) (walked : List LocalFn)
  | err (e : Err) (s : St ω)
  | panic
  /-- there would be another round -/
  | more

/-- The loop over the local functions, and what follows it (backends/src/rust/visitor.rs:59-73), for at most `rounds` rounds. Functions are
known by their blocks' keys (`&syn::Block`); simplification: of several functions with equal blocks, it is the first that is walked, not the
one that was called first. The warnings about tests whose paths are unknown are `unknownCalls` of what is `found`. -/
def loop (E : Env ω) (fs : List Fn) : Nat → Vis ω → List LocalFn → Result ω
  | rounds, v, walked =>
    match nextLocalFunction v.gen with
    | none => match v.found.error with
      | some e => .err e v.st
      | none => if v.gen.pending.isEmpty then .done v.gen v.found v.st walked else .panic
    | some (f, g) =>
      match rounds with
      | 0 => .more
      | rounds + 1 =>
        match fs.find? fun d => E.bkey d.body == f.key with
        | none => .panic
        | some d => match visitAll E [] false d.body { v with gen := g } with
          | none => .panic
          | some v => loop E fs rounds v (walked ++ [f])

mutual
/-- The tree as one of the generic visitor's trees, where `listed` says which tests `cargo` knows, by which names. This models nothing: the
visit above does not use it, and `Verif.Lemmas.RustVisitor` shows what it has to do with it. -/
def lower (listed : List Text → Text → Option Text) (key : Syn → Nat) (path : List Text) : Syn → Node
  | .mod_ s name items => .other ⟨s, none⟩ (lowerAll listed key (path ++ [name]) items)
  | .fn s name attrs sig body =>
    if isTest attrs then match listed path name with
      | some t => .test t (lastKey key body) (lowerAll listed key path sig ++ lowerAll listed key path body)
      | none => .other ⟨s, none⟩ []
    else .other ⟨s, none⟩ []
  | .implFn s _ sig body => .other ⟨s, none⟩ (lowerAll listed key path sig ++ lowerAll listed key path body)
  | .expr s e semi => .exprStmt (info key (.expr s e semi)) (lower listed key path e)
  | .macStmt s name tokens => .exprStmt (info key (.macStmt s name tokens)) (.macro_ ⟨s, some name⟩ name [])
  | .local_ s t parts => .stmt (info key (.local_ s t parts)) (lowerAll listed key path parts)
  | .item s i => .stmt (info key (.item s i)) [lower listed key path i]
  | .call s func args => .call ⟨s, callName func⟩ (callName func)
      (calleeOf func (lower listed key path func)) (lowerAll listed key path args)
  | .method s recv name generics args => .call ⟨s, some name⟩ (some name)
      (.field ⟨s, some name⟩ (some name) (lower listed key path recv))
      (lowerAll listed key path generics ++ lowerAll listed key path args)
  | .mac s name _ => .macro_ ⟨s, some name⟩ name []
  | .ident s _ => .other ⟨s, none⟩ []
  | .path s _ parts => .other ⟨s, none⟩ (lowerAll listed key path parts)
  | .field s base name => .field ⟨s, name⟩ name (lower listed key path base)
  | .await s base => .await ⟨s, none⟩ (lower listed key path base)
  | .other s _ _ parts => .other ⟨s, none⟩ (lowerAll listed key path parts)
/-- … -/
def lowerAll (listed : List Text → Text → Option Text) (key : Syn → Nat) (path : List Text) : List Syn → List Node
  | [] => []
  | x :: xs => lower listed key path x :: lowerAll listed key path xs
end

/-- A function as a local function of the generic visitor. The bodies that are visited are those of `fns`, not these. -/
def localFn (key : Syn → Nat) (bkey : List Syn → Nat) (d : Fn) : LocalFn :=
  ⟨bkey d.body, lowerAll (fun _ _ => none) key [] d.body⟩

/-- `collect_local_functions` (backends/src/rust/visitor.rs:18-46). -/
def localFns (key : Syn → Nat) (bkey : List Syn → Nat) (fs : List Fn) : List (Text × LocalFn) :=
  fs.map fun d => (d.name, localFn key bkey d)

/-- The generic visitor's configuration: the walkable functions are the local functions whose names the configuration selects
(backends/src/parsing.rs:420-424). -/
def visitorCfg (key : Syn → Nat) (bkey : List Syn → Nat) (config : Compiled) (skip : Span → Bool) (trim : Span → Span) (fs : List Fn) :
    VCfg :=
  { config, skip, trim, walkable := walkableOf config (localFns key bkey fs)
    receiver := true, fields := true }

/-- `visit` (backends/src/rust/visitor.rs:47-74), of a file. -/
def visitFile (cargo : Cargo ω) (args : List Text) (path : Path) (key : Syn → Nat) (bkey : List Syn → Nat) (config : Compiled)
    (skip : Span → Bool) (trim : Span → Span) (rounds : Nat) (file : Syn) (s : St ω) : Result ω :=
  let E : Env ω := ⟨cargo, args, path, key, bkey, visitorCfg key bkey config skip trim (fns file)⟩
  match cachedFlags cargo path s with
  | (.error e, s) => .err e s
  | (.ok _, s) => match visit E [] false file ⟨{}, {}, s⟩ with
    | none => .panic
    | some v => loop E (fns file) rounds v []

end Necessist.Rs
