import Verif.Model.Visitor
import Verif.Model.Directives
import Verif.Model.Run
/-!
# Parsing all source files

Models `ParseAdapter::parse` and `extend` (backends/src/parsing.rs:371-498), `canonicalize_source_files`
(core/src/core.rs:559-581) and `SpanTestMaps::iter` (core/src/framework/mod.rs:43-52).
-/
namespace Necessist.Parse
open Visit Run

/-- An absolute path, by its components. -/
abbrev Path := List Text

/-- `BTreeMap::entry(k).or_default()`, then updated by `g`: the map is an association list in the order of the keys, `d` the
default. -/
def upsert {κ ν} (cmp : κ → κ → Ordering) (d : ν) (k : κ) (g : ν → ν) : List (κ × ν) → List (κ × ν)
  | [] => [(k, g d)]
  | (k', v) :: rest =>
    match cmp k k' with
    | .lt => (k, g d) :: (k', v) :: rest
    | .eq => (k', g v) :: rest
    | .gt => (k', v) :: upsert cmp d k g rest

/-- `SpanTestMap` (core/src/framework/mod.rs:57), a `BTreeMap`. -/
abbrev SpanMap := List (Span × List Text)

/-- `map.entry(span).or_default().extend(names)` (backends/src/parsing.rs:491-492) -/
def SpanMap.add (s : Span) (names : List Text) (m : SpanMap) : SpanMap := upsert Span.cmp [] s (fun ns => extendSet ns names) m

/-- `SpanTestMaps` (core/src/framework/mod.rs:37-40). -/
structure Maps where
  statement : SpanMap := []
  methodCall : SpanMap := []
deriving DecidableEq, Repr

/-- `SourceFileSpanTestMap` (core/src/framework/mod.rs:34), a `BTreeMap`. -/
abbrev FileMap := List (SourceFile × Maps)

/-- One of the loops of `extend` (backends/src/parsing.rs:490-493). -/
def SpanMap.addAll (m : SpanMap) (incoming : SpanMap) : SpanMap := incoming.foldl (fun m p => m.add p.1 p.2) m

/-- `extend` (backends/src/parsing.rs:484-498). -/
def extend (fm : FileMap) (f : SourceFile) (incoming : Maps) : FileMap :=
  upsert SourceFile.cmp {} f
    (fun m => ⟨SpanMap.addAll m.statement incoming.statement, SpanMap.addAll m.methodCall incoming.methodCall⟩) fm

/-- The visitor's findings as a map (backends/src/generic_visitor.rs:415-428 adds them one by one). The order of a span's test
names is not modelled (in the program it is that in which they were found, and alphabetical among those found together). -/
def mapOf (pairs : List (Span × Text)) : SpanMap := pairs.foldl (fun m p => m.add p.1 [p.2]) []

/-- What parsing a source file yields. -/
structure FileAst where
  /-- `local_functions` (backends/src/parsing.rs:117-121) -/
  localFunctions : Except Err (List (Text × List LocalFn))
  tree : List Node
  /-- warnings that the framework's own visitor gives after visiting (backends/src/rust/visitor.rs:62-70) -/
  warnings : List WarnCall := []
  /-- an error that the framework's own visitor stored (backends/src/rust/visitor.rs:53-56, 71-73) -/
  error : Option Err := none

/-- What a path is. An entry of a directory walk is a path and whether it is a file, or an error. -/
inductive PathKind where
  | dir (entries : List (Except Err (Path × Bool)))
  | file
  | other

/-- The file system and the framework. -/
structure Backend where
  root : Path
  canonicalize : Path → Except Err Path
  kind : Path → PathKind
  /-- `SourceFile::new`: the contents -/
  read : SourceFile → Except Err Text
  /-- `parse_source_file`: the error is its message -/
  parseFile : SourceFile → Except Text FileAst
  builtins : Builtins
  receiver : Bool
  fields : Bool
  alnum : Char → Bool
  warn : WarnOpts

/-- What changes during parsing. -/
structure PState where
  nTests : Nat := 0
  map : FileMap := []
  warns : WStates := WStates.init
  printed : List WarnMsg := []

/-- A warning followed by `?`. -/
def warnP (o : WarnOpts) (c : WarnCall) (st : PState) : Res Err Unit × PState :=
  match warnStep o st.warns c with
  | none => (.err .denied, st)
  | some (ms, ws) => (.ok (), { st with warns := ws, printed := st.printed ++ ms })

/-- Several warnings, until one is denied. -/
def warnsP (o : WarnOpts) : List WarnCall → PState → Res Err Unit × PState
  | [], st => (.ok (), st)
  | c :: cs, st => match warnP o c st with
    | (.ok _, st) => warnsP o cs st
    | r => r

/-- The message at backends/src/parsing.rs:405-410. -/
def parsingFailedMsg (f : SourceFile) (error : Text) : Text :=
  "failed to parse \"".toList ++ f.display ++ "\": ".toList ++ error

/-- Insertion into a `BTreeSet<String>`: strings compare as bytes, which for UTF-8 is the order of code points. -/
def insertName (n : Text) : List Text → List Text
  | [] => [n]
  | x :: xs => match compare n x with
    | .lt => n :: x :: xs
    | .eq => x :: xs
    | .gt => x :: insertName n xs

/-- The elements of `local_functions_needing_warnings`, a `BTreeSet<String>` (backends/src/generic_visitor.rs:75), in order. -/
def sortNames (names : List Text) : List Text := names.foldr insertName []

/-- The message at backends/src/generic_visitor.rs:161-165; `{:#?}` of a nonempty set of strings. (Simplification: the characters of names need
not be escaped.) -/
def ambiguousMsg (f : SourceFile) (names : List Text) : Text :=
  "found multiple functions with the following names in `".toList ++ f.display ++ "`: ".toList ++
    ("{".toList ++ (sortNames names).flatMap (fun n => "\n    \"".toList ++ n ++ "\",".toList) ++ "\n}".toList)

/-- The `GenericVisitor` (backends/src/parsing.rs:420-443). -/
def visitorFor (b : Backend) (config : Compiled) (contents : Text) (d : Directives) (fns : List (Text × List LocalFn)) : VCfg :=
  { config
    skip := fun s => d.skip contents s.start s.stop
    walkable := fns.filter fun p => config.isWalkableFunction p.1
    trim := fun s => { s with start := trimStart contents s.start s.stop }
    receiver := b.receiver
    fields := b.fields }

/-- `visit_file` (e.g. backends/src/rust/visitor.rs:47-74, with `results`, backends/src/generic_visitor.rs:156-171) and what
follows in the closure (backends/src/parsing.rs:445-450). -/
def visitParsed (b : Backend) (config : Compiled) (f : SourceFile) (contents : Text) (d : Directives) (ast : FileAst)
    (fns : List (Text × List LocalFn)) (st : PState) : Res Err Unit × PState :=
  let v := visitorFor b config contents d fns
  match visitFile v v.walkable.length ast.tree with
  | .panic => (.panic, st)
  | .more => (.hang, st)
  | .done vs _ =>
    match warnsP b.warn ast.warnings st with
    | (.ok _, st) =>
      match ast.error with
      | some e => (.err e, st)
      | none =>
        match (if vs.warnings.isEmpty then (.ok (), st)
            else warnP b.warn ⟨.localFunctionAmbiguous, none, ambiguousMsg f vs.warnings, false⟩ st : Res Err Unit × PState) with
        | (.ok _, st) =>
          (.ok (), { st with
            nTests := st.nTests + vs.testSet.length
            map := extend st.map f ⟨mapOf vs.statements, mapOf vs.methodCalls⟩ })
        | r => r
    | r => r

/-- The closure `visit_source_file` (backends/src/parsing.rs:383-451), for a file under the root. -/
def visitSource (b : Backend) (config : Compiled) (f : SourceFile) (st : PState) : Res Err Unit × PState :=
  match b.read f with
  | .error e => (.err e, st)
  | .ok contents =>
    match Directives.collect b.alnum b.warn st.warns f contents with
    | (none, ms) => (.err .denied, { st with printed := st.printed ++ ms })
    | (some (d, ws), ms) =>
      let st := { st with warns := ws, printed := st.printed ++ ms }
      if d.skipFile then (.ok (), st)
      else match b.parseFile f with
        | .error e => warnP b.warn ⟨.parsingFailed, none, parsingFailedMsg f e, false⟩ st
        | .ok ast => match ast.localFunctions with
          | .error e => (.err e, st)
          | .ok fns => visitParsed b config f contents d ast fns st

/-- `util::strip_prefix`, and the assertion at backends/src/parsing.rs:385. -/
def relative? (root p : Path) : Option SourceFile :=
  if root.isPrefixOf p then some ⟨p.drop root.length⟩ else none

/-- The closure with its assertions. -/
def visitPath (b : Backend) (config : Compiled) (p : Path) (st : PState) : Res Err Unit × PState :=
  match relative? b.root p with
  | none => (.panic, st)
  | some f => visitSource b config f st

/-- The loop over the entries of a directory (backends/src/parsing.rs:465-473). -/
def visitEntries (b : Backend) (config : Compiled) : List (Except Err (Path × Bool)) → PState → Res Err Unit × PState
  | [], st => (.ok (), st)
  | .error e :: _, st => (.err e, st)
  | .ok (p, isFile) :: es, st =>
    match (if isFile then visitPath b config p st else (.ok (), st)) with
    | (.ok _, st) => visitEntries b config es st
    | r => r

/-- The loop over the paths (backends/src/parsing.rs:462-478). -/
def visitPaths (b : Backend) (config : Compiled) : List Path → PState → Res Err Unit × PState
  | [], st => (.ok (), st)
  | p :: ps, st =>
    match (match b.kind p with
      | .dir es => visitEntries b config es st
      | .file => visitPath b config p st
      | .other => (.ok (), st)) with
    | (.ok _, st) => visitPaths b config ps st
    | r => r

/-- `ParseAdapter::parse` (backends/src/parsing.rs:371-481). -/
def parse (b : Backend) (user : Toml) (paths : List Path) (ws : WStates) : Res Err Unit × PState :=
  match compileConfig b.alnum b.warn ws b.builtins user with
  | (none, ms, ws) => (.panic, { warns := ws, printed := ms })
  | (some (.error _), ms, ws) => (.err .denied, { warns := ws, printed := ms })
  | (some (.ok config), ms, ws) =>
    visitPaths b config (if paths.isEmpty then [b.root] else paths) { warns := ws, printed := ms }

/-- An argument, relative to the current directory or absolute. -/
structure PathArg where
  absolute : Bool
  components : List Text
deriving DecidableEq, Repr

/-- Why a path was refused. -/
inductive PathError where
  | cannotCanonicalize | notInRoot (p : Path)
deriving DecidableEq, Repr

/-- One step of `canonicalize_source_files` (core/src/core.rs:564-579). -/
def canonicalizeOne (b : Backend) (a : PathArg) : Except PathError Path :=
  match b.canonicalize (if a.absolute then a.components else b.root ++ a.components) with
  | .error _ => .error .cannotCanonicalize
  | .ok p => if b.root.isPrefixOf p then .ok p else .error (.notInRoot p)

/-- `canonicalize_source_files` (core/src/core.rs:559-581). -/
def canonicalizeAll (b : Backend) : List PathArg → Except PathError (List Path)
  | [] => .ok []
  | a :: as => match canonicalizeOne b a with
    | .error e => .error e
    | .ok p => match canonicalizeAll b as with
      | .error e => .error e
      | .ok ps => .ok (p :: ps)

/-- `SpanTestMaps::iter` (core/src/framework/mod.rs:43-52). -/
def Maps.candidates (m : Maps) : List Candidate :=
  m.statement.map (fun p => ⟨p.1, .statement, p.2⟩) ++ m.methodCall.map (fun p => ⟨p.1, .methodCall, p.2⟩)

/-- The number of candidates reported (core/src/core.rs:236-250). -/
def FileMap.nSpans (fm : FileMap) : Nat :=
  (fm.map fun p => (p.2.statement.map (·.2.length)).sum + (p.2.methodCall.map (·.2.length)).sum).sum

/-- What the run is given: the files in order, each with its candidates. -/
def FileMap.toRun (fm : FileMap) : List (SourceFile × List Candidate) := fm.map fun p => (p.1, p.2.candidates)

end Necessist.Parse
