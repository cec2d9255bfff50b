import Verif.Model.Parse
/-!
# What parsing several paths should give

Written in terms of the files themselves, not of the loops that visit them.
-/
namespace Necessist.Parse
open Visit Run

/-- The map records, for the span `s` of kind `k` in the file `f`, the test `t`. -/
def Recorded (fm : FileMap) (f : SourceFile) (k : SpanKind) (s : Span) (t : Text) : Prop :=
  ∃ m, (f, m) ∈ fm ∧ ∃ ts, (s, ts) ∈ (match k with | .statement => m.statement | .methodCall => m.methodCall : SpanMap) ∧ t ∈ ts

/-- Warnings of this kind are errors. -/
def Denied (o : WarnOpts) (w : Warning) : Prop := Warning.all ∈ o.deny ∨ w ∈ o.deny

/-- Warnings of this kind are printed: none of `--deny`, `--allow`, `--quiet` applies. -/
def Shows (o : WarnOpts) (w : Warning) : Prop :=
  ¬ Denied o w ∧ o.quiet = false ∧ Warning.all ∉ o.allow ∧ w ∉ o.allow

/-- The paths that parsing starts from: those given, or else the root. -/
def startingPaths (b : Backend) (paths : List Path) : List Path := if paths = [] then [b.root] else paths

/-- `q` is one of the files that the given paths stand for: it is given itself, or found in a given directory. -/
def GivenPath (b : Backend) (paths : List Path) (q : Path) : Prop :=
  ∃ p ∈ startingPaths b paths, (b.kind p = .file ∧ q = p) ∨ ∃ es, b.kind p = .dir es ∧ .ok (q, true) ∈ es

/-- So is the file `f` of the project. -/
def Given (b : Backend) (paths : List Path) (f : SourceFile) : Prop := GivenPath b paths (b.root ++ f.path)

/-- A file has the directives `d` (C32, C33 and C34 say which these are). -/
def HasDirectives (b : Backend) (f : SourceFile) (contents : Text) (d : Directives) : Prop :=
  ∃ st st' ms, Directives.collect b.alnum b.warn st f contents = (some (d, st'), ms)

/-- Taken by itself, the file `f` is not skipped, can be parsed, and the search for candidates in it (C35 to C40) ends with `vs` (it
does end: C39; the number of rounds suffices). -/
def Yields (b : Backend) (config : Compiled) (f : SourceFile) (vs : VState) : Prop :=
  ∃ contents d ast fns walked,
    b.read f = .ok contents ∧ HasDirectives b f contents d ∧ d.skipFile = false ∧
    b.parseFile f = .ok ast ∧ ast.localFunctions = .ok fns ∧
    visitFile (visitorFor b config contents d fns) (visitorFor b config contents d fns).walkable.length ast.tree = .done vs walked

/-- The candidates of a kind, with the tests they belong to. -/
def found (vs : VState) : SpanKind → List (Span × Text)
  | .statement => vs.statements
  | .methodCall => vs.methodCalls

/-- The file can be processed: it can be read, no warning about it is denied, and if it is parsed and visited this raises no
error. -/
def Fine (b : Backend) (config : Compiled) (f : SourceFile) : Prop :=
  ∃ contents d, b.read f = .ok contents ∧ HasDirectives b f contents d ∧
    (d.skipFile = true ∨
     (∃ e, b.parseFile f = .error e ∧ ¬ Denied b.warn .parsingFailed) ∨
     (∃ ast fns vs walked, b.parseFile f = .ok ast ∧ ast.localFunctions = .ok fns ∧ ast.error = none ∧
        visitFile (visitorFor b config contents d fns) (visitorFor b config contents d fns).walkable.length ast.tree = .done vs walked ∧
        (∀ c ∈ ast.warnings, c.warning ≠ .all ∧ ¬ Denied b.warn c.warning) ∧
        (vs.warnings = [] ∨ ¬ Denied b.warn .localFunctionAmbiguous)))

end Necessist.Parse
