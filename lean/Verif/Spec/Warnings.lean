import Verif.Model.Warn
import Verif.Model.Parse
import Verif.Props.Warn
import Verif.Props.Directives
import Verif.Spec.Parse
import Verif.Props.Parse
/-!
# Which warnings are given, and which messages are printed for them

A warning is *given* by a call; whether a message is printed for it is said by C28 to C30, for any sequence of calls. Here: which calls
are due.
-/
namespace Necessist

/-- A call, and whether it is the core of the program that makes it. The others are those that the framework's implementation makes while
tests are run. -/
structure Issue where
  call : WarnCall
  own : Bool
deriving DecidableEq, Repr

/-- The messages printed, given the results of all calls. -/
def printedBy : List WarnResult → List WarnMsg
  | r :: rs => (match r with | .print m => [m] | _ => []) ++ printedBy rs
  | [] => []

/-- … when the calls are made one after the other, beginning with the states `st`. -/
def shownFor (o : WarnOpts) (st : WStates) (is : List Issue) : List WarnMsg := printedBy (warnHistory o st (is.map (·.call)))

/-- A call whose message is not printed, given the messages printed before: the warning is denied or allowed, or nothing is to be printed, or the
warning is to be printed only once and has been. (The program makes no call about `all`, which stands for all warnings.) -/
def Silent (o : WarnOpts) (before : List (Option WarnMsg)) (c : WarnCall) : Prop :=
  c.warning = .all ∨ Denied o c.warning ∨ Allowed o c.warning ∨ o.quiet = true ∨
    c.once = true ∧ ∃ m, some m ∈ before ∧ m.warning = c.warning

/-- The messages printed for some calls, from the start of the program. The first message about a kind of warning says how to allow it; that
for the first call about a potential bug asks for a report. -/
inductive Results (o : WarnOpts) : List Issue → List (Option WarnMsg) → Prop where
  | nil : Results o [] []
  | silent {is rs i} (before : Results o is rs) (quiet : Silent o rs i.call) : Results o (is ++ [i]) (rs ++ [none])
  | printed {is rs i bug hint} (before : Results o is rs) (loud : ¬ Silent o rs i.call)
      (bugIff : bug = true ↔ PotentialBug i.call.warning ∧ ∀ j ∈ is, j.call.warning ≠ i.call.warning)
      (hintIff : hint = true ↔ ∀ m, some m ∈ rs → m.warning ≠ i.call.warning) :
      Results o (is ++ [i]) (rs ++ [some ⟨i.call.warning, i.call.source, i.call.msg, bug, hint⟩])

/-- The messages among the results. -/
def messages (rs : List (Option WarnMsg)) : List WarnMsg := rs.flatMap Option.toList

/-- The states after some calls. -/
def WStates.after (o : WarnOpts) (st : WStates) : List Issue → WStates
  | [] => st
  | i :: is => after o (warnInternal o st i.call).2 is

/-- None of the calls is about a denied warning. -/
def NoneDenied (o : WarnOpts) (is : List Issue) : Prop := ∀ i ∈ is, ¬ Denied o i.call.warning

/-- The last call is about a denied warning; none before it is. -/
def EndsDenied (o : WarnOpts) (is : List Issue) : Prop := ∃ is' i, is = is' ++ [i] ∧ NoneDenied o is' ∧ Denied o i.call.warning

/-- Calls of the program itself. -/
def own (cs : List WarnCall) : List Issue := cs.map fun c => ⟨c, true⟩

namespace Parse
open Visit Run

/-- The warnings due for the directives in a file: C34's, in the order of the lines. -/
def DirectiveCalls (b : Backend) (f : SourceFile) (contents : Text) (cs : List WarnCall) : Prop :=
  ∃ due : List (Nat × WarnCall), due.Pairwise (fun x y => x.1 < y.1) ∧ (∀ n c, (n, c) ∈ due ↔ WarningDue b.alnum f contents n c) ∧
    cs = due.map (·.2)

/-- The warning about a file that cannot be parsed. -/
def parsingFailedCall (f : SourceFile) (error : Text) : WarnCall :=
  { warning := .parsingFailed
    source := none
    msg := "failed to parse \"".toList ++ f.display ++ "\": ".toList ++ error
    once := false }

/-- The warning about functions whose definitions are not unique: their names, line by line. -/
def ambiguousCall (f : SourceFile) (names : List Text) : WarnCall :=
  { warning := .localFunctionAmbiguous
    source := none
    msg := "found multiple functions with the following names in `".toList ++ f.display ++ "`: {".toList ++
      (names.map fun n => "\n    \"".toList ++ n ++ "\",".toList).flatten ++ "\n}".toList
    once := false }

/-- The warnings about functions that a test may call but whose definitions are not unique: at most one, which names them all, in order. -/
def AmbiguousCalls (f : SourceFile) (names : List Text) (cs : List WarnCall) : Prop :=
  names = [] ∧ cs = [] ∨ names ≠ [] ∧ ∃ sorted : List Text, sorted.Pairwise (fun a b => compare a b = .lt) ∧ (∀ n, n ∈ sorted ↔ n ∈ names) ∧
    cs = [ambiguousCall f sorted]

/-- The warnings due for a file, in order; `true` if the file is dealt with after them. -/
inductive Due (b : Backend) (config : Compiled) (f : SourceFile) : Bool → List WarnCall → Prop where
  /-- those for its directives -/
  | directives {contents cs} (read : b.read f = .ok contents) (dirs : DirectiveCalls b f contents cs) : Due b config f false cs
  /-- only these, if the file is skipped -/
  | skipped {contents cs d} (read : b.read f = .ok contents) (dirs : DirectiveCalls b f contents cs)
      (has : HasDirectives b f contents d) (skip : d.skipFile = true) : Due b config f true cs
  /-- if it is not skipped and cannot be parsed, one about that -/
  | unparsable {contents cs d e} (read : b.read f = .ok contents) (dirs : DirectiveCalls b f contents cs)
      (has : HasDirectives b f contents d) (skip : d.skipFile = false) (parse : b.parseFile f = .error e) :
      Due b config f true (cs ++ [parsingFailedCall f e])
  /-- if it can be parsed and the search for candidates ends: the framework's … -/
  | visited {contents cs d ast fns vs walked} (read : b.read f = .ok contents) (dirs : DirectiveCalls b f contents cs)
      (has : HasDirectives b f contents d) (skip : d.skipFile = false) (parse : b.parseFile f = .ok ast)
      (locals : ast.localFunctions = .ok fns)
      (visit : visitFile (visitorFor b config contents d fns) (visitorFor b config contents d fns).walkable.length ast.tree = .done vs walked) :
      Due b config f false (cs ++ ast.warnings)
  /-- … and that about ambiguous functions -/
  | done {contents cs d ast fns vs walked as} (read : b.read f = .ok contents) (dirs : DirectiveCalls b f contents cs)
      (has : HasDirectives b f contents d) (skip : d.skipFile = false) (parse : b.parseFile f = .ok ast)
      (locals : ast.localFunctions = .ok fns)
      (visit : visitFile (visitorFor b config contents d fns) (visitorFor b config contents d fns).walkable.length ast.tree = .done vs walked)
      (error : ast.error = none) (ambiguous : AmbiguousCalls f vs.warnings as) : Due b config f true (cs ++ ast.warnings ++ as)

/-- Due for several files in order, all of which are dealt with. -/
inductive DueAll (b : Backend) (config : Compiled) : List SourceFile → List WarnCall → Prop where
  | nil : DueAll b config [] []
  | cons {f fs cs cs'} (first : Due b config f true cs) (others : DueAll b config fs cs') : DueAll b config (f :: fs) (cs ++ cs')

/-- The warning that an option of the configuration is not supported. -/
def unsupportedCall (w : Warning) (option : String) : WarnCall :=
  { warning := w
    source := none
    msg := "the framework does not support the `".toList ++ option.toList ++ "` configuration".toList
    once := true }

/-- The warnings due for the configuration: about each option that is used although the framework does not support it; once. -/
def configCalls (b : Backend) (user : Toml) : List WarnCall :=
  (if b.builtins.functions.isNone = true ∧ user.ignoredFunctions ≠ [] then
    [unsupportedCall .ignoredFunctionsUnsupported "ignored_functions"] else []) ++
  (if b.builtins.macros.isNone = true ∧ user.ignoredMacros ≠ [] then [unsupportedCall .ignoredMacrosUnsupported "ignored_macros"] else []) ++
  (if b.builtins.methods.isNone = true ∧ user.ignoredMethods ≠ [] then
    [unsupportedCall .ignoredMethodsUnsupported "ignored_methods"] else [])

/-- The paths of files that the given paths stand for, in the order of the paths given, and for a directory in that of its walk. -/
def pathsOf (b : Backend) (paths : List Path) : List Path :=
  (startingPaths b paths).flatMap fun p => match b.kind p with
    | .file => [p]
    | .dir es => es.filterMap fun e => match e with | .ok (q, true) => some q | _ => none
    | .other => []

/-- The frameworks give no warning called `all`. -/
def NoAll (b : Backend) : Prop := ∀ f ast, b.parseFile f = .ok ast → ∀ c ∈ ast.warnings, c.warning ≠ .all

/-- The calls made while candidates are sought, by the way in which that ends. -/
inductive Gives (b : Backend) (user : Toml) (paths : List Path) (ws : WStates) : Res Err Unit → List WarnCall → Prop where
  /-- a warning about the configuration is denied -/
  | config {cs es} (calls : configCalls b user = cs ++ es) (cut : EndsDenied b.warn (own cs)) : Gives b user paths ws (.err .denied) cs
  /-- the configuration is refused for another reason -/
  | refused {r} (failed : r ≠ .ok ()) (config : ∀ config, ¬ Compiles b user ws config) (clean : NoneDenied b.warn (own (configCalls b user))) :
      Gives b user paths ws r (configCalls b user)
  /-- all goes well: everything that is due is given -/
  | ok {config fs cs} (compiles : Compiles b user ws config) (files : pathsOf b paths = fs.map fun f => b.root ++ f.path)
      (due : DueAll b config fs cs) (clean : NoneDenied b.warn (own (configCalls b user ++ cs))) :
      Gives b user paths ws (.ok ()) (configCalls b user ++ cs)
  /-- something fails between two files -/
  | between {config fs rest cs r} (failed : r ≠ .ok ()) (compiles : Compiles b user ws config)
      (files : pathsOf b paths = (fs.map fun f => b.root ++ f.path) ++ rest) (due : DueAll b config fs cs)
      (clean : NoneDenied b.warn (own (configCalls b user ++ cs))) : Gives b user paths ws r (configCalls b user ++ cs)
  /-- something fails while a file is being dealt with -/
  | within {config fs f rest cs part r} (failed : r ≠ .ok ()) (compiles : Compiles b user ws config)
      (files : pathsOf b paths = (fs.map fun f => b.root ++ f.path) ++ (b.root ++ f.path) :: rest) (due : DueAll b config fs cs)
      (last : Due b config f false part) (clean : NoneDenied b.warn (own (configCalls b user ++ cs ++ part))) :
      Gives b user paths ws r (configCalls b user ++ cs ++ part)
  /-- a warning about a file is denied -/
  | denied {config fs f rest cs part es x} (compiles : Compiles b user ws config)
      (files : pathsOf b paths = (fs.map fun f => b.root ++ f.path) ++ (b.root ++ f.path) :: rest) (due : DueAll b config fs cs)
      (last : Due b config f x (part ++ es)) (cut : EndsDenied b.warn (own (configCalls b user ++ cs ++ part))) :
      Gives b user paths ws (.err .denied) (configCalls b user ++ cs ++ part)

end Parse
end Necessist
