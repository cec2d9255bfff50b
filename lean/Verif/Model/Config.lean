import Verif.Model.Regex
import Verif.Model.Warn
/-!
# The configuration file

Models core/src/config.rs, `default_config` (core/src/core.rs), and `compile_config` (backends/src/parsing.rs).
-/
namespace Necessist

/-- `IgnoredPathDisambiguation` (core/src/config.rs:7-13); the default is `none_`. -/
inductive Disambiguation where
  | none_ | function | method
deriving DecidableEq, Repr

/-- `Toml` (core/src/config.rs:56-73), without the map of other keys. -/
structure Toml where
  ignoredFunctions : List Text := []
  ignoredMacros : List Text := []
  ignoredMethods : List Text := []
  ignoredPathDisambiguation : Option Disambiguation := none
  ignoredTests : List Text := []
  visitIgnoredArguments : Option Bool := none
  walkableFunctions : List Text := []
deriving DecidableEq, Repr

/-- `Compiled` (core/src/config.rs:15-23). -/
structure Compiled where
  ignoredFunctions : List Re
  ignoredMacros : List Re
  ignoredMethods : List Re
  ignoredPathDisambiguation : Disambiguation
  ignoredTests : List Text
  visitIgnoredArguments : Bool
  walkableFunctions : List Re

/-- core/src/config.rs:27-29 -/
def Compiled.isIgnoredFunction (c : Compiled) (name : Text) : Bool := c.ignoredFunctions.any (·.isMatch name)
/-- core/src/config.rs:31-33 -/
def Compiled.isIgnoredMacro (c : Compiled) (name : Text) : Bool := c.ignoredMacros.any (·.isMatch name)
/-- core/src/config.rs:35-37 -/
def Compiled.isIgnoredMethod (c : Compiled) (name : Text) : Bool := c.ignoredMethods.any (·.isMatch name)
/-- core/src/config.rs:43-45 -/
def Compiled.isIgnoredTest (c : Compiled) (name : Text) : Bool := c.ignoredTests.any (fun s => name == s)
/-- core/src/config.rs:51-53 -/
def Compiled.isWalkableFunction (c : Compiled) (name : Text) : Bool := c.walkableFunctions.any (·.isMatch name)

/-- Errors of the configuration. -/
inductive ConfigError where
  /-- a pattern contains this character -/
  | badChar (c : Char)
  /-- the string is not a regular expression -/
  | regex
  /-- these keys are unknown -/
  | unknownKeys (ks : List Text)
  /-- the file cannot be read or parsed, or a value has the wrong type -/
  | malformed
  /-- the file exists already -/
  | exists_
  /-- the file system failed -/
  | io
  /-- a warning was denied -/
  | denied
deriving DecidableEq, Repr

/-- The loop body of `escape` (core/src/config.rs:188-200). `alnum` is `char::is_alphanumeric`. -/
def escapeChar (alnum : Char → Bool) (c : Char) : Except ConfigError Text :=
  if alnum c || c == '_' then .ok [c]
  else if c == '.' then .ok ['\\', '.']
  else if c == '*' then .ok ['.', '*']
  else .error (.badChar c)

/-- `escape` (core/src/config.rs:185-204). -/
def escape (alnum : Char → Bool) : Text → Except ConfigError Text
  | [] => .ok []
  | c :: cs =>
    match escapeChar alnum c with
    | .error e => .error e
    | .ok s => match escape alnum cs with
      | .error e => .error e
      | .ok t => .ok (s ++ t)

/-- `([^.]+\.)*` -/
def methodPrefix : Re := .star (.cat (.cat (.one fun c => c != '.') (.star (.one fun c => c != '.'))) (.lit '.'))

/-- `compile_pattern` (core/src/config.rs:178-183). The limit on the size of compiled expressions is not modelled. -/
def compilePattern (alnum : Char → Bool) (pattern : Text) (methods : Bool) : Except ConfigError Re :=
  match escape alnum pattern with
  | .error e => .error e
  | .ok escaped =>
    match parseRe escaped with
    | none => .error .regex
    | some r => .ok (if methods then .cat methodPrefix r else r)

/-- `compile_patterns` (core/src/config.rs:168-176): stops at the first failure. -/
def compilePatterns (alnum : Char → Bool) (methods : Bool) : List Text → Except ConfigError (List Re)
  | [] => .ok []
  | p :: ps =>
    match compilePattern alnum p methods with
    | .error e => .error e
    | .ok r => match compilePatterns alnum methods ps with
      | .error e => .error e
      | .ok rs => .ok (r :: rs)

/-- `Toml::compile` (core/src/config.rs:139-166). -/
def Toml.compile (alnum : Char → Bool) (t : Toml) : Except ConfigError Compiled :=
  match compilePatterns alnum false t.ignoredFunctions with
  | .error e => .error e
  | .ok ignoredFunctions =>
  match compilePatterns alnum false t.ignoredMacros with
  | .error e => .error e
  | .ok ignoredMacros =>
  match compilePatterns alnum true t.ignoredMethods with
  | .error e => .error e
  | .ok ignoredMethods =>
  match compilePatterns alnum false t.walkableFunctions with
  | .error e => .error e
  | .ok walkableFunctions =>
    .ok {
      ignoredFunctions, ignoredMacros, ignoredMethods
      ignoredPathDisambiguation := t.ignoredPathDisambiguation.getD .none_
      ignoredTests := t.ignoredTests
      visitIgnoredArguments := t.visitIgnoredArguments.getD false
      walkableFunctions }

/-- `Toml::merge` (core/src/config.rs:98-137). -/
def Toml.merge (self other : Toml) : Option Toml :=
  if self.ignoredPathDisambiguation.isSome && other.ignoredPathDisambiguation.isSome
      && self.ignoredPathDisambiguation != other.ignoredPathDisambiguation then none
  else if self.visitIgnoredArguments.isSome && other.visitIgnoredArguments.isSome
      && self.visitIgnoredArguments != other.visitIgnoredArguments then none
  else some {
    ignoredFunctions := self.ignoredFunctions ++ other.ignoredFunctions
    ignoredMacros := self.ignoredMacros ++ other.ignoredMacros
    ignoredMethods := self.ignoredMethods ++ other.ignoredMethods
    ignoredPathDisambiguation := other.ignoredPathDisambiguation
    ignoredTests := self.ignoredTests ++ other.ignoredTests
    visitIgnoredArguments := other.visitIgnoredArguments
    walkableFunctions := self.walkableFunctions ++ other.walkableFunctions }

/-- What a framework ignores by itself; `none` means that it does not support the notion (backends/src/parsing.rs:24-26,
`IGNORED_FUNCTIONS` etc.). -/
structure Builtins where
  functions : Option (List Text)
  macros : Option (List Text)
  methods : Option (List Text)
deriving DecidableEq, Repr

/-- The three `check_config!`s (backends/src/parsing.rs:500-519, 526-528): the warnings to be given, in order. -/
def configWarnings (b : Builtins) (user : Toml) : List Warning :=
  (if b.functions.isNone && !user.ignoredFunctions.isEmpty then [.ignoredFunctionsUnsupported] else []) ++
  (if b.macros.isNone && !user.ignoredMacros.isEmpty then [.ignoredMacrosUnsupported] else []) ++
  (if b.methods.isNone && !user.ignoredMethods.isEmpty then [.ignoredMethodsUnsupported] else [])

/-- The call in `check_config!` (backends/src/parsing.rs:506-515), without the framework's name. -/
def configCall (w : Warning) : WarnCall :=
  let option := match w with
    | .ignoredFunctionsUnsupported => "ignored_functions"
    | .ignoredMacrosUnsupported => "ignored_macros"
    | .ignoredMethodsUnsupported => "ignored_methods"
    | _ => ""
  ⟨w, none, "the framework does not support the `".toList ++ option.toList ++ "` configuration".toList, true⟩

/-- Give warnings until one is denied. The result says whether all went well; the list is what was printed. -/
def warnAll (o : WarnOpts) (st : WStates) : List Warning → Bool × List WarnMsg × WStates
  | [] => (true, [], st)
  | w :: ws =>
    match warnInternal o st (configCall w) with
    | (.bail _, st) => (false, [], st)
    | (.panic, st) => (false, [], st)
    | (.silent, st) => warnAll o st ws
    | (.print m, st) => let (ok, ms, st) := warnAll o st ws; (ok, m :: ms, st)

/-- `compile_config` (backends/src/parsing.rs:522-555): the warnings, then the built-ins merged with the user's
configuration (`unwrap` panics if the merge is refused: `none`), compiled. -/
def compileConfig (alnum : Char → Bool) (o : WarnOpts) (st : WStates) (b : Builtins) (user : Toml) :
    Option (Except ConfigError Compiled) × List WarnMsg × WStates :=
  match warnAll o st (configWarnings b user) with
  | (false, ms, st) => (some (.error .denied), ms, st)
  | (true, ms, st) =>
    let builtins : Toml := {
      ignoredFunctions := b.functions.getD [], ignoredMacros := b.macros.getD [], ignoredMethods := b.methods.getD [] }
    ((builtins.merge user).map (·.compile alnum), ms, st)

/-! ### The file -/

/-- TOML values, as far as the types of the fields go. -/
inductive TomlValue where
  | str (s : Text)
  | bool (b : Bool)
  | strings (l : List Text)
  | other
deriving DecidableEq, Repr

/-- A parsed TOML document: keys (distinct) with values. -/
abbrev TomlDoc := List (Text × TomlValue)

/-- The field names (core/src/config.rs:57-71). -/
def tomlKeys : List Text :=
  ["ignored_functions".toList, "ignored_macros".toList, "ignored_methods".toList,
   "ignored_path_disambiguation".toList, "ignored_tests".toList, "visit_ignored_arguments".toList,
   "walkable_functions".toList]

/-- A list of strings, by default empty. -/
def TomlDoc.strings (d : TomlDoc) (k : String) : Except ConfigError (List Text) :=
  match d.lookup k.toList with
  | none => .ok []
  | some (.strings l) => .ok l
  | some _ => .error .malformed

/-- An optional Boolean. -/
def TomlDoc.bool? (d : TomlDoc) (k : String) : Except ConfigError (Option Bool) :=
  match d.lookup k.toList with
  | none => .ok none
  | some (.bool b) => .ok (some b)
  | some _ => .error .malformed

/-- An optional `IgnoredPathDisambiguation`, written as the variant's name. -/
def TomlDoc.disambiguation? (d : TomlDoc) (k : String) : Except ConfigError (Option Disambiguation) :=
  match d.lookup k.toList with
  | none => .ok none
  | some (.str s) =>
    if s = "None".toList then .ok (some .none_)
    else if s = "Function".toList then .ok (some .function)
    else if s = "Method".toList then .ok (some .method)
    else .error .malformed
  | some _ => .error .malformed

/-- `toml::from_str` for `Toml` (the derived `Deserialize`, core/src/config.rs:55-73) on a parsed document: the fields and
the unknown keys. Order of error detection is not modelled. -/
def Toml.ofDoc (d : TomlDoc) : Except ConfigError (Toml × List Text) := do
  let ignoredFunctions ← d.strings "ignored_functions"
  let ignoredMacros ← d.strings "ignored_macros"
  let ignoredMethods ← d.strings "ignored_methods"
  let ignoredPathDisambiguation ← d.disambiguation? "ignored_path_disambiguation"
  let ignoredTests ← d.strings "ignored_tests"
  let visitIgnoredArguments ← d.bool? "visit_ignored_arguments"
  let walkableFunctions ← d.strings "walkable_functions"
  .ok ({ ignoredFunctions, ignoredMacros, ignoredMethods, ignoredPathDisambiguation, ignoredTests,
         visitIgnoredArguments, walkableFunctions }, (d.map (·.1)).filter fun k => !tomlKeys.contains k)

/-- The file `necessist.toml`: absent, not TOML (or not readable), or a document. -/
inductive ConfigFile where
  | absent
  | garbage
  | doc (d : TomlDoc)
deriving DecidableEq, Repr

/-- `Toml::read` (core/src/config.rs:77-96); `statFails` says that `try_exists` fails. -/
def Toml.read (statFails : Bool) (f : ConfigFile) : Except ConfigError Toml :=
  if statFails then .error .io
  else match f with
    | .absent => .ok {}
    | .garbage => .error .malformed
    | .doc d =>
      match Toml.ofDoc d with
      | .error e => .error e
      | .ok (t, other) => if other.isEmpty then .ok t else .error (.unknownKeys other)

/-- `toml::to_string` of a configuration (the derived `Serialize`): `None` fields are left out. -/
def Toml.toDoc (t : Toml) : TomlDoc :=
  [("ignored_functions".toList, .strings t.ignoredFunctions), ("ignored_macros".toList, .strings t.ignoredMacros),
   ("ignored_methods".toList, .strings t.ignoredMethods)] ++
  (match t.ignoredPathDisambiguation with
    | none => []
    | some .none_ => [("ignored_path_disambiguation".toList, .str "None".toList)]
    | some .function => [("ignored_path_disambiguation".toList, .str "Function".toList)]
    | some .method => [("ignored_path_disambiguation".toList, .str "Method".toList)]) ++
  [("ignored_tests".toList, .strings t.ignoredTests)] ++
  (match t.visitIgnoredArguments with
    | none => []
    | some b => [("visit_ignored_arguments".toList, .bool b)]) ++
  [("walkable_functions".toList, .strings t.walkableFunctions)]

/-- `default_config` (core/src/core.rs:521-534): the result and the file afterwards. `left` is what a failed write
leaves. -/
def defaultConfig (statFails : Bool) (writeFails : Option ConfigFile) (f : ConfigFile) :
    Except ConfigError Unit × ConfigFile :=
  if statFails then (.error .io, f)
  else if f ≠ .absent then (.error .exists_, f)
  else match writeFails with
    | some left => (.error .io, left)
    | none => (.ok (), .doc (Toml.toDoc {}))

end Necessist
