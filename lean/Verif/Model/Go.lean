import Verif.Model.Span
import Verif.Model.Directives
import Verif.Model.Instrument
/-!
# Go: referring to the package `os`

Models backends/src/go/mod.rs:448-499 and 528-579. The `regex` crate's search is modelled for the operators that are used: leftmost
match; alternatives, options and repetitions in the order of priority (greedy); captures.
-/
namespace Necessist.Go

/-- Regular expressions with captures. Repetition is of single characters only. -/
inductive Rx where
  | chr (p : Char → Bool)
  | star (p : Char → Bool)
  | opt (r : Rx)
  | seq (a b : Rx)
  | alt (a b : Rx)
  /-- capture group 1 -/
  | grp (r : Rx)
  | eps

/-- Where the search is: the rest of the text, and what group 1 has captured. -/
structure At where
  rest : Text
  cap : Option Text
deriving DecidableEq, Repr

/-- The ways to match a greedy repetition, the preferred one first. -/
def starRun (p : Char → Bool) (cap : Option Text) : Text → List At
  | [] => [⟨[], cap⟩]
  | c :: cs => if p c then starRun p cap cs ++ [⟨c :: cs, cap⟩] else [⟨c :: cs, cap⟩]

/-- The ways to match at a position, the preferred one first. -/
def Rx.run : Rx → At → List At
  | .chr p, m => match m.rest with
    | c :: cs => if p c then [⟨cs, m.cap⟩] else []
    | [] => []
  | .star p, m => starRun p m.cap m.rest
  | .opt r, m => r.run m ++ [m]
  | .seq a b, m => (a.run m).flatMap b.run
  | .alt a b, m => a.run m ++ b.run m
  | .grp r, m => (r.run m).map fun m' => { m' with cap := some (m.rest.take (m.rest.length - m'.rest.length)) }
  | .eps, m => [m]

/-- `Regex::captures` for `\b` followed by `r`: the preferred match at the leftmost position at which there is one. `word` tells word
characters (`\w`), `prev` is the character before the position. -/
def captures (word : Char → Bool) (r : Rx) (prev : Option Char) (t : Text) : Option At :=
  match (if prev.any word != t.head?.any word then (r.run ⟨t, none⟩).head? else none) with
  | some m => some m
  | none => match t with
    | [] => none
    | c :: cs => captures word r (some c) cs

/-- A literal text. -/
def lit : Text → Rx
  | [] => .eps
  | c :: cs => .seq (.chr (· == c)) (lit cs)

/-- `[A-Za-z_]` -/
def isAlpha (c : Char) : Bool := c.isAlpha || c == '_'
/-- `[0-9A-Za-z_]` -/
def isAlnum (c : Char) : Bool := c.isAlphanum || c == '_'

/-- `NAME` (backends/src/go/mod.rs:538). The second group is not used. -/
def name : Rx := .seq (.grp (.alt (.chr (· == '.')) (.seq (.chr isAlpha) (.star isAlnum)))) (.opt (.chr (· == ' ')))
/-- `PREFIX` (backends/src/go/mod.rs:537) -/
def prefix_ : Rx := .seq (.chr (· == '(')) (.star (· != ')'))
/-- `SUFFIX` (backends/src/go/mod.rs:539) -/
def suffix_ : Rx := .seq (.star (· != ')')) (.chr (· == ')'))

/-- `import_os_re` (backends/src/go/mod.rs:550-552), after the `\b` -/
def importOsRe (p n s : Rx) : Rx := .seq (lit "import ".toList) (.seq p (.seq n (.seq (lit "\"os\"".toList) s)))

/-- `imports_os` (backends/src/go/mod.rs:554-570). In the cases of the named imports, `captures.get(1)` is never `None`. -/
def importsOs (word : Char → Bool) (contents : Text) : Option Text :=
  match captures word (importOsRe .eps name .eps) none contents with
  | some m => m.cap
  | none => match captures word (importOsRe .eps .eps .eps) none contents with
    | some _ => some "os".toList
    | none => match captures word (importOsRe prefix_ name suffix_) none contents with
      | some m => m.cap
      | none => match captures word (importOsRe prefix_ .eps suffix_) none contents with
        | some _ => some "os".toList
        | none => none

/-- `package_line` (backends/src/go/mod.rs:572-578) -/
def packageLine (contents : Text) : Option Nat :=
  ((lines contents).findIdx? fun line => "package ".toList.isPrefixOf line).map (· + 1)

/-- `os_name_map` (backends/src/go/mod.rs:91). -/
abbrev OsNames := List (Text × Text)

/-- What is inserted. -/
def importText : Text := "import \"os\"\n".toList

/-- `instrument_source_file` (backends/src/go/mod.rs:452-482): the insertions and the new names; `none` is the error. A file is known by
its path. -/
def instrumentSourceFile (word : Char → Bool) (path contents : Text) (n : Nat) (names : OsNames) :
    Option (List (LineColumn × Text) × OsNames) :=
  if (names.lookup path).isSome || n == 0 then some ([], names)
  else match importsOs word contents with
    | some osName => some ([], (path, osName) :: names)
    | none => match packageLine contents with
      | none => none
      | some line => some ([(⟨line + 1, 0⟩, importText)], (path, "os".toList) :: names)

/-- `statement_prefix_and_suffix` (backends/src/go/mod.rs:484-499); `none` is a panic (`unwrap`). -/
def prefixAndSuffix (path id : Text) (names : OsNames) : Option (Text × Text) :=
  match names.lookup path with
  | none => none
  | some osName =>
    let osPrefix := if osName = ".".toList then [] else osName ++ ['.']
    some ("if ".toList ++ osPrefix ++ "Getenv(\"NECESSIST_REMOVAL\") != \"".toList ++ id ++ "\" { ".toList, " }".toList)

end Necessist.Go
