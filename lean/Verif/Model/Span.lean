import Verif.Model.Text
/-!
# Source files and spans

Models core/src/source_file.rs (identity and order of source files) and core/src/span.rs (order, display,
parse).
-/
namespace Necessist

/-- A source file, identified by its path relative to the project root, as the list of its components
(core/src/source_file.rs:20-37: `Inner` equality is by root and path, and there is a single root, :43-52).
Simplification: components are Unicode text (non-UTF-8 paths are not modelled). -/
structure SourceFile where
  path : List Text
deriving DecidableEq, Repr, Inhabited

/-- `Ord for SourceFile` (core/src/source_file.rs:123-127): `Path::cmp` of the relative paths, i.e.
component-wise. Components compare as byte strings, which for UTF-8 is the order of code points. -/
def SourceFile.cmp (a b : SourceFile) : Ordering := compare a.path b.path

/-- `Span` (core/src/span.rs:8-13). -/
structure Span where
  file : SourceFile
  start : LineColumn
  stop : LineColumn
deriving DecidableEq, Repr, Inhabited

/-- Derived `Ord for Span` (core/src/span.rs:8): lexicographic in declaration order. -/
def Span.cmp (a b : Span) : Ordering :=
  (a.file.cmp b.file).then ((a.start.cmp b.start).then (a.stop.cmp b.stop))

/-- Decimal digit. -/
def digitChar (n : Nat) : Char := Char.ofNat (48 + n % 10)

/-- `usize::to_string`. -/
def showNat (n : Nat) : Text :=
  if h : n < 10 then [digitChar n] else showNat (n / 10) ++ [digitChar (n % 10)]
termination_by n
decreasing_by omega

/-- The relative path displayed with `/` separators (core/src/source_file.rs:110-114). -/
def SourceFile.display (f : SourceFile) : Text := List.intercalate ['/'] f.path

/-- `Span::to_string_with_path` (core/src/span.rs:107-116). -/
def Span.displayWith (s : Span) (path : Text) : Text :=
  path ++ ':' :: showNat s.start.line ++ ':' :: showNat (s.start.column + 1) ++ '-' :: showNat s.stop.line
    ++ ':' :: showNat (s.stop.column + 1)

/-- `Display for Span` (core/src/span.rs:15-24). -/
def Span.display (s : Span) : Text := s.displayWith s.file.display

/-- Split at the first occurrence of `c`: what a regex group `[^c]*` followed by `c` captures. -/
def splitFirst (c : Char) : Text → Option (Text × Text)
  | [] => none
  | x :: xs => if x = c then some ([], xs) else (splitFirst c xs).map fun (a, b) => (x :: a, b)

/-- The captures of `SPAN_RE` = `^([^:]*):([^:]*):([^-]*)-([^:]*):(.*)$` (core/src/span.rs:45-48). Each group
but the last is a maximal run of characters different from the separator that follows it in the regex, so the
match is unique; the last, `.*$`, must not contain a line break. -/
def spanCaptures (s : Text) : Option (Text × Text × Text × Text × Text) := do
  let (file, s) ← splitFirst ':' s
  let (startLine, s) ← splitFirst ':' s
  let (startColumn, s) ← splitFirst '-' s
  let (endLine, s) ← splitFirst ':' s
  if s.contains '\n' then none else some (file, startLine, startColumn, endLine, s)

/-- Value of a decimal digit. -/
def digitVal? (c : Char) : Option Nat :=
  if 48 ≤ c.toNat ∧ c.toNat ≤ 57 then some (c.toNat - 48) else none

/-- Digits to number, most significant first, starting from `acc`. -/
def readDigits (acc : Nat) : Text → Option Nat
  | [] => some acc
  | c :: cs => do let d ← digitVal? c; readDigits (acc * 10 + d) cs

/-- `str::parse::<usize>` on a 64-bit platform: an optional `+`, at least one digit, no overflow. -/
def parseUsize (s : Text) : Option Nat := do
  let ds := match s with | '+' :: cs => cs | cs => cs
  if ds.isEmpty then none
  else
    let n ← readDigits 0 ds
    if n < 2 ^ 64 then some n else none

/-- Split on `/` into path components. -/
def splitSlash : Text → List Text
  | [] => [[]]
  | c :: cs =>
    if c = '/' then [] :: splitSlash cs
    else match splitSlash cs with
      | [] => [[c]]
      | x :: xs => (c :: x) :: xs

/-- `Path::components` of a relative path: empty and `.` components are dropped. -/
def pathComponents (s : Text) : List Text := (splitSlash s).filter fun x => !x.isEmpty && x != ['.']

/-- Why a span cannot be parsed. -/
inductive SpanError where
  | format | number | unreadable
deriving DecidableEq, Repr

/-- `Span::parse` (core/src/span.rs:60-90). `readable f` says whether the file can be read
(`SourceFile::new`, core/src/source_file.rs:41-75, reads it). A column of 0 underflows `column - 1`, and an
absolute path violates the assertion `path.starts_with(root)`: both panic. (In release builds the subtraction
wraps instead; simplification.) -/
def Span.parse (readable : SourceFile → Bool) (s : Text) : Res SpanError Span :=
  match spanCaptures s with
  | none => .err .format
  | some (file, sl, sc, el, ec) =>
    match parseUsize sl, parseUsize sc, parseUsize el, parseUsize ec with
    | some sl, some sc, some el, some ec =>
      if file.head? = some '/' then .panic
      else
        let f : SourceFile := ⟨pathComponents file⟩
        if readable f then
          match sc, ec with
          | sc + 1, ec + 1 => .ok ⟨f, ⟨sl, sc⟩, ⟨el, ec⟩⟩
          | _, _ => .panic
        else .err .unreadable
    | _, _, _, _ => .err .number

/-- Candidate kinds (core/src/framework/mod.rs:59-63). -/
inductive SpanKind where
  | statement | methodCall
deriving DecidableEq, Repr

end Necessist
