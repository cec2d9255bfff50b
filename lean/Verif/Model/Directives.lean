import Verif.Model.Config
import Verif.Model.Span
/-!
# Source directives

Models backends/src/directives.rs.
-/
namespace Necessist

/-- A line's text: a carriage return before the line feed is dropped. -/
def stripCr (l : Text) : Text := if l.getLast? = some '\r' then l.dropLast else l

/-- `str::lines`: the lines without their terminators (`\n` or `\r\n`); there is no last empty line, and a carriage return
at the very end of the text is kept. -/
def lines : Text → List Text
  | [] => []
  | c :: cs =>
    let l := (c :: cs).takeWhile (· != '\n')
    match h : (c :: cs).drop l.length with
    | [] => [l]
    | _ :: rest =>
      have : rest.length < (c :: cs).length := by
        have := congrArg List.length h; simp at this ⊢; omega
      stripCr l :: lines rest
termination_by t => t.length

/-- `str::trim_start` -/
def trimStartText (t : Text) : Text := t.dropWhile isWhitespace
/-- `str::trim` -/
def trimText (t : Text) : Text := ((trimStartText t).reverse.dropWhile isWhitespace).reverse

/-- `str::strip_prefix` -/
def stripPrefix? (p : String) (t : Text) : Option Text := if p.toList.isPrefixOf t then some (t.drop p.toList.length) else none

/-- `directive_text` (backends/src/directives.rs:108-112) -/
def directiveText (line : Text) : Option Text :=
  match stripPrefix? "//" (trimStartText line) with
  | none => none
  | some rest => match stripPrefix? "necessist:" (trimStartText rest) with
    | none => none
    | some rest => some (trimStartText rest)

/-- `has_word_boundary` (backends/src/directives.rs:114-118); `alnum` is `char::is_alphanumeric`. -/
def hasWordBoundary (alnum : Char → Bool) (rest : Text) : Bool :=
  match rest with
  | [] => true
  | ch :: _ => ch != '-' && !alnum ch && ch != '_'

/-- `is_skip_file_directive` (backends/src/directives.rs:96-100) -/
def isSkipFileDirective (alnum : Char → Bool) (line : Text) : Bool :=
  match directiveText line with
  | none => false
  | some rest => match stripPrefix? "skip-file" rest with
    | none => false
    | some rest => hasWordBoundary alnum rest

/-- `is_skip_directive` (backends/src/directives.rs:102-106) -/
def isSkipDirective (alnum : Char → Bool) (line : Text) : Bool :=
  match directiveText line with
  | none => false
  | some rest => match stripPrefix? "skip" rest with
    | none => false
    | some rest => hasWordBoundary alnum rest

/-- `is_line_comment_or_whitespace` (backends/src/directives.rs:126-129) -/
def isLineCommentOrWhitespace (line : Text) : Bool :=
  (trimStartText line).isEmpty || "//".toList.isPrefixOf (trimStartText line)

/-- `is_file_header_line` (backends/src/directives.rs:122-124) -/
def isFileHeaderLine (line : Text) : Bool := isLineCommentOrWhitespace line || trimText line == "<?php".toList

/-- `directive_span` (backends/src/directives.rs:82-94) -/
def directiveSpan (f : SourceFile) (lineNumber : Nat) (line : Text) : Span :=
  let column := (line.takeWhile isWhitespace).length
  ⟨f, ⟨lineNumber, column⟩, ⟨lineNumber, column + (trimText line).length⟩⟩

/-- `Directives` (backends/src/directives.rs:11-15); the set of lines is a list. -/
structure Directives where
  skipFile : Bool := false
  skipLines : List Nat := []
deriving DecidableEq, Repr

/-- `format!("`necessist: {directive}` is not a recognized directive")` -/
def unrecognizedMsg (directive : Text) : Text :=
  "`necessist: ".toList ++ directive ++ "` is not a recognized directive".toList

/-- The message at backends/src/directives.rs:34-35. -/
def mispositionedMsg : Text :=
  "`necessist: skip-file` is preceded by a line that is not a line comment, whitespace, or `<?php`".toList

/-- One warning followed by `?`: `none` if it is denied (or the warning is `all`, which panics; never the case here). -/
def warnStep (o : WarnOpts) (st : WStates) (c : WarnCall) : Option (List WarnMsg × WStates) :=
  match warnInternal o st c with
  | (.bail _, _) => none
  | (.panic, _) => none
  | (.silent, st) => some ([], st)
  | (.print m, st) => some ([m], st)

/-- The loop of `Directives::collect` (backends/src/directives.rs:24-55): `n` is the number of the next line, `hdr` is
`in_file_header`. The result is `none` if a warning was denied; the messages printed so far are returned in any case. -/
def collectLoop (alnum : Char → Bool) (o : WarnOpts) (f : SourceFile) :
    Nat → Bool → Directives → WStates → List Text → Option (Directives × WStates) × List WarnMsg
  | _, _, d, st, [] => (some (d, st), [])
  | n, hdr, d, st, line :: ls =>
    let hdr' := if !isFileHeaderLine line then false else hdr
    if isSkipFileDirective alnum line then
      if hdr then collectLoop alnum o f (n + 1) hdr' { d with skipFile := true } st ls
      else match warnStep o st ⟨.skipFileMispositioned, some (directiveSpan f n line).display, mispositionedMsg, false⟩ with
        | none => (none, [])
        | some (ms, st) => let r := collectLoop alnum o f (n + 1) hdr' d st ls; (r.1, ms ++ r.2)
    else if isSkipDirective alnum line then
      collectLoop alnum o f (n + 1) hdr' { d with skipLines := d.skipLines ++ [n + 1] } st ls
    else match directiveText line with
      | some directive =>
        match warnStep o st ⟨.directiveUnrecognized, some (directiveSpan f n line).display, unrecognizedMsg directive, false⟩ with
        | none => (none, [])
        | some (ms, st) => let r := collectLoop alnum o f (n + 1) hdr' d st ls; (r.1, ms ++ r.2)
      | none => collectLoop alnum o f (n + 1) hdr' d st ls

/-- `Directives::collect` (backends/src/directives.rs:18-58). -/
def Directives.collect (alnum : Char → Bool) (o : WarnOpts) (st : WStates) (f : SourceFile) (contents : Text) :
    Option (Directives × WStates) × List WarnMsg :=
  collectLoop alnum o f 1 true {} st (lines contents)

/-- `span_code_start_line` (backends/src/directives.rs:71-80); a span outside of the contents is treated like a failure of
`source_text`. -/
def spanCodeStartLine (contents : Text) (start stop : LineColumn) : Nat :=
  match sourceText? contents start stop with
  | none => start.line
  | some text =>
    start.line + ((lines text).findIdx? fun line => !isLineCommentOrWhitespace line).getD 0

/-- `Directives::skip` (backends/src/directives.rs:61-65). -/
def Directives.skip (d : Directives) (contents : Text) (start stop : LineColumn) : Bool :=
  !d.skipLines.isEmpty && d.skipLines.contains (spanCodeStartLine contents start stop)

end Necessist
