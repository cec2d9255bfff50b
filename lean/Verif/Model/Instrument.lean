import Verif.Model.Text
/-!
# Instrumentation of a source file

Models the text computation of `instrument_statements` (core/src/core.rs:736-804).
-/
namespace Necessist

/-- One instrumentable statement: where it is, and the strings `statement_prefix_and_suffix` returns for it
(core/src/core.rs:764). -/
structure Wrap where
  start : LineColumn
  stop : LineColumn
  pre : Text
  suf : Text
deriving DecidableEq, Repr

/-- `BTreeMap<LineColumn, Vec<String>>` as an association list in increasing order of keys. -/
abbrev InsertionMap := List (LineColumn × List Text)

/-- `map.entry(lc).or_default().push(x)` (core/src/core.rs:765-768). -/
def InsertionMap.push (lc : LineColumn) (x : Text) : InsertionMap → InsertionMap
  | [] => [(lc, [x])]
  | (k, xs) :: m =>
    match lc.cmp k with
    | .lt => (lc, [x]) :: (k, xs) :: m
    | .eq => (k, xs ++ [x]) :: m
    | .gt => (k, xs) :: InsertionMap.push lc x m

/-- The loop at core/src/core.rs:763-770. -/
def insertionMap (ws : List Wrap) : InsertionMap :=
  ws.foldl (fun m w => (m.push w.start w.pre).push w.stop w.suf) []

/-- `source_file.insert(&mut rewriter, line_column, insertion)` for a list of insertions; `none` is a panic of
the rewriter. -/
def insertAll (r : Rewriter) : List (LineColumn × Text) → Option Rewriter
  | [] => some r
  | (lc, x) :: rest => (r.insert lc x).bind fun r => insertAll r rest

/-- The nested loops at core/src/core.rs:774-778: keys in order, then the insertions of a key in order. -/
def InsertionMap.flatten (m : InsertionMap) : List (LineColumn × Text) :=
  m.flatMap fun (k, xs) => xs.map fun x => (k, x)

/-- Contents of the rewriter at core/src/core.rs:784, given the insertions `pre` that the backend's
`instrument_source_file` made first (:750-755; only Go's makes any, backends/src/go/mod.rs:475-478) and the
statements. -/
def instrumentText (t : Text) (pre : List (LineColumn × Text)) (ws : List Wrap) : Option Text :=
  (insertAll (.new t) (pre ++ (insertionMap ws).flatten)).map (·.rewritten)

end Necessist
