import Verif.Model.Text
/-!
# From parsers' positions to lines and columns

Models `ToLineColumn` for tree-sitter (Go and PHP; backends/src/tree_sitter_utils.rs:18-48) and `offset_to_line_column` (Foundry;
backends/src/foundry/mod.rs:540-575). The conversions of `proc_macro2` (Rust) and swc (TypeScript) are external and not modelled.
-/
namespace Necessist.Columns

/-- Number of bytes of a text in UTF-8. -/
def byteLen (t : Text) : Nat := (t.map Char.utf8Size).sum

/-- The offsets of `str::char_indices`, the first of them being `n`. -/
def charOffsets : Nat → Text → List Nat
  | _, [] => []
  | n, c :: cs => n :: charOffsets (n + c.utf8Size) cs

/-- `Point::to_line_column` (backends/src/tree_sitter_utils.rs:25-47): `none` is a panic. -/
def pointToLineColumn (contents : Text) (row column : Nat) : Option LineColumn :=
  match offset? contents (row + 1) 0 with
  | none => none
  | some lineOffset =>
    match (charOffsets 0 (contents.drop lineOffset)).idxOf? column with
    | none => none
    | some column => some ⟨row + 1, column⟩

/-- `line_starts` (backends/src/foundry/mod.rs:556-562), for a text that starts at byte `n`. -/
def lineStarts : Nat → Text → List Nat
  | _, [] => []
  | n, c :: cs => if c = '\n' then (n + 1) :: lineStarts (n + c.utf8Size) cs else lineStarts (n + c.utf8Size) cs

/-- `offset_to_line_column` (backends/src/foundry/mod.rs:555-575). `partition_point` on an ascending list is the length of the
initial part that satisfies the predicate. -/
def offsetToLineColumn (contents : Text) (loc : Nat) : LineColumn :=
  let starts := lineStarts 0 contents
  let lineNo := (starts.takeWhile fun s => s ≤ loc).length
  let colNo := if 0 < lineNo then loc - starts.getD (lineNo - 1) 0 else loc
  ⟨lineNo + 1, colNo⟩

end Necessist.Columns
