import Verif.Model.Basic
/-!
# Positions in a text, and the rewriter

Models the external crate `rewriter` 0.2 (its source is not available in this sandbox; modelled from its
documented behaviour) as used by `core/src/span.rs` and `core/src/source_file.rs`.

Simplification: offsets count characters instead of UTF-8 bytes. `OffsetCalculator` turns a (line, character
column) pair into a byte offset on a character boundary; slicing a `str` at these byte offsets is slicing the
character sequence at the corresponding character offsets. A position that does not exist in the text is an
error here (`none`); the real code panics.
-/
namespace Necessist

/-- Number of characters of `t` before the first line break (or the end). -/
def lineLen (t : Text) : Nat := (t.takeWhile (· != '\n')).length

/-- `OffsetCalculator::offsets_from_span`, for one position: the offset of column `col` of line `line`
(1-based) of `t`. Used at core/src/span.rs:158-163. -/
def offset? : Text → Nat → Nat → Option Nat
  | _, 0, _ => none
  | t, 1, col => if col ≤ lineLen t then some col else none
  | [], _ + 2, _ => none
  | c :: cs, l + 2, col =>
    if c = '\n' then (offset? cs (l + 1) col).map (· + 1)
    else (offset? cs (l + 2) col).map (· + 1)

/-- `offset?` on a `LineColumn`. -/
def LineColumn.offset? (lc : LineColumn) (t : Text) : Option Nat := Necessist.offset? t lc.line lc.column

/-- The text between two character offsets, `&contents[start..end]`; `none` (panic) if out of order or out of
bounds. core/src/span.rs:165-166. -/
def slice? (t : Text) (s e : Nat) : Option Text :=
  if s ≤ e ∧ e ≤ t.length then some ((t.drop s).take (e - s)) else none

/-- `Span::source_text` on the file contents: core/src/span.rs:152-169. -/
def sourceText? (t : Text) (start stop : LineColumn) : Option Text := do
  let s ← start.offset? t
  let e ← stop.offset? t
  slice? t s e

/-- State of a `rewriter::Rewriter` over some original text. `delta` is the signed difference between
positions in the rewritten and in the original text, `pos` the end of the last rewritten span. -/
structure Rewriter where
  original : Text
  rewritten : Text
  delta : Int
  pos : LineColumn
deriving Repr

/-- `Rewriter::with_offset_calculator(contents, ..)`: core/src/span.rs:175-178, core/src/core.rs:745-746. -/
def Rewriter.new (t : Text) : Rewriter := ⟨t, t, 0, ⟨1, 0⟩⟩

/-- `Rewriter::rewrite(span, replacement)`: asserts that spans are rewritten in order, replaces the span's text
and returns the replaced text. `none` models a panic. -/
def Rewriter.rewrite (r : Rewriter) (start stop : LineColumn) (replacement : Text) :
    Option (Text × Rewriter) := do
  if r.pos.ble start then
    let s ← start.offset? r.original
    let e ← stop.offset? r.original
    let s' := (s : Int) + r.delta
    let e' := (e : Int) + r.delta
    if 0 ≤ s' ∧ s' ≤ e' ∧ e' ≤ r.rewritten.length then
      let a := s'.toNat
      let b := e'.toNat
      some ((r.rewritten.drop a).take (b - a),
        { r with
          rewritten := r.rewritten.take a ++ replacement ++ r.rewritten.drop b
          delta := r.delta + (replacement.length : Int) - ((e : Int) - (s : Int))
          pos := stop })
    else none
  else none

/-- `SourceFile::insert`: core/src/source_file.rs:93-101. -/
def Rewriter.insert (r : Rewriter) (at_ : LineColumn) (insertion : Text) : Option Rewriter :=
  (r.rewrite at_ at_ insertion).map (·.2)

/-- The text computation of `Span::remove`: (removed text, new contents). core/src/span.rs:171-189. -/
def removeText? (t : Text) (start stop : LineColumn) : Option (Text × Text) :=
  ((Rewriter.new t).rewrite start stop []).map fun (txt, r) => (txt, r.rewritten)

/-- Unicode `White_Space`, i.e. Rust's `char::is_whitespace`. -/
def isWhitespace (c : Char) : Bool :=
  let n := c.toNat
  (9 ≤ n && n ≤ 13) || n == 0x20 || n == 0x85 || n == 0xA0 || n == 0x1680 ||
  (0x2000 ≤ n && n ≤ 0x200A) || n == 0x2028 || n == 0x2029 || n == 0x202F || n == 0x205F || n == 0x3000

/-- The loop of `Span::trim_start` (core/src/span.rs:125-137): advance the start over leading whitespace. -/
def advance : Text → LineColumn → LineColumn
  | [], lc => lc
  | c :: cs, lc =>
    if isWhitespace c then
      if c = '\n' then advance cs ⟨lc.line + 1, 0⟩ else advance cs ⟨lc.line, lc.column + 1⟩
    else lc

/-- `Span::trim_start` (core/src/span.rs:119-140): the new start. Ignoring errors is as in the code; a panic
(out-of-range span) is mapped to the unchanged start, i.e. theorems about it assume the span is in the file. -/
def trimStart (t : Text) (start stop : LineColumn) : LineColumn :=
  match sourceText? t start stop with
  | some txt => advance txt start
  | none => start

end Necessist
