import Std
/-!
# Shared vocabulary

Texts, line/column positions, results of Rust computations.
-/
namespace Necessist

/-- File contents and other strings: sequences of Unicode scalar values (a Rust `str`). -/
abbrev Text := List Char

/-- `proc_macro2::LineColumn`: `line` is 1-based, `column` is 0-based and counts characters.
Used by core/src/span.rs:8-13. -/
structure LineColumn where
  line : Nat
  column : Nat
deriving DecidableEq, Repr, Inhabited

/-- `proc_macro2::LineColumn`'s `Ord` (by line, then by column). -/
def LineColumn.cmp (a b : LineColumn) : Ordering :=
  (compare a.line b.line).then (compare a.column b.column)

/-- Boolean `a <= b` for positions, as used in `Rewriter::rewrite`'s assertion. -/
def LineColumn.ble (a b : LineColumn) : Bool := (a.cmp b).isLE

/-- How a Rust computation can finish: a value, an `Err` (with an error class), a panic
(which unwinds, running destructors), or never. -/
inductive Res (ε α : Type) where
  | ok (a : α)
  | err (e : ε)
  | panic
  | hang
deriving DecidableEq, Repr

end Necessist
