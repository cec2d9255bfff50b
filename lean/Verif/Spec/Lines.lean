/-!
# Lines of an output (specification)
-/
namespace Necessist.Exec

/-- The lines of an output: each ends with a line feed, possibly after a carriage return, except that the last one may just end. -/
inductive IsLines : List UInt8 → List (List UInt8) → Prop where
  | nil : IsLines [] []
  | last (l) (h : l ≠ []) (hn : (10 : UInt8) ∉ l) : IsLines l [l]
  | lf (l rest ls) (hn : (10 : UInt8) ∉ l) (hr : l.getLast? ≠ some 13) (h : IsLines rest ls) : IsLines (l ++ 10 :: rest) (l :: ls)
  | crlf (l rest ls) (hn : (10 : UInt8) ∉ l) (h : IsLines rest ls) : IsLines (l ++ 13 :: 10 :: rest) (l :: ls)

end Necessist.Exec
