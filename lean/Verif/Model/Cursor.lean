import Verif.Model.Basic
/-!
# Walking syntax trees

Models `BoundedCursor` (backends/src/tree_sitter_utils.rs:50-122), and `walk_nodes`, `walk_or_skip`, `visit_current_node`,
`visit_statement`, `visit_call` of the Go and PHP visitors (backends/src/go/visitor.rs:153-272, backends/src/php/visitor.rs:78-166;
the two are the same in this respect).

A tree is modelled by its shape; a node is identified by its position. (`Node`'s equality compares identifiers, which are assumed
unique within the tree.)
-/
namespace Necessist.Cursor

/-- The shape of a syntax tree. -/
inductive Tree where
  | node (children : List Tree)

/-- Children of a node. -/
def Tree.children : Tree → List Tree
  | .node cs => cs

/-- A position relative to the node the cursor was made for: indices of children, the last step first. -/
abbrev Pos := List Nat

/-- The node at a position. -/
def Tree.sub (t : Tree) : Pos → Option Tree
  | [] => some t
  | i :: p => (t.sub p).bind fun s => s.children[i]?

/-- Number of children of the node at a position. -/
def Tree.arity (t : Tree) (p : Pos) : Nat :=
  match t.sub p with
  | some s => s.children.length
  | none => 0

/-- `BoundedCursor` (backends/src/tree_sitter_utils.rs:50-54): `pos` is the position of `cursor`; the last bound is first. -/
structure Cursor where
  pos : Pos
  bounds : List Pos
  exhausted : Bool
deriving DecidableEq, Repr

/-- `BoundedCursor::new` (:57-63). -/
def Cursor.new : Cursor := ⟨[], [], false⟩

/-- How the loop of `skip` ends. -/
inductive SkipEnd where
  /-- at a next sibling -/
  | next (p : Pos)
  /-- at the current bound -/
  | bound (p : Pos)
  /-- at the root -/
  | root
deriving DecidableEq, Repr

/-- The loop of `skip` (:99-117). -/
def skipLoop (t : Tree) (bound : Option Pos) : Pos → SkipEnd
  | [] => .root
  | i :: p =>
    if i + 1 < t.arity p then .next ((i + 1) :: p)
    else if bound = some p then .bound p
    else skipLoop t bound p

/-- `skip` (:99-117). `none` is a failed assertion. -/
def Cursor.skip (t : Tree) (c : Cursor) : Option (Bool × Cursor) :=
  match skipLoop t c.bounds.head? c.pos with
  | .next p => some (true, { c with pos := p, exhausted := false })
  | .bound p => some (false, { c with pos := p, exhausted := true })
  | .root => if c.bounds = [] then some (false, { c with pos := [], exhausted := true }) else none

/-- `goto_next_node` (:91-97). -/
def Cursor.gotoNextNode (t : Tree) (c : Cursor) : Option (Bool × Cursor) :=
  if 0 < t.arity c.pos then some (true, { c with pos := 0 :: c.pos }) else c.skip t

/-- `current_node` (:65-71). -/
def Cursor.current (c : Cursor) : Option Pos := if c.exhausted then none else some c.pos

/-- `push` (:73-77). -/
def Cursor.push (c : Cursor) : Option Cursor := if c.exhausted then none else some { c with bounds := c.pos :: c.bounds }

/-- The loop of `pop` (:82-84): go to the parent until at `b`. -/
def climb (b : Pos) : Pos → Option Pos
  | [] => if b = [] then some [] else none
  | i :: p => if i :: p = b then some b else climb b p

/-- `pop` (:79-87). -/
def Cursor.pop (t : Tree) (c : Cursor) : Option (Bool × Cursor) :=
  match c.bounds with
  | [] => none
  | b :: bs =>
    match climb b c.pos with
    | none => none
    | some p => ({ c with pos := p, bounds := bs } : Cursor).skip t

/-- The visitor: `see` is called for each node visited; `handles` tells whether the node is a statement or call; then `enter`
(`visit_statement`/`visit_call` of the generic visitor) tells whether to walk, and `leave` (`.._post`) is called afterwards. -/
structure Visitor (σ : Type) where
  see : Pos → σ → σ
  handles : Pos → Bool
  enter : Pos → σ → Bool × σ
  leave : Pos → σ → σ

/-- How a walk ends. -/
inductive Walk (σ : Type) where
  | ok (c : Cursor) (s : σ)
  | panic
  /-- more steps are needed -/
  | more
deriving Repr

variable {σ : Type}

mutual
/-- `walk_nodes` (backends/src/go/visitor.rs:224-244). The number bounds the number of steps. -/
def walkNodes (t : Tree) (v : Visitor σ) : Nat → Cursor → σ → Walk σ
  | 0, _, _ => .more
  | n + 1, c, s =>
    match c.push with
    | none => .panic
    | some c =>
      match c.gotoNextNode t with
      | none => .panic
      | some (_, c) =>
        match walkLoop t v n c s with
        | .more => .more
        | .panic => .panic
        | .ok c s =>
          match c.pop t with
          | none => .panic
          | some (_, c) => .ok c s

/-- The loop of `walk_nodes`, with `visit_current_node`, `visit_statement`/`visit_call` and `walk_or_skip`
(backends/src/go/visitor.rs:153-219, 231-239, 246-272). -/
def walkLoop (t : Tree) (v : Visitor σ) : Nat → Cursor → σ → Walk σ
  | 0, _, _ => .more
  | n + 1, c, s =>
    match c.current with
    | none => .ok c s
    | some node =>
      if v.handles node then
        let (walk, s) := v.enter node (v.see node s)
        if walk then
          match walkNodes t v n c s with
          | .more => .more
          | .panic => .panic
          | .ok c s => if some node = c.current then .panic else walkLoop t v n c (v.leave node s)
        else
          match c.skip t with
          | none => .panic
          | some (_, c) => if some node = c.current then .panic else walkLoop t v n c (v.leave node s)
      else
        match c.gotoNextNode t with
        | none => .panic
        | some (_, c) => if some node = c.current then .panic else walkLoop t v n c (v.see node s)
end

end Necessist.Cursor
