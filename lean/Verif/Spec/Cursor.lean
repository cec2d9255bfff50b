import Verif.Model.Cursor
/-! What a walk of a tree is to do. -/
namespace Necessist.Cursor

variable {σ : Type}

mutual
/-- Visit the node `t`, which is at position `p`: if it is handled and is not to be walked, its descendants are left out. -/
def visitTree (v : Visitor σ) : Tree → Pos → σ → σ
  | .node cs, p, s =>
    let s := v.see p s
    if v.handles p then
      let (walk, s) := v.enter p s
      v.leave p (if walk then visitForest v cs 0 p s else s)
    else visitForest v cs 0 p s

/-- Visit the children of the node at `p`, starting with the `i`-th one. -/
def visitForest (v : Visitor σ) : List Tree → Nat → Pos → σ → σ
  | [], _, _, s => s
  | t :: ts, i, p, s => visitForest v ts (i + 1) p (visitTree v t (i :: p) s)
end

/-- `q` is a proper descendant of `p`. -/
def Under (p q : Pos) : Prop := ∃ x, x ≠ [] ∧ q = x ++ p

/-- `q` comes after `p` in preorder: it is a proper descendant, or in a later branch. -/
def After (p q : Pos) : Prop := Under p q ∨ ∃ x y r i j, p = x ++ i :: r ∧ q = y ++ j :: r ∧ i < j

/-- There is a node at `p`. -/
def Valid (t : Tree) (p : Pos) : Prop := (t.sub p).isSome

end Necessist.Cursor
