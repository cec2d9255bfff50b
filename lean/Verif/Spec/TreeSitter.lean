import Verif.Model.TreeSitter
/-!
# Go and PHP (specification)

In terms of tree-sitter's trees.
-/
namespace Necessist.TS

/-- `x`, whose parent has kind `q`, is `t` or occurs in `t`; the parent of `t` has kind `p`. -/
inductive Within : Option Text → Tree → Option Text → Tree → Prop
  | refl (p t) : Within p t p t
  | step {p a cs c q x} : c ∈ cs → Within (some a.kind) c q x → Within p (.node a cs) q x

/-- Nothing in `t` is a statement or a call. -/
def Inert (L : Lang) (p : Option Text) (t : Tree) : Prop :=
  ∀ q x, Within p t q x → L.isStmt q x.attr = false ∧ L.isCall x.attr.kind = false

/-- There is a `k`-th child, and no statement or call in the others. -/
def OnlyAt (L : Lang) (kind : Text) (cs : List Tree) (k : Nat) : Prop :=
  k < cs.length ∧ ∀ i c, cs[i]? = some c → i ≠ k → Inert L (some kind) c

/-- What the grammar says about one node, whose parent has kind `q`. -/
structure NodeOk (L : Lang) (q : Option Text) (x : Tree) : Prop where
  /-- a statement has children -/
  stmt : L.isStmt q x.attr = true → x.children ≠ []
  /-- besides the expression of an expression statement there are only tokens and comments -/
  expr : L.isStmt q x.attr = true → ∀ k, L.expr x.attr x.children = some k → OnlyAt L x.attr.kind x.children k
  /-- a call begins with the function, or with the object on which a method is called -/
  call : L.isStmt q x.attr = false → L.isCall x.attr.kind = true →
    (L.callee x.attr x.children).idx = some 0 ∧ x.children ≠ []
  /-- besides the base of a field there are only tokens, names and comments -/
  field : L.isStmt q x.attr = false → L.isCall x.attr.kind = false → ∀ k name, L.field x.attr x.children = some (k, name) →
    ∃ j, k = some j ∧ OnlyAt L x.attr.kind x.children j

/-- All of `t` is as the grammar says. -/
def Grammatical (L : Lang) (p : Option Text) (t : Tree) : Prop := ∀ q x, Within p t q x → NodeOk L q x

/-- The generic visitor's view of the tests. -/
def lowerTests (L : Lang) (last : Tree → Option Nat) (tests : List Decl) : List Visit.Node :=
  tests.map fun d => .test d.name (last d.body) (lowerAll L d.body.attr.kind d.body.children)

/-- `c` is the child of `x` in this field (the first one). -/
def FieldChild (x : Tree) (field : Text) (c : Tree) : Prop :=
  ∃ before after, x.children = before ++ c :: after ∧ c.attr.field = some field ∧ ∀ b ∈ before, b.attr.field ≠ some field

/-- A declaration of kind `kind` in the file has this name and body. -/
def Declares (kind nameKind bodyKind : Text) (file : Tree) (name : Text) (body : Tree) : Prop :=
  ∃ q x n, Within none file q x ∧ x.attr.kind = kind ∧ FieldChild x "name".toList n ∧ n.attr.kind = nameKind ∧
    n.attr.text = name ∧ FieldChild x "body".toList body ∧ body.attr.kind = bodyKind

/-- `x`, whose parent has kind `q`, occurs in `body` (and is not `body`). -/
def InBody (body : Tree) (q : Option Text) (x : Tree) : Prop := ∃ c ∈ body.children, Within (some body.attr.kind) c q x

/-- `x` is `t` or occurs in `t`, and not within anything `bad`. -/
inductive Clear (bad : Tree → Prop) : Option Text → Tree → Option Text → Tree → Prop
  | refl (p t) : Clear bad p t p t
  | step {p a cs c q x} : ¬ bad (.node a cs) → c ∈ cs → Clear bad (some a.kind) c q x → Clear bad p (.node a cs) q x

end Necessist.TS
