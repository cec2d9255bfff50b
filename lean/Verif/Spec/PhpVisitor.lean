import Verif.Spec.TreeSitter
import Verif.Spec.Visitor
/-!
# PHP (specification)

In terms of tree-sitter's trees, and of what the configuration says about names.
-/
namespace Necessist.TS.Php

/-- The file declares a method with this name and body. -/
def Method (file : Tree) (name : Text) (body : Tree) : Prop :=
  Declares "method_declaration".toList "name".toList "compound_statement".toList file name body

/-- A test, by its name. -/
def IsTest (name : Text) : Prop := "test".toList <+: name

/-- `x`, whose parent has kind `q`, is a statement of a block. -/
def IsStatement (q : Option Text) (x : Tree) : Prop :=
  q = some "compound_statement".toList ∧ x.attr.named = true ∧ x.attr.extra = false

/-- `a->b`, `a?->b`, `A::$b` -/
def accesses : List Text :=
  ["member_access_expression".toList, "nullsafe_member_access_expression".toList, "scoped_property_access_expression".toList]
/-- `a->b()`, `a?->b()`, `A::b()` -/
def memberCalls : List Text :=
  ["member_call_expression".toList, "nullsafe_member_call_expression".toList, "scoped_call_expression".toList]
/-- … or `f()` -/
def calls : List Text := "function_call_expression".toList :: memberCalls
def names : List Text := ["name".toList, "qualified_name".toList]

/-- What stands before the `->` or `::`. -/
def Base (x b : Tree) : Prop :=
  FieldChild x (if x.attr.kind = "scoped_call_expression".toList ∨ x.attr.kind = "scoped_property_access_expression".toList
    then "scope".toList else "object".toList) b

/-- What tree-sitter's grammar for PHP says about a file (in which calls do not occur in computed member names). -/
structure PhpFile (file : Tree) : Prop where
  grammar : Grammatical lang none file
  /-- expressions are not statements: an expression statement is a node of its own -/
  expr : ∀ q x, Within none file q x → IsStatement q x → x.attr.kind ∉ accesses ++ calls ++ names
  /-- `a->b` has a `b` -/
  name : ∀ q x, Within none file q x → x.attr.kind ∈ accesses ++ memberCalls → ∃ f, FieldChild x "name".toList f
  /-- a block has children: its braces -/
  braces : ∀ name body, Method file name body → body.children ≠ []
  /-- different nodes have different identities -/
  ids : ∀ q x q' x', Within none file q x → Within none file q' x' → x.attr.id = x'.attr.id → x = x'

/-- `x` is the last statement of the block. -/
def IsLast (block x : Tree) : Prop :=
  ∃ before after, block.children = before ++ x :: after ∧ (x.attr.named = true ∧ x.attr.extra = false) ∧
    ∀ c ∈ after, ¬ (c.attr.named = true ∧ c.attr.extra = false)

/-- `x` is the expression statement `e`. -/
def Expr (x e : Tree) : Prop :=
  x.attr.kind = "expression_statement".toList ∧ ∃ before after, x.children = before ++ e :: after ∧ e.attr.named = true ∧
    ∀ b ∈ before, b.attr.named = false

/-- Control statements, declarations and `throw`. -/
def NeverRemoved (x : Tree) : Prop :=
  x.attr.kind ∈ ["return_statement".toList, "break_statement".toList, "continue_statement".toList, "function_definition".toList,
    "class_declaration".toList, "function_static_declaration".toList, "global_declaration".toList] ∨
  ∃ e, Expr x e ∧ e.attr.kind = "throw_expression".toList

/-- `x` is `b->f`. -/
def Access (x b f : Tree) : Prop := x.attr.kind ∈ accesses ∧ Base x b ∧ FieldChild x "name".toList f

/-- `c` is `b->f(…)`. -/
def MemberCall (c b f : Tree) : Prop := c.attr.kind ∈ memberCalls ∧ Base c b ∧ FieldChild c "name".toList f

/-- `c` is the call that the expression `e` makes: `e` is `c` or `c->f₁->…->fₖ`. -/
inductive Makes : Tree → Tree → Prop
  | call {c} : c.attr.kind ∈ calls → Makes c c
  | access {x b f c} : Access x b f → Makes b c → Makes x c

/-- `x` is `base->p₁->…->pₖ`. -/
inductive Selects : Tree → Tree → List Text → Prop
  | base {b} : b.attr.kind ∉ accesses → Selects b b []
  | access {x b f base p} : Access x b f → Selects b base p → Selects x base (p ++ [f.attr.text])

/-- `c` is `base->p₁->…->pₖ(…)` with `k ≥ 1`. -/
def Chain (c base : Tree) (p : List Text) : Prop :=
  (∃ b f p', MemberCall c b f ∧ Selects b base p' ∧ p = p' ++ [f.attr.text]) ∨
  -- `(a->b)(…)`, as far as tree-sitter allows for it
  (p ≠ [] ∧ ∃ f, c.attr.kind = "function_call_expression".toList ∧ FieldChild c "function".toList f ∧ Selects f base p)

/-- `c` calls an ignored function or path, or is a chain of method calls on the result of such a call. -/
inductive IgnoredFunction (config : Compiled) : Tree → Prop
  | function {c f} : c.attr.kind = "function_call_expression".toList → FieldChild c "function".toList f → f.attr.kind ∉ accesses →
      config.isIgnoredFunction f.attr.text = true → IgnoredFunction config c
  | path {c base p} : Chain c base p → base.attr.kind ∈ names → Visit.IgnoredPath config base.attr.text p → IgnoredFunction config c
  | chain {c base p} : Chain c base p → IgnoredFunction config base → IgnoredFunction config c

/-- The call `c` is ignored. -/
def Ignored (config : Compiled) (c : Tree) : Prop :=
  IgnoredFunction config c ∨
  ∃ base p, Chain c base p ∧ base.attr.kind ∉ calls ∧ config.isIgnoredMethod (Visit.dotted p) = true

/-- Nothing within the call `c` is looked at: the call is ignored, or calls an ignored method, and its arguments are not to be
visited. -/
def Hidden (config : Compiled) (c : Tree) : Prop :=
  c.attr.kind ∈ calls ∧ config.visitIgnoredArguments = false ∧
    (Ignored config c ∨ ∃ base p, Chain c base p ∧ config.isIgnoredMethod (Visit.dotted p) = true)

/-- `x`, whose parent has kind `q`, is in `body`, and not within a call that hides it. -/
def Visible (config : Compiled) (body : Tree) (q : Option Text) (x : Tree) : Prop :=
  ∃ c ∈ body.children, Clear (Hidden config) (some body.attr.kind) c q x

/-- `x` contains no statement (other than itself). -/
def Simple (x : Tree) : Prop := ∀ q y, InBody x q y → ¬ IsStatement q y

/-- `x` is a plain statement: not a call, and then not a control statement or a declaration, and without statements in it; or a call
that is not ignored. -/
def Plain (config : Compiled) (x : Tree) : Prop :=
  (Simple x ∧ ¬ NeverRemoved x ∧ ∀ e c, Expr x e → ¬ Makes e c) ∨ ∃ e c, Expr x e ∧ Makes e c ∧ ¬ Ignored config c

end Necessist.TS.Php
