import Verif.Spec.TreeSitter
import Verif.Spec.Visitor
/-!
# Go (specification)

In terms of tree-sitter's trees, and of what the configuration says about names.
-/
namespace Necessist.TS.Go

/-- The file declares a function with this name and body. -/
def Function (file : Tree) (name : Text) (body : Tree) : Prop :=
  Declares "function_declaration".toList "identifier".toList "block".toList file name body

/-- A test, by its name. -/
def IsTest (name : Text) : Prop := "Test".toList <+: name ∧ name ≠ "TestMain".toList

/-- What tree-sitter's grammar for Go says about a file. -/
structure GoFile (file : Tree) : Prop where
  grammar : Grammatical lang none file
  /-- expressions are not statements: an expression statement is a node of its own -/
  expr : ∀ q x, Within none file q x → x.attr.stmt = true →
    x.attr.kind ∉ ["identifier".toList, "call_expression".toList, "selector_expression".toList]
  /-- `x.f` has an `f` -/
  selector : ∀ q x, Within none file q x → x.attr.kind = "selector_expression".toList → ∃ f, FieldChild x "field".toList f
  /-- a block has children: its braces -/
  braces : ∀ name body, Function file name body → body.children ≠ []
  /-- different nodes have different identities -/
  ids : ∀ q x q' x', Within none file q x → Within none file q' x' → x.attr.id = x'.attr.id → x = x'

/-- Control statements and declarations. -/
def NeverRemoved (kind : Text) : Prop :=
  kind ∈ ["break_statement".toList, "continue_statement".toList, "defer_statement".toList, "return_statement".toList,
    "const_declaration".toList, "short_var_declaration".toList, "type_declaration".toList, "var_declaration".toList]

/-- `x` is the last statement of the block. -/
def IsLast (block x : Tree) : Prop :=
  ∃ before list after before' after', block.children = before ++ list :: after ∧ list.attr.kind = "statement_list".toList ∧
    (∀ l ∈ after, l.attr.kind = "statement_list".toList → ∀ c ∈ l.children, c.attr.stmt = false) ∧
    list.children = before' ++ x :: after' ∧ x.attr.stmt = true ∧ ∀ c ∈ after', c.attr.stmt = false

/-- `x` is the expression statement `e`. -/
def Expr (x e : Tree) : Prop :=
  x.attr.kind = "expression_statement".toList ∧ ∃ before after, x.children = before ++ e :: after ∧
    (e.attr.named = true ∧ e.attr.extra = false) ∧ ∀ b ∈ before, ¬ (b.attr.named = true ∧ b.attr.extra = false)

/-- `c` is a call `f(…)`. -/
def Call (c f : Tree) : Prop := c.attr.kind = "call_expression".toList ∧ FieldChild c "function".toList f

/-- `x` is `b.f`. -/
def Selector (x b f : Tree) : Prop :=
  x.attr.kind = "selector_expression".toList ∧ FieldChild x "operand".toList b ∧ FieldChild x "field".toList f

/-- `c` is the call that the expression `e` makes: `e` is `c` or `c.f₁.….fₖ`. -/
inductive Makes : Tree → Tree → Prop
  | call {c f} : Call c f → Makes c c
  | selector {x b f c} : Selector x b f → Makes b c → Makes x c

/-- `x` is `base.p₁.….pₖ`. -/
inductive Selects : Tree → Tree → List Text → Prop
  | base {b} : b.attr.kind ≠ "selector_expression".toList → Selects b b []
  | selector {x b f base p} : Selector x b f → Selects b base p → Selects x base (p ++ [f.attr.text])

/-- `c` is `base.p₁.….pₖ(…)` with `k ≥ 1`. -/
def Method (c base : Tree) (p : List Text) : Prop := p ≠ [] ∧ ∃ f, Call c f ∧ Selects f base p

/-- `c` calls an ignored function or path, or is a chain of method calls on the result of such a call. -/
inductive IgnoredFunction (config : Compiled) : Tree → Prop
  | function {c f} : Call c f → f.attr.kind ≠ "selector_expression".toList → config.isIgnoredFunction f.attr.text = true →
      IgnoredFunction config c
  | path {c base p} : Method c base p → base.attr.kind = "identifier".toList → Visit.IgnoredPath config base.attr.text p →
      IgnoredFunction config c
  | chain {c base p} : Method c base p → IgnoredFunction config base → IgnoredFunction config c

/-- The call `c` is ignored. -/
def Ignored (config : Compiled) (c : Tree) : Prop :=
  IgnoredFunction config c ∨
  ∃ base p, Method c base p ∧ base.attr.kind ≠ "call_expression".toList ∧ config.isIgnoredMethod (Visit.dotted p) = true

/-- `c` is `name(…)`. -/
def CallOf (c : Tree) (name : Text) : Prop := ∃ f, Call c f ∧ f.attr.kind = "identifier".toList ∧ f.attr.text = name

/-- A function that is no test, and into which the configuration allows to go. -/
def Local (config : Compiled) (file : Tree) (name : Text) (body : Tree) : Prop :=
  Function file name body ∧ ¬ "Test".toList <+: name ∧ config.isWalkableFunction name = true

/-- The test `t` calls the function with this body, directly or through others. -/
inductive Uses (config : Compiled) (file : Tree) (t : Text) : Tree → Prop
  | direct {b q c name body} : Function file t b → InBody b q c → CallOf c name → Local config file name body →
      Uses config file t body
  | via {b q c name body} : Uses config file t b → InBody b q c → CallOf c name → Local config file name body →
      Uses config file t body

/-- `x` is part of the test `t`, or of a function that it uses. -/
inductive Covers (config : Compiled) (file : Tree) (t : Text) : Tree → Prop
  | test {body q x} : Function file t body → InBody body q x → ¬ IsLast body x → Covers config file t x
  | function {body q x} : Uses config file t body → InBody body q x → Covers config file t x

/-- Nothing within the call `c` is looked at: the call is ignored, or calls an ignored method, and its arguments are not to be
visited. -/
def Hidden (config : Compiled) (c : Tree) : Prop :=
  c.attr.kind = "call_expression".toList ∧ config.visitIgnoredArguments = false ∧
    (Ignored config c ∨ ∃ base p, Method c base p ∧ config.isIgnoredMethod (Visit.dotted p) = true)

/-- `x` is in `body`, and not within a call that hides it. -/
def Visible (config : Compiled) (body x : Tree) : Prop :=
  ∃ c ∈ body.children, ∃ q, Clear (Hidden config) (some body.attr.kind) c q x

/-- `x` contains no statement (other than itself). -/
def Simple (x : Tree) : Prop := ∀ q y, InBody x q y → y.attr.stmt = false

/-- `x` is a plain statement: not a call, and then not a control statement or a declaration, and without statements in it; or a call
that is not ignored, and not of a function that is gone into instead. -/
def Plain (config : Compiled) (file x : Tree) : Prop :=
  x.attr.stmt = true ∧
  ((Simple x ∧ ¬ NeverRemoved x.attr.kind ∧ ∀ e c, Expr x e → ¬ Makes e c) ∨
   ∃ e c, Expr x e ∧ Makes e c ∧ ¬ Ignored config c ∧ ∀ name body, CallOf c name → ¬ Local config file name body)

end Necessist.TS.Go
