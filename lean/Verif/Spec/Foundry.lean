import Verif.Model.Foundry
import Verif.Spec.Visitor
/-!
# Foundry (specification)

README.md, "Foundry": the backend ignores "a statement immediately following a use of `vm.prank` or any form of `vm.expect`" and
"an `emit` statement". In terms of syntax trees, and of what the configuration says about names.
-/
namespace Necessist.Foundry

/-! ## Statements -/

/-- `s` is `vm.prank(…);` or `vm.expect….(…);`. -/
def UsesCheatcode (s : Stmt) : Prop :=
  ∃ l l1 l2 l3 method args, s = .expr l (.call l1 (.member l2 (.var l3 "vm".toList) method) args) ∧
    (method = "prank".toList ∨ "expect".toList <+: method)

/-- `y` is `x`, or is somewhere in `x`, but not a statement, or in a statement, that immediately follows the use of a cheatcode in its
block. -/
inductive Exposed : Stmt → Stmt → Prop
  | refl (x) : Exposed x x
  | part {l ps s y} : .stmt s ∈ ps → Exposed s y → Exposed (.compound l ps) y
  | block {l before s after y} : (∀ a, before.getLast? = some a → ¬ UsesCheatcode a) → Exposed s y →
      Exposed (.block l (before ++ s :: after)) y

/-- `{ … }`. -/
def Stmt.IsBlock (s : Stmt) : Prop := ∃ l ss, s = .block l ss

/-- `break`, `continue`, `emit`, `return`, `revert`. -/
def Stmt.IsControl (s : Stmt) : Prop := ∃ l es, s = .control l es

/-- `T x = e;`, or `(…, T x, …) = e;`. -/
def Stmt.IsDeclaration (s : Stmt) : Prop :=
  (∃ l es, s = .varDef l es) ∨ ∃ l l1 l2 names x rhs, s = .expr l (.assign l1 (.tuple l2 names) rhs) ∧ some x ∈ names

/-- The expressions that are immediately in a statement, and not in a statement in it. -/
def Stmt.HasExpr : Stmt → Expr → Prop
  | .block _ _, _ => False
  | .expr _ e, x => x = e
  | .control _ es, x => x ∈ es
  | .varDef _ es, x => x ∈ es
  | .compound _ ps, x => .expr x ∈ ps

/-- There are no statements in `x`, except (empty) blocks. -/
def Simple (x : Stmt) : Prop := ∀ l ps s y, x = .compound l ps → .stmt s ∈ ps → Exposed s y → y.IsBlock

/-! ## Calls -/

/-- `e` is a call. -/
def IsCall (e : Expr) : Prop := ∃ l f args, e = .call l f args

/-- `f` is `g`, or `g{…}`, or `g{…}{…}` … -/
inductive Peels : Expr → Expr → Prop
  | refl (g) : Peels g g
  | options {l f ps g} : Peels f g → Peels (.options l f ps) g

/-- `x` is `base.p₁.….pₖ`. -/
inductive Selects : Expr → Expr → List Text → Prop
  | base {b} : (∀ l o name, b ≠ .member l o name) → Selects b b []
  | member {l o name base p} : Selects o base p → Selects (.member l o name) base (p ++ [name])

/-- `e` is `base.p₁.….pₖ(…)` or `base.p₁.….pₖ{…}(…)`, with `k ≥ 1`. -/
def Method (e base : Expr) (p : List Text) : Prop := p ≠ [] ∧ ∃ l f args g, e = .call l f args ∧ Peels f g ∧ Selects g base p

/-- `e` is `name(…)` or `name{…}(…)`. -/
def CallOf (e : Expr) (name : Text) : Prop := ∃ l f args l', e = .call l f args ∧ Peels f (.var l' name)

/-- `e` calls an ignored function or path, or is a chain of method calls on the result of such a call. (For a function, only `name(…)` is
taken for a call, and not `name{…}(…)`.) -/
inductive IgnoredFunction (config : Compiled) : Expr → Prop
  | function {l l' name args} : config.isIgnoredFunction name = true → IgnoredFunction config (.call l (.var l' name) args)
  | path {e l name p} : Method e (.var l name) p → Visit.IgnoredPath config name p → IgnoredFunction config e
  | chain {e base p} : Method e base p → IgnoredFunction config base → IgnoredFunction config e

/-- The call `e` is ignored. -/
def Ignored (config : Compiled) (e : Expr) : Prop :=
  IgnoredFunction config e ∨
  ∃ base p, Method e base p ∧ ¬ IsCall base ∧ config.isIgnoredMethod (Visit.dotted p) = true

/-- The arguments of the call `e` are not looked at: the call is ignored, or calls an ignored method, and its arguments are not to be
visited. -/
def Hidden (config : Compiled) (e : Expr) : Prop :=
  config.visitIgnoredArguments = false ∧
    (Ignored config e ∨ ∃ base p, Method e base p ∧ config.isIgnoredMethod (Visit.dotted p) = true)

/-- `x` is `e`, or an argument of the call `e`, or of a call that is an argument, and so on; or what is called is such an `x`. So, `x` is
reached through calls only: not through `x + y`, `x.y`, `x{…}` … -/
inductive Evaluated : Expr → Expr → Prop
  | refl (e) : Evaluated e e
  | callee {l f args x} : Evaluated f x → Evaluated (.call l f args) x
  | arg {l f args a x} : a ∈ args → Evaluated a x → Evaluated (.call l f args) x

/-- … and is not within arguments that are not looked at. -/
inductive Clear (config : Compiled) : Expr → Expr → Prop
  | refl (e) : Clear config e e
  | callee {l f args x} : Clear config f x → Clear config (.call l f args) x
  | arg {l f args a x} : ¬ Hidden config (.call l f args) → a ∈ args → Clear config a x → Clear config (.call l f args) x

/-! ## Functions -/

/-- The function `f` has the statement `x`. -/
def HasStmt (f : Fn) (x : Stmt) : Prop := ∃ b, f.body = some b ∧ Exposed b x

/-- The function `f` has the expression `e`, in a statement or in what precedes the body. -/
def HasExpr (f : Fn) (e : Expr) : Prop := e ∈ f.head ∨ ∃ s, HasStmt f s ∧ s.HasExpr e

/-- `x` is the last statement of the function's body (and does not follow a cheatcode). -/
def Last (f : Fn) (x : Stmt) : Prop :=
  ∃ l ss, f.body = some (.block l (ss ++ [x])) ∧ ∀ a, ss.getLast? = some a → ¬ UsesCheatcode a

/-- The function `f` is a test. -/
def IsTest (f : Fn) (t : Text) : Prop := f.name = some t ∧ "test".toList <+: t ∧ f.pure_ = false ∧ ∃ b, f.body = some b ∧ b.IsBlock

/-- The file has this test. -/
def Test (items : List Item) (t : Text) (f : Fn) : Prop := .fn f ∈ items ∧ IsTest f t

/-- `f` is the first function of that name that is not `pure`. -/
def Defines (items : List Item) (name : Text) (f : Fn) : Prop :=
  ∃ before after, items = before ++ .fn f :: after ∧ f.name = some name ∧ f.pure_ = false ∧
    ∀ g, .fn g ∈ before → g.name = some name → g.pure_ = true

/-- A function into which the configuration allows to go. -/
def Local (config : Compiled) (items : List Item) (name : Text) (f : Fn) : Prop :=
  Defines items name f ∧ config.isWalkableFunction name = true

/-- In `f`, there is a call of the function `name`. -/
def CallsIn (f : Fn) (name : Text) : Prop := ∃ e x, HasExpr f e ∧ Evaluated e x ∧ CallOf x name

/-- The test `t` calls the function `f`, directly or through others. -/
inductive Uses (config : Compiled) (items : List Item) (t : Text) : Fn → Prop
  | direct {g name f} : Test items t g → CallsIn g name → Local config items name f → Uses config items t f
  | via {g name f} : Uses config items t g → CallsIn g name → Local config items name f → Uses config items t f

/-- `x` is a statement of the test `t` and not its last one, or a statement of a function that it uses. -/
inductive Covers (config : Compiled) (items : List Item) (t : Text) (x : Stmt) : Prop
  | test {f} : Test items t f → HasStmt f x → ¬ Last f x → Covers config items t x
  | function {f} : Uses config items t f → HasStmt f x → Covers config items t x

/-- Functions are told apart. -/
def FnsApart (c : Ctx) (items : List Item) : Prop := ∀ f g, .fn f ∈ items → .fn g ∈ items → c.fnKey f = c.fnKey g → f = g

/-- What is assumed about a file. -/
structure Regular (c : Ctx) (items : List Item) : Prop where
  /-- statements are told apart -/
  keys : ∀ f g x y, .fn f ∈ items → .fn g ∈ items → HasStmt f x → HasStmt g y → c.key x = c.key y → x = y
  /-- … also from the statement that replaces those that follow a cheatcode -/
  faux : ∀ f x, .fn f ∈ items → HasStmt f x → c.key x ≠ c.faux
  fns : FnsApart c items
  /-- no statement is `f().x;` -/
  calls : ∀ f l e base p, .fn f ∈ items → HasStmt f (.expr l e) → Selects e base p → p ≠ [] → ¬ IsCall base

/-- `x` is a plain statement: not a call, and then not a control statement or a declaration, and without statements in it; or a call
that is not ignored, and not of a function that is gone into instead. -/
def Plain (config : Compiled) (items : List Item) (x : Stmt) : Prop :=
  (¬ x.IsBlock ∧ ¬ x.IsControl ∧ ¬ x.IsDeclaration ∧ Simple x ∧ ∀ l e, x = .expr l e → ¬ IsCall e) ∨
  ∃ l e, x = .expr l e ∧ IsCall e ∧ ¬ Ignored config e ∧ ∀ name f, CallOf e name → ¬ Local config items name f

end Necessist.Foundry
