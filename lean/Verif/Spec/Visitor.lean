import Verif.Model.Visitor
/-!
# Candidates (specification)

In terms of syntax trees (`Node`) and of what the configuration says about names; nothing here refers to the visitor.
-/
namespace Necessist.Visit

/-- The immediate parts of a node. -/
def Node.kids : Node → List Node
  | .test _ _ cs => cs
  | .stmt _ cs => cs
  | .exprStmt _ e => [e]
  | .call _ _ callee args => callee :: args
  | .macro_ _ _ args => args
  | .field _ _ base => [base]
  | .await _ arg => [arg]
  | .other _ cs => cs

/-- `x` is `n` or occurs somewhere in `n`. -/
inductive Sub : Node → Node → Prop
  | refl (n) : Sub n n
  | step {n m x} : m ∈ n.kids → Sub m x → Sub n x

/-- The parts of `n` are parts of the program that the visitor may look at: where field accesses and `await`s are not visited, what
they are applied to is not. -/
def Enters (cfg : VCfg) (n : Node) : Prop := cfg.fields = true ∨ ∀ i name b, n ≠ .field i name b ∧ n ≠ .await i b

/-- `x` is `n` or occurs somewhere in `n`, and not below a field access or `await` that is not visited. -/
inductive Held (cfg : VCfg) : Node → Node → Prop
  | refl (n) : Held cfg n n
  | step {n m x} : m ∈ n.kids → Enters cfg n → Held cfg m x → Held cfg n x

/-- `n` is a statement, with this information. -/
def IsStmt (n : Node) (s : StmtInfo) : Prop := (∃ cs, n = .stmt s cs) ∨ ∃ e, n = .exprStmt s e

/-- `n` contains no statement other than itself. -/
def NoInnerStmt (n : Node) : Prop := ∀ m ∈ n.kids, ∀ x s, Sub m x → ¬ IsStmt x s

/-- `h` is a call or a macro call. -/
def IsCall (h : Node) : Prop := (∃ i cn callee args, h = .call i cn callee args) ∨ ∃ i name args, h = .macro_ i name args

/-- `h` is the call that the expression `e` makes: `e` is `h` followed by field accesses and `await`s. -/
inductive Head : Node → Node → Prop
  | call {h} : IsCall h → Head h h
  | await {i e h} : Head e h → Head (.await i e) h
  | field {i name e h} : Head e h → Head (.field i name e) h

/-- `n` is `base.p₁.….pₖ`, where `base` is not a named field. -/
inductive Path : Node → Node → List Text → Prop
  | base {b} : (∀ i name b', b ≠ .field i (some name) b') → Path b b []
  | field {i name b base p} : Path b base p → Path (.field i (some name) b) base (p ++ [name])

/-- `h` is `base.p₁.….pₖ(…)` with `k ≥ 1`. -/
def MethodCall (h base : Node) (p : List Text) : Prop := p ≠ [] ∧ ∃ i cn callee args, h = .call i cn callee args ∧ Path callee base p

/-- `h` is the innermost call of the chain of calls `h`. -/
inductive Innermost : Node → Node → Prop
  | here {h} : IsCall h → (∀ base p, MethodCall h base p → ¬ IsCall base) → Innermost h h
  | there {h base p x} : MethodCall h base p → IsCall base → Innermost base x → Innermost h x

/-- The configuration ignores the path `name.path` (README, "Paths"). -/
def IgnoredPath (c : Compiled) (name : Text) (path : List Text) : Prop :=
  match c.ignoredPathDisambiguation with
  | .none_ => c.isIgnoredFunction (name ++ '.' :: dotted path) = true ∨ c.isIgnoredMethod (dotted path) = true
  | .function => c.isIgnoredFunction (name ++ '.' :: dotted path) = true
  | .method => c.isIgnoredMethod (dotted path) = true

/-- `h` is a call of an ignored function or macro, or of an ignored path. -/
inductive IgnoredFunction (c : Compiled) : Node → Prop
  | function {i name callee args} : (∀ j field b, callee ≠ .field j (some field) b) → c.isIgnoredFunction name = true →
      IgnoredFunction c (.call i (some name) callee args)
  | macro_ {i name args} : c.isIgnoredMacro name = true → IgnoredFunction c (.macro_ i name args)
  | path {h base p name} : MethodCall h base p → ¬ IsCall base → base.info.name = some name → IgnoredPath c name p →
      IgnoredFunction c h

/-- `h` is a call of an ignored method. -/
def IgnoredMethod (c : Compiled) (h : Node) : Prop := ∃ base p, MethodCall h base p ∧ c.isIgnoredMethod (dotted p) = true

/-- The whole call `h` is ignored: its innermost call is a call of an ignored function, macro or path; or it calls an ignored
method, and not on the result of another call. -/
def IgnoredCall (c : Compiled) (h : Node) : Prop :=
  (∃ x, Innermost h x ∧ IgnoredFunction c x) ∨
  ∃ base p, MethodCall h base p ∧ c.isIgnoredMethod (dotted p) = true ∧ ∀ i cn callee args, base ≠ .call i cn callee args

/-- `h` calls a walkable function: the first one of that name is `f`. -/
def Calls (cfg : VCfg) (h : Node) (f : LocalFn) : Prop :=
  ∃ i cn callee args name fs, h = .call i cn callee args ∧ callee.info.name = some name ∧
    cfg.walkable.lookup name = some (f :: fs)

/-- `h` calls a walkable function by this name, of which these are the definitions, in order. -/
def CallsName (cfg : VCfg) (h : Node) (name : Text) (fs : List LocalFn) : Prop :=
  ∃ i cn callee args, h = .call i cn callee args ∧ callee.info.name = some name ∧ cfg.walkable.lookup name = some fs

/-- No function is the first walkable one of two names. -/
def OneName (cfg : VCfg) : Prop :=
  ∀ n n' f fs fs', cfg.walkable.lookup n = some (f :: fs) → cfg.walkable.lookup n' = some (f :: fs') → n = n'

/-- `f` is the first walkable function of its name. -/
def IsWalkable (cfg : VCfg) (f : LocalFn) : Prop := ∃ name fs, cfg.walkable.lookup name = some (f :: fs)

/-- Walkable functions with the same key are the same. -/
def KeysFaithful (cfg : VCfg) : Prop := ∀ f g, IsWalkable cfg f → IsWalkable cfg g → f.key = g.key → f = g

/-- `n` is part of the file or of a walkable function. -/
def World (cfg : VCfg) (tree : List Node) (n : Node) : Prop :=
  (∃ r ∈ tree, Sub r n) ∨ ∃ f, IsWalkable cfg f ∧ ∃ r ∈ f.body, Sub r n

/-- The test `t`, whose last statement is `last`, is not ignored and contains `n`. -/
def InTest (cfg : VCfg) (tree : List Node) (t : Text) (last : Option Nat) (n : Node) : Prop :=
  cfg.config.isIgnoredTest t = false ∧ ∃ cs, World cfg tree (.test t last cs) ∧ ∃ m ∈ cs, Held cfg m n

/-- The function `f` contains `n`. -/
def InFn (cfg : VCfg) (f : LocalFn) (n : Node) : Prop := ∃ m ∈ f.body, Held cfg m n

/-- The test `t` calls `f`, directly or through other walkable functions. -/
inductive Exercises (cfg : VCfg) (tree : List Node) : Text → LocalFn → Prop
  | direct {t last h f} : InTest cfg tree t last h → Calls cfg h f → Exercises cfg tree t f
  | via {t f h g} : Exercises cfg tree t f → InFn cfg f h → Calls cfg h g → Exercises cfg tree t g

/-- The test `t` contains `n`, or exercises a function that does; `last` is the test's last statement in the former case. -/
def Covers (cfg : VCfg) (tree : List Node) (t : Text) (last : Option Nat) (n : Node) : Prop :=
  InTest cfg tree t last n ∨ (last = none ∧ ∃ f, Exercises cfg tree t f ∧ InFn cfg f n)

/-- The statement `n` may be removed where the last statement is `last`. -/
def Removable (cfg : VCfg) (last : Option Nat) (n : Node) (s : StmtInfo) : Prop :=
  IsStmt n s ∧ s.removable = true ∧ last ≠ some s.key ∧ cfg.skip s.span = false

/-- The statement `n` is not a call. -/
def NotCall (n : Node) : Prop := ∀ s e h, n = .exprStmt s e → ¬ Head e h

/-- The call `h` is ignored, as a whole or as a method call. -/
def Ignored (c : Compiled) (h : Node) : Prop := IgnoredCall c h ∨ IgnoredMethod c h

/-- The visitor certainly goes from `n` to its part `m`, in a test. -/
def SeenStep (cfg : VCfg) (n m : Node) : Prop :=
  m ∈ n.kids ∧ match n with
  | .test _ _ _ => False
  | .call _ _ callee _ =>
    ¬ Ignored cfg.config n ∨ cfg.config.visitIgnoredArguments = true ∨ (cfg.receiver = true ∧ m = callee)
  | .macro_ _ _ _ => ¬ Ignored cfg.config n ∨ cfg.config.visitIgnoredArguments = true
  | .field _ _ _ => cfg.fields = true
  | .await _ _ => cfg.fields = true
  | _ => True

/-- `x` is `n`, or in `n` and not within an ignored call. -/
inductive Seen (cfg : VCfg) : Node → Node → Prop
  | refl (n) : Seen cfg n n
  | step {n m x} : SeenStep cfg n m → Seen cfg m x → Seen cfg n x

/-- `x` is `n`, or in `n` and not within a test. -/
inductive Outside (cfg : VCfg) : Node → Node → Prop
  | refl (n) : Outside cfg n n
  | step {n m x} : m ∈ n.kids → (∀ t last cs, n ≠ .test t last cs) →
      Enters cfg n → Outside cfg m x → Outside cfg n x

/-- The file has the test `t`, which is not ignored; `m` is a part of its body. -/
def TestPart (cfg : VCfg) (tree : List Node) (t : Text) (last : Option Nat) (m : Node) : Prop :=
  cfg.config.isIgnoredTest t = false ∧ ∃ cs, (∃ r ∈ tree, Outside cfg r (.test t last cs)) ∧ m ∈ cs

/-- `x` is `n` or in `n`, the way to it leads only into the arguments of calls satisfying `P`, and
not below field accesses that are not visited. -/
inductive Shown (cfg : VCfg) (P : Node → Prop) : Node → Node → Prop
  | refl (n) : Shown cfg P n n
  | step {n m x} : m ∈ n.kids → Enters cfg n → (IsCall n → (∃ i cn args, n = .call i cn m args) ∨ P n) → Shown cfg P m x →
      Shown cfg P n x

/-- The arguments of the call `h` are looked at, although it may be ignored. -/
def MayEnter (cfg : VCfg) (root : Node) (last : Option Nat) (h : Node) : Prop :=
  ¬ Ignored cfg.config h ∨ cfg.config.visitIgnoredArguments = true ∨ (∃ f, Calls cfg h f) ∨
  -- it is the call of a statement that cannot be removed anyway
  ∃ s e, Sub root (.exprStmt s e) ∧ Head e h ∧ (s.removable = false ∨ last = some s.key)

/-- `f` is called in a test, or in a function that is, and so on; and none of these calls is within an ignored call. -/
inductive Reached (cfg : VCfg) (tree : List Node) : LocalFn → Prop
  | direct {t last m h f} : TestPart cfg tree t last m → Seen cfg m h → Calls cfg h f → Reached cfg tree f
  | via {f m h g} : Reached cfg tree f → m ∈ f.body → Seen cfg m h → Calls cfg h g → Reached cfg tree g

/-- No walkable function is called outside of a test (except by other functions). -/
def NoOutsideCalls (cfg : VCfg) (tree : List Node) : Prop := ∀ r ∈ tree, ∀ h f, Outside cfg r h → ¬ Calls cfg h f

/-- `n` is a plain statement that can be removed: not a call, a control statement or a declaration, without statements in it. -/
def PlainLeaf (cfg : VCfg) (last : Option Nat) (n : Node) (s : StmtInfo) : Prop :=
  Removable cfg last n s ∧ NotCall n ∧ s.control = false ∧ s.declaration = false ∧ NoInnerStmt n

/-- `n` is a call statement that can be removed: the call is not ignored and does not call a walkable function. -/
def PlainCall (cfg : VCfg) (last : Option Nat) (n : Node) (s : StmtInfo) : Prop :=
  Removable cfg last n s ∧ ∃ e h, n = .exprStmt s e ∧ Head e h ∧ (cfg.fields = true ∨ e = h) ∧
    ¬ IgnoredCall cfg.config h ∧ ∀ f, ¬ Calls cfg h f

/-- `n` contains no test. -/
def NoTest (n : Node) : Prop := ∀ t last cs, ¬ Sub n (.test t last cs)

/-- Tests in `n` are not nested. -/
def FlatTests (n : Node) : Prop := ∀ t last cs, Sub n (.test t last cs) → ∀ m ∈ cs, NoTest m

/-- The visitor visits field accesses, or no call statement in `n` is a field of a call. -/
def DirectCalls (cfg : VCfg) (n : Node) : Prop := cfg.fields = true ∨ ∀ s e h, Sub n (.exprStmt s e) → Head e h → e = h

end Necessist.Visit
