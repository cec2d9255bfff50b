import Verif.Model.TypeScript
import Verif.Spec.Visitor
/-!
# TypeScript (specification)

In terms of syntax trees, and of what the configuration says about names.
-/
namespace Necessist.Js

/-- The immediate parts of a node. -/
def Js.kids : Js → List Js
  | .ident _ _ => []
  | .str _ _ => []
  | .member _ obj _ => [obj]
  | .index _ obj prop => [obj, prop]
  | .await _ arg => [arg]
  | .call _ callee args => callee :: args
  | .fn _ params body => params ++ body
  | .fnDecl _ _ params body => params ++ body
  | .other _ parts => parts
  | .expr _ e => [e]
  | .control _ parts => parts
  | .decl _ parts => parts
  | .stmt _ parts => parts

/-- `x` is `t` or occurs in `t`. -/
inductive Within : Js → Js → Prop
  | refl (t) : Within t t
  | step {t m x} : m ∈ t.kids → Within m x → Within t x

/-- `x` occurs in one of them. -/
def In (parts : List Js) (x : Js) : Prop := ∃ p ∈ parts, Within p x

/-- `x` is a call `f(…)`. -/
def Call (x f : Js) : Prop := ∃ s args, x = .call s f args

/-- `x` is a statement. -/
def Stmt (x : Js) : Prop :=
  (∃ s e, x = .expr s e) ∨ (∃ s parts, x = .control s parts) ∨ (∃ s parts, x = .decl s parts) ∨ ∃ s parts, x = .stmt s parts

/-- `break`, `continue`, `return`, `throw` and declarations. -/
def NeverRemoved (x : Js) : Prop := (∃ s parts, x = .control s parts) ∨ ∃ s parts, x = .decl s parts

/-- `x` is `it("message", function (params) { body })`, or with an arrow function. -/
def It (x : Js) (message : Text) (params body : List Js) : Prop :=
  ∃ s s1 s2 s3, x = .call s (.ident s1 "it".toList) [.str s2 message, .fn s3 params body]

/-- The statement `x` is a test. -/
def IsTest (x : Js) (message : Text) (params body : List Js) : Prop := ∃ s e, x = .expr s e ∧ It e message params body

/-- The file has this test. -/
def Test (file : Js) (message : Text) (params body : List Js) : Prop := ∃ x, Within file x ∧ IsTest x message params body

/-- `x` occurs in `t`, and not within a function declaration. -/
inductive Outer : Js → Js → Prop
  | refl (t) : Outer t t
  | step {t m x} : (∀ s name params body, t ≠ .fnDecl s name params body) → m ∈ t.kids → Outer m x → Outer t x

/-- The file declares a function with this name and body (not within another declared function). -/
def Function (file : Js) (name : Text) (params body : List Js) : Prop := ∃ s, Outer file (.fnDecl s name params body)

/-- `x` is `e`, or `e` is `x` with field accesses, indices and `await`s. -/
inductive Spine : Js → Js → Prop
  | refl (x) : Spine x x
  | await {s e x} : Spine e x → Spine (.await s e) x
  | member {s e name x} : Spine e x → Spine (.member s e name) x
  | index {s e i x} : Spine e x → Spine (.index s e i) x

/-- `c` is the call that the expression `e` makes. -/
def Makes (e c : Js) : Prop := Spine e c ∧ ∃ f, Call c f

/-- `x` is `base.p₁.….pₖ`. -/
inductive Selects : Js → Js → List Text → Prop
  | base {b} : (∀ s obj name, b ≠ .member s obj name) → Selects b b []
  | member {s obj name base p} : Selects obj base p → Selects (.member s obj name) base (p ++ [name])

/-- `c` is `base.p₁.….pₖ(…)` with `k ≥ 1`. -/
def Method (c base : Js) (p : List Text) : Prop := p ≠ [] ∧ ∃ f, Call c f ∧ Selects f base p

/-- `c` is `name(…)`. -/
def CallOf (c : Js) (name : Text) : Prop := ∃ s, Call c (.ident s name)

/-- `c` calls an ignored function or path, or is a chain of method calls on the result of such a call. -/
inductive IgnoredFunction (config : Compiled) : Js → Prop
  | function {c name} : CallOf c name → config.isIgnoredFunction name = true → IgnoredFunction config c
  | path {c s name p} : Method c (.ident s name) p → Visit.IgnoredPath config name p → IgnoredFunction config c
  | chain {c base p} : Method c base p → IgnoredFunction config base → IgnoredFunction config c

/-- The call `c` is ignored. -/
def Ignored (config : Compiled) (c : Js) : Prop :=
  IgnoredFunction config c ∨
  ∃ base p, Method c base p ∧ (∀ f, ¬ Call base f) ∧ config.isIgnoredMethod (Visit.dotted p) = true

/-- A function into which the configuration allows to go. -/
def Local (config : Compiled) (file : Js) (name : Text) (params body : List Js) : Prop :=
  Function file name params body ∧ config.isWalkableFunction name = true

/-- The test `t` calls the function with these parameters and this body, directly or through others. -/
inductive Uses (config : Compiled) (file : Js) (t : Text) : List Js → List Js → Prop
  | direct {ps b c name ps' b'} : Test file t ps b → In (ps ++ b) c → CallOf c name → Local config file name ps' b' →
      Uses config file t ps' b'
  | via {ps b c name ps' b'} : Uses config file t ps b → In (ps ++ b) c → CallOf c name → Local config file name ps' b' →
      Uses config file t ps' b'

/-- `x` is part of the test `t` and not its last statement, or part of a function that it uses. -/
inductive Covers (config : Compiled) (file : Js) (t : Text) : Js → Prop
  | test {ps b x} : Test file t ps b → In (ps ++ b) x → b.getLast? ≠ some x → Covers config file t x
  | function {ps b x} : Uses config file t ps b → In (ps ++ b) x → Covers config file t x

/-- There is no statement and no call in `x`. -/
def Idle (x : Js) : Prop := ∀ y, Within x y → ¬ Stmt y ∧ ∀ f, ¬ Call y f

/-- What is assumed about a file. -/
structure Regular (key : Js → Nat) (file : Js) : Prop where
  /-- nodes are told apart -/
  keys : ∀ x y, Within file x → Within file y → key x = key y → x = y
  /-- `x` in `x.f` is no statement -/
  exprs : ∀ s obj name, Within file (.member s obj name) → ¬ Stmt obj
  /-- tests are not nested -/
  flat : ∀ t ps b, Test file t ps b → ∀ x, In (ps ++ b) x → ∀ t' ps' b', ¬ IsTest x t' ps' b'
  /-- `it(…)` is not the call that a statement other than `it(…);` makes: no `await it(…);` -/
  it : ∀ s e c t ps b, Within file (.expr s e) → Spine e c → It c t ps b → e = c
  /-- the call that a statement makes is not followed by an index in which something is called: no `f()[g()];` -/
  index : ∀ s e c f s' obj prop, Within file (.expr s e) → Makes e c → Call c f → Spine e (.index s' obj prop) → Idle prop

/-- `it` has no special meaning in the configuration. -/
structure ItPlain (config : Compiled) (file : Js) : Prop where
  ignored : config.isIgnoredFunction "it".toList = false
  walkable : ∀ ps b, ¬ Local config file "it".toList ps b

/-- The arguments of the call `c` are not looked at: the call is ignored, or calls an ignored method, and its arguments are not to be
visited. -/
def Hidden (config : Compiled) (c : Js) : Prop :=
  config.visitIgnoredArguments = false ∧
    (Ignored config c ∨ ∃ base p, Method c base p ∧ config.isIgnoredMethod (Visit.dotted p) = true)

/-- `x` is `t` or occurs in `t`, and not within arguments that are not looked at. -/
inductive Clear (config : Compiled) : Js → Js → Prop
  | refl (t) : Clear config t t
  | step {t m x} : m ∈ t.kids → (∀ s f args, t = .call s f args → m = f ∨ ¬ Hidden config t) → Clear config m x → Clear config t x

/-- `x` is in one of these parts, and not within arguments that are not looked at. -/
def Visible (config : Compiled) (parts : List Js) (x : Js) : Prop := ∃ p ∈ parts, Clear config p x

/-- `x` contains no statement (other than itself). -/
def Simple (x : Js) : Prop := ∀ y, In x.kids y → ¬ Stmt y

/-- `x` is a plain statement: no test, and not a call, and then not a control statement or a declaration, and without statements in it; or a call
that is not ignored, and not of a function that is gone into instead. -/
def Plain (config : Compiled) (file x : Js) : Prop :=
  Stmt x ∧ (∀ t ps b, ¬ IsTest x t ps b) ∧
  ((Simple x ∧ ¬ NeverRemoved x ∧ ∀ s e c, x = .expr s e → ¬ Makes e c) ∨
   ∃ s e c, x = .expr s e ∧ Makes e c ∧ ¬ Ignored config c ∧ ∀ name ps b, CallOf c name → ¬ Local config file name ps b)

end Necessist.Js
