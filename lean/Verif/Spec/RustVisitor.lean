import Verif.Model.RustVisitor
import Verif.Spec.Rust
import Verif.Spec.Visitor
/-!
# Rust's front end (specification)

In terms of syntax trees, of what `cargo` says, and of what the configuration says about names.
-/
namespace Necessist.Rs
open Rust (Answers Segment join)
open Cache (Path)

/-- The immediate parts of a node. -/
def Syn.kids : Syn → List Syn
  | .ident _ _ => []
  | .path _ _ parts => parts
  | .field _ base _ => [base]
  | .await _ base => [base]
  | .call _ func args => func :: args
  | .method _ recv _ generics args => recv :: (generics ++ args)
  | .mac _ _ _ => []
  | .other _ _ _ parts => parts
  | .expr _ e _ => [e]
  | .macStmt s name tokens => [.mac s name tokens]
  | .local_ _ _ parts => parts
  | .item _ i => [i]
  | .mod_ _ _ items => items
  | .fn _ _ _ sig body => sig ++ body
  | .implFn _ _ sig body => sig ++ body

/-- `x` is a free function. -/
def Free (x : Syn) : Prop := ∃ s name attrs sig body, x = .fn s name attrs sig body

/-- `x` is `t` or occurs in `t`. -/
inductive Anywhere : Syn → Syn → Prop
  | refl (t) : Anywhere t t
  | step {t m x} : m ∈ t.kids → Anywhere m x → Anywhere t x

/-- `x` is `t` or occurs in `t`, and not within a free function in `t`. -/
inductive Within : Syn → Syn → Prop
  | refl (t) : Within t t
  | step {t m x} : ¬ Free t → m ∈ t.kids → Within m x → Within t x

/-- `x` occurs in one of them, and not within a free function in them. -/
def In (parts : List Syn) (x : Syn) : Prop := ∃ p ∈ parts, Within p x

/-- `m` and the module `t`, if it is one. -/
def enter (m : List Text) : Syn → List Text
  | .mod_ _ name _ => m ++ [name]
  | _ => m

/-- `x` occurs in `t`, and not within a free function; if the modules around `t` are `m`, then those around `x` are `m'`. -/
inductive Inside : List Text → Syn → List Text → Syn → Prop
  | refl (m t) : Inside m t m t
  | step {m t k m' x} : ¬ Free t → k ∈ t.kids → Inside (enter m t) k m' x → Inside m t m' x

/-- The attributes are those of a test: `#[test]` or `#[tokio::test]`. -/
def TestAttrs (attrs : List (List Segment)) : Prop :=
  [some "test".toList] ∈ attrs ∨ [some "tokio".toList, some "test".toList] ∈ attrs

/-- `x` is a function with such an attribute. -/
def TestFn (x : Syn) : Prop := ∃ s name attrs sig body, x = .fn s name attrs sig body ∧ TestAttrs attrs

/-- `cargo` lists the test `name` in the modules `m` of the file, by the name `t`. -/
def Listed (a : Answers) (args : List Text) (path : Path) (m : List Text) (name t : Text) : Prop :=
  ∃ fs fl ns, a.fsModulePath path = .ok fs ∧ a.flags path = .ok fl ∧ a.testNames fl args = .ok ns ∧ t = join (fs ++ m ++ [name]) ∧ t ∈ ns

/-- The file has the test `t`, with this signature and body. -/
def Test (a : Answers) (args : List Text) (path : Path) (file : Syn) (t : Text) (sig body : List Syn) : Prop :=
  ∃ m s name attrs, Inside [] file m (.fn s name attrs sig body) ∧ TestAttrs attrs ∧ Listed a args path m name t

/-- `x` occurs in `t`, and not within a function. -/
inductive Outer : Syn → Syn → Prop
  | refl (t) : Outer t t
  | step {t m x} : ¬ Free t → (∀ s name sig body, t ≠ .implFn s name sig body) → m ∈ t.kids → Outer m x → Outer t x

/-- The file has a function that is no test, with this name and body (and not within another function). -/
def Function (file : Syn) (name : Text) (body : List Syn) : Prop :=
  (∃ s attrs sig, Outer file (.fn s name attrs sig body) ∧ ¬ TestAttrs attrs) ∨ ∃ s sig, Outer file (.implFn s name sig body)

/-- `x` is a statement. -/
def Stmt (x : Syn) : Prop :=
  (∃ s e semi, x = .expr s e semi) ∨ (∃ s name tokens, x = .macStmt s name tokens) ∨ (∃ s tag parts, x = .local_ s tag parts) ∨
  ∃ s i, x = .item s i

/-- Declarations, and `break`, `continue` and `return`. -/
def NeverRemoved (x : Syn) : Prop :=
  (∃ s tag parts, x = .local_ s tag parts) ∨ (∃ s i, x = .item s i) ∨
  ∃ s s' k tag parts semi, x = .expr s (.other s' k tag parts) semi ∧ (k = .break_ ∨ k = .continue_ ∨ k = .return_)

/-- Expressions that end with a block, except `match`. -/
def BlockLike (e : Syn) : Prop :=
  ∃ s k tag parts, e = .other s k tag parts ∧ (k = .async ∨ k = .block ∨ k = .const ∨ k = .forLoop ∨ k = .if_ ∨ k = .loop ∨ k = .tryBlock ∨
    k = .unsafe_ ∨ k = .while_)

/-- `x` is an expression without semicolon, and not one with a block: so it is the value of the block that it ends, or a `match`. -/
def Tail (x : Syn) : Prop := ∃ s e, x = .expr s e false ∧ ¬ BlockLike e

/-- The expression that the statement `x` consists of. -/
def ExprOf (x e : Syn) : Prop := (∃ s semi, x = .expr s e semi) ∨ ∃ s name tokens, x = .macStmt s name tokens ∧ e = .mac s name tokens

/-- `c` is a call of a function or a method. -/
def Call (c : Syn) : Prop := (∃ s f args, c = .call s f args) ∨ ∃ s recv name generics args, c = .method s recv name generics args

/-- `c` is a call or a macro. -/
def CallOrMacro (c : Syn) : Prop := Call c ∨ ∃ s name tokens, c = .mac s name tokens

/-- `x` is `e`, or `e` is `x` with field accesses and `.await`s. -/
inductive Spine : Syn → Syn → Prop
  | refl (x) : Spine x x
  | await {s e x} : Spine e x → Spine (.await s e) x
  | field {s e name x} : Spine e x → Spine (.field s e name) x

/-- `c` is the call or macro that the expression `e` makes. -/
def Makes (e c : Syn) : Prop := Spine e c ∧ CallOrMacro c

/-- `x` is `base.p₁.….pₖ`. -/
inductive Selects : Syn → Syn → List Text → Prop
  | base {b} : (∀ s obj name, b ≠ .field s obj (some name)) → Selects b b []
  | field {s obj name base p} : Selects obj base p → Selects (.field s obj (some name)) base (p ++ [name])

/-- `c` is `base.p₁.….pₖ(…)` with `k ≥ 1`. -/
def Method (c base : Syn) (p : List Text) : Prop :=
  (∃ s recv name generics args q, c = .method s recv name generics args ∧ Selects recv base q ∧ p = q ++ [name]) ∨
  ∃ s f args, c = .call s f args ∧ Selects f base p ∧ p ≠ []

/-- `f` is the path `name`. -/
def PathOf (f : Syn) (name : Text) : Prop := (∃ s, f = .ident s name) ∨ ∃ s parts, f = .path s name parts

/-- What is called is known by this name: it is an identifier; or the result of a function, method or macro of this name; or a field. -/
def Named (f : Syn) (name : Text) : Prop :=
  (∃ s, f = .ident s name) ∨ (∃ s g args, f = .call s g args ∧ PathOf g name) ∨
  (∃ s recv generics args, f = .method s recv name generics args) ∨ (∃ s tokens, f = .mac s name tokens) ∨
  ∃ s b, f = .field s b (some name)

/-- `c` is taken as a call of a function `name` of the file: `name(…)`, or `….name(…)` with whatever receiver. -/
def CallOf (c : Syn) (name : Text) : Prop :=
  (∃ s f args, c = .call s f args ∧ Named f name) ∨ ∃ s recv generics args, c = .method s recv name generics args

/-- `c` calls an ignored function or macro, or is a chain of method calls on the result of such a call. -/
inductive IgnoredFunction (config : Compiled) : Syn → Prop
  | function {s f args name} : PathOf f name → config.isIgnoredFunction name = true → IgnoredFunction config (.call s f args)
  | macro_ {s name tokens} : config.isIgnoredMacro name = true → IgnoredFunction config (.mac s name tokens)
  | chain {c base p} : Method c base p → IgnoredFunction config base → IgnoredFunction config c

/-- The call or macro `c` is ignored. -/
def Ignored (config : Compiled) (c : Syn) : Prop :=
  IgnoredFunction config c ∨ ∃ base p, Method c base p ∧ ¬ Call base ∧ config.isIgnoredMethod (Visit.dotted p) = true

/-- A function into which the configuration allows to go. -/
def Local (config : Compiled) (file : Syn) (name : Text) (body : List Syn) : Prop :=
  Function file name body ∧ config.isWalkableFunction name = true

section
variable (a : Answers) (args : List Text) (path : Path) (config : Compiled) (key : Syn → Nat) (file : Syn)

/-- The test `t` calls the function with this body, directly or through others. -/
inductive Uses (t : Text) : List Syn → Prop
  | direct {sig b c name b'} : Test a args path file t sig b → In (sig ++ b) c → CallOf c name → Local config file name b' → Uses t b'
  | via {b c name b'} : Uses t b → In b c → CallOf c name → Local config file name b' → Uses t b'

/-- `x` is part of the test `t` and not its last statement, nor one that looks the same; or `x` is part of a function that the test uses. -/
inductive Covers (t : Text) : Syn → Prop
  | test {sig b x} : Test a args path file t sig b → In (sig ++ b) x → (∀ y, b.getLast? = some y → key y ≠ key x) → Covers t x
  | function {b x} : Uses a args path config file t b → In b x → Covers t x

end

/-- `y` is what is selected from, awaited or called by `x`. -/
def Operand (x y : Syn) : Prop :=
  (∃ s name, x = .field s y name) ∨ (∃ s, x = .await s y) ∨ (∃ s args, x = .call s y args) ∨
  ∃ s name generics args, x = .method s y name generics args

/-- What is assumed about a file. -/
structure Regular (bkey : List Syn → Nat) (file : Syn) : Prop where
  /-- operands are not functions -/
  exprs : ∀ x y, Anywhere file x → Operand x y → ¬ Free y
  /-- there is no test in a function -/
  flat : ∀ s name attrs sig b, Anywhere file (.fn s name attrs sig b) → ∀ x, In (sig ++ b) x → ¬ TestFn x
  flatImpl : ∀ s name sig b, Anywhere file (.implFn s name sig b) → ∀ x, In (sig ++ b) x → ¬ TestFn x
  /-- no two functions' bodies are alike -/
  distinct : ∀ n b n' b', Function file n b → Function file n' b' → bkey b = bkey b' → b = b'

/-- What is assumed about `cargo`: it gives the same answers at all times, and what has been cached is right; it knows the package of the
file, and lists the tests unless the file's modules are unknown. -/
structure CargoOk {ω : Type} (cargo : Rust.Cargo ω) (a : Answers) (args : List Text) (path : Path) (s : Rust.St ω) : Prop where
  stable : Rust.Stable cargo a
  agrees : Rust.Agrees s.1 a
  lists : ∃ fl, a.flags path = .ok fl ∧ ∀ fs, a.fsModulePath path = .ok fs → ∃ ns, a.testNames fl args = .ok ns

/-- The arguments of the call `c` are not looked at: the call is ignored, or calls an ignored method, and its arguments are not to be
visited. -/
def Hidden (config : Compiled) (c : Syn) : Prop :=
  config.visitIgnoredArguments = false ∧
    (Ignored config c ∨ ∃ base p, Method c base p ∧ config.isIgnoredMethod (Visit.dotted p) = true)

/-- `x` is `t` or occurs in `t`, and neither within arguments that are not looked at nor within a free function. -/
inductive Clear (config : Compiled) : Syn → Syn → Prop
  | refl (t) : Clear config t t
  | step {t m x} : ¬ Free t → m ∈ t.kids → (Call t → Operand t m ∨ ¬ Hidden config t) → Clear config m x → Clear config t x

/-- `x` is in one of these parts, and neither within arguments that are not looked at nor within a free function. -/
def Visible (config : Compiled) (parts : List Syn) (x : Syn) : Prop := ∃ p ∈ parts, Clear config p x

/-- `x` contains no statement (other than itself, and those of free functions). -/
def Simple (x : Syn) : Prop := ∀ y, In x.kids y → ¬ Stmt y

/-- `x` is a plain statement: not a call, and then not a control statement or a declaration, and without statements in it; or a call
that is not ignored, and not of a function that is gone into instead. -/
def Plain (config : Compiled) (file x : Syn) : Prop :=
  Stmt x ∧ ¬ Tail x ∧
  ((Simple x ∧ ¬ NeverRemoved x ∧ ∀ e c, ExprOf x e → ¬ Makes e c) ∨
   ∃ e c, ExprOf x e ∧ Makes e c ∧ ¬ Ignored config c ∧ ∀ name b, CallOf c name → ¬ Local config file name b)

end Necessist.Rs
