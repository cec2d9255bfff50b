import Verif.Model.Sources
import Verif.Spec.Foundry
import Verif.Spec.GoVisitor
import Verif.Spec.PhpVisitor
import Verif.Spec.TypeScript
import Verif.Spec.RustVisitor
import Verif.Spec.Walk
import Verif.Spec.Main
import Verif.Spec.Parse
/-!
# From source text to removal (specification)

For each language, what may be removed (`Removes`) and what has to be tried (`Due`), in terms of syntax trees. `suppressed` says which spans
are suppressed by comments; `trim` moves the start of a span past what precedes the text proper.
-/
namespace Necessist

namespace TS.Go

section
variable (config : Compiled) (suppressed : Span → Bool) (trim : Span → Span) (file : Tree)

/-- What may be removed from a Go file for the test `t`: a statement of the test other than its last, or of a function it uses, which is
either no call, and then no control statement or declaration, or a call that is not ignored; or `.p₁.….pₖ(…)` from a call
`base.p₁.….pₖ(…)` there, neither of which is ignored. -/
def Removes (kind : SpanKind) (span : Span) (t : Text) : Prop :=
  (IsTest t ∧ ∃ body, Function file t body) ∧ config.isIgnoredTest t = false ∧ suppressed span = false ∧
  match kind with
  | .statement => ∃ x, Covers config file t x ∧ x.attr.stmt = true ∧ x.attr.span = span ∧
      (((∀ e c, Expr x e → ¬ Makes e c) ∧ ¬ NeverRemoved x.attr.kind) ∨ ∃ e c, Expr x e ∧ Makes e c ∧ ¬ Ignored config c)
  | .methodCall => ∃ c base p, (∃ body q, (Function file t body ∨ Uses config file t body) ∧ InBody body q c) ∧ Method c base p ∧
      ¬ Ignored config c ∧ config.isIgnoredMethod (Visit.dotted p) = false ∧
      span = trim { c.attr.span with start := base.attr.span.stop }

/-- What has to be tried, for the test `t` with this body: plain statements, and method calls that are not ignored; of the test (and not its
last statement), or of a function that it calls. -/
inductive Due : SpanKind → Span → Text → Prop
  | statement {t body x} : IsTest t → Function file t body → config.isIgnoredTest t = false → Visible config body x →
      Plain config file x → ¬ IsLast body x → suppressed x.attr.span = false → Due .statement x.attr.span t
  | functionStatement {t body c name body' x} : IsTest t → Function file t body → config.isIgnoredTest t = false →
      Visible config body c → CallOf c name → Local config file name body' → (∀ b, Function file name b → b = body') →
      Visible config body' x → Plain config file x → suppressed x.attr.span = false → Due .statement x.attr.span t
  | method {t body c base p} : IsTest t → Function file t body → config.isIgnoredTest t = false → Visible config body c →
      Method c base p → ¬ Ignored config c → config.isIgnoredMethod (Visit.dotted p) = false →
      suppressed (trim { c.attr.span with start := base.attr.span.stop }) = false →
      (∀ q x e c', InBody body q x → Expr x e → Makes e c' → c'.attr.span = c.attr.span → ¬ IsLast body x) →
      Due .methodCall (trim { c.attr.span with start := base.attr.span.stop }) t
  | functionMethod {t body c' name body' c base p} : IsTest t → Function file t body → config.isIgnoredTest t = false →
      Visible config body c' → CallOf c' name → Local config file name body' → (∀ b, Function file name b → b = body') →
      Visible config body' c → Method c base p → ¬ Ignored config c → config.isIgnoredMethod (Visit.dotted p) = false →
      suppressed (trim { c.attr.span with start := base.attr.span.stop }) = false →
      Due .methodCall (trim { c.attr.span with start := base.attr.span.stop }) t

end
end TS.Go

namespace TS.Php

section
variable (config : Compiled) (suppressed : Span → Bool) (trim : Span → Span) (file : Tree)

/-- What may be removed from a PHP file for the test `t`. -/
def Removes (kind : SpanKind) (span : Span) (t : Text) : Prop :=
  (IsTest t ∧ ∃ body, Method file t body) ∧ config.isIgnoredTest t = false ∧ suppressed span = false ∧
  match kind with
  | .statement => ∃ body q x, Method file t body ∧ InBody body q x ∧ IsStatement q x ∧ ¬ IsLast body x ∧ x.attr.span = span ∧
      (((∀ e c, Expr x e → ¬ Makes e c) ∧ ¬ NeverRemoved x) ∨ ∃ e c, Expr x e ∧ Makes e c ∧ ¬ Ignored config c)
  | .methodCall => ∃ body q c base p, Method file t body ∧ InBody body q c ∧ Chain c base p ∧
      ¬ Ignored config c ∧ config.isIgnoredMethod (Visit.dotted p) = false ∧
      span = trim { c.attr.span with start := base.attr.span.stop }

/-- What has to be tried. -/
inductive Due : SpanKind → Span → Text → Prop
  | statement {t body q x} : IsTest t → Method file t body → config.isIgnoredTest t = false → Visible config body q x →
      IsStatement q x → Plain config x → ¬ IsLast body x → suppressed x.attr.span = false → Due .statement x.attr.span t
  | method {t body q c base p} : IsTest t → Method file t body → config.isIgnoredTest t = false → Visible config body q c →
      Chain c base p → ¬ Ignored config c → config.isIgnoredMethod (Visit.dotted p) = false →
      suppressed (trim { c.attr.span with start := base.attr.span.stop }) = false →
      (∀ q x e c', InBody body q x → Expr x e → Makes e c' → c'.attr.span = c.attr.span → ¬ IsLast body x) →
      Due .methodCall (trim { c.attr.span with start := base.attr.span.stop }) t

end
end TS.Php

namespace Js

section
variable (config : Compiled) (suppressed : Span → Bool) (trim : Span → Span) (file : Js)

/-- What may be removed from a JavaScript or TypeScript file for the test `t`. -/
def Removes (kind : SpanKind) (span : Span) (t : Text) : Prop :=
  (∃ ps b, Test file t ps b) ∧ config.isIgnoredTest t = false ∧ suppressed span = false ∧
  match kind with
  | .statement => ∃ x, Covers config file t x ∧ Stmt x ∧ (∀ t' ps' b', ¬ IsTest x t' ps' b') ∧ x.span = span ∧
      ((¬ NeverRemoved x ∧ ∀ s e c, x = .expr s e → ¬ Makes e c) ∨ ∃ s e c, x = .expr s e ∧ Makes e c ∧ ¬ Ignored config c)
  | .methodCall => ∃ c base p, (∃ ps b, (Test file t ps b ∨ Uses config file t ps b) ∧ In (ps ++ b) c) ∧ Method c base p ∧
      ¬ Ignored config c ∧ config.isIgnoredMethod (Visit.dotted p) = false ∧ span = trim { c.span with start := base.span.stop }

/-- The function is declared only once. -/
def Once (name : Text) (ps b : List Js) : Prop :=
  ∀ ps₂ b₂ s s', Outer file (.fnDecl s name ps b) → Outer file (.fnDecl s' name ps₂ b₂) → s = s' ∧ ps₂ = ps ∧ b₂ = b

/-- What has to be tried. -/
inductive Due : SpanKind → Span → Text → Prop
  | statement {t ps b x} : Test file t ps b → config.isIgnoredTest t = false → Visible config (ps ++ b) x → Plain config file x →
      b.getLast? ≠ some x → suppressed x.span = false → Due .statement x.span t
  | functionStatement {t ps b c name ps' b' x} : Test file t ps b → config.isIgnoredTest t = false → Visible config (ps ++ b) c →
      CallOf c name → Local config file name ps' b' → Once file name ps' b' →
      (∀ y, In (ps' ++ b') y → ∀ t' ps₂ b₂, ¬ IsTest y t' ps₂ b₂) → Visible config (ps' ++ b') x → Plain config file x →
      suppressed x.span = false → Due .statement x.span t
  | method {t ps b c base p} : Test file t ps b → config.isIgnoredTest t = false → Visible config (ps ++ b) c → Method c base p →
      ¬ Ignored config c → config.isIgnoredMethod (Visit.dotted p) = false →
      suppressed (trim { c.span with start := base.span.stop }) = false →
      (∀ s e c', In (ps ++ b) (.expr s e) → Makes e c' → c'.span = c.span → b.getLast? ≠ some (.expr s e)) →
      Due .methodCall (trim { c.span with start := base.span.stop }) t
  | functionMethod {t ps b c' name ps' b' c base p} : Test file t ps b → config.isIgnoredTest t = false → Visible config (ps ++ b) c' →
      CallOf c' name → Local config file name ps' b' → Once file name ps' b' →
      (∀ y, In (ps' ++ b') y → ∀ t' ps₂ b₂, ¬ IsTest y t' ps₂ b₂) → Visible config (ps' ++ b') c → Method c base p →
      ¬ Ignored config c → config.isIgnoredMethod (Visit.dotted p) = false →
      suppressed (trim { c.span with start := base.span.stop }) = false →
      Due .methodCall (trim { c.span with start := base.span.stop }) t

end
end Js

namespace Foundry
open Columns

section
variable (c : Ctx) (config : Compiled) (suppressed : Span → Bool) (trim : Span → Span) (items : List Item)

/-- From the end of `base` to the end of `x`. -/
def between (base x : Expr) : Span := ⟨c.file, offsetToLineColumn c.contents base.loc.stop, offsetToLineColumn c.contents x.loc.stop⟩

/-- What may be removed from a Solidity file for the test `t`. -/
def Removes (kind : SpanKind) (span : Span) (t : Text) : Prop :=
  (∃ f, Test items t f) ∧ config.isIgnoredTest t = false ∧ suppressed span = false ∧
  match kind with
  | .statement => ∃ x, Covers config items t x ∧ span = toSpan c (withSemicolon c.contents x.loc) ∧ ¬ x.IsBlock ∧ ¬ x.IsControl ∧
      ((¬ x.IsDeclaration ∧ Simple x ∧ ∀ l e, x = .expr l e → ¬ IsCall e) ∨ ∃ l e, x = .expr l e ∧ IsCall e ∧ ¬ Ignored config e)
  | .methodCall => ∃ f e x base p, (Test items t f ∨ Uses config items t f) ∧ HasExpr f e ∧ Evaluated e x ∧ Method x base p ∧
      ¬ Ignored config x ∧ config.isIgnoredMethod (Visit.dotted p) = false ∧ span = trim (between c base x)

/-- What has to be tried. -/
inductive Due : SpanKind → Span → Text → Prop
  | statement {t f x} : Test items t f → config.isIgnoredTest t = false → HasStmt f x → Plain config items x → ¬ Last f x →
      suppressed (toSpan c (withSemicolon c.contents x.loc)) = false → Due .statement (toSpan c (withSemicolon c.contents x.loc)) t
  | functionStatement {t f e y name g x} : Test items t f → config.isIgnoredTest t = false → HasExpr f e → Clear config e y →
      CallOf y name → Local config items name g → HasStmt g x → Plain config items x →
      suppressed (toSpan c (withSemicolon c.contents x.loc)) = false → Due .statement (toSpan c (withSemicolon c.contents x.loc)) t
  | method {t f e x base p} : Test items t f → config.isIgnoredTest t = false → HasExpr f e → Clear config e x → Method x base p →
      ¬ Ignored config x → config.isIgnoredMethod (Visit.dotted p) = false → suppressed (trim (between c base x)) = false →
      (∀ l e', Last f (.expr l e') → toSpan c e'.loc ≠ toSpan c x.loc) → Due .methodCall (trim (between c base x)) t
  | functionMethod {t f e y name g e' x base p} : Test items t f → config.isIgnoredTest t = false → HasExpr f e → Clear config e y →
      CallOf y name → Local config items name g → HasExpr g e' → Clear config e' x → Method x base p → ¬ Ignored config x →
      config.isIgnoredMethod (Visit.dotted p) = false → suppressed (trim (between c base x)) = false →
      Due .methodCall (trim (between c base x)) t

end
end Foundry

namespace Rs
open Rust (Answers)

section
variable (a : Answers) (args : List Text) (path : Cache.Path) (key : Syn → Nat)
variable (config : Compiled) (suppressed : Span → Bool) (trim : Span → Span) (file : Syn)

/-- What may be removed from a Rust file for the test `t`. -/
def Removes (kind : SpanKind) (span : Span) (t : Text) : Prop :=
  (∃ sig b, Test a args path file t sig b) ∧ config.isIgnoredTest t = false ∧ suppressed span = false ∧
  match kind with
  | .statement => ∃ x, Covers a args path config key file t x ∧ Stmt x ∧ ¬ Tail x ∧ x.span = span ∧
      ((¬ NeverRemoved x ∧ ∀ e c, ExprOf x e → ¬ Makes e c) ∨ ∃ e c, ExprOf x e ∧ Makes e c ∧ ¬ Ignored config c)
  | .methodCall => ∃ c base p,
      ((∃ sig b, Test a args path file t sig b ∧ In (sig ++ b) c) ∨ ∃ b, Uses a args path config file t b ∧ In b c) ∧
      Method c base p ∧ ¬ Ignored config c ∧ config.isIgnoredMethod (Visit.dotted p) = false ∧
      span = trim { c.span with start := base.span.stop }

/-- What has to be tried. -/
inductive Due : SpanKind → Span → Text → Prop
  | statement {t sig b x} : Test a args path file t sig b → config.isIgnoredTest t = false → Visible config (sig ++ b) x →
      Plain config file x → (∀ y, b.getLast? = some y → key y ≠ key x) → suppressed x.span = false → Due .statement x.span t
  | functionStatement {t sig b c name b' x} : Test a args path file t sig b → config.isIgnoredTest t = false →
      Visible config (sig ++ b) c → CallOf c name → Local config file name b' → (∀ b₂, Function file name b₂ → b₂ = b') →
      Visible config b' x → Plain config file x → suppressed x.span = false → Due .statement x.span t
  | method {t sig b c base p} : Test a args path file t sig b → config.isIgnoredTest t = false → Visible config (sig ++ b) c →
      Method c base p → ¬ Ignored config c → config.isIgnoredMethod (Visit.dotted p) = false →
      (∀ name b', CallOf c name → ¬ Local config file name b') → suppressed (trim { c.span with start := base.span.stop }) = false →
      (∀ x e c', In (sig ++ b) x → ExprOf x e → Makes e c' → c'.span = c.span →
        ¬ Tail x ∧ ∀ y, b.getLast? = some y → key y ≠ key x) →
      Due .methodCall (trim { c.span with start := base.span.stop }) t
  | functionMethod {t sig b c' name b' c base p} : Test a args path file t sig b → config.isIgnoredTest t = false →
      Visible config (sig ++ b) c' → CallOf c' name → Local config file name b' → (∀ b₂, Function file name b₂ → b₂ = b') →
      Visible config b' c → Method c base p → ¬ Ignored config c → config.isIgnoredMethod (Visit.dotted p) = false →
      (∀ name b', CallOf c name → ¬ Local config file name b') → suppressed (trim { c.span with start := base.span.stop }) = false →
      (∀ x e c', In b' x → ExprOf x e → Makes e c' → c'.span = c.span → ¬ Tail x) →
      Due .methodCall (trim { c.span with start := base.span.stop }) t

end
end Rs

namespace Sources
open Framework (Identifier)
open Parse Run Main

variable (P : Parsers)

/-- Spans of the file that its comments suppress. -/
def Parsers.suppressed (f : SourceFile) (d : Directives) (s : Span) : Bool := d.skip (P.contents f) s.start s.stop

/-- Where the text of a method call starts (C37). -/
def Parsers.trim (f : SourceFile) (s : Span) : Span := { s with start := trimStart (P.contents f) s.start s.stop }

/-- A Solidity file as the specification of C76 sees it: with its text, and what tells its statements apart. -/
abbrev Parsers.solidity (f : SourceFile) : Foundry.Ctx :=
  { file := f, contents := P.contents f, key := P.solKey, faux := P.solFaux, fnKey := P.solFnKey }

/-- The file is as the language's grammar says, and has none of the peculiarities that C70, C71, C72, C74 and C76 leave out. -/
def Usual (i : Identifier) (config : Compiled) (f : SourceFile) : Prop :=
  match i with
  | .foundry => ∀ items, P.sol f = .ok items → Foundry.Regular (P.solidity f) items
  | .go => ∀ file, P.go f = .ok file → TS.Go.GoFile file
  | .php => ∀ file, P.php f = .ok file → TS.Php.PhpFile file
  | .anchor | .hardhat | .vitest => ∀ file, P.js f = .ok file → Js.Regular P.jsKey file ∧ Js.ItPlain config file
  | .rust => ∀ file, P.rs f = .ok file → Rs.Regular P.rsBkey file ∧
      ∃ fl, P.cargo.flags (P.path f) = .ok fl ∧
        ∀ fs, P.cargo.fsModulePath (P.path f) = .ok fs → ∃ ns, P.cargo.testNames fl P.args = .ok ns

/-- In the file, for the test `t`, this may be removed. -/
def Removes (i : Identifier) (config : Compiled) (d : Directives) (f : SourceFile) (kind : SpanKind) (span : Span) (t : Text) : Prop :=
  match i with
  | .foundry => ∃ items, P.sol f = .ok items ∧
      Foundry.Removes (P.solidity f) config (P.suppressed f d) (P.trim f) items kind span t
  | .go => ∃ file, P.go f = .ok file ∧ TS.Go.Removes config (P.suppressed f d) (P.trim f) file kind span t
  | .php => ∃ file, P.php f = .ok file ∧ TS.Php.Removes config (P.suppressed f d) (P.trim f) file kind span t
  | .anchor | .hardhat | .vitest => ∃ file, P.js f = .ok file ∧ Js.Removes config (P.suppressed f d) (P.trim f) file kind span t
  | .rust => ∃ file, P.rs f = .ok file ∧
      Rs.Removes P.cargo P.args (P.path f) P.rsKey config (P.suppressed f d) (P.trim f) file kind span t

/-- In the file, for the test `t`, this has to be tried. -/
def Due (i : Identifier) (config : Compiled) (d : Directives) (f : SourceFile) (kind : SpanKind) (span : Span) (t : Text) : Prop :=
  match i with
  | .foundry => ∃ items, P.sol f = .ok items ∧
      Foundry.Due (P.solidity f) config (P.suppressed f d) (P.trim f) items kind span t
  | .go => ∃ file, P.go f = .ok file ∧ TS.Go.Due config (P.suppressed f d) (P.trim f) file kind span t
  | .php => ∃ file, P.php f = .ok file ∧ TS.Php.Due config (P.suppressed f d) (P.trim f) file kind span t
  | .anchor | .hardhat | .vitest => ∃ file, P.js f = .ok file ∧ Js.Due config (P.suppressed f d) (P.trim f) file kind span t
  | .rust => ∃ file, P.rs f = .ok file ∧
      Rs.Due P.cargo P.args (P.path f) P.rsKey config (P.suppressed f d) (P.trim f) file kind span t

/-- The comments in a file say `d` (C32, C33, C34). -/
def Says (alnum : Char → Bool) (o : WarnOpts) (f : SourceFile) (contents : Text) (d : Directives) : Prop :=
  ∃ st st' ms, Directives.collect alnum o st f contents = (some (d, st'), ms)

/-- The parsers give every node a span in the file that it comes from. (Solidity's parser gives offsets, without a file.) -/
structure Located : Prop where
  go : ∀ f file, P.go f = .ok file → ∀ q x, TS.Within none file q x → x.attr.span.file = f
  php : ∀ f file, P.php f = .ok file → ∀ q x, TS.Within none file q x → x.attr.span.file = f
  js : ∀ f file, P.js f = .ok file → ∀ x, Js.Within file x → x.span.file = f
  rs : ∀ f file, P.rs f = .ok file → ∀ x, Rs.Anywhere file x → x.span.file = f

/-- The names that a framework ignores by itself (C78), as a configuration. -/
def builtinConfig (i : Identifier) : Toml where
  ignoredFunctions := (builtinsOf i).functions.getD []
  ignoredMacros := (builtinsOf i).macros.getD []
  ignoredMethods := (builtinsOf i).methods.getD []

/-- The configuration for the framework: the built-in names, merged with those of the user (C26), compiled (C28). -/
def Configures (alnum : Char → Bool) (i : Identifier) (user : Toml) (config : Compiled) : Prop :=
  ((builtinConfig i).merge user).map (·.compile alnum) = some (.ok config)

section
variable {V σ : Type}

/-- The frameworks' implementations are those described: of what their parsers find, with `cargo`'s answers, in the project at hand. -/
structure Implements (P : Parsers) (h : Host V σ) (o : Opts) (m : Machine σ) (disk : Walk.Entry) (v : Bool)
    (rule : Path → Bool → Walk.Verdict) (alnum : Char → Bool) : Prop where
  root : rootOf h o = some P.root
  contents : P.contents = m.fs
  impl : ∀ i fw, h.impl m.ext i = .ok (some fw) →
    fw.backend.kind = Walk.kindOf disk (Walk.walkerOf v i) rule ∧ fw.backend.parseFile = fileAst P i ∧
    fw.backend.builtins = builtinsOf i ∧ fw.backend.receiver = walksReceiver i ∧ fw.backend.fields = walksFields i ∧
    fw.backend.alnum = alnum

/-- All of the frameworks' parsers locate what they find in the files that they are given. -/
def Locates (h : Host V σ) : Prop :=
  ∀ ext i fw, h.impl ext i = .ok (some fw) → ∃ P, Located P ∧ fw.backend.parseFile = fileAst P i

end
end Sources
end Necessist
