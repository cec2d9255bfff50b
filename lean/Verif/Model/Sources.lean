import Verif.Model.Parse
import Verif.Model.Builtins
import Verif.Model.Walk
import Verif.Spec.TreeSitter
import Verif.Model.TypeScript
import Verif.Model.Foundry
import Verif.Lemmas.RustVisitor
/-!
# From syntax trees to what parsing yields

Joins the frameworks' front ends (`Verif.Model.Foundry`, `.TreeSitter`, `.TypeScript`, `.RustVisitor`) to the parsing of a project
(`Verif.Model.Parse`). There, a file is a tree of the generic visitor's; here it is a syntax tree of its language, presented as one by `lower`.
That a visit of the one is a visit of the other is what `refines` says (`Verif.Props.Foundry`, `.GoVisitor`, `.PhpVisitor`, `.TypeScript`,
`.RustVisitor`); `Verif.Lemmas.Sources` uses it.
-/
namespace Necessist.Sources
open Parse Visit Run
open Framework (Identifier)

/-- What the parsers of the languages say about the files of a project (`solang_parser`, `tree_sitter`, `swc_ecma_parser`, `syn`: arbitrary), how
they tell nodes apart, and what `cargo` says. The parsers are given the files' contents again (e.g. backends/src/foundry/mod.rs:188). -/
structure Parsers where
  root : Path
  contents : SourceFile → Text
  /-- Solidity -/
  sol : SourceFile → Except Text (List Foundry.Item)
  solKey : Foundry.Stmt → Nat
  solFaux : Nat
  solFnKey : Foundry.Fn → Nat
  /-- Go, PHP -/
  go : SourceFile → Except Text TS.Tree
  php : SourceFile → Except Text TS.Tree
  /-- JavaScript and TypeScript -/
  js : SourceFile → Except Text Js.Js
  jsKey : Js.Js → Nat
  /-- Rust; `args` are the arguments after `--` -/
  rs : SourceFile → Except Text Rs.Syn
  rsKey : Rs.Syn → Nat
  rsBkey : List Rs.Syn → Nat
  cargo : Rust.Answers
  args : List Text

variable (P : Parsers)

/-- How Solidity files are seen. -/
def Parsers.solCtx (f : SourceFile) : Foundry.Ctx := ⟨f, P.contents f, P.solKey, P.solFaux, P.solFnKey⟩

/-- The absolute path of a file. -/
def Parsers.path (f : SourceFile) : Path := P.root ++ f.path

/-- `parse_source_file` and `local_functions` of Foundry (backends/src/foundry/mod.rs:184-207). -/
def solAst (f : SourceFile) (items : List Foundry.Item) : FileAst :=
  { localFunctions := .ok (byName (Foundry.localFns (P.solCtx f) items))
    tree := items.flatMap (Foundry.lowerItem (P.solCtx f)) }

/-- … of Go (backends/src/go/mod.rs:250-279). -/
def goAst (file : TS.Tree) : FileAst :=
  { localFunctions := .ok (TS.localFunctions TS.Go.lang (TS.Go.locals file))
    tree := TS.lowerTests TS.Go.lang TS.Go.last (TS.Go.tests file) }

/-- … of PHP (backends/src/php/mod.rs:285-314). -/
def phpAst (file : TS.Tree) : FileAst :=
  { localFunctions := .ok []
    tree := TS.lowerTests TS.Php.lang TS.Php.last (TS.Php.tests file) }

/-- … of JavaScript and TypeScript (backends/src/ts/inner/mod.rs:291-325). -/
def jsAst (file : Js.Js) : FileAst :=
  { localFunctions := .ok (byName (Js.localFns P.jsKey (Js.decls file)))
    tree := [Js.lower P.jsKey file] }

/-- … of Rust (backends/src/rust/mod.rs:423-444). If `cargo` does not know the file's package, there is an error and nothing is visited
(backends/src/rust/visitor.rs:53-56). If the file's modules are unknown, this is reported (:62-70); and if `cargo` fails to list the tests when
asked to, there is an error (:71-73): `Verif.Props.UnknownModules` shows this of the visit. -/
def rsAst (f : SourceFile) (file : Rs.Syn) : FileAst :=
  { localFunctions := .ok (byName (Rs.localFns P.rsKey P.rsBkey (Rs.fns file)))
    tree := match P.cargo.flags (P.path f) with
      | .ok fl => [Rs.lower (Rs.listedName P.cargo P.args (P.path f) fl) P.rsKey [] file]
      | .error _ => []
    warnings := match P.cargo.flags (P.path f), P.cargo.fsModulePath (P.path f) with
      | .ok _, .error e => Rs.unknownCalls (P.path f) ((Rs.testFns file).map (·, e))
      | _, _ => []
    error := match P.cargo.flags (P.path f) with
      | .ok fl => match P.cargo.fsModulePath (P.path f), P.cargo.testNames fl P.args with
        | .ok _, .error _ => if (Rs.testFns file).isEmpty then none else some .backend
        | _, _ => none
      | .error _ => some .backend }

/-- `parse_source_file` (backends/src/parsing.rs:106-107) of the frameworks. Anchor, Hardhat and Vitest share one
(backends/src/ts/mod.rs:50-60). -/
def fileAst (i : Identifier) (f : SourceFile) : Except Text FileAst :=
  match i with
  | .foundry => (P.sol f).map (solAst P f)
  | .go => (P.go f).map goAst
  | .php => (P.php f).map phpAst
  | .anchor | .hardhat | .vitest => (P.js f).map (jsAst P)
  | .rust => (P.rs f).map (rsAst P f)

/-- Whether a call's receiver is walked when its arguments are not: not so where `cursor.skip()` passes over all of the call
(backends/src/go/visitor.rs, backends/src/php/visitor.rs). -/
def walksReceiver : Identifier → Bool
  | .go | .php => false
  | _ => true

/-- Whether what is selected from in a member access is walked: not so by Foundry's visitor. -/
def walksFields : Identifier → Bool
  | .foundry => false
  | _ => true

end Necessist.Sources
