import Verif.Model.Cache
import Verif.Model.Directives
/-!
# Rust: packages, module paths, tests

Models backends/src/rust/storage.rs, `Test::new`, `reserve_test_path_id`, the flags and the test names (backends/src/rust/mod.rs:61-138,
690-802), and of backends/src/rust/visitor.rs what concerns modules and tests. Paths are absolute and canonical (no `..`); names are
texts (not modelled: names that are not UTF-8, which are displayed lossily).
-/
namespace Necessist.Rust
open Cache (Path orTryInsertWith)

/-- `cargo_metadata::TargetKind` -/
inductive Kind where
  | bin | lib | test | other
deriving DecidableEq, Repr

/-- `cargo_metadata::Target` -/
structure Target where
  kind : List Kind
  srcPath : Path
  name : Text
deriving DecidableEq, Repr

/-- `cargo_metadata::Package` -/
structure Package where
  manifest : Path
  targets : List Target
deriving DecidableEq, Repr

inductive Err where
  /-- `cargo metadata` failed -/
  | metadata
  /-- "failed to get parent directory" -/
  | parent
  /-- "failed to determine package" -/
  | package
  /-- "failed to determine relative path of source file" -/
  | relative
  /-- "flags are not cached" -/
  | flags
  /-- `cargo test -- --list` failed or its output is not UTF-8 -/
  | list
deriving DecidableEq, Repr

/-- The caches (backends/src/rust/mod.rs:37-43). -/
structure Caches where
  fsModulePath : List (Path × List Text) := []
  package : List (Path × Package) := []
  metadata : List (Path × List Package) := []
  flags : List (Path × List Text) := []
  testNames : List (List Text × List Text) := []

/-- What `cargo` does; `ω` is the state of the world. -/
structure Cargo (ω : Type) where
  /-- `cargo metadata --no-deps`, run in a directory -/
  metadata : Path → ω → Except Err (List Package) × ω
  /-- the standard output of `cargo test … -- --list --format=terse`, stripped of escapes -/
  list : List Text → ω → Except Err Text × ω

variable {ω : Type}

/-- Caches and world. -/
abbrev St (ω : Type) := Caches × ω

/-- `Path::parent` of an absolute path. -/
def parent : Path → Option Path
  | [] => none
  | p => some p.dropLast

/-- `cached_directory_metadata` (backends/src/rust/storage.rs:135-149). -/
def cachedMetadata (cargo : Cargo ω) (dir : Path) (s : St ω) : Except Err (List Package) × St ω :=
  match orTryInsertWith dir (cargo.metadata dir) s.1.metadata s.2 with
  | (r, m, w) => (r, ({ s.1 with metadata := m }, w))

/-- The loop of `cached_source_file_package` (backends/src/rust/storage.rs:110-128). -/
def nearest (file : Path) : List Package → Option Package → Except Err (Option Package)
  | [], near => .ok near
  | curr :: rest, near =>
    match parent curr.manifest with
    | none => .error .parent
    | some dir =>
      if ¬ dir.isPrefixOf file then nearest file rest near
      else match near with
        | some prev => nearest file rest (if prev.manifest.length < curr.manifest.length then some curr else some prev)
        | none => nearest file rest (some curr)

/-- `cached_source_file_package` (backends/src/rust/storage.rs:97-133). The borrow of the other caches becomes part of the state. -/
def cachedPackage (cargo : Cargo ω) (file : Path) (s : St ω) : Except Err Package × St ω :=
  match orTryInsertWith file
    (fun (s : St ω) => match parent file with
      | none => (.error .parent, s)
      | some dir => match cachedMetadata cargo dir s with
        | (.error e, s) => (.error e, s)
        | (.ok packages, s) => match nearest file packages none with
          | .error e => (.error e, s)
          | .ok none => (.error .package, s)
          | .ok (some p) => (.ok p, s)) s.1.package s with
  | (r, m, s) => (r, ({ s.1 with package := m }, s.2))

/-- `file_stem`: what is before the last dot, unless that is nothing. -/
def fileStem (name : Text) : Text :=
  let before := ((name.reverse.dropWhile (· != '.')).drop 1).reverse
  if before = [] then name else before

/-- `fs_module_path` (backends/src/rust/storage.rs:151-167). A relative path; the one without components has no parent. -/
def fsModulePathOf (path : Path) : List Text :=
  match path.getLast? with
  | none => []
  | some last =>
    let stem := fileStem last
    if ["lib".toList, "main".toList, "mod".toList].contains stem then path.dropLast else path.dropLast ++ [stem]

/-- `Path::strip_prefix` -/
def stripPath (path base : Path) : Option Path := if base.isPrefixOf path then some (path.drop base.length) else none

/-- `PREFIXES` (backends/src/rust/storage.rs:70-71) -/
def prefixes : List (Path × Bool) := [(["src".toList, "bin".toList], true), (["src".toList], false), (["tests".toList], true)]

/-- The closure at backends/src/rust/storage.rs:69-85. -/
def relativePath (dir file : Path) : List (Path × Bool) → Option Path
  | [] => none
  | (p, includesCrateName) :: rest =>
    match stripPath file (dir ++ p) with
    | some suffix =>
      if includesCrateName then match suffix with
        | [] => none
        | _ :: components => some components
      else some suffix
    | none => relativePath dir file rest

/-- `cached_source_file_fs_module_path` (backends/src/rust/storage.rs:50-95). -/
def cachedFsModulePath (cargo : Cargo ω) (file : Path) (s : St ω) : Except Err (List Text) × St ω :=
  match orTryInsertWith file
    (fun (s : St ω) => match cachedPackage cargo file s with
      | (.error e, s) => (.error e, s)
      | (.ok p, s) => match parent p.manifest with
        | none => (.error .parent, s)
        | some dir => match relativePath dir file prefixes with
          | none => (.error .relative, s)
          | some rel => (.ok (fsModulePathOf rel), s)) s.1.fsModulePath s with
  | (r, m, s) => (r, ({ s.1 with fsModulePath := m }, s.2))

/-- `source_file_test` (backends/src/rust/mod.rs:784-802). -/
def sourceFileTest (p : Package) (file : Path) : Option Text :=
  match p.targets.filterMap fun t => if t.kind = [.test] ∧ t.srcPath = file then some t.name else none with
  | [name] => some name
  | _ => none

/-- The loop over the targets' kinds (backends/src/rust/mod.rs:730-743). -/
def unitFlags : List Kind → Bool → Bool → List Text
  | [], _, _ => []
  | .bin :: rest, false, lib => "--bins".toList :: unitFlags rest true lib
  | .lib :: rest, bin, false => "--lib".toList :: unitFlags rest bin true
  | _ :: rest, bin, lib => unitFlags rest bin lib

/-- A path as text. -/
def showPath (p : Path) : Text := '/' :: List.intercalate ['/'] p

/-- What `cached_source_file_flags` computes (backends/src/rust/mod.rs:718-747). -/
def flagsOf (p : Package) (file : Path) : List Text :=
  ["--manifest-path".toList, showPath p.manifest] ++
    match sourceFileTest p file with
    | some name => ["--test".toList, name]
    | none => unitFlags (p.targets.flatMap Target.kind) false false

/-- `cached_source_file_flags` (backends/src/rust/mod.rs:703-749). -/
def cachedFlags (cargo : Cargo ω) (file : Path) (s : St ω) : Except Err (List Text) × St ω :=
  match orTryInsertWith file
    (fun (s : St ω) => match cachedPackage cargo file s with
      | (.error e, s) => (.error e, s)
      | (.ok p, s) => (.ok (flagsOf p file), s)) s.1.flags s with
  | (r, m, s) => (r, ({ s.1 with flags := m }, s.2))

/-- The names in the output of `cargo test -- --list --format=terse` (backends/src/rust/mod.rs:774-779). -/
def testNamesOf (stdout : Text) : List Text :=
  (lines stdout).filterMap fun line =>
    if ": test".toList.isSuffixOf line then some (line.take (line.length - 6)) else none

/-- `cached_source_file_test_names` (backends/src/rust/mod.rs:751-782). -/
def cachedTestNames (cargo : Cargo ω) (args : List Text) (file : Path) (s : St ω) : Except Err (List Text) × St ω :=
  match s.1.flags.lookup file with
  | none => (.error .flags, s)
  | some flags =>
    match orTryInsertWith (flags ++ args)
      (fun w => match cargo.list (["test".toList] ++ flags ++ args ++ ["--".toList, "--list".toList, "--format=terse".toList]) w with
        | (.error e, w) => (.error e, w)
        | (.ok stdout, w) => (.ok (testNamesOf stdout), w)) s.1.testNames s.2 with
    | (r, m, w) => (r, ({ s.1 with testNames := m }, w))

/-- `test_command` (backends/src/rust/mod.rs:691-701); `none` is a panic (`expect`). -/
def testCommand (file : Path) (c : Caches) : Option (List Text) :=
  (c.flags.lookup file).map fun flags => ["cargo".toList, "test".toList] ++ flags

/-- `command_to_run_test` (backends/src/rust/mod.rs:674-687): the command and the arguments after the user's. -/
def commandToRunTest (file : Path) (name : Text) (c : Caches) : Option (List Text × List Text) :=
  (testCommand file c).map fun cmd => (cmd, ["--".toList, "--exact".toList, name])

/-- `command_to_build_test`, `command_to_build_source_file` (backends/src/rust/mod.rs:657-672) -/
def commandToBuild (file : Path) (c : Caches) : Option (List Text) :=
  (testCommand file c).map fun cmd => cmd ++ ["--no-run".toList]

/-- A segment of an attribute's path: its name, or `none` if it has arguments. -/
abbrev Segment := Option Text

/-- Items, as far as the visitor distinguishes them. -/
inductive Item where
  /-- a free function: name, paths of its attributes, the items in its body -/
  | fn (name : Text) (attrs : List (List Segment)) (body : List Item)
  /-- an inline module -/
  | mod_ (name : Text) (items : List Item)
  /-- anything else: the items somewhere inside -/
  | other (items : List Item)

/-- `is_test` (backends/src/rust/visitor.rs:245-271) -/
def isTest (attrs : List (List Segment)) : Bool :=
  attrs.any fun path => path = [some "test".toList] || path = [some "tokio".toList, some "test".toList]

/-- What is found in a file: the tests that are given to the generic visitor, by their path and identifier; the tests whose module path
is unknown; the error that was stored last. -/
structure Found where
  tests : List (List Text) := []
  unknown : List (Text × Err) := []
  error : Option Err := none
deriving Repr

/-- `join("::")` -/
def join (path : List Text) : Text := List.intercalate "::".toList path

/-- `Test::new` (backends/src/rust/mod.rs:68-117). `path` is `module_path` (backends/src/rust/storage.rs:15, 31-47). -/
def testNew (cargo : Cargo ω) (args : List Text) (file : Path) (path : List Text) (name : Text) (f : Found) (s : St ω) :
    Except Err (Option (List Text)) × Found × St ω :=
  match cachedFsModulePath cargo file s with
  | (.error e, s) => (.ok none, { f with unknown := f.unknown ++ [(name, e)] }, s)
  | (.ok fs, s) =>
    let testPath := fs ++ path ++ [name]
    match cachedTestNames cargo args file s with
    | (.error e, s) => (.error e, f, s)
    | (.ok names, s) => if names.contains (join testPath) then (.ok (some testPath), f, s) else (.ok none, f, s)

mutual
/-- `visit_item_mod` and `visit_item_fn` (backends/src/rust/visitor.rs:118-173). `walk` tells whether the generic visitor wants to walk a
test; `path` is `module_path`, `inTest` whether `test_ident` is set. `none`: an assertion fails (a test inside a test). Functions other
than tests are not entered. -/
def visitItem (cargo : Cargo ω) (args : List Text) (file : Path) (walk : Text → Bool) (path : List Text) (inTest : Bool) :
    Item → Found × St ω → Option (Found × St ω)
  | .mod_ name items, x => visitItems cargo args file walk (if inTest then path else path ++ [name]) inTest items x
  | .other items, x => visitItems cargo args file walk path inTest items x
  | .fn name attrs body, (f, s) =>
    if isTest attrs then
      if inTest then none
      else match testNew cargo args file path name f s with
        | (.error e, f, s) => some ({ f with error := some e }, s)
        | (.ok none, f, s) => some (f, s)
        | (.ok (some testPath), f, s) =>
          let f := { f with tests := f.tests ++ [testPath] }
          if walk (join testPath) then visitItems cargo args file walk path true body (f, s) else some (f, s)
    else some (f, s)
/-- The items of a file or module, one after the other. -/
def visitItems (cargo : Cargo ω) (args : List Text) (file : Path) (walk : Text → Bool) (path : List Text) (inTest : Bool) :
    List Item → Found × St ω → Option (Found × St ω)
  | [], x => some x
  | i :: is, x => match visitItem cargo args file walk path inTest i x with
    | none => none
    | some x => visitItems cargo args file walk path inTest is x
end

/-- `visit` (backends/src/rust/visitor.rs:47-74), up to the visit of the local functions. -/
def visitFile (cargo : Cargo ω) (args : List Text) (file : Path) (walk : Text → Bool) (items : List Item) (s : St ω) :
    Option (Except Err Found × St ω) :=
  match cachedFlags cargo file s with
  | (.error e, s) => some (.error e, s)
  | (.ok _, s) => match visitItems cargo args file walk [] false items ({}, s) with
    | none => none
    | some (f, s) => some (match f.error with | some e => .error e | none => .ok f, s)

/-- `reserve_test_path_id` (backends/src/rust/mod.rs:127-138): the map of identifiers is never filled. -/
def reserve (testPath : List Text) (ids : List (List Text × Nat)) (paths : List (List Text)) : Nat × List (List Text) :=
  match ids.lookup testPath with
  | some id => (id, paths)
  | none => (paths.length, paths ++ [testPath])

/-- `Test::name` (backends/src/rust/mod.rs:213-218); `none` is a panic (index out of range). -/
def nameOf (id : Nat) (paths : List (List Text)) : Option Text := paths[id]?.map join

end Necessist.Rust
