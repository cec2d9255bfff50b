import Verif.Model.Rust
/-!
# Rust (specification)
-/
namespace Necessist.Rust
open Cache (Path)

/-- A test named `name` is in `items`, inside the modules `ms`, from the outside in, and not inside a function. -/
inductive TestAt : List Item → List Text → Text → Prop where
  | here {items name attrs body} : .fn name attrs body ∈ items →
      [some "test".toList] ∈ attrs ∨ [some "tokio".toList, some "test".toList] ∈ attrs → TestAt items [] name
  | inModule {items m inner ms name} : .mod_ m inner ∈ items → TestAt inner ms name → TestAt items (m :: ms) name
  | inOther {items inner ms name} : .other inner ∈ items → TestAt inner ms name → TestAt items ms name

/-- The items in the body of a test that is in `items`, not inside a function. -/
inductive TestBody : List Item → List Item → Prop where
  | here {items name attrs body} : .fn name attrs body ∈ items →
      [some "test".toList] ∈ attrs ∨ [some "tokio".toList, some "test".toList] ∈ attrs → TestBody items body
  | inModule {items m inner body} : .mod_ m inner ∈ items → TestBody inner body → TestBody items body
  | inOther {items inner body} : .other inner ∈ items → TestBody inner body → TestBody items body

/-- The package is that of a manifest in directory `dir`. -/
def ManifestIn (p : Package) (dir : Path) : Prop := ∃ name, p.manifest = dir ++ [name]

/-- `p` is the package among `ps` whose manifest is in the longest directory that contains `file`. -/
def IsNearest (ps : List Package) (file : Path) (p : Package) : Prop :=
  ∃ dir, p ∈ ps ∧ ManifestIn p dir ∧ dir <+: file ∧
    ∀ q ∈ ps, ∀ dir', ManifestIn q dir' → dir' <+: file → dir' <+: dir

/-- A file of a package, relative to where its crate's modules are: what is left of its path below `src/bin/CRATE`, `src` or
`tests/CRATE`. -/
inductive Below (dir : Path) : Path → Path → Prop where
  | bin (crate rest) : Below dir (dir ++ ["src".toList, "bin".toList, crate] ++ rest) rest
  | src (rest) : (∀ rest', rest ≠ "bin".toList :: rest') → Below dir (dir ++ ["src".toList] ++ rest) rest
  | tests (crate rest) : Below dir (dir ++ ["tests".toList, crate] ++ rest) rest

/-- The modules a file is taken to be of, by its path relative to the crate: its directories, and its name without the extension unless
that is `lib`, `main` or `mod`. -/
inductive ModulesOf : Path → List Text → Prop where
  | root : ModulesOf [] []
  | named (dirs stem) : '.' ∉ stem → stem ≠ [] → stem ≠ "lib".toList → stem ≠ "main".toList → stem ≠ "mod".toList →
      ModulesOf (dirs ++ [stem ++ ".rs".toList]) (dirs ++ [stem])
  | unnamed (dirs stem) : stem = "lib".toList ∨ stem = "main".toList ∨ stem = "mod".toList →
      ModulesOf (dirs ++ [stem ++ ".rs".toList]) dirs
  /-- a name whose only dot is at its start has no extension -/
  | hidden (dirs rest) : '.' ∉ rest → ModulesOf (dirs ++ ['.' :: rest]) (dirs ++ ['.' :: rest])

/-- Where the compiler looks for the file of a module, given the directory of the crate's root file, and the root file. -/
inductive ModuleFile (base root : Path) : List Text → Path → Prop where
  | root : ModuleFile base root [] root
  | file (ms m) : ModuleFile base root (ms ++ [m]) (base ++ ms ++ [m ++ ".rs".toList])
  | dir (ms m) : ModuleFile base root (ms ++ [m]) (base ++ ms ++ [m, "mod.rs".toList])

/-- The crates of a package that `cargo` finds by itself: directory and file of the root module. -/
inductive Crate (dir : Path) : Path → Path → Prop where
  | lib : Crate dir (dir ++ ["src".toList]) (dir ++ ["src".toList, "lib.rs".toList])
  | main : Crate dir (dir ++ ["src".toList]) (dir ++ ["src".toList, "main.rs".toList])
  | binFile (c) : Crate dir (dir ++ ["src".toList, "bin".toList]) (dir ++ ["src".toList, "bin".toList, c ++ ".rs".toList])
  | binDir (c) : Crate dir (dir ++ ["src".toList, "bin".toList, c]) (dir ++ ["src".toList, "bin".toList, c, "main.rs".toList])
  | testFile (c) : Crate dir (dir ++ ["tests".toList]) (dir ++ ["tests".toList, c ++ ".rs".toList])
  | testDir (c) : Crate dir (dir ++ ["tests".toList, c]) (dir ++ ["tests".toList, c, "main.rs".toList])

/-- What is computed without caches. -/
structure Answers where
  metadata : Path → Except Err (List Package)
  list : List Text → Except Err Text

def Answers.package (a : Answers) (file : Path) : Except Err Package :=
  match parent file with
  | none => .error .parent
  | some dir => match a.metadata dir with
    | .error e => .error e
    | .ok ps => match nearest file ps none with
      | .error e => .error e
      | .ok none => .error .package
      | .ok (some p) => .ok p

def Answers.fsModulePath (a : Answers) (file : Path) : Except Err (List Text) :=
  match a.package file with
  | .error e => .error e
  | .ok p => match parent p.manifest with
    | none => .error .parent
    | some dir => match relativePath dir file prefixes with
      | none => .error .relative
      | some rel => .ok (fsModulePathOf rel)

def Answers.flags (a : Answers) (file : Path) : Except Err (List Text) :=
  match a.package file with
  | .error e => .error e
  | .ok p => .ok (flagsOf p file)

/-- The names of the tests for which `cargo test FLAGS ARGS -- --list --format=terse` prints a line `NAME: test`. -/
def Answers.testNames (a : Answers) (flags args : List Text) : Except Err (List Text) :=
  match a.list (["test".toList] ++ flags ++ args ++ ["--".toList, "--list".toList, "--format=terse".toList]) with
  | .error e => .error e
  | .ok stdout => .ok (testNamesOf stdout)

variable {ω : Type}

/-- `cargo` gives the same answers at all times. -/
def Stable (cargo : Cargo ω) (a : Answers) : Prop :=
  (∀ dir w, (cargo.metadata dir w).1 = a.metadata dir) ∧ ∀ args w, (cargo.list args w).1 = a.list args

/-- What is in the caches is right. -/
structure Agrees (c : Caches) (a : Answers) : Prop where
  metadata : ∀ dir v, c.metadata.lookup dir = some v → a.metadata dir = .ok v
  package : ∀ file v, c.package.lookup file = some v → a.package file = .ok v
  fsModulePath : ∀ file v, c.fsModulePath.lookup file = some v → a.fsModulePath file = .ok v
  flags : ∀ file v, c.flags.lookup file = some v → a.flags file = .ok v
  testNames : ∀ key v, c.testNames.lookup key = some v → ∀ flags args, key = flags ++ args → a.testNames flags args = .ok v

/-- Nothing that was in the caches has changed. -/
structure Extends (c c' : Caches) : Prop where
  metadata : ∀ k v, c.metadata.lookup k = some v → c'.metadata.lookup k = some v
  package : ∀ k v, c.package.lookup k = some v → c'.package.lookup k = some v
  fsModulePath : ∀ k v, c.fsModulePath.lookup k = some v → c'.fsModulePath.lookup k = some v
  flags : ∀ k v, c.flags.lookup k = some v → c'.flags.lookup k = some v
  testNames : ∀ k v, c.testNames.lookup k = some v → c'.testNames.lookup k = some v

end Necessist.Rust
