import Verif.Model.Walk
/-!
# Which files are searched (specification)
-/
namespace Necessist.Walk
open Parse (Path)
open Framework (Identifier)

/-- The entry is a file, or a link that leads to one. -/
def Entry.IsFile (e : Entry) : Prop := ∃ n, e = .file n ∨ e = .linkFile n

/-- The entry is a directory, or a link that leads to one. -/
def Entry.IsDir (e : Entry) : Prop := ∃ n es, e = .dir n es ∨ e = .linkDir n es

/-- The entry `c` called `name` is in the directory `e`. A directory that a link leads to counts only if the walk starts there. -/
def Contains (start : Bool) (e : Entry) (name : Text) (c : Entry) : Prop :=
  c.name? = some name ∧ ∃ n es, (e = .dir n es ∨ (start = true ∧ e = .linkDir n es)) ∧ c ∈ es

/-- Names that make a file worth looking at. -/
inductive TestName (anchorUsesVitest : Bool) : Identifier → Text → Prop
  | foundry {stem} : TestName anchorUsesVitest .foundry (stem ++ ".t.sol".toList)
  | go {stem} : TestName anchorUsesVitest .go (stem ++ "_test.go".toList)
  | php {stem} : TestName anchorUsesVitest .php (stem ++ "Test.php".toList)
  | rust {stem} : stem ≠ [] → TestName anchorUsesVitest .rust (stem ++ ".rs".toList)
  | hardhat {stem ext} : stem ≠ [] → ext = ".js".toList ∨ ext = ".ts".toList → TestName anchorUsesVitest .hardhat (stem ++ ext)
  | vitest {stem ext} : stem ≠ [] → ext = ".js".toList ∨ ext = ".ts".toList → ¬ ".test-d.ts".toList <:+ stem ++ ext →
      TestName anchorUsesVitest .vitest (stem ++ ext)
  | anchor {stem ext} : stem ≠ [] → ext = ".js".toList ∨ ext = ".ts".toList →
      (anchorUsesVitest = true → ¬ ".test-d.ts".toList <:+ stem ++ ext) → TestName anchorUsesVitest .anchor (stem ++ ext)

/-- Names of entries that are not looked at or into: Rust's `target`, and PHP's directories `vendor`. -/
inductive Reserved : Identifier → Text → Entry → Prop
  | rust {c} : Reserved .rust "target".toList c
  | php {c : Entry} : c.IsDir → Reserved .php "vendor".toList c

/-- Hidden files: those whose names begin with a dot. -/
def Hidden (name : Text) : Prop := ∃ rest, name = '.' :: rest

/-- The entry `c` called `name`, at the path `p`, is left out: by `.gitignore` and the like; or because it is hidden, and those don't say
otherwise; or because it has a reserved name; or because it is a file whose name is not that of a test. -/
inductive LeftOut (v : Bool) (fw : Identifier) (rule : Path → Bool → Verdict) (p : Path) (name : Text) (c : Entry) : Prop
  | ignored : rule p c.isDir = .ignore → LeftOut v fw rule p name c
  | hidden : rule p c.isDir = .nothing → Hidden name → LeftOut v fw rule p name c
  | reserved : Reserved fw name c → LeftOut v fw rule p name c
  | name : c.IsFile → ¬ TestName v fw name → LeftOut v fw rule p name c

/-- `x`, at the path `q`, is `e`, which is at the path `p`; or in it, or in a directory in it, and so on, neither being left out nor being in
something that is left out. -/
inductive Found (v : Bool) (fw : Identifier) (rule : Path → Bool → Verdict) : (start : Bool) → Path → Entry → Path → Entry → Prop
  | here {start p e} : Found v fw rule start p e p e
  | inside {start p e name c q x} : Contains start e name c → ¬ LeftOut v fw rule (p ++ [name]) name c →
      Found v fw rule false (p ++ [name]) c q x → Found v fw rule start p e q x

/-- The subdirectory in which a framework looks, when told to look in a directory. -/
def subdirectory : Identifier → List Text
  | .anchor => ["tests".toList]
  | .foundry => ["test".toList]
  | .hardhat => ["test".toList]
  | .go | .php | .rust | .vitest => []

/-- When told to look at `p`, the framework looks at the file at `q`: `q` is `p`, whatever its name; or `p` is a directory, and the file is
found in the framework's subdirectory. -/
def LooksAt (disk : Entry) (v : Bool) (fw : Identifier) (rule : Path → Bool → Verdict) (p q : Path) : Prop :=
  (q = p ∧ ∃ e, disk.at? p = some e ∧ e.IsFile) ∨
  ∃ d e x, disk.at? p = some d ∧ d.IsDir ∧ disk.at? (p ++ subdirectory fw) = some e ∧
    Found v fw rule true (p ++ subdirectory fw) e q x ∧ x.IsFile

/-- When told to look at `p`, the framework comes upon something that cannot be read: its subdirectory does not exist, or there is
something unreadable in it, or in a directory that is found in it. -/
def Unreadable (disk : Entry) (v : Bool) (fw : Identifier) (rule : Path → Bool → Verdict) (p : Path) : Prop :=
  ∃ d, disk.at? p = some d ∧ d.IsDir ∧
    (disk.at? (p ++ subdirectory fw) = none ∨
     ∃ e, disk.at? (p ++ subdirectory fw) = some e ∧
       ((e.IsDir ∧ ∃ err, .error err ∈ e.entries) ∨
        ∃ q n es err, Found v fw rule true (p ++ subdirectory fw) e q (.dir n es) ∧ .error err ∈ es))

end Necessist.Walk
