import Verif.Model.Span
/-!
# Caches

Models backends/src/rust/try_insert.rs and `SourceFile::new` (core/src/source_file.rs:41-75). A map is an association list, looked up
from the front.
-/
namespace Necessist.Cache

/-- `Entry::or_try_insert_with` (backends/src/rust/try_insert.rs:12-26). `default` may itself use state. -/
def orTryInsertWith {κ ν ε σ} [BEq κ] (k : κ) (default : σ → Except ε ν × σ) (m : List (κ × ν)) (s : σ) :
    Except ε ν × List (κ × ν) × σ :=
  match m.lookup k with
  | some v => (.ok v, m, s)
  | none => match default s with
    | (.error e, s') => (.error e, m, s')
    | (.ok v, s') => (.ok v, (k, v) :: m, s')

/-- A sequence of requests to one cache. With each goes what its computation would give at that time. The state counts the
computations that are made. -/
def requests {κ ν ε} [BEq κ] : List (κ × Except ε ν) → List (κ × ν) → Nat → List (Except ε ν × Bool)
  | [], _, _ => []
  | (k, r) :: rest, m, n =>
    match orTryInsertWith k (fun n => (r, n + 1)) m n with
    | (a, m', n') => (a, n' != n) :: requests rest m' n'

/-- A path, by its components. -/
abbrev Path := List Text

/-- `ROOT` and `SOURCE_FILES` (core/src/source_file.rs:14-17): the root, if set, and the contents of the files by path. The offset
calculators are not modelled: they are functions of the contents. -/
structure Files where
  root : Option Path
  files : List (Path × Text)

/-- A source file, as a value. -/
structure File where
  root : Path
  path : Path
  contents : Text
deriving DecidableEq, Repr

/-- `SourceFile::new` (core/src/source_file.rs:41-75). `read` is the file system at the time of the call (`none`: reading fails). Outer
`none`: an assertion fails. `root.is_absolute()` is not modelled. -/
def new (read : Path → Option Text) (root path : Path) (st : Files) : Option (Option File) × Files :=
  if st.root ≠ none ∧ st.root ≠ some root then (none, st)
  else if ¬ root.isPrefixOf path then (none, { st with root := some root })
  else match st.files.lookup path with
    | some t => (some (some ⟨root, path, t⟩), { st with root := some root })
    | none => match read path with
      | none => (some none, { st with root := some root })
      | some t => (some (some ⟨root, path, t⟩), ⟨some root, (path, t) :: st.files⟩)

/-- A history of calls. Each comes with the file system at its time. -/
def news : List ((Path → Option Text) × Path × Path) → Files → List (Option (Option File))
  | [], _ => []
  | (read, root, path) :: rest, st => match new read root path st with
    | (a, st') => a :: news rest st'

end Necessist.Cache
