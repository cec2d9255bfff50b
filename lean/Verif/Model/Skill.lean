import Verif.Model.Directives
/-!
# `--check-skill` and `--find-skill`

Models core/src/skill.rs. YAML parsing (`yaml_serde`) and version parsing and comparison (`semver`) are parameters; so is
whether system calls succeed. A failed write may leave anything behind.
-/
namespace Necessist.Skill

/-- An absolute path, as its components. -/
abbrev Path := List Text

/-- What there is at a path. -/
inductive Node where
  | absent
  | file (contents : Text)
  /-- a directory -/
  | dir
  /-- exists but `read_to_string` fails (no permission, not UTF-8) -/
  | unreadable
  /-- `try_exists` fails -/
  | unknown
deriving DecidableEq, Repr

/-- A file system. Simplification: no two paths are the same file (no links). -/
abbrev FS := Path → Node

/-- `Mode` (core/src/skill.rs:27-31). -/
inductive Mode where
  | check | find
deriving DecidableEq, Repr

/-- `Status` (core/src/skill.rs:57-62). -/
inductive Status where
  | nonexistent | old | current | newer
deriving DecidableEq, Repr

/-- `Status::exit_code` (core/src/skill.rs:66-71): 1 is `ExitCode::FAILURE`, 0 is `ExitCode::SUCCESS`. -/
def Status.exitCode : Status → Nat
  | .nonexistent | .old => 1
  | .current | .newer => 0

/-- What is known of a YAML mapping: `name` if it is a string (core/src/skill.rs:204-206), `metadata.version` if it is a string
in a mapping (core/src/skill.rs:209-213). -/
structure Header where
  name : Option Text
  version : Option Text
deriving DecidableEq, Repr

/-- The parts of the world that are parameters. -/
structure World (V : Type) where
  /-- `SKILL` (core/src/skill.rs:16) -/
  skill : Text
  /-- `SKILL_VERSION` (core/src/skill.rs:19-22) -/
  skillVersion : V
  /-- `yaml_serde::from_str::<Mapping>` -/
  yaml : Text → Option Header
  /-- `Version::from_str` -/
  parseVersion : Text → Option V
  /-- `Version::cmp` -/
  cmp : V → V → Ordering
  /-- `Display for Version` -/
  showVersion : V → Text
  /-- `fs::write`: `none` if it succeeds, else what it leaves behind -/
  writeFails : Path → Option Node
  /-- `fs::create_dir_all`: `none` if it succeeds, else which of the missing directories it created before failing -/
  mkdirFails : Path → Option (Path → Bool)

variable {V : Type}

/-- Result, file system, lines printed on the standard output. An error has no further description. -/
structure Ran (α : Type) where
  result : Option α
  fs : FS
  out : List Text

/-- One node changed. -/
def FS.set (fs : FS) (p : Path) (n : Node) : FS := fun q => if q = p then n else fs q

/-- `fs::write(path, SKILL)`; whether it succeeded. -/
def writeSkill (w : World V) (p : Path) (fs : FS) : Bool × FS :=
  match w.writeFails p with
  | none => (true, fs.set p (.file w.skill))
  | some n => (false, fs.set p n)

/-- `fs::create_dir_all(parent)`: the missing ancestors of `p` become directories. -/
def mkdirs (w : World V) (p : Path) (fs : FS) : Bool × FS :=
  match w.mkdirFails p with
  | none => (true, fun q => if q ≠ p ∧ q <+: p ∧ fs q = .absent then .dir else fs q)
  | some made => (false, fun q => if q ≠ p ∧ q <+: p ∧ fs q = .absent ∧ made q = true then .dir else fs q)

/-- `take_while` then `nth` (core/src/skill.rs:193-197): the lines before the first `---`, if there is one. -/
def untilDashes : List Text → Option (List Text)
  | [] => none
  | l :: ls => if l = "---".toList then some [] else (untilDashes ls).map (l :: ·)

/-- The text that `skill_header` passes to the YAML parser (core/src/skill.rs:188-200). -/
def headerText (contents : Text) : Option Text :=
  match lines contents with
  | [] => none
  | l :: ls => if l = "---".toList then (untilDashes ls).map fun hs => hs.flatMap (· ++ ['\n']) else none

/-- `skill_header` (core/src/skill.rs:188-202). -/
def skillHeader (w : World V) (contents : Text) : Option Header := (headerText contents).bind w.yaml

/-- `skill_version` (core/src/skill.rs:208-218). -/
def skillVersion? (w : World V) (h : Header) : Option V := h.version.bind w.parseVersion

/-- A path as displayed. -/
def showPath (p : Path) : Text := '/' :: List.intercalate ['/'] p

/-- `maybe_write_skill` (core/src/skill.rs:178-186): the status and whether the skill was written. A path without a parent is an
error. -/
def maybeWrite (w : World V) (p : Path) (write : Bool) (fs : FS) : Option (Status × Bool) × FS :=
  if write then
    if p = [] then (none, fs)
    else match mkdirs w p fs with
      | (false, fs) => (none, fs)
      | (true, fs) => match writeSkill w p fs with
        | (false, fs) => (none, fs)
        | (true, fs) => (some (.current, true), fs)
  else (some (.nonexistent, false), fs)

/-- `maybe_update_skill` (core/src/skill.rs:222-228). -/
def maybeUpdate (w : World V) (p : Path) (write : Bool) (fs : FS) : Option (Status × Bool) × FS :=
  if write then
    match writeSkill w p fs with
    | (false, fs) => (none, fs)
    | (true, fs) => (some (.current, true), fs)
  else (some (.old, false), fs)

/-- The beginning of every message. -/
def skillAt (p : Path) : Text := "skill at `".toList ++ showPath p ++ "` ".toList

/-- The comparison at core/src/skill.rs:150-172. -/
def checkVersion (w : World V) (p : Path) (write : Bool) (v : V) (fs : FS) : Ran Status :=
  match w.cmp w.skillVersion v with
  | .lt => ⟨some .newer, fs, [skillAt p ++ ("is a newer version (".toList ++ w.showVersion v ++
      "); consider updating the `necessist` binary".toList)]⟩
  | .eq => ⟨some .current, fs, [skillAt p ++ "is the current version".toList]⟩
  | .gt => match maybeUpdate w p write fs with
    | (none, fs) => ⟨none, fs, []⟩
    | (some (s, true), fs) => ⟨some s, fs, [skillAt p ++ ("was an old version (".toList ++ w.showVersion v ++ "); updated".toList)]⟩
    | (some (s, false), fs) => ⟨some s, fs, [skillAt p ++ ("is an old version (".toList ++ w.showVersion v ++
        "); pass `--write` to update to the current version".toList)]⟩

/-- `check_impl` (core/src/skill.rs:122-173). -/
def checkImpl (w : World V) (mode : Mode) (p : Path) (write : Bool) (fs : FS) : Ran Status :=
  match fs p with
  | .unknown => ⟨none, fs, []⟩
  | .absent =>
    match mode with
    | .find => ⟨some .nonexistent, fs, [skillAt p ++ "does not exist".toList]⟩
    | .check => match maybeWrite w p write fs with
      | (none, fs) => ⟨none, fs, []⟩
      | (some (s, true), fs) => ⟨some s, fs, [skillAt p ++ "did not exist; written".toList]⟩
      | (some (s, false), fs) => ⟨some s, fs, [skillAt p ++ "does not exist; pass `--write` to write the current version".toList]⟩
  | .dir | .unreadable => ⟨none, fs, []⟩
  | .file contents =>
    match skillHeader w contents with
    | none => ⟨none, fs, []⟩
    | some h =>
      if h.name = some "necessist-audit".toList then
        match skillVersion? w h with
        | none => ⟨none, fs, []⟩
        | some v => checkVersion w p write v fs
      else ⟨none, fs, []⟩

/-- `well_known_paths` (core/src/skill.rs:114-120). -/
def wellKnownPaths (home : Path) : List Path :=
  [".claude", ".codex"].map fun d => home ++ [d.toList, "skills".toList, "necessist-audit".toList, "SKILL.md".toList]

/-- The loop of `find_impl` (core/src/skill.rs:103-109). -/
def findLoop (w : World V) (write : Bool) : List Path → Status → FS → Ran Status
  | [], status, fs => ⟨some status, fs, []⟩
  | p :: ps, status, fs =>
    match checkImpl w .find p write fs with
    | ⟨none, fs, out⟩ => ⟨none, fs, out⟩
    | ⟨some s, fs, out⟩ =>
      let r := findLoop w write ps (if status.exitCode = 0 then s else status) fs
      ⟨r.result, r.fs, out ++ r.out⟩

/-- `find` and `find_impl` (core/src/skill.rs:95-111); `home` is the home directory, if it can be determined. -/
def find (w : World V) (home : Option Path) (write : Bool) (fs : FS) : Ran Status :=
  match home with
  | none => ⟨none, fs, []⟩
  | some home => findLoop w write (wellKnownPaths home) .current fs

/-- `warn_if_not_well_known` (core/src/skill.rs:81-93): what is printed on the standard error. -/
def warnIfNotWellKnown (home : Option Path) (p : Path) : List Text :=
  match home with
  | none => []
  | some home => if (wellKnownPaths home).any (· == p) then [] else
      ["Warning: `".toList ++ showPath p ++ "` is not a path that `--find-skill` checks".toList]

/-- `check` (core/src/skill.rs:74-77), without the warning. -/
def check (w : World V) (p : Path) (write : Bool) (fs : FS) : Ran Status := checkImpl w .check p write fs

end Necessist.Skill
