import Verif.Model.Parse
import Verif.Model.Rust
import Verif.Model.Framework
/-!
# Walking directories

Models the frameworks' `walk_dir`, which all use `ignore::WalkBuilder` with its defaults (hidden and ignored entries are left out, links
are not followed) and a filter, and how `ParseAdapter::parse` tells directories from files (backends/src/parsing.rs:462-478).
Paths are sequences of names; what is not UTF-8 is not modelled.
-/
namespace Necessist.Walk
open Parse (Path PathKind Backend)
open Run (Err)

/-- What is in a directory. -/
inductive Entry where
  | dir (name : Text) (entries : List Entry)
  | file (name : Text)
  /-- a symbolic link that leads to a file -/
  | linkFile (name : Text)
  /-- a symbolic link that leads to a directory, with what is in that. (It is looked at only where a walk starts.) -/
  | linkDir (name : Text) (entries : List Entry)
  /-- sockets, dangling links, … -/
  | other (name : Text)
  /-- Something that cannot be read. A directory that cannot be read is one that contains this. -/
  | error (e : Err)

/-- `file_name` -/
def Entry.name? : Entry → Option Text
  | .dir n _ | .file n | .linkFile n | .linkDir n _ | .other n => some n
  | .error _ => none

/-- `Path::is_file`, which follows links -/
def Entry.isFile : Entry → Bool
  | .file _ | .linkFile _ => true
  | _ => false

/-- `Path::is_dir`, which follows links -/
def Entry.isDir : Entry → Bool
  | .dir _ _ | .linkDir _ _ => true
  | _ => false

/-- `read_dir` of a path -/
def Entry.entries : Entry → List Entry
  | .dir _ es | .linkDir _ es => es
  | _ => []

/-- What is at a path, starting from `e`. -/
def Entry.at? : Entry → Path → Option Entry
  | e, [] => some e
  | e, n :: p => (e.entries.find? fun c => c.name? == some n).bind fun c => c.at? p

/-- The frameworks' ways to find files. -/
inductive Walker where
  | foundry | go | php | rust
  /-- `ts::Mocha`, with `subdir` -/
  | mocha (subdir : Text)
  /-- `ts::Vitest`, with `subdir`; `none` is `.` -/
  | vitest (subdir : Option Text)

/-- Which framework uses which (backends/src/hardhat/mod.rs:23, backends/src/vitest/mod.rs:23, backends/src/anchor/mod.rs:45-48;
Anchor's depends on its test runner). -/
def walkerOf (anchorUsesVitest : Bool) : Framework.Identifier → Walker
  | .anchor => if anchorUsesVitest then .vitest (some "tests".toList) else .mocha "tests".toList
  | .foundry => .foundry
  | .go => .go
  | .hardhat => .mocha "test".toList
  | .php => .php
  | .rust => .rust
  | .vitest => .vitest none

/-- Where the walk of the directory `p` starts (backends/src/foundry/mod.rs:175, go/mod.rs:241, php/mod.rs:273, rust/mod.rs:413,
ts/inner/mod.rs:277). -/
def Walker.start : Walker → Path → Path
  | .foundry, p => p ++ ["test".toList]
  | .mocha s, p => p ++ [s]
  | .vitest (some s), p => p ++ [s]
  | .vitest none, p | .go, p | .php, p | .rust, p => p

/-- `Path::extension` of a path with this file name. -/
def extension (name : Text) : Option Text :=
  let after := (name.reverse.takeWhile (· != '.')).reverse
  let before := ((name.reverse.dropWhile (· != '.')).drop 1).reverse
  if before = [] then none else some after

/-- `path_predicate` (backends/src/ts/vitest.rs:40-45). -/
def notTypeTest (name : Text) : Bool := !".test-d.ts".toList.isSuffixOf name

/-- The extensions looked for in TypeScript (backends/src/ts/inner/mod.rs:283-284). -/
def isScript (name : Text) : Bool := extension name == some "js".toList || extension name == some "ts".toList

/-- The argument of `filter_entry` (backends/src/foundry/mod.rs:176-179, go/mod.rs:242-245, php/mod.rs:274-280, rust/mod.rs:414-418,
ts/inner/mod.rs:278-286), for the entry `c` at the path `p` called `name`. -/
def Walker.filter (w : Walker) (p : Path) (name : Text) (c : Entry) : Bool :=
  match w with
  | .foundry => !c.isFile || ".t.sol".toList.isSuffixOf (Rust.showPath p)
  | .go => !c.isFile || "_test.go".toList.isSuffixOf (Rust.showPath p)
  | .php => if c.isDir then name != "vendor".toList else "Test.php".toList.isSuffixOf (Rust.showPath p)
  | .rust => name != "target".toList && (!c.isFile || extension name == some "rs".toList)
  | .mocha _ => !c.isFile || isScript name
  | .vitest _ => !c.isFile || (isScript name && notTypeTest name)

/-- What `.gitignore`, `.ignore` and so on say about a path: nothing, that it is to be ignored, or that it is not. (`ignore`'s
`Ignore::matched_ignore`, not modelled further.) -/
inductive Verdict where
  | nothing | ignore | keep
deriving DecidableEq

/-- `is_hidden` -/
def hidden (name : Text) : Bool := name.head? == some '.'

/-- `Ignore::matched_dir_entry`: a hidden entry is left out unless it is to be kept. -/
def matched (v : Verdict) (name : Text) : Bool :=
  match v with
  | .ignore => true
  | .keep => false
  | .nothing => hidden name

/-- Whether `ignore` leaves out an entry (`Walk::skip_entry`; never called for where the walk starts). -/
def skips (w : Walker) (rule : Path → Bool → Verdict) (p : Path) (name : Text) (c : Entry) : Bool :=
  matched (rule p c.isDir) name || !w.filter p name c

mutual
/-- An entry `c` of the directory `p`, with what is below: depth first, a directory before its entries. -/
def walkEntry (w : Walker) (rule : Path → Bool → Verdict) (p : Path) : Entry → List (Except Err (Path × Bool))
  | .error e => [.error e]
  | .dir n es =>
    if skips w rule (p ++ [n]) n (.dir n es) then [] else .ok (p ++ [n], false) :: walkEntries w rule (p ++ [n]) es
  | .file n => if skips w rule (p ++ [n]) n (.file n) then [] else [.ok (p ++ [n], true)]
  | .linkFile n => if skips w rule (p ++ [n]) n (.linkFile n) then [] else [.ok (p ++ [n], true)]
  | .linkDir n es => if skips w rule (p ++ [n]) n (.linkDir n es) then [] else [.ok (p ++ [n], false)]
  | .other n => if skips w rule (p ++ [n]) n (.other n) then [] else [.ok (p ++ [n], false)]
/-- The entries of the directory `p`. -/
def walkEntries (w : Walker) (rule : Path → Bool → Verdict) (p : Path) : List Entry → List (Except Err (Path × Bool))
  | [] => []
  | c :: cs => walkEntry w rule p c ++ walkEntries w rule p cs
end

/-- `walk_dir` of the directory `p`, as seen by the loop in `parse` (backends/src/parsing.rs:465-473): each entry's path and whether it is a
file. What the walk starts from is not filtered, and a link there is followed. (The error that the files of parent directories with
ignore rules may cause is not modelled.) -/
def walkDir (disk : Entry) (w : Walker) (rule : Path → Bool → Verdict) (p : Path) : List (Except Err (Path × Bool)) :=
  match disk.at? (w.start p) with
  | none => [.error .io]
  | some e => .ok (w.start p, e.isFile) :: walkEntries w rule (w.start p) e.entries

/-- What a path is (backends/src/parsing.rs:463, 474). -/
def kindOf (disk : Entry) (w : Walker) (rule : Path → Bool → Verdict) (p : Path) : PathKind :=
  match disk.at? p with
  | none => .other
  | some e => if e.isDir then .dir (walkDir disk w rule p) else if e.isFile then .file else .other

end Necessist.Walk
