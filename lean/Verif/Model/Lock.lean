import Verif.Model.Basic
/-!
# Locking the root

Models `lock_root` and `enabled` (core/src/core.rs:506-524), core/src/flock.rs:8-32 (Unix), and where `necessist` calls the former
(core/src/core.rs:144-145; feature `lock_root`). `flock(2)` is modelled as documented: at most one open file description has an
exclusive lock on a directory; `LOCK_NB` fails at once if another has one; without it the caller waits; closing releases, and all
files are closed when a process ends, in whichever way. (Rust opens files with `O_CLOEXEC`, so the tests that necessist executes do not
inherit the lock.)
-/
namespace Necessist.Lock

/-- A process; process identifiers are not reused here. -/
abbrev Pid := Nat
/-- A directory (its inode, so that two paths of the same directory are the same). -/
abbrev Root := Nat

/-- `enabled` (core/src/core.rs:521-524): the variable is set, and not to `0`. -/
def enabled (var : Option Text) : Bool :=
  match var with
  | some v => v != "0".toList
  | none => false

/-- How far a process has got. -/
inductive Phase where
  /-- before `lock_root`; the value of the environment variable `TRYCMD` -/
  | start (root : Root) (trycmd : Option Text)
  /-- in `flock` without `LOCK_NB` -/
  | waiting (root : Root)
  /-- after `lock_root` succeeded: parsing, dumping, running tests, ... -/
  | working (root : Root)
  /-- `lock_root` has failed: "failed to lock ..." -/
  | refused
  /-- ended, in whichever way -/
  | ended
deriving DecidableEq, Repr

/-- The state of the system. -/
structure State where
  phase : Pid → Phase
  /-- who has the lock of a directory -/
  holder : Root → Option Pid
  /-- what has been done in which directory, oldest first -/
  log : List (Pid × Root)

/-- Change what a process does. -/
def State.setPhase (s : State) (p : Pid) (ph : Phase) : State := { s with phase := fun q => if q = p then ph else s.phase q }

/-- One step of one process. -/
inductive Step : State → State → Prop where
  /-- `lock_root` when no other process has the lock -/
  | lock (s p root trycmd) (h : s.phase p = .start root trycmd) (hf : s.holder root = none) :
      Step s { s.setPhase p (.working root) with holder := fun r => if r = root then some p else s.holder r }
  /-- `try_lock_path` when another has it (core/src/flock.rs:15-20) -/
  | refuse (s p root trycmd) (h : s.phase p = .start root trycmd) (ht : enabled trycmd = false) (hf : s.holder root ≠ none) :
      Step s (s.setPhase p .refused)
  /-- `lock_path` when another has it (core/src/flock.rs:8-13) -/
  | wait (s p root trycmd) (h : s.phase p = .start root trycmd) (ht : enabled trycmd = true) (hf : s.holder root ≠ none) :
      Step s (s.setPhase p (.waiting root))
  /-- `lock_path` returns -/
  | wake (s p root) (h : s.phase p = .waiting root) (hf : s.holder root = none) :
      Step s { s.setPhase p (.working root) with holder := fun r => if r = root then some p else s.holder r }
  /-- anything that necessist does in the directory -/
  | act (s p root) (h : s.phase p = .working root) : Step s { s with log := s.log ++ [(p, root)] }
  /-- the process ends: returns, fails, panics or is killed -/
  | exit (s p) : Step s { s.setPhase p .ended with holder := fun r => if s.holder r = some p then none else s.holder r }

/-- Any number of steps. -/
inductive Steps : State → State → Prop where
  | refl (s) : Steps s s
  | step {s t u} (h : Steps s t) (h' : Step t u) : Steps s u

/-- Processes before they have done anything. -/
def initial (start : Pid → Root × Option Text) : State where
  phase p := .start (start p).1 (start p).2
  holder _ := none
  log := []

end Necessist.Lock
