import Verif.Model.Basic
/-!
# Killing a process tree

Models `transitive_kill` and `child_processes` (core/src/core.rs:1012-1066).
-/
namespace Necessist.Kill

/-- A process identifier. -/
abbrev Pid := Nat

/-- How far the loop has got. -/
inductive Progress where
  /-- the loop has more to do -/
  | running
  /-- `Ok(())` -/
  | done
  /-- `child_processes` failed, or printed something that is not a number -/
  | failed
deriving DecidableEq, Repr

/-- At most `n` iterations of the loop of `transitive_kill` (core/src/core.rs:1015-1034). `ch` is `child_processes` with its lines
parsed; the head of the list is the top of the stack. Returned: how far it got, and the processes that `kill` was run on, in order.
Simplifications: the tree of processes does not change meanwhile (apart from killing: `pgrep` on a process precedes killing it and
its children), and running `kill` succeeds. -/
def run (ch : Pid → Option (List Pid)) : Nat → List (Pid × Bool) → List Pid → Progress × List Pid
  | _, [], killed => (.done, killed)
  | 0, _ :: _, killed => (.running, killed)
  | n + 1, (pid, true) :: pids, killed => run ch n pids (killed ++ [pid])
  | n + 1, (pid, false) :: pids, killed =>
    match ch pid with
    | none => (.failed, killed)
    | some cs => run ch n ((cs.map fun c => (c, false)).reverse ++ (pid, true) :: pids) killed

/-- `transitive_kill` (core/src/core.rs:1012-1037), with at most `n` iterations. -/
def transitiveKill (ch : Pid → Option (List Pid)) (n : Nat) (pid : Pid) : Progress × List Pid := run ch n [(pid, false)] []

end Necessist.Kill
