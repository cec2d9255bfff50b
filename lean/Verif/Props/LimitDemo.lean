import Verif.Props.Limit
import Verif.Props.RunDemo
/-! 300 threads are running; the user has set a soft limit of 500 threads, the hard limit is 4000. Each test needs 600 threads more. -/
namespace Necessist.Limit.Demo
open Run

def sys (psOk setOk waitOk : Bool) : Sys (Nat × Nat) where
  base := { Run.Demo.env 99 99 with dryRun := fun w _ => ⟨.ok (), w.warns, w.ext, []⟩ }
  start w soft test _ _ := ⟨.ok ⟨!waitOk, if test = "p".toList then none else some 10, decide (test ≠ "q".toList ∧ 900 ≤ soft)⟩, w.warns, w.ext, []⟩
  ps w := (if psOk then some 300 else none, w.ext)
  get w := (true, w.ext)
  set w n := (setOk || n != 500, w.ext)

def start (init : Option Nat) : World (St (Nat × Nat)) := ⟨Run.Demo.src, some [], .init, [], 0, [], none, [], ⟨500, 4000, init, [], (0, 0)⟩⟩

def run (init : Option Nat) (psOk setOk waitOk : Bool) := runFiles Run.Demo.cfg (limited Run.Demo.cfg (sys psOk setOk waitOk)) Run.Demo.files (start init)

def tests (w : World (St (Nat × Nat))) : List (Text × Nat) :=
  w.ext.seen.filterMap fun e => match e with | (.start _ t, n) => some (t, n) | _ => none
def counts (w : World (St (Nat × Nat))) : List (Option Nat × Nat) :=
  w.ext.seen.filterMap fun e => match e with | (.count a, n) => some (a, n) | _ => none

/-- A complete run. The limit that is set is greater than the one that the user had set: `x;` could not be tested otherwise. -/
example : (run none true true true).1 = .ok () ∧
    ((run none true true true).2.db.map fun rows => rows.map fun r => (r.text, r.outcome)) =
      some [("aa;".toList, "timed-out".toList), ("bb;".toList, "timed-out".toList), (".d()".toList, "failed".toList),
        ("x;".toList, "passed".toList)] ∧
    tests (run none true true true).2 = [("p".toList, 1324), ("p".toList, 1324), ("q".toList, 1324), ("r".toList, 1324)] ∧
    counts (run none true true true).2 = [(some 300, 500)] ∧
    (run none true true true).2.ext.soft = 500 := by decide +kernel
/-- The threads have been counted before. There were many. -/
example : (run (some 10000) true true true).1 = .ok () ∧
    tests (run (some 10000) true true true).2 = [("p".toList, 4000), ("p".toList, 4000), ("q".toList, 4000), ("r".toList, 4000)] ∧
    counts (run (some 10000) true true true).2 = [] := by decide +kernel
/-- There is no `ps`: a panic. -/
example : (run none false true true).1 = .panic ∧ tests (run none false true true).2 = [] ∧
    (run none false true true).2.ext.soft = 500 := by decide +kernel
/-- A test cannot be waited for, or the limit cannot be put back: the soft limit remains changed. -/
example : (run none true true false).1 = .err .io ∧ (run none true true false).2.ext.soft = 1324 ∧
    (run none true false true).1 = .err .io ∧ (run none true false true).2.ext.soft = 1324 := by decide +kernel

/-- The theorems apply. -/
example : (run none true true true).2.ext.soft = 500 :=
  C89_restored Run.Demo.cfg (sys true true true) Run.Demo.files (start none) (by decide) (by decide +kernel)
example : ∃ calls, (run none true true false).2.ext.seen = calls ∧ Right 500 4000 none calls ∧ EndsInTest calls := by
  obtain ⟨calls, h1, h2, _, h4⟩ := C89_limits Run.Demo.cfg (sys true true false) Run.Demo.files (start none) (by decide)
  refine ⟨calls, h1, h2, h4.resolve_left ?_⟩
  show (run none true true false).2.ext.soft ≠ 500
  decide +kernel

end Necessist.Limit.Demo
