import Verif.Model.Run
/-!
# Timeouts and interrupts (specification)
-/
namespace Necessist.Run

/-- A process outlives the timeout given by the option: no option means 60 seconds, 0 means no timeout, `n` means `n`
seconds. Durations are in milliseconds, `none` meaning forever. -/
def Outlives (option : Option Nat) (duration : Option Nat) : Prop :=
  ∃ seconds, (option = none ∧ seconds = 60 ∨ option = some seconds ∧ seconds ≠ 0) ∧
    ∀ d, duration = some d → seconds * 1000 < d

/-- Work after which Ctrl-C must be looked at: a dry run, or a test of a candidate. -/
def IsWork : Event → Prop
  | .dryRun _ => True
  | .tested _ _ _ => True
  | _ => False

/-- Given that `x` is such work, `y` must not happen before Ctrl-C has been looked at: recording anything, going on to
another file, to instrumenting or to (another) candidate. -/
def MustWait (x : Event) : Event → Prop
  | .insert _ => True
  | .dryRun _ => True
  | .buildFile _ => True
  | .buildTest c _ | .startTest c _ _ => ∀ t r, x ≠ .tested c t r
  | _ => False

/-- The process of some execution of the test for the candidate, as the outside starts it. -/
def Started {σ} (cfg : Cfg) (env : Env σ) (c : Candidate) (t : Text) (p : Proc) : Prop :=
  ∃ w, (env.start w t c.span (cfg.ident c.span)).res = .ok p

/-- A result has a reason: "timed out" (and a kill) that a process outlived the timeout; "passed" and "failed" that a process ended in
time, successfully or not; "nonbuildable" that the framework said so; no result, that the framework said that the test did not run. -/
def Justified {σ} (cfg : Cfg) (env : Env σ) : Event → Prop
  | .kill c t | .tested c t (some .timedOut) => ∃ p, Started cfg env c t p ∧ Outlives cfg.timeout p.duration
  | .tested c t (some .passed) => ∃ p d, Started cfg env c t p ∧ p.duration = some d ∧ ¬ Outlives cfg.timeout p.duration ∧ p.success = true
  | .tested c t (some .failed) => ∃ p d, Started cfg env c t p ∧ p.duration = some d ∧ ¬ Outlives cfg.timeout p.duration ∧ p.success = false
  | .tested c t (some .nonbuildable) => ∃ w, (env.exec w t c.span).res = .ok none
  | .tested _ _ (some .skipped) => False
  | .tested _ _ none => ∃ w, (env.post w).res = .ok false
  | _ => True

/-- Something outside does not return: a call of the framework's or of the operating system's, or a test process, and then there is no
timeout. -/
inductive Waits {σ} (cfg : Cfg) (env : Env σ) : Prop
  | dryRun (w f) : (env.dryRun w f).res = .hang → Waits cfg env
  | backup (w f) : (env.backup w f).res = .hang → Waits cfg env
  | instrFile (w f n) : (env.instrFile w f n).res = .hang → Waits cfg env
  | wrap (w s) : (env.wrap w s).res = .hang → Waits cfg env
  | build (w f) : (env.build w f).res = .hang → Waits cfg env
  | exec (w t s) : (env.exec w t s).res = .hang → Waits cfg env
  | start (w t s i) : (env.start w t s i).res = .hang → Waits cfg env
  | post (w) : (env.post w).res = .hang → Waits cfg env
  | kill (w) : (env.kill w).res = .hang → Waits cfg env
  | reap (w) : (env.reap w).res = .hang → Waits cfg env
  | insert (w s) : (env.insert w s).res = .hang → Waits cfg env
  | test (c t p) : Started cfg env c t p → p.duration = none → cfg.timeout = some 0 → Waits cfg env

end Necessist.Run
