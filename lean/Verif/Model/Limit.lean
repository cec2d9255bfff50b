import Verif.Model.Run
/-!
# The limit on the number of threads

Models the feature `limit_threads`, which is on by default (core/Cargo.toml:64): `perform_exec` of core/src/core.rs:820-869 with the lines
that `Run.performExec` leaves out, and `mod rlimit` of core/src/core.rs:968-1001. What `ps`, `getrlimit` and `setrlimit` do are parameters.
Simplification: nothing but Necessist changes the limits of its process.
-/
namespace Necessist.Limit
open Run

/-- What is executed, as far as it matters here. -/
inductive Call where
  /-- the threads are counted: the answer, if there is one -/
  | count (answer : Option Nat)
  /-- a test is started -/
  | start (c : Span) (test : Text)
  /-- anything else -/
  | other
deriving DecidableEq, Repr

/-- The state of the outside world, with the limits of this process for `RLIMIT_NPROC`. -/
structure St (σ : Type) where
  soft : Nat
  hard : Nat
  /-- `NPROC_INIT`, if its value is known (core/src/core.rs:976-980) -/
  init : Option Nat
  /-- what was executed so far, and the soft limit each time -/
  seen : List (Call × Nat)
  rest : σ

/-- What is around. -/
structure Sys (σ : Type) where
  /-- everything else; `start` is not used -/
  base : Env σ
  /-- `exec.start`, given the soft limit -/
  start : World σ → Nat → Text → Span → Text → Reply σ Proc
  /-- `ps -eL`: the number of lines it prints, unless it cannot be executed or does not print UTF-8 -/
  ps : World σ → Option Nat × σ
  /-- whether `getrlimit` succeeds -/
  get : World σ → Bool × σ
  /-- whether `setrlimit` succeeds, given the soft limit to be set -/
  set : World σ → Nat → Bool × σ

variable {σ α : Type}

/-- The world without the limits. -/
def forget (w : World (St σ)) : World σ := ⟨w.fs, w.db, w.warns, w.out, w.progress, w.trace, w.instr, w.past, w.ext.rest⟩

/-- Something is executed with the current limits. -/
def call (c : Call) (f : World σ → Nat → Reply σ α) (w : World (St σ)) : Reply (St σ) α :=
  let r := f (forget w) w.ext.soft
  ⟨r.res, r.warns, { w.ext with seen := w.ext.seen ++ [(c, w.ext.soft)], rest := r.ext }, r.said⟩

/-- The value of `NPROC_INIT` (core/src/core.rs:976-980), a `LazyLock`: it is computed when it is first needed. -/
def nprocInit (x : Sys σ) : M (St σ) Nat := fun w =>
  match w.ext.init with
  | some n => (.ok n, w)
  | none =>
    match x.ps (forget w) with
    | (some n, rest) => (.ok n, { w with ext := { w.ext with init := some n, seen := w.ext.seen ++ [(.count (some n), w.ext.soft)], rest } })
    | (none, rest) => (.panic, { w with ext := { w.ext with seen := w.ext.seen ++ [(.count none, w.ext.soft)], rest } })

/-- `NPROC_ALLOWANCE` (core/src/core.rs:991). -/
def allowance : Nat := 1024

/-- `getrlimit` -/
def getLimits (x : Sys σ) : M (St σ) (Nat × Nat) := fun w =>
  match x.get (forget w) with
  | (true, rest) => (.ok (w.ext.soft, w.ext.hard), { w with ext := { w.ext with rest } })
  | (false, rest) => (.err .io, { w with ext := { w.ext with rest } })

/-- `setrlimit` -/
def setLimits (x : Sys σ) (soft hard : Nat) : M (St σ) Unit := fun w =>
  match x.set (forget w) soft with
  | (true, rest) => (.ok (), { w with ext := { w.ext with soft, hard, rest } })
  | (false, rest) => (.err .io, { w with ext := { w.ext with rest } })

/-- `set_soft_rlimit` (core/src/core.rs:993-999). -/
def setSoft (x : Sys σ) (limit : Nat) : M (St σ) Nat :=
  bind (getLimits x) fun p =>
  bind (setLimits x (min p.2 limit) p.2) fun _ =>
  ret p.1

/-- Everything but tests: as without the limit. -/
def unlimited (x : Sys σ) : Env (St σ) where
  ctrlc w := ((x.base.ctrlc (forget w)).1,
    { w.ext with seen := w.ext.seen ++ [(.other, w.ext.soft)], rest := (x.base.ctrlc (forget w)).2 })
  dryRun w f := call .other (fun w _ => x.base.dryRun w f) w
  backup w f := call .other (fun w _ => x.base.backup w f) w
  write w f t := ((x.base.write (forget w) f t).1,
    { w.ext with seen := w.ext.seen ++ [(.other, w.ext.soft)], rest := (x.base.write (forget w) f t).2 })
  instrFile w f n := call .other (fun w _ => x.base.instrFile w f n) w
  wrap w s := call .other (fun w _ => x.base.wrap w s) w
  build w f := call .other (fun w _ => x.base.build w f) w
  exec w t s := call .other (fun w _ => x.base.exec w t s) w
  start w t s i := call (.start s t) (fun w n => x.start w n t s i) w
  post w := call .other (fun w _ => x.base.post w) w
  kill w := call .other (fun w _ => x.base.kill w) w
  reap w := call .other (fun w _ => x.base.reap w) w
  insert w s := call .other (fun w _ => x.base.insert w s) w

/-- `perform_exec` (core/src/core.rs:820-869), with the limit. -/
def performExec (cfg : Cfg) (x : Sys σ) (c : Candidate) (t : Text) (hasPost : Bool) : M (St σ) (Option Outcome) :=
  bind (note (.startTest c t (cfg.ident c.span))) fun _ =>
  bind (nprocInit x) fun n =>
  bind (setSoft x (n + allowance)) fun prev =>
  bind (ask fun w => (unlimited x).start w t c.span (cfg.ident c.span)) fun p =>
  bind (fun w => (waitFor (timeoutMs cfg) p, w)) fun status =>
  bind (setSoft x prev) fun _ =>
  match status with
  | some success =>
    bind (if hasPost then ask (unlimited x).post else ret true) fun ran =>
    ret (if ran then some (if success then .passed else .failed) else none)
  | none =>
    bind (note (.kill c t)) fun _ =>
    bind (ask (unlimited x).kill) fun _ =>
    bind (ask (unlimited x).reap) fun _ =>
    ret (some .timedOut)

/-- Put the limit back when the process has been waited for. That this fails is passed on as a failure to wait. -/
def putBack (cfg : Cfg) (x : Sys σ) (prev : Nat) (p : Proc) : M (St σ) Proc := fun w =>
  match waitFor (timeoutMs cfg) p with
  | .ok _ =>
    match setSoft x prev w with
    | (.ok _, w) => (.ok p, w)
    | (.err _, w) => (.ok { p with waitFails := true }, w)
    | (.panic, w) => (.panic, w)
    | (.hang, w) => (.hang, w)
  | _ => (.ok p, w)

/-- Starting a test, with all that concerns the limit. -/
def start (cfg : Cfg) (x : Sys σ) (t : Text) (s : Span) (i : Text) : M (St σ) Proc :=
  bind (nprocInit x) fun n =>
  bind (setSoft x (n + allowance)) fun prev =>
  bind (ask fun w => (unlimited x).start w t s i) fun p =>
  putBack cfg x prev p

/-- Everything around the run loop, such that `Run.performExec` does what `performExec` does. See `C89_model`. -/
def limited (cfg : Cfg) (x : Sys σ) : Env (St σ) := { unlimited x with start := fun w t s i => reply (start cfg x t s i) w }

end Necessist.Limit
