import Verif.Props.Restore
/-! A concrete environment, to show that the hypotheses of the theorems about runs are met by non-trivial runs. -/
namespace Necessist.Run.Demo

def t : SourceFile := ⟨["t.rs".toList]⟩
def u : SourceFile := ⟨["u.rs".toList]⟩
def src : SourceFile → Text := fun f =>
  if f = t then "aa;bb;cc.d();".toList else if f = u then "x;y;".toList else []
def cand (f : SourceFile) (k : SpanKind) (a b : Nat) (ts : List String) : Candidate :=
  ⟨⟨f, ⟨1, a⟩, ⟨1, b⟩⟩, k, ts.map (·.toList)⟩
def c1 := cand t .statement 0 3 ["p", "q"]
def c2 := cand t .statement 3 6 ["p"]
def c3 := cand t .methodCall 8 12 ["q"]
def d1 := cand u .statement 0 2 ["r"]
def d2 := cand u .statement 2 4 ["r"]
def files : List (SourceFile × List Candidate) := [(t, [c1, c2, c3]), (u, [d1])]
def cfg : Cfg := ⟨src, ⟨[], [], false⟩, false, none, Span.display⟩

/-- Test `q` fails, others pass; `t.rs` can be instrumented; the dry run of `u.rs` fails; Ctrl-C is pressed before the
flag is read for the `n`-th time, and the database fails at the `k`-th insertion. -/
def env (ctrlcAt failAt : Nat) : Env (Nat × Nat) where
  ctrlc w := (decide (w.ext.1 = ctrlcAt), (w.ext.1 + 1, w.ext.2))
  dryRun w f := ⟨if f = u then .err .backend else .ok (), w.warns, w.ext, []⟩
  backup w _ := ⟨.ok (), w.warns, w.ext, []⟩
  write w _ _ := (none, w.ext)
  instrFile w _ _ := ⟨.ok [], w.warns, w.ext, []⟩
  wrap w s := ⟨.ok ("<".toList ++ s.display ++ "|".toList, ">".toList), w.warns, w.ext, []⟩
  build w _ := ⟨.ok (), w.warns, w.ext, []⟩
  exec w _ _ := ⟨.ok (some false), w.warns, w.ext, []⟩
  start w test _ _ := ⟨.ok ⟨false, some 10, decide (test ≠ "q".toList)⟩, w.warns, w.ext, []⟩
  post w := ⟨.ok true, w.warns, w.ext, []⟩
  kill w := ⟨.ok (), w.warns, w.ext, []⟩
  reap w := ⟨.ok (), w.warns, w.ext, []⟩
  insert w _ := ⟨if w.ext.2 = failAt then .err .db else .ok [], w.warns, (w.ext.1, w.ext.2 + 1), []⟩

def start : World (Nat × Nat) := ⟨src, some [], .init, [], 0, [], none, [], (0, 0)⟩

theorem filesOk : FilesOk files := by
  refine ⟨by decide, fun x hx => ?_⟩
  rcases List.mem_cons.1 hx with rfl | hx
  · exact ⟨by decide, [c1, c2], [c3], rfl, by decide, by decide⟩
  · rw [List.mem_singleton.1 hx]
    exact ⟨by decide, [d1], [], rfl, by decide, by decide⟩

/-- The complete run: four rows, one console line, all files as before. -/
example : (runFiles cfg (env 99 99) files start).1 = .ok () ∧
    ((runFiles cfg (env 99 99) files start).2.db.map fun rows => rows.map fun r => (r.text, r.outcome)) =
      some [("aa;".toList, "failed".toList), ("bb;".toList, "passed".toList), (".d()".toList, "failed".toList),
        ("x;".toList, "skipped".toList)] := by decide +kernel

/-- The contents of `t.rs` when tests were started: instrumented twice for each test of the first statement, once for
the second, then with the method call deleted. -/
example : ((runFiles cfg (env 99 99) files start).2.trace.filterMap fun s =>
      match s.event with | .startTest c x _ => some (c.span.start.column, x, s.fs t) | _ => none) =
    [(0, "p".toList, "<t.rs:1:1-1:4|aa;><t.rs:1:4-1:7|bb;>cc.d();".toList),
     (0, "q".toList, "<t.rs:1:1-1:4|aa;><t.rs:1:4-1:7|bb;>cc.d();".toList),
     (3, "p".toList, "<t.rs:1:1-1:4|aa;><t.rs:1:4-1:7|bb;>cc.d();".toList),
     (8, "q".toList, "aa;bb;cc;".toList)] := by decide +kernel

/-- Ctrl-C during the second candidate: an error, with the first candidate's row, and the file restored although it
was instrumented. -/
example : (runFiles cfg (env 2 99) files start).1 = .err .ctrlc ∧
    ((runFiles cfg (env 2 99) files start).2.db.map (·.length)) = some 1 ∧
    (runFiles cfg (env 2 99) files start).2.fs t = src t := by decide +kernel

/-- The database fails at the third insertion, while the method call is deleted from the file. -/
example : (runFiles cfg (env 99 2) files start).1 = .err .db ∧
    ((runFiles cfg (env 99 2) files start).2.db.map (·.length)) = some 2 ∧
    (runFiles cfg (env 99 2) files start).2.fs t = src t := by decide +kernel

end Necessist.Run.Demo
