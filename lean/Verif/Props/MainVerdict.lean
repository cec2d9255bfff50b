import Verif.Props.Sources
import Verif.Props.Results
import Verif.Props.MainDemo
/-!
# C07, C09 and C12 for the program
-/
namespace Necessist.Main
open Run
variable {V σ : Type} {h : Host V σ} {o : Opts} {m : Machine σ}

/-- What the events say about a candidate whose outcome is `v`. -/
def Happened (events : List Snap) (c : Candidate) (v : Outcome) : Prop :=
  (v = .skipped ∧ c.span.file ∈ failedOf events) ∨
  (v = .passed ∧ ∀ t ∈ c.tests, (c, t, some .passed) ∈ testedOf events) ∨
  (v ≠ .passed ∧ v ≠ .skipped ∧ ∃ before t after, c.tests = before ++ t :: after ∧ (∀ t' ∈ before, (c, t', some .passed) ∈ testedOf events) ∧
    (c, t, some v) ∈ testedOf events)

theorem happened {events : List Snap} {log : List Entry} {rest : List Candidate} {src : SourceFile → Text} {usesDb : Bool}
    (hj : Justified src usesDb events log rest) (hs : ∀ c t, (c, t, some Outcome.skipped) ∉ testedOf events) {e : Entry} {r : Removal} (he : e ∈ log) (hr : e.removal = some r) :
    r.span = e.cand.span ∧ Happened events e.cand r.outcome ∧ (usesDb = true → HasText src e.cand r.text) := by
  obtain ⟨un, hun, _⟩ := hj.results
  cases e with
  | past c => cases hr
  | skipped c text => cases hr; exact ⟨rfl, .inl ⟨rfl, (hj.skipped _ _ he).1⟩, (hj.skipped _ _ he).2⟩
  | tested c text results v =>
    cases v with
    | none => cases hr
    | some x =>
      cases hr
      obtain ⟨htext, hv⟩ := hj.tested _ _ _ _ he
      have hin : ∀ r ∈ results, (c, r.1, r.2) ∈ testedOf events := fun r hm => by
        rw [hun]
        exact List.mem_append_left _ (List.mem_flatMap.2 ⟨_, he, List.mem_map.2 ⟨r, hm, rfl⟩⟩)
      refine ⟨rfl, .inr ?_, fun _ => htext⟩
      show (x = .passed ∧ ∀ t ∈ c.tests, _) ∨ (x ≠ .passed ∧ x ≠ .skipped ∧ ∃ before t after, c.tests = _ ∧ _)
      generalize hts : c.tests = tests at hv
      generalize hxv : some x = v at hv
      cases hv with
      | allPassed =>
        cases hxv
        exact .inl ⟨rfl, fun t ht => hin (t, some .passed) (List.mem_map.2 ⟨t, ht, rfl⟩)⟩
      | firstNotPassed before t after _ hne =>
        subst hxv
        have hlast := hin (t, some x) (List.mem_append_right _ List.mem_cons_self)
        refine .inr ⟨fun hx => hne (by rw [hx]), fun hx => hs c t (hx ▸ hlast), before, t, after, rfl, fun t' ht' => ?_, hlast⟩
        exact hin (t', some .passed) (List.mem_append_left _ (List.mem_map.2 ⟨t', ht', rfl⟩))

/-- **C07.** However the program ends, each row that it adds to the database is about a candidate, which belongs to at least one test; and what it
says happened: "passed" only if every test of the candidate passed while it was removed; "skipped" only if its file's dry run failed; anything else only if that was the result of a test, the tests before which had passed. -/
theorem C07_program (hs : SpansInFile h) (hn : o.noSqlite = false) {rows} (hdb : (main h o m).2.db = .table rows) :
    m.db = .table rows ∨ ∃ events old added root fw nTests map ws st, FindsCandidates h o m root fw nTests map ws st ∧
      (main h o m).2.trace = m.trace ++ events ∧
      (m.db = .table old ∧ o.reset = false ∨ (o.reset = true ∨ m.db = .absent) ∧ old = []) ∧ rows = old ++ added ∧
      ∀ row ∈ added, ∃ c ∈ candidates map.toRun, ∃ v, row.span = c.span.display ∧ HasText m.fs c row.text ∧ row.outcome = v.display ∧
        c.tests ≠ [] ∧ Happened events c v := by
  rcases necessist_whole (h := h) (o := o) (m := m) with ⟨h1, _⟩ | ⟨root, fw, nT, map, ws, st, hf, hrun, hopt, _⟩
  · left; rw [← h1, ← main_snd]; exact hdb
  · obtain ⟨out, events, htr, _, log, rest, hlog, _, _, hd, hj⟩ := C17_program hs hrun hopt hf
    have hskip : ∀ c t, (c, t, some Outcome.skipped) ∉ testedOf events := by
      intro c t hm
      obtain ⟨events', htr', hres⟩ := C08_program (o := o) (m := m) hs (cfg := runCfg h o m) rfl rfl
      rw [htr] at htr'
      cases List.append_cancel_left htr'
      obtain ⟨s, hs', he⟩ := List.mem_filterMap.1 hm
      obtain ⟨_, _, _, _, _, _, _, hres⟩ := hres s hs'
      split at he
      · rename_i heq
        cases he
        rw [heq] at hres
        exact hres
      · cases he
    rcases hd hn with ⟨hd | hd, _⟩ | ⟨old, rows', hold, hnew, ⟨urls, hlen, hrows⟩, _⟩
    · left; rw [← hd]; exact hdb
    · rw [hdb] at hd; cases hd
    · rw [hdb] at hnew; cases hnew
      refine .inr ⟨events, old, _, root, fw, nT, map, ws, st, hf, htr, hold, hrows, fun row hrow => ?_⟩
      obtain ⟨r, hr, url, rfl⟩ := mem_zipWith_ofRemoval hrow
      obtain ⟨e, he, her⟩ := List.mem_filterMap.1 hr
      obtain ⟨j1, j2, j3⟩ := happened hj hskip he her
      have hc : e.cand ∈ candidates map.toRun := by rw [hlog]; exact List.mem_append_left _ (List.mem_map.2 ⟨e, he, rfl⟩)
      exact ⟨e.cand, hc, r.outcome, by rw [← j1]; rfl, j3 (by simp [hn]), rfl, Sources.cand_tests hf hc, j2⟩

/-- **C12 (partial).** If the candidates that are found come in ascending order, then however the program ends, unless the results are to be
discarded, it builds, starts, kills and completes no test for a candidate that had a row. Missing: without that order it is false (`Run.C12_negation`). -/
theorem C12_program_no_repeat_partial (hn : o.noSqlite = false) (hr : o.reset = false) {rows} (hdb : m.db = .table rows)
    (hasc : ∀ root fw nTests map ws st, FindsCandidates h o m root fw nTests map ws st →
      (candidates map.toRun).Pairwise fun a b => a.span.cmp b.span = .lt) :
    ∃ events, (main h o m).2.trace = m.trace ++ events ∧ ∀ s ∈ events, ∀ c, IsTestOf c s.event →
      ∀ row ∈ rows, Span.parse (fun f => (h.unreadable f).isNone) row.span ≠ .ok c.span := by
  rw [main_snd]
  rcases necessist_whole (h := h) (o := o) (m := m) with ⟨_, _, h1, _⟩ | ⟨root, fw, nT, map, ws, st, hf, hrun, hopt, warns, ext, h1, h2, h3, h4, h5⟩
  · exact ⟨[], by rw [h1, List.append_nil], nofun⟩
  · refine ⟨_, h3, ?_⟩
    rw [hdb]
    exact C12_no_repeat_partial fw.env (runCfg h o m) (dbCall h o) map.toRun rows (startWorld m warns ext) hn hr ⟨rfl, rfl⟩
      (hasc root fw nT map ws st hf)

namespace Demo

/-- The hypotheses are met: a run that was interrupted is resumed; there is a row already; its candidate is not tested again. -/
example : SpansInFile host ∧ (∃ row, interrupted = .table [row]) ∧ (∃ r1 r2 r3, (main host { resume := true } again).2.db = .table [r1, r2, r3]) ∧
    (main host { resume := true } again).2.trace ≠ [] ∧
    (∀ root fw nTests map ws st, FindsCandidates host { resume := true } again root fw nTests map ws st →
      (candidates map.toRun).Pairwise fun a b => a.span.cmp b.span = .lt) := by
  have hlen : ∀ (d : DbFile) n, (match d with | .table rows => decide (rows.length = n) | _ => false) = true →
      ∃ rows, d = .table rows ∧ rows.length = n := by
    intro d n hd
    cases d with
    | table rows => exact ⟨rows, rfl, by simpa using hd⟩
    | absent => cases hd
    | empty => cases hd
  refine ⟨spansInFile 99, ?_, ?_, ?_, fun _ _ _ _ _ _ hf => ?_⟩
  · obtain ⟨rows, h1, h2⟩ := hlen interrupted 1 (by decide +kernel)
    obtain ⟨row, rfl⟩ := List.length_eq_one_iff.1 h2
    exact ⟨row, h1⟩
  · obtain ⟨rows, h1, h2⟩ := hlen (main host { resume := true } again).2.db 3 (by decide +kernel)
    match rows, h2 with
    | [r1, r2, r3], _ => exact ⟨r1, r2, r3, h1⟩
  · intro hz
    have : (main host { resume := true } again).2.trace.length ≠ 0 := by decide +kernel
    exact this (by rw [hz]; rfl)
  · rw [finds (Or.inr rfl) hf]
    decide +kernel

end Demo
end Necessist.Main
