import Verif.Lemmas.RunLog
import Verif.Lemmas.RunOnly
import Verif.Props.Span
import Verif.Props.RunDemo
/-! C07–C11, C15, C17, C18: what a run reports. -/
namespace Necessist.Run

variable {σ : Type} (env : Env σ) (cfg : Cfg)

/-- All candidates of a run, in order. -/
def candidates (fcs : List (SourceFile × List Candidate)) : List Candidate := fcs.flatMap (·.2)

/-- **C10.** However the run ends (or if it never does), only its own files are dry-run or built, tests are built and executed only for its
own candidates, each only with tests of that candidate, and a row is added only for one of them. -/
theorem C10_nothing_else (fcs : List (SourceFile × List Candidate)) (w : World σ) (hf : Fresh w) :
    ∀ s ∈ (runFiles cfg env fcs w).2.trace, Meant (fcs.map (·.1)) (candidates fcs) s.event :=
  run_meant cfg env fcs w hf.1

private theorem run_ok (fcs : List (SourceFile × List Candidate)) (hok : FilesOk fcs) (w w' : World σ)
    (hr : runFiles cfg env fcs w = (.ok (), w')) :
    ∃ (log : List Entry) (fl : List SourceFile), log.map Entry.cand = candidates fcs ∧ Logged cfg (obs w) log [] fl log.length (obs w') ∧
      fl.Sublist (fcs.map (·.1)) ∧
      ∀ e ∈ log, (e.isSkipped = true → e.cand.span.file ∈ fl) ∧ (e.isTested = true → e.cand.span.file ∉ fl) := by
  have := log_runFiles cfg env fcs (fun x hx => (hok.2 x hx).1) hok.1 (obs w) w rfl
  rw [hr] at this
  exact this

/-- **C07.** However the run ends, the rows added to the database are those of a list of log entries, one for each of
an initial part of the candidates; the verdict of every tested candidate follows from the results of its tests as
specified by `Verdict`; and the test results that occurred are exactly those of the entries, in order, followed by
those of the candidate at which the run was cut short. -/
theorem C07_verdicts (fcs : List (SourceFile × List Candidate)) (hok : FilesOk fcs) (w w' : World σ) (r : Res Err Unit)
    (hr : runFiles cfg env fcs w = (r, w')) :
    ∃ (log : List Entry) (pend : List (Candidate × Text × Option Outcome)) (rest : List Candidate), candidates fcs = log.map Entry.cand ++ rest ∧
      DbAdds (log.filterMap Entry.removal) w.db w'.db ∧
      testedOf w'.trace = testedOf w.trace ++ log.flatMap Entry.results ++ pend ∧
      (∀ p ∈ pend, rest.head? = some p.1) ∧
      ∀ c text results verdict, Entry.tested c text results verdict ∈ log → Verdict c.tests results verdict := by
  have hcut : Cut cfg (fcs.flatMap (·.2)) (obs w) (obs w') := by
    have := log_runFiles cfg env fcs (fun x hx => (hok.2 x hx).1) hok.1 (obs w) w rfl
    rw [hr] at this
    cases r with
    | ok =>
      obtain ⟨log, fl, h1, h2, -⟩ := this
      exact ⟨log, [], fl, log.length, [], by simp [h1], h2, by simp [Pending]⟩
    | err e => exact this
    | panic => exact this
    | hang => exact this
  obtain ⟨log, pend, fl, n, rest, h1, h2, h3⟩ := hcut
  refine ⟨log, pend, rest, h1, h2.db, h2.tested, ?_, ?_⟩
  · intro p hp
    obtain ⟨c, rest', rfl, h4, -⟩ := h3 p hp
    rw [h4]; rfl
  · intro c text results verdict he
    exact (h2.ok _ he).2

/-- **C07.** What the specification of verdicts means: "passed" iff every test was run and passed. -/
theorem C07_passed_iff (tests : List Text) (results : List (Text × Option Outcome)) (v : Option Outcome)
    (h : Verdict tests results v) :
    (v = some .passed ↔ results = tests.map fun t => (t, some .passed)) ∧
    (v = some .passed ↔ ∀ r ∈ results, r.2 = some .passed) ∧
    (v ≠ some .passed → results.getLast?.map (·.2) = some v ∧ ∀ r ∈ results.dropLast, r.2 = some .passed) ∧
    results.map (·.1) <+: tests := by
  cases h with
  | allPassed => simp [Function.comp_def]
  | firstNotPassed before t after _ hv =>
    refine ⟨⟨fun h => absurd h hv, fun h => ?_⟩, ⟨fun h => absurd h hv, fun h => h (t, v) (by simp)⟩, fun _ => ?_, ?_⟩
    · have : (t, v) ∈ (before ++ t :: after).map fun t => (t, some Outcome.passed) := by rw [← h]; simp
      obtain ⟨_, _, h2⟩ := List.mem_map.1 this
      exact (Prod.mk.inj h2).2.symm
    · refine ⟨by simp, ?_⟩
      intro r hr
      rw [List.dropLast_concat] at hr
      obtain ⟨_, _, rfl⟩ := List.mem_map.1 hr
      rfl
    · refine ⟨after, ?_⟩
      simp [List.map_map, Function.comp_def]

/-- **C10.** When a run succeeds, there is exactly one log entry for each candidate, in order, and the rows added to
the database are one for each entry whose outcome was determined, in order, with the candidate's displayed span, text
and outcome; keys stay distinct; the entries' results are those that the tests had, in order; every entry is justified (`Entry.Ok`); and
an entry is "skipped" only if its file's dry run failed in this run, "tested" only if it did not. -/
theorem C10_accounts (fcs : List (SourceFile × List Candidate)) (hok : FilesOk fcs) (w w' : World σ) (hf : Fresh w)
    (hr : runFiles cfg env fcs w = (.ok (), w')) :
    ∃ log : List Entry, log.map Entry.cand = candidates fcs ∧
      DbAdds (log.filterMap Entry.removal) w.db w'.db ∧ testedOf w'.trace = log.flatMap Entry.results ∧
      (∀ e ∈ log, e.Ok cfg.src w.db.isSome w.past) ∧
      ∀ e ∈ log, (e.isSkipped = true → e.cand.span.file ∈ failedOf w'.trace) ∧
        (e.isTested = true → e.cand.span.file ∉ failedOf w'.trace) := by
  obtain ⟨log, fl, h1, h2, -, h4⟩ := run_ok env cfg fcs hok w w' hr
  have hfl : failedOf w'.trace = fl := by
    have := h2.failed
    simpa [obs, hf.1, failedOf] using this
  have htl : testedOf w'.trace = log.flatMap Entry.results := by
    have := h2.tested
    simpa [obs, hf.1, testedOf] using this
  exact ⟨log, h1, h2.db, htl, h2.ok, by rw [hfl]; exact h4⟩

/-- Whether an entry's outcome was determined in this run. -/
def Entry.determined : Entry → Bool
  | .past _ => false
  | .skipped _ _ => true
  | .tested _ _ _ v => v.isSome

private theorem keys_of_zip (urls : List Text) (rs : List Removal) (h : urls.length = rs.length) :
    (List.zipWith Row.ofRemoval urls rs).map (·.span) = rs.map fun r => r.span.display := by
  induction urls generalizing rs with
  | nil => cases rs <;> simp_all
  | cons u us ih =>
    cases rs with
    | nil => simp at h
    | cons r rs => simp [Row.ofRemoval, ih rs (by simpa using h)]

private theorem removal_cand {e : Entry} {r : Removal} (h : e.removal = some r) :
    e.determined = true ∧ r.span = e.cand.span := by
  cases e with
  | past => simp [Entry.removal] at h
  | skipped c t => simp only [Entry.removal, Option.some.injEq] at h; subst h; exact ⟨rfl, rfl⟩
  | tested c t rs v =>
    cases v with
    | none => simp [Entry.removal] at h
    | some o => simp only [Entry.removal, Option.map_some, Option.some.injEq] at h; subst h; exact ⟨rfl, rfl⟩

private theorem removal_none {e : Entry} : e.removal = none ↔ e.determined = false := by
  cases e with
  | past => simp [Entry.removal, Entry.determined]
  | skipped => simp [Entry.removal, Entry.determined]
  | tested c t rs v => cases v <;> simp [Entry.removal, Entry.determined]

private theorem removals_spans (log : List Entry) :
    (log.filterMap Entry.removal).map (fun r => r.span.display) =
      (log.filter Entry.determined).map fun e => e.cand.span.display := by
  induction log with
  | nil => rfl
  | cons e log ih =>
    cases he : e.removal with
    | none => rw [List.filterMap_cons_none he, List.filter_cons_of_neg (by simp [removal_none.1 he]), ih]
    | some r =>
      obtain ⟨h1, h2⟩ := removal_cand he
      rw [List.filterMap_cons_some he, List.filter_cons_of_pos h1, List.map_cons, List.map_cons, ih, h2]

/-- **C10.** A successful run with an empty database and no past removals: the keys of the final database are exactly
the displayed spans of the candidates whose outcome was determined, each once; and what is said of a candidate follows from the results
that its tests had. -/
theorem C10_exactly_once (fcs : List (SourceFile × List Candidate)) (hok : FilesOk fcs) (w w' : World σ) (hf : Fresh w)
    (hdb : w.db = some []) (hpast : w.past = []) (hr : runFiles cfg env fcs w = (.ok (), w')) :
    ∃ (log : List Entry) (rows : List Row), log.map Entry.cand = candidates fcs ∧ w'.db = some rows ∧
      rows.map (·.span) = (log.filter Entry.determined).map (fun e => e.cand.span.display) ∧
      (rows.map (·.span)).Nodup ∧ testedOf w'.trace = log.flatMap Entry.results ∧
      ∀ e ∈ log, (∃ c text, e = .skipped c text ∧ c.span.file ∈ failedOf w'.trace ∧ HasText cfg.src c text ∧
          ∃ url, Row.mk c.span.display text "skipped".toList url ∈ rows) ∨
        ∃ c text results v, e = .tested c text results v ∧ c.span.file ∉ failedOf w'.trace ∧ HasText cfg.src c text ∧
          Verdict c.tests results v ∧ ∀ o, v = some o → ∃ url, Row.mk c.span.display text o.display url ∈ rows := by
  obtain ⟨log, h1, h2, htl, h3, h4⟩ := C10_accounts env cfg fcs hok w w' hf hr
  rw [hdb] at h2
  cases hd : w'.db with
  | none => rw [hd] at h2; exact h2.elim
  | some rows =>
    rw [hd] at h2
    obtain ⟨⟨urls, hl, rfl⟩, hn⟩ := h2
    rw [List.nil_append] at hn ⊢
    have hmem : ∀ e ∈ log, ∀ r, e.removal = some r →
        ∃ url, Row.ofRemoval url r ∈ List.zipWith Row.ofRemoval urls (log.filterMap Entry.removal) := by
      intro e he r hr
      have hmem : r ∈ log.filterMap Entry.removal := List.mem_filterMap.2 ⟨e, he, hr⟩
      clear hn h1 h3 h4 hd htl
      generalize log.filterMap Entry.removal = rs at hl hmem
      induction urls generalizing rs with
      | nil => cases rs <;> simp_all
      | cons u us ih =>
        cases rs with
        | nil => simp at hmem
        | cons r' rs =>
          rcases List.mem_cons.1 hmem with rfl | hmem
          · exact ⟨u, by simp⟩
          · obtain ⟨url, h⟩ := ih rs (by simpa using hl) hmem
            exact ⟨url, by simp [h]⟩
    refine ⟨log, _, h1, rfl, ?_, hn (by simp), htl, ?_⟩
    · rw [keys_of_zip _ _ hl, removals_spans]
    · intro e he
      have hok := h3 e he
      have hfa := h4 e he
      cases e with
      | past c =>
        rw [hpast] at hok
        obtain ⟨r, hr, -⟩ := hok
        simp at hr
      | skipped c text =>
        refine Or.inl ⟨c, text, rfl, hfa.1 rfl, hok (by simp [hdb]), ?_⟩
        obtain ⟨url, h⟩ := hmem _ he _ rfl
        refine ⟨url, ?_⟩
        have hd : Outcome.display .skipped = "skipped".toList := by decide
        rw [← hd]; exact h
      | tested c text results v =>
        refine Or.inr ⟨c, text, results, v, rfl, hfa.2 rfl, hok.1, hok.2, ?_⟩
        intro o ho
        subst ho
        exact hmem _ he _ rfl

/-- **C09.** In a successful run, a candidate for which it could not be determined that a test ran (the last result
is "undetermined") gets no row and no console line; provided the candidates' spans are distinct and their paths
well-formed (so that keys are distinct). That there is an entry for every candidate shows that the run carried on. -/
theorem C09_undetermined_not_recorded (fcs : List (SourceFile × List Candidate)) (hok : FilesOk fcs) (w w' : World σ)
    (hr : runFiles cfg env fcs w = (.ok (), w'))
    (hd : ((candidates fcs).map (·.span)).Nodup) (hwf : ∀ x ∈ fcs, x.1.WellFormed) :
    ∃ log : List Entry, log.map Entry.cand = candidates fcs ∧
      testedOf w'.trace = testedOf w.trace ++ log.flatMap Entry.results ∧
      ∀ c text results v, Entry.tested c text results v ∈ log →
        (v = none ↔ ∃ r ∈ results, r.2 = none) ∧
        (v = none → ∃ rows printed, w'.db = w.db.map (· ++ rows) ∧ printedOf w'.out = printedOf w.out ++ printed ∧
          (∀ row ∈ rows, row.span ≠ c.span.display) ∧ ∀ r ∈ printed, r.span ≠ c.span) := by
  obtain ⟨log, fl, h1, h2, -, -⟩ := run_ok env cfg fcs hok w w' hr
  refine ⟨log, h1, by simpa [obs] using h2.tested, ?_⟩
  intro c text results v he
  have hv : Verdict c.tests results v := (h2.ok _ he).2
  refine ⟨?_, ?_⟩
  · generalize c.tests = ts at hv
    cases hv with
    | allPassed => simp
    | firstNotPassed before t after _ h =>
      constructor
      · rintro rfl; exact ⟨(t, none), by simp, rfl⟩
      · rintro ⟨r, hr, hr2⟩
        rcases List.mem_append.1 hr with hr | hr
        · obtain ⟨_, _, rfl⟩ := List.mem_map.1 hr
          simp at hr2
        · rw [List.mem_singleton.1 hr] at hr2; exact hr2
  · rintro rfl
    have hspan : ∀ e' ∈ log, e'.cand.span = c.span → e' = .tested c text results none := by
      intro e' he' hs
      have hd' : (log.map fun e => e.cand.span).Nodup := by
        have : (log.map fun e => e.cand.span) = (candidates fcs).map (·.span) := by rw [← h1, List.map_map]; rfl
        rw [this]; exact hd
      exact eq_of_nodup_map hd' he' he hs
    have hwf' : ∀ e' ∈ log, e'.cand.span.file.WellFormed := by
      intro e' he'
      have : e'.cand ∈ candidates fcs := by rw [← h1]; exact List.mem_map_of_mem he'
      obtain ⟨x, hx, hc⟩ := List.mem_flatMap.1 this
      rw [(hok.2 x hx).1 _ hc]; exact hwf x hx
    have hrem : ∀ r ∈ log.filterMap Entry.removal, r.span.display ≠ c.span.display := by
      intro r hr hs
      obtain ⟨e', he', hr'⟩ := List.mem_filterMap.1 hr
      have h3 := (removal_cand hr').2
      have h4 := hspan e' he' (C20_display_injective _ _ (hwf' e' he') (hwf' _ he) (by rw [← h3]; exact hs))
      rw [h4] at hr'
      simp [Entry.removal] at hr'
    have hpr : ∀ r ∈ log.filterMap (Entry.printed cfg.warn.quiet cfg.verbose), r.span ≠ c.span := by
      intro r hr hs
      obtain ⟨e', he', hr'⟩ := List.mem_filterMap.1 hr
      cases e' with
      | past => simp [Entry.printed] at hr'
      | skipped => simp [Entry.printed] at hr'
      | tested c' text' results' v' =>
        cases v' with
        | none => simp [Entry.printed] at hr'
        | some o =>
          have h3 : r.span = c'.span := by
            simp only [Entry.printed] at hr'
            split at hr'
            · simp only [Option.some.injEq] at hr'; rw [← hr']
            · simp at hr'
          have := hspan _ he' (h3 ▸ hs)
          simp at this
    have hdb := h2.db
    have hdb' : DbAdds (log.filterMap Entry.removal) w.db w'.db := hdb
    refine ⟨match w.db, w'.db with | some a, some b => b.drop a.length | _, _ => [], _, ?_, h2.printed, ?_, hpr⟩
    · cases ha : w.db with
      | none =>
        cases hb : w'.db with
        | none => rfl
        | some b => rw [ha, hb] at hdb'; exact hdb'.elim
      | some a =>
        cases hb : w'.db with
        | none => rw [ha, hb] at hdb'; exact hdb'.elim
        | some b =>
          rw [ha, hb] at hdb'
          obtain ⟨⟨urls, hl, rfl⟩, -⟩ := hdb'
          simp
    · intro row hrow
      cases ha : w.db with
      | none => rw [ha] at hrow; simp at hrow
      | some a =>
        cases hb : w'.db with
        | none => rw [ha, hb] at hrow; simp at hrow
        | some b =>
          rw [ha, hb] at hrow hdb'
          obtain ⟨⟨urls, hl, rfl⟩, -⟩ := hdb'
          simp only [List.drop_left] at hrow
          have : row.span ∈ (List.zipWith Row.ofRemoval urls (log.filterMap Entry.removal)).map (·.span) :=
            List.mem_map_of_mem hrow
          rw [keys_of_zip _ _ hl] at this
          obtain ⟨r, hr, hs⟩ := List.mem_map.1 this
          rw [← hs]
          exact hrem r hr
where
  eq_of_nodup_map {α β : Type} {f : α → β} {l : List α} (h : (l.map f).Nodup) {a b : α} (ha : a ∈ l) (hb : b ∈ l)
      (hf : f a = f b) : a = b := by
    induction l with
    | nil => simp at ha
    | cons x l ih =>
      rw [List.map_cons, List.nodup_cons] at h
      rcases List.mem_cons.1 ha with h1 | ha' <;> rcases List.mem_cons.1 hb with h2 | hb'
      · rw [h1, h2]
      · subst h1; exact absurd (by rw [hf]; exact List.mem_map_of_mem hb') h.1
      · subst h2; exact absurd (by rw [← hf]; exact List.mem_map_of_mem ha') h.1
      · exact ih h.2 ha' hb'

/-- **C15.** In a successful run, every candidate in a file whose dry run failed was either passed over because of a
past removal or skipped; a skipped candidate is recorded as such with its text, if there is a database, and nothing is
printed for it. The entries for all other candidates show that the run went on. -/
theorem C15_skipped (fcs : List (SourceFile × List Candidate)) (hok : FilesOk fcs) (w w' : World σ) (hf : Fresh w)
    (hr : runFiles cfg env fcs w = (.ok (), w')) :
    ∃ log : List Entry, log.map Entry.cand = candidates fcs ∧
      DbAdds (log.filterMap Entry.removal) w.db w'.db ∧
      printedOf w'.out = printedOf w.out ++ log.filterMap (Entry.printed cfg.warn.quiet cfg.verbose) ∧
      ∀ e ∈ log, e.cand.span.file ∈ failedOf w'.trace →
        (∃ c, e = .past c ∧ ∃ r ∈ w.past, r.span = c.span) ∨
        ∃ c text, e = .skipped c text ∧ e.removal = some ⟨c.span, text, .skipped⟩ ∧ e.printed cfg.warn.quiet cfg.verbose = none ∧
          (w.db.isSome = true → HasText cfg.src c text) := by
  obtain ⟨log, fl, h1, h2, -, h4⟩ := run_ok env cfg fcs hok w w' hr
  have hfl : failedOf w'.trace = fl := by
    have := h2.failed
    simpa [obs, hf.1, failedOf] using this
  refine ⟨log, h1, h2.db, h2.printed, ?_⟩
  intro e he hfe
  rw [hfl] at hfe
  have := h2.ok e he
  cases e with
  | past c => exact Or.inl ⟨c, rfl, this⟩
  | skipped c text => exact Or.inr ⟨c, text, rfl, rfl, rfl, this⟩
  | tested c text results v => exact absurd hfe ((h4 _ he).2 rfl)

/-- **C17.** However the run ends, the removals printed are those of the log entries (one for each of an initial part
of the candidates, matching the rows added and the results that tests had, and each justified), in order, that were tested with a
determined outcome, and only if not quiet and (verbose or passed). Only for the next candidate may there be results that are not in the log. -/
theorem C17_printed (fcs : List (SourceFile × List Candidate)) (hok : FilesOk fcs) (w w' : World σ) (r : Res Err Unit)
    (hr : runFiles cfg env fcs w = (r, w')) :
    ∃ (log : List Entry) (rest : List Candidate), candidates fcs = log.map Entry.cand ++ rest ∧
      DbAdds (log.filterMap Entry.removal) w.db w'.db ∧
      (printedOf w'.out = printedOf w.out ++ log.filterMap fun e =>
        match e with
        | .tested c text _ (some o) =>
          if cfg.warn.quiet = false ∧ (cfg.verbose = true ∨ o = .passed) then some ⟨c.span, text, o⟩ else none
        | _ => none) ∧
      (∃ unfinished, testedOf w'.trace = testedOf w.trace ++ log.flatMap Entry.results ++ unfinished ∧
        ∀ x ∈ unfinished, ∃ c rest', rest = c :: rest' ∧ x.1 = c ∧ x.2.1 ∈ c.tests) ∧
      (∀ e ∈ log, e.Ok cfg.src w.db.isSome w.past) ∧ ∀ e ∈ log, e.isSkipped = true → e.cand.span.file ∈ failedOf w'.trace := by
  have hcut : Cut cfg (fcs.flatMap (·.2)) (obs w) (obs w') := by
    have := log_runFiles cfg env fcs (fun x hx => (hok.2 x hx).1) hok.1 (obs w) w rfl
    rw [hr] at this
    cases r with
    | ok =>
      obtain ⟨log, fl, h1, h2, -⟩ := this
      exact ⟨log, [], fl, log.length, [], by simp [h1], h2, by simp [Pending]⟩
    | err e => exact this
    | panic => exact this
    | hang => exact this
  obtain ⟨log, pend, fl, n, rest, h1, h2, h3⟩ := hcut
  refine ⟨log, rest, h1, h2.db, ?_, ⟨pend, h2.tested, h3⟩, h2.ok, h2.sk⟩
  have h4 := h2.printed
  have : (Entry.printed cfg.warn.quiet cfg.verbose) = fun e => match e with
        | .tested c text _ (some o) =>
          if cfg.warn.quiet = false ∧ (cfg.verbose = true ∨ o = .passed) then some ⟨c.span, text, o⟩ else none
        | _ => none := by
    funext e
    cases e with
    | past => rfl
    | skipped => rfl
    | tested c t rs v => cases v <;> rfl
  rw [← this]; exact h4

/-- **C18.** In a successful run the progress bar advances by exactly the number of candidates. -/
theorem C18_progress (fcs : List (SourceFile × List Candidate)) (hok : FilesOk fcs) (w w' : World σ)
    (hr : runFiles cfg env fcs w = (.ok (), w')) : w'.progress = w.progress + (candidates fcs).length := by
  obtain ⟨log, fl, h1, h2, -, -⟩ := run_ok env cfg fcs hok w w' hr
  rw [← h1, List.length_map]
  exact h2.progress

/-- **C11.** In a run that ends in any way, a candidate is passed over only if there is a past removal with exactly its
span: every candidate of the completed part of the run has an entry, and the entries that are "past" are justified. -/
theorem C11_passed_over_only_if_recorded (fcs : List (SourceFile × List Candidate)) (hok : FilesOk fcs) (w w' : World σ)
    (hr : runFiles cfg env fcs w = (.ok (), w')) :
    ∃ log : List Entry, log.map Entry.cand = candidates fcs ∧
      testedOf w'.trace = testedOf w.trace ++ log.flatMap Entry.results ∧
      DbAdds (log.filterMap Entry.removal) w.db w'.db ∧
      ∀ e ∈ log, (∀ r ∈ w.past, r.span ≠ e.cand.span) → e.isTested = true ∨ e.isSkipped = true := by
  obtain ⟨log, fl, h1, h2, -, -⟩ := run_ok env cfg fcs hok w w' hr
  refine ⟨log, h1, by simpa [obs] using h2.tested, h2.db, ?_⟩
  intro e he hn
  have := h2.ok e he
  cases e with
  | past c =>
    obtain ⟨r, hr, hs⟩ := this
    exact absurd hs (hn r hr)
  | skipped => exact Or.inr rfl
  | tested => exact Or.inl rfl

/-! The hypotheses are met by the demonstration run (`Props/RunDemo.lean`): two files, four candidates, a failing test,
a failed dry run. -/

example : FilesOk Demo.files ∧ Fresh Demo.start ∧ Demo.start.db = some [] ∧ Demo.start.past = [] ∧
    (runFiles Demo.cfg (Demo.env 99 99) Demo.files Demo.start).1 = .ok () ∧
    ((candidates Demo.files).map (·.span)).Nodup ∧ ∀ x ∈ Demo.files, x.1.WellFormed :=
  ⟨Demo.filesOk, ⟨rfl, rfl⟩, rfl, rfl, by decide +kernel, by decide, by
    unfold SourceFile.WellFormed; decide⟩

/-- An instance of the conclusion of `C07_verdicts`, with a test that is not run because an earlier one failed. -/
example : Verdict ["p".toList, "q".toList, "r".toList] [("p".toList, some .passed), ("q".toList, some .timedOut)]
    (some .timedOut) := Verdict.firstNotPassed ["p".toList] "q".toList ["r".toList] (some .timedOut) (by simp)

end Necessist.Run
