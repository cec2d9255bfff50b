import Verif.Props.Database
import Verif.Spec.Resume
/-! C11–C13: resuming. -/
namespace Necessist.Run

section
variable {σ : Type} (env : Env σ) (cfg : Cfg)

/-- What the initialisation of the database may do. -/
theorem pastInit_cases (cfg : Cfg) (call : Call) (file : DbFile) (w : World σ) (hn : call.noSqlite = false) :
    let i := pastInit call.noSqlite cfg.warn w.warns call.readable call.faults call.flags file
    ((i.file = file ∨ i.file = .empty) ∧ ∀ p, i.res ≠ .ok p) ∨
    ∃ rows stored, i.file = .table rows ∧ i.res = .ok (sortPast stored) ∧
      (file = .table rows ∧ call.flags.reset = false ∧ RowsRead call.readable rows stored ∨
          (call.flags.reset = true ∨ file = .absent) ∧ rows = [] ∧ stored = []) := by
  have hopen : ∀ fl : DbFlags,
    (((dbOpen call.readable call.faults fl file).2 = file ∨ (dbOpen call.readable call.faults fl file).2 = .empty) ∧
      ∀ p, (dbOpen call.readable call.faults fl file).1 ≠ .ok p) ∨
    ∃ rows stored, (dbOpen call.readable call.faults fl file).2 = .table rows ∧
      (dbOpen call.readable call.faults fl file).1 = .ok stored ∧
        (file = .table rows ∧ fl.reset = false ∧ RowsRead call.readable rows stored ∨
          (fl.reset = true ∨ file = .absent) ∧ rows = [] ∧ stored = []) := by
    intro fl
    rcases call with ⟨ns, fl', ⟨f1, f2, f3, f4, f5⟩, rd⟩
    rcases fl with ⟨d, re, rs⟩
    cases f2
    · cases file with
      | absent => cases f4 <;> simp [dbOpen]
      | empty => cases f4 <;> cases re <;> simp [dbOpen]
      | table rows =>
        cases re
        · cases f5
          · cases hl : loadRows rd rows with
            | ok stored => right; exact ⟨rows, stored, by simp [dbOpen, hl], by simp [dbOpen, hl], Or.inl ⟨rfl, rfl, (loadRows_iff _ _ _).1 hl⟩⟩
            | err e => left; simp [dbOpen, hl]
            | panic => left; simp [dbOpen, hl]
            | hang => left; simp [dbOpen, hl]
          · left; simp [dbOpen]
        · cases f3 <;> cases f4 <;> simp [dbOpen]
    · simp [dbOpen]
  intro i
  have hi : ∃ j, i = { j with res := match j.res with | .ok rs => .ok (sortPast rs) | r => r } ∧
      j = dbInit cfg.warn w.warns call.readable call.faults call.flags file := by
    refine ⟨_, ?_, rfl⟩
    simp only [i, pastInit, hn, Bool.false_eq_true, if_false]
    rfl
  obtain ⟨j, hij, hj⟩ := hi
  have key : ((j.file = file ∨ j.file = .empty) ∧ ∀ p, j.res ≠ .ok p) ∨
      j.file = (dbOpen call.readable call.faults call.flags file).2 ∧
      j.res = (dbOpen call.readable call.faults call.flags file).1 := by
    rw [hj]
    unfold dbInit
    split
    · left; simp
    · dsimp only
      split
      · left; simp
      · left; simp
      · split <;> simp
      · split <;> simp
      · right; simp
  rw [hij]
  rcases key with ⟨k1, k2⟩ | ⟨k1, k2⟩
  · refine Or.inl ⟨k1, ?_⟩
    intro p
    dsimp only
    cases hr : j.res with
    | ok a => exact absurd hr (k2 a)
    | err e => simp
    | panic => simp
    | hang => simp
  · rcases hopen call.flags with ⟨h1, h2⟩ | ⟨rows, stored, h1, h2, h3⟩
    · refine Or.inl ⟨by rw [k1]; exact h1, ?_⟩
      intro p
      dsimp only
      rw [k2]
      cases hr : (dbOpen call.readable call.faults call.flags file).1 with
      | ok a => exact absurd hr (h2 a)
      | err e => simp
      | panic => simp
      | hang => simp
    · refine Or.inr ⟨rows, stored, by rw [k1]; exact h1, ?_, h3⟩
      dsimp only
      rw [k2, h2]

/-- A run with a database: either the database could not be used, and then nothing happened and rows were not added; or
the run went through the files with the rows found and the removals they stand for. -/
theorem runWhole_cases (call : Call) (fcs : List (SourceFile × List Candidate)) (file : DbFile) (w : World σ)
    (hn : call.noSqlite = false) :
    let x := runWhole call cfg env fcs file w
    (x.1 ≠ .ok () ∧ (∀ e, x.1 ≠ .err (.inr e)) ∧ x.2.2.trace = w.trace ∧ (x.2.1 = file ∨ x.2.1 = .empty)) ∨
    ∃ (rows : List Row) (stored : List Removal) (ws : WStates) (out : List Line),
      (file = .table rows ∧ call.flags.reset = false ∧ RowsRead call.readable rows stored ∨
        (call.flags.reset = true ∨ file = .absent) ∧ rows = [] ∧ stored = []) ∧
      let y := runFiles cfg env fcs { w with warns := ws, out := w.out ++ out, db := some rows, past := sortPast stored }
      x.2.2 = y.2 ∧ (x.1 = .ok () ↔ y.1 = .ok ()) ∧ (∀ rows', y.2.db = some rows' → x.2.1 = .table rows') ∧
        ∀ e, y.1 = .err e ↔ x.1 = .err (.inr e) := by
  have hi := pastInit_cases cfg call file w hn
  intro x
  dsimp only at hi
  simp only [x, runWhole]
  generalize pastInit call.noSqlite cfg.warn w.warns call.readable call.faults call.flags file = i at hi ⊢
  obtain ⟨res, fl, ws, out⟩ := i
  dsimp only at hi ⊢
  rcases hi with ⟨h1, h2⟩ | ⟨rows, stored, h1, h2, h3⟩
  · left
    cases res with
    | ok p => exact absurd rfl (h2 p)
    | err e => exact ⟨by simp, by simp, rfl, h1⟩
    | panic => exact ⟨by simp, by simp, rfl, h1⟩
    | hang => exact ⟨by simp, by simp, rfl, h1⟩
  · right
    subst h1 h2
    refine ⟨rows, stored, ws, out, h3, ?_⟩
    simp only [hn, Bool.false_eq_true, if_false]
    generalize runFiles cfg env fcs _ = y
    obtain ⟨r, w'⟩ := y
    refine ⟨trivial, ?_, ?_, ?_⟩
    · cases r <;> simp
    · intro rows' h; simp only at h; simp [h]
    · intro e; cases r <;> simp

theorem run_logged (fcs : List (SourceFile × List Candidate)) (hok : FilesOk fcs) (w : World σ) :
    ∃ (log : List Entry) (pend : List (Candidate × Text × Option Outcome)) (fl : List SourceFile) (n : Nat) (rest : List Candidate),
      candidates fcs = log.map Entry.cand ++ rest ∧
      Logged cfg (obs w) log pend fl n (obs (runFiles cfg env fcs w).2) ∧
      ((runFiles cfg env fcs w).1 = .ok () → rest = []) := by
  have := log_runFiles cfg env fcs (fun x hx => (hok.2 x hx).1) hok.1 (obs w) w rfl
  rcases hm : runFiles cfg env fcs w with ⟨r, w'⟩
  rw [hm] at this
  cases r with
  | ok u =>
    obtain ⟨log, fl, h1, h2, -⟩ := this
    exact ⟨log, [], fl, _, [], by simp [h1, candidates], h2, fun _ => rfl⟩
  | err e => obtain ⟨log, pend, fl, n, rest, h1, h2, -⟩ := this; exact ⟨log, pend, fl, n, rest, h1, h2, by simp⟩
  | panic => obtain ⟨log, pend, fl, n, rest, h1, h2, -⟩ := this; exact ⟨log, pend, fl, n, rest, h1, h2, by simp⟩
  | hang => obtain ⟨log, pend, fl, n, rest, h1, h2, -⟩ := this; exact ⟨log, pend, fl, n, rest, h1, h2, by simp⟩

theorem RowsRead.mem {readable : SourceFile → Bool} {rows : List Row} {rs : List Removal} (h : RowsRead readable rows rs) :
    ∀ r ∈ rs, ∃ row ∈ rows, Span.parse readable row.span = .ok r.span ∧ row.text = r.text ∧ row.outcome = r.outcome.display := by
  induction h with
  | nil => simp
  | cons h1 h2 h3 ih =>
    intro r hr
    rcases List.mem_cons.1 hr with rfl | hr
    · exact ⟨_, by simp, h1, rfl, h2⟩
    · obtain ⟨row, hrow, h⟩ := ih r hr
      exact ⟨row, by simp [hrow], h⟩

theorem RowsRead.mem' {readable : SourceFile → Bool} {rows : List Row} {rs : List Removal} (h : RowsRead readable rows rs) :
    ∀ row ∈ rows, ∃ r ∈ rs, Span.parse readable row.span = .ok r.span ∧ row.text = r.text ∧ row.outcome = r.outcome.display := by
  induction h with
  | nil => simp
  | cons h1 h2 h3 ih =>
    intro r hr
    rcases List.mem_cons.1 hr with rfl | hr
    · exact ⟨⟨_, r.text, _⟩, List.mem_cons_self, h1, rfl, h2⟩
    · obtain ⟨row, hrow, h⟩ := ih r hr
      exact ⟨row, by simp [hrow], h⟩

/-! ## C11 -/

/-- **C11.** In a successful run with a database, every candidate for whose span there is no row in the database was
tested (and its tests' results are among those that occurred) or skipped because of a failed dry run; in particular if
the database was absent or reset, all were. There is an entry for every candidate. -/
theorem C11_resume_loses_nothing (call : Call) (fcs : List (SourceFile × List Candidate)) (hok : FilesOk fcs)
    (rows : List Row) (w w' : World σ) (file' : DbFile) (hn : call.noSqlite = false) (hf : Fresh w)
    (hr : runWhole call cfg env fcs (.table rows) w = (.ok (), file', w')) :
    ∃ log : List Entry, log.map Entry.cand = candidates fcs ∧ testedOf w'.trace = log.flatMap Entry.results ∧
      ∀ e ∈ log, (∀ row ∈ rows, Span.parse call.readable row.span ≠ .ok e.cand.span) →
        (∃ text results v, e = .tested e.cand text results v ∧ Verdict e.cand.tests results v) ∨
        e.isSkipped = true ∧ e.cand.span.file ∈ failedOf w'.trace := by
  rcases runWhole_cases env cfg call fcs (.table rows) w hn with ⟨h1, -⟩ | ⟨rows', stored, ws, out, h1, h2, h3, -⟩
  · rw [hr] at h1; exact absurd rfl h1
  · rw [hr] at h2 h3
    have hy : (runFiles cfg env fcs { w with warns := ws, out := w.out ++ out, db := some rows', past := sortPast stored }).1 = .ok () :=
      h3.1 rfl
    obtain ⟨log, fl, g1, g2, -, g4⟩ := log_ok
      { w with warns := ws, out := w.out ++ out, db := some rows', past := sortPast stored } hy
    rw [← h2] at g2
    have e1 : testedOf w'.trace = log.flatMap Entry.results := by
      have := g2.tested
      simpa [obs, hf.1, testedOf] using this
    refine ⟨log, g1, e1, ?_⟩
    intro e he hno
    have ho := g2.ok e he
    cases e with
    | past c =>
      obtain ⟨r, hr, hs⟩ := ho
      have hr' : r ∈ stored := (sortPast_perm stored).mem_iff.1 hr
      rcases h1 with ⟨k1, -, k2⟩ | ⟨-, -, rfl⟩
      · obtain ⟨row, hrow, hp, -⟩ := k2.mem r hr'
        injection k1 with k1
        subst k1
        exact absurd (hs ▸ hp) (hno row hrow)
      · simp at hr'
    | skipped c t => exact Or.inr ⟨rfl, g2.sk _ he rfl⟩
    | tested c t rs v => exact Or.inl ⟨t, rs, v, rfl, ho.2⟩
where
  log_ok (w : World σ) (h : (runFiles cfg env fcs w).1 = .ok ()) :
      ∃ (log : List Entry) (fl : List SourceFile), log.map Entry.cand = candidates fcs ∧
        Logged cfg (obs w) log [] fl log.length (obs (runFiles cfg env fcs w).2) ∧ fl.Sublist (fcs.map (·.1)) ∧
        ∀ e ∈ log, (e.isSkipped = true → e.cand.span.file ∈ fl) ∧ (e.isTested = true → e.cand.span.file ∉ fl) := by
    have := log_runFiles cfg env fcs (fun x hx => (hok.2 x hx).1) hok.1 (obs w) w rfl
    rcases hm : runFiles cfg env fcs w with ⟨r, w'⟩
    rw [hm] at this h
    simp only at h
    subst h
    exact this

/-! ## C13 -/

/-- The row is what it must be. -/
def GoodRow (d : Determined) (src : SourceFile → Text) (fcs : List (SourceFile × List Candidate)) (row : Row) : Prop :=
  ∃ c ∈ candidates fcs, ∃ o text, d.outcome c = some o ∧ HasText src c text ∧ row.span = c.span.display ∧
    row.text = text ∧ row.outcome = o.display

theorem verdict_outcome {f : Text → Option Outcome} {ts : List Text} {results : List (Text × Option Outcome)}
    {v : Option Outcome} (h : Verdict ts results v) (hr : ∀ r ∈ results, r.2 = f r.1) :
    v = ((ts.map f).find? (· ≠ some .passed)).getD (some .passed) := by
  cases h with
  | allPassed =>
    have : (ts.map f).find? (· ≠ some .passed) = none := by
      rw [List.find?_eq_none]
      intro x hx
      obtain ⟨t, ht, rfl⟩ := List.mem_map.1 hx
      have := hr (t, some .passed) (List.mem_map_of_mem ht)
      simp [← this]
    rw [this]; rfl
  | firstNotPassed before t after _ hv =>
    have hb : ∀ t' ∈ before, f t' = some .passed := by
      intro t' ht'
      have := hr (t', some .passed) (List.mem_append_left _ (List.mem_map_of_mem (f := fun t => (t, some Outcome.passed)) ht'))
      exact this.symm
    have ht : v = f t := hr (t, v) (by simp)
    have : ((before ++ t :: after).map f).find? (· ≠ some .passed) = some v := by
      rw [List.map_append, List.find?_append, List.find?_eq_none.2, Option.none_or, List.map_cons, List.find?_cons_of_pos, ← ht]
      · simpa [← ht] using hv
      · intro x hx
        obtain ⟨t', ht', rfl⟩ := List.mem_map.1 hx
        simp [hb t' ht']
    rw [this]; rfl

theorem verdict_ne_nil {ts : List Text} {results : List (Text × Option Outcome)} {v : Option Outcome}
    (h : Verdict ts results v) (hts : ts ≠ []) : results ≠ [] := by
  cases h with
  | allPassed => simpa using hts
  | firstNotPassed => simp

/-- The verdict recorded by an entry of a run that agrees with `d`. -/
theorem entry_outcome {d : Determined} {o o' : Obs} {log pend fl n} {cfg : Cfg} (hl : Logged cfg o log pend fl n o')
    (ht : ∀ c t r, (c, t, r) ∈ o'.tested → r = d.result c t ∧ d.dryRunFails c.span.file = false)
    (hf : ∀ f ∈ o'.failed, d.dryRunFails f = true) {e : Entry} (he : e ∈ log) (hne : e.cand.tests ≠ []) :
    (∃ c, e = .past c) ∨ (∃ c text, e = .skipped c text ∧ d.outcome c = some .skipped) ∨
      ∃ c text results, e = .tested c text results (d.outcome c) := by
  cases e with
  | past c => exact Or.inl ⟨c, rfl⟩
  | skipped c t =>
    refine Or.inr (Or.inl ⟨c, t, rfl, ?_⟩)
    have := hf _ (hl.sk _ he rfl)
    unfold Determined.outcome
    rw [if_pos (by simpa [Entry.cand] using this)]
  | tested c t rs v =>
    refine Or.inr (Or.inr ⟨c, t, rs, ?_⟩)
    have hv : Verdict c.tests rs v := (hl.ok _ he).2
    have hmem : ∀ r ∈ rs, (c, r.1, r.2) ∈ o'.tested := by
      intro r hr
      rw [hl.tested]
      refine List.mem_append_left _ (List.mem_append_right _ (List.mem_flatMap.2 ⟨_, he, ?_⟩))
      exact List.mem_map_of_mem hr
    have h1 := verdict_outcome (f := d.result c) hv fun r hr => (ht _ _ _ (hmem r hr)).1
    have h2 : d.dryRunFails c.span.file = false := by
      obtain ⟨r, rs', rfl⟩ := List.exists_cons_of_ne_nil (verdict_ne_nil hv hne)
      exact (ht _ _ _ (hmem r (by simp))).2
    unfold Determined.outcome
    rw [if_neg (by simp [h2]), ← h1]

theorem mem_zipWith_ofRemoval {urls : List Text} {rs : List Removal} {row : Row}
    (h : row ∈ List.zipWith Row.ofRemoval urls rs) : ∃ r ∈ rs, ∃ url, row = Row.ofRemoval url r := by
  induction urls generalizing rs with
  | nil => simp at h
  | cons u us ih =>
    cases rs with
    | nil => simp at h
    | cons r rs =>
      rw [List.zipWith_cons_cons] at h
      rcases List.mem_cons.1 h with rfl | h
      · exact ⟨r, by simp, u, rfl⟩
      · obtain ⟨r', h1, h2⟩ := ih h
        exact ⟨r', by simp [h1], h2⟩

theorem zipWith_ofRemoval_mem {urls : List Text} {rs : List Removal} (hl : urls.length = rs.length) {r : Removal}
    (h : r ∈ rs) : ∃ url, Row.ofRemoval url r ∈ List.zipWith Row.ofRemoval urls rs := by
  induction rs generalizing urls with
  | nil => simp at h
  | cons r' rs ih =>
    cases urls with
    | nil => simp at hl
    | cons u us =>
      rcases List.mem_cons.1 h with rfl | h
      · exact ⟨u, by simp⟩
      · obtain ⟨url, h⟩ := ih (by simpa using hl) h
        exact ⟨url, by simp [h]⟩

theorem parse_readable {rd : SourceFile → Bool} {t : Text} {s : Span} (h : Span.parse rd t = .ok s) :
    Span.parse (fun _ => true) t = .ok s := by
  unfold Span.parse at h ⊢
  split at h
  · simp at h
  · split at h
    · split at h
      · simp at h
      · dsimp only at h
        split at h
        · rename_i h1 _
          simp [*] at h ⊢
        · simp at h
    · simp at h

/-- One run keeps the database right, and completes it if it succeeds. -/
theorem run_good {d : Determined} {fcs : List (SourceFile × List Candidate)} (hc : CandidatesOk fcs) (call : Call)
    (file : DbFile) (w : World σ) (hn : call.noSqlite = false) (hw : Fresh w)
    (hd : Agrees d (runWhole call cfg env fcs file w).2.2.trace)
    (hfile : ∀ rows, file = .table rows → (rows.map (·.span)).Nodup ∧ ∀ row ∈ rows, GoodRow d cfg.src fcs row) :
    (∀ rows, (runWhole call cfg env fcs file w).2.1 = .table rows →
      (rows.map (·.span)).Nodup ∧ ∀ row ∈ rows, GoodRow d cfg.src fcs row) ∧
    ((runWhole call cfg env fcs file w).1 = .ok () → ∃ rows, (runWhole call cfg env fcs file w).2.1 = .table rows ∧
      ∀ c ∈ candidates fcs, ∀ o, d.outcome c = some o → ∃ row ∈ rows, row.span = c.span.display) := by
  rcases runWhole_cases env cfg call fcs file w hn with ⟨h1, -, h2, h3⟩ | ⟨rows, stored, ws, out, h1, h2, h3, h4, -⟩
  · refine ⟨?_, fun h => absurd h h1⟩
    intro rows hr
    rcases h3 with h3 | h3
    · exact hfile rows (h3 ▸ hr)
    · rw [h3] at hr; simp at hr
  · have hrows : (rows.map (·.span)).Nodup ∧ ∀ row ∈ rows, GoodRow d cfg.src fcs row := by
      rcases h1 with ⟨h1, -⟩ | ⟨-, rfl, -⟩
      · exact hfile rows h1
      · simp
    obtain ⟨log, pend, fl, n, rest, g1, g2, g3⟩ := run_logged env cfg fcs hc.files
      { w with warns := ws, out := w.out ++ out, db := some rows, past := sortPast stored }
    rw [h2] at hd
    generalize runFiles cfg env fcs _ = y at h2 h3 h4 g2 g3 hd
    have hdb : DbAdds (log.filterMap Entry.removal) (some rows) y.2.db := g2.db
    cases hy : y.2.db with
    | none => rw [hy] at hdb; exact hdb.elim
    | some rows' =>
      rw [hy] at hdb
      obtain ⟨⟨urls, hl, rfl⟩, hnd⟩ := hdb
      have hx := h4 _ hy
      have hent : ∀ e ∈ log, e.cand ∈ candidates fcs := by
        intro e he
        rw [g1]; exact List.mem_append_left _ (List.mem_map_of_mem he)
      have hout : ∀ e ∈ log, _ := fun e he => entry_outcome g2 hd.1 hd.2 he (hc.tested _ (hent e he))
      refine ⟨?_, ?_⟩
      · intro rows'' hr
        rw [hx] at hr
        injection hr with hr
        subst hr
        refine ⟨hnd hrows.1, ?_⟩
        intro row hrow
        rcases List.mem_append.1 hrow with hrow | hrow
        · exact hrows.2 row hrow
        · obtain ⟨r, hr, url, rfl⟩ := mem_zipWith_ofRemoval hrow
          obtain ⟨e, he, her⟩ := List.mem_filterMap.1 hr
          have hok := g2.ok e he
          have hcand := hent e he
          rcases hout e he with ⟨c, rfl⟩ | ⟨c, text, rfl, ho⟩ | ⟨c, text, results, rfl⟩
          · simp [Entry.removal] at her
          · simp only [Entry.removal, Option.some.injEq] at her
            subst her
            exact ⟨c, hcand, .skipped, text, ho, hok rfl, rfl, rfl, by simp [Row.ofRemoval]⟩
          · cases ho : d.outcome c with
            | none => simp [Entry.removal, ho] at her
            | some o =>
              simp only [Entry.removal, ho, Option.map_some, Option.some.injEq] at her
              subst her
              exact ⟨c, hcand, o, text, ho, hok.1, rfl, rfl, rfl⟩
      · intro hok
        have hrest := g3 (h3.1 hok)
        subst hrest
        refine ⟨_, hx, ?_⟩
        intro c hcm o ho
        rw [g1, List.append_nil] at hcm
        obtain ⟨e, he, rfl⟩ := List.mem_map.1 hcm
        have hnew : ∀ r, e.removal = some r → r.span = e.cand.span →
            ∃ row ∈ rows ++ List.zipWith Row.ofRemoval urls (log.filterMap Entry.removal), row.span = e.cand.span.display := by
          intro r hr hs
          obtain ⟨url, hu⟩ := zipWith_ofRemoval_mem hl (List.mem_filterMap.2 ⟨e, he, hr⟩)
          exact ⟨_, List.mem_append_right _ hu, by simp [Row.ofRemoval, hs]⟩
        rcases hout e he with ⟨c, rfl⟩ | ⟨c, text, rfl, ho'⟩ | ⟨c, text, results, rfl⟩
        · obtain ⟨r, hr, hs⟩ := g2.ok _ he
          have hr' : r ∈ stored := (sortPast_perm stored).mem_iff.1 hr
          rcases h1 with ⟨k1, -, k2⟩ | ⟨-, -, rfl⟩
          · obtain ⟨row, hrow, hp, -⟩ := k2.mem r hr'
            refine ⟨row, List.mem_append_left _ hrow, ?_⟩
            obtain ⟨c', hc', o', text', -, -, hsp, -⟩ := hrows.2 row hrow
            have hx : ∃ x ∈ fcs, c' ∈ x.2 := by simpa [candidates] using hc'
            obtain ⟨x, hx, hcx⟩ := hx
            have hfx : c'.span.file = x.1 := (hc.files.2 x hx).1 c' hcx
            have hp2 := hc.paths x hx
            rw [← hfx] at hp2
            have hnum := hc.numbers c' hc'
            have hrt := C19_display_parse_partial (fun _ => true) c'.span hp2.1 hp2.2 rfl hnum.1 hnum.2.1 hnum.2.2.1 hnum.2.2.2
            rw [hsp] at hp
            have := parse_readable hp
            rw [hrt] at this
            injection this with this
            have : c'.span = c.span := this.trans hs
            rw [hsp, this]; rfl
          · simp at hr'
        · exact hnew _ rfl rfl
        · exact hnew ⟨c.span, text, o⟩ (by simp [Entry.removal, show d.outcome c = some o from ho]) rfl

end

theorem reached_good {d : Determined} {src : SourceFile → Text} {fcs : List (SourceFile × List Candidate)}
    (hc : CandidatesOk fcs) {file : DbFile} (h : Reached d src fcs file) :
    ∀ rows, file = .table rows → (rows.map (·.span)).Nodup ∧ ∀ row ∈ rows, GoodRow d src fcs row := by
  induction h with
  | new => simp
  | run call cfg env w file h hcall hsrc hw hd ih =>
    subst hsrc
    exact (run_good env cfg hc call file w hcall hw hd ih).1

/-- **C13.** Whatever the history, every row of the database is for a candidate, with its text and the outcome it must
have; no candidate has two rows. -/
theorem C13_never_wrong (d : Determined) (src : SourceFile → Text) (fcs : List (SourceFile × List Candidate))
    (hc : CandidatesOk fcs) (rows : List Row) (h : Reached d src fcs (.table rows)) :
    (rows.map (·.span)).Nodup ∧
    ∀ row ∈ rows, ∃ c ∈ candidates fcs, ∃ o, d.outcome c = some o ∧ row.span = c.span.display ∧
      HasText src c row.text ∧ row.outcome = o.display := by
  obtain ⟨h1, h2⟩ := reached_good hc h rows rfl
  refine ⟨h1, fun row hrow => ?_⟩
  obtain ⟨c, hcm, o, text, ho, ht, k1, rfl, k3⟩ := h2 row hrow
  exact ⟨c, hcm, o, ho, k1, ht, k3⟩

/-- **C13.** After any history that ends with a successful run, the database contains exactly one row for each candidate
whose outcome can be determined, with its text and that outcome, and nothing else. (Nothing is said of the `url` column,
which depends on the commit checked out at the time.) -/
theorem C13_completed (d : Determined) (src : SourceFile → Text) (fcs : List (SourceFile × List Candidate))
    (hc : CandidatesOk fcs) (rows : List Row) (h : CompletedDb d src fcs rows) :
    (rows.map (·.span)).Nodup ∧
    ∀ span text outcome, (∃ url, Row.mk span text outcome url ∈ rows) ↔
      ∃ c ∈ candidates fcs, ∃ o, d.outcome c = some o ∧ span = c.span.display ∧ HasText src c text ∧
        outcome = o.display := by
  obtain ⟨file, σ, call, cfg, env, w, w', hre, hcall, hsrc, hw, hd, hrun⟩ := h
  subst hsrc
  have hg := run_good env cfg hc call file w hcall hw (by rw [hrun]; exact hd) (reached_good hc hre)
  rw [hrun] at hg
  obtain ⟨h1, h2⟩ := hg.1 rows rfl
  obtain ⟨rows', hr', h3⟩ := hg.2 rfl
  simp only [DbFile.table.injEq] at hr'
  subst hr'
  refine ⟨h1, fun span text outcome => ⟨?_, ?_⟩⟩
  · rintro ⟨url, hu⟩
    obtain ⟨c, hcm, o, text', ho, ht, k1, k2, k3⟩ := h2 _ hu
    simp only at k1 k2 k3
    subst k2
    exact ⟨c, hcm, o, ho, k1, ht, k3⟩
  · rintro ⟨c, hcm, o, ho, rfl, ht, rfl⟩
    obtain ⟨row, hrow, hs⟩ := h3 c hcm o ho
    obtain ⟨c', hcm', o', text', ho', ht', k1, k2, k3⟩ := h2 row hrow
    have hwf : ∀ c ∈ candidates fcs, c.span.file.WellFormed := by
      intro c hcm
      have hx : ∃ x ∈ fcs, c ∈ x.2 := by simpa [candidates] using hcm
      obtain ⟨x, hx, hcx⟩ := hx
      rw [(hc.files.2 x hx).1 c hcx]
      exact (hc.paths x hx).1
    have hcc : c'.span = c.span := C20_display_injective _ _ (hwf _ hcm') (hwf _ hcm) (by rw [← k1, hs])
    have : c' = c := C09_undetermined_not_recorded.eq_of_nodup_map hc.distinct hcm' hcm hcc
    subst this
    rw [ho] at ho'
    injection ho' with ho'
    subst ho'
    obtain ⟨p, s, hl⟩ := ht
    obtain ⟨p', s', hl'⟩ := ht'
    have := (C04_location_unique _ _ _ _ _ _ _ _ _ hl hl').2.1
    refine ⟨row.url, ?_⟩
    have : row = ⟨c'.span.display, text, o.display, row.url⟩ := by
      rw [this, ← k2, ← k3, ← hs]
    rw [← this]; exact hrow

/-- **C13.** Any two histories that end with a successful run, for instance an uninterrupted run and a series of
interrupted ones, leave the same rows (up to their order). -/
theorem C13_same_database (d : Determined) (src : SourceFile → Text) (fcs : List (SourceFile × List Candidate))
    (hc : CandidatesOk fcs) (rows rows' : List Row) (h : CompletedDb d src fcs rows) (h' : CompletedDb d src fcs rows') :
    (rows.map fun r => (r.span, r.text, r.outcome)).Perm (rows'.map fun r => (r.span, r.text, r.outcome)) := by
  obtain ⟨n1, m1⟩ := C13_completed d src fcs hc rows h
  obtain ⟨n2, m2⟩ := C13_completed d src fcs hc rows' h'
  have hnd : ∀ rs : List Row, (rs.map (·.span)).Nodup → (rs.map fun r => (r.span, r.text, r.outcome)).Nodup := by
    intro rs hn
    unfold List.Nodup at hn ⊢
    rw [List.pairwise_map] at hn ⊢
    exact hn.imp fun h e => h (Prod.mk.inj e).1
  refine (List.perm_ext_iff_of_nodup (hnd _ n1) (hnd _ n2)).2 ?_
  rintro ⟨s, t, o⟩
  have key : ∀ rs : List Row, (s, t, o) ∈ rs.map (fun r => (r.span, r.text, r.outcome)) ↔ ∃ url, Row.mk s t o url ∈ rs := by
    intro rs
    constructor
    · intro h
      obtain ⟨r, hr, he⟩ := List.mem_map.1 h
      simp only [Prod.mk.injEq] at he
      obtain ⟨rfl, rfl, rfl⟩ := he
      exact ⟨r.url, hr⟩
    · rintro ⟨url, h⟩
      exact List.mem_map.2 ⟨_, h, rfl⟩
  rw [key, key, m1, m2]

/-! Non-vacuity: the demonstration run, once uninterrupted, once interrupted by Ctrl-C during the second candidate and
resumed. -/
namespace Demo

def det : Determined := ⟨fun _ t => if t = "q".toList then some .failed else some .passed, fun f => decide (f = u)⟩

theorem candidatesOk : CandidatesOk files where
  files := filesOk
  distinct := by decide
  paths := by unfold SourceFile.WellFormed; decide
  numbers := by decide
  tested := by decide

theorem agrees_of {tr : List Snap}
    (h : (∀ x ∈ testedOf tr, x.2.2 = det.result x.1 x.2.1 ∧ det.dryRunFails x.1.span.file = false) ∧
      ∀ f ∈ failedOf tr, det.dryRunFails f = true) : Agrees det tr := ⟨fun c t r hm => h.1 (c, t, r) hm, h.2⟩

def once := runWhole (call false false false) cfg (env 99 99) files .absent start
def first := runWhole (call false false false) cfg (env 2 99) files .absent start
def second := runWhole (call false false true) cfg (env 99 99) files first.2.1 start

def rowsOf : DbFile → List Row
  | .table rows => rows
  | _ => []

example : CompletedDb det src files (rowsOf once.2.1) :=
  ⟨.absent, _, call false false false, cfg, env 99 99, start, once.2.2, .new, rfl, rfl, ⟨rfl, rfl⟩,
    agrees_of (by decide +kernel),
    Prod.ext (show once.1 = .ok () by decide +kernel) (Prod.ext (show once.2.1 = .table (rowsOf once.2.1) by decide +kernel) rfl)⟩

example : CompletedDb det src files (rowsOf second.2.1) :=
  ⟨first.2.1, _, call false false true, cfg, env 99 99, start, second.2.2,
    .run _ cfg (env 2 99) start .absent .new rfl rfl ⟨rfl, rfl⟩ (agrees_of (by decide +kernel)), rfl, rfl, ⟨rfl, rfl⟩,
    agrees_of (by decide +kernel),
    Prod.ext (show second.1 = .ok () by decide +kernel)
      (Prod.ext (show second.2.1 = .table (rowsOf second.2.1) by decide +kernel) rfl)⟩

/-- The first run was interrupted with one row; the second added three. -/
example : first.1 = .err (.inr .ctrlc) ∧ (rowsOf first.2.1).length = 1 ∧ (rowsOf second.2.1).length = 4 := by decide +kernel

end Demo

/-! ## C12 -/

section
variable {σ : Type} (env : Env σ) (cfg : Cfg)

/-- **C12 (partial).** If the candidates come in ascending order (which the code does not ensure: within a file all
statements come before all method calls, see `C12_negation`), then however a resumed run ends, no test was built,
started, killed or completed for a candidate that already had a row. -/
theorem C12_no_repeat_partial (call : Call) (fcs : List (SourceFile × List Candidate)) (rows : List Row) (w : World σ)
    (hn : call.noSqlite = false) (hr : call.flags.reset = false) (hw : Fresh w)
    (hasc : (candidates fcs).Pairwise fun a b => a.span.cmp b.span = .lt) :
    ∀ s ∈ (runWhole call cfg env fcs (.table rows) w).2.2.trace, ∀ c, IsTestOf c s.event →
      ∀ row ∈ rows, Span.parse call.readable row.span ≠ .ok c.span := by
  rcases runWhole_cases env cfg call fcs (.table rows) w hn with ⟨-, -, h2, -⟩ | ⟨rows', stored, ws, out, h1, h2, -⟩
  · rw [h2, hw.1]; simp
  · rw [h2]
    have henv : EnvOk (fun _ => True) env := by constructor <;> intros <;> trivial
    have hK : KOk (fun _ => True) (sortPast stored) (fun _ => True) (fun _ _ => True) := by
      constructor <;> intros <;> (try trivial)
      exact Or.inr trivial
    have := resume_runFiles henv hK cfg fcs (by intros; trivial)
      { w with warns := ws, out := w.out ++ out, db := some rows', past := sortPast stored }
      ⟨hasc, ⟨sortPast_sorted _, fun _ _ _ hr _ => hr⟩, trivial, by simp [hw.1]⟩
    have key : ∀ s ∈ (runFiles cfg env fcs { w with warns := ws, out := w.out ++ out, db := some rows', past := sortPast stored }).2.trace,
        NotPast (sortPast stored) s.event := by
      rcases hm : runFiles cfg env fcs { w with warns := ws, out := w.out ++ out, db := some rows', past := sortPast stored } with ⟨r, w'⟩
      rw [hm] at this
      cases r with
      | ok u => exact this.trace
      | err e => exact this.2
      | panic => exact this.2
      | hang => exact this
    intro s hs c hc row hrow hp
    rcases h1 with ⟨k1, -, k2⟩ | ⟨k1, rfl, rfl⟩
    · injection k1 with k1
      subst k1
      obtain ⟨r, hr, hp', -⟩ := k2.mem' row hrow
      rw [hp] at hp'
      injection hp' with hp'
      exact key s hs c hc r ((sortPast_perm stored).mem_iff.2 hr) hp'.symm
    · rw [hr] at k1; simp at k1

/-- Every call of the outside can fail, but not with a constraint violation of the database. -/
def NoDbFault (env : Env σ) : Prop := EnvOk (fun e => e ≠ some .db) env

/-- **C12 (partial).** If the candidates come in ascending order, a resumed run never fails because a row for a candidate
exists already; provided that in no file whose dry run fails a candidate without a row comes before one that has a
row (which can happen if it could not be determined whether the test ran), that the rows' keys are displayed spans of candidates that can be read
back, and that insertions do not fail otherwise. -/
theorem C12_resumable_partial (call : Call) (fcs : List (SourceFile × List Candidate)) (rows : List Row) (w : World σ)
    (hn : call.noSqlite = false) (hr : call.flags.reset = false) (hw : Fresh w) (henv : NoDbFault env)
    (hasc : (candidates fcs).Pairwise fun a b => a.span.cmp b.span = .lt)
    (hwf : ∀ c ∈ candidates fcs, c.span.file.WellFormed)
    (hrows : ∀ row ∈ rows, ∀ c ∈ candidates fcs, row.span = c.span.display → Span.parse call.readable row.span = .ok c.span)
    (hgap : ∀ f cs, (f, cs) ∈ fcs → ∀ w e, (env.dryRun w f).res = .err e → ∀ pre c rest, cs = pre ++ c :: rest →
      (∀ row ∈ rows, row.span ≠ c.span.display) → ∀ c' ∈ rest, ∀ row ∈ rows, Span.parse call.readable row.span ≠ .ok c'.span) :
    (runWhole call cfg env fcs (.table rows) w).1 ≠ .err (.inr .db) := by
  have hmem : ∀ {f cs c}, (f, cs) ∈ fcs → c ∈ cs → c ∈ candidates fcs := fun h1 h2 => List.mem_flatMap.2 ⟨_, h1, h2⟩
  rcases runWhole_cases env cfg call fcs (.table rows) w hn with ⟨-, h3, -⟩ | ⟨rows', stored, ws, out, h1, -, -, -, h6⟩
  · exact h3 _
  · rcases h1 with ⟨k1, -, k2⟩ | ⟨k1, rfl, rfl⟩
    rotate_left
    · rw [hr] at k1; simp at k1
    injection k1 with k1
    subst k1
    have hK : KOk (fun e => e ≠ some .db) (sortPast stored) (fun c => ∀ r ∈ sortPast stored, r.span ≠ c.span)
        (fun cs db => Ascending cs ∧ (∀ c ∈ cs, c.span.file.WellFormed) ∧
          ∀ rows, db = some rows → ∀ c ∈ cs, ∀ row ∈ rows, row.span = c.span.display → ∃ r ∈ sortPast stored, r.span = c.span) := by
      refine ⟨fun c h => h, ?_, ?_, ?_⟩
      · rintro pre cs db ⟨h1, h2, h3⟩
        exact ⟨(List.pairwise_append.1 h1).2.1, fun c hc => h2 c (List.mem_append_right _ hc),
          fun rows hr c hc => h3 rows hr c (List.mem_append_right _ hc)⟩
      · rintro c cs rows url text o hg ⟨h1, h2, h3⟩ hany
        refine ⟨(List.pairwise_cons.1 h1).2, fun c hc => h2 c (List.mem_cons_of_mem _ hc), ?_⟩
        intro rows2 he c' hc' row hrow hs
        injection he with he
        subst he
        rcases List.mem_append.1 hrow with hrow | hrow
        · exact h3 rows rfl c' (List.mem_cons_of_mem _ hc') row hrow hs
        · exfalso
          rw [List.mem_singleton.1 hrow] at hs
          have := C20_display_injective _ _ (h2 c List.mem_cons_self) (h2 c' (List.mem_cons_of_mem _ hc')) hs
          have hlt := (List.pairwise_cons.1 h1).1 c' hc'
          rw [this, (Span.cmp_eq_iff _ _).2 rfl] at hlt
          simp at hlt
      · rintro c cs rows hg - ⟨h1, h2, h3⟩
        left
        rw [List.any_eq_false]
        intro row hrow hs
        obtain ⟨r, hr, he⟩ := h3 rows rfl c List.mem_cons_self row hrow (by simpa using hs)
        exact hg r hr he
    have hstored : ∀ c : Candidate, (∀ row ∈ rows, Span.parse call.readable row.span ≠ .ok c.span) →
        ∀ r ∈ sortPast stored, r.span ≠ c.span := by
      intro c h r hr hs
      obtain ⟨row, hrow, hp, -⟩ := k2.mem r ((sortPast_perm stored).mem_iff.1 hr)
      exact h row hrow (hs ▸ hp)
    have := resume_runFiles henv hK cfg fcs ?_
      { w with warns := ws, out := w.out ++ out, db := some rows, past := sortPast stored }
      ⟨hasc, ⟨sortPast_sorted _, fun _ _ _ hr _ => hr⟩, ⟨hasc, hwf, ?_⟩, by simp [hw.1]⟩
    · generalize runFiles cfg env fcs _ = y at this h6
      obtain ⟨r, w'⟩ := y
      intro h
      have h7 := (h6 _).2 h
      simp only at h7
      subst h7
      exact this.1 rfl
    · intro f cs hf w e he pre c rest hcs hc c' hc'
      rcases List.mem_cons.1 hc' with rfl | hc'
      · exact hc
      · refine hstored c' (hgap f cs hf w e he pre c rest hcs ?_ c' hc')
        intro row hrow hs
        have hcm : c ∈ candidates fcs := hmem hf (by rw [hcs]; simp)
        obtain ⟨r, hr, hp', -⟩ := k2.mem' row hrow
        rw [hrows row hrow c hcm hs] at hp'
        injection hp' with hp'
        exact hc r ((sortPast_perm stored).mem_iff.2 hr) hp'.symm
    · intro rows2 he c hc row hrow hs
      injection he with he
      subst he
      obtain ⟨r, hr, hp', -⟩ := k2.mem' row hrow
      rw [hrows row hrow c hc hs] at hp'
      injection hp' with hp'
      exact ⟨r, (sortPast_perm stored).mem_iff.2 hr, hp'.symm⟩

end

namespace Demo
/-- A file `aa;b.c();dd;e.f();` with two statements and two method calls as candidates. -/
def v : SourceFile := ⟨["v.rs".toList]⟩
def cfgV : Cfg := { cfg with src := fun f => if f = v then "aa;b.c();dd;e.f();".toList else [] }
def s1 := cand v .statement 0 3 ["p"]
def s2 := cand v .statement 9 12 ["p"]
def m1 := cand v .methodCall 4 8 ["p"]
def m2 := cand v .methodCall 13 17 ["p"]
def filesV : List (SourceFile × List Candidate) := [(v, [s1, s2, m1, m2])]
def startV : World (Nat × Nat) := { start with fs := cfgV.src }
def interrupted := runWhole (call false false false) cfgV (env 4 99) filesV .absent startV
def resumed := runWhole (call false false true) cfgV (env 99 99) filesV interrupted.2.1 startV
def again := runWhole (call false false true) cfgV (env 99 99) filesV resumed.2.1 startV

/-- The hypotheses of the theorems about runs are met, so this is about the order of candidates only. -/
theorem candidatesOkV : CandidatesOk filesV where
  files := ⟨by decide, fun x hx => by
    rw [List.mem_singleton.1 hx]; exact ⟨by decide, [s1, s2], [m1, m2], rfl, by decide, by decide⟩⟩
  distinct := by decide
  paths := by unfold SourceFile.WellFormed; decide
  numbers := by decide
  tested := by decide
end Demo

open Demo in
/-- **C12 (negation of the full claim).** There is a run (candidates well-formed, the statements of the file before its method
calls as the code has it) that is interrupted after recording three candidates, such that `--resume` runs a candidate
again that has a row and then fails because the row exists; and resuming again fails in the same way, so the run can
never be completed. -/
theorem C12_negation :
    CandidatesOk filesV ∧
    interrupted.1 = .err (.inr .ctrlc) ∧
    (match interrupted.2.1 with | .table rows => rows.any (fun r => r.span == m1.span.display) | _ => false) = true ∧
    resumed.1 = .err (.inr .db) ∧ (resumed.2.2.trace.any fun s => decide (s.event = .tested m1 "p".toList (some .passed))) = true ∧
    resumed.2.1 = interrupted.2.1 ∧ again.1 = .err (.inr .db) :=
  ⟨candidatesOkV, by decide +kernel, by decide +kernel, by decide +kernel, by decide +kernel, by decide +kernel, by decide +kernel⟩

open Demo in
/-- **C12 (negation, second way).** Even in ascending order, a gap (a candidate whose outcome could not be determined,
followed by one with a row) makes resuming impossible if the file's dry run has begun to fail: the row of the later
candidate is inserted a second time. -/
theorem C12_negation_gap : ∃ rows : List Row, rows.map (·.span) = [d2.span.display] ∧
    (runWhole (call false false true) cfg (env 99 99) [(u, [d1, d2])] (.table rows) start).1 = .err (.inr .db) :=
  ⟨[⟨d2.span.display, "y;".toList, "passed".toList, []⟩], rfl, by decide +kernel⟩

open Demo in
/-- The hypotheses of the partial theorems are met by the demonstration files and a non-empty database, with an
environment whose insertions do not fail. -/
example : ((candidates files).Pairwise fun a b => a.span.cmp b.span = .lt) ∧
    (∀ c ∈ candidates files, c.span.file.WellFormed) ∧
    (∀ row ∈ oldRows, ∀ c ∈ candidates files, row.span = c.span.display →
      Span.parse (call false false true).readable row.span = .ok c.span) ∧
    NoDbFault { env 99 99 with insert := fun w _ => ⟨.ok [], w.warns, w.ext, []⟩ } ∧
    (runWhole (call false false true) cfg (env 99 99) files (.table oldRows) start).1 = .ok () ∧
    ((runWhole (call false false true) cfg (env 99 99) files (.table oldRows) start).2.2.trace.filter
      fun s => decide (IsTestOf c2 s.event)).length = 3 := by
  refine ⟨by decide, by unfold SourceFile.WellFormed; decide, by decide +kernel, ?_, by decide +kernel, by decide +kernel⟩
  constructor <;> intros <;> simp_all [env]
  all_goals (rename_i h; try (split at h) <;> simp_all)

end Necessist.Run
