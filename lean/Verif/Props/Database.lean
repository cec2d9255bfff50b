import Verif.Model.Sqlite
import Verif.Model.Options
import Verif.Props.Report
import Verif.Lemmas.Sqlite
/-! C14 (what happens to existing results) and the part of C17 about `--dump`. -/
namespace Necessist.Run

section
variable {σ : Type} (env : Env σ) (cfg : Cfg)

/-! ## C14 -/

/-- **C14.** If a database exists and none of `--dump`, `--reset`, `--resume` is given, the run fails, and the database
and everything else is left as it was: no event happens, no file is touched, nothing is printed. -/
theorem C14_refuses (call : Call) (fcs : List (SourceFile × List Candidate)) (file : DbFile) (w : World σ)
    (hs : call.noSqlite = false) (hf : call.flags = ⟨false, false, false⟩) (he : file ≠ .absent) :
    (∃ e, runWhole call cfg env fcs file w = (.err (.inl e), file, w)) ∧
    (call.faults.stat = false → runWhole call cfg env fcs file w = (.err (.inl .exists_), file, w)) := by
  have hd : decide (file ≠ .absent) = true := by simpa using he
  have key : call.faults.stat = false → runWhole call cfg env fcs file w = (.err (.inl .exists_), file, w) := by
    intro h
    simp [runWhole, pastInit, dbInit, hs, hf, h, he]
  refine ⟨?_, key⟩
  by_cases h : call.faults.stat = true
  · exact ⟨.io, by simp [runWhole, pastInit, dbInit, hs, h]⟩
  · exact ⟨_, key (by simpa using h)⟩

/-- **C14.** `--dump` (which excludes `--reset`) never changes the database, and fails if there is none. -/
theorem C14_dump_unchanged (call : Call) (w : WarnOpts) (verbose : Bool) (st : WStates) (file : DbFile)
    (hd : call.flags.dump = true) (hr : call.flags.reset = false) :
    (dumpWhole call w verbose st file).2 = file ∧
    (call.noSqlite = false → file = .absent → ∃ e, (dumpWhole call w verbose st file).1 = .err e) := by
  rcases call with ⟨ns, ⟨d, re, rs⟩, ⟨f1, f2, f3, f4, f5⟩, rd⟩
  simp only at hd hr
  subst hd hr
  cases ns <;> cases f1 <;> cases f2 <;> cases f5 <;> cases file <;>
    simp [dumpWhole, pastInit, dbInit, dbOpen]

/-- **C14.** The command line is accepted with `--dump` only without `--reset`, `--resume` and `--no-sqlite`, and never
with both `--reset` and `--resume`. -/
theorem C14_flags_exclusive (o : OptSet) (h : processOptions o = .ok) :
    (o .dump = true → o .reset = false ∧ o .resume = false ∧ o .noSqlite = false) ∧
    (o .reset = true → o .resume = false ∧ o .noSqlite = false) ∧ (o .resume = true → o .noSqlite = false) := by
  have hn : incompatibleLists.findSome? (incompatible o) = none := by
    unfold processOptions at h
    split at h
    · simp at h
    · assumption
  have h2 := List.findSome?_eq_none_iff.1 hn [.dump, .noSqlite, .reset, .resume] (by decide)
  cases hd : o .dump <;> cases hns : o .noSqlite <;> cases hre : o .reset <;> cases hrs : o .resume <;>
    simp [incompatible, hd, hns, hre, hrs] at h2 ⊢

private theorem runFiles_db (fcs : List (SourceFile × List Candidate)) (hok : FilesOk fcs) (w : World σ) :
    ∃ rs, DbAdds rs w.db (runFiles cfg env fcs w).2.db := by
  obtain ⟨log, pend, rest, h1, h2, -⟩ := C07_verdicts env cfg fcs hok w _ _ (rfl : _ = ((runFiles cfg env fcs w).1, (runFiles cfg env fcs w).2))
  exact ⟨_, h2⟩

private theorem dbAdds_some {rs : List Removal} {rows : List Row} {b : Option (List Row)} (h : DbAdds rs (some rows) b) :
    ∃ more, b = some (rows ++ more) := by
  cases b with
  | none => exact h.elim
  | some b => obtain ⟨⟨urls, -, rfl⟩, -⟩ := h; exact ⟨_, rfl⟩

/-- **C14.** Without `--reset`, whatever the other options, the faults and the way the run ends, every row of an existing
database is kept, in place: rows are only added at the end. -/
theorem C14_keeps_rows (call : Call) (fcs : List (SourceFile × List Candidate)) (hok : FilesOk fcs) (rows : List Row)
    (w : World σ) (hr : call.flags.reset = false) :
    ∃ more, (runWhole call cfg env fcs (.table rows) w).2.1 = .table (rows ++ more) := by
  have hi : (pastInit call.noSqlite cfg.warn w.warns call.readable call.faults call.flags (.table rows)).file = .table rows := by
    rcases call with ⟨ns, ⟨d, re, rs⟩, ⟨f1, f2, f3, f4, f5⟩, rd⟩
    simp only at hr
    subst hr
    cases ns <;> cases f1 <;> cases f2 <;> cases f5 <;> cases d <;> cases rs <;>
      simp [pastInit, dbInit, dbOpen]
  unfold runWhole
  dsimp only
  split
  · exact ⟨[], by simp [hi]⟩
  · exact ⟨[], by simp [hi]⟩
  · exact ⟨[], by simp [hi]⟩
  · rename_i past hp
    obtain ⟨rs, hrs⟩ := runFiles_db env cfg fcs hok
      { w with warns := (pastInit call.noSqlite cfg.warn w.warns call.readable call.faults call.flags (.table rows)).warns,
               out := w.out ++ (pastInit call.noSqlite cfg.warn w.warns call.readable call.faults call.flags (.table rows)).out,
               db := if call.noSqlite then none else match (pastInit call.noSqlite cfg.warn w.warns call.readable call.faults call.flags (.table rows)).file with | .table rows => some rows | _ => none, past := past }
    dsimp only at hrs ⊢
    by_cases hn : call.noSqlite = true
    · rw [if_pos hn] at hrs ⊢
      generalize runFiles cfg env fcs _ = x at hrs ⊢
      have : x.2.db = none := by
        cases hx : x.2.db with
        | none => rfl
        | some b => rw [hx] at hrs; exact hrs.elim
      rw [this]
      exact ⟨[], by simp [hi]⟩
    · rw [if_neg hn] at hrs ⊢
      rw [hi] at hrs ⊢
      obtain ⟨more, hm⟩ := dbAdds_some hrs
      generalize runFiles cfg env fcs _ = x at hm ⊢
      rw [hm]
      exact ⟨more, rfl⟩

/-- **C14.** With `--no-sqlite` the database file, whatever it is, is left alone. -/
theorem C14_no_sqlite (call : Call) (fcs : List (SourceFile × List Candidate)) (hok : FilesOk fcs) (file : DbFile)
    (w : World σ) (hn : call.noSqlite = true) : (runWhole call cfg env fcs file w).2.1 = file := by
  obtain ⟨rs, hrs⟩ := runFiles_db env cfg fcs hok { w with out := w.out ++ [], db := none, past := [] }
  have : (runFiles cfg env fcs { w with out := w.out ++ [], db := none, past := [] }).2.db = none := by
    cases hx : (runFiles cfg env fcs { w with out := w.out ++ [], db := none, past := [] }).2.db with
    | none => rfl
    | some b => rw [hx] at hrs; exact hrs.elim
  simp only [runWhole, pastInit, hn, if_true]
  rw [this]

/-- **C14.** `--reset` on an existing database is the same, in every observable respect, as a run without options where
there was no database: old rows are neither kept nor used. (If the operations of SQLite it needs succeed.) -/
theorem C14_reset_starts_afresh (call : Call) (fcs : List (SourceFile × List Candidate)) (rows : List Row) (w : World σ)
    (hn : call.noSqlite = false) (hf : call.flags = ⟨false, true, false⟩)
    (hs : call.faults = ⟨false, false, false, false, call.faults.load⟩) :
    runWhole call cfg env fcs (.table rows) w =
      runWhole { call with flags := ⟨false, false, false⟩ } cfg env fcs .absent w := by
  have h1 := congrArg DbFaults.stat hs
  have h2 := congrArg DbFaults.establish hs
  have h3 := congrArg DbFaults.drop hs
  have h4 := congrArg DbFaults.create hs
  simp only at h1 h2 h3 h4
  simp [runWhole, pastInit, dbInit, dbOpen, hn, hf, h1, h2, h3, h4]

/-- **C14.** If one of those operations fails, the run ends there with an error: the rows are still there, or (if they
had already been dropped) the table is gone. -/
theorem C14_reset_fails (call : Call) (fcs : List (SourceFile × List Candidate)) (rows : List Row) (w : World σ)
    (hn : call.noSqlite = false) (hf : call.flags = ⟨false, true, false⟩)
    (hs : call.faults.stat = true ∨ call.faults.establish = true ∨ call.faults.drop = true ∨ call.faults.create = true) :
    ∃ file, runWhole call cfg env fcs (.table rows) w = (.err (.inl .io), file, w) ∧ (file = .table rows ∨ file = .empty) := by
  rcases call with ⟨ns, fl, ⟨f1, f2, f3, f4, f5⟩, rd⟩
  simp only at hn hf hs
  subst hn hf
  cases f1 <;> cases f2 <;> cases f3 <;> cases f4 <;> simp_all [runWhole, pastInit, dbInit, dbOpen]

/-- **C14.** If there is no database: `--reset` and `--resume` warn. If that warning is denied the run fails and there is
still no database; otherwise a new database is used, as in a run without options. -/
theorem C14_absent (call : Call) (fcs : List (SourceFile × List Candidate)) (w : World σ) (flag : Text)
    (hn : call.noSqlite = false) (hstat : call.faults.stat = false)
    (hf : call.flags = ⟨false, true, false⟩ ∧ flag = "reset".toList ∨ call.flags = ⟨false, false, true⟩ ∧ flag = "resume".toList)
    (hd : cfg.warn.quiet = false) :
    let call' := { call with flags := ⟨false, false, false⟩ }
    match warnInternal cfg.warn w.warns (noDatabaseCall flag) with
    | (.bail _, _) => (runWhole call cfg env fcs .absent w).1 = .err (.inl .denied) ∧ (runWhole call cfg env fcs .absent w).2.1 = .absent
    | (.print m, st) => runWhole call cfg env fcs .absent w =
        runWhole call' cfg env fcs .absent { w with warns := st, out := w.out ++ [.warning m] }
    | (.silent, st) => runWhole call cfg env fcs .absent w = runWhole call' cfg env fcs .absent { w with warns := st }
    | (.panic, _) => (runWhole call cfg env fcs .absent w).1 = .panic := by
  rcases hf with ⟨hf, rfl⟩ | ⟨hf, rfl⟩
  all_goals
    intro call'
    rcases hw : warnInternal cfg.warn w.warns (noDatabaseCall _) with ⟨r, st⟩
    cases r <;> simp [runWhole, pastInit, dbInit, dbOpen, hn, hf, hstat, hw, hd, call']
    all_goals (try split) <;> (try split) <;> simp_all

/-- **C14.** When there was no database, then afterwards there is none, or there is an empty file (in both cases the run
failed before going through the files, and nothing happened), or there is a database with exactly this run's rows. -/
theorem C14_created (call : Call) (fcs : List (SourceFile × List Candidate)) (hok : FilesOk fcs) (w : World σ)
    (hn : call.noSqlite = false) :
    let x := runWhole call cfg env fcs .absent w
    ((x.2.1 = .absent ∨ x.2.1 = .empty) ∧ x.1 ≠ .ok () ∧ x.2.2.trace = w.trace ∧ x.2.2.fs = w.fs) ∨
    ∃ rows, x.2.1 = .table rows ∧ ∃ (log : List Entry) (rest : List Candidate),
      candidates fcs = log.map Entry.cand ++ rest ∧ DbAdds (log.filterMap Entry.removal) (some []) (some rows) := by
  have hi : let i := pastInit call.noSqlite cfg.warn w.warns call.readable call.faults call.flags .absent
      (i.file = .absent ∨ i.file = .empty) ∧ (∀ p, i.res ≠ .ok p) ∨ i.file = .table [] ∧ ∃ p, i.res = .ok p := by
    rcases call with ⟨ns, ⟨d, re, rs⟩, ⟨f1, f2, f3, f4, f5⟩, rd⟩
    simp only at hn
    subst hn
    have hopen : ∀ fl : DbFlags, ((dbOpen rd ⟨f1, f2, f3, f4, f5⟩ fl .absent).2 = .absent ∨
          (dbOpen rd ⟨f1, f2, f3, f4, f5⟩ fl .absent).2 = .empty) ∧
          (∀ p, (dbOpen rd ⟨f1, f2, f3, f4, f5⟩ fl .absent).1 ≠ .ok p) ∨
        (dbOpen rd ⟨f1, f2, f3, f4, f5⟩ fl .absent).2 = .table [] ∧
          (dbOpen rd ⟨f1, f2, f3, f4, f5⟩ fl .absent).1 = .ok [] := by
      intro fl
      cases f2 <;> cases f4 <;> simp [dbOpen]
    have hsort : sortPast [] = [] := by simp [sortPast]
    intro i
    show _ ∨ _
    simp only [i, pastInit, dbInit]
    cases f1
    · cases d
      · cases re
        · cases rs
          · rcases hopen ⟨false, false, false⟩ with ⟨h1, h2⟩ | ⟨h1, h2⟩
            · refine Or.inl ⟨by simpa using h1, ?_⟩
              intro p
              simp only [decide_not, ne_eq]
              generalize hx : dbOpen rd _ _ _ = x at h1 h2 ⊢
              obtain ⟨r, f⟩ := x
              cases r <;> simp_all
            · refine Or.inr ⟨by simpa using h1, [], by simp [h2, hsort]⟩
          · rcases hw : warnInternal cfg.warn w.warns (noDatabaseCall "resume".toList) with ⟨r, st⟩
            rcases hopen ⟨false, false, true⟩ with ⟨h1, h2⟩ | ⟨h1, h2⟩
            · generalize hx : dbOpen rd _ _ _ = x at h1 h2 ⊢
              obtain ⟨r', f⟩ := x
              cases r <;> cases r' <;> simp_all
            · cases r <;> simp_all
        · rcases hw : warnInternal cfg.warn w.warns (noDatabaseCall "reset".toList) with ⟨r, st⟩
          rcases hopen ⟨false, true, rs⟩ with ⟨h1, h2⟩ | ⟨h1, h2⟩
          · generalize hx : dbOpen rd _ _ _ = x at h1 h2 ⊢
            obtain ⟨r', f⟩ := x
            cases r <;> cases r' <;> simp_all
          · cases r <;> simp_all
      · simp
    · simp
  intro x
  dsimp only at hi
  simp only [x, runWhole]
  generalize pastInit call.noSqlite cfg.warn w.warns call.readable call.faults call.flags .absent = i at hi ⊢
  obtain ⟨res, file, ws, out⟩ := i
  dsimp only at hi ⊢
  rcases hi with ⟨h1, h2⟩ | ⟨h1, p, h2⟩
  · left
    cases res with
    | ok p => exact absurd rfl (h2 p)
    | err e => exact ⟨h1, by simp, rfl, rfl⟩
    | panic => exact ⟨h1, by simp, rfl, rfl⟩
    | hang => exact ⟨h1, by simp, rfl, rfl⟩
  · right
    subst h1 h2
    simp only [hn]
    obtain ⟨log, pend, rest, g1, g2, -⟩ := C07_verdicts env cfg fcs hok
      { w with warns := ws, out := w.out ++ out, db := some [], past := p } _ _ rfl
    simp only [Bool.false_eq_true, if_false] at g2 ⊢
    generalize runFiles cfg env fcs _ = y at g2 ⊢
    cases hy : y.2.db with
    | none => rw [hy] at g2; exact g2.elim
    | some rows => rw [hy] at g2; exact ⟨rows, by simp [hy], log, rest, g1, g2⟩

/-- **C14 (a consequence of how the table is created).** If the file exists but the table does not, as when `--reset`
fails or is killed between dropping and creating the table, then no call that uses the database can succeed: neither
`--reset` (there is no table to drop) nor `--resume` nor `--dump`. The file has to be deleted by hand. -/
theorem C14_empty_is_stuck (call : Call) (fcs : List (SourceFile × List Candidate)) (w : World σ)
    (hn : call.noSqlite = false) : ∃ e, runWhole call cfg env fcs .empty w = (.err (.inl e), .empty, w) := by
  rcases call with ⟨ns, ⟨d, re, rs⟩, ⟨f1, f2, f3, f4, f5⟩, rd⟩
  simp only at hn
  subst hn
  cases d <;> cases re <;> cases rs <;> cases f1 <;> cases f2 <;> cases f3 <;> cases f4 <;>
    simp [runWhole, pastInit, dbInit, dbOpen]

end

/-! ### Non-vacuity: a real run on each kind of file -/

namespace Demo
def noFault : DbFaults := ⟨false, false, false, false, false⟩
def call (dump reset resume : Bool) : Call := ⟨false, ⟨dump, reset, resume⟩, noFault, fun _ => true⟩
def oldRows : List Row := [⟨"t.rs:1:1-1:4".toList, "aa;".toList, "failed".toList, []⟩]
def final (dump reset resume : Bool) (file : DbFile) : Res (DbError ⊕ Err) Unit × Option (List (Text × Text)) :=
  let x := runWhole (call dump reset resume) cfg (env 99 99) files file start
  (x.1, match x.2.1 with | .table rows => some (rows.map fun r => (r.text, r.outcome)) | _ => none)

/-- `--resume` keeps the row and does the rest, although the stored outcome is another than a rerun would give. -/
example : final false false true (.table [⟨"t.rs:1:1-1:4".toList, "aa;".toList, "timed-out".toList, []⟩]) =
    (.ok (), some [("aa;".toList, "timed-out".toList), ("bb;".toList, "passed".toList), (".d()".toList, "failed".toList),
      ("x;".toList, "skipped".toList)]) := by decide +kernel

/-- `--reset` redoes everything. -/
example : final false true false (.table [⟨"t.rs:1:1-1:4".toList, "aa;".toList, "timed-out".toList, []⟩]) =
    (.ok (), some [("aa;".toList, "failed".toList), ("bb;".toList, "passed".toList), (".d()".toList, "failed".toList),
      ("x;".toList, "skipped".toList)]) := by decide +kernel

/-- No option: refused. -/
example : final false false false (.table oldRows) = (.err (.inl .exists_), some [("aa;".toList, "failed".toList)]) := by
  decide +kernel

/-- No database and `--resume`: created, with a warning. -/
example : let x := runWhole (call false false true) cfg (env 99 99) files .absent start
    x.1 = .ok () ∧ (x.2.2.out.head?.map fun l => match l with | .warning _ => true | _ => false) = some true ∧ x.2.1 ≠ .absent := by decide +kernel
end Demo

/-! ## C17: `--dump` -/

private theorem dumpLoop_spec (quiet verbose : Bool) (rs : List Removal) (b : Bool) :
    dumpLoop quiet verbose rs b = (rs.filter fun r => !quiet && (verbose || r.outcome == .passed),
      b || rs.any fun r => r.outcome != .passed) := by
  induction rs generalizing b with
  | nil => simp [dumpLoop]
  | cons r rs ih =>
    simp only [dumpLoop, ih, List.filter_cons, List.any_cons, Bool.or_assoc]
    split <;> rfl

/-- Every row can be understood, as the corresponding removal. -/
inductive RowsRead (readable : SourceFile → Bool) : List Row → List Removal → Prop
  | nil : RowsRead readable [] []
  | cons {row rows span outcome removals} (h1 : Span.parse readable row.span = .ok span) (h2 : row.outcome = Outcome.display outcome)
      (h3 : RowsRead readable rows removals) : RowsRead readable (row :: rows) (⟨span, row.text, outcome⟩ :: removals)

theorem loadRows_iff (readable : SourceFile → Bool) (rows : List Row) (rs : List Removal) :
    loadRows readable rows = .ok rs ↔ RowsRead readable rows rs := by
  induction rows generalizing rs with
  | nil =>
    simp only [loadRows]
    constructor
    · intro h; cases h; exact .nil
    · intro h; cases h; rfl
  | cons row rows ih =>
    simp only [loadRows, Row.toRemoval]
    constructor
    · intro h
      cases hs : Span.parse readable row.span with
      | ok span =>
        rw [hs] at h
        cases ho : Outcome.parse row.outcome with
        | none => rw [ho] at h; simp at h
        | some o =>
          rw [ho] at h
          dsimp only at h
          cases hl : loadRows readable rows with
          | ok xs =>
            rw [hl] at h
            cases h
            exact .cons hs ((C22_outcome_rejects _).2 o ho) ((ih _).1 hl)
          | err e => rw [hl] at h; cases h
          | panic => rw [hl] at h; cases h
          | hang => rw [hl] at h; cases h
      | err e => rw [hs] at h; cases h
      | panic => rw [hs] at h; cases h
      | hang => rw [hs] at h; cases h
    · intro h
      cases h with
      | cons h1 h2 h3 => rw [h1, h2, (C22_outcome_roundtrip _).2, (ih _).2 h3]

/-- **C17 (`--dump`).** If the dump succeeds, then every stored row was understood, and there is an arrangement of the
stored removals in span order (equal spans in stored order) such that what is printed are exactly those of its elements
that are to be printed: none if quiet, all if verbose, else those that passed. The note about `--verbose` follows
exactly if neither is set and some stored removal did not pass. -/
theorem C17_dump (call : Call) (w : WarnOpts) (verbose : Bool) (st : WStates) (rows : List Row) (printed : List Removal)
    (note : Bool) (hn : call.noSqlite = false) (hf : call.flags = ⟨true, false, false⟩)
    (h : (dumpWhole call w verbose st (.table rows)).1 = .ok (printed, note)) :
    ∃ stored sorted : List Removal, RowsRead call.readable rows stored ∧ sorted.Perm stored ∧
      sorted.Pairwise (fun a b => (a.span.cmp b.span).isLE = true) ∧
      (∀ a b, [a, b].Sublist stored → (a.span.cmp b.span).isLE = true → [a, b].Sublist sorted) ∧
      printed = sorted.filter (fun r => decide (w.quiet = false ∧ (verbose = true ∨ r.outcome = .passed))) ∧
      (note = true ↔ w.quiet = false ∧ verbose = false ∧ ∃ r ∈ stored, r.outcome ≠ .passed) := by
  rcases call with ⟨ns, fl, ⟨f1, f2, f3, f4, f5⟩, rd⟩
  simp only at hn hf
  subst hn hf
  cases f1 <;> cases f2 <;> cases f5 <;> simp [dumpWhole, pastInit, dbInit, dbOpen] at h
  cases hl : loadRows rd rows with
  | err e => rw [hl] at h; simp at h
  | panic => rw [hl] at h; simp at h
  | hang => rw [hl] at h; simp at h
  | ok stored =>
    rw [hl] at h
    simp only [Res.ok.injEq, dump, dumpLoop_spec, Prod.mk.injEq, Bool.false_or] at h
    obtain ⟨h1, h2⟩ := h
    have hperm := sortPast_perm stored
    refine ⟨stored, sortPast stored, (loadRows_iff _ _ _).1 hl, hperm, sortPast_sorted stored, sortPast_stable stored, ?_, ?_⟩
    · rw [← h1]
      congr 1
      funext r
      cases w.quiet <;> cases verbose <;> cases r.outcome <;> decide
    · rw [← h2]
      simp only [Bool.and_eq_true, Bool.not_eq_true', List.any_eq_true, bne_iff_ne, ne_eq, and_assoc]
      exact and_congr_right fun _ => and_congr_right fun _ =>
        ⟨fun ⟨r, h1, h2⟩ => ⟨r, hperm.mem_iff.1 h1, h2⟩, fun ⟨r, h1, h2⟩ => ⟨r, hperm.mem_iff.2 h1, h2⟩⟩

/-- The dump of an unsorted database: the passed removals in span order, and the note. -/
example : (dumpWhole (Demo.call true false false) ⟨[], [], false⟩ false .init (.table
      [⟨"t.rs:10:1-10:4".toList, "c".toList, "passed".toList, []⟩, ⟨"t.rs:9:1-9:4".toList, "a".toList, "passed".toList, []⟩,
       ⟨"t.rs:9:2-9:4".toList, "b".toList, "failed".toList, []⟩])).1 =
    .ok ([⟨⟨⟨["t.rs".toList]⟩, ⟨9, 0⟩, ⟨9, 3⟩⟩, "a".toList, .passed⟩, ⟨⟨⟨["t.rs".toList]⟩, ⟨10, 0⟩, ⟨10, 3⟩⟩, "c".toList, .passed⟩],
      true) := by decide +kernel

end Necessist.Run
