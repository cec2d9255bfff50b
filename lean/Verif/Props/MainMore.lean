import Verif.Props.MainRun
/-!
# C11, C13, C17, C18 for the whole program
-/
namespace Necessist.Main
open Run Parse Std

variable {V σ : Type} {h : Host V σ} {o : Opts} {m : Machine σ}

theorem removalLine_spec (root : Path) (r : Removal) : ShownRemoval h o root r (removalLine h o root r) := by
  refine ⟨_, location_spec root r.span, ?_⟩
  have : r.text.filter (· != '\r') = r.text.filter (fun x => decide (x ≠ '\r')) :=
    List.filter_congr (fun x _ => by rw [Bool.eq_iff_iff]; simp)
  unfold removalLine candidateLine dropCr
  rw [this]
  have e : "` ".toList = "`".toList ++ " ".toList := by decide
  rw [e]
  simp only [List.append_assoc]

/-- **C17.** If `--dump` succeeds, then there is a database, and what is printed (after the warnings) is one line for each stored removal
that is to be shown (all if verbose, else those that passed), in span order, and the note exactly if something was left out. -/
theorem C17_program_dump (hd : o.dump = true) {m'} (hr : main h o m = (some 0, m')) :
    ∃ root rows stored sorted, ∃ (ws : List WarnMsg) (lines : List Text), rootOf h o = some root ∧ m.db = .table rows ∧
      RowsRead (fun f => (h.unreadable f).isNone) rows stored ∧ sorted.Perm stored ∧
      sorted.Pairwise (fun a b => (a.span.cmp b.span).isLE = true) ∧
      (∀ a b, [a, b].Sublist stored → (a.span.cmp b.span).isLE = true → [a, b].Sublist sorted) ∧
      (lines = (sorted.filter fun r => decide (o.verbose = true ∨ r.outcome = .passed)).map (removalLine h o root) ∧
        ∀ r, ShownRemoval h o root r (removalLine h o root r)) ∧
      ∃ note, m'.console = m.console ++ ws.map .warning ++ lines.map .text ++ note ∧
        (note = [.verboseNote] ∧ o.verbose = false ∧ (∃ r ∈ stored, r.outcome ≠ .passed) ∨
          note = [] ∧ (o.verbose = true ∨ ∀ r ∈ stored, r.outcome = .passed)) := by
  have e1 : exitCode (necessist h o m).1 = some 0 := by rw [← main_fst, hr]
  have e2 : (necessist h o m).2 = m' := by rw [← main_snd, hr]
  by_cases hopt : processOptions o.set = .ok
  · obtain ⟨hc, -⟩ := (C31_accepted_iff _).1 hopt
    obtain ⟨hdef, hre, hrs, hns⟩ := (accepted hopt).2.2.2 hd
    have hck : o.checkSkill = none := by
      cases hx : o.checkSkill with
      | none => rfl
      | some p => exact absurd ⟨hd, by simp [Opts.set, hx]⟩ (hc .dump .checkSkill ⟨by simp, Or.inl (by simp [IsMode])⟩)
    have hfs : o.findSkill = false := by
      cases hx : o.findSkill with
      | false => rfl
      | true => exact absurd ⟨hd, hx⟩ (hc .dump .findSkill ⟨by simp, Or.inl (by simp [IsMode])⟩)
    have hq : o.quiet = false := by
      cases hx : o.quiet with
      | false => rfl
      | true => exact absurd ⟨hd, hx⟩ (hc .dump .quiet ⟨by simp, by simp [IsOutput]⟩)
    rcases necessist_project (h := h) (m := m) hopt hck hfs with ⟨_, e, he⟩ | ⟨root, m1, hroot, _, hw, he⟩
    · rw [he] at e1; simp [exitCode] at e1
    · obtain ⟨u1, -, -, -, ws, hws⟩ := warnDeprecated_spec o m
      rw [hw] at u1 hws
      rw [he] at e1 e2
      unfold prepare at e1 e2
      rw [hdef] at e1 e2
      simp only [Bool.false_eq_true, if_false] at e1 e2
      cases ht : Toml.read h.configStatFails m1.config with
      | error e => rw [ht] at e1; simp [afterPrepare, exitCode] at e1
      | ok config =>
        rw [ht] at e1 e2
        dsimp only at e1 e2
        rw [if_pos hd] at e1 e2
        unfold prepareDump at e1 e2
        rcases hdw : dumpWhole (dbCall h o) o.warn o.verbose m1.warns m1.db with ⟨⟨rs, note⟩ | e | _ | _, db⟩
        · rw [hdw] at e2
          simp only [afterPrepare] at e2
          have hdb : ∃ rows, m1.db = .table rows := by
            cases hx : m1.db with
            | table rows => exact ⟨rows, rfl⟩
            | absent =>
              rw [hx] at hdw
              exfalso
              revert hdw
              unfold dumpWhole pastInit dbInit dbCall
              simp only [hd, hns, hre, hrs]
              cases h.dbFaults.stat <;> simp
            | empty =>
              rw [hx] at hdw
              exfalso
              revert hdw
              unfold dumpWhole pastInit dbInit dbCall dbOpen
              simp only [hd, hns, hre, hrs]
              cases h.dbFaults.stat <;> cases h.dbFaults.establish <;> simp
          obtain ⟨rows, hdb⟩ := hdb
          rw [hdb] at hdw
          obtain ⟨stored, sorted, k1, k2, k3, k4, k5, k6⟩ := C17_dump (dbCall h o) o.warn o.verbose m1.warns rows rs note hns
            (by simp [dbCall, hd, hre, hrs]) (by rw [hdw])
          refine ⟨root, rows, stored, sorted, ws, _, hroot, by rw [← u1.db, hdb], k1, k2, k3, k4, ⟨rfl, removalLine_spec root⟩,
            if note then [.verboseNote] else [], ?_, ?_⟩
          · rw [← e2]
            dsimp only
            rw [hws, k5, List.map_map]
            have : o.warn.quiet = false := hq
            simp only [this, true_and]
            rfl
          · have : o.warn.quiet = false := hq
            simp only [this, true_and] at k6
            cases note with
            | true => exact Or.inl ⟨rfl, k6.1 rfl⟩
            | false =>
              right
              refine ⟨rfl, ?_⟩
              cases hv : o.verbose with
              | true => exact Or.inl rfl
              | false =>
                right
                intro r hr
                apply Classical.byContradiction
                intro hne
                have := k6.2 ⟨hv, r, hr, hne⟩
                cases this
        · rw [hdw] at e1; simp [afterPrepare, exitCode] at e1
        · rw [hdw] at e1; simp [afterPrepare, exitCode] at e1
        · rw [hdw] at e1; simp [afterPrepare, exitCode] at e1
  · obtain ⟨e, he⟩ := necessist_refused (h := h) (m := m) hopt
    rw [he] at e1; simp [exitCode] at e1

theorem pastInit_out (ns : Bool) (w : WarnOpts) (st : WStates) (rd : SourceFile → Bool) (faults : DbFaults) (flags : DbFlags) (file : DbFile) :
    printedOf (pastInit ns w st rd faults flags file).out = [] := by
  unfold pastInit
  split
  · rfl
  · dsimp only
    unfold dbInit
    split
    · rfl
    · dsimp only
      split
      · rfl
      · rfl
      all_goals try (split <;> first | rfl | (dsimp only; split <;> rfl))
      rfl

theorem printedOf_append (a b : List Line) : printedOf (a ++ b) = printedOf a ++ printedOf b := List.filterMap_append ..

/-- The log is that of the run: the results of tests are those that the tests had, except that there may be more of them for the next candidate;
candidates are skipped only if their file's dry run failed; and texts and verdicts are as they should be. -/
structure Justified (src : SourceFile → Text) (usesDb : Bool) (events : List Snap) (log : List Entry) (rest : List Candidate) : Prop where
  results : ∃ unfinished, testedOf events = log.flatMap Entry.results ++ unfinished ∧
    ∀ x ∈ unfinished, ∃ c rest', rest = c :: rest' ∧ x.1 = c ∧ x.2.1 ∈ c.tests
  skipped : ∀ c text, .skipped c text ∈ log → c.span.file ∈ failedOf events ∧ (usesDb = true → HasText src c text)
  tested : ∀ c text results v, .tested c text results v ∈ log → HasText src c text ∧ Verdict c.tests results v

/-- A run with the database: what was printed and recorded. -/
theorem runWhole_log (cfg : Cfg) (env : Env σ) (call : Call) (fcs : List (SourceFile × List Candidate)) (hok : FilesOk fcs) (file : DbFile)
    (w : World σ) (hout : w.out = []) (htr : w.trace = []) :
    let x := runWhole call cfg env fcs file w
    (∃ (log : List Entry) (rest : List Candidate), candidates fcs = log.map Entry.cand ++ rest ∧
      printedOf x.2.2.out = (log.filterMap fun e =>
        match e with
        | .tested c text _ (some o) =>
          if cfg.warn.quiet = false ∧ (cfg.verbose = true ∨ o = .passed) then some ⟨c.span, text, o⟩ else none
        | _ => none) ∧
      (call.noSqlite = false → (x.2.1 = file ∨ x.2.1 = .empty) ∧ log = [] ∨ ∃ rows rows', (file = .table rows ∧ call.flags.reset = false ∨ (call.flags.reset = true ∨ file = .absent) ∧ rows = []) ∧ x.2.1 = .table rows' ∧
        DbAdds (log.filterMap Entry.removal) (some rows) (some rows')) ∧ Justified cfg.src (!call.noSqlite) x.2.2.trace log rest) ∧
    (x.1 = .ok () → x.2.2.progress = w.progress + (candidates fcs).length) := by
  intro x
  have hp := pastInit_out call.noSqlite cfg.warn w.warns call.readable call.faults call.flags file
  have hi := fun hn => pastInit_cases cfg call file w hn
  dsimp only at hi
  simp only [x, runWhole]
  generalize hgi : pastInit call.noSqlite cfg.warn w.warns call.readable call.faults call.flags file = i at hi hp ⊢
  obtain ⟨res, fl, ws, out⟩ := i
  dsimp only at hi hp ⊢
  have hstop : ∀ r : Res (DbError ⊕ Err) Unit, (∀ p, res ≠ .ok p) → (∃ (log : List Entry) (rest : List Candidate), candidates fcs = log.map Entry.cand ++ rest ∧
      printedOf (w.out ++ out) = (log.filterMap fun e =>
        match e with
        | .tested c text _ (some o) =>
          if cfg.warn.quiet = false ∧ (cfg.verbose = true ∨ o = .passed) then some ⟨c.span, text, o⟩ else none
        | _ => none) ∧
      (call.noSqlite = false → (fl = file ∨ fl = .empty) ∧ log = [] ∨ ∃ rows rows', (file = .table rows ∧ call.flags.reset = false ∨ (call.flags.reset = true ∨ file = .absent) ∧ rows = []) ∧ fl = .table rows' ∧
        DbAdds (log.filterMap Entry.removal) (some rows) (some rows')) ∧ Justified cfg.src (!call.noSqlite) w.trace log rest) := by
    intro r hr
    refine ⟨[], candidates fcs, by simp, by rw [hout]; simpa using hp, fun hn => ?_, ⟨[], by simp [htr, testedOf], by simp⟩, by simp, by simp⟩
    rcases hi hn with ⟨k, _⟩ | ⟨_, _, _, k, _⟩
    · exact Or.inl ⟨k, rfl⟩
    · exact absurd k (hr _)
  cases res with
  | err e => exact ⟨hstop .panic (by simp), by simp⟩
  | panic => exact ⟨hstop .panic (by simp), by simp⟩
  | hang => exact ⟨hstop .panic (by simp), by simp⟩
  | ok past =>
    dsimp only
    generalize hdb : (if call.noSqlite = true then none else match fl with | .table rows => some rows | _ => none : Option (List Row)) = db
    rcases hrf : runFiles cfg env fcs { w with warns := ws, out := w.out ++ out, db, past } with ⟨r, w'⟩
    obtain ⟨log, rest, g1, g2, g3, ⟨un, g4, g4'⟩, g5, g6⟩ := C17_printed env cfg fcs hok _ _ _ hrf
    dsimp only at g2 g3 g4 g5 ⊢
    refine ⟨⟨log, rest, g1, ?_, fun hn => ?_, ⟨un, by simpa [htr, testedOf] using g4, g4'⟩, fun c text he => ⟨g6 _ he rfl, fun hn => ?_⟩,
      fun c text results v he => g5 _ he⟩, fun hx => ?_⟩
    · rw [g3, hout, printedOf_append, hp]; rfl
    · right
      rcases hi hn with ⟨_, k⟩ | ⟨rows, stored, k1, k2, k3⟩
      · exact absurd rfl (k past)
      · subst k1
        simp only [hn, Bool.false_eq_true, if_false] at hdb
        subst hdb
        cases hw' : w'.db with
        | none => rw [hw'] at g2; exact g2.elim
        | some rows' =>
          rw [hw'] at g2
          refine ⟨rows, rows', ?_, rfl, g2⟩
          rcases k3 with ⟨k3, k4, _⟩ | ⟨k4, k3, _⟩
          · exact Or.inl ⟨k3, k4⟩
          · exact Or.inr ⟨k4, k3⟩
    · refine g5 _ he ?_
      have hn : call.noSqlite = false := by simpa using hn
      rcases hi hn with ⟨_, k⟩ | ⟨rows, stored, k1, _⟩
      · exact absurd rfl (k past)
      · subst k1
        simp only [hn, Bool.false_eq_true, if_false] at hdb
        subst hdb
        rfl
    · have hr : r = .ok () := by cases r <;> simp at hx ⊢
      subst hr
      rw [C18_progress env cfg fcs hok _ _ hrf]

/-- **C17.** What a run prints, however it ends: the warnings given while looking for candidates, the summary (unless quiet), then the
messages of the run. Those among them that are removals, are of an initial part of the candidates, in order, those tested with a determined outcome, and
only if not quiet and (verbose or passed). (The log is what really happened: the results in it are those that tests had, its verdicts follow
from them, and its removals are the rows added to the database, if any.) -/
theorem C17_program (hs : SpansInFile h) (hrun : RunsTests o) (hopt : processOptions o.set = .ok) {root fw nTests map ws st}
    (hf : FindsCandidates h o m root fw nTests map ws st) :
    ∃ out events, (main h o m).2.trace = m.trace ++ events ∧ (main h o m).2.console = m.console ++ ws.map .warning ++
        (if o.quiet then [] else [.text (summary map.nSpans nTests map.length)]) ++ out.map (showLine h o root) ∧
      ∃ (log : List Entry) (rest : List Candidate), candidates map.toRun = log.map Entry.cand ++ rest ∧
      printedOf out = (log.filterMap fun e =>
        match e with
        | .tested c text _ (some v) =>
          if o.quiet = false ∧ (o.verbose = true ∨ v = .passed) then some ⟨c.span, text, v⟩ else none
        | _ => none) ∧
      (∀ r, ∃ line, showLine h o root (.removal r) = .text line ∧ ShownRemoval h o root r line) ∧
      (o.noSqlite = false → ((main h o m).2.db = m.db ∨ (main h o m).2.db = .empty) ∧ log = [] ∨
        ∃ rows rows', (m.db = .table rows ∧ o.reset = false ∨ (o.reset = true ∨ m.db = .absent) ∧ rows = []) ∧
        (main h o m).2.db = .table rows' ∧ DbAdds (log.filterMap Entry.removal) (some rows) (some rows')) ∧
      Justified m.fs (!o.noSqlite) events log rest := by
  rw [main_snd]
  rcases necessist_whole (h := h) (o := o) (m := m) with ⟨_, _, _, _, _, h6⟩ | ⟨root', fw', nT', map', ws', st', hf', _, _, warns, ext, h1, h2, h3, h4, h5⟩
  · exact absurd hf (h6 hrun hopt _ _ _ _ _ _)
  · obtain ⟨rfl, rfl, rfl, rfl, rfl, rfl⟩ := hf.unique hf'
    obtain ⟨⟨log, rest, g1, g2, g3, g4⟩, _⟩ :=
      runWhole_log (runCfg h o m) fw.env (dbCall h o) map.toRun (hf.filesOk hs) m.db (startWorld m warns ext) rfl rfl
    rw [h1]
    exact ⟨_, _, h3, h4.1, log, rest, g1, g2, fun r => ⟨_, rfl, removalLine_spec root r⟩, g3, g4⟩

theorem ok_of_zero (hx : (main h o m).1 = some 0) : ∃ n, (necessist h o m).1 = .ok n := by
  rw [main_fst] at hx
  cases hr : (necessist h o m).1 with
  | ok n => exact ⟨n, rfl⟩
  | err e => rw [hr] at hx; simp [exitCode] at hx
  | panic => rw [hr] at hx; simp [exitCode] at hx
  | hang => rw [hr] at hx; simp [exitCode] at hx

/-- A call that runs tests and exits with 0 found candidates and ran with them, successfully. -/
theorem zero_runs (hrun : RunsTests o) (hx : (main h o m).1 = some 0) :
    ∃ root fw nTests map ws st, FindsCandidates h o m root fw nTests map ws st ∧
      ∃ warns ext, ∃ x, x = runWhole (dbCall h o) (runCfg h o m) fw.env map.toRun m.db (startWorld m warns ext) ∧ x.1 = .ok () ∧
        (main h o m).2.db = x.2.1 ∧ (main h o m).2.trace = m.trace ++ x.2.2.trace ∧ (main h o m).2.progress = m.progress + x.2.2.progress := by
  rw [main_snd]
  obtain ⟨n, hok⟩ := ok_of_zero hx
  rcases necessist_whole (h := h) (o := o) (m := m) with ⟨_, _, _, _, h5, _⟩ | ⟨root, fw, nT, map, ws, st, hf, _, hopt, warns, ext, h1, h2, h3, h4, h5⟩
  · exact absurd hok (h5 hrun n)
  · refine ⟨root, fw, nT, map, ws, st, hf, warns, ext, _, rfl, ?_, h1, h3, h4.2.1⟩
    rw [hok] at h5
    revert h5
    generalize (runWhole (dbCall h o) (runCfg h o m) fw.env map.toRun m.db (startWorld m warns ext)).1 = x
    rcases x with ⟨⟩ | (e | e) | _ | _ <;> simp

/-- **C63.** If a call that runs tests exits with 0, then candidates were found and each of them was dealt with: it was passed over, because the database that
was there, and not reset, has a row for its span; or skipped because its file's dry run failed; or tested, because it did not, up to the first test that did not pass. -/
theorem C63_zero (hs : SpansInFile h) (hrun : RunsTests o) (hx : (main h o m).1 = some 0) :
    ∃ root fw nTests map ws st events, FindsCandidates h o m root fw nTests map ws st ∧ (main h o m).2.trace = m.trace ++ events ∧
      ∃ log : List Entry, log.map Entry.cand = candidates map.toRun ∧ testedOf events = log.flatMap Entry.results ∧
        ∀ e ∈ log,
          (∃ c rows, e = .past c ∧ o.noSqlite = false ∧ o.reset = false ∧ m.db = .table rows ∧
            ∃ row ∈ rows, Span.parse (fun f => (h.unreadable f).isNone) row.span = .ok c.span) ∨
          (∃ c text, e = .skipped c text ∧ c.span.file ∈ failedOf events ∧ (o.noSqlite = false → HasText m.fs c text)) ∨
          ∃ c text results v, e = .tested c text results v ∧ c.span.file ∉ failedOf events ∧ HasText m.fs c text ∧ Verdict c.tests results v := by
  obtain ⟨root, fw, nT, map, ws, st, hf, warns, ext, x, hxe, h1, _, h2, _⟩ := zero_runs hrun hx
  refine ⟨root, fw, nT, map, ws, st, _, hf, h2, ?_⟩
  have key : ∃ w0 : World σ, w0.trace = [] ∧ w0.instr = none ∧ w0.db.isSome = (!o.noSqlite) ∧
      runFiles (runCfg h o m) fw.env map.toRun w0 = (.ok (), x.2.2) ∧
      ∀ r ∈ w0.past, ∃ rows, o.noSqlite = false ∧ o.reset = false ∧ m.db = .table rows ∧
        ∃ row ∈ rows, Span.parse (fun f => (h.unreadable f).isNone) row.span = .ok r.span := by
    cases hn : o.noSqlite with
    | true =>
      have hn' : (dbCall h o).noSqlite = true := hn
      unfold runWhole pastInit at hxe
      rw [hn'] at hxe
      simp only [if_true] at hxe
      generalize hw : ({ fs := (startWorld m warns ext).fs, db := none, warns := (startWorld m warns ext).warns, out := (startWorld m warns ext).out ++ [], progress := (startWorld m warns ext).progress, trace := (startWorld m warns ext).trace, instr := (startWorld m warns ext).instr, past := [], ext := (startWorld m warns ext).ext } : World σ) = w0 at hxe
      refine ⟨w0, by rw [← hw]; rfl, by rw [← hw]; rfl, by rw [← hw]; rfl, Prod.ext ?_ (congrArg (fun x => x.2.2) hxe).symm,
        fun r hr => by rw [← hw] at hr; cases hr⟩
      have h1' := h1
      rw [hxe] at h1'
      revert h1'
      dsimp only
      split <;> rename_i hy <;> simp [hy]
    | false =>
      rcases runWhole_cases fw.env (runCfg h o m) (dbCall h o) map.toRun m.db (startWorld m warns ext) hn with
        ⟨k, _⟩ | ⟨rows, stored, ws', out, k1, k2, k3, _⟩
      · rw [← hxe] at k; exact absurd h1 k
      · rw [← hxe] at k2 k3
        refine ⟨{ startWorld m warns ext with warns := ws', out := (startWorld m warns ext).out ++ out, db := some rows, past := sortPast stored },
          rfl, rfl, rfl, Prod.ext (k3.1 h1) k2.symm, ?_⟩
        · intro r hr
          have hr' : r ∈ stored := (sortPast_perm stored).mem_iff.1 hr
          rcases k1 with ⟨k1, k4, k5⟩ | ⟨_, _, rfl⟩
          · obtain ⟨row, hrow, hp, -⟩ := k5.mem r hr'
            exact ⟨rows, rfl, k4, k1, row, hrow, hp⟩
          · cases hr'
  obtain ⟨w0, j1, j2, j3, hrf, j4⟩ := key
  obtain ⟨log, g1, _, g2, g3, g4⟩ := C10_accounts fw.env (runCfg h o m) map.toRun (hf.filesOk hs) w0 _ ⟨j1, j2⟩ hrf
  refine ⟨log, g1, g2, fun e he => ?_⟩
  have ho := g3 e he
  obtain ⟨q1, q2⟩ := g4 e he
  cases e with
  | past c =>
    obtain ⟨r, hr, hsp⟩ := ho
    obtain ⟨rows, r1, r2, r3, r4⟩ := j4 r hr
    rw [hsp] at r4
    exact Or.inl ⟨c, rows, rfl, r1, r2, r3, r4⟩
  | skipped c text =>
    refine Or.inr (Or.inl ⟨c, text, rfl, q1 rfl, fun hn => ho ?_⟩)
    rw [j3, hn]; rfl
  | tested c text results v => exact Or.inr (Or.inr ⟨c, text, results, v, rfl, q2 rfl, ho.1, ho.2⟩)

/-- **C18.** If a call that runs tests exits with 0, the progress bar has advanced by the number of candidates found. -/
theorem C18_program (hs : SpansInFile h) (hrun : RunsTests o) (hx : (main h o m).1 = some 0) :
    ∃ root fw nTests map ws st, FindsCandidates h o m root fw nTests map ws st ∧
      (main h o m).2.progress = m.progress + (candidates map.toRun).length := by
  obtain ⟨root, fw, nT, map, ws, st, hf, warns, ext, x, rfl, h1, _, _, h2⟩ := zero_runs hrun hx
  refine ⟨root, fw, nT, map, ws, st, hf, ?_⟩
  rw [h2, (runWhole_log (runCfg h o m) fw.env (dbCall h o) map.toRun (hf.filesOk hs) m.db (startWorld m warns ext) rfl rfl).2 h1]
  simp [startWorld]

/-- **C11.** If a call that runs tests with an existing database exits with 0, then every candidate found for whose span there was no row
has been tested, or skipped because of its file's dry run. -/
theorem C11_program (hs : SpansInFile h) (hrun : RunsTests o) (hn : o.noSqlite = false) {rows} (hdb : m.db = .table rows)
    (hx : (main h o m).1 = some 0) :
    ∃ root fw nTests map ws st events, FindsCandidates h o m root fw nTests map ws st ∧ (main h o m).2.trace = m.trace ++ events ∧
      ∃ log : List Entry, log.map Entry.cand = candidates map.toRun ∧ testedOf events = log.flatMap Entry.results ∧
      ∀ e ∈ log, (∀ row ∈ rows, Span.parse (fun f => (h.unreadable f).isNone) row.span ≠ .ok e.cand.span) →
        (∃ text results v, e = .tested e.cand text results v ∧ Verdict e.cand.tests results v) ∨
        e.isSkipped = true ∧ e.cand.span.file ∈ failedOf events := by
  obtain ⟨root, fw, nT, map, ws, st, hf, warns, ext, x, hxe, h1, _, h2, _⟩ := zero_runs hrun hx
  refine ⟨root, fw, nT, map, ws, st, _, hf, h2, ?_⟩
  obtain ⟨r, file', w'⟩ := x
  dsimp only at h1
  subst h1
  rw [hdb] at hxe
  exact C11_resume_loses_nothing fw.env (runCfg h o m) (dbCall h o) map.toRun (hf.filesOk hs) rows _ w' file' hn ⟨rfl, rfl⟩ hxe.symm

theorem History.reached {d src fcs file} (hh : History d src fcs file) : Reached d src fcs file := by
  induction hh with
  | new => exact .new
  | @exec V σ h o m events hist hs hfs hc ht ha ih =>
    rw [main_snd] at ht ⊢
    rcases necessist_whole (h := h) (o := o) (m := m) with ⟨h1, _⟩ | ⟨root, fw, nT, map, ws, st, hf, hrun, hopt, warns, ext, h1, h2, h3, h4, h5⟩
    · rw [h1]; exact ih
    · rw [h1]
      cases hns : o.noSqlite with
      | true => rw [C14_no_sqlite fw.env (runCfg h o m) (dbCall h o) map.toRun (hf.filesOk hs) m.db _ hns]; exact ih
      | false =>
        have hmap := hc _ _ _ _ _ _ hf
        rw [ht] at h3
        have he := List.append_cancel_left h3
        rw [hmap] at he ⊢
        exact .run (dbCall h o) (runCfg h o m) fw.env (startWorld m warns ext) m.db ih hns hfs ⟨rfl, rfl⟩ (he ▸ ha)

/-- **C13.** However often the program has been executed before on this project, and however these executions ended, if a last one exits with
0, the database contains exactly one row for each candidate whose outcome can be determined, with its text and that outcome, and nothing
else. -/
theorem C13_program {d src fcs} (hc : CandidatesOk fcs) (hh : History d src fcs m.db) (hs : SpansInFile h) (hfs : m.fs = src)
    (hmap : ∀ root fw nTests map ws st, FindsCandidates h o m root fw nTests map ws st → map.toRun = fcs) {events}
    (ht : (main h o m).2.trace = m.trace ++ events) (ha : Agrees d events) (hrun : RunsTests o) (hn : o.noSqlite = false)
    (hx : (main h o m).1 = some 0) :
    ∃ rows, (main h o m).2.db = .table rows ∧ (rows.map (·.span)).Nodup ∧
      ∀ span text outcome, (∃ url, Row.mk span text outcome url ∈ rows) ↔
        ∃ c ∈ candidates fcs, ∃ o, d.outcome c = some o ∧ span = c.span.display ∧ HasText src c text ∧ outcome = o.display := by
  obtain ⟨root, fw, nT, map, ws, st, hf, warns, ext, x, hxe, h1, hdb, h2, _⟩ := zero_runs hrun hx
  have hm := hmap _ _ _ _ _ _ hf
  rw [ht] at h2
  have he := List.append_cancel_left h2
  rw [hm] at hxe
  subst hfs
  have hg := run_good (d := d) fw.env (runCfg h o m) hc (dbCall h o) m.db (startWorld m warns ext) hn ⟨rfl, rfl⟩
    (by rw [← hxe, ← he]; exact ha) (reached_good hc hh.reached)
  rw [← hxe] at hg
  obtain ⟨rows, k1, _⟩ := hg.2 h1
  refine ⟨rows, by rw [hdb, k1], ?_⟩
  obtain ⟨r, file', w'⟩ := x
  dsimp only at h1 k1 he
  subst h1 k1 he
  exact C13_completed d m.fs fcs hc rows
    ⟨m.db, σ, dbCall h o, runCfg h o m, fw.env, startWorld m warns ext, w', hh.reached, hn, rfl, ⟨rfl, rfl⟩, ha, hxe.symm⟩

/-- **C13.** Whatever the history, no row of the database is wrong. -/
theorem C13_program_never_wrong {d src fcs rows} (hc : CandidatesOk fcs) (hh : History d src fcs (.table rows)) :
    (rows.map (·.span)).Nodup ∧
    ∀ row ∈ rows, ∃ c ∈ candidates fcs, ∃ o, d.outcome c = some o ∧ row.span = c.span.display ∧
      HasText src c row.text ∧ row.outcome = o.display :=
  C13_never_wrong d src fcs hc rows hh.reached

end Necessist.Main
