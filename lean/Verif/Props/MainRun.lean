import Verif.Props.Visitor
import Verif.Props.Main
import Verif.Props.Restore
import Verif.Props.Report
import Verif.Props.Framework
/-!
# The properties of a run, for the whole program

What C01 to C64 say of parts of the program holds of its executions: whatever the options, the state of the machine and the behaviour of
everything outside.
-/
namespace Necessist.Main
open Run Parse Std

variable {V σ : Type} {h : Host V σ} {o : Opts} {m : Machine σ}

/-! ### What the modes may change -/

/-- **C50, C63.** `--check-skill` and `--find-skill` touch nothing but skills. -/
theorem C50_program [OrientedCmp h.skill.cmp] (hs : o.checkSkill.isSome = true ∨ o.findSkill = true) :
    ∃ skills out, (necessist h o m).2 = { m with skills, console := m.console ++ out } ∧
      ∀ p, skills p ≠ m.skills p → o.write = true ∧ ∃ q ∈ checkedSkills h o, p <+: q := by
  by_cases hopt : processOptions o.set = .ok
  · unfold necessist
    rw [hopt]
    dsimp only
    unfold checkedSkills
    cases hc : o.checkSkill with
    | some p =>
      refine ⟨_, _, rfl, fun q hq => ?_⟩
      obtain ⟨h1, h2⟩ := Skill.C50_changes _ _ _ _ _ hq
      refine ⟨h1, p, List.mem_singleton.2 rfl, ?_⟩
      rcases h2 with ⟨_, h2, _⟩ | ⟨rfl, _⟩
      · exact h2
      · exact List.prefix_rfl
    | none =>
      rw [hc] at hs
      have hf : o.findSkill = true := by simpa using hs
      simp only [hf, if_true]
      refine ⟨_, _, rfl, fun q hq => ?_⟩
      obtain ⟨h1, ⟨home, h2, h3⟩, _⟩ := Skill.C50_find hq
      rw [h2]
      exact ⟨h1, q, Skill.mem_wellKnownPaths.mpr h3, List.prefix_rfl⟩
  · obtain ⟨e, he⟩ := necessist_refused (h := h) (m := m) hopt
    rw [he]
    exact ⟨m.skills, [], by simp, fun p hp => absurd rfl hp⟩

/-- **C31.** If options are refused nothing at all happens, and the exit code is 2. -/
theorem C31_program (hopt : processOptions o.set ≠ .ok) : main h o m = (some 2, m) := by
  unfold main
  obtain ⟨e, he⟩ := necessist_refused (h := h) (m := m) hopt
  rw [he]; rfl

theorem necessist_project (hopt : processOptions o.set = .ok) (hc : o.checkSkill = none) (hf : o.findSkill = false) :
    (Undisturbed m (necessist h o m).2 ∧ ∃ e, (necessist h o m).1 = .err e) ∨
    ∃ root m1, rootOf h o = some root ∧ h.lockFails root = false ∧ warnDeprecated o m = (.ok (), m1) ∧
      necessist h o m = afterPrepare h o root (prepare h o root m1) := by
  have e : necessist h o m = project h o m := by
    unfold necessist
    rw [hopt]; simp only [hc, hf, Bool.false_eq_true, if_false]
  have hroot : projectRoot h o = rootOf h o := rfl
  rw [e]
  unfold project
  rw [hroot]
  cases hr : rootOf h o with
  | none => exact Or.inl ⟨.refl _, _, rfl⟩
  | some root =>
    dsimp only
    by_cases hlock : h.lockFails root = true
    · rw [if_pos hlock]; exact Or.inl ⟨.refl _, _, rfl⟩
    rw [if_neg hlock]
    obtain ⟨u1, x1, n1, n2, ws0, c1⟩ := warnDeprecated_spec o m
    rcases hw : warnDeprecated o m with ⟨r1, m1⟩
    rw [hw] at u1 x1 n1 n2 c1
    cases r1 with
    | err e => exact Or.inl ⟨u1, _, rfl⟩
    | panic => exact absurd rfl n2
    | hang => exact absurd rfl n1
    | ok _ => exact Or.inr ⟨root, m1, rfl, by simpa using hlock, rfl, rfl⟩

/-- **C27.** `--default-config` changes nothing but the configuration, and that only if there was none. -/
theorem C27_program_default (hd : o.defaultConfig = true) :
    let m' := (necessist h o m).2
    m'.skills = m.skills ∧ m'.db = m.db ∧ m'.fs = m.fs ∧ m'.trace = m.trace ∧ (m.config ≠ .absent → m'.config = m.config) := by
  intro m'
  by_cases hopt : processOptions o.set = .ok
  · obtain ⟨hc, -⟩ := (C31_accepted_iff _).1 hopt
    have hck : o.checkSkill = none := by
      cases hx : o.checkSkill with
      | none => rfl
      | some p => exact absurd ⟨hd, by simp [Opts.set, hx]⟩ (hc .defaultConfig .checkSkill ⟨by simp, Or.inl (by simp [IsMode])⟩)
    have hfs : o.findSkill = false := by
      cases hx : o.findSkill with
      | false => rfl
      | true => exact absurd ⟨hd, hx⟩ (hc .defaultConfig .findSkill ⟨by simp, Or.inl (by simp [IsMode])⟩)
    rcases necessist_project (h := h) (m := m) hopt hck hfs with ⟨u, _⟩ | ⟨root, m1, _, _, hw, he⟩
    · exact ⟨u.skills, u.db, u.fs, u.trace, fun _ => u.config⟩
    · obtain ⟨u1, -⟩ := warnDeprecated_spec o m
      rw [hw] at u1
      simp only [m']
      rw [he]
      unfold prepare
      rw [if_pos hd]
      have key : m.config ≠ .absent → (defaultConfig h.configStatFails h.configWriteFails m1.config).2 = m.config := by
        rw [u1.config]
        intro hne
        unfold defaultConfig
        split
        · rfl
        · rfl
      rcases hdc : defaultConfig h.configStatFails h.configWriteFails m1.config with ⟨_ | _, config⟩ <;> rw [hdc] at key <;>
        exact ⟨u1.skills, u1.db, u1.fs, u1.trace, key⟩
  · obtain ⟨e, he⟩ := necessist_refused (h := h) (m := m) hopt
    simp only [m', he]
    exact ⟨trivial, trivial, trivial, trivial, fun _ => trivial⟩

/-- **C14, C17.** `--dump` changes nothing: not the database, not a file; and it runs no test. -/
theorem C14_program_dump (hd : o.dump = true) : Undisturbed m (necessist h o m).2 := by
  by_cases hopt : processOptions o.set = .ok
  · obtain ⟨hc, -⟩ := (C31_accepted_iff _).1 hopt
    obtain ⟨hdef, hre, hrs, hns⟩ := (accepted hopt).2.2.2 hd
    have hck : o.checkSkill = none := by
      cases hx : o.checkSkill with
      | none => rfl
      | some p => exact absurd ⟨hd, by simp [Opts.set, hx]⟩ (hc .dump .checkSkill ⟨by simp, Or.inl (by simp [IsMode])⟩)
    have hfs : o.findSkill = false := by
      cases hx : o.findSkill with
      | false => rfl
      | true => exact absurd ⟨hd, hx⟩ (hc .dump .findSkill ⟨by simp, Or.inl (by simp [IsMode])⟩)
    rcases necessist_project (h := h) (m := m) hopt hck hfs with ⟨u, _⟩ | ⟨root, m1, _, _, hw, he⟩
    · exact u
    · obtain ⟨u1, -⟩ := warnDeprecated_spec o m
      rw [hw] at u1
      rw [he]
      unfold prepare
      rw [hdef]
      simp only [Bool.false_eq_true, if_false]
      cases Toml.read h.configStatFails m1.config with
      | error e => exact u1
      | ok config =>
        dsimp only
        rw [if_pos hd]
        unfold prepareDump
        have hdb := (C14_dump_unchanged (dbCall h o) o.warn o.verbose m1.warns m1.db hd hre).1
        rcases hdw : dumpWhole (dbCall h o) o.warn o.verbose m1.warns m1.db with ⟨⟨rs, note⟩ | e | _ | _, db⟩ <;> rw [hdw] at hdb <;>
          exact u1.trans ⟨rfl, rfl, hdb, rfl, rfl, rfl⟩
  · obtain ⟨e, he⟩ := necessist_refused (h := h) (m := m) hopt
    rw [he]; exact .refl _

/-! ### The run -/

theorem loadRows_no_hang (rd : SourceFile → Bool) (rows : List Row) : loadRows rd rows ≠ .hang := by
  induction rows with
  | nil => simp [loadRows]
  | cons r rs ih =>
    rw [loadRows]
    have h1 : r.toRemoval rd ≠ .hang := by
      have hsp : Span.parse rd r.span ≠ .hang := by
        unfold Span.parse
        split
        · simp
        · split
          · split
            · simp
            · dsimp only
              split
              · split <;> simp
              · simp
          · simp
      unfold Row.toRemoval
      split
      · split <;> simp
      · simp
      · simp
      · rename_i hx; exact absurd hx hsp
    cases hr : r.toRemoval rd with
    | ok x =>
      dsimp only
      cases hl : loadRows rd rs with
      | ok xs => simp
      | err e => simp
      | panic => simp
      | hang => exact absurd hl ih
    | err e => simp
    | panic => simp
    | hang => exact absurd hr h1

theorem pastInit_no_hang (ns : Bool) (w : WarnOpts) (st : WStates) (rd : SourceFile → Bool) (faults : DbFaults) (flags : DbFlags)
    (file : DbFile) : (pastInit ns w st rd faults flags file).res ≠ .hang := by
  have hopen : (dbOpen rd faults flags file).1 ≠ .hang := by
    unfold dbOpen
    split
    · simp
    · dsimp only
      split
      · simp
      · split
        · split <;> simp
        · split
          · split
            · simp
            · exact loadRows_no_hang _ _
          · simp
  have hinit : (dbInit w st rd faults flags file).res ≠ .hang := by
    unfold dbInit
    split
    · simp
    · dsimp only
      split
      · simp
      · simp
      · split <;> first | exact hopen | simp
      · split <;> first | exact hopen | simp
      · exact hopen
  unfold pastInit
  split
  · simp
  · dsimp only
    cases hr : (dbInit w st rd faults flags file).res with
    | ok _ => simp
    | err _ => simp
    | panic => simp
    | hang => exact absurd hr hinit

/-- A run: either the database could not be used, and then nothing happened; or it went through the files. -/
theorem runWhole_runs (cfg : Cfg) (env : Env σ) (call : Call) (fcs : List (SourceFile × List Candidate)) (file : DbFile) (w : World σ) :
    (((∃ e, (runWhole call cfg env fcs file w).1 = .err (.inl e)) ∨ (runWhole call cfg env fcs file w).1 = .panic) ∧
      (runWhole call cfg env fcs file w).2.2.trace = w.trace ∧ (runWhole call cfg env fcs file w).2.2.fs = w.fs ∧
      (runWhole call cfg env fcs file w).2.2.progress = w.progress ∧ (runWhole call cfg env fcs file w).2.2.ext = w.ext) ∨
    ∃ w0 : World σ, w0.trace = w.trace ∧ w0.fs = w.fs ∧ (w0.instr = w.instr ∧ w0.ext = w.ext) ∧
      let y := runFiles cfg env fcs w0
      (runWhole call cfg env fcs file w).2.2 = y.2 ∧
      (runWhole call cfg env fcs file w).1 =
        (match y.1 with | .ok u => .ok u | .err e => .err (.inr e) | .panic => .panic | .hang => .hang) := by
  have hh := pastInit_no_hang call.noSqlite cfg.warn w.warns call.readable call.faults call.flags file
  unfold runWhole
  generalize pastInit call.noSqlite cfg.warn w.warns call.readable call.faults call.flags file = i at hh ⊢
  obtain ⟨res, fl, ws, out⟩ := i
  dsimp only
  cases res with
  | err e => exact Or.inl ⟨Or.inl ⟨e, rfl⟩, rfl, rfl, rfl, rfl⟩
  | panic => exact Or.inl ⟨Or.inr rfl, rfl, rfl, rfl, rfl⟩
  | hang => exact absurd rfl hh
  | ok past =>
    refine Or.inr ⟨?_, ?_, ?_, ?_, ?_, ?_⟩
    rotate_left 4
    · rfl
    · rfl
    all_goals first | rfl | exact ⟨rfl, rfl⟩

/-- The world a run starts in. -/
def startWorld (m : Machine σ) (warns : WStates) (ext : σ) : World σ :=
  { fs := m.fs, db := none, warns, out := [], progress := 0, trace := [], instr := none, past := [], ext }

/-- Whether this call is one that would run tests. -/
def RunsTests (o : Opts) : Prop := LooksForCandidates o ∧ o.dumpCandidates = false ∧ o.dumpCandidateCounts = false

/-- Whatever the options: either the database and the source files were not touched and no test executed; or candidates were found and a
run started with them. -/
theorem necessist_whole :
    ((necessist h o m).2.db = m.db ∧ (necessist h o m).2.fs = m.fs ∧ (necessist h o m).2.trace = m.trace ∧ (necessist h o m).1 ≠ .hang ∧
      (RunsTests o → ∀ n, (necessist h o m).1 ≠ .ok n) ∧
      (RunsTests o → processOptions o.set = .ok → ∀ root fw nTests map ws st, ¬ FindsCandidates h o m root fw nTests map ws st)) ∨
    ∃ root fw nTests map ws st, FindsCandidates h o m root fw nTests map ws st ∧ RunsTests o ∧ processOptions o.set = .ok ∧
      ∃ warns ext,
        let x := runWhole (dbCall h o) (runCfg h o m) fw.env map.toRun m.db (startWorld m warns ext)
        (necessist h o m).2.db = x.2.1 ∧ (necessist h o m).2.fs = x.2.2.fs ∧ (necessist h o m).2.trace = m.trace ++ x.2.2.trace ∧
        ((necessist h o m).2.console = m.console ++ ws.map .warning ++
            (if o.quiet then [] else [.text (summary map.nSpans nTests map.length)]) ++ x.2.2.out.map (showLine h o root) ∧
          (necessist h o m).2.progress = m.progress + x.2.2.progress ∧ ext = fw.parsed (h.chosen m.ext) ∧ (necessist h o m).2.ext = x.2.2.ext) ∧
        (necessist h o m).1 = (match x.1 with
          | .ok _ => .ok 0 | .err (.inl e) => .err (.db e) | .err (.inr e) => .err (.run e) | .panic => .panic | .hang => .hang) := by
  by_cases hopt : processOptions o.set = .ok
  · by_cases hl : LooksForCandidates o
    · rcases necessist_candidates (h := h) (m := m) hopt hl with ⟨u, h1, h2, _, hno⟩ | ⟨root, fw, nT, map, ws, st, hf, he⟩
      · exact Or.inl ⟨u.db, u.fs, u.trace, h2, fun _ => h1, fun _ _ => hno⟩
      · by_cases hd : o.dumpCandidates = true ∨ o.dumpCandidateCounts = true
        · left
          have u := C61_no_effects (h := h) (m := m) hd
          refine ⟨u.db, u.fs, u.trace, ?_, fun hr => ?_, fun hr => ?_⟩
          · rw [he]
            obtain ⟨-, -, -, hsome, herr⟩ := prepareFound_spec (h := h) (o := o)
              (m := { m with ext := fw.parsed (h.chosen m.ext), warns := st, console := m.console ++ ws.map .warning }) root fw nT map
            have hh : (prepareFound h o root fw nT map
              { m with ext := fw.parsed (h.chosen m.ext), warns := st, console := m.console ++ ws.map .warning }).1 ≠ .hang := by
              unfold prepareFound dumpCandidates
              split
              · generalize candidateLines _ _ _ = x
                obtain ⟨ls, ok⟩ := x
                cases ok <;> simp
              · split <;> simp
            rcases hp : prepareFound h o root fw nT map
              { m with ext := fw.parsed (h.chosen m.ext), warns := st, console := m.console ++ ws.map .warning } with ⟨r, m'⟩
            rw [hp] at hsome herr hh
            rcases r with (_ | p) | e | _ | _
            · simp [afterPrepare]
            · obtain ⟨_, h1, h2⟩ := hsome p rfl
              rw [h1, h2] at hd; simp at hd
            · simp [afterPrepare]
            · simp [afterPrepare]
            · exact absurd rfl hh
          all_goals
            obtain ⟨_, h1, h2⟩ := hr
            rw [h1, h2] at hd; simp at hd
        · right
          have hd1 : o.dumpCandidates = false := by
            cases hx : o.dumpCandidates with
            | false => rfl
            | true => exact absurd (Or.inl hx) hd
          have hd2 : o.dumpCandidateCounts = false := by
            cases hx : o.dumpCandidateCounts with
            | false => rfl
            | true => exact absurd (Or.inr hx) hd
          refine ⟨root, fw, nT, map, ws, st, hf, ⟨hl, hd1, hd2⟩, hopt, st, fw.parsed (h.chosen m.ext), ?_⟩
          have hcfg : ∀ m' : Machine σ, m'.fs = m.fs → runCfg h o m' = runCfg h o m := by
            intro m' hm; unfold runCfg; rw [hm]
          rw [he]
          simp only [prepareFound, hd1, hd2, Bool.false_eq_true, if_false, afterPrepare, runAll, print]
          cases hq : o.quiet
          · simp only [Bool.false_eq_true, if_false]
            rw [hcfg { m with
              ext := fw.parsed (h.chosen m.ext), warns := st, console := m.console ++ ws.map .warning ++
                [.text (summary map.nSpans nT map.length)] } rfl]
            unfold startWorld
            generalize runWhole (dbCall h o) (runCfg h o m) fw.env map.toRun m.db
              { fs := m.fs, db := none, warns := st, out := [], progress := 0, trace := [], instr := none, past := [], ext := fw.parsed (h.chosen m.ext) } = x
            obtain ⟨r, db, w⟩ := x
            exact ⟨rfl, rfl, rfl, ⟨rfl, rfl, trivial, rfl⟩, rfl⟩
          · simp only [if_true]
            rw [hcfg { m with ext := fw.parsed (h.chosen m.ext), warns := st, console := m.console ++ ws.map .warning } rfl]
            unfold startWorld
            generalize runWhole (dbCall h o) (runCfg h o m) fw.env map.toRun m.db
              { fs := m.fs, db := none, warns := st, out := [], progress := 0, trace := [], instr := none, past := [], ext := fw.parsed (h.chosen m.ext) } = x
            obtain ⟨r, db, w⟩ := x
            exact ⟨rfl, rfl, rfl, ⟨by simp, rfl, trivial, rfl⟩, rfl⟩
    · left
      have hnr : ∀ {P : Prop}, RunsTests o → P := fun hr => absurd hr.1 hl
      by_cases h1 : o.checkSkill.isSome = true
      · unfold necessist
        rw [hopt]
        obtain ⟨p, hp⟩ := Option.isSome_iff_exists.1 h1
        rw [hp]
        refine ⟨rfl, rfl, rfl, ?_, hnr, hnr⟩
        unfold skillResult; dsimp only; split <;> simp
      have hck : o.checkSkill = none := by simpa using h1
      by_cases h2 : o.findSkill = true
      · unfold necessist
        rw [hopt, hck, h2]
        refine ⟨rfl, rfl, rfl, ?_, hnr, hnr⟩
        simp only [if_true]
        unfold skillResult; dsimp only; split <;> simp
      have hfs : o.findSkill = false := by simpa using h2
      have hend : (necessist h o m).1 ≠ .hang := by
        rcases necessist_project (h := h) (m := m) hopt hck hfs with ⟨_, e, he⟩ | ⟨root, m1, _, _, hw, he⟩
        · rw [he]; simp
        · rw [he]
          unfold prepare
          by_cases h3 : o.defaultConfig = true
          · rw [if_pos h3]
            rcases defaultConfig h.configStatFails h.configWriteFails m1.config with ⟨_ | _, _⟩ <;> simp [afterPrepare]
          rw [if_neg h3]
          cases Toml.read h.configStatFails m1.config with
          | error e => simp [afterPrepare]
          | ok config =>
            dsimp only
            by_cases h4 : o.dump = true
            · rw [if_pos h4]
              unfold prepareDump
              have hne : (dumpWhole (dbCall h o) o.warn o.verbose m1.warns m1.db).1 ≠ .hang := by
                unfold dumpWhole
                have := pastInit_no_hang (dbCall h o).noSqlite o.warn m1.warns (dbCall h o).readable (dbCall h o).faults (dbCall h o).flags m1.db
                dsimp only
                split
                · simp
                · simp
                · simp
                · rename_i hx; exact absurd hx this
              rcases hx : dumpWhole (dbCall h o) o.warn o.verbose m1.warns m1.db with ⟨⟨_, _⟩ | e | _ | _, db⟩
              · simp [afterPrepare]
              · simp [afterPrepare]
              · simp [afterPrepare]
              · rw [hx] at hne; exact absurd rfl hne
            · exact absurd ⟨hck, hfs, by simpa using h3, by simpa using h4⟩ hl
      by_cases h3 : o.defaultConfig = true
      · obtain ⟨_, k1, k2, k3, _⟩ := C27_program_default (h := h) (m := m) h3
        exact ⟨k1, k2, k3, hend, hnr, hnr⟩
      by_cases h4 : o.dump = true
      · have u := C14_program_dump (h := h) (m := m) h4
        exact ⟨u.db, u.fs, u.trace, hend, hnr, hnr⟩
      exact absurd ⟨hck, hfs, by simpa using h3, by simpa using h4⟩ hl
  · obtain ⟨e, he⟩ := necessist_refused (h := h) (m := m) hopt
    rw [he]
    exact Or.inl ⟨rfl, rfl, rfl, by simp, fun _ n => by simp, fun _ hp => absurd hp hopt⟩

theorem _root_.Necessist.Visit.Sub.trans' {a b c : Visit.Node} (h1 : Visit.Sub a b) (h2 : Visit.Sub b c) : Visit.Sub a c := by
  induction h1 with
  | refl => exact h2
  | step hm _ ih => exact .step hm (ih h2)

/-- Then the candidates of a file lie in that file. -/
theorem SpansInFile.yields (hs : SpansInFile h) {ext i fw} (hi : h.impl ext i = .ok (some fw)) {root : Path} {config f vs}
    (hy : Yields (projectBackend h o root m fw) config f vs) {k s t} (hm : (s, t) ∈ found vs k) : s.file = f := by
  obtain ⟨contents, d, ast, fns, walked, _, _, _, h4, h5, h6⟩ := hy
  have hin := hs ext i fw hi f ast h4
  have hc : (s, t) ∈ vs.statements ∨ (s, t) ∈ vs.methodCalls := by cases k <;> first | exact Or.inl hm | exact Or.inr hm
  obtain ⟨n, hn, hsp⟩ := Visit.C37_arguments_partial h6 hc
  have hwalk : ∀ g, Visit.IsWalkable (visitorFor (projectBackend h o root m fw) config contents d fns) g → ∃ x ∈ fns, g ∈ x.2 := by
    rintro g ⟨name, gs, hg⟩
    have := List.lookup_eq_some_iff.1 hg
    obtain ⟨l1, l2, hl, _⟩ := this
    refine ⟨(name, g :: gs), ?_, by simp⟩
    have hmem : (name, g :: gs) ∈ (visitorFor (projectBackend h o root m fw) config contents d fns).walkable := by rw [hl]; simp
    exact (List.mem_filter.1 hmem).1
  have hpart : PartOf ast n := by
    obtain ⟨last, hn | ⟨g, hg, hn⟩⟩ := hn
    · obtain ⟨_, cs, hw, r, hr, hsub⟩ := hn.inTest
      have hsub' : Visit.Sub (.test t last cs) n := .step (by simpa [Visit.Node.kids] using hr) hsub.sub
      rcases hw with ⟨r', hr', hw⟩ | ⟨g, hg, r', hr', hw⟩
      · exact Or.inl ⟨r', hr', hw.trans' hsub'⟩
      · obtain ⟨x, hx, hgx⟩ := hwalk g hg
        exact Or.inr ⟨fns, h5, x, hx, g, hgx, r', hr', hw.trans' hsub'⟩
    · obtain ⟨r, hr, hsub⟩ := hn.inFn
      obtain ⟨x, hx, hgx⟩ := hwalk g ((Visit.C39_once h6).2 g hg)
      exact Or.inr ⟨fns, h5, x, hx, g, hgx, r, hr, hsub.sub⟩
  rcases hsp with ⟨si, hst, rfl⟩ | ⟨ci, cn, callee, args, base, p, rfl, _, rfl⟩
  · rcases hst with ⟨cs, rfl⟩ | ⟨e, rfl⟩ <;> exact hin _ hpart (by simp)
  · exact hin _ hpart (by simp)

theorem FindsCandidates.filesOk (hs : SpansInFile h) {root fw nTests map ws st} (hf : FindsCandidates h o m root fw nTests map ws st) :
    FilesOk map.toRun := by
  obtain ⟨_, _, config, paths, m1, pst, ws0, _, _, _, hfw, _, hparse, _, rfl, _⟩ := hf
  obtain ⟨t, ht⟩ : ∃ t, h.impl m.ext t = .ok (some fw) := by
    cases hof : o.framework with
    | some t => rw [hof] at hfw; exact ⟨t, (Framework.C42_explicit t fw).1 hfw⟩
    | none =>
      rw [hof] at hfw
      obtain ⟨_, t, _, _, _, ht⟩ := (Framework.C42_auto_iff (by decide) fw).1 hfw
      exact ⟨t, ht⟩
  exact (C41_run_input (b := projectBackend h o root m fw)
    (fun config f vs hy k s t hm => hs.yields ht hy hm) hparse).1

/-- Either no source file was touched and no test executed, or candidates were found and the files were gone through, in a fresh world
with the sources as they were. -/
theorem necessist_runs (hs : SpansInFile h) :
    ((necessist h o m).2.fs = m.fs ∧ (necessist h o m).2.trace = m.trace ∧ (necessist h o m).1 ≠ .hang) ∨
    ∃ root fw nTests map ws st, FindsCandidates h o m root fw nTests map ws st ∧ FilesOk map.toRun ∧
      ∃ w0 : World σ, Fresh w0 ∧ w0.fs = m.fs ∧
        let y := runFiles (runCfg h o m) fw.env map.toRun w0
        (necessist h o m).2.fs = y.2.fs ∧ (necessist h o m).2.trace = m.trace ++ y.2.trace ∧
        (necessist h o m).1 =
          (match y.1 with | .ok _ => .ok 0 | .err e => .err (.run e) | .panic => .panic | .hang => .hang) := by
  rcases necessist_whole (h := h) (o := o) (m := m) with ⟨_, h1, h2, h3, _⟩ | ⟨root, fw, nT, map, ws, st, hf, hr, hopt, warns, ext, h1, h2, h3, h4, h5⟩
  · exact Or.inl ⟨h1, h2, h3⟩
  · rcases runWhole_runs (runCfg h o m) fw.env (dbCall h o) map.toRun m.db (startWorld m warns ext) with
      ⟨k0, k1, k2, _⟩ | ⟨w0, w1, w2, w3, k1, k2⟩
    · left
      refine ⟨by rw [h2, k2]; rfl, by rw [h3, k1]; simp [startWorld], ?_⟩
      rw [h5]
      rcases k0 with ⟨e, k0⟩ | k0 <;> rw [k0] <;> simp
    · right
      refine ⟨root, fw, nT, map, ws, st, hf, hf.filesOk hs, w0, ⟨w1, w3.1⟩, w2, ?_, ?_, ?_⟩
      · rw [h2, k1]
      · rw [h3, k1]
      · rw [h5, k2]
        cases (runFiles (runCfg h o m) fw.env map.toRun w0).1 <;> rfl

/-- **C01.** However the program ends, if it does, every source file is as it was. -/
theorem C01_program (hs : SpansInFile h) (hfin : (main h o m).1 ≠ none) : (main h o m).2.fs = m.fs := by
  have e : (main h o m).2 = (necessist h o m).2 := rfl
  have hne : (necessist h o m).1 ≠ .hang := by
    intro hh
    apply hfin
    show exitCode (necessist h o m).1 = none
    rw [hh]; rfl
  rw [e]
  rcases necessist_runs (o := o) (m := m) hs with ⟨h1, _⟩ | ⟨root, fw, nT, map, ws, st, hf, hok, w0, hfr, hfs, h1, h2, h3⟩
  · exact h1
  · rw [h1, ← hfs]
    refine C01_restored fw.env (runCfg h o m) map.toRun hok w0 hfr ?_
    intro hh
    rw [hh] at h3; exact hne h3

/-- **C02.** Whenever a test is built or executed for a candidate, the sources differ from those at the start in exactly that removal. -/
theorem C02_program (hs : SpansInFile h) : ∃ events, (main h o m).2.trace = m.trace ++ events ∧
    ∀ s ∈ events, ∀ c t, (s.event = .buildTest c t ∨ (∃ v, s.event = .startTest c t v) ∨ s.event = .kill c t ∨ ∃ r, s.event = .tested c t r) →
      ∃ root fw nTests map ws st, FindsCandidates h o m root fw nTests map ws st ∧
        (c ∈ candidates map.toRun ∧ t ∈ c.tests) ∧ OneRemoval fw.env m.fs m.fs c s.fs ∧ ∀ v, s.event = .startTest c t v → v = h.ident c.span := by
  have e : (main h o m).2 = (necessist h o m).2 := rfl
  rw [e]
  rcases necessist_runs (o := o) (m := m) hs with ⟨_, h1, _⟩ | ⟨root, fw, nT, map, ws, st, hf, hok, w0, hfr, hfs, h1, h2, h3⟩
  · exact ⟨[], by rw [h1, List.append_nil], by simp⟩
  · refine ⟨_, h2, fun s hs' c t he => ⟨root, fw, nT, map, ws, st, hf, ?_, ?_, ?_⟩⟩
    · have := C10_nothing_else fw.env (runCfg h o m) map.toRun w0 hfr s hs'
      rcases he with he | ⟨v, he⟩ | he | ⟨r, he⟩ <;> rw [he] at this <;> exact this
    · rw [← hfs]
      exact C02_one_removal fw.env (runCfg h o m) map.toRun hok w0 hfr (by rw [hfs]; rfl) s hs' c t he
    · intro v hv
      exact C02_told_the_id fw.env (runCfg h o m) map.toRun hok w0 hfr s hs' c t v hv

/-- **C03.** At every moment at most one source file differs from what it was at the start: at every event and, should the program never
end, while it hangs. -/
theorem C03_program (hs : SpansInFile h) : (∃ events, (main h o m).2.trace = m.trace ++ events ∧
      ∀ s ∈ events, ∃ f, OnlyDiffersAt f m.fs s.fs) ∧
    ∃ f, OnlyDiffersAt f m.fs (main h o m).2.fs := by
  have e : (main h o m).2 = (necessist h o m).2 := rfl
  rw [e]
  rcases necessist_runs (o := o) (m := m) hs with ⟨h0, h1, _⟩ | ⟨root, fw, nT, map, ws, st, hf, hok, w0, hfr, hfs, h1, h2, h3⟩
  · exact ⟨⟨[], by rw [h1, List.append_nil], by simp⟩, ⟨[]⟩, fun g _ => by rw [h0]⟩
  · obtain ⟨k1, k2, _⟩ := C03_at_most_one_modified fw.env (runCfg h o m) map.toRun hok w0 hfr
    rw [hfs] at k1 k2
    exact ⟨⟨_, h2, fun s hs' => (k1 s hs').1⟩, by rw [h1]; exact k2⟩

theorem main_snd : (main h o m).2 = (necessist h o m).2 := rfl
theorem main_fst : (main h o m).1 = exitCode (necessist h o m).1 := rfl

/-- **C10.** Only the project's own candidates are dealt with: files are dry-run or built, tests built and executed, and rows added only
for the files and candidates that were found (and then not for `--dump-candidates` and so on, which have no events: C61). -/
theorem C10_program_nothing_else (hs : SpansInFile h) : ∃ events, (main h o m).2.trace = m.trace ++ events ∧
    (events ≠ [] → ∃ root fw nTests map ws st, FindsCandidates h o m root fw nTests map ws st ∧
      ∀ s ∈ events, Meant (map.map (·.1)) (candidates map.toRun) s.event) := by
  rw [main_snd]
  rcases necessist_runs (o := o) (m := m) hs with ⟨_, h1, _⟩ | ⟨root, fw, nT, map, ws, st, hf, hok, w0, hfr, hfs, h1, h2, h3⟩
  · exact ⟨[], by rw [h1, List.append_nil], fun h => absurd rfl h⟩
  · refine ⟨_, h2, fun _ => ⟨root, fw, nT, map, ws, st, hf, fun s hs' => ?_⟩⟩
    have := C10_nothing_else fw.env (runCfg h o m) map.toRun w0 hfr s hs'
    have e : map.toRun.map (·.1) = map.map (·.1) := by unfold FileMap.toRun; rw [List.map_map]; rfl
    rwa [e] at this

/-- **C10.** If the program succeeds and started with no results (no database, or `--reset`), then for each candidate that was found there
is either exactly one row, which says what its tests showed or that its file's dry run failed, or its tests could not be told to
have run. There are no other rows. -/
theorem C10_program (hs : SpansInFile h) (hrun : RunsTests o) (hn : o.noSqlite = false) (hdb : m.db = .absent ∨ o.reset = true) {m'}
    (hr : main h o m = (some 0, m')) :
    ∃ root fw nTests map ws st events, FindsCandidates h o m root fw nTests map ws st ∧ m'.trace = m.trace ++ events ∧
    ∃ (log : List Entry) (rows : List Row), log.map Entry.cand = candidates map.toRun ∧ m'.db = .table rows ∧
      rows.map (·.span) = (log.filter Entry.determined).map (fun e => e.cand.span.display) ∧
      (rows.map (·.span)).Nodup ∧ testedOf events = log.flatMap Entry.results ∧
      ∀ e ∈ log, (∃ c text, e = .skipped c text ∧ c.span.file ∈ failedOf events ∧ HasText m.fs c text ∧
          ∃ url, Row.mk c.span.display text "skipped".toList url ∈ rows) ∨
        ∃ c text results v, e = .tested c text results v ∧ c.span.file ∉ failedOf events ∧ HasText m.fs c text ∧
          Verdict c.tests results v ∧ ∀ o, v = some o → ∃ url, Row.mk c.span.display text o.display url ∈ rows := by
  have e1 : exitCode (necessist h o m).1 = some 0 := by rw [← main_fst, hr]
  have e2 : (necessist h o m).2 = m' := by rw [← main_snd, hr]
  have hok0 : ∃ n, (necessist h o m).1 = .ok n := by
    cases hx : (necessist h o m).1 with
    | ok n => exact ⟨n, rfl⟩
    | err e => rw [hx] at e1; simp [exitCode] at e1
    | panic => rw [hx] at e1; simp [exitCode] at e1
    | hang => rw [hx] at e1; simp [exitCode] at e1
  obtain ⟨n, hok0⟩ := hok0
  rcases necessist_whole (h := h) (o := o) (m := m) with ⟨_, _, _, _, h5, _⟩ | ⟨root, fw, nT, map, ws, st, hf, _, hopt, warns, ext, h1, h2, h3, h4, h5⟩
  · exact absurd hok0 (h5 hrun n)
  · rw [e2] at h1 h3
    refine ⟨root, fw, nT, map, ws, st, _, hf, h3, ?_⟩
    have hx : (runWhole (dbCall h o) (runCfg h o m) fw.env map.toRun m.db (startWorld m warns ext)).1 = .ok () := by
      rw [hok0] at h5
      revert h5
      generalize (runWhole (dbCall h o) (runCfg h o m) fw.env map.toRun m.db (startWorld m warns ext)).1 = x
      rcases x with ⟨⟩ | (e | e) | _ | _ <;> simp
    rcases runWhole_cases fw.env (runCfg h o m) (dbCall h o) map.toRun m.db (startWorld m warns ext) hn with
      ⟨k, _⟩ | ⟨rows0, stored, ws', out', k0, k1, k2, k3, k4⟩
    · exact absurd hx k
    · have hz : rows0 = [] ∧ stored = [] := by
        rcases k0 with ⟨k0, kr, _⟩ | ⟨_, k0⟩
        · rcases hdb with hdb | hdb
          · rw [hdb] at k0; cases k0
          · have : o.reset = false := kr
            rw [hdb] at this; cases this
        · exact k0
      obtain ⟨rfl, rfl⟩ := hz
      rw [h1, k1]
      have hy := k2.1 hx
      generalize hw0 : ({ startWorld m warns ext with
        warns := ws', out := (startWorld m warns ext).out ++ out', db := some [], past := sortPast [] } : World σ) = w0 at k1 k3 hy ⊢
      rcases hrf : runFiles (runCfg h o m) fw.env map.toRun w0 with ⟨r, w'⟩
      rw [hrf] at k1 k3 hy
      dsimp only at hy k3
      subst hy
      obtain ⟨log, rows, g1, g2, g3, g4, g4', g5⟩ := C10_exactly_once fw.env (runCfg h o m) map.toRun (hf.filesOk hs) w0 w'
        (by rw [← hw0]; exact ⟨rfl, rfl⟩) (by rw [← hw0]) (by rw [← hw0]; rfl) hrf
      exact ⟨log, rows, g1, k3 rows g2, g3, g4, g4', g5⟩

/-- **C14.** Whatever the options, unless they include `--reset`: every row of the database is kept, in place. Without `--resume` (and without
`--reset`) the database is not changed at all, and a call that would run tests, with a database, fails and runs none. -/
theorem C14_program (hs : SpansInFile h) (hre : o.reset = false) {rows} (hdb : m.db = .table rows) :
    (∃ more, (main h o m).2.db = .table (rows ++ more)) ∧
    (o.resume = false → (main h o m).2.db = m.db ∧
      (RunsTests o → o.noSqlite = false → (main h o m).2.trace = m.trace ∧ (main h o m).1 ≠ some 0)) := by
  rw [main_snd, main_fst]
  rcases necessist_whole (h := h) (o := o) (m := m) with ⟨h1, h2, h3, h4, h5, _⟩ | ⟨root, fw, nT, map, ws, st, hf, hrun, hopt, warns, ext, h1, h2, h3, h4, h5⟩
  · refine ⟨⟨[], by rw [h1, hdb, List.append_nil]⟩, fun _ => ⟨h1, fun hr _ => ⟨h3, ?_⟩⟩⟩
    intro hc
    cases hx : (necessist h o m).1 with
    | ok n => exact h5 hr n hx
    | err e => rw [hx] at hc; simp [exitCode] at hc
    | panic => rw [hx] at hc; simp [exitCode] at hc
    | hang => rw [hx] at hc; simp [exitCode] at hc
  · have hok := hf.filesOk hs
    refine ⟨?_, fun hrs => ?_⟩
    · rw [h1, hdb]
      exact C14_keeps_rows fw.env (runCfg h o m) (dbCall h o) map.toRun hok rows _ hre
    · cases hns : o.noSqlite with
      | true => exact ⟨by rw [h1]; exact C14_no_sqlite fw.env (runCfg h o m) (dbCall h o) map.toRun hok m.db _ hns, fun _ h => by cases h⟩
      | false =>
        obtain ⟨⟨e, he⟩, _⟩ := C14_refuses fw.env (runCfg h o m) (dbCall h o) map.toRun m.db (startWorld m warns ext) hns
          (by simp [dbCall, hre, hrs, hrun.1.2.2.2]) (by rw [hdb]; simp)
        rw [he] at h1 h3 h5
        refine ⟨h1, fun _ _ => ⟨by rw [h3]; simp [startWorld], ?_⟩⟩
        rw [h5]; simp [exitCode]

/-! ### Refusals: exit code 2, and nothing has happened -/

theorem main_undisturbed {P : Prop} (hp : processOptions o.set ≠ .ok ∨ P)
    (hP : P → Undisturbed m (necessist h o m).2 ∧ ∃ e, (necessist h o m).1 = .err e) :
    (main h o m).1 = some 2 ∧ Undisturbed m (main h o m).2 := by
  rcases hp with hp | hp
  · rw [C31_program hp]; exact ⟨rfl, .refl _⟩
  · obtain ⟨u, e, he⟩ := hP hp
    rw [main_fst, main_snd, he]
    exact ⟨rfl, u⟩

/-- **C45.** If the root's lock cannot be had, the program fails without doing anything. -/
theorem C45_program (hc : o.checkSkill = none) (hf : o.findSkill = false) {root} (hr : rootOf h o = some root) (hl : h.lockFails root = true) :
    main h o m = (some 2, m) := by
  by_cases hopt : processOptions o.set = .ok
  · have e : necessist h o m = project h o m := by
      unfold necessist
      rw [hopt]; simp only [hc, hf, Bool.false_eq_true, if_false]
    have hroot : projectRoot h o = rootOf h o := rfl
    unfold main
    rw [e]
    unfold project
    rw [hroot, hr]
    simp only [hl, if_true]
    rfl
  · exact C31_program hopt

/-- **C28.** A denied warning aborts: here the one about the deprecated option. -/
theorem C28_program (hc : o.checkSkill = none) (hf : o.findSkill = false) (hn : o.noLocalFunctions = true)
    (hd : Warning.all ∈ o.deny ∨ Warning.optionDeprecated ∈ o.deny) : (main h o m).1 = some 2 ∧ Undisturbed m (main h o m).2 := by
  refine main_undisturbed (Classical.em _).symm (fun hopt => ?_)
  rcases necessist_project (h := h) (m := m) hopt hc hf with h1 | ⟨root, m1, _, _, hw, _⟩
  · exact h1
  · exfalso
    unfold warnDeprecated at hw
    rw [if_pos hn] at hw
    revert hw
    generalize "--no-local-functions is now the default; hence, this option is deprecated".toList = msg
    intro hw
    have hb : (o.warn.deny.contains .all || o.warn.deny.contains .optionDeprecated) = true := by
      have e : o.warn.deny = o.deny := rfl
      rw [e]
      rcases hd with hd | hd <;> simp [hd]
    have : ∃ w st, warnInternal o.warn m.warns ⟨.optionDeprecated, none, msg, false⟩ = (.bail w, st) := by
      unfold warnInternal
      rw [if_neg (by simp)]
      dsimp only
      rw [if_pos hb]
      exact ⟨_, _, rfl⟩
    obtain ⟨w, st, hw'⟩ := this
    rw [hw'] at hw
    cases hw

/-- **C27.** If the configuration is malformed, or has unknown keys, the program fails and nothing has happened. -/
theorem C27_program (hl : LooksForCandidates o) {e} (hc : Toml.read h.configStatFails m.config = .error e) :
    (main h o m).1 = some 2 ∧ Undisturbed m (main h o m).2 := by
  refine main_undisturbed (Classical.em _).symm (fun hopt => ?_)
  rcases necessist_candidates (h := h) (m := m) hopt hl with ⟨u, _, _, h1 | ⟨_, config, _, _, _, h1, _⟩, _⟩ | ⟨root, fw, nT, map, ws, st, hf, _⟩
  · exact ⟨u, h1⟩
  · rw [hc] at h1; cases h1
  · obtain ⟨_, _, config, _, _, _, _, _, _, h1, _⟩ := hf
    rw [hc] at h1; cases h1

/-- **C42.** If no framework is applicable, or several are and none was asked for, the program fails and nothing has happened. -/
theorem C42_program (hl : LooksForCandidates o) {e} (hb : Framework.backendFor Framework.Identifier.all Framework.Identifier.name
      (Framework.Identifier.applicable h.exists_) (h.impl m.ext) o.framework = .error e) :
    (main h o m).1 = some 2 ∧ Undisturbed m (main h o m).2 := by
  refine main_undisturbed (Classical.em _).symm (fun hopt => ?_)
  rcases necessist_candidates (h := h) (m := m) hopt hl with ⟨u, _, _, h1 | ⟨_, config, _, _, _, _, h1, _⟩, _⟩ | ⟨root, fw, nT, map, ws, st, hf, _⟩
  · exact ⟨u, h1⟩
  · rw [hb] at h1; cases h1
  · obtain ⟨_, _, config, _, _, _, _, _, _, _, h1, _⟩ := hf
    rw [hb] at h1; cases h1

/-- **C44.** If some path on the command line does not lead to anything under the root, the program fails and nothing has happened. -/
theorem C44_program (hl : LooksForCandidates o) {root a} (hroot : rootOf h o = some root) (ha : a ∈ o.sourceFiles)
    (hout : ∀ p, h.canonicalize ⟨true, if a.absolute then a.components else root ++ a.components⟩ = some p → ¬ root <+: p) :
    (main h o m).1 = some 2 ∧ Undisturbed m (main h o m).2 := by
  have hno : ∀ fw, ∃ e, canonicalizeAll (projectBackend h o root m fw) o.sourceFiles = .error e := by
    intro fw
    refine C44_refused o.sourceFiles a ha ?_
    intro p hp
    have hp : canonicalizePath h (if a.absolute then a.components else root ++ a.components) = .ok p := hp
    unfold canonicalizePath at hp
    split at hp
    · rename_i q hq
      cases hp
      exact hout _ hq
    · cases hp
  refine main_undisturbed (Classical.em _).symm (fun hopt => ?_)
  rcases necessist_candidates (h := h) (m := m) hopt hl with ⟨u, _, _, h1 | ⟨_, config, fw, paths, h0, _, _, h1⟩, _⟩ | ⟨root', fw, nT, map, ws, st, hf, _⟩
  · exact ⟨u, h1⟩
  · rw [hroot] at h0; cases h0
    obtain ⟨e, he⟩ := hno fw
    rw [he] at h1; cases h1
  · obtain ⟨h0, _, config, paths, _, _, _, _, _, _, _, h1, _⟩ := hf
    rw [hroot] at h0; cases h0
    obtain ⟨e, he⟩ := hno fw
    rw [he] at h1; cases h1

/-- **C64.** If a file that is given cannot be parsed and the warning about this is denied, the program does not succeed and nothing has
happened. -/
theorem C64_program (hl : LooksForCandidates o) {root fw paths f contents d e} (hroot : rootOf h o = some root)
    (hfw : Framework.backendFor Framework.Identifier.all Framework.Identifier.name (Framework.Identifier.applicable h.exists_) (h.impl m.ext)
      o.framework = .ok fw)
    (hpaths : canonicalizeAll (projectBackend h o root m fw) o.sourceFiles = .ok paths)
    (hg : Given (projectBackend h o root m fw) paths f) (hread : h.unreadable f = none) (hcont : m.fs f = contents)
    (hd : HasDirectives (projectBackend h o root m fw) f contents d) (hskip : d.skipFile = false) (hparse : fw.backend.parseFile f = .error e)
    (hden : Denied o.warn .parsingFailed) :
    (main h o m).1 ≠ some 0 ∧ Undisturbed m (main h o m).2 := by
  by_cases hopt : processOptions o.set = .ok
  · rcases necessist_candidates (h := h) (m := m) hopt hl with ⟨u, h1, _⟩ | ⟨root', fw', nT, map, ws, st, hf, _⟩
    · rw [main_fst, main_snd]
      refine ⟨?_, u⟩
      intro hx
      cases hn : (necessist h o m).1 with
      | ok n => exact h1 n hn
      | err e => rw [hn] at hx; simp [exitCode] at hx
      | panic => rw [hn] at hx; simp [exitCode] at hx
      | hang => rw [hn] at hx; simp [exitCode] at hx
    · exfalso
      obtain ⟨h0, _, config, paths', m1, pst, _, _, _, _, k1, k2, k3, _⟩ := hf
      rw [hroot] at h0; cases h0
      rw [hfw] at k1; cases k1
      rw [hpaths] at k2; cases k2
      have hr : (projectBackend h o root m fw).read f = .ok contents := by
        show readFile h m f = .ok contents
        unfold readFile; rw [hread, hcont]
      exact C64_denied (user := config) (ws := m1.warns) hg hr hd hskip hparse hden (congrArg Prod.fst k3)
  · rw [C31_program hopt]; exact ⟨by simp, .refl _⟩

/-- **C64.** If candidates are found although some file that is given cannot be parsed, then (the warning not being silenced) this has been
printed, and the file has no candidates. -/
theorem C64_program_reported {root fw nTests map ws st paths f d e} (hf : FindsCandidates h o m root fw nTests map ws st)
    (hpaths : canonicalizeAll (projectBackend h o root m fw) o.sourceFiles = .ok paths)
    (hg : Given (projectBackend h o root m fw) paths f) (hread : h.unreadable f = none)
    (hd : HasDirectives (projectBackend h o root m fw) f (m.fs f) d) (hskip : d.skipFile = false) (hparse : fw.backend.parseFile f = .error e) :
    (Shows o.warn .parsingFailed → ∃ w ∈ ws, w.warning = .parsingFailed ∧
      w.msg = "failed to parse \"".toList ++ f.display ++ "\": ".toList ++ e) ∧ ∀ ms, (f, ms) ∉ map := by
  obtain ⟨h0, _, config, paths', m1, pst, ws0, _, _, _, k1, k2, k3, _, rfl, rfl, _⟩ := hf
  rw [hpaths] at k2; cases k2
  have hr : (projectBackend h o root m fw).read f = .ok (m.fs f) := by
    show readFile h m f = .ok (m.fs f)
    unfold readFile; rw [hread]
  obtain ⟨g1, g2, _⟩ := C64_reported k3 hg hr hd hskip hparse
  refine ⟨fun hs => ?_, g2⟩
  obtain ⟨w, hw, g⟩ := g1 hs
  exact ⟨w, List.mem_append_right _ hw, g⟩

/-- **C61.** The candidates that the dumps print are those a run considers: with the same paths, root, framework and handling of warnings,
and whatever else the options of the run are, the same candidates are found; and all that is dry-run, built or executed, and recorded,
are files, tests and candidates among them. -/
theorem C61_same_as_run (hs : SpansInFile h) {o' : Opts} (hr : o'.root = o.root) (ha : o'.allow = o.allow) (hd : o'.deny = o.deny)
    (hq : o'.quiet = o.quiet) (hfw : o'.framework = o.framework) (hn : o'.noLocalFunctions = o.noLocalFunctions)
    (hsf : o'.sourceFiles = o.sourceFiles) {root fw nTests map ws st} (hf : FindsCandidates h o m root fw nTests map ws st) :
    FindsCandidates h o' m root fw nTests map ws st ∧
    ∃ events, (main h o' m).2.trace = m.trace ++ events ∧ ∀ s ∈ events, Meant (map.map (·.1)) (candidates map.toRun) s.event := by
  have hf' := hf.congr hr ha hd hq hfw hn hsf
  refine ⟨hf', ?_⟩
  obtain ⟨events, h1, h2⟩ := C10_program_nothing_else (o := o') (m := m) hs
  refine ⟨events, h1, fun s hs' => ?_⟩
  obtain ⟨root', fw', nT', map', ws', st', hf'', h3⟩ := h2 (List.ne_nil_of_mem hs')
  obtain ⟨_, _, _, rfl, _⟩ := hf'.unique hf''
  exact h3 s hs'

/-- **C39.** The program ends unless a run hangs. -/
theorem C39_program (hs : SpansInFile h) (hx : (main h o m).1 = none) :
    ∃ root fw nTests map ws st, FindsCandidates h o m root fw nTests map ws st ∧
      ∃ w0, (runFiles (runCfg h o m) fw.env map.toRun w0).1 = .hang := by
  have hh : (necessist h o m).1 = .hang := by
    rw [main_fst] at hx
    cases hn : (necessist h o m).1 with
    | ok n => rw [hn] at hx; simp [exitCode] at hx
    | err e => rw [hn] at hx; simp [exitCode] at hx
    | panic => rw [hn] at hx; simp [exitCode] at hx
    | hang => rfl
  rcases necessist_runs (o := o) (m := m) hs with ⟨_, _, h1⟩ | ⟨root, fw, nT, map, ws, st, hf, hok, w0, hfr, hfs, h1, h2, h3⟩
  · exact absurd hh h1
  · refine ⟨root, fw, nT, map, ws, st, hf, w0, ?_⟩
    rw [hh] at h3
    cases hy : (runFiles (runCfg h o m) fw.env map.toRun w0).1 with
    | hang => rfl
    | ok u => rw [hy] at h3; cases h3
    | err e => rw [hy] at h3; cases h3
    | panic => rw [hy] at h3; cases h3

/-! ### C63: exit codes -/

/-- **C63.** 2 is the exit code of errors and only of them; a panic gives 101. -/
theorem necessist_ok_code {n} (hr : (necessist h o m).1 = .ok n) : n = 0 ∨ n = 1 ∧ (o.checkSkill.isSome = true ∨ o.findSkill = true) := by
  by_cases hopt : processOptions o.set = .ok
  · unfold necessist at hr
    rw [hopt] at hr
    dsimp only at hr
    have hsk : ∀ r : Skill.Ran Skill.Status, (skillResult m r).1 = .ok n → n = 0 ∨ n = 1 := by
      intro r hr
      unfold skillResult at hr
      dsimp only at hr
      split at hr
      · cases hr
      · cases hr
        rename_i s _
        cases s <;> simp [Skill.Status.exitCode]
    cases hc : o.checkSkill with
    | some p =>
      rw [hc] at hr
      rcases hsk _ hr with h | h
      · exact Or.inl h
      · exact Or.inr ⟨h, Or.inl rfl⟩
    | none =>
      rw [hc] at hr
      dsimp only at hr
      by_cases hf : o.findSkill = true
      · rw [if_pos hf] at hr
        rcases hsk _ hr with h | h
        · exact Or.inl h
        · exact Or.inr ⟨h, Or.inr hf⟩
      · left
        have hf' : o.findSkill = false := by simpa using hf
        rw [if_neg hf] at hr
        rcases necessist_project (h := h) (m := m) hopt hc hf' with ⟨_, e, he⟩ | ⟨root, m1, _, _, _, he⟩
        · have e' : necessist h o m = project h o m := by
            unfold necessist
            rw [hopt]; simp only [hc, hf', Bool.false_eq_true, if_false]
          rw [e', hr] at he; cases he
        · have e' : necessist h o m = project h o m := by
            unfold necessist
            rw [hopt]; simp only [hc, hf', Bool.false_eq_true, if_false]
          rw [e'] at he
          rw [he] at hr
          generalize prepare h o root m1 = x at hr
          obtain ⟨(_ | p) | e | _ | _, m2⟩ := x
          · cases hr; rfl
          · simp only [afterPrepare, runAll] at hr
            revert hr
            generalize (runWhole (dbCall h o) (runCfg h o m2) p.env p.map.toRun m2.db _).1 = r
            intro hr
            rcases r with _ | (e | e) | _ | _ <;> simp at hr
            exact hr.symm
          · cases hr
          · cases hr
          · cases hr
  · obtain ⟨e, he⟩ := necessist_refused (h := h) (m := m) hopt
    rw [he] at hr; cases hr

/-- **C63.** The exit code, if the program ends, is 0, 1, 2, or (after a panic) 101; it is 2 exactly if the program ended with an error
and 101 exactly if it panicked. -/
theorem C63_codes :
    ((main h o m).1 = none ∨ (main h o m).1 = some 0 ∨ (main h o m).1 = some 1 ∨ (main h o m).1 = some 2 ∨ (main h o m).1 = some 101) ∧
    ((main h o m).1 = some 2 ↔ ∃ e, (necessist h o m).1 = .err e) ∧ ((main h o m).1 = some 101 ↔ (necessist h o m).1 = .panic) := by
  rw [main_fst]
  cases hr : (necessist h o m).1 with
  | ok n => rcases necessist_ok_code hr with rfl | ⟨rfl, _⟩ <;> simp [exitCode]
  | err e => simp [exitCode]
  | panic => simp [exitCode]
  | hang => simp [exitCode]

/-- **C63.** The exit code is 1 exactly if skills were checked, without an error, and one of them now does not exist or is old. -/
theorem C63_one_iff [OrientedCmp h.skill.cmp] (he : Skill.Embedded h.skill) :
    (main h o m).1 = some 1 ↔ (main h o m).1 ≠ some 2 ∧ ∃ p ∈ checkedSkills h o, NeedsUpdate h (main h o m).2.skills p := by
  rw [main_fst, main_snd]
  by_cases hopt : processOptions o.set = .ok
  · have hnone : o.checkSkill = none → o.findSkill = false → (exitCode (necessist h o m).1 = some 1 ↔ exitCode (necessist h o m).1 ≠ some 2 ∧
        ∃ p ∈ checkedSkills h o, NeedsUpdate h (necessist h o m).2.skills p) := by
      intro hc hf
      constructor
      · intro hx
        cases hr : (necessist h o m).1 with
        | ok n =>
          rw [hr] at hx
          rcases necessist_ok_code hr with rfl | ⟨rfl, h | h⟩
          · simp [exitCode] at hx
          · rw [hc] at h; cases h
          · rw [hf] at h; cases h
        | err e => rw [hr] at hx; simp [exitCode] at hx
        | panic => rw [hr] at hx; simp [exitCode] at hx
        | hang => rw [hr] at hx; simp [exitCode] at hx
      · rintro ⟨_, p, hp, _⟩
        simp [checkedSkills, hc, hf] at hp
    cases hc : o.checkSkill with
    | some p =>
      unfold necessist
      rw [hopt, hc]
      have hcs : checkedSkills h o = [p] := by simp [checkedSkills, hc]
      rw [hcs]
      dsimp only
      unfold skillResult Skill.check
      rcases hx : Skill.checkImpl h.skill .check p o.write m.skills with ⟨_ | s, fs, out⟩
      · simp [exitCode]
      · obtain ⟨_, h2⟩ := Skill.C49_check he hx
        simp only [List.mem_singleton, exists_eq_left]
        unfold NeedsUpdate
        rw [← h2]
        cases s <;> simp [exitCode, Skill.Status.exitCode]
    | none =>
      by_cases hf : o.findSkill = true
      · unfold necessist
        rw [hopt, hc]
        dsimp only
        rw [if_pos hf]
        unfold skillResult
        cases hh : h.home with
        | none => simp [Skill.find, exitCode]
        | some home =>
          have hcs : checkedSkills h o = Skill.wellKnownPaths home := by simp only [checkedSkills, hc, hf, hh, if_true]; rfl
          rw [hcs]
          rcases hx : Skill.find h.skill (some home) o.write m.skills with ⟨_ | s, fs, out⟩
          · simp [exitCode]
          · obtain ⟨h2, _⟩ := Skill.C49_find he hx
            simp only [← Skill.mem_wellKnownPaths] at h2
            unfold NeedsUpdate
            dsimp only
            rw [← h2]
            cases s <;> simp [exitCode, Skill.Status.exitCode]
      · exact hnone hc (by simpa using hf)
  · obtain ⟨e, he'⟩ := necessist_refused (h := h) (m := m) hopt
    rw [he']
    simp [exitCode]

end Necessist.Main
