import Verif.Lemmas.Results
import Verif.Props.MainMore
/-!
# What a result means (C80)
-/
namespace Necessist.Results
open Framework (Identifier)
open Run Main Cmd Sources Parse
open Walk (Chosen chosen_impl)

variable {V σ : Type} {h : Host V (St σ)} {o : Opts} {m : Machine (St σ)}
  {P : Parsers} {disk : Walk.Entry} {v : Bool} {rule : Cache.Path → Bool → Walk.Verdict} {alnum : Char → Bool}
  {x : Around σ} {caches : Rust.Caches} {parse : Text → Option Json}

theorem found_prefix {v fw rule start p e q y} (hf : Walk.Found v fw rule start p e q y) : p <+: q ∧ (q = p → y = e) := by
  induction hf with
  | here => exact ⟨List.prefix_rfl, fun _ => rfl⟩
  | @inside start p e name c q y _ _ _ ih =>
    have h1 : p <+: q := (List.prefix_append p [name]).trans ih.1
    refine ⟨h1, fun he => ?_⟩
    have := ih.1.length_le
    rw [he] at this
    simp at this
    omega

/-- What is found in a map of candidates: the file was searched and parsed without errors. -/
theorem map_files (hi : Sources.Implements P h o m disk v rule alnum) {root fw nTests map ws st}
    (hc : FindsCandidates h o m root fw nTests map ws st) {i} (hch : Chosen h o i) {f ms} (hm : (f, ms) ∈ map) :
    ∃ d ast, Searched h o m P disk v rule alnum i f d ∧ fileAst P i f = .ok ast ∧ ast.error = none ∧
      ∃ p, P.root <+: p ∧ Walk.LooksAt disk v i rule p (P.root ++ f.path) := by
  obtain ⟨h0, _, user, paths, m1, pst, ws0, _, _, k0, k1, k2, k3, _, rfl, rfl, _⟩ := hc
  rw [hi.root] at h0; cases h0
  obtain ⟨j, hch', hfw⟩ := chosen_impl k1
  cases chosen_unique k1 hch hch'
  obtain ⟨e1, e2, e3, e4, e5, e6⟩ := hi.impl i fw hfw
  have hk : (projectBackend h o P.root m fw).kind = Walk.kindOf disk (Walk.walkerOf v i) rule := e1
  have hal : (projectBackend h o P.root m fw).alnum = alnum := e6
  obtain ⟨config, hco, hfiles⟩ := C41_files k3
  obtain ⟨hg, vs, contents, d, ast, fns, walked, r1, r2, r3, r4, r5, r6⟩ := (hfiles f).1 ⟨ms, hm⟩
  have hread : h.unreadable f = none ∧ contents = m.fs f := by
    have r1 : readFile h m f = .ok contents := r1
    unfold readFile at r1
    split at r1
    · cases r1
    · rename_i hn; cases r1; exact ⟨hn, rfl⟩
  obtain ⟨hn, rfl⟩ := hread
  obtain ⟨p, hp1, hp2⟩ := (Walk.C77_files hk _).1 hg
  have hp3 : P.root <+: p := by
    unfold startingPaths at hp1
    split at hp1
    · rw [List.mem_singleton.1 hp1]; exact List.prefix_rfl
    · obtain ⟨hl, hx⟩ := (C44_accepted _ _).1 k2
      obtain ⟨j, hj⟩ := List.mem_iff_getElem?.1 hp1
      have hlt : j < paths.length := by
        refine Classical.byContradiction fun hn => ?_
        rw [List.getElem?_eq_none (by omega)] at hj; cases hj
      have ha : o.sourceFiles[j]? = some (o.sourceFiles[j]'(by omega)) := List.getElem?_eq_getElem _
      exact (hx j _ p ha hj).2
  have hs : Searched h o m P disk v rule alnum i f d := by
    refine ⟨⟨p, (starting_iff k2 p).1 hp1, hp2⟩, hn, ?_, r3⟩
    obtain ⟨st, st', ms, hd⟩ := r2
    rw [hal] at hd
    exact ⟨st, st', ms, hd⟩
  have r4' : fw.backend.parseFile f = .ok ast := r4
  rw [e2] at r4'
  refine ⟨d, ast, hs, r4', ?_, p, hp3, hp2⟩
  obtain ⟨config', hco', _, hfine⟩ := C64_ok_iff.1 (show (Parse.parse (projectBackend h o P.root m fw) user paths m1.warns).1 = .ok () by rw [k3])
  cases hco.unique hco'
  obtain ⟨f', hf', contents, d', s1, s2, s3⟩ := hfine _ hg
  obtain rfl : f' = f := by
    have := List.append_cancel_left hf'
    obtain ⟨x⟩ := f'; obtain ⟨y⟩ := f; simp at this; simp [this]
  have hcontents : contents = m.fs f' := by
    have s1 : readFile h m f' = .ok contents := s1
    unfold readFile at s1
    rw [hn] at s1
    cases s1; rfl
  subst hcontents
  obtain rfl : d' = d := by
    rcases collect_spec (projectBackend h o P.root m fw) f' (m.fs f') m1.warns with ⟨_, _, _, _, _, hun⟩ | ⟨_, _, hno⟩
    · rw [hun _ s2, hun _ r2]
    · exact absurd s2 (hno _)
  rcases s3 with s3 | ⟨e, s3, _⟩ | ⟨ast', fns', vs', walked', s4, s5, s6, _⟩
  · rw [r3] at s3; cases s3
  · rw [r4] at s3; cases s3
  · rw [r4] at s4; cases s4; exact s6

/-- What Go's and Rust's commands need to know about a file. -/
def Ready (P : Parsers) (caches : Rust.Caches) : Identifier → SourceFile → Prop
  | .go, f => f.path ≠ []
  | .rust, f => caches.flags.lookup (P.path f) = some (flagsOf P f)
  | _, _ => True

theorem map_ready (hi : Sources.Implements P h o m disk v rule alnum) (hx : Executes P h o m disk v rule alnum x caches parse)
    {root fw nTests map ws st} (hc : FindsCandidates h o m root fw nTests map ws st) {i} (hch : Chosen h o i) {f ms} (hm : (f, ms) ∈ map) :
    Ready P caches i f := by
  obtain ⟨d, ast, hs, ha, he, p, hp, hl⟩ := map_files hi hc hch hm
  cases i with
  | go =>
    intro hn
    rw [hn, List.append_nil] at hl
    obtain ⟨e, hd1, hd2⟩ := hx.dir
    have hno : ∀ e : Walk.Entry, e.IsDir → e.IsFile → False := fun e h1 h2 => by
      have := Walk.not_file_of_dir ((Walk.isDir_iff e).2 h1)
      rw [(Walk.isFile_iff e).2 h2] at this; cases this
    rcases hl with ⟨rfl, e', h1, h2⟩ | ⟨d', e', y, h1, h2, h3, h4, h5⟩
    · rw [hd1] at h1; cases h1; exact hno _ hd2 h2
    · simp only [Walk.subdirectory, List.append_nil] at h3 h4
      obtain ⟨hpre, heq⟩ := found_prefix h4
      have : p = P.root := hpre.eq_of_length (Nat.le_antisymm hpre.length_le hp.length_le)
      subst this
      rw [heq rfl] at h5
      rw [h3] at h1; cases h1
      exact hno _ h2 h5
  | rust =>
    show caches.flags.lookup (P.path f) = some (flagsOf P f)
    unfold flagsOf
    have : ∃ fl file, P.cargo.flags (P.path f) = .ok fl ∧ P.rs f = .ok file := by
      cases hr : P.rs f with
      | error e => simp [fileAst, hr, Except.map] at ha
      | ok file =>
        simp only [fileAst, hr, Except.map, Except.ok.injEq] at ha
        subst ha
        simp only [rsAst] at he
        cases hfl : P.cargo.flags (P.path f) with
        | ok fl => exact ⟨fl, file, rfl, rfl⟩
        | error e => rw [hfl] at he; cases he
    obtain ⟨fl, file, hfl, hfile⟩ := this
    rw [hfl]
    exact hx.flags hch ⟨_, _, _, _, _, _, hc⟩ f d file fl hs hfile hfl
  | _ => trivial

/-- All that the chosen framework executes is explained by its plan. -/
theorem planned {i : Identifier} {high plan} (hh : highOf x caches parse i = high) (hp : planOf (projectOf x) (flagsOf P) parse i = plan)
    (hroot : x.root = P.root) (cfg : Cfg) (fcs : List (SourceFile × List Candidate))
    (hf : ∀ p ∈ fcs, Ready P caches i p.1 ∧ ∀ c ∈ p.2, Ready P caches i c.span.file) (w : World (St σ)) (hw : Cmd.Fresh w) :
    Planned cfg plan (runFiles cfg (inRun x high) fcs w).1 ((runFiles cfg (inRun x high) fcs w).2.trace.map (·.event))
      (runFiles cfg (inRun x high) fcs w).2.ext.ran := by
  cases i with
  | anchor => cases hh; cases hp; exact C75_anchor x cfg fcs w parse hw
  | foundry => cases hh; cases hp; exact C75_foundry x cfg fcs w hw
  | go => cases hh; cases hp; exact C75_go x cfg fcs w hf hw
  | hardhat => cases hh; cases hp; exact C75_hardhat x cfg fcs w hw
  | php => cases hh; cases hp; exact C75_php x cfg fcs w hw
  | rust =>
    cases hh; cases hp
    refine C75_rust x cfg fcs w caches (flagsOf P) ?_ hw
    have : ∀ f, absolute x f = P.path f := fun f => by unfold absolute Parsers.path; rw [hroot]
    simp only [this]
    exact hf
  | vitest => cases hh; cases hp; exact C75_vitest x cfg fcs w parse hw

/-- What the program does with its framework is a run of it, or nothing at all; everything that is executed is explained by the plan. -/
theorem program_planned (hl : Locates h) (hi : Sources.Implements P h o m disk v rule alnum) (hx : Executes P h o m disk v rule alnum x caches parse)
    (hrun : RunsTests o) (hopt : processOptions o.set = .ok) {root fw nTests map ws st}
    (hc : FindsCandidates h o m root fw nTests map ws st) {i plan} (hch : Chosen h o i)
    (hp : planOf (projectOf x) (flagsOf P) parse i = plan) :
    ∃ events result, (main h o m).2.trace = m.trace ++ events ∧ ((main h o m).1 = some 0 → result = .ok ()) ∧
      Planned (runCfg h o m) plan result (events.map (·.event)) (main h o m).2.ext.ran ∧ Seen fw.env m.fs events := by
  rw [main_snd]
  rcases necessist_whole (h := h) (o := o) (m := m) with ⟨_, _, _, _, _, h6⟩ | ⟨root', fw', nT', map', ws', st', hc', _, _, warns, ext, h1, h2, h3, h4, h5⟩
  · exact absurd hc (h6 hrun hopt _ _ _ _ _ _)
  · obtain ⟨rfl, rfl, rfl, rfl, rfl, rfl⟩ := hc.unique hc'
    obtain ⟨-, -, rfl, hext⟩ := h4
    refine ⟨(runWhole (dbCall h o) (runCfg h o m) fw.env map.toRun m.db
          (startWorld m warns (fw.parsed (h.chosen m.ext)))).2.2.trace, ?_⟩
    have hzero : (main h o m).1 = some 0 → (runWhole (dbCall h o) (runCfg h o m) fw.env map.toRun m.db
          (startWorld m warns (fw.parsed (h.chosen m.ext)))).1 = .ok () := fun hz => by
      obtain ⟨n, hn⟩ := ok_of_zero hz
      rw [hn] at h5
      split at h5 <;> first | assumption | cases h5
    simp only [h3, hext]
    obtain ⟨j, user, config, hch', huniq, hfw, _⟩ := C79_candidates hi hc
    cases huniq i hch
    rcases runWhole_runs (runCfg h o m) fw.env (dbCall h o) map.toRun m.db (startWorld m warns (fw.parsed (h.chosen m.ext))) with
      ⟨hbad, ht, _, _, he⟩ | ⟨w0, ht, hfs, ⟨hin, he⟩, hy, hres⟩
    · refine ⟨.panic, trivial, fun hz => ?_, ?_, ?_⟩
      · rw [hzero hz] at hbad
        rcases hbad with ⟨e, hb⟩ | hb <;> cases hb
      · refine ⟨[], .nil, .inl ⟨?_, ?_⟩⟩
        · rw [ht]; rfl
        · rw [he]
          exact (hx.fresh i fw hfw).1.symm
      · rw [ht]
        exact ⟨fun s hs => (nomatch hs), fun s hs => (nomatch hs), fun s hs => (nomatch hs)⟩
    · rw [hy]
      have henv := hx.env i fw hfw
      have hfresh : Run.Fresh w0 := ⟨ht, hin⟩
      have hfresh' : Cmd.Fresh w0 := ⟨ht, by rw [he]; exact hx.fresh i fw hfw⟩
      have hok := hc.filesOk (spansInFile hl)
      have hready : ∀ p ∈ map.toRun, Ready P caches i p.1 ∧ ∀ c ∈ p.2, Ready P caches i c.span.file := by
        intro p hpm
        obtain ⟨⟨f, ms⟩, hm, rfl⟩ := List.mem_map.1 hpm
        have hr := map_ready hi hx hc hch hm
        exact ⟨hr, fun c hcm => by rw [(hok.2 _ hpm).1 c hcm]; exact hr⟩
      have hplan := planned rfl hp hx.root (runCfg h o m) map.toRun hready w0 hfresh'
      rw [← henv] at hplan
      have hfs' : w0.fs = m.fs := hfs
      have hseen : Seen fw.env m.fs (runFiles (runCfg h o m) fw.env map.toRun w0).2.trace := by
        have h1 := C02_one_removal (env := fw.env) (cfg := runCfg h o m) map.toRun hok w0 hfresh hfs'.symm
        rw [hfs'] at h1
        refine ⟨fun s hs c t e => h1 s hs c t (.inl e), fun s hs c t v e => h1 s hs c t (.inr (.inl ⟨v, e⟩)), fun s hs f e => ?_⟩
        rw [← hfs']
        exact C02_dry_run_on_original (env := fw.env) (cfg := runCfg h o m) map.toRun hok w0 hfresh s hs f e
      refine ⟨_, trivial, fun hz => ?_, hplan, hseen⟩
      rw [hzero hz] at hres
      split at hres <;> first | assumption | cases hres

/-- The results of a run, explained by what was executed. -/
theorem program_run (hl : Locates h) (hi : Sources.Implements P h o m disk v rule alnum) (hx : Executes P h o m disk v rule alnum x caches parse)
    (hrun : RunsTests o) (hopt : processOptions o.set = .ok) {root fw nTests map ws st}
    (hc : FindsCandidates h o m root fw nTests map ws st) {i plan} (hch : Chosen h o i)
    (hp : planOf (projectOf x) (flagsOf P) parse i = plan) :
    ∃ events, ∃ run : List Part, (main h o m).2.trace = m.trace ++ events ∧
      run.flatMap Prod.fst <+: events ∧ run.flatMap Prod.snd <+: (main h o m).2.ext.ran ∧
      ((main h o m).1 = some 0 → run.flatMap Prod.fst = events ∧ run.flatMap Prod.snd = (main h o m).2.ext.ran) ∧
      (∀ c t r, (c, t, r) ∈ testedOf events → HadResult fw.env (runCfg h o m) plan m.fs run c t r) ∧
      ∀ f ∈ failedOf events, DryRunFailed plan m.fs run f := by
  obtain ⟨events, result, h1, h2, h3, h4⟩ := program_planned hl hi hx hrun hopt hc hch hp
  obtain ⟨run, r1, r2, _, r4, r5, r6⟩ := Planned_parts h3 h4
  exact ⟨events, run, h1, r1, r2, fun hz => r4 (h2 hz), r5, r6⟩

/-- The found candidates may be removed. -/
theorem found_candidate (hl : Locates h) (hi : Sources.Implements P h o m disk v rule alnum) {root fw nTests map ws st}
    (hc : FindsCandidates h o m root fw nTests map ws st) {i} (hch : Chosen h o i) {c} (hcm : c ∈ candidates map.toRun) :
    IsCandidate P h o m disk v rule alnum i c := by
  obtain ⟨j, user, config, _, huniq, _, huser, hconf, hsound, _⟩ := C79_candidates hi hc
  cases huniq i hch
  have hne := cand_tests hc hcm
  obtain ⟨t, ht⟩ := List.exists_mem_of_ne_nil _ hne
  have hok := hc.filesOk (spansInFile hl)
  obtain ⟨d, hs, _⟩ := hsound _ _ _ _ (cand_recorded hok hcm ht)
  refine ⟨hne, user, config, d, huser, hconf, hs, fun hu t ht => ?_⟩
  obtain ⟨d', hs', hr⟩ := hsound _ _ _ _ (cand_recorded hok hcm ht)
  obtain rfl : d' = d := says_unique hs'.2.2.1 hs.2.2.1
  exact hr hu

section
variable {env : Env (St σ)} {cfg : Cfg} {plan : Plan} {src : SourceFile → Text} {run : List Part}

theorem not_skipped {c t} (hr : HadResult env cfg plan src run c t (some .skipped)) : False := by
  obtain ⟨_, _, _, _, hr⟩ := hr
  cases hr

/-- A verdict means what it says. -/
theorem means_of_verdict {c : Candidate} {results outcome} (hv : Verdict c.tests results (some outcome))
    (hr : ∀ r ∈ results, HadResult env cfg plan src run c r.1 r.2) : Means env cfg plan src run c outcome := by
  generalize hts : c.tests = ts at hv
  generalize ho : some outcome = w at hv
  cases hv with
  | allPassed =>
    cases ho
    intro t ht
    rw [hts] at ht
    exact hr (t, some .passed) (List.mem_map.2 ⟨t, ht, rfl⟩)
  | firstNotPassed before t after _ hne =>
    subst ho
    have hlast := hr (t, some outcome) (by simp)
    have hbefore : ∀ t' ∈ before, HadResult env cfg plan src run c t' (some .passed) := fun t' ht' =>
      hr (t', some .passed) (List.mem_append_left _ (List.mem_map.2 ⟨t', ht', rfl⟩))
    cases outcome with
    | passed => exact absurd rfl hne
    | skipped => exact absurd hlast not_skipped
    | _ => exact ⟨before, t, after, hts, hbefore, hlast⟩

/-- What is recorded about a candidate is true. -/
theorem true_of_log {events : List Snap} {log : List Entry} {rest : List Candidate} {usesDb : Bool} (hj : Justified src usesDb events log rest)
    (h1 : ∀ c t r, (c, t, r) ∈ testedOf events → HadResult env cfg plan src run c t r) (h2 : ∀ f ∈ failedOf events, DryRunFailed plan src run f)
    {e : Entry} (he : e ∈ log) {r : Removal} (hr : e.removal = some r) :
    e.cand.span = r.span ∧ (usesDb = true ∨ r.outcome ≠ .skipped → HasText src e.cand r.text) ∧ Means env cfg plan src run e.cand r.outcome := by
  cases e with
  | past c => cases hr
  | skipped c text =>
    cases hr
    obtain ⟨k1, k2⟩ := hj.skipped c text he
    exact ⟨rfl, fun hor => hor.elim k2 fun hn => absurd rfl hn, h2 _ k1⟩
  | tested c text results verdict =>
    cases verdict with
    | none => cases hr
    | some outcome =>
      cases hr
      obtain ⟨k1, k2⟩ := hj.tested c text results _ he
      refine ⟨rfl, fun _ => k1, means_of_verdict k2 fun r hrm => h1 _ _ _ ?_⟩
      obtain ⟨un, hun, _⟩ := hj.results
      rw [hun]
      exact List.mem_append_left _ (List.mem_flatMap.2 ⟨_, he, List.mem_map.2 ⟨r, hrm, rfl⟩⟩)

end

/-- **C80.** What is recorded is true. However the program ends, the database has, after what it had (or nothing, with `--reset`), rows that are each true of what the program
executed: a candidate's outcome is what its tests had while it was removed. -/
theorem C80_recorded (hl : Locates h) (hi : Sources.Implements P h o m disk v rule alnum) (hx : Executes P h o m disk v rule alnum x caches parse)
    (hn : o.noSqlite = false) {i plan} (hch : Chosen h o i) (hp : planOf (projectOf x) (flagsOf P) parse i = plan) {rows}
    (hdb : (main h o m).2.db = .table rows) :
    m.db = .table rows ∨ ∃ run old urls removals, IsRun h o m run ∧
      (m.db = .table old ∧ o.reset = false ∨ (o.reset = true ∨ m.db = .absent) ∧ old = []) ∧
      urls.length = removals.length ∧ rows = old ++ List.zipWith Row.ofRemoval urls removals ∧
      ∀ r ∈ removals, TrueOf P h o m disk v rule alnum i plan run r := by
  rcases necessist_whole (h := h) (o := o) (m := m) with ⟨h1, _⟩ | ⟨root, fw, nT, map, ws, st, hc, hrun, hopt, _⟩
  · left; rw [← h1, ← main_snd]; exact hdb
  · obtain ⟨events, run, r1, r2, r3, r4, r5, r6⟩ := program_run hl hi hx hrun hopt hc hch hp
    obtain ⟨out, events', e1, _, log, rest, g1, _, _, g4, hj⟩ := C17_program (spansInFile hl) hrun hopt hc
    rw [r1] at e1
    cases List.append_cancel_left e1
    rcases g4 hn with ⟨g4 | g4, _⟩ | ⟨old, rows', k1, k2, ⟨urls, k3, k4⟩, _⟩
    · left; rw [← g4]; exact hdb
    · rw [hdb] at g4; cases g4
    · rw [hdb] at k2; cases k2
      refine Or.inr ⟨run, old, urls, _, ⟨events, r1, r2, r3, r4⟩, k1, k3, k4, fun r hr => ?_⟩
      obtain ⟨e, he, her⟩ := List.mem_filterMap.1 hr
      obtain ⟨j1, j2, j3⟩ := true_of_log hj r5 r6 he her
      obtain ⟨j, _, _, _, huniq, hfw, _⟩ := C79_candidates hi hc
      cases huniq i hch
      have hcm : e.cand ∈ candidates map.toRun := by rw [g1]; exact List.mem_append_left _ (List.mem_map.2 ⟨e, he, rfl⟩)
      exact ⟨e.cand, fw, found_candidate hl hi hc hch hcm, j1, j2 (.inl (by simp [hn])), hfw, j3⟩

/-- **C80.** What is printed is true. However the program ends, if it looked for candidates and found some, the lines printed, other than warnings and notices, are the summary and
removals, each of which is true of what the program executed. -/
theorem C80_printed (hl : Locates h) (hi : Sources.Implements P h o m disk v rule alnum) (hx : Executes P h o m disk v rule alnum x caches parse)
    (hrun : RunsTests o) (hopt : processOptions o.set = .ok) {root fw nTests map ws st}
    (hc : FindsCandidates h o m root fw nTests map ws st) {i plan} (hch : Chosen h o i)
    (hp : planOf (projectOf x) (flagsOf P) parse i = plan) :
    ∃ run msgs, IsRun h o m run ∧ (main h o m).2.console = m.console ++ ws.map .warning ++
        (if o.quiet then [] else [.text (summary map.nSpans nTests map.length)]) ++ msgs ∧
      ∀ line, .text line ∈ msgs → o.quiet = false ∧ ∃ r, ShownRemoval h o root r line ∧ (o.verbose = true ∨ r.outcome = .passed) ∧
        TrueOf P h o m disk v rule alnum i plan run r := by
  obtain ⟨events, run, r1, r2, r3, r4, r5, r6⟩ := program_run hl hi hx hrun hopt hc hch hp
  obtain ⟨out, events', e1, hcon, log, rest, g1, g2, g3, _, hj⟩ := C17_program (spansInFile hl) hrun hopt hc
  rw [r1] at e1
  cases List.append_cancel_left e1
  refine ⟨run, _, ⟨events, r1, r2, r3, r4⟩, hcon, fun line hline => ?_⟩
  obtain ⟨ln, hln, hshow⟩ := List.mem_map.1 hline
  cases ln with
  | removal r =>
    obtain ⟨line', hs1, hs2⟩ := g3 r
    rw [hs1] at hshow
    cases hshow
    have hpr : r ∈ printedOf out := List.mem_filterMap.2 ⟨_, hln, rfl⟩
    rw [g2] at hpr
    obtain ⟨e, he, her⟩ := List.mem_filterMap.1 hpr
    cases e with
    | past c => cases her
    | skipped c text => cases her
    | tested c text results verdict =>
      cases verdict with
      | none => cases her
      | some outcome =>
        simp only at her
        split at her
        · rename_i hq
          cases her
          obtain ⟨j1, j2, j3⟩ := true_of_log hj r5 r6 he (r := ⟨c.span, text, outcome⟩) rfl
          obtain ⟨j, _, _, _, huniq, hfw, _⟩ := C79_candidates hi hc
          cases huniq i hch
          have hcm : c ∈ candidates map.toRun := by rw [g1]; exact List.mem_append_left _ (List.mem_map.2 ⟨_, he, rfl⟩)
          exact ⟨hq.1, _, hs2, hq.2, c, fw, found_candidate hl hi hc hch hcm, j1, (hj.tested c text results _ he).1, hfw, j3⟩
        · cases her
  | _ => cases hshow

/-- **C80.** Nothing is left unsaid. If the program succeeds and started with no results, then whatever has to be tried for a test, in a file at which the chosen
framework looks, is a candidate about which the database has a row, which is true; or there is no row, because after some of its tests passed, one ran of which the output did not
show that it ran. -/
theorem C80_complete (hl : Locates h) (hi : Sources.Implements P h o m disk v rule alnum) (hx : Executes P h o m disk v rule alnum x caches parse)
    (hrun : RunsTests o) (hn : o.noSqlite = false) (hdb : m.db = .absent ∨ o.reset = true) (hz : (main h o m).1 = some 0)
    {i plan} (hch : Chosen h o i) (hp : planOf (projectOf x) (flagsOf P) parse i = plan) :
    ∃ run rows, IsRun h o m run ∧ (main h o m).2.db = .table rows ∧
      ∀ user config f d kind span t, Toml.read h.configStatFails m.config = .ok user → Configures alnum i user config →
        Searched h o m P disk v rule alnum i f d → Usual P i config f → Sources.Due P i config d f kind span t →
        ∃ c fw, c.span = span ∧ c.kind = kind ∧ t ∈ c.tests ∧ h.impl m.ext i = .ok (some fw) ∧
          ((∃ text outcome url, HasText m.fs c text ∧ Row.mk span.display text outcome.display url ∈ rows ∧
              Means fw.env (runCfg h o m) plan m.fs run c outcome) ∨
            ∃ before t' after, c.tests = before ++ t' :: after ∧
              (∀ t'' ∈ before, HadResult fw.env (runCfg h o m) plan m.fs run c t'' (some .passed)) ∧
              HadResult fw.env (runCfg h o m) plan m.fs run c t' none) := by
  have hr : main h o m = (some 0, (main h o m).2) := by rw [← hz]
  obtain ⟨root, fw, nT, map, ws, st, events', hc, htr, log, rows, hlog, hrows, _, _, htested, hent⟩ := C10_program (spansInFile hl) hrun hn hdb hr
  have hopt : processOptions o.set = .ok := by
    obtain ⟨n, hok⟩ := ok_of_zero hz
    rcases necessist_whole (h := h) (o := o) (m := m) with ⟨_, _, _, _, h5, _⟩ | ⟨_, _, _, _, _, _, _, _, hopt, _⟩
    · exact absurd hok (h5 hrun n)
    · exact hopt
  obtain ⟨events, run, r1, r2, r3, r4, r5, r6⟩ := program_run hl hi hx hrun hopt hc hch hp
  rw [r1] at htr
  cases List.append_cancel_left htr
  refine ⟨run, rows, ⟨_, r1, r2, r3, r4⟩, hrows, fun user config f d kind span t huser hconf hf hu hd => ?_⟩
  obtain ⟨j, user', config', hch', huniq, hfw, huser', hconf', _, hcomp⟩ := C79_candidates hi hc
  cases huniq i hch
  rw [huser] at huser'; cases huser'
  have hce : config = config' := by
    unfold Configures at hconf hconf'
    rw [hconf] at hconf'
    simpa using hconf'
  subst hce
  obtain ⟨c, hcm, rfl, rfl, htc⟩ := recorded_cand (hcomp f kind span t d hf hu hd)
  refine ⟨c, fw, rfl, rfl, htc, hfw, ?_⟩
  rw [← hlog] at hcm
  obtain ⟨e, he, rfl⟩ := List.mem_map.1 hcm
  rcases hent e he with ⟨c, text, rfl, h1, h2, url, h3⟩ | ⟨c, text, results, verdict, rfl, h1, h2, h3, h4⟩
  · exact Or.inl ⟨text, .skipped, url, h2, h3, r6 _ h1⟩
  · have hres : ∀ r ∈ results, HadResult fw.env (runCfg h o m) plan m.fs run c r.1 r.2 := fun r hrm => by
      refine r5 _ _ _ ?_
      rw [htested]
      exact List.mem_flatMap.mpr ⟨_, he, List.mem_map.mpr ⟨r, hrm, rfl⟩⟩
    cases verdict with
    | some outcome =>
      obtain ⟨url, hurl⟩ := h4 outcome rfl
      exact Or.inl ⟨text, outcome, url, h2, hurl, means_of_verdict h3 hres⟩
    | none =>
      right
      show ∃ before t' after, c.tests = before ++ t' :: after ∧ _
      generalize hts : c.tests = ts at h3
      generalize hov : (none : Option Outcome) = w at h3
      cases h3 with
      | allPassed => cases hov
      | firstNotPassed before t' after _ hne =>
        subst hov
        exact ⟨before, t', after, rfl, fun t'' ht => hres (t'', some .passed) (List.mem_append_left _ (List.mem_map.2 ⟨t'', ht, rfl⟩)),
          hres (t', none) (by simp)⟩

end Necessist.Results
