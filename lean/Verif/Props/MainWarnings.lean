import Verif.Lemmas.MainWarnings
/-!
# C81: the warnings of one execution of the program
-/
namespace Necessist.Main
open Run Parse
variable {V σ : Type} {h : Host V σ} {o : Opts} {m : Machine σ}

theorem impl_of (hfw : Framework.backendFor Framework.Identifier.all Framework.Identifier.name (Framework.Identifier.applicable h.exists_)
    (h.impl m.ext) o.framework = .ok fw) : ∃ t, h.impl m.ext t = .ok (some fw) := by
  cases hof : o.framework with
  | some t => rw [hof] at hfw; exact ⟨t, (Framework.C42_explicit t fw).1 hfw⟩
  | none =>
    rw [hof] at hfw
    obtain ⟨_, t, _, _, _, ht⟩ := (Framework.C42_auto_iff (by decide) fw).1 hfw
    exact ⟨t, ht⟩

/-- As `Reports`, from any state. -/
structure Reports' (h : Host V σ) (o : Opts) (m : Machine σ) (code : Option Nat) (m' : Machine σ) (events : List Snap) (is : List Issue) : Prop where
  traced : m'.trace = m.trace ++ events
  printed : warningsIn m'.console = warningsIn m.console ++ shownFor o.warn m.warns is
  makes : Makes h o m code events is
  denied : NoneDenied o.warn is ∨ EndsDenied o.warn is ∧ code = some 2

theorem prepareFound_gives (root : Path) (fw : Fw σ) (n : Nat) (map : FileMap) :
    warningsIn (prepareFound h o root fw n map m).2.console = warningsIn m.console := by
  unfold prepareFound
  split
  · unfold dumpCandidates
    generalize candidateLines m.fs (location h o root) (map.flatMap fun p => p.2.candidates) = x
    obtain ⟨ls, ok⟩ := x
    cases ok <;> exact warningsIn_print ls m
  · split
    · exact warningsIn_print _ m
    · exact warningsIn_print [_] m

theorem main_reports (hs : Sound h o) : ∃ events is, Reports' h o m (main h o m).1 (main h o m).2 events is := by
  rw [main_fst, main_snd]
  by_cases hopt : processOptions o.set = .ok
  rotate_left
  · obtain ⟨e, he⟩ := necessist_refused (h := h) (m := m) hopt
    rw [he]
    exact ⟨[], [], by simp, by simp [shownFor_nil], .none (Or.inl hopt), Or.inl NoneDenied.nil⟩
  by_cases h1 : o.checkSkill.isSome = true
  · unfold necessist
    rw [hopt]
    obtain ⟨p, hp⟩ := Option.isSome_iff_exists.1 h1
    rw [hp]
    refine ⟨[], [], by simp [skillResult], ?_, .none (Or.inr (Or.inl h1)), Or.inl NoneDenied.nil⟩
    simp only [skillResult, warningsIn_append, warningsIn_texts (fun t => t), shownFor_nil]
  have hck : o.checkSkill = none := by simpa using h1
  by_cases h2 : o.findSkill = true
  · unfold necessist
    rw [hopt, hck]
    simp only [h2, if_true]
    refine ⟨[], [], by simp [skillResult], ?_, .none (Or.inr (Or.inr (Or.inl h2))), Or.inl NoneDenied.nil⟩
    simp only [skillResult, warningsIn_append, warningsIn_texts (fun t => t), shownFor_nil]
  have hfs : o.findSkill = false := by simpa using h2
  have e : necessist h o m = project h o m := by
    unfold necessist
    rw [hopt]; simp only [hck, hfs, Bool.false_eq_true, if_false]
  have hroot : projectRoot h o = rootOf h o := rfl
  rw [e]
  unfold project
  rw [hroot]
  cases hr : rootOf h o with
  | none => exact ⟨[], [], by simp, by simp [shownFor_nil], .none (Or.inr (Or.inr (Or.inr (Or.inl hr)))), Or.inl NoneDenied.nil⟩
  | some root =>
    dsimp only
    by_cases hlock : h.lockFails root = true
    · rw [if_pos hlock]
      exact ⟨[], [], by simp, by simp [shownFor_nil], .none (Or.inr (Or.inr (Or.inr (Or.inr ⟨root, hr, hlock⟩)))), Or.inl NoneDenied.nil⟩
    rw [if_neg hlock]
    obtain ⟨u1, x1, -, -, hcons⟩ := warnDeprecated_spec o m
    rcases warnDeprecated_gives (o := o) (m := m) with ⟨d1, m1, d2, d3, d4⟩ | ⟨d1, d2, m1, d3, d4, d5⟩
    rotate_left
    · rw [d3]
      exact ⟨[], own (deprecatedCalls o), by simp [d5], by simp [d4, d2], .deprecated (Or.inr (Or.inr (Or.inl d1))), Or.inr ⟨d1, rfl⟩⟩
    rw [d2] at u1 x1 hcons ⊢
    dsimp only at u1 x1 hcons ⊢
    unfold prepare
    by_cases h3 : o.defaultConfig = true
    · rw [if_pos h3]
      rcases defaultConfig h.configStatFails h.configWriteFails m1.config with ⟨_ | _, _⟩ <;>
        exact ⟨[], own (deprecatedCalls o), by simp [u1.trace, afterPrepare], by simpa [afterPrepare] using d4, .deprecated (Or.inl h3), Or.inl d1⟩
    rw [if_neg h3, u1.config]
    have hno : (∀ config fw paths, ¬ Begins h o m root config fw paths) → ∀ root config fw paths, ¬ Begins h o m root config fw paths := by
      intro hn root' config fw paths hb
      have := hb.rootIs
      rw [hr] at this; cases this
      exact hn _ _ _ hb
    cases hconf : Toml.read h.configStatFails m.config with
    | error e =>
      refine ⟨[], own (deprecatedCalls o), by simp [u1.trace, afterPrepare], by simpa [afterPrepare] using d4, .deprecated (Or.inr (Or.inr (Or.inr (hno ?_)))), Or.inl d1⟩
      intro config fw paths hb
      have := hb.configIs
      rw [hconf] at this; cases this
    | ok config =>
      dsimp only
      by_cases h4 : o.dump = true
      · rw [if_pos h4]
        unfold prepareDump
        rcases dumpWhole (dbCall h o) o.warn o.verbose m1.warns m1.db with ⟨⟨rs, note⟩ | e | _ | _, db⟩
        · refine ⟨[], own (deprecatedCalls o), by simp [u1.trace, afterPrepare], ?_, .deprecated (Or.inr (Or.inl h4)), Or.inl d1⟩
          cases note <;> simp only [afterPrepare, warningsIn_append, warningsIn_texts, Bool.false_eq_true, if_false, if_true, List.append_nil, d4] <;>
            simp [warningsIn]
        all_goals
          exact ⟨[], own (deprecatedCalls o), by simp [u1.trace, afterPrepare], by simpa [afterPrepare] using d4, .deprecated (Or.inr (Or.inl h4)), Or.inl d1⟩
      rw [if_neg h4]
      have hl : LooksForCandidates o := ⟨hck, hfs, by simpa using h3, by simpa using h4⟩
      unfold prepareCandidates
      rw [x1]
      have hb : ∀ fw, projectBackend h o root { m1 with ext := h.chosen m.ext } fw = projectBackend h o root m fw := by
        intro fw
        unfold projectBackend readFile
        simp only [u1.fs]
      cases hfw : Framework.backendFor Framework.Identifier.all Framework.Identifier.name
          (Framework.Identifier.applicable h.exists_) (h.impl m.ext) o.framework with
      | error e =>
        refine ⟨[], own (deprecatedCalls o), by simp [u1.trace, afterPrepare], by simpa [afterPrepare] using d4, .deprecated (Or.inr (Or.inr (Or.inr (hno ?_)))), Or.inl d1⟩
        intro config fw paths hb
        have := hb.frameworkIs
        rw [hfw] at this; cases this
      | ok fw =>
        dsimp only
        rw [hb fw]
        cases hc : canonicalizeAll (projectBackend h o root m fw) o.sourceFiles with
        | error e =>
          refine ⟨[], own (deprecatedCalls o), by simp [u1.trace, afterPrepare], by simpa [afterPrepare] using d4, .deprecated (Or.inr (Or.inr (Or.inr (hno ?_)))), Or.inl d1⟩
          intro config' fw' paths hb
          have := hb.frameworkIs
          rw [hfw] at this; cases this
          have := hb.pathsAre
          rw [hc] at this; cases this
        | ok paths =>
          dsimp only
          have hbeg : Begins h o m root config fw paths := ⟨hl, hr, hconf, hfw, hc⟩
          obtain ⟨t, ht⟩ := impl_of hfw
          obtain ⟨henv, hall⟩ := hs _ _ _ ht
          obtain ⟨r, st, cs, hp, hg, hpr, hws⟩ := parse_gives (projectBackend h o root m fw) (fun f ast hp c hc => by rw [(hall f ast hp c hc).1]; simp) config paths m1.warns
          have hwarn : (projectBackend h o root m fw).warn = o.warn := rfl
          rw [hwarn, d3] at hpr
          rw [hwarn, d3] at hws
          rw [hp]
          rw [d3] at hg
          dsimp only
          have hcon : warningsIn (m1.console ++ st.printed.map .warning) = warningsIn m.console ++ shownFor o.warn m.warns (own (deprecatedCalls o ++ cs)) := by
            rw [warningsIn_append, warningsIn_warnings, d4, hpr, own_append, shownFor_append, List.append_assoc]
          have hden : NoneDenied o.warn (own cs) ∨ EndsDenied o.warn (own cs) ∧ r = .err .denied := by
            cases hg with
            | config calls cut => exact Or.inr ⟨cut, rfl⟩
            | refused _ _ clean => exact Or.inl clean
            | ok _ _ _ clean => exact Or.inl clean
            | between _ _ _ _ clean => exact Or.inl clean
            | within _ _ _ _ _ clean => exact Or.inl clean
            | denied _ _ _ _ cut => exact Or.inr ⟨cut, rfl⟩
          cases hres : r with
          | err e =>
            subst hres
            refine ⟨[], own (deprecatedCalls o ++ cs), by simp [u1.trace, afterPrepare], hcon, .fails hbeg hg nofun (by simp [afterPrepare, exitCode]), ?_⟩
            rw [own_append]
            exact hden.elim (fun h => Or.inl (d1.append h)) (fun h => Or.inr ⟨d1.cut h.1, rfl⟩)
          | panic =>
            subst hres
            refine ⟨[], own (deprecatedCalls o ++ cs), by simp [u1.trace, afterPrepare], hcon, .fails hbeg hg nofun (by simp [afterPrepare, exitCode]), ?_⟩
            rw [own_append]
            exact hden.elim (fun h => Or.inl (d1.append h)) (fun h => nomatch h.2)
          | hang =>
            subst hres
            refine ⟨[], own (deprecatedCalls o ++ cs), by simp [u1.trace, afterPrepare], hcon, .fails hbeg hg nofun (by simp [afterPrepare, exitCode]), ?_⟩
            rw [own_append]
            exact hden.elim (fun h => Or.inl (d1.append h)) (fun h => nomatch h.2)
          | ok u =>
            subst hres
            have hnd : NoneDenied o.warn (own (deprecatedCalls o ++ cs)) := by
              rw [own_append]; exact hden.elim d1.append (fun h => nomatch h.2)
            have hws := hws rfl
            obtain ⟨ws0, hws0⟩ := hcons
            have hfinds : FindsCandidates h o m root fw st.nTests st.map (ws0 ++ st.printed) st.warns :=
              ⟨hr, by simpa using hlock, config, paths, m1, st, ws0, d2, hws0, hconf, hfw, hc, hp, rfl, rfl, rfl, rfl⟩
            rw [← after_append, ← own_append] at hws
            dsimp only
            generalize hm2 : ({ m1 with ext := fw.parsed (h.chosen m.ext), warns := st.warns, console := m1.console ++ st.printed.map .warning } : Machine σ) = m2
            have t2 : m2.trace = m.trace := by rw [← hm2]; exact u1.trace
            have w2 : m2.warns = WStates.after o.warn m.warns (own (deprecatedCalls o ++ cs)) := by rw [← hm2]; exact hws
            have c2 : warningsIn m2.console = warningsIn m.console ++ shownFor o.warn m.warns (own (deprecatedCalls o ++ cs)) := by rw [← hm2]; exact hcon
            have b2 : m2.db = m.db := by rw [← hm2]; exact u1.db
            obtain ⟨u3, x3, w3, hsome, herr⟩ := prepareFound_spec (h := h) (o := o) (m := m2) root fw st.nTests st.map
            have c3 := prepareFound_gives (h := h) (o := o) (m := m2) root fw st.nTests st.map
            rcases hpf : prepareFound h o root fw st.nTests st.map m2 with ⟨r, m3⟩
            rw [hpf] at u3 x3 w3 hsome herr c3
            dsimp only at u3 x3 w3 hsome herr c3
            have hrep : ∀ code, (o.dumpCandidates = true ∨ o.dumpCandidateCounts = true) → ∃ events is, Reports' h o m code m3 events is := by
              intro code hd
              exact ⟨[], own (deprecatedCalls o ++ cs), by simp [u3.trace, t2], by rw [c3, c2], .found hbeg hg hd, Or.inl hnd⟩
            have hdump : (∀ p, r ≠ .ok (some p)) → o.dumpCandidates = true ∨ o.dumpCandidateCounts = true := by
              intro hne
              unfold prepareFound at hpf
              split at hpf
              · exact Or.inl (by assumption)
              · split at hpf
                · exact Or.inr (by assumption)
                · cases hpf; exact absurd rfl (hne _)
            rcases r with (_ | p) | e | _ | _
            · exact hrep _ (hdump (by simp))
            · obtain ⟨rfl, n1, n2⟩ := hsome p rfl
              simp only [afterPrepare, runAll]
              have hx := runWhole_gives (o := o.warn) (dbCall h o) (runCfg h o m3) rfl fw.env henv st.map.toRun m3.db
                { fs := m3.fs, db := none, warns := m3.warns, out := [], progress := 0, trace := [], instr := none, past := [], ext := m3.ext }
                hl.2.2.2 rfl rfl
              dsimp only at hx
              rw [u3.db, b2] at hx ⊢
              rcases hrw : runWhole (dbCall h o) (runCfg h o m3) fw.env st.map.toRun m.db
                { fs := m3.fs, db := none, warns := m3.warns, out := [], progress := 0, trace := [], instr := none, past := [], ext := m3.ext } with ⟨r, db, w⟩
              rw [hrw] at hx
              dsimp only at hx ⊢
              obtain ⟨is, k1, k2, k3⟩ := hx
              have k2 : is = own (databaseCalls h o m) ∧ w.trace = [] ∧ r ≠ .ok () ∨
                  ∃ past is', is = own (databaseCalls h o m) ++ is' ∧ Remembers h o m past ∧ RunCalls st.map.toRun past (r = .ok ()) w.trace is' := by
                refine k2.imp id ?_
                rintro ⟨past, is', j1, j2, j3⟩
                refine ⟨past, is', j1, ?_, j3⟩
                rcases j2 with j2 | ⟨j2, j4, rows, stored, j5, j6, rfl⟩
                · exact Or.inl j2
                · exact Or.inr ⟨j2, j4, rows, stored, j5, j6, sortPast_perm _, sortPast_sorted _⟩
              have hcode : (NoneDenied o.warn (own (deprecatedCalls o ++ cs) ++ is) ∨ EndsDenied o.warn (own (deprecatedCalls o ++ cs) ++ is) ∧
                  ∃ e, r = .err e) := k3.elim (fun h => Or.inl (hnd.append h)) (fun h => Or.inr ⟨hnd.cut h.1, h.2⟩)
              refine ⟨w.trace, own (deprecatedCalls o ++ cs) ++ is, by simp [u3.trace, t2], ?_, ?_, ?_⟩
              · simp only [warningsIn_append, warningsIn_lines, c3, c2, k1, w3, w2, shownFor_append, List.append_assoc]
              · rcases k2 with ⟨rfl, j2, j3⟩ | ⟨past, is', rfl, j2, j3⟩
                · rw [j2, ← own_append]
                  refine .database hbeg hg ⟨n1, n2⟩ ?_
                  rcases r with _ | (e | e) | _ | _
                  · exact absurd rfl j3
                  all_goals simp [exitCode]
                · rw [← List.append_assoc, ← own_append]
                  refine .run hbeg hg ⟨n1, n2⟩ j2 (hfinds) ⟨j3.others, j3.changed, j3.differs, fun hz => j3.noticed ?_, j3.foreign⟩
                  rcases r with _ | (e | e) | _ | _
                  · rfl
                  all_goals simp [exitCode] at hz
              · refine hcode.imp id fun ⟨j1, e, j2⟩ => ⟨j1, ?_⟩
                subst j2
                cases e <;> rfl
            · exact hrep _ (hdump (by simp))
            · exact hrep _ (hdump (by simp))
            · exact hrep _ (hdump (by simp))

/-- **C81.** In every execution, whatever the options and however it ends: the warnings printed are exactly those that are due, in order, up to
the point where the execution ends; and if one of them is denied, it ends there, with exit code 2. -/
theorem C81_warnings (hs : Sound h o) (hw : m.warns = .init) : ∃ events is rs, Reports h o m (main h o m).1 (main h o m).2 events is rs := by
  obtain ⟨events, is, h1, h2, h3, h4⟩ := main_reports (m := m) hs
  obtain ⟨rs, r1, -, r3, -⟩ := results_exist o.warn is
  rw [hw, r3] at h2
  exact ⟨events, is, rs, h1, h3, h4, r1, h2⟩

/-! ### What follows for kinds of warnings -/

theorem _root_.Necessist.Results.length {o : WarnOpts} {is : List Issue} {rs : List (Option WarnMsg)} (hr : Results o is rs) : is.length = rs.length := by
  induction hr with
  | nil => rfl
  | silent _ _ ih => simp [ih]
  | printed _ _ _ _ ih => simp [ih]

theorem messages_snoc (rs : List (Option WarnMsg)) (r : Option WarnMsg) : messages (rs ++ [r]) = messages rs ++ r.toList := by
  rw [messages_append]; simp [messages]

theorem messages_mem {o : WarnOpts} {is : List Issue} {rs : List (Option WarnMsg)} (hr : Results o is rs) {x : WarnMsg} (hx : x ∈ messages rs) :
    some x ∈ rs ∧ ∃ i ∈ is, x.warning = i.call.warning ∧ x.source = i.call.source ∧ x.msg = i.call.msg ∧
      ¬ Denied o x.warning ∧ ¬ Allowed o x.warning ∧ o.quiet = false := by
  induction hr with
  | nil => simp [messages] at hx
  | silent hr _ ih =>
    rw [messages_snoc] at hx
    simp at hx
    obtain ⟨h0, i, h1, h2⟩ := ih hx
    exact ⟨List.mem_append_left _ h0, i, List.mem_append_left _ h1, h2⟩
  | @printed is rs i bug hint hr hl _ _ ih =>
    rw [messages_snoc] at hx
    rcases List.mem_append.1 hx with hx | hx
    · obtain ⟨h0, i, h1, h2⟩ := ih hx
      exact ⟨List.mem_append_left _ h0, i, List.mem_append_left _ h1, h2⟩
    · simp at hx
      subst hx
      refine ⟨by simp, i, by simp, rfl, rfl, rfl, fun h => hl (Or.inr (Or.inl h)), fun h => hl (Or.inr (Or.inr (Or.inl h))), ?_⟩
      exact Bool.eq_false_iff.2 fun h => hl (Or.inr (Or.inr (Or.inr (Or.inl h))))

/-- A message that is not of a framework's kind is the core's. -/
theorem messages_own {o : WarnOpts} {is : List Issue} {rs : List (Option WarnMsg)} (hr : Results o is rs)
    (hf : ∀ i ∈ is, i.own = false → OfFramework i.call) {x : WarnMsg} (hx : x ∈ messages rs) (hw : ¬ FrameworkKind x.warning) :
    ∃ i ∈ is, i.own = true ∧ x.warning = i.call.warning ∧ x.source = i.call.source ∧ x.msg = i.call.msg := by
  obtain ⟨_, i, hi, k1, k2, k3, _⟩ := messages_mem hr hx
  refine ⟨i, hi, ?_, k1, k2, k3⟩
  cases ho : i.own with
  | true => rfl
  | false => rw [k1] at hw; exact absurd (hf i hi ho).1 hw

/-- What a message says. -/
def said (w : Warning) (ms : List WarnMsg) : List (Option Text × Text) := (ms.filter (·.warning = w)).map fun x => (x.source, x.msg)
/-- What calls ask to be said. -/
def asked (w : Warning) (cs : List WarnCall) : List (Option Text × Text) := (cs.filter (·.warning = w)).map fun c => (c.source, c.msg)

theorem ownCalls_snoc (is : List Issue) (i : Issue) : ownCalls (is ++ [i]) = ownCalls is ++ if i.own then [i.call] else [] := by
  rw [ownCalls_append]
  cases ho : i.own <;> simp [ownCalls, ho]

theorem said_every {o : WarnOpts} {w : Warning} (hd : ¬ Denied o w) (ha : ¬ Allowed o w) (hq : o.quiet = false) (hw : w ≠ .all) {is : List Issue}
    {rs : List (Option WarnMsg)} (hr : Results o is rs) (ho : ∀ i ∈ is, i.call.warning = w → i.call.once = false) :
    said w (messages rs) = asked w (is.map (·.call)) := by
  induction hr with
  | nil => rfl
  | @silent is rs i hr hs ih =>
    have ih := ih fun c hc => ho c (List.mem_append_left _ hc)
    rw [messages_snoc, List.map_append] at *
    have : i.call.warning ≠ w := by
      intro e
      have h1 := ho i (by simp) e
      rcases hs with h | h | h | h | ⟨h, _⟩
      · rw [e] at h; exact hw h
      · rw [e] at h; exact hd h
      · rw [e] at h; exact ha h
      · rw [hq] at h; cases h
      · rw [h1] at h; cases h
    simp [said, asked, this] at ih ⊢
    exact ih
  | @printed is rs i bug hint hr _ _ _ ih =>
    have ih := ih fun c hc => ho c (List.mem_append_left _ hc)
    rw [messages_snoc, List.map_append] at *
    simp only [said, asked] at ih
    simp only [Option.toList, said, asked, List.filter_append, List.map_append, ih]
    by_cases e : i.call.warning = w <;> simp [e]

theorem asked_own {w : Warning} {is : List Issue} (hf : ∀ i ∈ is, i.own = false → OfFramework i.call) (hk : ¬ FrameworkKind w) :
    asked w (is.map (·.call)) = asked w (ownCalls is) := by
  induction is with
  | nil => rfl
  | cons i is ih =>
    have ih := ih fun i hi => hf i (List.mem_cons_of_mem _ hi)
    simp only [asked, ownCalls] at ih
    cases ho : i.own with
    | true =>
      by_cases e : i.call.warning = w <;> simp [asked, ownCalls, ho, e] <;> simpa using ih
    | false =>
      have : i.call.warning ≠ w := fun e => hk (e ▸ (hf i (by simp) ho).1)
      simp [asked, ownCalls, ho, this]
      simpa using ih

theorem said_all {o : WarnOpts} {w : Warning} (hd : ¬ Denied o w) (ha : ¬ Allowed o w) (hq : o.quiet = false) (hw : w ≠ .all) {is : List Issue}
    {rs : List (Option WarnMsg)} (hr : Results o is rs) (hf : ∀ i ∈ is, i.own = false → OfFramework i.call) (hk : ¬ FrameworkKind w)
    (ho : ∀ c ∈ ownCalls is, c.warning = w → c.once = false) : said w (messages rs) = asked w (ownCalls is) := by
  rw [said_every hd ha hq hw hr, asked_own hf hk]
  intro i hi e
  cases hown : i.own with
  | true => exact ho i.call (List.mem_map.2 ⟨i, List.mem_filter.2 ⟨hi, hown⟩, rfl⟩) e
  | false => exact (hf i hi hown).2

theorem said_once {o : WarnOpts} {w : Warning} {is : List Issue} {rs : List (Option WarnMsg)} (hr : Results o is rs)
    (hf : ∀ i ∈ is, i.own = false → OfFramework i.call) (hk : ¬ FrameworkKind w)
    (ho' : ∀ c ∈ ownCalls is, c.warning = w → c.once = true) : (said w (messages rs)).length ≤ 1 := by
  have ho : ∀ i ∈ is, i.call.warning = w → i.call.once = true := by
    intro i hi e
    cases hown : i.own with
    | true => exact ho' i.call (List.mem_map.2 ⟨i, List.mem_filter.2 ⟨hi, hown⟩, rfl⟩) e
    | false => exact absurd (e ▸ (hf i hi hown).1) hk
  have key : said w (messages rs) = [] ∨ (said w (messages rs)).length = 1 ∧ ∃ m, some m ∈ rs ∧ m.warning = w := by
    clear hf ho'
    induction hr with
    | nil => exact Or.inl rfl
    | @silent is rs i hr hs ih =>
      have ih := ih fun c hc => ho c (List.mem_append_left _ hc)
      rw [messages_snoc]
      simp only [Option.toList, List.append_nil]
      refine ih.imp id ?_
      rintro ⟨h1, m, h2, h3⟩
      exact ⟨h1, m, List.mem_append_left _ h2, h3⟩
    | @printed is rs i bug hint hr hl _ _ ih =>
      have ih := ih fun c hc => ho c (List.mem_append_left _ hc)
      rw [messages_snoc]
      by_cases e : i.call.warning = w
      · rcases ih with ih | ⟨_, m, h2, h3⟩
        · right
          simp only [said] at ih ⊢
          simp only [Option.toList, List.filter_append, List.map_append, ih]
          exact ⟨by simp [e], _, List.mem_append_right _ (List.mem_singleton.2 rfl), e⟩
        · exact absurd (Or.inr (Or.inr (Or.inr (Or.inr ⟨ho i (by simp) e, m, h2, by rw [h3, e]⟩)))) hl
      · simp only [said] at ih ⊢
        simp only [Option.toList, List.filter_append, List.map_append]
        refine ih.imp (fun ih => by simp [ih, e]) ?_
        rintro ⟨h1, m, h2, h3⟩
        exact ⟨by simpa [e] using h1, m, List.mem_append_left _ h2, h3⟩
  rcases key with h | ⟨h, _⟩
  · rw [h]; simp
  · rw [h]; exact Nat.le_refl _

/-- The kinds of warnings about the configuration and the sources. -/
def SearchKind (c : WarnCall) : Prop :=
  (c.warning = .directiveUnrecognized ∨ c.warning = .skipFileMispositioned ∨ c.warning = .parsingFailed ∨ c.warning = .localFunctionAmbiguous ∨
    c.warning = .modulePathUnknown) ∧ c.once = false ∨
  (c.warning = .ignoredFunctionsUnsupported ∨ c.warning = .ignoredMacrosUnsupported ∨ c.warning = .ignoredMethodsUnsupported) ∧ c.once = true

section
variable {b : Backend} (hb : ∀ f ast, b.parseFile f = .ok ast → ∀ c ∈ ast.warnings, c.warning = .modulePathUnknown ∧ c.once = false)

theorem configCalls_kinds (user : Toml) : ∀ c ∈ configCalls b user, SearchKind c := by
  intro c hc
  rw [configCalls_eq] at hc
  obtain ⟨w, hw, rfl⟩ := List.mem_map.1 hc
  unfold configWarnings at hw
  rcases List.mem_append.1 hw with hw | hw
  · rcases List.mem_append.1 hw with hw | hw <;> split at hw <;> simp at hw <;> subst hw <;> simp [SearchKind, configCall]
  · split at hw <;> simp at hw <;> subst hw; simp [SearchKind, configCall]

theorem directiveCalls_kinds {f : SourceFile} {contents : Text} {cs : List WarnCall} (hd : DirectiveCalls b f contents cs) :
    ∀ c ∈ cs, SearchKind c := by
  obtain ⟨due, _, h1, rfl⟩ := hd
  intro c hc
  obtain ⟨⟨n, c'⟩, hm, rfl⟩ := List.mem_map.1 hc
  obtain ⟨l, _, ⟨_, _, e⟩ | ⟨_, _, d, _, _, e⟩⟩ := (h1 n c').1 hm <;> simp only at e ⊢ <;> rw [e] <;> simp [SearchKind]

include hb

theorem due_kinds {config : Compiled} {f : SourceFile} {x : Bool} {cs : List WarnCall} (hd : Due b config f x cs) : ∀ c ∈ cs, SearchKind c := by
  have happ : ∀ {xs ys : List WarnCall}, (∀ c ∈ xs, SearchKind c) → (∀ c ∈ ys, SearchKind c) → ∀ c ∈ xs ++ ys, SearchKind c := by
    intro xs ys h1 h2 c hc
    exact (List.mem_append.1 hc).elim (h1 c) (h2 c)
  have hmod : ∀ {f ast}, b.parseFile f = .ok ast → ∀ c ∈ ast.warnings, SearchKind c := fun hp c hc => by
    obtain ⟨h1, h2⟩ := hb _ _ hp c hc
    simp [SearchKind, h1, h2]
  cases hd with
  | directives _ dirs => exact directiveCalls_kinds dirs
  | skipped _ dirs => exact directiveCalls_kinds dirs
  | unparsable _ dirs _ _ _ => exact happ (directiveCalls_kinds dirs) (by simp [SearchKind, parsingFailedCall])
  | visited _ dirs _ _ parse _ _ => exact happ (directiveCalls_kinds dirs) (hmod parse)
  | done _ dirs _ _ parse _ _ _ ambiguous =>
    refine happ (happ (directiveCalls_kinds dirs) (hmod parse)) ?_
    rcases ambiguous with ⟨_, rfl⟩ | ⟨_, _, _, _, rfl⟩ <;> simp [SearchKind, ambiguousCall]

theorem dueAll_kinds {config : Compiled} {fs : List SourceFile} {cs : List WarnCall} (hd : DueAll b config fs cs) : ∀ c ∈ cs, SearchKind c := by
  induction hd with
  | nil => simp
  | cons h _ ih => intro c hc; exact (List.mem_append.1 hc).elim (due_kinds hb h c) (ih c)

theorem gives_kinds {user paths ws r cs} (hg : Gives b user paths ws r cs) : ∀ c ∈ cs, SearchKind c := by
  have happ : ∀ {xs ys : List WarnCall}, (∀ c ∈ xs, SearchKind c) → (∀ c ∈ ys, SearchKind c) → ∀ c ∈ xs ++ ys, SearchKind c := by
    intro xs ys h1 h2 c hc
    exact (List.mem_append.1 hc).elim (h1 c) (h2 c)
  cases hg with
  | config calls _ => intro c hc; exact configCalls_kinds user c (by rw [calls]; exact List.mem_append_left _ hc)
  | refused _ _ _ => exact configCalls_kinds user
  | ok _ _ due _ => exact happ (configCalls_kinds user) (dueAll_kinds hb due)
  | between _ _ _ due _ => exact happ (configCalls_kinds user) (dueAll_kinds hb due)
  | within _ _ _ due last _ => exact happ (happ (configCalls_kinds user) (dueAll_kinds hb due)) (due_kinds hb last)
  | denied _ _ due last _ =>
    exact happ (happ (configCalls_kinds user) (dueAll_kinds hb due)) fun c hc => due_kinds hb last c (List.mem_append_left _ hc)
end

theorem ownCalls_own (cs : List WarnCall) : ownCalls (own cs) = cs := by
  induction cs with
  | nil => rfl
  | cons c cs ih => simpa [ownCalls, own] using ih

/-- Before tests are run: warnings about the options, the configuration, the sources, the database; then those of the run. -/
theorem makes_split {code events is} (hs : Sound h o) (hm : Makes h o m code events is) : ∃ cs cs', ownCalls is = cs ++ cs' ∧
    (∀ c ∈ cs, c.warning = .optionDeprecated ∨ SearchKind c ∨ c.warning = .databaseDoesNotExist ∧ c.once = true) ∧
    (cs'.filter (fun c => c.warning ≠ .filesChanged) = eventCalls events ∧ ∀ c ∈ cs', c.warning = .filesChanged → c.once = true) := by
  have hdep : ∀ c ∈ deprecatedCalls o, c.warning = .optionDeprecated := by
    unfold deprecatedCalls; split <;> simp
  have hdb : ∀ c ∈ databaseCalls h o m, c.warning = .databaseDoesNotExist ∧ c.once = true := by
    unfold databaseCalls
    split
    · split
      · simp [missingDatabase]
      · split <;> simp [missingDatabase]
    · simp
  have hgiv : ∀ {root config fw paths ws r cs}, Begins h o m root config fw paths → Gives (projectBackend h o root m fw) config paths ws r cs →
      ∀ c ∈ cs, SearchKind c := by
    intro root config fw paths ws r cs hb hg
    obtain ⟨t, ht⟩ := impl_of hb.frameworkIs
    exact gives_kinds (b := projectBackend h o root m fw) (hs _ _ _ ht).2 hg
  cases hm with
  | none _ => exact ⟨[], [], rfl, by simp, rfl, by simp⟩
  | deprecated _ =>
    exact ⟨deprecatedCalls o, [], by simp [ownCalls_own], fun c hc => Or.inl (hdep c hc), rfl, by simp⟩
  | fails begins gives _ _ =>
    refine ⟨_, [], by rw [ownCalls_own, List.append_nil], fun c hc => ?_, rfl, by simp⟩
    exact (List.mem_append.1 hc).elim (fun h => Or.inl (hdep c h)) (fun h => Or.inr (Or.inl (hgiv begins gives c h)))
  | found begins gives _ =>
    refine ⟨_, [], by rw [ownCalls_own, List.append_nil], fun c hc => ?_, rfl, by simp⟩
    exact (List.mem_append.1 hc).elim (fun h => Or.inl (hdep c h)) (fun h => Or.inr (Or.inl (hgiv begins gives c h)))
  | database begins gives _ _ =>
    refine ⟨_, [], by rw [ownCalls_own, List.append_nil], fun c hc => ?_, rfl, by simp⟩
    rcases List.mem_append.1 hc with hc | hc
    · exact (List.mem_append.1 hc).elim (fun h => Or.inl (hdep c h)) (fun h => Or.inr (Or.inl (hgiv begins gives c h)))
    · exact Or.inr (Or.inr (hdb c hc))
  | @run _ _ _ _ _ _ _ is _ _ _ _ begins gives _ _ _ calls =>
    refine ⟨_, ownCalls is, by rw [ownCalls_append, ownCalls_own], fun c hc => ?_, calls.others, fun c hc hw => ?_⟩
    rotate_left
    · obtain ⟨r, _, ⟨rfl, _⟩ | ⟨rfl, _⟩⟩ := calls.changed c hc hw <;> rfl
    rcases List.mem_append.1 hc with hc | hc
    · exact (List.mem_append.1 hc).elim (fun h => Or.inl (hdep c h)) (fun h => Or.inr (Or.inl (hgiv begins gives c h)))
    · exact Or.inr (Or.inr (hdb c hc))

theorem own_foreign (cs : List WarnCall) : ∀ i ∈ own cs, i.own = false → OfFramework i.call := by
  intro i hi ho
  obtain ⟨c, _, rfl⟩ := List.mem_map.1 hi
  cases ho

/-- The calls that the core does not make are a framework's. -/
theorem makes_foreign {code events is} (hm : Makes h o m code events is) : ∀ i ∈ is, i.own = false → OfFramework i.call := by
  cases hm with
  | none _ => exact nofun
  | deprecated _ => exact own_foreign _
  | fails _ _ _ _ => exact own_foreign _
  | found _ _ _ => exact own_foreign _
  | database _ _ _ _ => exact own_foreign _
  | run _ _ _ _ _ calls =>
    intro i hi ho
    rcases List.mem_append.1 hi with hi | hi
    · exact own_foreign _ i hi ho
    · exact calls.foreign i hi ho

/-- The warnings of the kinds that only a run gives. -/
theorem makes_events {code events is} (hs : Sound h o) (hm : Makes h o m code events is) {w : Warning}
    (hw : w = .dryRunFailed ∨ w = .instrumentationNonbuildable) :
    (ownCalls is).filter (·.warning = w) = (eventCalls events).filter (·.warning = w) := by
  obtain ⟨cs, cs', h1, h2, h3, _⟩ := makes_split hs hm
  have hcs : cs.filter (·.warning = w) = [] := by
    rw [List.filter_eq_nil_iff]
    intro c hc
    have := h2 c hc
    unfold SearchKind at this
    simp only [decide_eq_true_eq]
    intro e
    rcases hw with rfl | rfl <;> rw [e] at this <;> simp at this
  rw [h1, List.filter_append, hcs, List.nil_append, ← h3, List.filter_filter]
  congr 1
  funext c
  rcases hw with rfl | rfl <;> (by_cases e : c.warning = .filesChanged) <;> simp [e]

/-- The new warnings. -/
def newWarnings (m m' : Machine σ) : List WarnMsg := (warningsIn m'.console).drop (warningsIn m.console).length

/-- **C81.** No warning that is printed is denied or allowed, and none is printed with `--quiet`. -/
theorem C81_none (hs : Sound h o) (hw : m.warns = .init) : ∀ x ∈ newWarnings m (main h o m).2,
    ¬ Denied o.warn x.warning ∧ ¬ Allowed o.warn x.warning ∧ o.quiet = false := by
  obtain ⟨events, is, rs, h1, h2, h3, h4, h5⟩ := C81_warnings (m := m) hs hw
  intro x hx
  unfold newWarnings at hx
  rw [h5, List.drop_left] at hx
  obtain ⟨_, i, _, _, _, _, k⟩ := messages_mem h4 hx
  exact k

/-- **C81.** If the warning is neither denied nor allowed: exactly for each dry run that fails, in order, a message is printed that names the
file; likewise for each file that cannot be built when instrumented. -/
theorem C81_events (hs : Sound h o) (hw : m.warns = .init) (hq : o.quiet = false) {w : Warning}
    (hk : w = .dryRunFailed ∨ w = .instrumentationNonbuildable) (hd : ¬ Denied o.warn w) (ha : ¬ Allowed o.warn w) :
    ∃ events, (main h o m).2.trace = m.trace ++ events ∧
      said w (newWarnings m (main h o m).2) = events.filterMap fun s => match w, s.event with
        | .dryRunFailed, .dryRunFailed f => some (some f.display, "dry run failed".toList)
        | .instrumentationNonbuildable, .buildFailed f => some (none, "instrumentation caused `".toList ++ f.display ++ "` to be nonbuildable".toList)
        | _, _ => none := by
  obtain ⟨events, is, rs, h1, h2, h3, h4, h5⟩ := C81_warnings (m := m) hs hw
  refine ⟨events, h1, ?_⟩
  have he := makes_events hs h2 hk
  have ho : ∀ c ∈ ownCalls is, c.warning = w → c.once = false := by
    intro c hc e
    have : c ∈ (eventCalls events).filter (·.warning = w) := by rw [← he]; simp [hc, e]
    obtain ⟨this, _⟩ := List.mem_filter.1 this
    unfold eventCalls at this
    obtain ⟨s, _, hs⟩ := List.mem_filterMap.1 this
    unfold eventCall at hs
    split at hs <;> cases hs <;> rfl
  unfold newWarnings
  rw [h5, List.drop_left, said_all hd ha hq (by rcases hk with rfl | rfl <;> simp) h4 (makes_foreign h2)
    (by rcases hk with rfl | rfl <;> simp [FrameworkKind]) ho]
  unfold asked
  rw [he]
  unfold eventCalls
  clear he h1 h2
  induction events with
  | nil => rfl
  | cons s events ih =>
    simp only [List.filterMap_cons]
    rw [← ih]
    rcases hk with rfl | rfl <;> cases hse : s.event <;> simp [eventCall, dryRunFailedCall, nonbuildableCall]

/-- **C81.** If the warning is denied, then there is no such event, or the exit code is 2. -/
theorem C81_events_denied (hs : Sound h o) (hw : m.warns = .init) :
    ∃ events, (main h o m).2.trace = m.trace ++ events ∧ ∀ s ∈ events,
      (∀ f, s.event = .dryRunFailed f → Denied o.warn .dryRunFailed → (main h o m).1 = some 2) ∧
      (∀ f, s.event = .buildFailed f → Denied o.warn .instrumentationNonbuildable → (main h o m).1 = some 2) := by
  obtain ⟨events, is, rs, h1, h2, h3, h4, h5⟩ := C81_warnings (m := m) hs hw
  refine ⟨events, h1, fun s hs' => ?_⟩
  have key : ∀ c, eventCall s.event = some c → (c.warning = .dryRunFailed ∨ c.warning = .instrumentationNonbuildable) →
      Denied o.warn c.warning → (main h o m).1 = some 2 := by
    intro c hc hk hd
    rcases h3 with h3 | h3
    · have : c ∈ (ownCalls is).filter (·.warning = c.warning) := by
        rw [makes_events hs h2 hk]
        simp only [List.mem_filter, decide_true, and_true]
        exact List.mem_filterMap.2 ⟨s, hs', hc⟩
      obtain ⟨this, _⟩ := List.mem_filter.1 this
      obtain ⟨i, hi, rfl⟩ := List.mem_map.1 this
      obtain ⟨hi, ho⟩ := List.mem_filter.1 hi
      exact absurd hd (h3 i hi)
    · exact h3.2
  exact ⟨fun f hf hd => key _ (by rw [hf]; rfl) (Or.inl rfl) hd, fun f hf hd => key _ (by rw [hf]; rfl) (Or.inr rfl) hd⟩

/-- **C81.** At most one message about changed sources, a missing database, or each unsupported option is printed. -/
theorem C81_once (hs : Sound h o) (hw : m.warns = .init) {w : Warning}
    (hk : w = .filesChanged ∨ w = .databaseDoesNotExist ∨ w = .ignoredFunctionsUnsupported ∨ w = .ignoredMacrosUnsupported ∨
      w = .ignoredMethodsUnsupported) : ((newWarnings m (main h o m).2).filter (·.warning = w)).length ≤ 1 := by
  obtain ⟨events, is, rs, h1, h2, h3, h4, h5⟩ := C81_warnings (m := m) hs hw
  have ho : ∀ c ∈ ownCalls is, c.warning = w → c.once = true := by
    obtain ⟨cs, cs', g1, g2, g3, g4⟩ := makes_split hs h2
    intro c hc e
    rw [g1] at hc
    rcases List.mem_append.1 hc with hc | hc
    · have := g2 c hc
      unfold SearchKind at this
      rw [e] at this
      rcases hk with rfl | rfl | rfl | rfl | rfl <;> simpa using this
    · by_cases hf : c.warning = .filesChanged
      · exact g4 c hc hf
      · have : c ∈ eventCalls events := by rw [← g3]; simp [hc, hf]
        obtain ⟨s, _, hs⟩ := List.mem_filterMap.1 this
        unfold eventCall at hs
        split at hs <;> cases hs <;> simp [dryRunFailedCall, nonbuildableCall] at e <;> subst e <;> simp at hk
  have := said_once h4 (makes_foreign h2) (by rcases hk with rfl | rfl | rfl | rfl | rfl <;> simp [FrameworkKind]) ho
  unfold newWarnings
  rw [h5, List.drop_left]
  simpa [said] using this

/-- **C81.** If the program looks for candidates and ends with exit code 0, then everything that is due for the files gone through has been
reported, in order: each directive that is misplaced or not known, each file that cannot be parsed, the tests whose modules are unknown, and the functions whose definition is
ambiguous. -/
theorem C81_sources (hs : Sound h o) (hw : m.warns = .init) (hl : LooksForCandidates o) (hc : (main h o m).1 = some 0) (hq : o.quiet = false)
    {w : Warning} (hk : w = .directiveUnrecognized ∨ w = .skipFileMispositioned ∨ w = .parsingFailed ∨ w = .localFunctionAmbiguous ∨
      w = .modulePathUnknown) (ha : ¬ Allowed o.warn w) :
    ∃ root config fw paths compiled fs cs, Begins h o m root config fw paths ∧
      (let b := projectBackend h o root m fw
       (∃ ws, Compiles b config ws compiled) ∧ pathsOf b paths = fs.map (fun f => root ++ f.path) ∧ DueAll b compiled fs cs) ∧
      (∀ c ∈ cs, ¬ Denied o.warn c.warning) ∧ said w (newWarnings m (main h o m).2) = asked w cs := by
  obtain ⟨events, is, rs, h1, h2, h3, h4, h5⟩ := C81_warnings (m := m) hs hw
  have h3 : NoneDenied o.warn is := h3.elim id fun h => by rw [hc] at h; cases h.2
  have key : ∀ {root config fw paths cs0 tail}, Begins h o m root config fw paths →
      Gives (projectBackend h o root m fw) config paths (WStates.after o.warn m.warns (own (deprecatedCalls o))) (.ok ()) cs0 →
      ownCalls is = deprecatedCalls o ++ cs0 ++ tail → (∀ c ∈ tail, c.warning ≠ w) →
      ∃ root config fw paths compiled fs cs, Begins h o m root config fw paths ∧
      (let b := projectBackend h o root m fw
       (∃ ws, Compiles b config ws compiled) ∧ pathsOf b paths = fs.map (fun f => root ++ f.path) ∧ DueAll b compiled fs cs) ∧
      (∀ c ∈ cs, ¬ Denied o.warn c.warning) ∧ said w (newWarnings m (main h o m).2) = asked w cs := by
    intro root config fw paths cs0 tail hb hg hown htail
    obtain ⟨t, ht⟩ := impl_of hb.frameworkIs
    generalize hr : (Res.ok () : Res Err Unit) = r at hg
    cases hg with
    | config calls cut => cases hr
    | refused failed _ _ => exact absurd hr.symm failed
    | between failed _ _ _ _ => exact absurd hr.symm failed
    | within failed _ _ _ _ _ => exact absurd hr.symm failed
    | denied _ _ _ _ _ => cases hr
    | @ok compiled fs cs compiles files due clean =>
      refine ⟨root, config, fw, paths, compiled, fs, cs, hb, ⟨⟨_, compiles⟩, files, due⟩, fun c hc => ?_, ?_⟩
      · exact clean ⟨c, true⟩ (by rw [own_append]; exact List.mem_append_right _ (List.mem_map.2 ⟨c, hc, rfl⟩))
      · have hdep : ∀ c ∈ deprecatedCalls o, c.warning ≠ w := by
          unfold deprecatedCalls; split
          · rcases hk with rfl | rfl | rfl | rfl | rfl <;> simp
          · simp
        have hconf : ∀ c ∈ configCalls (projectBackend h o root m fw) config, c.warning ≠ w := by
          intro c hc
          rw [configCalls_eq] at hc
          obtain ⟨w', hw', rfl⟩ := List.mem_map.1 hc
          have e : (configCall w').warning = w' := rfl
          rw [e]
          unfold configWarnings at hw'
          rcases List.mem_append.1 hw' with hw | hw
          · rcases List.mem_append.1 hw with hw | hw <;> split at hw <;> simp at hw <;> subst hw <;> rcases hk with rfl | rfl | rfl | rfl | rfl <;> simp
          · split at hw <;> simp at hw <;> subst hw <;> rcases hk with rfl | rfl | rfl | rfl | rfl <;> simp
        have hnil : ∀ xs : List WarnCall, (∀ c ∈ xs, c.warning ≠ w) → xs.filter (·.warning = w) = [] := by
          intro xs hx; rw [List.filter_eq_nil_iff]; simpa using hx
        have hasked : asked w (ownCalls is) = asked w cs := by
          unfold asked
          rw [hown]
          simp only [List.filter_append, hnil _ hdep, hnil _ hconf, hnil _ htail, List.nil_append, List.append_nil]
        have honce : ∀ c ∈ ownCalls is, c.warning = w → c.once = false := by
          intro c hc e
          have : c ∈ cs := by
            have : c ∈ (ownCalls is).filter (·.warning = w) := by simp [hc, e]
            rw [hown] at this
            simp only [List.filter_append, hnil _ hdep, hnil _ hconf, hnil _ htail, List.nil_append, List.append_nil] at this
            exact (List.mem_filter.1 this).1
          have := dueAll_kinds (b := projectBackend h o root m fw) (hs _ _ _ ht).2 due c this
          unfold SearchKind at this
          rw [e] at this
          rcases hk with rfl | rfl | rfl | rfl | rfl <;> simpa using this
        rw [← hasked]
        unfold newWarnings
        rw [h5, List.drop_left]
        by_cases hd : Denied o.warn w
        · have hnone : ∀ c ∈ ownCalls is, c.warning ≠ w := by
            intro c hc e
            obtain ⟨i, hi, rfl⟩ := List.mem_map.1 hc
            obtain ⟨hi, ho⟩ := List.mem_filter.1 hi
            exact h3 i hi (by rw [e]; exact hd)
          have : said w (messages rs) = [] := by
            unfold said
            rw [List.map_eq_nil_iff, List.filter_eq_nil_iff]
            intro x hx
            obtain ⟨_, i, _, _, _, _, k, _⟩ := messages_mem h4 hx
            simp only [decide_eq_true_eq]
            intro e; rw [e] at k; exact k hd
          rw [this]
          unfold asked
          rw [hnil _ hnone]; rfl
        · exact said_all hd ha hq (by rcases hk with rfl | rfl | rfl | rfl | rfl <;> simp) h4 (makes_foreign h2)
            (by rcases hk with rfl | rfl | rfl | rfl | rfl <;> simp [FrameworkKind]) honce
  have hdb : ∀ c ∈ databaseCalls h o m, c.warning ≠ w := by
    unfold databaseCalls
    split
    · split
      · rcases hk with rfl | rfl | rfl | rfl | rfl <;> simp [missingDatabase]
      · split
        · rcases hk with rfl | rfl | rfl | rfl | rfl <;> simp [missingDatabase]
        · simp
    · simp
  generalize hcode : (main h o m).1 = code at h2
  cases h2 with
  | none why =>
    exfalso
    have hz := hc
    rw [main_fst] at hz
    unfold necessist at hz
    by_cases hopt : processOptions o.set = .ok
    · rw [hopt] at hz
      simp only [hl.1, hl.2.1, Bool.false_eq_true, if_false] at hz
      unfold project at hz
      have hroot : projectRoot h o = rootOf h o := rfl
      rw [hroot] at hz
      rcases why with e | e | e | e | ⟨root, e, e'⟩
      · exact e hopt
      · rw [hl.1] at e; cases e
      · rw [hl.2.1] at e; cases e
      · rw [e] at hz; simp [exitCode] at hz
      · rw [e] at hz; simp [e', exitCode] at hz
    · split at hz
      · contradiction
      · simp [exitCode] at hz
  | deprecated why =>
    exfalso
    have hz := hc
    rw [main_fst] at hz
    rcases why with e | e | e | e
    · rw [hl.2.2.1] at e; cases e
    · rw [hl.2.2.2] at e; cases e
    · obtain ⟨is', i, e1, _, e3⟩ := e
      exact h3 i (by rw [e1]; simp) e3
    · by_cases hopt : processOptions o.set = .ok
      · rcases necessist_candidates (h := h) (m := m) hopt hl with ⟨_, k, _⟩ | ⟨root, fw, nT, map, ws, st, hf, _⟩
        · cases hn : (necessist h o m).1 with
          | ok n => exact k n hn
          | err _ => rw [hn] at hz; simp [exitCode] at hz
          | panic => rw [hn] at hz; simp [exitCode] at hz
          | hang => rw [hn] at hz; simp [exitCode] at hz
        · obtain ⟨g0, _, config, paths, m1, pst, ws0, _, _, g3, g4, g5, _⟩ := hf
          exact e _ _ _ _ ⟨hl, g0, g3, g4, g5⟩
      · obtain ⟨e, he⟩ := necessist_refused (h := h) (m := m) hopt
        rw [he] at hz; simp [exitCode] at hz
  | fails _ _ _ ne => exact absurd (hcode.symm.trans hc) ne
  | found begins gives _ => exact key begins gives (by rw [ownCalls_own, List.append_nil]) (by simp)
  | database begins gives _ ne => exact absurd (hcode.symm.trans hc) ne
  | @run _ _ _ _ _ _ _ is' _ _ _ _ begins gives _ _ _ calls =>
    refine key begins gives (tail := databaseCalls h o m ++ ownCalls is') (by rw [ownCalls_append, ownCalls_own, List.append_assoc]) fun c hcm => ?_
    rcases List.mem_append.1 hcm with hcm | hcm
    · exact hdb c hcm
    · intro e
      by_cases hf : c.warning = .filesChanged
      · rw [hf] at e; rcases hk with rfl | rfl | rfl | rfl | rfl <;> cases e
      · have : c ∈ eventCalls events := by rw [← calls.others]; simp [hcm, hf]
        obtain ⟨s, _, hs⟩ := List.mem_filterMap.1 this
        unfold eventCall at hs
        split at hs <;> cases hs <;> simp [dryRunFailedCall, nonbuildableCall] at e <;> subst e <;> simp at hk

end Necessist.Main
