import Verif.Lemmas.ToldFw
import Verif.Props.Meaning
import Verif.Props.MainWarnings
import Verif.Props.UnknownModulesMain
/-!
# What the frameworks report while tests are run (C86)
-/
namespace Necessist.Results
open Framework (Identifier)
open Run Main Cmd Sources Parse
open Walk (Chosen chosen_impl)

variable {V σ : Type} {h : Host V (St σ)} {o : Opts} {m : Machine (St σ)}
  {P : Parsers} {disk : Walk.Entry} {v : Bool} {rule : Cache.Path → Bool → Walk.Verdict} {alnum : Char → Bool}
  {x : Around σ} {caches : Rust.Caches} {parse : Text → Option Json}

/-- **C81.** What is assumed of the frameworks there holds of those that are modelled: if the implementations parse files and execute commands in the modelled ways, whatever the
commands do, their answers take account of the warnings that they give. -/
theorem C81_sound (hm : x.Mute) (hw : x.warn = o.warn)
    (hi : ∀ ext i fw, h.impl ext i = .ok (some fw) → (∃ P, fw.backend.parseFile = fileAst P i) ∧
      ∃ caches parse, fw.env = inRun x (highOf x caches parse i)) : Sound h o := by
  intro ext i fw hfw
  obtain ⟨⟨P, hp⟩, caches, parse, henv⟩ := hi ext i fw hfw
  refine ⟨?_, fun f ast ha => ?_⟩
  · rw [henv, ← hw]; exact honest hm (highOf_little hm caches parse i)
  · rw [hp] at ha; exact fileAst_kinds ha

/-- What a framework reports in a run that succeeds is what there is to report about its steps. -/
theorem reported (hm : x.Mute) {i : Identifier} {high plan} (hh : highOf x caches parse i = high)
    (hp : planOf (projectOf x) (flagsOf P) parse i = plan)
    (hroot : x.root = P.root) (cfg : Cfg) (fcs : List (SourceFile × List Candidate))
    (hf : ∀ p ∈ fcs, Ready P caches i p.1 ∧ ∀ c ∈ p.2, Ready P caches i c.span.file) (w : World (St σ)) (hw : Cmd.Fresh w)
    (hok : (runFiles cfg (inRun x high) fcs w).1 = .ok ()) :
    ∃ hist rs, Cmd.History cfg plan hist ∧ Explains hist ((runFiles cfg (inRun x high) fcs w).2.trace.map (·.event)) (runFiles cfg (inRun x high) fcs w).2.ext.ran ∧
      AllReports x plan hist rs ∧ heard (runFiles cfg (inRun x high) fcs w).2 = heard w ++ audible x.warn rs ∧ ∀ r ∈ rs, ¬ Denied x.warn r.1 := by
  obtain ⟨i1, i2, i3, i4⟩ := hush_install hm
  have htriv : ∀ p ∈ fcs, True ∧ ∀ c ∈ p.2, True := fun _ _ => ⟨trivial, fun _ _ => trivial⟩
  cases i with
  | anchor => cases hh; cases hp; exact tells hm (anchor_implements x parse) (anchor_speaks hm parse) cfg fcs htriv w hw hok
  | foundry => cases hh; cases hp; exact tells hm (adapter_implements (foundry_follows x)) (adapter_speaks hm (foundry_follows x) i3) cfg fcs htriv w hw hok
  | go => cases hh; cases hp; exact tells hm (adapter_implements (go_follows x)) (adapter_speaks hm (go_follows x) i1) cfg fcs hf w hw hok
  | hardhat => cases hh; cases hp; exact tells hm (hardhat_implements x) (hardhat_speaks hm) cfg fcs htriv w hw hok
  | php => cases hh; cases hp; exact tells hm (adapter_implements (php_follows x)) (adapter_speaks hm (php_follows x) i2) cfg fcs htriv w hw hok
  | rust =>
    cases hh; cases hp
    have he : ∀ f, absolute x f = P.path f := fun f => by unfold absolute Parsers.path; rw [hroot]
    have hf' : ∀ p ∈ fcs, caches.flags.lookup (absolute x p.1) = some (flagsOf P p.1) ∧
        ∀ c ∈ p.2, caches.flags.lookup (absolute x c.span.file) = some (flagsOf P c.span.file) := by simp only [he]; exact hf
    exact tells hm (adapter_implements (rust_follows x caches (flagsOf P))) (adapter_speaks hm (rust_follows x caches (flagsOf P)) (i4 caches)) cfg fcs
      hf' w hw hok
  | vitest => cases hh; cases hp; exact tells hm (vitest_implements x parse) (vitest_speaks hm parse) cfg fcs htriv w hw hok

theorem shown_kinds {o : WarnOpts} {st : WStates} {cs : List WarnCall} {m : WarnMsg} (h : m ∈ shownFor o st (own cs)) : ∃ c ∈ cs, m.warning = c.warning := by
  induction cs generalizing st with
  | nil => cases h
  | cons c cs ih =>
    have e : own (c :: cs) = [⟨c, true⟩] ++ own cs := rfl
    rw [e, shownFor_append] at h
    rcases List.mem_append.1 h with h | h
    · refine ⟨c, by simp, ?_⟩
      have h' : m ∈ (match (warnInternal o st c).1 with | .print m => [m] | _ => []) ++ [] := h
      rw [List.append_nil] at h'
      rcases hw : warnInternal o st c with ⟨r, st'⟩
      rw [hw] at h'
      cases r with
      | print m' => obtain rfl : m = m' := by simpa using h'
                    exact (print_warning hw).1
      | _ => cases h'
    · obtain ⟨c', hc, h⟩ := ih h
      exact ⟨c', List.mem_cons_of_mem _ hc, h⟩

/-- Among the warnings printed while candidates are looked for, none is of the kinds of those that a framework gives when tests are run. -/
theorem finds_kinds (hi : Sources.Implements P h o m disk v rule alnum) {root fw nTests map ws st}
    (hc : FindsCandidates h o m root fw nTests map ws st) : ∀ w ∈ ws, ¬ FrameworkKind w.warning := by
  obtain ⟨_, _, user, paths, m1, pst, ws0, d1, d2, _, k1, _, k3, _, _, rfl, _⟩ := hc
  obtain ⟨i, _, hfw⟩ := chosen_impl k1
  have hp : ∀ f ast, (projectBackend h o root m fw).parseFile f = .ok ast → ∀ c ∈ ast.warnings, c.warning = .modulePathUnknown ∧ c.once = false := by
    intro f ast ha
    have ha : fw.backend.parseFile f = .ok ast := ha
    rw [(hi.impl i fw hfw).2.1] at ha
    exact fileAst_kinds ha
  intro w hw hk
  rcases List.mem_append.1 hw with hw | hw
  · rcases warnDeprecated_gives (o := o) (m := m) with ⟨_, m2, e1, _, e2⟩ | ⟨_, _, m2, e1, _⟩
    · rw [d1] at e1; cases e1
      rw [d2, warningsIn_append, warningsIn_warnings] at e2
      rw [List.append_cancel_left e2] at hw
      obtain ⟨c, hc, e⟩ := shown_kinds hw
      unfold deprecatedCalls at hc
      split at hc
      · obtain rfl := List.mem_singleton.1 hc
        rw [e] at hk
        rcases hk with hk | hk | hk <;> cases hk
      · cases hc
    · rw [d1] at e1; cases e1
  · obtain ⟨r, st, cs, e, hg, hpr, _⟩ := parse_gives (projectBackend h o root m fw) (fun f ast ha c hc => by rw [(hp f ast ha c hc).1]; simp) user paths m1.warns
    rw [k3] at e; cases e
    rw [hpr] at hw
    obtain ⟨c, hc, e⟩ := shown_kinds hw
    have := gives_kinds hp hg c hc
    rw [e] at hk
    unfold SearchKind at this
    rcases this with ⟨h1 | h1 | h1 | h1 | h1, _⟩ | ⟨h1 | h1 | h1, _⟩ <;> rw [h1] at hk <;> rcases hk with hk | hk | hk <;> cases hk

theorem spoken_none {ms : List WarnMsg} (h : ∀ m ∈ ms, ¬ FrameworkKind m.warning) : spoken (ms.map .warning) = [] := by
  induction ms with
  | nil => rfl
  | cons m ms ih =>
    have e : spoken ((m :: ms).map Line.warning) = spoken [Line.warning m] ++ spoken (ms.map .warning) := by
      rw [← spoken_append]; rfl
    rw [e, ih fun m' hm => h m' (List.mem_cons_of_mem _ hm)]
    have := h m (by simp)
    unfold FrameworkKind at this
    simp [spoken, this]

/-- A run starts with no such warnings printed. -/
theorem runWhole_start (cfg : Cfg) (env : Env σ) (call : Call) (fcs : List (SourceFile × List Candidate)) (file : DbFile) (w : World σ)
    (hd : call.flags.dump = false) (ho : w.out = []) (hok : (runWhole call cfg env fcs file w).1 = .ok ()) :
    ∃ w0 : World σ, w0.trace = w.trace ∧ w0.ext = w.ext ∧ spoken w0.out = [] ∧
      (runWhole call cfg env fcs file w).2.2 = (runFiles cfg env fcs w0).2 ∧ (runFiles cfg env fcs w0).1 = .ok () := by
  have hg := pastInit_gives cfg.warn w.warns call.readable call.faults call.flags file call.noSqlite hd
  unfold runWhole at hok ⊢
  generalize pastInit call.noSqlite cfg.warn w.warns call.readable call.faults call.flags file = i at hok hg ⊢
  obtain ⟨res, fl, ws, out⟩ := i
  dsimp only at hok hg ⊢
  cases res with
  | ok past =>
    refine ⟨_, ?_, ?_, ?_, rfl, ?_⟩
    rotate_left 3
    · dsimp only at hok ⊢
      generalize runFiles cfg env fcs _ = y at hok ⊢
      obtain ⟨r, w'⟩ := y
      cases r <;> first | rfl | cases hok
    · rfl
    · rfl
    · dsimp only
      rcases hg with ⟨_, _, e⟩ | ⟨_, _, e, _⟩
      · rw [e, ho, List.nil_append]
        refine spoken_none fun m hm hk => ?_
        obtain ⟨c, hc, e⟩ := shown_kinds hm
        have : c.warning = .databaseDoesNotExist := by
          split at hc
          · split at hc
            · rw [List.mem_singleton.1 hc]; rfl
            · split at hc
              · rw [List.mem_singleton.1 hc]; rfl
              · cases hc
          · cases hc
        rw [e, this] at hk
        rcases hk with hk | hk | hk <;> cases hk
      · rw [e, ho]; rfl
  | _ => cases hok

/-- What the frameworks reported: of the warnings printed by an execution, those of the kinds that they give while tests are run. -/
noncomputable def newReports (m m' : Machine σ) : List Report := by
  classical exact ((newWarnings m m').filter fun w => decide (FrameworkKind w.warning)).map reportOf

theorem spoken_warningsOf (out : List Line) : spoken out = (warningsOf out).filter fun m =>
    decide (m.warning = .outputInvalid ∨ m.warning = .runTestFailed ∨ m.warning = .itMessageNotFound) := by
  induction out with
  | nil => rfl
  | cons l out ih =>
    cases l with
    | warning w =>
      have e1 : spoken (.warning w :: out) = spoken [.warning w] ++ spoken out := by rw [← spoken_append]; rfl
      have e2 : warningsOf (.warning w :: out) = w :: warningsOf out := rfl
      rw [e1, e2, ih, List.filter_cons]
      by_cases hk : w.warning = .outputInvalid ∨ w.warning = .runTestFailed ∨ w.warning = .itMessageNotFound
      · simp [spoken, hk]
      · simp [spoken, hk]
    | _ => exact ih

/-- **C86.** If the program runs tests and exits with 0, its steps are those of C75, and the warnings that it prints of the kinds that a framework gives while tests are run are
exactly those that there are to report about the steps, in order, other than those that are not to be shown (C12); and none of them is denied. -/
theorem C86_program (hl : Locates h) (hi : Sources.Implements P h o m disk v rule alnum) (hx : Executes P h o m disk v rule alnum x caches parse)
    (hm : x.Mute) (hw : x.warn = o.warn) (hrun : RunsTests o) (hz : (main h o m).1 = some 0) {i plan} (hch : Chosen h o i)
    (hp : planOf (projectOf x) (flagsOf P) parse i = plan) :
    ∃ events hist rs, (main h o m).2.trace = m.trace ++ events ∧ Cmd.History (runCfg h o m) plan hist ∧
      Explains hist (events.map (·.event)) (main h o m).2.ext.ran ∧ AllReports x plan hist rs ∧ newReports m (main h o m).2 = audible o.warn rs ∧
      ∀ r ∈ rs, ¬ Denied o.warn r.1 := by
  rw [main_snd]
  rcases necessist_whole (h := h) (o := o) (m := m) with ⟨_, _, _, _, h5, _⟩ | ⟨root, fw, nT, map, ws, st, hc, _, _, warns, ext, h1, h2, h3, h4, h5⟩
  · obtain ⟨n, hn⟩ := ok_of_zero hz
    exact absurd hn (h5 hrun n)
  · obtain ⟨hcon, -, rfl, hext⟩ := h4
    have hok : (runWhole (dbCall h o) (runCfg h o m) fw.env map.toRun m.db (startWorld m warns (fw.parsed (h.chosen m.ext)))).1 = .ok () := by
      obtain ⟨n, hn⟩ := ok_of_zero hz
      rw [hn] at h5
      split at h5 <;> first | assumption | cases h5
    obtain ⟨w0, t0, e0, s0, hy, hok'⟩ := runWhole_start (runCfg h o m) fw.env (dbCall h o) map.toRun m.db
      (startWorld m warns (fw.parsed (h.chosen m.ext))) hrun.1.2.2.2 rfl hok
    obtain ⟨j, user, config, hch', huniq, hfw, _⟩ := C79_candidates hi hc
    cases huniq i hch
    have henv := hx.env i fw hfw
    generalize hhigh : highOf x caches parse i = high at henv
    have hfresh : Cmd.Fresh w0 := ⟨t0, by rw [e0]; exact hx.fresh i fw hfw⟩
    have hfiles := hc.filesOk (spansInFile hl)
    have hready : ∀ p ∈ map.toRun, Ready P caches i p.1 ∧ ∀ c ∈ p.2, Ready P caches i c.span.file := by
      intro p hpm
      obtain ⟨⟨f, ms⟩, hm, rfl⟩ := List.mem_map.1 hpm
      have hr := map_ready hi hx hc hch hm
      exact ⟨hr, fun c hcm => by rw [(hfiles.2 _ hpm).1 c hcm]; exact hr⟩
    rw [henv] at hok' hy h3 hext hcon
    obtain ⟨hist, rs, g1, g2, g3, g4, g5⟩ := reported hm hhigh hp hx.root (runCfg h o m) map.toRun hready w0 hfresh hok'
    rw [← hy] at g2 g4
    refine ⟨_, hist, rs, h3, g1, by rw [hext]; exact g2, g3, ?_, by rw [← hw]; exact g5⟩
    unfold heard at g4
    rw [s0, hw] at g4
    simp only [List.map_nil, List.nil_append] at g4
    rw [← g4]
    have hnew : newWarnings m (necessist h o m).2 = ws ++ warningsOf (runWhole (dbCall h o) (runCfg h o m) (inRun x high) map.toRun m.db
        (startWorld m warns (fw.parsed (h.chosen m.ext)))).2.2.out := by
      unfold newWarnings
      rw [hcon]
      simp only [warningsIn_append, warningsIn_lines, warningsIn_warnings]
      have : warningsIn (if o.quiet then [] else [.text (summary map.nSpans nT map.length)]) = [] := by split <;> rfl
      rw [this, List.append_nil, List.append_assoc, List.drop_left]
    unfold newReports
    rw [hnew, List.filter_append, spoken_warningsOf]
    have hnil : ws.filter (fun w => @decide (FrameworkKind w.warning) (Classical.propDecidable _)) = [] := by
      classical
      rw [List.filter_eq_nil_iff]
      intro w hw' hk
      exact finds_kinds hi hc w hw' (of_decide_eq_true hk)
    rw [hnil, List.nil_append]
    congr 1
    refine List.filter_congr fun w _ => ?_
    unfold FrameworkKind
    classical
    simp

end Necessist.Results

namespace Necessist.Cmd
open Run
variable {σ : Type} {x : Around σ} {cfg : Cfg} {plan : Plan}

theorem unseenOf_append (a b : List Event) : unseenOf (a ++ b) = unseenOf a ++ unseenOf b := by simp [unseenOf]
theorem lookedOf_append (a b : List Ran) : lookedOf (a ++ b) = lookedOf a ++ lookedOf b := by simp [lookedOf]
theorem ofKind_append (k : Warning) (a b : List Report) : ofKind k (a ++ b) = ofKind k a ++ ofKind k b := by simp [ofKind]

theorem lookedOf_nil {l : List Ran} (h : ∀ out, Ran.looked out ∉ l) : lookedOf l = [] := by
  unfold lookedOf
  rw [List.filterMap_eq_nil_iff]
  intro r hr
  cases r with
  | looked out => exact absurd hr (h out)
  | _ => rfl

theorem started_unlooked {h c t l p} (hs : Started cfg plan h c t l p) : ∀ out, Ran.looked out ∉ l := by
  obtain ⟨l, _, hf, _⟩ := hs
  intro out hm
  rcases List.mem_append.1 hm with hm | hm
  · exact follows_unlooked hf out hm
  · simp at hm

theorem unlooked_snoc {l : List Ran} (h : ∀ out, Ran.looked out ∉ l) (out) : lookedOf (l ++ [.looked out]) = [out] := by
  rw [lookedOf_append, lookedOf_nil h]; rfl

/-- What steps look like, as far as results and outputs are concerned. -/
theorem step_shape {h s} (hs : Step cfg plan h s) :
    (unseenOf s.1 = [] ∧ lookedOf s.2 = [] ∧ ∀ evs c t, s.1 ≠ evs ++ [.tested c t none]) ∨
    (∃ c t l out, s = ([.buildTest c t, .startTest c t (cfg.ident c.span), .tested c t none], l ++ [.looked out]) ∧ ∀ out, Ran.looked out ∉ l) ∨
    ∃ c t r l out, s = ([.buildTest c t, .startTest c t (cfg.ident c.span), .tested c t (some r)], l ++ [.looked out]) ∧ ∀ out, Ran.looked out ∉ l := by
  have last : ∀ {es : List Event} {evs c t}, es.getLast? ≠ some (.tested c t none) → es ≠ evs ++ [.tested c t none] := by
    rintro es evs c t hne rfl
    exact hne (by simp)
  cases hs with
  | ctrlc b => exact .inl ⟨rfl, rfl, fun evs c t => last (by simp)⟩
  | insert b => exact .inl ⟨rfl, rfl, fun evs c t => last (by simp)⟩
  | dryRun f l ok => exact .inl ⟨rfl, lookedOf_nil (follows_unlooked ok), fun evs c t => last (by simp)⟩
  | dryRunFailed f l r hf => exact .inl ⟨rfl, lookedOf_nil (follows_unlooked hf), fun evs c t => last (by simp)⟩
  | build f l ok => exact .inl ⟨rfl, lookedOf_nil (follows_unlooked ok), fun evs c t => last (by simp)⟩
  | buildFailed f l r hf => exact .inl ⟨rfl, lookedOf_nil (follows_unlooked hf), fun evs c t => last (by simp)⟩
  | notBuilt c t l r _ hf => exact .inl ⟨rfl, lookedOf_nil (follows_unlooked hf), fun evs c t => last (by simp)⟩
  | ended c t l p d _ hst => exact .inl ⟨rfl, lookedOf_nil (started_unlooked hst), fun evs c t => last (by simp)⟩
  | shown c t l p d out s _ hst => exact .inr (.inr ⟨c, t, _, l, out, rfl, started_unlooked hst⟩)
  | hidden c t l p d out s _ hst => exact .inr (.inl ⟨c, t, l, out, rfl, started_unlooked hst⟩)
  | killed c t l p _ hst => exact .inl ⟨rfl, lookedOf_nil (started_unlooked hst), fun evs c t => last (by simp)⟩

theorem garbled_kind {c out rs} (hg : Garbled x c out rs) : ∀ r ∈ rs, r.1 = .outputInvalid := by
  obtain ⟨ls, _, rfl⟩ := hg
  intro r hr
  obtain ⟨l, _, rfl⟩ := List.mem_map.1 hr
  rfl

theorem ofKind_none {k : Warning} {rs : List Report} {k' : Warning} (h : ∀ r ∈ rs, r.1 = k') (hne : k' ≠ k) : ofKind k rs = [] := by
  unfold ofKind
  rw [List.filter_eq_nil_iff]
  intro r hr hk
  exact hne ((h r hr).symm.trans (of_decide_eq_true hk))

theorem ofKind_all {k : Warning} {rs : List Report} (h : ∀ r ∈ rs, r.1 = k) : ofKind k rs = rs :=
  List.filter_eq_self.2 fun r hr => decide_eq_true (h r hr)

/-- What a step adds to the reports of each kind. -/
theorem reports_kinds {h s rs} (hs : Step cfg plan h s) (hr : Reports x plan h s rs) :
    (∃ us : List (Candidate × Text × List UInt8), us.map (fun u => (u.1, u.2.1)) = unseenOf s.1 ∧ (∀ u ∈ us, .looked u.2.2 ∈ s.2) ∧
      ofKind .runTestFailed rs = us.map fun u => notRunReport x u.1 u.2.1 u.2.2) ∧
    (∃ gs : List (Candidate × List UInt8 × List (List UInt8)), gs.map (·.2.1) = lookedOf s.2 ∧
      (∀ g ∈ gs, Exec.IsLines g.2.1 g.2.2 ∧ ∃ t r, .tested g.1 t r ∈ s.1) ∧
      ofKind .outputInvalid rs = gs.flatMap fun g => (g.2.2.filter fun l => (x.decode l).isNone).map (garbledReport x g.1)) ∧
    ∃ ms : List (Candidate × Text), (∀ u ∈ ms, Missed plan u.1.span.file u.2 s ∧ .tested u.1 u.2 (some .nonbuildable) ∈ s.1) ∧ (ms.map fun u => (u.1.span.file, u.2)).Nodup ∧
      (∀ u ∈ ms, ∀ s' ∈ h, ¬ Missed plan u.1.span.file u.2 s') ∧
      (∀ f t, Missed plan f t s → (∃ s' ∈ h, Missed plan f t s') ∨ ∃ u ∈ ms, u.1.span.file = f ∧ u.2 = t) ∧
      ofKind .itMessageNotFound rs = ms.map fun u => missedReport x u.1 u.2 := by
  have lastEq : ∀ {es es' : List Event} {a b}, es ++ [a] = es' ++ [b] → a = b := by
    intro es es' a b e
    simpa using List.append_inj_right' e rfl
  have lastRan : ∀ {l l' : List Ran} {a b}, l ++ [.looked a] = l' ++ [.looked b] → l = l' ∧ a = b := by
    intro es es' a b e
    have h1 := List.append_inj_right' e rfl
    have h2 := List.append_inj_left' e rfl
    exact ⟨h2, by simpa using h1⟩
  have hshape := step_shape hs
  have notMissed : ∀ {f t s}, Missed plan f t s → (∀ evs c t, s.1 ≠ evs ++ [.tested c t none]) ∧ unseenOf s.1 = [] ∧ lookedOf s.2 = [] := by
    rintro f t s ⟨_, c, l, rfl, _, hf⟩
    refine ⟨fun evs c t e => ?_, rfl, lookedOf_nil (follows_unlooked hf)⟩
    have := lastEq (es := [_]) e
    cases this
  cases hr with
  | seen c t evs l out r _ hg =>
    have key : unseenOf (evs ++ [.tested c t (some r)]) = [] ∧ lookedOf (l ++ [.looked out]) = [out] := by
      rcases hshape with ⟨_, h2, _⟩ | ⟨c', t', l', out', e, _⟩ | ⟨c', t', r', l', out', e, hl⟩
      · rw [lookedOf_append] at h2
        have := (List.append_eq_nil_iff.1 h2).2
        cases this
      · have := lastEq (es' := [_, _]) (congrArg Prod.fst e)
        cases this
      · have e1 := congrArg Prod.fst e
        have e2 := congrArg Prod.snd e
        dsimp only at e1 e2
        rw [e1, e2, unlooked_snoc hl, (lastRan e2).2]
        exact ⟨rfl, rfl⟩
    obtain ⟨ls, hls, rfl⟩ := id hg
    refine ⟨⟨[], key.1.symm, nofun, ofKind_none (garbled_kind hg) nofun⟩, ⟨[(c, out, ls)], key.2.symm, ?_, ?_⟩, [], nofun, .nil, nofun, fun f t hm => ?_,
      ofKind_none (garbled_kind hg) nofun⟩
    · intro g hgm
      rw [List.mem_singleton.1 hgm]
      exact ⟨hls, t, some r, by simp⟩
    · rw [ofKind_all (garbled_kind hg)]; simp [garbledReport]
    · have := (notMissed hm).2.2
      rw [key.2] at this; cases this
  | unseen c t evs l out rs hg =>
    have key : unseenOf (evs ++ [.tested c t none]) = [(c, t)] ∧ lookedOf (l ++ [.looked out]) = [out] := by
      rcases hshape with ⟨_, _, h3⟩ | ⟨c', t', l', out', e, hl⟩ | ⟨c', t', r', l', out', e, hl⟩
      · exact absurd rfl (h3 _ _ _)
      · have e1 := congrArg Prod.fst e
        have e2 := congrArg Prod.snd e
        dsimp only at e1 e2
        have e3 := lastEq (es' := [_, _]) e1
        rw [e1, e2, unlooked_snoc hl, (lastRan e2).2]
        cases e3
        exact ⟨rfl, rfl⟩
      · have := lastEq (es' := [_, _]) (congrArg Prod.fst e)
        cases this
    obtain ⟨ls, hls, rfl⟩ := id hg
    refine ⟨⟨[(c, t, out)], key.1.symm, ?_, ?_⟩, ⟨[(c, out, ls)], key.2.symm, ?_, ?_⟩, [], nofun, .nil, nofun, fun f t hm => ?_, ?_⟩
    · intro u hu
      rw [List.mem_singleton.1 hu]; simp
    · rw [ofKind_append, ofKind_none (k := .runTestFailed) (garbled_kind hg) nofun]; rfl
    · intro g hgm
      rw [List.mem_singleton.1 hgm]
      exact ⟨hls, t, none, by simp⟩
    · rw [ofKind_append, ofKind_all (garbled_kind hg)]
      simp [ofKind, garbledReport]
    · have := (notMissed hm).2.2
      rw [key.2] at this; cases this
    · rw [ofKind_append, ofKind_none (k := .itMessageNotFound) (garbled_kind hg) nofun]; rfl
  | missed c t l hm hfirst =>
    obtain ⟨_, k2, k3⟩ := notMissed hm
    refine ⟨⟨[], k2.symm, nofun, rfl⟩, ⟨[], k3.symm, nofun, rfl⟩, [(c, t)], ?_, by simp, ?_, ?_, rfl⟩
    · intro u hu; rw [List.mem_singleton.1 hu]; exact ⟨hm, by simp⟩
    · intro u hu; rw [List.mem_singleton.1 hu]; exact hfirst
    · rintro f' t' ⟨_, c', l', e, rfl, _⟩
      cases e
      exact .inr ⟨(c, t), by simp, rfl, rfl⟩
  | again f t _ hm hbefore =>
    obtain ⟨_, k2, k3⟩ := notMissed hm
    refine ⟨⟨[], k2.symm, nofun, rfl⟩, ⟨[], k3.symm, nofun, rfl⟩, [], nofun, .nil, nofun, ?_, rfl⟩
    obtain ⟨_, c, l, rfl, rfl, _⟩ := hm
    rintro f' t' ⟨_, c', l', e, rfl, _⟩
    cases e
    exact .inl hbefore
  | nothing _ hun hno =>
    have k2 : unseenOf s.1 = [] := by
      rcases hshape with ⟨h1, _, _⟩ | ⟨c', t', l', out', e, hl⟩ | ⟨c', t', r', l', out', e, hl⟩
      · exact h1
      · subst e; exact absurd (by simp) (hun out')
      · subst e; rfl
    exact ⟨⟨[], k2.symm, nofun, rfl⟩, ⟨[], (lookedOf_nil hun).symm, nofun, rfl⟩, [], nofun, .nil, nofun, fun f t hm => absurd hm (hno f t), rfl⟩

end Necessist.Cmd

namespace Necessist.Cmd
open Run
variable {σ : Type} {x : Around σ} {cfg : Cfg} {plan : Plan}

/-- What all steps add up to. -/
theorem allReports_kinds {hist rs} (hh : Cmd.History cfg plan hist) (hr : AllReports x plan hist rs) :
    (∃ us : List (Candidate × Text × List UInt8), us.map (fun u => (u.1, u.2.1)) = unseenOf (hist.flatMap Prod.fst) ∧
      (∀ u ∈ us, .looked u.2.2 ∈ hist.flatMap Prod.snd) ∧
      ofKind .runTestFailed rs = us.map fun u => notRunReport x u.1 u.2.1 u.2.2) ∧
    (∃ gs : List (Candidate × List UInt8 × List (List UInt8)), gs.map (·.2.1) = lookedOf (hist.flatMap Prod.snd) ∧
      (∀ g ∈ gs, Exec.IsLines g.2.1 g.2.2 ∧ ∃ t r, .tested g.1 t r ∈ hist.flatMap Prod.fst) ∧
      ofKind .outputInvalid rs = gs.flatMap fun g => (g.2.2.filter fun l => (x.decode l).isNone).map (garbledReport x g.1)) ∧
    ∃ ms : List (Candidate × Text), (∀ u ∈ ms, ∃ s ∈ hist, Missed plan u.1.span.file u.2 s ∧ .tested u.1 u.2 (some .nonbuildable) ∈ s.1) ∧ (ms.map fun u => (u.1.span.file, u.2)).Nodup ∧
      (∀ f t, (∃ s ∈ hist, Missed plan f t s) → ∃ u ∈ ms, u.1.span.file = f ∧ u.2 = t) ∧
      ofKind .itMessageNotFound rs = ms.map fun u => missedReport x u.1 u.2 := by
  induction hr with
  | nil => exact ⟨⟨[], rfl, nofun, rfl⟩, ⟨[], rfl, nofun, rfl⟩, [], nofun, .nil, nofun, rfl⟩
  | snoc h rs s rs' _ hs ih =>
    have hsplit : Cmd.History cfg plan h ∧ Step cfg plan h s := by
      generalize hn : h ++ [s] = n at hh
      cases hh with
      | nil => simp at hn
      | snoc h' s' h1 h2 =>
        obtain ⟨rfl, e⟩ := List.append_inj' hn rfl
        obtain rfl : s = s' := by simpa using e
        exact ⟨h1, h2⟩
    obtain ⟨⟨us, u1, u2, u3⟩, ⟨gs, g1, g2, g3⟩, ms, m1, m2, m3, m4⟩ := ih hsplit.1
    obtain ⟨⟨us', u1', u2', u3'⟩, ⟨gs', g1', g2', g3'⟩, ms', m1', m2', m0, m3', m4'⟩ := reports_kinds hsplit.2 hs
    simp only [List.flatMap_append, List.flatMap_cons, List.flatMap_nil, List.append_nil]
    refine ⟨⟨us ++ us', by rw [List.map_append, u1, u1', unseenOf_append], fun u hu => ?_, by rw [ofKind_append, u3, u3', List.map_append]⟩,
      ⟨gs ++ gs', by rw [List.map_append, g1, g1', lookedOf_append], fun g hg => ?_, by rw [ofKind_append, g3, g3', List.flatMap_append]⟩,
      ms ++ ms', fun u hu => ?_, ?_, ?_, by rw [ofKind_append, m4, m4', List.map_append]⟩
    · rcases List.mem_append.1 hu with hu | hu
      · exact List.mem_append_left _ (u2 u hu)
      · exact List.mem_append_right _ (u2' u hu)
    · rcases List.mem_append.1 hg with hg | hg
      · obtain ⟨k1, t, r, k2⟩ := g2 g hg
        exact ⟨k1, t, r, List.mem_append_left _ k2⟩
      · obtain ⟨k1, t, r, k2⟩ := g2' g hg
        exact ⟨k1, t, r, List.mem_append_right _ k2⟩
    · rcases List.mem_append.1 hu with hu | hu
      · obtain ⟨s', k1, k2⟩ := m1 u hu
        exact ⟨s', List.mem_append_left _ k1, k2⟩
      · exact ⟨s, by simp, m1' u hu⟩
    · rw [List.map_append]
      refine List.nodup_append.2 ⟨m2, m2', fun a ha b hb e => ?_⟩
      subst e
      obtain ⟨u, hu, rfl⟩ := List.mem_map.1 ha
      obtain ⟨u', hu', e⟩ := List.mem_map.1 hb
      obtain ⟨s', k1, k2⟩ := m1 u hu
      simp only [Prod.mk.injEq] at e
      refine m0 u' hu' s' k1 ?_
      rw [e.1, e.2]
      exact k2.1
    · rintro f t ⟨s', hs', hm⟩
      have old : ∀ s' ∈ h, Missed plan f t s' → ∃ u ∈ ms ++ ms', u.1.span.file = f ∧ u.2 = t := fun s' hs' hm => by
        obtain ⟨u, hu, he⟩ := m3 f t ⟨s', hs', hm⟩
        exact ⟨u, List.mem_append_left _ hu, he⟩
      rcases List.mem_append.1 hs' with hs' | hs'
      · exact old s' hs' hm
      · rw [List.mem_singleton.1 hs'] at hm
        rcases m3' f t hm with ⟨s'', k1, k2⟩ | ⟨u, hu, he⟩
        · exact old s'' k1 k2
        · exact ⟨u, List.mem_append_right _ hu, he⟩

theorem ofKind_audible {o : WarnOpts} {k : Warning} (ha : Audible o k) (rs : List Report) : ofKind k (audible o rs) = ofKind k rs := by
  unfold ofKind audible
  rw [List.filter_filter]
  refine List.filter_congr fun r _ => ?_
  by_cases e : r.1 = k
  · simp [e, ha]
  · simp [e]

end Necessist.Cmd

namespace Necessist.Results
open Framework (Identifier)
open Run Main Cmd Sources Parse
open Walk (Chosen chosen_impl)

variable {V σ : Type} {h : Host V (St σ)} {o : Opts} {m : Machine (St σ)}
  {P : Parsers} {disk : Walk.Entry} {v : Bool} {rule : Cache.Path → Bool → Walk.Verdict} {alnum : Char → Bool}
  {x : Around σ} {caches : Rust.Caches} {parse : Text → Option Json}

theorem unseenOf_events (events : List Snap) : unseenOf (events.map (·.event)) = (testedOf events).filterMap fun q => if q.2.2 = none then some (q.1, q.2.1) else none := by
  induction events with
  | nil => rfl
  | cons s ss ih =>
    have e1 : unseenOf ((s :: ss).map (·.event)) = unseenOf [s.event] ++ unseenOf (ss.map (·.event)) := by rw [← unseenOf_append]; rfl
    have e2 : testedOf (s :: ss) = testedOf [s] ++ testedOf ss := by simp only [testedOf, ← List.filterMap_append]; rfl
    rw [e1, e2, ih, List.filterMap_append]
    congr 1
    unfold unseenOf testedOf
    cases he : s.event with
    | tested c t r => cases r <;> simp [he]
    | _ => simp [he]

theorem tested_events {events : List Snap} {c t r} (h : .tested c t r ∈ events.map (·.event)) : (c, t, r) ∈ testedOf events := by
  obtain ⟨s, hs, he⟩ := List.mem_map.1 h
  exact List.mem_filterMap.2 ⟨s, hs, by rw [he]⟩

section
variable (hl : Locates h) (hi : Sources.Implements P h o m disk v rule alnum) (hx : Executes P h o m disk v rule alnum x caches parse)
    (hm : x.Mute) (hw : x.warn = o.warn) (hrun : RunsTests o) (hz : (main h o m).1 = some 0) {i : Identifier} {plan : Plan} (hch : Chosen h o i)
    (hp : planOf (projectOf x) (flagsOf P) parse i = plan)
include hl hi hx hm hw hrun hz hch hp

/-- **C86.** If warnings of this kind are shown, then there is one for each time that a test ended in time and its output did not show that it ran, in order, with the candidate that was
removed, the test, and the output. -/
theorem C86_not_run (ha : Audible o.warn .runTestFailed) :
    ∃ events, ∃ us : List (Candidate × Text × List UInt8), (main h o m).2.trace = m.trace ++ events ∧
      us.map (fun u => (u.1, u.2.1)) = ((testedOf events).filter (·.2.2 = none)).map (fun q => (q.1, q.2.1)) ∧
      (∀ u ∈ us, .looked u.2.2 ∈ (main h o m).2.ext.ran) ∧
      ofKind .runTestFailed (newReports m (main h o m).2) = us.map fun u => notRunReport x u.1 u.2.1 u.2.2 := by
  obtain ⟨events, hist, rs, h1, h2, ⟨h3, h4⟩, h5, h6, _⟩ := C86_program hl hi hx hm hw hrun hz hch hp
  obtain ⟨us, u1, u2, u3⟩ := (allReports_kinds h2 h5).1
  refine ⟨events, us, h1, ?_, by rw [← h4]; exact u2, by rw [h6, ofKind_audible ha, u3]⟩
  rw [u1, h3, unseenOf_events]
  generalize testedOf events = l
  induction l with
  | nil => rfl
  | cons q l ih => by_cases hq : q.2.2 = none <;> simp [hq] <;> simpa using ih

/-- **C86.** If warnings of this kind are shown, then there is one for each line, of each output that was looked at, that is not text, in order, with the candidate that was
removed. -/
theorem C86_garbled (ha : Audible o.warn .outputInvalid) :
    ∃ events, ∃ gs : List (Candidate × List UInt8 × List (List UInt8)), (main h o m).2.trace = m.trace ++ events ∧
      gs.map (·.2.1) = lookedOf (main h o m).2.ext.ran ∧
      (∀ g ∈ gs, Exec.IsLines g.2.1 g.2.2 ∧ ∃ t r, (g.1, t, r) ∈ testedOf events) ∧
      ofKind .outputInvalid (newReports m (main h o m).2) = gs.flatMap fun g => (g.2.2.filter fun l => (x.decode l).isNone).map (garbledReport x g.1) := by
  obtain ⟨events, hist, rs, h1, h2, ⟨h3, h4⟩, h5, h6, _⟩ := C86_program hl hi hx hm hw hrun hz hch hp
  obtain ⟨gs, g1, g2, g3⟩ := (allReports_kinds h2 h5).2.1
  refine ⟨events, gs, h1, by rw [← h4]; exact g1, fun g hg => ?_, by rw [h6, ofKind_audible ha, g3]⟩
  obtain ⟨k1, t, r, k2⟩ := g2 g hg
  rw [h3] at k2
  exact ⟨k1, t, r, tested_events k2⟩

/-- **C86.** If warnings of this kind are shown, then there is exactly one for each test, of each file, that could not be run because it was not seen in the dry run of the file although
what has to succeed beforehand did, however often that was so; it is about a candidate for which it was so. There are none for frameworks whose dry runs do not tell which tests
there are. -/
theorem C86_missed (ha : Audible o.warn .itMessageNotFound) :
    ∃ events hist, ∃ ms : List (Candidate × Text), (main h o m).2.trace = m.trace ++ events ∧ Cmd.History (runCfg h o m) plan hist ∧
      Explains hist (events.map (·.event)) (main h o m).2.ext.ran ∧
      (ms.map fun u => (u.1.span.file, u.2)).Nodup ∧
      (∀ f t, (∃ s ∈ hist, Missed plan f t s) ↔ ∃ u ∈ ms, u.1.span.file = f ∧ u.2 = t) ∧
      (∀ u ∈ ms, plan.names ≠ none ∧ (u.1, u.2, some .nonbuildable) ∈ testedOf events) ∧
      ofKind .itMessageNotFound (newReports m (main h o m).2) = ms.map fun u => missedReport x u.1 u.2 := by
  obtain ⟨events, hist, rs, h1, h2, h3, h5, h6, _⟩ := C86_program hl hi hx hm hw hrun hz hch hp
  obtain ⟨ms, m1, m2, m3, m4⟩ := (allReports_kinds h2 h5).2.2
  refine ⟨events, hist, ms, h1, h2, h3, m2, fun f t => ⟨m3 f t, ?_⟩, fun u hu => ?_, by rw [h6, ofKind_audible ha, m4]⟩
  · rintro ⟨u, hu, rfl, rfl⟩
    obtain ⟨s, k1, k2, _⟩ := m1 u hu
    exact ⟨s, k1, k2⟩
  · obtain ⟨s, k1, k2, k3⟩ := m1 u hu
    refine ⟨k2.1, tested_events ?_⟩
    rw [← h3.1]
    exact List.mem_flatMap.2 ⟨s, k1, k3⟩

end
end Necessist.Results
