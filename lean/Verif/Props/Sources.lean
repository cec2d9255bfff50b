import Verif.Lemmas.SourcesSpans
import Verif.Props.Walk
/-!
# From source text to removal (C79)
-/
namespace Necessist.Sources
open Framework (Identifier)
open Parse Run Main Walk

variable {V σ : Type} {h : Host V σ} {o : Opts} {m : Machine σ}

/-- The paths that parsing starts from, in terms of the arguments. -/
theorem starting_iff {root fw paths} (hp : canonicalizeAll (projectBackend h o root m fw) o.sourceFiles = .ok paths) (p : Path) :
    p ∈ startingPaths (projectBackend h o root m fw) paths ↔ Target h o root p := by
  obtain ⟨hlen, hres⟩ := (C44_accepted _ _).1 hp
  have conv : ∀ {a : PathArg} {p : Path}, (projectBackend h o root m fw).canonicalize (if a.absolute then a.components else
      (projectBackend h o root m fw).root ++ a.components) = .ok p ↔
      h.canonicalize ⟨true, if a.absolute then a.components else root ++ a.components⟩ = some p := by
    intro a p
    have : (projectBackend h o root m fw).canonicalize (if a.absolute then a.components else
      (projectBackend h o root m fw).root ++ a.components) =
      canonicalizePath h (if a.absolute then a.components else root ++ a.components) := rfl
    rw [this, canonicalizePath]
    split
    · rename_i q hq; rw [hq]; simp
    · rename_i hq; rw [hq]; simp
  unfold startingPaths Target
  constructor
  · intro hmem
    split at hmem
    · rename_i hnil
      subst hnil
      exact Or.inl ⟨List.eq_nil_of_length_eq_zero (by simpa using hlen), List.mem_singleton.1 hmem⟩
    · right
      obtain ⟨j, hj⟩ := List.mem_iff_getElem?.1 hmem
      have hlt : j < paths.length := by
        refine Classical.byContradiction fun hn => ?_
        rw [List.getElem?_eq_none (by omega)] at hj; cases hj
      have ha : o.sourceFiles[j]? = some (o.sourceFiles[j]'(by omega)) := List.getElem?_eq_getElem _
      exact ⟨_, List.mem_of_getElem? ha, conv.mp (hres j _ p ha hj).1⟩
  · rintro (⟨hn, rfl⟩ | ⟨a, ha, hcan⟩)
    · have : paths = [] := List.eq_nil_of_length_eq_zero (by rw [← hlen, hn]; rfl)
      rw [if_pos this]; exact List.mem_singleton.2 rfl
    · obtain ⟨j, hj⟩ := List.mem_iff_getElem?.1 ha
      have hlt : j < o.sourceFiles.length := by
        refine Classical.byContradiction fun hn => ?_
        rw [List.getElem?_eq_none (by omega)] at hj; cases hj
      have hq : paths[j]? = some (paths[j]'(by omega)) := List.getElem?_eq_getElem _
      have hr := conv.mp (hres j a _ hj hq).1
      rw [hcan] at hr
      have hr : p = paths[j]'(by omega) := by simpa using hr
      rw [if_neg (fun hn => by rw [hn] at hlen; rw [hlen] at hlt; cases hlt), hr]
      exact List.mem_of_getElem? hq

/-- There is only one framework to choose. -/
theorem chosen_unique {fw} (hfw : Framework.backendFor Framework.Identifier.all Framework.Identifier.name
    (Framework.Identifier.applicable h.exists_) (h.impl m.ext) o.framework = .ok fw) {i j} (hi : Chosen h o i) (hj : Chosen h o j) : i = j := by
  rcases hi with hi | ⟨hi, hi'⟩
  · rcases hj with hj | ⟨hj, _⟩
    · rw [hi] at hj; cases hj; rfl
    · rw [hi] at hj; cases hj
  · rcases hj with hj | ⟨_, hj⟩
    · rw [hi] at hj; cases hj
    · rw [hi] at hfw
      obtain ⟨_, t, _, _, h2, _⟩ := (Framework.C42_auto_iff (by decide) fw).1 hfw
      rw [h2 i (by cases i <;> decide) hi', h2 j (by cases j <;> decide) hj]

theorem compiles_configures {b : Backend} {i user ws config} (hb : b.builtins = builtinsOf i) (h : Compiles b user ws config) :
    Configures b.alnum i user config := by
  obtain ⟨ms, ws', h⟩ := h
  unfold compileConfig at h
  rw [hb] at h
  split at h
  · cases h
  · exact (Prod.mk.inj h).1

theorem says_unique {alnum : Char → Bool} {ow : WarnOpts} {f contents d d'} (h1 : Says alnum ow f contents d) (h2 : Says alnum ow f contents d') :
    d = d' := by
  let b : Backend := ⟨[], fun p => .ok p, fun _ => .other, fun _ => .ok [], fun _ => .error [], ⟨none, none, none⟩, true, true, alnum, ow⟩
  rcases collect_spec b f contents .init with ⟨_, _, _, _, _, hun⟩ | ⟨_, _, hno⟩
  · have e1 : HasDirectives b f contents d := h1
    have e2 : HasDirectives b f contents d' := h2
    rw [hun _ e1, hun _ e2]
  · exact absurd (show HasDirectives b f contents d from h1) (hno _)

variable {P : Parsers} {disk : Walk.Entry} {v : Bool} {rule : Path → Bool → Walk.Verdict} {alnum : Char → Bool}

/-- The file is one that the framework looks at (C77), can be read, and its comments, which say `d`, do not ask to skip it. -/
def Searched (h : Host V σ) (o : Opts) (m : Machine σ) (P : Parsers) (disk : Walk.Entry) (v : Bool) (rule : Path → Bool → Walk.Verdict)
    (alnum : Char → Bool) (i : Identifier) (f : SourceFile) (d : Directives) : Prop :=
  (∃ p, Target h o P.root p ∧ LooksAt disk v i rule p (P.root ++ f.path)) ∧ h.unreadable f = none ∧
  Says alnum o.warn f (m.fs f) d ∧ d.skipFile = false

/-- **C79.** The candidates that are found are what may be removed, according to the language's grammar, the comments and the
configuration, from the files at which the chosen framework looks; and whatever has to be tried in them is among the candidates. -/
theorem C79_candidates (hi : Implements P h o m disk v rule alnum) {root fw nTests map ws st}
    (hc : FindsCandidates h o m root fw nTests map ws st) :
    ∃ i user config, Chosen h o i ∧ (∀ j, Chosen h o j → j = i) ∧ h.impl m.ext i = .ok (some fw) ∧
      Toml.read h.configStatFails m.config = .ok user ∧ Configures alnum i user config ∧
      (∀ f k s t, Recorded map f k s t → ∃ d, Searched h o m P disk v rule alnum i f d ∧
        (Usual P i config f → Removes P i config d f k s t)) ∧
      ∀ f k s t d, Searched h o m P disk v rule alnum i f d → Usual P i config f → Due P i config d f k s t → Recorded map f k s t := by
  obtain ⟨h0, _, user, paths, m1, pst, ws0, _, _, k0, k1, k2, k3, _, rfl, rfl, _⟩ := hc
  rw [hi.root] at h0; cases h0
  obtain ⟨i, hch, hfw⟩ := chosen_impl k1
  obtain ⟨e1, e2, e3, e4, e5, e6⟩ := hi.impl i fw hfw
  have hk : (projectBackend h o P.root m fw).kind = kindOf disk (walkerOf v i) rule := e1
  obtain ⟨config, hco, hrec⟩ := C41_union k3
  have hconf := compiles_configures (i := i) (b := projectBackend h o P.root m fw) e3 hco
  have hal : (projectBackend h o P.root m fw).alnum = alnum := e6
  rw [hal] at hconf
  have hgiven : ∀ f, Given (projectBackend h o P.root m fw) paths f ↔
      ∃ p, Target h o P.root p ∧ LooksAt disk v i rule p (P.root ++ f.path) := by
    intro f
    refine (C77_files hk _).trans (exists_congr fun p => ?_)
    rw [starting_iff k2]; rfl
  refine ⟨i, user, config, hch, fun j hj => chosen_unique k1 hj hch, hfw, k0, hconf, fun f k s t hr => ?_, fun f k s t d hs hu hd => ?_⟩
  · obtain ⟨hg, vs, ⟨contents, d, ast, fns, walked, r1, r2, r3, r4, r5, r6⟩, hf⟩ := (hrec f k s t).mp hr
    have hread : h.unreadable f = none ∧ contents = m.fs f := by
      have r1 : readFile h m f = .ok contents := r1
      unfold readFile at r1
      split at r1
      · cases r1
      · rename_i hn; cases r1; exact ⟨hn, rfl⟩
    obtain ⟨hn, rfl⟩ := hread
    refine ⟨d, ⟨(hgiven f).mp hg, hn, ?_, r3⟩, fun hu => ?_⟩
    · obtain ⟨st, st', ms, hd⟩ := r2
      rw [hal] at hd
      exact ⟨st, st', ms, hd⟩
    · rw [← hi.contents] at r6
      exact (visited (b := projectBackend h o P.root m fw) e2 e4 e5 hu r4 r5 r6).1 k s t hf
  · obtain ⟨hl, hn, hsay, hskip⟩ := hs
    have hg := (hgiven f).mpr hl
    obtain ⟨config', hco', _, hfine⟩ := C64_ok_iff.1 (show (parse (projectBackend h o P.root m fw) user paths m1.warns).1 = .ok () by rw [k3])
    cases hco.unique hco'
    obtain ⟨f', hf', contents, d', r1, r2, r3⟩ := hfine _ hg
    obtain rfl : f' = f := by
      have := List.append_cancel_left hf'
      obtain ⟨x⟩ := f'; obtain ⟨y⟩ := f; simp at this; simp [this]
    have hcontents : contents = m.fs f' := by
      have r1 : readFile h m f' = .ok contents := r1
      unfold readFile at r1
      rw [hn] at r1
      cases r1; rfl
    subst hcontents
    have hsay' : HasDirectives (projectBackend h o P.root m fw) f' (m.fs f') d := by
      obtain ⟨st, st', ms, hd⟩ := hsay
      rw [← hal] at hd
      exact ⟨st, st', ms, hd⟩
    obtain rfl : d' = d := by
      rcases collect_spec (projectBackend h o P.root m fw) f' (m.fs f') m1.warns with ⟨_, _, _, _, _, hun⟩ | ⟨_, _, hno⟩
      · rw [hun _ r2, hun _ hsay']
      · exact absurd hsay' (hno _)
    rcases r3 with r3 | ⟨e, r3, _⟩ | ⟨ast, fns, vs, walked, r4, r5, _, r6, _⟩
    · rw [hskip] at r3; cases r3
    · exfalso
      have r3 : fw.backend.parseFile f' = .error e := r3
      rw [e2] at r3
      cases i <;> (obtain ⟨file, hp, _⟩ := hd; simp [fileAst, hp, Except.map] at r3)
    · refine (hrec f' k s t).mpr ⟨hg, vs, ⟨m.fs f', d', ast, fns, walked, r1, r2, hskip, r4, r5, r6⟩, ?_⟩
      rw [← hi.contents] at r6
      exact (visited (b := projectBackend h o P.root m fw) e2 e4 e5 hu r4 r5 r6).2 k s t hd

theorem recorded_cand {map : FileMap} {f k s t} (hr : Recorded map f k s t) :
    ∃ c ∈ candidates map.toRun, c.span = s ∧ c.kind = k ∧ t ∈ c.tests := by
  obtain ⟨ms, h1, ts, h2, h3⟩ := (recorded_iff ..).mp hr
  exact ⟨⟨s, k, ts⟩, List.mem_flatMap.mpr ⟨_, List.mem_map.mpr ⟨_, h1, rfl⟩, mem_candidates.mpr h2⟩, rfl, rfl, h3⟩

theorem cand_recorded {map : FileMap} (hok : FilesOk map.toRun) {c : Candidate} {t} (hc : c ∈ candidates map.toRun) (ht : t ∈ c.tests) :
    Recorded map c.span.file c.kind c.span t := by
  obtain ⟨x, hx, hcx⟩ := List.mem_flatMap.1 hc
  obtain ⟨y, hy, rfl⟩ := List.mem_map.1 hx
  rw [(hok.2 _ hx).1 c hcx]
  exact (recorded_iff ..).mpr ⟨y.2, hy, _, mem_candidates.mp hcx, ht⟩

/-- **C79.** Whatever is removed while a test is built or executed is something that may be removed for this test, according to the grammar of
the file's language, the file's comments, and the configuration with the framework's own names; and the file is one at which the chosen
framework looks. -/
theorem C79_sound (hl : Locates h) (hi : Implements P h o m disk v rule alnum) :
    ∃ events, (main h o m).2.trace = m.trace ++ events ∧ ∀ s ∈ events, ∀ c t,
      (s.event = .buildTest c t ∨ ∃ var, s.event = .startTest c t var) →
      ∃ i user config d, Chosen h o i ∧ Toml.read h.configStatFails m.config = .ok user ∧ Configures alnum i user config ∧
        Searched h o m P disk v rule alnum i c.span.file d ∧
        (Usual P i config c.span.file → Removes P i config d c.span.file c.kind c.span t) := by
  obtain ⟨events, h1, h2⟩ := C10_program_nothing_else (o := o) (m := m) (spansInFile hl)
  refine ⟨events, h1, fun s hsm c t hev => ?_⟩
  obtain ⟨root, fw, nT, map, ws, st, hc, hmeant⟩ := h2 (fun hn => by rw [hn] at hsm; cases hsm)
  have hct : c ∈ candidates map.toRun ∧ t ∈ c.tests := by
    have := hmeant s hsm
    rcases hev with he | ⟨var, he⟩ <;> rw [he] at this <;> exact this
  obtain ⟨i, user, config, hch, _, _, huser, hconf, hsound, _⟩ := C79_candidates hi hc
  obtain ⟨d, hd, hr⟩ := hsound _ _ _ _ (cand_recorded (hc.filesOk (spansInFile hl)) hct.1 hct.2)
  exact ⟨i, user, config, d, hch, huser, hconf, hd, hr⟩

/-- **C79.** If the program succeeds and started with no results, then whatever has to be tried for a test, in a file at which the chosen
framework looks, was dealt with: it is a candidate `c` for this test (among others), of which the database says that it was skipped, if its file's dry run
failed; otherwise the candidate's tests were run without it, up to the first one that did not pass, and the database has the result,
if there is one. -/
theorem C79_complete (hl : Locates h) (hi : Implements P h o m disk v rule alnum) (hrun : RunsTests o) (hn : o.noSqlite = false)
    (hdb : m.db = .absent ∨ o.reset = true) {m'} (hr : main h o m = (some 0, m')) {i user config f d kind span t}
    (hch : Chosen h o i) (huser : Toml.read h.configStatFails m.config = .ok user) (hconf : Configures alnum i user config)
    (hf : Searched h o m P disk v rule alnum i f d) (hu : Usual P i config f) (hd : Due P i config d f kind span t) :
    ∃ events c text rows, m'.trace = m.trace ++ events ∧ m'.db = .table rows ∧ c.span = span ∧ c.kind = kind ∧ t ∈ c.tests ∧
      HasText m.fs c text ∧
      ((span.file ∈ failedOf events ∧ ∃ url, Row.mk span.display text "skipped".toList url ∈ rows) ∨
       (span.file ∉ failedOf events ∧ ∃ results v, Verdict c.tests results v ∧ (∀ r ∈ results, (c, r.1, r.2) ∈ testedOf events) ∧
         ∀ x, v = some x → ∃ url, Row.mk span.display text x.display url ∈ rows)) := by
  obtain ⟨root, fw, nT, map, ws, st, events, hc, htr, log, rows, hlog, hrows, _, _, htested, hent⟩ := C10_program (spansInFile hl) hrun hn hdb hr
  obtain ⟨j, user', config', hch', huniq, _, huser', hconf', _, hcomp⟩ := C79_candidates hi hc
  cases huniq i hch
  rw [huser] at huser'; cases huser'
  have hce : config = config' := by
    unfold Configures at hconf hconf'
    rw [hconf] at hconf'
    simpa using hconf'
  subst hce
  obtain ⟨c, hcm, rfl, rfl, htc⟩ := recorded_cand (hcomp f kind span t d hf hu hd)
  rw [← hlog] at hcm
  obtain ⟨e, he, rfl⟩ := List.mem_map.1 hcm
  rcases hent e he with ⟨c, text, rfl, h1, h2, h3⟩ | ⟨c, text, results, v, rfl, h1, h2, h3, h4⟩
  · exact ⟨events, c, text, rows, htr, hrows, rfl, rfl, htc, h2, Or.inl ⟨h1, h3⟩⟩
  · refine ⟨events, c, text, rows, htr, hrows, rfl, rfl, htc, h2, Or.inr ⟨h1, results, v, h3, fun r hrm => ?_, h4⟩⟩
    rw [htested]
    exact List.mem_flatMap.mpr ⟨_, he, List.mem_map.mpr ⟨r, hrm, rfl⟩⟩

/-- Every candidate belongs to a test. -/
theorem cand_tests {root fw nTests map ws st} (hf : FindsCandidates h o m root fw nTests map ws st) {c} (hc : c ∈ candidates map.toRun) :
    c.tests ≠ [] := by
  obtain ⟨_, _, config, paths, m1, pst, ws0, _, _, _, _, _, hparse, _, rfl, _⟩ := hf
  obtain ⟨_, _, h2, _, _⟩ := parse_ok hparse
  obtain ⟨x, hx, hc⟩ := List.mem_flatMap.1 hc
  obtain ⟨⟨f, ms⟩, hm, rfl⟩ := List.mem_map.1 hx
  have hc := mem_candidates.1 hc
  have hg : SpanMap.Good (ms.of c.kind) := by
    cases hk : c.kind with
    | statement => exact (h2.maps _ _ hm).1
    | methodCall => exact (h2.maps _ _ hm).2
  exact (hg.tests _ _ hc).1

/-- **C79.** What `--dump-candidates` lists, if it succeeds: only what may be removed, and all that has to be tried. -/
theorem C79_listed (hl : Locates h) (hi : Implements P h o m disk v rule alnum) (hd : o.dumpCandidates = true) {n m'}
    (hr : necessist h o m = (.ok n, m')) :
    ∃ i user config ws lines, Chosen h o i ∧ Toml.read h.configStatFails m.config = .ok user ∧ Configures alnum i user config ∧
      m'.console = m.console ++ List.map .warning ws ++ List.map .text lines ∧
      (∀ l ∈ lines, ∃ c d, ShownCandidate h o P.root m.fs c l ∧ c.tests ≠ [] ∧
        Searched h o m P disk v rule alnum i c.span.file d ∧
        (Usual P i config c.span.file → ∀ t ∈ c.tests, Removes P i config d c.span.file c.kind c.span t)) ∧
      ∀ f d kind span t, Searched h o m P disk v rule alnum i f d → Usual P i config f → Due P i config d f kind span t →
        ∃ l ∈ lines, ∃ c, c.span = span ∧ c.kind = kind ∧ t ∈ c.tests ∧ ShownCandidate h o P.root m.fs c l := by
  obtain ⟨root, fw, nT, map, ws, st, hc, lines, hcon, hlen, hshown⟩ := C61_candidates hd hr
  have hroot : root = P.root := by
    have := hc.1
    rw [hi.root] at this; cases this; rfl
  subst hroot
  obtain ⟨i, user, config, hch, _, _, huser, hconf, hsound, hcomp⟩ := C79_candidates hi hc
  refine ⟨i, user, config, ws, lines, hch, huser, hconf, hcon, fun l hlm => ?_, fun f d kind span t hs hu hdue => ?_⟩
  · obtain ⟨k, hk⟩ := List.mem_iff_getElem?.1 hlm
    have hlt : k < (candidates map.toRun).length := by
      rw [← hlen]
      refine Classical.byContradiction fun hn => ?_
      rw [List.getElem?_eq_none (by omega)] at hk; cases hk
    have hck : (candidates map.toRun)[k]? = some ((candidates map.toRun)[k]'hlt) := List.getElem?_eq_getElem _
    generalize (candidates map.toRun)[k]'hlt = c at hck
    have hcm := List.mem_of_getElem? hck
    have hne := cand_tests hc hcm
    obtain ⟨t, ht⟩ := List.exists_mem_of_ne_nil _ hne
    obtain ⟨d, hsd, _⟩ := hsound _ _ _ _ (cand_recorded (hc.filesOk (spansInFile hl)) hcm ht)
    refine ⟨c, d, hshown k c l hck hk, hne, hsd, fun hu t ht => ?_⟩
    obtain ⟨d', hsd', hr'⟩ := hsound _ _ _ _ (cand_recorded (hc.filesOk (spansInFile hl)) hcm ht)
    obtain rfl : d' = d := says_unique hsd'.2.2.1 hsd.2.2.1
    exact hr' hu
  · obtain ⟨c, hcm, h1, h2, h3⟩ := recorded_cand (hcomp f kind span t d hs hu hdue)
    obtain ⟨k, hk⟩ := List.mem_iff_getElem?.1 hcm
    have hlt : k < lines.length := by
      rw [hlen]
      refine Classical.byContradiction fun hn => ?_
      rw [List.getElem?_eq_none (by omega)] at hk; cases hk
    have hlk : lines[k]? = some (lines[k]'hlt) := List.getElem?_eq_getElem _
    exact ⟨_, List.mem_of_getElem? hlk, c, h1, h2, h3, hshown k c _ hk hlk⟩

end Necessist.Sources
