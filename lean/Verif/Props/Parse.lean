import Verif.Lemmas.Parse
import Verif.Props.Visitor
import Verif.Props.Report
import Verif.Spec.Resume
/-!
# C41, C64, C44: which candidates parsing finds, files that cannot be parsed, paths outside of the root
-/
namespace Necessist.Parse
open Visit Run Std

variable {b : Backend} {user : Toml} {paths : List Path} {ws : WStates}

/-- The configuration that is used (C26, C28 say what it is). -/
def Compiles (b : Backend) (user : Toml) (ws : WStates) (config : Compiled) : Prop :=
  ∃ ms ws', compileConfig b.alnum b.warn ws b.builtins user = (some (.ok config), ms, ws')

theorem Compiles.unique {config config'} (h : Compiles b user ws config) (h' : Compiles b user ws config') : config = config' := by
  obtain ⟨_, _, h⟩ := h
  obtain ⟨_, _, h'⟩ := h'
  rw [h] at h'
  cases h'
  rfl

theorem parse_cases (b : Backend) (user : Toml) (paths : List Path) (ws : WStates) :
    (∃ config ms ws', compileConfig b.alnum b.warn ws b.builtins user = (some (.ok config), ms, ws') ∧
      parse b user paths ws =
        visitEntries b config ((startingPaths b paths).flatMap (entriesOf b)) { warns := ws', printed := ms }) ∨
    ((∀ config, ¬ Compiles b user ws config) ∧ (parse b user paths ws).1 ≠ .ok ()) := by
  unfold parse
  rcases h : compileConfig b.alnum b.warn ws b.builtins user with ⟨_ | ⟨_ | config⟩, ms, ws'⟩
  · exact Or.inr ⟨(by rintro c ⟨_, _, h'⟩; rw [h] at h'; cases h'), by simp⟩
  · exact Or.inr ⟨(by rintro c ⟨_, _, h'⟩; rw [h] at h'; cases h'), by simp⟩
  · left
    refine ⟨config, ms, ws', rfl, ?_⟩
    simp only [visitPaths_eq, startingPaths, List.isEmpty_iff]

theorem parse_ok {st} (h : parse b user paths ws = (.ok (), st)) : ∃ config, Compiles b user ws config ∧
    FileMap.Good st.map ∧
    (∀ e ∈ (startingPaths b paths).flatMap (entriesOf b), EntryFine b config e) ∧
    (∀ f, f ∈ st.map.map (·.1) ↔ Given b paths f ∧ ∃ vs, Yields b config f vs) ∧
    (∀ f k s t, Recorded st.map f k s t ↔ Given b paths f ∧ ∃ vs, Yields b config f vs ∧ (s, t) ∈ found vs k) ∧
    (∀ f contents d e, Given b paths f → b.read f = .ok contents → HasDirectives b f contents d → d.skipFile = false →
      b.parseFile f = .error e → Shows b.warn .parsingFailed →
      ∃ m ∈ st.printed, m.warning = .parsingFailed ∧ m.msg = parsingFailedMsg f e) := by
  rcases parse_cases b user paths ws with ⟨config, ms, ws', hc, he⟩ | ⟨_, he⟩
  · refine ⟨config, ⟨_, _, hc⟩, ?_⟩
    rw [he] at h
    rcases visitEntries_spec b config ((startingPaths b paths).flatMap (entriesOf b)) { warns := ws', printed := ms } .nil with
      ⟨h1, st', h2, h3, h4, h5, ms', h6, h7⟩ | ⟨_, h2⟩
    · rw [h2] at h; cases h
      refine ⟨h3, h1, fun f => ?_, fun f k s t => ?_, ?_⟩
      · rw [h4, inEntries_iff]; simp
      · rw [h5, inEntries_iff]; simp [Recorded]
      · intro f c d e hg g1 g2 g3 g4 g5
        obtain ⟨m, hm, hm'⟩ := h7 f c d e (inEntries_iff.2 hg) g1 g2 g3 g4 g5
        exact ⟨m, by rw [h6]; exact List.mem_append.2 (Or.inr hm), hm'⟩
    · rw [h] at h2; exact absurd rfl h2
  · rw [h] at he; exact absurd rfl he

/-- **C41.** After successful parsing, a test is associated with a span of a file iff the file is given and, taken by itself,
yields the span for the test. -/
theorem C41_union {st} (h : parse b user paths ws = (.ok (), st)) : ∃ config, Compiles b user ws config ∧
    ∀ f k s t, Recorded st.map f k s t ↔ Given b paths f ∧ ∃ vs, Yields b config f vs ∧ (s, t) ∈ found vs k := by
  obtain ⟨config, h1, _, _, _, h2, _⟩ := parse_ok h
  exact ⟨config, h1, h2⟩

/-- **C41.** The files with an entry are those given that are not skipped and can be parsed. -/
theorem C41_files {st} (h : parse b user paths ws = (.ok (), st)) : ∃ config, Compiles b user ws config ∧
    ∀ f, (∃ m, (f, m) ∈ st.map) ↔ Given b paths f ∧ ∃ vs, Yields b config f vs := by
  obtain ⟨config, h1, _, _, h2, _, _⟩ := parse_ok h
  refine ⟨config, h1, fun f => ?_⟩
  rw [← h2]; simp

/-- **C41.** Files come in ascending order, each once; so do the spans of each kind within a file; every span has at least one
test, and none twice. -/
theorem C41_sorted {st} (h : parse b user paths ws = (.ok (), st)) :
    (st.map.Pairwise fun x y => x.1.cmp y.1 = .lt) ∧
    ∀ f m, (f, m) ∈ st.map → ∀ l, l = m.statement ∨ l = m.methodCall →
      (l.Pairwise fun x y => x.1.cmp y.1 = .lt) ∧ ∀ s ts, (s, ts) ∈ l → ts ≠ [] ∧ ts.Nodup := by
  obtain ⟨config, _, h1, _⟩ := parse_ok h
  refine ⟨h1.asc, fun f m hm l hl => ?_⟩
  obtain ⟨a, c⟩ := h1.maps f m hm
  rcases hl with rfl | rfl
  · exact ⟨a.asc, a.tests⟩
  · exact ⟨c.asc, c.tests⟩

theorem spans_iff {m : SpanMap} (hm : SpanMap.Good m) (s : Span) : s ∈ m.map (·.1) ↔ ∃ t, SpanMap.Has m s t := by
  constructor
  · intro h
    obtain ⟨⟨s', ts⟩, h1, rfl⟩ := List.mem_map.1 h
    obtain ⟨t, ht⟩ := List.exists_mem_of_ne_nil _ (hm.tests _ _ h1).1
    exact ⟨t, ts, h1, ht⟩
  · rintro ⟨t, ts, h1, _⟩
    exact List.mem_map.2 ⟨_, h1, rfl⟩

/-- Two maps of files are the same up to the order in which a span's tests are listed. -/
def SameMap (x y : FileMap) : Prop :=
  x.map (·.1) = y.map (·.1) ∧
  ∀ f m m', (f, m) ∈ x → (f, m') ∈ y → ∀ k,
    (m.of k).map (·.1) = (m'.of k).map (·.1) ∧
    ∀ s ts ts', (s, ts) ∈ m.of k → (s, ts') ∈ m'.of k → ts.Perm ts'

theorem sameMap_of {x y : FileMap} (hx : FileMap.Good x) (hy : FileMap.Good y) (hk : ∀ f, f ∈ x.map (·.1) ↔ f ∈ y.map (·.1))
    (hr : ∀ f k s t, Recorded x f k s t ↔ Recorded y f k s t) : SameMap x y := by
  refine ⟨hx.asc.keys_ext hy.asc hk, fun f m m' h1 h2 k => ?_⟩
  have g1 : SpanMap.Good (m.of k) := match k with | .statement => (hx.maps f m h1).1 | .methodCall => (hx.maps f m h1).2
  have g2 : SpanMap.Good (m'.of k) := match k with | .statement => (hy.maps f m' h2).1 | .methodCall => (hy.maps f m' h2).2
  have hh : ∀ s t, SpanMap.Has (m.of k) s t ↔ SpanMap.Has (m'.of k) s t := by
    intro s t
    have := hr f k s t
    rw [recorded_iff, recorded_iff] at this
    constructor
    · intro h
      obtain ⟨m2, e1, e2⟩ := this.1 ⟨m, h1, h⟩
      rwa [hy.asc.unique h2 e1]
    · intro h
      obtain ⟨m2, e1, e2⟩ := this.2 ⟨m', h2, h⟩
      rwa [hx.asc.unique h1 e1]
  refine ⟨g1.asc.keys_ext g2.asc fun s => ?_, fun s ts ts' e1 e2 => ?_⟩
  · rw [spans_iff g1, spans_iff g2]; simp only [hh]
  · refine (List.perm_ext_iff_of_nodup (g1.tests _ _ e1).2 (g2.tests _ _ e2).2).2 fun t => ?_
    constructor
    · intro ht
      obtain ⟨ts2, a1, a2⟩ := (hh s t).1 ⟨ts, e1, ht⟩
      rwa [g2.asc.unique e2 a1]
    · intro ht
      obtain ⟨ts2, a1, a2⟩ := (hh s t).2 ⟨ts', e2, ht⟩
      rwa [g1.asc.unique e1 a1]

/-- **C41.** The order in which files are visited, and how often each is, does not matter: paths that stand for the same files
give the same result. -/
theorem C41_order_irrelevant {paths' : List Path} {st st'} (h : parse b user paths ws = (.ok (), st))
    (h' : parse b user paths' ws = (.ok (), st')) (hsame : ∀ f, Given b paths f ↔ Given b paths' f) :
    SameMap st.map st'.map := by
  obtain ⟨c, h1, h2, _, h3, h4, _⟩ := parse_ok h
  obtain ⟨c', g1, g2, _, g3, g4, _⟩ := parse_ok h'
  cases h1.unique g1
  exact sameMap_of h2 g2 (fun f => by rw [h3, g3, hsame]) (fun f k s t => by rw [h4, g4, hsame])

/-- **C41.** In particular a permutation of the paths, or repeating some of them, changes nothing, not even whether parsing
succeeds. -/
theorem C41_permute_repeat {paths' : List Path} (hp : ∀ p, p ∈ paths ↔ p ∈ paths') {st} (h : parse b user paths ws = (.ok (), st)) :
    ∃ st', parse b user paths' ws = (.ok (), st') ∧ SameMap st.map st'.map := by
  have hs : ∀ p, p ∈ startingPaths b paths ↔ p ∈ startingPaths b paths' := by
    unfold startingPaths
    cases paths with
    | nil =>
      have : paths' = [] := List.eq_nil_iff_forall_not_mem.2 fun p h => by simpa using (hp p).2 h
      simp [this]
    | cons x xs =>
      have : paths' ≠ [] := fun e => by have := (hp x).1 List.mem_cons_self; simp [e] at this
      simpa [this] using hp
  have hg : ∀ f, Given b paths f ↔ Given b paths' f := by
    intro f; unfold Given GivenPath; simp only [hs]
  obtain ⟨c, ⟨ms, ws', hc⟩, _, h3, _⟩ := parse_ok h
  rcases parse_cases b user paths' ws with ⟨c', ms', ws'', hc', he⟩ | ⟨hn, _⟩
  · rw [hc] at hc'; cases hc'
    have h3' : ∀ e ∈ (startingPaths b paths').flatMap (entriesOf b), EntryFine b c e := by
      intro e he
      rw [mem_entries] at he
      obtain ⟨p, hp, hx⟩ := he
      exact h3 e (mem_entries.2 ⟨p, (hs p).2 hp, hx⟩)
    rcases visitEntries_spec b c ((startingPaths b paths').flatMap (entriesOf b)) { warns := ws', printed := ms } .nil with
      ⟨_, st', h2, _⟩ | ⟨h2, _⟩
    · have h' : parse b user paths' ws = (.ok (), st') := by rw [he, h2]
      exact ⟨st', h', C41_order_irrelevant h h' hg⟩
    · exact absurd h3' h2
  · exact absurd ⟨_, _, hc⟩ (hn c)

/-- Every span that a file yields lies in that file (the parsers build spans with the file they are given). -/
def OwnSpans (b : Backend) : Prop :=
  ∀ config f vs, Yields b config f vs → ∀ k s t, (s, t) ∈ found vs k → s.file = f

theorem mem_candidates {m : Maps} {c : Candidate} : c ∈ m.candidates ↔ (c.span, c.tests) ∈ m.of c.kind := by
  obtain ⟨s, k, ts⟩ := c
  unfold Maps.candidates
  rw [List.mem_append, List.mem_map, List.mem_map]
  cases k <;> simp [Maps.of]

/-- **C41.** What the run is given: each file once, in ascending order, with its own candidates, the statements before the
method calls. This is what the theorems about the run (C01 to C18) assume. -/
theorem C41_run_input (hown : OwnSpans b) {st} (h : parse b user paths ws = (.ok (), st)) :
    FilesOk st.map.toRun ∧ (st.map.toRun.Pairwise fun x y => x.1.cmp y.1 = .lt) ∧
    (∀ f cs, (f, cs) ∈ st.map.toRun → ∃ ss ms, cs = ss ++ ms ∧ (∀ c ∈ ss, c.kind = .statement) ∧ (∀ c ∈ ms, c.kind = .methodCall) ∧
      (ss.Pairwise fun x y => x.span.cmp y.span = .lt) ∧ ms.Pairwise fun x y => x.span.cmp y.span = .lt) ∧
    ∀ f k s t, Recorded st.map f k s t ↔ ∃ cs, (f, cs) ∈ st.map.toRun ∧ ∃ c ∈ cs, c.span = s ∧ c.kind = k ∧ t ∈ c.tests := by
  obtain ⟨config, h1, h2, _, h3, h4, _⟩ := parse_ok h
  have hasc : st.map.toRun.Pairwise fun x y => x.1.cmp y.1 = .lt := by
    unfold FileMap.toRun; exact List.pairwise_map.2 h2.asc
  refine ⟨⟨?_, ?_⟩, hasc, ?_, ?_⟩
  · refine List.pairwise_map.2 (hasc.imp fun {x y} hxy e => ?_)
    rw [e] at hxy; simp [ReflCmp.compare_self] at hxy
  · rintro ⟨f, cs⟩ hx
    obtain ⟨⟨f', m⟩, hm, e⟩ := List.mem_map.1 hx
    obtain ⟨rfl, rfl⟩ := Prod.mk.inj e
    simp only at *
    refine ⟨fun c hc => ?_, _, _, rfl, ?_, ?_⟩
    · have hc := mem_candidates.1 hc
      have hg : SpanMap.Good (m.of c.kind) := by
        cases hk : c.kind with
        | statement => exact (h2.maps _ _ hm).1
        | methodCall => exact (h2.maps _ _ hm).2
      obtain ⟨t, ht⟩ := List.exists_mem_of_ne_nil _ (hg.tests _ _ hc).1
      obtain ⟨_, vs, hy, hv⟩ := (h4 f' c.kind c.span t).1 ((recorded_iff ..).2 ⟨m, hm, c.tests, hc, ht⟩)
      exact hown config f' vs hy c.kind c.span t hv
    · intro c hc; obtain ⟨_, _, rfl⟩ := List.mem_map.1 hc; rfl
    · intro c hc; obtain ⟨_, _, rfl⟩ := List.mem_map.1 hc; simp
  · intro f cs hx
    obtain ⟨⟨f', m⟩, hm, e⟩ := List.mem_map.1 hx
    cases e
    refine ⟨_, _, rfl, ?_, ?_, ?_, ?_⟩
    · intro c hc; obtain ⟨_, _, rfl⟩ := List.mem_map.1 hc; rfl
    · intro c hc; obtain ⟨_, _, rfl⟩ := List.mem_map.1 hc; rfl
    · exact List.pairwise_map.2 (h2.maps _ _ hm).1.asc
    · exact List.pairwise_map.2 (h2.maps _ _ hm).2.asc
  · intro f k s t
    rw [recorded_iff]
    constructor
    · rintro ⟨m, hm, ts, h5, ht⟩
      exact ⟨_, List.mem_map.2 ⟨_, hm, rfl⟩, ⟨s, k, ts⟩, mem_candidates.2 h5, rfl, rfl, ht⟩
    · rintro ⟨cs, hcs, c, hc, rfl, rfl, ht⟩
      obtain ⟨⟨f', m⟩, hm, e⟩ := List.mem_map.1 hcs
      cases e
      exact ⟨m, hm, _, mem_candidates.1 hc, ht⟩

/-! ### C64 -/

/-- **C64.** Parsing succeeds iff the configuration compiles, no directory walk fails, every given file is under the root and
can be processed by itself; so no file is passed over for another reason than its own, and in any other case there is an error
(or a panic) and no result. -/
theorem C64_ok_iff : (parse b user paths ws).1 = .ok () ↔
    ∃ config, Compiles b user ws config ∧
      (∀ p ∈ startingPaths b paths, ∀ es, b.kind p = .dir es → ∀ e, .error e ∉ es) ∧
      ∀ q, GivenPath b paths q → ∃ f : SourceFile, q = b.root ++ f.path ∧ Fine b config f := by
  have hent : ∀ config, (∀ e ∈ (startingPaths b paths).flatMap (entriesOf b), EntryFine b config e) ↔
      (∀ p ∈ startingPaths b paths, ∀ es, b.kind p = .dir es → ∀ e, .error e ∉ es) ∧
      ∀ q, GivenPath b paths q → ∃ f : SourceFile, q = b.root ++ f.path ∧ Fine b config f := by
    intro config
    constructor
    · intro h
      refine ⟨fun p hp es hk e he => ?_, fun q hq => ?_⟩
      · obtain ⟨_, _, h', _⟩ := h _ (mem_entries.2 ⟨p, hp, Or.inr ⟨es, hk, he⟩⟩)
        cases h'
      · obtain ⟨p, hp, hx⟩ := hq
        have : Except.ok (q, true) ∈ (startingPaths b paths).flatMap (entriesOf b) := by
          refine mem_entries.2 ⟨p, hp, ?_⟩
          rcases hx with ⟨hk, rfl⟩ | hx
          · exact Or.inl ⟨hk, rfl⟩
          · exact Or.inr hx
        obtain ⟨_, _, h', h2⟩ := h _ this
        cases h'
        exact h2 rfl
    · rintro ⟨h1, h2⟩ e he
      obtain ⟨p, hp, ⟨hk, rfl⟩ | ⟨es, hk, hin⟩⟩ := mem_entries.1 he
      · exact ⟨p, true, rfl, fun _ => h2 p ⟨p, hp, Or.inl ⟨hk, rfl⟩⟩⟩
      · cases e with
        | error e => exact absurd hin (h1 p hp es hk e)
        | ok x =>
          obtain ⟨q, isFile⟩ := x
          refine ⟨q, isFile, rfl, fun hf => ?_⟩
          subst hf
          exact h2 q ⟨p, hp, Or.inr ⟨es, hk, hin⟩⟩
  constructor
  · intro h
    rcases hp : parse b user paths ws with ⟨r, st⟩
    rw [hp] at h; simp only at h; subst h
    obtain ⟨config, h1, _, h2, _⟩ := parse_ok hp
    exact ⟨config, h1, (hent config).1 h2⟩
  · rintro ⟨config, ⟨ms, ws', hc⟩, h2⟩
    rcases parse_cases b user paths ws with ⟨c', ms', ws'', hc', he⟩ | ⟨hn, _⟩
    · rw [hc] at hc'; cases hc'
      rcases visitEntries_spec b config ((startingPaths b paths).flatMap (entriesOf b)) { warns := ws', printed := ms } .nil with
        ⟨_, st', h3, _⟩ | ⟨h3, _⟩
      · rw [he, h3]
      · exact absurd ((hent config).2 h2) h3
    · exact absurd ⟨_, _, hc⟩ (hn config)

/-- **C64.** A file that cannot be parsed (and is not marked to be skipped) is reported, unless `--allow` or `--quiet` asks not
to; it has no candidates. -/
theorem C64_reported {st} (h : parse b user paths ws = (.ok (), st)) {f contents d e} (hg : Given b paths f)
    (hread : b.read f = .ok contents) (hd : HasDirectives b f contents d) (hskip : d.skipFile = false)
    (hparse : b.parseFile f = .error e) :
    (Shows b.warn .parsingFailed → ∃ m ∈ st.printed, m.warning = .parsingFailed ∧ 
      m.msg = "failed to parse \"".toList ++ f.display ++ "\": ".toList ++ e) ∧
    (∀ m, (f, m) ∉ st.map) ∧ ∀ k s t, ¬ Recorded st.map f k s t := by
  obtain ⟨config, _, _, _, h3, h4, h5⟩ := parse_ok h
  have hy : ∀ vs, ¬ Yields b config f vs := by
    rintro vs ⟨_, _, _, _, _, _, _, _, h', _⟩; rw [hparse] at h'; cases h'
  refine ⟨h5 f contents d e hg hread hd hskip hparse, fun m hm => ?_, fun k s t hr => ?_⟩
  · obtain ⟨_, vs, hv⟩ := (h3 f).1 (List.mem_map.2 ⟨_, hm, rfl⟩)
    exact hy vs hv
  · obtain ⟨_, vs, hv, _⟩ := (h4 f k s t).1 hr
    exact hy vs hv

/-- **C64.** If such warnings are denied, parsing fails. -/
theorem C64_denied {f contents d e} (hg : Given b paths f) (hread : b.read f = .ok contents)
    (hd : HasDirectives b f contents d) (hskip : d.skipFile = false) (hparse : b.parseFile f = .error e)
    (hden : Denied b.warn .parsingFailed) : (parse b user paths ws).1 ≠ .ok () := by
  intro h
  obtain ⟨config, _, _, hfine⟩ := C64_ok_iff.1 h
  obtain ⟨f', hf, contents', d', h1, h2, h3⟩ := hfine _ hg
  have hff : f' = f := by
    have := List.append_cancel_left hf
    obtain ⟨x⟩ := f'; obtain ⟨y⟩ := f; simp at this; simp [this]
  subst hff
  rw [hread] at h1; cases h1
  have : d' = d := by
    rcases collect_spec b f' contents ws with ⟨_, _, _, _, _, hu⟩ | ⟨_, _, hn⟩
    · rw [hu _ h2, hu _ hd]
    · exact absurd hd (hn _)
  subst this
  rcases h3 with h3 | ⟨_, _, h3⟩ | ⟨_, _, _, _, h3, _⟩
  · rw [hskip] at h3; cases h3
  · exact h3 hden
  · rw [hparse] at h3; cases h3

/-- The same project, except that the file `f` cannot be parsed. -/
def breakFile (b : Backend) (f : SourceFile) (e : Text) : Backend :=
  { b with parseFile := fun g => if g = f then .error e else b.parseFile g }

/-- **C64.** Breaking one file does not affect the others: if parsing succeeds and warnings about parsing are not denied, it
still succeeds, and the candidates of every other file are the same. -/
theorem C64_others_unaffected {st f e} (h : parse b user paths ws = (.ok (), st)) (hden : ¬ Denied b.warn .parsingFailed) :
    ∃ st', parse (breakFile b f e) user paths ws = (.ok (), st') ∧
      ∀ g, g ≠ f → ∀ k s t, Recorded st'.map g k s t ↔ Recorded st.map g k s t := by
  have hok : (parse (breakFile b f e) user paths ws).1 = .ok () := by
    obtain ⟨config, h1, h2, h3⟩ := C64_ok_iff.1 (show (parse b user paths ws).1 = .ok () by rw [h])
    refine C64_ok_iff.2 ⟨config, h1, h2, fun q hq => ?_⟩
    obtain ⟨g, hg, c, d, p1, p2, p3⟩ := h3 q hq
    refine ⟨g, hg, c, d, p1, p2, ?_⟩
    by_cases hgf : g = f
    · rcases p3 with p3 | _
      · exact Or.inl p3
      · exact Or.inr (Or.inl ⟨e, by simp [breakFile, hgf], hden⟩)
    · rcases p3 with p3 | ⟨e', p3, p4⟩ | ⟨ast, fns, vs, walked, p3, p4⟩
      · exact Or.inl p3
      · exact Or.inr (Or.inl ⟨e', by simpa [breakFile, hgf] using p3, p4⟩)
      · exact Or.inr (Or.inr ⟨ast, fns, vs, walked, by simpa [breakFile, hgf] using p3, p4⟩)
  rcases hp : parse (breakFile b f e) user paths ws with ⟨r, st'⟩
  rw [hp] at hok; simp only at hok; subst hok
  refine ⟨st', rfl, fun g hg k s t => ?_⟩
  obtain ⟨c, h1, h2⟩ := C41_union h
  obtain ⟨c', g1, g2⟩ := C41_union hp
  cases h1.unique (config' := c') g1
  rw [h2, g2]
  have hy : ∀ vs, Yields (breakFile b f e) c g vs ↔ Yields b c g vs := by
    intro vs
    unfold Yields
    have : (breakFile b f e).parseFile g = b.parseFile g := by simp [breakFile, hg]
    rw [this]
    rfl
  simp only [hy]
  rfl

/-! ### C44 -/

/-- Where an argument leads. -/
def ResolvesTo (b : Backend) (a : PathArg) (p : Path) : Prop :=
  b.canonicalize (if a.absolute then a.components else b.root ++ a.components) = .ok p

/-- **C44.** The arguments are accepted iff each resolves to a path that is the root or lies under it, and these paths are the
result; nothing else is accepted. -/
theorem C44_accepted (args : List PathArg) (ps : List Path) :
    canonicalizeAll b args = .ok ps ↔ args.length = ps.length ∧
      ∀ (i : Nat) a p, args[i]? = some a → ps[i]? = some p → ResolvesTo b a p ∧ b.root <+: p := by
  have one : ∀ a p, canonicalizeOne b a = .ok p ↔ ResolvesTo b a p ∧ b.root <+: p := by
    intro a p
    unfold canonicalizeOne ResolvesTo
    cases b.canonicalize (if a.absolute then a.components else b.root ++ a.components) with
    | error e => simp
    | ok q =>
      simp only [Except.ok.injEq]
      by_cases hq : b.root.isPrefixOf q
      · have := List.isPrefixOf_iff_prefix.1 hq
        simp only [hq, if_true, Except.ok.injEq]
        exact ⟨fun h => ⟨h, h ▸ this⟩, fun h => h.1⟩
      · simp only [hq]
        refine ⟨fun h => (by cases h), fun ⟨h, h'⟩ => ?_⟩
        subst h
        exact absurd (List.isPrefixOf_iff_prefix.2 h') hq
  induction args generalizing ps with
  | nil =>
    cases ps with
    | nil => simp [canonicalizeAll]
    | cons p ps => simp [canonicalizeAll]
  | cons a as ih =>
    rw [canonicalizeAll]
    cases h1 : canonicalizeOne b a with
    | error e =>
      simp only
      refine ⟨fun h => (by cases h), fun ⟨hl, h⟩ => ?_⟩
      cases ps with
      | nil => simp at hl
      | cons p ps => rw [(one a p).2 (h 0 a p rfl rfl)] at h1; cases h1
    | ok p =>
      simp only
      cases h2 : canonicalizeAll b as with
      | error e =>
        simp only
        refine ⟨fun h => (by cases h), fun ⟨hl, h⟩ => ?_⟩
        cases ps with
        | nil => simp at hl
        | cons q ps =>
          rw [(ih ps).2 ⟨by simpa using hl, fun i a p ha hp => h (i + 1) a p (by simpa using ha) (by simpa using hp)⟩] at h2
          cases h2
      | ok ps' =>
        simp only [Except.ok.injEq]
        constructor
        · rintro rfl
          obtain ⟨hl, h⟩ := (ih ps').1 h2
          refine ⟨by simp [hl], fun i a' p' ha hp => ?_⟩
          cases i with
          | zero => simp at ha hp; subst ha; subst hp; exact (one a p).1 h1
          | succ i => exact h i a' p' (by simpa using ha) (by simpa using hp)
        · rintro ⟨hl, h⟩
          cases ps with
          | nil => simp at hl
          | cons q ps =>
            have e1 := (one a q).2 (h 0 a q rfl rfl)
            rw [h1] at e1; cases e1
            have e2 := (ih ps).2 ⟨by simpa using hl, fun i a p ha hp => h (i + 1) a p (by simpa using ha) (by simpa using hp)⟩
            rw [h2] at e2; cases e2
            rfl

/-- **C44.** If one argument leads outside of the root, or nowhere, the result is an error. -/
theorem C44_refused (args : List PathArg) (a : PathArg) (ha : a ∈ args) (h : ∀ p, ResolvesTo b a p → ¬ b.root <+: p) :
    ∃ e, canonicalizeAll b args = .error e := by
  cases hc : canonicalizeAll b args with
  | error e => exact ⟨e, rfl⟩
  | ok ps =>
    obtain ⟨hl, hx⟩ := (C44_accepted args ps).1 hc
    obtain ⟨i, hi⟩ := List.mem_iff_getElem?.1 ha
    have hlt : i < args.length := by
      refine Classical.byContradiction fun hn => ?_
      rw [List.getElem?_eq_none (by omega)] at hi; cases hi
    have := hx i a (ps[i]'(by omega)) hi (List.getElem?_eq_getElem _)
    exact absurd this.2 (h _ this.1)

/-- **C44.** Whatever arguments were accepted, every file that is then looked at is a file of the project, provided that
walking a directory yields what is in it. In particular the assertion that a source file is under the root never fails. -/
theorem C44_only_under_root (args : List PathArg) (ps : List Path) (h : canonicalizeAll b args = .ok ps)
    (hwalk : ∀ p es q i, b.kind p = .dir es → .ok (q, i) ∈ es → p <+: q) (q : Path) (hq : GivenPath b ps q) :
    ∃ f : SourceFile, q = b.root ++ f.path ∧ Given b ps f := by
  have hst : ∀ p ∈ startingPaths b ps, b.root <+: p := by
    intro p hp
    unfold startingPaths at hp
    split at hp
    · rw [List.mem_singleton.1 hp]; exact List.prefix_rfl
    · obtain ⟨hl, hx⟩ := (C44_accepted args ps).1 h
      obtain ⟨i, hi⟩ := List.mem_iff_getElem?.1 hp
      have hlt : i < ps.length := by
        refine Classical.byContradiction fun hn => ?_
        rw [List.getElem?_eq_none (by omega)] at hi; cases hi
      exact (hx i (args[i]'(by omega)) p (List.getElem?_eq_getElem _) hi).2
  have hpre : b.root <+: q := by
    obtain ⟨p, hp, ⟨_, rfl⟩ | ⟨es, hk, hin⟩⟩ := hq
    · exact hst _ hp
    · exact (hst p hp).trans (hwalk p es q true hk hin)
  obtain ⟨t, rfl⟩ := hpre
  exact ⟨⟨t⟩, rfl, hq⟩

/-! ### C39: parsing ends -/

theorem warnP_no_hang (o : WarnOpts) (c : WarnCall) (st : PState) : (warnP o c st).1 ≠ .hang := by
  unfold warnP; split <;> simp

theorem warnsP_no_hang (o : WarnOpts) (cs : List WarnCall) (st : PState) : (warnsP o cs st).1 ≠ .hang := by
  induction cs generalizing st with
  | nil => simp [warnsP]
  | cons c cs ih =>
    rw [warnsP]
    have := warnP_no_hang o c st
    split
    · exact ih _
    · exact this

theorem visitPath_no_hang (b : Backend) (config : Compiled) (p : Path) (st : PState) : (visitPath b config p st).1 ≠ .hang := by
  unfold visitPath
  split
  · simp
  · rename_i f _
    unfold visitSource
    split
    · simp
    · split
      · simp
      · dsimp only
        split
        · simp
        · split
          · exact warnP_no_hang _ _ _
          · split
            · simp
            · unfold visitParsed
              dsimp only
              split
              · simp
              · rename_i hm; exact absurd hm (C39_terminates _ _ _ (Nat.le_refl _))
              · rename_i vs _ _
                have h1 := fun ws st => warnsP_no_hang b.warn ws st
                split
                · split
                  · simp
                  · have h2 : ∀ st, (if vs.warnings.isEmpty then (.ok (), st)
                        else warnP b.warn ⟨.localFunctionAmbiguous, none, ambiguousMsg f vs.warnings, false⟩ st : Res Err Unit × PState).1 ≠ .hang := by
                      intro st; split
                      · simp
                      · exact warnP_no_hang _ _ _
                    split
                    · simp
                    · exact h2 _
                · exact h1 _ _

theorem visitEntries_no_hang (b : Backend) (config : Compiled) (es : List (Except Err (Path × Bool))) (st : PState) :
    (visitEntries b config es st).1 ≠ .hang := by
  induction es generalizing st with
  | nil => simp [visitEntries]
  | cons e es ih =>
    rcases e with e | ⟨p, isFile⟩
    · simp [visitEntries]
    · rw [visitEntries]
      have : (if isFile then visitPath b config p st else (.ok (), st) : Res Err Unit × PState).1 ≠ .hang := by
        split
        · exact visitPath_no_hang _ _ _ _
        · simp
      split
      · exact ih _
      · exact this

/-- **C39.** Parsing any number of files ends. -/
theorem C39_parse_ends (b : Backend) (user : Toml) (paths : List Path) (ws : WStates) : (parse b user paths ws).1 ≠ .hang := by
  unfold parse
  split
  · simp
  · simp
  · rename_i config ms ws' _
    generalize ({ warns := ws', printed := ms } : PState) = st
    generalize (if paths.isEmpty then [b.root] else paths) = ps
    induction ps generalizing st with
    | nil => simp [visitPaths]
    | cons p ps ih =>
      rw [visitPaths]
      have : (match b.kind p with
        | .dir es => visitEntries b config es st
        | .file => visitPath b config p st
        | .other => (.ok (), st) : Res Err Unit × PState).1 ≠ .hang := by
        split
        · exact visitEntries_no_hang _ _ _ _
        · exact visitPath_no_hang _ _ _ _
        · simp
      split
      · exact ih _
      · exact this

end Necessist.Parse
