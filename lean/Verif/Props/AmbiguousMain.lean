import Verif.Spec.Ambiguous
import Verif.Props.Ambiguous
import Verif.Props.MainWarnings
/-!
# C83, for the program: what is printed about functions whose definition is ambiguous
-/
namespace Necessist.Parse
open Visit

theorem called_of_warned {cfg rounds tree st walked} (h : visitFile cfg rounds tree = .done st walked) {n} (hn : n ∈ st.warnings) :
    CalledAmbiguously cfg tree n := by
  obtain ⟨call, fs, h1, h2, h3⟩ := C83_sound h hn
  refine ⟨call, fs, ?_, h1, h2⟩
  rcases h3 with h3 | ⟨f, hf, m, hm, hs⟩
  · exact .inl h3
  · exact .inr ⟨f, (C39_once h).2 f hf, m, hm, hs⟩

theorem warned_of_exercised {cfg rounds tree st walked} (hkf : KeysFaithful cfg) (hon : OneName cfg)
    (h : visitFile cfg rounds tree = .done st walked) {n} (hn : ExercisedAmbiguously cfg tree n) : n ∈ st.warnings := by
  obtain ⟨call, f, fs, h1, h2, ⟨t, last, m, h3, h4⟩ | ⟨g, m, h3, h4, h5⟩⟩ := hn
  · exact (C83_test_partial hkf hon h h3 h4 h1 h2).1
  · exact (C83_function_partial hkf hon h h3 h4 h5 h1 h2).1

section
variable {b : Backend} {config : Compiled}

theorem hasDirectives_unique {f : SourceFile} {contents : Text} {d d' : Directives} (h : HasDirectives b f contents d)
    (h' : HasDirectives b f contents d') : d = d' := by
  rcases collect_spec b f contents .init with ⟨_, _, _, _, _, hun⟩ | ⟨_, _, hno⟩
  · rw [hun _ h, hun _ h']
  · exact absurd h (hno _)

theorem searches_unique {f : SourceFile} {cfg cfg' tree tree'} (h : Searches b config f cfg tree) (h' : Searches b config f cfg' tree') :
    cfg' = cfg ∧ tree' = tree := by
  obtain ⟨contents, d, ast, fns, a1, a2, _, a4, a5, rfl, rfl⟩ := h
  obtain ⟨contents', d', ast', fns', b1, b2, _, b4, b5, rfl, rfl⟩ := h'
  rw [a1] at b1; cases b1
  rw [a4] at b4; cases b4
  rw [a5] at b5; cases b5
  cases hasDirectives_unique a2 b2
  exact ⟨rfl, rfl⟩

theorem directives_none {f : SourceFile} {contents : Text} {cs : List WarnCall} (hd : DirectiveCalls b f contents cs) :
    ∀ c ∈ cs, c.warning ≠ .localFunctionAmbiguous := by
  obtain ⟨due, _, h1, rfl⟩ := hd
  intro c hc
  obtain ⟨⟨n, c'⟩, hm, rfl⟩ := List.mem_map.1 hc
  obtain ⟨l, _, ⟨_, _, e⟩ | ⟨_, _, d, _, _, e⟩⟩ := (h1 n c').1 hm <;> simp only at e ⊢ <;> rw [e] <;> simp

variable (hb : ∀ f ast, b.parseFile f = .ok ast → ∀ c ∈ ast.warnings, c.warning = .modulePathUnknown ∧ c.once = false)
include hb

/-- Of the warnings due for a file, at most one is about ambiguous functions; none is, if no test calls such a function. -/
theorem due_ambiguous {f : SourceFile} {x : Bool} {cs : List WarnCall} (hd : Due b config f x cs) :
    cs.filter (·.warning = .localFunctionAmbiguous) = [] ∧
        (x = true → ∀ cfg tree n, Searches b config f cfg tree → KeysFaithful cfg → OneName cfg → ¬ ExercisedAmbiguously cfg tree n) ∨
      ∃ names, AmbiguousIn b config f names ∧ cs.filter (·.warning = .localFunctionAmbiguous) = [ambiguousCall f names] := by
  have hnil : ∀ {xs : List WarnCall}, (∀ c ∈ xs, c.warning ≠ .localFunctionAmbiguous) → xs.filter (·.warning = .localFunctionAmbiguous) = [] := by
    intro xs hx; rw [List.filter_eq_nil_iff]; simpa using hx
  have hmod : ∀ {f ast}, b.parseFile f = .ok ast → ∀ c ∈ ast.warnings, c.warning ≠ .localFunctionAmbiguous := fun hp c hc => by
    rw [(hb _ _ hp c hc).1]; simp
  cases hd with
  | directives _ dirs => exact .inl ⟨hnil (directives_none dirs), nofun⟩
  | skipped read dirs has skip =>
    refine .inl ⟨hnil (directives_none dirs), fun _ cfg tree n hs => ?_⟩
    obtain ⟨contents, d, ast, fns, s1, s2, s3, _⟩ := hs
    rw [read] at s1; cases s1
    rw [hasDirectives_unique has s2] at skip
    rw [skip] at s3; cases s3
  | unparsable _ dirs _ _ parse =>
    refine .inl ⟨?_, fun _ cfg tree n hs => ?_⟩
    · rw [List.filter_append, hnil (directives_none dirs)]; rfl
    · obtain ⟨contents, d, ast, fns, _, _, _, s4, _⟩ := hs
      rw [parse] at s4; cases s4
  | visited _ dirs _ _ parse _ _ =>
    refine .inl ⟨?_, nofun⟩
    rw [List.filter_append, hnil (directives_none dirs), hnil (hmod parse)]; rfl
  | @done contents cs d ast fns vs walked as read dirs has skip parse locals visit error ambiguous =>
    rw [List.filter_append, List.filter_append, hnil (directives_none dirs), hnil (hmod parse)]
    have hsame : ∀ {cfg tree}, Searches b config f cfg tree → cfg = visitorFor b config contents d fns ∧ tree = ast.tree := by
      rintro cfg tree ⟨contents', d', ast', fns', s1, s2, _, s4, s5, s6, s7⟩
      rw [read] at s1; cases s1
      rw [parse] at s4; cases s4
      rw [locals] at s5; cases s5
      cases hasDirectives_unique has s2
      exact ⟨s6, s7⟩
    rcases ambiguous with ⟨h1, rfl⟩ | ⟨h1, names, h2, h3, rfl⟩
    · refine .inl ⟨rfl, fun _ cfg tree n hs hkf hon hn => ?_⟩
      obtain ⟨rfl, rfl⟩ := hsame hs
      have := warned_of_exercised hkf hon visit hn
      rw [h1] at this; cases this
    · refine .inr ⟨names, ⟨?_, h2, _, _, ⟨_, _, _, _, read, has, skip, parse, locals, rfl, rfl⟩, fun n hn => called_of_warned visit ((h3 n).1 hn),
        fun hkf hon n hn => (h3 n).2 (warned_of_exercised hkf hon visit hn)⟩, rfl⟩
      intro e
      obtain ⟨n, hn⟩ := List.exists_mem_of_ne_nil _ h1
      have := (h3 n).2 hn
      rw [e] at this; cases this

/-- The files with a message about ambiguous functions, in order. -/
theorem dueAll_ambiguous {fs : List SourceFile} {cs : List WarnCall} (hd : DueAll b config fs cs) :
    ∃ found : List (SourceFile × List Text), (found.map (·.1)).Sublist fs ∧
      cs.filter (·.warning = .localFunctionAmbiguous) = found.map (fun x => ambiguousCall x.1 x.2) ∧
      (∀ x ∈ found, AmbiguousIn b config x.1 x.2) ∧
      ∀ f ∈ fs, ∀ cfg tree n, Searches b config f cfg tree → KeysFaithful cfg → OneName cfg → ExercisedAmbiguously cfg tree n →
        ∃ x ∈ found, x.1 = f ∧ n ∈ x.2 := by
  induction hd with
  | nil => exact ⟨[], .slnil, rfl, nofun, nofun⟩
  | @cons f fs cs cs' first others ih =>
    obtain ⟨found, i1, i2, i3, i4⟩ := ih
    rcases due_ambiguous hb first with ⟨k1, k2⟩ | ⟨names, k1, k2⟩
    · refine ⟨found, i1.cons _, by rw [List.filter_append, k1, i2]; rfl, i3, fun g hg cfg tree n hs hkf hon hn => ?_⟩
      rcases List.mem_cons.1 hg with rfl | hg
      · exact absurd hn (k2 rfl cfg tree n hs hkf hon)
      · exact i4 g hg cfg tree n hs hkf hon hn
    · refine ⟨(f, names) :: found, i1.cons_cons _, by rw [List.filter_append, k2, i2]; rfl, ?_, fun g hg cfg tree n hs hkf hon hn => ?_⟩
      · intro x hx
        rcases List.mem_cons.1 hx with rfl | hx
        · exact k1
        · exact i3 x hx
      · rcases List.mem_cons.1 hg with rfl | hg
        · obtain ⟨_, _, cfg', tree', s1, _, s3⟩ := k1
          obtain ⟨rfl, rfl⟩ := searches_unique hs s1
          exact ⟨_, List.mem_cons_self, rfl, s3 hkf hon n hn⟩
        · obtain ⟨x, hx, e1, e2⟩ := i4 g hg cfg tree n hs hkf hon hn
          exact ⟨x, List.mem_cons_of_mem _ hx, e1, e2⟩

theorem due_ambiguous_mem {f : SourceFile} {x : Bool} {cs : List WarnCall} (hd : Due b config f x cs) {c : WarnCall} (hc : c ∈ cs)
    (hw : c.warning = .localFunctionAmbiguous) : ∃ names, AmbiguousIn b config f names ∧ c = ambiguousCall f names := by
  have hm : c ∈ cs.filter (·.warning = .localFunctionAmbiguous) := List.mem_filter.2 ⟨hc, by simp [hw]⟩
  rcases due_ambiguous hb hd with ⟨k, _⟩ | ⟨names, k1, k2⟩
  · rw [k] at hm; cases hm
  · rw [k2] at hm; exact ⟨names, k1, List.mem_singleton.1 hm⟩

theorem dueAll_ambiguous_mem {fs : List SourceFile} {cs : List WarnCall} (hd : DueAll b config fs cs) {c : WarnCall} (hc : c ∈ cs)
    (hw : c.warning = .localFunctionAmbiguous) : ∃ f ∈ fs, ∃ names, AmbiguousIn b config f names ∧ c = ambiguousCall f names := by
  induction hd with
  | nil => cases hc
  | cons first _ ih =>
    rcases List.mem_append.1 hc with hc | hc
    · exact ⟨_, List.mem_cons_self, due_ambiguous_mem hb first hc hw⟩
    · obtain ⟨f, hf, k⟩ := ih hc
      exact ⟨f, List.mem_cons_of_mem _ hf, k⟩

theorem gives_ambiguous {user paths ws r cs} (hg : Gives b user paths ws r cs) {c : WarnCall} (hc : c ∈ cs)
    (hw : c.warning = .localFunctionAmbiguous) : ∃ config f names, Compiles b user ws config ∧ b.root ++ f.path ∈ pathsOf b paths ∧
      AmbiguousIn b config f names ∧ c = ambiguousCall f names := by
  have hno : ∀ c ∈ configCalls b user, c.warning ≠ .localFunctionAmbiguous := by
    intro c hc
    unfold configCalls at hc
    rcases List.mem_append.1 hc with hc | hc
    · rcases List.mem_append.1 hc with hc | hc <;> split at hc <;> first | (cases List.mem_singleton.1 hc; simp [unsupportedCall]) | cases hc
    · split at hc
      · cases List.mem_singleton.1 hc; simp [unsupportedCall]
      · cases hc
  cases hg with
  | config calls _ => exact absurd hw (hno c (by rw [calls]; exact List.mem_append_left _ hc))
  | refused _ _ _ => exact absurd hw (hno c hc)
  | ok compiles files due _ =>
    rcases List.mem_append.1 hc with hc | hc
    · exact absurd hw (hno c hc)
    · obtain ⟨f, hf, names, k1, k2⟩ := dueAll_ambiguous_mem hb due hc hw
      exact ⟨_, f, names, compiles, by rw [files]; exact List.mem_map.2 ⟨f, hf, rfl⟩, k1, k2⟩
  | between _ compiles files due _ =>
    rcases List.mem_append.1 hc with hc | hc
    · exact absurd hw (hno c hc)
    · obtain ⟨f, hf, names, k1, k2⟩ := dueAll_ambiguous_mem hb due hc hw
      exact ⟨_, f, names, compiles, by rw [files]; exact List.mem_append_left _ (List.mem_map.2 ⟨f, hf, rfl⟩), k1, k2⟩
  | @within config fs g rest cs0 part _ _ compiles files due last _ =>
    rcases List.mem_append.1 hc with hc | hc
    · rcases List.mem_append.1 hc with hc | hc
      · exact absurd hw (hno c hc)
      · obtain ⟨f, hf, names, k1, k2⟩ := dueAll_ambiguous_mem hb due hc hw
        exact ⟨_, f, names, compiles, by rw [files]; exact List.mem_append_left _ (List.mem_map.2 ⟨f, hf, rfl⟩), k1, k2⟩
    · obtain ⟨names, k1, k2⟩ := due_ambiguous_mem hb last hc hw
      exact ⟨_, g, names, compiles, by rw [files]; exact List.mem_append_right _ List.mem_cons_self, k1, k2⟩
  | @denied config fs g rest cs0 part es x compiles files due last _ =>
    rcases List.mem_append.1 hc with hc | hc
    · rcases List.mem_append.1 hc with hc | hc
      · exact absurd hw (hno c hc)
      · obtain ⟨f, hf, names, k1, k2⟩ := dueAll_ambiguous_mem hb due hc hw
        exact ⟨_, f, names, compiles, by rw [files]; exact List.mem_append_left _ (List.mem_map.2 ⟨f, hf, rfl⟩), k1, k2⟩
    · obtain ⟨names, k1, k2⟩ := due_ambiguous_mem hb last (List.mem_append_left _ hc) hw
      exact ⟨_, g, names, compiles, by rw [files]; exact List.mem_append_right _ List.mem_cons_self, k1, k2⟩
end
end Necessist.Parse

namespace Necessist.Main
open Run Parse
variable {V σ : Type} {h : Host V σ} {o : Opts} {m : Machine σ}

/-- **C83.** If the program looks for candidates and ends with exit code 0, then what it says about functions with several definitions is: for each
file in which there are some that matter, one message, which names them in order. Each of them is called by its name; and none that a test
exercises is missing. -/
theorem C83_program_partial (hs : Sound h o) (hw : m.warns = .init) (hl : LooksForCandidates o) (hc : (main h o m).1 = some 0) (hq : o.quiet = false)
    (ha : ¬ Allowed o.warn .localFunctionAmbiguous) :
    ∃ root config fw paths compiled, ∃ fs : List SourceFile, ∃ found : List (SourceFile × List Text), Begins h o m root config fw paths ∧
      (let b := projectBackend h o root m fw
       (∃ ws, Compiles b config ws compiled) ∧ pathsOf b paths = fs.map (fun f => root ++ f.path) ∧
       (found.map (·.1)).Sublist fs ∧ (∀ x ∈ found, AmbiguousIn b compiled x.1 x.2) ∧
       ∀ f ∈ fs, ∀ cfg tree n, Searches b compiled f cfg tree → Visit.KeysFaithful cfg → Visit.OneName cfg → ExercisedAmbiguously cfg tree n →
         ∃ x ∈ found, x.1 = f ∧ n ∈ x.2) ∧
      said .localFunctionAmbiguous (newWarnings m (main h o m).2) = found.map fun (x : SourceFile × List Text) =>
        (none, "found multiple functions with the following names in `".toList ++ x.1.display ++ "`: {".toList ++
          (x.2.map fun n => "\n    \"".toList ++ n ++ "\",".toList).flatten ++ "\n}".toList) := by
  obtain ⟨root, config, fw, paths, compiled, fs, cs, hb, ⟨h1, h2, h3⟩, _, h5⟩ :=
    C81_sources hs hw hl hc hq (w := .localFunctionAmbiguous) (by simp) ha
  obtain ⟨t, ht⟩ := impl_of hb.frameworkIs
  obtain ⟨found, f1, f2, f3, f4⟩ := dueAll_ambiguous (b := projectBackend h o root m fw) (hs _ _ _ ht).2 h3
  refine ⟨root, config, fw, paths, compiled, fs, found, hb, ⟨h1, h2, f1, f3, f4⟩, ?_⟩
  rw [h5]
  unfold asked
  rw [f2, List.map_map]
  rfl

/-- The calls about ambiguous functions, however the program ends. -/
theorem makes_ambiguous {code events is} (hs : Sound h o) (hm : Makes h o m code events is) {c : WarnCall} (hc : c ∈ ownCalls is)
    (hw : c.warning = .localFunctionAmbiguous) :
    ∃ root config fw paths compiled f names, Begins h o m root config fw paths ∧
      (let b := projectBackend h o root m fw
       (∃ ws, Compiles b config ws compiled) ∧ root ++ f.path ∈ pathsOf b paths ∧ AmbiguousIn b compiled f names ∧ c = ambiguousCall f names) := by
  have hdep : c ∉ deprecatedCalls o := by
    unfold deprecatedCalls
    intro hc
    split at hc
    · cases List.mem_singleton.1 hc; cases hw
    · cases hc
  have hdb : c ∉ databaseCalls h o m := by
    unfold databaseCalls
    intro hc
    split at hc
    · split at hc
      · cases List.mem_singleton.1 hc; cases hw
      · split at hc
        · cases List.mem_singleton.1 hc; cases hw
        · cases hc
    · cases hc
  have key : ∀ {root config fw paths ws r cs}, Begins h o m root config fw paths → Gives (projectBackend h o root m fw) config paths ws r cs → c ∈ cs →
      ∃ root config fw paths compiled f names, Begins h o m root config fw paths ∧
      (let b := projectBackend h o root m fw
       (∃ ws, Compiles b config ws compiled) ∧ root ++ f.path ∈ pathsOf b paths ∧ AmbiguousIn b compiled f names ∧ c = ambiguousCall f names) := by
    intro root config fw paths ws r cs hb hg hc
    obtain ⟨t, ht⟩ := impl_of hb.frameworkIs
    obtain ⟨compiled, f, names, k1, k2, k3, k4⟩ := gives_ambiguous (b := projectBackend h o root m fw) (hs _ _ _ ht).2 hg hc hw
    exact ⟨root, config, fw, paths, compiled, f, names, hb, ⟨_, k1⟩, k2, k3, k4⟩
  cases hm with
  | none _ => cases hc
  | deprecated _ => rw [ownCalls_own] at hc; exact absurd hc hdep
  | fails hb hg _ _ =>
    rw [ownCalls_own] at hc
    exact (List.mem_append.1 hc).elim (fun h => absurd h hdep) (key hb hg)
  | found hb hg _ =>
    rw [ownCalls_own] at hc
    exact (List.mem_append.1 hc).elim (fun h => absurd h hdep) (key hb hg)
  | database hb hg _ _ =>
    rw [ownCalls_own] at hc
    rcases List.mem_append.1 hc with hc | hc
    · exact (List.mem_append.1 hc).elim (fun h => absurd h hdep) (key hb hg)
    · exact absurd hc hdb
  | @run root config fw paths cs past _ is _ _ _ _ hb hg _ _ _ calls =>
    have e : ownCalls (own (deprecatedCalls o ++ cs ++ databaseCalls h o m) ++ is) = (deprecatedCalls o ++ cs ++ databaseCalls h o m) ++ ownCalls is := by
      conv => rhs; rw [← ownCalls_own (deprecatedCalls o ++ cs ++ databaseCalls h o m)]
      simp [ownCalls]
    rw [e] at hc
    rcases List.mem_append.1 hc with hc | hc
    · rcases List.mem_append.1 hc with hc | hc
      · exact (List.mem_append.1 hc).elim (fun h => absurd h hdep) (key hb hg)
      · exact absurd hc hdb
    · exfalso
      have : c ∈ eventCalls events := by rw [← calls.others]; exact List.mem_filter.2 ⟨hc, by simp [hw]⟩
      obtain ⟨s, _, hs⟩ := List.mem_filterMap.1 this
      unfold eventCall at hs
      split at hs <;> cases hs <;> cases hw

/-- **C83.** However the program ends: what it says about functions with several definitions is said of a file among those given in which
candidates are looked for, and each function named is called by its name. -/
theorem C83_program_sound (hs : Sound h o) (hw : m.warns = .init) {x : WarnMsg} (hx : x ∈ newWarnings m (main h o m).2)
    (hk : x.warning = .localFunctionAmbiguous) :
    ∃ root config fw paths compiled f names, Begins h o m root config fw paths ∧
      (let b := projectBackend h o root m fw
       (∃ ws, Compiles b config ws compiled) ∧ root ++ f.path ∈ pathsOf b paths ∧ AmbiguousIn b compiled f names) ∧
      x.source = none ∧ x.msg = "found multiple functions with the following names in `".toList ++ f.display ++ "`: {".toList ++
          (names.map fun n => "\n    \"".toList ++ n ++ "\",".toList).flatten ++ "\n}".toList := by
  obtain ⟨events, is, rs, h1, h2, h3, h4, h5⟩ := C81_warnings (m := m) hs hw
  unfold newWarnings at hx
  rw [h5, List.drop_left] at hx
  obtain ⟨i, hi, ho, e1, e2, e3⟩ := messages_own h4 (makes_foreign h2) hx (by rw [hk]; simp [FrameworkKind])
  obtain ⟨root, config, fw, paths, compiled, f, names, k1, ⟨k2, k3, k4, k5⟩⟩ := makes_ambiguous hs h2 (c := i.call)
    (List.mem_map.2 ⟨i, List.mem_filter.2 ⟨hi, ho⟩, rfl⟩) (by rw [← e1, hk])
  refine ⟨root, config, fw, paths, compiled, f, names, k1, ⟨k2, k3, k4⟩, ?_, ?_⟩
  · rw [e2, k5]; rfl
  · rw [e3, k5]; rfl

end Necessist.Main
