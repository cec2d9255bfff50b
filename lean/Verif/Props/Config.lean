import Verif.Lemmas.Regex
/-!
# Configuration (C23–C27)
-/
namespace Necessist

/-- A method path is matched by a pattern if the pattern describes it or one of its dot-suffixes. -/
def MethodInstance (p path : Text) : Prop := ∃ suffix, DotSuffix path suffix ∧ Instance p suffix

/-- C23: a valid pattern is accepted, and matches exactly the names obtained by filling in its stars. -/
theorem C23_pattern_matches {alnum : Char → Bool} (ha : AlnumOk alnum) (p : Text) (hv : ValidPattern alnum p) :
    ∃ re, compilePattern alnum p false = .ok re ∧ ∀ name, re.isMatch name = true ↔ Instance p name := by
  refine ⟨patternRe p, by simpa using (compilePattern_spec ha p false).1 hv, fun name => ?_⟩
  rw [Re.isMatch_iff, patternRe_lang]

/-- C23: without a star, only the name itself is matched. -/
theorem C23_literal {alnum : Char → Bool} (ha : AlnumOk alnum) (p : Text) (hv : ValidPattern alnum p) (hs : '*' ∉ p) :
    ∃ re, compilePattern alnum p false = .ok re ∧ ∀ name, re.isMatch name = true ↔ name = p := by
  obtain ⟨re, h1, h2⟩ := C23_pattern_matches ha p hv
  refine ⟨re, h1, fun name => (h2 name).trans ?_⟩
  clear h1 h2 hv
  induction p generalizing name with
  | nil =>
    constructor
    · intro h; cases h; rfl
    · rintro rfl; exact .done
  | cons c p ih =>
    simp only [List.mem_cons, not_or] at hs
    constructor
    · intro h
      cases h with
      | star fill h1 h2 => exact absurd rfl hs.1
      | same _ h1 h2 => rw [(ih hs.2 _).1 h2]
    · rintro rfl
      exact .same c (fun h => hs.1 h.symm) ((ih hs.2 p).2 rfl)

/-- C24: a valid `ignored_methods` pattern matches a path iff it describes the path or a dot-suffix of it. -/
theorem C24_method_pattern_matches {alnum : Char → Bool} (ha : AlnumOk alnum) (p : Text) (hv : ValidPattern alnum p) :
    ∃ re, compilePattern alnum p true = .ok re ∧ ∀ path, re.isMatch path = true ↔ MethodInstance p path := by
  refine ⟨.cat methodPrefix (patternRe p), by simpa using (compilePattern_spec ha p true).1 hv, fun path => ?_⟩
  rw [Re.isMatch_iff, Re.Lang.cat_iff]
  constructor
  · rintro ⟨s, u, rfl, h1, h2⟩
    obtain ⟨comps, hc, rfl⟩ := (methodPrefix_iff s).1 h1
    exact ⟨u, ⟨comps, hc, rfl⟩, (patternRe_lang p u).1 h2⟩
  · rintro ⟨u, ⟨comps, hc, rfl⟩, h2⟩
    exact ⟨_, u, rfl, (methodPrefix_iff _).2 ⟨comps, hc, rfl⟩, (patternRe_lang p u).2 h2⟩

/-- C24: in particular whatever the pattern describes is matched behind any receiver `x.` with a simple name. -/
theorem C24_receiver {alnum : Char → Bool} (ha : AlnumOk alnum) (p : Text) (hv : ValidPattern alnum p) :
    ∃ re, compilePattern alnum p true = .ok re ∧ ∀ name, Instance p name → re.isMatch name = true ∧
      ∀ x : Text, x ≠ [] → '.' ∉ x → re.isMatch (x ++ ['.'] ++ name) = true := by
  obtain ⟨re, h1, h2⟩ := C24_method_pattern_matches ha p hv
  refine ⟨re, h1, fun name hn => ⟨(h2 name).2 ⟨name, ⟨[], by simp, rfl⟩, hn⟩, fun x hx hd => ?_⟩⟩
  exact (h2 _).2 ⟨name, ⟨[x], by simpa using ⟨hx, hd⟩, by simp⟩, hn⟩

/-! ### Compiling a configuration -/

/-- The result of compiling a list of patterns. -/
theorem compilePatterns_spec {alnum : Char → Bool} (ha : AlnumOk alnum) (methods : Bool) (ps : List Text) :
    ((∀ p ∈ ps, ValidPattern alnum p) → compilePatterns alnum methods ps =
      .ok (ps.map fun p => if methods then .cat methodPrefix (patternRe p) else patternRe p)) ∧
    (¬ (∀ p ∈ ps, ValidPattern alnum p) → ∃ p ∈ ps, ∃ c ∈ p, compilePatterns alnum methods ps = .error (.badChar c) ∧
      ¬ PatternChar alnum c) := by
  induction ps with
  | nil => exact ⟨fun _ => rfl, fun h => absurd (by simp) h⟩
  | cons p ps ih =>
    constructor
    · intro h
      rw [compilePatterns, (compilePattern_spec ha p methods).1 (h p (by simp)),
        ih.1 fun q hq => h q (by simp [hq])]
      rfl
    · intro h
      by_cases hp : ValidPattern alnum p
      · have h' : ¬ ∀ p ∈ ps, ValidPattern alnum p := by
          intro h'
          refine h fun q hq => ?_
          rcases List.mem_cons.1 hq with rfl | hq
          · exact hp
          · exact h' q hq
        obtain ⟨q, hq, c, hc, he, hn⟩ := ih.2 h'
        refine ⟨q, by simp [hq], c, hc, ?_, hn⟩
        rw [compilePatterns, (compilePattern_spec ha p methods).1 hp, he]
      · obtain ⟨c, hc, he, hn⟩ := (compilePattern_spec ha p methods).2 hp
        refine ⟨p, by simp, c, hc, ?_, hn⟩
        rw [compilePatterns, he]

/-- The result of compiling a configuration. -/
theorem Toml.compile_spec {alnum : Char → Bool} (ha : AlnumOk alnum) (t : Toml) :
    ((∀ p ∈ t.patterns, ValidPattern alnum p) → t.compile alnum = .ok {
      ignoredFunctions := t.ignoredFunctions.map patternRe
      ignoredMacros := t.ignoredMacros.map patternRe
      ignoredMethods := t.ignoredMethods.map fun p => .cat methodPrefix (patternRe p)
      ignoredPathDisambiguation := t.ignoredPathDisambiguation.getD .none_
      ignoredTests := t.ignoredTests
      visitIgnoredArguments := t.visitIgnoredArguments.getD false
      walkableFunctions := t.walkableFunctions.map patternRe }) ∧
    (¬ (∀ p ∈ t.patterns, ValidPattern alnum p) → ∃ p ∈ t.patterns, ∃ c ∈ p, t.compile alnum = .error (.badChar c) ∧
      ¬ PatternChar alnum c) := by
  have hm : ∀ p, p ∈ t.patterns ↔ p ∈ t.ignoredFunctions ∨ p ∈ t.ignoredMacros ∨ p ∈ t.ignoredMethods ∨
      p ∈ t.walkableFunctions := by
    intro p; simp [Toml.patterns, or_assoc]
  have sf := compilePatterns_spec ha false t.ignoredFunctions
  have sm := compilePatterns_spec ha false t.ignoredMacros
  have st := compilePatterns_spec ha true t.ignoredMethods
  have sw := compilePatterns_spec ha false t.walkableFunctions
  constructor
  · intro h
    rw [Toml.compile, sf.1 fun p hp => h p ((hm p).2 (.inl hp)), sm.1 fun p hp => h p ((hm p).2 (.inr (.inl hp))),
      st.1 fun p hp => h p ((hm p).2 (.inr (.inr (.inl hp)))),
      sw.1 fun p hp => h p ((hm p).2 (.inr (.inr (.inr hp))))]
    simp
  · intro h
    by_cases h1 : ∀ p ∈ t.ignoredFunctions, ValidPattern alnum p
    · by_cases h2 : ∀ p ∈ t.ignoredMacros, ValidPattern alnum p
      · by_cases h3 : ∀ p ∈ t.ignoredMethods, ValidPattern alnum p
        · by_cases h4 : ∀ p ∈ t.walkableFunctions, ValidPattern alnum p
          · refine absurd (fun p hp => ?_) h
            rcases (hm p).1 hp with hp | hp | hp | hp
            · exact h1 p hp
            · exact h2 p hp
            · exact h3 p hp
            · exact h4 p hp
          · obtain ⟨p, hp, c, hc, he, hn⟩ := sw.2 h4
            refine ⟨p, (hm p).2 (.inr (.inr (.inr hp))), c, hc, ?_, hn⟩
            rw [Toml.compile, sf.1 h1, sm.1 h2, st.1 h3, he]
        · obtain ⟨p, hp, c, hc, he, hn⟩ := st.2 h3
          refine ⟨p, (hm p).2 (.inr (.inr (.inl hp))), c, hc, ?_, hn⟩
          rw [Toml.compile, sf.1 h1, sm.1 h2, he]
      · obtain ⟨p, hp, c, hc, he, hn⟩ := sm.2 h2
        refine ⟨p, (hm p).2 (.inr (.inl hp)), c, hc, ?_, hn⟩
        rw [Toml.compile, sf.1 h1, he]
    · obtain ⟨p, hp, c, hc, he, hn⟩ := sf.2 h1
      refine ⟨p, (hm p).2 (.inl hp), c, hc, ?_, hn⟩
      rw [Toml.compile, he]

/-- C25: a configuration is accepted iff all its patterns consist of alphanumerics, `_`, `.` and `*`. -/
theorem C25_accepted_iff {alnum : Char → Bool} (ha : AlnumOk alnum) (t : Toml) :
    (∃ c, t.compile alnum = .ok c) ↔
      ∀ p ∈ t.ignoredFunctions ++ t.ignoredMacros ++ t.ignoredMethods ++ t.walkableFunctions, ∀ c ∈ p,
        alnum c = true ∨ c = '_' ∨ c = '.' ∨ c = '*' := by
  constructor
  · rintro ⟨c, hc⟩
    refine Classical.byContradiction fun h => ?_
    obtain ⟨p, _, d, _, he, _⟩ := (Toml.compile_spec ha t).2 h
    rw [hc] at he; cases he
  · intro h
    exact ⟨_, (Toml.compile_spec ha t).1 h⟩

/-- C25: the error names a character that occurs in a pattern and is not allowed. -/
theorem C25_error_names_culprit {alnum : Char → Bool} (ha : AlnumOk alnum) (t : Toml) (e : ConfigError)
    (h : t.compile alnum = .error e) :
    ∃ p ∈ t.ignoredFunctions ++ t.ignoredMacros ++ t.ignoredMethods ++ t.walkableFunctions, ∃ c ∈ p,
      e = .badChar c ∧ ¬ (alnum c = true ∨ c = '_' ∨ c = '.' ∨ c = '*') := by
  by_cases hv : ∀ p ∈ t.patterns, ValidPattern alnum p
  · rw [(Toml.compile_spec ha t).1 hv] at h; cases h
  · obtain ⟨p, hp, c, hc, he, hn⟩ := (Toml.compile_spec ha t).2 hv
    rw [h] at he; cases he
    exact ⟨p, hp, c, hc, rfl, hn⟩

/-! ### The effective configuration -/

theorem any_isMatch (ps : List Text) (name : Text) :
    (ps.map patternRe).any (·.isMatch name) = true ↔ ∃ p ∈ ps, Instance p name := by
  simp [List.any_map, Re.isMatch_iff, patternRe_lang]

theorem any_isMatch_method {alnum : Char → Bool} (ha : AlnumOk alnum) (ps : List Text)
    (hv : ∀ p ∈ ps, ValidPattern alnum p) (name : Text) :
    (ps.map fun p => Re.cat methodPrefix (patternRe p)).any (·.isMatch name) = true ↔ ∃ p ∈ ps, MethodInstance p name := by
  have : ∀ p ∈ ps, ((Re.cat methodPrefix (patternRe p)).isMatch name = true ↔ MethodInstance p name) := by
    intro p hp
    obtain ⟨re, h1, h2⟩ := C24_method_pattern_matches ha p (hv p hp)
    have h3 := (compilePattern_spec ha p true).1 (hv p hp)
    rw [h1] at h3
    simp only [if_true, Except.ok.injEq] at h3
    exact h3 ▸ h2 name
  simp only [List.any_map, List.any_eq_true, Function.comp_apply]
  exact ⟨fun ⟨p, hp, h⟩ => ⟨p, hp, (this p hp).1 h⟩, fun ⟨p, hp, h⟩ => ⟨p, hp, (this p hp).2 h⟩⟩

/-- What the built-ins and the user ask for together. -/
structure Effective (b : Builtins) (user : Toml) (c : Compiled) : Prop where
  functions : ∀ name, c.isIgnoredFunction name = true ↔
    (∃ p ∈ b.functions.getD [], Instance p name) ∨ ∃ p ∈ user.ignoredFunctions, Instance p name
  macros : ∀ name, c.isIgnoredMacro name = true ↔
    (∃ p ∈ b.macros.getD [], Instance p name) ∨ ∃ p ∈ user.ignoredMacros, Instance p name
  methods : ∀ name, c.isIgnoredMethod name = true ↔
    (∃ p ∈ b.methods.getD [], MethodInstance p name) ∨ ∃ p ∈ user.ignoredMethods, MethodInstance p name
  walkable : ∀ name, c.isWalkableFunction name = true ↔ ∃ p ∈ user.walkableFunctions, Instance p name
  tests : ∀ name, c.isIgnoredTest name = true ↔ name ∈ user.ignoredTests
  disambiguation : c.ignoredPathDisambiguation = user.ignoredPathDisambiguation.getD .none_
  visit : c.visitIgnoredArguments = user.visitIgnoredArguments.getD false

theorem builtins_merge (b : Builtins) (user : Toml) :
    ({ ignoredFunctions := b.functions.getD [], ignoredMacros := b.macros.getD [],
       ignoredMethods := b.methods.getD [] } : Toml).merge user = some
      { ignoredFunctions := b.functions.getD [] ++ user.ignoredFunctions
        ignoredMacros := b.macros.getD [] ++ user.ignoredMacros
        ignoredMethods := b.methods.getD [] ++ user.ignoredMethods
        ignoredPathDisambiguation := user.ignoredPathDisambiguation
        ignoredTests := user.ignoredTests
        visitIgnoredArguments := user.visitIgnoredArguments
        walkableFunctions := user.walkableFunctions } := by
  simp [Toml.merge]

/-- C26: an effective configuration ignores exactly what the built-ins or the user ignore; the scalars are the user's or the
defaults. -/
theorem C26_effective {alnum : Char → Bool} (ha : AlnumOk alnum) (o : WarnOpts) (st : WStates) (b : Builtins) (user : Toml)
    (c : Compiled) (h : (compileConfig alnum o st b user).1 = some (.ok c)) : Effective b user c := by
  unfold compileConfig at h
  split at h
  · simp at h
  · dsimp only at h
    rw [builtins_merge] at h
    simp only [Option.map_some, Option.some.injEq] at h
    have hv := (C25_accepted_iff ha _).1 ⟨c, h⟩
    rw [(Toml.compile_spec ha _).1 hv] at h
    cases h
    constructor
    · intro name
      simp only [Compiled.isIgnoredFunction, any_isMatch, List.mem_append, or_and_right, exists_or]
    · intro name
      simp only [Compiled.isIgnoredMacro, any_isMatch, List.mem_append, or_and_right, exists_or]
    · intro name
      simp only [Compiled.isIgnoredMethod]
      rw [any_isMatch_method ha _ (fun p hp => hv p (by
        simp only [List.mem_append] at hp ⊢
        rcases hp with h | h <;> simp [h]))]
      simp only [List.mem_append, or_and_right, exists_or]
    · intro name
      simp only [Compiled.isWalkableFunction, any_isMatch]
    · intro name
      simp [Compiled.isIgnoredTest]
    · rfl
    · rfl

/-- A warning that is denied is not got over. -/
theorem warnAll_denied (o : WarnOpts) {w : Warning} (hd : (Warning.all ∈ o.deny ∨ w ∈ o.deny)) (hw : w ≠ .all) : ∀ (ws : List Warning) (st : WStates), w ∈ ws →
    (warnAll o st ws).1 = false := by
  intro ws
  induction ws with
  | nil => intro st h; cases h
  | cons v vs ih =>
    intro st h
    rw [warnAll]
    rcases List.mem_cons.mp h with rfl | h
    · have : ∃ m st', warnInternal o st (configCall w) = (.bail m, st') := by
        unfold warnInternal
        rw [show (configCall w).warning = w from rfl, if_neg hw]
        dsimp only
        rw [if_pos (by rcases hd with hd | hd <;> simp [hd])]
        exact ⟨_, _, rfl⟩
      obtain ⟨m, st', hm⟩ := this
      rw [hm]
    · rcases hx : warnInternal o st (configCall v) with ⟨r, st'⟩
      cases r with
      | bail m => rfl
      | panic => rfl
      | silent => exact ih st' h
      | print m => exact ih st' h

/-- C26: an option that the framework does not support is an error if the user denies the warning about it. -/
theorem C26_denied (alnum : Char → Bool) (o : WarnOpts) (st : WStates) (b : Builtins) (user : Toml)
    (h : (b.functions = none ∧ user.ignoredFunctions ≠ [] ∧ (Warning.all ∈ o.deny ∨ Warning.ignoredFunctionsUnsupported ∈ o.deny)) ∨
      (b.macros = none ∧ user.ignoredMacros ≠ [] ∧ (Warning.all ∈ o.deny ∨ Warning.ignoredMacrosUnsupported ∈ o.deny)) ∨
      (b.methods = none ∧ user.ignoredMethods ≠ [] ∧ (Warning.all ∈ o.deny ∨ Warning.ignoredMethodsUnsupported ∈ o.deny))) :
    (compileConfig alnum o st b user).1 = some (.error .denied) := by
  have : (warnAll o st (configWarnings b user)).1 = false := by
    rcases h with ⟨h1, h2, h3⟩ | ⟨h1, h2, h3⟩ | ⟨h1, h2, h3⟩ <;>
      exact warnAll_denied o h3 (by decide) _ _ (by simp [configWarnings, h1, List.isEmpty_eq_false_iff.mpr h2])
  unfold compileConfig
  rcases hx : warnAll o st (configWarnings b user) with ⟨r, ms, st'⟩
  rw [hx] at this
  cases this
  rfl

/-- C26: merging the built-ins with the user's configuration never panics, and whether it succeeds depends only on the
patterns (unless a warning was denied). -/
theorem C26_never_panics {alnum : Char → Bool} (ha : AlnumOk alnum) (o : WarnOpts) (st : WStates) (b : Builtins)
    (user : Toml) :
    (compileConfig alnum o st b user).1 ≠ none ∧
    ((warnAll o st (configWarnings b user)).1 = false →
      ∃ e, (compileConfig alnum o st b user).1 = some (.error e)) ∧
    ((warnAll o st (configWarnings b user)).1 = true →
      ((∃ c, (compileConfig alnum o st b user).1 = some (.ok c)) ↔
        ∀ p ∈ (b.functions.getD [] ++ b.macros.getD [] ++ b.methods.getD []) ++ (user.ignoredFunctions ++
          user.ignoredMacros ++ user.ignoredMethods ++ user.walkableFunctions), ValidPattern alnum p)) := by
  unfold compileConfig
  split
  · rename_i hw; rw [hw]; simp
  · rename_i hw
    dsimp only
    rw [hw, builtins_merge]
    refine ⟨by simp, by simp, fun _ => ?_⟩
    simp only [Option.map_some, Option.some.injEq]
    rw [C25_accepted_iff ha]
    constructor
    · intro h p hp
      refine h p ?_
      simp only [List.mem_append] at hp ⊢
      rcases hp with (((h | h) | h)) | (((h | h) | h) | h) <;> simp [h]
    · intro h p hp
      refine h p ?_
      simp only [List.mem_append] at hp ⊢
      rcases hp with (((h | h) | (h | h)) | (h | h)) | h <;> simp [h]

/-- C26: a warning is due exactly for each notion that the framework does not support and the user uses. -/
theorem C26_unsupported_warned (b : Builtins) (user : Toml) (w : Warning) :
    w ∈ configWarnings b user ↔
      (w = .ignoredFunctionsUnsupported ∧ b.functions = none ∧ user.ignoredFunctions ≠ []) ∨
      (w = .ignoredMacrosUnsupported ∧ b.macros = none ∧ user.ignoredMacros ≠ []) ∨
      (w = .ignoredMethodsUnsupported ∧ b.methods = none ∧ user.ignoredMethods ≠ []) := by
  unfold configWarnings
  simp only [List.mem_append]
  have hi : ∀ (c : Bool) (x : Warning), w ∈ (if c then [x] else []) ↔ c = true ∧ w = x := by
    intro c x; cases c <;> simp
  rw [hi, hi, hi]
  simp [and_comm, or_assoc]

/-- C26: a merge is refused iff a scalar is set differently in both. -/
theorem C26_merge_refused_iff (l r : Toml) :
    l.merge r = none ↔
      (∃ x y, l.ignoredPathDisambiguation = some x ∧ r.ignoredPathDisambiguation = some y ∧ x ≠ y) ∨
      (∃ x y, l.visitIgnoredArguments = some x ∧ r.visitIgnoredArguments = some y ∧ x ≠ y) := by
  unfold Toml.merge
  cases h1 : l.ignoredPathDisambiguation <;> cases h2 : r.ignoredPathDisambiguation <;>
    cases h3 : l.visitIgnoredArguments <;> cases h4 : r.visitIgnoredArguments <;> simp <;> grind

/-- C26: what a merge contains. The lists are joined; a scalar is the second one's. -/
theorem C26_merged (l r m : Toml) (h : l.merge r = some m) :
    m.ignoredFunctions = l.ignoredFunctions ++ r.ignoredFunctions ∧
    m.ignoredMacros = l.ignoredMacros ++ r.ignoredMacros ∧
    m.ignoredMethods = l.ignoredMethods ++ r.ignoredMethods ∧
    m.ignoredTests = l.ignoredTests ++ r.ignoredTests ∧
    m.walkableFunctions = l.walkableFunctions ++ r.walkableFunctions ∧
    m.ignoredPathDisambiguation = r.ignoredPathDisambiguation ∧
    m.visitIgnoredArguments = r.visitIgnoredArguments := by
  unfold Toml.merge at h
  split at h
  · cases h
  · split at h
    · cases h
    · cases h; simp

/-- A finding: merging loses a scalar that is set only in the first configuration (noted in the source as a possible bug; the
only first configuration used, the built-ins, sets none). -/
theorem C26_negation_merge_forgets :
    ∃ l r m : Toml, l.merge r = some m ∧ l.visitIgnoredArguments = some true ∧ r.visitIgnoredArguments = none ∧
      m.visitIgnoredArguments = none :=
  ⟨{ visitIgnoredArguments := some true }, {}, {}, rfl, rfl, rfl, rfl⟩

/-! ### The file -/

/-- C27: without a file the default is used. -/
theorem C27_absent : Toml.read false .absent = .ok {} := rfl

/-- C27: a file that is accepted has recognised keys only. -/
theorem C27_unknown_keys_refused (statFails : Bool) (d : TomlDoc) (t : Toml)
    (h : Toml.read statFails (.doc d) = .ok t) : ∀ kv ∈ d, kv.1 ∈ tomlKeys := by
  unfold Toml.read at h
  split at h
  · cases h
  · simp only at h
    split at h
    · cases h
    · rename_i t' other ho
      split at h
      · rename_i he
        have : other = (d.map (·.1)).filter fun k => !tomlKeys.contains k := by
          unfold Toml.ofDoc at ho
          simp only [bind, Except.bind] at ho
          repeat' split at ho
          all_goals cases ho
          rfl
        subst this
        simp only [List.isEmpty_iff, List.filter_eq_nil_iff, List.mem_map, Bool.not_eq_true', Bool.not_eq_false,
          forall_exists_index, and_imp, forall_apply_eq_imp_iff₂] at he
        intro kv hkv
        exact List.contains_iff_mem.1 (he kv hkv)
      · cases h

/-- The value of a key is this list of texts, or the key is absent and the list empty. -/
def TomlDoc.HasStrings (d : TomlDoc) (key : String) (l : List Text) : Prop :=
  d.lookup key.toList = some (.strings l) ∨ d.lookup key.toList = none ∧ l = []

/-- C27: the settings in force are those written under their names; absent ones are empty or unset. -/
theorem C27_settings (d : TomlDoc) (t : Toml) (h : Toml.read false (.doc d) = .ok t) :
    d.HasStrings "ignored_functions" t.ignoredFunctions ∧ d.HasStrings "ignored_macros" t.ignoredMacros ∧
    d.HasStrings "ignored_methods" t.ignoredMethods ∧ d.HasStrings "ignored_tests" t.ignoredTests ∧
    d.HasStrings "walkable_functions" t.walkableFunctions ∧
    d.lookup "visit_ignored_arguments".toList = t.visitIgnoredArguments.map .bool ∧
    d.lookup "ignored_path_disambiguation".toList = t.ignoredPathDisambiguation.map (fun
      | .none_ => .str "None".toList
      | .function => .str "Function".toList
      | .method => .str "Method".toList) := by
  have hs : ∀ k l, d.strings k = .ok l → d.HasStrings k l := by
    intro k l hk
    unfold TomlDoc.strings at hk
    split at hk
    · cases hk; exact Or.inr ⟨by assumption, rfl⟩
    · cases hk; exact Or.inl (by assumption)
    · cases hk
  have hb : ∀ k l, d.bool? k = .ok l → d.lookup k.toList = l.map .bool := by
    intro k l hk
    unfold TomlDoc.bool? at hk
    split at hk <;> cases hk <;> assumption
  have hd : ∀ k l, d.disambiguation? k = .ok l → d.lookup k.toList = l.map (fun
      | .none_ => .str "None".toList
      | .function => .str "Function".toList
      | .method => .str "Method".toList) := by
    intro k l hk
    unfold TomlDoc.disambiguation? at hk
    split at hk
    · cases hk; assumption
    · rename_i s hl
      split at hk
      · rename_i e; cases hk; rw [hl, e]; rfl
      · split at hk
        · rename_i e; cases hk; rw [hl, e]; rfl
        · split at hk
          · rename_i e; cases hk; rw [hl, e]; rfl
          · cases hk
    · cases hk
  unfold Toml.read at h
  simp only [Bool.false_eq_true, if_false] at h
  split at h
  · cases h
  · rename_i t' other ho
    split at h
    · cases h
      unfold Toml.ofDoc at ho
      cases h1 : d.strings "ignored_functions" with
      | error e => rw [h1] at ho; cases ho
      | ok v1 =>
      cases h2 : d.strings "ignored_macros" with
      | error e => rw [h1, h2] at ho; cases ho
      | ok v2 =>
      cases h3 : d.strings "ignored_methods" with
      | error e => rw [h1, h2, h3] at ho; cases ho
      | ok v3 =>
      cases h4 : d.disambiguation? "ignored_path_disambiguation" with
      | error e => rw [h1, h2, h3, h4] at ho; cases ho
      | ok v4 =>
      cases h5 : d.strings "ignored_tests" with
      | error e => rw [h1, h2, h3, h4, h5] at ho; cases ho
      | ok v5 =>
      cases h6 : d.bool? "visit_ignored_arguments" with
      | error e => rw [h1, h2, h3, h4, h5, h6] at ho; cases ho
      | ok v6 =>
      cases h7 : d.strings "walkable_functions" with
      | error e => rw [h1, h2, h3, h4, h5, h6, h7] at ho; cases ho
      | ok v7 =>
      rw [h1, h2, h3, h4, h5, h6, h7] at ho
      cases ho
      exact ⟨hs _ _ h1, hs _ _ h2, hs _ _ h3, hs _ _ h5, hs _ _ h7, hb _ _ h6, hd _ _ h4⟩
    · cases h

/-- C27: every configuration reads back as itself when written. -/
theorem C27_round_trip (t : Toml) : Toml.read false (.doc t.toDoc) = .ok t := by
  obtain ⟨a, b, c, d, e, f, g⟩ := t
  cases d with
  | none => cases f <;> rfl
  | some d => cases d <;> cases f <;> rfl

/-- C27: `--default-config` never changes an existing file, and it succeeds exactly if there is none, as far as can be told, and one can be
written; the new file then reads back as the default. If it cannot be told, nothing changes either. -/
theorem C27_default_config (statFails : Bool) (writeFails : Option ConfigFile) (f : ConfigFile) :
    (f ≠ .absent ∨ statFails = true → (defaultConfig statFails writeFails f).2 = f ∧ ∃ e, (defaultConfig statFails writeFails f).1 = .error e) ∧
    ((defaultConfig statFails writeFails f).1 = .ok () ↔ statFails = false ∧ f = .absent ∧ writeFails = none) ∧
    ((defaultConfig statFails writeFails f).1 = .ok () →
      Toml.read false (defaultConfig statFails writeFails f).2 = Toml.read false .absent) := by
  unfold defaultConfig
  cases statFails
  · by_cases hf : f = .absent
    · cases writeFails <;> simp [hf]
      rfl
    · simp [hf]
  · simp

/-! ### Non-vacuity -/
namespace Demo

theorem alnumOk : AlnumOk Char.isAlphanum := fun _ _ => rfl

instance (alnum : Char → Bool) (p : Text) : Decidable (ValidPattern alnum p) := by
  unfold ValidPattern PatternChar; infer_instance

/-- What the compiled pattern says about a name. -/
def matches? (p name : String) (methods : Bool) : Option Bool :=
  match compilePattern Char.isAlphanum p.toList methods with
  | .ok re => some (re.isMatch name.toList)
  | .error _ => none

example : ValidPattern Char.isAlphanum "*.as_ref.assert*".toList := by decide +kernel
example : matches? "assert*" "assert.Equal" false = some true := by decide +kernel
example : matches? "assert*" "my_assert" false = some false := by decide +kernel
example : matches? "as_ref" "self.x.as_ref" true = some true := by decide +kernel
example : matches? "as_ref" "selfas_ref" true = some false := by decide +kernel
example : matches? "a.b" "axb" false = some false := by decide +kernel
example : matches? "a-b" "a-b" false = none := by decide +kernel

def userToml : Toml := {
  ignoredFunctions := ["log*".toList], ignoredMethods := ["*.unwrap".toList], visitIgnoredArguments := some true
  ignoredTests := ["test_*".toList], ignoredMacros := ["println".toList] }
def goLike : Builtins := ⟨some ["assert.*".toList, "panic".toList], none, some ["Close".toList, "t.Fatal".toList]⟩

/-- The effective configuration exists, with a warning about macros. -/
def effective : Option (Except ConfigError Compiled) :=
  (compileConfig Char.isAlphanum ⟨[], [], true⟩ WStates.init goLike userToml).1
example : (match effective with
    | some (.ok c) => c.isIgnoredFunction "assert.Equal".toList && c.isIgnoredFunction "logf".toList &&
      !c.isIgnoredFunction "foo".toList && c.isIgnoredMethod "f.Close".toList &&
      !c.isIgnoredTest "test_x".toList && c.visitIgnoredArguments
    | _ => false) = true := by decide +kernel
example : configWarnings goLike userToml = [.ignoredMacrosUnsupported] := by decide
example : (match ({ ignoredMacros := ["a-b".toList] } : Toml).compile Char.isAlphanum with
    | .error (.badChar c) => c == '-'
    | _ => false) = true := by decide +kernel
example : (Toml.merge { visitIgnoredArguments := some true } { visitIgnoredArguments := some false }) = none := rfl
example : Toml.read false (.doc [("ignored_function".toList, .strings [])]) =
    .error (.unknownKeys ["ignored_function".toList]) := rfl
example : ∃ t, Toml.read false (.doc [("ignored_tests".toList, .strings ["a".toList])]) = .ok t := ⟨_, rfl⟩
example : (defaultConfig false none .absent).1 = .ok () := rfl

end Demo
end Necessist
