import Verif.Spec.Main
import Verif.Props.Options
import Verif.Props.Database
import Verif.Props.Parse
/-! Lemmas about the program. -/
namespace Necessist.Main
open Run Parse

variable {V σ : Type} {h : Host V σ} {o : Opts} {m : Machine σ}

theorem Undisturbed.refl (m : Machine σ) : Undisturbed m m := ⟨rfl, rfl, rfl, rfl, rfl, rfl⟩

theorem Undisturbed.trans {m m' m'' : Machine σ} (h : Undisturbed m m') (h' : Undisturbed m' m'') : Undisturbed m m'' :=
  ⟨h'.skills.trans h.skills, h'.config.trans h.config, h'.db.trans h.db, h'.fs.trans h.fs, h'.trace.trans h.trace,
    h'.progress.trans h.progress⟩

theorem undisturbed_print (msgs : List Msg) (m : Machine σ) : Undisturbed m (print o msgs m) := by
  unfold print
  split
  · exact .refl _
  · exact ⟨rfl, rfl, rfl, rfl, rfl, rfl⟩

theorem warnInternal_no_panic (o : WarnOpts) (st : WStates) (w : Warning) (src : Option Text) (msg : Text) (once : Bool) (hw : w ≠ .all) :
    (warnInternal o st ⟨w, src, msg, once⟩).1 ≠ .panic := by
  unfold warnInternal
  rw [if_neg hw]
  dsimp only
  split
  · simp
  · split <;> simp

theorem warnDeprecated_spec (o : Opts) (m : Machine σ) :
    Undisturbed m (warnDeprecated o m).2 ∧ (warnDeprecated o m).2.ext = m.ext ∧ (warnDeprecated o m).1 ≠ .hang ∧ (warnDeprecated o m).1 ≠ .panic ∧
      ∃ ws : List WarnMsg, (warnDeprecated o m).2.console = m.console ++ ws.map .warning := by
  unfold warnDeprecated
  split
  · split
    · exact ⟨⟨rfl, rfl, rfl, rfl, rfl, rfl⟩, rfl, by simp, by simp, [], by simp⟩
    · exact ⟨⟨rfl, rfl, rfl, rfl, rfl, rfl⟩, rfl, by simp, by simp, [], by simp⟩
    · refine ⟨?_, ?_, by simp, by simp, ?_⟩
      · skip
        unfold print; split <;> exact ⟨rfl, rfl, rfl, rfl, rfl, rfl⟩
      · unfold print; split <;> rfl
      · rename_i w _ _
        unfold print
        split
        · exact ⟨[], by simp⟩
        · exact ⟨[w], by simp⟩
    · rename_i hp
      exact absurd (congrArg Prod.fst hp) (warnInternal_no_panic _ _ _ _ _ _ (fun e => by cases e))
  · exact ⟨.refl _, rfl, by simp, by simp, [], by simp⟩

theorem prepareFound_spec (root : Path) (fw : Fw σ) (nTests : Nat) (map : FileMap) :
    Undisturbed m (prepareFound h o root fw nTests map m).2 ∧
      (prepareFound h o root fw nTests map m).2.ext = m.ext ∧
      (prepareFound h o root fw nTests map m).2.warns = m.warns ∧
      (∀ p, (prepareFound h o root fw nTests map m).1 = .ok (some p) →
        p = ⟨fw.env, map.nSpans, map⟩ ∧ o.dumpCandidates = false ∧ o.dumpCandidateCounts = false) ∧
      (∀ e, (prepareFound h o root fw nTests map m).1 ≠ .err e) := by
  have hp : ∀ msgs, (print o msgs m).ext = m.ext ∧ (print o msgs m).warns = m.warns := by
    intro msgs; unfold print; split <;> exact ⟨rfl, rfl⟩
  unfold prepareFound
  split
  · unfold dumpCandidates
    generalize candidateLines m.fs (location h o root) (map.flatMap fun p => p.2.candidates) = x
    obtain ⟨ls, ok⟩ := x
    cases ok <;> simp only [if_true, Bool.false_eq_true, if_false] <;>
      exact ⟨undisturbed_print _ _, (hp _).1, (hp _).2, fun p hp => (by cases hp), fun e he => (by cases he)⟩
  · split
    · exact ⟨undisturbed_print _ _, (hp _).1, (hp _).2, fun p hp => (by cases hp), fun e he => (by cases he)⟩
    · rename_i h1 h2
      exact ⟨undisturbed_print _ _, (hp _).1, (hp _).2, fun p hp => (by cases hp; exact ⟨rfl, by simpa using h1, by simpa using h2⟩),
        fun e he => (by cases he)⟩

/-- What becomes of a call that looks for candidates: it fails, having changed nothing, or finds candidates and goes on. -/
theorem necessist_candidates (hopt : processOptions o.set = .ok) (hl : LooksForCandidates o) :
    (Undisturbed m (necessist h o m).2 ∧ (∀ n, (necessist h o m).1 ≠ .ok n) ∧ (necessist h o m).1 ≠ .hang ∧
      ((∃ e, (necessist h o m).1 = .err e) ∨ ∃ root config fw paths, rootOf h o = some root ∧
        Toml.read h.configStatFails m.config = .ok config ∧ Framework.backendFor Framework.Identifier.all Framework.Identifier.name
          (Framework.Identifier.applicable h.exists_) (h.impl m.ext) o.framework = .ok fw ∧
        canonicalizeAll (projectBackend h o root m fw) o.sourceFiles = .ok paths) ∧
      ∀ root fw nTests map ws st, ¬ FindsCandidates h o m root fw nTests map ws st) ∨
    ∃ root fw nTests map ws st, FindsCandidates h o m root fw nTests map ws st ∧
      necessist h o m =
        afterPrepare h o root (prepareFound h o root fw nTests map
          { m with ext := fw.parsed (h.chosen m.ext), warns := st, console := m.console ++ ws.map .warning }) := by
  obtain ⟨h1, h2, h3, h4⟩ := hl
  have e : necessist h o m = project h o m := by
    unfold necessist
    rw [hopt]; simp only [h1, h2, Bool.false_eq_true, if_false]
  have hroot : projectRoot h o = rootOf h o := rfl
  rw [e]
  unfold project
  rw [hroot]
  cases hr : rootOf h o with
  | none =>
    refine Or.inl ⟨.refl _, fun n => (by simp [afterPrepare]), (by simp [afterPrepare]), Or.inl ⟨_, rfl⟩, ?_⟩
    rintro root fw nTests map ws st ⟨k, _⟩
    rw [hr] at k; cases k
  | some root =>
    dsimp only
    by_cases hlock : h.lockFails root = true
    · rw [if_pos hlock]
      refine Or.inl ⟨.refl _, fun n => (by simp [afterPrepare]), (by simp [afterPrepare]), Or.inl ⟨_, rfl⟩, ?_⟩
      rintro root' fw nTests map ws st ⟨k, k', _⟩
      rw [hr] at k; cases k
      rw [hlock] at k'; cases k'
    rw [if_neg hlock]
    have hlock : h.lockFails root = false := by simpa using hlock
    rcases hw : warnDeprecated o m with ⟨r1, m1⟩
    obtain ⟨u1, x1, n1, n2, ws0, c1⟩ := warnDeprecated_spec o m
    rw [hw] at u1 x1 n1 n2 c1
    dsimp only at u1 x1 n1 n2 c1
    have hno : ∀ (r : Res Error Unit), r1 ≠ .ok () → ∀ root fw nTests map ws st, ¬ FindsCandidates h o m root fw nTests map ws st := by
      rintro _ hne root fw nTests map ws st ⟨_, _, _, _, m1', _, _, k, _⟩
      rw [hw] at k; cases k; exact hne rfl
    cases r1 with
    | err e => exact Or.inl ⟨u1, fun n => (by simp [afterPrepare]), (by simp [afterPrepare]), Or.inl ⟨_, rfl⟩, hno (.ok ()) (by simp)⟩
    | panic => exact absurd rfl n2
    | hang => exact absurd rfl n1
    | ok _ =>
      dsimp only
      have hprep : prepare h o root m1 = match Toml.read h.configStatFails m.config with
          | .error e => (.err (.config e), m1)
          | .ok config => prepareCandidates h o root config m1 := by
        unfold prepare
        rw [h3, h4, u1.config]
        simp only [Bool.false_eq_true, if_false]
        cases Toml.read h.configStatFails m.config <;> rfl
      rw [hprep]
      cases hconf : Toml.read h.configStatFails m.config with
      | error e =>
        refine Or.inl ⟨u1, fun n => (by simp [afterPrepare]), (by simp [afterPrepare]), Or.inl ⟨_, rfl⟩, ?_⟩
        rintro root fw nTests map ws st ⟨_, _, _, _, _, _, _, _, _, k, _⟩
        rw [hconf] at k; cases k
      | ok config =>
        dsimp only
        unfold prepareCandidates
        rw [x1]
        have hb : ∀ fw, projectBackend h o root { m1 with ext := h.chosen m.ext } fw = projectBackend h o root m fw := by
          intro fw
          unfold projectBackend readFile
          simp only [u1.fs]
        cases hfw : Framework.backendFor Framework.Identifier.all Framework.Identifier.name
            (Framework.Identifier.applicable h.exists_) (h.impl m.ext) o.framework with
        | error e =>
          refine Or.inl ⟨u1.trans ⟨rfl, rfl, rfl, rfl, rfl, rfl⟩, fun n => (by simp [afterPrepare]), (by simp [afterPrepare]), Or.inl ⟨_, rfl⟩, ?_⟩
          rintro root fw nTests map ws st ⟨_, _, _, _, _, _, _, _, _, _, k, _⟩
          rw [hfw] at k; cases k
        | ok fw =>
          dsimp only
          rw [hb fw]
          cases hc : canonicalizeAll (projectBackend h o root m fw) o.sourceFiles with
          | error e =>
            refine Or.inl ⟨u1.trans ⟨rfl, rfl, rfl, rfl, rfl, rfl⟩, fun n => (by simp [afterPrepare]), (by simp [afterPrepare]), Or.inl ⟨_, rfl⟩, ?_⟩
            rintro root' fw' nTests map ws st ⟨k0, _, _, _, _, _, _, _, _, _, k, k', _⟩
            rw [hr] at k0; cases k0
            rw [hfw] at k; cases k
            rw [hc] at k'; cases k'
          | ok paths =>
            dsimp only
            rcases hp : parse (projectBackend h o root m fw) config paths m1.warns with ⟨r, pst⟩
            dsimp only
            have hno : r ≠ .ok () → ∀ root fw nTests map ws st, ¬ FindsCandidates h o m root fw nTests map ws st := by
              rintro hne root' fw' nTests map ws st ⟨k0, _, config', paths', m1', pst', _, k1, _, k2, k3, k4, k5, _⟩
              rw [hr] at k0; cases k0
              rw [hw] at k1; cases k1
              rw [hconf] at k2; cases k2
              rw [hfw] at k3; cases k3
              rw [hc] at k4; cases k4
              rw [hp] at k5; cases k5; exact hne rfl
            cases r with
            | err e => exact Or.inl ⟨u1.trans ⟨rfl, rfl, rfl, rfl, rfl, rfl⟩, fun n => (by simp [afterPrepare]), (by simp [afterPrepare]), Or.inr ⟨root, config, fw, paths, rfl, rfl, rfl, hc⟩, hno (by simp)⟩
            | panic => exact Or.inl ⟨u1.trans ⟨rfl, rfl, rfl, rfl, rfl, rfl⟩, fun n => (by simp [afterPrepare]), (by simp [afterPrepare]), Or.inr ⟨root, config, fw, paths, rfl, rfl, rfl, hc⟩, hno (by simp)⟩
            | hang => exact absurd (congrArg Prod.fst hp) (C39_parse_ends _ _ _ _)
            | ok _ =>
              right
              refine ⟨root, fw, pst.nTests, pst.map, ws0 ++ pst.printed, pst.warns,
                ⟨hr, hlock, config, paths, m1, pst, ws0, hw, c1, hconf, hfw, hc, hp, rfl, rfl, rfl, rfl⟩, ?_⟩
              dsimp only
              have em : ({ m with
                  ext := fw.parsed (h.chosen m.ext), warns := pst.warns, console := m.console ++ (ws0 ++ pst.printed).map .warning } : Machine σ) =
                  { m1 with ext := fw.parsed (h.chosen m.ext), warns := pst.warns, console := m1.console ++ pst.printed.map .warning } := by
                rcases m1 with ⟨a1, a2, a3, a4, a5, a6, a7, a8, a9⟩
                rcases m with ⟨b1, b2, b3, b4, b5, b6, b7, b8, b9⟩
                obtain ⟨v1, v2, v3, v4, v5, v6⟩ := u1
                simp only at v1 v2 v3 v4 v5 v6 c1
                subst v1 v2 v3 v4 v5 v6 c1
                simp
              rw [em]

theorem FindsCandidates.unique {root fw nTests map ws st root' fw' nTests' map' ws' st'}
    (h1 : FindsCandidates h o m root fw nTests map ws st) (h2 : FindsCandidates h o m root' fw' nTests' map' ws' st') :
    root = root' ∧ fw = fw' ∧ nTests = nTests' ∧ map = map' ∧ ws = ws' ∧ st = st' := by
  obtain ⟨k0, _, config, paths, m1, pst, ws0, k1, k2, k3, k4, k5, k6, rfl, rfl, rfl, rfl⟩ := h1
  obtain ⟨g0, _, config', paths', m1', pst', ws0', g1, g2, g3, g4, g5, g6, rfl, rfl, rfl, rfl⟩ := h2
  rw [k0] at g0; cases g0
  rw [k1] at g1; cases g1
  rw [k3] at g3; cases g3
  rw [k4] at g4; cases g4
  rw [k5] at g5; cases g5
  rw [k6] at g6; cases g6
  rw [k2] at g2
  have hinj : ∀ (a b : List WarnMsg), a.map Msg.warning = b.map Msg.warning → a = b := by
    intro a b hab
    exact (List.map_inj_right (fun x y hxy => by cases hxy; rfl)).1 hab
  have := hinj _ _ (List.append_cancel_left g2)
  subst this
  exact ⟨rfl, rfl, rfl, rfl, rfl, rfl⟩

/-- The candidates that are found do not depend on what is done with them. -/
theorem FindsCandidates.congr {o' : Opts} (hr : o'.root = o.root) (ha : o'.allow = o.allow) (hd : o'.deny = o.deny) (hq : o'.quiet = o.quiet)
    (hf : o'.framework = o.framework) (hn : o'.noLocalFunctions = o.noLocalFunctions) (hs : o'.sourceFiles = o.sourceFiles)
    {root fw nTests map ws st} (hx : FindsCandidates h o m root fw nTests map ws st) :
    FindsCandidates h o' m root fw nTests map ws st := by
  have hw : o'.warn = o.warn := by simp [Opts.warn, ha, hd, hq]
  have e1 : rootOf h o' = rootOf h o := by unfold rootOf; rw [hr]
  have e2 : warnDeprecated o' m = warnDeprecated o m := by
    unfold warnDeprecated; rw [hn, hw]; unfold print; rw [hq]
  have e3 : projectBackend h o' root m fw = projectBackend h o root m fw := by unfold projectBackend; rw [hw]
  unfold FindsCandidates
  rw [e1, e2, e3, hf, hs]
  exact hx

end Necessist.Main
