import Verif.Lemmas.RunOwn
import Verif.Props.MainRun
import Verif.Props.Walk
/-! Conditions on the state of the outside world that hold again whenever a call has ended: the whole program. -/
namespace Necessist.Main
open Run Framework Parse

variable {V σ α : Type} {G E L : σ → Prop} {h : Host V σ} {o : Opts} {m : Machine σ}

/-- `G` if there is a result, `L` if it does not end, otherwise `E`. -/
def Ends (G E L : σ → Prop) (x : Res Error α × Machine σ) : Prop :=
  match x.1 with
  | .ok _ => G x.2.ext
  | .hang => L x.2.ext
  | _ => E x.2.ext

/-- Choosing the framework and looking for candidates preserve `G`; the framework's runs do, except that what happens in the course of one
test is taken as a whole. -/
structure Keeps (h : Host V σ) (o : Opts) (start : σ) (cfg : Cfg) (G E L : σ → Prop) : Prop where
  chosen : ∀ s, G s → G (h.chosen s)
  parsed : ∀ i fw, Walk.Chosen h o i → h.impl start i = .ok (some fw) → ∀ s, G s → G (fw.parsed s)
  env : ∀ i fw, Walk.Chosen h o i → h.impl start i = .ok (some fw) → Settled cfg fw.env G E L

variable [kE : Weaker G E] [kL : Weaker G L]

/-- If the state of the outside world is such that `G`, all is well, however it has ended. -/
theorem Ends.of {x : Res Error α × Machine σ} (hG : G x.2.ext) : Ends G E L x := by
  unfold Ends
  split
  · exact hG
  · exact kL.weaker _ hG
  · exact kE.weaker _ hG

theorem print_ext (msgs : List Msg) (m : Machine σ) : (print o msgs m).ext = m.ext := by
  unfold print
  split <;> rfl

omit kL in
theorem runAll_ends {root : Parse.Path} {p : Prepared σ} (hp : Settled (runCfg h o m) p.env G E L) (hG : G m.ext) :
    Ends G E L (runAll h o root p m) := by
  unfold runAll
  rcases runWhole_runs (runCfg h o m) p.env (dbCall h o) p.map.toRun m.db (startWorld m m.warns m.ext) with
    ⟨h0, _, _, _, h4⟩ | ⟨w0, _, _, ⟨_, hw⟩, h1, h2⟩
  · unfold startWorld at h0 h4
    generalize runWhole (dbCall h o) (runCfg h o m) p.env p.map.toRun m.db _ = y at h0 h4 ⊢
    obtain ⟨r, db, w⟩ := y
    dsimp only at h0 h4 ⊢
    have hG' : E w.ext := kE.weaker _ (h4.symm ▸ hG)
    rcases h0 with ⟨e, rfl⟩ | rfl <;> exact hG'
  · have ht := hp.runFiles p.map.toRun w0 (show G w0.ext from hw ▸ hG)
    unfold startWorld at h1 h2
    generalize runWhole (dbCall h o) (runCfg h o m) p.env p.map.toRun m.db _ = y at h1 h2 ⊢
    obtain ⟨r, db, w⟩ := y
    generalize runFiles (runCfg h o m) p.env p.map.toRun w0 = z at h1 h2 ht
    obtain ⟨r', w'⟩ := z
    dsimp only at h1 h2 ⊢
    subst h1 h2
    cases r' <;> exact ht

theorem dumpCandidates_ext (root : Parse.Path) (map : FileMap) : (dumpCandidates h o root map m).2.ext = m.ext := by
  unfold dumpCandidates
  exact print_ext _ _

/-- What `prepare` returns: the state of the outside world is such that `G`, and the files are unchanged. -/
def Good (h : Host V σ) (cfg : Cfg) (fs : SourceFile → Text) (G E L : σ → Prop) (x : Res Error (Option (Prepared σ)) × Machine σ) : Prop :=
  G x.2.ext ∧ x.2.fs = fs ∧ ∀ p, x.1 = .ok (some p) → Settled cfg p.env G E L

omit kE kL in
theorem prepareFound_good {root : Parse.Path} {fw : Fw σ} {nT : Nat} {map : FileMap} {cfg : Cfg} (hG : G m.ext) (hfw : Settled cfg fw.env G E L) :
    Good h cfg m.fs G E L (prepareFound h o root fw nT map m) := by
  unfold prepareFound
  split
  · have h1 := dumpCandidates_ext (h := h) (o := o) (m := m) root map
    have h2 : (dumpCandidates h o root map m).2.fs = m.fs := by
      unfold dumpCandidates print
      dsimp only
      split <;> rfl
    generalize dumpCandidates h o root map m = y at h1 h2
    obtain ⟨r, m'⟩ := y
    dsimp only at h1 h2
    cases r <;> exact ⟨h1.symm ▸ hG, h2, nofun⟩
  · split
    · refine ⟨?_, ?_, nofun⟩
      · rw [print_ext]; exact hG
      · unfold print; split <;> rfl
    · refine ⟨?_, ?_, ?_⟩
      · rw [print_ext]; exact hG
      · unfold print; split <;> rfl
      · intro p hp
        cases hp
        exact hfw

omit kE kL in
theorem prepareCandidates_good {root : Parse.Path} {config : Toml} {cfg : Cfg} (k : Keeps h o m.ext cfg G E L) (hG : G m.ext) :
    Good h cfg m.fs G E L (prepareCandidates h o root config m) := by
  unfold prepareCandidates
  split
  · exact ⟨k.chosen _ hG, rfl, nofun⟩
  · rename_i fw hfw
    obtain ⟨i, hch, hi⟩ := Walk.chosen_impl hfw
    dsimp only
    split
    · exact ⟨k.chosen _ hG, rfl, nofun⟩
    · rename_i paths _
      have hG' := k.parsed _ _ hch hi _ (k.chosen _ hG)
      generalize parse _ config paths m.warns = y
      obtain ⟨r, st⟩ := y
      cases r with
      | ok _ => exact prepareFound_good hG' (k.env _ _ hch hi)
      | _ => exact ⟨hG', rfl, nofun⟩

omit kE kL in
theorem prepare_good {root : Parse.Path} {cfg : Cfg} (k : Keeps h o m.ext cfg G E L) (hG : G m.ext) :
    Good h cfg m.fs G E L (prepare h o root m) := by
  unfold prepare
  split
  · split <;> exact ⟨hG, rfl, nofun⟩
  · split
    · exact ⟨hG, rfl, nofun⟩
    · split
      · unfold prepareDump
        split <;> exact ⟨hG, rfl, nofun⟩
      · exact prepareCandidates_good k hG

theorem project_ends (k : Keeps h o m.ext (runCfg h o m) G E L) (hG : G m.ext) : Ends G E L (project h o m) := by
  unfold project
  split
  · exact .of hG
  · rename_i root _
    split
    · exact .of hG
    · have h1 : (warnDeprecated o m).2.ext = m.ext ∧ (warnDeprecated o m).2.fs = m.fs := by
        unfold warnDeprecated
        split
        · split
          · exact ⟨rfl, rfl⟩
          · exact ⟨rfl, rfl⟩
          · unfold print; split <;> exact ⟨rfl, rfl⟩
          · exact ⟨rfl, rfl⟩
        · exact ⟨rfl, rfl⟩
      generalize warnDeprecated o m = y at h1
      obtain ⟨r, m'⟩ := y
      have hG' : G m'.ext := h1.1.symm ▸ hG
      cases r with
      | ok _ =>
        dsimp only
        have hc : ∀ fs, fs = m.fs → runCfg h o { m' with fs } = runCfg h o m := by
          rintro fs rfl; rfl
        have hg := prepare_good (o := o) (root := root) (h1.1.symm ▸ k) hG'
        generalize prepare h o root m' = z at hg
        obtain ⟨r', m''⟩ := z
        obtain ⟨g1, g2, g3⟩ := hg
        have hc' : runCfg h o m'' = runCfg h o m := by
          have : m''.fs = m.fs := g2.trans h1.2
          unfold runCfg
          rw [this]
        match r', g3 with
        | .err e, _ => exact .of g1
        | .panic, _ => exact .of g1
        | .hang, _ => exact .of g1
        | .ok none, _ => exact .of g1
        | .ok (some p), g3 => exact runAll_ends (hc' ▸ g3 p rfl) g1
      | _ => exact .of hG'

/-- One execution of `necessist`. -/
theorem necessist_ends (k : Keeps h o m.ext (runCfg h o m) G E L) (hG : G m.ext) : Ends G E L (necessist h o m) := by
  unfold necessist
  repeat' split
  all_goals first | exact .of hG | exact project_ends k hG

end Necessist.Main
