import Verif.Lemmas.RunJust
import Verif.Props.MainRun
import Verif.Props.RunDemo
/-!
# C08, C73: results have reasons, and only the outside hangs
-/
namespace Necessist.Run
variable {σ : Type}

/-- **C08.** However a run ends, every result that it saw has its reason. -/
theorem C08_results (cfg : Cfg) (env : Env σ) (fcs : List (SourceFile × List Candidate)) (w : World σ) (hf : Fresh w) :
    ∀ s ∈ (runFiles cfg env fcs w).2.trace, Justified cfg env s.event :=
  (Just.run fcs w (by rw [Just.J, hf.1]; simp)).1

/-- **C73.** A run that does not end waits for something outside. -/
theorem C73_run (cfg : Cfg) (env : Env σ) (fcs : List (SourceFile × List Candidate)) (w : World σ) (hf : Fresh w)
    (hh : (runFiles cfg env fcs w).1 = .hang) : Waits cfg env :=
  (Just.run fcs w (by rw [Just.J, hf.1]; simp)).2 hh

/-- **C73.** With a timeout (other than 0), tests that do not end do not matter. -/
theorem C73_timeout {cfg : Cfg} {env : Env σ} (hs : Waits cfg env) (ht : cfg.timeout ≠ some 0) :
    (∃ w f, (env.dryRun w f).res = .hang) ∨ (∃ w f, (env.backup w f).res = .hang) ∨ (∃ w f n, (env.instrFile w f n).res = .hang) ∨
    (∃ w s, (env.wrap w s).res = .hang) ∨ (∃ w f, (env.build w f).res = .hang) ∨ (∃ w t s, (env.exec w t s).res = .hang) ∨
    (∃ w t s i, (env.start w t s i).res = .hang) ∨ (∃ w, (env.post w).res = .hang) ∨ (∃ w, (env.kill w).res = .hang) ∨
    (∃ w, (env.reap w).res = .hang) ∨ ∃ w s, (env.insert w s).res = .hang := by
  cases hs with
  | dryRun w f h => exact .inl ⟨w, f, h⟩
  | backup w f h => exact .inr (.inl ⟨w, f, h⟩)
  | instrFile w f n h => exact .inr (.inr (.inl ⟨w, f, n, h⟩))
  | wrap w s h => exact .inr (.inr (.inr (.inl ⟨w, s, h⟩)))
  | build w f h => exact .inr (.inr (.inr (.inr (.inl ⟨w, f, h⟩))))
  | exec w t s h => exact .inr (.inr (.inr (.inr (.inr (.inl ⟨w, t, s, h⟩)))))
  | start w t s i h => exact .inr (.inr (.inr (.inr (.inr (.inr (.inl ⟨w, t, s, i, h⟩))))))
  | post w h => exact .inr (.inr (.inr (.inr (.inr (.inr (.inr (.inl ⟨w, h⟩)))))))
  | kill w h => exact .inr (.inr (.inr (.inr (.inr (.inr (.inr (.inr (.inl ⟨w, h⟩))))))))
  | reap w h => exact .inr (.inr (.inr (.inr (.inr (.inr (.inr (.inr (.inr (.inl ⟨w, h⟩)))))))))
  | insert w s h => exact .inr (.inr (.inr (.inr (.inr (.inr (.inr (.inr (.inr (.inr ⟨w, s, h⟩)))))))))
  | test _ _ _ _ _ h => exact absurd h ht

/-- Only the timeout and the identifiers matter. -/
theorem Justified.congr {cfg cfg' : Cfg} {env : Env σ} {e : Event} (h : Justified cfg env e) (ht : cfg'.timeout = cfg.timeout)
    (hi : cfg'.ident = cfg.ident) : Justified cfg' env e := by
  have hst : ∀ {c t p}, Started cfg env c t p → Started cfg' env c t p := by
    rintro c t p ⟨w, hw⟩; exact ⟨w, by rw [hi]; exact hw⟩
  cases e with
  | kill c t => obtain ⟨p, h1, h2⟩ := h; exact ⟨p, hst h1, by rw [ht]; exact h2⟩
  | tested c t r =>
    rcases r with _ | r
    · exact h
    · cases r with
      | timedOut => obtain ⟨p, h1, h2⟩ := h; exact ⟨p, hst h1, by rw [ht]; exact h2⟩
      | passed => obtain ⟨p, d, h1, h2, h3, h4⟩ := h; exact ⟨p, d, hst h1, h2, by rw [ht]; exact h3, h4⟩
      | failed => obtain ⟨p, d, h1, h2, h3, h4⟩ := h; exact ⟨p, d, hst h1, h2, by rw [ht]; exact h3, h4⟩
      | nonbuildable => exact h
      | skipped => exact h
  | _ => trivial

theorem Waits.congr {cfg cfg' : Cfg} {env : Env σ} (h : Waits cfg env) (ht : cfg'.timeout = cfg.timeout)
    (hi : cfg'.ident = cfg.ident) : Waits cfg' env := by
  cases h with
  | dryRun w f h => exact .dryRun w f h
  | backup w f h => exact .backup w f h
  | instrFile w f n h => exact .instrFile w f n h
  | wrap w s h => exact .wrap w s h
  | build w f h => exact .build w f h
  | exec w t s h => exact .exec w t s h
  | start w t s i h => exact .start w t s i h
  | post w h => exact .post w h
  | kill w h => exact .kill w h
  | reap w h => exact .reap w h
  | insert w s h => exact .insert w s h
  | test c t p h1 h2 h3 =>
    obtain ⟨w, hw⟩ := h1
    exact .test c t p ⟨w, by rw [hi]; exact hw⟩ h2 (ht.trans h3)

/-- Non-vacuity: in the example run tests pass, fail and time out. -/
example : ((runFiles { Demo.cfg with timeout := some 1 } { Demo.env 99 99 with
      start := fun w t s i => { (Demo.env 99 99).start w t s i with
        res := .ok ⟨false, if t = "q".toList then none else some 1000, true⟩ } } Demo.files Demo.start).2.trace.map (·.event)).filter
      (fun e => match e with | .tested _ _ _ | .kill _ _ => true | _ => false) =
    [.tested Demo.c1 "p".toList (some .passed), .kill Demo.c1 "q".toList, .tested Demo.c1 "q".toList (some .timedOut),
     .tested Demo.c2 "p".toList (some .passed), .kill Demo.c3 "q".toList, .tested Demo.c3 "q".toList (some .timedOut)] := by decide +kernel

end Necessist.Run

namespace Necessist.Main
open Run
variable {V σ : Type} {h : Host V σ} {o : Opts} {m : Machine σ}

/-- **C08.** Every result that the program sees has its reason, under the timeout that the user gave. -/
theorem C08_program (hs : SpansInFile h) {cfg : Cfg} (ht : cfg.timeout = o.timeout) (hi : cfg.ident = h.ident) :
    ∃ events, (main h o m).2.trace = m.trace ++ events ∧
      ∀ s ∈ events, ∃ root fw nTests map ws st, FindsCandidates h o m root fw nTests map ws st ∧ Justified cfg fw.env s.event := by
  have e : (main h o m).2 = (necessist h o m).2 := rfl
  rw [e]
  rcases necessist_runs (o := o) (m := m) hs with ⟨_, h1, _⟩ | ⟨root, fw, nT, map, ws, st, hf, hok, w0, hfr, hfs, h1, h2, h3⟩
  · exact ⟨[], by rw [h1, List.append_nil], by simp⟩
  · exact ⟨_, h2, fun s hs' => ⟨root, fw, nT, map, ws, st, hf, (C08_results _ fw.env map.toRun w0 hfr s hs').congr ht hi⟩⟩

/-- **C73.** The program ends, unless something outside does not return: a call of the framework's or of the operating system's, or a
test, if the user has turned the timeout off. -/
theorem C73_program (hs : SpansInFile h) {cfg : Cfg} (ht : cfg.timeout = o.timeout) (hi : cfg.ident = h.ident)
    (hx : (main h o m).1 = none) :
    ∃ root fw nTests map ws st, FindsCandidates h o m root fw nTests map ws st ∧ Waits cfg fw.env := by
  have hh : (necessist h o m).1 = .hang := by
    rw [main_fst] at hx
    cases hn : (necessist h o m).1 with
    | ok n => rw [hn] at hx; simp [exitCode] at hx
    | err e => rw [hn] at hx; simp [exitCode] at hx
    | panic => rw [hn] at hx; simp [exitCode] at hx
    | hang => rfl
  rcases necessist_runs (o := o) (m := m) hs with ⟨_, _, h1⟩ | ⟨root, fw, nT, map, ws, st, hf, hok, w0, hfr, hfs, h1, h2, h3⟩
  · exact absurd hh h1
  · refine ⟨root, fw, nT, map, ws, st, hf, ?_⟩
    rw [hh] at h3
    cases hy : (runFiles (runCfg h o m) fw.env map.toRun w0).1 with
    | hang => exact (C73_run _ fw.env map.toRun w0 hfr hy).congr ht hi
    | ok u => rw [hy] at h3; cases h3
    | err e => rw [hy] at h3; cases h3
    | panic => rw [hy] at h3; cases h3

end Necessist.Main
