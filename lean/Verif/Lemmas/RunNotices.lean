import Verif.Lemmas.RunSteps
import Verif.Spec.Notices
/-! Proof that the notices about files are as specified. -/
namespace Necessist.Run

variable {σ α β : Type}

/-- The notices among the lines of a run. -/
def noticesAmong (out : List Line) : List Notice := out.filterMap fun l => match l with
  | .dryRunning f => some (.dryRunning f)
  | .mutilating f => some (.mutilating f)
  | _ => none

def brief (w : World σ) : List Notice × List Event := (noticesAmong w.out, dryRunEvents w.trace)

theorem noticesAmong_append (a b : List Line) : noticesAmong (a ++ b) = noticesAmong a ++ noticesAmong b := List.filterMap_append
theorem dryRunEvents_append (a b : List Snap) : dryRunEvents (a ++ b) = dryRunEvents a ++ dryRunEvents b := List.filterMap_append

/-- Gives no notice and makes no dry run. -/
def Hushed (m : M σ α) : Prop := ∀ w, brief (m w).2 = brief w

theorem Hushed.bind {m : M σ α} {k : α → M σ β} (h1 : Hushed m) (h2 : ∀ a, Hushed (k a)) : Hushed (Run.bind m k) := by
  intro w
  have := h1 w
  unfold Run.bind
  rcases hm : m w with ⟨r, w'⟩
  rw [hm] at this
  cases r with
  | ok a => exact (h2 a w').trans this
  | err e => exact this
  | panic => exact this
  | hang => exact this

theorem Hushed.ret (a : α) : Hushed (Run.ret a : M σ α) := fun _ => rfl
theorem Hushed.panics : Hushed (Run.panics : M σ α) := fun _ => rfl
theorem Hushed.fail (e : Err) : Hushed (Run.fail e : M σ α) := fun _ => rfl
theorem noticesAmong_warnings (out : List Line) (ms : List WarnMsg) : noticesAmong (out ++ ms.map .warning) = noticesAmong out := by
  rw [noticesAmong_append]
  have : noticesAmong (ms.map .warning) = [] := by
    unfold noticesAmong
    rw [List.filterMap_map]
    exact List.filterMap_eq_nil_iff.2 fun _ _ => rfl
  rw [this, List.append_nil]

theorem Hushed.ask (f : World σ → Reply σ α) : Hushed (Run.ask f) := fun w => by
  unfold Run.ask brief
  dsimp only
  rw [noticesAmong_warnings]
theorem Hushed.askTry (f : World σ → Reply σ α) : Hushed (Run.askTry f) := by
  intro w
  have : brief { w with warns := (f w).warns, out := w.out ++ (f w).said.map .warning, ext := (f w).ext } = brief w := by
    unfold brief
    dsimp only
    rw [noticesAmong_warnings]
  unfold Run.askTry
  dsimp only
  cases (f w).res <;> exact this
theorem Hushed.orPanic (o : Option α) : Hushed (Run.orPanic o : M σ α) := by
  cases o
  · exact Hushed.panics
  · exact Hushed.ret _
theorem Hushed.say (cfg : Cfg) (l : Line) (h : noticesAmong [l] = []) : Hushed (Run.say cfg l : M σ Unit) := by
  intro w
  unfold Run.say
  by_cases hq : cfg.warn.quiet = true
  · simp [hq]
  · simp [hq, brief, noticesAmong_append, h]
theorem Hushed.note (e : Event) (h : ∀ f, e ≠ .dryRun f) (h' : ∀ f, e ≠ .dryRunFailed f) : Hushed (Run.note e : M σ Unit) := by
  intro w
  have h1 : dryRunEvents [⟨e, w.fs⟩] = [] := by
    cases e with
    | dryRun f => exact absurd rfl (h f)
    | dryRunFailed f => exact absurd rfl (h' f)
    | _ => rfl
  simp [Run.note, brief, dryRunEvents_append, h1]
theorem Hushed.warnM (cfg : Cfg) (c : WarnCall) : Hushed (Run.warnM cfg c : M σ Unit) := by
  intro w
  unfold Run.warnM
  rcases warnInternal cfg.warn w.warns c with ⟨r, st⟩
  cases r with
  | print m => exact Hushed.say cfg _ rfl _
  | _ => rfl
theorem Hushed.checkCtrlc (env : Env σ) : Hushed (Run.checkCtrlc env) := by
  intro w
  unfold Run.checkCtrlc
  rcases env.ctrlc w with ⟨b, ext⟩
  exact Hushed.bind (Hushed.note _ (by simp) (by simp)) (fun _ => by
    cases b
    · exact Hushed.ret ()
    · exact Hushed.fail _) _
theorem Hushed.writeFile (env : Env σ) (f : SourceFile) (t : Text) : Hushed (Run.writeFile env f t) := by
  intro w
  unfold Run.writeFile
  rcases env.write w f t with ⟨_ | _, ext⟩ <;> rfl
theorem Hushed.wraps (env : Env σ) (cs : List Candidate) : Hushed (Run.wraps env cs) := by
  induction cs with
  | nil => exact Hushed.ret _
  | cons c cs ih => exact Hushed.bind (Hushed.ask _) fun _ => Hushed.bind ih fun _ => Hushed.ret _

theorem Hushed.instrumentBody (cfg : Cfg) (env : Env σ) (f : SourceFile) (cs : List Candidate) : Hushed (Run.instrumentBody cfg env f cs) := by
  refine Hushed.bind (Hushed.ask _) fun _ => Hushed.bind (Hushed.wraps _ _) fun _ =>
    Hushed.bind (Hushed.orPanic _) fun _ => Hushed.bind (Hushed.writeFile _ _ _) fun _ =>
    Hushed.bind (Hushed.note _ (by simp) (by simp)) fun _ => Hushed.bind (Hushed.askTry _) fun r => ?_
  cases r with
  | ok _ => exact Hushed.ret _
  | error _ => exact Hushed.bind (Hushed.note _ (by simp) (by simp)) fun _ => Hushed.bind (Hushed.warnM _ _) fun _ => Hushed.ret _

theorem Hushed.instrumentStatements (cfg : Cfg) (env : Env σ) (f : SourceFile) (cs : List Candidate) :
    Hushed (Run.instrumentStatements cfg env f cs) := by
  refine Hushed.bind (Hushed.ask _) fun _ => ?_
  intro w
  have := Hushed.instrumentBody cfg env f cs w
  dsimp only
  rcases hm : Run.instrumentBody cfg env f cs w with ⟨r, w'⟩
  rw [hm] at this
  rcases r with (_ | _) | _ | _ | _ <;> exact this

theorem Hushed.performExec (cfg : Cfg) (env : Env σ) (c : Candidate) (t : Text) (b : Bool) : Hushed (Run.performExec cfg env c t b) := by
  refine Hushed.bind (Hushed.note _ (by simp) (by simp)) fun _ => Hushed.bind (Hushed.ask _) fun p =>
    Hushed.bind (fun w => rfl) fun status => ?_
  cases status with
  | some s =>
    refine Hushed.bind ?_ fun _ => Hushed.ret _
    cases b
    · exact Hushed.ret _
    · exact Hushed.ask _
  | none =>
    exact Hushed.bind (Hushed.note _ (by simp) (by simp)) fun _ => Hushed.bind (Hushed.ask _) fun _ =>
      Hushed.bind (Hushed.ask _) fun _ => Hushed.ret _

theorem Hushed.oneTest (cfg : Cfg) (env : Env σ) (c : Candidate) (ex : Bool) (t : Text) : Hushed (Run.oneTest cfg env c ex t) := by
  refine Hushed.bind (Hushed.note _ (by simp) (by simp)) fun _ => Hushed.bind (Hushed.ask _) fun r => Hushed.bind ?_ fun _ =>
    Hushed.bind (Hushed.note _ (by simp) (by simp)) fun _ => Hushed.ret _
  cases r with
  | some b => exact Hushed.performExec _ _ _ _ _
  | none =>
    dsimp only
    split
    · exact Hushed.ret _
    · exact Hushed.panics

theorem Hushed.runTests (cfg : Cfg) (env : Env σ) (c : Candidate) (ex : Bool) (ts : List Text) (acc : Option Outcome) :
    Hushed (Run.runTests cfg env c ex ts acc) := by
  induction ts generalizing acc with
  | nil => exact Hushed.ret _
  | cons t ts ih =>
    unfold Run.runTests
    split
    · exact ih _
    · exact Hushed.bind (Hushed.oneTest _ _ _ _ _) fun _ => ih _

theorem Hushed.updateProgress (cfg : Cfg) (mm : Option Mismatch) (n : Nat) : Hushed (Run.updateProgress cfg mm n : M σ Unit) := by
  refine Hushed.bind ?_ fun _ _ => rfl
  split
  · exact Hushed.ret _
  · exact Hushed.warnM _ _
  · exact Hushed.warnM _ _

theorem Hushed.skipPastM (cfg : Cfg) (s : Skipped) : Hushed (Run.skipPastM cfg s : M σ Unit) :=
  fun w => Hushed.updateProgress cfg s.mismatch s.n { w with past := s.past }

theorem Hushed.insertRow (env : Env σ) (r : Removal) : Hushed (Run.insertRow env r) := by
  intro w
  unfold Run.insertRow
  rcases hdb : w.db with _ | rows
  · rfl
  · refine Hushed.bind (Hushed.ask _) (fun url w => ?_) w
    dsimp only
    split
    · rfl
    · exact Hushed.note _ (by simp) (by simp) { w with db := some (rows ++ [Row.ofRemoval url r]) }

theorem Hushed.emit (cfg : Cfg) (env : Env σ) (r : Removal) : Hushed (Run.emit cfg env r) := by
  refine Hushed.bind (Hushed.insertRow _ _) fun _ => ?_
  unfold emitToConsole
  split
  · exact Hushed.say _ _ rfl
  · exact Hushed.ret _

theorem Hushed.skipPresent (cfg : Cfg) (env : Env σ) (cs : List Candidate) : Hushed (Run.skipPresent cfg env cs) := by
  induction cs with
  | nil => exact Hushed.ret _
  | cons c cs ih =>
    intro w
    unfold Run.skipPresent
    refine Hushed.bind ?_ (fun _ => ih) w
    split
    · exact Hushed.bind (Hushed.orPanic _) fun _ => Hushed.insertRow _ _
    · exact Hushed.ret _

theorem Hushed.testAndRecord (cfg : Cfg) (env : Env σ) (c : Candidate) (text : Text) (ex : Bool) : Hushed (Run.testAndRecord cfg env c text ex) := by
  refine Hushed.bind (Hushed.runTests _ _ _ _ _ _) fun o => Hushed.bind (Hushed.checkCtrlc _) fun _ => Hushed.bind ?_ fun _ => Hushed.updateProgress _ _ _
  cases o with
  | some o => exact Hushed.emit _ _ _
  | none => exact Hushed.ret _

theorem Hushed.finally_ {m : M σ α} {c : World σ → World σ} (h : Hushed m) (hc : ∀ w, brief (c w) = brief w) : Hushed (Run.finally_ m c) := by
  intro w
  have := h w
  unfold Run.finally_
  rcases hm : m w with ⟨r, w'⟩
  rw [hm] at this
  cases r <;> first | exact this | exact (hc w').trans this

theorem brief_dropInstr (w : World σ) : brief (dropInstr w) = brief w := by
  unfold dropInstr
  split <;> rfl

theorem Hushed.oneCandidate (cfg : Cfg) (env : Env σ) (c : Candidate) : Hushed (Run.oneCandidate cfg env c) := by
  have hb : Hushed (candidateBody cfg env c) := by
    refine Hushed.bind (Hushed.orPanic _) fun text w => ?_
    split
    · exact Hushed.bind (Hushed.ask _) (fun _ w => Hushed.finally_ (Hushed.bind (Hushed.orPanic _) fun _ =>
        Hushed.bind (Hushed.writeFile _ _ _) fun _ => Hushed.testAndRecord _ _ _ _ _) (fun _ => by rfl) w) w
    · exact Hushed.testAndRecord cfg env c text false w
  intro w
  unfold Run.oneCandidate
  rw [hb]
  split
  · exact brief_dropInstr w
  · rfl

theorem Hushed.candidateLoop (cfg : Cfg) (env : Env σ) (cs : List Candidate) : Hushed (Run.candidateLoop cfg env cs) := by
  intro w
  have := Tri.candidateLoop (cfg := cfg) (env := env) (P := fun _ w' => brief w' = brief w) (Q := fun _ w' => brief w' = brief w)
    (E := fun _ w' => brief w' = brief w) (H := fun w' => brief w' = brief w) (fun cs w' h => by
      have := (Hushed.skipPastM cfg (skipPast none cs w'.past) w').trans h
      generalize Run.skipPastM cfg (skipPast none cs w'.past) w' = y at this ⊢
      rcases y with ⟨r, w''⟩
      cases r <;> exact this) (fun _ h => h) (fun c rest w' h => by
      have := (Hushed.oneCandidate cfg env c w').trans h
      generalize Run.oneCandidate cfg env c w' = y at this ⊢
      rcases y with ⟨r, w''⟩
      cases r <;> exact this) cs w rfl
  generalize Run.candidateLoop cfg env cs w = y at this ⊢
  rcases y with ⟨r, w''⟩
  cases r <;> exact this

/-- The notices due for some files. -/
def shownNotices (cfg : Cfg) (ns : List Notice) : List Notice := if cfg.warn.quiet then [] else ns

/-- What a part of a run adds. -/
def Adds (cfg : Cfg) (done : Bool) (w w' : World σ) : Prop :=
  ∃ files ns, brief w' = ((brief w).1 ++ shownNotices cfg ns, (brief w).2 ++ dryRunsOf files) ∧
    (ns = noticesOf files ∨ done = false ∧ ∃ f, noticesOf files = ns ++ [.mutilating f])

theorem Adds.refl {cfg : Cfg} {done : Bool} {w w' : World σ} (h : brief w' = brief w) : Adds cfg done w w' :=
  ⟨[], [], by rw [h]; simp [shownNotices, dryRunsOf], .inl rfl⟩

theorem Adds.trans {cfg : Cfg} {done : Bool} {w w' w'' : World σ} (h : Adds cfg true w w') (h' : Adds cfg done w' w'') : Adds cfg done w w'' := by
  obtain ⟨fs, ns, a1, a2⟩ := h
  obtain ⟨fs', ns', b1, b2⟩ := h'
  have a2 : ns = noticesOf fs := a2.elim id fun h => nomatch h.1
  refine ⟨fs ++ fs', ns ++ ns', ?_, ?_⟩
  · rw [b1, a1]
    unfold shownNotices
    split <;> simp [dryRunsOf]
  · have : noticesOf (fs ++ fs') = noticesOf fs ++ noticesOf fs' := by simp [noticesOf]
    rw [this, a2]
    rcases b2 with rfl | ⟨hd, f, e⟩
    · exact .inl rfl
    · exact .inr ⟨hd, f, by rw [e, List.append_assoc]⟩

theorem Adds.weaken {cfg : Cfg} {w w' : World σ} (h : Adds cfg true w w') (done : Bool) : Adds cfg done w w' := by
  obtain ⟨fs, ns, a1, a2⟩ := h
  exact ⟨fs, ns, a1, a2.elim .inl fun h => nomatch h.1⟩

/-- Whether a computation completed. -/
def _root_.Necessist.Res.isOk {ε γ : Type} : Res ε γ → Bool
  | .ok _ => true
  | _ => false

theorem adds_bind {cfg : Cfg} {m : M σ α} {k : α → M σ β} {w : World σ} (h1 : Adds cfg (m w).1.isOk w (m w).2)
    (h2 : ∀ a w', m w = (.ok a, w') → Adds cfg (k a w').1.isOk w' (k a w').2) : Adds cfg (Run.bind m k w).1.isOk w (Run.bind m k w).2 := by
  unfold Run.bind
  rcases hm : m w with ⟨r, w'⟩
  rw [hm] at h1
  cases r with
  | ok a => exact h1.trans (h2 a w' hm)
  | err e => exact h1
  | panic => exact h1
  | hang => exact h1

theorem Hushed.adds {cfg : Cfg} {m : M σ α} (h : Hushed m) (w : World σ) : Adds cfg (m w).1.isOk w (m w).2 := .refl (h w)

theorem oneFile_adds (cfg : Cfg) (env : Env σ) (f : SourceFile) (cs : List Candidate) (w : World σ) :
    Adds cfg (oneFile cfg env f cs w).1.isOk w (oneFile cfg env f cs w).2 := by
  unfold oneFile
  -- after the notice and the event
  have step1 : ∀ w : World σ, brief ((Run.bind (say cfg (.dryRunning f)) fun _ => note (.dryRun f)) w).2 =
      ((brief w).1 ++ shownNotices cfg [.dryRunning f], (brief w).2 ++ [.dryRun f]) := by
    intro w
    unfold Run.bind say note shownNotices brief
    dsimp only
    rw [dryRunEvents_append]
    split
    · simp [dryRunEvents]
    · rw [noticesAmong_append]; rfl
  rw [← bind_assoc]
  generalize hm : (Run.bind (say cfg (.dryRunning f)) fun _ => note (.dryRun f) : M σ Unit) = m at step1 ⊢
  have hok : (m w).1 = .ok () := by rw [← hm]; rfl
  have h1 := step1 w
  rcases hmw : m w with ⟨r, w1⟩
  rw [hmw] at hok h1
  dsimp only at hok h1
  subst hok
  unfold Run.bind
  rw [hmw]
  dsimp only
  have hstart : ∀ w' : World σ, brief w' = brief w1 → Adds cfg false w w' := by
    intro w' e
    refine ⟨[(f, false)], [.dryRunning f], ?_, .inr ⟨rfl, f, rfl⟩⟩
    rw [e, h1]
    rfl
  have hask := Hushed.askTry (fun w => env.dryRun w f) w1
  rcases ha : askTry (fun w => env.dryRun w f) w1 with ⟨r, w2⟩
  rw [ha] at hask
  dsimp only at hask
  cases r with
  | err e => exact hstart w2 hask
  | panic => exact hstart w2 hask
  | hang => exact hstart w2 hask
  | ok r =>
    dsimp only
    cases r with
    | error e =>
      dsimp only
      have hnote : brief (note (σ := σ) (.dryRunFailed f) w2).2 = ((brief w).1 ++ shownNotices cfg (noticesOf [(f, true)]), (brief w).2 ++ dryRunsOf [(f, true)]) := by
        have e1 : brief (note (σ := σ) (.dryRunFailed f) w2).2 = ((brief w2).1, (brief w2).2 ++ [.dryRunFailed f]) := by
          simp only [note, brief, dryRunEvents_append]; rfl
        rw [e1, hask, h1, List.append_assoc]
        rfl
      have hcalm : Hushed (Run.bind (warnM (σ := σ) cfg (dryRunFailedCall f)) fun _ => Run.bind (checkCtrlc env) fun _ => Run.bind (skipPresent cfg env cs) fun _ =>
          updateProgress cfg none cs.length) :=
        Hushed.bind (Hushed.warnM _ _) fun _ => Hushed.bind (Hushed.checkCtrlc _) fun _ => Hushed.bind (Hushed.skipPresent _ _ _) fun _ => Hushed.updateProgress _ _ _
      have := hcalm (note (σ := σ) (.dryRunFailed f) w2).2
      exact ⟨[(f, true)], noticesOf [(f, true)], this.trans hnote, .inl rfl⟩
    | ok u =>
      dsimp only
      have hctrl := Hushed.checkCtrlc env w2
      rcases hc : checkCtrlc env w2 with ⟨r, w3⟩
      rw [hc] at hctrl
      dsimp only at hctrl ⊢
      have hw3 := hctrl.trans hask
      cases r with
      | err e => exact hstart w3 hw3
      | panic => exact hstart w3 hw3
      | hang => exact hstart w3 hw3
      | ok _ =>
        dsimp only
        have hsay : brief (say (σ := σ) cfg (.mutilating f) w3).2 = ((brief w).1 ++ shownNotices cfg (noticesOf [(f, false)]), (brief w).2 ++ dryRunsOf [(f, false)]) := by
          have e1 : brief (say (σ := σ) cfg (.mutilating f) w3).2 = ((brief w3).1 ++ shownNotices cfg [.mutilating f], (brief w3).2) := by
            unfold say shownNotices brief
            split
            · simp
            · dsimp only; rw [noticesAmong_append]; rfl
          rw [e1, hw3, h1]
          unfold shownNotices
          split
          · simp [dryRunsOf]
          · simp [noticesOf, dryRunsOf]
        have hcalm : Hushed (finally_ (Run.bind (instrumentStatements cfg env f cs) fun _ => candidateLoop cfg env cs) dropInstr) :=
          Hushed.finally_ (Hushed.bind (Hushed.instrumentStatements _ _ _ _) fun _ => Hushed.candidateLoop _ _ _) brief_dropInstr
        have := hcalm (say (σ := σ) cfg (.mutilating f) w3).2
        exact ⟨[(f, false)], noticesOf [(f, false)], this.trans hsay, .inl rfl⟩

theorem runFiles_adds (cfg : Cfg) (env : Env σ) (fcs : List (SourceFile × List Candidate)) (w : World σ) :
    Adds cfg (runFiles cfg env fcs w).1.isOk w (runFiles cfg env fcs w).2 := by
  induction fcs generalizing w with
  | nil => exact .refl rfl
  | cons x fcs ih =>
    obtain ⟨f, cs⟩ := x
    unfold runFiles
    dsimp only
    refine adds_bind ((Hushed.skipPastM _ _).adds w) fun _ w' _ => adds_bind ?_ fun _ w'' _ => ih w''
    split
    · exact .refl rfl
    · exact oneFile_adds ..

end Necessist.Run
