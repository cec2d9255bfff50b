import Verif.Lemmas.Run
/-! A rule for conditions on what has happened so far (the trace) and the state of the outside, which hold between steps. -/
namespace Necessist.Run

variable {σ α β : Type}

/-- The messages of the kinds that a framework gives while tests are run. -/
def spoken (out : List Line) : List WarnMsg := out.filterMap fun l => match l with
  | .warning m => if m.warning = .outputInvalid ∨ m.warning = .runTestFailed ∨ m.warning = .itMessageNotFound then some m else none
  | _ => none

theorem spoken_append (a b : List Line) : spoken (a ++ b) = spoken a ++ spoken b := by simp [spoken]

theorem print_warning {o : WarnOpts} {st st' : WStates} {c : WarnCall} {m : WarnMsg} (h : warnInternal o st c = (.print m, st')) :
    m.warning = c.warning ∧ m.source = c.source ∧ m.msg = c.msg := by
  unfold warnInternal at h
  split at h
  · cases h
  · dsimp only at h
    split at h
    · cases h
    · split at h
      · cases h
      · cases h; exact ⟨rfl, rfl, rfl⟩

/-- `J` holds between steps, and `E` or `H` when the run is broken off; `F f` after a failed dry run of `f`, and `G f` after a failed build. -/
structure Rules (cfg : Cfg) (env : Env σ) (files : SourceFile → Prop) (cands : Candidate → Prop) (J : World σ → Prop)
    (E : Option Err → World σ → Prop) (H : World σ → Prop) (F G : SourceFile → World σ → Prop) : Prop where
  frame : ∀ w w' : World σ, w'.trace = w.trace → w'.ext = w.ext → spoken w'.out = spoken w.out → J w → J w'
  frameE : ∀ e (w w' : World σ), w'.trace = w.trace → w'.ext = w.ext → w'.out = w.out → E e w → E e w'
  exits : ∀ e w, J w → E e w
  exitsH : ∀ w, J w → H w
  ctrlc_ : ∀ w b, J w → J { w with trace := w.trace ++ [⟨.ctrlc b, w.fs⟩] }
  insert_ : ∀ w r, J w → J { w with trace := w.trace ++ [⟨.insert r, w.fs⟩] }
  ctrlc : ∀ w, J w → J { w with ext := (env.ctrlc w).2 }
  backup : ∀ w f, J w → J { w with out := w.out ++ (env.backup w f).said.map .warning, ext := (env.backup w f).ext }
  write : ∀ w f t, J w → J { w with ext := (env.write w f t).2 }
  instrFile : ∀ w f n, J w → J { w with out := w.out ++ (env.instrFile w f n).said.map .warning, ext := (env.instrFile w f n).ext }
  wrap : ∀ w s, J w → J { w with out := w.out ++ (env.wrap w s).said.map .warning, ext := (env.wrap w s).ext }
  insert : ∀ w s, J w → J { w with out := w.out ++ (env.insert w s).said.map .warning, ext := (env.insert w s).ext }
  dry : ∀ f, files f → Tri J (Run.bind (note (.dryRun f)) fun _ => askTry fun w => env.dryRun w f)
    (fun r w => match r with | .ok _ => J w | .error _ => F f w) E H
  failed : ∀ f w, F f w → J { w with trace := w.trace ++ [⟨.dryRunFailed f, w.fs⟩] }
  build : ∀ f, files f → Tri J (Run.bind (note (.buildFile f)) fun _ => askTry fun w => env.build w f)
    (fun r w => match r with | .ok _ => J w | .error _ => G f w) E H
  buildFailed : ∀ f w, G f w → J { w with trace := w.trace ++ [⟨.buildFailed f, w.fs⟩] }
  test : ∀ c ex t, cands c → t ∈ c.tests → Tri J (oneTest cfg env c ex t) (fun _ => J) E H

theorem bind_assoc {γ : Type} (m : M σ α) (k : α → M σ β) (k' : β → M σ γ) :
    Run.bind (Run.bind m k) k' = Run.bind m fun a => Run.bind (k a) k' := by
  funext w
  unfold Run.bind
  rcases m w with ⟨r, w'⟩
  cases r <;> rfl

theorem skipPast_mem {mm cs past c} (h : c ∈ (skipPast mm cs past).rest) : c ∈ cs := by
  fun_induction skipPast mm cs past <;> first | exact h | (rename_i ih; exact List.mem_cons_of_mem _ (ih h)) | (rename_i ih; exact ih h)

namespace Rules
variable {cfg : Cfg} {env : Env σ} {files : SourceFile → Prop} {cands : Candidate → Prop} {J : World σ → Prop}
  {E : Option Err → World σ → Prop} {H : World σ → Prop} {F G : SourceFile → World σ → Prop} (R : Rules cfg env files cands J E H F G)
include R

/-- What is shown of everything. -/
abbrev T (_ : Rules cfg env files cands J E H F G) (m : M σ α) : Prop := Tri J m (fun _ => J) E H

theorem tRet (a : α) : R.T (ret a) := Tri.ret a fun _ h => h
theorem tOrPanic (o : Option α) : R.T (Run.orPanic o : M σ α) := by
  cases o with
  | none => exact Tri.panics fun w h => R.exits _ w h
  | some a => exact Tri.ret a fun _ h => h

theorem tSay (l : Line) (hl : spoken [l] = []) : R.T (say cfg l) := by
  intro w h
  unfold say
  split
  · exact h
  · exact R.frame w _ rfl rfl (by rw [spoken_append, hl, List.append_nil]) h

theorem tWarnM (c : WarnCall) (hk : ¬ (c.warning = .outputInvalid ∨ c.warning = .runTestFailed ∨ c.warning = .itMessageNotFound)) :
    R.T (warnM cfg c) := by
  intro w h
  unfold warnM
  rcases hc : warnInternal cfg.warn w.warns c with ⟨r, st⟩
  have hJ : J { w with warns := st } := R.frame w _ rfl rfl rfl h
  cases r with
  | bail _ => exact R.exits _ _ hJ
  | silent => exact hJ
  | print m => exact R.tSay _ (by rw [← (print_warning hc).1] at hk; simp [spoken, hk]) _ hJ
  | panic => exact R.exits _ _ hJ

theorem tUpdateProgress (mm : Option Mismatch) (n : Nat) : R.T (updateProgress cfg mm n) := by
  refine Tri.bind (R := fun _ => J) ?_ fun _ w h => R.frame w _ rfl rfl rfl h
  split
  · exact R.tRet _
  · exact R.tWarnM _ (by simp)
  · exact R.tWarnM _ (by simp)

theorem tSkipPastM (s : Skipped) : R.T (skipPastM cfg s) := fun w h => R.tUpdateProgress _ _ _ (R.frame w { w with past := s.past } rfl rfl rfl h)

theorem tAsk {f : World σ → Reply σ α} (hf : ∀ w, J w → J { w with out := w.out ++ (f w).said.map .warning, ext := (f w).ext }) : R.T (ask f) := by
  intro w h
  have hJ : J { w with warns := (f w).warns, out := w.out ++ (f w).said.map .warning, ext := (f w).ext } := R.frame { w with out := w.out ++ (f w).said.map .warning, ext := (f w).ext } _ rfl rfl rfl (hf w h)
  unfold ask
  dsimp only
  cases (f w).res with
  | ok a => exact hJ
  | err e => exact R.exits _ _ hJ
  | panic => exact R.exits _ _ hJ
  | hang => exact R.exitsH _ hJ

theorem tCheckCtrlc : R.T (checkCtrlc env) := by
  intro w h
  unfold checkCtrlc
  have h1 := R.ctrlc w h
  rcases hc : env.ctrlc w with ⟨b, ext⟩
  rw [hc] at h1
  refine Tri.bind (P := J) (R := fun _ => J) (m := note (.ctrlc b)) (show Tri J (note (.ctrlc b)) (fun _ => J) E H from fun w h => R.ctrlc_ w b h) (fun _ => ?_) _ h1
  split
  · exact Tri.fail _ fun w h => R.exits _ w h
  · exact R.tRet _

theorem tWriteFile (f : SourceFile) (t : Text) : R.T (writeFile env f t) := by
  intro w h
  have h1 := R.write w f t h
  unfold writeFile
  rcases hw : env.write w f t with ⟨_ | left, ext⟩ <;> rw [hw] at h1
  · exact R.frame { w with ext := ext } _ rfl rfl rfl h1
  · exact R.exits _ _ (R.frame { w with ext := ext } _ rfl rfl rfl h1)

theorem tInsertRow (r : Removal) : R.T (insertRow env r) := by
  intro w h
  unfold insertRow
  rcases hdb : w.db with _ | rows
  · exact h
  · dsimp only
    refine Tri.bind (P := J) (R := fun _ => J) (R.tAsk fun w => R.insert w r.span) (fun url w h => ?_) w h
    split
    · exact R.exits _ _ h
    · exact R.insert_ { w with db := some (rows ++ [Row.ofRemoval url r]) } _ (R.frame w _ rfl rfl rfl h)

theorem tEmit (r : Removal) : R.T (emit cfg env r) := by
  refine Tri.bind (R.tInsertRow r) fun _ => ?_
  unfold emitToConsole
  split
  · exact R.tSay _ rfl
  · exact R.tRet _

theorem tSkipPresent (cs : List Candidate) : R.T (skipPresent cfg env cs) := by
  induction cs with
  | nil => exact R.tRet _
  | cons c cs ih =>
    intro w h
    unfold skipPresent
    refine Tri.bind (P := J) (R := fun _ => J) ?_ (fun _ => ih) w h
    split
    · exact Tri.bind (R.tOrPanic _) fun _ => R.tInsertRow _
    · exact R.tRet _

theorem tRunTests {c : Candidate} (hc : cands c) (ex : Bool) (ts : List Text) (hts : ∀ t ∈ ts, t ∈ c.tests) (acc : Option Outcome) :
    R.T (runTests cfg env c ex ts acc) := by
  induction ts generalizing acc with
  | nil => exact R.tRet _
  | cons t ts ih =>
    unfold runTests
    split
    · exact ih (fun t h => hts t (List.mem_cons_of_mem _ h)) _
    · exact Tri.bind (R.test c ex t hc (hts t List.mem_cons_self)) fun r => ih (fun t h => hts t (List.mem_cons_of_mem _ h)) r

theorem tTestAndRecord {c : Candidate} (hc : cands c) (text : Text) (ex : Bool) : R.T (testAndRecord cfg env c text ex) := by
  refine Tri.bind (R.tRunTests hc ex _ (fun _ h => h) _) fun o => Tri.bind R.tCheckCtrlc fun _ => Tri.bind (R := fun _ => J) ?_ fun _ =>
    R.tUpdateProgress _ _
  cases o with
  | some o => exact R.tEmit _
  | none => exact R.tRet _

theorem tWithBackup {m : M σ α} (f : SourceFile) (h : R.T m) : R.T (withBackup env f m) := by
  refine Tri.bind (R.tAsk fun w => R.backup w f) fun _ w hw => ?_
  exact Tri.finally (P := J) (c := fun w' => { w' with fs := upd w'.fs f (w.fs f) }) (Q' := fun _ => J) (E' := E) h
    (fun _ w' h => R.frame w' _ rfl rfl rfl h) (fun e w' h => R.frameE e w' _ rfl rfl rfl h) w hw

theorem dropInstr_J {w : World σ} (h : J w) : J (dropInstr w) := by
  unfold dropInstr
  split
  · exact h
  · exact R.frame w _ rfl rfl rfl h

theorem dropInstr_E {e : Option Err} {w : World σ} (h : E e w) : E e (dropInstr w) := by
  unfold dropInstr
  split
  · exact h
  · exact R.frameE e w _ rfl rfl rfl h

theorem tOneCandidate {c : Candidate} (hc : cands c) : R.T (oneCandidate cfg env c) := by
  intro w h
  have h' : J (if c.kind ≠ .statement then dropInstr w else w) := by
    split
    · exact R.dropInstr_J h
    · exact h
  refine Tri.bind (P := J) (R := fun _ => J) (R.tOrPanic _) (fun text w h => ?_) _ h'
  split
  · refine R.tWithBackup _ ?_ w h
    exact Tri.bind (R.tOrPanic _) fun _ => Tri.bind (R.tWriteFile _ _) fun _ => R.tTestAndRecord hc _ _
  · exact R.tTestAndRecord hc _ _ w h

theorem tCandidateLoop (cs : List Candidate) (hcs : ∀ c ∈ cs, cands c) : R.T (candidateLoop cfg env cs) := by
  suffices ∀ n cs, cs.length ≤ n → (∀ c ∈ cs, cands c) → R.T (candidateLoop cfg env cs) from this _ cs (Nat.le_refl _) hcs
  intro n
  induction n with
  | zero =>
    intro cs hn hcs w h
    unfold candidateLoop
    refine Tri.bind (P := J) (R := fun _ => J) (R.tSkipPastM _) (fun _ => ?_) w h
    have := skipPast_length none cs w.past
    split
    · exact R.tRet _
    · rename_i hr; rw [hr] at this; simp at this; omega
  | succ n ih =>
    intro cs hn hcs w h
    unfold candidateLoop
    refine Tri.bind (P := J) (R := fun _ => J) (R.tSkipPastM _) (fun _ => ?_) w h
    have := skipPast_length none cs w.past
    split
    · exact R.tRet _
    · rename_i c rest hr
      have hm : ∀ x ∈ c :: rest, cands x := fun x hx => hcs x (skipPast_mem (mm := none) (past := w.past) (by rw [hr]; exact hx))
      rw [hr] at this
      exact Tri.bind (R.tOneCandidate (hm c List.mem_cons_self)) fun _ =>
        ih _ (by simp at this; omega) fun x hx => hm x (List.mem_cons_of_mem _ hx)

theorem tWraps (cs : List Candidate) : R.T (wraps env cs) := by
  induction cs with
  | nil => exact R.tRet _
  | cons c cs ih => exact Tri.bind (R.tAsk fun w => R.wrap w _) fun _ => Tri.bind ih fun _ => R.tRet _

theorem tInstrumentStatements {f : SourceFile} (hf : files f) (cs : List Candidate) : R.T (instrumentStatements cfg env f cs) := by
  refine Tri.bind (R.tAsk fun w => R.backup w f) fun _ w h => ?_
  have hb : R.T (instrumentBody cfg env f cs) := by
    refine Tri.bind (R.tAsk fun w => R.instrFile w _ _) fun _ => Tri.bind (R.tWraps _) fun _ => Tri.bind (R.tOrPanic _) fun _ =>
      Tri.bind (R.tWriteFile _ _) fun _ => ?_
    rw [← bind_assoc]
    refine Tri.bind (R.build f hf) fun r => ?_
    cases r with
    | ok _ => exact R.tRet _
    | error _ => exact Tri.bind (R := fun _ => J) (fun w h => R.buildFailed f w h) fun _ => Tri.bind (R.tWarnM _ (by simp [dryRunFailedCall, nonbuildableCall])) fun _ => R.tRet _
  have := hb w h
  rcases hi : instrumentBody cfg env f cs w with ⟨r, w'⟩
  rw [hi] at this
  cases r with
  | ok b => cases b <;> exact R.frame w' _ rfl rfl rfl this
  | err e => exact R.frameE _ w' _ rfl rfl rfl this
  | panic => exact R.frameE _ w' _ rfl rfl rfl this
  | hang => exact this

theorem tOneFile {f : SourceFile} (hf : files f) (cs : List Candidate) (hcs : ∀ c ∈ cs, cands c) : R.T (oneFile cfg env f cs) := by
  refine Tri.bind (R.tSay _ rfl) fun _ => ?_
  rw [← bind_assoc]
  refine Tri.bind (R.dry f hf) fun r => ?_
  cases r with
  | error _ =>
    refine Tri.bind (R := fun _ => J) (fun w h => R.failed f w h) fun _ => ?_
    exact Tri.bind (R.tWarnM _ (by simp [dryRunFailedCall, nonbuildableCall])) fun _ => Tri.bind R.tCheckCtrlc fun _ => Tri.bind (R.tSkipPresent _) fun _ => R.tUpdateProgress _ _
  | ok _ =>
    refine Tri.bind R.tCheckCtrlc fun _ => Tri.bind (R.tSay _ rfl) fun _ => ?_
    exact Tri.finally (Q' := fun _ => J) (E' := E) (Q := fun _ => J) (E := E)
      (Tri.bind (R.tInstrumentStatements hf _) fun _ => R.tCandidateLoop _ hcs)
      (fun _ w h => R.dropInstr_J h) (fun _ w h => R.dropInstr_E h)

theorem tRunFiles (fcs : List (SourceFile × List Candidate)) (hf : ∀ p ∈ fcs, files p.1 ∧ ∀ c ∈ p.2, cands c) :
    R.T (runFiles cfg env fcs) := by
  induction fcs with
  | nil => exact R.tRet _
  | cons x fcs ih =>
    obtain ⟨f, cs⟩ := x
    intro w h
    obtain ⟨h1, h2⟩ := hf _ List.mem_cons_self
    refine Tri.bind (P := J) (R := fun _ => J) (R.tSkipPastM _) (fun _ => Tri.bind (R := fun _ => J) ?_ fun _ =>
      ih fun p hp => hf p (List.mem_cons_of_mem _ hp)) w h
    split
    · exact R.tRet _
    · exact R.tOneFile h1 _ fun c hc => h2 c (skipPast_mem hc)

end Rules
end Necessist.Run
