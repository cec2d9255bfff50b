import Verif.Lemmas.Run
/-! Which tests are started, for an environment whose `exec` lets a test be executed only under a condition. -/
namespace Necessist.Run

variable {σ α β : Type}

/-- Whichever way `m` ends, `J` still holds. -/
def Keeps (J : World σ → Prop) (m : M σ α) : Prop := ∀ w, J w → J (m w).2

namespace Keeps
variable {J : World σ → Prop}

theorem bind {m : M σ α} {k : α → M σ β} (h : Keeps J m) (h' : ∀ a, Keeps J (k a)) : Keeps J (Run.bind m k) := by
  intro w hw
  have := h w hw
  unfold Run.bind
  rcases hm : m w with ⟨r, w'⟩
  rw [hm] at this
  cases r with
  | ok a => exact h' a w' this
  | err e => exact this
  | panic => exact this
  | hang => exact this

theorem ret (a : α) : Keeps J (Run.ret a) := fun _ h => h
theorem panics : Keeps J (Run.panics : M σ α) := fun _ h => h
theorem fail (e : Err) : Keeps J (Run.fail e : M σ α) := fun _ h => h
theorem orPanic (o : Option α) : Keeps J (Run.orPanic o) := by cases o <;> exact fun _ h => h
theorem finally_ {m : M σ α} {c : World σ → World σ} (h : Keeps J m) (hc : ∀ w, J w → J (c w)) :
    Keeps J (Run.finally_ m c) := by
  intro w hw
  have := h w hw
  unfold Run.finally_
  rcases hm : m w with ⟨r, w'⟩
  rw [hm] at this
  cases r with
  | ok a => exact hc _ this
  | err e => exact hc _ this
  | panic => exact hc _ this
  | hang => exact this
end Keeps

/-- The condition `T` on the state of the outside world is kept by everything the outside does, and `exec` lets a test be executed
only if `R`. -/
structure Guarded (env : Env σ) (T : σ → Prop) (R : SourceFile → Text → Prop) : Prop where
  ctrlc : ∀ w, T w.ext → T (env.ctrlc w).2
  dryRun : ∀ w f, T w.ext → T (env.dryRun w f).ext
  backup : ∀ w f, T w.ext → T (env.backup w f).ext
  write : ∀ w f t, T w.ext → T (env.write w f t).2
  instrFile : ∀ w f n, T w.ext → T (env.instrFile w f n).ext
  wrap : ∀ w s, T w.ext → T (env.wrap w s).ext
  build : ∀ w f, T w.ext → T (env.build w f).ext
  exec : ∀ w t s, T w.ext → T (env.exec w t s).ext
  start : ∀ w t s i, T w.ext → T (env.start w t s i).ext
  post : ∀ w, T w.ext → T (env.post w).ext
  kill : ∀ w, T w.ext → T (env.kill w).ext
  reap : ∀ w, T w.ext → T (env.reap w).ext
  insert : ∀ w s, T w.ext → T (env.insert w s).ext
  execute : ∀ w t s b, T w.ext → (env.exec w t s).res = .ok (some b) → R s.file t

/-- `R` holds of every test started. -/
def StartedOnly (R : SourceFile → Text → Prop) (tr : List Snap) : Prop :=
  ∀ s ∈ tr, ∀ c t i, s.event = .startTest c t i → R c.span.file t

namespace Guarded
variable {env : Env σ} {T : σ → Prop} {R : SourceFile → Text → Prop} (g : Guarded env T R)

/-- The invariant. -/
def J (T : σ → Prop) (R : SourceFile → Text → Prop) (w : World σ) : Prop := T w.ext ∧ StartedOnly R w.trace

theorem J.snoc {w : World σ} {e : Event} (h : J T R w) (he : ∀ c t i, e = .startTest c t i → R c.span.file t) :
    J T R { w with trace := w.trace ++ [⟨e, w.fs⟩] } := by
  refine ⟨h.1, fun s hs c t i hev => ?_⟩
  rcases List.mem_append.1 hs with hs | hs
  · exact h.2 s hs c t i hev
  · rw [List.mem_singleton.1 hs] at hev
    exact he c t i hev

theorem kNote {e : Event} (he : ∀ c t i, e ≠ .startTest c t i) : Keeps (J T R) (note e) :=
  fun _ h => h.snoc fun c t i h' => absurd h' (he c t i)

theorem kSay (cfg : Cfg) (l : Line) : Keeps (J (σ := σ) T R) (say cfg l) := by
  intro w h
  unfold say
  dsimp only
  split <;> exact h

theorem kAsk {f : World σ → Reply σ α} (hf : ∀ w, T w.ext → T (f w).ext) : Keeps (J T R) (ask f) :=
  fun w h => ⟨hf w h.1, h.2⟩

theorem kAskTry {f : World σ → Reply σ α} (hf : ∀ w, T w.ext → T (f w).ext) : Keeps (J T R) (askTry f) := by
  intro w h
  unfold askTry
  dsimp only
  cases (f w).res <;> exact ⟨hf w h.1, h.2⟩

theorem kWarnM (cfg : Cfg) (c : WarnCall) : Keeps (J (σ := σ) T R) (warnM cfg c) := by
  intro w h
  unfold warnM
  rcases warnInternal cfg.warn w.warns c with ⟨r, st⟩
  cases r with
  | bail m => exact h
  | silent => exact h
  | print m => exact kSay cfg _ _ h
  | panic => exact h

theorem kUpdateProgress (cfg : Cfg) (mm : Option Mismatch) (n : Nat) : Keeps (J (σ := σ) T R) (updateProgress cfg mm n) := by
  refine .bind ?_ fun _ _ h => h
  split
  · exact .ret _
  · exact kWarnM _ _
  · exact kWarnM _ _

theorem kSkipPastM (cfg : Cfg) (s : Skipped) : Keeps (J (σ := σ) T R) (skipPastM cfg s) :=
  fun _ h => kUpdateProgress cfg _ _ _ h

include g

theorem kCheckCtrlc : Keeps (J T R) (checkCtrlc env) := by
  intro w h
  refine Keeps.bind (J := J T R) (kNote (by simp)) (fun _ => ?_) { w with ext := (env.ctrlc w).2 } ⟨g.ctrlc w h.1, h.2⟩
  split
  · exact .fail _
  · exact .ret _

theorem kWriteFile (f : SourceFile) (t : Text) : Keeps (J T R) (writeFile env f t) := by
  intro w h
  have := g.write w f t h.1
  unfold writeFile
  rcases hw : env.write w f t with ⟨_ | _, ext⟩ <;> rw [hw] at this <;> exact ⟨this, h.2⟩

theorem kInsertRow (r : Removal) : Keeps (J T R) (insertRow env r) := by
  intro w h
  unfold insertRow
  rcases w.db with _ | rows
  · exact h
  · refine Keeps.bind (kAsk fun w => g.insert w _) (fun url w h => ?_) w h
    dsimp only
    split
    · exact h
    · exact kNote (T := T) (R := R) (e := .insert (Row.ofRemoval url r)) (by simp)
        { w with db := some (rows ++ [Row.ofRemoval url r]) } h

theorem kEmit (cfg : Cfg) (r : Removal) : Keeps (J T R) (emit cfg env r) := by
  refine .bind (g.kInsertRow r) fun _ => ?_
  unfold emitToConsole
  split
  · exact kSay _ _
  · exact .ret _

theorem kSkipPresent (cfg : Cfg) (cs : List Candidate) : Keeps (J T R) (skipPresent cfg env cs) := by
  induction cs with
  | nil => exact .ret _
  | cons c cs ih =>
    intro w h
    refine Keeps.bind (J := J T R) ?_ (fun _ => ih) w h
    split
    · exact .bind (.orPanic _) fun _ => g.kInsertRow _
    · exact .ret _

theorem kPerformExec (cfg : Cfg) (c : Candidate) (t : Text) (b : Bool) (h : R c.span.file t) :
    Keeps (J T R) (performExec cfg env c t b) := by
  refine .bind (fun w hw => hw.snoc fun c' t' i he => ?_) fun _ => ?_
  · cases he; exact h
  refine .bind (kAsk fun w => g.start w _ _ _) fun p => .bind (fun _ h => h) fun status => ?_
  cases status with
  | some s =>
    refine .bind ?_ fun _ => .ret _
    split
    · exact kAsk g.post
    · exact .ret _
  | none =>
    exact .bind (kNote (by simp)) fun _ => .bind (kAsk g.kill) fun _ => .bind (kAsk g.reap) fun _ => .ret _

theorem kOneTest (cfg : Cfg) (c : Candidate) (ex : Bool) (t : Text) : Keeps (J T R) (oneTest cfg env c ex t) := by
  refine .bind (kNote (by simp)) fun _ => ?_
  intro w h
  have hk := fun b => g.execute w t c.span b h.1
  have hx := g.exec w t c.span h.1
  unfold Run.bind ask
  dsimp only
  cases hr : (env.exec w t c.span).res with
  | err e => exact ⟨hx, h.2⟩
  | panic => exact ⟨hx, h.2⟩
  | hang => exact ⟨hx, h.2⟩
  | ok r =>
    refine Keeps.bind (J := J T R) ?_ (fun _ => .bind (kNote (by simp)) fun _ => .ret _)
      { w with warns := (env.exec w t c.span).warns, out := w.out ++ (env.exec w t c.span).said.map .warning, ext := (env.exec w t c.span).ext } ⟨hx, h.2⟩
    cases r with
    | some b => exact g.kPerformExec cfg c t b (hk b hr)
    | none =>
      dsimp only
      split
      · exact .ret _
      · exact .panics

theorem kRunTests (cfg : Cfg) (c : Candidate) (ex : Bool) (ts : List Text) (acc : Option Outcome) :
    Keeps (J T R) (runTests cfg env c ex ts acc) := by
  induction ts generalizing acc with
  | nil => exact .ret _
  | cons t ts ih =>
    unfold runTests
    split
    · exact ih _
    · exact .bind (g.kOneTest cfg c ex t) fun r => ih r

theorem kTestAndRecord (cfg : Cfg) (c : Candidate) (text : Text) (ex : Bool) :
    Keeps (J T R) (testAndRecord cfg env c text ex) := by
  refine .bind (g.kRunTests _ _ _ _ _) fun o => .bind g.kCheckCtrlc fun _ => .bind ?_ fun _ => kUpdateProgress _ _ _
  cases o with
  | some o => exact g.kEmit _ _
  | none => exact .ret _

theorem kWithBackup {m : M σ α} (f : SourceFile) (h : Keeps (J T R) m) : Keeps (J T R) (withBackup env f m) := by
  refine .bind (kAsk fun w => g.backup w f) fun _ w hw => ?_
  exact Keeps.finally_ (c := fun w' => { w' with fs := upd w'.fs f (w.fs f) }) h (fun _ h => h) w hw

theorem J_dropInstr {w : World σ} (h : J T R w) : J T R (dropInstr w) := by
  unfold dropInstr
  split <;> exact h

theorem kOneCandidate (cfg : Cfg) (c : Candidate) : Keeps (J T R) (oneCandidate cfg env c) := by
  intro w h
  have h' : J T R (if c.kind ≠ .statement then dropInstr w else w) := by
    split
    · exact g.J_dropInstr h
    · exact h
  refine Keeps.bind (J := J T R) (.orPanic _) (fun text w h => ?_) _ h'
  split
  · refine g.kWithBackup _ ?_ w h
    exact .bind (.orPanic _) fun _ => .bind (g.kWriteFile _ _) fun _ => g.kTestAndRecord _ _ _ _
  · exact g.kTestAndRecord _ _ _ _ w h

theorem kCandidateLoop (cfg : Cfg) (cs : List Candidate) : Keeps (J T R) (candidateLoop cfg env cs) := by
  suffices ∀ n cs, cs.length ≤ n → Keeps (J T R) (candidateLoop cfg env cs) from this _ cs (Nat.le_refl _)
  intro n
  induction n with
  | zero =>
    intro cs hn w h
    unfold candidateLoop
    refine Keeps.bind (kSkipPastM _ _) (fun _ => ?_) w h
    have := skipPast_length none cs w.past
    split
    · exact .ret _
    · rename_i hr; rw [hr] at this; simp at this; omega
  | succ n ih =>
    intro cs hn w h
    unfold candidateLoop
    refine Keeps.bind (kSkipPastM _ _) (fun _ => ?_) w h
    have := skipPast_length none cs w.past
    split
    · exact .ret _
    · rename_i hr
      rw [hr] at this
      exact .bind (g.kOneCandidate cfg _) fun _ => ih _ (by simp at this; omega)

theorem kWraps (cs : List Candidate) : Keeps (J T R) (wraps env cs) := by
  induction cs with
  | nil => exact .ret _
  | cons c cs ih => exact .bind (kAsk fun w => g.wrap w _) fun _ => .bind ih fun _ => .ret _

theorem kInstrumentStatements (cfg : Cfg) (f : SourceFile) (cs : List Candidate) :
    Keeps (J T R) (instrumentStatements cfg env f cs) := by
  refine .bind (kAsk fun w => g.backup w f) fun _ w h => ?_
  have hb : Keeps (J T R) (instrumentBody cfg env f cs) := by
    refine .bind (kAsk fun w => g.instrFile w _ _) fun _ => .bind (g.kWraps _) fun _ => .bind (.orPanic _) fun _ =>
      .bind (g.kWriteFile _ _) fun _ => .bind (kNote (by simp)) fun _ => .bind (kAskTry fun w => g.build w _) fun r => ?_
    cases r with
    | ok _ => exact .ret _
    | error _ => exact .bind (kNote (by simp)) fun _ => .bind (kWarnM _ _) fun _ => .ret _
  have := hb w h
  rcases hi : instrumentBody cfg env f cs w with ⟨r, w'⟩
  rw [hi] at this
  cases r with
  | ok b => cases b <;> exact this
  | err e => exact this
  | panic => exact this
  | hang => exact this

theorem kOneFile (cfg : Cfg) (f : SourceFile) (cs : List Candidate) : Keeps (J T R) (oneFile cfg env f cs) := by
  refine .bind (kSay _ _) fun _ => .bind (kNote (by simp)) fun _ => .bind (kAskTry fun w => g.dryRun w f) fun r => ?_
  cases r with
  | error _ =>
    exact .bind (kNote (by simp)) fun _ => .bind (kWarnM _ _) fun _ => .bind g.kCheckCtrlc fun _ =>
      .bind (g.kSkipPresent _ _) fun _ => kUpdateProgress _ _ _
  | ok _ =>
    exact .bind g.kCheckCtrlc fun _ => .bind (kSay _ _) fun _ =>
      .finally_ (.bind (g.kInstrumentStatements _ _ _) fun _ => g.kCandidateLoop _ _) fun w h => g.J_dropInstr h

theorem kRunFiles (cfg : Cfg) (fcs : List (SourceFile × List Candidate)) : Keeps (J T R) (runFiles cfg env fcs) := by
  induction fcs with
  | nil => exact .ret _
  | cons x fcs ih =>
    obtain ⟨f, cs⟩ := x
    intro w h
    refine Keeps.bind (J := J T R) (kSkipPastM _ _) (fun _ => .bind ?_ fun _ => ih) w h
    split
    · exact .ret _
    · exact g.kOneFile _ _ _

/-- However a run ends, `R` holds of every test it started. -/
theorem started (cfg : Cfg) (fcs : List (SourceFile × List Candidate)) (w : World σ) (hT : T w.ext) (ht : w.trace = []) :
    StartedOnly R (runFiles cfg env fcs w).2.trace :=
  (g.kRunFiles cfg fcs w ⟨hT, by rw [ht]; exact fun _ h => absurd h (List.not_mem_nil)⟩).2

end Guarded
end Necessist.Run
