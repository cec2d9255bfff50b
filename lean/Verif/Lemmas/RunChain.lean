import Verif.Lemmas.Run
import Verif.Spec.Run
/-! Which event can directly follow which. -/
namespace Necessist.Run

variable {σ α β : Type}

/-- The second event may directly follow the first. -/
def Follows : Event → Event → Prop
  | .dryRun f, .dryRunFailed g => g = f
  | .dryRun _, .ctrlc _ => True
  | .dryRun _, _ => False
  | .dryRunFailed _, .ctrlc _ => True
  | .dryRunFailed _, _ => False
  | .ctrlc b, .insert _ => b = false
  | .ctrlc b, .buildFile _ => b = false
  | .ctrlc b, .buildTest _ _ => b = false
  | .ctrlc b, .ctrlc _ => b = false
  | .ctrlc b, .dryRun _ => b = false
  | .ctrlc _, _ => False
  | .insert r, .insert r' => r.outcome = Outcome.display .skipped ∧ r'.outcome = Outcome.display .skipped
  | .insert _, .buildTest _ _ => True
  | .insert _, .ctrlc _ => True
  | .insert _, .dryRun _ => True
  | .insert _, _ => False
  | .buildFile f, .buildFailed g => g = f
  | .buildFile _, .buildTest _ _ => True
  | .buildFile _, .ctrlc _ => True
  | .buildFile _, .dryRun _ => True
  | .buildFile _, _ => False
  | .buildFailed _, .buildTest _ _ => True
  | .buildFailed _, .ctrlc _ => True
  | .buildFailed _, .dryRun _ => True
  | .buildFailed _, _ => False
  | .buildTest c t, .startTest c' t' _ => c' = c ∧ t' = t
  | .buildTest c t, .tested c' t' r => c' = c ∧ t' = t ∧ r = some .nonbuildable
  | .buildTest _ _, _ => False
  | .startTest c t _, .kill c' t' => c' = c ∧ t' = t
  | .startTest c t _, .tested c' t' r => c' = c ∧ t' = t ∧ (r = none ∨ r = some .passed ∨ r = some .failed)
  | .startTest _ _ _, _ => False
  | .kill c t, .tested c' t' r => c' = c ∧ t' = t ∧ r = some .timedOut
  | .kill _ _, _ => False
  | .tested c _ r, .buildTest c' _ => c' = c ∧ r = some .passed
  | .tested _ _ _, .ctrlc _ => True
  | .tested _ _ _, _ => False

/-- Every event in the trace may directly follow the one before it. -/
def Chained (tr : List Snap) : Prop :=
  ∀ a x y b, tr = a ++ x :: y :: b → Follows x.event y.event

/-- The last event, if any, satisfies `S`. -/
def LastIs (S : Event → Prop) (tr : List Snap) : Prop := ∀ a x, tr = a ++ [x] → S x.event

theorem Chained.snoc {tr : List Snap} {s : Snap} (h : Chained tr) (hl : LastIs (fun e => Follows e s.event) tr) :
    Chained (tr ++ [s]) := by
  intro a x y b he
  rcases List.eq_nil_or_concat b with rfl | ⟨b', z, rfl⟩
  · have : tr ++ [s] = (a ++ [x]) ++ [y] := by simpa using he
    obtain ⟨h1, h2⟩ := List.append_inj' this rfl
    simp only [List.cons.injEq, and_true] at h2
    subst h2
    exact hl a x h1
  · have : tr ++ [s] = (a ++ x :: y :: b') ++ [z] := by simpa using he
    obtain ⟨h1, -⟩ := List.append_inj' this rfl
    exact h a x y b' h1

/-- Chained, with the last event in `S`. -/
def Ch (S : Event → Prop) (w : World σ) : Prop := Chained w.trace ∧ LastIs S w.trace

theorem Ch.mono {S S' : Event → Prop} (h : ∀ e, S e → S' e) {w : World σ} (hw : Ch S w) : Ch S' w :=
  ⟨hw.1, fun a x hx => h _ (hw.2 a x hx)⟩

/-- What holds when a run stops: the trace is chained; and the error is `ctrlc` if the last event is `ctrlc true`. -/
def Stop (e : Option Err) (w : World σ) : Prop :=
  Chained w.trace ∧ LastIs (fun x => x = .ctrlc true → e = some .ctrlc) w.trace

/-- The last event is not a Ctrl-C. -/
def Calm (S : Event → Prop) : Prop := ∀ e, S e → e ≠ .ctrlc true

/-- Leave the trace as it is. -/
def Quiet (m : M σ α) : Prop := ∀ w, (m w).2.trace = w.trace

/-- The hang postcondition. -/
def Stuck (w : World σ) : Prop := Chained w.trace ∧ LastIs (fun x => x ≠ .ctrlc true) w.trace

theorem Ch.stop {S : Event → Prop} (hS : Calm S) {w : World σ} (h : Ch S w) (e : Option Err) : Stop e w :=
  ⟨h.1, fun a x hx hc => absurd hc (hS _ (h.2 a x hx))⟩

theorem Quiet.tri {m : M σ α} (h : Quiet m) {S : Event → Prop} (hS : Calm S) :
    Tri (Ch S) m (fun _ => Ch S) Stop Stuck := by
  intro w hw
  have := h w
  rcases hm : m w with ⟨r, w'⟩
  rw [hm] at this
  have h2 : Ch S w' := by unfold Ch at *; rw [show w'.trace = w.trace from this]; exact hw
  cases r with
  | ok a => exact h2
  | err e => exact h2.stop hS _
  | panic => exact h2.stop hS _
  | hang => exact ⟨h2.1, fun a x hx => hS _ (h2.2 a x hx)⟩

theorem Quiet.bind {m : M σ α} {k : α → M σ β} (h1 : Quiet m) (h2 : ∀ a, Quiet (k a)) : Quiet (Run.bind m k) := by
  intro w
  have := h1 w
  unfold Run.bind
  rcases hm : m w with ⟨r, w'⟩
  rw [hm] at this
  cases r with
  | ok a => exact (h2 a w').trans this
  | err e => exact this
  | panic => exact this
  | hang => exact this

theorem Quiet.ret (a : α) : Quiet (Run.ret a : M σ α) := fun _ => rfl
theorem Quiet.panics : Quiet (Run.panics : M σ α) := fun _ => rfl
theorem Quiet.ask (f : World σ → Reply σ α) : Quiet (Run.ask f) := fun _ => rfl
theorem Quiet.askTry (f : World σ → Reply σ α) : Quiet (Run.askTry f) := by
  intro w; unfold Run.askTry; dsimp only; cases (f w).res <;> rfl
theorem Quiet.orPanic (o : Option α) : Quiet (Run.orPanic o : M σ α) := by
  cases o
  · exact Quiet.panics
  · exact Quiet.ret _
theorem Quiet.say (cfg : Cfg) (l : Line) : Quiet (Run.say cfg l : M σ Unit) := by
  intro w; unfold Run.say; by_cases hq : cfg.warn.quiet = true <;> simp [hq]
theorem Quiet.warnM (cfg : Cfg) (c : WarnCall) : Quiet (Run.warnM cfg c : M σ Unit) := by
  intro w
  unfold Run.warnM
  rcases warnInternal cfg.warn w.warns c with ⟨r, st⟩
  cases r with
  | print m => exact Quiet.say cfg _ _
  | _ => rfl
theorem Quiet.writeFile (env : Env σ) (f : SourceFile) (t : Text) : Quiet (Run.writeFile env f t) := by
  intro w; unfold Run.writeFile; rcases env.write w f t with ⟨_ | _, ext⟩ <;> rfl
theorem Quiet.wraps (env : Env σ) (cs : List Candidate) : Quiet (Run.wraps env cs) := by
  induction cs with
  | nil => exact Quiet.ret _
  | cons c cs ih => exact Quiet.bind (Quiet.ask _) fun _ => Quiet.bind ih fun _ => Quiet.ret _
theorem Quiet.updateProgress (cfg : Cfg) (mm : Option Mismatch) (n : Nat) :
    Quiet (Run.updateProgress cfg mm n : M σ Unit) := by
  refine Quiet.bind ?_ fun _ _ => rfl
  rcases mm with _ | (r | r)
  · exact Quiet.ret _
  · exact Quiet.warnM _ _
  · exact Quiet.warnM _ _
theorem Quiet.skipPastM (cfg : Cfg) (s : Skipped) : Quiet (Run.skipPastM cfg s : M σ Unit) :=
  fun w => Quiet.updateProgress cfg _ _ { w with past := s.past }
theorem Quiet.emitToConsole (cfg : Cfg) (r : Removal) : Quiet (Run.emitToConsole cfg r : M σ Unit) := by
  unfold Run.emitToConsole
  split
  · exact Quiet.say _ _
  · exact Quiet.ret _

theorem Ch.note {S : Event → Prop} (e : Event) (h : ∀ x, S x → Follows x e) :
    Tri (Ch S) (Run.note e) (fun _ => Ch (σ := σ) (· = e)) Stop Stuck := by
  intro w hw
  refine ⟨Chained.snoc hw.1 fun a x hx => h _ (hw.2 a x hx), ?_⟩
  intro a x hx
  have h2 := (List.append_inj' hx rfl).2
  simp only [List.cons.injEq, and_true] at h2
  rw [← h2]

theorem Ch.checkCtrlc (env : Env σ) {S : Event → Prop} (h : ∀ x b, S x → Follows x (.ctrlc b)) :
    Tri (Ch S) (Run.checkCtrlc env) (fun _ => Ch (· = .ctrlc false)) Stop Stuck := by
  intro w hw
  unfold Run.checkCtrlc
  rcases env.ctrlc w with ⟨b, ext⟩
  have hw' : Ch S { w with ext := ext } := hw
  have := Ch.note (σ := σ) (.ctrlc b) (fun x hx => h x b hx) _ hw'
  cases b with
  | false => exact this
  | true => exact ⟨this.1, fun _ _ _ _ => rfl⟩

/-- Between candidates. -/
def Between (e : Event) : Prop := e = .ctrlc false ∨ (∃ f, e = .buildFile f ∨ e = .buildFailed f) ∨ (∃ r, e = .insert r)

theorem calm_eq {e : Event} (h : e ≠ .ctrlc true) : Calm (· = e) := fun x hx => by rw [hx]; exact h

theorem calm_between : Calm Between := by
  rintro e (rfl | ⟨_, rfl | rfl⟩ | ⟨_, rfl⟩) <;> simp

theorem chain_performExec (cfg : Cfg) (env : Env σ) (c : Candidate) (t : Text) (b : Bool) :
    Tri (Ch (· = .buildTest c t)) (performExec cfg env c t b)
      (fun r => Ch fun e => (∃ v, e = .startTest c t v) ∧ (r = none ∨ r = some .passed ∨ r = some .failed) ∨
        e = .kill c t ∧ r = some .timedOut) Stop Stuck := by
  refine Tri.bind (Ch.note _ (by rintro x rfl; exact ⟨rfl, rfl⟩)) fun _ => ?_
  have hc : Calm (· = Event.startTest c t (cfg.ident c.span)) := calm_eq (by simp)
  have hk : Calm (· = Event.kill c t) := calm_eq (by simp)
  refine Tri.bind ((Quiet.ask _).tri hc) fun p => ?_
  refine Tri.bind (Quiet.tri (fun _ => rfl) hc) fun status => ?_
  cases status with
  | some s =>
    refine Tri.bind (R := fun _ => Ch (· = .startTest c t (cfg.ident c.span))) ?_ fun ran =>
      Tri.ret _ fun w hw => hw.mono fun e he => Or.inl ⟨⟨_, he⟩, by
        cases ran <;> cases s <;> simp⟩
    cases b
    · exact (Quiet.ret _).tri hc
    · exact (Quiet.ask _).tri hc
  | none =>
    refine Tri.bind (Ch.note _ (by rintro x rfl; exact ⟨rfl, rfl⟩)) fun _ => ?_
    refine Tri.bind ((Quiet.ask _).tri hk) fun _ => ?_
    refine Tri.bind ((Quiet.ask _).tri hk) fun _ => ?_
    exact Tri.ret _ fun w hw => hw.mono fun e he => Or.inr ⟨he, rfl⟩

theorem chain_oneTest (cfg : Cfg) (env : Env σ) (c : Candidate) (ex : Bool) (t : Text) :
    Tri (Ch fun e => Between e ∨ ∃ t, e = .tested c t (some .passed)) (oneTest cfg env c ex t)
      (fun r => Ch (· = .tested c t r)) Stop Stuck := by
  have hb : Calm (· = Event.buildTest c t) := calm_eq (by simp)
  refine Tri.bind (Ch.note _ ?_) fun _ => Tri.bind ((Quiet.ask _).tri hb) fun r => ?_
  · rintro x ((rfl | ⟨_, rfl | rfl⟩ | ⟨_, rfl⟩) | ⟨_, rfl⟩) <;> simp [Follows]
  refine Tri.bind (R := fun r => Ch fun e => e = .buildTest c t ∧ r = some .nonbuildable ∨
      (∃ v, e = .startTest c t v) ∧ (r = none ∨ r = some .passed ∨ r = some .failed) ∨
      e = .kill c t ∧ r = some .timedOut) ?_
    fun r => Tri.bind (Ch.note _ ?_) fun _ => Tri.ret _ fun w hw => hw
  · cases r with
    | some b =>
      exact (chain_performExec cfg env c t b).weaken (fun _ h => h) (fun _ _ h => h.mono fun _ h => Or.inr h)
        (fun _ _ h => h) (fun _ h => h)
    | none =>
      cases ex with
      | true => exact Tri.ret _ fun w hw => hw.mono fun e he => Or.inl ⟨he, rfl⟩
      | false => exact Tri.panics fun w hw => hw.stop hb _
  · rintro x (⟨rfl, rfl⟩ | ⟨⟨_, rfl⟩, h⟩ | ⟨rfl, rfl⟩)
    · simp [Follows]
    · exact ⟨rfl, rfl, h⟩
    · simp [Follows]

/-- Nothing or a result of the candidate came last. -/
def Ran (c : Candidate) (e : Event) : Prop := Between e ∨ ∃ t r, e = .tested c t r

theorem calm_ran (c : Candidate) : Calm (Ran c) := by
  rintro e (h | ⟨_, _, rfl⟩)
  · exact calm_between _ h
  · simp

theorem chain_runTests (cfg : Cfg) (env : Env σ) (c : Candidate) (ex : Bool) (ts : List Text) (acc : Option Outcome) :
    Tri (Ch fun e => Between e ∨ ∃ t, e = .tested c t acc) (runTests cfg env c ex ts acc)
      (fun _ => Ch (Ran c)) Stop Stuck := by
  induction ts generalizing acc with
  | nil => exact Tri.ret _ fun w hw => hw.mono fun e he => he.imp id fun ⟨t, h⟩ => ⟨t, acc, h⟩
  | cons t ts ih =>
    unfold runTests
    by_cases ha : acc = some .passed
    · subst ha
      rw [if_neg (by simp)]
      refine Tri.bind (chain_oneTest cfg env c ex t) fun r => ?_
      exact (ih r).pre fun w hw => hw.mono fun e he => Or.inr ⟨t, he⟩
    · rw [if_pos ha]; exact ih acc

theorem chain_insertRow (env : Env σ) (r : Removal) {S : Event → Prop} (hS : Calm S)
    (h : ∀ url x, S x → Follows x (.insert (Row.ofRemoval url r))) :
    Tri (Ch S) (insertRow env r) (fun _ => Ch fun e => S e ∨ ∃ url, e = .insert (Row.ofRemoval url r)) Stop Stuck := by
  intro w hw
  unfold insertRow
  rcases hd : w.db with _ | rows
  · exact hw.mono fun _ h => Or.inl h
  · refine Tri.bind ((Quiet.ask _).tri hS) (fun url => ?_) w hw
    intro w hw
    dsimp only
    by_cases hk : (rows.any fun x => x.span == (Row.ofRemoval url r).span) = true
    · rw [if_pos hk]; exact hw.stop hS _
    · rw [if_neg hk]
      have hw' : Ch S { w with db := some (rows ++ [Row.ofRemoval url r]) } := hw
      exact (Ch.note (σ := σ) _ (h url)).weaken (fun _ h => h)
        (fun _ _ h => h.mono fun _ h => Or.inr ⟨url, h⟩) (fun _ _ h => h) (fun _ h => h) _ hw'

theorem chain_testAndRecord (cfg : Cfg) (env : Env σ) (c : Candidate) (text : Text) (ex : Bool) :
    Tri (Ch Between) (testAndRecord cfg env c text ex) (fun _ => Ch Between) Stop Stuck := by
  refine Tri.bind ((chain_runTests cfg env c ex c.tests (some .passed)).pre fun w hw => hw.mono fun _ => Or.inl)
    fun outcome => ?_
  refine Tri.bind (Ch.checkCtrlc env ?_) fun _ => ?_
  · rintro x b ((rfl | ⟨_, rfl | rfl⟩ | ⟨_, rfl⟩) | ⟨_, _, rfl⟩) <;> simp [Follows]
  have hf : Calm (· = Event.ctrlc false) := calm_eq (by simp)
  refine Tri.bind (R := fun _ => Ch Between) ?_ fun _ => (Quiet.updateProgress _ _ _).tri calm_between
  cases outcome with
  | none => exact Tri.ret _ fun w hw => hw.mono fun e he => Or.inl he
  | some o =>
    refine Tri.bind (chain_insertRow env _ hf ?_) fun _ => ?_
    · rintro url x rfl; rfl
    · refine Tri.pre ((Quiet.emitToConsole cfg _).tri calm_between) fun w hw => hw.mono ?_
      rintro e (rfl | ⟨url, rfl⟩)
      · exact Or.inl rfl
      · exact Or.inr (Or.inr ⟨_, rfl⟩)

theorem Stop.congr {e : Option Err} {w w' : World σ} (h : w'.trace = w.trace) (hw : Stop e w) : Stop e w' := by
  unfold Stop at *; rw [h]; exact hw

theorem Ch.congr {S : Event → Prop} {w w' : World σ} (h : w'.trace = w.trace) (hw : Ch S w) : Ch S w' := by
  unfold Ch at *; rw [h]; exact hw

theorem chain_removeAndTest (cfg : Cfg) (env : Env σ) (c : Candidate) (text : Text) :
    Tri (Ch Between) (removeAndTest cfg env c text) (fun _ => Ch Between) Stop Stuck := by
  refine Tri.bind ((Quiet.ask _).tri calm_between) fun _ => ?_
  intro w hw
  dsimp only
  refine Tri.finally (P := Ch Between) (Q := fun _ => Ch Between) (E := Stop) ?_ ?_ ?_ w hw
  rotate_left
  · exact fun a w h => h
  · exact fun e w h => h
  refine Tri.bind ((Quiet.orPanic _).tri calm_between) fun x => ?_
  exact Tri.bind ((Quiet.writeFile _ _ _).tri calm_between) fun _ => chain_testAndRecord cfg env c text true

theorem dropInstr_trace (w : World σ) : (dropInstr w).trace = w.trace := by
  unfold dropInstr; rcases w.instr with _ | ⟨f, t⟩ <;> rfl

theorem chain_oneCandidate (cfg : Cfg) (env : Env σ) (c : Candidate) :
    Tri (Ch Between) (oneCandidate cfg env c) (fun _ => Ch Between) Stop Stuck := by
  intro w hw
  have hw' : Ch Between (if c.kind ≠ .statement then dropInstr w else w) := by
    refine hw.congr ?_
    split
    · exact dropInstr_trace w
    · rfl
  refine Tri.bind (P := Ch Between) ((Quiet.orPanic _).tri calm_between) (fun text => ?_) _ hw'
  intro w hw
  dsimp only
  split
  · exact chain_removeAndTest cfg env c text w hw
  · exact chain_testAndRecord cfg env c text false w hw

theorem chain_candidateLoop (cfg : Cfg) (env : Env σ) (cs : List Candidate) :
    Tri (Ch Between) (candidateLoop cfg env cs) (fun _ => Ch Between) Stop Stuck :=
  Tri.candidateLoop (P := fun _ => Ch Between)
    (fun _ w hw => (Quiet.skipPastM cfg _).tri calm_between w hw) (fun _ h => h)
    (fun c _ => chain_oneCandidate cfg env c) cs

theorem chain_instrumentStatements (cfg : Cfg) (env : Env σ) (f : SourceFile) (cs : List Candidate) :
    Tri (Ch (· = .ctrlc false)) (instrumentStatements cfg env f cs) (fun _ => Ch Between) Stop Stuck := by
  have hf : Calm (· = Event.ctrlc false) := calm_eq (by simp)
  have hb : Calm (· = Event.buildFile f) := calm_eq (by simp)
  refine Tri.bind ((Quiet.ask _).tri hf) fun _ => ?_
  have hbody : Tri (Ch (· = .ctrlc false)) (instrumentBody cfg env f cs) (fun _ => Ch Between) Stop Stuck := by
    refine Tri.bind ((Quiet.ask _).tri hf) fun _ => Tri.bind ((Quiet.wraps _ _).tri hf) fun _ =>
      Tri.bind ((Quiet.orPanic _).tri hf) fun _ => Tri.bind ((Quiet.writeFile _ _ _).tri hf) fun _ =>
      Tri.bind (Ch.note _ ?_) fun _ => Tri.bind ((Quiet.askTry _).tri hb) fun r => ?_
    · rintro x rfl; rfl
    · cases r with
      | ok _ => exact Tri.ret _ fun _ h => h.mono fun _ h => Or.inr (Or.inl ⟨f, Or.inl h⟩)
      | error _ =>
        have hd : Calm (· = Event.buildFailed f) := calm_eq (by simp)
        refine Tri.bind (Ch.note _ ?_) fun _ => Tri.bind ((Quiet.warnM _ _).tri hd) fun _ =>
          Tri.ret _ fun _ h => h.mono fun _ h => Or.inr (Or.inl ⟨f, Or.inr h⟩)
        rintro x rfl; rfl
  intro w hw
  have := hbody w hw
  dsimp only
  rcases hm : instrumentBody cfg env f cs w with ⟨r, w'⟩
  rw [hm] at this
  rcases r with (_ | _) | _ | _ | _ <;> exact this

/-- Skipped rows. -/
def Skips (e : Event) : Prop :=
  e = .ctrlc false ∨ ∃ r : Row, e = .insert r ∧ r.outcome = Outcome.display .skipped

theorem calm_skips : Calm Skips := by rintro e (rfl | ⟨_, rfl, _⟩) <;> simp

theorem chain_skipPresent (cfg : Cfg) (env : Env σ) (cs : List Candidate) :
    Tri (Ch Skips) (skipPresent cfg env cs) (fun _ => Ch Skips) Stop Stuck := by
  induction cs with
  | nil => exact Tri.ret _ fun _ h => h
  | cons c cs ih =>
    intro w hw
    unfold skipPresent
    refine Tri.bind (P := Ch Skips) (R := fun _ => Ch Skips) ?_ (fun _ => ih) w hw
    split
    · refine Tri.bind ((Quiet.orPanic _).tri calm_skips) fun text => ?_
      refine (chain_insertRow env _ calm_skips ?_).weaken (fun _ h => h) (fun _ _ h => h.mono ?_) (fun _ _ h => h)
        (fun _ h => h)
      · rintro url x (rfl | ⟨r, rfl, hr⟩)
        · rfl
        · exact ⟨hr, by simp [Row.ofRemoval]⟩
      · rintro e (h | ⟨url, rfl⟩)
        · exact h
        · exact Or.inr ⟨_, rfl, by simp [Row.ofRemoval]⟩
    · exact Tri.ret _ fun _ h => h

theorem chain_oneFile (cfg : Cfg) (env : Env σ) (f : SourceFile) (cs : List Candidate) :
    Tri (Ch Between) (oneFile cfg env f cs) (fun _ => Ch Between) Stop Stuck := by
  have hd : Calm (· = Event.dryRun f) := calm_eq (by simp)
  have hdf : Calm (· = Event.dryRunFailed f) := calm_eq (by simp)
  have hf : Calm (· = Event.ctrlc false) := calm_eq (by simp)
  refine Tri.bind ((Quiet.say _ _).tri calm_between) fun _ => Tri.bind (Ch.note _ ?_) fun _ =>
    Tri.bind ((Quiet.askTry _).tri hd) fun r => ?_
  · rintro x (rfl | ⟨_, rfl | rfl⟩ | ⟨_, rfl⟩) <;> simp [Follows]
  cases r with
  | error _ =>
    refine Tri.bind (Ch.note _ (by rintro x rfl; rfl)) fun _ => Tri.bind ((Quiet.warnM _ _).tri hdf) fun _ =>
      Tri.bind (Ch.checkCtrlc env (by rintro x b rfl; simp [Follows])) fun _ =>
      Tri.bind ((chain_skipPresent cfg env cs).pre fun w hw => hw.mono fun _ => Or.inl) fun _ => ?_
    refine Tri.pre ((Quiet.updateProgress _ _ _).tri calm_between) fun w hw => hw.mono ?_
    rintro e (rfl | ⟨r, rfl, -⟩)
    · exact Or.inl rfl
    · exact Or.inr (Or.inr ⟨r, rfl⟩)
  | ok _ =>
    refine Tri.bind (Ch.checkCtrlc env (by rintro x b rfl; simp [Follows])) fun _ =>
      Tri.bind ((Quiet.say _ _).tri hf) fun _ => ?_
    refine Tri.finally (Q := fun _ => Ch Between) (E := Stop) ?_ (fun _ w h => h.congr (dropInstr_trace w))
      (fun _ w h => h.congr (dropInstr_trace w))
    exact Tri.bind (chain_instrumentStatements cfg env f cs) fun _ => chain_candidateLoop cfg env cs

theorem chain_runFiles (cfg : Cfg) (env : Env σ) (fcs : List (SourceFile × List Candidate)) :
    Tri (Ch Between) (runFiles cfg env fcs) (fun _ => Ch Between) Stop Stuck := by
  induction fcs with
  | nil => exact Tri.ret _ fun _ h => h
  | cons x fcs ih =>
    obtain ⟨f, cs⟩ := x
    intro w hw
    unfold runFiles
    refine Tri.bind (P := Ch Between) ((Quiet.skipPastM _ _).tri calm_between) (fun _ => ?_) w hw
    refine Tri.bind (R := fun _ => Ch Between) ?_ fun _ => ih
    split
    · exact Tri.ret _ fun _ h => h
    · exact chain_oneFile cfg env f _

end Necessist.Run
