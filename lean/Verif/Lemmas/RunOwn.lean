import Verif.Lemmas.Run
/-! Conditions on the state of the outside world that hold again whenever a call has ended, although they may fail while a test is
executing. -/
namespace Necessist.Run

variable {σ α β : Type}

/-- `m` succeeds in `G` if it starts in `G`; if it fails or panics, then `E`; if it does not end, then `L`. -/
def Tame (G E L : σ → Prop) (m : M σ α) : Prop :=
  Tri (fun w => G w.ext) m (fun _ w => G w.ext) (fun _ w => E w.ext) (fun w => L w.ext)

/-- `E` is weaker than `G`. -/
class Weaker (G E : σ → Prop) : Prop where
  weaker : ∀ s, G s → E s

instance (G : σ → Prop) : Weaker G G := ⟨fun _ h => h⟩

/-- The same for the reply to a call. -/
def Reply.Tame (G E L : σ → Prop) (r : Reply σ α) : Prop :=
  match r.res with
  | .hang => L r.ext
  | .ok _ => G r.ext
  | _ => E r.ext

namespace Tame
variable {G E L : σ → Prop} [k : Weaker G E]

theorem bind {m : M σ α} {k : α → M σ β} (h : Tame G E L m) (h' : ∀ a, Tame G E L (k a)) : Tame G E L (Run.bind m k) :=
  Tri.bind h h'
theorem ret (a : α) : Tame G E L (Run.ret a) := fun _ h => h
theorem panics : Tame G E L (Run.panics : M σ α) := fun _ h => k.weaker _ h
theorem fail (e : Err) : Tame G E L (Run.fail e : M σ α) := fun _ h => k.weaker _ h
theorem orPanic (o : Option α) : Tame G E L (Run.orPanic o) := by
  cases o
  · exact panics
  · exact ret _
theorem note (e : Event) : Tame G E L (Run.note e) := fun _ h => h
theorem say (cfg : Cfg) (l : Line) : Tame G E L (Run.say cfg l) := by
  intro w h
  unfold Run.say
  split <;> exact h
theorem warnM (cfg : Cfg) (c : WarnCall) : Tame G E L (Run.warnM cfg c) := by
  intro w h
  unfold Run.warnM
  rcases warnInternal cfg.warn w.warns c with ⟨r, st⟩
  cases r with
  | bail m => exact k.weaker _ h
  | silent => exact h
  | print m => exact say cfg _ _ h
  | panic => exact k.weaker _ h
theorem finally_ {m : M σ α} {c : World σ → World σ} (h : Tame G E L m) (hc : ∀ w, (c w).ext = w.ext) :
    Tame G E L (Run.finally_ m c) :=
  Tri.finally h (fun _ w (hw : G w.ext) => show G (c w).ext from (hc w).symm ▸ hw) fun _ w (hw : E w.ext) => show E (c w).ext from (hc w).symm ▸ hw
theorem ask {f : World σ → Reply σ α} (hf : ∀ w, G w.ext → (f w).Tame G E L) : Tame G E L (Run.ask f) := by
  intro w h
  have := hf w h
  unfold Reply.Tame at this
  unfold Run.ask
  dsimp only
  cases hr : (f w).res <;> rw [hr] at this <;> exact this
theorem askTry {f : World σ → Reply σ α} (hf : ∀ w, G w.ext → (f w).Tame G G L) : Tame G E L (Run.askTry f) := by
  intro w h
  have := hf w h
  unfold Reply.Tame at this
  unfold Run.askTry
  dsimp only
  cases hr : (f w).res <;> rw [hr] at this
  case panic => exact k.weaker _ this
  all_goals exact this
theorem updateProgress (cfg : Cfg) (mm : Option Mismatch) (n : Nat) : Tame G E L (Run.updateProgress cfg mm n) := by
  refine .bind ?_ fun _ _ h => h
  split
  · exact .ret _
  · exact warnM _ _
  · exact warnM _ _
theorem skipPastM (cfg : Cfg) (s : Skipped) : Tame G E L (Run.skipPastM cfg s) := fun _ h => updateProgress cfg _ _ _ h
end Tame

/-- Reasoning about the reply to a call from reasoning about the computation. -/
theorem reply_calm {G E L : σ → Prop} {m : M σ α} (h : Run.Tame G E L m) (w : World σ) (hw : G w.ext) :
    (reply m w).Tame G E L := by
  have := h w hw
  unfold Reply.Tame reply
  dsimp only
  rcases hm : m w with ⟨r, w'⟩
  rw [hm] at this
  cases r <;> exact this

theorem reply_post {P : World σ → Prop} {Q : α → σ → Prop} {E H : σ → Prop} {m : M σ α}
    (h : Tri P m (fun r w => Q r w.ext) (fun _ w => E w.ext) fun w => H w.ext) :
    Tri P (ask (reply m)) (fun r w => Q r w.ext) (fun _ w => E w.ext) fun w => H w.ext := by
  intro w hw
  have := h w hw
  unfold ask reply
  dsimp only
  rcases hm : m w with ⟨r, w'⟩
  rw [hm] at this
  cases r <;> exact this

/-- Everything the outside does preserves `G`, except that what happens in the course of one test is taken as a whole. -/
structure Settled (cfg : Cfg) (env : Env σ) (G E L : σ → Prop) : Prop where
  ctrlc : ∀ w, G w.ext → G (env.ctrlc w).2
  dryRun : ∀ w f, G w.ext → (env.dryRun w f).Tame G G L
  backup : ∀ w f, G w.ext → (env.backup w f).Tame G E L
  write : ∀ w f t, G w.ext → G (env.write w f t).2
  instrFile : ∀ w f n, G w.ext → (env.instrFile w f n).Tame G E L
  wrap : ∀ w s, G w.ext → (env.wrap w s).Tame G E L
  build : ∀ w f, G w.ext → (env.build w f).Tame G G L
  insert : ∀ w s, G w.ext → (env.insert w s).Tame G E L
  oneTest : ∀ c explicit t, Tame G E L (oneTest cfg env c explicit t)

namespace Settled
variable {cfg : Cfg} {env : Env σ} {G E L : σ → Prop} [k : Weaker G E] (g : Settled cfg env G E L)
include g

theorem checkCtrlc : Tame G E L (Run.checkCtrlc env) := by
  intro w h
  have := g.ctrlc w h
  unfold Run.checkCtrlc
  rcases hc : env.ctrlc w with ⟨b, ext⟩
  rw [hc] at this
  refine Tame.bind (G := G) (E := E) (L := L) (.note _) (fun _ => ?_) { w with ext := ext } this
  split
  · exact .fail _
  · exact .ret _

theorem writeFile (f : SourceFile) (t : Text) : Tame G E L (Run.writeFile env f t) := by
  intro w h
  have := g.write w f t h
  unfold Run.writeFile
  rcases hw : env.write w f t with ⟨_ | _, ext⟩ <;> rw [hw] at this
  · exact this
  · exact k.weaker _ this

theorem insertRow (r : Removal) : Tame G E L (Run.insertRow env r) := by
  intro w h
  unfold Run.insertRow
  rcases w.db with _ | rows
  · exact h
  · refine Tame.bind (.ask fun w => g.insert w _) (fun url w h => ?_) w h
    dsimp only
    split
    · exact k.weaker _ h
    · exact h

theorem emit (r : Removal) : Tame G E L (Run.emit cfg env r) := by
  refine .bind (g.insertRow r) fun _ => ?_
  unfold emitToConsole
  split
  · exact .say _ _
  · exact .ret _

theorem skipPresent (cs : List Candidate) : Tame G E L (Run.skipPresent cfg env cs) := by
  induction cs with
  | nil => exact .ret _
  | cons c cs ih =>
    intro w h
    refine Tame.bind (G := G) (E := E) (L := L) ?_ (fun _ => ih) w h
    split
    · exact .bind (.orPanic _) fun _ => g.insertRow _
    · exact .ret _

theorem runTests (c : Candidate) (ex : Bool) (ts : List Text) (acc : Option Outcome) :
    Tame G E L (Run.runTests cfg env c ex ts acc) := by
  induction ts generalizing acc with
  | nil => exact .ret _
  | cons t ts ih =>
    unfold Run.runTests
    split
    · exact ih _
    · exact .bind (g.oneTest c ex t) fun r => ih r

theorem testAndRecord (c : Candidate) (text : Text) (ex : Bool) : Tame G E L (Run.testAndRecord cfg env c text ex) := by
  refine .bind (g.runTests _ _ _ _) fun o => .bind g.checkCtrlc fun _ => .bind ?_ fun _ => .updateProgress _ _ _
  cases o with
  | some o => exact g.emit _
  | none => exact .ret _

theorem withBackup {m : M σ α} (f : SourceFile) (h : Tame G E L m) : Tame G E L (Run.withBackup env f m) := by
  refine .bind (.ask fun w => g.backup w f) fun _ w hw => ?_
  exact Tame.finally_ (c := fun w' => { w' with fs := upd w'.fs f (w.fs f) }) h (fun _ => rfl) w hw

omit g k in
theorem dropInstr_ext (w : World σ) : (Run.dropInstr w).ext = w.ext := by
  unfold Run.dropInstr
  split <;> rfl

theorem oneCandidate (c : Candidate) : Tame G E L (Run.oneCandidate cfg env c) := by
  intro w h
  have h' : G (if c.kind ≠ .statement then Run.dropInstr w else w).ext := by
    split
    · exact (dropInstr_ext w).symm ▸ h
    · exact h
  refine Tame.bind (G := G) (E := E) (L := L) (.orPanic _) (fun text w h => ?_) _ h'
  split
  · refine g.withBackup _ ?_ w h
    exact .bind (.orPanic _) fun _ => .bind (g.writeFile _ _) fun _ => g.testAndRecord _ _ _
  · exact g.testAndRecord _ _ _ w h

theorem candidateLoop (cs : List Candidate) : Tame G E L (Run.candidateLoop cfg env cs) :=
  Tri.candidateLoop (P := fun _ w => G w.ext) (fun _ w h => Tame.skipPastM (G := G) (E := E) (L := L) cfg _ w h) (fun _ h => h)
    (fun c _ => g.oneCandidate c) cs

theorem wraps (cs : List Candidate) : Tame G E L (Run.wraps env cs) := by
  induction cs with
  | nil => exact .ret _
  | cons c cs ih => exact .bind (.ask fun w => g.wrap w _) fun _ => .bind ih fun _ => .ret _

theorem instrumentStatements (f : SourceFile) (cs : List Candidate) :
    Tame G E L (Run.instrumentStatements cfg env f cs) := by
  refine .bind (.ask fun w => g.backup w f) fun _ w h => ?_
  have hb : Tame G E L (instrumentBody cfg env f cs) := by
    refine .bind (.ask fun w => g.instrFile w _ _) fun _ => .bind (g.wraps _) fun _ => .bind (.orPanic _) fun _ =>
      .bind (g.writeFile _ _) fun _ => .bind (.note _) fun _ => .bind (.askTry fun w => g.build w _) fun r => ?_
    cases r with
    | ok _ => exact .ret _
    | error _ => exact .bind (.note _) fun _ => .bind (.warnM _ _) fun _ => .ret _
  have := hb w h
  rcases hi : instrumentBody cfg env f cs w with ⟨r, w'⟩
  rw [hi] at this
  cases r with
  | ok b => cases b <;> exact this
  | err e => exact this
  | panic => exact this
  | hang => exact this

theorem oneFile (f : SourceFile) (cs : List Candidate) : Tame G E L (Run.oneFile cfg env f cs) := by
  refine .bind (.say _ _) fun _ => .bind (.note _) fun _ => .bind (.askTry fun w => g.dryRun w f) fun r => ?_
  cases r with
  | error _ =>
    exact .bind (.note _) fun _ => .bind (.warnM _ _) fun _ => .bind g.checkCtrlc fun _ =>
      .bind (g.skipPresent _) fun _ => .updateProgress _ _ _
  | ok _ =>
    exact .bind g.checkCtrlc fun _ => .bind (.say _ _) fun _ =>
      .finally_ (.bind (g.instrumentStatements _ _) fun _ => g.candidateLoop _) dropInstr_ext

/-- A whole run. -/
theorem runFiles (fcs : List (SourceFile × List Candidate)) : Tame G E L (Run.runFiles cfg env fcs) := by
  induction fcs with
  | nil => exact .ret _
  | cons x fcs ih =>
    obtain ⟨f, cs⟩ := x
    intro w h
    refine Tame.bind (G := G) (E := E) (L := L) (.skipPastM _ _) (fun _ => .bind ?_ fun _ => ih) w h
    split
    · exact .ret _
    · exact g.oneFile _ _

end Settled
end Necessist.Run
