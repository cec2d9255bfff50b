import Verif.Model.Sqlite
/-!
# Two runs side by side, that differ in what they print
-/
namespace Necessist.Run
variable {σ α β : Type}

/-- What is printed whether or not the output is to be verbose. -/
def essential (out : List Line) : List Line :=
  out.filter fun l => match l with | .removal r => r.outcome == .passed | _ => true

theorem essential_append (a b : List Line) : essential (a ++ b) = essential a ++ essential b := List.filter_append ..

/-- The same, except that removals of candidates that did not pass are printed in the second only. -/
inductive Omits : List Line → List Line → Prop
  | nil : Omits [] []
  | both (l : Line) {a b} : Omits a b → Omits (a ++ [l]) (b ++ [l])
  | more (r : Removal) {a b} (h : r.outcome ≠ .passed) : Omits a b → Omits a (b ++ [.removal r])

theorem Omits.append {a b : List Line} (h : Omits a b) (l : List Line) : Omits (a ++ l) (b ++ l) := by
  induction l generalizing a b with
  | nil => simpa
  | cons x xs ih =>
    have := ih (h.both x)
    simpa using this

/-- The worlds agree except in what has been printed. -/
def Same (w w' : World σ) : Prop := ∃ out', w' = { w with out := out' } ∧ Omits w.out out'

/-- The two computations do the same, except for what they print. -/
def Sim (m m' : M σ α) : Prop := ∀ w w', Same w w' → (m w).1 = (m' w').1 ∧ Same (m w).2 (m' w').2

/-- The outside does not depend on what has been printed. -/
structure Deaf (env : Env σ) : Prop where
  ctrlc : ∀ w out, env.ctrlc { w with out } = env.ctrlc w
  dryRun : ∀ w out f, env.dryRun { w with out } f = env.dryRun w f
  backup : ∀ w out f, env.backup { w with out } f = env.backup w f
  write : ∀ w out f t, env.write { w with out } f t = env.write w f t
  instrFile : ∀ w out f n, env.instrFile { w with out } f n = env.instrFile w f n
  wrap : ∀ w out s, env.wrap { w with out } s = env.wrap w s
  build : ∀ w out f, env.build { w with out } f = env.build w f
  exec : ∀ w out t s, env.exec { w with out } t s = env.exec w t s
  start : ∀ w out t s i, env.start { w with out } t s i = env.start w t s i
  post : ∀ w out, env.post { w with out } = env.post w
  kill : ∀ w out, env.kill { w with out } = env.kill w
  reap : ∀ w out, env.reap { w with out } = env.reap w
  insert : ∀ w out s, env.insert { w with out } s = env.insert w s

namespace Sim

theorem ret (a : α) : Sim (Run.ret a : M σ α) (Run.ret a) := fun _ _ h => ⟨rfl, h⟩
theorem fail (e : Err) : Sim (Run.fail e : M σ α) (Run.fail e) := fun _ _ h => ⟨rfl, h⟩
theorem panics : Sim (Run.panics : M σ α) Run.panics := fun _ _ h => ⟨rfl, h⟩

theorem bind {m m' : M σ α} {k k' : α → M σ β} (hm : Sim m m') (hk : ∀ a, Sim (k a) (k' a)) : Sim (Run.bind m k) (Run.bind m' k') := by
  intro w w' h
  obtain ⟨h1, h2⟩ := hm w w' h
  unfold Run.bind
  generalize m w = x at h1 h2 ⊢
  generalize m' w' = y at h1 h2 ⊢
  obtain ⟨r, v⟩ := x
  obtain ⟨r', v'⟩ := y
  cases h1
  cases r with
  | ok a => exact hk a v v' h2
  | err e => exact ⟨rfl, h2⟩
  | panic => exact ⟨rfl, h2⟩
  | hang => exact ⟨rfl, h2⟩

theorem finally_ {m m' : M σ α} {c : World σ → World σ} (hm : Sim m m') (hc : ∀ w w', Same w w' → Same (c w) (c w')) :
    Sim (Run.finally_ m c) (Run.finally_ m' c) := by
  intro w w' h
  obtain ⟨h1, h2⟩ := hm w w' h
  unfold Run.finally_
  generalize m w = x at h1 h2 ⊢
  generalize m' w' = y at h1 h2 ⊢
  obtain ⟨r, v⟩ := x
  obtain ⟨r', v'⟩ := y
  cases h1
  cases r with
  | ok a => exact ⟨rfl, hc _ _ h2⟩
  | err e => exact ⟨rfl, hc _ _ h2⟩
  | panic => exact ⟨rfl, hc _ _ h2⟩
  | hang => exact ⟨rfl, h2⟩

theorem note (e : Event) : Sim (Run.note e : M σ Unit) (Run.note e) := by
  rintro w _ ⟨out', rfl, h⟩
  exact ⟨rfl, out', rfl, h⟩

variable {cfg : Cfg} {v : Bool}

theorem say (l : Line) : Sim (Run.say cfg l : M σ Unit) (Run.say { cfg with verbose := v } l) := by
  rintro w _ ⟨out', rfl, h⟩
  unfold Run.say
  dsimp only
  split
  · exact ⟨rfl, out', rfl, h⟩
  · exact ⟨rfl, _, rfl, h.both l⟩

theorem ask {f : World σ → Reply σ α} (hf : ∀ w out, f { w with out } = f w) : Sim (Run.ask f) (Run.ask f) := by
  rintro w _ ⟨out', rfl, h⟩
  unfold Run.ask
  rw [hf w out']
  exact ⟨rfl, _, rfl, h.append _⟩

theorem askTry {f : World σ → Reply σ α} (hf : ∀ w out, f { w with out } = f w) : Sim (Run.askTry f) (Run.askTry f) := by
  rintro w _ ⟨out', rfl, h⟩
  unfold Run.askTry
  rw [hf w out']
  dsimp only
  split <;> exact ⟨rfl, _, rfl, h.append _⟩

theorem warnM (c : WarnCall) : Sim (Run.warnM cfg c : M σ Unit) (Run.warnM { cfg with verbose := v } c) := by
  rintro w _ ⟨out', rfl, h⟩
  unfold Run.warnM
  dsimp only
  split
  · exact ⟨rfl, out', rfl, h⟩
  · exact ⟨rfl, out', rfl, h⟩
  · exact say _ _ _ ⟨out', rfl, h⟩
  · exact ⟨rfl, out', rfl, h⟩

theorem checkCtrlc {env : Env σ} (he : Deaf env) : Sim (Run.checkCtrlc env) (Run.checkCtrlc env) := by
  rintro w _ ⟨out', rfl, h⟩
  unfold Run.checkCtrlc
  rw [he.ctrlc w out']
  refine bind (note _) (fun _ => ?_) _ _ ⟨out', rfl, h⟩
  split
  · exact fail _
  · exact ret _

theorem writeFile {env : Env σ} (he : Deaf env) (f : SourceFile) (t : Text) : Sim (Run.writeFile env f t) (Run.writeFile env f t) := by
  rintro w _ ⟨out', rfl, h⟩
  unfold Run.writeFile
  rw [he.write w out']
  dsimp only
  split <;> exact ⟨rfl, out', rfl, h⟩

theorem orPanic (a : Option α) : Sim (Run.orPanic a : M σ α) (Run.orPanic a) := by
  cases a
  · exact panics
  · exact ret _

theorem updateProgress (mm : Option Mismatch) (n : Nat) :
    Sim (Run.updateProgress cfg mm n : M σ Unit) (Run.updateProgress { cfg with verbose := v } mm n) := by
  unfold Run.updateProgress
  refine bind ?_ fun _ => ?_
  · split
    · exact ret _
    · exact warnM _
    · exact warnM _
  · rintro w _ ⟨out', rfl, h⟩
    exact ⟨rfl, out', rfl, h⟩

theorem skipPastM (s : Skipped) : Sim (Run.skipPastM cfg s : M σ Unit) (Run.skipPastM { cfg with verbose := v } s) := by
  rintro w _ ⟨out', rfl, h⟩
  exact updateProgress _ _ _ _ ⟨out', rfl, h⟩

theorem insertRow {env : Env σ} (he : Deaf env) (r : Removal) : Sim (Run.insertRow env r) (Run.insertRow env r) := by
  rintro w _ ⟨out', rfl, h⟩
  unfold Run.insertRow
  dsimp only
  split
  · exact ⟨rfl, out', rfl, h⟩
  · refine bind (ask fun w out => he.insert w out _) (fun url => ?_) _ _ ⟨out', rfl, h⟩
    rintro w _ ⟨out', rfl, h⟩
    dsimp only
    split
    · exact ⟨rfl, out', rfl, h⟩
    · exact note _ _ _ ⟨out', rfl, h⟩

/-- Here is the difference. -/
theorem emitToConsole (hv : cfg.verbose = false) (r : Removal) :
    Sim (Run.emitToConsole cfg r : M σ Unit) (Run.emitToConsole { cfg with verbose := true } r) := by
  unfold Run.emitToConsole
  dsimp only
  cases hq : cfg.warn.quiet
  · cases hp : r.outcome == Outcome.passed
    · rw [if_neg (by simp [hv]), if_pos (by simp)]
      rintro w _ ⟨out', rfl, h⟩
      show _ ∧ Same w _
      have hne : r.outcome ≠ .passed := fun e => by rw [e] at hp; cases hp
      exact ⟨rfl, out' ++ [.removal r], by simp [Run.say, hq, Run.ret], h.more r hne⟩
    · rw [if_pos (by simp), if_pos (by simp)]
      exact say _
  · rw [if_neg (by simp), if_neg (by simp)]
    exact ret _

theorem emit {env : Env σ} (he : Deaf env) (hv : cfg.verbose = false) (r : Removal) :
    Sim (Run.emit cfg env r) (Run.emit { cfg with verbose := true } env r) :=
  bind (insertRow he r) fun _ => emitToConsole hv r

theorem skipPresent {env : Env σ} (he : Deaf env) (cs : List Candidate) :
    Sim (Run.skipPresent cfg env cs) (Run.skipPresent { cfg with verbose := v } env cs) := by
  induction cs with
  | nil => exact ret _
  | cons c cs ih =>
    rintro w _ ⟨out', rfl, h⟩
    unfold Run.skipPresent
    refine bind ?_ (fun _ => ih) _ _ ⟨out', rfl, h⟩
    dsimp only
    split
    · exact bind (orPanic _) fun _ => insertRow he _
    · exact ret _

theorem performExec {env : Env σ} (he : Deaf env) (c : Candidate) (t : Text) (p : Bool) :
    Sim (Run.performExec cfg env c t p) (Run.performExec { cfg with verbose := v } env c t p) := by
  unfold Run.performExec
  refine bind (note _) fun _ => bind (ask fun w out => he.start w out _ _ _) fun pr => bind ?_ fun status => ?_
  · intro w w' h
    exact ⟨rfl, h⟩
  · cases status with
    | some success =>
      refine bind ?_ fun ran => ret _
      cases p
      · exact ret _
      · exact ask fun w out => he.post w out
    | none => exact bind (note _) fun _ => bind (ask fun w out => he.kill w out) fun _ => bind (ask fun w out => he.reap w out) fun _ => ret _

theorem oneTest {env : Env σ} (he : Deaf env) (c : Candidate) (e : Bool) (t : Text) :
    Sim (Run.oneTest cfg env c e t) (Run.oneTest { cfg with verbose := v } env c e t) := by
  unfold Run.oneTest
  refine bind (note _) fun _ => bind (ask fun w out => he.exec w out _ _) fun r => bind ?_ fun res => bind (note _) fun _ => ret _
  cases r with
  | some p => exact performExec he c t p
  | none =>
    cases e
    · exact panics
    · exact ret _

theorem runTests {env : Env σ} (he : Deaf env) (c : Candidate) (e : Bool) (ts : List Text) (acc : Option Outcome) :
    Sim (Run.runTests cfg env c e ts acc) (Run.runTests { cfg with verbose := v } env c e ts acc) := by
  induction ts generalizing acc with
  | nil => exact ret _
  | cons t ts ih =>
    unfold Run.runTests
    split
    · exact ih _
    · exact bind (oneTest he c e t) fun r => ih r

theorem withBackup {env : Env σ} (he : Deaf env) (f : SourceFile) {m m' : M σ α} (hm : Sim m m') :
    Sim (Run.withBackup env f m) (Run.withBackup env f m') := by
  unfold Run.withBackup
  refine bind (ask fun w out => he.backup w out _) fun _ => ?_
  rintro w _ ⟨out', rfl, h⟩
  refine finally_ hm (fun a b hab => ?_) _ _ ⟨out', rfl, h⟩
  obtain ⟨o2, rfl, h2⟩ := hab
  exact ⟨o2, rfl, h2⟩

theorem testAndRecord {env : Env σ} (he : Deaf env) (hv : cfg.verbose = false) (c : Candidate) (text : Text) (e : Bool) :
    Sim (Run.testAndRecord cfg env c text e) (Run.testAndRecord { cfg with verbose := true } env c text e) := by
  unfold Run.testAndRecord
  refine bind (runTests he c e _ _) fun outcome => bind (checkCtrlc he) fun _ => bind ?_ fun _ => updateProgress _ _
  cases outcome with
  | some o => exact emit he hv _
  | none => exact ret _

theorem removeAndTest {env : Env σ} (he : Deaf env) (hv : cfg.verbose = false) (c : Candidate) (text : Text) :
    Sim (Run.removeAndTest cfg env c text) (Run.removeAndTest { cfg with verbose := true } env c text) :=
  withBackup he _ (bind (orPanic _) fun _ => bind (writeFile he _ _) fun _ => testAndRecord he hv c text true)

theorem candidateBody {env : Env σ} (he : Deaf env) (hv : cfg.verbose = false) (c : Candidate) :
    Sim (Run.candidateBody cfg env c) (Run.candidateBody { cfg with verbose := true } env c) := by
  unfold Run.candidateBody
  refine bind (orPanic _) fun text => ?_
  rintro w _ ⟨out', rfl, h⟩
  dsimp only
  split
  · exact removeAndTest he hv c text _ _ ⟨out', rfl, h⟩
  · exact testAndRecord he hv c text false _ _ ⟨out', rfl, h⟩

theorem dropInstr {w w' : World σ} (h : Same w w') : Same (Run.dropInstr w) (Run.dropInstr w') := by
  obtain ⟨out', rfl, h⟩ := h
  unfold Run.dropInstr
  dsimp only
  split <;> exact ⟨out', rfl, h⟩

theorem oneCandidate {env : Env σ} (he : Deaf env) (hv : cfg.verbose = false) (c : Candidate) :
    Sim (Run.oneCandidate cfg env c) (Run.oneCandidate { cfg with verbose := true } env c) := by
  intro w w' h
  unfold Run.oneCandidate
  refine candidateBody he hv c _ _ ?_
  split
  · exact dropInstr h
  · exact h

theorem candidateLoop {env : Env σ} (he : Deaf env) (hv : cfg.verbose = false) (n : Nat) : ∀ cs : List Candidate, cs.length < n →
    Sim (Run.candidateLoop cfg env cs) (Run.candidateLoop { cfg with verbose := true } env cs) := by
  induction n with
  | zero => intro cs hn; cases hn
  | succ n ih =>
    intro cs hn
    rintro w _ ⟨out', rfl, h⟩
    rw [Run.candidateLoop, Run.candidateLoop]
    have hl := skipPast_length none cs w.past
    refine bind (skipPastM _) (fun _ => ?_) _ _ ⟨out', rfl, h⟩
    dsimp only
    split
    · exact ret _
    · rename_i c rest h1
      rw [h1] at hl
      refine bind (oneCandidate he hv _) fun _ => ih _ ?_
      simp at hl
      omega

theorem wraps {env : Env σ} (he : Deaf env) (cs : List Candidate) : Sim (Run.wraps env cs) (Run.wraps env cs) := by
  induction cs with
  | nil => exact ret _
  | cons c cs ih => exact bind (ask fun w out => he.wrap w out _) fun x => bind ih fun _ => ret _

theorem instrumentBody {env : Env σ} (he : Deaf env) (f : SourceFile) (cs : List Candidate) :
    Sim (Run.instrumentBody cfg env f cs) (Run.instrumentBody { cfg with verbose := v } env f cs) := by
  unfold Run.instrumentBody
  refine bind (ask fun w out => he.instrFile w out _ _) fun pre => bind (wraps he _) fun ws => bind (orPanic _) fun t =>
    bind (writeFile he _ _) fun _ => bind (note _) fun _ => bind (askTry fun w out => he.build w out _) fun r => ?_
  cases r with
  | ok _ => exact ret _
  | error _ => exact bind (note _) fun _ => bind (warnM _) fun _ => ret _

theorem instrumentStatements {env : Env σ} (he : Deaf env) (f : SourceFile) (cs : List Candidate) :
    Sim (Run.instrumentStatements cfg env f cs) (Run.instrumentStatements { cfg with verbose := v } env f cs) := by
  unfold Run.instrumentStatements
  refine bind (ask fun w out => he.backup w out _) fun _ => ?_
  rintro w _ ⟨out', rfl, h⟩
  obtain ⟨h1, h2⟩ := instrumentBody (cfg := cfg) (v := v) he f cs w _ ⟨out', rfl, h⟩
  dsimp only
  generalize Run.instrumentBody cfg env f cs w = x at h1 h2 ⊢
  generalize Run.instrumentBody { cfg with verbose := v } env f cs _ = y at h1 h2 ⊢
  obtain ⟨r, a⟩ := x
  obtain ⟨r', b⟩ := y
  cases h1
  obtain ⟨o2, h2, h3⟩ := h2
  dsimp only at h2 h3
  subst h2
  cases r with
  | ok b => cases b <;> exact ⟨rfl, o2, rfl, h3⟩
  | err e => exact ⟨rfl, o2, rfl, h3⟩
  | panic => exact ⟨rfl, o2, rfl, h3⟩
  | hang => exact ⟨rfl, o2, rfl, h3⟩

theorem oneFile {env : Env σ} (he : Deaf env) (hv : cfg.verbose = false) (f : SourceFile) (cs : List Candidate) :
    Sim (Run.oneFile cfg env f cs) (Run.oneFile { cfg with verbose := true } env f cs) := by
  unfold Run.oneFile
  refine bind (say _) fun _ => bind (note _) fun _ => bind (askTry fun w out => he.dryRun w out _) fun r => ?_
  cases r with
  | error _ =>
    exact bind (note _) fun _ => bind (warnM _) fun _ => bind (checkCtrlc he) fun _ => bind (skipPresent he cs) fun _ => updateProgress _ _
  | ok _ =>
    exact bind (checkCtrlc he) fun _ => bind (say _) fun _ =>
      finally_ (bind (instrumentStatements he f cs) fun _ => candidateLoop he hv _ cs (Nat.lt_succ_self _)) fun _ _ => dropInstr

theorem runFiles {env : Env σ} (he : Deaf env) (hv : cfg.verbose = false) (fcs : List (SourceFile × List Candidate)) :
    Sim (Run.runFiles cfg env fcs) (Run.runFiles { cfg with verbose := true } env fcs) := by
  induction fcs with
  | nil => exact ret _
  | cons p fcs ih =>
    obtain ⟨f, cs⟩ := p
    rintro w _ ⟨out', rfl, h⟩
    unfold Run.runFiles
    refine bind (skipPastM _) (fun _ => bind ?_ fun _ => ih) _ _ ⟨out', rfl, h⟩
    dsimp only
    split
    · exact ret _
    · exact oneFile he hv f _

end Sim

/-- A whole run, with or without `--verbose`. -/
theorem runWhole_verbose {cfg : Cfg} {env : Env σ} (he : Deaf env) (hv : cfg.verbose = false) (call : Call) (fcs : List (SourceFile × List Candidate))
    (file : DbFile) (w : World σ) :
    let x := runWhole call cfg env fcs file w
    let y := runWhole call { cfg with verbose := true } env fcs file w
    x.1 = y.1 ∧ x.2.1 = y.2.1 ∧ Same x.2.2 y.2.2 := by
  have h0 : ∀ l : List Line, Omits l l := fun l => by simpa using Omits.nil.append l
  simp only [runWhole]
  generalize pastInit call.noSqlite cfg.warn w.warns call.readable call.faults call.flags file = i
  obtain ⟨res, fl, ws, out⟩ := i
  cases res with
  | err e => exact ⟨rfl, rfl, _, rfl, h0 _⟩
  | panic => exact ⟨rfl, rfl, _, rfl, h0 _⟩
  | hang => exact ⟨rfl, rfl, _, rfl, h0 _⟩
  | ok past =>
    dsimp only
    generalize hw0 : ({ w with warns := ws, out := w.out ++ out, db := _, past } : World σ) = w0
    obtain ⟨h1, h2⟩ := Sim.runFiles (cfg := cfg) he hv fcs w0 w0 ⟨_, rfl, h0 _⟩
    generalize Run.runFiles cfg env fcs w0 = x at h1 h2 ⊢
    generalize Run.runFiles { cfg with verbose := true } env fcs w0 = y at h1 h2 ⊢
    obtain ⟨r, a⟩ := x
    obtain ⟨r', b⟩ := y
    cases h1
    obtain ⟨o2, h2, h3⟩ := h2
    dsimp only at h2 h3
    subst h2
    exact ⟨rfl, rfl, o2, rfl, h3⟩

end Necessist.Run
