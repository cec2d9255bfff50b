import Verif.Lemmas.Run
import Verif.Spec.Exec
/-! The results of tests have reasons, and a run hangs only if something outside does. -/
namespace Necessist.Run

variable {σ α β : Type}

/-- `m` keeps `J`, and if it hangs, then `K`. -/
def Sure (K : Prop) (J : World σ → Prop) (m : M σ α) : Prop := ∀ w, J w → J (m w).2 ∧ ((m w).1 = .hang → K)

namespace Sure
variable {K : Prop} {J : World σ → Prop}

theorem bind {m : M σ α} {k : α → M σ β} (h : Sure K J m) (h' : ∀ a, Sure K J (k a)) : Sure K J (Run.bind m k) := by
  intro w hw
  have := h w hw
  unfold Run.bind
  rcases hm : m w with ⟨r, w'⟩
  rw [hm] at this
  cases r with
  | ok a => exact h' a w' this.1
  | err e => exact ⟨this.1, nofun⟩
  | panic => exact ⟨this.1, nofun⟩
  | hang => exact ⟨this.1, fun _ => this.2 rfl⟩

theorem ret (a : α) : Sure K J (Run.ret a) := fun _ h => ⟨h, nofun⟩
theorem panics : Sure K J (Run.panics : M σ α) := fun _ h => ⟨h, nofun⟩
theorem fail (e : Err) : Sure K J (Run.fail e : M σ α) := fun _ h => ⟨h, nofun⟩
theorem orPanic (o : Option α) : Sure K J (Run.orPanic o) := by cases o <;> exact fun _ h => ⟨h, nofun⟩
theorem finally_ {m : M σ α} {c : World σ → World σ} (h : Sure K J m) (hc : ∀ w, J w → J (c w)) :
    Sure K J (Run.finally_ m c) := by
  intro w hw
  have := h w hw
  unfold Run.finally_
  rcases hm : m w with ⟨r, w'⟩
  rw [hm] at this
  cases r with
  | ok a => exact ⟨hc _ this.1, nofun⟩
  | err e => exact ⟨hc _ this.1, nofun⟩
  | panic => exact ⟨hc _ this.1, nofun⟩
  | hang => exact ⟨this.1, fun _ => this.2 rfl⟩

/-- … and its result satisfies `R`. -/
def With (K : Prop) (J : World σ → Prop) (m : M σ α) (R : α → Prop) : Prop :=
  ∀ w, J w → J (m w).2 ∧ (∀ a, (m w).1 = .ok a → R a) ∧ ((m w).1 = .hang → K)

theorem With.bind {m : M σ α} {k : α → M σ β} {R : α → Prop} {R' : β → Prop} (h : With K J m R) (h' : ∀ a, R a → With K J (k a) R') :
    With K J (Run.bind m k) R' := by
  intro w hw
  have := h w hw
  unfold Run.bind
  rcases hm : m w with ⟨r, w'⟩
  rw [hm] at this
  cases r with
  | ok a => exact h' a (this.2.1 a rfl) w' this.1
  | err e => exact ⟨this.1, nofun, nofun⟩
  | panic => exact ⟨this.1, nofun, nofun⟩
  | hang => exact ⟨this.1, nofun, fun _ => this.2.2 rfl⟩

theorem With.ret {R : α → Prop} (a : α) (h : R a) : With K J (Run.ret a) R := fun _ hw => ⟨hw, (by rintro _ ⟨⟩; exact h), nofun⟩

theorem with_ {m : M σ α} (h : Sure K J m) : With K J m fun _ => True := fun w hw => ⟨(h w hw).1, fun _ _ => trivial, (h w hw).2⟩
theorem With.sure {m : M σ α} {R : α → Prop} (h : With K J m R) : Sure K J m := fun w hw => ⟨(h w hw).1, (h w hw).2.2⟩
end Sure

namespace Just
variable {env : Env σ} {cfg : Cfg}

/-- All events have reasons. -/
def J (cfg : Cfg) (env : Env σ) (w : World σ) : Prop := ∀ s ∈ w.trace, Justified cfg env s.event

/-- The events without. -/
def Plain : Event → Prop
  | .kill _ _ | .tested _ _ _ => False
  | _ => True

theorem J.snoc {w : World σ} {e : Event} (h : J cfg env w) (he : Justified cfg env e) :
    J cfg env { w with trace := w.trace ++ [⟨e, w.fs⟩] } := by
  intro s hs
  rcases List.mem_append.1 hs with hs | hs
  · exact h s hs
  · rw [List.mem_singleton.1 hs]; exact he

local notation "Q" => Sure (Waits cfg env) (J cfg env)

theorem kNote' {e : Event} (he : Justified cfg env e) : Q (note e) := fun _ h => ⟨h.snoc he, nofun⟩
theorem kNote {e : Event} (he : Plain e) : Q (note e) := kNote' (by cases e <;> first | trivial | cases he)

theorem kSay (l : Line) : Q (say cfg l) := by
  intro w h
  unfold say
  dsimp only
  split <;> exact ⟨h, nofun⟩

theorem kAsk {f : World σ → Reply σ α} (hf : ∀ w, (f w).res = .hang → Waits cfg env) : Q (ask f) :=
  fun w h => ⟨h, hf w⟩

theorem kAskTry {f : World σ → Reply σ α} (hf : ∀ w, (f w).res = .hang → Waits cfg env) : Q (askTry f) := by
  intro w h
  have := hf w
  unfold askTry
  dsimp only
  cases hr : (f w).res <;> rw [hr] at this <;> first | exact ⟨h, fun _ => this rfl⟩ | exact ⟨h, nofun⟩

theorem kWarnM (c : WarnCall) : Q (warnM cfg c) := by
  intro w h
  unfold warnM
  rcases warnInternal cfg.warn w.warns c with ⟨r, st⟩
  cases r with
  | bail m => exact ⟨h, nofun⟩
  | silent => exact ⟨h, nofun⟩
  | print m => exact kSay _ _ h
  | panic => exact ⟨h, nofun⟩

theorem kUpdateProgress (mm : Option Mismatch) (n : Nat) : Q (updateProgress cfg mm n) := by
  refine .bind ?_ fun _ _ h => ⟨h, nofun⟩
  split
  · exact .ret _
  · exact kWarnM _
  · exact kWarnM _

theorem kSkipPastM (s : Skipped) : Q (skipPastM cfg s) :=
  fun _ h => kUpdateProgress _ _ _ h

theorem kCheckCtrlc : Q (checkCtrlc env) := by
  intro w h
  refine Sure.bind (J := J cfg env) (kNote (by exact trivial)) (fun _ => ?_) { w with ext := (env.ctrlc w).2 } h
  split
  · exact .fail _
  · exact .ret _

theorem kWriteFile (f : SourceFile) (t : Text) : Q (writeFile env f t) := by
  intro w h
  unfold writeFile
  rcases hw : env.write w f t with ⟨_ | _, ext⟩ <;> exact ⟨h, nofun⟩

theorem kInsertRow (r : Removal) : Q (insertRow env r) := by
  intro w h
  unfold insertRow
  rcases w.db with _ | rows
  · exact ⟨h, nofun⟩
  · refine Sure.bind (kAsk fun w => .insert w _) (fun url w h => ?_) w h
    dsimp only
    split
    · exact ⟨h, nofun⟩
    · exact kNote (cfg := cfg) (env := env) (e := .insert (Row.ofRemoval url r)) (by exact trivial)
        { w with db := some (rows ++ [Row.ofRemoval url r]) } h

theorem kEmit (r : Removal) : Q (emit cfg env r) := by
  refine .bind (kInsertRow r) fun _ => ?_
  unfold emitToConsole
  split
  · exact kSay _
  · exact .ret _

theorem kSkipPresent (cs : List Candidate) : Q (skipPresent cfg env cs) := by
  induction cs with
  | nil => exact .ret _
  | cons c cs ih =>
    intro w h
    refine Sure.bind (J := J cfg env) ?_ (fun _ => ih) w h
    split
    · exact .bind (.orPanic _) fun _ => kInsertRow _
    · exact .ret _

theorem outlives_iff (cfg : Cfg) (d : Option Nat) : Outlives cfg.timeout d ↔ ∃ l, timeoutMs cfg = some l ∧ ∀ x, d = some x → l < x := by
  unfold timeoutMs Outlives
  rcases cfg.timeout with _ | _ | n
  · simp
  · simp
  · constructor
    · rintro ⟨s, h1, h2⟩
      simp at h1
      obtain ⟨rfl, -⟩ := h1
      exact ⟨_, rfl, h2⟩
    · rintro ⟨l, h1, h2⟩
      simp only [Option.some.injEq] at h1
      exact ⟨n + 1, Or.inr ⟨rfl, by simp⟩, by rw [h1]; exact h2⟩

theorem waitFor_ok {p : Proc} {status} (h : waitFor (timeoutMs cfg) p = .ok status) :
    (∀ s, status = some s → s = p.success ∧ (∃ d, p.duration = some d) ∧ ¬ Outlives cfg.timeout p.duration) ∧
    (status = none → Outlives cfg.timeout p.duration) := by
  rw [outlives_iff]
  unfold waitFor at h
  split at h
  · cases h
  · split at h
    · rename_i l d h1 h2
      rw [h2, h1]
      split at h
      · rename_i hle
        cases h
        refine ⟨?_, nofun⟩
        rintro s ⟨⟩
        refine ⟨rfl, ⟨d, rfl⟩, ?_⟩
        rintro ⟨l', e, h'⟩
        cases e
        have := h' d rfl
        omega
      · rename_i hle
        cases h
        refine ⟨nofun, fun _ => ⟨l, rfl, ?_⟩⟩
        rintro x ⟨⟩
        omega
    · rename_i l h1 h2
      rw [h1, h2]
      cases h
      exact ⟨nofun, fun _ => ⟨l, rfl, nofun⟩⟩
    · rename_i d h1 h2
      rw [h1, h2]
      cases h
      refine ⟨?_, nofun⟩
      rintro s ⟨⟩
      exact ⟨rfl, ⟨d, rfl⟩, by rintro ⟨_, h, _⟩; cases h⟩
    · cases h

theorem waitFor_hang {p : Proc} (h : waitFor (timeoutMs cfg) p = .hang) : p.duration = none ∧ cfg.timeout = some 0 := by
  unfold waitFor at h
  split at h
  · cases h
  · split at h
    · split at h <;> cases h
    · cases h
    · cases h
    · rename_i h1 h2
      refine ⟨h2, ?_⟩
      unfold timeoutMs at h1
      split at h1
      · cases h1
      · assumption
      · cases h1

theorem wAsk {f : World σ → Reply σ α} (hf : ∀ w, (f w).res = .hang → Waits cfg env) :
    Sure.With (Waits cfg env) (J cfg env) (ask f) fun a => ∃ w, (f w).res = .ok a :=
  fun w h => ⟨h, fun _ ha => ⟨w, ha⟩, hf w⟩

/-- Executing a test: the result has a reason. -/
theorem wPerformExec (c : Candidate) (t : Text) (b : Bool) :
    Sure.With (Waits cfg env) (J cfg env) (performExec cfg env c t b) fun r => Justified cfg env (.tested c t r) := by
  refine .bind (Sure.with_ (kNote (by exact trivial))) fun _ _ => ?_
  refine .bind (wAsk fun w => .start w _ _ _) fun p hst => ?_
  have hst : Started cfg env c t p := hst
  refine .bind (R := fun status => waitFor (timeoutMs cfg) p = .ok status) ?_ fun status hw => ?_
  · exact fun w h => ⟨h, fun _ ha => ha, fun hh => .test c t p hst (waitFor_hang hh).1 (waitFor_hang hh).2⟩
  obtain ⟨k1, k2⟩ := waitFor_ok hw
  cases status with
  | some s =>
    obtain ⟨rfl, ⟨d, hd⟩, ho⟩ := k1 _ rfl
    refine .bind (R := fun ran => ran = false → ∃ w, (env.post w).res = .ok false) ?_ fun ran hr => .ret _ ?_
    · cases b with
      | false => exact .ret _ nofun
      | true => exact fun w h => ⟨h, (fun a ha hf => ⟨w, by rw [← hf]; exact ha⟩), .post w⟩
    · cases ran with
      | false => exact hr rfl
      | true =>
        cases hp : p.success with
        | true => exact ⟨p, d, hst, hd, ho, hp⟩
        | false => exact ⟨p, d, hst, hd, ho, hp⟩
  | none =>
    have ho := k2 rfl
    exact .bind (Sure.with_ (kNote' ⟨p, hst, ho⟩)) fun _ _ => .bind (Sure.with_ (kAsk .kill)) fun _ _ =>
      .bind (Sure.with_ (kAsk .reap)) fun _ _ => .ret _ ⟨p, hst, ho⟩

theorem kOneTest (c : Candidate) (ex : Bool) (t : Text) : Q (oneTest cfg env c ex t) := by
  refine .bind (kNote (by exact trivial)) fun _ => ?_
  refine Sure.With.sure (R := fun _ => True) (.bind (wAsk fun w => .exec w _ _) fun r hr => ?_)
  refine .bind (R := fun r => Justified cfg env (.tested c t r)) ?_ fun r hr => .bind (Sure.with_ (kNote' hr)) fun _ _ => .ret _ trivial
  cases r with
  | some b => exact wPerformExec c t b
  | none =>
    cases ex with
    | true => exact .ret _ hr
    | false => exact fun _ h => ⟨h, nofun, nofun⟩

theorem kRunTests (c : Candidate) (ex : Bool) (ts : List Text) (acc : Option Outcome) :
    Q (runTests cfg env c ex ts acc) := by
  induction ts generalizing acc with
  | nil => exact .ret _
  | cons t ts ih =>
    unfold runTests
    split
    · exact ih _
    · exact .bind (kOneTest c ex t) fun r => ih r

theorem kTestAndRecord (c : Candidate) (text : Text) (ex : Bool) :
    Q (testAndRecord cfg env c text ex) := by
  refine .bind (kRunTests _ _ _ _) fun o => .bind kCheckCtrlc fun _ => .bind ?_ fun _ => kUpdateProgress _ _
  cases o with
  | some o => exact kEmit _
  | none => exact .ret _

theorem kWithBackup {m : M σ α} (f : SourceFile) (h : Q m) : Q (withBackup env f m) := by
  refine .bind (kAsk fun w => .backup w f) fun _ w hw => ?_
  exact Sure.finally_ (c := fun w' => { w' with fs := upd w'.fs f (w.fs f) }) h (fun _ h => h) w hw

theorem J_dropInstr {w : World σ} (h : J cfg env w) : J cfg env (dropInstr w) := by
  unfold dropInstr
  split <;> exact h

theorem kOneCandidate (c : Candidate) : Q (oneCandidate cfg env c) := by
  intro w h
  have h' : J cfg env (if c.kind ≠ .statement then dropInstr w else w) := by
    split
    · exact J_dropInstr h
    · exact h
  refine Sure.bind (J := J cfg env) (.orPanic _) (fun text w h => ?_) _ h'
  split
  · refine kWithBackup _ ?_ w h
    exact .bind (.orPanic _) fun _ => .bind (kWriteFile _ _) fun _ => kTestAndRecord _ _ _
  · exact kTestAndRecord _ _ _ w h

theorem kCandidateLoop (cs : List Candidate) : Q (candidateLoop cfg env cs) := by
  suffices ∀ n cs, cs.length ≤ n → Q (candidateLoop cfg env cs) from this _ cs (Nat.le_refl _)
  intro n
  induction n with
  | zero =>
    intro cs hn w h
    unfold candidateLoop
    refine Sure.bind (kSkipPastM _) (fun _ => ?_) w h
    have := skipPast_length none cs w.past
    split
    · exact .ret _
    · rename_i hr; rw [hr] at this; simp at this; omega
  | succ n ih =>
    intro cs hn w h
    unfold candidateLoop
    refine Sure.bind (kSkipPastM _) (fun _ => ?_) w h
    have := skipPast_length none cs w.past
    split
    · exact .ret _
    · rename_i hr
      rw [hr] at this
      exact .bind (kOneCandidate _) fun _ => ih _ (by simp at this; omega)

theorem kWraps (cs : List Candidate) : Q (wraps env cs) := by
  induction cs with
  | nil => exact .ret _
  | cons c cs ih => exact .bind (kAsk fun w => .wrap w _) fun _ => .bind ih fun _ => .ret _

theorem kInstrumentStatements (f : SourceFile) (cs : List Candidate) :
    Q (instrumentStatements cfg env f cs) := by
  refine .bind (kAsk fun w => .backup w f) fun _ w h => ?_
  have hb : Q (instrumentBody cfg env f cs) := by
    refine .bind (kAsk fun w => .instrFile w _ _) fun _ => .bind (kWraps _) fun _ => .bind (.orPanic _) fun _ =>
      .bind (kWriteFile _ _) fun _ => .bind (kNote (by exact trivial)) fun _ => .bind (kAskTry fun w => .build w _) fun r => ?_
    cases r with
    | ok _ => exact .ret _
    | error _ => exact .bind (kNote (by exact trivial)) fun _ => .bind (kWarnM _) fun _ => .ret _
  have := hb w h
  rcases hi : instrumentBody cfg env f cs w with ⟨r, w'⟩
  rw [hi] at this
  cases r with
  | ok b => cases b <;> exact ⟨this.1, nofun⟩
  | err e => exact ⟨this.1, nofun⟩
  | panic => exact ⟨this.1, nofun⟩
  | hang => exact ⟨this.1, fun _ => this.2 rfl⟩

theorem kOneFile (f : SourceFile) (cs : List Candidate) : Q (oneFile cfg env f cs) := by
  refine .bind (kSay _) fun _ => .bind (kNote (by exact trivial)) fun _ => .bind (kAskTry fun w => .dryRun w f) fun r => ?_
  cases r with
  | error _ =>
    exact .bind (kNote (by exact trivial)) fun _ => .bind (kWarnM _) fun _ => .bind kCheckCtrlc fun _ =>
      .bind (kSkipPresent _) fun _ => kUpdateProgress _ _
  | ok _ =>
    exact .bind kCheckCtrlc fun _ => .bind (kSay _) fun _ =>
      .finally_ (.bind (kInstrumentStatements _ _) fun _ => kCandidateLoop _) fun w h => J_dropInstr h

theorem kRunFiles (fcs : List (SourceFile × List Candidate)) : Q (runFiles cfg env fcs) := by
  induction fcs with
  | nil => exact .ret _
  | cons x fcs ih =>
    obtain ⟨f, cs⟩ := x
    intro w h
    refine Sure.bind (J := J cfg env) (kSkipPastM _) (fun _ => .bind ?_ fun _ => ih) w h
    split
    · exact .ret _
    · exact kOneFile _ _

/-- However a run ends, all results have reasons; and it hangs only if something outside does. -/
theorem run (fcs : List (SourceFile × List Candidate)) (w : World σ) (h : J cfg env w) :
    J cfg env (runFiles cfg env fcs w).2 ∧ ((runFiles cfg env fcs w).1 = .hang → Waits cfg env) := kRunFiles fcs w h

end Just
end Necessist.Run
