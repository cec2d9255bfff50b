import Verif.Lemmas.Run
import Verif.Spec.Log
import Verif.Spec.Run
import Verif.Props.Text
import Verif.Lemmas.Span
/-! Proof that a run is described by a log. -/
namespace Necessist.Run

variable {σ α β : Type}

/-- The part of the world that the log describes. -/
structure Obs where
  db : Option (List Row)
  tested : List (Candidate × Text × Option Outcome)
  failed : List SourceFile
  printed : List Removal
  progress : Nat
  past : List Removal

/-- That part of a world. -/
def obs (w : World σ) : Obs := ⟨w.db, testedOf w.trace, failedOf w.trace, printedOf w.out, w.progress, w.past⟩

theorem testedOf_append (a b : List Snap) : testedOf (a ++ b) = testedOf a ++ testedOf b := List.filterMap_append
theorem failedOf_append (a b : List Snap) : failedOf (a ++ b) = failedOf a ++ failedOf b := List.filterMap_append
theorem printedOf_append (a b : List Line) : printedOf (a ++ b) = printedOf a ++ printedOf b := List.filterMap_append

/-- Does not change what the log describes. -/
def Silent (m : M σ α) : Prop := ∀ w, obs (m w).2 = obs w

theorem Silent.tri {m : M σ α} (h : Silent m) (o : Obs) :
    Tri (fun w => obs w = o) m (fun _ w => obs w = o) (fun _ w => obs w = o) (fun w => obs w = o) := by
  intro w hw
  have := h w
  rcases hm : m w with ⟨r, w'⟩
  rw [hm] at this
  have h2 : obs w' = o := this.trans hw
  cases r <;> exact h2

theorem Silent.bind {m : M σ α} {k : α → M σ β} (h1 : Silent m) (h2 : ∀ a, Silent (k a)) :
    Silent (Run.bind m k) := by
  intro w
  have := h1 w
  unfold Run.bind
  rcases hm : m w with ⟨r, w'⟩
  rw [hm] at this
  cases r with
  | ok a => exact (h2 a w').trans this
  | err e => exact this
  | panic => exact this
  | hang => exact this

theorem Silent.ret (a : α) : Silent (Run.ret a : M σ α) := fun _ => rfl
theorem Silent.panics : Silent (Run.panics : M σ α) := fun _ => rfl
theorem Silent.fail (e : Err) : Silent (Run.fail e : M σ α) := fun _ => rfl
theorem printedOf_warnings (out : List Line) (ms : List WarnMsg) : printedOf (out ++ ms.map .warning) = printedOf out := by
  rw [printedOf_append]
  have : printedOf (ms.map .warning) = [] := by
    unfold printedOf
    rw [List.filterMap_map]
    exact List.filterMap_eq_nil_iff.2 fun _ _ => rfl
  rw [this, List.append_nil]

theorem Silent.ask (f : World σ → Reply σ α) : Silent (Run.ask f) := fun w => by
  unfold Run.ask obs
  dsimp only
  rw [printedOf_warnings]
theorem Silent.askTry (f : World σ → Reply σ α) : Silent (Run.askTry f) := by
  intro w
  have : obs { w with warns := (f w).warns, out := w.out ++ (f w).said.map .warning, ext := (f w).ext } = obs w := by
    unfold obs
    dsimp only
    rw [printedOf_warnings]
  unfold Run.askTry
  dsimp only
  cases (f w).res <;> exact this
theorem Silent.orPanic (o : Option α) : Silent (Run.orPanic o : M σ α) := by
  cases o
  · exact Silent.panics
  · exact Silent.ret _
theorem Silent.say (cfg : Cfg) (l : Line) (h : ∀ r, l ≠ .removal r) : Silent (Run.say cfg l : M σ Unit) := by
  intro w
  unfold Run.say
  by_cases hq : cfg.warn.quiet = true
  · simp [hq]
  · have : printedOf [l] = [] := by
      cases l with
      | removal r => exact absurd rfl (h r)
      | _ => rfl
    simp [hq, obs, printedOf_append, this]
theorem Silent.note (e : Event) (h : ∀ c t r, e ≠ .tested c t r) (h' : ∀ f, e ≠ .dryRunFailed f) :
    Silent (Run.note e : M σ Unit) := by
  intro w
  have h1 : testedOf [⟨e, w.fs⟩] = [] := by
    cases e with
    | tested c t r => exact absurd rfl (h c t r)
    | _ => rfl
  have h2 : failedOf [⟨e, w.fs⟩] = [] := by
    cases e with
    | dryRunFailed f => exact absurd rfl (h' f)
    | _ => rfl
  simp [Run.note, obs, testedOf_append, failedOf_append, h1, h2]
theorem Silent.warnM (cfg : Cfg) (c : WarnCall) : Silent (Run.warnM cfg c : M σ Unit) := by
  intro w
  unfold Run.warnM
  rcases warnInternal cfg.warn w.warns c with ⟨r, st⟩
  cases r with
  | print m => exact Silent.say cfg _ (by simp) _
  | _ => rfl
theorem Silent.checkCtrlc (env : Env σ) : Silent (Run.checkCtrlc env) := by
  intro w
  unfold Run.checkCtrlc
  rcases env.ctrlc w with ⟨b, ext⟩
  exact Silent.bind (Silent.note _ (by simp) (by simp)) (fun _ => by
    cases b
    · exact Silent.ret ()
    · exact Silent.fail _) _
theorem Silent.writeFile (env : Env σ) (f : SourceFile) (t : Text) : Silent (Run.writeFile env f t) := by
  intro w
  unfold Run.writeFile
  rcases env.write w f t with ⟨_ | _, ext⟩ <;> rfl
theorem Silent.wraps (env : Env σ) (cs : List Candidate) : Silent (Run.wraps env cs) := by
  induction cs with
  | nil => exact Silent.ret _
  | cons c cs ih => exact Silent.bind (Silent.ask _) fun _ => Silent.bind ih fun _ => Silent.ret _

theorem Silent.instrumentBody (cfg : Cfg) (env : Env σ) (f : SourceFile) (cs : List Candidate) :
    Silent (Run.instrumentBody cfg env f cs) := by
  refine Silent.bind (Silent.ask _) fun _ => Silent.bind (Silent.wraps _ _) fun _ =>
    Silent.bind (Silent.orPanic _) fun _ => Silent.bind (Silent.writeFile _ _ _) fun _ =>
    Silent.bind (Silent.note _ (by simp) (by simp)) fun _ => Silent.bind (Silent.askTry _) fun r => ?_
  cases r with
  | ok _ => exact Silent.ret _
  | error _ => exact Silent.bind (Silent.note _ (by simp) (by simp)) fun _ => Silent.bind (Silent.warnM _ _) fun _ => Silent.ret _

theorem Silent.instrumentStatements (cfg : Cfg) (env : Env σ) (f : SourceFile) (cs : List Candidate) :
    Silent (Run.instrumentStatements cfg env f cs) := by
  refine Silent.bind (Silent.ask _) fun _ => ?_
  intro w
  have := Silent.instrumentBody cfg env f cs w
  dsimp only
  rcases hm : Run.instrumentBody cfg env f cs w with ⟨r, w'⟩
  rw [hm] at this
  rcases r with (_ | _) | _ | _ | _ <;> exact this

theorem Silent.performExec (cfg : Cfg) (env : Env σ) (c : Candidate) (t : Text) (b : Bool) :
    Silent (Run.performExec cfg env c t b) := by
  refine Silent.bind (Silent.note _ (by simp) (by simp)) fun _ => Silent.bind (Silent.ask _) fun p =>
    Silent.bind (fun w => rfl) fun status => ?_
  cases status with
  | some s => 
    refine Silent.bind ?_ fun _ => Silent.ret _
    cases b
    · exact Silent.ret _
    · exact Silent.ask _
  | none =>
    exact Silent.bind (Silent.note _ (by simp) (by simp)) fun _ => Silent.bind (Silent.ask _) fun _ =>
      Silent.bind (Silent.ask _) fun _ => Silent.ret _

/-- What happened between two observations is described by `log`, the results `pend` of tests of a candidate that was
not completed, the failed dry runs `fl`, and the progress made. -/
structure Logged (cfg : Cfg) (o : Obs) (log : List Entry) (pend : List (Candidate × Text × Option Outcome))
    (fl : List SourceFile) (n : Nat) (o' : Obs) : Prop where
  db : DbAdds (log.filterMap Entry.removal) o.db o'.db
  tested : o'.tested = o.tested ++ log.flatMap Entry.results ++ pend
  failed : o'.failed = o.failed ++ fl
  printed : o'.printed = o.printed ++ log.filterMap (Entry.printed cfg.warn.quiet cfg.verbose)
  progress : o'.progress = o.progress + n
  past : o'.past <:+ o.past
  ok : ∀ e ∈ log, e.Ok cfg.src o.db.isSome o.past
  sk : ∀ e ∈ log, e.isSkipped = true → e.cand.span.file ∈ o'.failed

theorem DbAdds.refl (a : Option (List Row)) : DbAdds [] a a := by
  cases a with
  | none => trivial
  | some a => exact ⟨⟨[], rfl, by simp⟩, id⟩

theorem DbAdds.trans {r1 r2 : List Removal} {a b c : Option (List Row)} (h1 : DbAdds r1 a b) (h2 : DbAdds r2 b c) :
    DbAdds (r1 ++ r2) a c := by
  match a, b, c with
  | none, none, none => trivial
  | some a, some b, some c =>
    obtain ⟨⟨u1, l1, rfl⟩, n1⟩ := h1
    obtain ⟨⟨u2, l2, rfl⟩, n2⟩ := h2
    refine ⟨⟨u1 ++ u2, by simp [l1, l2], ?_⟩, fun h => n2 (n1 h)⟩
    rw [List.zipWith_append l1, List.append_assoc]
  | none, some _, _ => exact h1.elim
  | some _, none, _ => exact h1.elim
  | none, none, some _ => exact h2.elim
  | some _, some _, none => exact h2.elim

theorem DbAdds.isSome {r : List Removal} {a b : Option (List Row)} (h : DbAdds r a b) : b.isSome = a.isSome := by
  match a, b with
  | none, none => rfl
  | some _, some _ => rfl
  | none, some _ => exact h.elim
  | some _, none => exact h.elim

theorem Logged.refl (cfg : Cfg) (o : Obs) : Logged cfg o [] [] [] 0 o :=
  ⟨DbAdds.refl _, by simp, by simp, by simp, rfl, List.suffix_refl _, by simp, by simp⟩

theorem Entry.Ok.mono {src : SourceFile → Text} {b : Bool} {p p' : List Removal} (h : ∀ r ∈ p, r ∈ p') {e : Entry}
    (he : e.Ok src b p) : e.Ok src b p' := by
  cases e with
  | past c => obtain ⟨r, hr, h1⟩ := he; exact ⟨r, h r hr, h1⟩
  | skipped => exact he
  | tested => exact he

theorem Logged.trans {cfg : Cfg} {o o1 o2 : Obs} {l1 l2 p2 f1 f2 n1 n2} (h1 : Logged cfg o l1 [] f1 n1 o1)
    (h2 : Logged cfg o1 l2 p2 f2 n2 o2) : Logged cfg o (l1 ++ l2) p2 (f1 ++ f2) (n1 + n2) o2 where
  db := by rw [List.filterMap_append]; exact h1.db.trans h2.db
  tested := by rw [h2.tested, h1.tested]; simp [List.append_assoc]
  failed := by rw [h2.failed, h1.failed, List.append_assoc]
  printed := by rw [h2.printed, h1.printed, List.filterMap_append, List.append_assoc]
  progress := by rw [h2.progress, h1.progress, Nat.add_assoc]
  past := h2.past.trans h1.past
  ok := by
    intro e he
    rcases List.mem_append.1 he with he | he
    · exact h1.ok e he
    · have := h2.ok e he
      rw [h1.db.isSome] at this
      exact this.mono fun r hr => h1.past.subset hr
  sk := by
    intro e he hs
    rcases List.mem_append.1 he with he | he
    · rw [h2.failed]; exact List.mem_append_left _ (h1.sk e he hs)
    · exact h2.sk e he hs

/-- The results of uncompleted work belong to the next candidate. -/
def Pending (rest : List Candidate) (pend : List (Candidate × Text × Option Outcome)) : Prop :=
  ∀ p ∈ pend, ∃ c rest', rest = c :: rest' ∧ p.1 = c ∧ p.2.1 ∈ c.tests

/-- What is known if the processing of the candidates `cs` was cut short. -/
def Cut (cfg : Cfg) (cs : List Candidate) (o o' : Obs) : Prop :=
  ∃ log pend fl n rest, cs = log.map Entry.cand ++ rest ∧ Logged cfg o log pend fl n o' ∧ Pending rest pend

theorem Cut.refl (cfg : Cfg) (cs : List Candidate) (o : Obs) : Cut cfg cs o o :=
  ⟨[], [], [], 0, cs, rfl, Logged.refl cfg o, by simp [Pending]⟩

theorem Cut.after {cfg : Cfg} {o o1 o2 : Obs} {l1 f1 n1 cs} (h1 : Logged cfg o l1 [] f1 n1 o1)
    (h2 : Cut cfg cs o1 o2) : Cut cfg (l1.map Entry.cand ++ cs) o o2 := by
  obtain ⟨log, pend, fl, n, rest, rfl, h, hp⟩ := h2
  exact ⟨l1 ++ log, pend, f1 ++ fl, n1 + n, rest, by simp, h1.trans h, hp⟩

theorem Cut.extend {cfg : Cfg} {o o' : Obs} {cs} (h : Cut cfg cs o o') (more : List Candidate) :
    Cut cfg (cs ++ more) o o' := by
  obtain ⟨log, pend, fl, n, rest, rfl, h, hp⟩ := h
  refine ⟨log, pend, fl, n, rest ++ more, by simp, h, ?_⟩
  intro p hp'
  obtain ⟨c, rest', rfl, h1, h2⟩ := hp p hp'
  exact ⟨c, rest' ++ more, rfl, h1, h2⟩

/-- The observation is `o`. -/
def At (o : Obs) (w : World σ) : Prop := obs w = o

theorem Silent.at {m : M σ α} (h : Silent m) (o : Obs) : Tri (At o) m (fun _ => At o) (fun _ => At o) (At o) := h.tri o

theorem log_oneTest (cfg : Cfg) (env : Env σ) (c : Candidate) (ex : Bool) (t : Text) (o : Obs) :
    Tri (At o) (oneTest cfg env c ex t) (fun r => At { o with tested := o.tested ++ [(c, t, r)] })
      (fun _ => At o) (At o) := by
  refine Tri.bind ((Silent.note _ (by simp) (by simp)).at o) fun _ => ?_
  refine Tri.bind ((Silent.ask _).at o) fun r => ?_
  refine Tri.bind (R := fun _ => At o) ?_ fun res => ?_
  · cases r with
    | some b => exact (Silent.performExec cfg env c t b).at o
    | none =>
      cases ex
      · exact Silent.panics.at o
      · exact (Silent.ret _).at o
  · refine Tri.bind (R := fun _ => At { o with tested := o.tested ++ [(c, t, res)] }) ?_ fun _ => Tri.ret _ fun _ h => h
    rintro w rfl
    show obs _ = _
    simp [obs, testedOf_append, failedOf_append, testedOf, failedOf]

theorem Verdict.cons {ts results v} (t : Text) (h : Verdict ts results v) :
    Verdict (t :: ts) ((t, some .passed) :: results) v := by
  cases h with
  | allPassed => exact Verdict.allPassed (t :: ts)
  | firstNotPassed before t' after _ h => exact Verdict.firstNotPassed (t :: before) t' after v h

theorem runTests_done (cfg : Cfg) (env : Env σ) (c : Candidate) (ex : Bool) (ts : List Text) (acc : Option Outcome)
    (h : acc ≠ some .passed) : runTests cfg env c ex ts acc = (ret acc : M σ _) := by
  induction ts with
  | nil => rfl
  | cons t ts ih => unfold runTests; rw [if_pos h, ih]

/-- Some of the tests `ts` of `c` have been run since `o`. -/
def Partly (c : Candidate) (ts : List Text) (o : Obs) (w : World σ) : Prop :=
  ∃ results : List (Text × Option Outcome), (∀ r ∈ results, r.1 ∈ ts) ∧
    At { o with tested := o.tested ++ results.map fun r => (c, r.1, r.2) } w

theorem log_runTests (cfg : Cfg) (env : Env σ) (c : Candidate) (ex : Bool) (ts : List Text) (o : Obs) :
    Tri (At o) (runTests cfg env c ex ts (some .passed))
      (fun v w => ∃ results, Verdict ts results v ∧
        At { o with tested := o.tested ++ results.map fun r => (c, r.1, r.2) } w)
      (fun _ => Partly c ts o) (Partly c ts o) := by
  induction ts generalizing o with
  | nil => exact Tri.ret _ fun w h => ⟨[], Verdict.allPassed [], by simpa using h⟩
  | cons t ts ih =>
    unfold runTests
    rw [if_neg (by simp)]
    have h0 : ∀ w : World σ, At o w → Partly c (t :: ts) o w :=
      fun w h => ⟨[], by simp, by simpa using h⟩
    refine Tri.bind ((log_oneTest cfg env c ex t o).exits (fun _ => h0) h0) fun r => ?_
    by_cases hr : r = some .passed
    · subst hr
      have hx : ∀ w : World σ, Partly c ts { o with tested := o.tested ++ [(c, t, some .passed)] } w →
          Partly c (t :: ts) o w := by
        rintro w ⟨results, h1, h2⟩
        refine ⟨(t, some .passed) :: results, ?_, by simpa using h2⟩
        intro r hr
        rcases List.mem_cons.1 hr with rfl | hr
        · exact List.mem_cons_self
        · exact List.mem_cons_of_mem _ (h1 r hr)
      refine (ih _).weaken (fun _ h => h) ?_ (fun _ w h => hx w h) (fun w h => hx w h)
      rintro v w ⟨results, h1, h2⟩
      exact ⟨(t, some .passed) :: results, h1.cons t, by simpa using h2⟩
    · rw [runTests_done _ _ _ _ _ _ hr]
      exact Tri.ret _ fun w h => ⟨[(t, r)], Verdict.firstNotPassed [] t ts r hr, by simpa using h⟩

theorem log_insertRow (env : Env σ) (r : Removal) (o : Obs) :
    Tri (At o) (insertRow env r) (fun _ w => ∃ db', DbAdds [r] o.db db' ∧ At { o with db := db' } w)
      (fun _ => At o) (At o) := by
  rintro w hw
  have hdb : o.db = w.db := by rw [← hw]; rfl
  unfold insertRow
  rcases hd : w.db with _ | rows
  · refine ⟨none, ?_, ?_⟩
    · rw [hdb, hd]; trivial
    · rw [← hd, ← hdb]; exact hw
  · refine Tri.bind ((Silent.ask _).at o) (fun url => ?_) w hw
    intro w hw
    dsimp only
    by_cases hk : (rows.any fun x => x.span == (Row.ofRemoval url r).span) = true
    · rw [if_pos hk]; exact hw
    · rw [if_neg hk]
      refine ⟨some (rows ++ [Row.ofRemoval url r]), ?_, ?_⟩
      · rw [hdb, hd]
        refine ⟨⟨[url], rfl, rfl⟩, fun hn => ?_⟩
        rw [List.map_append, List.nodup_append]
        refine ⟨hn, by simp, ?_⟩
        intro a ha b hb he
        subst he
        obtain ⟨x, hx, rfl⟩ := List.mem_map.1 ha
        refine hk (List.any_eq_true.2 ⟨x, hx, ?_⟩)
        have hb' : x.span = (Row.ofRemoval url r).span := by simpa using hb
        simp [hb']
      · have := Silent.note (σ := σ) (.insert (Row.ofRemoval url r)) (by simp) (by simp)
          { w with db := some (rows ++ [Row.ofRemoval url r]) }
        exact this.trans (by rw [← hw]; rfl)

/-- What is printed for a removal. -/
def shown (cfg : Cfg) (r : Removal) : List Removal :=
  if cfg.warn.quiet = false ∧ (cfg.verbose = true ∨ r.outcome = .passed) then [r] else []

theorem log_emit (cfg : Cfg) (env : Env σ) (r : Removal) (o : Obs) :
    Tri (At o) (emit cfg env r)
      (fun _ w => ∃ db', DbAdds [r] o.db db' ∧ At { o with db := db', printed := o.printed ++ shown cfg r } w)
      (fun _ => At o) (At o) := by
  refine Tri.bind (log_insertRow env r o) fun _ => ?_
  rintro w ⟨db', h1, hw⟩
  unfold emitToConsole
  by_cases hq : cfg.warn.quiet = true
  · simp only [hq, Bool.not_true, Bool.false_and]
    refine ⟨db', h1, ?_⟩
    have : shown cfg r = [] := by simp [shown, hq]
    rw [this, List.append_nil]
    exact hw
  · have hq' : cfg.warn.quiet = false := by simpa using hq
    by_cases hv : cfg.verbose = true ∨ r.outcome = .passed
    · have hb : (!cfg.warn.quiet && (cfg.verbose || r.outcome == .passed)) = true := by
        rcases hv with hv | hv <;> simp [hq', hv]
      rw [if_pos hb]
      refine ⟨db', h1, ?_⟩
      have hs : shown cfg r = [r] := by unfold shown; rw [if_pos ⟨hq', hv⟩]
      rw [hs]
      have hw' : obs w = _ := hw
      have e1 : printedOf w.out = o.printed := by
        have := congrArg Obs.printed hw'; exact this
      show obs _ = _
      simp only [hq', Bool.false_eq_true, if_false]
      unfold obs at hw' ⊢
      simp only [printedOf_append, e1]
      injection hw' with a1 a2 a3 a4 a5 a6
      simp [a1, a2, a3, a5, a6, printedOf]
    · have hb : ¬ (!cfg.warn.quiet && (cfg.verbose || r.outcome == .passed)) = true := by
        simpa [hq'] using hv
      rw [if_neg hb]
      refine ⟨db', h1, ?_⟩
      have : shown cfg r = [] := by unfold shown; rw [if_neg (fun h => hv h.2)]
      rw [this, List.append_nil]
      exact hw

/-- Setting the progress. -/
theorem log_updateProgress (cfg : Cfg) (mm : Option Mismatch) (n : Nat) (o : Obs) :
    Tri (At o) (updateProgress cfg mm n) (fun _ => At { o with progress := o.progress + n })
      (fun _ => At o) (At (σ := σ) o) := by
  refine Tri.bind (R := fun _ => At o) ?_ fun _ => ?_
  · rcases mm with _ | (r | r)
    · exact (Silent.ret ()).at o
    · exact (Silent.warnM cfg _).at o
    · exact (Silent.warnM cfg _).at o
  · rintro w rfl; rfl

theorem log_testAndRecord (cfg : Cfg) (env : Env σ) (c : Candidate) (text : Text) (ex : Bool) (o : Obs)
    (ht : HasText cfg.src c text) :
    Tri (At o) (testAndRecord cfg env c text ex)
      (fun _ w => ∃ e : Entry, e.cand = c ∧ e.isTested = true ∧ Logged cfg o [e] [] [] 1 (obs w))
      (fun _ w => Cut cfg [c] o (obs w)) (fun w => Cut cfg [c] o (obs w)) := by
  have hcut : ∀ w : World σ, Partly c c.tests o w → Cut cfg [c] o (obs w) := by
    rintro w ⟨results, h1, h2⟩
    refine ⟨[], results.map fun r => (c, r.1, r.2), [], 0, [c], rfl, ?_, ?_⟩
    · rw [show obs w = _ from h2]
      exact ⟨DbAdds.refl _, by simp, by simp, by simp, rfl, List.suffix_refl _, by simp, by simp⟩
    · intro p hp
      obtain ⟨r, hr, rfl⟩ := List.mem_map.1 hp
      exact ⟨c, [], rfl, rfl, h1 r hr⟩
  refine Tri.bind ((log_runTests cfg env c ex c.tests o).exits (fun _ w h => hcut w h) (fun w h => hcut w h)) fun v => ?_
  rintro w ⟨results, hv, hw⟩
  have hmem : ∀ r ∈ results, r.1 ∈ c.tests := by
    generalize c.tests = ts at hv
    cases hv with
    | allPassed =>
      intro r hr
      obtain ⟨t, ht, rfl⟩ := List.mem_map.1 hr
      exact ht
    | firstNotPassed before t after _ h =>
      intro r hr
      rcases List.mem_append.1 hr with hr | hr
      · obtain ⟨t, ht, rfl⟩ := List.mem_map.1 hr
        simp [ht]
      · simp [List.mem_singleton.1 hr]
  let o1 : Obs := { o with tested := o.tested ++ results.map fun r => (c, r.1, r.2) }
  have hc1 : ∀ w : World σ, At o1 w → Cut cfg [c] o (obs w) := fun w h => hcut w ⟨results, hmem, h⟩
  refine Tri.bind (P := At o1) (((Silent.checkCtrlc env).at o1).exits (fun _ => hc1) hc1) (fun _ => ?_) w hw
  cases v with
  | none =>
    refine Tri.bind (R := fun _ => At o1) (Tri.ret _ fun _ h => h) fun _ => ?_
    refine (log_updateProgress cfg none 1 o1).weaken (fun _ h => h) ?_ (fun _ => hc1) hc1
    intro _ w hw
    refine ⟨.tested c text results none, rfl, rfl, ?_⟩
    rw [show obs w = _ from hw]
    exact ⟨DbAdds.refl _, by simp [Entry.results, o1], by simp [o1], by simp [Entry.printed, o1], rfl,
      List.suffix_refl _, by simpa [Entry.Ok] using ⟨ht, hv⟩, by simp [Entry.isSkipped]⟩
  | some out =>
    refine Tri.bind ((log_emit cfg env ⟨c.span, text, out⟩ o1).exits (fun _ => hc1) hc1) fun _ => ?_
    rintro w ⟨db', hdb, hw⟩
    let o2 : Obs := { o1 with db := db', printed := o1.printed ++ shown cfg ⟨c.span, text, out⟩ }
    have := log_updateProgress (σ := σ) cfg none 1 o2 w hw
    have hup : updateProgress cfg none 1 w = (.ok (), { w with progress := w.progress + 1 }) := rfl
    rw [hup] at this ⊢
    refine ⟨.tested c text results (some out), rfl, rfl, ?_⟩
    rw [show obs _ = _ from this]
    refine ⟨hdb, by simp [Entry.results, o2, o1], by simp [o2, o1], ?_, rfl,
      List.suffix_refl _, by simpa [Entry.Ok] using ⟨ht, hv⟩, by simp [Entry.isSkipped]⟩
    simp only [o2, o1, shown, Entry.printed, List.filterMap_cons, List.filterMap_nil]
    split <;> simp_all

theorem sourceText?_hasText {cfg : Cfg} {c : Candidate} {text : Text}
    (h : sourceText? (cfg.src c.span.file) c.span.start c.span.stop = some text) : HasText cfg.src c text := by
  rw [C04_reported_text_is_removed_text, Option.map_eq_some_iff] at h
  obtain ⟨⟨txt, out⟩, h, rfl⟩ := h
  obtain ⟨pre, suf, h1, -⟩ := (C04_remove_exact _ _ _ _ _).1 h
  exact ⟨pre, suf, h1⟩

theorem Silent.cut {cfg : Cfg} {m : M σ α} (h : Silent m) (o : Obs) (cs : List Candidate) :
    Tri (At o) m (fun _ => At o) (fun _ w => Cut cfg cs o (obs w)) (fun w => Cut cfg cs o (obs w)) :=
  (h.at o).exits (fun _ w h => by rw [show obs w = o from h]; exact Cut.refl _ _ _)
    (fun w h => by rw [show obs w = o from h]; exact Cut.refl _ _ _)

/-- `orPanic` succeeded. -/
theorem tri_orPanic {P : World σ → Prop} {E : Option Err → World σ → Prop} {H : World σ → Prop} (x : Option α)
    (h : ∀ w, P w → E none w) : Tri P (orPanic x) (fun a w => x = some a ∧ P w) E H := by
  cases x with
  | none => exact Tri.panics h
  | some a => exact Tri.ret a fun _ h => ⟨rfl, h⟩

/-- What is known of a candidate that has been dealt with by testing. -/
def DoneOne (cfg : Cfg) (c : Candidate) (o o' : Obs) : Prop :=
  ∃ e : Entry, e.cand = c ∧ e.isTested = true ∧ Logged cfg o [e] [] [] 1 o'

theorem log_candidateBody (cfg : Cfg) (env : Env σ) (c : Candidate) (o : Obs) :
    Tri (At o) (candidateBody cfg env c) (fun _ w => DoneOne cfg c o (obs w))
      (fun _ w => Cut cfg [c] o (obs w)) (fun w => Cut cfg [c] o (obs w)) := by
  have hcut : ∀ w : World σ, At o w → Cut cfg [c] o (obs w) := fun w h => by
    rw [show obs w = o from h]; exact Cut.refl _ _ _
  refine Tri.bind (tri_orPanic _ hcut) fun text => ?_
  rintro w ⟨ht, hw⟩
  have ht := sourceText?_hasText ht
  dsimp only
  split
  · refine Tri.bind (Silent.cut (Silent.ask _) o [c]) (fun _ => ?_) w hw
    intro w hw
    refine Tri.finally (P := At o) (Q := fun _ w => DoneOne cfg c o (obs w))
      (E := fun _ w => Cut cfg [c] o (obs w)) ?_ (fun _ w h => h) (fun _ w h => h) w hw
    refine Tri.bind (Silent.cut (Silent.orPanic _) o [c]) fun x => ?_
    refine Tri.bind (Silent.cut (Silent.writeFile env _ _) o [c]) fun _ => ?_
    exact log_testAndRecord cfg env c text true o ht
  · exact log_testAndRecord cfg env c text false o ht w hw

theorem obs_dropInstr (w : World σ) : obs (dropInstr w) = obs w := by
  unfold dropInstr
  rcases w.instr with _ | ⟨f, t⟩ <;> rfl

theorem log_oneCandidate (cfg : Cfg) (env : Env σ) (c : Candidate) (o : Obs) :
    Tri (At o) (oneCandidate cfg env c) (fun _ w => DoneOne cfg c o (obs w))
      (fun _ w => Cut cfg [c] o (obs w)) (fun w => Cut cfg [c] o (obs w)) := by
  intro w hw
  refine log_candidateBody cfg env c o _ ?_
  split
  · exact (obs_dropInstr w).trans hw
  · exact hw

theorem skipPast_spec (mm cs past) : ∃ pre, cs = pre ++ (skipPast mm cs past).rest ∧
    pre.length = (skipPast mm cs past).n ∧ (skipPast mm cs past).past <:+ past ∧
    ∀ c ∈ pre, ∃ r ∈ past, r.span = c.span := by
  fun_induction skipPast mm cs past with
  | case1 mm past => exact ⟨[], by simp, rfl, List.suffix_refl _, by simp⟩
  | case2 mm c cs => exact ⟨[], by simp, rfl, List.suffix_refl _, by simp⟩
  | case3 mm c cs r past h => exact ⟨[], by simp, rfl, List.suffix_refl _, by simp⟩
  | case4 mm c cs r past h s ih =>
    obtain ⟨pre, h1, h2, h3, h4⟩ := ih
    refine ⟨c :: pre, ?_, by simp [s, h2], h3.trans (List.suffix_cons _ _), ?_⟩
    · simp only [List.cons_append]; rw [← h1]
    · intro c' hc'
      rcases List.mem_cons.1 hc' with rfl | hc'
      · exact ⟨r, by simp, ((Span.cmp_eq_iff _ _).1 h).symm⟩
      · obtain ⟨r', h5, h6⟩ := h4 c' hc'
        exact ⟨r', by simp [h5], h6⟩
  | case5 mm c cs r past h ih =>
    obtain ⟨pre, h1, h2, h3, h4⟩ := ih
    refine ⟨pre, h1, h2, h3.trans (List.suffix_cons _ _), ?_⟩
    intro c' hc'
    obtain ⟨r', h5, h6⟩ := h4 c' hc'
    exact ⟨r', by simp [h5], h6⟩

/-- Passing over: the candidates passed over are logged. -/
theorem log_skip (cfg : Cfg) (cs : List Candidate) (w : World σ) :
    Post (fun _ w' => ∃ pre : List Candidate, cs = pre ++ (skipPast none cs w.past).rest ∧
        Logged cfg (obs w) (pre.map .past) [] [] pre.length (obs w'))
      (fun _ w' => Cut cfg cs (obs w) (obs w')) (fun w' => Cut cfg cs (obs w) (obs w'))
      (skipPastM cfg (skipPast none cs w.past) w) := by
  obtain ⟨pre, h1, h2, h3, h4⟩ := skipPast_spec none cs w.past
  have hok : ∀ e ∈ pre.map Entry.past, e.Ok cfg.src (obs w).db.isSome (obs w).past := by
    intro e he
    obtain ⟨c, hc, rfl⟩ := List.mem_map.1 he
    exact h4 c hc
  have hsk : ∀ (fl : List SourceFile), ∀ e ∈ pre.map Entry.past, e.isSkipped = true → e.cand.span.file ∈ fl := by
    intro fl e he hs
    obtain ⟨c, hc, rfl⟩ := List.mem_map.1 he
    simp [Entry.isSkipped] at hs
  have hr : (pre.map Entry.past).filterMap Entry.removal = [] := by
    rw [List.filterMap_map]; exact List.filterMap_eq_nil_iff.2 fun _ _ => rfl
  have hp : (pre.map Entry.past).filterMap (Entry.printed cfg.warn.quiet cfg.verbose) = [] := by
    rw [List.filterMap_map]; exact List.filterMap_eq_nil_iff.2 fun _ _ => rfl
  have ht : (pre.map Entry.past).flatMap Entry.results = [] := by
    rw [List.flatMap_map]; exact List.flatMap_eq_nil_iff.2 fun _ _ => rfl
  have hcm : cs = (pre.map Entry.past).map Entry.cand ++ (skipPast none cs w.past).rest := by
    rw [List.map_map, show (Entry.cand ∘ Entry.past) = id from rfl, List.map_id]; exact h1
  let o1 : Obs := { obs w with past := (skipPast none cs w.past).past }
  have h0 : At o1 { w with past := (skipPast none cs w.past).past } := rfl
  have hcut : ∀ w' : World σ, At o1 w' → Cut cfg cs (obs w) (obs w') := by
    intro w' hw'
    refine ⟨pre.map .past, [], [], 0, (skipPast none cs w.past).rest, hcm, ?_, by simp [Pending]⟩
    rw [show obs w' = o1 from hw']
    exact ⟨by rw [hr]; exact DbAdds.refl _, by simp [ht, o1], by simp [o1], by simp [hp, o1], rfl, h3, hok, hsk _⟩
  refine ((log_updateProgress cfg (skipPast none cs w.past).mismatch (skipPast none cs w.past).n o1).weaken
    (fun _ h => h) (fun _ w' h => ?_) (fun _ w' h => hcut w' h) (fun w' h => hcut w' h)) _ h0
  refine ⟨pre, h1, ?_⟩
  rw [show obs w' = _ from h]
  exact ⟨by rw [hr]; exact DbAdds.refl _, by simp [ht, o1], by simp [o1], by simp [hp, o1], by simp [h2, o1], h3, hok,
    hsk _⟩

/-- What is known when the candidates `cs` have all been dealt with. -/
def DoneAll (cfg : Cfg) (cs : List Candidate) (fl : List SourceFile) (q : Entry → Prop) (o o' : Obs) : Prop :=
  ∃ log, log.map Entry.cand = cs ∧ Logged cfg o log [] fl log.length o' ∧ ∀ e ∈ log, q e

theorem DoneAll.trans {cfg : Cfg} {c1 c2 f1 f2 q o o1 o2} (h1 : DoneAll cfg c1 f1 q o o1)
    (h2 : DoneAll cfg c2 f2 q o1 o2) : DoneAll cfg (c1 ++ c2) (f1 ++ f2) q o o2 := by
  obtain ⟨l1, e1, g1, q1⟩ := h1
  obtain ⟨l2, e2, g2, q2⟩ := h2
  refine ⟨l1 ++ l2, by simp [e1, e2], ?_, ?_⟩
  · rw [List.length_append]; exact g1.trans g2
  · intro e he
    rcases List.mem_append.1 he with he | he
    · exact q1 e he
    · exact q2 e he

theorem DoneAll.cut {cfg : Cfg} {c1 c2 f1 q o o1 o2} (h1 : DoneAll cfg c1 f1 q o o1) (h2 : Cut cfg c2 o1 o2) :
    Cut cfg (c1 ++ c2) o o2 := by
  obtain ⟨l1, e1, g1, -⟩ := h1
  rw [← e1]
  exact Cut.after g1 h2

theorem DoneAll.refl (cfg : Cfg) (q : Entry → Prop) (o : Obs) : DoneAll cfg [] [] q o o :=
  ⟨[], rfl, Logged.refl cfg o, by simp⟩

theorem log_candidateLoop (cfg : Cfg) (env : Env σ) (cs : List Candidate) (o : Obs) :
    Tri (At o) (candidateLoop cfg env cs) (fun _ w => DoneAll cfg cs [] (fun e => e.isSkipped = false) o (obs w))
      (fun _ w => Cut cfg cs o (obs w)) (fun w => Cut cfg cs o (obs w)) := by
  let P : List Candidate → World σ → Prop := fun rest w => ∃ done, cs = done ++ rest ∧
    DoneAll cfg done [] (fun e => e.isSkipped = false) o (obs w)
  have hpre : ∀ w : World σ, At o w → P cs w :=
    fun w h => ⟨[], rfl, by rw [show obs w = o from h]; exact DoneAll.refl _ _ _⟩
  refine (Tri.candidateLoop (P := P) ?_ ?_ ?_ cs).pre hpre
  · rintro rest w ⟨done, rfl, hd⟩
    have := log_skip cfg rest w
    rcases hm : skipPastM cfg (skipPast none rest w.past) w with ⟨r, w'⟩
    rw [hm] at this
    cases r with
    | ok a =>
      obtain ⟨pre, h1, h2⟩ := this
      refine ⟨done ++ pre, by rw [List.append_assoc, ← h1], ?_⟩
      refine DoneAll.trans (f2 := []) hd ⟨pre.map .past, ?_, by simpa using h2, ?_⟩
      · rw [List.map_map, show (Entry.cand ∘ Entry.past) = id from rfl, List.map_id]
      · intro e he
        obtain ⟨c, -, rfl⟩ := List.mem_map.1 he
        rfl
    | err e => exact hd.cut this
    | panic => exact hd.cut this
    | hang => exact hd.cut this
  · rintro w ⟨done, h, hd⟩
    rw [List.append_nil] at h
    rw [h]; exact hd
  · rintro c rest w ⟨done, rfl, hd⟩
    have := log_oneCandidate cfg env c (obs w) w rfl
    rcases hm : oneCandidate cfg env c w with ⟨r, w'⟩
    rw [hm] at this
    have hcut : ∀ o', Cut cfg [c] (obs w) o' → Cut cfg (done ++ c :: rest) o o' := by
      intro o' h
      have := (hd.cut h).extend rest
      simpa using this
    cases r with
    | ok a =>
      obtain ⟨e, h1, h2, h3⟩ := this
      refine ⟨done ++ [c], by simp, ?_⟩
      refine DoneAll.trans (f2 := []) hd ⟨[e], by simp [h1], h3, ?_⟩
      intro e' he'
      rw [List.mem_singleton.1 he']
      cases e with
      | skipped => cases h2
      | past => rfl
      | tested => rfl
    | err e => exact hcut _ this
    | panic => exact hcut _ this
    | hang => exact hcut _ this

/-- Skipping after a failed dry run, apart from the progress made. -/
theorem log_skipPresent (cfg : Cfg) (env : Env σ) (cs : List Candidate) (o : Obs)
    (hcs : ∀ c ∈ cs, c.span.file ∈ o.failed) :
    Tri (At o) (skipPresent cfg env cs)
      (fun _ w => ∃ log, log.map Entry.cand = cs ∧ Logged cfg o log [] [] 0 (obs w) ∧ ∀ e ∈ log, e.isSkipped = true)
      (fun _ w => Cut cfg cs o (obs w)) (fun w => Cut cfg cs o (obs w)) := by
  induction cs generalizing o with
  | nil => 
    refine Tri.ret _ fun w h => ⟨[], rfl, ?_, by simp⟩
    rw [show obs w = o from h]; exact Logged.refl _ _
  | cons c cs ih =>
    intro w hw
    refine Tri.bind (P := At o) (R := fun _ w' => ∃ text, Logged cfg o [.skipped c text] [] [] 0 (obs w'))
      ?_ (fun _ => ?_) w hw
    · have hcut : ∀ w : World σ, At o w → Cut cfg (c :: cs) o (obs w) := fun w h => by
        rw [show obs w = o from h]; exact Cut.refl _ _ _
      split
      · refine Tri.bind (tri_orPanic _ hcut) fun text => ?_
        rintro w ⟨ht, hw⟩
        refine ((log_insertRow env ⟨c.span, text, .skipped⟩ o).weaken (fun _ h => h) ?_ (fun _ => hcut) hcut) w hw
        rintro _ w ⟨db', h1, h2⟩
        refine ⟨text, ?_⟩
        rw [show obs w = _ from h2]
        exact ⟨h1, by simp [Entry.results], by simp, by simp [Entry.printed], rfl, List.suffix_refl _,
          by simpa [Entry.Ok] using fun _ => sourceText?_hasText ht,
          by simpa [Entry.cand] using fun _ => hcs c (by simp)⟩
      · rename_i hn
        have hn' : o.db = none := by
          rw [show o.db = w.db from by rw [← hw]; rfl]
          simpa using hn
        refine Tri.ret _ fun w h => ⟨[], ?_⟩
        rw [show obs w = o from h]
        refine ⟨?_, by simp [Entry.results], by simp, by simp [Entry.printed], rfl, List.suffix_refl _,
          by simp [Entry.Ok, hn'], by simpa [Entry.cand] using fun _ => hcs c (by simp)⟩
        rw [hn']; trivial
    · rintro w ⟨text, h⟩
      have := ih (obs w) (fun c hc => by rw [h.failed]; simp [hcs c (by simp [hc])]) w rfl
      rcases hm : skipPresent cfg env cs w with ⟨r, w'⟩
      rw [hm] at this
      have hcut : ∀ o', Cut cfg cs (obs w) o' → Cut cfg (c :: cs) o o' := fun o' h' => Cut.after h h'
      cases r with
      | ok a =>
        obtain ⟨log, h1, h2, h3⟩ := this
        refine ⟨.skipped c text :: log, by simp [h1, Entry.cand], ?_, ?_⟩
        · simpa using h.trans h2
        · intro e he
          rcases List.mem_cons.1 he with rfl | he
          · rfl
          · exact h3 e he
      | err e => exact hcut _ this
      | panic => exact hcut _ this
      | hang => exact hcut _ this

/-- One file: either its dry run failed and all candidates are skipped, or none is. -/
def DoneFile (cfg : Cfg) (f : SourceFile) (cs : List Candidate) (o o' : Obs) : Prop :=
  DoneAll cfg cs [f] (fun e => e.isSkipped = true) o o' ∨ DoneAll cfg cs [] (fun e => e.isSkipped = false) o o'

theorem log_oneFile (cfg : Cfg) (env : Env σ) (f : SourceFile) (cs : List Candidate) (o : Obs)
    (hcs : ∀ c ∈ cs, c.span.file = f) :
    Tri (At o) (oneFile cfg env f cs) (fun _ w => DoneFile cfg f cs o (obs w))
      (fun _ w => Cut cfg cs o (obs w)) (fun w => Cut cfg cs o (obs w)) := by
  refine Tri.bind (Silent.cut (Silent.say cfg _ (by simp)) o cs) fun _ => ?_
  refine Tri.bind (Silent.cut (Silent.note _ (by simp) (by simp)) o cs) fun _ => ?_
  refine Tri.bind (Silent.cut (Silent.askTry _) o cs) fun r => ?_
  cases r with
  | ok _ =>
    refine Tri.bind (Silent.cut (Silent.checkCtrlc env) o cs) fun _ => ?_
    refine Tri.bind (Silent.cut (Silent.say cfg _ (by simp)) o cs) fun _ => ?_
    refine Tri.finally (Q := fun _ w => DoneAll cfg cs [] (fun e => e.isSkipped = false) o (obs w))
      (E := fun _ w => Cut cfg cs o (obs w)) (Tri.bind (Silent.cut (Silent.instrumentStatements _ _ _ _) o cs)
        fun _ => log_candidateLoop cfg env cs o) ?_ ?_
    · intro _ w h; rw [obs_dropInstr]; exact Or.inr h
    · intro _ w h; rw [obs_dropInstr]; exact h
  | error _ =>
    let o1 : Obs := { o with failed := o.failed ++ [f] }
    have h1 : Logged cfg o [] [] [f] 0 o1 :=
      ⟨DbAdds.refl _, by simp [o1], by simp [o1], by simp [o1], rfl, List.suffix_refl _, by simp, by simp⟩
    have hcut : ∀ o2, Cut cfg cs o1 o2 → Cut cfg cs o o2 := fun o2 h => Cut.after h1 h
    refine Tri.bind (R := fun _ => At o1) ?_ fun _ => ?_
    · rintro w rfl
      show obs _ = _
      simp [obs, testedOf_append, failedOf_append, testedOf, failedOf, o1]
    refine Tri.exits ?_ (fun _ w h => hcut _ h) (fun w h => hcut _ h)
    refine Tri.bind (Silent.cut (Silent.warnM cfg _) o1 cs) fun _ => ?_
    refine Tri.bind (Silent.cut (Silent.checkCtrlc env) o1 cs) fun _ => ?_
    refine Tri.bind (log_skipPresent cfg env cs o1 fun c hc => by simp [o1, hcs c hc]) fun _ => ?_
    rintro w ⟨log, h2, h3, h4⟩
    refine Or.inl ⟨log, h2, ?_, h4⟩
    have := h1.trans h3
    have hl : cs.length = log.length := by rw [← h2, List.length_map]
    rw [hl]
    have h5 := log_updateProgress (σ := σ) cfg none log.length (obs w) w rfl
    have hup : updateProgress cfg none log.length w = (.ok (), { w with progress := w.progress + log.length }) := rfl
    rw [hup] at h5
    rw [show obs _ = _ from h5]
    exact ⟨this.db, this.tested, this.failed, this.printed, by rw [this.progress]; simp, this.past, this.ok, this.sk⟩

theorem log_runFiles (cfg : Cfg) (env : Env σ) (fcs : List (SourceFile × List Candidate))
    (hf : ∀ x ∈ fcs, ∀ c ∈ x.2, c.span.file = x.1) (hn : (fcs.map (·.1)).Nodup) (o : Obs) :
    Tri (At o) (runFiles cfg env fcs)
      (fun _ w => ∃ log fl, log.map Entry.cand = fcs.flatMap (·.2) ∧ Logged cfg o log [] fl log.length (obs w) ∧
        fl.Sublist (fcs.map (·.1)) ∧
        ∀ e ∈ log, (e.isSkipped = true → e.cand.span.file ∈ fl) ∧ (e.isTested = true → e.cand.span.file ∉ fl))
      (fun _ w => Cut cfg (fcs.flatMap (·.2)) o (obs w)) (fun w => Cut cfg (fcs.flatMap (·.2)) o (obs w)) := by
  induction fcs generalizing o with
  | nil =>
    refine Tri.ret _ fun w h => ⟨[], [], rfl, ?_, List.Sublist.slnil, by simp⟩
    rw [show obs w = o from h]; exact Logged.refl _ _
  | cons x fcs ih =>
    obtain ⟨f, cs⟩ := x
    intro w hw
    have hw : obs w = o := hw
    subst hw
    have h1 := log_skip cfg cs w
    refine Tri.bind (P := fun w' => w' = w)
      (R := fun _ w' => ∃ pre : List Candidate, cs = pre ++ (skipPast none cs w.past).rest ∧
        Logged cfg (obs w) (pre.map .past) [] [] pre.length (obs w')) ?_ (fun _ => ?_) w rfl
    · rintro w' rfl
      exact (Tri.exits (P := fun w => w = w') (fun w h => by cases h; exact h1)
        (fun _ w h => Cut.extend h _) (fun w h => Cut.extend h _)) w' rfl
    rintro w1 ⟨pre, hcs, hl1⟩
    generalize (skipPast none cs w.past).rest = rest at hcs ⊢
    have hpc : (pre.map Entry.past).map Entry.cand = pre := by
      rw [List.map_map, show (Entry.cand ∘ Entry.past) = id from rfl, List.map_id]
    -- the file itself
    have h2 : Tri (At (obs w1)) (if rest.isEmpty then ret () else oneFile cfg env f rest)
        (fun _ w => DoneFile cfg f rest (obs w1) (obs w))
        (fun _ w => Cut cfg rest (obs w1) (obs w)) (fun w => Cut cfg rest (obs w1) (obs w)) := by
      split
      · rename_i he
        have : rest = [] := by simpa using he
        subst this
        refine Tri.ret _ fun w h => Or.inr ?_
        rw [show obs w = _ from h]; exact DoneAll.refl _ _ _
      · exact log_oneFile cfg env f rest (obs w1) fun c hc => hf (f, cs) (by simp) c (by rw [hcs]; simp [hc])
    have hcut : ∀ o', Cut cfg rest (obs w1) o' → Cut cfg (((f, cs) :: fcs).flatMap (·.2)) (obs w) o' := by
      intro o' h
      have := (Cut.after hl1 h).extend (fcs.flatMap (·.2))
      rw [hpc, ← hcs] at this
      simpa using this
    refine Tri.bind (h2.exits (fun _ w h => hcut _ h) (fun w h => hcut _ h)) (fun _ => ?_) w1 rfl
    intro w2 hd
    -- the remaining files
    have hn' : f ∉ fcs.map (·.1) ∧ (fcs.map (·.1)).Nodup := by
      rw [List.map_cons, List.nodup_cons] at hn; exact hn
    have h3 := ih (fun x hx => hf x (by simp [hx])) hn'.2 (obs w2) w2 rfl
    have hfile : ∀ c ∈ cs, c.span.file = f := hf (f, cs) (by simp)
    have hcut2 : ∀ o', Cut cfg (fcs.flatMap (·.2)) (obs w2) o' →
        Cut cfg (((f, cs) :: fcs).flatMap (·.2)) (obs w) o' := by
      intro o' h
      have h4 : Cut cfg (rest ++ fcs.flatMap (·.2)) (obs w1) o' := by
        rcases hd with hd | hd
        · exact hd.cut h
        · exact hd.cut h
      have := Cut.after hl1 h4
      rw [hpc, ← List.append_assoc, ← hcs] at this
      simpa using this
    rcases hm : runFiles cfg env fcs w2 with ⟨r, w3⟩
    rw [hm] at h3
    cases r with
    | err e => exact hcut2 _ h3
    | panic => exact hcut2 _ h3
    | hang => exact hcut2 _ h3
    | ok a =>
      obtain ⟨log3, fl3, k1, k2, k3, k4⟩ := h3
      have hin : ∀ e ∈ log3, e.cand.span.file ∈ fcs.map (·.1) := by
        intro e he
        have : e.cand ∈ fcs.flatMap (·.2) := by rw [← k1]; exact List.mem_map_of_mem he
        obtain ⟨x, hx, hc⟩ := List.mem_flatMap.1 this
        rw [hf x (by simp [hx]) _ hc]
        exact List.mem_map_of_mem hx
      have hnf : ∀ e ∈ log3, e.cand.span.file ≠ f := fun e he h => hn'.1 (h ▸ hin e he)
      have main : ∀ log2 fl2 (_ : log2.map Entry.cand = rest) (_ : Logged cfg (obs w1) log2 [] fl2 log2.length (obs w2))
          (_ : fl2.Sublist [f])
          (_ : ∀ e ∈ log2, (e.isSkipped = true → f ∈ fl2) ∧ (e.isTested = true → f ∉ fl2)),
          ∃ log fl, log.map Entry.cand = ((f, cs) :: fcs).flatMap (·.2) ∧
            Logged cfg (obs w) log [] fl log.length (obs w3) ∧ fl.Sublist (((f, cs) :: fcs).map (·.1)) ∧
            ∀ e ∈ log, (e.isSkipped = true → e.cand.span.file ∈ fl) ∧ (e.isTested = true → e.cand.span.file ∉ fl) := by
        intro log2 fl2 m1 m2 m3 m4
        refine ⟨pre.map .past ++ (log2 ++ log3), fl2 ++ fl3, ?_, ?_, ?_, ?_⟩
        · rw [List.map_append, hpc, List.map_append, m1, k1, ← List.append_assoc, ← hcs]; simp
        · have := hl1.trans (m2.trans k2)
          simpa using this
        · exact List.Sublist.append m3 k3
        · intro e he
          rcases List.mem_append.1 he with he | he
          · obtain ⟨c, -, rfl⟩ := List.mem_map.1 he
            exact ⟨fun h => by simp [Entry.isSkipped] at h, fun h => by simp [Entry.isTested] at h⟩
          · rcases List.mem_append.1 he with he | he
            · have hc : e.cand ∈ rest := by rw [← m1]; exact List.mem_map_of_mem he
              have hfe : e.cand.span.file = f := hfile _ (by rw [hcs]; simp [hc])
              rw [hfe]
              refine ⟨fun h => by simp [(m4 e he).1 h], fun h hmem => ?_⟩
              rcases List.mem_append.1 hmem with hmem | hmem
              · exact (m4 e he).2 h hmem
              · exact hn'.1 (k3.subset hmem)
            · refine ⟨fun h => by simp [(k4 e he).1 h], fun h hmem => ?_⟩
              rcases List.mem_append.1 hmem with hmem | hmem
              · exact hnf e he (by simpa using m3.subset hmem)
              · exact (k4 e he).2 h hmem
      rcases hd with ⟨log2, m1, m2, m3⟩ | ⟨log2, m1, m2, m3⟩
      · refine main log2 [f] m1 m2 (List.Sublist.refl _) fun e he => ⟨fun _ => by simp, fun h => ?_⟩
        have := m3 e he
        cases e <;> simp_all [Entry.isSkipped, Entry.isTested]
      · refine main log2 [] m1 m2 (List.nil_sublist _) fun e he => ⟨fun h => ?_, fun _ => by simp⟩
        rw [m3 e he] at h
        cases h

end Necessist.Run
