import Verif.Lemmas.Run
/-! Invariants that do not depend on warnings, output, progress, database or the outside world. -/
namespace Necessist.Run

variable {σ α β : Type}

/-- `I` is preserved by everything that touches neither the files nor the backup, provided the events recorded
satisfy `ev`. -/
structure Frame (I : World σ → Prop) (E : Option Err → World σ → Prop) (H : World σ → Prop)
    (ev : Event → Prop) : Prop where
  aux : ∀ w warns out progress db past ext, I w → I { w with warns, out, progress, db, past, ext }
  note : ∀ w e, ev e → I w → I { w with trace := w.trace ++ [⟨e, w.fs⟩] }
  err : ∀ w e, I w → E e w
  hang : ∀ w, I w → H w
  ctrlc : ∀ w, I w → E (some .ctrlc) { w with trace := w.trace ++ [⟨.ctrlc true, w.fs⟩] }

namespace Frame
variable {I : World σ → Prop} {E : Option Err → World σ → Prop} {H : World σ → Prop} {ev : Event → Prop}
variable (F : Frame I E H ev)
include F

theorem weakenTri {m : M σ α} {R : α → World σ → Prop} (h : Tri I m R (fun _ => I) I) :
    Tri I m R E H := h.weaken (fun _ h => h) (fun _ _ h => h) (fun e w h => F.err w e h) (fun w h => F.hang w h)

theorem triAsk (f : World σ → Reply σ α) : Tri I (Run.ask f) (fun _ => I) E H :=
  F.weakenTri (Tri.ask (fun w a o b h => F.aux w a o w.progress w.db w.past b h) f)

theorem triAskTry (f : World σ → Reply σ α) : Tri I (Run.askTry f) (fun _ => I) E H :=
  F.weakenTri (Tri.askTry (fun w a o b h => F.aux w a o w.progress w.db w.past b h) f)

theorem triNote {e : Event} (he : ev e) : Tri I (Run.note e) (fun _ => I) E H :=
  fun w h => F.note w e he h

theorem triSay (cfg : Cfg) (l : Line) : Tri I (Run.say cfg l) (fun _ => I) E H := by
  intro w h
  by_cases hq : cfg.warn.quiet = true
  · simp only [Run.say, hq, if_true]; exact h
  · simp only [Run.say, hq]; exact F.aux w w.warns _ w.progress w.db w.past w.ext h

theorem triRet (a : α) : Tri I (Run.ret a) (fun _ => I) E H := Tri.ret a fun _ h => h
theorem triPanics : Tri I (Run.panics : M σ α) (fun _ => I) E H := Tri.panics fun w h => F.err w _ h
theorem triOrPanic (o : Option α) : Tri I (Run.orPanic o : M σ α) (fun a w => o = some a ∧ I w) E H := by
  cases o with
  | none => exact Tri.panics fun w h => F.err w _ h
  | some a => exact Tri.ret a fun _ h => ⟨rfl, h⟩

theorem triWarnM (cfg : Cfg) (c : WarnCall) : Tri I (Run.warnM cfg c) (fun _ => I) E H := by
  intro w h
  have h' : ∀ st, I { w with warns := st } := fun st => F.aux w st w.out w.progress w.db w.past w.ext h
  unfold Run.warnM
  rcases warnInternal cfg.warn w.warns c with ⟨r, st⟩
  cases r with
  | bail m => exact F.err _ _ (h' st)
  | silent => exact h' st
  | print m => exact F.triSay cfg _ _ (h' st)
  | panic => exact F.err _ _ (h' st)

theorem triUpdateProgress (cfg : Cfg) (mm : Option Mismatch) (n : Nat) :
    Tri I (updateProgress cfg mm n) (fun _ => I) E H := by
  refine Tri.bind (R := fun _ => I) ?_ fun _ => ?_
  · rcases mm with _ | (r | r)
    · exact F.triRet ()
    · exact F.triWarnM cfg _
    · exact F.triWarnM cfg _
  · exact fun w h => F.aux w w.warns w.out _ w.db w.past w.ext h

theorem triSkipPastM (cfg : Cfg) (s : Skipped) : Tri I (skipPastM cfg s) (fun _ => I) E H := by
  intro w h
  exact F.triUpdateProgress cfg _ _ _ (F.aux w w.warns w.out w.progress w.db s.past w.ext h)

theorem triCheckCtrlc (env : Env σ) (hc : ev (.ctrlc false)) : Tri I (checkCtrlc env) (fun _ => I) E H := by
  intro w h
  unfold checkCtrlc
  rcases env.ctrlc w with ⟨b, ext⟩
  have h1 := F.aux w w.warns w.out w.progress w.db w.past ext h
  cases b
  · exact F.note _ _ hc h1
  · exact F.ctrlc _ h1

theorem triInsertRow (env : Env σ) (r : Removal) (hr : ∀ url, ev (.insert (Row.ofRemoval url r))) :
    Tri I (insertRow env r) (fun _ => I) E H := by
  intro w h
  unfold insertRow
  rcases hdb : w.db with _ | rows
  · exact h
  · refine Tri.bind (R := fun _ => I) (F.triAsk _) (fun url => ?_) w h
    intro w h
    dsimp only
    by_cases hk : (rows.any fun x => x.span == (Row.ofRemoval url r).span) = true
    · rw [if_pos hk]; exact F.err _ _ h
    · rw [if_neg hk]
      exact F.note _ _ (hr url) (F.aux w w.warns w.out w.progress _ w.past w.ext h)

theorem triEmit (cfg : Cfg) (env : Env σ) (r : Removal) (hr : ∀ url, ev (.insert (Row.ofRemoval url r))) :
    Tri I (emit cfg env r) (fun _ => I) E H := by
  refine Tri.bind (R := fun _ => I) (F.triInsertRow env r hr) fun _ => ?_
  unfold emitToConsole
  split
  · exact F.triSay cfg _
  · exact F.triRet ()

theorem triSkipPresent (cfg : Cfg) (env : Env σ) (hr : ∀ r, ev (.insert r)) (cs : List Candidate) :
    Tri I (skipPresent cfg env cs) (fun _ => I) E H := by
  induction cs with
  | nil => exact F.triRet ()
  | cons c cs ih =>
    intro w h
    refine Tri.bind (R := fun _ => I) ?_ (fun _ => ih) w h
    split
    · exact Tri.bind (F.triOrPanic _) fun a => (F.triInsertRow env _ fun _ => hr _).pre fun _ h => h.2
    · exact F.triRet ()

/-- The events of one candidate's tests. -/
def _root_.Necessist.Run.TestEvent (cfg : Cfg) (c : Candidate) : Event → Prop
  | .buildTest c' _ => c' = c
  | .startTest c' _ var => c' = c ∧ var = cfg.ident c.span
  | .kill c' _ => c' = c
  | .tested c' _ _ => c' = c
  | _ => False

theorem triPerformExec (cfg : Cfg) (env : Env σ) (c : Candidate) (t : Text) (hasPost : Bool)
    (hev : ∀ e, TestEvent cfg c e → ev e) : Tri I (performExec cfg env c t hasPost) (fun _ => I) E H := by
  refine Tri.bind (R := fun _ => I) (F.triNote (hev (.startTest c t _) ⟨rfl, rfl⟩)) fun _ => ?_
  refine Tri.bind (R := fun _ => I) (F.triAsk _) fun p => ?_
  refine Tri.bind (R := fun _ => I) ?_ fun status => ?_
  · intro w h
    dsimp only
    cases waitFor (timeoutMs cfg) p with
    | ok a => exact h
    | err e => exact F.err _ _ h
    | panic => exact F.err _ _ h
    | hang => exact F.hang _ h
  · cases status with
    | some b =>
      refine Tri.bind (R := fun _ => I) ?_ fun ran => ?_
      · split
        · exact F.triAsk _
        · exact F.triRet _
      · exact F.triRet _
    | none =>
      refine Tri.bind (R := fun _ => I) (F.triNote (hev (.kill c t) rfl)) fun _ => ?_
      refine Tri.bind (R := fun _ => I) (F.triAsk _) fun _ => ?_
      exact Tri.bind (R := fun _ => I) (F.triAsk _) fun _ => F.triRet _

theorem triOneTest (cfg : Cfg) (env : Env σ) (c : Candidate) (ex : Bool) (t : Text)
    (hev : ∀ e, TestEvent cfg c e → ev e) : Tri I (oneTest cfg env c ex t) (fun _ => I) E H := by
  refine Tri.bind (R := fun _ => I) (F.triNote (hev (.buildTest c t) rfl)) fun _ => ?_
  refine Tri.bind (R := fun _ => I) (F.triAsk _) fun r => ?_
  refine Tri.bind (R := fun _ => I) ?_ fun res => ?_
  · cases r with
    | some b => exact F.triPerformExec cfg env c t b hev
    | none =>
      cases ex
      · exact F.triPanics
      · exact F.triRet _
  · exact Tri.bind (R := fun _ => I) (F.triNote (hev (.tested c t res) rfl)) fun _ => F.triRet _

theorem triRunTests (cfg : Cfg) (env : Env σ) (c : Candidate) (ex : Bool)
    (hev : ∀ e, TestEvent cfg c e → ev e) (ts : List Text) (acc : Option Outcome) :
    Tri I (runTests cfg env c ex ts acc) (fun _ => I) E H := by
  induction ts generalizing acc with
  | nil => exact F.triRet _
  | cons t ts ih =>
    unfold runTests
    split
    · exact ih acc
    · exact Tri.bind (R := fun _ => I) (F.triOneTest cfg env c ex t hev) fun r => ih r

theorem triTestAndRecord (cfg : Cfg) (env : Env σ) (c : Candidate) (text : Text) (ex : Bool)
    (hev : ∀ e, TestEvent cfg c e → ev e) (hc : ev (.ctrlc false)) (hr : ∀ r, ev (.insert r)) :
    Tri I (testAndRecord cfg env c text ex) (fun _ => I) E H := by
  refine Tri.bind (R := fun _ => I) (F.triRunTests cfg env c ex hev _ _) fun o => ?_
  refine Tri.bind (R := fun _ => I) (F.triCheckCtrlc env hc) fun _ => ?_
  refine Tri.bind (R := fun _ => I) ?_ fun _ => F.triUpdateProgress cfg none 1
  cases o with
  | some o => exact F.triEmit cfg env _ fun _ => hr _
  | none => exact F.triRet _

theorem triWraps (env : Env σ) (cs : List Candidate) :
    Tri I (wraps env cs) (fun ws w => I w ∧ ∀ c ∈ cs, ∃ p s, ⟨c.span.start, c.span.stop, p, s⟩ ∈ ws ∧
      ∃ w1, (env.wrap w1 c.span).res = .ok (p, s)) E H := by
  induction cs with
  | nil => exact Tri.ret _ fun w h => ⟨h, by simp⟩
  | cons c cs ih =>
    refine Tri.bind (R := fun ps w => I w ∧ ∃ w1, (env.wrap w1 c.span).res = .ok ps) ?_ fun ps => ?_
    · intro w h
      have := F.triAsk (fun w => env.wrap w c.span) w h
      unfold Run.ask at this ⊢
      dsimp only at this ⊢
      cases hr : (env.wrap w c.span).res with
      | ok a => rw [hr] at this; exact ⟨this, w, hr⟩
      | err e => rw [hr] at this; exact this
      | panic => rw [hr] at this; exact this
      | hang => rw [hr] at this; exact this
    · obtain ⟨p, s⟩ := ps
      intro w ⟨h, h1⟩
      refine Tri.bind ih (fun ws => Tri.ret _ fun w h => ⟨h.1, ?_⟩) w h
      intro c' hc'
      rcases List.mem_cons.1 hc' with rfl | hc'
      · exact ⟨p, s, List.mem_cons_self, h1⟩
      · obtain ⟨p', s', h', h2⟩ := h.2 c' hc'
        exact ⟨p', s', List.mem_cons_of_mem _ h', h2⟩

end Frame
end Necessist.Run
