import Verif.Spec.RunWarnings
import Verif.Lemmas.Warnings
import Verif.Lemmas.RunSteps
/-! Warnings of a run. -/
namespace Necessist.Run

variable {σ α β : Type}

theorem warningsOf_append (a b : List Line) : warningsOf (a ++ b) = warningsOf a ++ warningsOf b := by simp [warningsOf]
theorem eventCalls_append (a b : List Snap) : eventCalls (a ++ b) = eventCalls a ++ eventCalls b := by simp [eventCalls]
theorem ownCalls_append (a b : List Issue) : ownCalls (a ++ b) = ownCalls a ++ ownCalls b := by simp [ownCalls]
theorem ownCalls_other (cs : List WarnCall) : ownCalls (cs.map fun c => ⟨c, false⟩) = [] := by
  simp [ownCalls, List.filter_map]

theorem Reply.Mute.honest {o : WarnOpts} {w : World σ} {r : Reply σ α} (h : r.Mute w) : r.Honest o w :=
  ⟨[], nofun, h.1, h.2, Or.inl NoneDenied.nil⟩

/-- The calls about changed sources. -/
def changedOf (is : List Issue) : List WarnCall := (ownCalls is).filter (fun c => c.warning = .filesChanged)

theorem changedOf_append (a b : List Issue) : changedOf (a ++ b) = changedOf a ++ changedOf b := by simp [changedOf, ownCalls_append]

section
variable (o : WarnOpts) (st0 : WStates) (out0 : List WarnMsg) (L : List WarnCall → List Removal → List Snap → Prop) (N : List WarnCall → List Snap → Prop)

/-- The warnings given are `is`. -/
structure Given (is : List Issue) (w : World σ) : Prop where
  warns : w.warns = WStates.after o st0 is
  out : warningsOf w.out = out0 ++ shownFor o st0 is
  calls : (ownCalls is).filter (fun c => c.warning ≠ .filesChanged) = eventCalls w.trace
  foreign : ∀ i ∈ is, i.own = false → OfFramework i.call

/-- Between steps. -/
def Between' (w : World σ) : Prop := ∃ is, Given o st0 out0 is w ∧ NoneDenied o is ∧ L (changedOf is) w.past w.trace

/-- At the end. -/
def Ended (e : Option Err) (w : World σ) : Prop :=
  ∃ is, Given o st0 out0 is w ∧ (NoneDenied o is ∨ e = some .denied ∧ EndsDenied o is) ∧ N (changedOf is) w.trace

/-- What is kept about the past and the calls about it. -/
structure Mono : Prop where
  grow : ∀ cc p tr xs, L cc p tr → L cc p (tr ++ xs)
  weak : ∀ cc p tr, L cc p tr → N cc tr

variable {o st0 out0 L N} (hL : Mono L N) {cfg : Cfg} (hcfg : cfg.warn = o) {env : Env σ} (henv : Honest o env)

/-- What is shown of everything. -/
abbrev Warns (o : WarnOpts) (st0 : WStates) (out0 : List WarnMsg) (L : List WarnCall → List Removal → List Snap → Prop)
    (N : List WarnCall → List Snap → Prop) (m : M σ α) : Prop :=
  Tri (Between' o st0 out0 L) m (fun _ => Between' o st0 out0 L) (Ended o st0 out0 N) (Ended o st0 out0 N none)

local notation "J" => Between' o st0 out0 L
local notation "EE" => Ended o st0 out0 N
local notation "V" => Warns o st0 out0 L N

theorem Between'.frame {w w' : World σ} (h : J w) (h1 : w'.warns = w.warns) (h2 : warningsOf w'.out = warningsOf w.out)
    (h3 : w'.trace = w.trace) (h4 : w'.past = w.past) : J w' := by
  obtain ⟨is, ⟨g1, g2, g3, g4⟩, h5, h6⟩ := h
  exact ⟨is, ⟨by rw [h1, g1], by rw [h2, g2], by rw [h3]; exact g3, g4⟩, h5, by rw [h3, h4]; exact h6⟩

theorem Ended.frame {e : Option Err} {w w' : World σ} (h : EE e w) (h1 : w'.warns = w.warns) (h2 : w'.out = w.out)
    (h3 : w'.trace = w.trace) : EE e w' := by
  obtain ⟨is, ⟨g1, g2, g3, g4⟩, h5, h6⟩ := h
  exact ⟨is, ⟨by rw [h1, g1], by rw [h2, g2], by rw [h3]; exact g3, g4⟩, h5, by rw [h3]; exact h6⟩

include hL

theorem Between'.ended {e : Option Err} {w : World σ} (h : J w) : EE e w := by
  obtain ⟨is, h1, h2, h3⟩ := h
  exact ⟨is, h1, Or.inl h2, hL.weak _ _ _ h3⟩

omit hL in
theorem wRet (a : α) : V (ret a : M σ α) := Tri.ret a fun _ h => h
theorem wOrPanic (x : Option α) : V (Run.orPanic x : M σ α) := by
  cases x with
  | none => exact Tri.panics fun w h => h.ended hL
  | some a => exact wRet a

omit hL in
theorem wBind {m : M σ α} {k : α → M σ β} (h : V m) (h' : ∀ a, V (k a)) : V (Run.bind m k) := Tri.bind h h'

omit hL in
theorem wSay (l : Line) (hl : ∀ m, l ≠ .warning m) : V (say cfg l : M σ Unit) := by
  intro w h
  unfold say
  split
  · exact h
  · refine h.frame rfl ?_ rfl rfl
    rw [warningsOf_append]
    cases l with
    | warning m => exact absurd rfl (hl m)
    | _ => simp [warningsOf]

theorem wNote (e : Event) (he : eventCall e = none) : V (note e : M σ Unit) := by
  rintro w ⟨is, ⟨g1, g2, g3, g4⟩, h5, h6⟩
  exact ⟨is, ⟨g1, g2, by rw [g3]; simp [eventCalls, he], g4⟩, h5, hL.grow _ _ _ _ h6⟩

omit hL in
theorem warningsOf_warnings (ms : List WarnMsg) : warningsOf (ms.map .warning) = ms := by
  induction ms with
  | nil => rfl
  | cons m ms ih => rw [List.map_cons]; exact congrArg (m :: ·) ih

theorem wAskWarns {w : World σ} {α} {r : Reply σ α} (h : J w) (hr : r.Honest o w) :
    J { w with warns := r.warns, out := w.out ++ r.said.map .warning, ext := r.ext } ∨
    EE (some .denied) { w with warns := r.warns, out := w.out ++ r.said.map .warning, ext := r.ext } ∧ r.res = .err .denied := by
  obtain ⟨is, ⟨g1, g2, g3, g4⟩, h5, h6⟩ := h
  obtain ⟨cs, hk, hcs, hsaid, hden⟩ := hr
  have hc : changedOf (cs.map fun c => ⟨c, false⟩) = [] := by simp [changedOf, ownCalls_other]
  have hg : Given o st0 out0 (is ++ cs.map fun c => ⟨c, false⟩)
      { w with warns := r.warns, out := w.out ++ r.said.map .warning, ext := r.ext } := by
    refine ⟨?_, ?_, ?_, ?_⟩
    · show r.warns = _
      rw [hcs, g1, after_append]
    · show warningsOf (w.out ++ r.said.map .warning) = _
      rw [shownFor_append, warningsOf_append, g2, warningsOf_warnings, hsaid, g1, List.append_assoc]
    · rw [ownCalls_append, ownCalls_other, List.append_nil]; exact g3
    · intro i hi ho
      rcases List.mem_append.1 hi with hi | hi
      · exact g4 i hi ho
      · obtain ⟨c, hc, rfl⟩ := List.mem_map.1 hi
        exact hk c hc
  have h6' : L (changedOf (is ++ cs.map fun c => ⟨c, false⟩)) w.past w.trace := by
    rw [changedOf_append, hc, List.append_nil]; exact h6
  rcases hden with hd | ⟨hd, hres⟩
  · exact Or.inl ⟨_, hg, h5.append hd, h6'⟩
  · exact Or.inr ⟨⟨_, hg, Or.inr ⟨rfl, h5.cut hd⟩, hL.weak _ _ _ h6'⟩, hres⟩

theorem wAsk {f : World σ → Reply σ α} (hf : ∀ w, (f w).Honest o w) : V (ask f) := by
  intro w h
  unfold ask
  dsimp only
  rcases wAskWarns hL h (hf w) with hJ | ⟨hE, hres⟩
  · cases (f w).res with
    | ok a => exact hJ
    | err e => exact hJ.ended hL
    | panic => exact hJ.ended hL
    | hang => exact hJ.ended hL
  · rw [hres]
    exact hE

omit hL in
theorem wMute {w : World σ} {α} {r : Reply σ α} (h : J w) (hr : r.Mute w) :
    J { w with warns := r.warns, out := w.out ++ r.said.map .warning, ext := r.ext } :=
  h.frame hr.1 (by rw [hr.2]; simp) rfl rfl

theorem wAskTry {f : World σ → Reply σ α} (hf : ∀ w, (f w).Mute w) : V (askTry f) := by
  intro w h
  have hJ := wMute h (hf w)
  unfold askTry
  dsimp only
  cases (f w).res with
  | ok a => exact hJ
  | err e => exact hJ
  | panic => exact hJ.ended hL
  | hang => exact hJ.ended hL

include hcfg

omit hL in
/-- A call, preceded by the event it is due to. -/
theorem wCall {L' : List WarnCall → List Removal → List Snap → Prop} {c : WarnCall} (hc : c.warning ≠ .all) {w w1 : World σ} (h : J w)
    (e1 : w1.warns = w.warns) (e2 : w1.out = w.out)
    (hcall : ∀ is : List Issue, (ownCalls is).filter (fun c => c.warning ≠ .filesChanged) = eventCalls w.trace →
      (ownCalls (is ++ [⟨c, true⟩])).filter (fun c => c.warning ≠ .filesChanged) = eventCalls w1.trace)
    (hl : ∀ cc, L cc w.past w.trace → L' (cc ++ changedOf [⟨c, true⟩]) w1.past w1.trace) (hL' : Mono L' N) :
    Post (fun _ => Between' o st0 out0 L') EE (EE none) (warnM cfg c w1) := by
  obtain ⟨is, ⟨g1, g2, g3, g4⟩, h5, h6⟩ := h
  unfold warnM
  have hcases := internal_cases o w1.warns c hc
  rw [hcfg]
  rcases hw : warnInternal o w1.warns c with ⟨r, st⟩
  rw [hw] at hcases
  have hst : st = WStates.after o st0 (is ++ [⟨c, true⟩]) := by
    rw [after_append, ← g1, ← e1]
    show _ = (warnInternal o w1.warns c).2
    rw [hw]
  have hclean : ¬ Denied o c.warning → NoneDenied o (is ++ [⟨c, true⟩]) := fun hd =>
    h5.append fun i hi => by rw [List.mem_singleton.1 hi]; exact hd
  have hshown : shownFor o st0 (is ++ [⟨c, true⟩]) = shownFor o st0 is ++ shownFor o w1.warns [⟨c, true⟩] := by
    rw [shownFor_append, e1, ← g1]
  have h7 := hl _ h6
  have hfor : ∀ i ∈ is ++ [⟨c, true⟩], i.own = false → OfFramework i.call := by
    intro i hi ho
    rcases List.mem_append.1 hi with hi | hi
    · exact g4 i hi ho
    · rw [List.mem_singleton.1 hi] at ho; cases ho
  rw [← changedOf_append] at h7
  rcases hcases with ⟨h1, ⟨m, h2⟩, h3⟩ | ⟨h1, h2, h3⟩ | ⟨h1, hq, m, h2, h3⟩ <;> simp only at h2 <;> subst h2
  · refine ⟨is ++ [⟨c, true⟩], ⟨hst, ?_, hcall is g3, hfor⟩, Or.inr ⟨rfl, is, ⟨c, true⟩, rfl, h5, h1⟩, hL'.weak _ _ _ h7⟩
    rw [hshown, h3, List.append_nil, ← g2, ← e2]
  · refine ⟨is ++ [⟨c, true⟩], ⟨hst, ?_, hcall is g3, hfor⟩, hclean h1, h7⟩
    rw [hshown, h3, List.append_nil, ← g2, ← e2]
  · dsimp only [say]
    rw [hcfg, hq]
    simp only [Bool.false_eq_true, if_false]
    refine ⟨is ++ [⟨c, true⟩], ⟨hst, ?_, hcall is g3, hfor⟩, hclean h1, h7⟩
    show warningsOf (w1.out ++ [.warning m]) = _
    rw [hshown, h3, ← List.append_assoc, ← g2, ← e2, warningsOf_append]
    rfl

theorem wEvent {e : Event} {c : WarnCall} (he : eventCall e = some c) :
    V (Run.bind (note e) fun _ => warnM cfg c : M σ Unit) := by
  intro w h
  have hne : c.warning ≠ .all ∧ c.warning ≠ .filesChanged := by
    cases e <;> simp [eventCall] at he <;> rw [← he] <;> simp [dryRunFailedCall, nonbuildableCall]
  have h1 : ownCalls [(⟨c, true⟩ : Issue)] = [c] := rfl
  have h2 : changedOf [(⟨c, true⟩ : Issue)] = [] := by simp [changedOf, h1, hne.2]
  refine wCall hcfg hne.1 h (w1 := { w with trace := w.trace ++ [⟨e, w.fs⟩] }) rfl rfl (fun is hr => ?_) (fun cc hcc => ?_) hL
  · rw [ownCalls_append, eventCalls_append, List.filter_append, hr, h1]
    simp [eventCalls, he, hne.2]
  · rw [h2, List.append_nil]; exact hL.grow _ _ _ _ hcc

theorem wProgress (n : Nat) : V (updateProgress cfg none n : M σ Unit) :=
  Tri.bind (R := fun _ => J) (wRet _) fun _ w h => Between'.frame h rfl rfl rfl rfl

omit hL in
/-- A mismatch. -/
theorem wMismatch {L' : List WarnCall → List Removal → List Snap → Prop} (hL' : Mono L' N) (mm : Option Mismatch) (n : Nat) {w w1 : World σ} (h : J w)
    (e1 : w1.warns = w.warns) (e2 : w1.out = w.out) (e3 : w1.trace = w.trace)
    (hn : mm = none → ∀ cc, L cc w.past w.trace → L' cc w1.past w.trace)
    (hm : ∀ r, mm = some (.missing r) → ∀ cc, L cc w.past w.trace → L' (cc ++ [changedCall "missing" r]) w1.past w.trace)
    (hu : ∀ r, mm = some (.unexpected r) → ∀ cc, L cc w.past w.trace → L' (cc ++ [changedCall "unexpected" r]) w1.past w.trace) :
    Post (fun _ => Between' o st0 out0 L') EE (EE none) (updateProgress cfg mm n w1) := by
  have hcall : ∀ kind r, (∀ cc, L cc w.past w.trace → L' (cc ++ [changedCall kind r]) w1.past w.trace) →
      Post (fun _ => Between' o st0 out0 L') EE (EE none) (warnM cfg ⟨.filesChanged, none, filesChangedMsg kind.toList r, true⟩ w1) := by
    intro kind r hx
    refine wCall hcfg (by simp) h e1 e2 (fun is hr => ?_) (fun cc hcc => ?_) hL'
    · rw [ownCalls_append, List.filter_append, hr, e3]
      simp [ownCalls]
    · have := hx cc hcc
      rw [e3]
      exact this
  unfold updateProgress
  refine Tri.bind (P := (· = w1)) (R := fun _ => Between' o st0 out0 L') (E := EE) (H := EE none)
    (Q := fun _ => Between' o st0 out0 L') ?_ (fun _ w h => ?_) w1 rfl
  rotate_left
  · exact Between'.frame (w := w) h rfl rfl rfl rfl
  rintro w2 rfl
  rcases mm with _ | r | r
  · obtain ⟨is, ⟨g1, g2, g3, g4⟩, h5, h6⟩ := h
    exact ⟨is, ⟨by rw [e1, g1], by rw [e2, g2], by rw [e3]; exact g3, g4⟩, h5, by rw [e3]; exact hn rfl _ h6⟩
  · exact hcall "missing" r (hm r rfl)
  · exact hcall "unexpected" r (hu r rfl)

omit hcfg in
theorem wCheckCtrlc : V (checkCtrlc env) := by
  intro w h
  unfold checkCtrlc
  rcases hc : env.ctrlc w with ⟨b, ext⟩
  have h1 : J { w with ext } := h.frame rfl rfl rfl rfl
  refine Tri.bind (P := J) (R := fun _ => J) (wNote hL (.ctrlc b) rfl) (fun _ => ?_) _ h1
  split
  · exact Tri.fail _ fun w h => h.ended hL
  · exact wRet _

omit hcfg in
theorem wWriteFile (f : SourceFile) (t : Text) : V (writeFile env f t) := by
  intro w h
  unfold writeFile
  rcases env.write w f t with ⟨_ | left, ext⟩
  · exact h.frame rfl rfl rfl rfl
  · exact Between'.ended hL (h.frame rfl rfl rfl rfl)

include henv

omit hcfg in
theorem wInsertRow (r : Removal) : V (insertRow env r) := by
  intro w h
  unfold insertRow
  rcases hdb : w.db with _ | rows
  · exact h
  · dsimp only
    refine Tri.bind (P := J) (R := fun _ => J) (wAsk hL fun w => henv.insert w r.span) (fun url w h => ?_) w h
    split
    · exact h.ended hL
    · exact wNote hL _ rfl { w with db := some (rows ++ [Row.ofRemoval url r]) } (h.frame rfl rfl rfl rfl)

theorem wEmit (r : Removal) : V (emit cfg env r) := by
  refine Tri.bind (wInsertRow hL henv r) fun _ => ?_
  unfold emitToConsole
  split
  · exact wSay _ nofun
  · exact wRet _

theorem wSkipPresent (cs : List Candidate) : V (skipPresent cfg env cs) := by
  induction cs with
  | nil => exact wRet _
  | cons c cs ih =>
    intro w h
    unfold skipPresent
    refine Tri.bind (P := J) (R := fun _ => J) ?_ (fun _ => ih) w h
    split
    · exact Tri.bind (wOrPanic hL _) fun _ => wInsertRow hL henv _
    · exact wRet _

theorem wPerformExec (c : Candidate) (t : Text) (b : Bool) : V (performExec cfg env c t b) := by
  refine wBind (wNote hL _ rfl) fun _ => wBind (wAsk hL fun w => henv.start w _ _ _) fun p => wBind (β := Option Outcome) (α := Option Bool) ?_ fun status => ?_
  · intro w h
    show Post _ _ _ (waitFor (timeoutMs cfg) p, w)
    cases waitFor (timeoutMs cfg) p with
    | ok _ => exact h
    | err _ => exact h.ended hL
    | panic => exact h.ended hL
    | hang => exact h.ended hL
  · cases status with
    | some s =>
      refine wBind ?_ fun _ => wRet _
      split
      · exact wAsk hL henv.post
      · exact wRet _
    | none => exact wBind (wNote hL _ rfl) fun _ => wBind (wAsk hL henv.kill) fun _ => wBind (wAsk hL henv.reap) fun _ => wRet _

theorem wOneTest (c : Candidate) (ex : Bool) (t : Text) : V (oneTest cfg env c ex t) := by
  refine wBind (wNote hL _ rfl) fun _ => wBind (wAsk hL fun w => henv.exec w _ _) fun r => wBind ?_ fun _ => wBind (wNote hL _ rfl) fun _ => wRet _
  cases r with
  | some b => exact wPerformExec hL hcfg henv c t b
  | none =>
    cases ex with
    | true => exact wRet _
    | false => exact Tri.panics fun w h => h.ended hL

theorem wRunTests (c : Candidate) (ex : Bool) (ts : List Text) (acc : Option Outcome) : V (runTests cfg env c ex ts acc) := by
  induction ts generalizing acc with
  | nil => exact wRet _
  | cons t ts ih =>
    unfold runTests
    split
    · exact ih _
    · exact wBind (wOneTest hL hcfg henv c ex t) fun r => ih r

theorem wTestAndRecord (c : Candidate) (text : Text) (ex : Bool) : V (testAndRecord cfg env c text ex) := by
  refine wBind (wRunTests hL hcfg henv c ex _ _) fun r => wBind (wCheckCtrlc hL) fun _ => wBind ?_ fun _ => wProgress hL hcfg _
  cases r with
  | some r => exact wEmit hL hcfg henv _
  | none => exact wRet _

omit hcfg in
theorem wWithBackup {m : M σ α} (f : SourceFile) (h : V m) : V (withBackup env f m) := by
  refine Tri.bind (wAsk hL fun w => henv.backup w f) fun _ w hw => ?_
  exact Tri.finally (P := J) (c := fun w' => { w' with fs := upd w'.fs f (w.fs f) }) (Q' := fun _ => J) (E' := EE) h
    (fun _ w' h => h.frame rfl rfl rfl rfl) (fun _ w' h => h.frame rfl rfl rfl) w hw

omit hL hcfg henv in
theorem wDrop {w : World σ} (h : J w) : J (dropInstr w) := by
  unfold dropInstr
  split
  · exact h
  · exact h.frame rfl rfl rfl rfl

omit hL hcfg henv in
theorem wDropE {e : Option Err} {w : World σ} (h : EE e w) : EE e (dropInstr w) := by
  unfold dropInstr
  split
  · exact h
  · exact h.frame rfl rfl rfl

theorem wOneCandidate (c : Candidate) : V (oneCandidate cfg env c) := by
  intro w h
  have h' : J (if c.kind ≠ .statement then dropInstr w else w) := by
    split
    · exact wDrop h
    · exact h
  refine Tri.bind (P := J) (R := fun _ => J) (wOrPanic hL _) (fun text w h => ?_) _ h'
  split
  · refine wWithBackup hL henv _ ?_ w h
    exact wBind (wOrPanic hL _) fun _ => wBind (wWriteFile hL _ _) fun _ => wTestAndRecord hL hcfg henv _ _ _
  · exact wTestAndRecord hL hcfg henv _ _ _ w h

omit hcfg in
theorem wWraps (cs : List Candidate) : V (wraps env cs) := by
  induction cs with
  | nil => exact wRet _
  | cons c cs ih => exact wBind (wAsk hL fun w => henv.wrap w _) fun _ => wBind ih fun _ => wRet _

theorem wInstrumentStatements (f : SourceFile) (cs : List Candidate) : V (instrumentStatements cfg env f cs) := by
  refine Tri.bind (wAsk hL fun w => henv.backup w f) fun _ w h => ?_
  have hb : V (instrumentBody cfg env f cs) := by
    refine wBind (wAsk hL fun w => henv.instrFile w _ _) fun _ => wBind (wWraps hL henv _) fun _ => wBind (wOrPanic hL _) fun _ =>
      wBind (wWriteFile hL _ _) fun _ => wBind (wNote hL _ rfl) fun _ => wBind (wAskTry hL fun w => henv.build w f) fun r => ?_
    cases r with
    | ok _ => exact wRet _
    | error _ =>
      rw [← bind_assoc]
      exact wBind (wEvent hL hcfg rfl) fun _ => wRet _
  have := hb w h
  rcases hi : instrumentBody cfg env f cs w with ⟨r, w'⟩
  rw [hi] at this
  cases r with
  | ok b => cases b <;> exact Between'.frame (w := w') this rfl rfl rfl rfl
  | err e => exact Ended.frame (w := w') this rfl rfl rfl
  | panic => exact Ended.frame (w := w') this rfl rfl rfl
  | hang => exact Ended.frame (w := w') this rfl rfl rfl


end
end Necessist.Run
