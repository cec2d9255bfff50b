import Verif.Lemmas.Reported
/-! What is said during each step of a run. -/
namespace Necessist
open Run

/-- The report that a call makes. -/
def callReport (c : WarnCall) : Cmd.Report := (c.warning, c.source, c.msg)

theorem audible_append (o : WarnOpts) (a b : List Cmd.Report) : Cmd.audible o (a ++ b) = Cmd.audible o a ++ Cmd.audible o b := by
  simp [Cmd.audible]

theorem internal_report (o : WarnOpts) (st : WStates) (c : WarnCall) (ha : c.warning ≠ .all) (ho : c.once = false) :
    (match (warnInternal o st c).1 with | .print m => [m] | _ => []).map Cmd.reportOf = Cmd.audible o [callReport c] := by
  have hq : ∀ b : Bool, (b = true ↔ Cmd.Audible o c.warning) → (if b then [callReport c] else []) = Cmd.audible o [callReport c] := by
    intro b hb
    unfold Cmd.audible
    cases b with
    | true => rw [List.filter_cons_of_pos (by classical exact decide_eq_true (hb.1 rfl))]; rfl
    | false =>
      have : ¬ Cmd.Audible o c.warning := fun h => by have := hb.2 h; cases this
      rw [List.filter_cons_of_neg (by classical exact fun h => this (of_decide_eq_true h))]; rfl
  unfold warnInternal
  rw [if_neg ha]
  dsimp only
  by_cases hd : (o.deny.contains .all || o.deny.contains c.warning) = true
  · rw [if_pos hd]
    refine hq false ⟨nofun, fun h => absurd ?_ h.1⟩
    simpa [Denied] using hd
  · rw [if_neg hd]
    have hd' : ¬ Denied o c.warning := by simpa [Denied] using hd
    rw [ho]
    by_cases hs : (o.quiet || o.allow.contains .all || o.allow.contains c.warning || (false && (st c.warning).emitted)) = true
    · rw [if_pos hs]
      refine hq false ⟨nofun, fun h => ?_⟩
      obtain ⟨_, h2, h3⟩ := h
      have h2 : ¬ (Warning.all ∈ o.allow ∨ c.warning ∈ o.allow) := h2
      have h4 : ¬ Warning.all ∈ o.allow := fun h => h2 (Or.inl h)
      have h5 : ¬ c.warning ∈ o.allow := fun h => h2 (Or.inr h)
      simp [h3, h4, h5] at hs
    · rw [if_neg hs]
      refine hq true ⟨fun _ => ⟨hd', ?_, ?_⟩, fun _ => rfl⟩
      · show ¬ (Warning.all ∈ o.allow ∨ c.warning ∈ o.allow)
        rintro (h | h) <;> simp [h] at hs
      · cases hq : o.quiet with
        | false => rfl
        | true => simp [hq] at hs

theorem shownFor_reports (o : WarnOpts) (cs : List WarnCall) : (∀ c ∈ cs, c.warning ≠ .all ∧ c.once = false) → ∀ st,
    (shownFor o st (foreign cs)).map Cmd.reportOf = Cmd.audible o (cs.map callReport) := by
  induction cs with
  | nil => intro _ st; rfl
  | cons c cs ih =>
    intro h st
    have e : foreign (c :: cs) = [⟨c, false⟩] ++ foreign cs := rfl
    rw [e, shownFor_append, List.map_append, ih (fun c' hc => h c' (List.mem_cons_of_mem _ hc)), List.map_cons,
      ← List.singleton_append (l := cs.map callReport), audible_append]
    congr 1
    rw [← internal_report o st c (h c (by simp)).1 (h c (by simp)).2]
    show (_ ++ []).map Cmd.reportOf = _
    rw [List.append_nil]
    rfl

namespace Cmd
variable {σ α β : Type}
open ItMessage (Table)

/-- In the table, it is noted that there was a warning. -/
def Warned (tb : Table) (f : SourceFile) (t : Text) : Prop := ∃ m, tb f = some m ∧ m t = .warningEmitted

/-- What has been said by the frameworks. -/
def heard (w : World (St σ)) : List Report := (spoken w.out).map reportOf

theorem spoken_warnings {ms : List WarnMsg} (h : ∀ m ∈ ms, m.warning = .outputInvalid ∨ m.warning = .runTestFailed ∨ m.warning = .itMessageNotFound) :
    spoken (ms.map .warning) = ms := by
  induction ms with
  | nil => rfl
  | cons m ms ih =>
    have e : spoken ((m :: ms).map Line.warning) = spoken [Line.warning m] ++ spoken (ms.map .warning) := by
      rw [← spoken_append]; rfl
    rw [e, ih fun m' hm => h m' (List.mem_cons_of_mem _ hm)]
    simp [spoken, h m (by simp)]

theorem shownFor_warning {o : WarnOpts} {st : WStates} {cs : List WarnCall} {m : WarnMsg} (h : m ∈ shownFor o st (foreign cs)) : ∃ c ∈ cs, m.warning = c.warning := by
  induction cs generalizing st with
  | nil => cases h
  | cons c cs ih =>
    have e : foreign (c :: cs) = [⟨c, false⟩] ++ foreign cs := rfl
    rw [e, shownFor_append] at h
    rcases List.mem_append.1 h with h | h
    · refine ⟨c, by simp, ?_⟩
      have h' : m ∈ (match (warnInternal o st c).1 with | .print m => [m] | _ => []) ++ [] := h
      rw [List.append_nil] at h'
      rcases hw : warnInternal o st c with ⟨r, st'⟩
      rw [hw] at h'
      cases r with
      | print m' => obtain rfl : m = m' := by simpa using h'
                    exact (print_warning hw).1
      | _ => cases h'
    · obtain ⟨c', hc, h⟩ := ih h
      exact ⟨c', List.mem_cons_of_mem _ hc, h⟩

/-- What is said by calls of a framework. -/
theorem heard_calls {o : WarnOpts} {st : WStates} {cs : List WarnCall} (h : ∀ c ∈ cs, OfFramework c) (out : List Line) :
    (spoken (out ++ (shownFor o st (foreign cs)).map .warning)).map reportOf = (spoken out).map reportOf ++ audible o (cs.map callReport) := by
  rw [spoken_append, List.map_append, spoken_warnings, shownFor_reports]
  · intro c hc
    obtain ⟨h1, h2⟩ := h c hc
    refine ⟨fun h => ?_, h2⟩
    rw [h] at h1
    rcases h1 with h1 | h1 | h1 <;> cases h1
  · intro m hm
    obtain ⟨c, hc, h'⟩ := shownFor_warning hm
    rw [h']; exact (h c hc).1

/-- The state, as far as it matters here. -/
structure Sit (tr : List Event) (ran : List Ran) (hd : List Report) (it : Table) (next : Option Next) (w : World (St σ)) : Prop where
  traced : w.trace.map (·.event) = tr
  ran : w.ext.ran = ran
  heard : heard w = hd
  it : w.ext.it = it
  next : w.ext.next = next

/-- If it succeeds. -/
abbrev Then (P : World (St σ) → Prop) (m : M (St σ) α) (Q : α → World (St σ) → Prop) : Prop := Tri P m Q (fun _ _ => True) (fun _ => True)

theorem Then.of {P : World (St σ) → Prop} {m : M (St σ) α} {Q : α → World (St σ) → Prop} (h : ∀ w, P w → ∀ a w', m w = (.ok a, w') → Q a w') :
    Then P m Q := by
  intro w hw
  have := h w hw
  generalize m w = R at this
  obtain ⟨r, w'⟩ := R
  cases r with
  | ok a => exact this a w' rfl
  | _ => trivial

section
variable {tr : List Event} {ran : List Ran} {hd : List Report} {it : Table} {next : Option Next}

theorem sit_note (e : Event) : Then (σ := σ) (Sit tr ran hd it next) (note e) fun _ => Sit (tr ++ [e]) ran hd it next :=
  fun w h => ⟨by simp [h.traced], h.ran, h.heard, h.it, h.next⟩

/-- A question that is answered in silence. -/
theorem sit_ask {f : World (St σ) → Reply (St σ) α} {Q : α → World (St σ) → Prop}
    (h : ∀ w, Sit tr ran hd it next w → (f w).said = [] ∧ ∀ a, (f w).res = .ok a → Q a { w with warns := (f w).warns, ext := (f w).ext }) :
    Then (Sit tr ran hd it next) (ask f) Q := Then.of fun w hw a w' e => by
  obtain ⟨h1, h2⟩ := h w hw
  unfold ask at e
  simp only [Prod.mk.injEq] at e
  obtain ⟨e1, rfl⟩ := e
  rw [h1]
  simpa using h2 a e1

variable {x : Around σ} {high : High σ}

theorem post_said (hx : x.Mute) {w w' : World (St σ)} {a : Bool} {cmd : Command} {k : Closure} {hold : Bool} (hn : w.ext.next = some ⟨cmd, some k, hold⟩)
    (h : post x w = (.ok a, w')) {c : Candidate} (hk : k.span = c.span) : ∃ out rs, Garbled x c out rs ∧ w'.ext.ran = w.ext.ran ++ [.looked out] ∧ w'.ext.it = w.ext.it ∧ w'.ext.next = w.ext.next ∧
      ∃ st cs, ((∀ c ∈ cs, OfFramework c) ∧ ∀ c ∈ cs, ¬ Denied x.warn c.warning) ∧ w'.out = w.out ++ (shownFor x.warn st (foreign cs)).map .warning ∧
        cs.map callReport = rs ++ if a = false then
          [(.runTestFailed, some c.span.display, "failed to run test `".toList ++ k.test ++ "`: ".toList ++ x.outputText out)] else [] := by
  unfold post at h
  rw [hn] at h
  dsimp only at h
  unfold Run.bind inner at h
  dsimp only at h
  have hm := hx.captured (forget w)
  generalize x.captured (forget w) = R at h hm
  cases hc : R.res with
  | err e => rw [hc] at h; cases h
  | panic => rw [hc] at h; cases h
  | hang => rw [hc] at h; cases h
  | ok p =>
    obtain ⟨out, status⟩ := p
    rw [hc] at h
    dsimp only at h
    refine ⟨out, _, ⟨_, Exec.byteLines_isLines out, rfl⟩, ?_⟩
    rcases Exec.postprocess_calls (s := setup x k out) out status ⟨[], R.warns⟩ with ⟨b, o', h1, h2, h3⟩ | ⟨cs, e, o', h1, h2, h3, h4⟩
    · rw [h1] at h
      simp only [Prod.mk.injEq, Res.ok.injEq] at h
      obtain ⟨rfl, rfl⟩ := h
      refine ⟨rfl, rfl, rfl, R.warns, Exec.invalidCalls (setup x k out) (Exec.byteLines out) ++ if b then [] else [Exec.notRunCall (setup x k out)], ⟨?_, fun c hc => h3 ⟨c, false⟩ (List.mem_map.2 ⟨c, hc, rfl⟩)⟩, ?_, ?_⟩
      · intro c hc
        rcases List.mem_append.1 hc with hc | hc
        · obtain ⟨l, _, rfl⟩ := List.mem_map.1 hc
          exact ⟨Or.inl rfl, rfl⟩
        · cases b with
          | true => cases hc
          | false => obtain rfl := List.mem_singleton.1 hc; exact ⟨Or.inr (Or.inl rfl), rfl⟩
      · dsimp only
        rw [h2.printed, hm.2]
        show _ = w.out ++ _
        simp [setup]
      · rw [List.map_append]
        congr 1
        · unfold Exec.invalidCalls
          rw [List.map_map, ← hk]
          rfl
        · cases b with
          | true => rfl
          | false => rw [← hk]; rfl
    · rw [h1] at h; cases h

/-- Dropping what `exec` returned does not matter here. -/
theorem sit_letGo {keep : α → Bool} {f : World σ → Reply σ α} {w : World (St σ)} (hw : Sit tr ran hd it next w) :
    Sit tr ran hd it next { w with warns := (reply (thenLetGo keep (inner f)) w).warns, ext := (reply (thenLetGo keep (inner f)) w).ext } := by
  obtain ⟨s, hs⟩ := thenLetGo_run keep (inner f) w
  dsimp only [reply]
  rw [hs]
  exact ⟨hw.traced, hw.ran, hw.heard, hw.it, hw.next⟩

theorem performExec_said (hx : x.Mute) (cfg : Cfg) (c : Candidate) (t : Text) (b : Bool) {n : Next}
    (hn : b = true → n.holds = true ∧ n.post = none ∨ ∃ k, n.post = some k ∧ k.test = t ∧ k.span = c.span) :
    Then (Sit tr ran hd it (some n)) (performExec cfg (inRun x high) c t b) fun r w => ∃ es l hd', Sit (tr ++ .startTest c t (cfg.ident c.span) :: es) (ran ++ l) hd' it (some n) w ∧
      ((hd' = hd ∧ ∀ out, Ran.looked out ∉ l) ∨ ∃ l' out rs, l = l' ++ [.looked out] ∧ Garbled x c out rs ∧
        (hd' = hd ++ audible x.warn (rs ++ if r = none then
          [(.runTestFailed, some c.span.display, "failed to run test `".toList ++ t ++ "`: ".toList ++ x.outputText out)] else []) ∧
        ∀ q ∈ rs ++ if r = none then
          [(.runTestFailed, some c.span.display, "failed to run test `".toList ++ t ++ "`: ".toList ++ x.outputText out)] else [], ¬ Denied x.warn q.1)) := by
  unfold performExec
  refine Tri.bind (sit_note _) fun _ => ?_
  refine Tri.bind (R := fun p w => ∃ l, (∀ out, Ran.looked out ∉ l) ∧ Sit (tr ++ [.startTest c t (cfg.ident c.span)]) (ran ++ l) hd it (some n) w) ?_ fun p => ?_
  · refine sit_ask fun w hw => ⟨((hush_thenLetGo (hush_start hx _)).mute w).2, fun p hp => ?_⟩
    obtain ⟨ws, os, e, s, hst⟩ := start_run (x := x) (i := cfg.ident c.span) hw.next fun p => !p.waitFails
    dsimp only [inRun, reply]
    rw [hst]
    refine ⟨[.started ((n.started w.ext).withVar "NECESSIST_REMOVAL".toList (cfg.ident c.span)) (valueOf (x.spawn (forget w) ((n.started w.ext).withVar "NECESSIST_REMOVAL".toList (cfg.ident c.span))).res)], by simp, ⟨hw.traced, ?_, hw.heard, hw.it, hw.next⟩⟩
    dsimp only
    rw [hw.ran]
  refine Tri.bind (R := fun _ w => ∃ l, (∀ out, Ran.looked out ∉ l) ∧ Sit (tr ++ [.startTest c t (cfg.ident c.span)]) (ran ++ l) hd it (some n) w) ?_ fun status => ?_
  · refine Then.of fun w hw a w' e => ?_
    simp only [Prod.mk.injEq] at e
    obtain ⟨_, rfl⟩ := e
    exact hw
  rintro w ⟨l, hl, hw⟩
  cases status with
  | none =>
    dsimp only
    revert w
    refine Tri.bind (sit_note _) fun _ => Tri.bind (sit_ask (Q := fun _ => Sit (tr ++ [Event.startTest c t (cfg.ident c.span)] ++ [Event.kill c t]) (ran ++ l) hd it (some n)) fun w hw => ⟨((hush_thenLetGo (hush_inner hx.kill)).mute w).2, fun _ _ => sit_letGo hw⟩) fun _ =>
      Tri.bind (sit_ask (Q := fun _ => Sit (tr ++ [Event.startTest c t (cfg.ident c.span)] ++ [Event.kill c t]) (ran ++ l) hd it (some n)) fun w hw => ⟨((hush_thenLetGo (hush_inner hx.reap)).mute w).2, fun _ _ => sit_letGo hw⟩) fun _ => Tri.ret _ fun w hw => ?_
    · exact ⟨[.kill c t], l, hd, by simpa using hw, Or.inl ⟨rfl, hl⟩⟩
  | some ok =>
    dsimp only
    cases b with
    | false =>
      refine ⟨[], l, hd, by simpa using hw, Or.inl ⟨rfl, hl⟩⟩
    | true =>
      rw [if_pos rfl]
      rcases hn rfl with ⟨hn1, hn2⟩ | ⟨k, hk, rfl, hsp⟩
      · obtain ⟨cmd, po, hold⟩ := n
        dsimp only at hn1 hn2
        subst hn1 hn2
        have hpost : thenLetGo (fun _ => false) (post x) w = (.ok true, letGo w) := by
          simp only [thenLetGo, post, hw.next]
          rfl
        unfold Run.bind ask
        dsimp only [inRun, reply]
        rw [hpost]
        refine ⟨[], l, hd, ⟨by simpa using hw.traced, hw.ran, ?_, hw.it, hw.next⟩, Or.inl ⟨rfl, hl⟩⟩
        have : saidSince w (letGo w) = [] := saidSince_append (ms := []) (by simp [letGo])
        dsimp only
        rw [this]
        simpa [heard] using hw.heard
      revert w
      refine Tri.bind (R := fun r w => ∃ out rs, Garbled x c out rs ∧ (∀ q ∈ rs ++ if r = false then
          [(.runTestFailed, some c.span.display, "failed to run test `".toList ++ k.test ++ "`: ".toList ++ x.outputText out)] else [], ¬ Denied x.warn q.1) ∧ Sit (tr ++ [.startTest c k.test (cfg.ident c.span)]) (ran ++ (l ++ [.looked out]))
        (hd ++ audible x.warn (rs ++ if r = false then
          [(.runTestFailed, some c.span.display, "failed to run test `".toList ++ k.test ++ "`: ".toList ++ x.outputText out)] else [])) it (some n) w) ?_ fun r => ?_
      · refine Then.of fun w hw a w' e => ?_
        unfold ask at e
        simp only [Prod.mk.injEq] at e
        obtain ⟨e1, rfl⟩ := e
        dsimp only [inRun, reply] at e1 ⊢
        obtain ⟨cmd, po, hold⟩ := n
        dsimp only at hk
        subst hk
        obtain ⟨s1, hs1⟩ := thenLetGo_run (fun _ => false) (post x) w
        rw [hs1] at e1 ⊢
        rcases hp : post x w with ⟨r, w'⟩
        rw [hp] at e1
        dsimp only at e1
        subst e1
        obtain ⟨out, rs, hg, h1, h2, h3, st, cs, h4, h5, h6⟩ := post_said hx hw.next hp hsp
        obtain ⟨h4, h7⟩ := h4
        refine ⟨out, rs, hg, ?_, ⟨hw.traced, ?_, ?_, h2.trans hw.it, h3.trans hw.next⟩⟩
        · rw [← h6]
          intro q hq
          obtain ⟨c', hc', rfl⟩ := List.mem_map.1 hq
          exact h7 c' hc'
        · show w'.ext.ran = _
          rw [h1, hw.ran, List.append_assoc]
        · show (spoken (w.out ++ (saidSince w w').map .warning)).map reportOf = _
          rw [saidSince_append h5, heard_calls h4, h6]
          exact congrArg (· ++ _) hw.heard
      · refine Tri.ret _ ?_
        rintro w ⟨out, rs, hg, hd', hw⟩
        refine ⟨[], _, _, hw, Or.inr ⟨l, out, rs, rfl, hg, ?_⟩⟩
        cases r with
        | true => rw [if_neg (by nofun)] at hd' ⊢; rw [if_neg (by rw [if_pos rfl]; nofun)]; exact ⟨rfl, hd'⟩
        | false => rw [if_pos rfl] at hd' ⊢; rw [if_pos (by rw [if_neg (by nofun)])]; exact ⟨rfl, hd'⟩

/-- What `exec` says. -/
def ExecSays (x : Around σ) (plan : Plan) (t : Text) (span : Span) (w w' : World (St σ)) : Res Err (Option Bool) → Prop
  | .ok none => ∃ l, w'.ext.ran = w.ext.ran ++ l ∧ (∀ out, Ran.looked out ∉ l) ∧
      ((plan.names = none ∨ ¬ Follows (.run (plan.prepare span.file)) l (some true)) ∧ w'.out = w.out ∧ w'.ext.it = w.ext.it ∨
      plan.names ≠ none ∧ Follows (.run (plan.prepare span.file)) l (some true) ∧
        (Warned w.ext.it span.file t ∧ w'.out = w.out ∧ w'.ext.it = w.ext.it ∨
        ¬ Warned w.ext.it span.file t ∧ (∀ f' t', Warned w'.ext.it f' t' ↔ Warned w.ext.it f' t' ∨ f' = span.file ∧ t' = t) ∧
          ¬ Denied x.warn .itMessageNotFound ∧ ∃ st, w'.out = w.out ++ (shownFor x.warn st (foreign [⟨.itMessageNotFound, some span.display, ItMessage.notFoundMsg (x.debug t), false⟩])).map .warning))
  | .ok (some b) => ∃ l n, w'.ext.ran = w.ext.ran ++ l ∧ (∀ out, Ran.looked out ∉ l) ∧ w'.out = w.out ∧ w'.ext.it = w.ext.it ∧
      w'.ext.next = some n ∧ (b = true → n.holds = true ∧ n.post = none ∨ ∃ k, n.post = some k ∧ k.test = t ∧ k.span = span)
  | _ => True

/-- What a dry run says. -/
def DrySays (plan : Plan) (f : SourceFile) (w w' : World (St σ)) (r : Res Err Unit) : Prop :=
  w'.out = w.out ∧ ∃ l, w'.ext.ran = w.ext.ran ++ l ∧ (∀ out, Ran.looked out ∉ l) ∧
    match r with
    | .ok _ => ∀ ns, plan.names = some ns → ∀ out, Printed l out → ∀ f' t, Warned w'.ext.it f' t ↔ Warned w.ext.it f' t ∧ ¬ (f' = f ∧ ns.lists out t)
    | .err _ => ∀ f' t, Warned w'.ext.it f' t ↔ Warned w.ext.it f' t
    | _ => True

/-- The backend says what it should. -/
structure Speaks (x : Around σ) (high : High σ) (plan : Plan) (files : SourceFile → Prop) : Prop where
  dry : ∀ f, files f → ∀ w, DrySays plan f w (high.dryRun f w).2 (high.dryRun f w).1
  build : ∀ f, files f → ∀ w, (high.build f w).2.out = w.out ∧ (high.build f w).2.ext.it = w.ext.it ∧
    ∃ l, (high.build f w).2.ext.ran = w.ext.ran ++ l ∧ ∀ out, Ran.looked out ∉ l
  exec : ∀ t span, files span.file → ∀ w, ExecSays x plan t span w (high.exec t span w).2 (high.exec t span w).1

/-- What was said in a step, and how it changed what is noted about warnings. -/
inductive Said (x : Around σ) (plan : Plan) (it it' : Table) : Did → List Report → Prop
  | nothing (s) (dry : ∀ f, s.1 ≠ [.dryRun f]) (unlooked : ∀ out, Ran.looked out ∉ s.2) (met : ∀ f t, ¬ Missed plan f t s)
      (same : ∀ f t, Warned it' f t ↔ Warned it f t) : Said x plan it it' s []
  | dry (f l) (unlooked : ∀ out, Ran.looked out ∉ l)
      (listed : ∀ ns, plan.names = some ns → ∀ out, Printed l out → ∀ f' t, Warned it' f' t ↔ Warned it f' t ∧ ¬ (f' = f ∧ ns.lists out t)) :
      Said x plan it it' ([.dryRun f], l) []
  | looked (c t v es l out r rs) (garbled : Garbled x c out rs) (same : ∀ f t, Warned it' f t ↔ Warned it f t) :
      Said x plan it it' (.buildTest c t :: .startTest c t v :: es ++ [.tested c t r], l ++ [.looked out]) (rs ++ if r = none then
          [(.runTestFailed, some c.span.display, "failed to run test `".toList ++ t ++ "`: ".toList ++ x.outputText out)] else [])
  | missed (c t l) (is : Missed plan c.span.file t ([.buildTest c t, .tested c t (some .nonbuildable)], l)) (new : ¬ Warned it c.span.file t)
      (noted : ∀ f' t', Warned it' f' t' ↔ Warned it f' t' ∨ f' = c.span.file ∧ t' = t) :
      Said x plan it it' ([.buildTest c t, .tested c t (some .nonbuildable)], l)
        [(.itMessageNotFound, some c.span.display, "`it` message ".toList ++ x.debug t ++ " was not found during dry run".toList)]
  | again (c t l) (is : Missed plan c.span.file t ([.buildTest c t, .tested c t (some .nonbuildable)], l)) (old : Warned it c.span.file t)
      (same : ∀ f t, Warned it' f t ↔ Warned it f t) : Said x plan it it' ([.buildTest c t, .tested c t (some .nonbuildable)], l) []

/-- From one state to another there was a step. -/
def Stepped (x : Around σ) (plan : Plan) (w w' : World (St σ)) : Prop :=
  ∃ es l rs, w'.trace.map (·.event) = w.trace.map (·.event) ++ es ∧ w'.ext.ran = w.ext.ran ++ l ∧ (heard w' = heard w ++ audible x.warn rs ∧ ∀ r ∈ rs, ¬ Denied x.warn r.1) ∧
    Said x plan w.ext.it w'.ext.it (es, l) rs

theorem Sit.refl (w : World (St σ)) : Sit (w.trace.map (·.event)) w.ext.ran (Cmd.heard w) w.ext.it w.ext.next w := ⟨rfl, rfl, rfl, rfl, rfl⟩

theorem missed_events {plan : Plan} {f t s} (h : Missed plan f t s) : s.1.length = 2 := by
  obtain ⟨_, c, l, rfl, _⟩ := h; rfl

theorem missed_inj {plan : Plan} {c t l f' t'} (h : Missed plan f' t' ([.buildTest c t, .tested c t (some .nonbuildable)], l)) : f' = c.span.file ∧ t' = t := by
  obtain ⟨_, c', l', e, rfl, _⟩ := h
  simp only [Prod.mk.injEq, List.cons.injEq, Event.buildTest.injEq] at e
  obtain ⟨⟨⟨rfl, rfl⟩, _⟩, _⟩ := e
  exact ⟨rfl, rfl⟩

theorem oneTest_said {plan : Plan} {files : SourceFile → Prop} (hx : x.Mute) (hs : Speaks x high plan files) (cfg : Cfg) (c : Candidate) (ex : Bool) (t : Text)
    (hc : files c.span.file) (w : World (St σ)) : Post (fun _ w' => Stepped x plan w w') (fun _ _ => True) (fun _ => True) (oneTest cfg (inRun x high) c ex t w) := by
  unfold oneTest
  generalize hw1 : ({ w with trace := w.trace ++ [⟨.buildTest c t, w.fs⟩] } : World (St σ)) = w1
  have e1 : w1.trace.map (·.event) = w.trace.map (·.event) ++ [.buildTest c t] := by subst hw1; simp
  have e2 : w1.ext = w.ext := by subst hw1; rfl
  have e3 : w1.out = w.out := by subst hw1; rfl
  refine Tri.bind (P := fun w' => w' = w) (R := fun _ w' => w' = w1) (fun w' e => by subst e; exact hw1) (fun _ => ?_) w rfl
  refine Tri.bind (R := fun o w3 => ∃ w2, ExecSays x plan t c.span w1 w2 (.ok o) ∧ w3.trace = w1.trace ∧ w3.ext = w2.ext ∧
    w3.out = w1.out ++ (saidSince w1 w2).map .warning) (Then.of fun w' e o w3 h => ?_) fun o => ?_
  · subst e
    have he := hs.exec t c.span hc w'
    unfold ask at h
    simp only [Prod.mk.injEq] at h
    obtain ⟨h, rfl⟩ := h
    dsimp only [inRun, reply] at h ⊢
    rw [h] at he
    exact ⟨_, he, rfl, rfl, rfl⟩
  rintro w3 ⟨w2, he, g1, g2, g3⟩
  · cases o with
    | none =>
      cases ex with
      | false => trivial
      | true =>
        obtain ⟨l, h1, h2, h3⟩ := he
        dsimp only
        rw [if_pos rfl]
        generalize hw4 : ({ w3 with trace := w3.trace ++ [⟨.tested c t (some .nonbuildable), w3.fs⟩] } : World (St σ)) = w4
        suffices hst : Stepped x plan w w4 by subst hw4; exact hst
        replace g1 : w4.trace.map (·.event) = w.trace.map (·.event) ++ [.buildTest c t, .tested c t (some .nonbuildable)] := by
          subst hw4; simp [g1, e1]
        replace g2 : w4.ext = w2.ext := by subst hw4; exact g2
        replace g3 : w4.out = w.out ++ (saidSince w1 w2).map .warning := by subst hw4; rw [← e3]; exact g3
        have quiet : w2.out = w1.out → heard w4 = heard w ++ audible x.warn [] ∧ ∀ r ∈ ([] : List Report), ¬ Denied x.warn r.1 := by
          intro hq
          refine ⟨?_, nofun⟩
          have : saidSince w1 w2 = [] := saidSince_append (ms := []) (by simp [hq])
          unfold heard
          rw [g3, this]
          simp [audible]
        rcases h3 with ⟨h3, h4, h5⟩ | ⟨h3, h4, ⟨h5, h6, h7⟩ | ⟨h5, h6, hnd, st, h7⟩⟩
        · refine ⟨_, l, [], g1, by rw [g2, h1, e2], quiet h4, .nothing _ (by intro f e; cases e) h2 ?_ ?_⟩
          · rintro f' t' ⟨hn, c', l', e, rfl, hf⟩
            simp only [Prod.mk.injEq, List.cons.injEq, Event.buildTest.injEq] at e
            obtain ⟨⟨⟨rfl, rfl⟩, _⟩, rfl⟩ := e
            rcases h3 with h3 | h3
            · exact hn h3
            · exact h3 hf
          · intro f t; rw [g2, h5, e2]
        · refine ⟨_, l, [], g1, by rw [g2, h1, e2], quiet h6, .again c t l ⟨h3, c, l, rfl, rfl, h4⟩ (by rw [← e2]; exact h5) ?_⟩
          intro f t; rw [g2, h7, e2]
        · refine ⟨_, l, [(.itMessageNotFound, some c.span.display, "`it` message ".toList ++ x.debug t ++ " was not found during dry run".toList)], g1, by rw [g2, h1, e2], ⟨?_, fun r hr => by rw [List.mem_singleton.1 hr]; exact hnd⟩,
            .missed c t l ⟨h3, c, l, rfl, rfl, h4⟩ (by rw [← e2]; exact h5) (by rw [g2, ← e2]; exact h6)⟩
          unfold heard
          rw [g3, saidSince_append h7, heard_calls]
          · rfl
          · intro k hk
            obtain rfl := List.mem_singleton.1 hk
            exact ⟨Or.inr (Or.inr rfl), rfl⟩
    | some b =>
      obtain ⟨l, n, h1, h2, h3, h4, h5, h6⟩ := he
      dsimp only
      have hsit : Sit (w.trace.map (·.event) ++ [.buildTest c t]) (w.ext.ran ++ l) (Cmd.heard w) w.ext.it (some n) w3 := by
        refine ⟨by rw [g1]; exact e1, by rw [← e2, g2]; exact h1, ?_, by rw [← e2, g2]; exact h4, by rw [g2]; exact h5⟩
        have : saidSince w1 w2 = [] := saidSince_append (ms := []) (by simp [h3])
        unfold heard
        rw [g3, this, e3]; simp
      have key : Then (Sit (w.trace.map (·.event) ++ [.buildTest c t]) (w.ext.ran ++ l) (Cmd.heard w) w.ext.it (some n))
          (Run.bind (performExec cfg (inRun x high) c t b) fun res => Run.bind (note (.tested c t res)) fun _ => ret res) fun _ w' => Stepped x plan w w' := by
        refine Tri.bind (performExec_said hx cfg c t b h6) fun res => ?_
        rintro w4 ⟨es, l', hd', hw4, hcase⟩
        show Stepped x plan w _
        rcases hcase with ⟨rfl, hl⟩ | ⟨l'', out, rs, rfl, hg, rfl, hnd⟩
        · refine ⟨.buildTest c t :: .startTest c t (cfg.ident c.span) :: es ++ [.tested c t res], l ++ l', [], ?_, ?_, ?_, .nothing _ ?_ ?_ ?_ ?_⟩
          · dsimp only; rw [List.map_append, hw4.traced]; simp
          · dsimp only; rw [hw4.ran]; simp
          · exact ⟨hw4.heard.trans (by simp [audible]), nofun⟩
          · intro f e; cases e
          · intro out hm
            rcases List.mem_append.1 hm with hm | hm
            · exact h2 out hm
            · exact hl out hm
          · intro f t hm
            have := missed_events hm
            simp at this
          · intro f t; dsimp only; rw [hw4.it]
        · refine ⟨.buildTest c t :: .startTest c t (cfg.ident c.span) :: es ++ [.tested c t res], (l ++ l'') ++ [.looked out], _, ?_, ?_, ?_,
            .looked c t _ es _ out res rs hg ?_⟩
          · dsimp only; rw [List.map_append, hw4.traced]; simp
          · dsimp only; rw [hw4.ran]; simp
          · exact ⟨hw4.heard, hnd⟩
          · intro f t; dsimp only; rw [hw4.it]
      exact key w3 hsit

/-- What is known about what was said. -/
def Told (x : Around σ) (plan : Plan) (before : List Report) (h : List Did) (w : World (St σ)) : Prop :=
  ∃ rs, AllReports x plan h rs ∧ (heard w = before ++ audible x.warn rs ∧ ∀ r ∈ rs, ¬ Denied x.warn r.1) ∧
    ∀ ns, plan.names = some ns → ∀ f t, Warned w.ext.it f t ↔ (∃ s ∈ h, Missed plan f t s) ∧ ¬ Known ns h f t

theorem follows_unique {cs l r r'} (h : Follows (.run cs) l r) (h' : Follows (.run cs) l r') : r = r' := by
  generalize ht : Todo.run cs = T at h
  induction h generalizing cs r' with
  | done => cases ht; cases h'; rfl
  | ok c cs o l r ho _ ih =>
    cases ht
    cases h' with
    | ok _ _ _ _ _ _ h' => exact ih h' rfl
    | fails _ _ _ ho' => rw [ho] at ho'; cases ho'
  | fails c cs o ho =>
    cases ht
    cases h' with
    | ok _ _ _ _ _ ho' _ => rw [ho] at ho'; cases ho'
    | fails => rfl
  | broken => cases ht; cases h'; rfl
  | unedited => cases ht; cases h'; rfl
  | yes => cases ht
  | no => cases ht
  | unknown => cases ht

theorem told_step {cfg : Cfg} {plan : Plan} {before h} {w w' : World (St σ)} (hw : At cfg plan h w) (ht : Told x plan before h w) (hf : Further cfg plan h w')
    (hs : Stepped x plan w w') : ∃ s, At cfg plan (h ++ [s]) w' ∧ Told x plan before (h ++ [s]) w' := by
  obtain ⟨⟨es, l⟩, hf⟩ := hf
  refine ⟨_, hf, ?_⟩
  obtain ⟨es', l', rs', h1, h2, ⟨h3, h3'⟩, h4⟩ := hs
  obtain ⟨rs, k1, ⟨k2, k2'⟩, k3⟩ := ht
  have hes : es' = es ∧ l' = l := by
    obtain ⟨⟨a1, a2⟩, b1, b2⟩ := And.intro hw.2.1 hf.2.1
    rw [h1, ← a1] at b1
    rw [h2, ← a2] at b2
    simp only [List.flatMap_append, List.flatMap_cons, List.flatMap_nil, List.append_nil] at b1 b2
    exact ⟨(List.append_cancel_left b1).symm, (List.append_cancel_left b2).symm⟩
  obtain ⟨rfl, rfl⟩ := hes
  have hstep : Step cfg plan h (es', l') := by
    have := hf.1
    generalize hh : h ++ [(es', l')] = hs at this
    cases this with
    | nil => simp at hh
    | snoc h0 s0 _ hst =>
      obtain ⟨rfl, e⟩ := List.append_inj' hh rfl
      cases e; exact hst
  have hmiss : (∀ f t, ¬ Missed plan f t (es', l')) → ∀ f t, (∃ s ∈ h ++ [(es', l')], Missed plan f t s) ↔ ∃ s ∈ h, Missed plan f t s := by
    intro hn f t
    constructor
    · rintro ⟨s, hm, hmi⟩
      rcases List.mem_append.1 hm with hm | hm
      · exact ⟨s, hm, hmi⟩
      · obtain rfl := List.mem_singleton.1 hm; exact absurd hmi (hn f t)
    · rintro ⟨s, hm, hmi⟩; exact ⟨s, List.mem_append_left _ hm, hmi⟩
  have fin : Reports x plan h (es', l') rs' → (∀ ns, plan.names = some ns → ∀ f t, Warned w'.ext.it f t ↔ (∃ s ∈ h ++ [(es', l')], Missed plan f t s) ∧ ¬ Known ns (h ++ [(es', l')]) f t) →
      Told x plan before (h ++ [(es', l')]) w' := fun hr hn =>
    ⟨rs ++ rs', .snoc _ _ _ _ k1 hr, ⟨by rw [h3, k2, audible_append, List.append_assoc], fun r hr => (List.mem_append.1 hr).elim (k2' r) (h3' r)⟩, hn⟩
  have other : (∀ f, es' ≠ [.dryRun f]) → (∀ f t, ¬ Missed plan f t (es', l')) → (∀ f t, Warned w'.ext.it f t ↔ Warned w.ext.it f t) →
      ∀ ns, plan.names = some ns → ∀ f t, Warned w'.ext.it f t ↔ (∃ s ∈ h ++ [(es', l')], Missed plan f t s) ∧ ¬ Known ns (h ++ [(es', l')]) f t := by
    intro a b c ns hns f t
    rw [c, k3 ns hns, hmiss b, known_snoc_other a]
  generalize hd : (es', l') = d at h4
  cases h4 with
  | nothing s dry unlooked met same =>
    subst hd
    exact fin (.nothing _ unlooked met) (other dry met same)
  | dry f l unlooked listed =>
    cases hd
    have met : ∀ f' t, ¬ Missed plan f' t ([.dryRun f], l') := fun f' t hm => by have := missed_events hm; simp at this
    refine fin (.nothing _ unlooked met) fun ns hns f' t => ?_
    have : ∃ out, Printed l' out := by
      generalize hd : ([Event.dryRun f], l') = d at hstep
      cases hstep with
      | dryRun f l _ usable => cases hd; obtain ⟨out, hp, _⟩ := usable ns hns; exact ⟨out, hp⟩
      | _ => cases hd
    obtain ⟨out, hp⟩ := this
    rw [listed ns hns out hp, k3 ns hns, hmiss met, known_snoc_dry hp]
    exact ⟨fun ⟨⟨a, b⟩, c⟩ => ⟨a, fun h => h.elim b c⟩, fun ⟨a, b⟩ => ⟨⟨a, fun h => b (.inl h)⟩, fun h => b (.inr h)⟩⟩
  | looked c t v evs l out r rs0 garbled same =>
    cases hd
    refine fin ?_ (other (by intro f e; cases e) (fun f t hm => by have := missed_events hm; simp at this) same)
    cases r with
    | none => rw [if_pos rfl]; exact .unseen c t _ _ out rs0 garbled
    | some r => rw [if_neg nofun, List.append_nil]; exact .seen c t _ _ out r rs0 garbled
  | missed c t l is new noted =>
    cases hd
    obtain ⟨hn, hunk⟩ : ∃ ns, plan.names = some ns ∧ ¬ Known ns h c.span.file t := by
      generalize hd : ([Event.buildTest c t, Event.tested c t (some Outcome.nonbuildable)], l') = d at hstep
      cases hstep with
      | notBuilt c t l r _ followed why =>
        cases hd
        obtain ⟨_, _, _, e, _, hf⟩ := is
        cases e
        cases follows_unique followed hf
        rcases why with h | ⟨h, _⟩ | ⟨_, h⟩
        · cases h
        · cases h
        · exact h
      | _ => cases hd
    have first : ∀ s ∈ h, ¬ Missed plan c.span.file t s := fun s hs hm => new ((k3 hn hunk.1 _ _).2 ⟨⟨s, hs, hm⟩, hunk.2⟩)
    refine fin (.missed c t _ is first) fun ns hns f' t' => ?_
    rw [noted, k3 ns hns, known_snoc_other (by intro f e; cases e)]
    obtain rfl : hn = ns := by have := hunk.1.symm.trans hns; cases this; rfl
    constructor
    · rintro (⟨⟨s, hs, hm⟩, hk⟩ | ⟨rfl, rfl⟩)
      · exact ⟨⟨s, List.mem_append_left _ hs, hm⟩, hk⟩
      · exact ⟨⟨_, by simp, is⟩, hunk.2⟩
    · rintro ⟨⟨s, hs, hm⟩, hk⟩
      rcases List.mem_append.1 hs with hs | hs
      · exact .inl ⟨⟨s, hs, hm⟩, hk⟩
      · obtain rfl := List.mem_singleton.1 hs
        exact .inr (missed_inj hm)
  | again c t l is old same =>
    cases hd
    obtain ⟨ns0, hns0⟩ := Option.ne_none_iff_exists'.1 is.1
    obtain ⟨⟨s0, hs0, hm0⟩, hk0⟩ := (k3 ns0 hns0 _ _).1 old
    refine fin (.again _ t _ is ⟨s0, hs0, hm0⟩) fun ns hns f' t' => ?_
    rw [same, k3 ns hns, known_snoc_other (by intro f e; cases e)]
    constructor
    · rintro ⟨⟨s, hs, hm⟩, hk⟩
      exact ⟨⟨s, List.mem_append_left _ hs, hm⟩, hk⟩
    · rintro ⟨⟨s, hs, hm⟩, hk⟩
      refine ⟨?_, hk⟩
      rcases List.mem_append.1 hs with hs | hs
      · exact ⟨s, hs, hm⟩
      · obtain rfl := List.mem_singleton.1 hs
        obtain ⟨rfl, rfl⟩ := missed_inj hm
        exact ⟨s0, hs0, hm0⟩

/-- What holds between steps. -/
def TellsAll (x : Around σ) (cfg : Cfg) (plan : Plan) (before : List Report) (w : World (St σ)) : Prop :=
  ∃ h, At cfg plan h w ∧ Told x plan before h w

/-- A step has begun in which nothing was said. -/
def Begun (x : Around σ) (cfg : Cfg) (plan : Plan) (before : List Report) (P : List Did → World (St σ) → Prop) (e : Event) (w : World (St σ)) : Prop :=
  ∃ h w0 l, At cfg plan h w0 ∧ Told x plan before h w0 ∧ P h w ∧ w.trace.map (·.event) = w0.trace.map (·.event) ++ [e] ∧
    w.ext.ran = w0.ext.ran ++ l ∧ (∀ out, Ran.looked out ∉ l) ∧ heard w = heard w0 ∧ ∀ f t, Warned w.ext.it f t ↔ Warned w0.ext.it f t

theorem tells_step {cfg : Cfg} {plan : Plan} {before h} {w w' : World (St σ)} (hw : At cfg plan h w) (ht : Told x plan before h w) (hf : Further cfg plan h w')
    (hs : Stepped x plan w w') : TellsAll x cfg plan before w' :=
  let ⟨_, h⟩ := told_step hw ht hf hs
  ⟨_, h⟩

/-- A step in which nothing is said. -/
theorem stepped_quiet {plan : Plan} {w w' : World (St σ)} {es l} (h1 : w'.trace.map (·.event) = w.trace.map (·.event) ++ es) (h2 : w'.ext.ran = w.ext.ran ++ l)
    (h3 : heard w' = heard w) (h4 : ∀ f t, Warned w'.ext.it f t ↔ Warned w.ext.it f t) (h5 : ∀ out, Ran.looked out ∉ l) (h6 : ∀ f, es ≠ [.dryRun f])
    (h7 : ∀ c t, .buildTest c t ∉ es) : Stepped x plan w w' := by
  refine ⟨es, l, [], h1, h2, ⟨by rw [h3]; simp [audible], nofun⟩, .nothing _ h6 h5 ?_ h4⟩
  rintro f t ⟨_, c, l, e, _⟩
  cases e
  exact h7 c t (by simp)

theorem begun_note {cfg : Cfg} {plan : Plan} {before P e e'} {w : World (St σ)} (hb : Begun x cfg plan before P e w)
    (hP : ∀ h, P h w → Further cfg plan h { w with trace := w.trace ++ [⟨e', w.fs⟩] }) (he : ∀ c t, e ≠ .buildTest c t) (he' : ∀ c t, e' ≠ .buildTest c t) :
    TellsAll x cfg plan before { w with trace := w.trace ++ [⟨e', w.fs⟩] } := by
  obtain ⟨h, w0, l, h1, h2, h3, h4, h5, h6, h7, h8⟩ := hb
  refine tells_step h1 h2 (hP h h3) (stepped_quiet (es := [e, e']) (l := l) (by simp [h4]) h5 h7 h8 h6 (by intro f e; cases e) ?_)
  intro c t hm
  simp only [List.mem_cons, List.not_mem_nil, or_false] at hm
  rcases hm with hm | hm
  · exact he c t hm.symm
  · exact he' c t hm.symm

theorem TellsAll.frame {cfg : Cfg} {plan : Plan} {before} {w w' : World (St σ)} (ht : w'.trace.map (·.event) = w.trace.map (·.event)) (hr : w'.ext.ran = w.ext.ran)
    (hi : w'.ext.it = w.ext.it) (hs : spoken w'.out = spoken w.out) (h : TellsAll x cfg plan before w) : TellsAll x cfg plan before w' := by
  unfold TellsAll At Told heard at h ⊢
  rw [ht, hr, hi, hs]; exact h

theorem TellsAll.over {cfg : Cfg} {plan : Plan} {before} {w : World (St σ)} {result} : TellsAll x cfg plan before w → Over cfg plan result w :=
  fun ⟨h, h1, _⟩ => Inv.over ⟨h, h1⟩

theorem spoken_mute {out : List Line} {ms : List WarnMsg} (h : ms = []) : spoken (out ++ ms.map .warning) = spoken out := by subst h; simp

theorem tellRules {plan : Plan} {files : SourceFile → Prop} (hx : x.Mute) (hi : Implements x high plan files) (hs : Speaks x high plan files) (cfg : Cfg) (before : List Report) :
    Rules cfg (inRun x high) files (fun c => files c.span.file) (TellsAll x cfg plan before) (OverE cfg plan) (Over cfg plan .hang)
      (fun f => Begun x cfg plan before (FailedAt cfg plan f) (.dryRun f)) (fun f => Begun x cfg plan before (NotBuiltAt cfg plan f) (.buildFile f)) where
  frame w w' ht hr hs h := h.frame (by rw [ht]) (by rw [hr]) (by rw [hr]) hs
  frameE e w w' ht hr _ h := by cases e <;> exact Over.frame ht hr h
  exits e w h := by cases e <;> exact h.over
  exitsH w h := h.over
  ctrlc_ w b := fun ⟨h, h1, h2⟩ => tells_step h1 h2 (ctrlc_note b h1)
    (stepped_quiet (es := [.ctrlc b]) (l := []) (by simp) (by simp) rfl (fun _ _ => Iff.rfl) (by simp) (by simp) (by simp))
  insert_ w r := fun ⟨h, h1, h2⟩ => tells_step h1 h2 (insert_note r h1)
    (stepped_quiet (es := [.insert r]) (l := []) (by simp) (by simp) rfl (fun _ _ => Iff.rfl) (by simp) (by simp) (by simp))
  ctrlc w h := h.frame rfl rfl rfl rfl
  backup w f h := TellsAll.frame (w := w) rfl rfl rfl (spoken_mute ((hush_inner fun w => hx.backup w f).mute w).2) h
  write w f t h := h.frame rfl rfl rfl rfl
  instrFile w f n h := TellsAll.frame (w := w) rfl rfl rfl (spoken_mute ((hush_inner fun w => hx.instrFile w f n).mute w).2) h
  wrap w s h := TellsAll.frame (w := w) rfl rfl rfl (spoken_mute ((hush_inner fun w => hx.wrap w s).mute w).2) h
  insert w s h := TellsAll.frame (w := w) rfl rfl rfl (spoken_mute ((hush_inner fun w => hx.insert w s).mute w).2) h
  dry f hf := by
    rintro w ⟨h, h1, h2⟩
    have hd := dry_ok hi cfg h f hf w h1
    obtain ⟨k1, l, k2, k3, k4⟩ := hs.dry f hf { w with trace := w.trace ++ [⟨.dryRun f, w.fs⟩] }
    revert hd
    unfold Run.bind note askTry
    dsimp only [inRun, reply]
    generalize hw1 : ({ w with trace := w.trace ++ [⟨.dryRun f, w.fs⟩] } : World (St σ)) = w1 at *
    have e1 : w1.trace.map (·.event) = w.trace.map (·.event) ++ [.dryRun f] := by subst hw1; simp
    have e2 : w1.ext = w.ext := by subst hw1; rfl
    have e3 : w1.out = w.out := by subst hw1; rfl
    have hsaid := saidSince_append (w := w1) (w' := (high.dryRun f w1).2) (ms := []) (by simp [k1])
    rw [hsaid]
    generalize high.dryRun f w1 = R at *
    obtain ⟨r, w2⟩ := R
    dsimp only at k1 k2 k3 k4 ⊢
    have e : ∀ ws, ∃ w3 : World (St σ), w3 = { w with warns := ws, out := w.out ++ ([] : List WarnMsg).map .warning, trace := w.trace ++ [⟨.dryRun f, w.fs⟩], ext := w2.ext } ∧
        w3.trace.map (·.event) = w.trace.map (·.event) ++ [.dryRun f] ∧ w3.ext.ran = w.ext.ran ++ l ∧ heard w3 = heard w ∧ w3.ext.it = w2.ext.it :=
      fun ws => ⟨_, rfl, by simp, by rw [← e2]; exact k2, by simp [heard], rfl⟩
    obtain ⟨w3, e0, e4, e5, e6, e7⟩ := e w2.warns
    cases r with
    | ok a =>
      dsimp only at k4 ⊢
      subst hw1
      rw [← e0]
      intro hd
      refine tells_step h1 h2 hd ⟨[.dryRun f], l, [], e4, e5, ⟨by rw [e6]; simp [audible], nofun⟩, .dry f l k3 ?_⟩
      rw [e7]; exact k4
    | err er =>
      dsimp only at k4 ⊢
      subst hw1
      rw [← e0]
      intro hd
      refine ⟨h, w, l, h1, h2, hd, e4, e5, k3, e6, ?_⟩
      rw [e7]; exact k4
    | panic => exact id
    | hang => exact id
  failed f w h := begun_note h (fun _ => failed_note) nofun nofun
  build f hf := by
    rintro w ⟨h, h1, h2⟩
    have hd := build_ok hi cfg h f hf w h1
    obtain ⟨k1, k4, l, k2, k3⟩ := hs.build f hf { w with trace := w.trace ++ [⟨.buildFile f, w.fs⟩] }
    revert hd
    unfold Run.bind note askTry
    dsimp only [inRun, reply]
    generalize hw1 : ({ w with trace := w.trace ++ [⟨.buildFile f, w.fs⟩] } : World (St σ)) = w1 at *
    have e2 : w1.ext = w.ext := by subst hw1; rfl
    have hsaid := saidSince_append (w := w1) (w' := (high.build f w1).2) (ms := []) (by simp [k1])
    rw [hsaid]
    generalize high.build f w1 = R at *
    obtain ⟨r, w2⟩ := R
    dsimp only at k1 k2 k3 k4 ⊢
    have e : ∀ ws, ∃ w3 : World (St σ), w3 = { w with warns := ws, out := w.out ++ ([] : List WarnMsg).map .warning, trace := w.trace ++ [⟨.buildFile f, w.fs⟩], ext := w2.ext } ∧
        w3.trace.map (·.event) = w.trace.map (·.event) ++ [.buildFile f] ∧ w3.ext.ran = w.ext.ran ++ l ∧ heard w3 = heard w ∧ w3.ext.it = w.ext.it :=
      fun ws => ⟨_, rfl, by simp, by rw [← e2]; exact k2, by simp [heard], by rw [← e2]; exact k4⟩
    obtain ⟨w3, e0, e4, e5, e6, e7⟩ := e w2.warns
    cases r with
    | ok a =>
      subst hw1
      dsimp only
      rw [← e0]
      intro hd
      exact tells_step h1 h2 hd (stepped_quiet e4 e5 e6 (by intro f t; rw [e7]) k3 (by simp) (by simp))
    | err er =>
      subst hw1
      dsimp only
      rw [← e0]
      intro hd
      exact ⟨h, w, l, h1, h2, hd, e4, e5, k3, e6, by intro f t; rw [e7]⟩
    | panic => exact id
    | hang => exact id
  buildFailed f w h := begun_note h (fun _ => notBuilt_note) nofun nofun
  test c ex t hc ht := by
    rintro w ⟨h, h1, h2⟩
    have a := test_ok hi cfg h c ex t hc ht w h1
    have b := oneTest_said hx hs cfg c ex t hc w
    revert a b
    generalize oneTest cfg (inRun x high) c ex t w = R
    obtain ⟨r, w'⟩ := R
    cases r with
    | ok o => exact fun a b => tells_step h1 h2 a b
    | err e => exact fun a _ => a
    | panic => exact fun a _ => a
    | hang => exact fun a _ => a

/-- What the frameworks say in a run that succeeds. -/
theorem tells {plan : Plan} {files : SourceFile → Prop} (hx : x.Mute) (hi : Implements x high plan files) (hs : Speaks x high plan files) (cfg : Cfg)
    (fcs : List (SourceFile × List Candidate)) (hf : ∀ p ∈ fcs, files p.1 ∧ ∀ c ∈ p.2, files c.span.file) (w : World (St σ)) (hw : Fresh w)
    (hok : (runFiles cfg (inRun x high) fcs w).1 = .ok ()) :
    ∃ hist rs, History cfg plan hist ∧ Explains hist ((runFiles cfg (inRun x high) fcs w).2.trace.map (·.event)) (runFiles cfg (inRun x high) fcs w).2.ext.ran ∧
      AllReports x plan hist rs ∧ heard (runFiles cfg (inRun x high) fcs w).2 = heard w ++ audible x.warn rs ∧ ∀ r ∈ rs, ¬ Denied x.warn r.1 := by
  obtain ⟨hw, hr, hit⟩ := hw
  have h0 : TellsAll x cfg plan (heard w) w := by
    refine ⟨[], ⟨.nil, ?_, fun ns _ f t => ?_⟩, [], .nil, ⟨by simp [audible], nofun⟩, fun ns _ f t => ?_⟩
    · rw [hw, hr]; exact ⟨rfl, rfl⟩
    · rw [hit]
      constructor
      · rintro ⟨_, _, h, _⟩; exact absurd h List.not_mem_nil
      · rintro ⟨m, h, _⟩; cases h
    · rw [hit]
      constructor
      · rintro ⟨m, h, _⟩; cases h
      · rintro ⟨⟨_, h, _⟩, _⟩; exact absurd h List.not_mem_nil
  have h1 := (tellRules hx hi hs cfg (heard w)).tRunFiles fcs hf w h0
  generalize runFiles cfg (inRun x high) fcs w = R at *
  obtain ⟨r, w'⟩ := R
  dsimp only at hok
  subst hok
  obtain ⟨hist, ⟨a, b, _⟩, rs, c, ⟨d, e⟩, _⟩ := h1
  exact ⟨hist, rs, a, b, c, d, e⟩
end
end Cmd
end Necessist
