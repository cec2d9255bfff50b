import Verif.Props.Anchor
/-!
# C62: Anchor.toml in a run
-/
namespace Necessist.Anchor
open Run

variable {α σ : Type} {word : Char → Bool}

/-- The calls made since the log was `seen0` saw the Anchor.toml they should have seen. -/
def LogOk (a : Anchor) (x : Around σ) (orig : Text) (seen0 : List (Call × Text)) (s : St σ) : Prop :=
  ∃ l, s.seen = seen0 ++ l ∧ ∀ e ∈ l, Sees a x.shown x.render orig e

/-- Nothing is patched. -/
structure Quiet (a : Anchor) (x : Around σ) (orig : Text) (seen0 : List (Call × Text)) (s : St σ) : Prop where
  toml : s.toml = orig
  held : s.held = none
  log : LogOk a x orig seen0 s

/-- Anchor.toml is patched for `f`. -/
structure Patched (a : Anchor) (x : Around σ) (orig : Text) (seen0 : List (Call × Text)) (f : SourceFile) (check : Bool) (s : St σ) : Prop where
  toml : ∃ doc v xx, Extra a.runner check xx ∧
    OnlyTest a.document doc v (.str (a.pre ++ x.shown f ++ a.suf ++ xx) [] []) ∧ s.toml = x.render doc
  log : LogOk a x orig seen0 s

theorem LogOk.snoc {a : Anchor} {x : Around σ} {orig : Text} {seen0 : List (Call × Text)} {s s' : St σ} {e : Call × Text}
    (h : LogOk a x orig seen0 s) (he : Sees a x.shown x.render orig e) (hs : s'.seen = s.seen ++ [e]) : LogOk a x orig seen0 s' := by
  obtain ⟨l, h1, h2⟩ := h
  refine ⟨l ++ [e], by rw [hs, h1, List.append_assoc], fun e' he' => ?_⟩
  rcases List.mem_append.1 he' with h | h
  · exact h2 _ h
  · rw [List.mem_singleton.1 h]; exact he

theorem LogOk.same {a : Anchor} {x : Around σ} {orig : Text} {seen0 : List (Call × Text)} {s s' : St σ}
    (h : LogOk a x orig seen0 s) (hs : s'.seen = s.seen) : LogOk a x orig seen0 s' := by
  obtain ⟨l, h1, h2⟩ := h
  exact ⟨l, by rw [hs, h1], h2⟩

section
variable {a : Anchor} {x : Around σ} {orig : Text} {seen0 : List (Call × Text)}


theorem inner_tri {P : St σ → Prop} (hP : ∀ s r, P s → P { s with rest := r }) (f : World σ → Reply σ α) :
    Tri (fun w => P w.ext) (inner f) (fun _ w => P w.ext) (fun _ w => P w.ext) fun w => P w.ext := by
  intro w hw
  have : P { w.ext with rest := (f (forget w)).ext } := hP _ _ hw
  unfold inner
  dsimp only
  cases (f (forget w)).res <;> exact this

theorem call_calm {c : Call} (hc : Sees a x.shown x.render orig (c, orig)) (f : World σ → Reply σ α) : Run.Tame (Quiet a x orig seen0) (Quiet a x orig seen0) (LogOk a x orig seen0) (call c f) := by
  intro w hw
  have : Quiet a x orig seen0 { w.ext with seen := w.ext.seen ++ [(c, w.ext.toml)], rest := (f (forget w)).ext } :=
    ⟨hw.toml, hw.held, hw.log.snoc (by rw [hw.toml]; exact hc) rfl⟩
  unfold call
  dsimp only
  cases (f (forget w)).res with
  | hang => exact this.log
  | _ => exact this

theorem command_tri {P : World (St σ) → Prop} (c : Call) (hP : ∀ w, P w → LogOk a x orig seen0 w.ext ∧ Sees a x.shown x.render orig (c, w.ext.toml))
    (f : World σ → Text → Reply σ α) (hd : Option (Text × Bool)) (hh : ∀ w, P w → w.ext.held = hd) :
    Tri P (command x c f) (fun _ w => LogOk a x orig seen0 w.ext ∧ w.ext.held = hd) (fun _ w => LogOk a x orig seen0 w.ext ∧ w.ext.held = hd)
      fun w => LogOk a x orig seen0 w.ext := by
  intro w hw
  have h1 : LogOk a x orig seen0 { w.ext with
      toml := x.leaves c (forget w) w.ext.toml, seen := w.ext.seen ++ [(c, w.ext.toml)], rest := (f (forget w) w.ext.toml).ext } :=
    (hP w hw).1.snoc (hP w hw).2 rfl
  have h2 := hh w hw
  unfold command
  dsimp only
  cases (f (forget w) w.ext.toml).res with
  | hang => exact h1
  | _ => exact ⟨h1, h2⟩

theorem writePatch_tri (ha : create word doc = .ok a) (f : SourceFile) (chk : Bool) :
    Tri (fun w => LogOk a x orig seen0 w.ext ∧ w.ext.held = none) (writePatch a x f chk)
      (fun _ w => Patched a x orig seen0 f chk w.ext ∧ w.ext.held = none) (fun _ w => LogOk a x orig seen0 w.ext ∧ w.ext.held = none)
      fun w => LogOk a x orig seen0 w.ext := by
  have hdoc : a.document = doc := by
    unfold create at ha
    split at ha
    · cases ha
    · rename_i he
      cases ha
      obtain ⟨v, v', ho, hv⟩ := (editTestScript_iff _ _ _ _).1 he
      obtain ⟨rfl, _⟩ := parseTestValue_ok hv
      exact onlyTest_refl ho
  obtain ⟨doc', s, b, e, name, xx, h1, hx, h2, _, _⟩ := C62_patch doc a ha (x.shown f) chk
  intro w hw
  unfold writePatch
  rw [h1]
  dsimp only
  unfold writeToml
  rcases x.write (forget w) (x.render doc') with ⟨_ | left, rest⟩
  · exact ⟨⟨⟨doc', _, xx, hx, hdoc ▸ h2, rfl⟩, hw.1.same rfl⟩, hw.2⟩
  · exact ⟨hw.1.same rfl, hw.2⟩

theorem whilePatched_calm (ha : create word doc = .ok a) (f : SourceFile) (chk : Bool) {m : M (St σ) α}
    (hm : Tri (fun w => Patched a x orig seen0 f chk w.ext ∧ w.ext.held = none) m
      (fun _ w => LogOk a x orig seen0 w.ext ∧ w.ext.held = none) (fun _ w => LogOk a x orig seen0 w.ext ∧ w.ext.held = none)
      fun w => LogOk a x orig seen0 w.ext) : Run.Tame (Quiet a x orig seen0) (Quiet a x orig seen0) (LogOk a x orig seen0) (whilePatched a x f chk m) := by
  refine Tri.bind (R := fun _ w => Quiet a x orig seen0 w.ext) ?_ fun _ w hw => ?_
  · exact (inner_tri (P := Quiet a x orig seen0) (fun s r h => ⟨h.toml, h.held, h.log.same rfl⟩) _).exits (fun _ _ h => h) fun _ h => h.log
  · refine Tri.finally (P := fun w' => w' = w) (Q' := fun _ w => Quiet a x orig seen0 w.ext) (E' := fun _ w => Quiet a x orig seen0 w.ext)
      (Q := fun _ w => LogOk a x orig seen0 w.ext ∧ w.ext.held = none) (E := fun _ w => LogOk a x orig seen0 w.ext ∧ w.ext.held = none)
      (H := fun w => LogOk a x orig seen0 w.ext) ?_ ?_ ?_ w rfl
    · refine Tri.bind (R := fun _ w => Patched a x orig seen0 f chk w.ext ∧ w.ext.held = none) ?_ fun _ => hm
      exact (writePatch_tri ha f chk).pre fun w' h => h ▸ ⟨hw.log, hw.held⟩
    · exact fun _ w' h => ⟨hw.toml, h.2, h.1.same rfl⟩
    · exact fun _ w' h => ⟨hw.toml, h.2, h.1.same rfl⟩

theorem check_calm (ha : create word doc = .ok a) (f : SourceFile) : Run.Tame (Quiet a x orig seen0) (Quiet a x orig seen0) (LogOk a x orig seen0) (check a x f) := by
  refine whilePatched_calm ha f true ?_
  refine Tri.bind (R := fun _ w => LogOk a x orig seen0 w.ext ∧ w.ext.held = none) ?_ fun s => ?_
  · exact command_tri (.check f) (fun w h => ⟨h.1.log, h.1.toml⟩) _ none fun w h => h.2
  · cases s
    · exact Tri.fail _ fun _ h => h
    · exact Tri.ret _ fun _ h => h

theorem dryRun_calm (ha : create word doc = .ok a) (f : SourceFile) : Run.Tame (Quiet a x orig seen0) (Quiet a x orig seen0) (LogOk a x orig seen0) (dryRun a x f) := by
  refine .bind (call_calm (c := .install) rfl _) fun _ => .bind (check_calm ha f) fun _ => ?_
  exact whilePatched_calm ha f false (command_tri (.dryRun f) (fun w h => ⟨h.1.log, h.1.toml⟩) _ none fun w h => h.2)

/-- The backup is in the closure. -/
def Owned (a : Anchor) (x : Around σ) (orig : Text) (seen0 : List (Call × Text)) (s : St σ) : Prop :=
  LogOk a x orig seen0 s ∧ ∃ b, s.held = some (orig, b)

theorem exec_tri (ha : create word doc = .ok a) (t : Text) (span : Span) :
    Tri (fun w => Quiet a x orig seen0 w.ext) (exec a x t span)
      (fun r w => (∀ b, r = some b → b = true ∧ Patched a x orig seen0 span.file false w.ext ∧ Owned a x orig seen0 w.ext) ∧
        (r = none → Quiet a x orig seen0 w.ext)) (fun _ w => Quiet a x orig seen0 w.ext) fun w => LogOk a x orig seen0 w.ext := by
  have hp : Tri (fun w => Quiet a x orig seen0 w.ext) (patchedExec a x t span)
      (fun r w => (∀ b, r = some b → b = true ∧ Patched a x orig seen0 span.file false w.ext ∧ Owned a x orig seen0 w.ext) ∧
        (r = none → Quiet a x orig seen0 w.ext)) (fun _ w => Quiet a x orig seen0 w.ext) fun w => LogOk a x orig seen0 w.ext := by
    refine Tri.bind (R := fun _ w => Quiet a x orig seen0 w.ext) ?_ fun _ w hw => ?_
    · exact (inner_tri (P := Quiet a x orig seen0) (fun s r h => ⟨h.toml, h.held, h.log.same rfl⟩) _).exits (fun _ _ h => h)
        fun _ h => h.log
    · have hb : Tri (fun w' => w' = w)
          (bind (writePatch a x span.file false) fun _ => inner fun w => x.base.exec w t span)
          (fun _ w => Patched a x orig seen0 span.file false w.ext ∧ w.ext.held = none)
          (fun _ w => LogOk a x orig seen0 w.ext ∧ w.ext.held = none) fun w => LogOk a x orig seen0 w.ext := by
        refine Tri.bind (R := fun _ w => Patched a x orig seen0 span.file false w.ext ∧ w.ext.held = none) ?_ fun _ => ?_
        · exact (writePatch_tri ha _ _).pre fun w' h => h ▸ ⟨hw.log, hw.held⟩
        · refine (inner_tri (P := fun s => Patched a x orig seen0 span.file false s ∧ s.held = none)
            (fun s r h => ⟨⟨h.1.toml, h.1.log.same rfl⟩, h.2⟩) _).exits (fun _ _ h => ⟨h.1.log, h.2⟩) fun _ h => h.1.log
      have := hb w rfl
      rcases hm : bind (writePatch a x span.file false) (fun _ => inner fun w => x.base.exec w t span) w with ⟨r, w'⟩
      rw [hm] at this
      dsimp only
      cases r with
      | ok o =>
        cases o with
        | some b =>
          obtain ⟨h1, h2⟩ := this
          refine ⟨fun b' hb' => ?_, fun h => nomatch h⟩
          cases hb'
          exact ⟨rfl, ⟨h1.toml, h1.log.same rfl⟩, h1.log.same rfl, b, by rw [hw.toml]⟩
        | none => exact ⟨(fun b h => nomatch h), fun _ => ⟨hw.toml, this.2, this.1.log.same rfl⟩⟩
      | err e => exact ⟨hw.toml, this.2, this.1.same rfl⟩
      | panic => exact ⟨hw.toml, this.2, this.1.same rfl⟩
      | hang => exact this
  intro w hw
  have hc := check_calm (x := x) (orig := orig) (seen0 := seen0) ha span.file w hw
  unfold exec
  generalize check a x span.file w = y at *
  obtain ⟨r, w'⟩ := y
  cases r with
  | ok _ => exact hp w' hc
  | err e => exact ⟨(fun b h => nomatch h), fun _ => hc⟩
  | panic => exact hc
  | hang => exact hc

theorem dropHeld_quiet {w : World (St σ)} (h : Owned a x orig seen0 w.ext) : Quiet a x orig seen0 (dropHeld w).ext := by
  obtain ⟨h1, b, h2⟩ := h
  unfold dropHeld
  rw [h2]
  exact ⟨rfl, rfl, h1.same rfl⟩

theorem thenDrop_tri {P : World (St σ) → Prop} (keep : α → Bool) {m : M (St σ) α}
    (h : Tri P m (fun _ w => Owned a x orig seen0 w.ext) (fun _ w => Owned a x orig seen0 w.ext) fun w => LogOk a x orig seen0 w.ext) :
    Tri P (thenDrop keep m)
      (fun r w => if keep r then Owned a x orig seen0 w.ext else Quiet a x orig seen0 w.ext)
      (fun _ w => Quiet a x orig seen0 w.ext) fun w => LogOk a x orig seen0 w.ext := by
  intro w hw
  have := h w hw
  unfold thenDrop
  generalize m w = y at *
  obtain ⟨r, w'⟩ := y
  cases r with
  | ok r =>
    dsimp only [Post] at this ⊢
    split
    · exact this
    · exact dropHeld_quiet this
  | err e => exact dropHeld_quiet this
  | panic => exact dropHeld_quiet this
  | hang => exact this

theorem command_owned {P : World (St σ) → Prop} (c : Call)
    (hP : ∀ w, P w → Owned a x orig seen0 w.ext ∧ Sees a x.shown x.render orig (c, w.ext.toml)) (f : World σ → Text → Reply σ α) :
    Tri P (command x c f) (fun _ w => Owned a x orig seen0 w.ext) (fun _ w => Owned a x orig seen0 w.ext)
      fun w => LogOk a x orig seen0 w.ext := by
  intro w hw
  obtain ⟨⟨h1, b, h2⟩, h3⟩ := hP w hw
  have := command_tri (P := fun w' => w' = w) (a := a) (x := x) (orig := orig) (seen0 := seen0) c (fun w' h => h ▸ ⟨h1, h3⟩) f
    (some (orig, b)) (fun w' h => h ▸ h2) w rfl
  generalize command x c f w = y at *
  obtain ⟨r, w'⟩ := y
  cases r with
  | ok r => exact ⟨this.1, b, this.2⟩
  | err e => exact ⟨this.1, b, this.2⟩
  | panic => exact ⟨this.1, b, this.2⟩
  | hang => exact this

theorem performExec_tri (cfg : Cfg) (c : Candidate) (t : Text) :
    Tri (fun w => Patched a x orig seen0 c.span.file false w.ext ∧ Owned a x orig seen0 w.ext)
      (performExec cfg (inRun a x) c t true)
      (fun _ w => Quiet a x orig seen0 w.ext) (fun _ w => Quiet a x orig seen0 w.ext) fun w => LogOk a x orig seen0 w.ext := by
  refine Tri.bind (R := fun _ w => Patched a x orig seen0 c.span.file false w.ext ∧ Owned a x orig seen0 w.ext) (fun _ h => h) fun _ => ?_
  refine Tri.bind (R := fun p w => if (fun p : Proc => !p.waitFails) p then Owned a x orig seen0 w.ext else Quiet a x orig seen0 w.ext)
    ?_ fun p => ?_
  · refine reply_post (Q := fun p s => if (fun p : Proc => !p.waitFails) p then Owned a x orig seen0 s else Quiet a x orig seen0 s)
      (E := Quiet a x orig seen0) (H := LogOk a x orig seen0) (thenDrop_tri _ ?_)
    exact command_owned (.start c.span.file) (fun w h => ⟨h.2, h.1.toml⟩) _
  · by_cases hw : p.waitFails
    · simp only [hw]
      refine Tri.bind (R := fun _ _ => False) ?_ fun _ _ h => h.elim
      intro w h
      unfold waitFor
      rw [if_pos hw]
      exact h
    · simp only [hw]
      refine Tri.bind (R := fun _ w => Owned a x orig seen0 w.ext) ?_ fun status => ?_
      · intro w h
        have h : Owned a x orig seen0 w.ext := h
        unfold waitFor
        rw [if_neg hw]
        rcases timeoutMs cfg with _ | l <;> rcases p.duration with _ | d
        · exact h.1
        · exact h
        · exact h
        · dsimp only
          split <;> exact h
      · cases status with
        | some success =>
          refine Tri.bind (R := fun _ w => Quiet a x orig seen0 w.ext) ?_ fun _ => .ret _ fun _ h => h
          rw [if_pos trivial]
          refine reply_post (Q := fun _ s => Quiet a x orig seen0 s) (E := Quiet a x orig seen0) (H := LogOk a x orig seen0) ?_
          refine (thenDrop_tri (fun _ => false) ?_).weaken (fun _ h => h) (fun _ _ h => by simpa using h) (fun _ _ h => h) fun _ h => h
          intro w h
          unfold post
          split
          · exact command_owned .post (P := fun w => Owned a x orig seen0 w.ext) (fun w h => ⟨h, trivial⟩) _ w h
          · exact command_owned .post (P := fun w => Owned a x orig seen0 w.ext) (fun w h => ⟨h, trivial⟩) _ w h
        | none =>
          refine Tri.bind (R := fun _ w => Owned a x orig seen0 w.ext) (fun _ h => h) fun _ => ?_
          refine Tri.bind (R := fun _ w => Owned a x orig seen0 w.ext) ?_ fun _ => ?_
          · refine reply_post (Q := fun _ s => Owned a x orig seen0 s) (E := Quiet a x orig seen0) (H := LogOk a x orig seen0) ?_
            refine (thenDrop_tri (fun _ => true) ?_).weaken (fun _ h => h) (fun _ _ h => by simpa using h) (fun _ _ h => h) fun _ h => h
            exact command_owned .kill (fun w h => ⟨h, trivial⟩) _
          · refine Tri.bind (R := fun _ w => Quiet a x orig seen0 w.ext) ?_ fun _ => .ret _ fun _ h => h
            refine reply_post (Q := fun _ s => Quiet a x orig seen0 s) (E := Quiet a x orig seen0) (H := LogOk a x orig seen0) ?_
            refine (thenDrop_tri (fun _ => false) ?_).weaken (fun _ h => h) (fun _ _ h => by simpa using h) (fun _ _ h => h) fun _ h => h
            exact command_owned .reap (fun w h => ⟨h, trivial⟩) _

theorem oneTest_calm (ha : create word doc = .ok a) (cfg : Cfg) (c : Candidate) (explicit : Bool) (t : Text) :
    Run.Tame (Quiet a x orig seen0) (Quiet a x orig seen0) (LogOk a x orig seen0) (oneTest cfg (inRun a x) c explicit t) := by
  refine .bind (.note _) fun _ => ?_
  refine Tri.bind (R := fun r w =>
    (∀ b, r = some b → b = true ∧ Patched a x orig seen0 c.span.file false w.ext ∧ Owned a x orig seen0 w.ext) ∧
        (r = none → Quiet a x orig seen0 w.ext)) ?_ fun r => ?_
  · exact reply_post (Q := fun r s => (∀ b, r = some b → b = true ∧ Patched a x orig seen0 c.span.file false s ∧ Owned a x orig seen0 s) ∧
        (r = none → Quiet a x orig seen0 s)) (E := Quiet a x orig seen0) (H := LogOk a x orig seen0) (exec_tri ha t c.span)
  · refine Tri.bind (R := fun _ w => Quiet a x orig seen0 w.ext) ?_ fun _ => Tame.bind (G := Quiet a x orig seen0) (E := Quiet a x orig seen0) (L := LogOk a x orig seen0) (.note _) fun _ => .ret _
    cases r with
    | some b =>
      intro w h
      obtain ⟨rfl, h1⟩ := h.1 b rfl
      exact performExec_tri cfg c t w h1
    | none =>
      dsimp only
      intro w h
      have h := h.2 rfl
      split
      · exact h
      · exact h

theorem settled (ha : create word doc = .ok a) (cfg : Cfg) : Settled cfg (inRun a x) (Quiet a x orig seen0) (Quiet a x orig seen0) (LogOk a x orig seen0) where
  ctrlc w h := ⟨h.toml, h.held, h.log.snoc (e := (.other, w.ext.toml)) h.toml rfl⟩
  dryRun w f h := reply_calm (dryRun_calm ha f) w h
  backup w f h := reply_calm (call_calm (c := .other) rfl _) w h
  write w f t h := ⟨h.toml, h.held, h.log.snoc (e := (.other, w.ext.toml)) h.toml rfl⟩
  instrFile w f n h := reply_calm (call_calm (c := .other) rfl _) w h
  wrap w s h := reply_calm (call_calm (c := .other) rfl _) w h
  build w f h := reply_calm (check_calm ha f) w h
  insert w s h := reply_calm (call_calm (c := .other) rfl _) w h
  oneTest c e t := oneTest_calm ha cfg c e t
end

/-- Whenever a run ends, Anchor.toml contains what it contained before: whether tests succeed, fail, time out, cannot be started, cannot be
waited for or cannot be killed, and whichever way the run ends. Commands may change Anchor.toml as they like. -/
theorem C62_restored (doc : Doc) (a : Anchor) (ha : create word doc = .ok a) (x : Around σ) (cfg : Cfg)
    (fcs : List (SourceFile × List Candidate)) (w : World (St σ)) (hw : w.ext.held = none)
    (hend : (runFiles cfg (inRun a x) fcs w).1 ≠ .hang) :
    (runFiles cfg (inRun a x) fcs w).2.ext.toml = w.ext.toml := by
  have := (settled (orig := w.ext.toml) (seen0 := w.ext.seen) (x := x) ha cfg).runFiles fcs w ⟨rfl, hw, [], by simp, by simp⟩
  rcases hr : runFiles cfg (inRun a x) fcs w with ⟨r, w'⟩
  rw [hr] at this hend
  cases r with
  | hang => exact absurd rfl hend
  | ok _ => exact this.toml
  | err e => exact this.toml
  | panic => exact this.toml

/-- Whether or not the run ends: `anchor test` is executed with Anchor.toml patched for the file in question, with the script changed and
nothing else. Whenever anything else is done, Anchor.toml contains what it contained at the start. -/
theorem C62_only_while_testing (doc : Doc) (a : Anchor) (ha : create word doc = .ok a) (x : Around σ) (cfg : Cfg)
    (fcs : List (SourceFile × List Candidate)) (w : World (St σ)) (hw : w.ext.held = none) :
    ∃ calls, (runFiles cfg (inRun a x) fcs w).2.ext.seen = w.ext.seen ++ calls ∧
      ∀ e ∈ calls, Sees a x.shown x.render w.ext.toml e := by
  have := (settled (orig := w.ext.toml) (seen0 := w.ext.seen) (x := x) ha cfg).runFiles fcs w ⟨rfl, hw, [], by simp, by simp⟩
  rcases hr : runFiles cfg (inRun a x) fcs w with ⟨r, w'⟩
  rw [hr] at this
  cases r with
  | hang => exact this
  | ok _ => exact this.log
  | err e => exact this.log
  | panic => exact this.log

theorem ask_reply_thenDrop (keep : α → Bool) (f : World (St σ) → Reply (St σ) α) (m : M (St σ) α) (hf : f = reply m) :
    ask (reply (thenDrop keep m)) = thenDrop keep (ask f) := by
  subst hf
  funext w
  unfold ask reply thenDrop
  dsimp only
  generalize m w = y
  obtain ⟨r, w'⟩ := y
  have ho : (dropHeld w').out = w'.out := by unfold dropHeld; split <;> rfl
  have hs : saidSince w (dropHeld w') = saidSince w w' := by unfold saidSince; rw [ho]
  have hd : ∀ o, { w with warns := (dropHeld w').warns, out := o, ext := (dropHeld w').ext } = dropHeld { w with warns := w'.warns, out := o, ext := w'.ext } := by
    intro o
    unfold dropHeld
    dsimp only
    split <;> simp_all
  cases r with
  | ok r =>
    dsimp only
    cases keep r
    · simp only [Bool.false_eq_true, if_false, hs, hd]
    · rfl
  | hang => rfl
  | err e => simp only [hs, hd]
  | panic => simp only [hs, hd]

theorem bind_thenDrop {β : Type} (keep : α → Bool) (m : M (St σ) α) (k k' : α → M (St σ) β)
    (h1 : ∀ r, keep r = true → k' r = finally_ (k r) dropHeld)
    (h2 : ∀ r, keep r = false → ∀ w, finally_ (k r) dropHeld w = k' r (dropHeld w)) :
    bind (thenDrop keep m) k' = finally_ (bind m k) dropHeld := by
  funext w
  unfold thenDrop Run.bind Run.finally_
  dsimp only
  generalize m w = y
  obtain ⟨r, w'⟩ := y
  cases r with
  | ok r =>
    dsimp only
    cases hk : keep r
    · have := h2 r hk w'
      unfold Run.finally_ at this
      simp only [Bool.false_eq_true, if_false]
      exact this.symm
    · have := congrFun (h1 r hk) w'
      unfold Run.finally_ at this
      simp only [if_true]
      exact this
  | hang => rfl
  | err e => rfl
  | panic => rfl

/-- The points at which `inRun` drops the closure are the ends of `perform_exec`, which owns it: the same happens if the closure is dropped
whenever `perform_exec` ends. -/
theorem C62_owner (a : Anchor) (x : Around σ) (cfg : Cfg) (c : Candidate) (t : Text) :
    performExec cfg (inRun a x) c t true = finally_ (performExec cfg (keeping a x) c t true) dropHeld := by
  have hnote : ∀ {β : Type} (e : Event) (k : M (St σ) β), bind (note e) (fun _ => finally_ k dropHeld) = finally_ (bind (note e) fun _ => k) dropHeld :=
    fun _ _ => rfl
  unfold performExec
  rw [← hnote]
  congr 1
  funext _
  have hs : ask (fun w => (inRun a x).start w t c.span (cfg.ident c.span)) =
      thenDrop (fun p => !p.waitFails) (ask fun w => (keeping a x).start w t c.span (cfg.ident c.span)) :=
    ask_reply_thenDrop _ _ _ rfl
  have hp : ask (inRun a x).post = thenDrop (fun _ => false) (ask (keeping a x).post) := ask_reply_thenDrop _ _ _ rfl
  have hk : ask (inRun a x).kill = thenDrop (fun _ => true) (ask (keeping a x).kill) := ask_reply_thenDrop _ _ _ rfl
  have hr : ask (inRun a x).reap = thenDrop (fun _ => false) (ask (keeping a x).reap) := ask_reply_thenDrop _ _ _ rfl
  rw [hs]
  refine bind_thenDrop _ _ _ _ (fun p hp' => ?_) fun p hp' w => ?_
  · have hpost : ∀ success : Bool, bind (if true = true then ask (inRun a x).post else ret true) (fun ran =>
          ret (if ran then some (if success then Outcome.passed else Outcome.failed) else none)) =
        finally_ (bind (if true = true then ask (keeping a x).post else ret true) fun ran =>
          ret (if ran then some (if success then Outcome.passed else Outcome.failed) else none)) dropHeld := by
      intro success
      rw [if_pos rfl, if_pos rfl, hp]
      exact bind_thenDrop _ _ _ _ (fun _ h => nomatch h) fun _ _ _ => rfl
    have hkill : bind (note (.kill c t)) (fun _ => bind (ask (inRun a x).kill) fun _ => bind (ask (inRun a x).reap) fun _ =>
          ret (some Outcome.timedOut)) =
        finally_ (bind (note (.kill c t)) fun _ => bind (ask (keeping a x).kill) fun _ => bind (ask (keeping a x).reap) fun _ =>
          ret (some Outcome.timedOut)) dropHeld := by
      rw [← hnote]
      congr 1
      funext _
      rw [hk]
      refine bind_thenDrop _ _ _ _ (fun _ _ => ?_) fun _ h => nomatch h
      rw [hr]
      exact bind_thenDrop _ _ _ _ (fun _ h => nomatch h) fun _ _ _ => rfl
    have hw : ¬ p.waitFails = true := by simpa using hp'
    funext w
    unfold waitFor
    rw [if_neg hw]
    rcases timeoutMs cfg with _ | l <;> rcases p.duration with _ | d
    · rfl
    · exact congrFun (hpost p.success) w
    · exact congrFun hkill w
    · by_cases hd : d ≤ l
      · have := congrFun (hpost p.success) w
        unfold Run.finally_ Run.bind at this ⊢
        simp only [hd, if_true] at this ⊢
        exact this
      · have := congrFun hkill w
        unfold Run.finally_ Run.bind at this ⊢
        simp only [hd, if_false] at this ⊢
        exact this
  · have hw : p.waitFails = true := by simpa using hp'
    unfold waitFor
    rw [if_pos hw]
    rfl

end Necessist.Anchor
