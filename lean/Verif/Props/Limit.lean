import Verif.Spec.Limit
import Verif.Lemmas.RunOwn
/-!
# C89: the limit on the number of threads
-/
namespace Necessist.Limit
open Run

variable {σ α β : Type}

/-! ### The model of `perform_exec` without the limit applies, with `limited` around it -/

/-- Changes only the warnings and the outside world, and prints only warnings. -/
def Plain (m : M σ α) : Prop :=
  ∀ w, ∃ (ws : WStates) (ms : List WarnMsg) (e : σ), (m w).2 = { w with warns := ws, out := w.out ++ ms.map .warning, ext := e }

theorem Plain.bind {m : M σ α} {k : α → M σ β} (h : Plain m) (h' : ∀ a, Plain (k a)) : Plain (Run.bind m k) := by
  intro w
  obtain ⟨ws, ms, e, h1⟩ := h w
  unfold Run.bind
  rcases hm : m w with ⟨r, w'⟩
  rw [hm] at h1
  cases r with
  | ok a =>
    obtain ⟨ws', ms', e', h2⟩ := h' a w'
    refine ⟨ws', ms ++ ms', e', ?_⟩
    dsimp only at h1 ⊢
    rw [h2, h1]
    simp
  | _ => exact ⟨ws, ms, e, h1⟩

theorem Plain.ret (a : α) : Plain (Run.ret a : M σ α) := fun w => ⟨w.warns, [], w.ext, by simp [Run.ret]⟩

theorem Plain.ask (f : World σ → Reply σ α) : Plain (Run.ask f) := by
  intro w
  refine ⟨(f w).warns, (f w).said, (f w).ext, ?_⟩
  unfold Run.ask
  dsimp only

theorem ask_reply {m : M σ α} (h : Plain m) : Run.ask (reply m) = m := by
  funext w
  obtain ⟨ws, ms, e, h1⟩ := h w
  have hs : saidSince w (m w).2 = ms := by
    unfold saidSince
    rw [h1, List.drop_left]
    clear h1
    induction ms with
    | nil => rfl
    | cons a ms ih => exact congrArg (a :: ·) ih
  unfold Run.ask reply
  dsimp only
  rw [hs]
  rcases hm : m w with ⟨r, w'⟩
  rw [hm] at h1
  dsimp only at h1
  subst h1
  cases r <;> rfl

theorem nprocInit_plain (x : Sys σ) : Plain (nprocInit x) := by
  intro w
  unfold nprocInit
  split
  · exact ⟨w.warns, [], w.ext, by simp⟩
  · split
    · exact ⟨w.warns, [], _, by simp; rfl⟩
    · exact ⟨w.warns, [], _, by simp; rfl⟩

theorem setSoft_plain (x : Sys σ) (n : Nat) : Plain (setSoft x n) := by
  refine Plain.bind (fun w => ?_) fun p => Plain.bind (fun w => ?_) fun _ => Plain.ret _
  · unfold getLimits
    split
    · exact ⟨w.warns, [], _, by simp; rfl⟩
    · exact ⟨w.warns, [], _, by simp; rfl⟩
  · unfold setLimits
    split
    · exact ⟨w.warns, [], _, by simp; rfl⟩
    · exact ⟨w.warns, [], _, by simp; rfl⟩

theorem putBack_plain (cfg : Cfg) (x : Sys σ) (n : Nat) (p : Proc) : Plain (putBack cfg x n p) := by
  intro w
  obtain ⟨ws, ms, e, h⟩ := setSoft_plain x n w
  unfold putBack
  split
  · generalize setSoft x n w = y at h ⊢
    obtain ⟨r, w'⟩ := y
    cases r <;> exact ⟨ws, ms, e, h⟩
  · exact ⟨w.warns, [], w.ext, by simp⟩

theorem start_plain (cfg : Cfg) (x : Sys σ) (t : Text) (s : Span) (i : Text) : Plain (start cfg x t s i) :=
  (nprocInit_plain x).bind fun _ => (setSoft_plain x _).bind fun _ => (Plain.ask _).bind fun _ => putBack_plain cfg x _ _

theorem bind_assoc {γ : Type} (m : M σ α) (k : α → M σ β) (l : β → M σ γ) :
    Run.bind (Run.bind m k) l = Run.bind m fun a => Run.bind (k a) l := by
  funext w
  unfold Run.bind
  rcases m w with ⟨r, w'⟩
  cases r <;> rfl

/-- After `setSoft`, nothing but success or an error. -/
theorem setSoft_ends (x : Sys σ) (n : Nat) (w : World (St σ)) :
    (∃ prev w', setSoft x n w = (.ok prev, w')) ∨ ∃ w', setSoft x n w = (.err .io, w') := by
  unfold setSoft getLimits setLimits Run.bind
  dsimp only
  rcases x.get (forget w) with ⟨_ | _, rest⟩
  · exact Or.inr ⟨_, rfl⟩
  · dsimp only
    generalize hw : ({ w with ext := { w.ext with rest } } : World (St σ)) = w'
    rcases x.set (forget w') (min w.ext.hard n) with ⟨_ | _, rest'⟩
    · exact Or.inr ⟨_, rfl⟩
    · exact Or.inl ⟨_, _, rfl⟩

/-- Executing a test with the limit is executing it without, where starting it sets the limit, waits for it, and puts the limit back. -/
theorem C89_model (cfg : Cfg) (x : Sys σ) (c : Candidate) (t : Text) (hasPost : Bool) :
    performExec cfg x c t hasPost = Run.performExec cfg (limited cfg x) c t hasPost := by
  unfold performExec Run.performExec
  congr 1
  funext _
  have hs : (ask fun w => (limited cfg x).start w t c.span (cfg.ident c.span)) = start cfg x t c.span (cfg.ident c.span) :=
    ask_reply (start_plain cfg x t c.span (cfg.ident c.span))
  rw [hs]
  unfold start
  simp only [bind_assoc]
  congr 1
  funext n
  congr 1
  funext prev
  congr 1
  funext p
  funext w
  have hf : ∀ p', p'.waitFails = true → waitFor (timeoutMs cfg) p' = .err .io := by
    intro p' h
    unfold waitFor
    rw [if_pos h]
  unfold putBack Run.bind
  dsimp only
  cases hw : waitFor (timeoutMs cfg) p with
  | ok status =>
    dsimp only
    rcases setSoft_ends x prev w with ⟨prev', w', h⟩ | ⟨w', h⟩
    · rw [h]
      dsimp only
      rw [hw]
      rfl
    · rw [h]
      dsimp only
      rw [hf _ rfl]
  | err e => dsimp only; rw [hw]
  | panic => dsimp only; rw [hw]
  | hang => dsimp only; rw [hw]

/-! ### The limits in a run -/

/-- What is known of the number of threads after `calls`. -/
def after : Option Nat → List (Call × Nat) → Option Nat
  | known, [] => known
  | _, (.count answer, _) :: calls => after answer calls
  | known, (.start _ _, _) :: calls => after known calls
  | known, (.other, _) :: calls => after known calls

/-- Counting the threads has not failed. -/
def Counted (calls : List (Call × Nat)) : Prop := ∀ n, (Call.count none, n) ∉ calls

/-- What the next thing to be executed should see. -/
def Next (soft hard : Nat) (known : Option Nat) : Call × Nat → Prop
  | (.count _, l) => known = none ∧ l = soft
  | (.start _ _, l) => ∃ n, known = some n ∧ l = min hard (n + 1024)
  | (.other, l) => l = soft

theorem Right.snoc {soft hard : Nat} {known : Option Nat} {calls : List (Call × Nat)} {e : Call × Nat} (h : Right soft hard known calls)
    (hc : Counted calls) (he : Next soft hard (after known calls) e) : Right soft hard known (calls ++ [e]) := by
  induction calls generalizing known with
  | nil =>
    obtain ⟨c, l⟩ := e
    cases c with
    | count a => exact ⟨he.1, he.2, fun _ => rfl, trivial⟩
    | start s t => exact ⟨he, trivial⟩
    | other => exact ⟨he, trivial⟩
  | cons x calls ih =>
    obtain ⟨c, l⟩ := x
    have hc' : Counted calls := fun n hn => hc n (List.mem_cons_of_mem _ hn)
    cases c with
    | count a =>
      refine ⟨h.1, h.2.1, fun ha => ?_, ih h.2.2.2 hc' he⟩
      subst ha
      exact absurd (List.mem_cons_self) (hc l)
    | start s t => exact ⟨h.1, ih h.2 hc' he⟩
    | other => exact ⟨h.1, ih h.2 hc' he⟩

theorem after_snoc (known : Option Nat) (calls : List (Call × Nat)) (c : Call) (l : Nat) :
    after known (calls ++ [(c, l)]) = match c with | .count a => a | _ => after known calls := by
  induction calls generalizing known with
  | nil => cases c <;> rfl
  | cons x calls ih =>
    obtain ⟨c', l'⟩ := x
    cases c' with
    | count a => exact ih a
    | start s t => exact ih known
    | other => exact ih known

section
variable {s0 h0 : Nat} {k0 : Option Nat} {seen0 : List (Call × Nat)}

/-- What has been executed was executed with the limits that it should have been executed with. -/
structure Log (s0 h0 : Nat) (k0 : Option Nat) (seen0 l : List (Call × Nat)) (s : St σ) : Prop where
  seen : s.seen = seen0 ++ l
  right : Right s0 h0 k0 l
  init : after k0 l = s.init
  counted : Counted l
  hard : s.hard = h0

/-- No test is executing. -/
def Quiet (s0 h0 : Nat) (k0 : Option Nat) (seen0 : List (Call × Nat)) (s : St σ) : Prop :=
  s.soft = s0 ∧ ∃ l, Log s0 h0 k0 seen0 l s

/-- A test is executing or about to be executed. -/
def Ready (s0 h0 : Nat) (k0 : Option Nat) (seen0 : List (Call × Nat)) (s : St σ) : Prop :=
  ∃ n, s.init = some n ∧ s.soft = min h0 (n + 1024) ∧ ∃ l, Log s0 h0 k0 seen0 l s

def Running (s0 h0 : Nat) (k0 : Option Nat) (seen0 : List (Call × Nat)) (s : St σ) : Prop :=
  ∃ l, Log s0 h0 k0 seen0 l s ∧ EndsInTest l

/-- The run is over. -/
def Over (s0 h0 : Nat) (k0 : Option Nat) (seen0 : List (Call × Nat)) (s : St σ) : Prop :=
  ∃ l, s.seen = seen0 ++ l ∧ Right s0 h0 k0 l ∧ s.hard = h0 ∧ (s.soft = s0 ∨ EndsInTest l)

theorem Quiet.over {s : St σ} (h : Quiet s0 h0 k0 seen0 s) : Over s0 h0 k0 seen0 s := by
  obtain ⟨h1, l, h2⟩ := h
  exact ⟨l, h2.seen, h2.right, h2.hard, Or.inl h1⟩

theorem Running.over {s : St σ} (h : Running s0 h0 k0 seen0 s) : Over s0 h0 k0 seen0 s := by
  obtain ⟨l, h1, h2⟩ := h
  exact ⟨l, h1.seen, h1.right, h1.hard, Or.inr h2⟩

instance : Weaker (Quiet (σ := σ) s0 h0 k0 seen0) (Over s0 h0 k0 seen0) := ⟨fun _ h => h.over⟩

theorem Log.same {l : List (Call × Nat)} {s s' : St σ} (h : Log s0 h0 k0 seen0 l s) (h1 : s'.seen = s.seen) (h2 : s'.init = s.init)
    (h3 : s'.hard = s.hard) : Log s0 h0 k0 seen0 l s' :=
  ⟨h1.trans h.seen, h.right, h.init.trans h2.symm, h.counted, h3.trans h.hard⟩

theorem Log.snoc {l : List (Call × Nat)} {s s' : St σ} {c : Call} {n : Nat} (h : Log s0 h0 k0 seen0 l s) (hc : ∀ a, c ≠ .count a)
    (hn : Next s0 h0 s.init (c, n)) (h1 : s'.seen = s.seen ++ [(c, n)]) (h2 : s'.init = s.init) (h3 : s'.hard = s.hard) :
    Log s0 h0 k0 seen0 (l ++ [(c, n)]) s' where
  seen := by rw [h1, h.seen, List.append_assoc]
  right := h.right.snoc h.counted (h.init ▸ hn)
  init := by
    rw [after_snoc, h2, ← h.init]
    cases c with
    | count a => exact absurd rfl (hc a)
    | _ => rfl
  counted := fun m hm => by
    rcases List.mem_append.1 hm with hm | hm
    · exact h.counted m hm
    · have := List.mem_singleton.1 hm
      injection this with this _
      exact hc _ this.symm
  hard := h3.trans h.hard

/-- Something other than a test is executed. -/
theorem call_quiet {s : St σ} (h : Quiet s0 h0 k0 seen0 s) (rest : σ) :
    Quiet s0 h0 k0 seen0 { s with seen := s.seen ++ [(.other, s.soft)], rest } := by
  obtain ⟨h1, l, h2⟩ := h
  exact ⟨h1, _, h2.snoc (c := .other) (n := s.soft) nofun h1 rfl rfl rfl⟩

theorem call_other {f : World σ → Nat → Reply σ α} (w : World (St σ)) (h : Quiet s0 h0 k0 seen0 w.ext) {E : St σ → Prop}
    [k : Weaker (Quiet s0 h0 k0 seen0) E] : (call .other f w).Tame (Quiet s0 h0 k0 seen0) E (Over s0 h0 k0 seen0) := by
  have := call_quiet h (f (forget w) w.ext.soft).ext
  unfold call Reply.Tame
  dsimp only
  cases (f (forget w) w.ext.soft).res with
  | ok _ => exact this
  | err e => exact k.weaker _ this
  | panic => exact k.weaker _ this
  | hang => exact this.over

theorem nprocInit_tri (x : Sys σ) :
    Tri (fun w => Quiet s0 h0 k0 seen0 w.ext) (nprocInit x)
      (fun n w => Quiet s0 h0 k0 seen0 w.ext ∧ w.ext.init = some n) (fun _ w => Over s0 h0 k0 seen0 w.ext) fun _ => False := by
  intro w h
  unfold nprocInit
  split
  · rename_i n hn
    exact ⟨h, hn⟩
  · rename_i hn
    obtain ⟨h1, l, h2⟩ := h
    have hr : ∀ a, Right s0 h0 k0 (l ++ [(Call.count a, w.ext.soft)]) := fun a =>
      h2.right.snoc h2.counted ⟨h2.init.trans hn, h1⟩
    split
    · rename_i n rest _
      refine ⟨⟨h1, l ++ [(.count (some n), w.ext.soft)], ?_, hr _, ?_, ?_, h2.hard⟩, rfl⟩
      · dsimp only
        rw [h2.seen, List.append_assoc]
      · exact after_snoc _ _ _ _
      · intro m hm
        rcases List.mem_append.1 hm with hm | hm
        · exact h2.counted m hm
        · exact absurd (List.mem_singleton.1 hm) nofun
    · refine ⟨_, ?_, hr none, h2.hard, Or.inl h1⟩
      dsimp only
      rw [h2.seen, List.append_assoc]

/-- `setSoft` changes the soft limit, or it does not. -/
theorem setSoft_ext (x : Sys σ) (n : Nat) (w : World (St σ)) :
    (∃ w', setSoft x n w = (.ok w.ext.soft, w') ∧ w'.ext.seen = w.ext.seen ∧ w'.ext.init = w.ext.init ∧ w'.ext.hard = w.ext.hard ∧
      w'.ext.soft = min w.ext.hard n) ∨
    ∃ w', setSoft x n w = (.err .io, w') ∧ w'.ext.seen = w.ext.seen ∧ w'.ext.init = w.ext.init ∧ w'.ext.hard = w.ext.hard ∧
      w'.ext.soft = w.ext.soft := by
  unfold setSoft getLimits setLimits Run.bind
  dsimp only
  rcases x.get (forget w) with ⟨_ | _, rest⟩
  · exact Or.inr ⟨_, rfl, rfl, rfl, rfl, rfl⟩
  · dsimp only
    rcases x.set (forget { w with ext := { w.ext with rest } }) (min w.ext.hard n) with ⟨_ | _, rest'⟩
    · exact Or.inr ⟨_, rfl, rfl, rfl, rfl, rfl⟩
    · exact Or.inl ⟨_, rfl, rfl, rfl, rfl, rfl⟩

theorem start_tri (cfg : Cfg) (x : Sys σ) (hs : s0 ≤ h0) (t : Text) (s : Span) (i : Text) :
    Tri (fun w => Quiet s0 h0 k0 seen0 w.ext) (start cfg x t s i)
      (fun p w => (∃ status, waitFor (timeoutMs cfg) p = .ok status) ∧ Quiet s0 h0 k0 seen0 w.ext ∨
        (∀ status, waitFor (timeoutMs cfg) p ≠ .ok status) ∧ Over s0 h0 k0 seen0 w.ext)
      (fun _ w => Over s0 h0 k0 seen0 w.ext) fun w => Over s0 h0 k0 seen0 w.ext := by
  refine Tri.bind (R := fun n w => Quiet s0 h0 k0 seen0 w.ext ∧ w.ext.init = some n)
    ((nprocInit_tri x).weaken (fun _ h => h) (fun _ _ h => h) (fun _ _ h => h) fun _ h => h.elim) fun n => ?_
  refine Tri.bind (R := fun prev w => prev = s0 ∧ Ready s0 h0 k0 seen0 w.ext) ?_ fun prev => ?_
  · rintro w ⟨⟨h1, l, h2⟩, h3⟩
    rcases setSoft_ext x (n + allowance) w with ⟨w', e, a, b, c, d⟩ | ⟨w', e, a, b, c, d⟩ <;> rw [e]
    · exact ⟨h1, n, b.trans h3, by rw [d, h2.hard]; rfl, l, h2.same a b c⟩
    · exact ⟨l, a.trans h2.seen, h2.right, c.trans h2.hard, Or.inl (d.trans h1)⟩
  refine Tri.bind (R := fun _ w => prev = s0 ∧ Running s0 h0 k0 seen0 w.ext) ?_ fun p => ?_
  · rintro w ⟨hp, m, h1, h2, l, h3⟩
    have : Running s0 h0 k0 seen0 { w.ext with
        seen := w.ext.seen ++ [(.start s t, w.ext.soft)], rest := (x.start (forget w) w.ext.soft t s i).ext } := 
      ⟨_, h3.snoc (c := .start s t) (n := w.ext.soft) nofun ⟨m, h1, h2⟩ rfl rfl rfl, _, _, _, _, rfl⟩
    unfold ask
    show Post _ _ _ (match (x.start (forget w) w.ext.soft t s i).res with | _ => _)
    dsimp only [unlimited, call]
    cases (x.start (forget w) w.ext.soft t s i).res with
    | ok p => exact ⟨hp, this⟩
    | err e => exact this.over
    | panic => exact this.over
    | hang => exact this.over
  · rintro w ⟨rfl, h⟩
    unfold putBack
    split
    · rename_i status hw
      obtain ⟨l, h1, h2⟩ := h
      rcases setSoft_ext x prev w with ⟨w', e, a, b, c, d⟩ | ⟨w', e, a, b, c, d⟩ <;> rw [e]
      · exact Or.inl ⟨⟨status, hw⟩, by rw [d, h1.hard]; exact Nat.min_eq_right hs, l, h1.same a b c⟩
      · refine Or.inr ⟨fun status h => ?_, l, a.trans h1.seen, h1.right, c.trans h1.hard, Or.inr h2⟩
        unfold waitFor at h
        rw [if_pos rfl] at h
        cases h
    · rename_i hw
      exact Or.inr ⟨fun status h => hw status h, h.over⟩

theorem oneTest_tame (cfg : Cfg) (x : Sys σ) (hs : s0 ≤ h0) (c : Candidate) (explicit : Bool) (t : Text) :
    Run.Tame (Quiet s0 h0 k0 seen0) (Over s0 h0 k0 seen0) (Over s0 h0 k0 seen0) (oneTest cfg (limited cfg x) c explicit t) := by
  refine .bind (.note _) fun _ => .bind (.ask fun w h => call_other w h) fun r => .bind ?_ fun _ => .bind (.note _) fun _ => .ret _
  cases r with
  | none =>
    dsimp only
    split
    · exact .ret _
    · exact .panics
  | some hasPost =>
    refine .bind (.note _) fun _ => ?_
    refine Tri.bind (R := fun p w => (∃ status, waitFor (timeoutMs cfg) p = .ok status) ∧ Quiet s0 h0 k0 seen0 w.ext ∨
        (∀ status, waitFor (timeoutMs cfg) p ≠ .ok status) ∧ Over s0 h0 k0 seen0 w.ext) ?_ fun p => ?_
    · show Tri _ (ask (reply (start cfg x t c.span (cfg.ident c.span)))) _ _ _
      rw [ask_reply (start_plain _ _ _ _ _)]
      exact start_tri cfg x hs t _ _
    · refine Tri.bind (R := fun _ w => Quiet s0 h0 k0 seen0 w.ext) ?_ fun status => ?_
      · rintro w (⟨⟨status, h1⟩, h2⟩ | ⟨h1, h2⟩)
        · rw [h1]; exact h2
        · cases hw : waitFor (timeoutMs cfg) p with
          | ok status => exact absurd hw (h1 status)
          | _ => exact h2
      · cases status with
        | some success =>
          refine Run.Tame.bind (G := Quiet s0 h0 k0 seen0) (E := Over s0 h0 k0 seen0) (L := Over s0 h0 k0 seen0) ?_ fun _ => .ret _
          split
          · exact .ask fun w h => call_other w h
          · exact .ret _
        | none =>
          refine Run.Tame.bind (G := Quiet s0 h0 k0 seen0) (E := Over s0 h0 k0 seen0) (L := Over s0 h0 k0 seen0) (.note _) fun _ =>
            .bind (.ask fun w h => call_other w h) fun _ => .bind (.ask fun w h => call_other w h) fun _ => .ret _

theorem settled (cfg : Cfg) (x : Sys σ) (hs : s0 ≤ h0) :
    Settled cfg (limited cfg x) (Quiet s0 h0 k0 seen0) (Over s0 h0 k0 seen0) (Over s0 h0 k0 seen0) where
  ctrlc _ h := call_quiet h _
  dryRun w _ h := call_other w h
  backup w _ h := call_other w h
  write _ _ _ h := call_quiet h _
  instrFile w _ _ h := call_other w h
  wrap w _ h := call_other w h
  build w _ h := call_other w h
  insert w _ h := call_other w h
  oneTest c e t := oneTest_tame cfg x hs c e t
end

/-- Whichever way a run ends, and also if it does not end: the threads are counted at most once, before the first test, every test is
executed with 1024 more than that as its soft limit (or the hard limit if that is less), and everything else is executed with the soft limit
that Necessist was started with. The hard limit is never changed. If the soft limit is not put back, then the last thing that was executed
is a test. -/
theorem C89_limits (cfg : Cfg) (x : Sys σ) (fcs : List (SourceFile × List Candidate)) (w : World (St σ)) (hs : w.ext.soft ≤ w.ext.hard) :
    ∃ calls, (runFiles cfg (limited cfg x) fcs w).2.ext.seen = w.ext.seen ++ calls ∧
      Right w.ext.soft w.ext.hard w.ext.init calls ∧
      (runFiles cfg (limited cfg x) fcs w).2.ext.hard = w.ext.hard ∧
      ((runFiles cfg (limited cfg x) fcs w).2.ext.soft = w.ext.soft ∨ EndsInTest calls) := by
  have := (settled (s0 := w.ext.soft) (h0 := w.ext.hard) (k0 := w.ext.init) (seen0 := w.ext.seen) cfg x hs).runFiles fcs w
    ⟨rfl, [], by simp, trivial, rfl, (fun _ h => nomatch h), rfl⟩
  rcases hr : runFiles cfg (limited cfg x) fcs w with ⟨r, w'⟩
  rw [hr] at this
  cases r with
  | ok _ => exact Quiet.over this
  | _ => exact this

/-- When a run succeeds, the soft limit is what it was when the run started. -/
theorem C89_restored (cfg : Cfg) (x : Sys σ) (fcs : List (SourceFile × List Candidate)) (w : World (St σ)) (hs : w.ext.soft ≤ w.ext.hard)
    (hok : (runFiles cfg (limited cfg x) fcs w).1 = .ok ()) :
    (runFiles cfg (limited cfg x) fcs w).2.ext.soft = w.ext.soft := by
  have := (settled (s0 := w.ext.soft) (h0 := w.ext.hard) (k0 := w.ext.init) (seen0 := w.ext.seen) cfg x hs).runFiles fcs w
    ⟨rfl, [], by simp, trivial, rfl, (fun _ h => nomatch h), rfl⟩
  rcases hr : runFiles cfg (limited cfg x) fcs w with ⟨r, w'⟩
  rw [hr] at this hok
  cases hok
  exact this.1

end Necessist.Limit
