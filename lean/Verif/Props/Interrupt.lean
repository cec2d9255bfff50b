import Verif.Lemmas.RunChain
import Verif.Spec.Exec
import Verif.Props.RunDemo
/-! C16: Ctrl-C. C08: timeouts. -/
namespace Necessist.Run

variable {σ : Type} (env : Env σ) (cfg : Cfg)

private theorem chained_run (fcs : List (SourceFile × List Candidate)) (w w' : World σ) (r : Res Err Unit) (hf : Fresh w)
    (hr : runFiles cfg env fcs w = (r, w')) :
    Post (fun _ => Ch Between) Stop Stuck (r, w') := by
  rw [← hr]
  refine chain_runFiles cfg env fcs w ⟨?_, ?_⟩
  · intro a x y b h; rw [hf.1] at h; simp at h
  · intro a x h; rw [hf.1] at h; simp at h

private theorem chained_of_run (fcs : List (SourceFile × List Candidate)) (w w' : World σ) (r : Res Err Unit) (hf : Fresh w)
    (hr : runFiles cfg env fcs w = (r, w')) : Chained w'.trace := by
  have := chained_run env cfg fcs w w' r hf hr
  cases r with
  | ok => exact this.1
  | err e => exact this.1
  | panic => exact this.1
  | hang => exact this.1

/-- **C16.** If Ctrl-C is observed, nothing happens afterwards and the run returns the Ctrl-C error. -/
theorem C16_stops (fcs : List (SourceFile × List Candidate)) (w w' : World σ) (r : Res Err Unit) (hf : Fresh w)
    (hr : runFiles cfg env fcs w = (r, w')) (before after : List Snap) (s : Snap)
    (ht : w'.trace = before ++ s :: after) (hs : s.event = .ctrlc true) : after = [] ∧ r = .err .ctrlc := by
  have hafter : after = [] := by
    rcases after with _ | ⟨y, b⟩
    · rfl
    · have := chained_of_run env cfg fcs w w' r hf hr before s y b ht
      rw [hs] at this
      cases hy : y.event <;> rw [hy] at this <;> simp [Follows] at this
  refine ⟨hafter, ?_⟩
  subst hafter
  have := chained_run env cfg fcs w w' r hf hr
  cases r with
  | ok =>
    have := this.2 before s ht
    rw [hs] at this
    exact absurd rfl (calm_between _ this)
  | err e =>
    have := this.2 before s ht hs
    simp only [Option.some.injEq] at this
    rw [this]
  | panic => have := this.2 before s ht hs; simp at this
  | hang => exact absurd hs (this.2 before s ht)

/-- What can have happened since the work `x` without Ctrl-C being looked at. -/
private def Busy (x e : Event) : Prop :=
  match x with
  | .dryRun _ => (∃ f, e = .dryRun f) ∨ ∃ f, e = .dryRunFailed f
  | .tested c _ _ => (∃ t r, e = .tested c t r) ∨ (∃ t, e = .buildTest c t) ∨ (∃ t v, e = .startTest c t v) ∨
      ∃ t, e = .kill c t
  | _ => False

private theorem busy_step {x e e' : Event} (hb : Busy x e) (hf : Follows e e') :
    (∃ b, e' = .ctrlc b) ∨ ¬ MustWait x e' ∧ Busy x e' := by
  cases x with
  | dryRun f =>
    rcases hb with ⟨f, rfl⟩ | ⟨f, rfl⟩ <;> cases e' <;> simp_all [Follows, MustWait, Busy]
  | tested c t r =>
    rcases hb with ⟨t, r, rfl⟩ | ⟨t, rfl⟩ | ⟨t, v, rfl⟩ | ⟨t, rfl⟩ <;> cases e' <;>
      simp_all [Follows, MustWait, Busy]
  | _ => exact hb.elim

private theorem busy_run {tr : List Snap} (hc : Chained tr) {x : Event} {a d : List Snap} (b : List Snap) {s y : Snap}
    (ht : tr = a ++ s :: (b ++ y :: d)) (hs : Busy x s.event) (hy : MustWait x y.event ∨ d = [] ∧ ¬ Busy x y.event) :
    ∃ z ∈ b ++ [y], ∃ b, z.event = .ctrlc b := by
  induction b generalizing a s with
  | nil =>
    rcases busy_step hs (hc a s y d ht) with h | ⟨h1, h2⟩
    · exact ⟨y, by simp, h⟩
    · rcases hy with hy | hy
      · exact absurd hy h1
      · exact absurd h2 hy.2
  | cons z b ih =>
    rcases busy_step hs (hc a s z (b ++ y :: d) ht) with h | ⟨h1, h2⟩
    · exact ⟨z, by simp, h⟩
    · obtain ⟨z', hz', h⟩ := ih (a := a ++ [s]) (by simpa using ht) h2
      exact ⟨z', List.mem_cons_of_mem _ hz', h⟩

private theorem busy_self {x : Event} (h : IsWork x) : Busy x x := by
  cases x <;> simp_all [IsWork, Busy]

/-- **C16.** After a dry run, and after the tests of a candidate, Ctrl-C is looked at, and found not to have been
pressed, before anything is recorded and before any other file or candidate is turned to. -/
theorem C16_checked_first (fcs : List (SourceFile × List Candidate)) (w w' : World σ) (r : Res Err Unit) (hf : Fresh w)
    (hr : runFiles cfg env fcs w = (r, w')) (before between after : List Snap) (x y : Snap)
    (ht : w'.trace = before ++ x :: (between ++ y :: after)) (hx : IsWork x.event) (hy : MustWait x.event y.event) :
    ∃ s ∈ between, s.event = .ctrlc false := by
  obtain ⟨z, hz, b, hb⟩ := busy_run (chained_of_run env cfg fcs w w' r hf hr) between ht (busy_self hx) (Or.inl hy)
  rcases List.mem_append.1 hz with hz | hz
  · cases b with
    | false => exact ⟨z, hz, hb⟩
    | true =>
      obtain ⟨l1, l2, rfl⟩ := List.append_of_mem hz
      have := (C16_stops env cfg fcs w w' r hf hr (before ++ x :: l1) (l2 ++ y :: after) z (by simpa using ht) hb).1
      simp at this
  · rw [List.mem_singleton.1 hz] at hb
    rw [hb] at hy
    exact hy.elim

/-- **C16.** A successful run looked at Ctrl-C after its last dry run or test too, and never found it pressed. -/
theorem C16_success (fcs : List (SourceFile × List Candidate)) (w w' : World σ) (hf : Fresh w)
    (hr : runFiles cfg env fcs w = (.ok (), w')) :
    (∀ s ∈ w'.trace, s.event ≠ .ctrlc true) ∧
    ∀ before x after, w'.trace = before ++ x :: after → IsWork x.event → ∃ s ∈ after, s.event = .ctrlc false := by
  have h1 : ∀ s ∈ w'.trace, s.event ≠ .ctrlc true := by
    intro s hs hc
    obtain ⟨a, b, hab⟩ := List.append_of_mem hs
    have := (C16_stops env cfg fcs w w' _ hf hr a b s hab hc).2
    simp at this
  refine ⟨h1, ?_⟩
  intro a x b ht hx
  have hl := (chained_run env cfg fcs w w' _ hf hr).2
  have hnot : ∀ e, Between e → ¬ Busy x.event e := by
    intro e he
    cases hxe : x.event <;> rw [hxe] at hx <;> simp_all [IsWork, Busy] <;>
      rcases he with rfl | ⟨_, rfl | rfl⟩ | ⟨_, rfl⟩ <;> simp
  rcases List.eq_nil_or_concat b with rfl | ⟨b', y, rfl⟩
  · have := hl a x ht
    exact absurd (busy_self hx) (hnot _ this)
  · obtain ⟨z, hz, c, hc⟩ := busy_run (chained_of_run env cfg fcs w w' _ hf hr) (d := []) b' (by simpa using ht)
      (busy_self hx) (Or.inr ⟨rfl, hnot _ (hl (a ++ x :: b') y (by simpa using ht))⟩)
    refine ⟨z, by simpa using hz, ?_⟩
    cases c with
    | false => exact hc
    | true => exact absurd hc (h1 z (by
        rw [ht]
        simp only [List.mem_append, List.mem_cons, List.mem_singleton, List.concat_eq_append] at hz ⊢
        exact Or.inr (Or.inr hz)))

/-- In the demonstration, Ctrl-C pressed at the third look: the trace ends there, with one row recorded. -/
example : (runFiles Demo.cfg (Demo.env 2 99) Demo.files Demo.start).1 = .err .ctrlc ∧
    ((runFiles Demo.cfg (Demo.env 2 99) Demo.files Demo.start).2.trace.getLast?.map (·.event)) = some (.ctrlc true) ∧
    ((runFiles Demo.cfg (Demo.env 2 99) Demo.files Demo.start).2.trace.map (·.event)).filter
      (fun e => match e with | .tested .. | .insert _ | .ctrlc _ => true | _ => false) =
      [.ctrlc false, .tested Demo.c1 "p".toList (some .passed), .tested Demo.c1 "q".toList (some .failed), .ctrlc false,
       .insert ⟨"t.rs:1:1-1:4".toList, "aa;".toList, "failed".toList, []⟩,
       .tested Demo.c2 "p".toList (some .passed), .ctrlc true] := by decide +kernel

/-! ### C08 -/

/-- The world after an event. -/
def noted (e : Event) (w : World σ) : World σ := { w with trace := w.trace ++ [⟨e, w.fs⟩] }

theorem timeoutMs_spec (option : Option Nat) (h : cfg.timeout = option) (d : Option Nat) :
    Outlives option d ↔ ∃ l, timeoutMs cfg = some l ∧ ∀ x, d = some x → l < x := by
  subst h
  unfold timeoutMs Outlives
  rcases cfg.timeout with _ | _ | n
  · simp
  · simp
  · constructor
    · rintro ⟨s, h1, h2⟩
      simp at h1
      obtain ⟨rfl, -⟩ := h1
      exact ⟨_, rfl, h2⟩
    · rintro ⟨l, h1, h2⟩
      simp only [Option.some.injEq] at h1
      exact ⟨n + 1, Or.inr ⟨rfl, by simp⟩, by rw [h1]; exact h2⟩

/-- **C08.** A finished execution of a test: the process was started (with the candidate's id in `NECESSIST_REMOVAL`)
and waited for; if it outlived the timeout, the result is "timed out", and it was killed and reaped; otherwise the
process finished, and the result is "undetermined" if the backend says that the test did not run, and else "passed" or
"failed" as the process exited. -/
theorem C08_classification (c : Candidate) (t : Text) (hasPost : Bool) (w w' : World σ) (result : Option Outcome)
    (hr : performExec cfg env c t hasPost w = (.ok result, w')) :
    ∃ (p : Proc) (w1 : World σ),
      (env.start (noted (.startTest c t (cfg.ident c.span)) w) t c.span (cfg.ident c.span)).res = .ok p ∧
      w1.trace = w.trace ++ [⟨.startTest c t (cfg.ident c.span), w.fs⟩] ∧
      (Outlives cfg.timeout p.duration →
        result = some .timedOut ∧ w'.trace = w1.trace ++ [⟨.kill c t, w.fs⟩] ∧
        (env.kill (noted (.kill c t) w1)).res = .ok () ∧ ∃ w2, (env.reap w2).res = .ok ()) ∧
      (¬ Outlives cfg.timeout p.duration →
        p.duration ≠ none ∧ w'.trace = w1.trace ∧
        ∃ ran, (hasPost = true → (env.post w1).res = .ok ran) ∧ (hasPost = false → ran = true) ∧
          result = if ran then some (if p.success then .passed else .failed) else none) := by
  unfold performExec at hr
  simp only [bind, note, ask] at hr
  generalize hst : env.start _ _ _ _ = st at hr
  obtain ⟨sres, swarns, sext, ssaid⟩ := st
  have hst' : env.start (noted (.startTest c t (cfg.ident c.span)) w) t c.span (cfg.ident c.span) =
    ⟨sres, swarns, sext, ssaid⟩ := hst
  cases sres with
  | err e => simp at hr
  | panic => simp at hr
  | hang => simp at hr
  | ok p =>
    simp only at hr
    refine ⟨p, { w with trace := w.trace ++ [⟨.startTest c t (cfg.ident c.span), w.fs⟩], warns := swarns, out := w.out ++ ssaid.map .warning, ext := sext },
      by rw [hst'], rfl, ?_⟩
    cases hw : waitFor (timeoutMs cfg) p with
    | err e => rw [hw] at hr; simp at hr
    | panic => rw [hw] at hr; simp at hr
    | hang => rw [hw] at hr; simp at hr
    | ok status =>
      rw [hw] at hr
      have hfails : p.waitFails = false := by
        unfold waitFor at hw
        cases h : p.waitFails with
        | false => rfl
        | true => rw [h] at hw; simp at hw
      have hwait : (∀ s, status = some s → s = p.success ∧ p.duration ≠ none ∧ ¬ Outlives cfg.timeout p.duration) ∧
          (status = none → Outlives cfg.timeout p.duration) := by
        rw [timeoutMs_spec cfg _ rfl]
        unfold waitFor at hw
        rw [hfails] at hw
        cases hl : timeoutMs cfg with
        | none =>
          cases hd : p.duration with
          | none => rw [hl, hd] at hw; simp at hw
          | some d =>
            rw [hl, hd] at hw
            simp at hw
            subst hw
            simp
        | some l =>
          cases hd : p.duration with
          | none =>
            rw [hl, hd] at hw; simp at hw; subst hw; simp
          | some d =>
            rw [hl, hd] at hw
            simp at hw
            by_cases h : d ≤ l
            · rw [if_pos h] at hw
              simp at hw
              subst hw
              simp; omega
            · rw [if_neg h] at hw
              simp at hw
              subst hw
              simp; omega
      cases status with
      | some s =>
        obtain ⟨rfl, hd, ho⟩ := hwait.1 s rfl
        refine ⟨fun h => absurd h ho, fun _ => ⟨hd, ?_⟩⟩
        cases hasPost with
        | false =>
          simp only [Bool.false_eq_true, if_false, ret] at hr
          obtain ⟨h1, h2⟩ := Prod.mk.inj hr
          subst h2
          refine ⟨rfl, true, by simp, by simp, ?_⟩
          simp only [Res.ok.injEq] at h1
          rw [← h1]; rfl
        | true =>
          simp only [if_true, ret, bind, ask] at hr
          generalize hp : env.post _ = pr at hr
          obtain ⟨pres, pw, pe⟩ := pr
          cases pres with
          | ok ran =>
            simp only at hr
            obtain ⟨h1, h2⟩ := Prod.mk.inj hr
            subst h2
            refine ⟨rfl, ran, fun _ => ?_, by simp, ?_⟩
            · rfl
            · simp only [Res.ok.injEq] at h1
              rw [← h1]
          | err e => simp at hr
          | panic => simp at hr
          | hang => simp at hr
      | none =>
        refine ⟨fun _ => ?_, fun h => absurd (hwait.2 rfl) h⟩
        simp only [ret, bind, ask, note] at hr
        generalize hk : env.kill _ = kr at hr
        obtain ⟨kres, kw, ke⟩ := kr
        cases kres with
        | err e => simp at hr
        | panic => simp at hr
        | hang => simp at hr
        | ok u =>
          simp only at hr
          generalize hp : env.reap _ = pr at hr
          obtain ⟨pres, pw, pe⟩ := pr
          cases pres with
          | ok u =>
            simp only at hr
            obtain ⟨h1, h2⟩ := Prod.mk.inj hr
            subst h2
            simp only [Res.ok.injEq] at h1
            refine ⟨h1.symm, rfl, ?_, _, by rw [hp]⟩
            show (env.kill _).res = _
            unfold noted
            rw [hk]
          | err e => simp at hr
          | panic => simp at hr
          | hang => simp at hr

/-- **C08.** Waiting goes on forever only if there is no timeout: with a timeout, an execution whose calls to the
outside all return is finished. -/
theorem C08_hangs_only_without_timeout (c : Candidate) (t : Text) (hasPost : Bool) (w w' : World σ)
    (h1 : ∀ w, (env.start w t c.span (cfg.ident c.span)).res ≠ .hang) (h2 : ∀ w, (env.post w).res ≠ .hang)
    (h3 : ∀ w, (env.kill w).res ≠ .hang) (h4 : ∀ w, (env.reap w).res ≠ .hang)
    (hr : performExec cfg env c t hasPost w = (.hang, w')) : cfg.timeout = some 0 := by
  have hask : ∀ {α} (f : World σ → Reply σ α), (∀ w, (f w).res ≠ .hang) →
      Tri (fun _ => True) (ask f) (fun _ _ => True) (fun _ _ => True) (fun _ => False) := by
    intro α f hf w _
    have := hf w
    unfold ask
    dsimp only
    cases h : (f w).res <;> simp_all [Post]
  have : cfg.timeout = some 0 ∨
      Tri (fun _ => True) (performExec cfg env c t hasPost) (fun _ _ => True) (fun _ _ => True) (fun _ => False) := by
    by_cases ht : cfg.timeout = some 0
    · exact Or.inl ht
    · refine Or.inr ?_
      refine Tri.bind (R := fun _ _ => True) (fun _ _ => trivial) fun _ => Tri.bind (hask _ h1) fun p =>
        Tri.bind (R := fun _ _ => True) ?_ fun status => ?_
      · have : ∃ l, timeoutMs cfg = some l := by
          unfold timeoutMs
          rcases hc : cfg.timeout with _ | _ | n
          · exact ⟨_, rfl⟩
          · exact absurd hc ht
          · exact ⟨_, rfl⟩
        obtain ⟨l, hl⟩ := this
        intro w _
        rw [hl]
        unfold waitFor
        split
        · trivial
        · cases p.duration with
          | none => trivial
          | some d => dsimp only; split <;> trivial
      · cases status with
        | some s =>
          refine Tri.bind (R := fun _ _ => True) ?_ fun _ => Tri.ret _ fun _ _ => trivial
          cases hasPost
          · exact Tri.ret _ fun _ _ => trivial
          · exact hask _ h2
        | none =>
          exact Tri.bind (R := fun _ _ => True) (fun _ _ => trivial) fun _ => Tri.bind (hask _ h3) fun _ =>
            Tri.bind (hask _ h4) fun _ => Tri.ret _ fun _ _ => trivial
  rcases this with h | h
  · exact h
  · have := h w trivial
    rw [hr] at this
    exact this.elim

/-- **C08.** In a run: a candidate's test is found "timed out" exactly if it was killed immediately before,
"nonbuildable" exactly if it was not started; what comes before a result is the building, starting or killing of that
very test. -/
theorem C08_in_a_run (fcs : List (SourceFile × List Candidate)) (w w' : World σ) (r : Res Err Unit) (hf : Fresh w)
    (hr : runFiles cfg env fcs w = (r, w')) (before after : List Snap) (x y : Snap)
    (ht : w'.trace = before ++ x :: y :: after) (c : Candidate) (t : Text) (result : Option Outcome)
    (hy : y.event = .tested c t result) :
    (result = some .timedOut ∧ x.event = .kill c t) ∨
    (result = some .nonbuildable ∧ x.event = .buildTest c t) ∨
    ((result = none ∨ result = some .passed ∨ result = some .failed) ∧ ∃ v, x.event = .startTest c t v) := by
  have := chained_of_run env cfg fcs w w' r hf hr before x y after ht
  rw [hy] at this
  cases hx : x.event with
  | buildTest c' t' => rw [hx] at this; obtain ⟨rfl, rfl, h⟩ := this; exact Or.inr (Or.inl ⟨h, rfl⟩)
  | startTest c' t' v => rw [hx] at this; obtain ⟨rfl, rfl, h⟩ := this; exact Or.inr (Or.inr ⟨h, v, rfl⟩)
  | kill c' t' => rw [hx] at this; obtain ⟨rfl, rfl, h⟩ := this; exact Or.inl ⟨h, rfl⟩
  | ctrlc b => rw [hx] at this; simp [Follows] at this
  | _ => rw [hx] at this; simp [Follows] at this

/-- Non-vacuity: with the default timeout a process of 60 s does not outlive it, one of 60.001 s does; with 0 nothing
does. -/
example : ¬ Outlives none (some 60000) ∧ Outlives none (some 60001) ∧ Outlives none none ∧ ¬ Outlives (some 0) none ∧
    Outlives (some 2) (some 2001) := by
  refine ⟨?_, ⟨60, by simp, by simp⟩, ⟨60, by simp, by simp⟩, ?_, ⟨2, by simp, by simp⟩⟩
  · rintro ⟨s, h1, h2⟩; have := h2 _ rfl; simp at h1; omega
  · rintro ⟨s, h1, -⟩; simp at h1; omega

/-- Non-vacuity: a test that takes 10 ms is classified by its exit status. -/
example : (performExec Demo.cfg (Demo.env 99 99) Demo.c1 "p".toList false Demo.start).1 = .ok (some .passed) ∧
    (performExec Demo.cfg (Demo.env 99 99) Demo.c1 "q".toList false Demo.start).1 = .ok (some .failed) := by
  decide +kernel

end Necessist.Run
