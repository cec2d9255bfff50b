import Verif.Model.Warn
/-!
# C28, C29, C30: warnings

The specification speaks only of the options, the calls made so far and what they printed.
-/
namespace Necessist

/-- Denied: itself, or through `--deny all`. -/
def Denied (o : WarnOpts) (w : Warning) : Prop := .all ∈ o.deny ∨ w ∈ o.deny

/-- Allowed: itself, or through `--allow all`. -/
def Allowed (o : WarnOpts) (w : Warning) : Prop := .all ∈ o.allow ∨ w ∈ o.allow

/-- The three kinds the documentation of the tool calls potential bugs. -/
def PotentialBug (w : Warning) : Prop :=
  w = .instrumentationNonbuildable ∨ w = .modulePathUnknown ∨ w = .runTestFailed

/-- Call number `j` was about `w` and printed a message. -/
def PrintedAt (cs : List WarnCall) (rs : List WarnResult) (j : Nat) (w : Warning) : Prop :=
  (∃ c, cs[j]? = some c ∧ c.warning = w) ∧ ∃ m, rs[j]? = some (.print m)

/-- Call number `j` was about `w`. -/
def CalledAt (cs : List WarnCall) (j : Nat) (w : Warning) : Prop := ∃ c, cs[j]? = some c ∧ c.warning = w

/-! ## helper lemmas -/

private theorem hist_length (o) (st) (cs) : (warnHistory o st cs).length = cs.length := by
  induction cs generalizing st with
  | nil => rfl
  | cons c cs ih => simp [warnHistory, ih]

private theorem hist_take (o) (st) (l : List WarnCall) (n : Nat) :
    warnHistory o st (l.take n) = (warnHistory o st l).take n := by
  induction l generalizing st n with
  | nil => simp [warnHistory]
  | cons d ds ih => cases n with
    | zero => simp [warnHistory]
    | succ n => simp [warnHistory, ih]

/-- State after a history. -/
private def stAfter (o : WarnOpts) (st : WStates) (cs : List WarnCall) : WStates :=
  cs.foldl (fun st c => (warnInternal o st c).2) st

private theorem hist_get (o) (st) (cs : List WarnCall) (i : Nat) (c : WarnCall) (h : cs[i]? = some c) :
    (warnHistory o st cs)[i]? = some (warnInternal o (stAfter o st (cs.take i)) c).1 := by
  induction cs generalizing st i with
  | nil => simp at h
  | cons d ds ih =>
    cases i with
    | zero => simp at h; subst h; simp [warnHistory, stAfter]
    | succ i =>
      simp at h
      simp only [warnHistory, List.getElem?_cons_succ, List.take_succ_cons]
      rw [ih _ _ h]; simp [stAfter]

/-- The state after a history says exactly what happened in it. -/
private theorem stAfter_spec (o : WarnOpts) (cs : List WarnCall) (w : Warning) (hw : w ≠ .all) :
    let rs := warnHistory o .init cs
    let s := stAfter o .init cs w
    (s.bugMsg = true ↔ mayBeBug w = true ∧ ∃ j, CalledAt cs j w) ∧
    (s.emitted = true ↔ ∃ j, PrintedAt cs rs j w) ∧ s.allowMsg = s.emitted := by
  suffices H : ∀ n ≤ cs.length,
      let s := stAfter o .init (cs.take n) w
      (s.bugMsg = true ↔ mayBeBug w = true ∧ ∃ j, j < n ∧ CalledAt cs j w) ∧
      (s.emitted = true ↔ ∃ j, j < n ∧ PrintedAt cs (warnHistory o .init cs) j w) ∧ s.allowMsg = s.emitted by
    have := H cs.length (Nat.le_refl _)
    simp only [List.take_length] at this
    refine ⟨?_, ?_, this.2.2⟩
    · rw [this.1]
      refine and_congr_right fun _ => ⟨fun ⟨j, _, h⟩ => ⟨j, h⟩, fun ⟨j, h⟩ => ⟨j, ?_, h⟩⟩
      obtain ⟨c, hc, _⟩ := h
      exact (List.getElem?_eq_some_iff.1 hc).1
    · rw [this.2.1]
      refine ⟨fun ⟨j, _, h⟩ => ⟨j, h⟩, fun ⟨j, h⟩ => ⟨j, ?_, h⟩⟩
      obtain ⟨⟨c, hc, _⟩, _⟩ := h
      exact (List.getElem?_eq_some_iff.1 hc).1
  intro n
  induction n with
  | zero => intro _; simp [stAfter, WStates.init]
  | succ n ih =>
    intro hn
    have ih := ih (by omega)
    have hlt : n < cs.length := by omega
    have hget : cs[n]? = some cs[n] := List.getElem?_eq_getElem hlt
    have hh := hist_get o .init cs n cs[n] hget
    rw [List.take_succ_eq_append_getElem hlt]
    generalize hc : cs[n] = c at *
    have hst : stAfter o .init (cs.take n ++ [c]) = (warnInternal o (stAfter o .init (cs.take n)) c).2 := by
      simp [stAfter]
    rw [hst]
    generalize stAfter o .init (cs.take n) = st at *
    have split1 : (∃ j, j < n + 1 ∧ CalledAt cs j w) ↔ (∃ j, j < n ∧ CalledAt cs j w) ∨ c.warning = w := by
      constructor
      · rintro ⟨j, hj, h⟩
        rcases Nat.lt_succ_iff_lt_or_eq.1 hj with h' | rfl
        · exact .inl ⟨j, h', h⟩
        · obtain ⟨d, hd, e⟩ := h; rw [hget] at hd; cases hd; exact .inr e
      · rintro (⟨j, hj, h⟩ | h)
        · exact ⟨j, by omega, h⟩
        · exact ⟨n, by omega, c, hget, h⟩
    have split2 : (∃ j, j < n + 1 ∧ PrintedAt cs (warnHistory o .init cs) j w) ↔
        (∃ j, j < n ∧ PrintedAt cs (warnHistory o .init cs) j w) ∨
          (c.warning = w ∧ ∃ m, (warnInternal o st c).1 = .print m) := by
      constructor
      · rintro ⟨j, hj, h⟩
        rcases Nat.lt_succ_iff_lt_or_eq.1 hj with h' | rfl
        · exact .inl ⟨j, h', h⟩
        · obtain ⟨⟨d, hd, e⟩, m, hm⟩ := h
          rw [hget] at hd; cases hd
          rw [hh] at hm; exact .inr ⟨e, m, by simpa using hm⟩
      · rintro (⟨j, hj, h⟩ | ⟨h, m, hm⟩)
        · exact ⟨j, by omega, h⟩
        · exact ⟨n, by omega, ⟨c, hget, h⟩, m, by rw [hh, hm]⟩
    rw [split1, split2, ← ih.2.1]
    have ih1 := ih.1
    have ih3 := ih.2.2
    by_cases hcw : c.warning = w
    · subst hcw
      unfold warnInternal
      rw [if_neg hw]
      dsimp only
      split
      · refine ⟨?_, ?_, ?_⟩ <;> simp [WStates.set, ih3]
        rcases hb : mayBeBug c.warning <;> rcases hs : (st c.warning).bugMsg <;> simp_all
      · split
        · refine ⟨?_, ?_, ?_⟩ <;> simp [WStates.set, ih3]
          rcases hb : mayBeBug c.warning <;> rcases hs : (st c.warning).bugMsg <;> simp_all
        · refine ⟨?_, ?_, ?_⟩ <;> simp [WStates.set]
          rcases hb : mayBeBug c.warning <;> rcases hs : (st c.warning).bugMsg <;> simp_all
    · have hne : w ≠ c.warning := fun h => hcw h.symm
      have : (warnInternal o st c).2 w = st w := by
        unfold warnInternal
        split
        · rfl
        · dsimp only; split
          · simp [WStates.set, hne]
          · split <;> simp [WStates.set, hne]
      rw [this]
      simp only [hcw, or_false, false_and]
      exact ⟨ih1, trivial, ih3⟩

private theorem contains_iff (l : List Warning) (w : Warning) : l.contains w = true ↔ w ∈ l := by simp

/-! ## C28 -/

/-- **C28.** In every state left by any history of earlier warnings, a call about `w` is turned into an error
carrying the caller's message iff `w` is denied; `--allow`, `--quiet` and the once flag have no influence. -/
theorem C28_denied_always_aborts (o : WarnOpts) (cs : List WarnCall) (i : Nat) (c : WarnCall)
    (hc : cs[i]? = some c) (hw : c.warning ≠ .all) :
    (∃ m, (warnHistory o .init cs)[i]? = some (.bail m) ∧ m.warning = c.warning ∧ m.msg = c.msg ∧
      m.source = c.source) ↔ Denied o c.warning := by
  rw [hist_get o .init cs i c hc]
  unfold warnInternal Denied
  rw [if_neg hw]
  dsimp only
  rw [← contains_iff, ← contains_iff, ← Bool.or_eq_true]
  split
  · rename_i h
    exact ⟨fun _ => h, fun _ => ⟨_, rfl, rfl, rfl, rfl⟩⟩
  · rename_i h
    refine ⟨fun ⟨m, hm, _⟩ => ?_, fun h' => absurd h' h⟩
    split at hm <;> simp at hm

/-- **C28.** The outcome of a warning does not depend on the history as far as errors are concerned: with the
same options, two calls about the same warning both fail or both succeed. -/
theorem C28_history_independent (o : WarnOpts) (st st' : WStates) (c : WarnCall) :
    (∃ m, (warnInternal o st c).1 = .bail m) ↔ (∃ m, (warnInternal o st' c).1 = .bail m) := by
  unfold warnInternal
  split
  · simp
  · dsimp only; split
    · simp
    · constructor <;> intro ⟨m, h⟩ <;> split at h <;> simp at h

/-! ## C29 -/

/-- **C29.** The `i`-th call of any history prints (exactly one message, the caller's) iff the warning is not
denied, not allowed, quiet is not set, and it is not a once-only call whose warning was printed before. -/
theorem C29_prints_iff (o : WarnOpts) (cs : List WarnCall) (i : Nat) (c : WarnCall)
    (hc : cs[i]? = some c) (hw : c.warning ≠ .all) :
    (∃ m, (warnHistory o .init cs)[i]? = some (.print m) ∧ m.warning = c.warning ∧ m.msg = c.msg ∧
        m.source = c.source) ↔
      ¬ Denied o c.warning ∧ ¬ Allowed o c.warning ∧ o.quiet = false ∧
        ¬ (c.once = true ∧ ∃ j < i, PrintedAt cs (warnHistory o .init cs) j c.warning) := by
  have hs := (stAfter_spec o (cs.take i) c.warning hw).2.1
  have hpre : (∃ j, PrintedAt (cs.take i) (warnHistory o .init (cs.take i)) j c.warning) ↔
      ∃ j < i, PrintedAt cs (warnHistory o .init cs) j c.warning := by
    have hlen : i < cs.length := (List.getElem?_eq_some_iff.1 hc).1
    have htake : warnHistory o .init (cs.take i) = (warnHistory o .init cs).take i := hist_take _ _ _ _
    rw [htake]
    constructor
    · rintro ⟨j, ⟨d, hd, e⟩, m, hm⟩
      have hj : j < i := by
        have := (List.getElem?_eq_some_iff.1 hd).1
        simp at this; omega
      rw [List.getElem?_take_of_lt hj] at hd hm
      exact ⟨j, hj, ⟨d, hd, e⟩, m, hm⟩
    · rintro ⟨j, hj, ⟨d, hd, e⟩, m, hm⟩
      exact ⟨j, ⟨d, by rw [List.getElem?_take_of_lt hj]; exact hd, e⟩, m, by
        rw [List.getElem?_take_of_lt hj]; exact hm⟩
  rw [← hpre, ← hs, hist_get o .init cs i c hc]
  unfold warnInternal Denied Allowed
  rw [if_neg hw]
  dsimp only
  simp only [← contains_iff]
  split
  · rename_i h; simp at h ⊢; intro h1; rcases h with h | h <;> simp_all
  · rename_i h
    split
    · rename_i h2; simp at h h2 ⊢; intro _ _ h3 h4 h5; simp_all
    · rename_i h2; simp at h h2 ⊢; simp_all

/-! ## C30 -/

/-- **C30.** A once-only call prints nothing if the warning was printed earlier in the history: over any history
in which all calls about `w` are once-only, at most one of them prints. -/
theorem C30_once_prints_at_most_once (o : WarnOpts) (cs : List WarnCall) (w : Warning) (hw : w ≠ .all)
    (hall : ∀ c ∈ cs, c.warning = w → c.once = true) (i j : Nat)
    (hi : PrintedAt cs (warnHistory o .init cs) i w) (hj : PrintedAt cs (warnHistory o .init cs) j w) :
    i = j := by
  suffices H : ∀ i j, i < j → PrintedAt cs (warnHistory o .init cs) i w →
      ¬ PrintedAt cs (warnHistory o .init cs) j w by
    rcases Nat.lt_trichotomy i j with h | h | h
    · exact absurd hj (H i j h hi)
    · exact h
    · exact absurd hi (H j i h hj)
  intro i j hlt hi hj
  obtain ⟨⟨c, hc, rfl⟩, m, hm⟩ := hj
  have hm' := hm
  rw [hist_get o .init cs j c hc] at hm'
  have hmm : m.warning = c.warning ∧ m.msg = c.msg ∧ m.source = c.source := by
    unfold warnInternal at hm'
    rw [if_neg hw] at hm'
    dsimp only at hm'
    split at hm'
    · simp at hm'
    · split at hm'
      · simp at hm'
      · simp at hm'; subst hm'; simp
  have := (C29_prints_iff o cs j c hc hw).1 ⟨m, hm, hmm⟩
  exact this.2.2.2 ⟨hall c (List.mem_of_getElem? hc) rfl, i, hlt, hi⟩

/-- **C30.** The `--allow` hint is attached to a printed message iff it is the first message printed for that
warning (so at most once per warning), and never to an error. -/
theorem C30_allow_hint_first_print (o : WarnOpts) (cs : List WarnCall) (i : Nat) (c : WarnCall)
    (hc : cs[i]? = some c) (hw : c.warning ≠ .all) (m : WarnMsg)
    (hm : (warnHistory o .init cs)[i]? = some (.print m)) :
    m.allowHint = true ↔ ¬ ∃ j < i, PrintedAt cs (warnHistory o .init cs) j c.warning := by
  have hs := (stAfter_spec o (cs.take i) c.warning hw).2
  have key : m.allowHint = true ↔ (stAfter o .init (cs.take i) c.warning).emitted = false := by
    rw [hist_get o .init cs i c hc] at hm
    unfold warnInternal at hm
    rw [if_neg hw] at hm
    dsimp only at hm
    split at hm
    · simp at hm
    · split at hm
      · simp at hm
      · simp at hm; subst hm; simp [hs.2]
  rw [key, ← Bool.not_eq_true, hs.1]
  have htake : warnHistory o .init (cs.take i) = (warnHistory o .init cs).take i := hist_take _ _ _ _
  rw [htake]
  refine not_congr ⟨?_, ?_⟩
  · rintro ⟨j, ⟨d, hd, e⟩, m', hm'⟩
    have hj : j < i := by
      have := (List.getElem?_eq_some_iff.1 hd).1
      simp at this; omega
    rw [List.getElem?_take_of_lt hj] at hd hm'
    exact ⟨j, hj, ⟨d, hd, e⟩, m', hm'⟩
  · rintro ⟨j, hj, ⟨d, hd, e⟩, m', hm'⟩
    exact ⟨j, ⟨d, by rw [List.getElem?_take_of_lt hj]; exact hd, e⟩, m', by
      rw [List.getElem?_take_of_lt hj]; exact hm'⟩

/-- **C30.** The bug-report hint is attached to a message (printed or returned as an error) iff its kind is one
of the three potential bugs and no earlier call was about that kind; in particular at most once per kind. -/
theorem C30_bug_hint_first_call (o : WarnOpts) (cs : List WarnCall) (i : Nat) (c : WarnCall)
    (hc : cs[i]? = some c) (hw : c.warning ≠ .all) (m : WarnMsg)
    (hm : (warnHistory o .init cs)[i]? = some (.print m) ∨ (warnHistory o .init cs)[i]? = some (.bail m)) :
    m.bug = true ↔ PotentialBug c.warning ∧ ¬ ∃ j < i, CalledAt cs j c.warning := by
  have hs := (stAfter_spec o (cs.take i) c.warning hw).1
  have key : m.bug = (mayBeBug c.warning && !(stAfter o .init (cs.take i) c.warning).bugMsg) := by
    rw [hist_get o .init cs i c hc] at hm
    unfold warnInternal at hm
    rw [if_neg hw] at hm
    dsimp only at hm
    split at hm
    · simp at hm; subst hm; simp
    · split at hm
      · simp at hm
      · simp at hm; subst hm; simp
  have hmb : mayBeBug c.warning = true ↔ PotentialBug c.warning := by
    unfold mayBeBug PotentialBug; cases c.warning <;> simp
  have hcalled : (∃ j, CalledAt (cs.take i) j c.warning) ↔ ∃ j < i, CalledAt cs j c.warning := by
    constructor
    · rintro ⟨j, d, hd, e⟩
      have hj : j < i := by
        have := (List.getElem?_eq_some_iff.1 hd).1
        simp at this; omega
      rw [List.getElem?_take_of_lt hj] at hd
      exact ⟨j, hj, d, hd, e⟩
    · rintro ⟨j, hj, d, hd, e⟩
      exact ⟨j, d, by rw [List.getElem?_take_of_lt hj]; exact hd, e⟩
  rw [key, ← hcalled, ← hmb]
  rcases hb : mayBeBug c.warning
  · simp
  · simp only [hb, true_and] at hs
    simp only [Bool.true_and, Bool.not_eq_true', true_and]
    rw [← hs]; simp

/-- **C30**, as a count: of two messages about one kind at most one carries the bug hint. -/
theorem C30_bug_hint_at_most_once (o : WarnOpts) (cs : List WarnCall) (i j : Nat) (c d : WarnCall)
    (hc : cs[i]? = some c) (hd : cs[j]? = some d) (hw : c.warning ≠ .all) (hcd : d.warning = c.warning)
    (m m' : WarnMsg)
    (hm : (warnHistory o .init cs)[i]? = some (.print m) ∨ (warnHistory o .init cs)[i]? = some (.bail m))
    (hm' : (warnHistory o .init cs)[j]? = some (.print m') ∨ (warnHistory o .init cs)[j]? = some (.bail m'))
    (hb : m.bug = true) (hb' : m'.bug = true) : i = j := by
  have h1 := (C30_bug_hint_first_call o cs i c hc hw m hm).1 hb
  have h2 := (C30_bug_hint_first_call o cs j d hd (by rw [hcd]; exact hw) m' hm').1 hb'
  rcases Nat.lt_trichotomy i j with h | h | h
  · exact absurd ⟨i, h, c, hc, hcd.symm⟩ h2.2
  · exact h
  · exact absurd ⟨j, h, d, hd, hcd⟩ h1.2

/-- A history with a once-only repetition, and its results. -/
example :
    warnHistory ⟨[.dryRunFailed], [], false⟩ .init
      [⟨.filesChanged, none, "a".toList, true⟩, ⟨.dryRunFailed, none, "b".toList, false⟩,
       ⟨.filesChanged, none, "c".toList, true⟩, ⟨.runTestFailed, none, "d".toList, false⟩,
       ⟨.runTestFailed, none, "e".toList, false⟩]
    = [.print ⟨.filesChanged, none, "a".toList, false, true⟩, .silent, .silent,
       .print ⟨.runTestFailed, none, "d".toList, true, true⟩,
       .print ⟨.runTestFailed, none, "e".toList, false, false⟩] := by decide
/-- Denial wins over `--allow all` and `--quiet`. -/
example : warnHistory ⟨[.all], [.runTestFailed], true⟩ .init [⟨.runTestFailed, none, "d".toList, true⟩]
    = [.bail ⟨.runTestFailed, none, "d".toList, true, false⟩] := by decide

end Necessist
