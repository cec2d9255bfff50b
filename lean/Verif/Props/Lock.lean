import Verif.Model.Lock
/-!
# C45: one necessist per root at a time
-/
namespace Necessist.Lock

/-- A process has the lock of a directory iff it is working in it. -/
def Inv (s : State) : Prop := ∀ p r, s.holder r = some p ↔ s.phase p = .working r

theorem inv_initial (start) : Inv (initial start) := by
  intro p r; simp [initial]

theorem inv_step {s t : State} (hi : Inv s) (h : Step s t) : Inv t := by
  have acquire : ∀ p root, s.holder root = none → (∀ r, s.phase p ≠ .working r) →
      Inv { s.setPhase p (.working root) with holder := fun r => if r = root then some p else s.holder r } := by
    intro p root hf hn q r
    simp only [State.setPhase]
    by_cases hr : r = root
    · subst hr
      by_cases hq : q = p
      · subst hq; simp
      · simp only [if_true, if_neg hq, Option.some.injEq, Ne.symm hq, false_iff]
        intro h; rw [← hi q r, hf] at h; cases h
    · by_cases hq : q = p
      · subst hq
        simp only [if_neg hr, if_true, Phase.working.injEq, Ne.symm hr, iff_false]
        rw [hi q r]; exact hn r
      · simp only [if_neg hr, if_neg hq]; exact hi q r
  have idle : ∀ p ph, (∀ r, s.phase p ≠ .working r) → (∀ r, ph ≠ .working r) → Inv (s.setPhase p ph) := by
    intro p ph hn hph q r
    simp only [State.setPhase]
    by_cases hq : q = p
    · subst hq
      simp only [if_true, hph r, iff_false]
      rw [hi q r]; exact hn r
    · simp only [if_neg hq]; exact hi q r
  cases h with
  | lock p root trycmd h hf => exact acquire p root hf (by simp [h])
  | refuse p root trycmd h ht hf => exact idle p _ (by simp [h]) (by simp)
  | wait p root trycmd h ht hf => exact idle p _ (by simp [h]) (by simp)
  | wake p root h hf => exact acquire p root hf (by simp [h])
  | act p root h => exact hi
  | exit p =>
    intro q r
    simp only [State.setPhase]
    by_cases hq : q = p
    · subst hq
      simp only [if_true, reduceCtorEq, iff_false]
      split
      · simp
      · assumption
    · simp only [if_neg hq]
      rw [← hi q r]
      split
      · rename_i h; rw [h]; simp [Ne.symm hq]
      · rfl

theorem inv_reachable {start s} (h : Steps (initial start) s) : Inv s := by
  generalize hi : initial start = i at h
  induction h with
  | refl => subst hi; exact inv_initial _
  | step _ h' ih => exact inv_step ih h'

/-- **C45.** Whatever the interleaving of any number of processes: no two are past the lock of the same root at the same time. -/
theorem C45_exclusive {start s} (h : Steps (initial start) s) {p q r} (hp : s.phase p = .working r) (hq : s.phase q = .working r) :
    p = q := by
  have hi := inv_reachable h
  have h1 := (hi p r).2 hp
  have h2 := (hi q r).2 hq
  rw [h1] at h2; exact Option.some.inj h2

/-- The first index from which on the log entries of a process that still works are its own. -/
theorem log_inv {start s} (h : Steps (initial start) s) :
    (∀ (i : Nat) p r, s.log[i]? = some (p, r) → (s.phase p = .working r ∨ s.phase p = .ended)) ∧
    (∀ (i j : Nat) p q r, i < j → s.log[i]? = some (p, r) → s.log[j]? = some (q, r) → p ≠ q → s.phase p = .ended) ∧
    (∀ (i j k : Nat) p q r, i < j → j < k → s.log[i]? = some (p, r) → s.log[j]? = some (q, r) → s.log[k]? = some (p, r) → p = q) := by
  have hreach := h
  generalize hi : initial start = i at h
  induction h with
  | refl => subst hi; simp [initial]
  | @step t u h h' ih =>
    subst hi
    obtain ⟨i1, i2, i3⟩ := ih h
    have hinv := inv_reachable h
    -- steps that only change the phase of a process that is not working
    have phaseOnly : ∀ p ph, u.log = t.log → (∀ q, q ≠ p → u.phase q = t.phase q) → u.phase p = ph → (∀ r, t.phase p ≠ .working r) →
        t.phase p ≠ .ended →
        (∀ (i : Nat) p r, u.log[i]? = some (p, r) → (u.phase p = .working r ∨ u.phase p = .ended)) ∧
        (∀ (i j : Nat) p q r, i < j → u.log[i]? = some (p, r) → u.log[j]? = some (q, r) → p ≠ q → u.phase p = .ended) ∧
        (∀ (i j k : Nat) p q r, i < j → j < k → u.log[i]? = some (p, r) → u.log[j]? = some (q, r) → u.log[k]? = some (p, r) → p = q) := by
      intro p ph hl ho hp hn hne
      have hnot : ∀ (i : Nat) r, t.log[i]? ≠ some (p, r) := by
        intro i r hi
        rcases i1 i p r hi with h | h
        · exact hn r h
        · exact hne h
      rw [hl]
      refine ⟨fun i q r h => ?_, fun i j a b r hij h1 h2 hab => ?_, i3⟩
      · have : q ≠ p := by rintro rfl; exact hnot i r h
        rw [ho q this]; exact i1 i q r h
      · have : a ≠ p := by rintro rfl; exact hnot i r h1
        rw [ho a this]; exact i2 i j a b r hij h1 h2 hab
    cases h' with
    | lock p root trycmd h hf =>
      exact phaseOnly p (.working root) rfl (fun q hq => by simp [State.setPhase, hq]) (by simp [State.setPhase]) (by simp [h]) (by simp [h])
    | refuse p root trycmd h ht hf =>
      exact phaseOnly p .refused rfl (fun q hq => by simp [State.setPhase, hq]) (by simp [State.setPhase]) (by simp [h]) (by simp [h])
    | wait p root trycmd h ht hf =>
      exact phaseOnly p (.waiting root) rfl (fun q hq => by simp [State.setPhase, hq]) (by simp [State.setPhase]) (by simp [h]) (by simp [h])
    | wake p root h hf =>
      exact phaseOnly p (.working root) rfl (fun q hq => by simp [State.setPhase, hq]) (by simp [State.setPhase]) (by simp [h]) (by simp [h])
    | act p root h =>
      simp only
      have get : ∀ (i : Nat) a r, (t.log ++ [(p, root)])[i]? = some (a, r) → t.log[i]? = some (a, r) ∨ (i = t.log.length ∧ a = p ∧ r = root) := by
        intro i a r hi
        by_cases hl : i < t.log.length
        · rw [List.getElem?_append_left hl] at hi; exact Or.inl hi
        · rw [List.getElem?_append_right (by omega)] at hi
          obtain ⟨h1, h2⟩ := List.getElem?_eq_some_iff.1 hi
          simp only [List.length_singleton] at h1
          have : i = t.log.length := by omega
          subst this
          simp at h2
          exact Or.inr ⟨rfl, h2.1.symm, h2.2.symm⟩
      have lt : ∀ (i : Nat) a r, t.log[i]? = some (a, r) → i < t.log.length := fun i a r h => (List.getElem?_eq_some_iff.1 h).1
      refine ⟨fun i a r hi => ?_, fun i j a b r hij h1 h2 hab => ?_, fun i j k a b r hij hjk h1 h2 h3 => ?_⟩
      · rcases get i a r hi with h' | ⟨rfl, rfl, rfl⟩
        · exact i1 i a r h'
        · exact Or.inl h
      · rcases get i a r h1 with g1 | ⟨rfl, rfl, rfl⟩
        · rcases get j b r h2 with g2 | ⟨rfl, rfl, rfl⟩
          · exact i2 i j a b r hij g1 g2 hab
          · rcases i1 i a r g1 with h' | h'
            · have e1 := (hinv a r).2 h'
              have e2 := (hinv b r).2 h
              rw [e1] at e2; exact absurd (Option.some.inj e2) hab
            · exact h'
        · rcases get j b r h2 with g2 | ⟨rfl, _⟩
          · have := lt _ _ _ g2; omega
          · omega
      · rcases get i a r h1 with g1 | ⟨rfl, _⟩
        · rcases get j b r h2 with g2 | ⟨rfl, _⟩
          · rcases get k a r h3 with g3 | ⟨rfl, rfl, rfl⟩
            · exact i3 i j k a b r hij hjk g1 g2 g3
            · apply Classical.byContradiction
              intro hab
              have := i2 i j a b r hij g1 g2 hab
              rw [h] at this; cases this
          · rcases get k a r h3 with g3 | ⟨rfl, _⟩
            · have := lt _ _ _ g3; omega
            · omega
        · rcases get j b r h2 with g2 | ⟨rfl, _⟩
          · have := lt _ _ _ g2; omega
          · omega
    | exit p =>
      simp only [State.setPhase]
      refine ⟨fun i a r hi => ?_, fun i j a b r hij h1 h2 hab => ?_, i3⟩
      · by_cases ha : a = p
        · simp [ha]
        · simp only [if_neg ha]; exact i1 i a r hi
      · by_cases ha : a = p
        · simp [ha]
        · simp only [if_neg ha]; exact i2 i j a b r hij h1 h2 hab

/-- **C45.** What two processes do in the same root is never interleaved: between two things that a process does in a root, no other
process does anything in it. -/
theorem C45_not_interleaved {start s} (h : Steps (initial start) s) {i j k : Nat} {p q r} (hij : i < j) (hjk : j < k)
    (hi : s.log[i]? = some (p, r)) (hj : s.log[j]? = some (q, r)) (hk : s.log[k]? = some (p, r)) : p = q :=
  (log_inv h).2.2 i j k p q r hij hjk hi hj hk

/-- Test mode is on iff the variable is set, and not to `0`. -/
theorem enabled_iff (v : Option Text) : enabled v = true ↔ ¬ (v = none ∨ v = some "0".toList) := by
  unfold enabled
  cases v with
  | none => simp
  | some x => simp only [bne_iff_ne, ne_eq, reduceCtorEq, false_or, Option.some.injEq]

/-- **C45.** While a process works in a root, another one that arrives can only be refused (or wait, in test mode; or end): it never
gets to work in it by its next step, and if it is not in test mode it does not wait. -/
theorem C45_refused {start s t} (h : Steps (initial start) s) {p q r trycmd} (hp : s.phase p = .working r)
    (hq : s.phase q = .start r trycmd) (hs : Step s t) :
    t.phase q = .start r trycmd ∨ t.phase q = .ended ∨
    (if trycmd = none ∨ trycmd = some "0".toList then t.phase q = .refused else t.phase q = .waiting r) := by
  have hen : enabled trycmd = true ↔ ¬ (trycmd = none ∨ trycmd = some "0".toList) := enabled_iff trycmd
  have hh := ((inv_reachable h) p r).2 hp
  have other : ∀ p' ph, p' ≠ q → (s.setPhase p' ph).phase q = .start r trycmd := by
    intro p' ph hne; simp only [State.setPhase, if_neg (Ne.symm hne)]; exact hq
  cases hs with
  | lock p' root tc h hf =>
    by_cases he : p' = q
    · subst he; rw [hq] at h; cases h; rw [hh] at hf; cases hf
    · exact Or.inl (other p' _ he)
  | refuse p' root tc h ht hf =>
    by_cases he : p' = q
    · subst he; rw [hq] at h; cases h; right; right; simp only [ht, Bool.false_eq_true, true_iff, false_iff, Decidable.not_not] at hen; rw [if_pos hen]; simp [State.setPhase]
    · exact Or.inl (other p' _ he)
  | wait p' root tc h ht hf =>
    by_cases he : p' = q
    · subst he; rw [hq] at h; cases h; right; right; simp only [ht, Bool.false_eq_true, true_iff, false_iff, Decidable.not_not] at hen; rw [if_neg hen]; simp [State.setPhase]
    · exact Or.inl (other p' _ he)
  | wake p' root h hf =>
    by_cases he : p' = q
    · subst he; rw [hq] at h; cases h
    · exact Or.inl (other p' _ he)
  | act p' root h => exact Or.inl hq
  | exit p' =>
    by_cases he : p' = q
    · subst he; right; left; simp [State.setPhase]
    · exact Or.inl (other p' _ he)

/-- **C45.** It is always possible for it to take such a step: it need not wait for the other (unless it is in test mode). -/
theorem C45_fails_immediately {start s} (h : Steps (initial start) s) {p q r trycmd} (hp : s.phase p = .working r)
    (hq : s.phase q = .start r trycmd) (ht : trycmd = none ∨ trycmd = some "0".toList) : ∃ t, Step s t ∧ t.phase q = .refused ∧ t.phase p = .working r ∧ t.log = s.log := by
  have hh := ((inv_reachable h) p r).2 hp
  have ht : enabled trycmd = false := by
    cases he : enabled trycmd with
    | false => rfl
    | true => exact absurd ht ((enabled_iff trycmd).mp he)
  refine ⟨_, .refuse s q r trycmd hq ht (by simp [hh]), by simp [State.setPhase], ?_, rfl⟩
  have : p ≠ q := by rintro rfl; rw [hp] at hq; cases hq
  simp only [State.setPhase, if_neg this]; exact hp

/-- **C45.** Once a process is refused it never does anything in the root. -/
theorem C45_refused_does_nothing {start s} (h : Steps (initial start) s) {q} (hq : s.phase q = .refused) (i : Nat) (r) : s.log[i]? ≠ some (q, r) := by
  intro hi
  rcases (log_inv h).1 i q r hi with h' | h'
  · rw [hq] at h'; cases h'
  · rw [hq] at h'; cases h'

/-- **C45.** When the process that works in a root ends, however it does, the lock is free: one that waits can go on, and one that
arrives gets it. -/
theorem C45_released {start s} (h : Steps (initial start) s) {p q r} (hp : s.phase p = .working r) (hne : q ≠ p)
    (hq : s.phase q = .waiting r ∨ ∃ trycmd, s.phase q = .start r trycmd) :
    ∃ t u, Step s t ∧ t.phase p = .ended ∧ Step t u ∧ u.phase q = .working r := by
  have hh := ((inv_reachable h) p r).2 hp
  rcases hq with hq | ⟨tc, hq⟩
  · exact ⟨_, _, .exit s p, by simp [State.setPhase], .wake _ q r (by simp [State.setPhase, hne, hq]) (by simp [hh]), by simp [State.setPhase]⟩
  · exact ⟨_, _, .exit s p, by simp [State.setPhase], .lock _ q r tc (by simp [State.setPhase, hne, hq]) (by simp [hh]), by simp [State.setPhase]⟩

/-- Test mode. -/
example : enabled (some "1".toList) = true ∧ enabled (some "0".toList) = false ∧ enabled none = false := by decide

/-- Non-trivial: of three processes, 0 works in root 7, 1 (in the same root) is refused, and 2 (in test mode) waits and gets the root
when 0 is gone. -/
example : ∃ s, Steps (initial fun p => (7, if p = 2 then some "1".toList else none)) s ∧
    s.phase 0 = .ended ∧ s.phase 1 = .refused ∧ s.phase 2 = .working 7 ∧ s.log = [(0, 7), (0, 7), (2, 7)] := by
  refine ⟨_, .step (.step (.step (.step (.step (.step (.step (.step (.refl _)
    (.lock _ 0 7 none rfl rfl)) (.act _ 0 7 rfl)) (.refuse _ 1 7 none rfl rfl (by decide)))
    (.wait _ 2 7 (some "1".toList) rfl (by decide) (by decide))) (.act _ 0 7 rfl)) (.exit _ 0)) (.wake _ 2 7 rfl (by decide)))
    (.act _ 2 7 rfl), rfl, rfl, rfl, rfl⟩

end Necessist.Lock
