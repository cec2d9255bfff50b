import Verif.Props.Span
/-!
# C19: exactly which spans are read back
-/
namespace Necessist

theorem readDigits_mem : ∀ {ds : Text} {acc n : Nat}, readDigits acc ds = some n → ':' ∉ ds := by
  intro ds
  induction ds with
  | nil => simp
  | cons c ds ih =>
    intro acc n h
    simp only [readDigits, Option.bind_eq_bind, Option.bind_eq_some_iff] at h
    obtain ⟨d, h1, h2⟩ := h
    rintro (_ | hm)
    · exact nomatch (show (none : Option Nat) = some d from h1)
    · exact ih h2 (by assumption)

theorem parseUsize_colon {t : Text} {n : Nat} (h : parseUsize t = some n) : ':' ∉ t ∧ n < 2 ^ 64 := by
  have core : ∀ ds : Text, (if ds.isEmpty then none else do
      let n ← readDigits 0 ds
      if n < 2 ^ 64 then some n else none) = some n → ':' ∉ ds ∧ n < 2 ^ 64 := by
    intro ds h
    split at h
    · cases h
    · simp only [Option.bind_eq_bind, Option.bind_eq_some_iff] at h
      obtain ⟨k, h1, h2⟩ := h
      split at h2
      · cases h2
        exact ⟨readDigits_mem h1, by assumption⟩
      · cases h2
  unfold parseUsize at h
  split at h
  · obtain ⟨h1, h2⟩ := core _ h
    exact ⟨by simp [h1], h2⟩
  · exact core _ h

theorem parseUsize_showNat_eq {n k : Nat} (h : parseUsize (showNat n) = some k) : k = n := by
  by_cases hn : n < 2 ^ 64
  · rw [parseUsize_showNat hn] at h; cases h; rfl
  · exfalso
    unfold parseUsize at h
    have hplus : ∀ cs, showNat n ≠ '+' :: cs := by
      intro cs hcs
      exact showNat_not_mem n '+' (by decide) (by rw [hcs]; simp)
    have e : (match showNat n with | '+' :: cs => cs | cs => cs) = showNat n := by
      split
      · rename_i cs heq; exact absurd heq (hplus cs)
      · rfl
    simp only [e] at h
    have hE : (showNat n).isEmpty = false := by simp [List.isEmpty_iff, showNat_ne_nil n]
    simp [hE, readDigits_showNat, hn] at h

theorem splitFirst_some {c : Char} : ∀ {x a b : Text}, splitFirst c x = some (a, b) → x = a ++ c :: b ∧ c ∉ a := by
  intro x
  induction x with
  | nil => simp [splitFirst]
  | cons y ys ih =>
    intro a b h
    unfold splitFirst at h
    split at h
    · rename_i hy; simp at h; obtain ⟨rfl, rfl⟩ := h; simp [hy]
    · rename_i hy
      simp only [Option.map_eq_some_iff] at h
      obtain ⟨⟨a', b'⟩, h1, h2⟩ := h
      simp at h2; obtain ⟨rfl, rfl⟩ := h2
      obtain ⟨h3, h4⟩ := ih h1
      refine ⟨by simp [h3], ?_⟩
      rintro (_ | hm)
      · exact hy rfl
      · exact h4 (by assumption)

/-- A text whose four numbers can be read has three colons. -/
theorem captures_count {t file sl sc el ec : Text} {a b c d : Nat} (h : spanCaptures t = some (file, sl, sc, el, ec))
    (ha : parseUsize sl = some a) (hb : parseUsize sc = some b) (hc : parseUsize el = some c) (hd : parseUsize ec = some d) :
    t.count ':' = 3 := by
  unfold spanCaptures at h
  simp only [Option.bind_eq_bind, Option.bind_eq_some_iff, Prod.exists] at h
  obtain ⟨a1, b1, h1, a2, b2, h2, a3, b3, h3, a4, b4, h4, h5⟩ := h
  split at h5
  · cases h5
  · simp only [Option.some.injEq, Prod.mk.injEq] at h5
    obtain ⟨rfl, rfl, rfl, rfl, rfl⟩ := h5
    obtain ⟨rfl, n1⟩ := splitFirst_some h1
    obtain ⟨rfl, n2⟩ := splitFirst_some h2
    obtain ⟨rfl, n3⟩ := splitFirst_some h3
    obtain ⟨rfl, n4⟩ := splitFirst_some h4
    have z : ∀ {l : Text}, ':' ∉ l → l.count ':' = 0 := fun h => List.count_eq_zero.2 h
    simp [List.count_append, List.count_cons, z n1, z n2, z (parseUsize_colon hb).1, z n4, z (parseUsize_colon hd).1]

theorem display_count (s : Span) : s.display.count ':' = s.file.display.count ':' + 3 := by
  have z : ∀ n, (showNat n).count ':' = 0 := fun n => List.count_eq_zero.2 (showNat_not_mem n ':' (by decide))
  simp [Span.display, Span.displayWith, List.count_append, List.count_cons, z]

/-- The captures of a displayed span whose path has no colon. -/
theorem captures_display (s : Span) (hd : ':' ∉ s.file.display) : spanCaptures s.display = some (s.file.display, showNat s.start.line,
    showNat (s.start.column + 1), showNat s.stop.line, showNat (s.stop.column + 1)) := by
  have e1 : s.display = s.file.display ++ ':' :: (showNat s.start.line ++ ':' ::
      (showNat (s.start.column + 1) ++ '-' :: (showNat s.stop.line ++ ':' :: showNat (s.stop.column + 1)))) := by
    simp [Span.display, Span.displayWith, List.append_assoc]
  unfold spanCaptures
  rw [e1, splitFirst_append _ _ _ hd]
  simp only [Option.bind_eq_bind, Option.bind_some]
  rw [splitFirst_append _ _ _ (showNat_not_mem _ _ (by decide))]
  simp only [Option.bind_some]
  rw [splitFirst_append _ _ _ (showNat_not_mem _ _ (by decide))]
  simp only [Option.bind_some]
  rw [splitFirst_append _ _ _ (showNat_not_mem _ _ (by decide))]
  have := showNat_not_mem (s.stop.column + 1) '\n' (by decide)
  simp [this]

theorem display_colon (f : SourceFile) : ':' ∈ f.display ↔ ∃ x ∈ f.path, ':' ∈ x := by
  constructor
  · intro h
    obtain ⟨x, hx, hc⟩ := mem_intercalate (by decide) h
    exact ⟨x, hx, hc⟩
  · rintro ⟨x, hx, hc⟩
    have key : ∀ {l : List Text}, x ∈ l → ':' ∈ List.intercalate ['/'] l := by
      intro l
      induction l with
      | nil => intro h; cases h
      | cons y ys ih =>
        intro h
        cases ys with
        | nil =>
          obtain rfl := List.mem_singleton.1 h
          simpa [List.intercalate, List.intersperse] using hc
        | cons z zs =>
          have e : List.intercalate ['/'] (y :: z :: zs) = y ++ '/' :: List.intercalate ['/'] (z :: zs) := by
            simp [List.intercalate, List.intersperse]
          rw [e]
          rcases List.mem_cons.1 h with rfl | h
          · exact List.mem_append_left _ hc
          · exact List.mem_append_right _ (List.mem_cons_of_mem _ (ih h))
    exact key hx

/-- **C19.** A displayed span whose path contains a colon cannot be read back at all: it is an error, for each such span (and never taken for
another one). -/
theorem C19_colon (readable : SourceFile → Bool) (s : Span) (hc : ∃ x ∈ s.file.path, ':' ∈ x) :
    Span.parse readable s.display = .err .format ∨ Span.parse readable s.display = .err .number := by
  have hcount := display_count s
  have hpos : 0 < s.file.display.count ':' := List.count_pos_iff.2 ((display_colon s.file).2 hc)
  unfold Span.parse
  cases h : spanCaptures s.display with
  | none => exact .inl rfl
  | some x =>
    obtain ⟨file, sl, sc, el, ec⟩ := x
    right
    dsimp only
    cases h1 : parseUsize sl with
    | none => rfl
    | some a => cases h2 : parseUsize sc with
      | none => rfl
      | some b => cases h3 : parseUsize el with
        | none => rfl
        | some c => cases h4 : parseUsize ec with
          | none => rfl
          | some d =>
            have := captures_count h h1 h2 h3 h4
            omega

/-- **C19.** Reading back a displayed span never gives another span; and it gives the span exactly if its path contains no colon, its numbers fit
into 64 bits and the file can still be read. -/
theorem C19_exact (readable : SourceFile → Bool) (s : Span) (hf : s.file.WellFormed) :
    (∀ s', Span.parse readable s.display = .ok s' → s' = s) ∧
    (Span.parse readable s.display = .ok s ↔ (∀ x ∈ s.file.path, ':' ∉ x) ∧ readable s.file = true ∧
      s.start.line < 2 ^ 64 ∧ s.start.column + 1 < 2 ^ 64 ∧ s.stop.line < 2 ^ 64 ∧ s.stop.column + 1 < 2 ^ 64) := by
  have key : ∀ s', Span.parse readable s.display = .ok s' → s' = s ∧ (∀ x ∈ s.file.path, ':' ∉ x) ∧ readable s.file = true ∧
      s.start.line < 2 ^ 64 ∧ s.start.column + 1 < 2 ^ 64 ∧ s.stop.line < 2 ^ 64 ∧ s.stop.column + 1 < 2 ^ 64 := by
    intro s' h
    have hn : ¬ ∃ x ∈ s.file.path, ':' ∈ x := fun hc => by
      rcases C19_colon readable s hc with he | he <;> rw [he] at h <;> cases h
    have hd : ':' ∉ s.file.display := fun h => hn ((display_colon s.file).1 h)
    unfold Span.parse at h
    rw [captures_display s hd] at h
    dsimp only at h
    cases h1 : parseUsize (showNat s.start.line) with
    | none => rw [h1] at h; cases h
    | some a => cases h2 : parseUsize (showNat (s.start.column + 1)) with
      | none => rw [h1, h2] at h; cases h
      | some b => cases h3 : parseUsize (showNat s.stop.line) with
        | none => rw [h1, h2, h3] at h; cases h
        | some c => cases h4 : parseUsize (showNat (s.stop.column + 1)) with
          | none => rw [h1, h2, h3, h4] at h; cases h
          | some d =>
            rw [h1, h2, h3, h4] at h
            have e1 := parseUsize_showNat_eq h1
            have e2 := parseUsize_showNat_eq h2
            have e3 := parseUsize_showNat_eq h3
            have e4 := parseUsize_showNat_eq h4
            subst e1 e2 e3 e4
            dsimp only at h
            rw [if_neg (display_head s.file hf), pathComponents_display s.file hf] at h
            split at h
            · rename_i hr
              cases h
              exact ⟨rfl, fun x hx hc => hn ⟨x, hx, hc⟩, hr, (parseUsize_colon h1).2, (parseUsize_colon h2).2, (parseUsize_colon h3).2,
                (parseUsize_colon h4).2⟩
            · cases h
  refine ⟨fun s' h => (key s' h).1, fun h => (key s h).2, ?_⟩
  rintro ⟨h1, h2, h3, h4, h5, h6⟩
  exact C19_display_parse_partial readable s hf h1 h2 h3 h4 h5 h6

/-- A file that is hit. -/
example : ∃ s : Span, s.file.WellFormed ∧ ∃ x ∈ s.file.path, ':' ∈ x :=
  ⟨⟨⟨["a:b".toList]⟩, ⟨1, 0⟩, ⟨1, 1⟩⟩, ⟨by decide, by decide⟩, _, List.mem_singleton_self _, by decide⟩

end Necessist
