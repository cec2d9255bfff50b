import Verif.Lemmas.Span
import Verif.Model.Outcome
/-!
# C19–C22: spans and outcomes as text; the order of spans
-/
namespace Necessist
open Std

/-! ## C19 round trip -/

/-- **C19 (partial).** Reading back a displayed span gives the same span, *provided the relative path contains
no `:`* (and numbers fit in 64 bits, and the file can still be read). The full claim, without the condition on
`:`, is false: see `C19_negation`. -/
theorem C19_display_parse_partial (readable : SourceFile → Bool) (s : Span) (hf : s.file.WellFormed)
    (hcolon : ∀ x ∈ s.file.path, ':' ∉ x) (hread : readable s.file = true)
    (h1 : s.start.line < 2 ^ 64) (h2 : s.start.column + 1 < 2 ^ 64)
    (h3 : s.stop.line < 2 ^ 64) (h4 : s.stop.column + 1 < 2 ^ 64) :
    Span.parse readable s.display = .ok s := by
  have hd : ':' ∉ s.file.display := fun h => by
    obtain ⟨x, hx, hc⟩ := mem_intercalate (by decide) h
    exact hcolon x hx hc
  have e1 : s.display = s.file.display ++ ':' :: (showNat s.start.line ++ ':' ::
      (showNat (s.start.column + 1) ++ '-' :: (showNat s.stop.line ++ ':' :: showNat (s.stop.column + 1)))) := by
    simp [Span.display, Span.displayWith, List.append_assoc]
  have hc : spanCaptures s.display = some (s.file.display, showNat s.start.line,
      showNat (s.start.column + 1), showNat s.stop.line, showNat (s.stop.column + 1)) := by
    unfold spanCaptures
    rw [e1, splitFirst_append _ _ _ hd]
    simp only [Option.bind_eq_bind, Option.bind_some]
    rw [splitFirst_append _ _ _ (showNat_not_mem _ _ (by decide))]
    simp only [Option.bind_some]
    rw [splitFirst_append _ _ _ (showNat_not_mem _ _ (by decide))]
    simp only [Option.bind_some]
    rw [splitFirst_append _ _ _ (showNat_not_mem _ _ (by decide))]
    have := showNat_not_mem (s.stop.column + 1) '\n' (by decide)
    simp [this]
  unfold Span.parse
  rw [hc]
  simp only [parseUsize_showNat h1, parseUsize_showNat h2, parseUsize_showNat h3, parseUsize_showNat h4]
  rw [if_neg (display_head s.file hf), pathComponents_display s.file hf]
  simp [hread]

/-- non-vacuity -/
example : let s : Span := ⟨⟨["src".toList, "lib.rs".toList]⟩, ⟨10, 4⟩, ⟨11, 0⟩⟩
    s.file.WellFormed ∧ (∀ x ∈ s.file.path, ':' ∉ x) ∧
      s.display = "src/lib.rs:10:5-11:1".toList ∧ Span.parse (fun _ => true) s.display = .ok s := by
  simp only
  have hf : SourceFile.WellFormed ⟨["src".toList, "lib.rs".toList]⟩ :=
    ⟨by decide, by decide⟩
  refine ⟨hf, by decide, by
    simp [Span.display, Span.displayWith, SourceFile.display, showNat, digitChar, List.intercalate,
      List.intersperse], ?_⟩
  exact C19_display_parse_partial _ _ hf (by decide) rfl (by decide) (by decide) (by decide) (by decide)

/-- **C19 (negation of the full claim).** For a file called `a:b` the displayed span is not even parsed: a
database produced by necessist cannot be read back by `--resume` or `--dump`. -/
theorem C19_negation : ∃ s : Span, s.file.WellFormed ∧
    Span.parse (fun _ => true) s.display = .err .number := by
  refine ⟨⟨⟨["a:b".toList]⟩, ⟨1, 0⟩, ⟨1, 1⟩⟩, ⟨by decide, by decide⟩, ?_⟩
  have : Span.display ⟨⟨["a:b".toList]⟩, ⟨1, 0⟩, ⟨1, 1⟩⟩ = "a:b:1:1-1:2".toList := by
    simp [Span.display, Span.displayWith, SourceFile.display, showNat, digitChar, List.intercalate,
      List.intersperse]
  rw [this]; decide

/-- **C19.** What is read back never designates a column before the first: a stored column of 0 is not turned
into a span (the real code underflows). -/
theorem C19_column_zero_panics :
    Span.parse (fun _ => true) "src/lib.rs:1:0-1:1".toList = .panic := by decide

/-- **C19.** Nothing else is accepted as a span of a given shape: a successfully parsed span's file, lines and
columns are those written in the text (columns one-based). -/
theorem C19_parse_sound (readable : SourceFile → Bool) (t : Text) (s : Span)
    (h : Span.parse readable t = .ok s) :
    ∃ file sl sc el ec, t = file ++ ':' :: sl ++ ':' :: sc ++ '-' :: el ++ ':' :: ec ∧
      s.file.path = pathComponents file ∧ (∀ c ∈ s.file.path, c ≠ [] ∧ c ≠ ['.']) ∧ parseUsize sl = some s.start.line ∧
      parseUsize sc = some (s.start.column + 1) ∧ parseUsize el = some s.stop.line ∧
      parseUsize ec = some (s.stop.column + 1) := by
  have hsplit : ∀ c (x a b : Text), splitFirst c x = some (a, b) → x = a ++ c :: b := by
    intro c x
    induction x with
    | nil => simp [splitFirst]
    | cons y ys ih =>
      intro a b h
      unfold splitFirst at h
      split at h
      · rename_i hy; simp at h; obtain ⟨rfl, rfl⟩ := h; simp [hy]
      · simp only [Option.map_eq_some_iff] at h
        obtain ⟨⟨a', b'⟩, h1, h2⟩ := h
        simp at h2; obtain ⟨rfl, rfl⟩ := h2
        simp [ih _ _ h1]
  unfold Span.parse at h
  split at h
  · contradiction
  · rename_i file sl sc el ec hc
    refine ⟨file, sl, sc, el, ec, ?_, ?_⟩
    · unfold spanCaptures at hc
      simp only [Option.bind_eq_bind, Option.bind_eq_some_iff, Prod.exists] at hc
      obtain ⟨a1, b1, h1, a2, b2, h2, a3, b3, h3, a4, b4, h4, h5⟩ := hc
      split at h5
      · contradiction
      · simp at h5
        obtain ⟨rfl, rfl, rfl, rfl, rfl⟩ := h5
        rw [hsplit _ _ _ _ h1, hsplit _ _ _ _ h2, hsplit _ _ _ _ h3, hsplit _ _ _ _ h4]
        simp [List.append_assoc]
    · split at h
      · rename_i p1 p2 p3 p4
        split at h
        · contradiction
        · dsimp only at h
          split at h
          · split at h
            · injection h with h; subst h
              refine ⟨rfl, fun c hc => ?_, p1, p2, p3, p4⟩
              simpa [pathComponents] using (List.mem_filter.mp hc).2
            · contradiction
          · contradiction
      · contradiction

/-! ## C20 distinct keys -/

/-- **C20.** Distinct spans have distinct displayed forms (no condition on `:` is needed here). -/
theorem C20_display_injective (s s' : Span) (hf : s.file.WellFormed) (hf' : s'.file.WellFormed)
    (h : s.display = s'.display) : s = s' := by
  unfold Span.display Span.displayWith at h
  have nd : ∀ n : Nat, ':' ∉ showNat n := fun n => showNat_not_mem n _ (by decide)
  have nh : ∀ n : Nat, '-' ∉ showNat n := fun n => showNat_not_mem n _ (by decide)
  have a := append_sep_inj (nd _) (nd _) h
  have b := append_sep_inj (nh _) (nh _) a.1
  have c := append_sep_inj (nd _) (nd _) b.1
  have d := append_sep_inj (nd _) (nd _) c.1
  have e1 := display_inj _ _ hf hf' d.1
  have e2 := showNat_inj d.2
  have e3 := showNat_inj c.2
  have e4 := showNat_inj b.2
  have e5 := showNat_inj a.2
  rcases s with ⟨f, ⟨l, c⟩, ⟨l', c'⟩⟩
  rcases s' with ⟨g, ⟨m, d⟩, ⟨m', d'⟩⟩
  simp at *
  exact ⟨e1, ⟨e2, by omega⟩, ⟨e4, by omega⟩⟩

example : SourceFile.WellFormed ⟨["a:b".toList, "c.rs".toList]⟩ := ⟨by decide, by decide⟩

/-! ## C21 order -/

/-- **C21.** Spans are ordered by file, then start, then end. -/
theorem C21_order_lexicographic (a b : Span) :
    a.cmp b = .lt ↔ a.file.cmp b.file = .lt ∨
      (a.file = b.file ∧ (a.start.cmp b.start = .lt ∨ (a.start = b.start ∧ a.stop.cmp b.stop = .lt))) :=
  Span.cmp_lt_iff a b

/-- **C21.** The order is total, antisymmetric (consistent with equality) and transitive. -/
theorem C21_total_order :
    (∀ a b : Span, a.cmp b = .eq ↔ a = b) ∧
    (∀ a b : Span, a.cmp b = (b.cmp a).swap) ∧
    (∀ a b c : Span, a.cmp b = .lt → b.cmp c = .lt → a.cmp c = .lt) :=
  ⟨Span.cmp_eq_iff, fun _ _ => OrientedCmp.eq_swap, fun _ _ _ h1 h2 => TransCmp.lt_trans h1 h2⟩

/-- **C21.** Positions compare by line, then column; files compare component by component: `a/z` comes before
`a-b` although `-` sorts before `/`. -/
theorem C21_positions (a b : LineColumn) :
    a.cmp b = .lt ↔ a.line < b.line ∨ (a.line = b.line ∧ a.column < b.column) :=
  LineColumn.cmp_lt_iff a b

example : SourceFile.cmp ⟨["a".toList, "z".toList]⟩ ⟨["a-b".toList]⟩ = .lt := by decide
example : Span.cmp ⟨⟨["a".toList]⟩, ⟨9, 5⟩, ⟨9, 9⟩⟩ ⟨⟨["a".toList]⟩, ⟨10, 0⟩, ⟨10, 1⟩⟩ = .lt := by decide

/-! ## C22 outcomes -/

/-- The `CHECK` constraint of core/src/create_table_removal.sql:4. -/
def dbOutcomes : List Text :=
  ["skipped".toList, "nonbuildable".toList, "failed".toList, "timed-out".toList, "passed".toList]

/-- **C22.** Every outcome is stored as a string accepted by the database and reads back as itself. -/
theorem C22_outcome_roundtrip (o : Outcome) : o.display ∈ dbOutcomes ∧ Outcome.parse o.display = some o := by
  cases o <;> decide

/-- **C22.** A string is read as an outcome iff the database accepts it, and then only as the outcome it is the
stored form of. -/
theorem C22_outcome_rejects (t : Text) :
    (Outcome.parse t ≠ none ↔ t ∈ dbOutcomes) ∧ ∀ o, Outcome.parse t = some o → t = o.display := by
  have key : ∀ o, Outcome.parse t = some o → t = o.display := by
    intro o h
    unfold Outcome.parse at h
    have := List.find?_some h
    exact (eq_of_beq this).symm
  refine ⟨⟨fun h => ?_, fun h => ?_⟩, key⟩
  · cases hp : Outcome.parse t with
    | none => exact absurd hp h
    | some o => rw [key o hp]; exact (C22_outcome_roundtrip o).1
  · simp only [dbOutcomes, List.mem_cons, List.not_mem_nil, or_false] at h
    rcases h with rfl | rfl | rfl | rfl | rfl <;> decide

end Necessist
