import Verif.Model.Options
/-!
# C31: incompatible options
-/
namespace Necessist

/-- Options that select a mode of operation; at most one may be given. -/
def IsMode (x : Opt) : Prop :=
  x = .checkSkill ∨ x = .defaultConfig ∨ x = .dump ∨ x = .dumpCandidates ∨ x = .dumpCandidateCounts ∨
    x = .findSkill ∨ x = .reset ∨ x = .resume

/-- Options that need the database. -/
def NeedsDatabase (x : Opt) : Prop := x = .dump ∨ x = .reset ∨ x = .resume

/-- Options whose purpose is console output. -/
def IsOutput (x : Opt) : Prop :=
  x = .checkSkill ∨ x = .dump ∨ x = .dumpCandidates ∨ x = .dumpCandidateCounts ∨ x = .findSkill ∨ x = .verbose

/-- The documented conflicts: two modes; `--no-sqlite` with a database option; `--quiet` with an output option. -/
def Conflict (x y : Opt) : Prop :=
  x ≠ y ∧ ((IsMode x ∧ IsMode y) ∨ (x = .noSqlite ∧ NeedsDatabase y) ∨ (y = .noSqlite ∧ NeedsDatabase x) ∨
    (x = .quiet ∧ IsOutput y) ∨ (y = .quiet ∧ IsOutput x))

private theorem incompatible_some (o : OptSet) (l : List Opt) (x y : Opt) (h : incompatible o l = some (x, y)) :
    o x = true ∧ o y = true ∧ [x, y].Sublist l := by
  induction l with
  | nil => simp [incompatible] at h
  | cons a l ih =>
    unfold incompatible at h
    split at h
    · rename_i z hz
      simp only [Option.some.injEq, Prod.mk.injEq] at h
      obtain ⟨rfl, rfl⟩ := h
      have h1 := List.find?_some hz
      have h2 := List.mem_of_find?_eq_some hz
      simp only [Bool.and_eq_true] at h1
      refine ⟨h1.1, h1.2, ?_⟩
      exact List.Sublist.cons_cons _ (List.singleton_sublist.2 h2)
    · have := ih h
      exact ⟨this.1, this.2.1, this.2.2.cons _⟩

private theorem incompatible_none (o : OptSet) (l : List Opt) :
    incompatible o l = none ↔ ∀ x y, [x, y].Sublist l → ¬ (o x = true ∧ o y = true) := by
  induction l with
  | nil => simp [incompatible]
  | cons a l ih =>
    unfold incompatible
    split
    · rename_i z hz
      simp only [reduceCtorEq, false_iff]
      intro h
      have h1 := List.find?_some hz
      have h2 := List.mem_of_find?_eq_some hz
      simp only [Bool.and_eq_true] at h1
      exact h a z (List.Sublist.cons_cons _ (List.singleton_sublist.2 h2)) h1
    · rename_i hz
      rw [ih]
      constructor
      · intro h x y hs hxy
        cases hs with
        | cons _ hs => exact h x y hs hxy
        | cons_cons _ hs =>
          have := List.find?_eq_none.1 hz y (List.singleton_sublist.1 hs)
          simp_all
      · intro h x y hs; exact h x y (hs.cons _)

private theorem lists_conflict (x y : Opt) :
    (∃ l ∈ incompatibleLists, [x, y].Sublist l ∨ [y, x].Sublist l) ↔ Conflict x y := by
  unfold Conflict IsMode NeedsDatabase IsOutput
  revert x y
  intro x y
  cases x <;> cases y <;> decide

/-- **C31.** Options are accepted iff no two options that conflict are both set and `--write` is not used without
`--check-skill` or `--find-skill`. (The specification `Conflict` is symmetric: order never matters.) -/
theorem C31_accepted_iff (o : OptSet) :
    processOptions o = .ok ↔
      (∀ x y, Conflict x y → ¬ (o x = true ∧ o y = true)) ∧
        (o .write = true → o .checkSkill = true ∨ o .findSkill = true) := by
  have key : incompatibleLists.findSome? (incompatible o) = none ↔
      ∀ x y, Conflict x y → ¬ (o x = true ∧ o y = true) := by
    rw [List.findSome?_eq_none_iff]
    constructor
    · intro h x y hc hxy
      obtain ⟨l, hl, hs⟩ := (lists_conflict x y).2 hc
      have := (incompatible_none o l).1 (h l hl)
      rcases hs with hs | hs
      · exact this x y hs hxy
      · exact this y x hs ⟨hxy.2, hxy.1⟩
    · intro h l hl
      rw [incompatible_none]
      intro x y hs
      exact h x y ((lists_conflict x y).1 ⟨l, hl, .inl hs⟩)
  unfold processOptions
  rw [← key]
  split
  · rename_i h; simp [h]
  · rename_i h
    simp only [h, true_and]
    cases o .write <;> cases o .checkSkill <;> cases o .findSkill <;> simp

/-- **C31.** A refusal that names two options names two conflicting options that are both set. -/
theorem C31_error_is_truthful (o : OptSet) (x y : Opt) (h : processOptions o = .incompatible x y) :
    o x = true ∧ o y = true ∧ Conflict x y := by
  unfold processOptions at h
  split at h
  · rename_i x' y' he
    cases h
    obtain ⟨l, hl, h1⟩ := List.exists_of_findSome?_eq_some he
    have := incompatible_some o l _ _ h1
    exact ⟨this.1, this.2.1, (lists_conflict _ _).1 ⟨l, hl, .inl this.2.2⟩⟩
  · split at h <;> cases h

/-- Conflicts are symmetric. -/
theorem C31_conflict_symmetric (x y : Opt) : Conflict x y ↔ Conflict y x := by
  unfold Conflict; constructor <;> rintro ⟨h, h'⟩ <;> refine ⟨h.symm, ?_⟩ <;> grind

/-- A non-trivial accepted combination, and one refused. -/
example : processOptions (fun x => x == .resume || x == .verbose) = .ok := by decide
example : processOptions (fun x => x == .resume || x == .noSqlite) = .incompatible .noSqlite .resume := by decide
example : processOptions (fun x => x == .write) = .writeAlone := by decide

end Necessist
