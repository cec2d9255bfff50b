import Verif.Model.Sqlite
import Verif.Lemmas.RunResume
import Verif.Lemmas.Span
/-! Sorting the past removals. -/
open Std
namespace Necessist.Run

theorem insertPast_perm (r : Removal) (xs : List Removal) : (insertPast r xs).Perm (r :: xs) := by
  induction xs with
  | nil => exact List.Perm.refl _
  | cons x xs ih =>
    unfold insertPast
    split
    · exact List.Perm.refl _
    · exact (List.Perm.cons x ih).trans (List.Perm.swap r x xs)

theorem sortPast_perm (rs : List Removal) : (sortPast rs).Perm rs := by
  induction rs with
  | nil => exact List.Perm.refl _
  | cons r rs ih => exact (insertPast_perm r _).trans (List.Perm.cons r ih)

theorem insertPast_sorted (r : Removal) (xs : List Removal) (h : SortedPast xs) : SortedPast (insertPast r xs) := by
  induction xs with
  | nil => exact List.pairwise_singleton _ _
  | cons x xs ih =>
    have hx := List.pairwise_cons.1 h
    unfold insertPast
    split
    · rename_i hle
      refine List.pairwise_cons.2 ⟨?_, h⟩
      intro y hy
      rcases List.mem_cons.1 hy with rfl | hy
      · exact hle
      · exact TransCmp.isLE_trans hle (hx.1 y hy)
    · rename_i hle
      refine List.pairwise_cons.2 ⟨?_, ih hx.2⟩
      intro y hy
      rcases List.mem_cons.1 ((insertPast_perm r xs).mem_iff.1 hy) with rfl | hy
      · rw [OrientedCmp.eq_swap (cmp := Span.cmp)]
        cases hc : y.span.cmp x.span <;> simp_all
      · exact hx.1 y hy

theorem sortPast_sorted (rs : List Removal) : SortedPast (sortPast rs) := by
  induction rs with
  | nil => exact List.Pairwise.nil
  | cons r rs ih => exact insertPast_sorted r _ ih

theorem insertPast_sublist (r : Removal) (xs : List Removal) : xs.Sublist (insertPast r xs) := by
  induction xs with
  | nil => exact List.nil_sublist _
  | cons x xs ih =>
    unfold insertPast
    split
    · exact List.sublist_cons_self _ _
    · exact ih.cons_cons x

theorem insertPast_before (r b : Removal) (xs : List Removal) (hb : b ∈ xs) (h : SortedPast xs)
    (hle : (r.span.cmp b.span).isLE = true) : [r, b].Sublist (insertPast r xs) := by
  induction xs with
  | nil => simp at hb
  | cons x xs ih =>
    have hx := List.pairwise_cons.1 h
    unfold insertPast
    split
    · exact (List.singleton_sublist.2 hb).cons_cons r
    · rename_i hn
      rcases List.mem_cons.1 hb with rfl | hb
      · exact absurd hle hn
      · exact (ih hb hx.2).cons x

/-- The sort is stable. -/
theorem sortPast_stable (rs : List Removal) (a b : Removal) (h : [a, b].Sublist rs)
    (hle : (a.span.cmp b.span).isLE = true) : [a, b].Sublist (sortPast rs) := by
  induction rs with
  | nil => simp at h
  | cons r rs ih =>
    show [a, b].Sublist (insertPast r (sortPast rs))
    cases h with
    | cons _ h => exact (ih h).trans (insertPast_sublist _ _)
    | cons_cons _ h =>
      exact insertPast_before _ b _ ((sortPast_perm rs).mem_iff.2 (List.singleton_sublist.1 h)) (sortPast_sorted rs) hle

end Necessist.Run
