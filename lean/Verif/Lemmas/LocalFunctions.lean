import Verif.Model.LocalFunctions
import Verif.Spec.Visitor
/-! # Local functions by name -/
namespace Necessist.Visit

theorem addFn_lookup (name n : Text) (f : LocalFn) (l : List (Text × List LocalFn)) :
    (addFn name f l).lookup n = if n = name then some ((l.lookup n).getD [] ++ [f]) else l.lookup n := by
  induction l with
  | nil =>
    rw [addFn, List.lookup, List.lookup]
    by_cases h : n = name
    · subst h; simp
    · simp [h, beq_eq_false_iff_ne.mpr h]
  | cons e l ih =>
    obtain ⟨m, fs⟩ := e
    rw [addFn]
    by_cases hm : m = name
    · subst hm
      rw [if_pos rfl]
      by_cases h : n = m
      · subst h; simp
      · simp [List.lookup, h, beq_eq_false_iff_ne.mpr h]
    · rw [if_neg hm]
      by_cases h : n = m
      · subst h; simp [hm]
      · simp only [List.lookup, beq_eq_false_iff_ne.mpr h, ih]

theorem byName_lookup {l : List (Text × LocalFn)} {n : Text} :
    (byName l).lookup n =
      match l.filter (fun d => d.1 == n) with
      | [] => none
      | d :: ds => some ((d :: ds).map (·.2)) := by
  have key : ∀ (l : List (Text × LocalFn)) acc, (l.foldl (fun acc d => addFn d.1 d.2 acc) acc).lookup n =
      match l.filter (fun d => d.1 == n) with
      | [] => acc.lookup n
      | d :: ds => some ((acc.lookup n).getD [] ++ (d :: ds).map (·.2)) := by
    intro l
    induction l with
    | nil => intro acc; rfl
    | cons d fns ih =>
      intro acc
      rw [List.foldl_cons, ih, addFn_lookup]
      by_cases h : d.1 = n
      · subst h
        simp only [List.filter_cons, beq_self_eq_true, if_true]
        cases fns.filter (fun e => e.1 == d.1) <;> simp
      · simp only [List.filter_cons, beq_eq_false_iff_ne.mpr h, Bool.false_eq_true, if_false, if_neg (Ne.symm h)]
  rw [byName, key]
  simp

theorem filter_lookup {β} (p : Text → Bool) (l : List (Text × β)) (n : Text) :
    (l.filter fun e => p e.1).lookup n = if p n then l.lookup n else none := by
  induction l with
  | nil => simp
  | cons e l ih =>
    obtain ⟨m, b⟩ := e
    by_cases hm : n = m
    · subst hm
      cases hp : p n with
      | true => simp [List.filter_cons, hp]
      | false => simp [List.filter_cons, hp, ih]
    · cases hp : p m with
      | true => simp [List.filter_cons, hp, List.lookup, beq_eq_false_iff_ne.mpr hm, ih]
      | false => simp [List.filter_cons, hp, List.lookup, beq_eq_false_iff_ne.mpr hm, ih]

/-- A walkable function is a local one that the configuration selects. -/
theorem walkableOf_lookup {config l name f fs} (h : (walkableOf config l).lookup name = some (f :: fs)) :
    config.isWalkableFunction name = true ∧ (name, f) ∈ l := by
  simp only [walkableOf] at h
  rw [filter_lookup] at h
  split at h
  · rename_i hp
    refine ⟨hp, ?_⟩
    rw [byName_lookup] at h
    split at h
    · cases h
    · rename_i d ds hd
      simp only [List.map_cons, Option.some.injEq, List.cons.injEq] at h
      have : d ∈ l.filter (fun d => d.1 == name) := by rw [hd]; simp
      rw [List.mem_filter] at this
      have h1 : d.1 = name := by simpa using this.2
      rw [← h1, ← h.1]
      exact this.1
  · cases h

theorem lookup_walkableOf {config} {l : List (Text × LocalFn)} {name f} (hd : (name, f) ∈ l)
    (hw : config.isWalkableFunction name = true) (hu : ∀ g, (name, g) ∈ l → g = f) :
    ∃ fs, (walkableOf config l).lookup name = some (f :: fs) := by
  simp only [walkableOf]
  rw [filter_lookup, if_pos hw, byName_lookup]
  split
  · rename_i hn
    have : (name, f) ∈ l.filter (fun e => e.1 == name) := by simp [hd]
    rw [hn] at this; cases this
  · rename_i e es he
    have : e ∈ l.filter (fun e => e.1 == name) := by rw [he]; simp
    rw [List.mem_filter] at this
    have h1 : e.1 = name := by simpa using this.2
    have h2 : (name, e.2) ∈ l := by rw [← h1]; exact this.1
    simp only [List.map_cons, hu _ h2]
    exact ⟨_, rfl⟩

/-- There are no more names than functions. -/
theorem walkableOf_length (config : Compiled) (l : List (Text × LocalFn)) : (walkableOf config l).length ≤ l.length := by
  have key : ∀ (ds : List (Text × LocalFn)) acc, (ds.foldl (fun acc d => addFn d.1 d.2 acc) acc).length ≤ acc.length + ds.length := by
    intro ds
    induction ds with
    | nil => intro acc; simp
    | cons d ds ih =>
      intro acc
      have h1 : (addFn d.1 d.2 acc).length ≤ acc.length + 1 := by
        induction acc with
        | nil => simp [addFn]
        | cons e acc ih =>
          obtain ⟨n, fs⟩ := e
          rw [addFn]
          split
          · simp
          · simp only [List.length_cons]; omega
      have h2 := ih (addFn d.1 d.2 acc)
      simp only [List.foldl_cons, List.length_cons]
      omega
  have h1 := key l []
  have h2 : (walkableOf config l).length ≤ (byName l).length := List.length_filter_le _ _
  simp only [List.length_nil, Nat.zero_add] at h1
  exact Nat.le_trans h2 h1

end Necessist.Visit
