import Verif.Spec.Cache
/-!
# C59: caches are transparent
-/
namespace Necessist.Cache

section
variable {κ ν ε : Type} [BEq κ] [LawfulBEq κ]

theorem isFirst_snoc {rs : List (κ × Except ε ν)} {k k' : κ} {r : Except ε ν} {v : ν} : IsFirst (rs ++ [(k', r)]) k v ↔
    IsFirst rs k v ∨ (∀ v', (k, .ok v') ∉ rs) ∧ k' = k ∧ r = .ok v := by
  constructor
  · rintro ⟨b, a, h, hb⟩
    rcases List.eq_nil_or_concat a with rfl | ⟨a', x, rfl⟩
    · obtain ⟨h1, h2⟩ := List.append_inj' h rfl
      cases h2
      exact Or.inr ⟨by rw [h1]; exact hb, rfl, rfl⟩
    · rw [List.concat_eq_append, ← List.cons_append, ← List.append_assoc] at h
      obtain ⟨h1, h2⟩ := List.append_inj' h rfl
      exact Or.inl ⟨b, a', h1, hb⟩
  · rintro (⟨b, a, h, hb⟩ | ⟨h, rfl, rfl⟩)
    · exact ⟨b, a ++ [(k', r)], by simp [h], hb⟩
    · exact ⟨rs, [], rfl, h⟩

/-- The map holds exactly the first successes of the past. -/
def Holds (past : List (κ × Except ε ν)) (m : List (κ × ν)) : Prop := ∀ k v, m.lookup k = some v ↔ IsFirst past k v

theorem isFirst_exists {past : List (κ × Except ε ν)} {k : κ} {v : ν} (h : (k, .ok v) ∈ past) : ∃ v', IsFirst past k v' := by
  induction past with
  | nil => simp at h
  | cons x xs ih =>
    by_cases hx : ∃ v', x = (k, .ok v')
    · obtain ⟨v', rfl⟩ := hx; exact ⟨v', [], xs, rfl, by simp⟩
    · rcases List.mem_cons.1 h with h | h
      · exact absurd ⟨v, h.symm⟩ hx
      · obtain ⟨v', b, a, e, hb⟩ := ih h
        refine ⟨v', x :: b, a, by simp [e], fun v'' hm => ?_⟩
        rcases List.mem_cons.1 hm with hm | hm
        · exact hx ⟨_, hm.symm⟩
        · exact hb _ hm

theorem none_of_holds {past : List (κ × Except ε ν)} {m : List (κ × ν)} {k : κ} (h : Holds past m) (hn : m.lookup k = none) :
    ∀ v, (k, .ok v) ∉ past := by
  intro v hm
  obtain ⟨v', hv⟩ := isFirst_exists hm
  rw [(h k v').2 hv] at hn; cases hn

omit [LawfulBEq κ] in
theorem lookup_cons {m : List (κ × ν)} {k k' : κ} {v : ν} :
    ((k, v) :: m).lookup k' = if k' == k then some v else m.lookup k' := by
  cases h : k' == k <;> simp [List.lookup, h]

/-- One request. -/
theorem step {past : List (κ × Except ε ν)} {m : List (κ × ν)} {k : κ} {r : Except ε ν} {n : Nat} (h : Holds past m) :
    ∃ a m' n', orTryInsertWith k (fun n => (r, n + 1)) m n = (a, m', n') ∧ Holds (past ++ [(k, r)]) m' ∧
      ((n' != n) = true ↔ ∀ v, (k, .ok v) ∉ past) ∧
      (∀ v, a = .ok v ↔ IsFirst (past ++ [(k, r)]) k v) ∧ (∀ e, a = .error e ↔ (∀ v, (k, .ok v) ∉ past) ∧ r = .error e) := by
  unfold orTryInsertWith
  cases hl : m.lookup k with
  | some v =>
    refine ⟨_, _, _, rfl, ?_, ?_, ?_, ?_⟩
    · intro k' v'
      rw [isFirst_snoc, h k' v']
      refine ⟨Or.inl, ?_⟩
      rintro (h' | ⟨h1, rfl, rfl⟩)
      · exact h'
      · exfalso
        obtain ⟨b, a, e, _⟩ := (h k v).1 hl
        exact h1 v (by rw [e]; simp)
    · obtain ⟨b, a, e, _⟩ := (h k v).1 hl
      simp only [bne_self_eq_false, Bool.false_eq_true, false_iff]
      exact fun hh => hh v (by rw [e]; simp)
    · intro v'
      rw [isFirst_snoc]
      constructor
      · rintro ⟨⟩; exact Or.inl ((h k v).1 hl)
      · rintro (h' | ⟨h1, _, _⟩)
        · have := (h k v').2 h'; rw [hl] at this; cases this; rfl
        · exfalso
          obtain ⟨b, a, e, _⟩ := (h k v).1 hl
          exact h1 v (by rw [e]; simp)
    · intro e
      refine ⟨fun h' => (by cases h'), ?_⟩
      rintro ⟨h1, _⟩
      exfalso
      obtain ⟨b, a, e, _⟩ := (h k v).1 hl
      exact h1 v (by rw [e]; simp)
  | none =>
    have hn := none_of_holds h hl
    cases r with
    | error e =>
      refine ⟨_, _, _, rfl, ?_, by simp [hn], ?_, ?_⟩
      · intro k' v'
        rw [isFirst_snoc, h k' v']
        simp
      · intro v'
        rw [isFirst_snoc, ← h k v', hl]
        simp
      · intro e'
        simp [hn]
    | ok v =>
      refine ⟨_, _, _, rfl, ?_, by simp [hn], ?_, ?_⟩
      · intro k' v'
        rw [isFirst_snoc, ← h k' v', lookup_cons]
        by_cases hk : k' = k
        · subst hk; simp [hl, hn]
        · have : (k' == k) = false := by simpa using hk
          simp [this, Ne.symm hk]
      · intro v'
        rw [isFirst_snoc, ← h k v', hl]
        simp [hn]
      · intro e'
        simp

theorem requests_spec (rs : List (κ × Except ε ν)) : ∀ (past : List (κ × Except ε ν)) m n, Holds past m →
    ∀ (i : Nat) k r, rs[i]? = some (k, r) → ∃ a c, (requests rs m n)[i]? = some (a, c) ∧
      (c = true ↔ ∀ v, (k, .ok v) ∉ past ++ rs.take i) ∧
      (∀ v, a = .ok v ↔ IsFirst (past ++ rs.take (i + 1)) k v) ∧
      (∀ e, a = .error e ↔ (∀ v, (k, .ok v) ∉ past ++ rs.take i) ∧ r = .error e) := by
  induction rs with
  | nil => intro past m n _ i k r h; simp at h
  | cons x xs ih =>
    intro past m n hh i k r h
    obtain ⟨k0, r0⟩ := x
    obtain ⟨a, m', n', e, h1, h2, h3, h4⟩ := step (k := k0) (r := r0) (n := n) hh
    rw [requests, e]
    cases i with
    | zero =>
      simp only [List.getElem?_cons_zero, Option.some.injEq, Prod.mk.injEq] at h
      obtain ⟨rfl, rfl⟩ := h
      exact ⟨a, n' != n, by simp, by rw [h2]; simp, by simpa using h3, by simpa using h4⟩
    | succ i =>
      rw [List.getElem?_cons_succ] at h
      obtain ⟨a', c', e1, e2, e3, e4⟩ := ih (past ++ [(k0, r0)]) m' n' h1 i k r h
      refine ⟨a', c', by simpa using e1, ?_, ?_, ?_⟩
      · simpa using e2
      · simpa using e3
      · simpa using e4

omit [LawfulBEq κ] in
theorem holds_nil : Holds ([] : List (κ × Except ε ν)) ([] : List (κ × ν)) := by
  intro k v
  simp [IsFirst]

/-- **C59.** In any history of requests to a cache that is empty at first, the `i`-th one is answered with the earliest success so far
(that of the `i`-th one included) of a computation for its key, if there is one, and with its own computation's error otherwise. -/
theorem C59_answer (rs : List (κ × Except ε ν)) {i : Nat} {k r} (h : rs[i]? = some (k, r)) :
    ∃ a c, (requests rs [] 0)[i]? = some (a, c) ∧ (∀ v, a = .ok v ↔ IsFirst (rs.take (i + 1)) k v) ∧
      ∀ e, a = .error e ↔ (∀ v, (k, .ok v) ∉ rs.take i) ∧ r = .error e := by
  obtain ⟨a, c, h1, h2, h3, h4⟩ := requests_spec rs [] [] 0 holds_nil i k r h
  exact ⟨a, c, h1, by simpa using h3, by simpa using h4⟩

/-- **C59.** The computation for the `i`-th request is made exactly if no earlier one for its key succeeded. In particular errors are
not remembered, and successful computations are not repeated. -/
theorem C59_computed (rs : List (κ × Except ε ν)) {i : Nat} {k r} (h : rs[i]? = some (k, r)) :
    ∃ a c, (requests rs [] 0)[i]? = some (a, c) ∧ (c = true ↔ ∀ v, (k, .ok v) ∉ rs.take i) := by
  obtain ⟨a, c, h1, h2, h3, h4⟩ := requests_spec rs [] [] 0 holds_nil i k r h
  exact ⟨a, c, h1, by simpa using h2⟩

/-- **C59.** If the computation is a function of the key, the cache makes no difference. -/
theorem C59_transparent (f : κ → Except ε ν) (ks : List κ) :
    (requests (ks.map fun k => (k, f k)) [] 0).map Prod.fst = ks.map f := by
  apply List.ext_getElem?
  intro i
  rw [List.getElem?_map, List.getElem?_map]
  cases hi : ks[i]? with
  | none =>
    have hlen : ∀ (rs : List (κ × Except ε ν)) m n, (requests rs m n).length = rs.length := by
      intro rs
      induction rs with
      | nil => intros; rfl
      | cons x xs ih => intro m n; rw [requests]; simp [ih]
    have : (requests (ks.map fun k => (k, f k)) [] 0)[i]? = none := by
      rw [List.getElem?_eq_none_iff, hlen]
      simpa using hi
    rw [this]; rfl
  | some k =>
    have hr : (ks.map fun k => (k, f k))[i]? = some (k, f k) := by simp [hi]
    obtain ⟨a, c, h1, h2, h3⟩ := C59_answer _ hr
    rw [h1]
    simp only [Option.map_some, Option.some.injEq]
    cases a with
    | ok v =>
      obtain ⟨b, a', e, _⟩ := (h2 v).1 rfl
      have hm : (k, Except.ok v) ∈ (ks.map fun k => (k, f k)) := List.mem_of_mem_take (by rw [e]; simp)
      obtain ⟨k', _, e'⟩ := List.mem_map.1 hm
      simp only [Prod.mk.injEq] at e'
      obtain ⟨rfl, e'⟩ := e'
      exact e'.symm
    | error e => exact ((h3 e).1 rfl).2.symm
end

/-! ### Source files -/

/-- A success of reading `path` at some time of the history. -/
def reads (h : List ((Path → Option Text) × Path × Path)) : List (Path × Except Unit Text) :=
  h.map fun c => (c.2.2, match c.1 c.2.2 with
    | some t => .ok t
    | none => .error ())

theorem news_eq (root : Path) (h : List ((Path → Option Text) × Path × Path)) : ∀ (st : Files),
    (st.root = none ∨ st.root = some root) → (∀ c ∈ h, c.2.1 = root ∧ root <+: c.2.2) → ∀ n,
    news h st = ((requests (reads h) st.files n).zip h).map fun x => match x.1.1 with
      | .ok t => some (some ⟨root, x.2.2.2, t⟩)
      | .error _ => some none := by
  induction h with
  | nil => intros; rfl
  | cons c cs ih =>
    intro st hr hc n
    obtain ⟨read, root', path⟩ := c
    obtain ⟨rfl, hp⟩ := hc _ (List.mem_cons_self ..)
    have ihc : ∀ c ∈ cs, c.2.1 = root' ∧ root' <+: c.2.2 := fun c h => hc c (List.mem_cons_of_mem _ h)
    have hp' : root'.isPrefixOf path = true := List.isPrefixOf_iff_prefix.2 hp
    have h1 : ¬ (st.root ≠ none ∧ st.root ≠ some root') := by
      rintro ⟨a, b⟩; rcases hr with hr | hr
      · exact a hr
      · exact b hr
    rw [news, new, if_neg h1, if_neg (by simp [hp'])]
    simp only [reads, List.map_cons, requests, orTryInsertWith]
    cases hl : st.files.lookup path with
    | some t =>
      simp only [List.zip_cons_cons, List.map_cons, List.cons.injEq, true_and]
      exact ih _ (Or.inr rfl) ihc _
    | none =>
      simp only
      cases hread : read path with
      | none =>
        simp only [List.zip_cons_cons, List.map_cons, List.cons.injEq, true_and]
        exact ih _ (Or.inr rfl) ihc _
      | some t =>
        simp only [List.zip_cons_cons, List.map_cons, List.cons.injEq, true_and]
        exact ih ⟨some root', (path, t) :: st.files⟩ (Or.inr rfl) ihc _

/-- **C59.** In any history of opening source files below one root, while the file system changes in between, a source file has the
contents it had when it was first read successfully. It cannot be opened exactly if it has never been readable so far. No assertion
fails. -/
theorem C59_contents {root : Path} {h : List ((Path → Option Text) × Path × Path)} (hc : ∀ c ∈ h, c.2.1 = root ∧ root <+: c.2.2)
    {i : Nat} {read root' path} (hi : h[i]? = some (read, root', path)) :
    ∃ a, (news h ⟨none, []⟩)[i]? = some (some a) ∧
      (a = none ↔ ∀ c ∈ h.take (i + 1), c.2.2 = path → c.1 path = none) ∧
      ∀ f, a = some f → f.path = path ∧ f.root = root ∧
        ∃ before read₀ after, h.take (i + 1) = before ++ (read₀, root, path) :: after ∧ read₀ path = some f.contents ∧
          ∀ c ∈ before, c.2.2 = path → c.1 path = none := by
  have hr : (reads h)[i]? = some (path, match read path with
      | some t => .ok t
      | none => .error ()) := by simp [reads, hi]
  obtain ⟨a, c, h1, h2, h3⟩ := C59_answer (reads h) hr
  rw [news_eq root h _ (Or.inl rfl) hc 0]
  have hz : ((requests (reads h) [] 0).zip h)[i]? = some ((a, c), (read, root', path)) := by
    rw [List.getElem?_zip_eq_some]; exact ⟨h1, hi⟩
  have htake : (reads h).take (i + 1) = reads (h.take (i + 1)) := by simp [reads]
  have hmem : ∀ (l : List ((Path → Option Text) × Path × Path)) p t, (p, Except.ok t) ∈ reads l ↔ ∃ c ∈ l, c.2.2 = p ∧ c.1 p = some t := by
    intro l p t
    simp only [reads, List.mem_map, Prod.mk.injEq]
    constructor
    · rintro ⟨c, hc, rfl, e⟩
      refine ⟨c, hc, rfl, ?_⟩
      cases hh : c.1 c.2.2 with
      | none => rw [hh] at e; cases e
      | some t' => rw [hh] at e; cases e; rfl
    · rintro ⟨c, hc, rfl, e⟩
      exact ⟨c, hc, rfl, by rw [e]⟩
  have hcase : ∀ t : Text, a = .ok t → ∃ before read₀ after, h.take (i + 1) = before ++ (read₀, root, path) :: after ∧
      read₀ path = some t ∧ ∀ c ∈ before, c.2.2 = path → c.1 path = none := by
    intro t ht
    obtain ⟨b, af, e, hb⟩ := (h2 t).1 ht
    rw [htake] at e
    obtain ⟨l1, l2, e1, e2, e3⟩ := List.map_eq_append_iff.1 e
    obtain ⟨c0, l3, e4, e5, e6⟩ := List.map_eq_cons_iff.1 e3
    obtain ⟨r0, ro, p0⟩ := c0
    have hin : (r0, ro, p0) ∈ h := List.mem_of_mem_take (i := i + 1) (by rw [e1, e4]; simp)
    obtain ⟨rfl, _⟩ := hc _ hin
    simp only [Prod.mk.injEq] at e5
    obtain ⟨rfl, e5⟩ := e5
    refine ⟨l1, r0, l3, by rw [e1, e4], ?_, ?_⟩
    · cases hh : r0 p0 with
      | none => rw [hh] at e5; cases e5
      | some t' => rw [hh] at e5; cases e5; rfl
    · intro c hcm hcp
      cases hh : c.1 p0 with
      | none => rfl
      | some t' =>
        exfalso
        apply hb t'
        rw [← e2]
        exact (hmem l1 p0 t').2 ⟨c, hcm, hcp, hh⟩
  cases ha : a with
  | ok t =>
    refine ⟨some ⟨root, path, t⟩, by rw [List.getElem?_map, hz]; simp [ha], ?_, ?_⟩
    · obtain ⟨b, r0, af, e, e1, _⟩ := hcase t ha
      refine ⟨fun h => (by cases h), fun hh => ?_⟩
      have := hh (r0, root, path) (by rw [e]; simp) rfl
      rw [show r0 path = none from this] at e1; cases e1
    · rintro f ⟨⟩
      exact ⟨rfl, rfl, hcase t ha⟩
  | error e =>
    refine ⟨none, by rw [List.getElem?_map, hz]; simp [ha], ?_, by intro f h; cases h⟩
    refine ⟨fun _ => ?_, fun _ => rfl⟩
    intro c hcm hcp
    cases hh : c.1 path with
    | none => rfl
    | some t =>
      exfalso
      have hm : (path, Except.ok t) ∈ (reads h).take (i + 1) := by
        rw [htake]; exact (hmem _ _ _).2 ⟨c, hcm, hcp, hh⟩
      obtain ⟨v', hv⟩ := isFirst_exists hm
      have := (h2 v').2 hv
      rw [ha] at this; cases this

/-- Two roots are not allowed. -/
theorem C59_one_root {read root path root' path'} {st : Files} {a st'} (h : new read root path st = (some a, st')) (hne : root' ≠ root)
    (read' : Path → Option Text) : (new read' root' path' st').1 = none := by
  have : st'.root = some root := by
    unfold new at h
    split at h
    · cases h
    · split at h
      · cases h
      · split at h
        · cases h; rfl
        · split at h <;> (cases h; rfl)
  rw [new, if_pos]
  rw [this]
  exact ⟨by simp, by simpa using Ne.symm hne⟩

/-! ### Cases -/
namespace Demo

example : (requests (κ := Nat) (ν := Nat) (ε := Nat) [(1, .error 7), (1, .ok 5), (2, .ok 8), (1, .ok 6), (1, .error 9)] [] 0).map
    (fun x => (match x.1 with | .ok v => (some v, 0) | .error e => (none, e), x.2)) =
    [((none, 7), true), ((some 5, 0), true), ((some 8, 0), true), ((some 5, 0), false), ((some 5, 0), false)] := by decide

def p : Path := [['p'], ['a']]
example : news [(fun _ => none, [['p']], p), (fun _ => some ['x'], [['p']], p), (fun _ => some ['y'], [['p']], p)] ⟨none, []⟩ =
    [some none, some (some ⟨[['p']], p, ['x']⟩), some (some ⟨[['p']], p, ['x']⟩)] := by decide

example : ∀ c ∈ [((fun _ => none : Path → Option Text), [['p']], p), (fun _ => some ['x'], [['p']], p)], c.2.1 = [['p']] ∧ [['p']] <+: c.2.2 := by
  decide

end Demo

end Necessist.Cache
