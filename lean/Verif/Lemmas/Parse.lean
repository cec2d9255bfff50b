import Verif.Spec.Parse
import Verif.Lemmas.Span
import Verif.Lemmas.VisitorLoop
import Verif.Props.Directives
/-!
# Lemmas about maps and the loops of parsing
-/
namespace Necessist.Parse
open Visit Run Std

section upsert
variable {κ ν : Type} {cmp : κ → κ → Ordering} [TransCmp cmp] [LawfulEqCmp cmp] {d : ν} {g : ν → ν}

/-- In the order of the keys, without repetitions. -/
def Asc (cmp : κ → κ → Ordering) (m : List (κ × ν)) : Prop := m.Pairwise fun a b => cmp a.1 b.1 = .lt

/-- What a map holds for a key. -/
theorem Asc.unique {m : List (κ × ν)} (h : Asc cmp m) {k v w} (h1 : (k, v) ∈ m) (h2 : (k, w) ∈ m) : v = w := by
  induction m with
  | nil => simp at h1
  | cons x xs ih =>
    have hx := List.pairwise_cons.1 h
    rcases List.mem_cons.1 h1 with e1 | e1 <;> rcases List.mem_cons.1 h2 with e2 | e2
    · rw [← e1] at e2; simpa using e2.symm
    · have := hx.1 _ e2; rw [← e1] at this; simp [ReflCmp.compare_self] at this
    · have := hx.1 _ e1; rw [← e2] at this; simp [ReflCmp.compare_self] at this
    · exact ih hx.2 e1 e2

/-- Which entries there are afterwards. -/
theorem mem_upsert {m : List (κ × ν)} (h : Asc cmp m) (k : κ) (x : κ × ν) :
    x ∈ upsert cmp d k g m ↔
      (x.1 ≠ k ∧ x ∈ m) ∨ (x.1 = k ∧ ((∃ v, (k, v) ∈ m ∧ x.2 = g v) ∨ ((∀ v, (k, v) ∉ m) ∧ x.2 = g d))) := by
  induction m with
  | nil =>
    obtain ⟨a, b⟩ := x
    simp [upsert]
  | cons y ys ih =>
    obtain ⟨k', v'⟩ := y
    obtain ⟨a, b⟩ := x
    have hx := List.pairwise_cons.1 h
    rw [upsert]
    cases hc : cmp k k' with
    | lt =>
      have hn : ∀ v, (k, v) ∉ (k', v') :: ys := by
        intro v hv
        rcases List.mem_cons.1 hv with e | e
        · rw [Prod.mk.injEq] at e; rw [e.1] at hc; simp [ReflCmp.compare_self] at hc
        · have := TransCmp.lt_trans hc (hx.1 _ e); simp [ReflCmp.compare_self] at this
      rw [List.mem_cons]
      constructor
      · rintro (e | e)
        · rw [Prod.mk.injEq] at e; exact Or.inr ⟨e.1, Or.inr ⟨hn, e.2⟩⟩
        · exact Or.inl ⟨fun h => hn b (h ▸ e), e⟩
      · rintro (⟨_, e⟩ | ⟨e, ⟨v, hv, _⟩ | ⟨_, e2⟩⟩)
        · exact Or.inr e
        · exact absurd hv (hn v)
        · simp only at e e2; rw [e, e2]; exact Or.inl rfl
    | eq =>
      have he : k = k' := LawfulEqCmp.eq_of_compare hc
      subst he
      have hn : ∀ v, (k, v) ∉ ys := by
        intro v e; have := hx.1 _ e; simp [ReflCmp.compare_self] at this
      rw [List.mem_cons]
      constructor
      · rintro (e | e)
        · rw [Prod.mk.injEq] at e; exact Or.inr ⟨e.1, Or.inl ⟨v', List.mem_cons_self, e.2⟩⟩
        · exact Or.inl ⟨fun h => hn b (h ▸ e), List.mem_cons_of_mem _ e⟩
      · rintro (⟨e1, e⟩ | ⟨e, ⟨v, hv, e2⟩ | ⟨h3, _⟩⟩)
        · rcases List.mem_cons.1 e with e | e
          · rw [Prod.mk.injEq] at e; exact absurd e.1 e1
          · exact Or.inr e
        · have := Asc.unique h hv List.mem_cons_self
          simp only at e e2; rw [e, e2, this]; exact Or.inl rfl
        · exact absurd List.mem_cons_self (h3 v')
    | gt =>
      have hne : k' ≠ k := by intro e; rw [e] at hc; simp [ReflCmp.compare_self] at hc
      have hk : ∀ v, (k, v) ∈ (k', v') :: ys ↔ (k, v) ∈ ys := by
        intro v; rw [List.mem_cons, Prod.mk.injEq]
        exact ⟨fun h => h.resolve_left fun e => hne e.1.symm, Or.inr⟩
      rw [List.mem_cons, ih hx.2]
      simp only [hk]
      constructor
      · rintro (e | ⟨h1, e⟩ | e)
        · rw [Prod.mk.injEq] at e; exact Or.inl ⟨e.1 ▸ hne, by rw [e.1, e.2]; exact List.mem_cons_self⟩
        · exact Or.inl ⟨h1, List.mem_cons_of_mem _ e⟩
        · exact Or.inr e
      · rintro (⟨h1, e⟩ | e)
        · rcases List.mem_cons.1 e with e | e
          · exact Or.inl e
          · exact Or.inr (Or.inl ⟨h1, e⟩)
        · exact Or.inr (Or.inr e)

theorem Asc.upsert {m : List (κ × ν)} (h : Asc cmp m) (k : κ) : Asc cmp (upsert cmp d k g m) := by
  induction m with
  | nil => exact List.pairwise_singleton _ _
  | cons y ys ih =>
    obtain ⟨k', v'⟩ := y
    have hx := List.pairwise_cons.1 h
    rw [Parse.upsert]
    cases hc : cmp k k' with
    | lt =>
      refine List.pairwise_cons.2 ⟨fun x hx' => ?_, h⟩
      rcases List.mem_cons.1 hx' with e | e
      · rw [e]; exact hc
      · exact TransCmp.lt_trans hc (hx.1 _ e)
    | eq => exact List.pairwise_cons.2 ⟨fun x hx' => hx.1 _ hx', hx.2⟩
    | gt =>
      refine List.pairwise_cons.2 ⟨fun x hx' => ?_, ih hx.2⟩
      have hlt : cmp k' k = .lt := OrientedCmp.lt_of_gt hc
      rcases (mem_upsert hx.2 k x).1 hx' with ⟨_, e⟩ | ⟨e, _⟩
      · exact hx.1 _ e
      · rw [e]; exact hlt

/-- Two maps with the same keys list them in the same order. -/
theorem Asc.keys_ext {ν'} {m : List (κ × ν)} {m' : List (κ × ν')} (h : Asc cmp m) (h' : Asc cmp m')
    (hk : ∀ k, k ∈ m.map (·.1) ↔ k ∈ m'.map (·.1)) : m.map (·.1) = m'.map (·.1) := by
  have p1 : (m.map (·.1)).Pairwise fun a b => cmp a b = .lt := List.pairwise_map.2 h
  have p2 : (m'.map (·.1)).Pairwise fun a b => cmp a b = .lt := List.pairwise_map.2 h'
  generalize m.map (·.1) = l at *
  generalize m'.map (·.1) = l' at *
  induction l generalizing l' with
  | nil =>
    cases l' with
    | nil => rfl
    | cons y _ => exact absurd ((hk y).2 List.mem_cons_self) (by simp)
  | cons x xs ih =>
    cases l' with
    | nil => exact absurd ((hk x).1 List.mem_cons_self) (by simp)
    | cons y ys =>
      have hx := List.pairwise_cons.1 p1
      have hy := List.pairwise_cons.1 p2
      have hxy : x = y := by
        rcases List.mem_cons.1 ((hk x).1 List.mem_cons_self) with e | e
        · exact e
        · rcases List.mem_cons.1 ((hk y).2 List.mem_cons_self) with e2 | e2
          · exact e2.symm
          · have h1 := hy.1 _ e
            have h2 := hx.1 _ e2
            have := TransCmp.lt_trans h1 h2
            simp [ReflCmp.compare_self] at this
      subst hxy
      have : xs = ys := by
        refine ih hx.2 ys hy.2 (fun k => ?_)
        constructor
        · intro hk1
          rcases List.mem_cons.1 ((hk k).1 (List.mem_cons_of_mem _ hk1)) with e | e
          · subst e; have := hx.1 _ hk1; simp [ReflCmp.compare_self] at this
          · exact e
        · intro hk1
          rcases List.mem_cons.1 ((hk k).2 (List.mem_cons_of_mem _ hk1)) with e | e
          · subst e; have := hy.1 _ hk1; simp [ReflCmp.compare_self] at this
          · exact e
      rw [this]
end upsert

/-- A map of spans as it should be: ascending, each with at least one test, no test twice. -/
structure SpanMap.Good (m : SpanMap) : Prop where
  asc : Asc Span.cmp m
  tests : ∀ s ts, (s, ts) ∈ m → ts ≠ [] ∧ ts.Nodup

/-- The pairs in the map. -/
def SpanMap.Has (m : SpanMap) (s : Span) (t : Text) : Prop := ∃ ts, (s, ts) ∈ m ∧ t ∈ ts

theorem nodup_insertSet {α} [DecidableEq α] {l : List α} (h : l.Nodup) (x : α) : (insertSet x l).Nodup := by
  unfold insertSet
  split
  · exact h
  · rename_i hx
    exact List.nodup_append.2 ⟨h, by simp, by rintro a ha b hb rfl; simp at hb; exact hx (hb ▸ ha)⟩

theorem nodup_extendSet {α} [DecidableEq α] {xs l : List α} (h : l.Nodup) : (extendSet l xs).Nodup := by
  unfold extendSet
  induction xs generalizing l with
  | nil => exact h
  | cons x xs ih => exact ih (nodup_insertSet h x)

theorem SpanMap.Good.add {m : SpanMap} (h : SpanMap.Good m) (s : Span) {names : List Text} (hn : names ≠ []) :
    SpanMap.Good (m.add s names) ∧ ∀ s' t, SpanMap.Has (m.add s names) s' t ↔ SpanMap.Has m s' t ∨ (s' = s ∧ t ∈ names) := by
  have hm := fun x => mem_upsert (d := ([] : List Text)) (g := fun ns => extendSet ns names) h.asc s x
  refine ⟨⟨h.asc.upsert s, ?_⟩, ?_⟩
  · intro s' ts h1
    have ne : ∀ l : List Text, extendSet l names ≠ [] := by
      intro l e
      obtain ⟨y, hy⟩ := List.exists_mem_of_ne_nil _ hn
      have : y ∈ extendSet l names := (mem_extendSet _ _ _).2 (Or.inr hy)
      rw [e] at this; simp at this
    rcases (hm _).1 h1 with ⟨_, h2⟩ | ⟨_, ⟨v, hv, e⟩ | ⟨_, e⟩⟩
    · exact h.tests _ _ h2
    · simp only at e; subst e; exact ⟨ne _, nodup_extendSet (h.tests _ _ hv).2⟩
    · simp only at e; subst e; exact ⟨ne _, nodup_extendSet List.nodup_nil⟩
  · intro s' t
    constructor
    · rintro ⟨ts, h1, ht⟩
      rcases (hm _).1 h1 with ⟨_, h2⟩ | ⟨e1, ⟨v, hv, e⟩ | ⟨_, e⟩⟩
      · exact Or.inl ⟨ts, h2, ht⟩
      · simp only at e e1; subst e; subst e1
        rcases (mem_extendSet _ _ _).1 ht with h3 | h3
        · exact Or.inl ⟨v, hv, h3⟩
        · exact Or.inr ⟨rfl, h3⟩
      · simp only at e e1; subst e; subst e1
        rcases (mem_extendSet _ _ _).1 ht with h3 | h3
        · simp at h3
        · exact Or.inr ⟨rfl, h3⟩
    · rintro (⟨ts, h1, ht⟩ | ⟨e, ht⟩)
      · by_cases e : s' = s
        · subst e
          exact ⟨_, (hm (s', extendSet ts names)).2 (Or.inr ⟨rfl, Or.inl ⟨ts, h1, rfl⟩⟩), (mem_extendSet _ _ _).2 (Or.inl ht)⟩
        · exact ⟨ts, (hm _).2 (Or.inl ⟨e, h1⟩), ht⟩
      · subst e
        by_cases hv : ∃ v, (s', v) ∈ m
        · obtain ⟨v, hv⟩ := hv
          exact ⟨_, (hm (s', extendSet v names)).2 (Or.inr ⟨rfl, Or.inl ⟨v, hv, rfl⟩⟩), (mem_extendSet _ _ _).2 (Or.inr ht)⟩
        · exact ⟨_, (hm (s', extendSet [] names)).2 (Or.inr ⟨rfl, Or.inr ⟨fun v h => hv ⟨v, h⟩, rfl⟩⟩), (mem_extendSet _ _ _).2 (Or.inr ht)⟩

theorem SpanMap.Good.nil : SpanMap.Good [] := ⟨List.Pairwise.nil, by simp⟩

theorem SpanMap.Good.addAll {inc m : SpanMap} (h : SpanMap.Good m) (hi : ∀ s ts, (s, ts) ∈ inc → ts ≠ []) :
    SpanMap.Good (m.addAll inc) ∧ ∀ s t, SpanMap.Has (m.addAll inc) s t ↔ SpanMap.Has m s t ∨ SpanMap.Has inc s t := by
  unfold SpanMap.addAll
  induction inc generalizing m with
  | nil => exact ⟨h, fun s t => by simp [SpanMap.Has]⟩
  | cons x xs ih =>
    obtain ⟨s0, ts0⟩ := x
    obtain ⟨g, hg⟩ := h.add s0 (hi _ _ List.mem_cons_self)
    obtain ⟨g', hg'⟩ := ih g (fun s ts h => hi s ts (List.mem_cons_of_mem _ h))
    refine ⟨g', fun s t => ?_⟩
    rw [List.foldl_cons, hg', hg]
    constructor
    · rintro ((h1 | ⟨e, h1⟩) | ⟨ts, h1, h2⟩)
      · exact Or.inl h1
      · exact Or.inr ⟨ts0, e ▸ List.mem_cons_self, h1⟩
      · exact Or.inr ⟨ts, List.mem_cons_of_mem _ h1, h2⟩
    · rintro (h1 | ⟨ts, h1, h2⟩)
      · exact Or.inl (Or.inl h1)
      · rcases List.mem_cons.1 h1 with e | e
        · rw [Prod.mk.injEq] at e; exact Or.inl (Or.inr ⟨e.1, e.2 ▸ h2⟩)
        · exact Or.inr ⟨ts, e, h2⟩

theorem mapOf_good (pairs : List (Span × Text)) : SpanMap.Good (mapOf pairs) ∧ ∀ s t, SpanMap.Has (mapOf pairs) s t ↔ (s, t) ∈ pairs := by
  have key : ∀ (pairs : List (Span × Text)) (m : SpanMap), SpanMap.Good m →
      SpanMap.Good (pairs.foldl (fun m p => m.add p.1 [p.2]) m) ∧
      ∀ s t, SpanMap.Has (pairs.foldl (fun m p => m.add p.1 [p.2]) m) s t ↔ SpanMap.Has m s t ∨ (s, t) ∈ pairs := by
    intro pairs
    induction pairs with
    | nil => intro m h; exact ⟨h, by simp⟩
    | cons p ps ih =>
      intro m h
      obtain ⟨g, hg⟩ := h.add p.1 (names := [p.2]) (by simp)
      obtain ⟨g', hg'⟩ := ih _ g
      refine ⟨g', fun s t => ?_⟩
      rw [List.foldl_cons, hg', hg]
      simp only [List.mem_cons, List.mem_singleton, List.not_mem_nil, or_false]
      rw [or_assoc]
      apply or_congr Iff.rfl
      apply or_congr _ Iff.rfl
      rw [← Prod.mk.injEq]
  obtain ⟨g, hg⟩ := key pairs [] .nil
  exact ⟨g, fun s t => by rw [mapOf, hg]; simp [SpanMap.Has]⟩

/-- A map of files as it should be. -/
structure FileMap.Good (fm : FileMap) : Prop where
  asc : Asc SourceFile.cmp fm
  maps : ∀ f m, (f, m) ∈ fm → SpanMap.Good m.statement ∧ SpanMap.Good m.methodCall

theorem FileMap.Good.nil : FileMap.Good [] := ⟨List.Pairwise.nil, by simp⟩

/-- The map of a kind. -/
def Maps.of (m : Maps) : SpanKind → SpanMap
  | .statement => m.statement
  | .methodCall => m.methodCall

theorem recorded_iff (fm : FileMap) (f k s t) : Recorded fm f k s t ↔ ∃ m, (f, m) ∈ fm ∧ SpanMap.Has (m.of k) s t := by
  cases k <;> rfl

theorem FileMap.Good.extend {fm : FileMap} (h : FileMap.Good fm) (f : SourceFile) {inc : Maps}
    (h1 : SpanMap.Good inc.statement) (h2 : SpanMap.Good inc.methodCall) :
    FileMap.Good (extend fm f inc) ∧
    (∀ f', f' ∈ (Parse.extend fm f inc).map (·.1) ↔ f' ∈ fm.map (·.1) ∨ f' = f) ∧
    ∀ f' k s t, Recorded (Parse.extend fm f inc) f' k s t ↔ Recorded fm f' k s t ∨ (f' = f ∧ SpanMap.Has (inc.of k) s t) := by
  have hm := fun x => mem_upsert (d := ({} : Maps))
    (g := fun m => ⟨SpanMap.addAll m.statement inc.statement, SpanMap.addAll m.methodCall inc.methodCall⟩) h.asc f x
  have hadd : ∀ m : Maps, SpanMap.Good m.statement → SpanMap.Good m.methodCall →
      SpanMap.Good (SpanMap.addAll m.statement inc.statement) ∧ SpanMap.Good (SpanMap.addAll m.methodCall inc.methodCall) ∧
      ∀ k s t, SpanMap.Has ((⟨SpanMap.addAll m.statement inc.statement, SpanMap.addAll m.methodCall inc.methodCall⟩ : Maps).of k) s t ↔
        SpanMap.Has (m.of k) s t ∨ SpanMap.Has (inc.of k) s t := by
    intro m g1 g2
    obtain ⟨a1, a2⟩ := g1.addAll (fun s ts h => (h1.tests s ts h).1)
    obtain ⟨b1, b2⟩ := g2.addAll (fun s ts h => (h2.tests s ts h).1)
    exact ⟨a1, b1, fun k s t => match k with | .statement => a2 s t | .methodCall => b2 s t⟩
  refine ⟨⟨h.asc.upsert f, ?_⟩, ?_, ?_⟩
  · intro f' m hx
    rcases (hm _).1 hx with ⟨_, h3⟩ | ⟨_, ⟨v, hv, e⟩ | ⟨_, e⟩⟩
    · exact h.maps _ _ h3
    · simp only at e; subst e
      obtain ⟨a, c, _⟩ := hadd v (h.maps _ _ hv).1 (h.maps _ _ hv).2
      exact ⟨a, c⟩
    · simp only at e; subst e
      obtain ⟨a, c, _⟩ := hadd {} .nil .nil
      exact ⟨a, c⟩
  · intro f'
    simp only [List.mem_map]
    constructor
    · rintro ⟨x, hx, rfl⟩
      rcases (hm _).1 hx with ⟨_, h3⟩ | ⟨e, _⟩
      · exact Or.inl ⟨x, h3, rfl⟩
      · exact Or.inr e
    · by_cases e : f' = f
      · subst e
        intro _
        by_cases hv : ∃ v, (f', v) ∈ fm
        · obtain ⟨v, hv⟩ := hv
          exact ⟨_, (hm (f', _)).2 (Or.inr ⟨rfl, Or.inl ⟨v, hv, rfl⟩⟩), rfl⟩
        · exact ⟨_, (hm (f', _)).2 (Or.inr ⟨rfl, Or.inr ⟨fun v h => hv ⟨v, h⟩, rfl⟩⟩), rfl⟩
      · rintro (⟨x, hx, rfl⟩ | h)
        · exact ⟨x, (hm _).2 (Or.inl ⟨e, hx⟩), rfl⟩
        · exact absurd h e
  · intro f' k s t
    rw [recorded_iff, recorded_iff]
    constructor
    · rintro ⟨m, hx, ht⟩
      rcases (hm _).1 hx with ⟨_, h3⟩ | ⟨e1, ⟨v, hv, e⟩ | ⟨_, e⟩⟩
      · exact Or.inl ⟨m, h3, ht⟩
      · simp only at e e1; subst e; subst e1
        rcases ((hadd v (h.maps _ _ hv).1 (h.maps _ _ hv).2).2.2 k s t).1 ht with h3 | h3
        · exact Or.inl ⟨v, hv, h3⟩
        · exact Or.inr ⟨rfl, h3⟩
      · simp only at e e1; subst e; subst e1
        rcases ((hadd {} .nil .nil).2.2 k s t).1 ht with h3 | h3
        · cases k <;> simp [SpanMap.Has, Maps.of] at h3
        · exact Or.inr ⟨rfl, h3⟩
    · rintro (⟨m, hx, ht⟩ | ⟨e, ht⟩)
      · by_cases e : f' = f
        · subst e
          exact ⟨_, (hm (f', _)).2 (Or.inr ⟨rfl, Or.inl ⟨m, hx, rfl⟩⟩),
            ((hadd m (h.maps _ _ hx).1 (h.maps _ _ hx).2).2.2 k s t).2 (Or.inl ht)⟩
        · exact ⟨m, (hm _).2 (Or.inl ⟨e, hx⟩), ht⟩
      · subst e
        by_cases hv : ∃ v, (f', v) ∈ fm
        · obtain ⟨v, hv⟩ := hv
          exact ⟨_, (hm (f', _)).2 (Or.inr ⟨rfl, Or.inl ⟨v, hv, rfl⟩⟩),
            ((hadd v (h.maps _ _ hv).1 (h.maps _ _ hv).2).2.2 k s t).2 (Or.inr ht)⟩
        · exact ⟨_, (hm (f', _)).2 (Or.inr ⟨rfl, Or.inr ⟨fun v h => hv ⟨v, h⟩, rfl⟩⟩),
            ((hadd {} .nil .nil).2.2 k s t).2 (Or.inr ht)⟩

/-! ### Warnings -/

theorem warnStep_none_iff (o : WarnOpts) (st : WStates) (c : WarnCall) :
    warnStep o st c = none ↔ c.warning = .all ∨ Denied o c.warning := by
  unfold warnStep warnInternal
  by_cases h : c.warning = .all
  · simp [h]
  · simp only [h, if_false, false_or]
    by_cases hd : o.deny.contains .all || o.deny.contains c.warning
    · have : Denied o c.warning := by simpa [Denied] using hd
      rw [if_pos hd]; simp [this]
    · have : ¬ Denied o c.warning := by simpa [Denied] using hd
      simp only [hd, this, iff_false]
      simp only [Bool.false_eq_true, if_false]
      split <;> simp_all <;> split at * <;> simp_all

theorem warnStep_shows {o : WarnOpts} {st : WStates} {c : WarnCall} (hs : Shows o c.warning) (ha : c.warning ≠ .all)
    (hc : c.once = false) : ∃ m st', warnStep o st c = some ([m], st') ∧ m.warning = c.warning ∧ m.source = c.source ∧ m.msg = c.msg := by
  obtain ⟨hd, hq, h1, h2⟩ := hs
  have hd' : (o.deny.contains .all || o.deny.contains c.warning) = false := by
    simp [Denied] at hd; simpa using hd
  unfold warnStep warnInternal
  rw [if_neg ha]
  dsimp only
  rw [hd', if_neg (by simp), if_neg (by simp [hq, h1, h2, hc])]
  exact ⟨_, _, rfl, rfl, rfl, rfl⟩

theorem anyDenied_iff (o : WarnOpts) : ∀ (cs : List WarnCall) (st : WStates),
    anyDenied (warnHistory o st cs) ↔ ∃ c ∈ cs, c.warning = .all ∨ Denied o c.warning := by
  intro cs
  induction cs with
  | nil => intro st; simp [warnHistory, anyDenied]
  | cons c cs ih =>
    intro st
    rcases warnStep_cases o st c cs with ⟨e, h, _⟩ | ⟨ms, st', e, h, _⟩
    · exact iff_of_true h ⟨c, List.mem_cons_self, (warnStep_none_iff o st c).1 e⟩
    · rw [h, ih]
      have hn : ¬ (c.warning = .all ∨ Denied o c.warning) := by rw [← warnStep_none_iff o st c, e]; simp
      constructor
      · rintro ⟨x, h1, h2⟩; exact ⟨x, List.mem_cons_of_mem _ h1, h2⟩
      · rintro ⟨x, h1, h2⟩
        rcases List.mem_cons.1 h1 with rfl | h1
        · exact absurd h2 hn
        · exact ⟨x, h1, h2⟩

/-- The directives of a file, and whether reading them succeeds, do not depend on the warnings given before. -/
theorem collect_spec (b : Backend) (f : SourceFile) (contents : Text) (st : WStates) :
    (∃ d ws ms, Directives.collect b.alnum b.warn st f contents = (some (d, ws), ms) ∧ HasDirectives b f contents d ∧
      ∀ d', HasDirectives b f contents d' → d' = d) ∨
    (∃ ms, Directives.collect b.alnum b.warn st f contents = (none, ms) ∧ ∀ d, ¬ HasDirectives b f contents d) := by
  have hs := fun st => collectLoop_spec (alnum := b.alnum) b.warn f (lines contents) 1 true {} st
  rcases h : Directives.collect b.alnum b.warn st f contents with ⟨_ | ⟨d, ws⟩, ms⟩
  · right
    refine ⟨ms, rfl, ?_⟩
    rintro d ⟨st1, st2, ms', h'⟩
    have e1 := (hs st).2.1.1 (by unfold Directives.collect at h; rw [h])
    have e2 := (hs st1).2.1.2 ((anyDenied_iff _ _ _).2 ((anyDenied_iff _ _ _).1 e1))
    unfold Directives.collect at h'
    rw [h'] at e2; simp at e2
  · left
    refine ⟨d, ws, ms, rfl, ⟨_, _, _, h⟩, ?_⟩
    rintro d' ⟨st1, st2, ms', h'⟩
    unfold Directives.collect at h h'
    rw [(hs st).2.2 d ws (by rw [h]), (hs st1).2.2 d' st2 (by rw [h'])]

/-! ### One file -/

theorem warnP_ok {o c st st'} (h : warnP o c st = (.ok (), st')) :
    (c.warning ≠ .all ∧ ¬ Denied o c.warning) ∧ st'.map = st.map ∧ st'.nTests = st.nTests ∧ ∃ ms, st'.printed = st.printed ++ ms := by
  unfold warnP at h
  cases hw : warnStep o st.warns c with
  | none => simp [hw] at h
  | some x =>
    have hn : ¬ (c.warning = .all ∨ Denied o c.warning) := by rw [← warnStep_none_iff o st.warns c, hw]; simp
    simp only [hw, Prod.mk.injEq, true_and] at h
    subst h
    exact ⟨not_or.1 hn, rfl, rfl, _, rfl⟩

theorem warnP_ok' {o c} (st : PState) (h : c.warning ≠ .all ∧ ¬ Denied o c.warning) : ∃ st', warnP o c st = (.ok (), st') := by
  unfold warnP
  cases hw : warnStep o st.warns c with
  | none => exact absurd ((warnStep_none_iff _ _ _).1 hw) (not_or.2 h)
  | some x => exact ⟨_, rfl⟩

theorem warnP_cases (o c) (st : PState) : (∃ st', warnP o c st = (.ok (), st')) ∨ ((warnP o c st).1 = .err .denied) := by
  unfold warnP
  cases hw : warnStep o st.warns c with
  | none => exact Or.inr rfl
  | some x => exact Or.inl ⟨_, rfl⟩

theorem warnsP_spec (o) : ∀ (cs : List WarnCall) (st : PState),
    (∃ st', warnsP o cs st = (.ok (), st') ∧ (∀ c ∈ cs, c.warning ≠ .all ∧ ¬ Denied o c.warning) ∧ st'.map = st.map ∧
      st'.nTests = st.nTests ∧ ∃ ms, st'.printed = st.printed ++ ms) ∨
    (∃ st', warnsP o cs st = (.err .denied, st') ∧ ∃ c ∈ cs, c.warning = .all ∨ Denied o c.warning) := by
  intro cs
  induction cs with
  | nil => intro st; exact Or.inl ⟨st, rfl, by simp, rfl, rfl, [], by simp⟩
  | cons c cs ih =>
    intro st
    rw [warnsP]
    rcases warnP_cases o c st with ⟨st', h⟩ | h
    · obtain ⟨h1, h2, h3, ms, h4⟩ := warnP_ok h
      rw [h]; simp only
      rcases ih st' with ⟨st2, g1, g2, g3, g4, ms', g5⟩ | ⟨st2, g1, x, g2, g3⟩
      · refine Or.inl ⟨st2, g1, ?_, g3.trans h2, g4.trans h3, ms ++ ms', by rw [g5, h4, List.append_assoc]⟩
        intro x hx
        rcases List.mem_cons.1 hx with rfl | hx
        · exact h1
        · exact g2 x hx
      · exact Or.inr ⟨st2, g1, x, List.mem_cons_of_mem _ g2, g3⟩
    · rcases hw : warnP o c st with ⟨r, st'⟩
      rw [hw] at h; simp only at h; subst h
      refine Or.inr ⟨st', rfl, c, List.mem_cons_self, ?_⟩
      refine Classical.byContradiction fun hn => ?_
      obtain ⟨st2, h2⟩ := warnP_ok' st (not_or.1 hn)
      rw [h2] at hw; simp at hw

/-- What visiting a file does, whatever was done before. -/
theorem visitSource_spec (b : Backend) (config : Compiled) (f : SourceFile) (st : PState) :
    (Fine b config f ∧ ∃ st', visitSource b config f st = (.ok (), st') ∧
      ((∃ vs, Yields b config f vs ∧ st'.map = extend st.map f ⟨mapOf vs.statements, mapOf vs.methodCalls⟩ ∧
          st'.nTests = st.nTests + vs.testSet.length) ∨
       ((∀ vs, ¬ Yields b config f vs) ∧ st'.map = st.map ∧ st'.nTests = st.nTests)) ∧
      (∃ ms, st'.printed = st.printed ++ ms ∧
        ∀ contents d e, b.read f = .ok contents → HasDirectives b f contents d → d.skipFile = false → b.parseFile f = .error e →
          Shows b.warn .parsingFailed → ∃ m ∈ ms, m.warning = .parsingFailed ∧ m.msg = parsingFailedMsg f e)) ∨
    (¬ Fine b config f ∧ (visitSource b config f st).1 ≠ .ok ()) := by
  unfold visitSource
  cases hr : b.read f with
  | error e =>
    right
    refine ⟨?_, by simp⟩
    rintro ⟨c, d, h, _⟩
    rw [hr] at h; cases h
  | ok contents =>
    simp only
    rcases collect_spec b f contents st.warns with ⟨d, ws, ms, hc, hd, hu⟩ | ⟨ms, hc, hn⟩
    rotate_left
    · right
      rw [hc]
      refine ⟨?_, by simp⟩
      rintro ⟨c, d, h, h2, _⟩
      rw [hr] at h; cases h
      exact hn d h2
    rw [hc]
    simp only
    cases hsk : d.skipFile with
    | true =>
      left
      refine ⟨⟨contents, d, hr, hd, Or.inl hsk⟩, _, rfl, Or.inr ⟨?_, rfl, rfl⟩, ms, rfl, ?_⟩
      · rintro vs ⟨c, d', _, _, _, h1, h2, h3, _⟩
        rw [hr] at h1; cases h1
        rw [hu d' h2, hsk] at h3; cases h3
      · intro c d' e h1 h2 h3
        cases h1; rw [hu d' h2, hsk] at h3; cases h3
    | false =>
      simp only [Bool.false_eq_true, if_false]
      cases hp : b.parseFile f with
      | error e =>
        simp only
        have hy : ∀ vs, ¬ Yields b config f vs := by
          rintro vs ⟨c, d', ast, _, _, _, _, _, h4, _⟩
          rw [hp] at h4; cases h4
        by_cases hden : Denied b.warn .parsingFailed
        · right
          constructor
          · rintro ⟨c, d', h1, h2, h3 | ⟨_, _, h3⟩ | ⟨_, _, _, _, h3, _⟩⟩
            · rw [hr] at h1; cases h1
              rw [hu d' h2, hsk] at h3; cases h3
            · exact h3 hden
            · rw [hp] at h3; cases h3
          · intro h
            generalize hst : ({ st with warns := ws, printed := st.printed ++ ms } : PState) = st1 at h
            rcases hw : warnP b.warn ⟨.parsingFailed, none, parsingFailedMsg f e, false⟩ st1 with ⟨r, st2⟩
            rw [hw] at h; simp only at h; subst h
            exact (warnP_ok hw).1.2 hden
        · left
          refine ⟨⟨contents, d, hr, hd, Or.inr (Or.inl ⟨e, hp, hden⟩)⟩, ?_⟩
          obtain ⟨st2, hw⟩ := warnP_ok' (c := ⟨.parsingFailed, none, parsingFailedMsg f e, false⟩) (o := b.warn)
            { st with warns := ws, printed := st.printed ++ ms } ⟨by simp, hden⟩
          obtain ⟨_, h1, h2, ms', h3⟩ := warnP_ok hw
          refine ⟨st2, hw, Or.inr ⟨hy, h1, h2⟩, ms ++ ms', by rw [h3, List.append_assoc], ?_⟩
          intro c d' e' _ _ _ h4 hs
          cases h4
          unfold warnP at hw
          obtain ⟨m, ws', e1, e2, _, e3⟩ := warnStep_shows (st := ws)
            (c := ⟨.parsingFailed, none, parsingFailedMsg f e, false⟩) hs (by simp) rfl
          dsimp only at hw
          rw [e1] at hw
          simp only [Prod.mk.injEq, true_and] at hw
          subst hw
          simp only [List.append_assoc, List.append_cancel_left_eq] at h3
          exact ⟨m, List.mem_append.2 (Or.inr (by rw [← h3]; simp)), e2, e3⟩
      | ok ast =>
        simp only
        cases hl : ast.localFunctions with
        | error e =>
          right
          refine ⟨?_, by simp⟩
          rintro ⟨c, d', h1, h2, h3 | ⟨_, h3, _⟩ | ⟨_, _, _, _, h3, h4, _⟩⟩
          · rw [hr] at h1; cases h1
            rw [hu d' h2, hsk] at h3; cases h3
          · rw [hp] at h3; cases h3
          · rw [hp] at h3; cases h3; rw [hl] at h4; cases h4
        | ok fns =>
          simp only
          unfold visitParsed
          dsimp only
          have notFine : (∀ vs walked, visitFile (visitorFor b config contents d fns) (visitorFor b config contents d fns).walkable.length ast.tree = .done vs walked →
              ast.error = none → (∀ c ∈ ast.warnings, c.warning ≠ .all ∧ ¬ Denied b.warn c.warning) →
              ¬ (vs.warnings = [] ∨ ¬ Denied b.warn .localFunctionAmbiguous)) → ¬ Fine b config f := by
            rintro hx ⟨c, d', h1, h2, h3 | ⟨_, h3, _⟩ | ⟨ast', fns', vs, walked, h3, h4, h5, h6, h7, h8⟩⟩
            · rw [hr] at h1; cases h1
              rw [hu d' h2, hsk] at h3; cases h3
            · rw [hp] at h3; cases h3
            · rw [hr] at h1; cases h1
              rw [hp] at h3; cases h3
              rw [hl] at h4; cases h4
              rw [hu d' h2] at h6
              exact hx vs walked h6 h5 h7 h8
          cases hv : visitFile (visitorFor b config contents d fns) (visitorFor b config contents d fns).walkable.length ast.tree with
          | panic => exact Or.inr ⟨notFine fun vs w h => (by rw [hv] at h; cases h), by simp⟩
          | more => exact Or.inr ⟨notFine fun vs w h => (by rw [hv] at h; cases h), by simp⟩
          | done vs walked =>
            simp only
            rcases warnsP_spec b.warn ast.warnings { st with warns := ws, printed := st.printed ++ ms } with
              ⟨st2, g1, g2, g3, g4, ms', g5⟩ | ⟨st2, g1, c, g2, g3⟩
            rotate_left
            · right
              rw [g1]
              exact ⟨notFine fun vs w _ _ h => absurd (h c g2) (fun hn => g3.elim hn.1 hn.2), by simp⟩
            rw [g1]
            simp only
            cases he : ast.error with
            | some e => exact Or.inr ⟨notFine fun vs w _ h => (by rw [he] at h; cases h), by simp⟩
            | none =>
              simp only
              have yields : Yields b config f vs := ⟨contents, d, ast, fns, walked, hr, hd, hsk, hp, hl, hv⟩
              by_cases hw : vs.warnings = []
              · left
                refine ⟨⟨contents, d, hr, hd, Or.inr (Or.inr ⟨ast, fns, vs, walked, hp, hl, he, hv, g2, Or.inl hw⟩)⟩, ?_⟩
                simp only [hw, List.isEmpty_nil, if_true]
                refine ⟨_, rfl, Or.inl ⟨vs, yields, by simp only [g3], by simp only [g4]⟩, ms ++ ms', ?_, ?_⟩
                · simp only [g5, List.append_assoc]
                · intro _ _ _ _ _ _ h; cases h
              · have hw' : vs.warnings.isEmpty = false := by simp [hw]
                simp only [hw', Bool.false_eq_true, if_false]
                by_cases hden : Denied b.warn .localFunctionAmbiguous
                · right
                  refine ⟨notFine fun vs' w' h _ _ hx => ?_, ?_⟩
                  · rw [hv] at h; cases h
                    exact hx.elim hw (fun h => h hden)
                  · rcases hq : warnP b.warn ⟨.localFunctionAmbiguous, none, ambiguousMsg f vs.warnings, false⟩ st2 with ⟨r, st3⟩
                    cases r with
                    | ok u => exact absurd hden (warnP_ok (st' := st3) hq).1.2
                    | _ => simp
                · left
                  refine ⟨⟨contents, d, hr, hd, Or.inr (Or.inr ⟨ast, fns, vs, walked, hp, hl, he, hv, g2, Or.inr hden⟩)⟩, ?_⟩
                  obtain ⟨st3, hq⟩ := warnP_ok' (c := ⟨.localFunctionAmbiguous, none, ambiguousMsg f vs.warnings, false⟩)
                    (o := b.warn) st2 ⟨by simp, hden⟩
                  obtain ⟨_, k1, k2, ms2, k3⟩ := warnP_ok hq
                  rw [hq]
                  simp only
                  refine ⟨_, rfl, Or.inl ⟨vs, yields, by simp only [k1, g3], by simp only [k2, g4]⟩, ms ++ ms' ++ ms2, ?_, ?_⟩
                  · simp only [k3, g5, List.append_assoc]
                  · intro _ _ _ _ _ _ h; cases h

/-! ### All files -/

/-- The entries that a path stands for. -/
def entriesOf (b : Backend) (p : Path) : List (Except Err (Path × Bool)) :=
  match b.kind p with
  | .dir es => es
  | .file => [.ok (p, true)]
  | .other => []

theorem visitEntries_append (b : Backend) (config : Compiled) (es1 es2) : ∀ st : PState,
    visitEntries b config (es1 ++ es2) st = match visitEntries b config es1 st with
      | (.ok _, st) => visitEntries b config es2 st
      | r => r := by
  induction es1 with
  | nil => intro st; rfl
  | cons e es ih =>
    intro st
    rw [List.cons_append]
    cases e with
    | error e => rfl
    | ok x =>
      obtain ⟨p, isFile⟩ := x
      rw [visitEntries, visitEntries]
      rcases (if isFile then visitPath b config p st else (.ok (), st)) with ⟨r, st'⟩
      cases r with
      | ok u => exact ih st'
      | _ => rfl

theorem visitPaths_eq (b : Backend) (config : Compiled) (ps : List Path) : ∀ st : PState,
    visitPaths b config ps st = visitEntries b config (ps.flatMap (entriesOf b)) st := by
  induction ps with
  | nil => intro st; rfl
  | cons p ps ih =>
    intro st
    rw [List.flatMap_cons, visitEntries_append, visitPaths]
    unfold entriesOf
    cases b.kind p with
    | dir es =>
      simp only
      rcases visitEntries b config es st with ⟨r, st'⟩
      cases r with
      | ok u => exact ih st'
      | _ => rfl
    | other => exact ih st
    | file =>
      simp only [visitEntries, if_true]
      rcases visitPath b config p st with ⟨r, st'⟩
      cases r with
      | ok u => exact ih st'
      | _ => rfl

theorem relative?_some {root p f} : relative? root p = some f ↔ p = root ++ f.path := by
  unfold relative?
  constructor
  · intro h
    split at h
    · rename_i hp
      obtain ⟨t, rfl⟩ := List.isPrefixOf_iff_prefix.1 hp
      cases h; simp
    · cases h
  · rintro rfl
    rw [if_pos (List.isPrefixOf_iff_prefix.2 (List.prefix_append _ _))]
    simp

/-- The entry is not an error, and if it is a file it is one of the project that can be processed. -/
def EntryFine (b : Backend) (config : Compiled) (e : Except Err (Path × Bool)) : Prop :=
  ∃ p isFile, e = .ok (p, isFile) ∧ (isFile = true → ∃ f : SourceFile, p = b.root ++ f.path ∧ Fine b config f)

/-- The file is among the entries. -/
def InEntries (b : Backend) (es : List (Except Err (Path × Bool))) (f : SourceFile) : Prop := .ok (b.root ++ f.path, true) ∈ es

theorem visitEntries_spec (b : Backend) (config : Compiled) : ∀ (es : List (Except Err (Path × Bool))) (st : PState),
    FileMap.Good st.map →
    ((∀ e ∈ es, EntryFine b config e) ∧ ∃ st', visitEntries b config es st = (.ok (), st') ∧ FileMap.Good st'.map ∧
      (∀ f, f ∈ st'.map.map (·.1) ↔ f ∈ st.map.map (·.1) ∨ (InEntries b es f ∧ ∃ vs, Yields b config f vs)) ∧
      (∀ f k s t, Recorded st'.map f k s t ↔ Recorded st.map f k s t ∨
        (InEntries b es f ∧ ∃ vs, Yields b config f vs ∧ (s, t) ∈ found vs k)) ∧
      (∃ ms, st'.printed = st.printed ++ ms ∧
        ∀ f contents d e, InEntries b es f → b.read f = .ok contents → HasDirectives b f contents d → d.skipFile = false →
          b.parseFile f = .error e → Shows b.warn .parsingFailed →
          ∃ m ∈ ms, m.warning = .parsingFailed ∧ m.msg = parsingFailedMsg f e)) ∨
    (¬ (∀ e ∈ es, EntryFine b config e) ∧ (visitEntries b config es st).1 ≠ .ok ()) := by
  intro es
  induction es with
  | nil =>
    intro st hg
    left
    exact ⟨by simp, st, rfl, hg, by simp [InEntries], by simp [InEntries], [], by simp, by simp [InEntries]⟩
  | cons e es ih =>
    intro st hg
    cases e with
    | error e =>
      right
      refine ⟨fun h => ?_, by simp [visitEntries]⟩
      obtain ⟨p, i, h, _⟩ := h _ List.mem_cons_self
      cases h
    | ok x =>
      obtain ⟨p, isFile⟩ := x
      rw [visitEntries]
      cases isFile with
      | false =>
        simp only [Bool.false_eq_true, if_false]
        have hi : ∀ f, InEntries b (.ok (p, false) :: es) f ↔ InEntries b es f := by
          intro f; unfold InEntries; rw [List.mem_cons]; simp
        have he : (∀ e ∈ Except.ok (p, false) :: es, EntryFine b config e) ↔ ∀ e ∈ es, EntryFine b config e := by
          rw [List.forall_mem_cons]
          exact ⟨fun h => h.2, fun h => ⟨⟨p, false, rfl, by simp⟩, h⟩⟩
        simp only [hi, he]
        exact ih st hg
      | true =>
        simp only [if_true]
        cases hrel : relative? b.root p with
        | none =>
          right
          refine ⟨fun h => ?_, by simp [visitPath, hrel]⟩
          obtain ⟨p', i, h1, h2⟩ := h _ List.mem_cons_self
          cases h1
          obtain ⟨f, h3, _⟩ := h2 rfl
          rw [relative?_some.2 h3] at hrel; cases hrel
        | some f =>
          have hp := relative?_some.1 hrel
          subst hp
          simp only [visitPath, hrel]
          have hi : ∀ f', InEntries b (.ok (b.root ++ f.path, true) :: es) f' ↔ f' = f ∨ InEntries b es f' := by
            intro f'; unfold InEntries; rw [List.mem_cons]
            simp only [Except.ok.injEq, Prod.mk.injEq, List.append_cancel_left_eq, and_true]
            obtain ⟨x⟩ := f'; obtain ⟨y⟩ := f; simp
          rcases visitSource_spec b config f st with ⟨hf, st1, h1, h2, ms, h3, h4⟩ | ⟨hf, h1⟩
          · rw [h1]
            simp only
            have hef : (∀ e ∈ Except.ok (b.root ++ f.path, true) :: es, EntryFine b config e) ↔ ∀ e ∈ es, EntryFine b config e := by
              rw [List.forall_mem_cons]
              exact ⟨fun h => h.2, fun h => ⟨⟨_, true, rfl, fun _ => ⟨f, rfl, hf⟩⟩, h⟩⟩
            rw [hef]
            have key : FileMap.Good st1.map ∧
                (∀ f', f' ∈ st1.map.map (·.1) ↔ f' ∈ st.map.map (·.1) ∨ (f' = f ∧ ∃ vs, Yields b config f' vs)) ∧
                (∀ f' k s t, Recorded st1.map f' k s t ↔ Recorded st.map f' k s t ∨
                  (f' = f ∧ ∃ vs, Yields b config f' vs ∧ (s, t) ∈ found vs k)) := by
              rcases h2 with ⟨vs, hy, hm, _⟩ | ⟨hy, hm, _⟩
              · have uniq : ∀ vs', Yields b config f vs' → vs' = vs := by
                  rintro vs' ⟨c1, d1, a1, f1, w1, p1, p2, _, p4, p5, p6⟩
                  obtain ⟨c2, d2, a2, f2, w2, q1, q2, _, q4, q5, q6⟩ := hy
                  rw [q1] at p1; cases p1
                  rw [q4] at p4; cases p4
                  rw [q5] at p5; cases p5
                  have : d1 = d2 := by
                    rcases collect_spec b f c1 st.warns with ⟨d, _, _, _, _, hu⟩ | ⟨_, _, hn⟩
                    · rw [hu _ p2, hu _ q2]
                    · exact absurd p2 (hn _)
                  subst this
                  rw [q6] at p6; cases p6; rfl
                obtain ⟨g1, g2⟩ := mapOf_good vs.statements
                obtain ⟨g3, g4⟩ := mapOf_good vs.methodCalls
                obtain ⟨k1, k2, k3⟩ := hg.extend f (inc := ⟨mapOf vs.statements, mapOf vs.methodCalls⟩) g1 g3
                rw [hm]
                refine ⟨k1, fun f' => ?_, fun f' k s t => ?_⟩
                · rw [k2]
                  exact or_congr Iff.rfl ⟨fun h => ⟨h, vs, h ▸ hy⟩, fun h => h.1⟩
                · rw [k3]
                  refine or_congr Iff.rfl ?_
                  have hh : SpanMap.Has ((⟨mapOf vs.statements, mapOf vs.methodCalls⟩ : Maps).of k) s t ↔ (s, t) ∈ found vs k :=
                    match k with | .statement => g2 s t | .methodCall => g4 s t
                  rw [hh]
                  constructor
                  · rintro ⟨rfl, h⟩; exact ⟨rfl, vs, hy, h⟩
                  · rintro ⟨rfl, vs', hy', h⟩; rw [uniq vs' hy'] at h; exact ⟨rfl, h⟩
              · rw [hm]
                refine ⟨hg, fun f' => ⟨Or.inl, ?_⟩, fun f' k s t => ⟨Or.inl, ?_⟩⟩
                · rintro (h | ⟨rfl, vs, h⟩)
                  · exact h
                  · exact absurd h (hy vs)
                · rintro (h | ⟨rfl, vs, h, _⟩)
                  · exact h
                  · exact absurd h (hy vs)
            rcases ih st1 key.1 with ⟨h5, st2, e1, e2, e3, e4, ms', e5, e6⟩ | ⟨h5, e1⟩
            · left
              refine ⟨h5, st2, e1, e2, fun f' => ?_, fun f' k s t => ?_, ms ++ ms', ?_, ?_⟩
              · rw [e3, key.2.1, hi, or_assoc, or_and_right]
              · rw [e4, key.2.2, hi, or_assoc, or_and_right]
              · rw [e5, h3, List.append_assoc]
              · intro f' c d e hin p1 p2 p3 p4 p5
                rcases (hi f').1 hin with rfl | hin
                · obtain ⟨m, hm, hm'⟩ := h4 c d e p1 p2 p3 p4 p5
                  exact ⟨m, List.mem_append.2 (Or.inl hm), hm'⟩
                · obtain ⟨m, hm, hm'⟩ := e6 f' c d e hin p1 p2 p3 p4 p5
                  exact ⟨m, List.mem_append.2 (Or.inr hm), hm'⟩
            · exact Or.inr ⟨h5, e1⟩
          · right
            constructor
            · intro h
              obtain ⟨p', i, g1, g2⟩ := h _ List.mem_cons_self
              cases g1
              obtain ⟨f', g3, g4⟩ := g2 rfl
              have : f' = f := by
                have := List.append_cancel_left g3
                obtain ⟨x⟩ := f'; obtain ⟨y⟩ := f; simp at this; simp [this]
              exact hf (this ▸ g4)
            · rcases hx : visitSource b config f st with ⟨r, st'⟩
              rw [hx] at h1
              cases r with
              | ok u => exact absurd rfl h1
              | _ => simp

theorem mem_entries {b : Backend} {paths : List Path} {e} : e ∈ (startingPaths b paths).flatMap (entriesOf b) ↔
    ∃ p ∈ startingPaths b paths, (b.kind p = .file ∧ e = .ok (p, true)) ∨ ∃ es, b.kind p = .dir es ∧ e ∈ es := by
  rw [List.mem_flatMap]
  constructor
  · rintro ⟨p, hp, h⟩
    refine ⟨p, hp, ?_⟩
    unfold entriesOf at h
    cases hk : b.kind p with
    | dir es => rw [hk] at h; exact Or.inr ⟨es, rfl, h⟩
    | file => rw [hk] at h; exact Or.inl ⟨rfl, by simpa using h⟩
    | other => rw [hk] at h; simp at h
  · rintro ⟨p, hp, h⟩
    refine ⟨p, hp, ?_⟩
    unfold entriesOf
    rcases h with ⟨hk, rfl⟩ | ⟨es, hk, h⟩ <;> rw [hk]
    · simp
    · exact h

theorem inEntries_iff {b : Backend} {paths : List Path} {f} :
    InEntries b ((startingPaths b paths).flatMap (entriesOf b)) f ↔ Given b paths f := by
  unfold InEntries Given GivenPath
  rw [mem_entries]
  constructor
  · rintro ⟨p, hp, ⟨hk, h⟩ | h⟩
    · exact ⟨p, hp, Or.inl ⟨hk, by simpa using h⟩⟩
    · exact ⟨p, hp, Or.inr h⟩
  · rintro ⟨p, hp, ⟨hk, h⟩ | h⟩
    · exact ⟨p, hp, Or.inl ⟨hk, by rw [h]⟩⟩
    · exact ⟨p, hp, Or.inr h⟩

end Necessist.Parse
