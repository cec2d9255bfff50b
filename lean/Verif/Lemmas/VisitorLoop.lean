import Verif.Lemmas.VisitorSpec
/-!
# The loop over local functions
-/
namespace Necessist.Visit

/-- One round of the loop. -/
structure Round where
  f : LocalFn
  ns : List Text
  returned : List Nat

/-- What is visited in a round begins here. -/
def Round.start (r : Round) (n : Node) : Item := ⟨⟨r.ns, none, r.returned⟩, none, n⟩

/-- What is visited in a round. -/
def Round.Visits (cfg : VCfg) (r : Round) (y : Item) : Prop := ∃ n ∈ r.f.body, Reach cfg (r.start n) y

/-- The rounds of the loop. -/
inductive Rounds (cfg : VCfg) : VState → List Round → VState → Prop
  | nil {st} : st.pending = [] → Rounds cfg st [] st
  | cons {st f st1 st2 rs st'} : nextLocalFunction st = some (f, st1) → walkList cfg f.body st1 = some st2 →
      Rounds cfg st2 rs st' → Rounds cfg st (⟨f, st1.testNames, st1.returned⟩ :: rs) st'

theorem localLoop_done {cfg} : ∀ (n : Nat) (st : VState) (w : List LocalFn) (st' w'),
    localLoop cfg n st w = .done st' w' → ∃ rs, Rounds cfg st rs st' ∧ w' = w ++ rs.map (·.f) := by
  intro n
  induction n with
  | zero =>
    intro st w st' w' h
    rw [localLoop] at h
    split at h
    · split at h
      · rename_i hp; cases h; exact ⟨[], .nil (by simpa using hp), by simp⟩
      · cases h
    · cases h
  | succ n ih =>
    intro st w st' w' h
    rw [localLoop] at h
    split at h
    · split at h
      · rename_i hp; cases h; exact ⟨[], .nil (by simpa using hp), by simp⟩
      · cases h
    · rename_i f st1 hn
      simp only at h
      split at h
      · cases h
      · rename_i st2 hw
        obtain ⟨rs, h1, h2⟩ := ih _ _ _ _ h
        exact ⟨_, .cons hn hw h1, by rw [h2]; simp⟩

/-- What holds between rounds. -/
structure Inv (cfg : VCfg) (st : VState) : Prop where
  call : st.callStatement = none
  last : st.last = none
  nodup : (pendKeys st.pending).Nodup
  disj : ∀ k ∈ pendKeys st.pending, k ∉ st.returned
  walk : ∀ e ∈ st.pending, IsWalkable cfg e.1
  ign : ∀ k t, InPend st.pending k t → cfg.config.isIgnoredTest t = false
  retNodup : st.returned.Nodup
  retWalk : ∀ k ∈ st.returned, ∃ f, IsWalkable cfg f ∧ f.key = k

theorem next_spec {st f st1} (h : nextLocalFunction st = some (f, st1)) :
    ∃ p ns, st.pending = p ++ [(f, ns)] ∧
      st1 = { st with pending := p, returned := insertSet f.key st.returned, testNames := ns } := by
  unfold nextLocalFunction at h
  split at h
  · cases h
  · rename_i g ns hg
    cases h
    obtain ⟨p, hp⟩ := List.getLast?_eq_some_iff.mp hg
    refine ⟨p, ns, hp, ?_⟩
    rw [hp]; simp

theorem mem_pendKeys {p : List (LocalFn × List Text)} {e} (h : e ∈ p) : e.1.key ∈ pendKeys p :=
  List.mem_map.mpr ⟨e, h, rfl⟩

theorem InPend.key {p k t} (h : InPend p k t) : k ∈ pendKeys p := by
  obtain ⟨f, ns, h1, h2, h3⟩ := h
  exact h2 ▸ mem_pendKeys h1

/-- A visited item's names are not those of ignored tests. -/
theorem visited_names {cfg x y t} (h : Reach cfg x y) (hw : x.waiting = none)
    (hx : ∀ t ∈ x.ctx.names, cfg.config.isIgnoredTest t = false) (ht : t ∈ y.ctx.names) :
    cfg.config.isIgnoredTest t = false := by
  rcases (h.origin hw).1 with ⟨h1, _⟩ | ⟨t', last, cs, _, h2, h3, _⟩
  · rw [h1] at ht; exact hx t ht
  · rw [h3] at ht
    rw [List.mem_singleton.mp ht]; exact h2

theorem visited_returned {cfg x y} (h : Reach cfg x y) (hw : x.waiting = none) : y.ctx.returned = x.ctx.returned :=
  (h.origin hw).1.returned

/-- The state in which a round's walk begins. -/
theorem Inv.round {cfg st f st1} (hi : Inv cfg st) (h : nextLocalFunction st = some (f, st1)) :
    st1.callStatement = none ∧ Good cfg st1 ∧ st1.ctx = ⟨st1.testNames, none, st1.returned⟩ ∧
    st1.returned = st.returned ++ [f.key] ∧ f.key ∉ st.returned ∧ IsWalkable cfg f ∧
    st1.statements = st.statements ∧ st1.methodCalls = st.methodCalls ∧ st1.testSet = st.testSet ∧
    (∀ t, t ∈ st1.testNames ↔ InPend st.pending f.key t) ∧
    (∀ k t, InPend st.pending k t ↔ InPend st1.pending k t ∨ (k = f.key ∧ t ∈ st1.testNames)) ∧
    (∀ k, k ∈ pendKeys st.pending ↔ k ∈ pendKeys st1.pending ∨ k = f.key) ∧ f.key ∉ pendKeys st1.pending ∧
    (∀ e ∈ st1.pending, e ∈ st.pending) ∧ (pendKeys st1.pending).Nodup := by
  obtain ⟨p, ns, hp, h1⟩ := next_spec h
  have hk : f.key ∈ pendKeys st.pending := by rw [hp]; simp [pendKeys]
  have hnr := hi.disj _ hk
  have hnd := hi.nodup
  rw [hp, pendKeys, List.map_append, List.nodup_append] at hnd
  obtain ⟨n1, n2, n3⟩ := hnd
  have hkp : f.key ∉ pendKeys p := by
    intro h
    exact n3 _ h _ (by simp) rfl
  have hin : ∀ k t, InPend st.pending k t ↔ InPend p k t ∨ (k = f.key ∧ t ∈ ns) := by
    intro k t
    rw [hp]
    constructor
    · rintro ⟨g, ms, a1, a2, a3⟩
      rcases List.mem_append.mp a1 with a1 | a1
      · exact Or.inl ⟨g, ms, a1, a2, a3⟩
      · rw [List.mem_singleton] at a1; cases a1; exact Or.inr ⟨a2.symm, a3⟩
    · rintro (⟨g, ms, a1, a2, a3⟩ | ⟨a1, a2⟩)
      · exact ⟨g, ms, by simp [a1], a2, a3⟩
      · exact ⟨f, ns, by simp, a1.symm, a2⟩
  have hret : insertSet f.key st.returned = st.returned ++ [f.key] := by unfold insertSet; rw [if_neg hnr]
  subst h1
  refine ⟨hi.call, ⟨fun _ => hi.last, ?_⟩, ?_, hret, hnr, ?_, rfl, rfl, rfl, ?_, hin, ?_, hkp, ?_, n1⟩
  · intro t ht
    exact hi.ign f.key t ((hin _ _).mpr (Or.inr ⟨rfl, ht⟩))
  · simp only [VState.ctx, hi.last]
  · exact hi.walk (f, ns) (by rw [hp]; simp)
  · intro t
    rw [hin]
    constructor
    · intro h; exact Or.inr ⟨rfl, h⟩
    · rintro (h | h)
      · exact absurd h.key hkp
      · exact h.2
  · intro k
    rw [hp]; simp [pendKeys]
  · intro e he; rw [hp]; simp [he]

/-- The visited items of a round. -/
theorem round_eff {cfg st f st1 st2} (hi : Inv cfg st) (h1 : nextLocalFunction st = some (f, st1))
    (h2 : walkList cfg f.body st1 = some st2) :
    Eff cfg (Round.Visits cfg ⟨f, st1.testNames, st1.returned⟩) st1 st2 ∧ Inv cfg st2 := by
  obtain ⟨a1, a2, a3, a4, a5, a6, a7, a8, a9, a10, a11, a12, a13, a14, a15⟩ := hi.round h1
  obtain ⟨e, e2⟩ := walkList_eff cfg f.body st1 st2 h2 a1 a2
  have e : Eff cfg (Round.Visits cfg ⟨f, st1.testNames, st1.returned⟩) st1 st2 := by
    rw [a3] at e; exact e
  refine ⟨e, ?_⟩
  have hcall : ∀ y n fs g, Round.Visits cfg ⟨f, st1.testNames, st1.returned⟩ y → CallsFn cfg y n fs g →
      IsWalkable cfg g ∧ g.key ∉ st1.returned := by
    rintro y n fs g ⟨m, _, hm⟩ hc
    have := hc.calls
    rw [visited_returned hm rfl] at this
    exact ⟨this.1.walkable, this.2⟩
  exact
    { call := e2
      last := by rw [e.last]; have := congrArg Ctx.last a3; exact this
      nodup := e.nodup a15
      disj := by
        intro k hk
        rw [e.returned]
        rcases (e.keys k).mp hk with hk | ⟨y, n, fs, g, hy, hc, rfl⟩
        · rw [a4, List.mem_append, List.mem_singleton]
          rintro (h | h)
          · exact hi.disj k ((a12 k).mpr (Or.inl hk)) h
          · exact a13 (h ▸ hk)
        · exact (hcall y n fs g hy hc).2
      walk := by
        intro e' he
        rcases e.fns e' he with ⟨e0, h0, h0'⟩ | ⟨y, n, fs, hy, hc⟩
        · rw [← h0']; exact hi.walk e0 (a14 e0 h0)
        · exact (hcall y n fs _ hy hc).1
      ign := by
        intro k t h
        rcases (e.pend k t).mp h with h | ⟨y, n, fs, g, ⟨m, hm1, hm⟩, hc, hk, ht⟩
        · exact hi.ign k t ((a11 k t).mpr (Or.inl h))
        · exact visited_names hm rfl a2.2 ht
      retNodup := by
        rw [e.returned, a4, List.nodup_append]
        refine ⟨hi.retNodup, by simp, ?_⟩
        intro k hk j hj
        rw [List.mem_singleton] at hj
        rintro rfl
        exact a5 (hj ▸ hk)
      retWalk := by
        intro k hk
        rw [e.returned, a4, List.mem_append, List.mem_singleton] at hk
        rcases hk with hk | rfl
        · exact hi.retWalk k hk
        · exact ⟨f, a6, rfl⟩ }

/-- The history of the loop. -/
structure Hist (cfg : VCfg) (st : VState) (rs : List Round) (st' : VState) : Prop where
  stmts : ∀ p, p ∈ st'.statements ↔ p ∈ st.statements ∨
    ∃ r ∈ rs, ∃ y, r.Visits cfg y ∧ StmtCand cfg y p.1 ∧ p.2 ∈ y.ctx.names
  meths : ∀ p, p ∈ st'.methodCalls ↔ p ∈ st.methodCalls ∨
    ∃ r ∈ rs, ∃ y, r.Visits cfg y ∧ MethCand cfg y p.1 ∧ p.2 ∈ y.ctx.names
  tests : ∀ t, t ∈ st'.testSet ↔ t ∈ st.testSet ∨ ∃ r ∈ rs, ∃ y, r.Visits cfg y ∧ TestIs cfg y t
  keys : (rs.map (·.f.key)).Nodup
  fresh : ∀ r ∈ rs, r.f.key ∉ st.returned ∧ IsWalkable cfg r.f
  ret : ∀ r ∈ rs, ∀ k ∈ r.returned, k ∈ st.returned ∨ ∃ r' ∈ rs, r'.f.key = k
  pend : ∀ k t, InPend st.pending k t → ∃ r ∈ rs, r.f.key = k ∧ t ∈ r.ns
  pendKey : ∀ k ∈ pendKeys st.pending, ∃ r ∈ rs, r.f.key = k
  calls : ∀ r ∈ rs, ∀ y n fs g, r.Visits cfg y → CallsFn cfg y n fs g →
    (∃ r' ∈ rs, r'.f.key = g.key) ∧ ∀ t ∈ y.ctx.names, ∃ r' ∈ rs, r'.f.key = g.key ∧ t ∈ r'.ns
  why : ∀ r ∈ rs, ∀ t ∈ r.ns, InPend st.pending r.f.key t ∨
    ∃ r' ∈ rs, ∃ y n fs g, r'.Visits cfg y ∧ CallsFn cfg y n fs g ∧ g.key = r.f.key ∧ t ∈ y.ctx.names
  ign : ∀ r ∈ rs, ∀ t ∈ r.ns, cfg.config.isIgnoredTest t = false
  self : ∀ r ∈ rs, r.f.key ∈ r.returned

theorem rounds_hist {cfg st rs st'} (h : Rounds cfg st rs st') : Inv cfg st → Hist cfg st rs st' := by
  induction h with
  | nil hp =>
    intro hi
    constructor <;> simp [hp, InPend, pendKeys]
  | @cons st f st1 st2 rs st' h1 h2 h3 ih =>
    intro hi
    obtain ⟨a1, a2, a3, a4, a5, a6, a7, a8, a9, a10, a11, a12, a13, a14, a15⟩ := hi.round h1
    obtain ⟨e, hi2⟩ := round_eff hi h1 h2
    have H := ih hi2
    have hr2 : st2.returned = st.returned ++ [f.key] := e.returned.trans a4
    exact
      { stmts := by
          intro p
          rw [H.stmts, e.stmts, a7]
          simp only [List.mem_cons, exists_eq_or_imp]
          grind
        meths := by
          intro p
          rw [H.meths, e.meths, a8]
          simp only [List.mem_cons, exists_eq_or_imp]
          grind
        tests := by
          intro p
          rw [H.tests, e.tests, a9]
          simp only [List.mem_cons, exists_eq_or_imp]
          grind
        keys := by
          rw [List.map_cons, List.nodup_cons]
          refine ⟨?_, H.keys⟩
          intro hm
          obtain ⟨r, hr, hk⟩ := List.mem_map.mp hm
          have := (H.fresh r hr).1
          rw [hr2, hk] at this
          simp at this
        fresh := by
          intro r hr
          rcases List.mem_cons.mp hr with rfl | hr
          · exact ⟨a5, a6⟩
          · have := H.fresh r hr
            rw [hr2] at this
            refine ⟨?_, this.2⟩
            intro hk; exact this.1 (by simp [hk])
        ret := by
          intro r hr k hk
          rcases List.mem_cons.mp hr with rfl | hr
          · simp only at hk
            rw [a4, List.mem_append, List.mem_singleton] at hk
            rcases hk with hk | rfl
            · exact Or.inl hk
            · exact Or.inr ⟨_, List.mem_cons_self, rfl⟩
          · rcases H.ret r hr k hk with hk | ⟨r', hr', hk⟩
            · rw [hr2, List.mem_append, List.mem_singleton] at hk
              rcases hk with hk | rfl
              · exact Or.inl hk
              · exact Or.inr ⟨_, List.mem_cons_self, rfl⟩
            · exact Or.inr ⟨r', List.mem_cons_of_mem _ hr', hk⟩
        pend := by
          intro k t hp
          rcases (a11 k t).mp hp with hp | ⟨rfl, ht⟩
          · obtain ⟨r, hr, hk⟩ := H.pend k t ((e.pend k t).mpr (Or.inl hp))
            exact ⟨r, List.mem_cons_of_mem _ hr, hk⟩
          · exact ⟨_, List.mem_cons_self, rfl, ht⟩
        pendKey := by
          intro k hp
          rcases (a12 k).mp hp with hp | rfl
          · obtain ⟨r, hr, hk⟩ := H.pendKey k ((e.keys k).mpr (Or.inl hp))
            exact ⟨r, List.mem_cons_of_mem _ hr, hk⟩
          · exact ⟨_, List.mem_cons_self, rfl⟩
        calls := by
          intro r hr y n fs g hy hc
          rcases List.mem_cons.mp hr with rfl | hr
          · constructor
            · obtain ⟨r', hr', hk⟩ := H.pendKey g.key ((e.keys _).mpr (Or.inr ⟨y, n, fs, g, hy, hc, rfl⟩))
              exact ⟨r', List.mem_cons_of_mem _ hr', hk⟩
            · intro t ht
              obtain ⟨r', hr', hk⟩ := H.pend g.key t ((e.pend _ _).mpr (Or.inr ⟨y, n, fs, g, hy, hc, rfl, ht⟩))
              exact ⟨r', List.mem_cons_of_mem _ hr', hk⟩
          · obtain ⟨⟨r', hr', hk⟩, h'⟩ := H.calls r hr y n fs g hy hc
            refine ⟨⟨r', List.mem_cons_of_mem _ hr', hk⟩, fun t ht => ?_⟩
            obtain ⟨r'', hr'', hk''⟩ := h' t ht
            exact ⟨r'', List.mem_cons_of_mem _ hr'', hk''⟩
        why := by
          intro r hr t ht
          rcases List.mem_cons.mp hr with rfl | hr
          · exact Or.inl ((a10 t).mp ht)
          · rcases H.why r hr t ht with hp | ⟨r', hr', y, n, fs, g, h'⟩
            · rcases (e.pend _ _).mp hp with hp | ⟨y, n, fs, g, h'⟩
              · exact Or.inl ((a11 _ _).mpr (Or.inl hp))
              · exact Or.inr ⟨_, List.mem_cons_self, y, n, fs, g, h'⟩
            · exact Or.inr ⟨r', List.mem_cons_of_mem _ hr', y, n, fs, g, h'⟩
        ign := by
          intro r hr t ht
          rcases List.mem_cons.mp hr with rfl | hr
          · exact a2.2 t ht
          · exact H.ign r hr t ht
        self := by
          intro r hr
          rcases List.mem_cons.mp hr with rfl | hr
          · simp only; rw [a4]; simp
          · exact H.self r hr }

/-- What is visited in the first pass. -/
def FileVisits (cfg : VCfg) (tree : List Node) (y : Item) : Prop := ∃ n ∈ tree, Reach cfg ⟨⟨[], none, []⟩, none, n⟩ y

theorem file_eff {cfg tree st} (h : walkList cfg tree {} = some st) :
    Eff cfg (FileVisits cfg tree) {} st ∧ Inv cfg st ∧ st.testNames = [] := by
  have hg : Good cfg {} := ⟨fun _ => rfl, by simp⟩
  obtain ⟨e, e2⟩ := walkList_eff cfg tree {} st h rfl hg
  have e : Eff cfg (FileVisits cfg tree) {} st := e
  refine ⟨e, ?_, e.names⟩
  have hcall : ∀ y n fs g, FileVisits cfg tree y → CallsFn cfg y n fs g → IsWalkable cfg g := by
    rintro y n fs g ⟨m, _, hm⟩ hc
    exact hc.calls.1.walkable
  exact
    { call := e2
      last := e.last
      nodup := e.nodup (by simp [pendKeys])
      disj := by
        intro k _
        rw [e.returned]; simp
      walk := by
        intro e' he
        rcases e.fns e' he with ⟨e0, h0, h0'⟩ | ⟨y, n, fs, hy, hc⟩
        · cases h0
        · exact hcall y n fs _ hy hc
      ign := by
        intro k t h
        rcases (e.pend k t).mp h with ⟨f, ns, h, _⟩ | ⟨y, n, fs, g, ⟨m, hm1, hm⟩, hc, hk, ht⟩
        · cases h
        · exact visited_names hm rfl (by simp) ht
      retNodup := by rw [e.returned]; simp
      retWalk := by intro k hk; rw [e.returned] at hk; cases hk }

/-- A whole visit, in terms of its rounds. -/
structure Whole (cfg : VCfg) (tree : List Node) (st : VState) (walked : List LocalFn) (rs : List Round) : Prop where
  walked : walked = rs.map (·.f)
  stmts : ∀ p, p ∈ st.statements ↔ ∃ y, (FileVisits cfg tree y ∨ ∃ r ∈ rs, r.Visits cfg y) ∧
    StmtCand cfg y p.1 ∧ p.2 ∈ y.ctx.names
  meths : ∀ p, p ∈ st.methodCalls ↔ ∃ y, (FileVisits cfg tree y ∨ ∃ r ∈ rs, r.Visits cfg y) ∧
    MethCand cfg y p.1 ∧ p.2 ∈ y.ctx.names
  tests : ∀ t, t ∈ st.testSet ↔ ∃ y, (FileVisits cfg tree y ∨ ∃ r ∈ rs, r.Visits cfg y) ∧ TestIs cfg y t
  keys : (rs.map (·.f.key)).Nodup
  walkable : ∀ r ∈ rs, IsWalkable cfg r.f
  ret : ∀ r ∈ rs, ∀ k ∈ r.returned, ∃ r' ∈ rs, r'.f.key = k
  fileCalls : ∀ y n fs g, FileVisits cfg tree y → CallsFn cfg y n fs g →
    (∃ r ∈ rs, r.f.key = g.key) ∧ ∀ t ∈ y.ctx.names, ∃ r ∈ rs, r.f.key = g.key ∧ t ∈ r.ns
  calls : ∀ r ∈ rs, ∀ y n fs g, r.Visits cfg y → CallsFn cfg y n fs g →
    (∃ r' ∈ rs, r'.f.key = g.key) ∧ ∀ t ∈ y.ctx.names, ∃ r' ∈ rs, r'.f.key = g.key ∧ t ∈ r'.ns
  ign : ∀ r ∈ rs, ∀ t ∈ r.ns, cfg.config.isIgnoredTest t = false
  self : ∀ r ∈ rs, r.f.key ∈ r.returned

/-- The loop ends. -/
theorem localLoop_not_more {cfg} : ∀ (n : Nat) (st : VState) (w : List LocalFn), Inv cfg st →
    cfg.walkable.length ≤ st.returned.length + n → localLoop cfg n st w ≠ .more := by
  intro n
  induction n with
  | zero =>
    intro st w hi hl
    rw [localLoop]
    split
    · split <;> simp
    · rename_i f st1 hn
      exfalso
      obtain ⟨a1, a2, a3, a4, a5, a6, _⟩ := hi.round hn
      have hnd : (st.returned ++ [f.key]).Nodup := by
        rw [List.nodup_append]
        refine ⟨hi.retNodup, by simp, ?_⟩
        intro k hk j hj
        rw [List.mem_singleton] at hj
        rintro rfl
        exact a5 (hj ▸ hk)
      have hsub : (st.returned ++ [f.key]) ⊆ cfg.walkable.filterMap (fun e => e.2.head?.map (·.key)) := by
        have hw : ∀ g, IsWalkable cfg g → g.key ∈ cfg.walkable.filterMap (fun e => e.2.head?.map (·.key)) := by
          rintro g ⟨name, fs, hl⟩
          have hm : (name, g :: fs) ∈ cfg.walkable := by
            have := List.lookup_eq_some_iff.mp hl
            obtain ⟨l1, l2, h3, _⟩ := this
            rw [h3]; simp
          exact List.mem_filterMap.mpr ⟨_, hm, rfl⟩
        intro k hk
        rw [List.mem_append, List.mem_singleton] at hk
        rcases hk with hk | rfl
        · obtain ⟨g, hg, rfl⟩ := hi.retWalk k hk
          exact hw g hg
        · exact hw f a6
      have := hnd.length_le_of_subset hsub
      have h2 := List.length_filterMap_le (fun e : Text × List LocalFn => e.2.head?.map (·.key)) cfg.walkable
      simp only [List.length_append, List.length_singleton] at this
      omega
  | succ n ih =>
    intro st w hi hl
    rw [localLoop]
    split
    · split <;> simp
    · rename_i f st1 hn
      simp only
      split
      · simp
      · rename_i st2 hw
        obtain ⟨e, hi2⟩ := round_eff hi hn hw
        obtain ⟨a1, a2, a3, a4, _⟩ := hi.round hn
        apply ih _ _ hi2
        rw [e.returned, a4]
        simp only [List.length_append, List.length_singleton]
        omega

/-- The tests recorded for a function exercise it, and are registered. -/
def NamesOk (cfg : VCfg) (tree : List Node) (st : VState) : Prop :=
  ∀ k t, InPend st.pending k t → ∀ g, IsWalkable cfg g → g.key = k → Exercises cfg tree t g

theorem tracked_inTest {cfg tree x y} (hx : World cfg tree x.node) (h : Tracked cfg x y) (hn : ¬ y.ctx = x.ctx) :
    ∃ t last, y.ctx = ⟨[t], last, x.ctx.returned⟩ ∧ InTest cfg tree t last y.node := by
  rcases h with ⟨h, _⟩ | ⟨t, last, cs, h1, h2, h3, m, hm, h4⟩
  · exact absurd h hn
  · refine ⟨t, last, h3, h2, cs, ?_, m, hm, h4.held⟩
    rcases hx with ⟨r, hr, hs⟩ | ⟨f, hf, r, hr, hs⟩
    · exact Or.inl ⟨r, hr, hs.trans h1⟩
    · exact Or.inr ⟨f, hf, r, hr, hs.trans h1⟩

/-- A visited item, seen from outside. -/
theorem tracked_covers {cfg tree x y} (hx : World cfg tree x.node) (h : Tracked cfg x y) (t) (ht : t ∈ y.ctx.names) :
    InTest cfg tree t y.ctx.last y.node ∨ (y.ctx = x.ctx ∧ Held cfg x.node y.node) := by
  rcases h with ⟨h, h'⟩ | ⟨t', last, cs, h1, h2, h3, m, hm, h4⟩
  · exact Or.inr ⟨h, h'.held⟩
  · left
    rw [h3] at ht ⊢
    rw [List.mem_singleton.mp ht]
    refine ⟨h2, cs, ?_, m, hm, h4.held⟩
    rcases hx with ⟨r, hr, hs⟩ | ⟨f, hf, r, hr, hs⟩
    · exact Or.inl ⟨r, hr, hs.trans h1⟩
    · exact Or.inr ⟨f, hf, r, hr, hs.trans h1⟩

theorem rounds_names {cfg tree st rs st'} (hkf : KeysFaithful cfg) (h : Rounds cfg st rs st') : Inv cfg st → NamesOk cfg tree st →
    ∀ r ∈ rs, ∀ t ∈ r.ns, Exercises cfg tree t r.f := by
  induction h with
  | nil => intro _ _ r hr; cases hr
  | @cons st f st1 st2 rs st' h1 h2 h3 ih =>
    intro hi hno
    obtain ⟨a1, a2, a3, a4, a5, a6, a7, a8, a9, a10, a11, a12, a13, a14, a15⟩ := hi.round h1
    obtain ⟨e, hi2⟩ := round_eff hi h1 h2
    have hself : ∀ t ∈ st1.testNames, Exercises cfg tree t f := fun t ht => hno _ t ((a10 t).mp ht) f a6 rfl
    have hno2 : NamesOk cfg tree st2 := by
      intro k t hp g hg hk
      rcases (e.pend k t).mp hp with hp | ⟨y, n, fs, g', ⟨m, hm1, hm⟩, hc, hk', ht⟩
      · exact hno k t ((a11 k t).mpr (Or.inl hp)) g hg hk
      · have hcc := hc.calls.1
        obtain rfl : g' = g := hkf _ _ hcc.walkable hg (hk'.trans hk.symm)
        have hw : World cfg tree m := Or.inr ⟨f, a6, m, hm1, .refl _⟩
        rcases tracked_covers (x := Round.start ⟨f, st1.testNames, st1.returned⟩ m) hw (hm.tracked rfl) t ht with h | ⟨h, h'⟩
        · exact .direct h hcc
        · rw [h] at ht
          exact .via (hself t ht) ⟨m, hm1, h'⟩ hcc
    intro r hr t ht
    rcases List.mem_cons.mp hr with rfl | hr
    · exact hself t ht
    · exact ih hi2 hno2 r hr t ht

theorem rounds_testSet {cfg st rs st'} (h : Rounds cfg st rs st') : Inv cfg st →
    (∀ k t, InPend st.pending k t → t ∈ st.testSet) →
    (∀ r ∈ rs, ∀ t ∈ r.ns, t ∈ st'.testSet) := by
  induction h with
  | nil => intro _ _ r hr; cases hr
  | @cons st f st1 st2 rs st' h1 h2 h3 ih =>
    intro hi hno
    obtain ⟨a1, a2, a3, a4, a5, a6, a7, a8, a9, a10, a11, a12, a13, a14, a15⟩ := hi.round h1
    obtain ⟨e, hi2⟩ := round_eff hi h1 h2
    have H := rounds_hist h3 hi2
    have hself : ∀ t ∈ st1.testNames, t ∈ st2.testSet := by
      intro t ht
      rw [e.tests, a9]
      exact Or.inl (hno _ t ((a10 t).mp ht))
    have hno2 : ∀ k t, InPend st2.pending k t → t ∈ st2.testSet := by
      intro k t hp
      rcases (e.pend k t).mp hp with hp | ⟨y, n, fs, g', ⟨m, hm1, hm⟩, hc, hk', ht⟩
      · rw [e.tests, a9]
        exact Or.inl (hno k t ((a11 k t).mpr (Or.inl hp)))
      · rcases hm.tests t ht with h | ⟨w, hw, htt⟩
        · exact hself t h
        · rw [e.tests]
          exact Or.inr ⟨w, ⟨m, hm1, hw⟩, htt⟩
    intro r hr t ht
    rcases List.mem_cons.mp hr with rfl | hr
    · rw [H.tests]; exact Or.inl (hself t ht)
    · exact ih hi2 hno2 r hr t ht

theorem visitFile_rounds {cfg n tree st walked} (h : visitFile cfg n tree = .done st walked) :
    ∃ st0 rs, walkList cfg tree {} = some st0 ∧ Rounds cfg st0 rs st ∧ walked = rs.map (·.f) ∧ Whole cfg tree st walked rs := by
  have h' := h
  unfold visitFile at h
  split at h
  · cases h
  · rename_i st0 h0
    obtain ⟨e, hi, hn⟩ := file_eff h0
    obtain ⟨rs, hr, hw⟩ := localLoop_done _ _ _ _ _ h
    have H := rounds_hist hr hi
    refine ⟨st0, rs, h0, hr, by simpa using hw, ?_⟩
    exact
      { walked := by simpa using hw
        stmts := by
          intro p
          rw [H.stmts, e.stmts]
          simp only [List.not_mem_nil, false_or]
          grind
        meths := by
          intro p
          rw [H.meths, e.meths]
          simp only [List.not_mem_nil, false_or]
          grind
        tests := by
          intro p
          rw [H.tests, e.tests]
          simp only [List.not_mem_nil, false_or]
          grind
        keys := H.keys
        walkable := fun r hr => (H.fresh r hr).2
        ret := by
          intro r hr k hk
          rcases H.ret r hr k hk with hk | hk
          · rw [e.returned] at hk; cases hk
          · exact hk
        fileCalls := by
          intro y n fs g hy hc
          refine ⟨H.pendKey _ ((e.keys _).mpr (Or.inr ⟨y, n, fs, g, hy, hc, rfl⟩)), fun t ht => ?_⟩
          exact H.pend _ t ((e.pend _ _).mpr (Or.inr ⟨y, n, fs, g, hy, hc, rfl, ht⟩))
        calls := H.calls
        ign := H.ign
        self := H.self }

theorem visitFile_names {cfg n tree st walked} (h : visitFile cfg n tree = .done st walked) :
    ∃ rs, Whole cfg tree st walked rs ∧ (∀ r ∈ rs, ∀ t ∈ r.ns, t ∈ st.testSet) ∧
      (KeysFaithful cfg → ∀ r ∈ rs, ∀ t ∈ r.ns, Exercises cfg tree t r.f) := by
  obtain ⟨st0, rs, h0, hr, hw, W⟩ := visitFile_rounds h
  obtain ⟨e, hi, hn⟩ := file_eff h0
  have hp : ∀ k t, InPend st0.pending k t → ∃ y n fs g, FileVisits cfg tree y ∧ CallsFn cfg y n fs g ∧ g.key = k ∧
      t ∈ y.ctx.names := by
    intro k t hp
    rcases (e.pend k t).mp hp with ⟨_, _, h, _⟩ | h
    · cases h
    · exact h
  refine ⟨rs, W, rounds_testSet hr hi ?_, fun hkf => rounds_names hkf hr hi ?_⟩
  · intro k t h
    obtain ⟨y, n, fs, g, ⟨m, hm1, hm⟩, _, _, ht⟩ := hp k t h
    rcases hm.tests t ht with h | ⟨w, hw, htt⟩
    · cases h
    · rw [e.tests]; exact Or.inr ⟨w, ⟨m, hm1, hw⟩, htt⟩
  · intro k t h g hg hk
    obtain ⟨y, n, fs, g', ⟨m, hm1, hm⟩, hc, hk', ht⟩ := hp k t h
    have hcc := hc.calls.1
    obtain rfl : g' = g := hkf _ _ hcc.walkable hg (hk'.trans hk.symm)
    rcases tracked_covers (x := ⟨⟨[], none, []⟩, none, m⟩) (Or.inl ⟨m, hm1, .refl _⟩) (hm.tracked rfl) t ht with h | ⟨h, _⟩
    · exact .direct h hcc
    · rw [h] at ht; cases ht

end Necessist.Visit
