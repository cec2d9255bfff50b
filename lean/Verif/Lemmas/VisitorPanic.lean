import Verif.Lemmas.VisitorComplete
/-!
# When the visitor does not panic
-/
namespace Necessist.Visit

/-- Nothing but the findings change. -/
structure Same (st st' : VState) : Prop where
  names : st'.testNames = st.testNames
  last : st'.last = st.last
  nBefore : st'.nBefore = st.nBefore
  call : st'.callStatement = none

theorem registerSpan_ok {cfg span kind st} (h : st.testNames ≠ []) :
    ∃ st', registerSpan cfg span kind st = some st' ∧ st'.testNames = st.testNames ∧ st'.last = st.last ∧
      st'.nBefore = st.nBefore ∧ st'.callStatement = st.callStatement := by
  unfold registerSpan
  have : st.testNames.isEmpty = false := by rw [List.isEmpty_eq_false_iff]; exact h
  rw [this]
  simp only [Bool.false_eq_true, if_false]
  split
  · exact ⟨_, rfl, rfl, rfl, rfl, rfl⟩
  · cases kind <;> exact ⟨_, rfl, rfl, rfl, rfl, rfl⟩

theorem considered_names {names last s} (h : considered names last s = true) : names ≠ [] := by
  rintro rfl
  cases s <;> simp [considered] at h

theorem maybe_rest {cfg st} {a : CallArgs} {o : Option VState} (hn : st.testNames ≠ [])
    (h : ∃ st1, o = some st1 ∧ Same st st1) : ∃ go st', (o.bind fun st =>
      (if !a.isIgnoredAsCall && a.isMethodCall && !a.isIgnoredAsMethodCall then registerSpan cfg a.span .methodCall st
        else some st).bind fun st =>
      some ((!a.isIgnoredAsCall && !a.isIgnoredAsMethodCall) || cfg.config.visitIgnoredArguments, st)) = some (go, st') ∧
      Same st st' := by
  obtain ⟨st1, e1, s1⟩ := h
  rw [e1]
  simp only [Option.bind_some]
  split
  · obtain ⟨st', h1, h2, h3, h4, h5⟩ := registerSpan_ok (cfg := cfg) (span := a.span) (kind := .methodCall)
      (st := st1) (by rw [s1.names]; exact hn)
    rw [h1]
    exact ⟨_, _, rfl, h2.trans s1.names, h3.trans s1.last, h4.trans s1.nBefore, h5.trans s1.call⟩
  · exact ⟨_, _, rfl, s1⟩

theorem visitMaybeMacroCall_ok (cfg : VCfg) (a : CallArgs) (st : VState) :
    ∃ go st', visitMaybeMacroCall cfg a st = some (go, st') ∧ Same st st' := by
  unfold visitMaybeMacroCall
  simp only
  split
  · rename_i hc
    have hn := considered_names hc
    refine maybe_rest hn ?_
    split
    · exact ⟨_, rfl, rfl, rfl, rfl, rfl⟩
    · split
      · obtain ⟨st', h1, h2, h3, h4, h5⟩ := registerSpan_ok (cfg := cfg) (st := { st with callStatement := none }) hn
        exact ⟨st', h1, h2, h3, h4, h5⟩
      · exact ⟨_, rfl, rfl, rfl, rfl, rfl⟩
  · exact ⟨_, _, rfl, rfl, rfl, rfl, rfl⟩

theorem visitCall_ok (cfg : VCfg) (i cn callee) (st : VState) :
    ∃ go st', visitCall cfg i cn callee st = some (go, st') ∧ Same st st' := by
  unfold visitCall
  split
  · exact ⟨_, _, rfl, rfl, rfl, rfl, rfl⟩
  · exact visitMaybeMacroCall_ok _ _ _

theorem Same.trans {a b c} (h1 : Same a b) (h2 : Same b c) : Same a c :=
  ⟨h2.names.trans h1.names, h2.last.trans h1.last, h2.nBefore.trans h1.nBefore, h2.call⟩

/-- The tests in `n` can be visited. -/
def TestsOk (n : Node) (st : VState) : Prop := FlatTests n ∧ (NoTest n ∨ (st.testNames = [] ∧ st.last = none))

theorem FlatTests.kid {n m} (h : FlatTests n) (hm : m ∈ n.kids) : FlatTests m :=
  fun t last cs hs => h t last cs (.step hm hs)

theorem NoTest.kid {n m} (h : NoTest n) (hm : m ∈ n.kids) : NoTest m :=
  fun t last cs hs => h t last cs (.step hm hs)

theorem NoTest.flat {n} (h : NoTest n) : FlatTests n := fun t last cs hs => absurd hs (h t last cs)

theorem TestsOk.kid {n m st st'} (h : TestsOk n st) (hm : m ∈ n.kids) (h1 : st'.testNames = st.testNames)
    (h2 : st'.last = st.last) : TestsOk m st' :=
  ⟨h.1.kid hm, h.2.imp (·.kid hm) fun h => by rw [h1, h2]; exact h⟩

theorem DirectCalls.kid {cfg n m} (h : DirectCalls cfg n) (hm : m ∈ n.kids) : DirectCalls cfg m :=
  h.imp id fun h s e x hs => h s e x (.step hm hs)

/-- A waiting call statement will be served. -/
def WaitOk (cfg : VCfg) (n : Node) (st : VState) : Prop :=
  st.callStatement = none ∨ (stripsToCall n = true ∧ (cfg.fields = true ∨ IsCall n))

theorem not_call_wait {cfg n st} (h : WaitOk cfg n st) (hn : stripsToCall n = false) : st.callStatement = none := by
  rcases h with h | ⟨h, _⟩
  · exact h
  · rw [hn] at h; cases h

theorem post_ok (cfg : VCfg) (s : StmtInfo) (isCall : Bool) {st : VState} {k ks} (hc : st.callStatement = none)
    (hb : st.nBefore = k :: ks) :
    ∃ st', visitStatementPost cfg s isCall st = some st' ∧ st'.testNames = st.testNames ∧ st'.last = st.last ∧
      st'.nBefore = ks ∧ st'.callStatement = none := by
  unfold visitStatementPost
  rw [hc, hb]
  simp only [Option.isSome_none, Bool.false_eq_true, if_false]
  split
  · exact ⟨_, rfl, rfl, rfl, rfl, rfl⟩
  · split
    · rename_i h
      have hn : st.testNames ≠ [] := by
        intro h0; rw [h0] at h; simp at h
      obtain ⟨st', h1, h2, h3, h4, h5⟩ := registerSpan_ok (cfg := cfg) (span := s.span) (kind := .statement)
        (st := { st with nBefore := ks, leaves := st.leaves + 1, callStatement := none }) hn
      exact ⟨st', h1, h2, h3, h4, h5⟩
    · exact ⟨_, rfl, rfl, rfl, rfl, rfl⟩

mutual
/-- Visiting a node does not panic. -/
theorem walk_ok (cfg : VCfg) : ∀ (n : Node) (st : VState), TestsOk n st → DirectCalls cfg n → WaitOk cfg n st →
    ∃ st', walk cfg n st = some st' ∧ Same st st'
  | .test name last cs, st, ht, hd, hw => by
    have hc := not_call_wait hw rfl
    obtain ⟨hn, hl⟩ : st.testNames = [] ∧ st.last = none := ht.2.elim (fun h => absurd (.refl _) (h name last cs)) id
    rw [walk]
    unfold visitTest
    rw [hn, hl]
    cases hi : cfg.config.isIgnoredTest name with
    | true =>
      simp only [if_true, Option.bind_some, Bool.false_eq_true, if_false]
      unfold visitTestPost
      rw [hn]
      exact ⟨_, rfl, hn.symm ▸ hn, hl.symm, rfl, hc⟩
    | false =>
      simp only [Bool.false_eq_true, if_false, List.isEmpty_nil, Bool.not_true, Option.isSome_none, Option.bind_some, if_true]
      obtain ⟨st2, h1, h2⟩ := walkList_ok cfg cs { st with testSet := insertSet name st.testSet, testNames := [name], last := last }
        (fun m hm => ⟨ht.1.kid hm, Or.inl (ht.1 name last cs (.refl _) m hm)⟩) (fun m hm => hd.kid hm) hc
      rw [h1]
      simp only [Option.bind_some]
      unfold visitTestPost
      have hn2 : st2.testNames = [name] := h2.names
      simp only [hn2, List.isEmpty_cons, Bool.false_eq_true, if_false, if_true]
      exact ⟨_, rfl, hn.symm, hl.symm, h2.nBefore, h2.call⟩
  | .stmt s cs, st, ht, hd, hw => by
    have hc := not_call_wait hw rfl
    rw [walk]
    unfold visitStatement
    simp only [Bool.false_eq_true, if_false, Option.bind_some]
    obtain ⟨st2, h1, h2⟩ := walkList_ok cfg cs { st with nBefore := st.leaves :: st.nBefore }
      (fun m hm => ht.kid hm rfl rfl) (fun m hm => hd.kid hm) hc
    rw [h1]
    simp only [Option.bind_some]
    obtain ⟨st3, g1, g2, g3, g4, g5⟩ := post_ok cfg s false h2.call h2.nBefore
    exact ⟨st3, g1, g2.trans h2.names, g3.trans h2.last, g4, g5⟩
  | .exprStmt s e, st, ht, hd, hw => by
    have hc := not_call_wait hw rfl
    rw [walk]
    have hk : e ∈ (Node.exprStmt s e).kids := List.mem_singleton.mpr rfl
    unfold visitStatement
    cases hs : stripsToCall e with
    | false =>
      simp only [Bool.false_eq_true, if_false, Option.bind_some]
      obtain ⟨st2, h1, h2⟩ := walk_ok cfg e { st with nBefore := st.leaves :: st.nBefore } (ht.kid hk rfl rfl) (hd.kid hk) (Or.inl hc)
      rw [h1]
      simp only [Option.bind_some]
      obtain ⟨st3, g1, g2, g3, g4, g5⟩ := post_ok cfg s false h2.call h2.nBefore
      exact ⟨st3, g1, g2.trans h2.names, g3.trans h2.last, g4, g5⟩
    | true =>
      simp only [if_true, hc, Option.isSome_none, Bool.false_eq_true, if_false, Option.bind_some]
      obtain ⟨st2, h1, h2⟩ := walk_ok cfg e { st with nBefore := st.leaves :: st.nBefore, callStatement := some s }
        (ht.kid hk rfl rfl) (hd.kid hk) (Or.inr ⟨hs, by
          rcases hd with h | h
          · exact Or.inl h
          · right
            obtain ⟨x, hx⟩ := (stripsToCall_iff e).mp hs
            exact h s e x (.refl _) hx ▸ hx.isCall⟩)
      rw [h1]
      simp only [Option.bind_some]
      obtain ⟨st3, g1, g2, g3, g4, g5⟩ := post_ok cfg s true h2.call h2.nBefore
      exact ⟨st3, g1, g2.trans h2.names, g3.trans h2.last, g4, g5⟩
  | .call i cn callee args, st, ht, hd, hw => by
    rw [walk]
    obtain ⟨go, st1, h1, h2⟩ := visitCall_ok cfg i cn callee st
    rw [h1]
    simp only [Option.bind_some]
    have hk : callee ∈ (Node.call i cn callee args).kids := List.mem_cons_self
    obtain ⟨st2, h3, h4⟩ := walk_ok cfg callee st1 (ht.kid hk h2.names h2.last) (hd.kid hk) (Or.inl h2.call)
    split
    · rw [h3]
      simp only [Option.bind_some]
      have h24 := h2.trans h4
      obtain ⟨st3, h5, h6⟩ := walkList_ok cfg args st2 (fun m hm => ht.kid (List.mem_cons_of_mem _ hm) h24.names h24.last)
        (fun m hm => hd.kid (List.mem_cons_of_mem _ hm)) h4.call
      exact ⟨st3, h5, h24.trans h6⟩
    · split
      · exact ⟨st2, h3, h2.trans h4⟩
      · exact ⟨st1, rfl, h2⟩
  | .macro_ i name args, st, ht, hd, hw => by
    rw [walk]
    obtain ⟨go, st1, h1, h2⟩ := visitMaybeMacroCall_ok cfg (macroArgs cfg i name) st
    unfold visitMacroCall
    rw [h1]
    simp only [Option.bind_some]
    split
    · obtain ⟨st3, h5, h6⟩ := walkList_ok cfg args st1 (fun m hm => ht.kid hm h2.names h2.last) (fun m hm => hd.kid hm) h2.call
      exact ⟨st3, h5, h2.trans h6⟩
    · exact ⟨st1, rfl, h2⟩
  | .field i f b, st, ht, hd, hw => by
    rw [walk]
    have hk : b ∈ (Node.field i f b).kids := List.mem_singleton.mpr rfl
    split
    · rename_i hf
      exact walk_ok cfg b st (ht.kid hk rfl rfl) (hd.kid hk) (hw.imp id fun h => ⟨h.1, Or.inl hf⟩)
    · rename_i hf
      refine ⟨st, rfl, rfl, rfl, rfl, ?_⟩
      rcases hw with h | ⟨_, h | h⟩
      · exact h
      · exact absurd h hf
      · rcases h with ⟨_, _, _, _, h⟩ | ⟨_, _, _, h⟩ <;> cases h
  | .await i b, st, ht, hd, hw => by
    rw [walk]
    have hk : b ∈ (Node.await i b).kids := List.mem_singleton.mpr rfl
    split
    · rename_i hf
      exact walk_ok cfg b st (ht.kid hk rfl rfl) (hd.kid hk) (hw.imp id fun h => ⟨h.1, Or.inl hf⟩)
    · rename_i hf
      refine ⟨st, rfl, rfl, rfl, rfl, ?_⟩
      rcases hw with h | ⟨_, h | h⟩
      · exact h
      · exact absurd h hf
      · rcases h with ⟨_, _, _, _, h⟩ | ⟨_, _, _, h⟩ <;> cases h
  | .other i cs, st, ht, hd, hw => by
    rw [walk]
    exact walkList_ok cfg cs st (fun m hm => ht.kid hm rfl rfl) (fun m hm => hd.kid hm) (not_call_wait hw rfl)
theorem walkList_ok (cfg : VCfg) : ∀ (ns : List Node) (st : VState), (∀ n ∈ ns, TestsOk n st) →
    (∀ n ∈ ns, DirectCalls cfg n) → st.callStatement = none → ∃ st', walkList cfg ns st = some st' ∧ Same st st'
  | [], st, _, _, hc => ⟨st, by rw [walkList], rfl, rfl, rfl, hc⟩
  | n :: ns, st, ht, hd, hc => by
    rw [walkList]
    obtain ⟨st1, h1, h2⟩ := walk_ok cfg n st (ht n List.mem_cons_self) (hd n List.mem_cons_self) (Or.inl hc)
    rw [h1]
    simp only [Option.bind_some]
    obtain ⟨st2, h3, h4⟩ := walkList_ok cfg ns st1 (fun m hm => by
        have := ht m (List.mem_cons_of_mem _ hm)
        exact ⟨this.1, this.2.imp id fun h => by rw [h2.names, h2.last]; exact h⟩)
      (fun m hm => hd m (List.mem_cons_of_mem _ hm)) h2.call
    exact ⟨st2, h3, h2.trans h4⟩
end

theorem localLoop_ok {cfg} (hf : ∀ f, IsWalkable cfg f → ∀ m ∈ f.body, NoTest m ∧ DirectCalls cfg m) :
    ∀ (n : Nat) (st : VState) (w : List LocalFn), Inv cfg st → localLoop cfg n st w ≠ .panic := by
  intro n
  induction n with
  | zero =>
    intro st w hi
    rw [localLoop]
    split
    · rename_i hn
      have : st.pending = [] := by
        unfold nextLocalFunction at hn
        split at hn
        · rename_i h; exact List.getLast?_eq_none_iff.mp h
        · cases hn
      simp [this]
    · simp
  | succ n ih =>
    intro st w hi
    rw [localLoop]
    split
    · rename_i hn
      have : st.pending = [] := by
        unfold nextLocalFunction at hn
        split at hn
        · rename_i h; exact List.getLast?_eq_none_iff.mp h
        · cases hn
      simp [this]
    · rename_i f st1 hn
      simp only
      obtain ⟨a1, a2, a3, a4, a5, a6, _⟩ := hi.round hn
      obtain ⟨st2, h1, h2⟩ := walkList_ok cfg f.body st1 (fun m hm => ⟨(hf f a6 m hm).1.flat, Or.inl (hf f a6 m hm).1⟩)
        (fun m hm => (hf f a6 m hm).2) a1
      rw [h1]
      exact ih st2 _ (round_eff hi hn h1).2

/-- Visiting a local function keeps `NamesOk`. -/
theorem namesOk_round {cfg tree st f st1 st2} (hkf : KeysFaithful cfg) (hi : Inv cfg st) (hno : NamesOk cfg tree st)
    (h1 : nextLocalFunction st = some (f, st1)) (h2 : walkList cfg f.body st1 = some st2) :
    (∀ t ∈ st1.testNames, Exercises cfg tree t f) ∧ NamesOk cfg tree st2 := by
  obtain ⟨a1, a2, a3, a4, a5, a6, a7, a8, a9, a10, a11, a12, a13, a14, a15⟩ := hi.round h1
  obtain ⟨e, hi2⟩ := round_eff hi h1 h2
  have hself : ∀ t ∈ st1.testNames, Exercises cfg tree t f := fun t ht => hno _ t ((a10 t).mp ht) f a6 rfl
  refine ⟨hself, fun k t hp g hg hk => ?_⟩
  rcases (e.pend k t).mp hp with hp | ⟨y, n, fs, g', ⟨m, hm1, hm⟩, hc, hk', ht⟩
  · exact hno k t ((a11 k t).mpr (Or.inl hp)) g hg hk
  · have hcc := hc.calls.1
    obtain rfl : g' = g := hkf _ _ hcc.walkable hg (hk'.trans hk.symm)
    have hw : World cfg tree m := Or.inr ⟨f, a6, m, hm1, .refl _⟩
    rcases tracked_covers (x := Round.start ⟨f, st1.testNames, st1.returned⟩ m) hw (hm.tracked rfl) t ht with h | ⟨h, h'⟩
    · exact .direct h hcc
    · rw [h] at ht
      exact .via (hself t ht) ⟨m, hm1, h'⟩ hcc

/-- … and visiting the file establishes it. -/
theorem namesOk_file {cfg tree st} (hkf : KeysFaithful cfg) (h0 : walkList cfg tree {} = some st) : NamesOk cfg tree st := by
  obtain ⟨e, hi, hn⟩ := file_eff h0
  intro k t hp g hg hk
  rcases (e.pend k t).mp hp with ⟨_, _, h, _⟩ | ⟨y, n, fs, g', ⟨m, hm1, hm⟩, hc, hk', ht⟩
  · cases h
  · have hcc := hc.calls.1
    obtain rfl : g' = g := hkf _ _ hcc.walkable hg (hk'.trans hk.symm)
    rcases tracked_covers (x := ⟨⟨[], none, []⟩, none, m⟩) (Or.inl ⟨m, hm1, .refl _⟩) (hm.tracked rfl) t ht with h | ⟨h, _⟩
    · exact .direct h hcc
    · rw [h] at ht; cases ht

/-- The functions may contain tests, if no test calls them. -/
theorem localLoop_ok' {cfg tree} (hkf : KeysFaithful cfg) (hf : ∀ f, IsWalkable cfg f → ∀ m ∈ f.body, FlatTests m ∧ DirectCalls cfg m)
    (hx : ∀ t f, Exercises cfg tree t f → ∀ m ∈ f.body, NoTest m) :
    ∀ (n : Nat) (st : VState) (w : List LocalFn), Inv cfg st → NamesOk cfg tree st → localLoop cfg n st w ≠ .panic := by
  intro n
  induction n with
  | zero =>
    intro st w hi _
    rw [localLoop]
    split
    · rename_i hn
      have : st.pending = [] := by
        unfold nextLocalFunction at hn
        split at hn
        · rename_i h; exact List.getLast?_eq_none_iff.mp h
        · cases hn
      simp [this]
    · simp
  | succ n ih =>
    intro st w hi hno
    rw [localLoop]
    split
    · rename_i hn
      have : st.pending = [] := by
        unfold nextLocalFunction at hn
        split at hn
        · rename_i h; exact List.getLast?_eq_none_iff.mp h
        · cases hn
      simp [this]
    · rename_i f st1 hn
      simp only
      obtain ⟨a1, a2, a3, a4, a5, a6, _, _, _, a10, _⟩ := hi.round hn
      have hself : ∀ t ∈ st1.testNames, Exercises cfg tree t f := fun t ht => hno _ t ((a10 t).mp ht) f a6 rfl
      have hlast : st1.last = none := by
        have := congrArg Ctx.last a3
        exact this
      obtain ⟨st2, h1, h2⟩ := walkList_ok cfg f.body st1 (fun m hm => ⟨(hf f a6 m hm).1, by
          cases hns : st1.testNames with
          | nil => exact Or.inr ⟨rfl, hlast⟩
          | cons t ts => exact Or.inl (hx t f (hself t (by rw [hns]; exact List.mem_cons_self)) m hm)⟩)
        (fun m hm => (hf f a6 m hm).2) a1
      rw [h1]
      exact ih st2 _ (round_eff hi hn h1).2 (namesOk_round hkf hi hno hn h1).2

end Necessist.Visit
