import Verif.Lemmas.VisitorPanic
/-!
# Which candidates are found (C35-C40)
-/
namespace Necessist.Visit

/-- The test `t` contains `n`, and the way to it leads only into the arguments of calls that are looked at. -/
def ShownInTest (cfg : VCfg) (tree : List Node) (t : Text) (last : Option Nat) (n : Node) : Prop :=
  cfg.config.isIgnoredTest t = false ∧ ∃ cs, World cfg tree (.test t last cs) ∧
    ∃ m ∈ cs, Shown cfg (MayEnter cfg (.test t last cs) last) m n

/-- The function `f` contains `n`, and the way to it leads only into the arguments of calls that are looked at. -/
def ShownInFn (cfg : VCfg) (f : LocalFn) (n : Node) : Prop := ∃ m ∈ f.body, Shown cfg (MayEnter cfg m none) m n

theorem ShownInTest.inTest {cfg tree t last n} (h : ShownInTest cfg tree t last n) : InTest cfg tree t last n := by
  obtain ⟨h1, cs, h2, m, hm, h3⟩ := h
  exact ⟨h1, cs, h2, m, hm, h3.held⟩

theorem ShownInFn.inFn {cfg f n} (h : ShownInFn cfg f n) : InFn cfg f n := by
  obtain ⟨m, hm, h3⟩ := h
  exact ⟨m, hm, h3.held⟩

/-- Where a visited item is. -/
def At (cfg : VCfg) (tree : List Node) (rs : List Round) (y : Item) (t : Text) (n : Node) : Prop :=
  ShownInTest cfg tree t y.ctx.last n ∨ (y.ctx.last = none ∧ ∃ r ∈ rs, t ∈ r.ns ∧ IsWalkable cfg r.f ∧ ShownInFn cfg r.f n)

theorem visited_at {cfg tree st walked rs y t} (W : Whole cfg tree st walked rs)
    (hy : FileVisits cfg tree y ∨ ∃ r ∈ rs, r.Visits cfg y) (ht : t ∈ y.ctx.names) :
    At cfg tree rs y t y.node ∧
    (∀ s, y.waiting = some s → ∃ e, At cfg tree rs y t (.exprStmt s e) ∧ Spine e y.node) := by
  rcases hy with ⟨m, hm, hr⟩ | ⟨r, hr, m, hm, hre⟩
  · rcases hr.tracked rfl with ⟨h, _⟩ | ⟨t', last, cs, h1, h2, h3, m', hm', h4⟩
    · rw [h] at ht; cases ht
    · have hw : World cfg tree (.test t' last cs) := Or.inl ⟨m, hm, h1⟩
      rw [h3] at ht
      obtain rfl : t = t' := List.mem_singleton.mp ht
      refine ⟨Or.inl ⟨h2, cs, by rw [h3]; exact hw, m', hm', by rw [h3]; exact h4.shown (by simp)⟩, fun s hs => ?_⟩
      obtain ⟨e, a1, a2, a3⟩ := h4.waits s hs
      exact ⟨e, Or.inl ⟨h2, cs, by rw [h3]; exact hw, m', hm', by rw [h3]; exact a2 (by simp)⟩, a3⟩
  · have hwk := W.walkable r hr
    rcases hre.tracked rfl with ⟨h, h4⟩ | ⟨t', last, cs, h1, h2, h3, m', hm', h4⟩
    · rw [h] at ht
      have hne : r.ns ≠ [] := by intro h0; rw [Round.start] at ht; simp only [h0] at ht; cases ht
      refine ⟨Or.inr ⟨by rw [h]; rfl, r, hr, ht, hwk, m, hm, h4.shown hne⟩, fun s hs => ?_⟩
      obtain ⟨e, a1, a2, a3⟩ := h4.waits s hs
      exact ⟨e, Or.inr ⟨by rw [h]; rfl, r, hr, ht, hwk, m, hm, a2 hne⟩, a3⟩
    · have hw : World cfg tree (.test t' last cs) := Or.inr ⟨r.f, hwk, m, hm, h1⟩
      rw [h3] at ht
      obtain rfl : t = t' := List.mem_singleton.mp ht
      refine ⟨Or.inl ⟨h2, cs, by rw [h3]; exact hw, m', hm', by rw [h3]; exact h4.shown (by simp)⟩, fun s hs => ?_⟩
      obtain ⟨e, a1, a2, a3⟩ := h4.waits s hs
      exact ⟨e, Or.inl ⟨h2, cs, by rw [h3]; exact hw, m', hm', by rw [h3]; exact a2 (by simp)⟩, a3⟩

theorem walkTarget_none {cfg R i cn callee args} (h : walkTarget cfg R callee = none) :
    ∀ f, Calls cfg (.call i cn callee args) f → f.key ∈ R := by
  rintro f ⟨_, _, _, _, name, fs, h1, h2, h3⟩
  cases h1
  refine Decidable.byContradiction fun hk => ?_
  unfold walkTarget at h
  simp [h2, h3, hk] at h

/-- Where a statement candidate comes from. -/
theorem cand_spec {cfg tree rs y span t} 
    (hat : At cfg tree rs y t y.node ∧ (∀ s, y.waiting = some s → ∃ e, At cfg tree rs y t (.exprStmt s e) ∧ Spine e y.node))
    (hc : StmtCand cfg y span) :
    ∃ n s, At cfg tree rs y t n ∧ Removable cfg y.ctx.last n s ∧ s.span = span ∧
      ((NotCall n ∧ s.control = false ∧ s.declaration = false ∧ y.node = n ∧ Leaf cfg y) ∨
       ∃ e h, n = .exprStmt s e ∧ Head e h ∧ ¬ IgnoredCall cfg.config h ∧ ∀ f, Calls cfg h f → f.key ∈ y.ctx.returned) := by
  obtain ⟨K, c, n⟩ := y
  obtain ⟨hskip, hc⟩ := hc
  cases n with
  | stmt s cs =>
    obtain ⟨rfl, ⟨h1, h2⟩, h3, h4, h5⟩ := hc
    exact ⟨_, s, hat.1, ⟨Or.inl ⟨cs, rfl⟩, h1, h2, hskip⟩, rfl, Or.inl ⟨(fun _ _ _ h _ => by cases h), h3, h4, rfl, h5⟩⟩
  | exprStmt s e =>
    obtain ⟨rfl, ⟨h1, h2⟩, h3, h4, h5, h6⟩ := hc
    refine ⟨_, s, hat.1, ⟨Or.inr ⟨e, rfl⟩, h1, h2, hskip⟩, rfl, Or.inl ⟨?_, h4, h5, rfl, h6⟩⟩
    intro s' e' h he hh
    cases he
    exact (stripsToCall_false e).mp h3 h hh
  | call i cn callee args =>
    cases c with
    | none => exact hc.elim
    | some s =>
      obtain ⟨rfl, ⟨h1, h2⟩, h3, h4⟩ := hc
      obtain ⟨e, h5, h6⟩ := hat.2 s rfl
      refine ⟨_, s, h5, ⟨Or.inr ⟨e, rfl⟩, h1, h2, hskip⟩, rfl,
        Or.inr ⟨e, _, rfl, h6.head (Or.inl ⟨_, _, _, _, rfl⟩), ?_, walkTarget_none h3⟩⟩
      intro hi
      rw [(callArgs_ignored cfg i cn callee args).1.mpr hi] at h4
      cases h4
  | macro_ i name args =>
    cases c with
    | none => exact hc.elim
    | some s =>
      obtain ⟨rfl, ⟨h1, h2⟩, h4⟩ := hc
      obtain ⟨e, h5, h6⟩ := hat.2 s rfl
      refine ⟨_, s, h5, ⟨Or.inr ⟨e, rfl⟩, h1, h2, hskip⟩, rfl,
        Or.inr ⟨e, _, rfl, h6.head (Or.inr ⟨_, _, _, rfl⟩), ?_, ?_⟩⟩
      · intro hi
        rw [(macro_ignored _ _ _ _).mp hi] at h4
        cases h4
      · rintro f ⟨_, _, _, _, _, _, h, _⟩; cases h
  | test => exact hc.elim
  | field => exact hc.elim
  | await => exact hc.elim
  | other => exact hc.elim

/-- **C35.** Every statement candidate, with a test it is attributed to, is a removable statement, not the last one of the
test and not suppressed by a directive, that is in that test or in a function that was walked; and it is either no call, and
then no control statement and no declaration, or a call that is not ignored. -/
theorem C35_sound {cfg rounds tree st walked} (h : visitFile cfg rounds tree = .done st walked) {span t}
    (hc : (span, t) ∈ st.statements) :
    ∃ last n s, (InTest cfg tree t last n ∨ (last = none ∧ ∃ f ∈ walked, IsWalkable cfg f ∧ InFn cfg f n)) ∧
      Removable cfg last n s ∧ s.span = span ∧
      ((NotCall n ∧ s.control = false ∧ s.declaration = false) ∨
       ∃ e h, n = .exprStmt s e ∧ Head e h ∧ ¬ IgnoredCall cfg.config h) := by
  obtain ⟨rs, W, _⟩ := visitFile_names h
  obtain ⟨y, hy, hcand, ht⟩ := (W.stmts _).mp hc
  obtain ⟨n, s, h1, h2, h3, h4⟩ := cand_spec (visited_at W hy ht) hcand
  refine ⟨_, n, s, ?_, h2, h3, ?_⟩
  · rcases h1 with h1 | ⟨h1, r, hr, _, hw, hf⟩
    · exact Or.inl h1.inTest
    · exact Or.inr ⟨h1, r.f, by rw [W.walked]; exact List.mem_map.mpr ⟨r, hr, rfl⟩, hw, hf.inFn⟩
  · rcases h4 with ⟨a1, a2, a3, _⟩ | ⟨e, h, a1, a2, a3, _⟩
    · exact Or.inl ⟨a1, a2, a3⟩
    · exact Or.inr ⟨e, h, a1, a2, a3⟩

/-- Where a method call candidate comes from. -/
theorem meth_spec {cfg tree rs y span t} 
    (hat : At cfg tree rs y t y.node ∧ (∀ s, y.waiting = some s → ∃ e, At cfg tree rs y t (.exprStmt s e) ∧ Spine e y.node))
    (hc : MethCand cfg y span) :
    cfg.skip span = false ∧ ∃ i base p cn callee args, y.node = .call i cn callee args ∧ At cfg tree rs y t y.node ∧
      MethodCall y.node base p ∧ ¬ IgnoredCall cfg.config y.node ∧ cfg.config.isIgnoredMethod (dotted p) = false ∧
      span = cfg.trim { i.span with start := base.info.span.stop } := by
  obtain ⟨K, c, n⟩ := y
  obtain ⟨hskip, hc⟩ := hc
  cases n with
  | call i cn callee args =>
    obtain ⟨h1, h2, h3, h4, h5, h6⟩ := hc
    obtain ⟨i1, i2, i3⟩ := callArgs_ignored cfg i cn callee args
    obtain ⟨base, p, hm⟩ := i3.mp h4
    refine ⟨hskip, i, base, p, cn, callee, args, rfl, hat.1, hm, ?_, ?_, by rw [h3, callArgs_span hm]⟩
    · intro hi; rw [i1.mpr hi] at h5; cases h5
    · cases hb : cfg.config.isIgnoredMethod (dotted p) with
      | false => rfl
      | true => rw [i2.mpr ⟨base, p, hm, hb⟩] at h6; cases h6
  | _ => exact hc.elim

/-- **C37.** A statement candidate that is a call is not an ignored call. (See also C35, which says that a statement candidate
is either no call or this.) -/
theorem C37_statements {cfg rounds tree st walked} (h : visitFile cfg rounds tree = .done st walked) {span t}
    (hc : (span, t) ∈ st.statements) :
    ∃ n s, (∃ last, ShownInTest cfg tree t last n ∨ ∃ f ∈ walked, ShownInFn cfg f n) ∧ IsStmt n s ∧ s.span = span ∧
      ∀ e h, n = .exprStmt s e → Head e h → ¬ IgnoredCall cfg.config h := by
  obtain ⟨rs, W, _⟩ := visitFile_names h
  obtain ⟨y, hy, hcand, ht⟩ := (W.stmts _).mp hc
  obtain ⟨n, s, h1, h2, h3, h4⟩ := cand_spec (visited_at W hy ht) hcand
  refine ⟨n, s, ?_, h2.1, h3, ?_⟩
  · rcases h1 with h1 | ⟨h1, r, hr, _, hw, hf⟩
    · exact ⟨_, Or.inl h1⟩
    · exact ⟨none, Or.inr ⟨r.f, by rw [W.walked]; exact List.mem_map.mpr ⟨r, hr, rfl⟩, hf⟩⟩
  · intro e h he hh
    rcases h4 with ⟨a1, _⟩ | ⟨e', h', a1, a2, a3, _⟩
    · exact absurd hh (a1 _ _ _ he)
    · have hu : ∀ {e a b}, Head e a → Head e b → a = b := by
        intro e a b ha
        induction ha with
        | call hc =>
          intro hb
          cases hb with
          | call _ => rfl
          | await _ => rcases hc with ⟨_, _, _, _, hc⟩ | ⟨_, _, _, hc⟩ <;> cases hc
          | field _ => rcases hc with ⟨_, _, _, _, hc⟩ | ⟨_, _, _, hc⟩ <;> cases hc
        | await _ ih =>
          intro hb
          cases hb with
          | call hc => rcases hc with ⟨_, _, _, _, hc⟩ | ⟨_, _, _, hc⟩ <;> cases hc
          | await hb => exact ih hb
        | field _ ih =>
          intro hb
          cases hb with
          | call hc => rcases hc with ⟨_, _, _, _, hc⟩ | ⟨_, _, _, hc⟩ <;> cases hc
          | field hb => exact ih hb
      rw [he] at a1
      cases a1
      exact hu hh a2 ▸ a3

/-- **C37.** A method call candidate is the last method call `.p₁.….pₖ(…)` of a call `base.p₁.….pₖ(…)`, in a test it is
attributed to or in a function that was walked; it is not suppressed, the path is not that of an ignored method, and the whole
call is not ignored either. -/
theorem C37_methods {cfg rounds tree st walked} (h : visitFile cfg rounds tree = .done st walked) {span t}
    (hc : (span, t) ∈ st.methodCalls) :
    cfg.skip span = false ∧ ∃ h i base p cn callee args, h = .call i cn callee args ∧
      ((∃ last, ShownInTest cfg tree t last h) ∨ ∃ f ∈ walked, IsWalkable cfg f ∧ ShownInFn cfg f h) ∧
      MethodCall h base p ∧ ¬ IgnoredCall cfg.config h ∧ cfg.config.isIgnoredMethod (dotted p) = false ∧
      span = cfg.trim { i.span with start := base.info.span.stop } := by
  obtain ⟨rs, W, _⟩ := visitFile_names h
  obtain ⟨y, hy, hcand, ht⟩ := (W.meths _).mp hc
  obtain ⟨h0, i, base, p, cn, callee, args, h1, h2, h3, h4, h5, h6⟩ := meth_spec (visited_at W hy ht) hcand
  refine ⟨h0, y.node, i, base, p, cn, callee, args, h1, ?_, h3, h4, h5, h6⟩
  rcases h2 with h1 | ⟨h1, r, hr, _, hw, hf⟩
  · exact Or.inl ⟨_, h1⟩
  · exact Or.inr ⟨r.f, by rw [W.walked]; exact List.mem_map.mpr ⟨r, hr, rfl⟩, hw, hf⟩

/-- **C37.** A candidate is found within the arguments of a call only if that call is not ignored, or ignored arguments are to be
visited, or the call calls a walkable function, or is the call of a statement that is not removable or the last one of its
test. (The last two should not be there: see `C37_negation`.) -/
theorem C37_arguments_partial {cfg rounds tree st walked} (h : visitFile cfg rounds tree = .done st walked) {span t}
    (hc : (span, t) ∈ st.statements ∨ (span, t) ∈ st.methodCalls) :
    ∃ n, (∃ last, ShownInTest cfg tree t last n ∨ ∃ f ∈ walked, ShownInFn cfg f n) ∧
      ((∃ s, IsStmt n s ∧ s.span = span) ∨
       ∃ i cn callee args base p, n = .call i cn callee args ∧ MethodCall n base p ∧
        span = cfg.trim { i.span with start := base.info.span.stop }) := by
  rcases hc with hc | hc
  · obtain ⟨n, s, h1, h2, h3, _⟩ := C37_statements h hc
    exact ⟨n, h1, Or.inl ⟨s, h2, h3⟩⟩
  · obtain ⟨_, n, i, base, p, cn, callee, args, h1, h2, h3, _, _, h4⟩ := C37_methods h hc
    refine ⟨n, ?_, Or.inr ⟨i, cn, callee, args, base, p, h1, h3, h4⟩⟩
    rcases h2 with ⟨last, h2⟩ | ⟨f, hf, _, h2⟩
    · exact ⟨last, Or.inl h2⟩
    · exact ⟨none, Or.inr ⟨f, hf, h2⟩⟩

/-- **C38.** A candidate is attributed only to tests that contain it or that call, directly or through other walkable
functions, a walkable function that contains it; such tests are registered and not ignored. -/
theorem C38_only {cfg rounds tree st walked} (hkf : KeysFaithful cfg)
    (h : visitFile cfg rounds tree = .done st walked) {span t}
    (hc : (span, t) ∈ st.statements ∨ (span, t) ∈ st.methodCalls) :
    (t ∈ st.testSet ∧ cfg.config.isIgnoredTest t = false) ∧
    ∃ last n, Covers cfg tree t last n ∧
      ((∃ s, IsStmt n s ∧ s.span = span) ∨
       ∃ i cn callee args base p, n = .call i cn callee args ∧ MethodCall n base p ∧
        span = cfg.trim { i.span with start := base.info.span.stop }) := by
  obtain ⟨rs, W, hreg, hex⟩ := visitFile_names h
  have hex := hex hkf
  have hreg' : ∀ y, (FileVisits cfg tree y ∨ ∃ r ∈ rs, r.Visits cfg y) → ∀ t ∈ y.ctx.names,
      t ∈ st.testSet ∧ cfg.config.isIgnoredTest t = false := by
    intro y hy t ht
    rcases hy with ⟨m, hm, hr⟩ | ⟨r, hr, m, hm, hre⟩
    · refine ⟨?_, visited_names hr rfl (by simp) ht⟩
      rcases hr.tests t ht with h | ⟨w, hw, htt⟩
      · cases h
      · exact (W.tests t).mpr ⟨w, Or.inl ⟨m, hm, hw⟩, htt⟩
    · refine ⟨?_, visited_names hre rfl (W.ign r hr) ht⟩
      rcases hre.tests t ht with h | ⟨w, hw, htt⟩
      · exact hreg r hr t h
      · exact (W.tests t).mpr ⟨w, Or.inr ⟨r, hr, m, hm, hw⟩, htt⟩
  have hcov : ∀ y n, At cfg tree rs y t n → Covers cfg tree t y.ctx.last n := by
    rintro y n (h | ⟨h1, r, hr, ht, hw, hf⟩)
    · exact Or.inl h.inTest
    · exact Or.inr ⟨h1, r.f, hex r hr t ht, hf.inFn⟩
  rcases hc with hc | hc
  · obtain ⟨y, hy, hcand, ht⟩ := (W.stmts _).mp hc
    obtain ⟨n, s, h1, h2, h3, h4⟩ := cand_spec (visited_at W hy ht) hcand
    exact ⟨hreg' y hy t ht, _, n, hcov y n h1, Or.inl ⟨s, h2.1, h3⟩⟩
  · obtain ⟨y, hy, hcand, ht⟩ := (W.meths _).mp hc
    obtain ⟨h0, i, base, p, cn, callee, args, h1, h2, h3, h4, h5, h6⟩ := meth_spec (visited_at W hy ht) hcand
    exact ⟨hreg' y hy t ht, _, y.node, hcov y _ h2, Or.inr ⟨i, cn, callee, args, base, p, h1, h3, h6⟩⟩

/-- **C38.** C35 and C38 of the same statement: a statement candidate of a test is a removable statement, which the test covers. -/
theorem C38_statements {cfg rounds tree st walked} (hkf : KeysFaithful cfg)
    (h : visitFile cfg rounds tree = .done st walked) {span t} (hc : (span, t) ∈ st.statements) :
    ∃ last n s, Covers cfg tree t last n ∧ Removable cfg last n s ∧ s.span = span ∧
      ((NotCall n ∧ s.control = false ∧ s.declaration = false) ∨
       ∃ e h, n = .exprStmt s e ∧ Head e h ∧ ¬ IgnoredCall cfg.config h) := by
  obtain ⟨rs, W, hreg, hex⟩ := visitFile_names h
  have hex := hex hkf
  obtain ⟨y, hy, hcand, ht⟩ := (W.stmts _).mp hc
  obtain ⟨n, s, h1, h2, h3, h4⟩ := cand_spec (visited_at W hy ht) hcand
  refine ⟨_, n, s, ?_, h2, h3, ?_⟩
  · rcases h1 with h | ⟨h1, r, hr, ht, hw, hf⟩
    · exact Or.inl h.inTest
    · exact Or.inr ⟨h1, r.f, hex r hr t ht, hf.inFn⟩
  · rcases h4 with ⟨a1, a2, a3, _⟩ | ⟨e, h, a1, a2, a3, _⟩
    · exact Or.inl ⟨a1, a2, a3⟩
    · exact Or.inr ⟨e, h, a1, a2, a3⟩

/-- **C38.** … and likewise for a method call candidate. -/
theorem C38_methods {cfg rounds tree st walked} (hkf : KeysFaithful cfg)
    (h : visitFile cfg rounds tree = .done st walked) {span t} (hc : (span, t) ∈ st.methodCalls) :
    cfg.skip span = false ∧ ∃ last h i base p cn callee args, h = .call i cn callee args ∧ Covers cfg tree t last h ∧
      MethodCall h base p ∧ ¬ IgnoredCall cfg.config h ∧ cfg.config.isIgnoredMethod (dotted p) = false ∧
      span = cfg.trim { i.span with start := base.info.span.stop } := by
  obtain ⟨rs, W, hreg, hex⟩ := visitFile_names h
  have hex := hex hkf
  obtain ⟨y, hy, hcand, ht⟩ := (W.meths _).mp hc
  obtain ⟨h0, i, base, p, cn, callee, args, h1, h2, h3, h4, h5, h6⟩ := meth_spec (visited_at W hy ht) hcand
  refine ⟨h0, y.ctx.last, y.node, i, base, p, cn, callee, args, h1, ?_, h3, h4, h5, h6⟩
  rcases h2 with h | ⟨h1, r, hr, ht, hw, hf⟩
  · exact Or.inl h.inTest
  · exact Or.inr ⟨h1, r.f, hex r hr t ht, hf.inFn⟩

theorem next_kid {cfg : VCfg} {x z : Item} (hz : z ∈ next cfg x) : z.node ∈ x.node.kids := by
  obtain ⟨K, c, n⟩ := x
  cases n with
  | test name last cs =>
    rw [next] at hz
    split at hz
    · cases hz
    · obtain ⟨m, hm, rfl⟩ := List.mem_map.mp hz; exact hm
  | stmt s cs => obtain ⟨m, hm, rfl⟩ := List.mem_map.mp hz; exact hm
  | exprStmt s e => obtain rfl := List.mem_singleton.mp hz; simp [Node.kids]
  | call i cn callee args =>
    rw [next] at hz
    split at hz
    · rcases List.mem_cons.mp hz with rfl | hz
      · simp [Node.kids]
      · obtain ⟨m, hm, rfl⟩ := List.mem_map.mp hz; simp [Node.kids, hm]
    · split at hz
      · obtain rfl := List.mem_singleton.mp hz; simp [Node.kids]
      · cases hz
  | macro_ i name args =>
    rw [next] at hz
    split at hz
    · obtain ⟨m, hm, rfl⟩ := List.mem_map.mp hz; exact hm
    · cases hz
  | field i f b =>
    rw [next] at hz
    split at hz
    · obtain rfl := List.mem_singleton.mp hz; simp [Node.kids]
    · cases hz
  | await i b =>
    rw [next] at hz
    split at hz
    · obtain rfl := List.mem_singleton.mp hz; simp [Node.kids]
    · cases hz
  | other i cs => obtain ⟨m, hm, rfl⟩ := List.mem_map.mp hz; exact hm

theorem Reach.sub {cfg x y} (h : Reach cfg x y) : Sub x.node y.node := by
  induction h with
  | refl => exact .refl _
  | step hn _ ih => exact .step (next_kid hn) ih

/-- **C38.** The tests that are registered are tests of the file (or of a walkable function) that are not ignored. -/
theorem C38_tests_sound {cfg rounds tree st walked} (h : visitFile cfg rounds tree = .done st walked) {t} (ht : t ∈ st.testSet) :
    cfg.config.isIgnoredTest t = false ∧ ∃ last cs, World cfg tree (.test t last cs) := by
  obtain ⟨rs, W, _⟩ := visitFile_names h
  obtain ⟨y, hy, hi, last, cs, hn⟩ := (W.tests t).mp ht
  refine ⟨hi, last, cs, ?_⟩
  rcases hy with ⟨m, hm, hr⟩ | ⟨r, hr, m, hm, hre⟩
  · have := hr.sub; rw [hn] at this; exact Or.inl ⟨m, hm, this⟩
  · have := hre.sub; rw [hn] at this; exact Or.inr ⟨r.f, W.walkable r hr, m, hm, this⟩

/-- **C38.** All tests of the file that are not ignored are registered. -/
theorem C38_tests_complete {cfg rounds tree st walked} (h : visitFile cfg rounds tree = .done st walked) {t last cs r}
    (hr : r ∈ tree) (ho : Outside cfg r (.test t last cs)) (hi : cfg.config.isIgnoredTest t = false) : t ∈ st.testSet := by
  obtain ⟨rs, W, _⟩ := visitFile_names h
  obtain ⟨c', h5⟩ := ho.reach [] none
  exact (W.tests t).mpr ⟨_, Or.inl ⟨r, hr, h5⟩, hi, last, cs, rfl⟩

/-- **C39.** No function is walked twice, and only walkable functions are. -/
theorem C39_once {cfg rounds tree st walked} (h : visitFile cfg rounds tree = .done st walked) :
    (walked.map (·.key)).Nodup ∧ ∀ f ∈ walked, IsWalkable cfg f := by
  obtain ⟨rs, W, _⟩ := visitFile_names h
  rw [W.walked]
  refine ⟨by have := W.keys; rwa [List.map_map], ?_⟩
  intro f hf
  obtain ⟨r, hr, rfl⟩ := List.mem_map.mp hf
  exact W.walkable r hr

/-- **C39.** The processing of a file ends after at most as many rounds as there are names of walkable functions. -/
theorem C39_terminates (cfg : VCfg) (tree : List Node) : ∀ rounds, cfg.walkable.length ≤ rounds →
    visitFile cfg rounds tree ≠ .more := by
  intro rounds hr
  unfold visitFile
  split
  · simp
  · rename_i st h
    obtain ⟨e, hi, _⟩ := file_eff h
    exact localLoop_not_more _ _ _ hi (by omega)

theorem stmt_seen {cfg K c n s} (h : PlainLeaf cfg K.last n s ∨ PlainCall cfg K.last n s) :
    ∃ y, Reach cfg ⟨K, c, n⟩ y ∧ y.ctx = K ∧ StmtCand cfg y s.span := by
  rcases h with ⟨h1, h2, h3, h4, h5⟩ | ⟨h1, e, h, rfl, h2, h3, h4, h5⟩
  · exact ⟨_, .refl _, rfl, leaf_cand h1 h2 h3 h4 h5⟩
  · exact ⟨_, exprStmt_reach h2 h3 c, rfl, call_cand h1 h2.isCall h4 fun f hf => absurd hf (h5 f)⟩

/-- **C36.** No plain statement of a test is overlooked. -/
theorem C36_test {cfg rounds tree st walked} (h : visitFile cfg rounds tree = .done st walked) {t last m n s}
    (ht : TestPart cfg tree t last m) (hn : Seen cfg m n) (hs : PlainLeaf cfg last n s ∨ PlainCall cfg last n s) :
    t ∈ st.testSet ∧ (s.span, t) ∈ st.statements := by
  obtain ⟨rs, W, _⟩ := visitFile_names h
  obtain ⟨c, h1⟩ := hn.reach ⟨[t], last, []⟩ none
  obtain ⟨y, h2, h3, h4⟩ := stmt_seen (K := ⟨[t], last, []⟩) (c := c) hs
  refine ⟨?_, (W.stmts _).mpr ⟨y, Or.inl (testPart_visits ht (h1.trans h2) rfl), h4, by rw [h3]; simp⟩⟩
  obtain ⟨hi, cs, ⟨r, hr0, ho⟩, hm⟩ := ht
  obtain ⟨c', h5⟩ := ho.reach [] none
  exact (W.tests t).mpr ⟨_, Or.inl ⟨r, hr0, h5⟩, hi, last, cs, rfl⟩

/-- **C36.** No method call of a test is overlooked. -/
theorem C36_test_methods {cfg rounds tree st walked} (h : visitFile cfg rounds tree = .done st walked)
    {t last m i cn callee args base p}
    (ht : TestPart cfg tree t last m) (hn : Seen cfg m (.call i cn callee args))
    (hm : MethodCall (.call i cn callee args) base p) (hi : ¬ Ignored cfg.config (.call i cn callee args))
    (hw : ∀ f, ¬ Calls cfg (.call i cn callee args) f)
    (hs : cfg.skip (cfg.trim { i.span with start := base.info.span.stop }) = false)
    (he : ∀ s e, Sub m (.exprStmt s e) → Head e (.call i cn callee args) → s.removable = true ∧ last ≠ some s.key) :
    (cfg.trim { i.span with start := base.info.span.stop }, t) ∈ st.methodCalls := by
  obtain ⟨rs, W, _⟩ := visitFile_names h
  obtain ⟨c, h1⟩ := hn.reach ⟨[t], last, []⟩ none
  refine (W.meths _).mpr ⟨_, Or.inl (testPart_visits ht h1 rfl), ?_, by simp⟩
  refine meth_cand hm hi (fun f hf => absurd hf (hw f)) hs fun s hcs => ?_
  obtain ⟨e, h2, h3⟩ := (h1.origin rfl).2 s hcs
  exact he s e h2.sub (h3.head (Or.inl ⟨_, _, _, _, rfl⟩))

theorem called_directly {cfg tree st walked rs} (W : Whole cfg tree st walked rs) (hkf : KeysFaithful cfg) {t last m h f}
    (ht : TestPart cfg tree t last m) (hh : Seen cfg m h) (hc : Calls cfg h f) : ∃ r ∈ rs, r.f = f ∧ t ∈ r.ns := by
  obtain ⟨c, h1⟩ := hh.reach ⟨[t], last, []⟩ none
  have hv := testPart_visits ht h1 rfl
  obtain ⟨name, fs, h2⟩ := Calls.callsFn (x := ⟨⟨[t], last, []⟩, c, h⟩) hc (by simp)
  obtain ⟨r, hr, hk, htr⟩ := (W.fileCalls _ _ _ _ hv h2).2 t (by simp)
  exact ⟨r, hr, hkf _ _ (W.walkable r hr) hc.walkable hk, htr⟩

/-- **C36.** The plain statements of a function that a test calls directly are candidates, and the test is one of
theirs. -/
theorem C36_function {cfg rounds tree st walked} (hkf : KeysFaithful cfg) (hd : visitFile cfg rounds tree = .done st walked)
    {t last m h f m' n s} (ht : TestPart cfg tree t last m) (hh : Seen cfg m h) (hc : Calls cfg h f) (hm : m' ∈ f.body)
    (hn : Seen cfg m' n) (hs : PlainLeaf cfg none n s ∨ PlainCall cfg none n s) : (s.span, t) ∈ st.statements := by
  obtain ⟨rs, W, _⟩ := visitFile_names hd
  obtain ⟨r, hr, rfl, htr⟩ := called_directly W hkf ht hh hc
  obtain ⟨c, h1⟩ := hn.reach ⟨r.ns, none, r.returned⟩ none
  obtain ⟨y, h2, h3, h4⟩ := stmt_seen (K := ⟨r.ns, none, r.returned⟩) (c := c) hs
  exact (W.stmts _).mpr ⟨y, Or.inr ⟨r, hr, m', hm, h1.trans h2⟩, h4, by rw [h3]; exact htr⟩

/-- **C36.** … and so are its method calls. -/
theorem C36_function_methods {cfg rounds tree st walked} (hkf : KeysFaithful cfg)
    (hd : visitFile cfg rounds tree = .done st walked) {t last m h f m' i cn callee args base p}
    (ht : TestPart cfg tree t last m) (hh : Seen cfg m h) (hc : Calls cfg h f) (hm' : m' ∈ f.body)
    (hn : Seen cfg m' (.call i cn callee args))
    (hm : MethodCall (.call i cn callee args) base p) (hi : ¬ Ignored cfg.config (.call i cn callee args))
    (hw : ∀ f, ¬ Calls cfg (.call i cn callee args) f)
    (hs : cfg.skip (cfg.trim { i.span with start := base.info.span.stop }) = false)
    (he : ∀ s e, Sub m' (.exprStmt s e) → Head e (.call i cn callee args) → s.removable = true) :
    (cfg.trim { i.span with start := base.info.span.stop }, t) ∈ st.methodCalls := by
  obtain ⟨rs, W, _⟩ := visitFile_names hd
  obtain ⟨r, hr, rfl, htr⟩ := called_directly W hkf ht hh hc
  obtain ⟨c, h1⟩ := hn.reach ⟨r.ns, none, r.returned⟩ none
  refine (W.meths _).mpr ⟨_, Or.inr ⟨r, hr, m', hm', h1⟩, ?_, htr⟩
  refine meth_cand hm hi (fun f hf => absurd hf (hw f)) hs fun s hcs => ?_
  obtain ⟨e, h2, h3⟩ := (h1.origin rfl).2 s hcs
  exact ⟨he s e h2.sub (h3.head (Or.inl ⟨_, _, _, _, rfl⟩)), by simp⟩

/-- **C36.** Functions that a test calls, directly or not, are walked. -/
theorem C36_walked {cfg rounds tree st walked} (hkf : KeysFaithful cfg) (h : visitFile cfg rounds tree = .done st walked)
    {f} (hf : Reached cfg tree f) : f ∈ walked := by
  obtain ⟨rs, W, _⟩ := visitFile_names h
  have : ∃ r ∈ rs, r.f = f := by
    induction hf with
    | direct ht hh hc => obtain ⟨r, hr, h, _⟩ := called_directly W hkf ht hh hc; exact ⟨r, hr, h⟩
    | @via f m h g _ hm hh hc ih =>
      obtain ⟨r, hr, rfl⟩ := ih
      obtain ⟨c, h1⟩ := hh.reach ⟨r.ns, none, r.returned⟩ none
      have hkey : ∃ r' ∈ rs, r'.f.key = g.key := by
        by_cases hk : g.key ∈ r.returned
        · exact W.ret r hr _ hk
        · obtain ⟨name, fs, h2⟩ := Calls.callsFn (x := ⟨⟨r.ns, none, r.returned⟩, c, h⟩) hc hk
          exact (W.calls r hr _ _ _ _ ⟨m, hm, h1⟩ h2).1
      obtain ⟨r', hr', hk⟩ := hkey
      exact ⟨r', hr', hkf _ _ (W.walkable r' hr') hc.walkable hk⟩
  obtain ⟨r, hr, rfl⟩ := this
  rw [W.walked]
  exact List.mem_map.mpr ⟨r, hr, rfl⟩

/-- **C36.** If functions are not called outside of tests (see `C36_negation`), then the plain statements of every function
that a test calls, directly or not, are candidates. -/
theorem C36_reached {cfg rounds tree st walked} (hkf : KeysFaithful cfg) (h : visitFile cfg rounds tree = .done st walked)
    (hno : NoOutsideCalls cfg tree) {f m n s} (hf : Reached cfg tree f) (hm : m ∈ f.body) (hn : Seen cfg m n)
    (hs : PlainLeaf cfg none n s ∨ PlainCall cfg none n s) : ∃ t, (s.span, t) ∈ st.statements := by
  have hw := C36_walked hkf h hf
  obtain ⟨st0, rs, h0, hr, _, W⟩ := visitFile_rounds h
  obtain ⟨_, hi, _⟩ := file_eff h0
  rw [W.walked] at hw
  obtain ⟨r, hrr, rfl⟩ := List.mem_map.mp hw
  have hne := rounds_nonempty hr hi (file_nonempty h0 hno) r hrr
  obtain ⟨t, ht⟩ := List.exists_mem_of_ne_nil _ hne
  obtain ⟨c, h1⟩ := hn.reach ⟨r.ns, none, r.returned⟩ none
  obtain ⟨y, h2, h3, h4⟩ := stmt_seen (K := ⟨r.ns, none, r.returned⟩) (c := c) hs
  exact ⟨t, (W.stmts _).mpr ⟨y, Or.inr ⟨r, hrr, m, hm, h1.trans h2⟩, h4, by rw [h3]; exact ht⟩⟩

/-- **C40.** A statement candidate that is not a call contains no statement that is looked at. -/
theorem C40_leaves {cfg rounds tree st walked} (h : visitFile cfg rounds tree = .done st walked) {span t}
    (hc : (span, t) ∈ st.statements) :
    ∃ n s, ((∃ last, InTest cfg tree t last n) ∨ ∃ f ∈ walked, InFn cfg f n) ∧ IsStmt n s ∧ s.span = span ∧
      (NotCall n → ∀ m ∈ n.kids, ∀ x s', Seen cfg m x → ¬ IsStmt x s') := by
  obtain ⟨rs, W, _⟩ := visitFile_names h
  obtain ⟨y, hy, hcand, ht⟩ := (W.stmts _).mp hc
  obtain ⟨n, s, h1, h2, h3, h4⟩ := cand_spec (visited_at W hy ht) hcand
  refine ⟨n, s, ?_, h2.1, h3, ?_⟩
  · rcases h1 with h1 | ⟨h1, r, hr, _, hw, hf⟩
    · exact Or.inl ⟨_, h1.inTest⟩
    · exact Or.inr ⟨r.f, by rw [W.walked]; exact List.mem_map.mpr ⟨r, hr, rfl⟩, hf.inFn⟩
  · intro hnc m hm x s' hx hxs
    rcases h4 with ⟨_, _, _, h5, h6⟩ | ⟨e, h, a1, a2, _⟩
    · obtain ⟨K, c, n⟩ := y
      simp only at h5
      subst h5
      have hst : SeenStep cfg n m := by
        refine ⟨hm, ?_⟩
        rcases h2.1 with ⟨cs, rfl⟩ | ⟨e, rfl⟩ <;> trivial
      obtain ⟨c', hn⟩ := seenStep_next hst K c
      obtain ⟨c'', hr⟩ := hx.reach K c'
      have := h6 _ hn _ hr
      rcases hxs with ⟨cs, rfl⟩ | ⟨e, rfl⟩ <;> cases this
    · exact hnc _ _ _ a1 a2

/-- **C40.** C38 and C40 together: what a statement candidate is. -/
theorem C40_statements {cfg rounds tree st walked} (hkf : KeysFaithful cfg)
    (h : visitFile cfg rounds tree = .done st walked) {span t} (hc : (span, t) ∈ st.statements) :
    ∃ last n s, Covers cfg tree t last n ∧ Removable cfg last n s ∧ s.span = span ∧
      ((NotCall n ∧ s.control = false ∧ s.declaration = false ∧ ∀ m ∈ n.kids, ∀ x s', Seen cfg m x → ¬ IsStmt x s') ∨
       ∃ e h, n = .exprStmt s e ∧ Head e h ∧ ¬ IgnoredCall cfg.config h) := by
  obtain ⟨rs, W, hreg, hex⟩ := visitFile_names h
  have hex := hex hkf
  obtain ⟨y, hy, hcand, ht⟩ := (W.stmts _).mp hc
  obtain ⟨n, s, h1, h2, h3, h4⟩ := cand_spec (visited_at W hy ht) hcand
  refine ⟨_, n, s, ?_, h2, h3, ?_⟩
  · rcases h1 with h | ⟨h1, r, hr, ht, hw, hf⟩
    · exact Or.inl h.inTest
    · exact Or.inr ⟨h1, r.f, hex r hr t ht, hf.inFn⟩
  · rcases h4 with ⟨a1, a2, a3, h5, h6⟩ | ⟨e, h, a1, a2, a3, _⟩
    · refine Or.inl ⟨a1, a2, a3, fun m hm x s' hx hxs => ?_⟩
      obtain ⟨K, c, n⟩ := y
      simp only at h5
      subst h5
      have hst : SeenStep cfg n m := by
        refine ⟨hm, ?_⟩
        rcases h2.1 with ⟨cs, rfl⟩ | ⟨e, rfl⟩ <;> trivial
      obtain ⟨c', hn⟩ := seenStep_next hst K c
      obtain ⟨c'', hr⟩ := hx.reach K c'
      have := h6 _ hn _ hr
      rcases hxs with ⟨cs, rfl⟩ | ⟨e, rfl⟩ <;> cases this
    · exact Or.inr ⟨e, h, a1, a2, a3⟩

/-- **C40.** In particular, where ignored arguments and field accesses are visited, a statement candidate that is neither a call
nor contains a test contains no other statement. -/
theorem C40_no_inner {cfg rounds tree st walked} (h : visitFile cfg rounds tree = .done st walked)
    (hv : cfg.config.visitIgnoredArguments = true) (hf : cfg.fields = true) {span t} (hc : (span, t) ∈ st.statements) :
    ∃ n s, ((∃ last, InTest cfg tree t last n) ∨ ∃ f ∈ walked, InFn cfg f n) ∧ IsStmt n s ∧ s.span = span ∧
      (NotCall n → NoTest n → NoInnerStmt n) := by
  obtain ⟨n, s, h1, h2, h3, h4⟩ := C40_leaves h hc
  refine ⟨n, s, h1, h2, h3, fun hn ht m hm x s' hx => h4 hn m hm x s' ?_⟩
  have hs : ∀ {a b}, Sub a b → NoTest a → Seen cfg a b := by
    intro a b hab
    induction hab with
    | refl => exact fun _ => .refl _
    | @step a m b hk hs ih =>
      intro hnt
      refine .step ⟨hk, ?_⟩ (ih fun t last cs h => hnt t last cs (.step hk h))
      cases a with
      | test t last cs => exact hnt t last cs (.refl _)
      | call => exact Or.inr (Or.inl hv)
      | macro_ => exact Or.inr hv
      | field => exact hf
      | await => exact hf
      | _ => trivial
  exact hs hx fun t last cs h => ht t last cs (.step hm h)

/-- **C38.** A candidate of a function that was walked is attributed to every test that calls the function directly. (Tests
that call it through other functions may be missing: see `C38_negation`.) -/
theorem C38_direct_partial {cfg rounds tree st walked} (hkf : KeysFaithful cfg)
    (hd : visitFile cfg rounds tree = .done st walked) {t last m h f m' n s} (ht : TestPart cfg tree t last m)
    (hh : Seen cfg m h) (hc : Calls cfg h f) (hm : m' ∈ f.body) (hn : Seen cfg m' n)
    (hs : PlainLeaf cfg none n s ∨ PlainCall cfg none n s) : (s.span, t) ∈ st.statements :=
  C36_function hkf hd ht hh hc hm hn hs

/-- **C66.** Visiting a file does not panic, if tests are not nested, walkable functions contain no tests, and field accesses are
visited or do not occur as call statements. -/
theorem C66_no_panic_partial {cfg} (tree : List Node) (rounds : Nat) (ht : ∀ n ∈ tree, FlatTests n)
    (hd : ∀ n ∈ tree, DirectCalls cfg n) (hf : ∀ f, IsWalkable cfg f → ∀ m ∈ f.body, NoTest m ∧ DirectCalls cfg m) :
    visitFile cfg rounds tree ≠ .panic := by
  unfold visitFile
  obtain ⟨st, h1, h2⟩ := walkList_ok cfg tree {} (fun n hn => ⟨ht n hn, Or.inr ⟨rfl, rfl⟩⟩) hd rfl
  rw [h1]
  exact localLoop_ok hf _ _ _ (file_eff h1).2.1

/-- **C66.** Together with C39: visiting such a file ends, with the candidates. -/
theorem C66_done_partial {cfg} (tree : List Node) (ht : ∀ n ∈ tree, FlatTests n)
    (hd : ∀ n ∈ tree, DirectCalls cfg n) (hf : ∀ f, IsWalkable cfg f → ∀ m ∈ f.body, NoTest m ∧ DirectCalls cfg m) :
    ∃ st walked, visitFile cfg cfg.walkable.length tree = .done st walked := by
  cases h : visitFile cfg cfg.walkable.length tree with
  | done st walked => exact ⟨st, walked, rfl⟩
  | panic => exact absurd h (C66_no_panic_partial tree _ ht hd hf)
  | more => exact absurd h (C39_terminates cfg tree _ (Nat.le_refl _))

/-- **C66.** Functions may contain tests, if no test calls them, directly or through other functions. -/
theorem C66_no_panic_functions_partial {cfg} (hkf : KeysFaithful cfg) (tree : List Node) (rounds : Nat) (ht : ∀ n ∈ tree, FlatTests n)
    (hd : ∀ n ∈ tree, DirectCalls cfg n) (hf : ∀ f, IsWalkable cfg f → ∀ m ∈ f.body, FlatTests m ∧ DirectCalls cfg m)
    (hx : ∀ t f, Exercises cfg tree t f → ∀ m ∈ f.body, NoTest m) : visitFile cfg rounds tree ≠ .panic := by
  unfold visitFile
  obtain ⟨st, h1, h2⟩ := walkList_ok cfg tree {} (fun n hn => ⟨ht n hn, Or.inr ⟨rfl, rfl⟩⟩) hd rfl
  rw [h1]
  exact localLoop_ok' hkf hf hx _ _ _ (file_eff h1).2.1 (namesOk_file hkf h1)

/-- A path that is called is ignored if the README says so, or the rest of the path is an ignored method. -/
theorem ignoredPath_exact {c : Compiled} {h base p name} (hm : MethodCall h base p) (hb : ¬ IsCall base) (hn : base.info.name = some name) :
    IgnoredCall c h ↔ IgnoredPath c name p ∨ c.isIgnoredMethod (dotted p) = true := by
  constructor
  · rintro (⟨x, h1, h2⟩ | ⟨base', p', h1, h2, _⟩)
    · obtain rfl : x = h := by
        cases h1 with
        | here => rfl
        | there a b _ => obtain ⟨rfl, _⟩ := a.unique hm; exact absurd b hb
      cases h2 with
      | function hc _ => exact absurd hm (not_methodCall hc _ _)
      | macro_ => obtain ⟨_, _, _, _, _, h, _⟩ := hm; cases h
      | path a b c d =>
        obtain ⟨rfl, rfl⟩ := a.unique hm
        rw [hn] at c; cases c; exact .inl d
    · obtain ⟨rfl, rfl⟩ := h1.unique hm
      exact .inr h2
  · rintro (hp | hp)
    · refine Or.inl ⟨h, .here ?_ ?_, .path hm hb hn hp⟩
      · obtain ⟨_, i, cn, callee, args, h, _⟩ := hm; exact Or.inl ⟨_, _, _, _, h⟩
      · intro b q h'; obtain ⟨rfl, _⟩ := h'.unique hm; exact hb
    · exact Or.inr ⟨base, p, hm, hp, fun i cn callee args he => hb (Or.inl ⟨i, cn, callee, args, he⟩)⟩

/-- **C65.** Exactly what holds, whatever `ignored_path_disambiguation` is: the call statement `name.p₁.….pₖ(…);`, visited for the test `t`,
becomes a candidate iff the path is not ignored as the README says, and `p₁.….pₖ` is not an ignored method (which the README does not say for
`Function`, see `C65_negation`). -/
theorem C65_exact {cfg st st' t s i cn callee args base p name} (hw : walk cfg (.exprStmt s (.call i cn callee args)) st = some st')
    (hc : st.callStatement = none) (hg : st.testNames = [t]) (ht : cfg.config.isIgnoredTest t = false)
    (hm : MethodCall (.call i cn callee args) base p) (hb : ¬ IsCall base) (hn : base.info.name = some name)
    (hr : Removable cfg st.last (.exprStmt s (.call i cn callee args)) s) (hf : ∀ f, ¬ Calls cfg (.call i cn callee args) f)
    (hin : NoInnerStmt (.exprStmt s (.call i cn callee args))) (hnew : (s.span, t) ∉ st.statements) :
    (s.span, t) ∈ st'.statements ↔ ¬ (IgnoredPath cfg.config name p ∨ cfg.config.isIgnoredMethod (dotted p) = true) := by
  rw [← ignoredPath_exact hm hb hn]
  have e := (walk_eff cfg _ st st' hw (Or.inl hc)
    ⟨(fun h => by rw [hg] at h; cases h), fun x hx => by rw [hg, List.mem_singleton] at hx; rw [hx]; exact ht⟩).1
  rw [e.stmts]
  have hcall : IsCall (.call i cn callee args) := Or.inl ⟨_, _, _, _, rfl⟩
  constructor
  · rintro (h | ⟨y, hy, hcand, _⟩)
    · exact absurd h hnew
    · rw [hc] at hy
      have horig := hy.origin rfl
      -- the statement cannot be the candidate's by itself
      have hstrip : stripsToCall (.call i cn callee args) = true := rfl
      have hcase : ∀ z, Reach cfg ⟨st.ctx, none, .exprStmt s (.call i cn callee args)⟩ z →
          z = ⟨st.ctx, none, .exprStmt s (.call i cn callee args)⟩ ∨ z = ⟨st.ctx, some s, .call i cn callee args⟩ ∨
          ∃ m, m ∈ callee :: args ∧ Reach cfg ⟨st.ctx, none, m⟩ z := by
        intro z hz
        rcases reach_iff.mp hz with h | ⟨w, h1, h2⟩
        · exact Or.inl h
        · obtain rfl := List.mem_singleton.mp h1
          rw [hstrip, if_pos rfl] at h2
          rcases reach_iff.mp h2 with h | ⟨v, h3, h4⟩
          · exact Or.inr (Or.inl h)
          · right; right
            rw [next] at h3
            split at h3
            · rcases List.mem_cons.mp h3 with rfl | h3
              · exact ⟨callee, List.mem_cons_self, h4⟩
              · obtain ⟨m, hm, rfl⟩ := List.mem_map.mp h3
                exact ⟨m, List.mem_cons_of_mem _ hm, h4⟩
            · split at h3
              · obtain rfl := List.mem_singleton.mp h3; exact ⟨callee, List.mem_cons_self, h4⟩
              · cases h3
      rcases hcase y hy with rfl | rfl | ⟨m, hm, hr⟩
      · exact absurd hcand.2.2.2.1 (by rw [hstrip]; simp)
      · intro hi
        have := hcand.2.2.2.2
        rw [(callArgs_ignored cfg i cn callee args).1.mpr hi] at this
        cases this
      · exfalso
        have hno : ∀ x s', Sub m x → ¬ IsStmt x s' := fun x s' hx =>
          hin _ (List.mem_singleton.mpr rfl) x s' (.step hm hx)
        obtain ⟨o1, o2⟩ := hr.origin rfl
        obtain ⟨K, c, n⟩ := y
        have hwait : c = none := by
          cases c with
          | none => rfl
          | some s' =>
            obtain ⟨e', h5, _⟩ := o2 s' rfl
            exact absurd (Or.inr ⟨e', rfl⟩) (hno _ s' h5.sub)
        subst hwait
        obtain ⟨_, hcand⟩ := hcand
        cases n with
        | stmt s' cs => exact hno _ s' o1.sub (Or.inl ⟨cs, rfl⟩)
        | exprStmt s' e' => exact hno _ s' o1.sub (Or.inr ⟨e', rfl⟩)
        | _ => exact hcand
  · intro hi
    right
    refine ⟨_, exprStmt_reach (.call hcall) (Or.inr rfl) _, call_cand hr hcall hi fun f h => absurd h (hf f), ?_⟩
    show t ∈ st.testNames
    rw [hg]; simp

/-- **C65.** The call statement `name.p₁.….pₖ(…);`, visited for the test `t`, becomes a candidate iff the path is not ignored as
the README says; unless `ignored_path_disambiguation` is `Function` (see `C65_negation`). -/
theorem C65_partial {cfg st st' t s i cn callee args base p name} (hw : walk cfg (.exprStmt s (.call i cn callee args)) st = some st')
    (hc : st.callStatement = none) (hg : st.testNames = [t]) (ht : cfg.config.isIgnoredTest t = false)
    (hm : MethodCall (.call i cn callee args) base p) (hb : ¬ IsCall base)
    (hn : base.info.name = some name) (hd : cfg.config.ignoredPathDisambiguation ≠ .function)
    (hr : Removable cfg st.last (.exprStmt s (.call i cn callee args)) s) (hf : ∀ f, ¬ Calls cfg (.call i cn callee args) f)
    (hin : NoInnerStmt (.exprStmt s (.call i cn callee args))) (hnew : (s.span, t) ∉ st.statements) :
    (s.span, t) ∈ st'.statements ↔ ¬ IgnoredPath cfg.config name p := by
  rw [C65_exact hw hc hg ht hm hb hn hr hf hin hnew]
  unfold IgnoredPath
  cases hdd : cfg.config.ignoredPathDisambiguation with
  | none_ => simp
  | function => exact absurd hdd hd
  | method => simp

end Necessist.Visit
