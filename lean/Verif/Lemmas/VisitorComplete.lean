import Verif.Lemmas.VisitorLoop
/-!
# What is certainly visited
-/
namespace Necessist.Visit

theorem Reach.trans {cfg x y z} (h1 : Reach cfg x y) (h2 : Reach cfg y z) : Reach cfg x z := by
  induction h1 with
  | refl => exact h2
  | step h _ ih => exact .step h (ih h2)

theorem walkTarget_of_calls {cfg R i cn callee args} (h : ∀ f, ¬ Calls cfg (.call i cn callee args) f) :
    walkTarget cfg R callee = none := by
  cases hw : walkTarget cfg R callee with
  | none => rfl
  | some p =>
    obtain ⟨f, hf⟩ := walkTarget_calls (i := i) (cn := cn) (args := args) (show (walkTarget cfg R callee).isSome = true by simp [hw])
    exact absurd hf (h f)

/-- What is seen is visited. -/
theorem seenStep_next {cfg n m} (h : SeenStep cfg n m) (K : Ctx) (c) : ∃ c', (⟨K, c', m⟩ : Item) ∈ next cfg ⟨K, c, n⟩ := by
  obtain ⟨hk, h⟩ := h
  cases n with
  | test => exact h.elim
  | stmt s cs => exact ⟨none, List.mem_map.mpr ⟨m, hk, rfl⟩⟩
  | exprStmt s e => obtain rfl := List.mem_singleton.mp hk; exact ⟨_, List.mem_singleton.mpr rfl⟩
  | call i cn callee args =>
    refine ⟨none, ?_⟩
    rw [next]
    have hm : (⟨K, none, m⟩ : Item) ∈ (⟨K, none, callee⟩ :: args.map fun m => ⟨K, none, m⟩ : List Item) := by
      rcases List.mem_cons.mp hk with rfl | hk
      · simp
      · exact List.mem_cons_of_mem _ (List.mem_map.mpr ⟨m, hk, rfl⟩)
    split
    · exact hm
    · rename_i hg
      rw [Bool.or_eq_true] at hg
      have hg : goes cfg K c (callArgs cfg i cn callee) = false := by
        cases hgo : goes cfg K c (callArgs cfg i cn callee) with
        | false => rfl
        | true => exact absurd (Or.inr hgo) hg
      obtain ⟨g1, g2⟩ := goes_false (args := args) hg
      rcases h with h | h | ⟨h1, h2⟩
      · exact absurd g1 h
      · rw [g2] at h; cases h
      · rw [h1, h2]; simp
  | macro_ i name args =>
    refine ⟨none, ?_⟩
    rw [next]
    split
    · exact List.mem_map.mpr ⟨m, hk, rfl⟩
    · rename_i hg
      obtain ⟨g1, g2⟩ := goes_macro_false (args := args) (by simpa using hg)
      rcases h with h | h
      · exact absurd g1 h
      · rw [g2] at h; cases h
  | field i f b =>
    obtain rfl := List.mem_singleton.mp hk
    have h : cfg.fields = true := h
    exact ⟨c, by rw [next]; simp [h]⟩
  | await i b =>
    obtain rfl := List.mem_singleton.mp hk
    have h : cfg.fields = true := h
    exact ⟨c, by rw [next]; simp [h]⟩
  | other i cs => exact ⟨none, List.mem_map.mpr ⟨m, hk, rfl⟩⟩

theorem Seen.reach {cfg n x} (h : Seen cfg n x) : ∀ (K : Ctx) (c), ∃ c', Reach cfg ⟨K, c, n⟩ ⟨K, c', x⟩ := by
  induction h with
  | refl => exact fun K c => ⟨c, .refl _⟩
  | step h1 _ ih =>
    intro K c
    obtain ⟨c1, h2⟩ := seenStep_next h1 K c
    obtain ⟨c2, h3⟩ := ih K c1
    exact ⟨c2, .step h2 h3⟩

theorem Seen.sub {cfg n x} (h : Seen cfg n x) : Sub n x := by
  induction h with
  | refl => exact .refl _
  | step h1 _ ih => exact .step h1.1 ih

/-- The call of a call statement is visited while the statement waits. -/
theorem head_reach {cfg K e h} (hh : Head e h) (hf : cfg.fields = true ∨ e = h) : ∀ c, Reach cfg ⟨K, c, e⟩ ⟨K, c, h⟩ := by
  induction hh with
  | call => exact fun c => .refl _
  | await h' ih =>
    intro c
    have hf : cfg.fields = true := hf.elim id fun h => by
      rw [← h] at h'; exfalso
      have := congrArg sizeOf h
      have hs : ∀ {a b}, Head a b → sizeOf b ≤ sizeOf a := by
        intro a b hab
        induction hab with
        | call => omega
        | await _ ih => simp; omega
        | field _ ih => simp; omega
      have := hs h'
      simp at this; omega
    exact .step (by rw [next]; simp [hf]) (ih (Or.inl hf) c)
  | field h' ih =>
    intro c
    have hf : cfg.fields = true := hf.elim id fun h => by
      rw [← h] at h'; exfalso
      have hs : ∀ {a b}, Head a b → sizeOf b ≤ sizeOf a := by
        intro a b hab
        induction hab with
        | call => omega
        | await _ ih => simp; omega
        | field _ ih => simp; omega
      have := hs h'
      simp at this; omega
    exact .step (by rw [next]; simp [hf]) (ih (Or.inl hf) c)

theorem exprStmt_reach {cfg K s e h} (hh : Head e h) (hf : cfg.fields = true ∨ e = h) :
    ∀ c, Reach cfg ⟨K, c, .exprStmt s e⟩ ⟨K, some s, h⟩ := by
  intro c
  refine .step (y := ⟨K, some s, e⟩) ?_ (head_reach hh hf _)
  rw [next, (stripsToCall_iff e).mpr ⟨h, hh⟩]; simp

/-- Outside of tests everything is visited. -/
theorem Outside.reach {cfg n x} (h : Outside cfg n x) : ∀ R c, ∃ c', Reach cfg ⟨⟨[], none, R⟩, c, n⟩ ⟨⟨[], none, R⟩, c', x⟩ := by
  induction h with
  | refl => exact fun K c => ⟨c, .refl _⟩
  | @step n m x hk ht hf _ ih =>
    intro R c
    have : ∃ c', (⟨⟨[], none, R⟩, c', m⟩ : Item) ∈ next cfg ⟨⟨[], none, R⟩, c, n⟩ := by
      have hgo : ∀ c a, goes cfg ⟨[], none, R⟩ c a = true := by
        intro c a; unfold goes; cases c <;> simp [considered]
      cases n with
      | test t last cs => exact absurd rfl (ht t last cs)
      | stmt s cs => exact ⟨none, List.mem_map.mpr ⟨m, hk, rfl⟩⟩
      | exprStmt s e => obtain rfl := List.mem_singleton.mp hk; exact ⟨_, List.mem_singleton.mpr rfl⟩
      | call i cn callee args =>
        refine ⟨none, ?_⟩
        rw [next, hgo]
        simp only [Bool.or_true, if_true]
        rcases List.mem_cons.mp hk with rfl | hk
        · simp
        · exact List.mem_cons_of_mem _ (List.mem_map.mpr ⟨m, hk, rfl⟩)
      | macro_ i name args =>
        refine ⟨none, ?_⟩
        rw [next, hgo]
        exact List.mem_map.mpr ⟨m, hk, rfl⟩
      | field i f b =>
        obtain rfl := List.mem_singleton.mp hk
        have hf : cfg.fields = true := hf.elim id fun h => absurd rfl (h i f _).1
        exact ⟨c, by rw [next]; simp [hf]⟩
      | await i b =>
        obtain rfl := List.mem_singleton.mp hk
        have hf : cfg.fields = true := hf.elim id fun h => absurd rfl (h i none _).2
        exact ⟨c, by rw [next]; simp [hf]⟩
      | other i cs => exact ⟨none, List.mem_map.mpr ⟨m, hk, rfl⟩⟩
    obtain ⟨c1, h1⟩ := this
    obtain ⟨c2, h2⟩ := ih R c1
    exact ⟨c2, .step h1 h2⟩

/-- What is seen in a test is visited for it. -/
theorem testPart_visits {cfg tree t last m x} (hp : TestPart cfg tree t last m) {y : Item}
    (hr : Reach cfg ⟨⟨[t], last, []⟩, none, m⟩ y) (_ : y.node = x) : FileVisits cfg tree y := by
  obtain ⟨hi, cs, ⟨r, hr0, ho⟩, hm⟩ := hp
  obtain ⟨c', h1⟩ := ho.reach [] none
  refine ⟨r, hr0, h1.trans (.step ?_ hr)⟩
  rw [next]
  simp only [hi, Bool.false_eq_true, if_false]
  exact List.mem_map.mpr ⟨m, hm, rfl⟩

theorem leaf_of {cfg} {y : Item} (hst : y.node.isStmt = true) (h : NoInnerStmt y.node) (hw : ∀ s e, y.node = .exprStmt s e → stripsToCall e = false) :
    Leaf cfg y := by
  obtain ⟨K, c, n⟩ := y
  intro z hz w hw'
  have hzn : z.node ∈ n.kids ∧ z.waiting = none := by
    cases n with
    | stmt s cs => obtain ⟨m, hm, rfl⟩ := List.mem_map.mp hz; exact ⟨hm, rfl⟩
    | exprStmt s e =>
      obtain rfl := List.mem_singleton.mp hz
      exact ⟨List.mem_singleton.mpr rfl, by simp [hw s e rfl]⟩
    | _ => cases hst
  have hsub := (hw'.origin hzn.2).1.sub
  cases hwn : w.node with
  | stmt s cs => exact absurd (Or.inl ⟨cs, rfl⟩) (h _ hzn.1 _ s (hwn ▸ hsub))
  | exprStmt s e => exact absurd (Or.inr ⟨e, rfl⟩) (h _ hzn.1 _ s (hwn ▸ hsub))
  | _ => rfl

/-- A leaf that is removable makes a candidate. -/
theorem leaf_cand {cfg K c n s} (hr : Removable cfg K.last n s) (hn : NotCall n) (hc : s.control = false)
    (hd : s.declaration = false) (hl : NoInnerStmt n) : StmtCand cfg ⟨K, c, n⟩ s.span := by
  obtain ⟨h1, h2, h3, h4⟩ := hr
  rcases h1 with ⟨cs, rfl⟩ | ⟨e, rfl⟩
  · exact ⟨h4, rfl, ⟨h2, h3⟩, hc, hd, leaf_of rfl hl fun _ _ h => by cases h⟩
  · have hs : stripsToCall e = false := (stripsToCall_false e).mpr fun h => hn _ _ h rfl
    exact ⟨h4, rfl, ⟨h2, h3⟩, hs, hc, hd, leaf_of rfl hl fun _ _ h => by cases h; exact hs⟩

/-- A call statement that is removable makes a candidate. -/
theorem call_cand {cfg K s e h} (hr : Removable cfg K.last (.exprStmt s e) s) (hc : IsCall h)
    (hi : ¬ IgnoredCall cfg.config h) (hw : ∀ f, Calls cfg h f → f.key ∈ K.returned) : StmtCand cfg ⟨K, some s, h⟩ s.span := by
  obtain ⟨h1, h2, h3, h4⟩ := hr
  rcases hc with ⟨i, cn, callee, args, rfl⟩ | ⟨i, name, args, rfl⟩
  · refine ⟨h4, rfl, ⟨h2, h3⟩, ?_, ?_⟩
    · cases hwt : walkTarget cfg K.returned callee with
      | none => rfl
      | some p =>
        obtain ⟨name, fs, f⟩ := p
        obtain ⟨a1, a2⟩ := CallsFn.calls (x := ⟨K, some s, .call i cn callee args⟩) ⟨i, cn, callee, args, rfl, hwt⟩
        exact absurd (hw f a1) a2
    · cases hig : (callArgs cfg i cn callee).isIgnoredAsCall with
      | false => rfl
      | true => exact absurd ((callArgs_ignored cfg i cn callee args).1.mp hig) hi
  · refine ⟨h4, rfl, ⟨h2, h3⟩, ?_⟩
    cases hig : cfg.config.isIgnoredMacro name with
    | false => rfl
    | true => exact absurd ((macro_ignored _ _ _ _).mpr hig) hi

/-- A method call that is removable makes a candidate. -/
theorem meth_cand {cfg K c i cn callee args base p} (hm : MethodCall (.call i cn callee args) base p)
    (hi : ¬ Ignored cfg.config (.call i cn callee args))
    (hw : ∀ f, Calls cfg (.call i cn callee args) f → f.key ∈ K.returned)
    (hs : cfg.skip (cfg.trim { i.span with start := base.info.span.stop }) = false)
    (he : ∀ s, c = some s → Eligible K s) :
    MethCand cfg ⟨K, c, .call i cn callee args⟩ (cfg.trim { i.span with start := base.info.span.stop }) := by
  obtain ⟨i1, i2, i3⟩ := callArgs_ignored cfg i cn callee args
  refine ⟨hs, he, ?_, ?_, ?_, ?_, ?_⟩
  · cases hwt : walkTarget cfg K.returned callee with
    | none => rfl
    | some q =>
      obtain ⟨name, fs, f⟩ := q
      obtain ⟨a1, a2⟩ := CallsFn.calls (x := ⟨K, c, .call i cn callee args⟩) ⟨i, cn, callee, args, rfl, hwt⟩
      exact absurd (hw f a1) a2
  · rw [callArgs_span hm]
  · exact i3.mpr ⟨base, p, hm⟩
  · cases hig : (callArgs cfg i cn callee).isIgnoredAsCall with
    | false => rfl
    | true => exact absurd (Or.inl (i1.mp hig)) hi
  · cases hig : (callArgs cfg i cn callee).isIgnoredAsMethodCall with
    | false => rfl
    | true => exact absurd (Or.inr (i2.mp hig)) hi

/-- If nothing is called outside of tests, functions are walked for at least one test. -/
theorem rounds_nonempty {cfg st rs st'} (h : Rounds cfg st rs st') : Inv cfg st →
    (∀ k ∈ pendKeys st.pending, ∃ t, InPend st.pending k t) → ∀ r ∈ rs, r.ns ≠ [] := by
  induction h with
  | nil => intro _ _ r hr; cases hr
  | @cons st f st1 st2 rs st' h1 h2 h3 ih =>
    intro hi hno
    obtain ⟨a1, a2, a3, a4, a5, a6, a7, a8, a9, a10, a11, a12, a13, a14, a15⟩ := hi.round h1
    obtain ⟨e, hi2⟩ := round_eff hi h1 h2
    have hself : st1.testNames ≠ [] := by
      obtain ⟨t, ht⟩ := hno f.key ((a12 _).mpr (Or.inr rfl))
      intro h0
      have := (a10 t).mpr ht
      rw [h0] at this; cases this
    intro r hr
    rcases List.mem_cons.mp hr with rfl | hr
    · exact hself
    · refine ih hi2 ?_ r hr
      intro k hk
      rcases (e.keys k).mp hk with hk | ⟨y, n, fs, g, hy, hc, rfl⟩
      · obtain ⟨t, ht⟩ := hno k ((a12 k).mpr (Or.inl hk))
        rcases (a11 k t).mp ht with ht | ⟨hk', _⟩
        · exact ⟨t, (e.pend k t).mpr (Or.inl ht)⟩
        · exact absurd (hk' ▸ hk) a13
      · have hne : ∃ t, t ∈ y.ctx.names := by
          obtain ⟨m, hm, hre⟩ := hy
          rcases hre.tracked rfl with ⟨h, _⟩ | ⟨t', last, cs, _, _, h, _⟩
          · rw [h]; exact List.exists_mem_of_ne_nil _ hself
          · rw [h]; exact ⟨t', by simp⟩
        obtain ⟨t, ht⟩ := hne
        exact ⟨t, (e.pend _ t).mpr (Or.inr ⟨y, n, fs, g, hy, hc, rfl, ht⟩)⟩

/-- One step. -/
theorem next_ctx {cfg x z} (hz : z ∈ next cfg x) :
    ((∃ t last cs, x.node = .test t last cs) ∧ z.ctx.names ≠ []) ∨
    ((∀ t last cs, x.node ≠ .test t last cs) ∧ z.ctx = x.ctx ∧ z.node ∈ x.node.kids ∧
      (cfg.fields = true ∨ ∀ i name b, x.node ≠ .field i name b ∧ x.node ≠ .await i b)) := by
  obtain ⟨K, c, n⟩ := x
  cases n with
  | test t last cs =>
    left
    simp only [next] at hz
    split at hz
    · cases hz
    · obtain ⟨m, hm, rfl⟩ := List.mem_map.mp hz
      exact ⟨⟨_, _, _, rfl⟩, by simp⟩
  | stmt s cs => right; obtain ⟨m, hm, rfl⟩ := List.mem_map.mp hz; exact ⟨by simp, rfl, hm, by simp⟩
  | exprStmt s e => right; obtain rfl := List.mem_singleton.mp hz; exact ⟨by simp, rfl, by simp [Node.kids], by simp⟩
  | call i cn callee args =>
    right
    rw [next] at hz
    split at hz
    · rcases List.mem_cons.mp hz with rfl | hz
      · exact ⟨by simp, rfl, by simp [Node.kids], by simp⟩
      · obtain ⟨m, hm, rfl⟩ := List.mem_map.mp hz; exact ⟨by simp, rfl, by simp [Node.kids, hm], by simp⟩
    · split at hz
      · obtain rfl := List.mem_singleton.mp hz; exact ⟨by simp, rfl, by simp [Node.kids], by simp⟩
      · cases hz
  | macro_ i name args =>
    right
    rw [next] at hz
    split at hz
    · obtain ⟨m, hm, rfl⟩ := List.mem_map.mp hz; exact ⟨by simp, rfl, hm, by simp⟩
    · cases hz
  | field i f b =>
    right
    rw [next] at hz
    split at hz
    · obtain rfl := List.mem_singleton.mp hz; exact ⟨by simp, rfl, by simp [Node.kids], by simp [*]⟩
    · cases hz
  | await i b =>
    right
    rw [next] at hz
    split at hz
    · obtain rfl := List.mem_singleton.mp hz; exact ⟨by simp, rfl, by simp [Node.kids], by simp [*]⟩
    · cases hz
  | other i cs => right; obtain ⟨m, hm, rfl⟩ := List.mem_map.mp hz; exact ⟨by simp, rfl, hm, by simp⟩

theorem Reach.nonempty {cfg x y} (h : Reach cfg x y) : x.ctx.names ≠ [] → y.ctx.names ≠ [] := by
  induction h with
  | refl => exact id
  | step h1 _ ih =>
    intro hx
    rcases next_ctx h1 with ⟨_, h⟩ | ⟨_, h, _⟩
    · exact ih h
    · exact ih (h ▸ hx)

theorem Reach.outside {cfg x y} (h : Reach cfg x y) : y.ctx.names = [] → Outside cfg x.node y.node := by
  induction h with
  | refl => exact fun _ => .refl _
  | step h1 h2 ih =>
    intro hy
    rcases next_ctx h1 with ⟨_, h⟩ | ⟨a1, a2, a3, a4⟩
    · exact absurd hy (h2.nonempty h)
    · exact .step a3 a1 a4 (ih hy)

/-- Nothing is called outside of tests. -/
theorem file_nonempty {cfg tree st} (h : walkList cfg tree {} = some st)
    (hno : ∀ r ∈ tree, ∀ h f, Outside cfg r h → ¬ Calls cfg h f) : ∀ k ∈ pendKeys st.pending, ∃ t, InPend st.pending k t := by
  obtain ⟨e, _⟩ := file_eff h
  intro k hk
  rcases (e.keys k).mp hk with hk | ⟨y, n, fs, g, ⟨r, hr, hy⟩, hc, rfl⟩
  · cases hk
  · have hne : y.ctx.names ≠ [] := fun h0 => hno r hr _ g (hy.outside h0) hc.calls.1
    obtain ⟨t, ht⟩ := List.exists_mem_of_ne_nil _ hne
    exact ⟨t, (e.pend _ t).mpr (Or.inr ⟨y, n, fs, g, ⟨r, hr, hy⟩, hc, rfl, ht⟩)⟩

end Necessist.Visit
