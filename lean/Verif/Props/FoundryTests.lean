import Verif.Props.Foundry
/-!
# Foundry: what the candidates are (C76)
-/
namespace Necessist.Foundry
open Visit (Node VCfg VState LocalFn Visited Sub Held Seen IsWalkable KeysFaithful World InTest InFn Calls Exercises TestPart Outside
  PlainLeaf PlainCall Removable NotCall NoInnerStmt NoTest FlatTests DirectCalls Head dotted)
open Columns

section
variable {c : Ctx} {config : Compiled} {skip : Span → Bool} {trim : Span → Span} {items : List Item}

local notation "VC" => visitorCfg c config skip trim items
local notation "TR" => List.flatMap (lowerItem c) items

theorem calls_callOf {x g} (h : Calls VC (lowerExpr c .plain x) g) :
    ∃ name f, CallOf x name ∧ Local config items name f ∧ g = localFn c f := by
  obtain ⟨i, cn, callee, args, name, fs, h1, h2, h3⟩ := h
  obtain ⟨l, f, as, rfl, _, _, rfl, _⟩ := lower_isCall h1
  obtain ⟨d, hd, rfl⟩ := walkable_lookup h3
  exact ⟨name, d, callOf_iff.mp h2, hd, rfl⟩

theorem CallOf.calls {x name f} (h : CallOf x name) (hl : Local config items name f) : Calls VC (lowerExpr c .plain x) (localFn c f) := by
  obtain ⟨gs, h1⟩ := hl.lookup (c := c) (skip := skip) (trim := trim)
  obtain ⟨l, g, as, l', rfl, h2⟩ := id h
  exact ⟨_, _, _, _, name, gs, lower_call c l g as, callOf_iff.mpr h, h1⟩

theorem calls_isCall {cfg : VCfg} {n f} (h : Calls cfg n f) : Visit.IsCall n := by
  obtain ⟨_, _, _, _, _, _, rfl, _⟩ := h
  exact Or.inl ⟨_, _, _, _, rfl⟩

theorem exercises_uses {t g} (h : Exercises VC TR t g) : ∃ f, Uses config items t f ∧ g = localFn c f := by
  induction h with
  | direct hi hc =>
    obtain ⟨_, f, _, _, h1, _, _, m, hm, hn⟩ := inTest hi
    obtain ⟨e, x, h2, h3, rfl⟩ := fn_call rfl hm hn (calls_isCall hc)
    obtain ⟨name, d, h4, h5, rfl⟩ := calls_callOf hc
    exact ⟨d, .direct h1 ⟨e, x, h2, h3, h4⟩ h5, rfl⟩
  | via _ hi hc ih =>
    obtain ⟨f, h1, rfl⟩ := ih
    obtain ⟨m, hm, hn⟩ := hi
    obtain ⟨e, x, h2, h3, rfl⟩ := fn_call (f := f) rfl hm hn (calls_isCall hc)
    obtain ⟨name, d, h4, h5, rfl⟩ := calls_callOf hc
    exact ⟨d, .via h1 ⟨e, x, h2, h3, h4⟩ h5, rfl⟩

/-- What is covered, in terms of the file. -/
theorem covers {t last n} (h : Visit.Covers VC TR t last n) :
    ∃ f, .fn f ∈ items ∧ ((Test items t f ∧ ∃ l ss, f.body = some (.block l ss) ∧ last = lastKey c ss) ∨ Uses config items t f) ∧
      ∃ m ∈ lowerFn c f, Held VC m n := by
  rcases h with h | ⟨rfl, g, he, hs⟩
  · obtain ⟨_, f, l, ss, h1, h2, h3, h4⟩ := inTest h
    exact ⟨f, h1.1, Or.inl ⟨h1, l, ss, h2, h3⟩, h4⟩
  · obtain ⟨f, hu, rfl⟩ := exercises_uses he
    refine ⟨f, ?_, Or.inr hu, hs⟩
    cases hu with
    | direct _ _ h => exact h.mem.1
    | via _ _ h => exact h.mem.1

/-- A test of the file is a test for the generic visitor. -/
theorem Test.outside {t f} (h : Test items t f) : ∃ l ss, f.body = some (.block l ss) ∧
    ∃ r ∈ TR, Outside VC r (.test t (lastKey c ss) (lowerFn c f)) := by
  obtain ⟨h1, h2⟩ := h
  obtain ⟨b, hb, l, ss, rfl⟩ := h2.2.2.2
  refine ⟨l, ss, hb, _, List.mem_flatMap.mpr ⟨_, h1, ?_⟩, .refl _⟩
  rw [lowerItem, testOf_iff.mpr ⟨h2, l, hb⟩]
  exact List.mem_singleton.mpr rfl

theorem head_call {c : Ctx} {e : Expr} {h} (hh : Head (lowerExpr c .plain e) h) :
    (h = lowerExpr c .plain e ∧ IsCall e) ∨ ∃ base p, Selects e base p ∧ p ≠ [] ∧ IsCall base := by
  have key : ∀ {n h : Node}, Head n h → ∀ {e : Expr}, n = lowerExpr c .plain e →
      ∃ base p, Selects e base p ∧ IsCall base ∧ (p = [] → h = lowerExpr c .plain e ∧ IsCall e) := by
    intro n h hh
    induction hh with
    | @call h hc =>
      intro e he
      subst he
      have hc' := isCall_lower.mp hc
      exact ⟨e, [], .base (by rintro l o n rfl; obtain ⟨_, _, _, h⟩ := hc'; cases h), hc', fun _ => ⟨rfl, hc'⟩⟩
    | await _ _ =>
      intro e he
      rcases lower_kind c .plain e with ⟨_, _, h'⟩ | ⟨_, _, _, h'⟩ | ⟨_, _, _, _, h'⟩ <;> rw [h'] at he <;> cases he
    | field _ ih =>
      intro e he
      obtain ⟨l, o, m, h1, _, h2⟩ := lower_field he.symm
      rw [if_pos rfl] at h1
      subst h1
      obtain ⟨base, p, h3, h4, _⟩ := ih h2
      exact ⟨base, p ++ [m], .member h3, h4, fun h => by simp at h⟩
  obtain ⟨base, p, h1, h2, h3⟩ := key hh rfl
  by_cases hp : p = []
  · exact Or.inl (h3 hp)
  · exact Or.inr ⟨base, p, h1, hp, h2⟩

theorem Exposed.simple {x y : Stmt} (hx : ¬ x.IsBlock) (h : Exposed x y) :
    y = x ∨ ∃ l ps s, x = .compound l ps ∧ .stmt s ∈ ps ∧ Exposed s y := by
  cases h with
  | refl => exact Or.inl rfl
  | part h1 h2 => exact Or.inr ⟨_, _, _, rfl, h1, h2⟩
  | block _ _ => exact absurd ⟨_, _, rfl⟩ hx

/-- What the visitor finds to be a leaf has no statements in it. -/
theorem simple_of {cfg : VCfg} {x : Stmt} {n} (hn : lowerStmt c x = [n]) (h : ∀ m ∈ n.kids, ∀ y s', Seen cfg m y → ¬ Visit.IsStmt y s') : Simple x := by
  intro l ps s y hx hs hy
  refine Classical.byContradiction fun hb => ?_
  obtain ⟨k, h1, h2, _⟩ := low_node c hb
  obtain ⟨m, hm, hse⟩ := exposed_seen (cfg := cfg) hy ⟨k, by rw [h1]; simp, .refl _⟩
  subst hx
  rw [lowerStmt] at hn
  cases hn
  exact h m (lowerParts_mem c hs (by rw [lowerPart]; exact hm)) k _ hse h2

theorem Simple.noInner {x : Stmt} {n} (hb : ¬ x.IsBlock) (hn : lowerStmt c x = [n]) (h : Simple x) : NoInnerStmt n := by
  intro m hm y s' hsub hst
  have hheld : Held (⟨⟨[], [], [], .none_, [], false, []⟩, fun _ => false, [], id, true, true⟩ : VCfg) m y := hsub.held rfl
  have hex : ∀ e, m = lowerExpr c .plain e → False := by
    rintro e rfl
    exact expr_noStmt hsub hst
  cases x with
  | block l ss => exact hb ⟨_, _, rfl⟩
  | expr l e => rw [lowerStmt] at hn; cases hn; exact hex e (by simpa [Node.kids] using hm)
  | control l es =>
    rw [lowerStmt, lowerExprs_eq] at hn; cases hn
    obtain ⟨e, _, he⟩ := List.mem_map.mp hm
    exact hex e he.symm
  | varDef l es =>
    rw [lowerStmt, lowerExprs_eq] at hn; cases hn
    obtain ⟨e, _, he⟩ := List.mem_map.mp hm
    exact hex e he.symm
  | compound l ps =>
    rw [lowerStmt] at hn; cases hn
    rcases low_parts c _ ps m hm y hheld with ⟨e, _, h1⟩ | ⟨s, h1, h2⟩
    · exact expr_noStmt h1.sub hst
    · rcases from_stmt h2 hst with ⟨_, _, z, h3, h4⟩ | ⟨z, h3, h4, _⟩
      · obtain ⟨_, _, h5⟩ := h l ps s z rfl h1 h3
        obtain ⟨_, _, _, _, _, _, h6, _⟩ := h4
        rw [h5] at h6; cases h6
      · exact h4 (h l ps s z rfl h1 h3)

section
variable (hr : Regular c items)
include hr

theorem plain_low {f x last} (hf : .fn f ∈ items) (hx : HasStmt f x) (hpl : Plain config items x) (hl : last ≠ some (c.key x))
    (hskip : skip (toSpan c (withSemicolon c.contents x.loc)) = false) :
    ∃ n, lowerStmt c x = [n] ∧ (PlainLeaf VC last n (info c x) ∨ PlainCall VC last n (info c x)) := by
  have hb : ¬ x.IsBlock := by
    rcases hpl with ⟨h, _⟩ | ⟨l, e, rfl, _⟩
    · exact h
    · rintro ⟨_, _, h⟩; cases h
  obtain ⟨n, h1, h2, h3, h4⟩ := low_node c hb
  have hrem : Removable VC last n (info c x) := ⟨h2, rfl, hl, hskip⟩
  refine ⟨n, h1, ?_⟩
  rcases hpl with ⟨_, a1, a2, a3, a4⟩ | ⟨l, e, rfl, ha, a3, a4⟩
  · refine Or.inl ⟨hrem, ?_, isControl_iff.mpr a1, isDeclaration_iff.mpr a2, a3.noInner hb h1⟩
    intro s e' h' hn hh
    by_cases he : ∃ l e, x = .expr l e
    · obtain ⟨l, e, rfl⟩ := he
      rw [h3 l e rfl] at hn
      cases hn
      rcases head_call hh with ⟨_, hc⟩ | ⟨base, p, hs, hp, hc⟩
      · exact a4 l e rfl hc
      · exact hr.calls f l e base p hf hx hs hp hc
    · obtain ⟨cs, hcs⟩ := h4 fun l e h => he ⟨l, e, h⟩
      rw [hcs] at hn; cases hn
  · refine Or.inr ⟨hrem, _, _, h3 l e rfl, .call (isCall_lower.mpr ha), Or.inr rfl, fun h => a3 (ignored_iff.mp h), fun g hg => ?_⟩
    obtain ⟨name, f, b1, b2, _⟩ := calls_callOf hg
    exact a4 name f b1 b2

theorem last_ne {t f x l ss} (ht : Test items t f) (hb : f.body = some (.block l ss)) (hx : HasStmt f x) (hl : ¬ Last f x) :
    lastKey c ss ≠ some (c.key x) := by
  intro hk
  rcases lastKey_some hb hk with h | ⟨y, h1, h2⟩
  · exact hr.faux f x ht.1 hx h
  · rw [hr.keys f f x y ht.1 ht.1 hx h1.hasStmt h2] at hl
    exact hl h1

/-- **C76.** The tests are the functions that are named `test…` and not `pure`, and that have a body, except those that the configuration
ignores. -/
theorem C76_tests {rounds st walked} (h : visit c config skip trim rounds items = .done st walked) (t : Text) :
    t ∈ st.testSet ↔ (∃ f, Test items t f) ∧ config.isIgnoredTest t = false := by
  rw [refines hr.fns] at h
  constructor
  · intro ht
    obtain ⟨h1, l, cs, h2⟩ := Visit.C38_tests_sound h ht
    obtain ⟨f, _, _, h3, _⟩ := world_test h2
    exact ⟨⟨f, h3⟩, h1⟩
  · rintro ⟨⟨f, hf⟩, hi⟩
    obtain ⟨l, ss, _, r, h1, h2⟩ := hf.outside (c := c) (config := config) (skip := skip) (trim := trim)
    exact Visit.C38_tests_complete h h1 h2 hi

/-- **C76.** The visit ends, after at most as many rounds as there are functions, and without a panic. -/
theorem C76_done (rounds : Nat) (hrounds : items.length ≤ rounds) :
    ∃ st walked, visit c config skip trim rounds items = .done st walked := by
  rw [refines hr.fns]
  have hdirect : ∀ {f m}, .fn f ∈ items → m ∈ lowerFn c f → DirectCalls VC m := by
    intro f m hf hm
    refine Or.inr fun s e h hsub hh => ?_
    have hheld : Held ({ VC with
      fields := true } : VCfg) m (.exprStmt s e) := hsub.held rfl
    rcases fn_stmt hm hheld (Or.inr ⟨e, rfl⟩) with ⟨h1, _⟩ | ⟨x, h1, h2, h3, rfl⟩
    · cases h1
    · obtain ⟨n, h4, h5, h6, h7⟩ := low_node c h2
      rw [h3] at h4
      cases h4
      by_cases he : ∃ l e, x = .expr l e
      · obtain ⟨l, e', rfl⟩ := he
        cases h6 l e' rfl
        rcases head_call hh with ⟨h8, _⟩ | ⟨base, p, hs, hp, hc⟩
        · exact h8.symm
        · exact absurd hc (hr.calls f l e' base p hf h1 hs hp)
      · obtain ⟨cs, hcs⟩ := h7 fun l e h => he ⟨l, e, h⟩
        cases hcs
  cases h : Visit.visitFile VC rounds TR with
  | done st walked => exact ⟨st, walked, rfl⟩
  | more =>
    refine absurd h (Visit.C39_terminates _ _ _ ?_)
    have h1 := Visit.walkableOf_length config (localFns c items)
    have h2 : (localFns c items).length = (fns items).length := List.length_map _
    have h3 : (VC).walkable.length = (Visit.walkableOf config (localFns c items)).length := rfl
    have h4 : (fns items).length ≤ items.length := List.length_filterMap_le _ _
    omega
  | panic =>
    refine absurd h (Visit.C66_no_panic_partial _ _ ?_ ?_ ?_)
    · intro n hn t l cs hsub m hm t' l' cs' h'
      have hw : World VC TR (.test t l cs) := Or.inl ⟨n, hn, hsub⟩
      obtain ⟨f, _, _, _, _, _, rfl⟩ := world_test hw
      exact fn_noTest hm h'
    · intro n hn
      obtain ⟨it, hit, hn⟩ := List.mem_flatMap.mp hn
      cases it with
      | expr e =>
        simp only [lowerItem, List.mem_singleton] at hn
        subst hn
        exact Or.inr fun s e' h hsub _ => absurd (Or.inr ⟨_, rfl⟩) (expr_noStmt (s := s) hsub)
      | fn f =>
        simp only [lowerItem] at hn
        cases ht : testOf f with
        | none => rw [ht] at hn; simp at hn
        | some p =>
          rw [ht] at hn
          simp only [List.mem_singleton] at hn
          subst hn
          refine Or.inr fun s e h hsub hh => ?_
          cases hsub with
          | step hk hsub =>
            rcases hdirect hit hk with h | h
            · cases h
            · exact h s e _ hsub hh
    · intro g hg m hm
      obtain ⟨name, f, hf, rfl⟩ := isWalkable_fn hg
      exact ⟨fun t l cs => fn_noTest hm, hdirect hf.mem.1 hm⟩

/-- **C76.** A statement that is to be removed is a statement of a test (which is not the last one), or of a function of the file
that the test calls, directly or through others into which the configuration allows to go; it is neither immediately after a use of
`vm.prank` or `vm.expect…`, nor within such a statement. It is not suppressed; and it is either no call, and then no control statement
(e.g. `emit`), no declaration, and without statements in it, or a call that is not ignored. -/
theorem C76_statements {rounds st walked} (h : visit c config skip trim rounds items = .done st walked)
    {span t} (hc : (span, t) ∈ st.statements) :
    (∃ f, Test items t f) ∧ config.isIgnoredTest t = false ∧ skip span = false ∧
    ∃ x, Covers config items t x ∧ span = toSpan c (withSemicolon c.contents x.loc) ∧ ¬ x.IsBlock ∧ ¬ x.IsControl ∧
      ((¬ x.IsDeclaration ∧ Simple x ∧ ∀ l e, x = .expr l e → ¬ IsCall e) ∨
       ∃ l e, x = .expr l e ∧ IsCall e ∧ ¬ Ignored config e) := by
  have h0 := h
  rw [refines hr.fns] at h
  have hk : KeysFaithful VC := keysFaithful hr.fns
  obtain ⟨h1, h2⟩ := (Visit.C38_only hk h (Or.inl hc)).1
  obtain ⟨last, n, i, h3, ⟨h4, h5, h6, h7⟩, rfl, h9⟩ := Visit.C40_statements hk h hc
  obtain ⟨f, hf, hcov, m, hm, hn⟩ := covers h3
  refine ⟨((C76_tests hr h0 t).mp h1).1, h2, h7, ?_⟩
  have hctl : i.control = false ∨ ∃ e, n = .exprStmt i e := h9.imp (·.2.1) fun ⟨e, _, h, _⟩ => ⟨e, h⟩
  rcases fn_stmt hm hn h4 with ⟨rfl, rfl⟩ | ⟨x, b1, b2, b3, rfl⟩
  · exfalso
    rcases hctl with h | ⟨_, h⟩ <;> cases h
  · refine ⟨x, ?_, rfl, b2, ?_, ?_⟩
    · rcases hcov with ⟨ht, l, ss, hb, rfl⟩ | hu
      · exact .test ht b1 fun hl => h6 (by rw [hl.key hb]; rfl)
      · exact .function hu b1
    · rintro ⟨l, es, rfl⟩
      rcases hctl with h | ⟨e, rfl⟩
      · cases h
      · rw [lowerStmt] at b3; cases b3
    · obtain ⟨n', d1, _, d3, d4⟩ := low_node c b2
      rw [b3] at d1
      cases d1
      rcases h9 with ⟨a1, a2, a3, a4⟩ | ⟨e', h', a1, a2, a3⟩
      · refine Or.inl ⟨isDeclaration_iff.mp a3, simple_of b3 a4, ?_⟩
        rintro l e rfl he
        exact a1 _ _ _ (d3 l e rfl) (.call (isCall_lower.mpr he))
      · by_cases he : ∃ l e, x = .expr l e
        · obtain ⟨l, e, rfl⟩ := he
          rw [d3 l e rfl] at a1
          cases a1
          rcases head_call a2 with ⟨rfl, hca⟩ | ⟨base, p, hs, hp, hca⟩
          · exact Or.inr ⟨l, e, rfl, hca, fun hi => a3 (ignored_iff.mpr hi)⟩
          · exact absurd hca (hr.calls f l e base p hf b1 hs hp)
        · obtain ⟨cs, hcs⟩ := d4 fun l e h => he ⟨l, e, h⟩
          rw [hcs] at a1; cases a1

/-- **C76.** A method call that is to be removed is the last one, `.p₁.….pₖ(…)`, of a call `base.p₁.….pₖ(…)` (or `base.p₁.….pₖ{…}(…)`)
of a test or of such a function; neither the method nor the call is ignored, and it is not suppressed. -/
theorem C76_methods {rounds st walked} (h : visit c config skip trim rounds items = .done st walked)
    {span t} (hc : (span, t) ∈ st.methodCalls) :
    (∃ f, Test items t f) ∧ config.isIgnoredTest t = false ∧ skip span = false ∧
    ∃ f e x base p, (Test items t f ∨ Uses config items t f) ∧ HasExpr f e ∧ Evaluated e x ∧ Method x base p ∧
      ¬ Ignored config x ∧ config.isIgnoredMethod (dotted p) = false ∧
      span = trim ⟨c.file, offsetToLineColumn c.contents base.loc.stop, offsetToLineColumn c.contents x.loc.stop⟩ := by
  have h0 := h
  rw [refines hr.fns] at h
  have hk : KeysFaithful VC := keysFaithful hr.fns
  obtain ⟨h1, h2⟩ := (Visit.C38_only hk h (Or.inr hc)).1
  obtain ⟨hskip, last, n, i, base, p, cn, callee, args, rfl, h3, h4, h5, h6, h7⟩ := Visit.C38_methods hk h hc
  refine ⟨((C76_tests hr h0 t).mp h1).1, h2, hskip, ?_⟩
  obtain ⟨f, _, hcov, m, hm, hn⟩ := covers h3
  obtain ⟨e, x, b1, b2, b3⟩ := fn_call rfl hm hn (Or.inl ⟨_, _, _, _, rfl⟩)
  rw [b3] at h4 h5
  obtain ⟨b, rfl, hme⟩ := method_low h4
  refine ⟨f, e, x, b, p, hcov.imp And.left id, b1, b2, hme, fun h => h5 (ignored_iff.mpr h), h6, ?_⟩
  obtain ⟨l, g, as, rfl, rfl, _⟩ := lower_isCall b3.symm
  rw [h7, lower_span]
  rfl

/-- **C76.** No plain statement of a test is overlooked, unless it is the last one, immediately follows a cheatcode, or is within a
statement that does. -/
theorem C76_complete {rounds st walked} (h : visit c config skip trim rounds items = .done st walked) {t f x}
    (ht : Test items t f) (hi : config.isIgnoredTest t = false) (hx : HasStmt f x) (hpl : Plain config items x) (hl : ¬ Last f x)
    (hskip : skip (toSpan c (withSemicolon c.contents x.loc)) = false) :
    (toSpan c (withSemicolon c.contents x.loc), t) ∈ st.statements := by
  rw [refines hr.fns] at h
  obtain ⟨l, ss, hb, r, hr1, hr2⟩ := ht.outside (c := c) (config := config) (skip := skip) (trim := trim)
  obtain ⟨n, h1, h2⟩ := plain_low (trim := trim) hr ht.1 hx hpl (last_ne hr ht hb hx hl) hskip
  obtain ⟨m, h3, h4⟩ := stmt_seen (c := c) (cfg := VC) hx ⟨n, by rw [h1]; simp, .refl _⟩
  exact (Visit.C36_test h ⟨hi, _, ⟨r, hr1, hr2⟩, h3⟩ h4 h2).2

/-- **C76.** … and likewise for a function that the test calls: the first function of that name, if it is not `pure`. -/
theorem C76_complete_functions {rounds st walked} (h : visit c config skip trim rounds items = .done st walked)
    {t f e y name g x} (ht : Test items t f) (hi : config.isIgnoredTest t = false) (he : HasExpr f e) (hy : Clear config e y)
    (hcall : CallOf y name) (hg : Local config items name g) (hx : HasStmt g x) (hpl : Plain config items x)
    (hskip : skip (toSpan c (withSemicolon c.contents x.loc)) = false) :
    (toSpan c (withSemicolon c.contents x.loc), t) ∈ st.statements := by
  rw [refines hr.fns] at h
  obtain ⟨l, ss, hb, r, hr1, hr2⟩ := ht.outside (c := c) (config := config) (skip := skip) (trim := trim)
  obtain ⟨n, h1, h2⟩ := plain_low (skip := skip) (trim := trim) (last := none) hr hg.mem.1 hx hpl (by simp) hskip
  obtain ⟨m', h3, h4⟩ := stmt_seen (c := c) (cfg := VC) hx ⟨n, by rw [h1]; simp, .refl _⟩
  obtain ⟨m, h5, h6⟩ := expr_seen (c := c) (cfg := VC) he
  have h7 := clear_seen (c := c) (cfg := VC) rfl hy (by obtain ⟨l, f, as, _, h, _⟩ := hcall; exact ⟨l, f, as, h⟩)
  exact Visit.C36_function (keysFaithful hr.fns) h ⟨hi, _, ⟨r, hr1, hr2⟩, h5⟩ (h6.trans h7)
    (hcall.calls hg) h3 h4 h2

omit hr in
theorem method_facts {x base p} (hm : Method x base p) (hig : ¬ Ignored config x) (him : config.isIgnoredMethod (dotted p) = false) :
    ∃ l callee as, x = .call l callee as ∧ Visit.MethodCall (lowerExpr c .plain x) (lowerExpr c .plain base) p ∧
      ¬ Visit.Ignored config (lowerExpr c .plain x) ∧ ∀ g, ¬ Calls VC (lowerExpr c .plain x) g := by
  have hmc := hm.low (c := c)
  refine ⟨_, _, _, hm.2.choose_spec.choose_spec.choose_spec.choose_spec.1, hmc, ?_, fun g hg => ?_⟩
  · rintro (hi | ⟨b, p', hm', hi⟩)
    · exact hig (ignored_iff.mp hi)
    · rw [← (hmc.unique hm').2, him] at hi; cases hi
  · obtain ⟨name, d, ⟨l, f, as, l', rfl, hpe⟩, _, _⟩ := calls_callOf hg
    obtain ⟨hp, _, _, _, g', h1, h2, h3⟩ := hm
    cases h1
    have a1 := hpe.peel (by intros; simp)
    cases h3 with
    | base _ => exact hp rfl
    | member _ =>
      have a2 := h2.peel (by intros; simp)
      rw [a1] at a2; cases a2

/-- **C76.** No method call of a test is overlooked, unless it is ignored, or within an ignored call or a statement after a cheatcode, or
the test's last statement. -/
theorem C76_complete_methods {rounds st walked} (h : visit c config skip trim rounds items = .done st walked)
    {t f e x base p} (ht : Test items t f) (hi : config.isIgnoredTest t = false) (he : HasExpr f e) (hx : Clear config e x)
    (hm : Method x base p) (hig : ¬ Ignored config x) (him : config.isIgnoredMethod (dotted p) = false)
    (hskip : skip (trim ⟨c.file, offsetToLineColumn c.contents base.loc.stop, offsetToLineColumn c.contents x.loc.stop⟩) = false)
    (hl : ∀ l e', Last f (.expr l e') → toSpan c e'.loc ≠ toSpan c x.loc) :
    (trim ⟨c.file, offsetToLineColumn c.contents base.loc.stop, offsetToLineColumn c.contents x.loc.stop⟩, t) ∈ st.methodCalls := by
  rw [refines hr.fns] at h
  obtain ⟨l, ss, hb, r, hr1, hr2⟩ := ht.outside (c := c) (config := config) (skip := skip) (trim := trim)
  obtain ⟨lx, callee, as, rfl, hmc, hni, hnc⟩ := method_facts (c := c) (skip := skip) (trim := trim) (items := items) hm hig him
  obtain ⟨m, h5, h6⟩ := expr_seen (c := c) (cfg := VC) he
  have h7 := clear_seen (c := c) (cfg := VC) rfl hx ⟨_, _, _, rfl⟩
  rw [lower_call] at h7 hmc hni hnc
  have := Visit.C36_test_methods h ⟨hi, _, ⟨r, hr1, hr2⟩, h5⟩ (h6.trans h7) hmc hni hnc (by rw [lower_span]; exact hskip) ?_
  · rw [lower_span] at this; exact this
  · intro s e' hsub hhead
    have hheld : Held ({ VC with
      fields := true } : VCfg) m (.exprStmt s e') := hsub.held rfl
    rcases fn_stmt h5 hheld (Or.inr ⟨e', rfl⟩) with ⟨h1, _⟩ | ⟨y, b1, b2, b3, rfl⟩
    · cases h1
    · obtain ⟨n', d1, d2, d3, d4⟩ := low_node c b2
      rw [b3] at d1
      cases d1
      refine ⟨rfl, fun hlast => ?_⟩
      by_cases hye : ∃ l e, y = .expr l e
      · obtain ⟨ly, ey, rfl⟩ := hye
        cases d3 ly ey rfl
        rcases head_call hhead with ⟨h8, _⟩ | ⟨base', p', hs, hp, hca⟩
        · rcases lastKey_some hb hlast with hk | ⟨z, hz1, hz2⟩
          · exact hr.faux f _ ht.1 b1 hk
          · have := hr.keys f f _ z ht.1 ht.1 b1 hz1.hasStmt hz2
            subst this
            refine hl ly ey hz1 ?_
            rw [← lower_span, ← h8]
            rfl
        · exact absurd hca (hr.calls f ly ey base' p' ht.1 b1 hs hp)
      · obtain ⟨cs, hcs⟩ := d4 fun l e h => hye ⟨l, e, h⟩
        cases hcs

/-- **C76.** … and likewise for a function that the test calls. -/
theorem C76_complete_functions_methods {rounds st walked} (h : visit c config skip trim rounds items = .done st walked)
    {t f e y name g e' x base p} (ht : Test items t f) (hi : config.isIgnoredTest t = false) (he : HasExpr f e) (hy : Clear config e y)
    (hcall : CallOf y name) (hg : Local config items name g) (he' : HasExpr g e') (hx : Clear config e' x)
    (hm : Method x base p) (hig : ¬ Ignored config x) (him : config.isIgnoredMethod (dotted p) = false)
    (hskip : skip (trim ⟨c.file, offsetToLineColumn c.contents base.loc.stop, offsetToLineColumn c.contents x.loc.stop⟩) = false) :
    (trim ⟨c.file, offsetToLineColumn c.contents base.loc.stop, offsetToLineColumn c.contents x.loc.stop⟩, t) ∈ st.methodCalls := by
  rw [refines hr.fns] at h
  obtain ⟨l, ss, hb, r, hr1, hr2⟩ := ht.outside (c := c) (config := config) (skip := skip) (trim := trim)
  obtain ⟨lx, callee, as, rfl, hmc, hni, hnc⟩ := method_facts (c := c) (skip := skip) (trim := trim) (items := items) hm hig him
  obtain ⟨m, h5, h6⟩ := expr_seen (c := c) (cfg := VC) he
  have h7 := clear_seen (c := c) (cfg := VC) rfl hy (by obtain ⟨l, f, as, _, h, _⟩ := hcall; exact ⟨l, f, as, h⟩)
  obtain ⟨m', h8, h9⟩ := expr_seen (c := c) (cfg := VC) he'
  have h10 := clear_seen (c := c) (cfg := VC) rfl hx ⟨_, _, _, rfl⟩
  rw [lower_call] at h10 hmc hni hnc
  have := Visit.C36_function_methods (keysFaithful hr.fns) h ⟨hi, _, ⟨r, hr1, hr2⟩, h5⟩ (h6.trans h7)
    (hcall.calls hg) h8 (h9.trans h10) hmc hni hnc (by rw [lower_span]; exact hskip) ?_
  · rw [lower_span] at this; exact this
  · intro s e' hsub hhead
    have hheld : Held ({ VC with
      fields := true } : VCfg) m' (.exprStmt s e') := hsub.held rfl
    rcases fn_stmt h8 hheld (Or.inr ⟨e', rfl⟩) with ⟨h1, _⟩ | ⟨y, b1, b2, b3, rfl⟩
    · cases h1
    · rfl

end

end

end Necessist.Foundry
