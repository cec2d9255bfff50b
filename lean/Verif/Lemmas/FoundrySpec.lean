import Verif.Lemmas.Foundry
import Verif.Lemmas.VisitorLoop
import Verif.Lemmas.VisitorSpec
import Verif.Lemmas.LocalFunctions
/-! # Foundry: from the generic visitor's trees back to syntax trees -/
namespace Necessist.Foundry
open Visit (Node VCfg Sub Held Seen SeenStep Enters enters_of Head MethodCall Innermost Path dotted IsStmt)

/-! ## Expressions -/

theorem lower_call (c : Ctx) (l f args) : lowerExpr c .plain (.call l f args) =
    .call ⟨toSpan c l, none⟩ (callName f) (lowerExpr c .callee f) (lowerExprs c args) := by simp [lowerExpr]

theorem lower_isCall {c : Ctx} {e : Expr} {i cn f as} (h : lowerExpr c .plain e = .call i cn f as) :
    ∃ l g args, e = .call l g args ∧ i = ⟨toSpan c l, none⟩ ∧ cn = callName g ∧ f = lowerExpr c .callee g ∧ as = lowerExprs c args := by
  cases e with
  | call l g args => rw [lower_call] at h; cases h; exact ⟨l, g, args, rfl, rfl, rfl, rfl, rfl⟩
  | _ => simp [lowerExpr] at h

theorem lower_kind (c : Ctx) (pos : Position) (e : Expr) :
    (∃ i cs, lowerExpr c pos e = .other i cs) ∨ (∃ i n b, lowerExpr c pos e = .field i n b) ∨ ∃ i cn f as, lowerExpr c pos e = .call i cn f as := by
  induction e using Expr.rec (motive_2 := fun _ => True) generalizing pos with
  | nil | cons => trivial
  | options l f ps ih _ =>
    cases pos with
    | plain => simp [lowerExpr]
    | _ => rw [lowerExpr]; exact ih _; simp
  | _ => cases pos <;> simp [lowerExpr]

theorem isCall_lower {c : Ctx} {x : Expr} : Visit.IsCall (lowerExpr c .plain x) ↔ IsCall x := by
  constructor
  · rintro (⟨i, cn, f, as, h⟩ | ⟨i, n, as, h⟩)
    · obtain ⟨l, g, args, rfl, _⟩ := lower_isCall h
      exact ⟨l, g, args, rfl⟩
    · rcases lower_kind c .plain x with ⟨_, _, h'⟩ | ⟨_, _, _, h'⟩ | ⟨_, _, _, _, h'⟩ <;> rw [h'] at h <;> cases h
  · rintro ⟨l, f, args, rfl⟩
    rw [lower_call]
    exact Or.inl ⟨_, _, _, _, rfl⟩

theorem lower_kids {c : Ctx} {pos : Position} {e : Expr} {m : Node} (h : m ∈ (lowerExpr c pos e).kids) :
    ∃ pos' e', m = lowerExpr c pos' e' := by
  induction e using Expr.rec (motive_2 := fun _ => True) generalizing pos with
  | nil | cons => trivial
  | member l b n _ => rw [lower_member] at h; exact ⟨_, _, List.mem_singleton.mp h⟩
  | options l f ps ih _ =>
    cases pos with
    | plain => simp [lowerExpr, Node.kids] at h
    | _ => rw [lowerExpr] at h; exact ih h; simp
  | call l f args _ _ =>
    cases pos with
    | peeled => simp [lowerExpr, Node.kids] at h
    | _ =>
      simp only [lowerExpr, lowerExprs_eq, Node.kids, List.mem_cons, List.mem_map] at h
      rcases h with h | ⟨y, _, h⟩
      · exact ⟨_, _, h⟩
      · exact ⟨_, _, h.symm⟩
  | _ => cases pos <;> simp [lowerExpr, Node.kids] at h

theorem expr_sub {c : Ctx} {m n : Node} (h : Sub m n) : ∀ {pos e}, m = lowerExpr c pos e → ∃ pos' e', n = lowerExpr c pos' e' := by
  induction h with
  | refl => exact fun h => ⟨_, _, h⟩
  | step hk _ ih =>
    intro pos e he
    subst he
    obtain ⟨pos', e', h⟩ := lower_kids hk
    exact ih h

/-- There are no statements and no tests in an expression. -/
theorem expr_noStmt {c : Ctx} {pos e n s} (h : Sub (lowerExpr c pos e) n) : ¬ IsStmt n s := by
  obtain ⟨pos', e', rfl⟩ := expr_sub h rfl
  rcases lower_kind c pos' e' with ⟨_, _, h'⟩ | ⟨_, _, _, h'⟩ | ⟨_, _, _, _, h'⟩ <;> rw [h'] <;>
    rintro (⟨_, h⟩ | ⟨_, h⟩) <;> cases h

theorem expr_noTest {c : Ctx} {pos e t l cs} : ¬ Sub (lowerExpr c pos e) (.test t l cs) := by
  intro h
  obtain ⟨pos', e', h⟩ := expr_sub h rfl
  rcases lower_kind c pos' e' with ⟨_, _, h'⟩ | ⟨_, _, _, h'⟩ | ⟨_, _, _, _, h'⟩ <;> rw [h'] at h <;> cases h

section
variable {c : Ctx} {cfg : VCfg} (hf : cfg.fields = false)
include hf

theorem held_peeled {e : Expr} {n} (h : Held cfg (lowerExpr c .peeled e) n) : ¬ Visit.IsCall n := by
  rw [lower_peeled] at h
  have hp := peel_ne e
  cases hpe : peel e with
  | options l f ps => exact absurd hpe (hp l f ps)
  | member l b n' =>
    rw [hpe, lower_member] at h
    cases h with
    | refl => rintro (⟨_, _, _, _, h⟩ | ⟨_, _, _, h⟩) <;> cases h
    | step _ he _ =>
      rcases he with he | he
      · rw [hf] at he; cases he
      · exact absurd rfl (he _ _ _).1
  | _ =>
    rw [hpe] at h
    simp only [lowerExpr] at h
    cases h with
    | refl => rintro (⟨_, _, _, _, h⟩ | ⟨_, _, _, h⟩) <;> cases h
    | step hk _ _ => cases hk

/-- A call in an expression is reached through calls. -/
theorem held_expr {m n : Node} (h : Held cfg m n) (hn : Visit.IsCall n) : ∀ {e}, m = lowerExpr c .plain e →
    ∃ x, Evaluated e x ∧ n = lowerExpr c .plain x := by
  induction h with
  | refl => exact fun h => ⟨_, .refl _, h⟩
  | @step m k n hk he hh ih =>
    intro e hm
    subst hm
    cases e with
    | call l f args =>
      rw [lower_call, lowerExprs_eq] at hk
      simp only [Node.kids, List.mem_cons, List.mem_map] at hk
      rcases hk with rfl | ⟨a, ha, rfl⟩
      · rcases lower_callee c f with ⟨_, h2⟩ | ⟨_, h2⟩
        · obtain ⟨x, h3, h4⟩ := ih hn h2
          exact ⟨x, .callee h3, h4⟩
        · rw [h2] at hh
          exact absurd hn (held_peeled hf hh)
      · obtain ⟨x, h3, h4⟩ := ih hn rfl
        exact ⟨x, .arg ha h3, h4⟩
    | member l b n' =>
      rw [lower_member] at he
      rcases he with he | he
      · rw [hf] at he; cases he
      · exact absurd rfl (he _ _ _).1
    | _ => simp [lowerExpr, Node.kids] at hk

end

/-! ## Calls -/

theorem Selects.path {c : Ctx} {x base : Expr} {p} (h : Selects x base p) :
    Path (lowerExpr c .plain x) (lowerExpr c .plain base) p := by
  induction h with
  | base h =>
    refine .base fun i n b hb => ?_
    obtain ⟨l, o, m, h1, _⟩ := lower_field hb
    rw [if_pos rfl] at h1
    exact h l o m h1
  | member _ ih => rw [lower_member]; exact .field ih

theorem path_selects {c : Ctx} {n b : Node} {p} (h : Path n b p) : ∀ {x}, n = lowerExpr c .plain x →
    ∃ base, b = lowerExpr c .plain base ∧ Selects x base p := by
  induction h with
  | base hb =>
    intro x hx
    subst hx
    refine ⟨x, rfl, .base ?_⟩
    rintro l o n rfl
    rw [lower_member] at hb
    exact hb _ _ _ rfl
  | field _ ih =>
    intro x hx
    obtain ⟨l, o, m, h1, h2, h3⟩ := lower_field hx.symm
    rw [if_pos rfl] at h1
    cases h2
    subst h1
    obtain ⟨base, h4, h5⟩ := ih h3
    exact ⟨base, h4, .member h5⟩

theorem lower_callee_member {c : Ctx} {f : Expr} {l o n} (h : peel f = .member l o n) :
    lowerExpr c .callee f = .field ⟨toSpan c l, none⟩ (some n) (lowerExpr c .plain o) := by
  rcases lower_callee c f with ⟨h1, h2⟩ | ⟨_, h2⟩
  · rw [peel_eq h1] at h; rw [h, lower_member]
  · rw [h2, h, lower_member]

theorem Method.low {c : Ctx} {e base : Expr} {p} (h : Method e base p) :
    MethodCall (lowerExpr c .plain e) (lowerExpr c .plain base) p := by
  obtain ⟨hp, l, f, args, g, rfl, h1, h2⟩ := h
  refine ⟨hp, _, _, _, _, lower_call c l f args, ?_⟩
  cases h2 with
  | base _ => exact absurd rfl hp
  | member h2 =>
    rw [lower_callee_member (h1.peel (by intros; simp))]
    exact .field h2.path

theorem method_low {c : Ctx} {e : Expr} {b p} (h : MethodCall (lowerExpr c .plain e) b p) :
    ∃ base, b = lowerExpr c .plain base ∧ Method e base p := by
  obtain ⟨hp, i, cn, f, as, h1, h2⟩ := h
  obtain ⟨l, g, args, rfl, _, _, rfl, _⟩ := lower_isCall h1
  generalize hn : lowerExpr c .callee g = n at h2
  cases h2 with
  | base _ => exact absurd rfl hp
  | field h2 =>
    obtain ⟨l', o, m, h3, h4, rfl⟩ := lower_field hn
    rw [if_neg (by simp)] at h3
    cases h4
    obtain ⟨base, h5, h6⟩ := path_selects h2 rfl
    exact ⟨base, h5, hp, l, g, args, _, rfl, peels_peel g, by rw [h3]; exact .member h6⟩

theorem callName_iff {f : Expr} {n} : callName f = some n ↔ ∃ l, f = .var l n := by
  cases f <;> simp [callName]

theorem IgnoredFunction.low {c : Ctx} {config} {e : Expr} (h : IgnoredFunction config e) :
    ∃ x, Innermost (lowerExpr c .plain e) x ∧ Visit.IgnoredFunction config x := by
  induction h with
  | @function l l' name args hi =>
    refine ⟨_, .here (isCall_lower.mpr ⟨_, _, _, rfl⟩) ?_, ?_⟩
    · intro base p hm _
      obtain ⟨b, _, hp, _, f, _, g, h1, h2, h3⟩ := method_low hm
      cases h1
      cases h2
      cases h3
      exact hp rfl
    · rw [lower_call]
      exact .function (by intros; simp [lowerExpr]) hi
  | @path e l name p hm hi =>
    have h1 := hm.low (c := c)
    have hnc : ¬ Visit.IsCall (lowerExpr c .plain (.var l name)) := by
      rw [isCall_lower]; rintro ⟨_, _, _, h⟩; cases h
    obtain ⟨_, l', f, args, _, rfl, _⟩ := id hm
    refine ⟨_, .here (isCall_lower.mpr ⟨_, _, _, rfl⟩) fun base' p' h' => ?_, .path h1 hnc (lower_name.mpr ⟨l, rfl⟩) hi⟩
    rw [(h1.unique h').1] at hnc; exact hnc
  | @chain e base p hm hi ih =>
    obtain ⟨x, h3, h4⟩ := ih
    have hc : Visit.IsCall (lowerExpr c .plain base) := by
      cases h3 with
      | here h _ => exact h
      | there h _ _ => obtain ⟨_, _, _, _, _, h, _⟩ := h; exact Or.inl ⟨_, _, _, _, h⟩
    exact ⟨x, .there hm.low hc h3, h4⟩

theorem ignoredFunction_low {c : Ctx} {config n x} (h : Innermost n x) (hi : Visit.IgnoredFunction config x) :
    ∀ {e}, n = lowerExpr c .plain e → IgnoredFunction config e := by
  induction h with
  | here hc hno =>
    intro e hn
    subst hn
    generalize hn : lowerExpr c .plain e = n at hi hno hc
    cases hi with
    | @function i name callee args hnf hi =>
      obtain ⟨l, g, as, rfl, _, h1, _, _⟩ := lower_isCall hn
      obtain ⟨l', rfl⟩ := callName_iff.mp h1.symm
      exact .function hi
    | macro_ _ =>
      rcases lower_kind c .plain e with ⟨_, _, h'⟩ | ⟨_, _, _, h'⟩ | ⟨_, _, _, _, h'⟩ <;> rw [h'] at hn <;> cases hn
    | @path _ base p name hm hb hname hi =>
      subst hn
      obtain ⟨base', rfl, h2⟩ := method_low hm
      obtain ⟨l, h3⟩ := lower_name.mp hname
      rw [if_pos rfl] at h3
      subst h3
      exact .path h2 hi
  | there hm _ _ ih =>
    intro e hn
    subst hn
    obtain ⟨base', hb, h2⟩ := method_low hm
    exact .chain h2 (ih hi hb)

/-- Ignored calls are the ignored calls. -/
theorem ignored_iff {c : Ctx} {config} {e : Expr} : Visit.IgnoredCall config (lowerExpr c .plain e) ↔ Ignored config e := by
  constructor
  · rintro (⟨x, h1, h2⟩ | ⟨base, p, h1, h2, h3⟩)
    · exact Or.inl (ignoredFunction_low h1 h2 rfl)
    · obtain ⟨base', rfl, a2⟩ := method_low h1
      refine Or.inr ⟨base', p, a2, ?_, h2⟩
      rintro ⟨l, f, as, rfl⟩
      exact h3 _ _ _ _ (lower_call c l f as)
  · rintro (h | ⟨base, p, h1, h2, h3⟩)
    · exact Or.inl h.low
    · refine Or.inr ⟨_, p, h1.low, h3, fun i cn callee args h => ?_⟩
      obtain ⟨l, g, as, rfl, _⟩ := lower_isCall h
      exact h2 ⟨l, g, as, rfl⟩

theorem hidden_iff {c : Ctx} {config} {e : Expr} : Hidden config e ↔
    config.visitIgnoredArguments = false ∧ Visit.Ignored config (lowerExpr c .plain e) := by
  unfold Hidden Visit.Ignored
  rw [ignored_iff]
  refine and_congr_right fun _ => or_congr_right ?_
  constructor
  · rintro ⟨base, p, h, hi⟩; exact ⟨_, p, h.low, hi⟩
  · rintro ⟨b, p, h, hi⟩
    obtain ⟨base, _, h⟩ := method_low h
    exact ⟨base, p, h, hi⟩

/-- The function that is called. -/
theorem callOf_iff {c : Ctx} {l f args name} :
    (lowerExpr c .callee f).info.name = some name ↔ CallOf (.call l f args) name := by
  rw [lower_name, if_neg (by simp)]
  constructor
  · rintro ⟨l', h⟩; exact ⟨l, f, args, l', rfl, h ▸ peels_peel f⟩
  · rintro ⟨_, _, _, l', h1, h2⟩; cases h1; exact ⟨l', h2.peel (by intros; simp)⟩

theorem clear_evaluated {config e x} (h : Clear config e x) : Evaluated e x := by
  induction h with
  | refl => exact .refl _
  | callee _ ih => exact .callee ih
  | arg _ ha _ ih => exact .arg ha ih

/-- Calls that are not within hidden arguments are seen. -/
theorem clear_seen {c : Ctx} {cfg : VCfg} (hrc : cfg.receiver = true) {e x} (h : Clear cfg.config e x) (hx : IsCall x) :
    Seen cfg (lowerExpr c .plain e) (lowerExpr c .plain x) := by
  induction h with
  | refl => exact .refl _
  | @callee l f args x hcl ih =>
    have hno : ∀ l' g ps, f ≠ .options l' g ps := by
      rintro l' g ps rfl
      cases hcl
      obtain ⟨_, _, _, h⟩ := hx
      cases h
    have hfe : lowerExpr c .callee f = lowerExpr c .plain f := by
      rcases lower_callee c f with ⟨_, h⟩ | ⟨⟨_, _, _, h⟩, _⟩
      · exact h
      · exact absurd h (hno _ _ _)
    rw [lower_call]
    refine .step (m := lowerExpr c .plain f) ⟨by simp [Node.kids, hfe], Or.inr (Or.inr ⟨hrc, hfe.symm⟩)⟩ (ih hx)
  | @arg l f args a x hh ha hcl ih =>
    rw [hidden_iff (c := c)] at hh
    rw [lower_call] at hh ⊢
    refine .step (m := lowerExpr c .plain a) ⟨?_, ?_⟩ (ih hx)
    · simp only [Node.kids, lowerExprs_eq]
      exact List.mem_cons_of_mem _ (List.mem_map.mpr ⟨a, ha, rfl⟩)
    · cases hv : cfg.config.visitIgnoredArguments with
      | true => exact Or.inr (Or.inl rfl)
      | false => exact Or.inl fun hi => hh ⟨hv, hi⟩

/-! ## Statements -/

theorem isPrefixCheatcode_iff (s : Stmt) : isPrefixCheatcode s = true ↔ UsesCheatcode s := by
  unfold isPrefixCheatcode
  split
  · rename_i l l1 l2 l3 v method args
    simp only [Bool.and_eq_true, Bool.or_eq_true, beq_iff_eq, List.isPrefixOf_iff_prefix]
    constructor
    · rintro ⟨rfl, h⟩; exact ⟨_, _, _, _, _, _, rfl, h⟩
    · rintro ⟨_, _, _, _, _, _, h, h'⟩; cases h; exact ⟨rfl, h'⟩
  · rename_i h
    simp only [Bool.false_eq_true, false_iff]
    rintro ⟨_, _, _, _, _, _, h', _⟩
    exact h _ _ _ _ _ _ _ h'

theorem any_cheatcode {prev : Option Stmt} : prev.any isPrefixCheatcode = true ↔ ∃ a, prev = some a ∧ UsesCheatcode a := by
  cases prev <;> simp [isPrefixCheatcode_iff]

theorem Exposed.trans {x y z} (h : Exposed x y) (h' : Exposed y z) : Exposed x z := by
  induction h with
  | refl => exact h'
  | part h1 _ ih => exact .part h1 (ih h')
  | block h1 _ ih => exact .block h1 (ih h')

/-- Where a node in a statement comes from: it replaces a statement after a cheatcode, or is a statement, or is in an expression. -/
def From (c : Ctx) (cfg : VCfg) (b : Stmt) (n : Node) : Prop :=
  (n = fauxNode c ∧ ∃ s, Exposed b s ∧ UsesCheatcode s) ∨ (∃ x, Exposed b x ∧ ¬ x.IsBlock ∧ lowerStmt c x = [n]) ∨
  ∃ s e, Exposed b s ∧ s.HasExpr e ∧ Held cfg (lowerExpr c .plain e) n

theorem From.up {c cfg b s n} (h : From c cfg s n) (hs : ∀ y, Exposed s y → Exposed b y) : From c cfg b n := by
  rcases h with ⟨rfl, x, h1, h2⟩ | ⟨x, h1, h2⟩ | ⟨x, e, h1, h2⟩
  · exact Or.inl ⟨rfl, x, hs _ h1, h2⟩
  · exact Or.inr (Or.inl ⟨x, hs _ h1, h2⟩)
  · exact Or.inr (Or.inr ⟨x, e, hs _ h1, h2⟩)

section
variable (c : Ctx) (cfg : VCfg)

mutual
theorem low_stmt : (b : Stmt) → ∀ m ∈ lowerStmt c b, ∀ n, Held cfg m n → From c cfg b n
  | .block l ss, m, hm, n, hn => by
    rw [lowerStmt] at hm
    rcases low_block none ss m hm n hn with ⟨rfl, ⟨_, h, _⟩ | ⟨before, s, after, h1, h2, h3⟩⟩ | ⟨before, s, after, h1, h2, h3⟩
    · cases h
    · refine Or.inl ⟨rfl, s, ?_, h3⟩
      rw [h1]
      exact .block (fun a ha => h2 a (by simp [ha])) (.refl _)
    · refine h3.up fun y hy => ?_
      rw [h1]
      exact .block (fun a ha => h2 a (by simp [ha])) hy
  | .expr l e, m, hm, n, hn => by
    simp only [lowerStmt, List.mem_singleton] at hm
    subst hm
    cases hn with
    | refl => exact Or.inr (Or.inl ⟨_, .refl _, (by rintro ⟨_, _, h⟩; cases h), by rw [lowerStmt]⟩)
    | step h _ hs =>
      simp [Node.kids] at h
      subst h
      exact Or.inr (Or.inr ⟨_, e, .refl _, rfl, hs⟩)
  | .control l es, m, hm, n, hn => by
    simp only [lowerStmt, List.mem_singleton] at hm
    subst hm
    cases hn with
    | refl => exact Or.inr (Or.inl ⟨_, .refl _, (by rintro ⟨_, _, h⟩; cases h), by rw [lowerStmt]⟩)
    | step h _ hs =>
      simp only [Node.kids, lowerExprs_eq] at h
      obtain ⟨e, he, rfl⟩ := List.mem_map.mp h
      exact Or.inr (Or.inr ⟨_, e, .refl _, he, hs⟩)
  | .varDef l es, m, hm, n, hn => by
    simp only [lowerStmt, List.mem_singleton] at hm
    subst hm
    cases hn with
    | refl => exact Or.inr (Or.inl ⟨_, .refl _, (by rintro ⟨_, _, h⟩; cases h), by rw [lowerStmt]⟩)
    | step h _ hs =>
      simp only [Node.kids, lowerExprs_eq] at h
      obtain ⟨e, he, rfl⟩ := List.mem_map.mp h
      exact Or.inr (Or.inr ⟨_, e, .refl _, he, hs⟩)
  | .compound l ps, m, hm, n, hn => by
    simp only [lowerStmt, List.mem_singleton] at hm
    subst hm
    cases hn with
    | refl => exact Or.inr (Or.inl ⟨_, .refl _, (by rintro ⟨_, _, h⟩; cases h), by rw [lowerStmt]⟩)
    | step h _ hs =>
      simp only [Node.kids] at h
      rcases low_parts ps _ h n hs with ⟨e, he, h1⟩ | ⟨s, h1, h2⟩
      · exact Or.inr (Or.inr ⟨_, e, .refl _, he, h1⟩)
      · exact h2.up fun y hy => .part h1 hy
theorem low_part : (p : Part) → ∀ m ∈ lowerPart c p, ∀ n, Held cfg m n →
    (∃ e, p = .expr e ∧ Held cfg (lowerExpr c .plain e) n) ∨ ∃ s, p = .stmt s ∧ From c cfg s n
  | .expr e, m, hm, n, hn => by
    simp only [lowerPart, List.mem_singleton] at hm
    subst hm
    exact Or.inl ⟨e, rfl, hn⟩
  | .stmt s, m, hm, n, hn => by
    rw [lowerPart] at hm
    exact Or.inr ⟨s, rfl, low_stmt s m hm n hn⟩
theorem low_parts : (ps : List Part) → ∀ m ∈ lowerParts c ps, ∀ n, Held cfg m n →
    (∃ e, .expr e ∈ ps ∧ Held cfg (lowerExpr c .plain e) n) ∨ ∃ s, .stmt s ∈ ps ∧ From c cfg s n
  | [], m, hm, n, hn => by simp [lowerParts] at hm
  | p :: ps, m, hm, n, hn => by
    rw [lowerParts, List.mem_append] at hm
    rcases hm with hm | hm
    · rcases low_part p m hm n hn with ⟨e, rfl, h⟩ | ⟨s, rfl, h⟩
      · exact Or.inl ⟨e, by simp, h⟩
      · exact Or.inr ⟨s, by simp, h⟩
    · rcases low_parts ps m hm n hn with ⟨e, he, h⟩ | ⟨s, he, h⟩
      · exact Or.inl ⟨e, by simp [he], h⟩
      · exact Or.inr ⟨s, by simp [he], h⟩
theorem low_block : (prev : Option Stmt) → (xs : List Stmt) → ∀ m ∈ lowerBlock c prev xs, ∀ n, Held cfg m n →
    (n = fauxNode c ∧ ((∃ a, prev = some a ∧ UsesCheatcode a) ∨ ∃ before s after, xs = before ++ s :: after ∧
      (∀ a, (prev.toList ++ before).getLast? = some a → ¬ UsesCheatcode a) ∧ UsesCheatcode s)) ∨
    ∃ before s after, xs = before ++ s :: after ∧
      (∀ a, (prev.toList ++ before).getLast? = some a → ¬ UsesCheatcode a) ∧ From c cfg s n
  | prev, [], m, hm, n, hn => by simp [lowerBlock] at hm
  | prev, x :: xs, m, hm, n, hn => by
    rw [lowerBlock, List.mem_append] at hm
    by_cases hp : prev.any isPrefixCheatcode = true
    · obtain ⟨a, rfl, ha⟩ := any_cheatcode.mp hp
      rw [if_pos hp] at hm
      rcases hm with hm | hm
      · simp only [List.mem_singleton] at hm
        subst hm
        cases hn with
        | refl => exact Or.inl ⟨rfl, Or.inl ⟨a, rfl, ha⟩⟩
        | step h _ _ => simp [fauxNode, Node.kids] at h
      · rcases low_block (some x) xs m hm n hn with ⟨rfl, _⟩ | ⟨before, s, after, h1, h2, h⟩
        · exact Or.inl ⟨rfl, Or.inl ⟨a, rfl, ha⟩⟩
        · refine Or.inr ⟨x :: before, s, after, by simp [h1], ?_, h⟩
          intro b hb
          exact h2 b (by simpa using hb)
    · have hnp : ∀ a, prev = some a → ¬ UsesCheatcode a := fun a ha hu => hp (any_cheatcode.mpr ⟨a, ha, hu⟩)
      have hhere : ∀ a, (prev.toList ++ []).getLast? = some a → ¬ UsesCheatcode a := by
        intro a ha
        cases prev with
        | none => simp at ha
        | some p => simp at ha; exact hnp a (by rw [ha])
      rw [if_neg hp] at hm
      rcases hm with hm | hm
      · exact Or.inr ⟨[], x, xs, rfl, hhere, low_stmt x m hm n hn⟩
      · have hshift : ∀ before : List Stmt, (∀ a, ((some x).toList ++ before).getLast? = some a → ¬ UsesCheatcode a) →
            ∀ a, (prev.toList ++ x :: before).getLast? = some a → ¬ UsesCheatcode a := by
          intro before h a ha
          refine h a ?_
          rw [← ha]
          cases prev <;> simp
        rcases low_block (some x) xs m hm n hn with ⟨rfl, ⟨_, h1, h2⟩ | ⟨before, s, after, h1, h2, h⟩⟩ | ⟨before, s, after, h1, h2, h⟩
        · cases h1
          exact Or.inl ⟨rfl, Or.inr ⟨[], x, xs, rfl, hhere, h2⟩⟩
        · exact Or.inl ⟨rfl, Or.inr ⟨x :: before, s, after, by simp [h1], hshift before h2, h⟩⟩
        · exact Or.inr ⟨x :: before, s, after, by simp [h1], hshift before h2, h⟩
end

end

/-- A statement that is not a block is one node. -/
theorem low_node (c : Ctx) {x : Stmt} (h : ¬ x.IsBlock) :
    ∃ n, lowerStmt c x = [n] ∧ IsStmt n (info c x) ∧ (∀ l e, x = .expr l e → n = .exprStmt (info c x) (lowerExpr c .plain e)) ∧
      ((∀ l e, x ≠ .expr l e) → ∃ cs, n = .stmt (info c x) cs) := by
  cases x with
  | block l ss => exact absurd ⟨l, ss, rfl⟩ h
  | expr l e =>
    exact ⟨_, by rw [lowerStmt], Or.inr ⟨_, rfl⟩, (by intro _ _ h; cases h; rfl), fun h => absurd rfl (h _ _)⟩
  | control l es => exact ⟨_, by rw [lowerStmt], Or.inl ⟨_, rfl⟩, (by intro _ _ h; cases h), fun _ => ⟨_, rfl⟩⟩
  | varDef l es => exact ⟨_, by rw [lowerStmt], Or.inl ⟨_, rfl⟩, (by intro _ _ h; cases h), fun _ => ⟨_, rfl⟩⟩
  | compound l es => exact ⟨_, by rw [lowerStmt], Or.inl ⟨_, rfl⟩, (by intro _ _ h; cases h), fun _ => ⟨_, rfl⟩⟩

theorem lowerBlock_mem (c : Ctx) {s : Stmt} {m} (hm : m ∈ lowerStmt c s) (after : List Stmt) : ∀ (before : List Stmt) (prev : Option Stmt),
    (∀ a, (prev.toList ++ before).getLast? = some a → ¬ UsesCheatcode a) → m ∈ lowerBlock c prev (before ++ s :: after)
  | [], prev, h => by
    rw [List.nil_append, lowerBlock, if_neg]
    · exact List.mem_append_left _ hm
    · intro hp
      obtain ⟨a, rfl, ha⟩ := any_cheatcode.mp hp
      exact h a (by simp) ha
  | b :: before, prev, h => by
    rw [List.cons_append, lowerBlock]
    refine List.mem_append_right _ (lowerBlock_mem c hm after before (some b) fun a ha => h a ?_)
    rw [← ha]
    cases prev <;> simp

theorem lowerParts_mem (c : Ctx) {ps : List Part} {p m} (hp : p ∈ ps) (hm : m ∈ lowerPart c p) : m ∈ lowerParts c ps := by
  induction ps with
  | nil => cases hp
  | cons q ps ih =>
    rw [lowerParts, List.mem_append]
    rcases List.mem_cons.mp hp with rfl | hp
    · exact Or.inl hm
    · exact Or.inr (ih hp)

/-- Exposed statements are seen. -/
theorem exposed_seen {c : Ctx} {cfg : VCfg} {b x n} (h : Exposed b x) (hn : ∃ k ∈ lowerStmt c x, Seen cfg k n) :
    ∃ m ∈ lowerStmt c b, Seen cfg m n := by
  induction h with
  | refl => exact hn
  | @part l ps s y hp _ ih =>
    obtain ⟨m, hm, hs⟩ := ih hn
    refine ⟨_, by rw [lowerStmt]; exact List.mem_singleton.mpr rfl, .step (m := m) ⟨?_, trivial⟩ hs⟩
    exact lowerParts_mem c hp (by rw [lowerPart]; exact hm)
  | block hb _ ih =>
    obtain ⟨m, hm, hs⟩ := ih hn
    refine ⟨m, ?_, hs⟩
    rw [lowerStmt]
    exact lowerBlock_mem c hm _ _ none (by simpa using hb)

/-- … and the expressions in them. -/
theorem hasExpr_seen {c : Ctx} {cfg : VCfg} {s e} (h : s.HasExpr e) : ∃ k ∈ lowerStmt c s, Seen cfg k (lowerExpr c .plain e) := by
  cases s with
  | block l ss => exact h.elim
  | expr l e' =>
    cases h
    exact ⟨_, by rw [lowerStmt]; exact List.mem_singleton.mpr rfl, .step (m := lowerExpr c .plain e) ⟨by simp [Node.kids], trivial⟩ (.refl _)⟩
  | control l es =>
    refine ⟨_, by rw [lowerStmt]; exact List.mem_singleton.mpr rfl, .step (m := lowerExpr c .plain e) ⟨?_, trivial⟩ (.refl _)⟩
    simp only [Node.kids, lowerExprs_eq]
    exact List.mem_map.mpr ⟨e, h, rfl⟩
  | varDef l es =>
    refine ⟨_, by rw [lowerStmt]; exact List.mem_singleton.mpr rfl, .step (m := lowerExpr c .plain e) ⟨?_, trivial⟩ (.refl _)⟩
    simp only [Node.kids, lowerExprs_eq]
    exact List.mem_map.mpr ⟨e, h, rfl⟩
  | compound l ps =>
    refine ⟨_, by rw [lowerStmt]; exact List.mem_singleton.mpr rfl, .step (m := lowerExpr c .plain e) ⟨?_, trivial⟩ (.refl _)⟩
    exact lowerParts_mem c h (by rw [lowerPart]; exact List.mem_singleton.mpr rfl)

theorem isControl_iff {s : Stmt} : isControl s = false ↔ ¬ s.IsControl := by
  cases s <;> simp [isControl, Stmt.IsControl]

theorem isDeclaration_iff {s : Stmt} : isDeclaration s = false ↔ ¬ s.IsDeclaration := by
  have key : isDeclaration s = true ↔ s.IsDeclaration := by
    unfold isDeclaration
    split
    · simp [Stmt.IsDeclaration]
    · rename_i l e
      unfold declares
      split
      · rename_i l1 l2 names rhs
        simp only [List.any_eq_true, Option.isSome_iff_exists]
        constructor
        · rintro ⟨_, h, x, rfl⟩; exact Or.inr ⟨_, _, _, _, x, _, rfl, h⟩
        · rintro (⟨_, _, h⟩ | ⟨_, _, _, _, x, _, h, hx⟩)
          · cases h
          · cases h; exact ⟨_, hx, x, rfl⟩
      · rename_i hno
        simp only [Bool.false_eq_true, false_iff]
        rintro (⟨_, _, h⟩ | ⟨_, _, _, _, x, _, h, hx⟩)
        · cases h
        · cases h; exact hno _ _ _ _ rfl
    · rename_i h1 h2
      simp only [Bool.false_eq_true, false_iff]
      rintro (⟨_, _, rfl⟩ | ⟨_, _, _, _, x, _, rfl, hx⟩)
      · exact h1 _ _ rfl
      · exact h2 _ _ rfl
  rw [← key]; simp

/-- Statements are the statements, or replace one. -/
theorem from_stmt {c cfg b n s} (h : From c cfg b n) (hs : IsStmt n s) :
    (n = fauxNode c ∧ s = fauxInfo c ∧ ∃ s, Exposed b s ∧ UsesCheatcode s) ∨
    ∃ x, Exposed b x ∧ ¬ x.IsBlock ∧ lowerStmt c x = [n] ∧ s = info c x := by
  rcases h with ⟨rfl, x, h1, h2⟩ | ⟨x, h1, h2, h3⟩ | ⟨x, e, h1, h2, h3⟩
  · refine Or.inl ⟨rfl, ?_, x, h1, h2⟩
    rcases hs with ⟨_, h⟩ | ⟨_, h⟩ <;> cases h
    rfl
  · refine Or.inr ⟨x, h1, h2, h3, ?_⟩
    obtain ⟨n', h4, h5, _⟩ := low_node c h2
    rw [h3] at h4
    cases h4
    rcases hs with ⟨_, rfl⟩ | ⟨_, rfl⟩ <;> rcases h5 with ⟨_, h⟩ | ⟨_, h⟩ <;> cases h <;> rfl
  · exact absurd hs (expr_noStmt h3.sub)

theorem from_noTest {c cfg b t l cs} : ¬ From c cfg b (.test t l cs) := by
  rintro (⟨h, _⟩ | ⟨x, h1, h2, h3⟩ | ⟨x, e, h1, h2, h3⟩)
  · cases h
  · obtain ⟨n, h4, h5, _⟩ := low_node c h2
    rw [h3] at h4
    cases h4
    rcases h5 with ⟨_, h⟩ | ⟨_, h⟩ <;> cases h
  · exact expr_noTest h3.sub

/-- Calls are in expressions. -/
theorem from_call {c cfg b n} (hf : cfg.fields = false) (h : From c cfg b n) (hn : Visit.IsCall n) :
    ∃ s e x, Exposed b s ∧ s.HasExpr e ∧ Evaluated e x ∧ n = lowerExpr c .plain x := by
  rcases h with ⟨rfl, _⟩ | ⟨x, h1, h2, h3⟩ | ⟨x, e, h1, h2, h3⟩
  · rcases hn with ⟨_, _, _, _, h⟩ | ⟨_, _, _, h⟩ <;> cases h
  · obtain ⟨n', h4, h5, _⟩ := low_node c h2
    rw [h3] at h4
    cases h4
    rcases h5 with ⟨_, rfl⟩ | ⟨_, rfl⟩ <;> rcases hn with ⟨_, _, _, _, h⟩ | ⟨_, _, _, h⟩ <;> cases h
  · obtain ⟨y, h4, h5⟩ := held_expr hf h3 hn rfl
    exact ⟨x, e, y, h1, h2, h4, h5⟩

/-! ## Functions -/

/-- Where a node in a function comes from. -/
theorem low_fn {c : Ctx} {cfg : VCfg} {f : Fn} {m n} (hm : m ∈ lowerFn c f) (hn : Held cfg m n) :
    (∃ e ∈ f.head, Held cfg (lowerExpr c .plain e) n) ∨ ∃ b, f.body = some b ∧ From c cfg b n := by
  rw [lowerFn, List.mem_append] at hm
  rcases hm with hm | hm
  · rw [lowerExprs_eq] at hm
    obtain ⟨e, he, rfl⟩ := List.mem_map.mp hm
    exact Or.inl ⟨e, he, hn⟩
  · cases hb : f.body with
    | none => rw [hb] at hm; cases hm
    | some b => rw [hb] at hm; exact Or.inr ⟨b, rfl, low_stmt c cfg b m hm n hn⟩

theorem fn_noTest {c : Ctx} {f : Fn} {m t l cs} (hm : m ∈ lowerFn c f) : ¬ Sub m (.test t l cs) := by
  intro h
  have hh : Held (⟨⟨[], [], [], .none_, [], false, []⟩, fun _ => false, [], id, true, true⟩ : VCfg) m (.test t l cs) := h.held rfl
  rcases low_fn hm hh with ⟨e, _, h⟩ | ⟨b, _, h⟩
  · exact expr_noTest h.sub
  · exact from_noTest h

theorem fn_stmt {c : Ctx} {cfg : VCfg} {f : Fn} {m n s} (hm : m ∈ lowerFn c f) (hn : Held cfg m n) (hs : IsStmt n s) :
    (n = fauxNode c ∧ s = fauxInfo c) ∨ ∃ x, HasStmt f x ∧ ¬ x.IsBlock ∧ lowerStmt c x = [n] ∧ s = info c x := by
  rcases low_fn hm hn with ⟨e, _, h⟩ | ⟨b, hb, h⟩
  · exact absurd hs (expr_noStmt h.sub)
  · rcases from_stmt h hs with ⟨h1, h2, _⟩ | ⟨x, h1, h2⟩
    · exact Or.inl ⟨h1, h2⟩
    · exact Or.inr ⟨x, ⟨b, hb, h1⟩, h2⟩

theorem fn_call {c : Ctx} {cfg : VCfg} (hf : cfg.fields = false) {f : Fn} {m n} (hm : m ∈ lowerFn c f) (hn : Held cfg m n)
    (hc : Visit.IsCall n) : ∃ e x, HasExpr f e ∧ Evaluated e x ∧ n = lowerExpr c .plain x := by
  rcases low_fn hm hn with ⟨e, he, h⟩ | ⟨b, hb, h⟩
  · obtain ⟨x, h1, h2⟩ := held_expr hf h hc rfl
    exact ⟨e, x, Or.inl he, h1, h2⟩
  · obtain ⟨s, e, x, h1, h2, h3, h4⟩ := from_call hf h hc
    exact ⟨e, x, Or.inr ⟨s, ⟨b, hb, h1⟩, h2⟩, h3, h4⟩

theorem stmt_seen {c : Ctx} {cfg : VCfg} {f : Fn} {x n} (h : HasStmt f x) (hn : ∃ k ∈ lowerStmt c x, Seen cfg k n) :
    ∃ m ∈ lowerFn c f, Seen cfg m n := by
  obtain ⟨b, hb, h⟩ := h
  obtain ⟨m, hm, hs⟩ := exposed_seen h hn
  exact ⟨m, by rw [lowerFn, hb]; exact List.mem_append_right _ hm, hs⟩

theorem expr_seen {c : Ctx} {cfg : VCfg} {f : Fn} {e} (h : HasExpr f e) : ∃ m ∈ lowerFn c f, Seen cfg m (lowerExpr c .plain e) := by
  rcases h with h | ⟨s, h1, h2⟩
  · refine ⟨_, ?_, .refl _⟩
    rw [lowerFn, lowerExprs_eq]
    exact List.mem_append_left _ (List.mem_map.mpr ⟨e, h, rfl⟩)
  · exact stmt_seen h1 (hasExpr_seen h2)

theorem testOf_iff {f : Fn} {t ss} : testOf f = some (t, ss) ↔ IsTest f t ∧ ∃ l, f.body = some (.block l ss) := by
  unfold testOf IsTest
  split
  · rename_i name l ss' h1 h2
    rw [h1, h2]
    simp only [List.isPrefixOf_iff_prefix, Bool.and_eq_true, Bool.not_eq_true', Option.ite_none_right_eq_some,
      Option.some.injEq, Prod.mk.injEq]
    constructor
    · rintro ⟨⟨h3, h4⟩, rfl, rfl⟩; exact ⟨⟨rfl, h3, h4, _, rfl, _, _, rfl⟩, _, rfl⟩
    · rintro ⟨⟨rfl, h3, h4, _⟩, _, h5⟩; cases h5; exact ⟨⟨h3, h4⟩, rfl, rfl⟩
  · rename_i h
    simp only [reduceCtorEq, false_iff]
    rintro ⟨⟨h1, _, _, _⟩, l, h2⟩
    exact h _ _ _ h1 h2

/-- The key of the last statement, unless that is after a use of a cheatcode. -/
theorem lastKey_eq (c : Ctx) : ∀ (ss : List Stmt) (x : Stmt), (∀ p, ss.getLast? = some p → ¬ UsesCheatcode p) →
    lastKey c (ss ++ [x]) = some (c.key x)
  | [], x, _ => rfl
  | [p], x, h => by
    have : isPrefixCheatcode p = false := by
      cases hp : isPrefixCheatcode p with
      | false => rfl
      | true => exact absurd ((isPrefixCheatcode_iff p).1 hp) (h p rfl)
    simp only [List.cons_append, List.nil_append, lastKey, this]
    rfl
  | a :: p :: ss, x, h => by
    have ih := lastKey_eq c (p :: ss) x (fun q hq => h q (by simpa using hq))
    cases ss with
    | nil => simpa only [List.cons_append, List.nil_append, lastKey] using ih
    | cons b ss => simpa only [List.cons_append, lastKey] using ih

/-- … and then it is that of the statement which replaces it. -/
theorem lastKey_faux (c : Ctx) : ∀ (ss : List Stmt) (p x : Stmt), UsesCheatcode p → lastKey c (ss ++ [p, x]) = some c.faux
  | [], p, x, h => by simp [lastKey, (isPrefixCheatcode_iff p).2 h]
  | [a], p, x, h => by
    have ih := lastKey_faux c [] p x h
    simpa only [List.cons_append, List.nil_append, lastKey] using ih
  | a :: b :: ss, p, x, h => by
    have ih := lastKey_faux c (b :: ss) p x h
    cases ss with
    | nil => simpa only [List.cons_append, List.nil_append, lastKey] using ih
    | cons d ss => simpa only [List.cons_append, lastKey] using ih

theorem lastKey_some {c : Ctx} {f : Fn} {l ss k} (hb : f.body = some (.block l ss)) (h : lastKey c ss = some k) :
    k = c.faux ∨ ∃ x, Last f x ∧ k = c.key x := by
  rcases List.eq_nil_or_concat ss with rfl | ⟨ss', x, rfl⟩
  · cases h
  · rw [List.concat_eq_append] at hb h
    by_cases hu : ∃ p, ss'.getLast? = some p ∧ UsesCheatcode p
    · obtain ⟨p, hp, hu⟩ := hu
      obtain ⟨as, rfl⟩ := List.getLast?_eq_some_iff.mp hp
      have := lastKey_faux c as p x hu
      rw [List.append_assoc, List.singleton_append, this] at h
      cases h
      exact Or.inl rfl
    · have hno : ∀ a, ss'.getLast? = some a → ¬ UsesCheatcode a := fun a ha hu' => hu ⟨a, ha, hu'⟩
      rw [lastKey_eq c _ _ hno] at h
      cases h
      exact Or.inr ⟨x, ⟨l, ss', hb, hno⟩, rfl⟩

theorem Last.hasStmt {f x} (h : Last f x) : HasStmt f x := by
  obtain ⟨l, ss, h1, h2⟩ := h
  exact ⟨_, h1, .block h2 (.refl _)⟩

theorem Last.key {c : Ctx} {f x l ss} (h : Last f x) (hb : f.body = some (.block l ss)) : lastKey c ss = some (c.key x) := by
  obtain ⟨l', ss', h1, h2⟩ := h
  rw [hb] at h1
  cases h1
  exact lastKey_eq c _ _ h2

end Necessist.Foundry
