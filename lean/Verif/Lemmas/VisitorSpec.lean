import Verif.Lemmas.Visitor
import Verif.Spec.Visitor
/-!
# Calls, as the visitor and the specification see them
-/
namespace Necessist.Visit

theorem stripsToCall_iff : ∀ e, stripsToCall e = true ↔ ∃ h, Head e h
  | .await i e => by
    rw [stripsToCall, stripsToCall_iff e]
    constructor
    · rintro ⟨h, hh⟩; exact ⟨h, .await hh⟩
    · rintro ⟨h, hh⟩
      cases hh with
      | call hc => rcases hc with ⟨_, _, _, _, hc⟩ | ⟨_, _, _, hc⟩ <;> cases hc
      | await hh => exact ⟨h, hh⟩
  | .field i n e => by
    rw [stripsToCall, stripsToCall_iff e]
    constructor
    · rintro ⟨h, hh⟩; exact ⟨h, .field hh⟩
    · rintro ⟨h, hh⟩
      cases hh with
      | call hc => rcases hc with ⟨_, _, _, _, hc⟩ | ⟨_, _, _, hc⟩ <;> cases hc
      | field hh => exact ⟨h, hh⟩
  | .call i cn callee args => by
    simp only [stripsToCall, true_iff]; exact ⟨_, .call (Or.inl ⟨_, _, _, _, rfl⟩)⟩
  | .macro_ i n args => by
    simp only [stripsToCall, true_iff]; exact ⟨_, .call (Or.inr ⟨_, _, _, rfl⟩)⟩
  | .test _ _ _ => by
    simp only [stripsToCall, Bool.false_eq_true, false_iff]
    rintro ⟨h, hh⟩
    cases hh with
    | call hc => rcases hc with ⟨_, _, _, _, hc⟩ | ⟨_, _, _, hc⟩ <;> cases hc
  | .stmt _ _ => by
    simp only [stripsToCall, Bool.false_eq_true, false_iff]
    rintro ⟨h, hh⟩
    cases hh with
    | call hc => rcases hc with ⟨_, _, _, _, hc⟩ | ⟨_, _, _, hc⟩ <;> cases hc
  | .exprStmt _ _ => by
    simp only [stripsToCall, Bool.false_eq_true, false_iff]
    rintro ⟨h, hh⟩
    cases hh with
    | call hc => rcases hc with ⟨_, _, _, _, hc⟩ | ⟨_, _, _, hc⟩ <;> cases hc
  | .other _ _ => by
    simp only [stripsToCall, Bool.false_eq_true, false_iff]
    rintro ⟨h, hh⟩
    cases hh with
    | call hc => rcases hc with ⟨_, _, _, _, hc⟩ | ⟨_, _, _, hc⟩ <;> cases hc

theorem stripsToCall_false (e) : stripsToCall e = false ↔ ∀ h, ¬ Head e h := by
  rw [← Bool.not_eq_true, stripsToCall_iff]; simp

theorem Path.unique {n b1 p1 b2 p2} (h1 : Path n b1 p1) (h2 : Path n b2 p2) : b1 = b2 ∧ p1 = p2 := by
  induction h1 generalizing b2 p2 with
  | base hb =>
    cases h2 with
    | base _ => exact ⟨rfl, rfl⟩
    | field _ => exact absurd rfl (hb _ _ _)
  | field _ ih =>
    cases h2 with
    | base hb => exact absurd rfl (hb _ _ _)
    | field h2 => obtain ⟨rfl, rfl⟩ := ih h2; exact ⟨rfl, rfl⟩

theorem Path.not_field {n b p} (h : Path n b p) : ∀ i name b', b ≠ .field i (some name) b' := by
  induction h with
  | base hb => exact hb
  | field _ ih => exact ih

theorem Path.exists : ∀ n, ∃ b p, Path n b p
  | .field i (some name) b => by
    obtain ⟨b', p, h⟩ := Path.exists b
    exact ⟨b', _, .field h⟩
  | .field i none b => ⟨_, _, .base (by intro i n b h; cases h)⟩
  | .test _ _ _ => ⟨_, _, .base (by intro i n b h; cases h)⟩
  | .stmt _ _ => ⟨_, _, .base (by intro i n b h; cases h)⟩
  | .exprStmt _ _ => ⟨_, _, .base (by intro i n b h; cases h)⟩
  | .call _ _ _ _ => ⟨_, _, .base (by intro i n b h; cases h)⟩
  | .macro_ _ _ _ => ⟨_, _, .base (by intro i n b h; cases h)⟩
  | .await _ _ => ⟨_, _, .base (by intro i n b h; cases h)⟩
  | .other _ _ => ⟨_, _, .base (by intro i n b h; cases h)⟩

theorem peelFields_path {n b p} (h : Path n b p) : ∀ q, peelFields n q = (b, p ++ q) := by
  induction h with
  | base hb =>
    intro q
    rename_i b
    cases b with
    | field i n b' =>
      cases n with
      | none => rfl
      | some n => exact absurd rfl (hb _ _ _)
    | _ => rfl
  | field _ ih =>
    intro q
    rw [peelFields, ih]; simp

theorem MethodCall.unique {h b1 p1 b2 p2} (h1 : MethodCall h b1 p1) (h2 : MethodCall h b2 p2) : b1 = b2 ∧ p1 = p2 := by
  obtain ⟨_, i, cn, callee, args, rfl, h1⟩ := h1
  obtain ⟨_, _, _, _, _, h, h2⟩ := h2
  cases h
  exact h1.unique h2

theorem methodCall_field {i cn j name b args base q} (h : Path b base q) :
    MethodCall (.call i cn (.field j (some name) b) args) base (q ++ [name]) :=
  ⟨by simp, _, _, _, _, rfl, .field h⟩

theorem methodCall_iff {i cn callee args base p} :
    MethodCall (.call i cn callee args) base p ↔
    ∃ j name b q, callee = .field j (some name) b ∧ Path b base q ∧ p = q ++ [name] := by
  constructor
  · rintro ⟨hp, _, _, _, _, h, h2⟩
    cases h
    cases h2 with
    | base _ => exact absurd rfl hp
    | field h2 => exact ⟨_, _, _, _, rfl, h2, rfl⟩
  · rintro ⟨j, name, b, q, rfl, h, rfl⟩
    exact methodCall_field h

theorem not_methodCall {i cn callee args} (hc : ∀ j name b, callee ≠ .field j (some name) b) :
    ∀ base p, ¬ MethodCall (.call i cn callee args) base p := by
  intro base p h
  obtain ⟨j, name, b, q, h, _⟩ := methodCall_iff.mp h
  exact hc _ _ _ h

theorem not_isCall_of {b : Node} (h1 : ∀ i cn callee args, b ≠ .call i cn callee args)
    (h2 : ∀ i name args, b ≠ .macro_ i name args) : ¬ IsCall b := by
  rintro (⟨_, _, _, _, h⟩ | ⟨_, _, _, h⟩)
  · exact h1 _ _ _ _ h
  · exact h2 _ _ _ h

/-- What `innermostInfo` says about a base followed by a path. -/
def InnerIgnored (c : Compiled) (base : Node) (path : List Text) : Prop :=
  (IsCall base ∧ ∃ x, Innermost base x ∧ IgnoredFunction c x) ∨
  (¬ IsCall base ∧ ∃ name, base.info.name = some name ∧ IgnoredPath c name path)

/-- Whether a node is a (function or method) call. -/
def Node.isFnCall : Node → Bool
  | .call _ _ _ _ => true
  | _ => false

theorem isIgnoredPath_iff (c : Compiled) (n : Text) (p : List Text) :
    isIgnoredPath c n (dotted p) = true ↔ IgnoredPath c n p := by
  unfold isIgnoredPath IgnoredPath
  cases c.ignoredPathDisambiguation <;> simp

/-- Being ignored, for a method call whose base is not a call. -/
theorem ignoredFunction_method {c h base p} (h1 : MethodCall h base p) (h2 : ¬ IsCall base) :
    IgnoredFunction c h ↔ ∃ name, base.info.name = some name ∧ IgnoredPath c name p := by
  constructor
  · intro hi
    cases hi with
    | function hc _ => exact absurd h1 (not_methodCall hc _ _)
    | macro_ _ => obtain ⟨_, _, _, _, _, h, _⟩ := h1; cases h
    | path a1 a2 a3 a4 =>
      obtain ⟨rfl, rfl⟩ := h1.unique a1
      exact ⟨_, a3, a4⟩
  · rintro ⟨name, a1, a2⟩
    exact .path h1 h2 a1 a2

theorem innermost_method {c h base p} (h1 : MethodCall h base p) :
    (∃ x, Innermost h x ∧ IgnoredFunction c x) ↔ InnerIgnored c base p := by
  constructor
  · rintro ⟨x, hx, hi⟩
    cases hx with
    | here a1 a2 => exact Or.inr ⟨a2 _ _ h1, (ignoredFunction_method h1 (a2 _ _ h1)).mp hi⟩
    | there a1 a2 a3 =>
      obtain ⟨rfl, rfl⟩ := h1.unique a1
      exact Or.inl ⟨a2, x, a3, hi⟩
  · rintro (⟨a1, x, a2, a3⟩ | ⟨a1, a2⟩)
    · exact ⟨x, .there h1 a1 a2, a3⟩
    · refine ⟨h, .here ?_ ?_, (ignoredFunction_method h1 a1).mpr a2⟩
      · obtain ⟨_, i, cn, callee, args, rfl, _⟩ := h1; exact Or.inl ⟨_, _, _, _, rfl⟩
      · intro b q hb
        obtain ⟨rfl, rfl⟩ := h1.unique hb
        exact a1

theorem innermost_function {c i cn callee args} (hc : ∀ j name b, callee ≠ .field j (some name) b) :
    (∃ x, Innermost (.call i cn callee args) x ∧ IgnoredFunction c x) ↔
      (match cn with | none => false | some n => c.isIgnoredFunction n) = true := by
  have hin : ∀ x, Innermost (.call i cn callee args) x ↔ x = .call i cn callee args := by
    intro x
    constructor
    · intro h
      cases h with
      | here _ _ => rfl
      | there a1 _ _ => exact absurd a1 (not_methodCall hc _ _)
    · rintro rfl
      exact .here (Or.inl ⟨_, _, _, _, rfl⟩) fun b p h => absurd h (not_methodCall hc _ _)
  simp only [hin, exists_eq_left]
  constructor
  · intro h
    cases h with
    | function _ h => exact h
    | path a1 => exact absurd a1 (not_methodCall hc _ _)
  · intro h
    cases cn with
    | none => cases h
    | some n => exact .function hc h

theorem innermost_macro {c i name args} :
    (∃ x, Innermost (.macro_ i name args) x ∧ IgnoredFunction c x) ↔ c.isIgnoredMacro name = true := by
  have hm : ∀ b p, ¬ MethodCall (.macro_ i name args) b p := by
    rintro b p ⟨_, _, _, _, _, h, _⟩; cases h
  have hin : ∀ x, Innermost (.macro_ i name args) x ↔ x = .macro_ i name args := by
    intro x
    constructor
    · intro h
      cases h with
      | here _ _ => rfl
      | there a1 _ _ => exact absurd a1 (hm _ _)
    · rintro rfl
      exact .here (Or.inr ⟨_, _, _, rfl⟩) fun b p h => absurd h (hm _ _)
  simp only [hin, exists_eq_left]
  constructor
  · intro h
    cases h with
    | macro_ h => exact h
    | path a1 => exact absurd a1 (hm _ _)
  · exact .macro_

theorem innermostInfo_spec (cfg : VCfg) (n : Node) (span : Span) (path : List Text) (recursed : Bool) :
    ∀ base q, Path n base q →
    (((!(innermostInfo cfg n span path recursed).isMethod && (innermostInfo cfg n span path recursed).isIgnored) = true ↔
      InnerIgnored cfg.config base (q ++ path)) ∧
    (innermostInfo cfg n span path recursed).isNested = (recursed || base.isFnCall)) := by
  fun_induction innermostInfo cfg n span path recursed with
  | case1 j name b span path recursed ih =>
    intro base q h
    cases h with
    | base hb => exact absurd rfl (hb _ _ _)
    | field h =>
      have := ih _ _ h
      simpa using this
  | case2 i cn j name b args span path recursed ih =>
    intro base q h
    cases h with
    | base hb =>
      obtain ⟨b', q', hb'⟩ := Path.exists b
      obtain ⟨i1, i2⟩ := ih _ _ hb'
      rw [i1, i2]
      refine ⟨?_, by simp [Node.isFnCall]⟩
      have hcall : IsCall (.call i cn (.field j (some name) b) args) := Or.inl ⟨_, _, _, _, rfl⟩
      rw [← innermost_method (methodCall_field (i := i) (cn := cn) (j := j) (args := args) hb')]
      unfold InnerIgnored
      simp only [hcall, true_and, not_true, false_and, or_false]
  | case3 i cn callee args span path recursed hne =>
    intro base q h
    cases h with
    | base hb =>
      have hcall : IsCall (.call i cn callee args) := Or.inl ⟨_, _, _, _, rfl⟩
      unfold InnerIgnored
      simp only [hcall, true_and, not_true, false_and, or_false]
      rw [innermost_function (fun j n b h => hne j n b h)]
      exact ⟨by cases cn <;> simp, by simp [Node.isFnCall]⟩
  | case4 i name args span path recursed =>
    intro base q h
    cases h with
    | base hb =>
      have hcall : IsCall (.macro_ i name args) := Or.inr ⟨_, _, _, rfl⟩
      unfold InnerIgnored
      simp only [hcall, true_and, not_true, false_and, or_false]
      rw [innermost_macro]
      exact ⟨by simp, by simp [Node.isFnCall]⟩
  | case5 b span path recursed h1 h2 h3 h4 n hn =>
    intro base q h
    cases h with
    | field _ => exact absurd rfl (h1 _ _ _)
    | base hb =>
      have hcall : ¬ IsCall b := not_isCall_of h3 h4
      have hfn : b.isFnCall = false := by
        cases b with
        | call => exact absurd rfl (h3 _ _ _ _)
        | _ => rfl
      unfold InnerIgnored
      simp only [hcall, false_and, not_false_iff, true_and, false_or, hn, Option.some.injEq, exists_eq_left',
        List.nil_append, Bool.not_false, Bool.true_and, isIgnoredPath_iff, hfn, Bool.or_false, and_self]
  | case6 b span path recursed h1 h2 h3 h4 hn =>
    intro base q h
    cases h with
    | field _ => exact absurd rfl (h1 _ _ _)
    | base hb =>
      have hcall : ¬ IsCall b := not_isCall_of h3 h4
      have hfn : b.isFnCall = false := by
        cases b with
        | call => exact absurd rfl (h3 _ _ _ _)
        | _ => rfl
      unfold InnerIgnored
      simp [hcall, hn, hfn]

theorem isFnCall_false (b : Node) : b.isFnCall = false ↔ ∀ i cn callee args, b ≠ .call i cn callee args := by
  cases b <;> simp [Node.isFnCall]

/-- What the visitor ignores as a call is what the specification says. -/
theorem callArgs_ignored (cfg : VCfg) (i cn callee args) :
    ((callArgs cfg i cn callee).isIgnoredAsCall = true ↔ IgnoredCall cfg.config (.call i cn callee args)) ∧
    ((callArgs cfg i cn callee).isIgnoredAsMethodCall = true ↔ IgnoredMethod cfg.config (.call i cn callee args)) ∧
    ((callArgs cfg i cn callee).isMethodCall = true ↔ ∃ base p, MethodCall (.call i cn callee args) base p) := by
  by_cases hf : ∃ j name b, callee = .field j (some name) b
  · obtain ⟨j, name, b, rfl⟩ := hf
    obtain ⟨base, q, hp⟩ := Path.exists b
    have hm := methodCall_field (i := i) (cn := cn) (j := j) (name := name) (args := args) hp
    obtain ⟨i1, i2⟩ := innermostInfo_spec cfg b i.span [name] false base q hp
    have hinfo : (callInfo cfg i.span b name).isIgnored = cfg.config.isIgnoredMethod (dotted (q ++ [name])) := by
      unfold callInfo; rw [peelFields_path hp]
    have hme : IgnoredMethod cfg.config (.call i cn (.field j (some name) b) args) ↔
        cfg.config.isIgnoredMethod (dotted (q ++ [name])) = true := by
      constructor
      · rintro ⟨b', p', a1, a2⟩
        obtain ⟨rfl, rfl⟩ := hm.unique a1
        exact a2
      · exact fun h => ⟨_, _, hm, h⟩
    refine ⟨?_, ?_, ?_⟩
    · simp only [callArgs]
      rw [Bool.or_eq_true, i1, i2, hinfo, Bool.and_eq_true, Bool.false_or, Bool.not_eq_true', isFnCall_false]
      unfold IgnoredCall
      rw [innermost_method hm]
      apply or_congr Iff.rfl
      constructor
      · rintro ⟨a1, a2⟩; exact ⟨_, _, hm, a2, a1⟩
      · rintro ⟨b', p', a1, a2, a3⟩
        obtain ⟨rfl, rfl⟩ := hm.unique a1
        exact ⟨a3, a2⟩
    · simp only [callArgs]
      rw [hinfo, hme]
    · simp only [callArgs, true_iff]; exact ⟨_, _, hm⟩
  · have hc : ∀ j name b, callee ≠ .field j (some name) b := fun j name b h => hf ⟨j, name, b, h⟩
    have hca : callArgs cfg i cn callee =
        ⟨i.span, (match cn with | none => false | some n => cfg.config.isIgnoredFunction n), false, false⟩ := by
      unfold callArgs
      split
      · exact absurd rfl (hc _ _ _)
      · rfl
    rw [hca]
    refine ⟨?_, ?_, ?_⟩
    · simp only
      unfold IgnoredCall
      rw [innermost_function hc]
      constructor
      · exact Or.inl
      · rintro (h | ⟨b, p, h, _⟩)
        · exact h
        · exact absurd h (not_methodCall hc _ _)
    · simp only [Bool.false_eq_true, false_iff]
      rintro ⟨b, p, h, _⟩; exact not_methodCall hc _ _ h
    · simp only [Bool.false_eq_true, false_iff]
      rintro ⟨b, p, h⟩; exact not_methodCall hc _ _ h

theorem macro_ignored (c : Compiled) (i name args) : IgnoredCall c (.macro_ i name args) ↔ c.isIgnoredMacro name = true := by
  unfold IgnoredCall
  rw [innermost_macro]
  constructor
  · rintro (h | ⟨b, p, ⟨_, _, _, _, _, h, _⟩, _⟩)
    · exact h
    · cases h
  · exact Or.inl

/-- The span of a method call candidate. -/
theorem callArgs_span {cfg i cn callee args base p} (h : MethodCall (.call i cn callee args) base p) :
    (callArgs cfg i cn callee).span = cfg.trim { i.span with start := base.info.span.stop } := by
  obtain ⟨j, name, b, q, rfl, hp, rfl⟩ := methodCall_iff.mp h
  simp only [callArgs, callInfo, peelFields_path hp]

theorem Sub.trans {a b c} (h1 : Sub a b) (h2 : Sub b c) : Sub a c := by
  induction h1 with
  | refl => exact h2
  | step h _ ih => exact .step h (ih h2)

/-- Spine: field accesses and awaits. -/
inductive Spine : Node → Node → Prop
  | refl (n) : Spine n n
  | await {i e h} : Spine e h → Spine (.await i e) h
  | field {i name e h} : Spine e h → Spine (.field i name e) h

theorem Head.isCall {e h} (hh : Head e h) : IsCall h := by
  induction hh with
  | call h => exact h
  | await _ ih => exact ih
  | field _ ih => exact ih

theorem Spine.head {e h} (hs : Spine e h) (hc : IsCall h) : Head e h := by
  induction hs with
  | refl => exact .call hc
  | await _ ih => exact .await (ih hc)
  | field _ ih => exact .field (ih hc)

theorem Spine.snoc_await {e i b} (hs : Spine e (.await i b)) : Spine e b := by
  generalize hx : Node.await i b = x at hs
  induction hs with
  | refl => subst hx; exact .await (.refl _)
  | await _ ih => exact .await (ih hx)
  | field _ ih => exact .field (ih hx)

theorem Spine.snoc_field {e i n b} (hs : Spine e (.field i n b)) : Spine e b := by
  generalize hx : Node.field i n b = x at hs
  induction hs with
  | refl => subst hx; exact .field (.refl _)
  | await _ ih => exact .await (ih hx)
  | field _ ih => exact .field (ih hx)

/-- `n` is below `x`, in the context `K`: either that of `x`, or that of a test. -/
def Place (cfg : VCfg) (x : Item) (K : Ctx) (n : Node) : Prop :=
  (K = x.ctx ∧ Sub x.node n) ∨
  ∃ t last cs, Sub x.node (.test t last cs) ∧ cfg.config.isIgnoredTest t = false ∧
    K = ⟨[t], last, x.ctx.returned⟩ ∧ ∃ m ∈ cs, Sub m n

theorem Place.below {cfg x K n m} (h : Place cfg x K n) (hm : Sub n m) : Place cfg x K m := by
  rcases h with ⟨h1, h2⟩ | ⟨t, last, cs, h1, h2, h3, k, hk, h4⟩
  · exact Or.inl ⟨h1, h2.trans hm⟩
  · exact Or.inr ⟨t, last, cs, h1, h2, h3, k, hk, h4.trans hm⟩

theorem Place.sub {cfg x K n} (h : Place cfg x K n) : Sub x.node n := by
  rcases h with ⟨_, h2⟩ | ⟨t, last, cs, h1, h2, h3, k, hk, h4⟩
  · exact h2
  · exact h1.trans (.step hk h4)

theorem Place.returned {cfg x K n} (h : Place cfg x K n) : K.returned = x.ctx.returned := by
  rcases h with ⟨h2, _⟩ | ⟨t, last, cs, h1, h2, h3, k, hk, h4⟩
  · rw [h2]
  · rw [h3]

/-- Where a visited item comes from. -/
def From (cfg : VCfg) (x y : Item) : Prop :=
  Place cfg x y.ctx y.node ∧ ∀ s, y.waiting = some s → ∃ e, Place cfg x y.ctx (.exprStmt s e) ∧ Spine e y.node

theorem kid {n m : Node} (h : m ∈ n.kids) : Sub n m := .step h (.refl _)

theorem From.step {cfg x y z} (h : From cfg x y) (hz : z ∈ next cfg y) : From cfg x z := by
  obtain ⟨hp, hw⟩ := h
  obtain ⟨K, c, n⟩ := y
  cases n with
  | test name last cs =>
    simp only [next] at hz
    split at hz
    · cases hz
    · rename_i hi
      have hi : cfg.config.isIgnoredTest name = false := by simpa using hi
      obtain ⟨m, hm, rfl⟩ := List.mem_map.mp hz
      refine ⟨Or.inr ⟨name, last, cs, hp.sub, hi, ?_, m, hm, .refl _⟩, fun s h => by cases h⟩
      simp only [Ctx.mk.injEq, true_and]; exact hp.returned
  | stmt s cs =>
    obtain ⟨m, hm, rfl⟩ := List.mem_map.mp hz
    exact ⟨hp.below (kid hm), fun s h => by cases h⟩
  | exprStmt s e =>
    rw [next, List.mem_singleton] at hz
    subst hz
    refine ⟨hp.below (kid (by simp [Node.kids])), fun s' h => ?_⟩
    simp only at h
    split at h
    · cases h
      exact ⟨e, hp, .refl _⟩
    · cases h
  | call i cn callee args =>
    have : z = ⟨K, none, callee⟩ ∨ ∃ m ∈ args, z = ⟨K, none, m⟩ := by
      simp only [next] at hz
      split at hz
      · rcases List.mem_cons.mp hz with h | h
        · exact Or.inl h
        · obtain ⟨m, hm, h⟩ := List.mem_map.mp h
          exact Or.inr ⟨m, hm, h.symm⟩
      · split at hz
        · exact Or.inl (List.mem_singleton.mp hz)
        · cases hz
    rcases this with rfl | ⟨m, hm, rfl⟩
    · exact ⟨hp.below (kid (by simp [Node.kids])), fun s h => by cases h⟩
    · exact ⟨hp.below (kid (by simp [Node.kids, hm])), fun s h => by cases h⟩
  | macro_ i name args =>
    simp only [next] at hz
    split at hz
    · obtain ⟨m, hm, rfl⟩ := List.mem_map.mp hz
      exact ⟨hp.below (kid hm), fun s h => by cases h⟩
    · cases hz
  | field i n b =>
    simp only [next] at hz
    split at hz
    · rw [List.mem_singleton] at hz
      subst hz
      refine ⟨hp.below (kid (by simp [Node.kids])), fun s h => ?_⟩
      obtain ⟨e, h1, h2⟩ := hw s h
      exact ⟨e, h1, h2.snoc_field⟩
    · cases hz
  | await i b =>
    simp only [next] at hz
    split at hz
    · rw [List.mem_singleton] at hz
      subst hz
      refine ⟨hp.below (kid (by simp [Node.kids])), fun s h => ?_⟩
      obtain ⟨e, h1, h2⟩ := hw s h
      exact ⟨e, h1, h2.snoc_await⟩
    · cases hz
  | other i cs =>
    obtain ⟨m, hm, rfl⟩ := List.mem_map.mp hz
    exact ⟨hp.below (kid hm), fun s h => by cases h⟩

theorem Reach.from {cfg x y z} (h : Reach cfg y z) (hf : From cfg x y) : From cfg x z := by
  induction h with
  | refl => exact hf
  | step h1 _ ih => exact ih (hf.step h1)

theorem Reach.origin {cfg x z} (h : Reach cfg x z) (hw : x.waiting = none) : From cfg x z :=
  h.from ⟨Or.inl ⟨rfl, .refl _⟩, fun s hs => by rw [hw] at hs; cases hs⟩

theorem walkTarget_some {cfg R callee name fs f} (h : walkTarget cfg R callee = some (name, fs, f)) :
    callee.info.name = some name ∧ cfg.walkable.lookup name = some fs ∧ fs.head? = some f ∧ f.key ∉ R := by
  unfold walkTarget at h
  split at h
  · cases h
  · rename_i n hn
    split at h
    · cases h
    · rename_i fs' hfs
      split at h
      · cases h
      · rename_i f' hf
        split at h
        · cases h
        · rename_i hk
          cases h
          exact ⟨hn, hfs, hf, hk⟩

theorem CallsFn.calls {cfg x name fs f} (h : CallsFn cfg x name fs f) : Calls cfg x.node f ∧ f.key ∉ x.ctx.returned := by
  obtain ⟨i, cn, callee, args, h1, h2⟩ := h
  obtain ⟨a1, a2, a3, a4⟩ := walkTarget_some h2
  cases fs with
  | nil => cases a3
  | cons g gs =>
    cases a3
    exact ⟨⟨i, cn, callee, args, name, gs, h1, a1, a2⟩, a4⟩

theorem Calls.walkable {cfg h f} (hc : Calls cfg h f) : IsWalkable cfg f := by
  obtain ⟨_, _, _, _, name, fs, _, _, h⟩ := hc
  exact ⟨name, fs, h⟩

theorem Calls.callsFn {cfg x f} (h : Calls cfg x.node f) (hk : f.key ∉ x.ctx.returned) :
    ∃ name fs, CallsFn cfg x name fs f := by
  obtain ⟨i, cn, callee, args, name, fs, h1, h2, h3⟩ := h
  refine ⟨name, f :: fs, i, cn, callee, args, h1, ?_⟩
  unfold walkTarget
  simp [h2, h3, hk]

theorem enters_of {cfg : VCfg} {n : Node} (h1 : ∀ i name b, n ≠ .field i name b) (h2 : ∀ i b, n ≠ .await i b) : Enters cfg n :=
  Or.inr fun _ _ _ => ⟨h1 _ _ _, h2 _ _⟩

theorem Held.snoc {cfg n m x} (h : Held cfg n m) (hk : x ∈ m.kids) (he : Enters cfg m) : Held cfg n x := by
  induction h with
  | refl => exact .step hk he (.refl _)
  | step h1 h2 _ ih => exact .step h1 h2 (ih hk he)

theorem Held.sub {cfg n m} (h : Held cfg n m) : Sub n m := by
  induction h with
  | refl => exact .refl _
  | step h1 _ _ ih => exact .step h1 ih

theorem Held.trans {cfg n m x} (h : Held cfg n m) (h' : Held cfg m x) : Held cfg n x := by
  induction h with
  | refl => exact h'
  | step h1 h2 _ ih => exact .step h1 h2 (ih h')

theorem Seen.trans {cfg n m x} (h : Seen cfg n m) (h' : Seen cfg m x) : Seen cfg n x := by
  induction h with
  | refl => exact h'
  | step h1 _ ih => exact .step h1 (ih h')

theorem Sub.held {cfg n m} (hf : cfg.fields = true) (h : Sub n m) : Held cfg n m := by
  induction h with
  | refl => exact .refl _
  | step h1 _ ih => exact .step h1 (Or.inl hf) ih

theorem Shown.snoc {cfg P n m x} (h : Shown cfg P n m) (hk : x ∈ m.kids) (he : Enters cfg m)
    (hc : IsCall m → (∃ i cn args, m = .call i cn x args) ∨ P m) : Shown cfg P n x := by
  induction h with
  | refl => exact .step hk he hc (.refl _)
  | step h1 h2 h3 _ ih => exact .step h1 h2 h3 (ih hk he hc)

theorem Shown.held {cfg P n m} (h : Shown cfg P n m) : Held cfg n m := by
  induction h with
  | refl => exact .refl _
  | step h1 h2 _ _ ih => exact .step h1 h2 ih

theorem Shown.sub {cfg P n m} (h : Shown cfg P n m) : Sub n m := h.held.sub

theorem Sub.snoc {n m x} (h : Sub n m) (hk : x ∈ m.kids) : Sub n x := h.trans (kid hk)

/-- How an item is found, in a test or function. -/
structure Track (cfg : VCfg) (names : List Text) (root : Node) (last : Option Nat) (start : Node) (y : Item) : Prop where
  held : Held cfg start y.node
  shown : names ≠ [] → Shown cfg (MayEnter cfg root last) start y.node
  waits : ∀ s, y.waiting = some s → ∃ e, Held cfg start (.exprStmt s e) ∧
    (names ≠ [] → Shown cfg (MayEnter cfg root last) start (.exprStmt s e)) ∧ Spine e y.node

theorem goes_false {cfg K c i cn callee args} (h : goes cfg K c (callArgs cfg i cn callee) = false) :
    Ignored cfg.config (.call i cn callee args) ∧ cfg.config.visitIgnoredArguments = false := by
  unfold goes at h
  split at h
  · simp only [Bool.or_eq_false_iff, Bool.and_eq_false_iff, Bool.not_eq_false'] at h
    refine ⟨?_, h.2⟩
    obtain ⟨h1, h2, _⟩ := callArgs_ignored cfg i cn callee args
    rcases h.1 with h | h
    · exact Or.inl (h1.mp h)
    · exact Or.inr (h2.mp h)
  · cases h

theorem goes_true {cfg K c i cn callee args} (h : goes cfg K c (callArgs cfg i cn callee) = true) (hn : K.names ≠ []) :
    ¬ Ignored cfg.config (.call i cn callee args) ∨ cfg.config.visitIgnoredArguments = true ∨
    ∃ s, c = some s ∧ (s.removable = false ∨ K.last = some s.key) := by
  unfold goes at h
  split at h
  · simp only [Bool.or_eq_true, Bool.and_eq_true, Bool.not_eq_true'] at h
    obtain ⟨h1, h2, _⟩ := callArgs_ignored cfg i cn callee args
    rcases h with h | h
    · left
      rintro (h' | h')
      · rw [h1.mpr h'] at h; cases h.1
      · rw [h2.mpr h'] at h; cases h.2
    · exact Or.inr (Or.inl h)
  · rename_i hc
    have hne : K.names.isEmpty = false := by rw [List.isEmpty_eq_false_iff]; exact hn
    cases c with
    | none => simp [considered, hne] at hc
    | some s =>
      simp only [considered, hne, Bool.not_false, Bool.true_and, Bool.and_eq_true, Bool.not_eq_true', beq_eq_false_iff_ne,
        ne_eq] at hc
      refine Or.inr (Or.inr ⟨s, rfl, ?_⟩)
      cases hrm : s.removable with
      | false => exact Or.inl rfl
      | true => exact Or.inr (Decidable.byContradiction fun hl => hc ⟨hrm, hl⟩)

theorem goes_macro_false {cfg K c i name args} (h : goes cfg K c (macroArgs cfg i name) = false) :
    Ignored cfg.config (.macro_ i name args) ∧ cfg.config.visitIgnoredArguments = false := by
  unfold goes at h
  split at h
  · simp only [macroArgs, Bool.or_eq_false_iff, Bool.and_eq_false_iff, Bool.not_eq_false', Bool.false_eq_true, or_false] at h
    exact ⟨Or.inl ((macro_ignored _ _ _ _).mpr h.1), h.2⟩
  · cases h

theorem goes_macro_true {cfg K c i name args} (h : goes cfg K c (macroArgs cfg i name) = true) (hn : K.names ≠ []) :
    ¬ Ignored cfg.config (.macro_ i name args) ∨ cfg.config.visitIgnoredArguments = true ∨
    ∃ s, c = some s ∧ (s.removable = false ∨ K.last = some s.key) := by
  unfold goes at h
  split at h
  · simp only [macroArgs, Bool.or_eq_true, Bool.and_eq_true, Bool.not_eq_true', Bool.not_false, and_true] at h
    rcases h with h | h
    · left
      rintro (h' | ⟨b, p, ⟨_, _, _, _, _, h', _⟩, _⟩)
      · rw [(macro_ignored _ _ _ _).mp h'] at h; cases h
      · cases h'
    · exact Or.inr (Or.inl h)
  · rename_i hc
    have hne : K.names.isEmpty = false := by rw [List.isEmpty_eq_false_iff]; exact hn
    cases c with
    | none => simp [considered, hne] at hc
    | some s =>
      simp only [considered, hne, Bool.not_false, Bool.true_and, Bool.and_eq_true, Bool.not_eq_true', beq_eq_false_iff_ne,
        ne_eq] at hc
      refine Or.inr (Or.inr ⟨s, rfl, ?_⟩)
      cases hrm : s.removable with
      | false => exact Or.inl rfl
      | true => exact Or.inr (Decidable.byContradiction fun hl => hc ⟨hrm, hl⟩)

theorem walkTarget_calls {cfg R i cn callee args} (h : (walkTarget cfg R callee).isSome = true) :
    ∃ f, Calls cfg (.call i cn callee args) f := by
  obtain ⟨⟨name, fs, f⟩, hw⟩ := Option.isSome_iff_exists.mp h
  obtain ⟨a1, a2, a3, a4⟩ := walkTarget_some hw
  cases fs with
  | nil => cases a3
  | cons g gs => cases a3; exact ⟨f, i, cn, callee, args, name, gs, rfl, a1, a2⟩

theorem isCall_cases {n : Node} (h1 : ∀ i cn callee args, n ≠ .call i cn callee args) (h2 : ∀ i name args, n ≠ .macro_ i name args)
    {P : Prop} : IsCall n → P := fun h => absurd h (not_isCall_of h1 h2)

theorem Track.step {cfg K c n root start z} (h : Track cfg K.names root K.last start ⟨K, c, n⟩) (hr : Sub root start)
    (hz : z ∈ next cfg ⟨K, c, n⟩) (hn : ∀ t last cs, n ≠ .test t last cs) :
    z.ctx = K ∧ Track cfg K.names root K.last start z := by
  obtain ⟨hs, hsh, hw⟩ := h
  simp only at hs hsh hw
  cases n with
  | test t last cs => exact absurd rfl (hn _ _ _)
  | stmt s cs =>
    obtain ⟨m, hm, rfl⟩ := List.mem_map.mp hz
    exact ⟨rfl, hs.snoc hm (enters_of nofun nofun), fun hne => (hsh hne).snoc hm (enters_of nofun nofun) (isCall_cases (by simp) (by simp)), fun s h => by cases h⟩
  | exprStmt s e =>
    rw [next, List.mem_singleton] at hz
    subst hz
    refine ⟨rfl, hs.snoc (by simp [Node.kids]) (enters_of nofun nofun),
      fun hne => (hsh hne).snoc (by simp [Node.kids]) (enters_of nofun nofun) (isCall_cases (by simp) (by simp)), fun s' h => ?_⟩
    simp only at h
    split at h
    · cases h
      exact ⟨e, hs, hsh, .refl _⟩
    · cases h
  | call i cn callee args =>
    have hcase : z = ⟨K, none, callee⟩ ∨ (((walkTarget cfg K.returned callee).isSome = true ∨
        goes cfg K c (callArgs cfg i cn callee) = true) ∧ ∃ m ∈ args, z = ⟨K, none, m⟩) := by
      simp only [next] at hz
      split at hz
      · rename_i hg
        rw [Bool.or_eq_true] at hg
        rcases List.mem_cons.mp hz with h | h
        · exact Or.inl h
        · obtain ⟨m, hm, h⟩ := List.mem_map.mp h
          exact Or.inr ⟨hg, m, hm, h.symm⟩
      · split at hz
        · exact Or.inl (List.mem_singleton.mp hz)
        · cases hz
    rcases hcase with rfl | ⟨hg, m, hm, rfl⟩
    · exact ⟨rfl, hs.snoc (by simp [Node.kids]) (enters_of nofun nofun),
        fun hne => (hsh hne).snoc (by simp [Node.kids]) (enters_of nofun nofun) fun _ => Or.inl ⟨_, _, _, rfl⟩, fun s h => by cases h⟩
    · refine ⟨rfl, hs.snoc (by simp [Node.kids, hm]) (enters_of nofun nofun),
        fun hne => (hsh hne).snoc (by simp [Node.kids, hm]) (enters_of nofun nofun) fun _ => Or.inr ?_, fun s h => by cases h⟩
      rcases hg with hg | hg
      · exact Or.inr (Or.inr (Or.inl (walkTarget_calls hg)))
      · rcases goes_true (args := args) hg hne with h | h | ⟨s, hs', h⟩
        · exact Or.inl h
        · exact Or.inr (Or.inl h)
        · obtain ⟨e, h1, _, h2⟩ := hw s hs'
          exact Or.inr (Or.inr (Or.inr ⟨s, e, hr.trans h1.sub, h2.head (Or.inl ⟨_, _, _, _, rfl⟩), h⟩))
  | macro_ i name args =>
    simp only [next] at hz
    split at hz
    · rename_i hg
      obtain ⟨m, hm, rfl⟩ := List.mem_map.mp hz
      refine ⟨rfl, hs.snoc hm (enters_of nofun nofun), fun hne => (hsh hne).snoc hm (enters_of nofun nofun) fun _ => Or.inr ?_, fun s h => by cases h⟩
      rcases goes_macro_true (args := args) hg hne with h | h | ⟨s, hs', h⟩
      · exact Or.inl h
      · exact Or.inr (Or.inl h)
      · obtain ⟨e, h1, _, h2⟩ := hw s hs'
        exact Or.inr (Or.inr (Or.inr ⟨s, e, hr.trans h1.sub, h2.head (Or.inr ⟨_, _, _, rfl⟩), h⟩))
    · cases hz
  | field i n b =>
    simp only [next] at hz
    split at hz
    · rename_i hf
      rw [List.mem_singleton] at hz
      subst hz
      refine ⟨rfl, hs.snoc (by simp [Node.kids]) (Or.inl hf),
        fun hne => (hsh hne).snoc (by simp [Node.kids]) (Or.inl hf) (isCall_cases (by simp) (by simp)), fun s h => ?_⟩
      obtain ⟨e, h1, h3, h2⟩ := hw s h
      exact ⟨e, h1, h3, h2.snoc_field⟩
    · cases hz
  | await i b =>
    simp only [next] at hz
    split at hz
    · rename_i hf
      rw [List.mem_singleton] at hz
      subst hz
      refine ⟨rfl, hs.snoc (by simp [Node.kids]) (Or.inl hf),
        fun hne => (hsh hne).snoc (by simp [Node.kids]) (Or.inl hf) (isCall_cases (by simp) (by simp)), fun s h => ?_⟩
      obtain ⟨e, h1, h3, h2⟩ := hw s h
      exact ⟨e, h1, h3, h2.snoc_await⟩
    · cases hz
  | other i cs =>
    obtain ⟨m, hm, rfl⟩ := List.mem_map.mp hz
    exact ⟨rfl, hs.snoc hm (enters_of nofun nofun), fun hne => (hsh hne).snoc hm (enters_of nofun nofun) (isCall_cases (by simp) (by simp)), fun s h => by cases h⟩

/-- Where a visited item comes from, and how. -/
def Tracked (cfg : VCfg) (x y : Item) : Prop :=
  (y.ctx = x.ctx ∧ Track cfg x.ctx.names x.node x.ctx.last x.node y) ∨
  ∃ t last cs, Sub x.node (.test t last cs) ∧ cfg.config.isIgnoredTest t = false ∧
    y.ctx = ⟨[t], last, x.ctx.returned⟩ ∧ ∃ m ∈ cs, Track cfg [t] (.test t last cs) last m y

theorem Tracked.step {cfg x y z} (h : Tracked cfg x y) (hz : z ∈ next cfg y) : Tracked cfg x z := by
  obtain ⟨K, c, n⟩ := y
  by_cases hn : ∃ t last cs, n = .test t last cs
  · obtain ⟨t, last, cs, rfl⟩ := hn
    simp only [next] at hz
    split at hz
    · cases hz
    · rename_i hi
      have hi : cfg.config.isIgnoredTest t = false := by simpa using hi
      obtain ⟨m, hm, rfl⟩ := List.mem_map.mp hz
      have hsub : Sub x.node (.test t last cs) := by
        rcases h with ⟨_, h⟩ | ⟨t', last', cs', h1, _, _, m', hm', h⟩
        · exact h.held.sub
        · exact (h1.snoc hm').trans h.held.sub
      have hret : K.returned = x.ctx.returned := by
        rcases h with ⟨h, _⟩ | ⟨t', last', cs', h1, _, h, _⟩
        · simp only at h; rw [h]
        · simp only at h; rw [h]
      exact Or.inr ⟨t, last, cs, hsub, hi, by simp only [hret], m, hm, .refl _, fun _ => .refl _, fun s h => by cases h⟩
  · have hn : ∀ t last cs, n ≠ .test t last cs := fun t last cs h => hn ⟨t, last, cs, h⟩
    rcases h with ⟨h1, h2⟩ | ⟨t, last, cs, h1, h2, h3, m, hm, h4⟩
    · simp only at h1
      subst h1
      have := h2.step (.refl _) hz hn
      exact Or.inl this
    · simp only at h3
      subst h3
      have := Track.step (K := ⟨[t], last, x.ctx.returned⟩) h4 (kid hm) hz hn
      exact Or.inr ⟨t, last, cs, h1, h2, this.1, m, hm, this.2⟩

theorem Reach.tracked' {cfg x y z} (h : Reach cfg y z) (hf : Tracked cfg x y) : Tracked cfg x z := by
  induction h with
  | refl => exact hf
  | step h1 _ ih => exact ih (hf.step h1)

theorem Reach.tracked {cfg x z} (h : Reach cfg x z) (hw : x.waiting = none) : Tracked cfg x z :=
  h.tracked' (Or.inl ⟨rfl, .refl _, fun _ => .refl _, fun s hs => by rw [hw] at hs; cases hs⟩)

/-- Names come from tests that are visited. -/
theorem Reach.tests {cfg x z} (h : Reach cfg x z) : ∀ t ∈ z.ctx.names, t ∈ x.ctx.names ∨ ∃ w, Reach cfg x w ∧ TestIs cfg w t := by
  induction h with
  | refl => exact fun t ht => Or.inl ht
  | @step x y z h1 h2 ih =>
    intro t ht
    rcases ih t ht with h | ⟨w, hw, htt⟩
    · obtain ⟨K, c, n⟩ := x
      by_cases hn : ∃ t last cs, n = .test t last cs
      · obtain ⟨t', last, cs, rfl⟩ := hn
        simp only [next] at h1
        split at h1
        · cases h1
        · rename_i hi
          obtain ⟨m, hm, rfl⟩ := List.mem_map.mp h1
          have : t = t' := List.mem_singleton.mp h
          exact Or.inr ⟨_, .refl _, by rw [this]; simpa using hi, last, cs, by rw [this]⟩
      · have : y.ctx = K := by
          cases n with
          | test t last cs => exact absurd ⟨_, _, _, rfl⟩ hn
          | stmt s cs => obtain ⟨m, hm, rfl⟩ := List.mem_map.mp h1; rfl
          | exprStmt s e => rw [next, List.mem_singleton] at h1; rw [h1]
          | call i cn callee args =>
            simp only [next] at h1
            split at h1
            · rcases List.mem_cons.mp h1 with h | h
              · rw [h]
              · obtain ⟨m, hm, rfl⟩ := List.mem_map.mp h; rfl
            · split at h1
              · rw [List.mem_singleton.mp h1]
              · cases h1
          | macro_ i name args =>
            simp only [next] at h1
            split at h1
            · obtain ⟨m, hm, rfl⟩ := List.mem_map.mp h1; rfl
            · cases h1
          | field i n b =>
            simp only [next] at h1
            split at h1
            · rw [List.mem_singleton.mp h1]
            · cases h1
          | await i b =>
            simp only [next] at h1
            split at h1
            · rw [List.mem_singleton.mp h1]
            · cases h1
          | other i cs => obtain ⟨m, hm, rfl⟩ := List.mem_map.mp h1; rfl
        rw [this] at h
        exact Or.inl h
    · exact Or.inr ⟨w, .step h1 hw, htt⟩

end Necessist.Visit
