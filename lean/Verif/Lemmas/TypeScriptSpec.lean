import Verif.Lemmas.TypeScript
import Verif.Lemmas.VisitorLoop
import Verif.Lemmas.VisitorSpec
/-! # TypeScript: from the generic visitor's trees back to syntax trees -/
namespace Necessist.Js
open Visit

/-! ## Shapes -/

theorem lower_kids {key : Js → Nat} {x : Js} {m : Node} (h : m ∈ (lower key x).kids) : ∃ y ∈ x.kids, m = lower key y := by
  cases x with
  | ident s n => rw [lower] at h; cases h
  | str s n => rw [lower] at h; cases h
  | member s o n => rw [lower] at h; exact ⟨o, by simp [Js.kids], by simpa [Node.kids] using h⟩
  | index s o p =>
    rw [lower] at h
    split at h
    · simp only [Node.kids, List.mem_cons, List.not_mem_nil, or_false] at h
      rcases h with rfl | rfl
      · exact ⟨o, by simp [Js.kids], rfl⟩
      · exact ⟨p, by simp [Js.kids], rfl⟩
    · exact ⟨o, by simp [Js.kids], by simpa [Node.kids] using h⟩
  | await s o => rw [lower] at h; exact ⟨o, by simp [Js.kids], by simpa [Node.kids] using h⟩
  | call s f as =>
    rw [lower, lowerAll_eq] at h
    simp only [Node.kids, List.mem_cons, List.mem_map] at h
    rcases h with rfl | ⟨y, hy, rfl⟩
    · exact ⟨f, by simp [Js.kids], rfl⟩
    · exact ⟨y, by simp [Js.kids, hy], rfl⟩
  | fn s ps b =>
    rw [lower, lowerAll_eq, lowerAll_eq, ← List.map_append] at h
    obtain ⟨y, hy, rfl⟩ := List.mem_map.mp h
    exact ⟨y, hy, rfl⟩
  | fnDecl s n ps b =>
    rw [lower, lowerAll_eq, lowerAll_eq, ← List.map_append] at h
    obtain ⟨y, hy, rfl⟩ := List.mem_map.mp h
    exact ⟨y, hy, rfl⟩
  | expr s e =>
    rw [lower] at h
    split at h
    · exact ⟨e, by simp [Js.kids], by simpa [Node.kids] using h⟩
    · exact ⟨e, by simp [Js.kids], by simpa [Node.kids] using h⟩
  | other s ps =>
    rw [lower, lowerAll_eq] at h
    obtain ⟨y, hy, rfl⟩ := List.mem_map.mp h
    exact ⟨y, hy, rfl⟩
  | control s ps =>
    rw [lower, lowerAll_eq] at h
    obtain ⟨y, hy, rfl⟩ := List.mem_map.mp h
    exact ⟨y, hy, rfl⟩
  | decl s ps =>
    rw [lower, lowerAll_eq] at h
    obtain ⟨y, hy, rfl⟩ := List.mem_map.mp h
    exact ⟨y, hy, rfl⟩
  | stmt s ps =>
    rw [lower, lowerAll_eq] at h
    obtain ⟨y, hy, rfl⟩ := List.mem_map.mp h
    exact ⟨y, hy, rfl⟩

theorem sub_within {key : Js → Nat} {m n : Node} (h : Sub m n) : ∀ {x}, m = lower key x → ∃ y, Within x y ∧ n = lower key y := by
  induction h with
  | refl => exact fun h => ⟨_, .refl _, h⟩
  | step hk _ ih =>
    intro x hx
    subst hx
    obtain ⟨y, hy, rfl⟩ := lower_kids hk
    obtain ⟨z, hz, rfl⟩ := ih rfl
    exact ⟨z, .step hy hz, rfl⟩

/-- A part in which something happens is a part for the generic visitor. -/
theorem kids_lower {key : Js → Nat} {x y : Js} (h : y ∈ x.kids) (hy : hasWork y = true) : lower key y ∈ (lower key x).kids := by
  cases x with
  | ident s n => cases h
  | str s n => cases h
  | member s o n => rw [lower]; simp only [Js.kids, List.mem_singleton] at h; simp [Node.kids, h]
  | index s o p =>
    rw [lower]
    simp only [Js.kids, List.mem_cons, List.not_mem_nil, or_false] at h
    rcases h with rfl | rfl
    · split <;> simp [Node.kids]
    · rw [if_pos hy]; simp [Node.kids]
  | await s o => rw [lower]; simp only [Js.kids, List.mem_singleton] at h; simp [Node.kids, h]
  | call s f as =>
    rw [lower, lowerAll_eq]
    simp only [Js.kids, List.mem_cons] at h
    rcases h with rfl | h
    · simp [Node.kids]
    · exact List.mem_cons_of_mem _ (List.mem_map.mpr ⟨y, h, rfl⟩)
  | fn s ps b =>
    rw [lower, lowerAll_eq, lowerAll_eq, ← List.map_append]
    exact List.mem_map.mpr ⟨y, h, rfl⟩
  | fnDecl s n ps b =>
    rw [lower, lowerAll_eq, lowerAll_eq, ← List.map_append]
    exact List.mem_map.mpr ⟨y, h, rfl⟩
  | expr s e =>
    rw [lower]
    simp only [Js.kids, List.mem_singleton] at h
    split <;> simp [Node.kids, h]
  | other s ps => rw [lower, lowerAll_eq]; exact List.mem_map.mpr ⟨y, h, rfl⟩
  | control s ps => rw [lower, lowerAll_eq]; exact List.mem_map.mpr ⟨y, h, rfl⟩
  | decl s ps => rw [lower, lowerAll_eq]; exact List.mem_map.mpr ⟨y, h, rfl⟩
  | stmt s ps => rw [lower, lowerAll_eq]; exact List.mem_map.mpr ⟨y, h, rfl⟩

theorem hasWork_up {x y : Js} (h : Within x y) (hy : hasWork y = true) : hasWork x = true := by
  cases hx : hasWork x with
  | true => rfl
  | false =>
    have := idle_hasWork y fun z hz => hasWork_idle x hx z (h.trans hz)
    rw [this] at hy; cases hy

theorem stmt_hasWork {x : Js} (h : Stmt x) : hasWork x = true := by
  rcases h with ⟨_, _, rfl⟩ | ⟨_, _, rfl⟩ | ⟨_, _, rfl⟩ | ⟨_, _, rfl⟩ <;> rw [hasWork]

theorem call_hasWork {x f : Js} (h : Call x f) : hasWork x = true := by
  obtain ⟨_, _, rfl⟩ := h; rw [hasWork]

theorem IsTest.stmt {x : Js} {t ps b} (h : IsTest x t ps b) : Stmt x := by
  obtain ⟨s, e, rfl, _⟩ := h; exact Or.inl ⟨s, e, rfl⟩

theorem lower_test {key : Js → Nat} {x : Js} {t l cs} (h : lower key x = .test t l cs) :
    ∃ s e ps b, x = .expr s e ∧ It e t ps b ∧ l = lastKey key b ∧ cs = [lower key e] := by
  cases x with
  | expr s e =>
    rw [lower] at h
    cases hi : itOf e with
    | none => rw [hi] at h; cases h
    | some r =>
      obtain ⟨m, b⟩ := r
      rw [hi] at h
      cases h
      obtain ⟨ps, hi⟩ := itOf_iff.mp hi
      exact ⟨s, e, ps, b, rfl, hi, rfl, rfl⟩
  | index s o p => rw [lower] at h; split at h <;> cases h
  | _ => rw [lower] at h; cases h

theorem test_lower {key : Js → Nat} {s e t ps b} (h : It e t ps b) :
    lower key (.expr s e) = .test t (lastKey key b) [lower key e] := by
  rw [lower, itOf_iff.mpr ⟨ps, h⟩]

theorem lower_exprStmt {key : Js → Nat} {x : Js} {i e'} (h : lower key x = .exprStmt i e') :
    ∃ s e, x = .expr s e ∧ e' = lower key e ∧ i = info key x false false ∧ itOf e = none := by
  cases x with
  | expr s e =>
    rw [lower] at h
    cases hi : itOf e with
    | none => rw [hi] at h; cases h; exact ⟨s, e, rfl, rfl, rfl, hi⟩
    | some r => rw [hi] at h; cases h
  | index s o p => rw [lower] at h; split at h <;> cases h
  | _ => rw [lower] at h; cases h

theorem exprStmt_lower {key : Js → Nat} {s e} (h : itOf e = none) :
    lower key (.expr s e) = .exprStmt (info key (.expr s e) false false) (lower key e) := by
  rw [lower, h]

/-- What the statements are. -/
theorem lower_stmt {key : Js → Nat} {x : Js} {i} (h : IsStmt (lower key x) i) :
    Stmt x ∧ (∀ t ps b, ¬ IsTest x t ps b) ∧ i.span = x.span ∧ i.key = key x ∧ i.removable = true ∧
      (i.control = false ∧ i.declaration = false ↔ ¬ NeverRemoved x) := by
  have nt : ∀ {x : Js}, (∀ s e, x ≠ .expr s e) → ∀ t ps b, ¬ IsTest x t ps b := by
    rintro x hx t ps b ⟨s, e, rfl, _⟩; exact hx s e rfl
  cases x with
  | expr s e =>
    rcases h with ⟨cs, h⟩ | ⟨e', h⟩
    · rw [lower] at h; split at h <;> cases h
    · obtain ⟨s', e', h1, rfl, rfl, h4⟩ := lower_exprStmt h
      cases h1
      refine ⟨Or.inl ⟨s, e, rfl⟩, ?_, rfl, rfl, rfl, ?_⟩
      · rintro t ps b ⟨_, _, h1, h2⟩
        cases h1
        rw [itOf_iff.mpr ⟨ps, h2⟩] at h4; cases h4
      · refine ⟨fun _ => ?_, fun _ => ⟨rfl, rfl⟩⟩
        rintro (⟨_, _, h⟩ | ⟨_, _, h⟩) <;> cases h
  | control s ps =>
    rw [lower] at h
    rcases h with ⟨cs, h⟩ | ⟨e', h⟩
    · cases h
      refine ⟨Or.inr (Or.inl ⟨s, ps, rfl⟩), nt nofun, rfl, rfl, rfl, ?_⟩
      exact ⟨(fun h => absurd h.1 (by simp [info])), fun h => absurd (Or.inl ⟨s, ps, rfl⟩) h⟩
    · cases h
  | decl s ps =>
    rw [lower] at h
    rcases h with ⟨cs, h⟩ | ⟨e', h⟩
    · cases h
      refine ⟨Or.inr (Or.inr (Or.inl ⟨s, ps, rfl⟩)), nt nofun, rfl, rfl, rfl, ?_⟩
      exact ⟨(fun h => absurd h.2 (by simp [info])), fun h => absurd (Or.inr ⟨s, ps, rfl⟩) h⟩
    · cases h
  | stmt s ps =>
    rw [lower] at h
    rcases h with ⟨cs, h⟩ | ⟨e', h⟩
    · cases h
      refine ⟨Or.inr (Or.inr (Or.inr ⟨s, ps, rfl⟩)), nt nofun, rfl, rfl, rfl, ?_⟩
      refine ⟨fun _ => ?_, fun _ => ⟨rfl, rfl⟩⟩
      rintro (⟨_, _, h⟩ | ⟨_, _, h⟩) <;> cases h
    · cases h
  | index s o p => rw [lower] at h; split at h <;> rcases h with ⟨_, h⟩ | ⟨_, h⟩ <;> cases h
  | _ => rw [lower] at h; rcases h with ⟨_, h⟩ | ⟨_, h⟩ <;> cases h

theorem stmt_lower {key : Js → Nat} {x : Js} (h : Stmt x) (ht : ∀ t ps b, ¬ IsTest x t ps b) : ∃ i, IsStmt (lower key x) i := by
  rcases h with ⟨s, e, rfl⟩ | ⟨s, e, rfl⟩ | ⟨s, e, rfl⟩ | ⟨s, e, rfl⟩
  · rw [exprStmt_lower (itOf_none fun m ps b h => ht m ps b ⟨s, e, rfl, h⟩)]
    exact ⟨_, Or.inr ⟨_, rfl⟩⟩
  all_goals rw [lower]; exact ⟨_, Or.inl ⟨_, rfl⟩⟩

theorem lower_member {key : Js → Nat} {x : Js} {i n b} (h : lower key x = .field i (some n) b) :
    ∃ s o, x = .member s o n ∧ b = lower key o := by
  cases x with
  | member s o n' => rw [lower] at h; cases h; exact ⟨s, o, rfl, rfl⟩
  | index s o p => rw [lower] at h; split at h <;> cases h
  | expr s e => rw [lower] at h; split at h <;> cases h
  | _ => rw [lower] at h; cases h

theorem lower_index {key : Js → Nat} {x : Js} {i b} (h : lower key x = .field i none b) :
    ∃ s o p, x = .index s o p ∧ b = lower key o := by
  cases x with
  | index s o p =>
    rw [lower] at h
    split at h
    · cases h
    · cases h; exact ⟨s, o, p, rfl, rfl⟩
  | expr s e => rw [lower] at h; split at h <;> cases h
  | _ => rw [lower] at h; cases h

theorem lower_await {key : Js → Nat} {x : Js} {i b} (h : lower key x = .await i b) : ∃ s o, x = .await s o ∧ b = lower key o := by
  cases x with
  | await s o => rw [lower] at h; cases h; exact ⟨s, o, rfl, rfl⟩
  | index s o p => rw [lower] at h; split at h <;> cases h
  | expr s e => rw [lower] at h; split at h <;> cases h
  | _ => rw [lower] at h; cases h

theorem lower_call {key : Js → Nat} {x : Js} {i cn f as} (h : lower key x = .call i cn f as) :
    ∃ s g as', x = .call s g as' ∧ i = ⟨s, none⟩ ∧ cn = callName g ∧ f = lower key g ∧ as = lowerAll key as' := by
  obtain ⟨s, g, as', rfl⟩ := lower_isCall (key := key) (x := x) (Or.inl ⟨_, _, _, _, h⟩)
  rw [lower] at h
  cases h
  exact ⟨s, g, as', rfl, rfl, rfl, rfl, rfl⟩

theorem isCall_lower {key : Js → Nat} {x : Js} : IsCall (lower key x) ↔ ∃ f, Call x f := by
  constructor
  · intro h
    obtain ⟨s, g, as, rfl⟩ := lower_isCall h
    exact ⟨g, s, as, rfl⟩
  · rintro ⟨f, s, as, rfl⟩
    rw [lower]
    exact Or.inl ⟨_, _, _, _, rfl⟩

theorem lower_macro {key : Js → Nat} {x : Js} {i n as} : lower key x ≠ .macro_ i n as := by
  intro h
  obtain ⟨s, g, as, rfl⟩ := lower_isCall (key := key) (x := x) (Or.inr ⟨_, _, _, h⟩)
  rw [lower] at h; cases h

theorem lower_name {key : Js → Nat} {x : Js} {n} : (lower key x).info.name = some n ↔ ∃ s, x = .ident s n := by
  rw [name_eq]
  constructor
  · intro h
    cases x with
    | ident s m => rw [view] at h; cases h; exact ⟨s, rfl⟩
    | _ => rw [view] at h <;> first | cases h | simp
  · rintro ⟨s, rfl⟩; rw [view]; rfl

theorem lower_span {key : Js → Nat} {x : Js} (h : ¬ Stmt x) : (lower key x).info.span = x.span := by
  rw [info_eq key x h]
  cases x <;> rw [view] <;> first | rfl | simp

/-! ## Calls -/

theorem Makes.head {key : Js → Nat} {e c : Js} (h : Makes e c) (hf : Flat e) : Head (lower key e) (lower key c) := by
  obtain ⟨h1, h2⟩ := h
  have hc := isCall_lower (key := key).mpr h2
  induction h1 with
  | refl => exact .call hc
  | await _ ih => rw [lower]; exact .await (ih (hf.spine (.await (.refl _))) h2 hc)
  | member _ ih => rw [lower]; exact .field (ih (hf.spine (.member (.refl _))) h2 hc)
  | @index s e i x hs ih =>
    have : hasWork i = false := idle_hasWork i (hf x s e i ⟨.index hs, h2⟩ (.refl _))
    rw [lower, if_neg (by simp [this])]
    exact .field (ih (hf.spine (.index (.refl _))) h2 hc)

theorem head_makes {key : Js → Nat} {n h : Node} (hh : Head n h) : ∀ {x}, n = lower key x → ∃ c, h = lower key c ∧ Makes x c := by
  induction hh with
  | call hc =>
    intro x hx
    subst hx
    exact ⟨x, rfl, .refl _, isCall_lower.mp hc⟩
  | await _ ih =>
    intro x hx
    obtain ⟨s, o, rfl, h⟩ := lower_await hx.symm
    obtain ⟨c, h1, h2, h3⟩ := ih h
    exact ⟨c, h1, .await h2, h3⟩
  | @field i name e h _ ih =>
    intro x hx
    cases name with
    | some name =>
      obtain ⟨s, o, rfl, h⟩ := lower_member hx.symm
      obtain ⟨c, h1, h2, h3⟩ := ih h
      exact ⟨c, h1, .member h2, h3⟩
    | none =>
      obtain ⟨s, o, p, rfl, h⟩ := lower_index hx.symm
      obtain ⟨c, h1, h2, h3⟩ := ih h
      exact ⟨c, h1, .index h2, h3⟩

theorem Selects.path {key : Js → Nat} {x base : Js} {p} (h : Selects x base p) : Path (lower key x) (lower key base) p := by
  induction h with
  | base h =>
    refine .base fun i n b hb => ?_
    obtain ⟨s, o, rfl, _⟩ := lower_member hb
    exact h s o n rfl
  | member _ ih => rw [lower]; exact .field ih

theorem path_selects {key : Js → Nat} {n b : Node} {p} (h : Path n b p) : ∀ {x}, n = lower key x →
    ∃ base, b = lower key base ∧ Selects x base p := by
  induction h with
  | base hb =>
    intro x hx
    subst hx
    refine ⟨x, rfl, .base ?_⟩
    rintro s o n rfl
    rw [lower] at hb
    exact hb _ _ _ rfl
  | field _ ih =>
    intro x hx
    obtain ⟨s, o, rfl, h⟩ := lower_member hx.symm
    obtain ⟨base, h1, h2⟩ := ih h
    exact ⟨base, h1, .member h2⟩

theorem Method.low {key : Js → Nat} {c base : Js} {p} (h : Method c base p) : MethodCall (lower key c) (lower key base) p := by
  obtain ⟨hp, f, ⟨s, as, rfl⟩, hs⟩ := h
  exact ⟨hp, _, _, _, _, by rw [lower], hs.path⟩

theorem method_low {key : Js → Nat} {c : Js} {b p} (h : MethodCall (lower key c) b p) : ∃ base, b = lower key base ∧ Method c base p := by
  obtain ⟨hp, i, cn, f, as, h1, h2⟩ := h
  obtain ⟨s, g, as', rfl, _, _, rfl, _⟩ := lower_call h1
  obtain ⟨base, h3, h4⟩ := path_selects h2 rfl
  exact ⟨base, h3, hp, g, ⟨s, as', rfl⟩, h4⟩

/-- The object of a member access. -/
theorem Selects.object {x base : Js} {p} (h : Selects x base p) (hp : p ≠ []) : ∃ s n, Within x (.member s base n) := by
  induction h with
  | base _ => exact absurd rfl hp
  | @member s obj name base p h ih =>
    cases h with
    | base _ => exact ⟨s, name, .refl _⟩
    | @member s' obj' name' base p' h' =>
      obtain ⟨s2, n2, h2⟩ := ih (by simp)
      exact ⟨s2, n2, .step (by simp [Js.kids]) h2⟩

theorem Method.object {c base : Js} {p} (h : Method c base p) : ∃ s n, Within c (.member s base n) := by
  obtain ⟨hp, f, ⟨s, as, rfl⟩, hs⟩ := h
  obtain ⟨s2, n2, h2⟩ := hs.object hp
  exact ⟨s2, n2, .step (by simp [Js.kids]) h2⟩

theorem callName_iff {f : Js} {n} : callName f = some n ↔ ∃ s, f = .ident s n := by
  cases f <;> simp [callName]

theorem IgnoredFunction.low {key : Js → Nat} {config} {c : Js} (h : IgnoredFunction config c) :
    ∃ x, Innermost (lower key c) x ∧ Visit.IgnoredFunction config x := by
  induction h with
  | @function c name hc hi =>
    obtain ⟨s', s, as, rfl⟩ := hc
    refine ⟨_, .here (isCall_lower.mpr ⟨_, s, as, rfl⟩) ?_, ?_⟩
    · intro base p hm _
      obtain ⟨b, _, hp, f, ⟨_, _, h1⟩, h2⟩ := method_low hm
      cases h1
      cases h2
      exact hp rfl
    · rw [lower]
      exact .function (lower_other (by intros; simp)) hi
  | @path c s name p hm hi =>
    have h1 := hm.low (key := key)
    have hnc : ¬ IsCall (lower key (.ident s name)) := by
      rw [isCall_lower]; rintro ⟨_, _, _, h⟩; cases h
    obtain ⟨_, f, hc, _⟩ := id hm
    refine ⟨_, .here (isCall_lower.mpr ⟨f, hc⟩) fun base' p' h' => ?_, .path h1 hnc (lower_name.mpr ⟨s, rfl⟩) hi⟩
    rw [(h1.unique h').1] at hnc; exact hnc
  | @chain c base p hm hi ih =>
    obtain ⟨x, h3, h4⟩ := ih
    have hc : IsCall (lower key base) := by
      cases h3 with
      | here h _ => exact h
      | there h _ _ => obtain ⟨_, _, _, _, _, h, _⟩ := h; exact Or.inl ⟨_, _, _, _, h⟩
    exact ⟨x, .there hm.low hc h3, h4⟩

theorem ignoredFunction_low {key : Js → Nat} {config n x} (h : Innermost n x) (hi : Visit.IgnoredFunction config x) :
    ∀ {c}, n = lower key c → IgnoredFunction config c := by
  induction h with
  | here hc hno =>
    intro c hn
    subst hn
    generalize hn : lower key c = n at hi hno
    cases hi with
    | @function i name callee args hnf hi =>
      obtain ⟨s, g, as, rfl, _, h1, _, _⟩ := lower_call hn
      obtain ⟨s', rfl⟩ := callName_iff.mp h1.symm
      exact .function ⟨s', s, as, rfl⟩ hi
    | macro_ _ => exact absurd hn lower_macro
    | @path _ base p name hm hb hname hi =>
      subst hn
      obtain ⟨base', rfl, h2⟩ := method_low hm
      obtain ⟨s, rfl⟩ := lower_name.mp hname
      exact .path h2 hi
  | there hm _ _ ih =>
    intro c hn
    subst hn
    obtain ⟨base', hb, h2⟩ := method_low hm
    exact .chain h2 (ih hi hb)

/-- Ignored calls are the ignored calls. -/
theorem ignored_iff {key : Js → Nat} {config} {c : Js} : IgnoredCall config (lower key c) ↔ Ignored config c := by
  constructor
  · rintro (⟨x, h1, h2⟩ | ⟨base, p, h1, h2, h3⟩)
    · exact Or.inl (ignoredFunction_low h1 h2 rfl)
    · obtain ⟨base', rfl, a2⟩ := method_low h1
      refine Or.inr ⟨base', p, a2, ?_, h2⟩
      rintro f ⟨s, as, rfl⟩
      rw [lower] at h3
      exact h3 _ _ _ _ rfl
  · rintro (h | ⟨base, p, h1, h2, h3⟩)
    · exact Or.inl h.low
    · refine Or.inr ⟨_, p, h1.low, h3, fun i cn callee args h => ?_⟩
      obtain ⟨s, g, as, rfl, _⟩ := lower_call h
      exact h2 g ⟨s, as, rfl⟩

theorem hidden_iff {key : Js → Nat} {config} {c : Js} : Hidden config c ↔
    config.visitIgnoredArguments = false ∧ Visit.Ignored config (lower key c) := by
  unfold Hidden Visit.Ignored
  rw [ignored_iff]
  refine and_congr_right fun _ => or_congr_right ?_
  constructor
  · rintro ⟨base, p, h, hi⟩; exact ⟨_, p, h.low, hi⟩
  · rintro ⟨b, p, h, hi⟩
    obtain ⟨base, _, h⟩ := method_low h
    exact ⟨base, p, h, hi⟩

/-! ## Declarations -/

theorem declsAll_eq (xs : List Js) : declsAll xs = xs.flatMap decls := by
  induction xs with
  | nil => rw [declsAll]; rfl
  | cons x xs ih => rw [declsAll, ih]; rfl

theorem decls_kids {x : Js} (h : ∀ s n ps b, x ≠ .fnDecl s n ps b) : decls x = x.kids.flatMap decls := by
  cases x with
  | fnDecl s n ps b => exact absurd rfl (h s n ps b)
  | _ => rw [decls]; simp [Js.kids, declsAll_eq]

theorem outer_decls {x y : Js} (h : Outer x y) : ∀ s n ps b, y = .fnDecl s n ps b → ⟨.fnDecl s n ps b, n, ps, b⟩ ∈ decls x := by
  induction h with
  | refl t => rintro s n ps b rfl; rw [decls]; simp
  | step hn hk _ ih =>
    intro s n ps b hy
    rw [decls_kids hn]
    exact List.mem_flatMap.mpr ⟨_, hk, ih s n ps b hy⟩

theorem decls_outer (d : Decl) (x : Js) (h : d ∈ decls x) : ∃ s, d.node = .fnDecl s d.name d.params d.body ∧ Outer x d.node := by
  by_cases hx : ∃ s n ps b, x = .fnDecl s n ps b
  · obtain ⟨s, n, ps, b, rfl⟩ := hx
    rw [decls, List.mem_singleton] at h
    subst h
    exact ⟨s, rfl, .refl _⟩
  · have hx : ∀ s n ps b, x ≠ .fnDecl s n ps b := fun s n ps b h => hx ⟨s, n, ps, b, h⟩
    rw [decls_kids hx] at h
    obtain ⟨y, hy, h⟩ := List.mem_flatMap.mp h
    obtain ⟨s, h1, h2⟩ := decls_outer d y h
    exact ⟨s, h1, .step hx hy h2⟩
termination_by sizeOf x
decreasing_by
  cases x with
  | ident | str => cases hy
  | fnDecl s n ps b => exact absurd rfl (hx s n ps b)
  | call s f as =>
    simp only [Js.kids, List.mem_cons] at hy
    rcases hy with rfl | hy
    · simp only [Js.call.sizeOf_spec]; omega
    · have := List.sizeOf_lt_of_mem hy
      simp only [Js.call.sizeOf_spec]; omega
  | fn s ps b =>
    simp only [Js.kids, List.mem_append] at hy
    rcases hy with hy | hy
    · have := List.sizeOf_lt_of_mem hy
      simp only [Js.fn.sizeOf_spec]; omega
    · have := List.sizeOf_lt_of_mem hy
      simp only [Js.fn.sizeOf_spec]; omega
  | member s o n => simp only [Js.kids, List.mem_singleton] at hy; subst hy; simp only [Js.member.sizeOf_spec]; omega
  | await s o => simp only [Js.kids, List.mem_singleton] at hy; subst hy; simp only [Js.await.sizeOf_spec]; omega
  | expr s o => simp only [Js.kids, List.mem_singleton] at hy; subst hy; simp only [Js.expr.sizeOf_spec]; omega
  | index s o p =>
    simp only [Js.kids, List.mem_cons, List.not_mem_nil, or_false] at hy
    rcases hy with rfl | rfl <;> simp only [Js.index.sizeOf_spec] <;> omega
  | other s ps => have := List.sizeOf_lt_of_mem (show y ∈ ps from hy); simp only [Js.other.sizeOf_spec]; omega
  | control s ps => have := List.sizeOf_lt_of_mem (show y ∈ ps from hy); simp only [Js.control.sizeOf_spec]; omega
  | decl s ps => have := List.sizeOf_lt_of_mem (show y ∈ ps from hy); simp only [Js.decl.sizeOf_spec]; omega
  | stmt s ps => have := List.sizeOf_lt_of_mem (show y ∈ ps from hy); simp only [Js.stmt.sizeOf_spec]; omega

theorem Outer.within {x y : Js} (h : Outer x y) : Within x y := by
  induction h with
  | refl => exact .refl _
  | step _ hk _ ih => exact .step hk ih

end Necessist.Js
