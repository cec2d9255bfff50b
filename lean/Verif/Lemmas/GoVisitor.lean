import Verif.Lemmas.TreeSitterSpec
import Verif.Spec.GoVisitor
/-! # Go: from the generic visitor's trees back to tree-sitter's -/
namespace Necessist.TS.Go
open Visit

/-- What the generic visitor sees of a node of a Go file. -/
abbrev low (x : Tree) : Node := lower lang none x

theorem lower_low (q : Option Text) (x : Tree) : lower lang q x = low x := by
  obtain ⟨a, cs⟩ := x
  unfold low
  rw [lower_eq, lower_eq]
  rfl

theorem FieldChild.unique {x f c c'} (h : FieldChild x f c) (h' : FieldChild x f c') : c = c' := by
  have h1 := childByField_iff.mpr h
  rw [childByField_iff.mpr h'] at h1
  exact (Option.some.inj h1).symm

theorem FieldChild.idx {x f c} (h : FieldChild x f c) : ∃ k, childIdx x.children f = some k ∧ x.children[k]? = some c := by
  cases hk : childIdx x.children f with
  | none =>
    unfold childIdx at hk
    have := List.findIdx?_eq_none_iff.mp hk c h.mem
    obtain ⟨_, _, _, h2, _⟩ := h
    simp [h2] at this
  | some k =>
    obtain ⟨c', h1, h2⟩ := childIdx_iff hk
    rw [FieldChild.unique h h2]
    exact ⟨k, rfl, h1⟩

theorem within_child {file : Tree} {q x c} (h : Within none file q x) (hc : c ∈ x.children) :
    Within none file (some x.attr.kind) c := by
  obtain ⟨a, cs⟩ := x
  exact h.trans (.step hc (.refl _ _))

variable {file : Tree} (hf : GoFile file)
include hf

theorem notStmt {q x} (hx : Within none file q x)
    (h : x.attr.kind ∈ ["identifier".toList, "call_expression".toList, "selector_expression".toList]) : x.attr.stmt = false := by
  cases hs : x.attr.stmt with
  | false => rfl
  | true => exact absurd h (hf.expr q x hx hs)

theorem low_selector {q x} (hx : Within none file q x) (hk : x.attr.kind = "selector_expression".toList) :
    ∃ b f, Selector x b f ∧ low x = .field (exprInfo lang x.attr) (some f.attr.text) (low b) := by
  obtain ⟨f, hfc⟩ := hf.selector q x hx hk
  have hs := notStmt hf hx (by simp [hk])
  obtain ⟨a, cs⟩ := x
  simp only [Tree.attr] at hs hk
  have hcall : lang.isCall a.kind = false := by simp only [lang, hk]; decide
  have hfield : lang.field a cs = some (childIdx cs (k "operand"), (childByField cs (k "field")).map (·.attr.text)) := by
    simp only [lang]; exact if_pos hk
  obtain ⟨j, hj, ho⟩ := (hf.grammar q _ hx).field hs hcall _ _ hfield
  obtain ⟨b, hb, hb'⟩ := childIdx_iff (x := .node a cs) hj
  refine ⟨b, f, ⟨hk, hb', hfc⟩, ?_⟩
  have hname : childByField cs (k "field") = some f := childByField_iff (x := .node a cs).mpr hfc
  have hs' : lang.isStmt none a = false := hs
  simp only [Tree.children] at hb
  unfold low
  rw [lower_eq, mkNode]
  simp only [hs', hcall, Bool.false_eq_true, if_false, hfield, hj, hname, Option.map_some, List.getElem?_map, hb, lower_low]
  rfl

theorem low_call {q x} (hx : Within none file q x) (hk : x.attr.kind = "call_expression".toList) :
    ∃ f args, Call x f ∧ low x = .call (exprInfo lang x.attr) (some f.attr.text) (low f) args := by
  have hs := notStmt hf hx (by simp [hk])
  obtain ⟨a, cs⟩ := x
  simp only [Tree.attr] at hs hk
  have hs' : lang.isStmt none a = false := hs
  have hcall : lang.isCall a.kind = true := by simp only [lang, hk]; decide
  obtain ⟨h1, h2⟩ := (hf.grammar q _ hx).call hs hcall
  have hcl : lang.callee a cs = .child (childIdx cs (k "function")) := rfl
  simp only [Tree.attr, Tree.children, hcl, Callee.idx] at h1 h2
  obtain ⟨f, hb, hb'⟩ := childIdx_iff (x := .node a cs) h1
  simp only [Tree.children] at hb
  have hname : childByField cs (k "function") = some f := childByField_iff (x := .node a cs).mpr hb'
  refine ⟨f, (cs.map (lower lang (some a.kind))).eraseIdx 0, ⟨hk, hb'⟩, ?_⟩
  unfold low
  rw [lower_eq, mkNode]
  simp only [hs', hcall, Bool.false_eq_true, if_false, if_true, calleeOf, hcl, Callee.idx, h1, Option.bind_some,
    List.getElem?_map, hb, Option.map_some, lower_low]
  congr 1
  simp only [lang, hname, Option.map_some]

omit hf in
/-- Everything else is neither a call nor a field. -/
theorem low_other {x} (hk : x.attr.kind ≠ "call_expression".toList) (hk' : x.attr.kind ≠ "selector_expression".toList) :
    (∀ i cn callee args, low x ≠ .call i cn callee args) ∧ ∀ i n b, low x ≠ .field i n b := by
  refine ⟨fun i cn callee args h => ?_, fun i n b h => ?_⟩
  · have := (lower_call h).2.1
    simp only [lang, beq_iff_eq] at this
    exact hk this
  · obtain ⟨_, c, h1, _⟩ := lower_field h
    simp only [lang] at h1
    rw [if_neg (show ¬ x.attr.kind = k "selector_expression" from hk')] at h1
    cases h1

omit hf in
theorem low_call_inv {x i cn callee args} (h : low x = .call i cn callee args) : x.attr.kind = "call_expression".toList := by
  have := (lower_call h).2.1
  simp only [lang, beq_iff_eq] at this
  exact this

omit hf in
theorem low_field_inv {x i n b} (h : low x = .field i n b) : x.attr.kind = "selector_expression".toList := by
  refine Decidable.byContradiction fun hk => ?_
  obtain ⟨_, c, h1, _⟩ := lower_field h
  simp only [lang] at h1
  rw [if_neg (show ¬ x.attr.kind = k "selector_expression" from hk)] at h1
  cases h1

theorem low_isCall {q x} (hx : Within none file q x) : IsCall (low x) ↔ x.attr.kind = "call_expression".toList := by
  constructor
  · rintro (⟨_, _, _, _, h⟩ | ⟨i, n, args, h⟩)
    · exact low_call_inv h
    · exact absurd h ((lower_plain _ _ _).2.1 i n args)
  · intro h
    obtain ⟨f, args, _, h⟩ := low_call hf hx h
    exact Or.inl ⟨_, _, _, _, h⟩

theorem low_name {q x name} (hx : Within none file q x) :
    (low x).info.name = some name ↔ x.attr.kind = "identifier".toList ∧ x.attr.text = name := by
  cases hs : x.attr.stmt with
  | true =>
    have hne : x.attr.kind ≠ "identifier".toList := by
      intro h
      rw [notStmt hf hx (by simp [h])] at hs; cases hs
    constructor
    · intro h
      rcases stmt_lower (L := lang) (q := none) (x := x) hs with ⟨_, h'⟩ | ⟨_, h'⟩
      · rw [low, h'] at h; cases h
      · rw [low, h'] at h; cases h
    · exact fun h => absurd h.1 hne
  | false =>
    rw [low, lower_info (L := lang) hs]
    simp only [exprInfo, lang]
    constructor
    · intro h
      split at h
      · rename_i hk; exact ⟨hk, Option.some.inj h⟩
      · cases h
    · rintro ⟨h1, h2⟩
      rw [if_pos (show x.attr.kind = k "identifier" from h1), h2]

/-- Where a selector's operand is. -/
theorem Selector.within {q x b f} (hx : Within none file q x) (h : Selector x b f) : Within none file (some x.attr.kind) b :=
  within_child hx h.2.1.mem

theorem Call.within {q x f} (hx : Within none file q x) (h : Call x f) : Within none file (some x.attr.kind) f :=
  within_child hx h.2.mem

theorem Selector.low {q x b f} (hx : Within none file q x) (h : Selector x b f) :
    low x = .field (exprInfo lang x.attr) (some f.attr.text) (low b) := by
  obtain ⟨b', f', h1, h2⟩ := low_selector hf hx h.1
  rw [FieldChild.unique h.2.1 h1.2.1, FieldChild.unique h.2.2 h1.2.2]
  exact h2

theorem Call.low {q x f} (hx : Within none file q x) (h : Call x f) :
    ∃ args, low x = .call (exprInfo lang x.attr) (some f.attr.text) (low f) args := by
  obtain ⟨f', args, h1, h2⟩ := low_call hf hx h.1
  rw [FieldChild.unique h.2 h1.2]
  exact ⟨args, h2⟩

theorem Makes.head {q x c} (hx : Within none file q x) (h : Makes x c) : Head (low x) (low c) ∧ ∃ r, Within none file r c := by
  induction h generalizing q with
  | @call c f hc =>
    exact ⟨.call ((low_isCall hf hx).mpr hc.1), q, hx⟩
  | selector hs _ ih =>
    obtain ⟨h1, h2⟩ := ih (Selector.within hf hx hs)
    rw [Selector.low hf hx hs]
    exact ⟨.field h1, h2⟩

theorem head_makes {n h} (hh : Head n h) {q x} (hx : Within none file q x) (hn : n = low x) :
    ∃ c r, h = low c ∧ Makes x c ∧ Within none file r c := by
  induction hh generalizing q x with
  | call hc =>
    subst hn
    have hk := (low_isCall hf hx).mp hc
    obtain ⟨f, _, h1, _⟩ := low_call hf hx hk
    exact ⟨x, q, rfl, .call h1, hx⟩
  | await _ => exact absurd hn.symm ((lower_plain _ _ _).2.2 _ _)
  | field hb ih =>
    obtain ⟨b, f, h1, h2⟩ := low_selector hf hx (low_field_inv hn.symm)
    rw [h2] at hn
    cases hn
    obtain ⟨c, r, a1, a2, a3⟩ := ih (Selector.within hf hx h1) rfl
    exact ⟨c, r, a1, .selector h1 a2, a3⟩

theorem Selects.path {q x base p} (hx : Within none file q x) (h : Selects x base p) :
    Path (low x) (low base) p ∧ ∃ r, Within none file r base := by
  induction h generalizing q with
  | base hk => exact ⟨.base fun i n b h => hk (low_field_inv h), q, hx⟩
  | selector hs _ ih =>
    obtain ⟨h1, h2⟩ := ih (Selector.within hf hx hs)
    rw [Selector.low hf hx hs]
    exact ⟨.field h1, h2⟩

theorem path_selects {n b p} (h : Path n b p) {q x} (hx : Within none file q x) (hn : n = low x) :
    ∃ base r, b = low base ∧ Selects x base p ∧ Within none file r base := by
  induction h generalizing q x with
  | base hb =>
    subst hn
    refine ⟨x, q, rfl, .base fun hk => ?_, hx⟩
    obtain ⟨b, f, _, h2⟩ := low_selector hf hx hk
    exact hb _ _ _ h2
  | field _ ih =>
    obtain ⟨b, f, h1, h2⟩ := low_selector hf hx (low_field_inv hn.symm)
    rw [h2] at hn
    cases hn
    obtain ⟨base, r, a1, a2, a3⟩ := ih (Selector.within hf hx h1) rfl
    exact ⟨base, r, a1, .selector h1 a2, a3⟩

theorem Method.low {q c base p} (hx : Within none file q c) (h : Method c base p) :
    MethodCall (low c) (low base) p ∧ ∃ r, Within none file r base := by
  obtain ⟨hp, f, hc, hs⟩ := h
  obtain ⟨args, h1⟩ := Call.low hf hx hc
  obtain ⟨h2, h3⟩ := Selects.path hf (Call.within hf hx hc) hs
  exact ⟨⟨hp, _, _, _, _, h1, h2⟩, h3⟩

theorem methodCall_method {q c b p} (hx : Within none file q c) (h : MethodCall (Go.low c) b p) :
    ∃ base r, b = Go.low base ∧ Method c base p ∧ Within none file r base := by
  obtain ⟨hp, i, cn, callee, args, h1, h2⟩ := h
  obtain ⟨f, args', hc, h3⟩ := low_call hf hx (low_call_inv h1)
  rw [h3] at h1
  cases h1
  obtain ⟨base, r, a1, a2, a3⟩ := path_selects hf h2 (Call.within hf hx hc) rfl
  exact ⟨base, r, a1, ⟨hp, f, hc, a2⟩, a3⟩

theorem IgnoredFunction.low {config c} (h : IgnoredFunction config c) {q} (hx : Within none file q c) :
    ∃ x, Innermost (Go.low c) x ∧ Visit.IgnoredFunction config x := by
  induction h generalizing q with
  | @function c f hc hk hi =>
    obtain ⟨args, h1⟩ := Call.low hf hx hc
    have hnf : ∀ j field b, Go.low f ≠ .field j (some field) b := fun j field b h => hk (low_field_inv h)
    refine ⟨Go.low c, .here (Or.inl ⟨_, _, _, _, h1⟩) ?_, ?_⟩
    · rintro base p ⟨hp, i, cn, callee, as, h2, h3⟩ _
      rw [h1] at h2
      cases h2
      generalize hn : Go.low f = n at h3
      cases h3 with
      | base _ => exact hp rfl
      | field _ => exact hnf _ _ _ hn
    · rw [h1]; exact .function hnf hi
  | @path c base p hm hk hi =>
    obtain ⟨h1, r, h2⟩ := Method.low hf hx hm
    have hnc : ¬ IsCall (Go.low base) := by
      rw [low_isCall hf h2, hk]; decide
    have hc : IsCall (Go.low c) := by
      obtain ⟨_, f, hc, _⟩ := hm
      exact (low_isCall hf hx).mpr hc.1
    refine ⟨Go.low c, .here hc fun base' p' h' => ?_, .path h1 hnc ((low_name hf h2).mpr ⟨hk, rfl⟩) hi⟩
    rw [(h1.unique h').1] at hnc; exact hnc
  | @chain c base p hm hi ih =>
    obtain ⟨h1, r, h2⟩ := Method.low hf hx hm
    obtain ⟨x, h3, h4⟩ := ih h2
    have hc : IsCall (Go.low base) := by
      cases h3 with
      | here h _ => exact h
      | there h _ _ => obtain ⟨_, _, _, _, _, h, _⟩ := h; exact Or.inl ⟨_, _, _, _, h⟩
    exact ⟨x, .there h1 hc h3, h4⟩

theorem ignoredFunction_low {config n x} (h : Innermost n x) (hi : Visit.IgnoredFunction config x) {q c}
    (hx : Within none file q c) (hn : n = Go.low c) : IgnoredFunction config c := by
  induction h generalizing q c with
  | here hc hno =>
    subst hn
    generalize hn : Go.low c = n at hi hno
    cases hi with
    | @function i name callee args hnf hi =>
      obtain ⟨f, args', h1, h2⟩ := low_call hf hx (low_call_inv hn)
      rw [hn] at h2
      cases h2
      refine .function h1 (fun hk => ?_) hi
      obtain ⟨b, g, _, h3⟩ := low_selector hf (Call.within hf hx h1) hk
      exact hnf _ _ _ h3
    | macro_ _ => exact absurd hn ((lower_plain _ _ _).2.1 _ _ _)
    | @path _ base p name hm hb hname hi =>
      subst hn
      obtain ⟨base', r, rfl, h2, h3⟩ := methodCall_method hf hx hm
      obtain ⟨a1, a2⟩ := (low_name hf h3).mp hname
      subst a2
      exact .path h2 a1 hi
  | there hm _ _ ih =>
    subst hn
    obtain ⟨base', r, hb, h2, h3⟩ := methodCall_method hf hx hm
    exact .chain h2 (ih hi h3 hb)

/-- Ignored calls are the ignored calls. -/
theorem ignored_iff {config q c} (hx : Within none file q c) : IgnoredCall config (Go.low c) ↔ Ignored config c := by
  constructor
  · rintro (⟨x, h1, h2⟩ | ⟨base, p, h1, h2, h3⟩)
    · exact Or.inl (ignoredFunction_low hf h1 h2 hx rfl)
    · obtain ⟨base', r, rfl, a2, a3⟩ := methodCall_method hf hx h1
      refine Or.inr ⟨base', p, a2, fun hk => ?_, h2⟩
      obtain ⟨f, args, _, h4⟩ := low_call hf a3 hk
      exact h3 _ _ _ _ h4
  · rintro (h | ⟨base, p, h1, h2, h3⟩)
    · exact Or.inl (IgnoredFunction.low hf h hx)
    · obtain ⟨a1, r, a2⟩ := Method.low hf hx h1
      exact Or.inr ⟨_, p, a1, h3, fun i cn callee args h => h2 (low_call_inv h)⟩

end Necessist.TS.Go
