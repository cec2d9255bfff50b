import Verif.Lemmas.TreeSitterSpec
import Verif.Lemmas.GoVisitor
import Verif.Spec.PhpVisitor
/-! # PHP: from the generic visitor's trees back to tree-sitter's -/
namespace Necessist.TS.Php
open Visit
open Go (k within_child FieldChild.unique FieldChild.idx)

theorem isStmt_iff {q : Option Text} {x : Tree} : lang.isStmt q x.attr = true ↔ IsStatement q x := by
  unfold IsStatement
  simp only [lang, Bool.and_eq_true, Bool.not_eq_eq_eq_not, Bool.not_true, beq_iff_eq]
  constructor
  · rintro ⟨⟨h1, h2⟩, h3⟩; exact ⟨h3, h1, h2⟩
  · rintro ⟨h3, h1, h2⟩; exact ⟨⟨h1, h2⟩, h3⟩

theorem isCall_iff {kind : Text} : lang.isCall kind = true ↔ kind ∈ calls := by
  unfold calls memberCalls
  simp only [lang, isMemberCall, Bool.or_eq_true, beq_iff_eq]
  rw [List.mem_cons, List.mem_cons, List.mem_cons, List.mem_singleton]
  constructor
  · rintro (h | (h | h) | h)
    · exact Or.inl h
    · exact Or.inr (Or.inl h)
    · exact Or.inr (Or.inr (Or.inl h))
    · exact Or.inr (Or.inr (Or.inr h))
  · rintro (h | h | h | h)
    · exact Or.inl h
    · exact Or.inr (Or.inl (Or.inl h))
    · exact Or.inr (Or.inl (Or.inr h))
    · exact Or.inr (Or.inr h)

theorem mem_accesses {kind : Text} : kind ∈ accesses ↔
    (kind = k "member_access_expression" ∨ kind = k "nullsafe_member_access_expression" ∨ kind = k "scoped_property_access_expression") := by
  unfold accesses
  rw [List.mem_cons, List.mem_cons, List.mem_singleton]
  rfl

theorem mem_names {kind : Text} : kind ∈ names ↔ (kind = k "name" ∨ kind = k "qualified_name") := by
  unfold names
  rw [List.mem_cons, List.mem_singleton]
  rfl

theorem access_not_call {kind : Text} (h : kind ∈ accesses) : kind ∉ calls := by
  rw [mem_accesses] at h
  rcases h with rfl | rfl | rfl <;> decide +kernel

theorem name_not {kind : Text} (h : kind ∈ names) : kind ∉ calls ∧ kind ∉ accesses := by
  rw [mem_names] at h
  rcases h with rfl | rfl <;> decide +kernel

theorem field_some {a : Attr} {cs : List Tree} (h : a.kind ∈ accesses) :
    lang.field a cs = some (baseIdx a.kind cs, (childByField cs (k "name")).map (·.attr.text)) := by
  simp only [lang]; exact if_pos (mem_accesses.mp h)

theorem field_none {a : Attr} {cs : List Tree} (h : a.kind ∉ accesses) : lang.field a cs = none := by
  simp only [lang]; exact if_neg fun h' => h (mem_accesses.mpr h')

theorem baseIdx_iff {x : Tree} {j : Nat} (h : baseIdx x.attr.kind x.children = some j) :
    ∃ b, x.children[j]? = some b ∧ Base x b := by
  unfold baseIdx at h
  unfold Base
  split at h
  · rename_i hk
    obtain ⟨b, h1, h2⟩ := childIdx_iff h
    refine ⟨b, h1, ?_⟩
    rw [if_pos (show x.attr.kind = "scoped_call_expression".toList ∨ x.attr.kind = "scoped_property_access_expression".toList from hk)]; exact h2
  · rename_i hk
    obtain ⟨b, h1, h2⟩ := childIdx_iff h
    refine ⟨b, h1, ?_⟩
    rw [if_neg (show ¬ (x.attr.kind = "scoped_call_expression".toList ∨ x.attr.kind = "scoped_property_access_expression".toList) from hk)]; exact h2

theorem Base.unique {x b b'} (h : Base x b) (h' : Base x b') : b = b' := FieldChild.unique h h'

variable {file : Tree} (hf : PhpFile file)
include hf

theorem notStmt {q x} (hx : Within none file q x) (h : x.attr.kind ∈ accesses ++ calls ++ names) : lang.isStmt q x.attr = false := by
  cases hs : lang.isStmt q x.attr with
  | false => rfl
  | true => exact absurd h (hf.expr q x hx (isStmt_iff.mp hs))

theorem low_access {q x} (hx : Within none file q x) (hk : x.attr.kind ∈ accesses) :
    ∃ b f, Access x b f ∧ lower lang q x = .field (exprInfo lang x.attr) (some f.attr.text) (lower lang (some x.attr.kind) b) := by
  obtain ⟨f, hfc⟩ := hf.name q x hx (List.mem_append_left _ hk)
  have hs := notStmt hf hx (List.mem_append_left _ (List.mem_append_left _ hk))
  obtain ⟨a, cs⟩ := x
  simp only [Tree.attr] at hs hk
  have hcall : lang.isCall a.kind = false := by
    cases hc : lang.isCall a.kind with
    | false => rfl
    | true => exact absurd (isCall_iff.mp hc) (access_not_call hk)
  obtain ⟨j, hj, ho⟩ := (hf.grammar q _ hx).field hs hcall _ _ (field_some hk)
  obtain ⟨b, hb, hb'⟩ := baseIdx_iff (x := .node a cs) hj
  have hname : childByField cs (k "name") = some f := childByField_iff (x := .node a cs).mpr hfc
  have hj : baseIdx a.kind cs = some j := hj
  have hb : cs[j]? = some b := hb
  refine ⟨b, f, ⟨hk, hb', hfc⟩, ?_⟩
  rw [lower_eq, mkNode]
  simp only [hs, hcall, Bool.false_eq_true, if_false, field_some hk, hj, hname, Option.map_some, List.getElem?_map, hb]
  rfl

/-- The parts of a call. -/
theorem low_call {q x} (hx : Within none file q x) (hk : x.attr.kind ∈ calls) :
    (∃ b f args, MemberCall x b f ∧ lower lang q x = .call (exprInfo lang x.attr) none
      (.field (exprInfo lang x.attr) (some f.attr.text) (lower lang (some x.attr.kind) b)) args) ∨
    ∃ f args, x.attr.kind = "function_call_expression".toList ∧ FieldChild x "function".toList f ∧
      lower lang q x = .call (exprInfo lang x.attr) (some f.attr.text) (lower lang (some x.attr.kind) f) args := by
  have hs := notStmt hf hx (List.mem_append_left _ (List.mem_append_right _ hk))
  obtain ⟨h1, h2⟩ := (hf.grammar q _ hx).call hs (isCall_iff.mpr hk)
  rcases List.mem_cons.mp hk with hfn | hmc
  · right
    obtain ⟨a, cs⟩ := x
    have hcl : lang.callee a cs = .child (childIdx cs (k "function")) := by
      simp only [lang]; exact if_pos hfn
    simp only [Tree.attr, Tree.children, hcl, Callee.idx] at h1
    obtain ⟨f, hb, hb'⟩ := childIdx_iff (x := .node a cs) h1
    have hb : cs[0]? = some f := hb
    have hname : childByField cs (k "function") = some f := childByField_iff (x := .node a cs).mpr hb'
    have hs : lang.isStmt q a = false := hs
    have hcall : lang.isCall a.kind = true := isCall_iff.mpr hk
    refine ⟨f, (cs.map (lower lang (some a.kind))).eraseIdx 0, hfn, hb', ?_⟩
    rw [lower_eq, mkNode]
    simp only [hs, hcall, Bool.false_eq_true, if_false, if_true, calleeOf, hcl, Callee.idx, h1, Option.bind_some,
      List.getElem?_map, hb, Option.map_some]
    have hcn : lang.callName a cs = some f.attr.text := by
      simp only [lang]
      rw [if_pos (show a.kind = k "function_call_expression" from hfn), hname, Option.map_some]
    rw [hcn]
    rfl
  · left
    obtain ⟨f, hfc⟩ := hf.name q x hx (List.mem_append_right _ hmc)
    obtain ⟨a, cs⟩ := x
    have hnf : ¬ a.kind = k "function_call_expression" := by
      intro h
      have hmc : a.kind ∈ memberCalls := hmc
      rw [h] at hmc; revert hmc; decide +kernel
    have hname : childByField cs (k "name") = some f := childByField_iff (x := .node a cs).mpr hfc
    have hcl : lang.callee a cs = .virtualField (baseIdx a.kind cs) (some f.attr.text) := by
      simp only [lang]
      rw [if_neg hnf, hname, Option.map_some]
    simp only [Tree.attr, Tree.children, hcl, Callee.idx] at h1
    obtain ⟨b, hb, hb'⟩ := baseIdx_iff (x := .node a cs) h1
    have hb : cs[0]? = some b := hb
    have hs : lang.isStmt q a = false := hs
    have hcall : lang.isCall a.kind = true := isCall_iff.mpr hk
    refine ⟨b, f, (cs.map (lower lang (some a.kind))).eraseIdx 0, ⟨hmc, hb', hfc⟩, ?_⟩
    rw [lower_eq, mkNode]
    simp only [hs, hcall, Bool.false_eq_true, if_false, if_true, calleeOf, hcl, Callee.idx, h1, Option.bind_some,
      List.getElem?_map, hb, Option.map_some]
    have hcn : lang.callName a cs = none := by
      simp only [lang]
      rw [if_neg hnf]
    rw [hcn]
    rfl

omit hf in
theorem low_call_inv {q x i cn callee args} (h : lower lang q x = .call i cn callee args) : x.attr.kind ∈ calls :=
  isCall_iff.mp (lower_call h).2.1

omit hf in
theorem low_field_inv {q x i n b} (h : lower lang q x = .field i n b) : x.attr.kind ∈ accesses := by
  refine Decidable.byContradiction fun hk => ?_
  obtain ⟨_, c, h1, _⟩ := lower_field h
  rw [field_none hk] at h1
  cases h1

theorem low_isCall {q x} (hx : Within none file q x) : IsCall (lower lang q x) ↔ x.attr.kind ∈ calls := by
  constructor
  · rintro (⟨_, _, _, _, h⟩ | ⟨i, n, args, h⟩)
    · exact low_call_inv h
    · exact absurd h ((lower_plain _ _ _).2.1 i n args)
  · intro h
    rcases low_call hf hx h with ⟨b, f, args, _, h⟩ | ⟨f, args, _, _, h⟩ <;> exact Or.inl ⟨_, _, _, _, h⟩

theorem low_name {q x name} (hx : Within none file q x) :
    (lower lang q x).info.name = some name ↔ x.attr.kind ∈ names ∧ x.attr.text = name := by
  cases hs : lang.isStmt q x.attr with
  | true =>
    have hne : x.attr.kind ∉ names := by
      intro h
      rw [notStmt hf hx (List.mem_append_right _ h)] at hs; cases hs
    constructor
    · intro h
      rcases stmt_lower (L := lang) (q := q) (x := x) hs with ⟨_, h'⟩ | ⟨_, h'⟩
      · rw [h'] at h; cases h
      · rw [h'] at h; cases h
    · exact fun h => absurd h.1 hne
  | false =>
    rw [lower_info (L := lang) hs, mem_names]
    simp only [exprInfo, lang]
    constructor
    · intro h
      split at h
      · rename_i hk; exact ⟨hk, Option.some.inj h⟩
      · cases h
    · rintro ⟨h1, h2⟩
      rw [if_pos h1, h2]

theorem Access.low {q x b f} (hx : Within none file q x) (h : Access x b f) :
    lower lang q x = .field (exprInfo lang x.attr) (some f.attr.text) (lower lang (some x.attr.kind) b) := by
  obtain ⟨b', f', h1, h2⟩ := low_access hf hx h.1
  rw [h.2.1.unique h1.2.1, FieldChild.unique h.2.2 h1.2.2]
  exact h2

omit hf in
theorem Base.within {q x b} (hx : Within none file q x) (h : Base x b) : Within none file (some x.attr.kind) b :=
  within_child hx (FieldChild.mem h)

theorem Makes.head {q x c} (hx : Within none file q x) (h : Makes x c) :
    ∃ r, Head (lower lang q x) (lower lang r c) ∧ Within none file r c := by
  induction h generalizing q with
  | @call c hc => exact ⟨q, .call ((low_isCall hf hx).mpr hc), hx⟩
  | access hs _ ih =>
    obtain ⟨r, h1, h2⟩ := ih (Base.within hx hs.2.1)
    rw [Access.low hf hx hs]
    exact ⟨r, .field h1, h2⟩

theorem head_makes {n h} (hh : Head n h) {q x} (hx : Within none file q x) (hn : n = lower lang q x) :
    ∃ c r, h = lower lang r c ∧ Makes x c ∧ Within none file r c := by
  induction hh generalizing q x with
  | call hc =>
    subst hn
    exact ⟨x, q, rfl, .call ((low_isCall hf hx).mp hc), hx⟩
  | await _ => exact absurd hn.symm ((lower_plain _ _ _).2.2 _ _)
  | field hb ih =>
    obtain ⟨b, f, h1, h2⟩ := low_access hf hx (low_field_inv hn.symm)
    rw [h2] at hn
    cases hn
    obtain ⟨c, r, a1, a2, a3⟩ := ih (Base.within hx h1.2.1) rfl
    exact ⟨c, r, a1, .access h1 a2, a3⟩

theorem Selects.path {q x base p} (hx : Within none file q x) (h : Selects x base p) :
    ∃ r, Path (lower lang q x) (lower lang r base) p ∧ Within none file r base := by
  induction h generalizing q with
  | base hk => exact ⟨q, .base fun i n b h => hk (low_field_inv h), hx⟩
  | access hs _ ih =>
    obtain ⟨r, h1, h2⟩ := ih (Base.within hx hs.2.1)
    rw [Access.low hf hx hs]
    exact ⟨r, .field h1, h2⟩

theorem path_selects {n b p} (h : Path n b p) {q x} (hx : Within none file q x) (hn : n = lower lang q x) :
    ∃ base r, b = lower lang r base ∧ Selects x base p ∧ Within none file r base := by
  induction h generalizing q x with
  | base hb =>
    subst hn
    refine ⟨x, q, rfl, .base fun hk => ?_, hx⟩
    obtain ⟨b, f, _, h2⟩ := low_access hf hx hk
    exact hb _ _ _ h2
  | field _ ih =>
    obtain ⟨b, f, h1, h2⟩ := low_access hf hx (low_field_inv hn.symm)
    rw [h2] at hn
    cases hn
    obtain ⟨base, r, a1, a2, a3⟩ := ih (Base.within hx h1.2.1) rfl
    exact ⟨base, r, a1, .access h1 a2, a3⟩

omit hf in
theorem Chain.call {c base p} (h : Chain c base p) : c.attr.kind ∈ calls := by
  rcases h with ⟨_, _, _, h, _⟩ | ⟨_, _, h, _⟩
  · exact List.mem_cons_of_mem _ h.1
  · rw [h]; exact List.mem_cons_self

theorem Chain.low {q c base p} (hx : Within none file q c) (h : Chain c base p) :
    ∃ r, MethodCall (lower lang q c) (lower lang r base) p ∧ Within none file r base := by
  have hk := h.call
  rcases h with ⟨b, f, p', hm, hs, rfl⟩ | ⟨hp, f, hfn, hfc, hs⟩
  · rcases low_call hf hx hk with ⟨b', f', args, hm', h1⟩ | ⟨f', args, hk', _⟩
    · obtain rfl := hm.2.1.unique hm'.2.1
      obtain rfl := FieldChild.unique hm.2.2 hm'.2.2
      obtain ⟨r, h2, h3⟩ := Selects.path hf (Base.within hx hm.2.1) hs
      exact ⟨r, ⟨by simp, _, _, _, _, h1, .field h2⟩, h3⟩
    · have := hm.1
      rw [hk'] at this; exact absurd this (by decide +kernel)
  · rcases low_call hf hx hk with ⟨b', f', args, hm', h1⟩ | ⟨f', args, hk', hfc', h1⟩
    · have := hm'.1
      rw [hfn] at this; exact absurd this (by decide +kernel)
    · obtain rfl := FieldChild.unique hfc hfc'
      obtain ⟨r, h2, h3⟩ := Selects.path hf (within_child hx hfc.mem) hs
      exact ⟨r, ⟨hp, _, _, _, _, h1, h2⟩, h3⟩

theorem methodCall_chain {q c b p} (hx : Within none file q c) (h : MethodCall (lower lang q c) b p) :
    ∃ base r, b = lower lang r base ∧ Chain c base p ∧ Within none file r base := by
  obtain ⟨hp, i, cn, callee, args, h1, h2⟩ := h
  rcases low_call hf hx (low_call_inv h1) with ⟨b', f', args, hm', h3⟩ | ⟨f', args, hk', hfc', h3⟩
  · rw [h3] at h1
    cases h1
    cases h2 with
    | base hb => exact absurd rfl hp
    | field h2 =>
      obtain ⟨base, r, a1, a2, a3⟩ := path_selects hf h2 (Base.within hx hm'.2.1) rfl
      exact ⟨base, r, a1, Or.inl ⟨_, _, _, hm', a2, rfl⟩, a3⟩
  · rw [h3] at h1
    cases h1
    obtain ⟨base, r, a1, a2, a3⟩ := path_selects hf h2 (within_child hx hfc'.mem) rfl
    exact ⟨base, r, a1, Or.inr ⟨hp, f', hk', hfc', a2⟩, a3⟩

theorem IgnoredFunction.low {config c} (h : IgnoredFunction config c) {q} (hx : Within none file q c) :
    ∃ x, Innermost (lower lang q c) x ∧ Visit.IgnoredFunction config x := by
  induction h generalizing q with
  | @function c f hk hfc hna hi =>
    rcases low_call hf hx (by rw [hk]; exact List.mem_cons_self) with ⟨b', f', args, hm', h1⟩ | ⟨f', args, hk', hfc', h1⟩
    · have := hm'.1
      rw [hk] at this; exact absurd this (by decide +kernel)
    · obtain rfl := FieldChild.unique hfc hfc'
      have hnf : ∀ j field b, lower lang (some c.attr.kind) f ≠ .field j (some field) b := fun j field b h => hna (low_field_inv h)
      refine ⟨lower lang q c, .here (Or.inl ⟨_, _, _, _, h1⟩) ?_, ?_⟩
      · rintro base p ⟨hp, i, cn, callee, as, h2, h3⟩ _
        rw [h1] at h2
        cases h2
        generalize hn : lower lang (some c.attr.kind) f = n at h3
        cases h3 with
        | base _ => exact hp rfl
        | field _ => exact hnf _ _ _ hn
      · rw [h1]; exact .function hnf hi
  | @path c base p hm hk hi =>
    obtain ⟨r, h1, h2⟩ := Chain.low hf hx hm
    have hnc : ¬ IsCall (lower lang r base) := by
      rw [low_isCall hf h2]; exact (name_not hk).1
    have hc : IsCall (lower lang q c) := (low_isCall hf hx).mpr hm.call
    refine ⟨lower lang q c, .here hc fun base' p' h' => ?_, .path h1 hnc ((low_name hf h2).mpr ⟨hk, rfl⟩) hi⟩
    rw [(h1.unique h').1] at hnc; exact hnc
  | @chain c base p hm hi ih =>
    obtain ⟨r, h1, h2⟩ := Chain.low hf hx hm
    obtain ⟨x, h3, h4⟩ := ih h2
    have hc : IsCall (lower lang r base) := by
      cases h3 with
      | here h _ => exact h
      | there h _ _ => obtain ⟨_, _, _, _, _, h, _⟩ := h; exact Or.inl ⟨_, _, _, _, h⟩
    exact ⟨x, .there h1 hc h3, h4⟩

theorem ignoredFunction_low {config n x} (h : Innermost n x) (hi : Visit.IgnoredFunction config x) {q c}
    (hx : Within none file q c) (hn : n = lower lang q c) : IgnoredFunction config c := by
  induction h generalizing q c with
  | here hc hno =>
    subst hn
    generalize hn : lower lang q c = n at hi hno
    cases hi with
    | @function i name callee args hnf hi =>
      rcases low_call hf hx (low_call_inv hn) with ⟨b', f', args, hm', h2⟩ | ⟨f', args, hk', hfc', h2⟩
      · rw [hn] at h2; cases h2
      · rw [hn] at h2
        cases h2
        refine .function hk' hfc' (fun hk => ?_) hi
        obtain ⟨b, g, _, h3⟩ := low_access hf (within_child hx hfc'.mem) hk
        exact hnf _ _ _ h3
    | macro_ _ => exact absurd hn ((lower_plain _ _ _).2.1 _ _ _)
    | @path _ base p name hm hb hname hi =>
      subst hn
      obtain ⟨base', r, rfl, h2, h3⟩ := methodCall_chain hf hx hm
      obtain ⟨a1, a2⟩ := (low_name hf h3).mp hname
      subst a2
      exact .path h2 a1 hi
  | there hm _ _ ih =>
    subst hn
    obtain ⟨base', r, hb, h2, h3⟩ := methodCall_chain hf hx hm
    exact .chain h2 (ih hi h3 hb)

/-- Ignored calls are the ignored calls. -/
theorem ignored_iff {config q c} (hx : Within none file q c) : IgnoredCall config (lower lang q c) ↔ Ignored config c := by
  constructor
  · rintro (⟨x, h1, h2⟩ | ⟨base, p, h1, h2, h3⟩)
    · exact Or.inl (ignoredFunction_low hf h1 h2 hx rfl)
    · obtain ⟨base', r, rfl, a2, a3⟩ := methodCall_chain hf hx h1
      refine Or.inr ⟨base', p, a2, fun hk => ?_, h2⟩
      rcases low_call hf a3 hk with ⟨_, _, _, _, h4⟩ | ⟨_, _, _, _, h4⟩ <;> exact h3 _ _ _ _ h4
  · rintro (h | ⟨base, p, h1, h2, h3⟩)
    · exact Or.inl (IgnoredFunction.low hf h hx)
    · obtain ⟨r, a1, a2⟩ := Chain.low hf hx h1
      exact Or.inr ⟨_, p, a1, h3, fun i cn callee args h => h2 (low_call_inv h)⟩

end Necessist.TS.Php
