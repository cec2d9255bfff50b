import Verif.Lemmas.PhpVisitor
import Verif.Props.GoVisitor
/-!
# PHP: what the candidates are (C71)
-/
namespace Necessist.TS.Php
open Visit
open Go (k within_child FieldChild.unique)

theorem tests_iff {file : Tree} {d : Decl} : d ∈ tests file ↔ Method file d.name d.body ∧ IsTest d.name := by
  unfold tests IsTest
  rw [List.mem_filter, mem_decls_iff]
  simp only [List.isPrefixOf_iff_prefix]
  rfl

variable {file : Tree} (hf : PhpFile file)
include hf

theorem tests_ok : ∀ d ∈ tests file, DeclOk lang d := fun _ hd =>
  Declares.bodyOk (tests_iff.mp hd).1 hf.grammar (hf.braces _ _ (tests_iff.mp hd).1)

omit hf in
theorem locals_ok : ∀ d ∈ ([] : List Decl), DeclOk lang d := fun _ hd => by cases hd
omit hf in
theorem ids_ok : IdsFaithful ([] : List Decl) := fun _ hd => by cases hd

/-- A visit that ends is a visit by the generic visitor. -/
theorem refines {config skip trim fuel rounds st walked} (h : visitFile config skip trim fuel rounds file = .done st walked) :
    Visit.visitFile (visitorCfg lang config skip trim []) rounds (lowerTests lang last (tests file)) = .done st walked :=
  visit_done (tests_ok hf) locals_ok ids_ok h (by simp)

omit hf in
theorem body_within {name body} (h : Method file name body) {q x} (hx : InBody body q x) : Within none file q x := by
  obtain ⟨c, hc, hw⟩ := hx
  obtain ⟨r, hr⟩ := Declares.within h
  exact (within_child hr hc).trans hw

omit hf in
theorem inTest {config skip trim t l n}
    (h : InTest (visitorCfg lang config skip trim []) (lowerTests lang last (tests file)) t l n) :
    config.isIgnoredTest t = false ∧ ∃ body, Method file t body ∧ IsTest t ∧ l = last body ∧
      ∃ c ∈ body.children, Origin lang (some body.attr.kind) c n := by
  obtain ⟨h1, cs, h2, m, hm, hs⟩ := h
  obtain ⟨d, hd, rfl, rfl, rfl⟩ := world_test h2
  obtain ⟨h3, h4⟩ := tests_iff.mp hd
  exact ⟨h1, d.body, h3, h4, rfl, body_sub hm hs.sub⟩

omit hf in
theorem origin_inBody {body : Tree} {n : Node} (h : ∃ c ∈ body.children, Origin lang (some body.attr.kind) c n)
    (hn : ∀ i name b, n ≠ .field i name b) : ∃ q x, InBody body q x ∧ n = lower lang q x := by
  obtain ⟨c, hc, ⟨q, x, h, rfl⟩ | ⟨i, name, q, x, _, rfl⟩⟩ := h
  · exact ⟨q, x, ⟨c, hc, h⟩, rfl⟩
  · exact absurd rfl (hn _ _ _)

omit hf in
/-- There are no functions to go into. -/
theorem no_calls {config skip trim n f} : ¬ Calls (visitorCfg lang config skip trim []) n f := by
  rintro ⟨_, _, _, _, _, _, _, _, h⟩
  cases h

omit hf in
theorem no_exercises {config skip trim t f w} : ¬ Exercises (visitorCfg lang config skip trim []) w t f := by
  intro h
  cases h with
  | direct _ hc => exact no_calls hc
  | via _ _ hc => exact no_calls hc

omit hf in
theorem last_iff {block : Tree} {n : Nat} : last block = some n ↔ ∃ x, IsLast block x ∧ x.attr.id = n := by
  unfold last
  rw [Option.map_eq_some_iff]
  constructor
  · rintro ⟨x, h, rfl⟩
    refine ⟨x, ?_, rfl⟩
    obtain ⟨l, hl⟩ := List.getLast?_eq_some_iff.mp h
    obtain ⟨l1, l2, h1, h2, h3⟩ := List.filter_eq_append_iff.mp hl
    obtain ⟨l3, l4, rfl, h4, h5, h6⟩ := List.filter_eq_cons_iff.mp h3
    refine ⟨l1 ++ l3, l4, by rw [h1]; simp, by simpa using h5, fun c hc => ?_⟩
    have := List.filter_eq_nil_iff.mp h6 c hc
    simpa using this
  · rintro ⟨x, ⟨before, after, h1, h2, h3⟩, rfl⟩
    refine ⟨x, ?_, rfl⟩
    have e2 : after.filter (fun c => c.attr.named && !c.attr.extra) = [] := by
      rw [List.filter_eq_nil_iff]
      intro c hc
      have := h3 c hc
      simpa using this
    rw [h1, List.filter_append, List.filter_cons, if_pos (by simpa using h2), e2]
    simp

omit hf in
/-- What is covered, in terms of the file. -/
theorem covers {config skip trim t l n}
    (h : Visit.Covers (visitorCfg lang config skip trim []) (lowerTests lang last (tests file)) t l n)
    (hn : ∀ i name b, n ≠ .field i name b) :
    ∃ body q x, Method file t body ∧ InBody body q x ∧ n = lower lang q x ∧ l = last body := by
  rcases h with h | ⟨rfl, f, he, _⟩
  · obtain ⟨_, body, h1, _, rfl, h2⟩ := inTest h
    obtain ⟨q, x, hx, rfl⟩ := origin_inBody h2 hn
    exact ⟨body, q, x, h1, hx, rfl, rfl⟩
  · exact absurd he no_exercises

omit hf in
theorem firstNamed_iff {x e : Tree} : ((firstNamed x.children).bind fun i => x.children[i]?) = some e ↔
    ∃ before after, x.children = before ++ e :: after ∧ e.attr.named = true ∧ ∀ b ∈ before, b.attr.named = false := by
  unfold firstNamed
  constructor
  · intro h
    obtain ⟨j, h1, h2⟩ := Option.bind_eq_some_iff.mp h
    obtain ⟨hj, h3, h4⟩ := List.findIdx?_eq_some_iff_getElem.mp h1
    have hc : x.children[j] = e := by
      rw [List.getElem?_eq_getElem hj] at h2; exact Option.some.inj h2
    rw [hc] at h3
    refine ⟨x.children.take j, x.children.drop (j + 1), ?_, h3, ?_⟩
    · rw [← hc, List.getElem_cons_drop, List.take_append_drop]
    · intro b hb
      obtain ⟨i, hi, rfl⟩ := List.mem_iff_getElem.mp hb
      simp only [List.length_take] at hi
      have := h4 i (by omega)
      simpa using this
  · rintro ⟨before, after, h1, h2, h3⟩
    have hfi : x.children.findIdx? (·.attr.named) = some before.length := by
      rw [List.findIdx?_eq_some_iff_getElem]
      refine ⟨by rw [h1]; simp, by simp [h1, h2], fun j hj => ?_⟩
      have : (x.children[j]'(by rw [h1]; simp; omega)) = before[j] := by simp [h1, hj]
      rw [this]
      have := h3 before[j] (by simp)
      simpa using this
    rw [hfi, h1]
    simp

omit hf in
theorem expr_low {q x e} (hs : IsStatement q x) (he : Expr x e) :
    lower lang q x = .exprStmt (info lang x.attr x.children) (lower lang (some x.attr.kind) e) := by
  obtain ⟨hk, hn⟩ := he
  have hfi := firstNamed_iff.mpr hn
  obtain ⟨j, h1, h2⟩ := Option.bind_eq_some_iff.mp hfi
  have hs := isStmt_iff.mpr hs
  obtain ⟨a, cs⟩ := x
  have hs' : lang.isStmt q a = true := hs
  have hk : a.kind = k "expression_statement" := hk
  have h1 : firstNamed cs = some j := h1
  have h2 : cs[j]? = some e := h2
  have hex : lang.expr a cs = some j := by
    simp only [lang]
    rw [if_pos hk, h1]
  rw [lower_eq, mkNode, if_pos hs', exprOf, hex]
  simp only [Option.bind_some, List.getElem?_map, h2, Option.map_some]
  rfl

omit hf in
theorem low_expr {q x s e'} (h : lower lang q x = .exprStmt s e') :
    ∃ e, Expr x e ∧ e' = lower lang (some x.attr.kind) e ∧ e ∈ x.children := by
  obtain ⟨j, c, h1, h2, rfl⟩ := lower_exprStmt h
  simp only [lang] at h1
  split at h1
  · rename_i hk
    refine ⟨c, ⟨hk, firstNamed_iff.mp (by rw [h1]; exact h2)⟩, rfl, List.mem_of_getElem? h2⟩
  · cases h1

omit hf in
theorem throw_iff {x : Tree} : (match (firstNamed x.children).bind fun i => x.children[i]? with
      | some c => c.attr.kind == k "throw_expression"
      | none => false) = true ↔
    ∃ e, (∃ before after, x.children = before ++ e :: after ∧ e.attr.named = true ∧ ∀ b ∈ before, b.attr.named = false) ∧
      e.attr.kind = "throw_expression".toList := by
  constructor
  · intro h
    cases he : (firstNamed x.children).bind fun i => x.children[i]? with
    | none => rw [he] at h; cases h
    | some e => rw [he] at h; exact ⟨e, firstNamed_iff.mp he, eq_of_beq h⟩
  · rintro ⟨e, h1, h2⟩
    rw [firstNamed_iff.mpr h1]
    exact beq_iff_eq.mpr h2

omit hf in
theorem never_iff {x : Tree} : lang.control x.attr x.children = false ∧ lang.declaration x.attr = false ↔ ¬ NeverRemoved x := by
  have key : (lang.control x.attr x.children = true ∨ lang.declaration x.attr = true) ↔ NeverRemoved x := by
    simp only [lang, Bool.or_eq_true, Bool.and_eq_true, beq_iff_eq]
    unfold NeverRemoved Expr
    rw [List.mem_cons, List.mem_cons, List.mem_cons, List.mem_cons, List.mem_cons, List.mem_cons, List.mem_singleton]
    constructor
    · rintro ((((h | h) | h) | ⟨h, h'⟩) | (((h | h) | h) | h))
      · exact Or.inl (Or.inl h)
      · exact Or.inl (Or.inr (Or.inl h))
      · exact Or.inl (Or.inr (Or.inr (Or.inl h)))
      · obtain ⟨e, h1, h2⟩ := throw_iff.mp h'
        exact Or.inr ⟨e, ⟨h, h1⟩, h2⟩
      · exact Or.inl (Or.inr (Or.inr (Or.inr (Or.inl h))))
      · exact Or.inl (Or.inr (Or.inr (Or.inr (Or.inr (Or.inl h)))))
      · exact Or.inl (Or.inr (Or.inr (Or.inr (Or.inr (Or.inr (Or.inl h))))))
      · exact Or.inl (Or.inr (Or.inr (Or.inr (Or.inr (Or.inr (Or.inr h))))))
    · rintro ((h | h | h | h | h | h | h) | ⟨e, ⟨h, h1⟩, h2⟩)
      · exact Or.inl (Or.inl (Or.inl (Or.inl h)))
      · exact Or.inl (Or.inl (Or.inl (Or.inr h)))
      · exact Or.inl (Or.inl (Or.inr h))
      · exact Or.inr (Or.inl (Or.inl (Or.inl h)))
      · exact Or.inr (Or.inl (Or.inl (Or.inr h)))
      · exact Or.inr (Or.inl (Or.inr h))
      · exact Or.inr (Or.inr h)
      · exact Or.inl (Or.inr ⟨h, throw_iff.mpr ⟨e, h1, h2⟩⟩)
  rw [← key, not_or, Bool.not_eq_true, Bool.not_eq_true]

omit hf in
theorem low_span {q x} : (lower lang q x).info.span = x.attr.span := by
  cases hs : lang.isStmt q x.attr with
  | true =>
    rcases stmt_lower (L := lang) (q := q) (x := x) hs with ⟨_, h⟩ | ⟨_, h⟩ <;> rw [h] <;> rfl
  | false => rw [lower_info (L := lang) hs]; rfl

/-- **C71.** A PHP file is always dealt with: the visit does not panic … -/
theorem C71_no_panic (config : Compiled) (skip trim) (fuel rounds : Nat) :
    visitFile config skip trim fuel rounds file ≠ .panic :=
  no_panic (tests_ok hf) locals_ok ids_ok last fuel rounds

/-- **C71.** … and it ends. -/
theorem C71_ends (config : Compiled) (skip trim) (rounds : Nat) :
    ∃ N st walked, ∀ fuel, N ≤ fuel → visitFile config skip trim fuel rounds file = .done st walked :=
  ends (tests_ok hf) locals_ok ids_ok last rounds (Nat.zero_le _)

/-- **C71.** The tests are the methods whose names begin with `test`, except those that the configuration ignores. -/
theorem C71_tests {config skip trim fuel rounds st walked} (h : visitFile config skip trim fuel rounds file = .done st walked)
    (t : Text) : t ∈ st.testSet ↔ IsTest t ∧ (∃ body, Method file t body) ∧ config.isIgnoredTest t = false := by
  have hr := refines hf h
  constructor
  · intro ht
    obtain ⟨h1, l, cs, h2⟩ := C38_tests_sound hr ht
    obtain ⟨d, hd, rfl, _⟩ := world_test h2
    obtain ⟨h3, h4⟩ := tests_iff.mp hd
    exact ⟨h4, ⟨d.body, h3⟩, h1⟩
  · rintro ⟨h1, ⟨body, h2⟩, h3⟩
    have hd : (⟨t, body⟩ : Decl) ∈ tests file := tests_iff.mpr ⟨h2, h1⟩
    exact C38_tests_complete hr (List.mem_map.mpr ⟨_, hd, rfl⟩) (.refl _) h3

/-- **C71.** A statement that is to be removed is a statement of a block of a test, which is not the last one of the test. It is not
suppressed; and it is either no call, and then no control statement, `throw` or declaration, or a call that is not ignored. -/
theorem C71_statements {config skip trim fuel rounds st walked} (h : visitFile config skip trim fuel rounds file = .done st walked)
    {span t} (hc : (span, t) ∈ st.statements) :
    IsTest t ∧ config.isIgnoredTest t = false ∧ skip span = false ∧
    ∃ body q x, Method file t body ∧ InBody body q x ∧ IsStatement q x ∧ ¬ IsLast body x ∧ x.attr.span = span ∧
      (((∀ e c, Expr x e → ¬ Makes e c) ∧ ¬ NeverRemoved x) ∨
       ∃ e c, Expr x e ∧ Makes e c ∧ ¬ Ignored config c) := by
  have hr := refines hf h
  have hk : KeysFaithful (visitorCfg lang config skip trim []) := keysFaithful ids_ok
  obtain ⟨h1, h2⟩ := (C38_only hk hr (Or.inl hc)).1
  obtain ⟨l, n, s, h3, ⟨h4, h5, h6, h7⟩, rfl, h9⟩ := C38_statements hk hr hc
  have hn : ∀ i name b, n ≠ .field i name b := by
    rintro i name b rfl
    rcases h4 with ⟨_, h⟩ | ⟨_, h⟩ <;> cases h
  obtain ⟨body, q, x, hb, hin, rfl, rfl⟩ := covers h3 hn
  have hx := body_within hb hin
  obtain ⟨hs, rfl⟩ := lower_stmt h4
  have hs := isStmt_iff.mp hs
  refine ⟨((C71_tests hf h t).mp h1).1, h2, h7, body, q, x, hb, hin, hs, fun hl => h6 (last_iff.mpr ⟨x, hl, rfl⟩), rfl, ?_⟩
  rcases h9 with ⟨a1, a2, a3⟩ | ⟨e', h', a1, a2, a3⟩
  · refine Or.inl ⟨fun e c he hm => ?_, never_iff.mp ⟨a2, a3⟩⟩
    have hce : Within none file (some x.attr.kind) e := by
      obtain ⟨_, before, after, hch, _⟩ := he
      exact within_child hx (by rw [hch]; simp)
    exact a1 _ _ _ (expr_low hs he) (Makes.head hf hce hm).choose_spec.1
  · obtain ⟨e, he, rfl, hmem⟩ := low_expr a1
    obtain ⟨c, r, rfl, hm, hw⟩ := head_makes hf a2 (within_child hx hmem) rfl
    exact Or.inr ⟨e, c, he, hm, fun hi => a3 ((ignored_iff hf hw).mpr hi)⟩

/-- **C71.** A method call that is to be removed is the last one, `->p₁->…->pₖ(…)`, of a call `base->p₁->…->pₖ(…)` of a test;
neither the method nor the call is ignored, and it is not suppressed. -/
theorem C71_methods {config skip trim fuel rounds st walked} (h : visitFile config skip trim fuel rounds file = .done st walked)
    {span t} (hc : (span, t) ∈ st.methodCalls) :
    IsTest t ∧ config.isIgnoredTest t = false ∧ skip span = false ∧
    ∃ body q c base p, Method file t body ∧ InBody body q c ∧ Chain c base p ∧
      ¬ Ignored config c ∧ config.isIgnoredMethod (dotted p) = false ∧
      span = trim { c.attr.span with start := base.attr.span.stop } := by
  have hr := refines hf h
  have hk : KeysFaithful (visitorCfg lang config skip trim []) := keysFaithful ids_ok
  obtain ⟨h1, h2⟩ := (C38_only hk hr (Or.inr hc)).1
  obtain ⟨hskip, l, n, i, base, p, cn, callee, args, rfl, h3, h4, h5, h6, h7⟩ := C38_methods hk hr hc
  refine ⟨((C71_tests hf h t).mp h1).1, h2, hskip, ?_⟩
  obtain ⟨body, q, x, hb, hx, hn, _⟩ := covers h3 (by simp)
  have hw := body_within hb hx
  rw [hn] at h4 h5
  obtain ⟨b, r, rfl, hm, hwb⟩ := methodCall_chain hf hw h4
  have hi : i = exprInfo lang x.attr := (lower_call hn.symm).2.2.1
  refine ⟨body, q, x, b, p, hb, hx, hm, fun h => h5 ((ignored_iff hf hw).mpr h), h6, ?_⟩
  rw [h7, low_span, hi]
  rfl

/-- What is visible is seen. -/
theorem visible_seen {config skip trim name body q x} (hb : Method file name body) (hv : Visible config body q x)
    (hs : IsStatement q x ∨ x.attr.kind ∈ calls) :
    InBody body q x ∧ ∃ m ∈ lowerAll lang body.attr.kind body.children,
      Seen (visitorCfg lang config skip trim []) m (lower lang q x) := by
  obtain ⟨c, hc, hcl⟩ := hv
  have hin : InBody body q x := ⟨c, hc, clear_within hcl⟩
  refine ⟨hin, lower lang (some body.attr.kind) c, by rw [lowerAll_eq]; exact List.mem_map.mpr ⟨c, hc, rfl⟩, ?_⟩
  obtain ⟨r, hr⟩ := Declares.within hb
  have hwc := within_child hr hc
  refine clear_seen rfl hcl (fun q' y hy => hf.grammar q' y (hwc.trans hy)) ?_ ?_
  · intro q' y hy hnb hns hcy
    have hw := hwc.trans hy
    cases hva : config.visitIgnoredArguments with
    | true => exact Or.inr hva
    | false =>
      left
      have hk : y.attr.kind ∈ calls := isCall_iff.mp hcy
      rintro (hi | ⟨base, p, hm, hi⟩)
      · exact hnb ⟨hk, hva, Or.inl ((ignored_iff hf hw).mp hi)⟩
      · obtain ⟨b, _, _, hm', _⟩ := methodCall_chain hf hw hm
        exact hnb ⟨hk, hva, Or.inr ⟨b, p, hm', hi⟩⟩
  · exact hs.imp isStmt_iff.mpr isCall_iff.mpr

omit hf in
theorem testPart {config skip trim t body} (ht : IsTest t) (hb : Method file t body) (hi : config.isIgnoredTest t = false) {m}
    (hm : m ∈ lowerAll lang body.attr.kind body.children) :
    TestPart (visitorCfg lang config skip trim []) (lowerTests lang last (tests file)) t (last body) m := by
  have hd : (⟨t, body⟩ : Decl) ∈ tests file := tests_iff.mpr ⟨hb, ht⟩
  exact ⟨hi, _, ⟨_, List.mem_map.mpr ⟨_, hd, rfl⟩, .refl _⟩, hm⟩

omit hf in
theorem simple_noInner {q x} (hs : Simple x) : NoInnerStmt (lower lang q x) := by
  refine noInner fun c hc r y hy => ?_
  have := hs r y ⟨c, hc, hy⟩
  cases h : lang.isStmt r y.attr with
  | false => rfl
  | true => exact absurd (isStmt_iff.mp h) this

omit hf in
theorem isLast_within {name body x} (hb : Method file name body) (h : IsLast body x) : ∃ q, Within none file q x := by
  obtain ⟨before, after, e1, _⟩ := h
  obtain ⟨r, hr⟩ := Declares.within hb
  exact ⟨_, within_child hr (by rw [e1]; simp : x ∈ body.children)⟩

theorem plain_low {config skip trim q x l} (hx : Within none file q x) (hs : IsStatement q x) (hp : Plain config x)
    (hl : l ≠ some x.attr.id) (hskip : skip x.attr.span = false) :
    ∃ s, s.span = x.attr.span ∧ (PlainLeaf (visitorCfg lang config skip trim []) l (lower lang q x) s ∨
      PlainCall (visitorCfg lang config skip trim []) l (lower lang q x) s) := by
  refine ⟨info lang x.attr x.children, rfl, ?_⟩
  have hrem : Removable (visitorCfg lang config skip trim []) l (lower lang q x) (info lang x.attr x.children) :=
    ⟨stmt_lower (L := lang) (isStmt_iff.mpr hs), rfl, hl, hskip⟩
  rcases hp with ⟨h1, h2, h3⟩ | ⟨e, c, h1, h2, h3⟩
  · obtain ⟨h5, h6⟩ := never_iff.mpr h2
    refine Or.inl ⟨hrem, ?_, h5, h6, simple_noInner h1⟩
    intro s e' h hn hh
    obtain ⟨e, he, rfl, hmem⟩ := low_expr hn
    obtain ⟨c, _, _, hm, _⟩ := head_makes hf hh (within_child hx hmem) rfl
    exact h3 e c he hm
  · have hce : Within none file (some x.attr.kind) e := by
      obtain ⟨_, before, after, hch, _⟩ := id h1
      exact within_child hx (by rw [hch]; simp)
    obtain ⟨r, a1, a2⟩ := Makes.head hf hce h2
    exact Or.inr ⟨hrem, _, _, expr_low hs h1, a1, Or.inl rfl, fun h => h3 ((ignored_iff hf a2).mp h), fun f hc => no_calls hc⟩

/-- **C71.** No plain statement of a test is overlooked: neither one that is no call and contains no statements, nor a call that is
not ignored; except the test's last statement, and what is within ignored calls. -/
theorem C71_complete {config skip trim fuel rounds st walked} (h : visitFile config skip trim fuel rounds file = .done st walked)
    {t body q x} (ht : IsTest t) (hb : Method file t body) (hi : config.isIgnoredTest t = false) (hv : Visible config body q x)
    (hs : IsStatement q x) (hp : Plain config x) (hl : ¬ IsLast body x) (hskip : skip x.attr.span = false) :
    (x.attr.span, t) ∈ st.statements := by
  obtain ⟨hin, m, hm, hseen⟩ := visible_seen (skip := skip) (trim := trim) hf hb hv (Or.inl hs)
  have hx := body_within hb hin
  have hl : last body ≠ some x.attr.id := by
    intro h
    obtain ⟨y, h1, h2⟩ := last_iff.mp h
    obtain ⟨q', hy⟩ := isLast_within hb h1
    exact hl (hf.ids _ _ _ _ hy hx h2 ▸ h1)
  obtain ⟨s, h1, h2⟩ := plain_low (skip := skip) (trim := trim) hf hx hs hp hl hskip
  rw [← h1]
  exact (C36_test (refines hf h) (testPart ht hb hi hm) hseen h2).2

/-- **C71.** No method call of a test is overlooked, unless it is ignored or the test's last statement. -/
theorem C71_complete_methods {config skip trim fuel rounds st walked}
    (h : visitFile config skip trim fuel rounds file = .done st walked) {t body q c base p} (ht : IsTest t)
    (hb : Method file t body) (hi : config.isIgnoredTest t = false) (hv : Visible config body q c) (hm : Chain c base p)
    (hig : ¬ Ignored config c) (him : config.isIgnoredMethod (dotted p) = false)
    (hskip : skip (trim { c.attr.span with start := base.attr.span.stop }) = false)
    (hl : ∀ q x e c', InBody body q x → Expr x e → Makes e c' → c'.attr.span = c.attr.span → ¬ IsLast body x) :
    (trim { c.attr.span with start := base.attr.span.stop }, t) ∈ st.methodCalls := by
  obtain ⟨hin, m, hmm, hseen⟩ := visible_seen (skip := skip) (trim := trim) hf hb hv (Or.inr hm.call)
  have hwc := body_within hb hin
  obtain ⟨r, hmc, hwb⟩ := Chain.low hf hwc hm
  obtain ⟨i, cn, callee, args, hlow, hci⟩ : ∃ i cn callee args, lower lang q c = .call i cn callee args ∧ i = exprInfo lang c.attr := by
    rcases low_call hf hwc hm.call with ⟨_, _, _, _, h⟩ | ⟨_, _, _, _, h⟩ <;> exact ⟨_, _, _, _, h, rfl⟩
  have hni : ¬ Visit.Ignored config (lower lang q c) := by
    rintro (hi | ⟨b, p', hm', hi⟩)
    · exact hig ((ignored_iff hf hwc).mp hi)
    · rw [← (hmc.unique hm').2, him] at hi; cases hi
  rw [hlow] at hseen hmc hni
  have := C36_test_methods (refines hf h) (testPart ht hb hi hmm) hseen hmc hni (fun f => no_calls) (by
    rw [low_span, hci]; exact hskip) ?_
  · rw [low_span, hci] at this; exact this
  · intro s e hsub hhead
    rw [← hlow] at hhead
    obtain ⟨c0, hc0, ho⟩ := body_sub hmm hsub
    obtain ⟨q', x, hx, hn⟩ := origin_inBody ⟨c0, hc0, ho⟩ (by simp)
    obtain ⟨e0, he0, rfl, hmem⟩ := low_expr hn.symm
    have hwx := body_within hb hx
    obtain ⟨c', r', h1, h2, h3⟩ := head_makes hf hhead (within_child hwx hmem) rfl
    obtain ⟨hs, rfl⟩ := lower_stmt (L := lang) (q := q') (x := x) (Or.inr ⟨_, hn.symm⟩)
    refine ⟨rfl, fun hlast => ?_⟩
    obtain ⟨y, hy, hid⟩ := last_iff.mp hlast
    obtain rfl := hf.ids _ _ _ _ (isLast_within hb hy).choose_spec hwx hid
    refine hl q' y e0 c' hx he0 h2 ?_ hy
    rw [← low_span (q := r') (x := c'), ← low_span (q := q) (x := c), h1]

end Necessist.TS.Php
