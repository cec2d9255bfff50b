import Verif.Lemmas.GoVisitor
import Verif.Props.Visitor
/-!
# Go: what the candidates are (C70)
-/
namespace Necessist.TS.Go
open Visit

theorem fns_iff {file : Tree} {d : Decl} : d ∈ fns file ↔ Function file d.name d.body := mem_decls_iff

theorem tests_iff {file : Tree} {d : Decl} : d ∈ tests file ↔ Function file d.name d.body ∧ IsTest d.name := by
  unfold tests IsTest
  rw [List.mem_filter, fns_iff]
  simp only [Bool.and_eq_true, List.isPrefixOf_iff_prefix, Bool.not_eq_eq_eq_not, Bool.not_true, beq_eq_false_iff_ne]
  rfl

theorem locals_iff {file : Tree} {d : Decl} : d ∈ locals file ↔ Function file d.name d.body ∧ ¬ "Test".toList <+: d.name := by
  unfold locals
  rw [List.mem_filter, fns_iff]
  simp only [Bool.not_eq_eq_eq_not, Bool.not_true, ← List.isPrefixOf_iff_prefix, Bool.not_eq_true]
  rfl

/-- Where an element of concatenated lists is. -/
theorem flatMap_split {α β} {f : α → List β} {l : List α} {xs ys : List β} {x : β} (h : l.flatMap f = xs ++ x :: ys) :
    ∃ as b bs cs ds, l = as ++ b :: bs ∧ f b = ds ++ x :: cs ∧ ys = cs ++ bs.flatMap f := by
  induction l generalizing xs with
  | nil => simp at h
  | cons a l ih =>
    rw [List.flatMap_cons] at h
    rcases List.append_eq_append_iff.mp h with ⟨as, h1, h2⟩ | ⟨cs, h1, h2⟩
    · obtain ⟨bs, b, cs, ds, es, e1, e2, e3⟩ := ih h2
      exact ⟨a :: bs, b, cs, ds, es, by rw [e1]; rfl, e2, e3⟩
    · cases cs with
      | nil =>
        simp only [List.append_nil] at h1
        obtain ⟨bs, b, cs, ds, es, e1, e2, e3⟩ := ih (xs := []) (by simpa using h2.symm)
        exact ⟨a :: bs, b, cs, ds, es, by rw [e1]; rfl, e2, e3⟩
      | cons c cs =>
        simp only [List.cons_append, List.cons.injEq] at h2
        obtain ⟨rfl, h2⟩ := h2
        exact ⟨[], a, l, cs, xs, rfl, h1, h2⟩

variable {file : Tree} (hf : GoFile file)
include hf

theorem fn_ok {d : Decl} (h : Function file d.name d.body) : DeclOk lang d :=
  Declares.bodyOk h hf.grammar (hf.braces _ _ h)

theorem tests_ok : ∀ d ∈ tests file, DeclOk lang d := fun _ hd => fn_ok hf (tests_iff.mp hd).1
theorem locals_ok : ∀ d ∈ locals file, DeclOk lang d := fun _ hd => fn_ok hf (locals_iff.mp hd).1
theorem ids_ok : IdsFaithful (locals file) := by
  intro d hd e he h
  obtain ⟨_, h1⟩ := Declares.within (locals_iff.mp hd).1
  obtain ⟨_, h2⟩ := Declares.within (locals_iff.mp he).1
  exact hf.ids _ _ _ _ h1 h2 h

/-- A visit that ends is a visit by the generic visitor. -/
theorem refines {config skip trim fuel rounds st walked} (h : visitFile config skip trim fuel rounds file = .done st walked) :
    Visit.visitFile (visitorCfg lang config skip trim (locals file)) rounds (lowerTests lang last (tests file)) = .done st walked :=
  visit_done (tests_ok hf) (locals_ok hf) (ids_ok hf) h (by simp)

theorem body_within {name body} (h : Function file name body) {q x} (hx : InBody body q x) : Within none file q x := by
  obtain ⟨c, hc, hw⟩ := hx
  obtain ⟨r, hr⟩ := Declares.within h
  exact (within_child hr hc).trans hw

omit hf in
/-- The generic visitor's tests. -/
theorem inTest {config skip trim t l n}
    (h : InTest (visitorCfg lang config skip trim (locals file)) (lowerTests lang last (tests file)) t l n) :
    config.isIgnoredTest t = false ∧ ∃ body, Function file t body ∧ IsTest t ∧ l = last body ∧
      ∃ c ∈ body.children, Origin lang (some body.attr.kind) c n := by
  obtain ⟨h1, cs, h2, m, hm, hs⟩ := h
  obtain ⟨d, hd, rfl, rfl, rfl⟩ := world_test h2
  obtain ⟨h3, h4⟩ := tests_iff.mp hd
  exact ⟨h1, d.body, h3, h4, rfl, body_sub hm hs.sub⟩

omit hf in
theorem origin_inBody {body : Tree} {n : Node} (h : ∃ c ∈ body.children, Origin lang (some body.attr.kind) c n)
    (hn : ∀ i name b, n ≠ .field i name b) : ∃ q x, InBody body q x ∧ n = low x := by
  obtain ⟨c, hc, ⟨q, x, h, rfl⟩ | ⟨i, name, q, x, _, rfl⟩⟩ := h
  · exact ⟨q, x, ⟨c, hc, h⟩, lower_low q x⟩
  · exact absurd rfl (hn _ _ _)

theorem calls_callOf {config skip trim q x f} (hx : Within none file q x)
    (h : Calls (visitorCfg lang config skip trim (locals file)) (Go.low x) f) :
    ∃ name body, CallOf x name ∧ Local config file name body ∧ f = localFn lang ⟨name, body⟩ := by
  obtain ⟨i, cn, callee, args, name, fs, h1, h2, h3⟩ := h
  obtain ⟨g, args', hc, h4⟩ := low_call hf hx (low_call_inv h1)
  rw [h4] at h1
  cases h1
  obtain ⟨hw, d, hd, rfl, rfl⟩ := walkable_lookup h3
  obtain ⟨h5, h6⟩ := locals_iff.mp hd
  obtain ⟨h7, h8⟩ := (low_name hf (Call.within hf hx hc)).mp h2
  exact ⟨d.name, d.body, ⟨g, hc, h7, h8⟩, ⟨h5, h6, hw⟩, rfl⟩

theorem exercises_uses {config skip trim t f}
    (h : Exercises (visitorCfg lang config skip trim (locals file)) (lowerTests lang last (tests file)) t f) :
    ∃ name body, Uses config file t body ∧ Function file name body ∧ f = localFn lang ⟨name, body⟩ := by
  induction h with
  | direct hi hc =>
    obtain ⟨_, body, h1, _, _, h2⟩ := inTest hi
    obtain ⟨i, cn, callee, args, _, _, hn, _⟩ := id hc
    obtain ⟨q, x, hx, rfl⟩ := origin_inBody h2 (by rw [hn]; simp)
    obtain ⟨name, body', a1, a2, a3⟩ := calls_callOf hf (body_within hf h1 hx) hc
    exact ⟨name, body', .direct h1 hx a1 a2, a2.1, a3⟩
  | via _ hi hc ih =>
    obtain ⟨name, body, h1, h2, rfl⟩ := ih
    obtain ⟨m, hm, hs⟩ := hi
    obtain ⟨i, cn, callee, args, _, _, hn, _⟩ := id hc
    obtain ⟨q, x, hx, rfl⟩ := origin_inBody (body_sub (body := body) hm hs.sub) (by rw [hn]; simp)
    obtain ⟨name', body', a1, a2, a3⟩ := calls_callOf hf (body_within hf h2 hx) hc
    exact ⟨name', body', .via h1 hx a1 a2, a2.1, a3⟩

omit hf in
theorem last_iff {block : Tree} {n : Nat} : last block = some n ↔ ∃ x, IsLast block x ∧ x.attr.id = n := by
  unfold last
  rw [Option.map_eq_some_iff]
  constructor
  · rintro ⟨x, h, rfl⟩
    refine ⟨x, ?_, rfl⟩
    obtain ⟨l, hl⟩ := List.getLast?_eq_some_iff.mp h
    obtain ⟨l1, l2, h1, h2, h3⟩ := List.filter_eq_append_iff.mp hl
    obtain ⟨l3, l4, rfl, h4, h5, h6⟩ := List.filter_eq_cons_iff.mp h3
    rw [← List.append_assoc] at h1
    obtain ⟨as, b, bs, cs, ds, e1, e2, e3⟩ := flatMap_split h1
    obtain ⟨ks, ks', f1, f2, f3⟩ := List.filter_eq_append_iff.mp e1
    obtain ⟨ks2, ks3, rfl, f4, f5, f6⟩ := List.filter_eq_cons_iff.mp f3
    refine ⟨ks ++ ks2, b, ks3, _, cs, by rw [f1]; simp, eq_of_beq f5, ?_, e2, by simpa using h5, ?_⟩
    · intro k' hk hkind c hc
      have : k' ∈ ks3.filter fun c => c.attr.kind == k "statement_list" :=
        List.mem_filter.mpr ⟨hk, beq_iff_eq.mpr hkind⟩
      rw [f6] at this
      have hc' : c ∈ l4 := by rw [e3]; simp only [List.mem_append, List.mem_flatMap]; exact Or.inr ⟨k', this, hc⟩
      have := List.filter_eq_nil_iff.mp h6 c hc'
      simpa using this
    · intro c hc
      have hc' : c ∈ l4 := by rw [e3]; simp [hc]
      have := List.filter_eq_nil_iff.mp h6 c hc'
      simpa using this
  · rintro ⟨x, ⟨before, list, after, before', after', h1, h2, h3, h4, h5, h6⟩, rfl⟩
    refine ⟨x, ?_, rfl⟩
    have e1 : (((after.filter fun c => c.attr.kind == k "statement_list").flatMap Tree.children).filter fun c => c.attr.stmt) = [] := by
      rw [List.filter_eq_nil_iff]
      intro c hc
      rw [List.mem_flatMap] at hc
      obtain ⟨l, hl, hc⟩ := hc
      rw [List.mem_filter] at hl
      simp [h3 l hl.1 (eq_of_beq hl.2) c hc]
    have e2 : after'.filter (fun c => c.attr.stmt) = [] := by
      rw [List.filter_eq_nil_iff]
      intro c hc
      simp [h6 c hc]
    have e3 : (list.attr.kind == k "statement_list") = true := beq_iff_eq.mpr h2
    rw [h1, List.filter_append, List.filter_cons, if_pos e3, List.flatMap_append, List.flatMap_cons, List.filter_append,
      List.filter_append, e1, h4, List.filter_append, List.filter_cons, if_pos (by simpa using h5), e2]
    simp

/-- What is covered, in terms of the file. -/
theorem covers {config skip trim t l n}
    (h : Visit.Covers (visitorCfg lang config skip trim (locals file)) (lowerTests lang last (tests file)) t l n)
    (hn : ∀ i name b, n ≠ .field i name b) :
    ∃ x q, n = Go.low x ∧ Within none file q x ∧ (l ≠ some x.attr.id → Covers config file t x) := by
  rcases h with h | ⟨rfl, f, he, m, hm, hs⟩
  · obtain ⟨_, body, h1, _, rfl, h2⟩ := inTest h
    obtain ⟨q, x, hx, rfl⟩ := origin_inBody h2 hn
    exact ⟨x, q, rfl, body_within hf h1 hx, fun hl => .test h1 hx fun hlast => hl (last_iff.mpr ⟨x, hlast, rfl⟩)⟩
  · obtain ⟨name, body, h1, h2, rfl⟩ := exercises_uses hf he
    obtain ⟨q, x, hx, rfl⟩ := origin_inBody (body_sub (body := body) hm hs.sub) hn
    exact ⟨x, q, rfl, body_within hf h2 hx, fun _ => .function h1 hx⟩

theorem expr_low {q x e} (_ : Within none file q x) (hs : x.attr.stmt = true) (he : Expr x e) :
    Go.low x = .exprStmt (info lang x.attr x.children) (Go.low e) := by
  obtain ⟨hk, before, after, h1, h2, h3⟩ := he
  have hfi : x.children.findIdx? (fun c => c.attr.named && !c.attr.extra) = some before.length := by
    rw [List.findIdx?_eq_some_iff_getElem]
    refine ⟨by rw [h1]; simp, by simp [h1, h2], fun j hj => ?_⟩
    have : (x.children[j]'(by rw [h1]; simp; omega)) = before[j] := by simp [h1, hj]
    rw [this]
    have := h3 before[j] (by simp)
    simpa using this
  obtain ⟨a, cs⟩ := x
  have hs' : lang.isStmt none a = true := hs
  have hk : a.kind = k "expression_statement" := hk
  have hfi : cs.findIdx? (fun c => c.attr.named && !c.attr.extra) = some before.length := hfi
  have h1 : cs = before ++ e :: after := h1
  have hex : lang.expr a cs = some before.length := by
    simp only [lang]
    rw [if_pos hk, hfi]
  unfold Go.low
  rw [lower_eq, mkNode, if_pos hs', exprOf, hex]
  simp only [Option.bind_some, List.getElem?_map]
  rw [h1]
  simp [lower_low, Tree.attr, Tree.children]

omit hf in
theorem low_expr {x s e'} (h : Go.low x = .exprStmt s e') : ∃ e, Expr x e ∧ e' = Go.low e ∧ e ∈ x.children := by
  obtain ⟨j, c, h1, h2, rfl⟩ := lower_exprStmt h
  simp only [lang] at h1
  split at h1
  · rename_i hk
    obtain ⟨hj, h3, h4⟩ := List.findIdx?_eq_some_iff_getElem.mp h1
    have hc : x.children[j] = c := by
      rw [List.getElem?_eq_getElem hj] at h2; exact Option.some.inj h2
    rw [hc] at h3
    refine ⟨c, ⟨hk, x.children.take j, x.children.drop (j + 1), ?_, by simpa using h3, ?_⟩, lower_low _ _, ?_⟩
    · rw [← hc, List.getElem_cons_drop, List.take_append_drop]
    · intro b hb
      obtain ⟨i, hi, rfl⟩ := List.mem_iff_getElem.mp hb
      simp only [List.length_take] at hi
      have := h4 i (by omega)
      simpa using this
    · rw [← hc]; simp
  · cases h1

omit hf in
theorem never_iff {a : Attr} {cs : List Tree} : lang.control a cs = false ∧ lang.declaration a = false ↔ ¬ NeverRemoved a.kind := by
  simp only [lang, Bool.or_eq_false_iff, beq_eq_false_iff_ne]
  unfold NeverRemoved
  rw [List.mem_cons, List.mem_cons, List.mem_cons, List.mem_cons, List.mem_cons, List.mem_cons, List.mem_cons, List.mem_singleton,
    not_or, not_or, not_or, not_or, not_or, not_or, not_or]
  constructor
  · rintro ⟨⟨⟨⟨h1, h2⟩, h3⟩, h4⟩, ⟨⟨h5, h6⟩, h7⟩, h8⟩; exact ⟨h1, h2, h3, h4, h5, h6, h7, h8⟩
  · rintro ⟨h1, h2, h3, h4, h5, h6, h7, h8⟩; exact ⟨⟨⟨⟨h1, h2⟩, h3⟩, h4⟩, ⟨⟨h5, h6⟩, h7⟩, h8⟩

theorem low_span {q x} (_ : Within none file q x) : (Go.low x).info.span = x.attr.span := by
  cases hs : x.attr.stmt with
  | true =>
    rcases stmt_lower (L := lang) (q := none) (x := x) hs with ⟨_, h⟩ | ⟨_, h⟩ <;> rw [Go.low, h] <;> rfl
  | false => rw [Go.low, lower_info (L := lang) hs]; rfl

/-- **C70.** A Go file is always dealt with: the visit does not panic … -/
theorem C70_no_panic (config : Compiled) (skip trim) (fuel rounds : Nat) :
    visitFile config skip trim fuel rounds file ≠ .panic :=
  no_panic (tests_ok hf) (locals_ok hf) (ids_ok hf) last fuel rounds

/-- **C70.** The tests are the functions whose names begin with `Test`, except `TestMain` and those that the configuration
ignores. -/
theorem C70_tests {config skip trim fuel rounds st walked} (h : visitFile config skip trim fuel rounds file = .done st walked)
    (t : Text) : t ∈ st.testSet ↔ IsTest t ∧ (∃ body, Function file t body) ∧ config.isIgnoredTest t = false := by
  have hr := refines hf h
  constructor
  · intro ht
    obtain ⟨h1, l, cs, h2⟩ := C38_tests_sound hr ht
    obtain ⟨d, hd, rfl, _⟩ := world_test h2
    obtain ⟨h3, h4⟩ := tests_iff.mp hd
    exact ⟨h4, ⟨d.body, h3⟩, h1⟩
  · rintro ⟨h1, ⟨body, h2⟩, h3⟩
    have hd : (⟨t, body⟩ : Decl) ∈ tests file := tests_iff.mpr ⟨h2, h1⟩
    exact C38_tests_complete hr (List.mem_map.mpr ⟨_, hd, rfl⟩) (.refl _) h3

/-- **C70.** A statement that is to be removed is a statement of a test (which is not the last one), or of a function of the file
that the test calls, directly or through others into which the configuration allows to go. It is not suppressed; and it is
either no call, and then no control statement and no declaration, or a call that is not ignored. -/
theorem C70_statements {config skip trim fuel rounds st walked} (h : visitFile config skip trim fuel rounds file = .done st walked)
    {span t} (hc : (span, t) ∈ st.statements) :
    IsTest t ∧ config.isIgnoredTest t = false ∧ skip span = false ∧
    ∃ x, Covers config file t x ∧ x.attr.stmt = true ∧ x.attr.span = span ∧
      (((∀ e c, Expr x e → ¬ Makes e c) ∧ ¬ NeverRemoved x.attr.kind) ∨
       ∃ e c, Expr x e ∧ Makes e c ∧ ¬ Ignored config c) := by
  have hr := refines hf h
  have hk : KeysFaithful (visitorCfg lang config skip trim (locals file)) := keysFaithful (ids_ok hf)
  obtain ⟨h1, h2⟩ := (C38_only hk hr (Or.inl hc)).1
  obtain ⟨l, n, s, h3, ⟨h4, h5, h6, h7⟩, rfl, h9⟩ := C38_statements hk hr hc
  have hn : ∀ i name b, n ≠ .field i name b := by
    rintro i name b rfl
    rcases h4 with ⟨_, h⟩ | ⟨_, h⟩ <;> cases h
  obtain ⟨x, q, rfl, hx, hcov⟩ := covers hf h3 hn
  obtain ⟨hs, rfl⟩ := lower_stmt h4
  refine ⟨((C70_tests hf h t).mp h1).1, h2, h7, x, hcov h6, hs, rfl, ?_⟩
  rcases h9 with ⟨a1, a2, a3⟩ | ⟨e', h', a1, a2, a3⟩
  · refine Or.inl ⟨fun e c he hm => ?_, (never_iff (cs := x.children)).mp ⟨a2, a3⟩⟩
    have hce : Within none file (some x.attr.kind) e := by
      obtain ⟨_, before, after, hch, _⟩ := he
      exact within_child hx (by rw [hch]; simp)
    exact a1 _ _ _ (expr_low hf hx hs he) (Makes.head hf hce hm).1
  · obtain ⟨e, he, rfl, hmem⟩ := low_expr a1
    obtain ⟨c, r, rfl, hm, hw⟩ := head_makes hf a2 (within_child hx hmem) rfl
    exact Or.inr ⟨e, c, he, hm, fun hi => a3 ((ignored_iff hf hw).mpr hi)⟩

/-- **C70.** A method call that is to be removed is the last one, `.p₁.….pₖ(…)`, of a call `base.p₁.….pₖ(…)` of a test or of
such a function; neither the method nor the call is ignored, and it is not suppressed. -/
theorem C70_methods {config skip trim fuel rounds st walked} (h : visitFile config skip trim fuel rounds file = .done st walked)
    {span t} (hc : (span, t) ∈ st.methodCalls) :
    IsTest t ∧ config.isIgnoredTest t = false ∧ skip span = false ∧
    ∃ c base p, (∃ body q, (Function file t body ∨ Uses config file t body) ∧ InBody body q c) ∧ Method c base p ∧
      ¬ Ignored config c ∧ config.isIgnoredMethod (dotted p) = false ∧
      span = trim { c.attr.span with start := base.attr.span.stop } := by
  have hr := refines hf h
  have hk : KeysFaithful (visitorCfg lang config skip trim (locals file)) := keysFaithful (ids_ok hf)
  obtain ⟨h1, h2⟩ := (C38_only hk hr (Or.inr hc)).1
  obtain ⟨hskip, l, n, i, base, p, cn, callee, args, rfl, h3, h4, h5, h6, h7⟩ := C38_methods hk hr hc
  refine ⟨((C70_tests hf h t).mp h1).1, h2, hskip, ?_⟩
  have key : ∃ body name q x, (Function file t body ∨ Uses config file t body) ∧ Function file name body ∧ InBody body q x ∧
      Node.call i cn callee args = Go.low x := by
    rcases h3 with h | ⟨rfl, f, he, m, hm, hs⟩
    · obtain ⟨_, body, h1, _, rfl, h2⟩ := inTest h
      obtain ⟨q, x, hx, hn⟩ := origin_inBody h2 (by simp)
      exact ⟨body, t, q, x, Or.inl h1, h1, hx, hn⟩
    · obtain ⟨name, body, h1, h2, rfl⟩ := exercises_uses hf he
      obtain ⟨q, x, hx, hn⟩ := origin_inBody (body_sub (body := body) hm hs.sub) (by simp)
      exact ⟨body, name, q, x, Or.inr h1, h2, hx, hn⟩
  obtain ⟨body, name, q, x, hb, hfn, hx, hn⟩ := key
  have hw := body_within hf hfn hx
  rw [hn] at h4 h5
  obtain ⟨b, r, rfl, hm, hwb⟩ := methodCall_method hf hw h4
  have hi : i = exprInfo lang x.attr := (lower_call hn.symm).2.2.1
  refine ⟨x, b, p, ⟨body, q, hb, hx⟩, hm, fun h => h5 ((ignored_iff hf hw).mpr h), h6, ?_⟩
  rw [h7, low_span hf hwb, hi]
  rfl

omit hf in
theorem localFunctions_length (L : Lang) (ds : List Decl) : (localFunctions L ds).length ≤ ds.length := by
  have key : ∀ (ds : List Decl) acc, (ds.foldl (fun acc d => addFn d.name (localFn L d) acc) acc).length ≤ acc.length + ds.length := by
    intro ds
    induction ds with
    | nil => intro acc; simp
    | cons d ds ih =>
      intro acc
      have h1 : (addFn d.name (localFn L d) acc).length ≤ acc.length + 1 := by
        induction acc with
        | nil => simp [addFn]
        | cons e acc ih =>
          obtain ⟨n, fs⟩ := e
          rw [addFn]
          split
          · simp
          · simp only [List.length_cons]; omega
      have h2 := ih (addFn d.name (localFn L d) acc)
      simp only [List.foldl_cons, List.length_cons]
      omega
  have := key ds []
  simpa [localFunctions] using this

/-- **C70.** … and it ends, after at most as many rounds as there are functions. -/
theorem C70_ends (config : Compiled) (skip trim) (rounds : Nat) (hr : (fns file).length ≤ rounds) :
    ∃ N st walked, ∀ fuel, N ≤ fuel → visitFile config skip trim fuel rounds file = .done st walked := by
  refine ends (tests_ok hf) (locals_ok hf) (ids_ok hf) last rounds ?_
  have h1 : (locals file).length ≤ (fns file).length := List.length_filter_le _ _
  have h2 := localFunctions_length lang (locals file)
  have h3 : (visitorCfg lang config skip trim (locals file)).walkable.length ≤ (localFunctions lang (locals file)).length := by
    simp only [visitorCfg]; exact List.length_filter_le _ _
  omega

/-- What is visible is seen. -/
theorem visible_seen {config skip trim name body x} (hb : Function file name body) (hv : Visible config body x)
    (hs : x.attr.stmt = true ∨ x.attr.kind = "call_expression".toList) :
    ∃ q, InBody body q x ∧ ∃ m ∈ lowerAll lang body.attr.kind body.children,
      Seen (visitorCfg lang config skip trim (locals file)) m (Go.low x) := by
  obtain ⟨c, hc, q, hcl⟩ := hv
  have hin : InBody body q x := ⟨c, hc, clear_within hcl⟩
  refine ⟨q, hin, lower lang (some body.attr.kind) c, by rw [lowerAll_eq]; exact List.mem_map.mpr ⟨c, hc, rfl⟩, ?_⟩
  rw [← lower_low q x]
  obtain ⟨r, hr⟩ := Declares.within hb
  have hwc := within_child hr hc
  refine clear_seen rfl hcl (fun q' y hy => hf.grammar q' y (hwc.trans hy)) ?_ ?_
  · intro q' y hy hnb hns hcy
    have hw := hwc.trans hy
    rw [lower_low]
    cases hva : config.visitIgnoredArguments with
    | true => exact Or.inr hva
    | false =>
      left
      have hk : y.attr.kind = "call_expression".toList := by
        simp only [lang, beq_iff_eq] at hcy; exact hcy
      rintro (hi | ⟨base, p, hm, hi⟩)
      · exact hnb ⟨hk, hva, Or.inl ((ignored_iff hf hw).mp hi)⟩
      · obtain ⟨b, _, _, hm', _⟩ := methodCall_method hf hw hm
        exact hnb ⟨hk, hva, Or.inr ⟨b, p, hm', hi⟩⟩
  · exact hs.imp id fun h => beq_iff_eq.mpr h

omit hf in
theorem testPart {config skip trim t body} (ht : IsTest t) (hb : Function file t body) (hi : config.isIgnoredTest t = false) {m}
    (hm : m ∈ lowerAll lang body.attr.kind body.children) :
    TestPart (visitorCfg lang config skip trim (locals file)) (lowerTests lang last (tests file)) t (last body) m := by
  have hd : (⟨t, body⟩ : Decl) ∈ tests file := tests_iff.mpr ⟨hb, ht⟩
  exact ⟨hi, _, ⟨_, List.mem_map.mpr ⟨_, hd, rfl⟩, .refl _⟩, hm⟩

theorem simple_noInner {q x} (_ : Within none file q x) (hs : Simple x) : NoInnerStmt (Go.low x) :=
  noInner fun c hc r y hy => hs r y ⟨c, hc, hy⟩

omit hf in
theorem isLast_within (_ : GoFile file) {name body x} (hb : Function file name body) (h : IsLast body x) :
    ∃ q, Within none file q x := by
  obtain ⟨before, list, after, before', after', e1, _, _, e2, _⟩ := h
  obtain ⟨r, hr⟩ := Declares.within hb
  exact ⟨_, within_child (within_child hr (by rw [e1]; simp : list ∈ body.children)) (by rw [e2]; simp)⟩

theorem plain_low {config skip trim q x l} (hx : Within none file q x) (hp : Plain config file x) (hl : l ≠ some x.attr.id)
    (hskip : skip x.attr.span = false) :
    ∃ s, s.span = x.attr.span ∧ (PlainLeaf (visitorCfg lang config skip trim (locals file)) l (Go.low x) s ∨
      PlainCall (visitorCfg lang config skip trim (locals file)) l (Go.low x) s) := by
  obtain ⟨hs, hp⟩ := hp
  refine ⟨info lang x.attr x.children, rfl, ?_⟩
  have hrem : Removable (visitorCfg lang config skip trim (locals file)) l (Go.low x) (info lang x.attr x.children) :=
    ⟨stmt_lower (L := lang) hs, rfl, hl, hskip⟩
  rcases hp with ⟨h1, h2, h3⟩ | ⟨e, c, h1, h2, h3, h4⟩
  · obtain ⟨h5, h6⟩ := (never_iff (cs := x.children)).mpr h2
    refine Or.inl ⟨hrem, ?_, h5, h6, simple_noInner hf hx h1⟩
    intro s e' h hn hh
    obtain ⟨e, he, rfl, hmem⟩ := low_expr hn
    obtain ⟨c, _, _, hm, _⟩ := head_makes hf hh (within_child hx hmem) rfl
    exact h3 e c he hm
  · have hce : Within none file (some x.attr.kind) e := by
      obtain ⟨_, before, after, hch, _⟩ := id h1
      exact within_child hx (by rw [hch]; simp)
    obtain ⟨a1, r, a2⟩ := Makes.head hf hce h2
    refine Or.inr ⟨hrem, _, _, expr_low hf hx hs h1, a1, Or.inl rfl, fun h => h3 ((ignored_iff hf a2).mp h), fun f hc => ?_⟩
    obtain ⟨name, body, b1, b2, _⟩ := calls_callOf hf a2 hc
    exact h4 name body b1 b2

/-- **C70.** No plain statement of a test is overlooked: neither one that is no call and contains no statements, nor a call that is
not ignored and does not call a function that is gone into; except the test's last statement, and what is within ignored
calls. -/
theorem C70_complete {config skip trim fuel rounds st walked} (h : visitFile config skip trim fuel rounds file = .done st walked)
    {t body x} (ht : IsTest t) (hb : Function file t body) (hi : config.isIgnoredTest t = false) (hv : Visible config body x)
    (hp : Plain config file x) (hl : ¬ IsLast body x) (hskip : skip x.attr.span = false) : (x.attr.span, t) ∈ st.statements := by
  obtain ⟨q, hin, m, hm, hseen⟩ := visible_seen (skip := skip) (trim := trim) hf hb hv (Or.inl hp.1)
  have hx := body_within hf hb hin
  have hl : last body ≠ some x.attr.id := by
    intro h
    obtain ⟨y, h1, h2⟩ := last_iff.mp h
    obtain ⟨q', hy⟩ := isLast_within hf hb h1
    exact hl (hf.ids _ _ _ _ hy hx h2 ▸ h1)
  obtain ⟨s, h1, h2⟩ := plain_low (skip := skip) (trim := trim) hf hx hp hl hskip
  rw [← h1]
  exact (C36_test (refines hf h) (testPart ht hb hi hm) hseen h2).2

/-- **C70.** … and likewise for a function that the test calls. -/
theorem C70_complete_functions {config skip trim fuel rounds st walked}
    (h : visitFile config skip trim fuel rounds file = .done st walked) {t body x c name body'} (ht : IsTest t)
    (hb : Function file t body) (hi : config.isIgnoredTest t = false) (hv : Visible config body c) (hc : CallOf c name)
    (hfn : Local config file name body') (huniq : ∀ b, Function file name b → b = body') (hv' : Visible config body' x)
    (hp : Plain config file x) (hskip : skip x.attr.span = false) : (x.attr.span, t) ∈ st.statements := by
  obtain ⟨g, hcall, hk, hn⟩ := hc
  obtain ⟨q, hin, m, hm, hseen⟩ := visible_seen (skip := skip) (trim := trim) hf hb hv (Or.inr hcall.1)
  have hwc := body_within hf hb hin
  obtain ⟨q', hin', m', hm', hseen'⟩ := visible_seen (skip := skip) (trim := trim) hf hfn.1 hv' (Or.inl hp.1)
  obtain ⟨s, h1, h2⟩ := plain_low (skip := skip) (trim := trim) (l := none) hf (body_within hf hfn.1 hin') hp (by simp) hskip
  have hd : (⟨name, body'⟩ : Decl) ∈ locals file := locals_iff.mpr ⟨hfn.1, hfn.2.1⟩
  obtain ⟨fs, hlook⟩ := lookup_walkable (L := lang) (config := config) (skip := skip) (trim := trim) hd hfn.2.2 (by
    intro e he hen
    obtain ⟨en, eb⟩ := e
    simp only at hen; subst hen
    rw [huniq eb (locals_iff.mp he).1])
  obtain ⟨args, hlow⟩ := Call.low hf hwc hcall
  have hcalls : Calls (visitorCfg lang config skip trim (locals file)) (Go.low c) (localFn lang ⟨name, body'⟩) :=
    ⟨_, _, _, _, name, fs, hlow, (low_name hf (Call.within hf hwc hcall)).mpr ⟨hk, hn⟩, hlook⟩
  rw [← h1]
  exact C36_function (keysFaithful (ids_ok hf)) (refines hf h) (testPart ht hb hi hm) hseen hcalls hm' hseen' h2

/-- **C70.** No method call of a test is overlooked, unless it is ignored or the test's last statement. -/
theorem C70_complete_methods {config skip trim fuel rounds st walked}
    (h : visitFile config skip trim fuel rounds file = .done st walked) {t body c base p} (ht : IsTest t)
    (hb : Function file t body) (hi : config.isIgnoredTest t = false) (hv : Visible config body c) (hm : Method c base p)
    (hig : ¬ Ignored config c) (him : config.isIgnoredMethod (dotted p) = false)
    (hskip : skip (trim { c.attr.span with start := base.attr.span.stop }) = false)
    (hl : ∀ q x e c', InBody body q x → Expr x e → Makes e c' → c'.attr.span = c.attr.span → ¬ IsLast body x) :
    (trim { c.attr.span with start := base.attr.span.stop }, t) ∈ st.methodCalls := by
  obtain ⟨hp, g, hcall, hsel⟩ := id hm
  obtain ⟨q, hin, m, hmm, hseen⟩ := visible_seen (skip := skip) (trim := trim) hf hb hv (Or.inr hcall.1)
  have hwc := body_within hf hb hin
  obtain ⟨args, hlow⟩ := Call.low hf hwc hcall
  obtain ⟨hmc, r, hwb⟩ := Method.low hf hwc hm
  have hni : ¬ Visit.Ignored config (Go.low c) := by
    rintro (hi | ⟨b, p', hm', hi⟩)
    · exact hig ((ignored_iff hf hwc).mp hi)
    · rw [← (hmc.unique hm').2, him] at hi; cases hi
  have hnc : ∀ f, ¬ Calls (visitorCfg lang config skip trim (locals file)) (Go.low c) f := by
    intro f hcf
    obtain ⟨name, b', ⟨g', hc', hk', _⟩, _, _⟩ := calls_callOf hf hwc hcf
    rw [← FieldChild.unique hcall.2 hc'.2] at hk'
    cases hsel with
    | base _ => exact hp rfl
    | selector hs _ => rw [hs.1] at hk'; revert hk'; decide
  rw [hlow] at hseen hmc hni hnc
  have := C36_test_methods (refines hf h) (testPart ht hb hi hmm) hseen hmc hni hnc (by
    rw [low_span hf hwb]; exact hskip) ?_
  · rw [low_span hf hwb] at this; exact this
  · intro s e hsub hhead
    rw [← hlow] at hhead
    obtain ⟨c0, hc0, ho⟩ := body_sub hmm hsub
    obtain ⟨q', x, hx, hn⟩ := origin_inBody ⟨c0, hc0, ho⟩ (by simp)
    obtain ⟨e0, he0, rfl, hmem⟩ := low_expr hn.symm
    have hwx := body_within hf hb hx
    obtain ⟨c', r', h1, h2, h3⟩ := head_makes hf hhead (within_child hwx hmem) rfl
    obtain ⟨hs, rfl⟩ := lower_stmt (L := lang) (q := none) (x := x) (Or.inr ⟨_, hn.symm⟩)
    refine ⟨rfl, fun hlast => ?_⟩
    obtain ⟨y, hy, hid⟩ := last_iff.mp hlast
    obtain rfl := hf.ids _ _ _ _ (isLast_within hf hb hy).choose_spec hwx hid
    refine hl q' y e0 c' hx he0 h2 ?_ hy
    rw [← low_span hf h3, ← low_span hf hwc, h1]

/-- **C70.** … and likewise for a function that the test calls. -/
theorem C70_complete_functions_methods {config skip trim fuel rounds st walked}
    (h : visitFile config skip trim fuel rounds file = .done st walked) {t body c' name body' c base p} (ht : IsTest t)
    (hb : Function file t body) (hi : config.isIgnoredTest t = false) (hv : Visible config body c') (hc : CallOf c' name)
    (hfn : Local config file name body') (huniq : ∀ b, Function file name b → b = body') (hv' : Visible config body' c)
    (hm : Method c base p) (hig : ¬ Ignored config c) (him : config.isIgnoredMethod (dotted p) = false)
    (hskip : skip (trim { c.attr.span with start := base.attr.span.stop }) = false) :
    (trim { c.attr.span with start := base.attr.span.stop }, t) ∈ st.methodCalls := by
  obtain ⟨g, hcall, hk, hn⟩ := hc
  obtain ⟨q, hin, m, hmm, hseen⟩ := visible_seen (skip := skip) (trim := trim) hf hb hv (Or.inr hcall.1)
  have hwc := body_within hf hb hin
  have hd : (⟨name, body'⟩ : Decl) ∈ locals file := locals_iff.mpr ⟨hfn.1, hfn.2.1⟩
  obtain ⟨fs, hlook⟩ := lookup_walkable (L := lang) (config := config) (skip := skip) (trim := trim) hd hfn.2.2 (by
    intro e he hen
    obtain ⟨en, eb⟩ := e
    simp only at hen; subst hen
    rw [huniq eb (locals_iff.mp he).1])
  obtain ⟨args, hlow⟩ := Call.low hf hwc hcall
  have hcalls : Calls (visitorCfg lang config skip trim (locals file)) (Go.low c') (localFn lang ⟨name, body'⟩) :=
    ⟨_, _, _, _, name, fs, hlow, (low_name hf (Call.within hf hwc hcall)).mpr ⟨hk, hn⟩, hlook⟩
  obtain ⟨hp, g', hcall', hsel⟩ := id hm
  obtain ⟨q', hin', m', hmm', hseen'⟩ := visible_seen (skip := skip) (trim := trim) hf hfn.1 hv' (Or.inr hcall'.1)
  have hwc' := body_within hf hfn.1 hin'
  obtain ⟨args', hlow'⟩ := Call.low hf hwc' hcall'
  obtain ⟨hmc, r, hwb⟩ := Method.low hf hwc' hm
  have hni : ¬ Visit.Ignored config (Go.low c) := by
    rintro (hi | ⟨b, p', hm', hi⟩)
    · exact hig ((ignored_iff hf hwc').mp hi)
    · rw [← (hmc.unique hm').2, him] at hi; cases hi
  have hnc : ∀ f, ¬ Calls (visitorCfg lang config skip trim (locals file)) (Go.low c) f := by
    intro f hcf
    obtain ⟨name, b', ⟨g2, hc2, hk2, _⟩, _, _⟩ := calls_callOf hf hwc' hcf
    rw [← FieldChild.unique hcall'.2 hc2.2] at hk2
    cases hsel with
    | base _ => exact hp rfl
    | selector hs _ => rw [hs.1] at hk2; revert hk2; decide
  rw [hlow'] at hseen' hmc hni hnc
  have := C36_function_methods (keysFaithful (ids_ok hf)) (refines hf h) (testPart ht hb hi hmm) hseen hcalls hmm' hseen' hmc hni hnc (by
    rw [low_span hf hwb]; exact hskip) ?_
  · rw [low_span hf hwb] at this; exact this
  · intro s e hsub hhead
    obtain ⟨c0, hc0, ho⟩ := body_sub hmm' hsub
    obtain ⟨q2, x, hx, hn⟩ := origin_inBody ⟨c0, hc0, ho⟩ (by simp)
    obtain ⟨hs, rfl⟩ := lower_stmt (L := lang) (q := none) (x := x) (Or.inr ⟨_, hn.symm⟩)
    rfl

end Necessist.TS.Go
