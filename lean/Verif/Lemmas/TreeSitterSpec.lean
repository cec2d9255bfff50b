import Verif.Lemmas.TreeSitter
/-! # From lowered trees back to tree-sitter's -/
namespace Necessist.TS
open Visit

theorem find?_split {α} {p : α → Bool} {l : List α} {c : α} (h : l.find? p = some c) :
    ∃ before after, l = before ++ c :: after ∧ p c = true ∧ ∀ b ∈ before, p b = false := by
  obtain ⟨h1, as, bs, h2, h3⟩ := List.find?_eq_some_iff_append.mp h
  exact ⟨as, bs, h2, h1, fun b hb => by simpa using h3 b hb⟩

theorem childByField_iff {x : Tree} {f c} : childByField x.children f = some c ↔ FieldChild x f c := by
  unfold childByField FieldChild
  rw [List.find?_eq_some_iff_append]
  simp only [beq_iff_eq, Bool.not_eq_eq_eq_not, Bool.not_true, beq_eq_false_iff_ne]
  constructor
  · rintro ⟨h1, as, bs, h2, h3⟩; exact ⟨as, bs, h2, h1, h3⟩
  · rintro ⟨as, bs, h2, h1, h3⟩; exact ⟨h1, as, bs, h2, h3⟩

theorem childIdx_iff {x : Tree} {f k} (h : childIdx x.children f = some k) : ∃ c, x.children[k]? = some c ∧ FieldChild x f c := by
  unfold childIdx at h
  obtain ⟨hk, h1, h2⟩ := List.findIdx?_eq_some_iff_getElem.mp h
  refine ⟨x.children[k], by simp [hk], x.children.take k, x.children.drop (k + 1), ?_, by simpa using h1, ?_⟩
  · rw [List.getElem_cons_drop, List.take_append_drop]
  · intro b hb
    obtain ⟨j, hj, rfl⟩ := List.mem_iff_getElem.mp hb
    simp only [List.length_take] at hj
    have := h2 j (by omega)
    simpa using this

theorem declHere_iff {kind nk bk : Text} {x : Tree} {d : Decl} : declHere kind nk bk x.attr x.children = some d ↔
    x.attr.kind = kind ∧ ∃ n, FieldChild x "name".toList n ∧ n.attr.kind = nk ∧ n.attr.text = d.name ∧
      FieldChild x "body".toList d.body ∧ d.body.attr.kind = bk := by
  unfold declHere
  constructor
  · intro h
    split at h
    · rename_i hk
      refine ⟨hk, ?_⟩
      split at h
      · rename_i n b h1 h2
        split at h
        · rename_i h3
          cases h
          exact ⟨n, childByField_iff.mp h1, h3.1, rfl, childByField_iff.mp h2, h3.2⟩
        · cases h
      · cases h
    · cases h
  · rintro ⟨h1, n, h2, h3, h4, h5, h6⟩
    rw [if_pos h1, childByField_iff.mpr h2, childByField_iff.mpr h5]
    simp only [h3, h6, and_self, if_true, h4]

theorem declsAll_eq (kind nk bk : Text) (cs : List Tree) : declsAll kind nk bk cs = cs.flatMap (decls kind nk bk) := by
  induction cs with
  | nil => simp [declsAll]
  | cons c cs ih => rw [declsAll, ih]; rfl

theorem mem_decls {kind nk bk : Text} {t : Tree} {d : Decl} (p : Option Text) : d ∈ decls kind nk bk t ↔
    ∃ q x, Within p t q x ∧ declHere kind nk bk x.attr x.children = some d := by
  match t with
  | .node a cs =>
    rw [decls, declsAll_eq, List.mem_append, List.mem_flatMap]
    constructor
    · rintro (h | ⟨c, hc, h⟩)
      · rw [Option.mem_toList] at h
        exact ⟨p, _, .refl _ _, h⟩
      · obtain ⟨q, x, hw, hx⟩ := (mem_decls (some a.kind)).mp h
        exact ⟨q, x, .step hc hw, hx⟩
    · rintro ⟨q, x, hw, hx⟩
      cases hw with
      | refl => left; rw [Option.mem_toList]; exact hx
      | @step _ _ _ c _ _ hc hw => right; exact ⟨c, hc, (mem_decls (some a.kind)).mpr ⟨q, x, hw, hx⟩⟩
termination_by sizeOf t
decreasing_by
  all_goals
    simp only [Tree.node.sizeOf_spec]
    have := List.sizeOf_lt_of_mem hc
    omega

theorem mem_decls_iff {kind nk bk : Text} {file : Tree} {d : Decl} :
    d ∈ decls kind nk bk file ↔ Declares kind nk bk file d.name d.body := by
  rw [mem_decls none]
  constructor
  · rintro ⟨q, x, hw, hx⟩
    obtain ⟨h1, n, h2, h3, h4, h5, h6⟩ := declHere_iff.mp hx
    exact ⟨q, x, n, hw, h1, h2, h3, h4, h5, h6⟩
  · rintro ⟨q, x, n, hw, h1, h2, h3, h4, h5, h6⟩
    exact ⟨q, x, hw, declHere_iff.mpr ⟨h1, n, h2, h3, h4, h5, h6⟩⟩

theorem Within.trans {p t q x r y} (h : Within p t q x) (h' : Within q x r y) : Within p t r y := by
  induction h with
  | refl => exact h'
  | step hc _ ih => exact .step hc (ih h')

theorem FieldChild.mem {x f c} (h : FieldChild x f c) : c ∈ x.children := by
  obtain ⟨b, a, h, _⟩ := h; rw [h]; simp

theorem Declares.within {kind nk bk : Text} {file name body} (h : Declares kind nk bk file name body) :
    ∃ q, Within none file q body := by
  obtain ⟨q, ⟨a, cs⟩, n, hw, -, -, -, -, hb, -⟩ := h
  exact ⟨some a.kind, hw.trans (.step hb.mem (.refl _ _))⟩

theorem Declares.bodyOk {L : Lang} {kind nk bk : Text} {file name body} (h : Declares kind nk bk file name body)
    (hg : Grammatical L none file) (hne : body.children ≠ []) : BodyOk L body := by
  refine ⟨hne, fun c hc q x hw => ?_⟩
  obtain ⟨r, h⟩ := h.within
  obtain ⟨a, cs⟩ := body
  exact hg q x (h.trans (.step hc hw))

/-- Where a part of a lowered tree comes from. -/
def Origin (L : Lang) (p : Option Text) (t : Tree) (n : Node) : Prop :=
  (∃ q x, Within p t q x ∧ n = lower L q x) ∨ ∃ i name q x, Within p t q x ∧ n = .field i name (lower L q x)

theorem calleeOf_cases {L : Lang} {a cs kids callee} (h : calleeOf L a cs kids = some callee) :
    callee ∈ kids ∨ ∃ i name b, callee = .field i name b ∧ b ∈ kids := by
  unfold calleeOf at h
  split at h
  · obtain ⟨k, _, hk⟩ := Option.bind_eq_some_iff.mp h
    exact Or.inl (List.mem_of_getElem? hk)
  · obtain ⟨b, hb, rfl⟩ := Option.map_eq_some_iff.mp h
    obtain ⟨k, _, hk⟩ := Option.bind_eq_some_iff.mp hb
    exact Or.inr ⟨_, _, b, rfl, List.mem_of_getElem? hk⟩

theorem mkNode_kids {L : Lang} {p a cs kids m} (h : m ∈ (mkNode L p a cs kids).kids) :
    m ∈ kids ∨ ∃ i name b, m = .field i name b ∧ b ∈ kids := by
  unfold mkNode at h
  split at h
  · split at h
    · rename_i e he
      simp only [Node.kids, List.mem_singleton] at h; subst h
      obtain ⟨k, _, hk⟩ := Option.bind_eq_some_iff.mp he
      exact Or.inl (List.mem_of_getElem? hk)
    · exact Or.inl h
  · split at h
    · split at h
      · rename_i callee k hc hk
        simp only [Node.kids, List.mem_cons] at h
        rcases h with rfl | h
        · exact calleeOf_cases hc
        · exact Or.inl (List.mem_of_mem_eraseIdx h)
      · exact Or.inl h
    · split at h
      · split at h
        · rename_i b hb
          simp only [Node.kids, List.mem_singleton] at h; subst h
          exact Or.inl (List.mem_of_getElem? hb)
        · exact Or.inl h
      · exact Or.inl h

theorem Origin.kid {L p t n m} (h : Origin L p t n) (hm : m ∈ n.kids) : Origin L p t m := by
  rcases h with ⟨q, x, hw, rfl⟩ | ⟨i, name, q, x, hw, rfl⟩
  · obtain ⟨a, cs⟩ := x
    rw [lower_eq] at hm
    rcases mkNode_kids hm with h | ⟨i, name, b, rfl, h⟩
    · obtain ⟨c, hc, rfl⟩ := List.mem_map.mp h
      exact Or.inl ⟨_, c, hw.trans (.step hc (.refl _ _)), rfl⟩
    · obtain ⟨c, hc, rfl⟩ := List.mem_map.mp h
      exact Or.inr ⟨i, name, _, c, hw.trans (.step hc (.refl _ _)), rfl⟩
  · simp only [Node.kids, List.mem_singleton] at hm; subst hm
    exact Or.inl ⟨q, x, hw, rfl⟩

theorem lower_sub {L p t n} (h : Sub (lower L p t) n) : Origin L p t n := by
  have key : ∀ {m n}, Sub m n → Origin L p t m → Origin L p t n := by
    intro m n h
    induction h with
    | refl => exact fun h => h
    | step hk _ ih => exact fun h => ih (h.kid hk)
  exact key h (Or.inl ⟨p, t, .refl _ _, rfl⟩)

theorem lower_stmt {L q x s} (h : IsStmt (lower L q x) s) : L.isStmt q x.attr = true ∧ s = info L x.attr x.children := by
  obtain ⟨a, cs⟩ := x
  rw [lower_eq, mkNode] at h
  simp only [Tree.attr, Tree.children]
  split at h
  · rename_i hs
    refine ⟨hs, ?_⟩
    split at h
    · rcases h with ⟨_, h⟩ | ⟨_, h⟩ <;> cases h; rfl
    · rcases h with ⟨_, h⟩ | ⟨_, h⟩ <;> cases h; rfl
  · repeat' split at h
    all_goals (rcases h with ⟨_, h⟩ | ⟨_, h⟩ <;> cases h)

theorem stmt_lower {L q x} (h : L.isStmt q x.attr = true) : IsStmt (lower L q x) (info L x.attr x.children) := by
  obtain ⟨a, cs⟩ := x
  simp only [Tree.attr] at h
  rw [lower_eq, mkNode, if_pos h]
  simp only [Tree.attr, Tree.children]
  split
  · exact Or.inr ⟨_, rfl⟩
  · exact Or.inl ⟨_, rfl⟩

theorem lower_exprStmt {L q x s e} (h : lower L q x = .exprStmt s e) :
    ∃ k c, L.expr x.attr x.children = some k ∧ x.children[k]? = some c ∧ e = lower L (some x.attr.kind) c := by
  obtain ⟨a, cs⟩ := x
  rw [lower_eq, mkNode] at h
  split at h
  · split at h
    · rename_i e' he
      cases h
      obtain ⟨k, hk, hk'⟩ := Option.bind_eq_some_iff.mp he
      rw [List.getElem?_map, Option.map_eq_some_iff] at hk'
      obtain ⟨c, hc, rfl⟩ := hk'
      exact ⟨k, c, hk, hc, rfl⟩
    · cases h
  · repeat' split at h
    all_goals cases h

theorem lower_call {L q x i cn callee args} (h : lower L q x = .call i cn callee args) :
    L.isStmt q x.attr = false ∧ L.isCall x.attr.kind = true ∧ i = exprInfo L x.attr ∧ cn = L.callName x.attr x.children ∧
      calleeOf L x.attr x.children (x.children.map (lower L (some x.attr.kind))) = some callee := by
  obtain ⟨a, cs⟩ := x
  rw [lower_eq, mkNode] at h
  simp only [Tree.attr, Tree.children]
  split at h
  · split at h <;> cases h
  · rename_i hs
    split at h
    · rename_i hc
      split at h
      · rename_i callee' k h1 h2
        cases h
        exact ⟨by simpa using hs, hc, rfl, rfl, h1⟩
      · cases h
    · repeat' split at h
      all_goals cases h

theorem lower_field {L q x i name b} (h : lower L q x = .field i name b) :
    ∃ k c, L.field x.attr x.children = some (some k, name) ∧ x.children[k]? = some c ∧ b = lower L (some x.attr.kind) c ∧
      L.isStmt q x.attr = false ∧ L.isCall x.attr.kind = false := by
  obtain ⟨a, cs⟩ := x
  rw [lower_eq, mkNode] at h
  simp only [Tree.attr, Tree.children]
  split at h
  · split at h <;> cases h
  · rename_i hs
    split at h
    · split at h <;> cases h
    · rename_i hc
      split at h
      · rename_i k name' hf
        split at h
        · rename_i b' hb
          cases h
          rw [List.getElem?_map, Option.map_eq_some_iff] at hb
          obtain ⟨c, hc', rfl⟩ := hb
          exact ⟨k, c, hf, hc', rfl, by simpa using hs, by simpa using hc⟩
        · cases h
      · cases h

theorem lower_plain (L : Lang) (q : Option Text) (x : Tree) :
    (∀ t last cs, lower L q x ≠ .test t last cs) ∧ (∀ i name args, lower L q x ≠ .macro_ i name args) ∧
    (∀ i b, lower L q x ≠ .await i b) := by
  obtain ⟨a, cs⟩ := x
  rw [lower_eq, mkNode]
  refine ⟨fun _ _ _ h => ?_, fun _ _ _ h => ?_, fun _ _ h => ?_⟩ <;>
  · repeat' split at h
    all_goals cases h

theorem Origin.plain {L p t n} (h : Origin L p t n) : (∀ t last cs, n ≠ .test t last cs) := by
  rcases h with ⟨q, x, _, rfl⟩ | ⟨_, _, _, _, _, rfl⟩
  · exact (lower_plain L q x).1
  · intro _ _ _ h; cases h

/-- What expression a node is. -/
theorem lower_info {L q x} (h : L.isStmt q x.attr = false) : (lower L q x).info = exprInfo L x.attr := by
  obtain ⟨a, cs⟩ := x
  simp only [Tree.attr] at h
  rw [lower_eq, mkNode, if_neg (by simp [h])]
  simp only [Tree.attr]
  repeat' split
  all_goals rfl

/-- The functions of one name. -/
theorem addFn_lookup (name n : Text) (f : LocalFn) (l : List (Text × List LocalFn)) :
    (addFn name f l).lookup n = if n = name then some ((l.lookup n).getD [] ++ [f]) else l.lookup n := by
  induction l with
  | nil =>
    rw [addFn, List.lookup, List.lookup]
    by_cases h : n = name
    · subst h; simp
    · simp [h, beq_eq_false_iff_ne.mpr h]
  | cons e l ih =>
    obtain ⟨m, fs⟩ := e
    rw [addFn]
    by_cases hm : m = name
    · subst hm
      rw [if_pos rfl]
      by_cases h : n = m
      · subst h; simp
      · simp [List.lookup, h, beq_eq_false_iff_ne.mpr h]
    · rw [if_neg hm]
      by_cases h : n = m
      · subst h; simp [hm]
      · simp only [List.lookup, beq_eq_false_iff_ne.mpr h, ih]

theorem localFunctions_lookup {L : Lang} {fns : List Decl} {n : Text} :
    (localFunctions L fns).lookup n =
      match fns.filter (fun d => d.name == n) with
      | [] => none
      | d :: ds => some ((d :: ds).map (localFn L)) := by
  have key : ∀ (fns : List Decl) acc, (fns.foldl (fun acc d => addFn d.name (localFn L d) acc) acc).lookup n =
      match fns.filter (fun d => d.name == n) with
      | [] => acc.lookup n
      | d :: ds => some ((acc.lookup n).getD [] ++ (d :: ds).map (localFn L)) := by
    intro fns
    induction fns with
    | nil => intro acc; rfl
    | cons d fns ih =>
      intro acc
      rw [List.foldl_cons, ih, addFn_lookup]
      by_cases h : d.name = n
      · subst h
        simp only [List.filter_cons, beq_self_eq_true, if_true]
        cases fns.filter (fun e => e.name == d.name) <;> simp
      · simp only [List.filter_cons, beq_eq_false_iff_ne.mpr h, Bool.false_eq_true, if_false, if_neg (Ne.symm h)]
  rw [localFunctions, key]
  simp

theorem lookup_filter {β} (p : Text → Bool) (l : List (Text × β)) (n : Text) :
    (l.filter fun e => p e.1).lookup n = if p n then l.lookup n else none := by
  induction l with
  | nil => simp
  | cons e l ih =>
    obtain ⟨m, b⟩ := e
    by_cases hm : n = m
    · subst hm
      cases hp : p n with
      | true => simp [List.filter_cons, hp]
      | false => simp [List.filter_cons, hp, ih]
    · cases hp : p m with
      | true => simp [List.filter_cons, hp, List.lookup, beq_eq_false_iff_ne.mpr hm, ih]
      | false => simp [List.filter_cons, hp, List.lookup, beq_eq_false_iff_ne.mpr hm, ih]

/-- The walkable functions are the local ones that the configuration selects. -/
theorem walkable_lookup {L : Lang} {config skip trim fns name f fs}
    (h : (visitorCfg L config skip trim fns).walkable.lookup name = some (f :: fs)) :
    config.isWalkableFunction name = true ∧ ∃ d ∈ fns, d.name = name ∧ f = localFn L d := by
  simp only [visitorCfg] at h
  rw [lookup_filter] at h
  split at h
  · rename_i hp
    refine ⟨hp, ?_⟩
    rw [localFunctions_lookup] at h
    split at h
    · cases h
    · rename_i d ds hd
      simp only [List.map_cons, Option.some.injEq, List.cons.injEq] at h
      have : d ∈ fns.filter (fun d => d.name == name) := by rw [hd]; simp
      rw [List.mem_filter] at this
      exact ⟨d, this.1, by simpa using this.2, h.1.symm⟩
  · cases h

theorem lookup_walkable {L : Lang} {config skip trim} {fns : List Decl} {d : Decl} (hd : d ∈ fns)
    (hw : config.isWalkableFunction d.name = true) (hu : ∀ e ∈ fns, e.name = d.name → e = d) :
    ∃ fs, (visitorCfg L config skip trim fns).walkable.lookup d.name = some (localFn L d :: fs) := by
  simp only [visitorCfg]
  rw [lookup_filter, if_pos hw, localFunctions_lookup]
  split
  · rename_i hn
    have : d ∈ fns.filter (fun e => e.name == d.name) := by simp [hd]
    rw [hn] at this; cases this
  · rename_i e es he
    have : e ∈ fns.filter (fun e => e.name == d.name) := by rw [he]; simp
    rw [List.mem_filter] at this
    rw [hu e this.1 (by simpa using this.2)]
    exact ⟨_, rfl⟩

/-- A part of a lowered body. -/
theorem body_sub {L : Lang} {body : Tree} {m n} (hm : m ∈ lowerAll L body.attr.kind body.children) (h : Sub m n) :
    ∃ c ∈ body.children, Origin L (some body.attr.kind) c n := by
  rw [lowerAll_eq] at hm
  obtain ⟨c, hc, rfl⟩ := List.mem_map.mp hm
  exact ⟨c, hc, lower_sub h⟩

/-- The tests that the generic visitor sees are the tests. -/
theorem world_test {L : Lang} {config skip trim last tests fns t k cs}
    (h : World (visitorCfg L config skip trim fns) (lowerTests L last tests) (.test t k cs)) :
    ∃ d ∈ tests, d.name = t ∧ k = last d.body ∧ cs = lowerAll L d.body.attr.kind d.body.children := by
  rcases h with ⟨r, hr, hs⟩ | ⟨f, hf, r, hr, hs⟩
  · obtain ⟨d, hd, rfl⟩ := List.mem_map.mp hr
    cases hs with
    | refl => exact ⟨d, hd, rfl, rfl, rfl⟩
    | step hk hs =>
      obtain ⟨c, _, ho⟩ := body_sub hk hs
      exact absurd rfl (ho.plain _ _ _)
  · obtain ⟨d, hd, rfl⟩ := walkable_decl hf
    obtain ⟨c, _, ho⟩ := body_sub hr hs
    exact absurd rfl (ho.plain _ _ _)

theorem keysFaithful {L : Lang} {config skip trim fns} (hu : IdsFaithful fns) : KeysFaithful (visitorCfg L config skip trim fns) := by
  intro f g hf hg hk
  obtain ⟨d, hd, rfl⟩ := walkable_decl hf
  obtain ⟨e, he, rfl⟩ := walkable_decl hg
  have := hu d hd e he hk
  simp only [localFn, this]

/-- Visiting never panics, if everything is as the grammar says. -/
theorem no_panic {L : Lang} {config skip trim tests fns} (ht : ∀ d ∈ tests, DeclOk L d) (hd : ∀ d ∈ fns, DeclOk L d)
    (hu : IdsFaithful fns) (last : Tree → Option Nat) (fuel rounds : Nat) :
    visit L (visitorCfg L config skip trim fns) last tests fns fuel rounds ≠ .panic := by
  intro h
  refine C66_no_panic_partial (lowerTests L last tests) rounds ?_ ?_ ?_ (visit_done ht hd hu h (by simp))
  · intro n hn t k cs hs m hm t' k' cs' hs'
    obtain ⟨d, _, rfl⟩ := List.mem_map.mp hn
    have : Sub m (.test t' k' cs') ∧ m ∈ cs := ⟨hs', hm⟩
    cases hs with
    | refl =>
      obtain ⟨c, _, ho⟩ := body_sub hm hs'
      exact ho.plain _ _ _ rfl
    | step hk hs =>
      obtain ⟨c, _, ho⟩ := body_sub hk hs
      exact ho.plain _ _ _ rfl
  · intro n _; exact Or.inl rfl
  · intro f hf m hm
    obtain ⟨d, _, rfl⟩ := walkable_decl hf
    refine ⟨fun t k cs hs => ?_, Or.inl rfl⟩
    obtain ⟨c, _, ho⟩ := body_sub hm hs
    exact ho.plain _ _ _ rfl

/-- … and ends. -/
theorem ends {L : Lang} {config skip trim tests fns} (ht : ∀ d ∈ tests, DeclOk L d) (hd : ∀ d ∈ fns, DeclOk L d)
    (hu : IdsFaithful fns) (last : Tree → Option Nat) (rounds : Nat)
    (hr : (visitorCfg L config skip trim fns).walkable.length ≤ rounds) :
    ∃ N st walked, ∀ n, N ≤ n → visit L (visitorCfg L config skip trim fns) last tests fns n rounds = .done st walked := by
  obtain ⟨N, hN⟩ := visit_eq (config := config) (skip := skip) (trim := trim) ht hd hu last rounds
  cases hv : Visit.visitFile (visitorCfg L config skip trim fns) rounds (lowerTests L last tests) with
  | done st w => exact ⟨N, st, w, fun n hn => by rw [hN n hn, hv]⟩
  | panic => exact absurd ((hN N (Nat.le_refl _)).trans hv) (no_panic ht hd hu last N rounds)
  | more => exact absurd hv (C39_terminates _ _ rounds hr)

theorem clear_within {bad p t q x} (h : Clear bad p t q x) : Within p t q x := by
  induction h with
  | refl => exact .refl _ _
  | step _ hc _ ih => exact .step hc ih

/-- The way to a statement, not within ignored calls, is taken. -/
theorem clear_seen {L : Lang} {cfg : VCfg} (hf : cfg.fields = true) {bad : Tree → Prop} {p t q x}
    (h : Clear bad p t q x) (hg : Grammatical L p t)
    (hbad : ∀ q y, Within p t q y → ¬ bad y → L.isStmt q y.attr = false → L.isCall y.attr.kind = true →
      ¬ Visit.Ignored cfg.config (lower L q y) ∨ cfg.config.visitIgnoredArguments = true)
    (hs : L.isStmt q x.attr = true ∨ L.isCall x.attr.kind = true) : Seen cfg (lower L p t) (lower L q x) := by
  induction h with
  | refl => exact .refl _
  | @step p a cs c q x hb hc hw ih =>
    have ih := ih (hg.child hc) (fun q y hy => hbad q y (.step hc hy)) hs
    have hwi : Within (some a.kind) c q x := clear_within hw
    obtain ⟨_, o2, o3, o4⟩ := hg p _ (.refl _ _)
    simp only [Tree.attr, Tree.children] at o2 o3 o4
    obtain ⟨i, hi⟩ := List.getElem?_of_mem hc
    have only : ∀ k, OnlyAt L a.kind cs k → (cs.map (lower L (some a.kind)))[k]? = some (lower L (some a.kind) c) := by
      intro k ho
      by_cases hik : i = k
      · subst hik; simp [hi]
      · have := ho.2 i c hi hik q x hwi
        rcases hs with hs | hs
        · exact absurd this.1 (by simp [hs])
        · exact absurd this.2 (by simp [hs])
    have hmem : lower L (some a.kind) c ∈ cs.map (lower L (some a.kind)) := List.mem_map.mpr ⟨c, hc, rfl⟩
    have hbad := hbad p (.node a cs) (.refl _ _) hb
    rw [lower_eq, mkNode] at hbad ⊢
    simp only [Tree.attr] at hbad
    split
    · rename_i h1
      split
      · rename_i e he
        obtain ⟨k, hk, hk'⟩ := Option.bind_eq_some_iff.mp he
        rw [only k (o2 h1 k hk)] at hk'
        cases hk'
        exact .step ⟨by simp [Node.kids], trivial⟩ ih
      · exact .step ⟨hmem, trivial⟩ ih
    · rename_i h1
      have h1 : L.isStmt p a = false := by simpa using h1
      split
      · rename_i hcall
        have hbad := hbad h1 hcall
        simp only [h1, hcall, Bool.false_eq_true, if_false, if_true] at hbad
        split
        · rename_i callee k hca hk
          simp only [hca, hk] at hbad
          by_cases hik : i = k
          · subst hik
            unfold calleeOf at hca
            cases hcl : L.callee a cs with
            | child k' =>
              rw [hcl] at hk hca
              simp only [Callee.idx] at hk
              subst hk
              simp only [Option.bind_some, List.getElem?_map, hi, Option.map_some, Option.some.injEq] at hca
              subst hca
              exact .step ⟨by simp [Node.kids], hbad.elim Or.inl fun h => Or.inr (Or.inl h)⟩ ih
            | virtualField k' name =>
              rw [hcl] at hk hca
              simp only [Callee.idx] at hk
              subst hk
              simp only [Option.bind_some, List.getElem?_map, hi, Option.map_some, Option.some.injEq] at hca
              subst hca
              refine .step (m := .field (exprInfo L a) name (lower L (some a.kind) c))
                ⟨by simp [Node.kids], hbad.elim Or.inl fun h => Or.inr (Or.inl h)⟩ ?_
              exact .step ⟨by simp [Node.kids], hf⟩ ih
          · refine .step (m := lower L (some a.kind) c)
              ⟨?_, hbad.elim Or.inl fun h => Or.inr (Or.inl h)⟩ ih
            simp only [Node.kids, List.mem_cons]
            right
            rw [List.mem_eraseIdx_iff_getElem?]
            exact ⟨i, hik, by simp [hi]⟩
        · exact .step ⟨hmem, trivial⟩ ih
      · rename_i hcall
        have hcall : L.isCall a.kind = false := by simpa using hcall
        split
        · rename_i k name hk
          obtain ⟨j, hj, ho⟩ := o4 h1 hcall _ _ hk
          cases hj
          rw [only k ho]
          exact .step ⟨by simp [Node.kids], hf⟩ ih
        · exact .step ⟨hmem, trivial⟩ ih

/-- A statement without statements in it. -/
theorem noInner {L q x} (h : ∀ c ∈ x.children, ∀ r y, Within (some x.attr.kind) c r y → L.isStmt r y.attr = false) :
    NoInnerStmt (lower L q x) := by
  intro m hm y s hs hy
  obtain ⟨a, cs⟩ := x
  have h : ∀ c ∈ cs, ∀ r y, Within (some a.kind) c r y → L.isStmt r y.attr = false := h
  have ho : ∃ c ∈ cs, Origin L (some a.kind) c m := by
    rw [lower_eq] at hm
    rcases mkNode_kids hm with hk | ⟨i, name, b, rfl, hk⟩
    · obtain ⟨c, hc, rfl⟩ := List.mem_map.mp hk
      exact ⟨c, hc, Or.inl ⟨_, c, .refl _ _, rfl⟩⟩
    · obtain ⟨c, hc, rfl⟩ := List.mem_map.mp hk
      exact ⟨c, hc, Or.inr ⟨i, name, _, c, .refl _ _, rfl⟩⟩
  obtain ⟨c, hc, ho⟩ := ho
  have hoy : Origin L (some a.kind) c y := by
    clear hm hy
    induction hs with
    | refl => exact ho
    | step hk _ ih => exact ih (ho.kid hk)
  rcases hoy with ⟨r, z, hw, rfl⟩ | ⟨_, _, _, _, _, rfl⟩
  · have := h c hc r z hw
    rw [(lower_stmt hy).1] at this
    cases this
  · rcases hy with ⟨_, hy⟩ | ⟨_, hy⟩ <;> cases hy

/-- The spec's way from an expression to the call that it makes. -/
theorem head_cases {L q x h} (hh : Head (lower L q x) h) :
    (L.isCall x.attr.kind = true ∧ h = lower L q x) ∨
    ∃ k name c, L.field x.attr x.children = some (some k, name) ∧ x.children[k]? = some c ∧ Head (lower L (some x.attr.kind) c) h := by
  generalize hn : lower L q x = n at hh
  cases hh with
  | call hc =>
    left
    rcases hc with ⟨i, cn, callee, args, rfl⟩ | ⟨i, name, args, rfl⟩
    · exact ⟨(lower_call hn).2.1, rfl⟩
    · exact absurd hn ((lower_plain L q x).2.1 _ _ _)
  | await _ => exact absurd hn ((lower_plain L q x).2.2 _ _)
  | field hb =>
    right
    obtain ⟨k, c, h1, h2, rfl, _⟩ := lower_field hn
    exact ⟨k, _, c, h1, h2, hb⟩

end Necessist.TS
