import Verif.Model.Visitor
/-!
# What is visited, exactly
-/
namespace Necessist.Visit

/-- What does not change while one function is being walked. -/
structure Ctx where
  names : List Text
  last : Option Nat
  returned : List Nat

/-- A node about to be visited, with the call statement waiting for its call. -/
structure Item where
  ctx : Ctx
  waiting : Option StmtInfo
  node : Node

/-- Whether a call's arguments are visited. -/
def goes (cfg : VCfg) (K : Ctx) (c : Option StmtInfo) (a : CallArgs) : Bool :=
  if considered K.names K.last c then
    (!a.isIgnoredAsCall && !a.isIgnoredAsMethodCall) || cfg.config.visitIgnoredArguments
  else true

/-- What is visited next. -/
def next (cfg : VCfg) : Item → List Item
  | ⟨K, _, .test name last cs⟩ =>
    if cfg.config.isIgnoredTest name then [] else cs.map fun m => ⟨⟨[name], last, K.returned⟩, none, m⟩
  | ⟨K, _, .stmt _ cs⟩ => cs.map fun m => ⟨K, none, m⟩
  | ⟨K, _, .exprStmt s e⟩ => [⟨K, if stripsToCall e then some s else none, e⟩]
  | ⟨K, c, .call i callName callee args⟩ =>
    if (walkTarget cfg K.returned callee).isSome || goes cfg K c (callArgs cfg i callName callee) then
      ⟨K, none, callee⟩ :: args.map fun m => ⟨K, none, m⟩
    else if cfg.receiver then [⟨K, none, callee⟩] else []
  | ⟨K, c, .macro_ i name args⟩ =>
    if goes cfg K c (macroArgs cfg i name) then args.map fun m => ⟨K, none, m⟩ else []
  | ⟨K, c, .field _ _ base⟩ => if cfg.fields then [⟨K, c, base⟩] else []
  | ⟨K, c, .await _ arg⟩ => if cfg.fields then [⟨K, c, arg⟩] else []
  | ⟨K, _, .other _ cs⟩ => cs.map fun m => ⟨K, none, m⟩

/-- The visited items. -/
inductive Reach (cfg : VCfg) : Item → Item → Prop
  | refl (x) : Reach cfg x x
  | step {x y z} : y ∈ next cfg x → Reach cfg y z → Reach cfg x z

/-- A statement. -/
def Node.isStmt : Node → Bool
  | .stmt _ _ => true
  | .exprStmt _ _ => true
  | _ => false

/-- No statement is visited within. -/
def Leaf (cfg : VCfg) (x : Item) : Prop := ∀ y ∈ next cfg x, ∀ z, Reach cfg y z → z.node.isStmt = false

/-- A statement that is removable and not the last one. -/
def Eligible (K : Ctx) (s : StmtInfo) : Prop := s.removable = true ∧ K.last ≠ some s.key

/-- The item makes a statement candidate. -/
def StmtCand (cfg : VCfg) (x : Item) (span : Span) : Prop :=
  cfg.skip span = false ∧
  match x with
  | ⟨K, _, .stmt s _⟩ => span = s.span ∧ Eligible K s ∧ s.control = false ∧ s.declaration = false ∧ Leaf cfg x
  | ⟨K, _, .exprStmt s e⟩ =>
    span = s.span ∧ Eligible K s ∧ stripsToCall e = false ∧ s.control = false ∧ s.declaration = false ∧ Leaf cfg x
  | ⟨K, some s, .call i callName callee _⟩ =>
    span = s.span ∧ Eligible K s ∧ walkTarget cfg K.returned callee = none ∧
      (callArgs cfg i callName callee).isIgnoredAsCall = false
  | ⟨K, some s, .macro_ _ name _⟩ => span = s.span ∧ Eligible K s ∧ cfg.config.isIgnoredMacro name = false
  | _ => False

/-- The item makes a method call candidate. -/
def MethCand (cfg : VCfg) (x : Item) (span : Span) : Prop :=
  cfg.skip span = false ∧
  match x with
  | ⟨K, c, .call i callName callee _⟩ =>
    (∀ s, c = some s → Eligible K s) ∧ walkTarget cfg K.returned callee = none ∧
      span = (callArgs cfg i callName callee).span ∧ (callArgs cfg i callName callee).isMethodCall = true ∧
      (callArgs cfg i callName callee).isIgnoredAsCall = false ∧
      (callArgs cfg i callName callee).isIgnoredAsMethodCall = false
  | _ => False

/-- The item is a test that is not ignored. -/
def TestIs (cfg : VCfg) (x : Item) (t : Text) : Prop :=
  cfg.config.isIgnoredTest t = false ∧ ∃ last cs, x.node = .test t last cs

/-- The item is a call of a local function that is to be walked. -/
def CallsFn (cfg : VCfg) (x : Item) (name : Text) (fs : List LocalFn) (f : LocalFn) : Prop :=
  ∃ i callName callee args, x.node = .call i callName callee args ∧
    walkTarget cfg x.ctx.returned callee = some (name, fs, f)

/-- The test is waiting for the function. -/
def InPend (p : List (LocalFn × List Text)) (k : Nat) (t : Text) : Prop := ∃ f ns, (f, ns) ∈ p ∧ f.key = k ∧ t ∈ ns

/-- The keys of pending functions. -/
def pendKeys (p : List (LocalFn × List Text)) : List Nat := p.map (·.1.key)

/-- The effects of visiting the items `R`. -/
structure Eff (cfg : VCfg) (R : Item → Prop) (st st' : VState) : Prop where
  names : st'.testNames = st.testNames
  last : st'.last = st.last
  returned : st'.returned = st.returned
  nBefore : st'.nBefore = st.nBefore
  leavesLe : st.leaves ≤ st'.leaves
  leavesEq : st'.leaves = st.leaves ↔ ∀ y, R y → y.node.isStmt = false
  tests : ∀ t, t ∈ st'.testSet ↔ t ∈ st.testSet ∨ ∃ y, R y ∧ TestIs cfg y t
  stmts : ∀ p, p ∈ st'.statements ↔ p ∈ st.statements ∨ ∃ y, R y ∧ StmtCand cfg y p.1 ∧ p.2 ∈ y.ctx.names
  meths : ∀ p, p ∈ st'.methodCalls ↔ p ∈ st.methodCalls ∨ ∃ y, R y ∧ MethCand cfg y p.1 ∧ p.2 ∈ y.ctx.names
  warns : ∀ n, n ∈ st'.warnings ↔ n ∈ st.warnings ∨ ∃ y fs f, R y ∧ CallsFn cfg y n fs f ∧ 2 ≤ fs.length
  pend : ∀ k t, InPend st'.pending k t ↔
    InPend st.pending k t ∨ ∃ y n fs f, R y ∧ CallsFn cfg y n fs f ∧ f.key = k ∧ t ∈ y.ctx.names
  keys : ∀ k, k ∈ pendKeys st'.pending ↔ k ∈ pendKeys st.pending ∨ ∃ y n fs f, R y ∧ CallsFn cfg y n fs f ∧ f.key = k
  fns : ∀ e ∈ st'.pending, (∃ e0 ∈ st.pending, e0.1 = e.1) ∨ ∃ y n fs, R y ∧ CallsFn cfg y n fs e.1
  nodup : (pendKeys st.pending).Nodup → (pendKeys st'.pending).Nodup

theorem Eff.trans {cfg R1 R2 a b c} (h1 : Eff cfg R1 a b) (h2 : Eff cfg R2 b c) :
    Eff cfg (fun y => R1 y ∨ R2 y) a c where
  names := h2.names.trans h1.names
  last := h2.last.trans h1.last
  returned := h2.returned.trans h1.returned
  nBefore := h2.nBefore.trans h1.nBefore
  leavesLe := Nat.le_trans h1.leavesLe h2.leavesLe
  leavesEq := by
    have a1 := h1.leavesLe; have a2 := h2.leavesLe
    constructor
    · intro h y hy
      rcases hy with hy | hy
      · exact h1.leavesEq.mp (by omega) y hy
      · exact h2.leavesEq.mp (by omega) y hy
    · intro h
      rw [h2.leavesEq.mpr fun y hy => h y (Or.inr hy), h1.leavesEq.mpr fun y hy => h y (Or.inl hy)]
  tests := by intro t; rw [h2.tests, h1.tests]; grind
  stmts := by intro t; rw [h2.stmts, h1.stmts]; grind
  meths := by intro t; rw [h2.meths, h1.meths]; grind
  warns := by intro t; rw [h2.warns, h1.warns]; grind
  pend := by intro k t; rw [h2.pend, h1.pend]; grind
  keys := by intro k; rw [h2.keys, h1.keys]; grind
  fns := by
    intro e he
    rcases h2.fns e he with ⟨e1, h3, h4⟩ | ⟨y, n, fs, h3, h4⟩
    · rcases h1.fns e1 h3 with ⟨e0, h5, h6⟩ | ⟨y, n, fs, h5, h6⟩
      · exact Or.inl ⟨e0, h5, h6.trans h4⟩
      · exact Or.inr ⟨y, n, fs, Or.inl h5, h4 ▸ h6⟩
    · exact Or.inr ⟨y, n, fs, Or.inr h3, h4⟩
  nodup := fun h => h2.nodup (h1.nodup h)

theorem Eff.congr {cfg R1 R2 a b} (h : Eff cfg R1 a b) (e : ∀ y, R1 y ↔ R2 y) : Eff cfg R2 a b := by
  have : R1 = R2 := funext fun y => propext (e y)
  exact this ▸ h

theorem Eff.nil {cfg a} : Eff cfg (fun _ => False) a a where
  names := rfl
  last := rfl
  returned := rfl
  nBefore := rfl
  leavesLe := Nat.le_refl _
  leavesEq := by simp
  tests := by simp
  stmts := by simp
  meths := by simp
  warns := by simp
  pend := by simp
  keys := by simp
  fns := fun e he => Or.inl ⟨e, he, rfl⟩
  nodup := id

theorem mem_insertSet {α} [DecidableEq α] (x y : α) (l : List α) : y ∈ insertSet x l ↔ y ∈ l ∨ y = x := by
  unfold insertSet; split <;> simp <;> grind

theorem mem_extendSet {α} [DecidableEq α] (xs : List α) : ∀ (l : List α) (y : α), y ∈ extendSet l xs ↔ y ∈ l ∨ y ∈ xs := by
  induction xs with
  | nil => intro l y; simp [extendSet]
  | cons x xs ih =>
    intro l y
    have : extendSet l (x :: xs) = extendSet (insertSet x l) xs := rfl
    rw [this, ih, mem_insertSet]; simp only [List.mem_cons]; grind

theorem addPending_keys (f : LocalFn) (ns : List Text) : ∀ p k,
    k ∈ pendKeys (addPending f ns p) ↔ k ∈ pendKeys p ∨ k = f.key := by
  intro p
  induction p with
  | nil => intro k; simp [addPending, pendKeys]
  | cons e p ih =>
    obtain ⟨g, ms⟩ := e
    intro k
    rw [addPending]
    split
    · rename_i h; simp only [pendKeys, List.map_cons, List.mem_cons]; grind
    · simp only [pendKeys, List.map_cons, List.mem_cons] at ih ⊢; rw [ih]; grind

theorem addPending_nodup (f : LocalFn) (ns : List Text) : ∀ p, (pendKeys p).Nodup → (pendKeys (addPending f ns p)).Nodup := by
  intro p
  induction p with
  | nil => intro _; simp [addPending, pendKeys]
  | cons e p ih =>
    obtain ⟨g, ms⟩ := e
    intro h
    rw [addPending]
    split
    · exact h
    · rename_i hne
      have h1 : g.key ∉ pendKeys p ∧ (pendKeys p).Nodup := List.nodup_cons.mp h
      refine List.nodup_cons.mpr ⟨?_, ih h1.2⟩
      intro hm
      rcases (addPending_keys f ns p g.key).mp hm with hm | hm
      · exact h1.1 hm
      · exact hne hm

theorem addPending_in (f : LocalFn) (ns : List Text) : ∀ p k t,
    InPend (addPending f ns p) k t ↔ InPend p k t ∨ (f.key = k ∧ t ∈ ns) := by
  intro p
  induction p with
  | nil =>
    intro k t
    simp only [addPending, InPend, List.mem_singleton, Prod.mk.injEq, List.not_mem_nil, false_and, exists_false, false_or]
    constructor
    · rintro ⟨g, ms, ⟨rfl, rfl⟩, h1, h2⟩
      exact ⟨h1, by simpa [mem_extendSet] using h2⟩
    · rintro ⟨h1, h2⟩
      exact ⟨f, _, ⟨rfl, rfl⟩, h1, by simpa [mem_extendSet] using h2⟩
  | cons e p ih =>
    obtain ⟨g, ms⟩ := e
    intro k t
    have hc : ∀ (e : LocalFn × List Text) q, InPend (e :: q) k t ↔ (e.1.key = k ∧ t ∈ e.2) ∨ InPend q k t := by
      intro e q; simp only [InPend, List.mem_cons]; grind
    rw [addPending, hc]
    split
    · rename_i h; rw [hc]; simp only [mem_extendSet]; grind
    · rw [hc, ih]; grind

theorem addPending_fns (f : LocalFn) (ns : List Text) : ∀ p, ∀ e ∈ addPending f ns p,
    (∃ e0 ∈ p, e0.1 = e.1) ∨ e.1 = f := by
  intro p
  induction p with
  | nil => intro e he; simp [addPending] at he; right; rw [he]
  | cons e p ih =>
    obtain ⟨g, ms⟩ := e
    intro e he
    rw [addPending] at he
    split at he
    · rcases List.mem_cons.mp he with he | he
      · left; exact ⟨(g, ms), by simp, by rw [he]⟩
      · left; exact ⟨e, by simp [he], rfl⟩
    · rcases List.mem_cons.mp he with he | he
      · left; exact ⟨(g, ms), by simp, by rw [he]⟩
      · rcases ih e he with ⟨e0, h1, h2⟩ | h
        · left; exact ⟨e0, by simp [h1], h2⟩
        · right; exact h

/-- The constant part of a state. -/
def VState.ctx (st : VState) : Ctx := ⟨st.testNames, st.last, st.returned⟩

theorem registerSpan_some {cfg span kind st st'} (h : registerSpan cfg span kind st = some st') :
    st' = { st with statements := st'.statements, methodCalls := st'.methodCalls } ∧
    (∀ p, p ∈ st'.statements ↔ p ∈ st.statements ∨
      (kind = .statement ∧ p.1 = span ∧ cfg.skip span = false ∧ p.2 ∈ st.testNames)) ∧
    (∀ p, p ∈ st'.methodCalls ↔ p ∈ st.methodCalls ∨
      (kind = .methodCall ∧ p.1 = span ∧ cfg.skip span = false ∧ p.2 ∈ st.testNames)) := by
  unfold registerSpan at h
  split at h
  · cases h
  · split at h
    · rename_i hs; cases h; simp [hs]
    · rename_i hs
      have hs : cfg.skip span = false := by simpa using hs
      have hm : ∀ p : Span × Text, (p ∈ st.testNames.map fun t => (span, t)) ↔ p.1 = span ∧ p.2 ∈ st.testNames := by
        rintro ⟨a, b⟩; simp only [List.mem_map, Prod.mk.injEq]; grind
      split at h
      · cases h
        refine ⟨rfl, fun p => ?_, by simp⟩
        simp only [mem_extendSet, hm, hs]; grind
      · cases h
        refine ⟨rfl, by simp, fun p => ?_⟩
        simp only [mem_extendSet, hm, hs]; grind

/-- The condition under which a call is considered. -/
def Considered (K : Ctx) (c : Option StmtInfo) : Prop := ∀ s, c = some s → Eligible K s

theorem visitMaybeMacroCall_some {cfg a st r} (h : visitMaybeMacroCall cfg a st = some r) :
    r.1 = goes cfg st.ctx st.callStatement a ∧
    r.2 = { st with callStatement := none, statements := r.2.statements, methodCalls := r.2.methodCalls } ∧
    (∀ p, p ∈ r.2.statements ↔ p ∈ st.statements ∨
      (cfg.skip p.1 = false ∧ (∃ s, st.callStatement = some s ∧ p.1 = s.span ∧ Eligible st.ctx s) ∧
        a.isIgnoredAsCall = false ∧ p.2 ∈ st.testNames)) ∧
    (∀ p, p ∈ r.2.methodCalls ↔ p ∈ st.methodCalls ∨
      (cfg.skip p.1 = false ∧ Considered st.ctx st.callStatement ∧ p.1 = a.span ∧ a.isMethodCall = true ∧
        a.isIgnoredAsCall = false ∧ a.isIgnoredAsMethodCall = false ∧ p.2 ∈ st.testNames)) := by
  unfold visitMaybeMacroCall at h
  simp only at h
  split at h
  · rename_i hc
    obtain ⟨st1, h1, h⟩ := Option.bind_eq_some_iff.mp h
    obtain ⟨st2, h2, h⟩ := Option.bind_eq_some_iff.mp h
    have h := Option.some.inj h
    have hcons : Considered st.ctx st.callStatement := by
      intro s hs; rw [hs] at hc
      simp only [considered, Bool.and_eq_true, Bool.not_eq_true', beq_eq_false_iff_ne] at hc
      exact hc.2
    have e1 : st1 = { st with callStatement := none, statements := st1.statements } ∧
        (∀ p, p ∈ st1.statements ↔ p ∈ st.statements ∨
          (cfg.skip p.1 = false ∧ (∃ s, st.callStatement = some s ∧ p.1 = s.span ∧ Eligible st.ctx s) ∧
            a.isIgnoredAsCall = false ∧ p.2 ∈ st.testNames)) := by
      split at h1
      · rename_i hs
        cases h1
        simp [hs]
      · rename_i s hs
        split at h1
        · rename_i hi
          have hi : a.isIgnoredAsCall = false := by simpa using hi
          have := registerSpan_some h1
          obtain ⟨h3, h4, h5⟩ := this
          refine ⟨?_, ?_⟩
          · have h6 : st1.methodCalls = st.methodCalls := by
              unfold registerSpan at h1
              split at h1
              · cases h1
              · split at h1
                · cases h1; rfl
                · cases h1; rfl
            rw [h3, h6]
          · intro p
            rw [h4]
            have := hcons s hs
            simp only [hs, hi]; grind
        · rename_i hi
          cases h1
          refine ⟨rfl, ?_⟩
          have hi : a.isIgnoredAsCall = true := by simpa using hi
          simp [hi]
    have e2 : st2 = { st1 with methodCalls := st2.methodCalls } ∧
        (∀ p, p ∈ st2.methodCalls ↔ p ∈ st1.methodCalls ∨
          (cfg.skip p.1 = false ∧ p.1 = a.span ∧ a.isMethodCall = true ∧
            a.isIgnoredAsCall = false ∧ a.isIgnoredAsMethodCall = false ∧ p.2 ∈ st1.testNames)) := by
      split at h2
      · rename_i hi
        simp only [Bool.and_eq_true, Bool.not_eq_true'] at hi
        obtain ⟨h3, h4, h5⟩ := registerSpan_some h2
        refine ⟨?_, ?_⟩
        · have h6 : st2.statements = st1.statements := by
            unfold registerSpan at h2
            split at h2
            · cases h2
            · split at h2
              · cases h2; rfl
              · cases h2; rfl
          rw [h3, h6]
        · intro p
          rw [h5]; simp only [hi]; grind
      · rename_i hi
        cases h2
        refine ⟨rfl, fun p => ?_⟩
        grind
    subst h
    refine ⟨?_, ?_, ?_, ?_⟩
    · unfold goes
      rw [if_pos]
      exact hc
    · simp only
      rw [e2.1, e1.1]
    · intro p
      simp only
      have : st2.statements = st1.statements := by rw [e2.1]
      rw [this, e1.2]
    · intro p
      simp only
      have h6 : st1.methodCalls = st.methodCalls := by rw [e1.1]
      have h7 : st1.testNames = st.testNames := by rw [e1.1]
      rw [e2.2, h6, h7]
      grind
  · rename_i hc
    have h := Option.some.inj h
    subst h
    have hno : ∀ t ∈ st.testNames, ¬ Considered st.ctx st.callStatement := by
      intro t ht hcons
      apply hc
      have : st.testNames.isEmpty = false := by cases hq : st.testNames <;> simp_all
      cases hq : st.callStatement with
      | none => simp [considered, this]
      | some s =>
        have := hcons s hq
        simp only [considered, Bool.and_eq_true, Bool.not_eq_true', beq_eq_false_iff_ne]
        exact ⟨by assumption, this.1, this.2⟩
    refine ⟨?_, rfl, ?_, ?_⟩
    · unfold goes
      rw [if_neg]
      exact hc
    · intro p
      simp only
      constructor
      · exact Or.inl
      · rintro (h | ⟨_, ⟨s, h1, h2, h3⟩, _, h4⟩)
        · exact h
        · exact absurd (fun s' hs' => by rw [h1] at hs'; cases hs'; exact h3) (hno _ h4)
    · intro p
      simp only
      constructor
      · exact Or.inl
      · rintro (h | ⟨_, h1, _, _, _, _, h4⟩)
        · exact h
        · exact absurd h1 (hno _ h4)

/-- What holds of the states in which walks begin. -/
def Good (cfg : VCfg) (st : VState) : Prop :=
  (st.testNames = [] → st.last = none) ∧ ∀ t ∈ st.testNames, cfg.config.isIgnoredTest t = false

theorem reach_iff {cfg x z} : Reach cfg x z ↔ z = x ∨ ∃ y ∈ next cfg x, Reach cfg y z := by
  constructor
  · intro h; cases h with
    | refl => exact Or.inl rfl
    | step h1 h2 => exact Or.inr ⟨_, h1, h2⟩
  · rintro (rfl | ⟨y, h1, h2⟩)
    · exact .refl _
    · exact .step h1 h2

theorem exists_map {α} (g : α → Item) (cs : List α) (P : Item → Prop) :
    (∃ y ∈ cs.map g, P y) ↔ ∃ m ∈ cs, P (g m) := by
  simp only [List.mem_map]
  constructor
  · rintro ⟨y, ⟨m, hm, rfl⟩, h⟩; exact ⟨m, hm, h⟩
  · rintro ⟨m, hm, h⟩; exact ⟨_, ⟨m, hm, rfl⟩, h⟩

theorem maybe_eff {cfg a st r x} (h : visitMaybeMacroCall cfg a st = some r) (hx : x.ctx = st.ctx)
    (hst : x.node.isStmt = false) (hte : ∀ t, ¬ TestIs cfg x t) (hca : ∀ n fs f, ¬ CallsFn cfg x n fs f)
    (hs : ∀ span, StmtCand cfg x span ↔
      cfg.skip span = false ∧ (∃ s, st.callStatement = some s ∧ span = s.span ∧ Eligible st.ctx s) ∧ a.isIgnoredAsCall = false)
    (hm : ∀ span, MethCand cfg x span ↔
      cfg.skip span = false ∧ Considered st.ctx st.callStatement ∧ span = a.span ∧ a.isMethodCall = true ∧
        a.isIgnoredAsCall = false ∧ a.isIgnoredAsMethodCall = false) :
    Eff cfg (fun y => y = x) st r.2 := by
  obtain ⟨h1, h2, h3, h4⟩ := visitMaybeMacroCall_some h
  have hn : x.ctx.names = st.testNames := by rw [hx]; rfl
  exact
    { names := by rw [h2]
      last := by rw [h2]
      returned := by rw [h2]
      nBefore := by rw [h2]
      leavesLe := by rw [h2]; exact Nat.le_refl _
      leavesEq := by
        have : r.2.leaves = st.leaves := by rw [h2]
        simp only [this, true_iff]
        rintro y rfl; exact hst
      tests := by
        intro t
        have : r.2.testSet = st.testSet := by rw [h2]
        rw [this]
        constructor
        · exact Or.inl
        · rintro (h | ⟨y, rfl, h⟩)
          · exact h
          · exact absurd h (hte t)
      stmts := by
        intro p; rw [h3]
        constructor
        · rintro (h | ⟨a1, a2, a3, a4⟩)
          · exact Or.inl h
          · exact Or.inr ⟨x, rfl, (hs _).mpr ⟨a1, a2, a3⟩, by rw [hn]; exact a4⟩
        · rintro (h | ⟨y, rfl, a1, a2⟩)
          · exact Or.inl h
          · rw [hn] at a2
            obtain ⟨b1, b2, b3⟩ := (hs _).mp a1
            exact Or.inr ⟨b1, b2, b3, a2⟩
      meths := by
        intro p; rw [h4]
        constructor
        · rintro (h | ⟨a1, a2, a3, a4, a5, a6, a7⟩)
          · exact Or.inl h
          · exact Or.inr ⟨x, rfl, (hm _).mpr ⟨a1, a2, a3, a4, a5, a6⟩, by rw [hn]; exact a7⟩
        · rintro (h | ⟨y, rfl, a1, a2⟩)
          · exact Or.inl h
          · rw [hn] at a2
            obtain ⟨b1, b2, b3, b4, b5, b6⟩ := (hm _).mp a1
            exact Or.inr ⟨b1, b2, b3, b4, b5, b6, a2⟩
      warns := by
        intro n
        have : r.2.warnings = st.warnings := by rw [h2]
        rw [this]
        constructor
        · exact Or.inl
        · rintro (h | ⟨y, fs, f, rfl, h, _⟩)
          · exact h
          · exact absurd h (hca _ _ _)
      pend := by
        intro k t
        have : r.2.pending = st.pending := by rw [h2]
        rw [this]
        constructor
        · exact Or.inl
        · rintro (h | ⟨y, n, fs, f, rfl, h, _⟩)
          · exact h
          · exact absurd h (hca _ _ _)
      keys := by
        intro k
        have : r.2.pending = st.pending := by rw [h2]
        rw [this]
        constructor
        · exact Or.inl
        · rintro (h | ⟨y, n, fs, f, rfl, h, _⟩)
          · exact h
          · exact absurd h (hca _ _ _)
      fns := by
        have : r.2.pending = st.pending := by rw [h2]
        rw [this]
        exact fun e he => Or.inl ⟨e, he, rfl⟩
      nodup := by
        have : r.2.pending = st.pending := by rw [h2]
        rw [this]; exact id }

theorem visitCall_eff {cfg i cn callee st r} (args : List Node) (h : visitCall cfg i cn callee st = some r) :
    Eff cfg (fun y => y = ⟨st.ctx, st.callStatement, .call i cn callee args⟩) st r.2 ∧ r.2.callStatement = none ∧
    r.1 = ((walkTarget cfg st.returned callee).isSome || goes cfg st.ctx st.callStatement (callArgs cfg i cn callee)) := by
  unfold visitCall at h
  split at h
  · rename_i name fs f hw
    have h := Option.some.inj h
    subst h
    refine ⟨?_, rfl, by simp [hw]⟩
    have hno : ∀ span, ¬ StmtCand cfg ⟨st.ctx, st.callStatement, .call i cn callee args⟩ span := by
      intro span hs
      cases hq : st.callStatement with
      | none => rw [hq] at hs; exact hs.2
      | some s =>
        rw [hq] at hs
        have : walkTarget cfg st.returned callee = none := hs.2.2.2.1
        rw [hw] at this; cases this
    have hno' : ∀ span, ¬ MethCand cfg ⟨st.ctx, st.callStatement, .call i cn callee args⟩ span := by
      intro span hs
      have : walkTarget cfg st.returned callee = none := hs.2.2.1
      rw [hw] at this; cases this
    have hca : CallsFn cfg ⟨st.ctx, st.callStatement, .call i cn callee args⟩ name fs f := ⟨_, _, _, _, rfl, hw⟩
    have hca' : ∀ n' fs' f', CallsFn cfg ⟨st.ctx, st.callStatement, .call i cn callee args⟩ n' fs' f' →
        n' = name ∧ fs' = fs ∧ f' = f := by
      rintro n' fs' f' ⟨i', cn', callee', args', h1, h2⟩
      cases h1
      have h2 : walkTarget cfg st.returned callee = some (n', fs', f') := h2
      rw [hw] at h2; cases h2; exact ⟨rfl, rfl, rfl⟩
    exact
      { names := rfl
        last := rfl
        returned := rfl
        nBefore := rfl
        leavesLe := Nat.le_refl _
        leavesEq := by
          simp only [true_iff]
          rintro y rfl; rfl
        tests := by
          intro t
          constructor
          · exact Or.inl
          · rintro (h | ⟨y, rfl, _, last, cs, h⟩)
            · exact h
            · cases h
        stmts := by
          intro p
          constructor
          · exact Or.inl
          · rintro (h | ⟨y, rfl, h, _⟩)
            · exact h
            · exact absurd h (hno _)
        meths := by
          intro p
          constructor
          · exact Or.inl
          · rintro (h | ⟨y, rfl, h, _⟩)
            · exact h
            · exact absurd h (hno' _)
        warns := by
          intro n
          simp only
          split
          · rename_i hl
            rw [mem_insertSet]
            constructor
            · rintro (h | rfl)
              · exact Or.inl h
              · exact Or.inr ⟨_, fs, f, rfl, hca, hl⟩
            · rintro (h | ⟨y, fs', f', rfl, h, hl'⟩)
              · exact Or.inl h
              · exact Or.inr (hca' _ _ _ h).1
          · rename_i hl
            constructor
            · exact Or.inl
            · rintro (h | ⟨y, fs', f', rfl, h, hl'⟩)
              · exact h
              · rw [(hca' _ _ _ h).2.1] at hl'; exact absurd hl' hl
        pend := by
          intro k t
          simp only
          rw [addPending_in]
          constructor
          · rintro (h | ⟨h1, h2⟩)
            · exact Or.inl h
            · exact Or.inr ⟨_, name, fs, f, rfl, hca, h1, h2⟩
          · rintro (h | ⟨y, n', fs', f', rfl, h, h1, h2⟩)
            · exact Or.inl h
            · rw [(hca' _ _ _ h).2.2] at h1; exact Or.inr ⟨h1, h2⟩
        keys := by
          intro k
          simp only
          rw [addPending_keys]
          constructor
          · rintro (h | h1)
            · exact Or.inl h
            · exact Or.inr ⟨_, name, fs, f, rfl, hca, h1.symm⟩
          · rintro (h | ⟨y, n', fs', f', rfl, h, h1⟩)
            · exact Or.inl h
            · rw [(hca' _ _ _ h).2.2] at h1; exact Or.inr h1.symm
        fns := by
          intro e he
          rcases addPending_fns _ _ _ _ he with h | h
          · exact Or.inl h
          · exact Or.inr ⟨_, name, fs, rfl, h ▸ hca⟩
        nodup := addPending_nodup _ _ _ }
  · rename_i hw
    obtain ⟨h1, h2, h3, h4⟩ := visitMaybeMacroCall_some h
    refine ⟨maybe_eff h rfl rfl ?_ ?_ ?_ ?_, by rw [h2], by simp [hw, h1]⟩
    · rintro t ⟨_, last, cs, h⟩; cases h
    · rintro n fs f ⟨i', cn', callee', args', h1, h2⟩
      cases h1
      have h2 : walkTarget cfg st.returned callee = some (n, fs, f) := h2
      rw [hw] at h2; cases h2
    · intro span
      cases hq : st.callStatement with
      | none => simp [StmtCand]
      | some s =>
        have hw' : walkTarget cfg st.ctx.returned callee = none := hw
        simp only [StmtCand, hw', Option.some.injEq, exists_eq_left']
        grind
    · intro span
      have hw' : walkTarget cfg st.ctx.returned callee = none := hw
      simp only [MethCand, hw', Considered]
      grind

theorem visitMacroCall_eff {cfg i name st r} (args : List Node) (h : visitMacroCall cfg i name st = some r) :
    Eff cfg (fun y => y = ⟨st.ctx, st.callStatement, .macro_ i name args⟩) st r.2 ∧ r.2.callStatement = none ∧
    r.1 = goes cfg st.ctx st.callStatement (macroArgs cfg i name) := by
  obtain ⟨h1, h2, h3, h4⟩ := visitMaybeMacroCall_some h
  refine ⟨maybe_eff h rfl rfl ?_ ?_ ?_ ?_, by rw [h2], h1⟩
  · rintro t ⟨_, last, cs, h⟩; cases h
  · rintro n fs f ⟨i', cn', callee', args', h1, h2⟩; cases h1
  · intro span
    cases hq : st.callStatement with
    | none => simp [StmtCand]
    | some s =>
      simp only [StmtCand, macroArgs, Option.some.injEq, exists_eq_left']
      grind
  · intro span
    simp only [MethCand, macroArgs]
    grind

theorem silent_eff {cfg st x} (hst : x.node.isStmt = false) (hte : ∀ t, ¬ TestIs cfg x t)
    (hca : ∀ n fs f, ¬ CallsFn cfg x n fs f) (hs : ∀ span, ¬ StmtCand cfg x span) (hm : ∀ span, ¬ MethCand cfg x span) :
    Eff cfg (fun y => y = x) st st where
  names := rfl
  last := rfl
  returned := rfl
  nBefore := rfl
  leavesLe := Nat.le_refl _
  leavesEq := by simp [hst]
  tests := by simp [hte]
  stmts := by simp [hs]
  meths := by simp [hm]
  warns := by simp [hca]
  pend := by simp [hca]
  keys := by simp [hca]
  fns := fun e he => Or.inl ⟨e, he, rfl⟩
  nodup := id

theorem stmt_eff {cfg s isCall st st1 st2 st3 R x}
    (h1 : visitStatement s isCall st = some st1) (h2 : Eff cfg R st1 st2) (h3 : visitStatementPost cfg s isCall st2 = some st3)
    (hx : x.ctx = st.ctx) (hst : x.node.isStmt = true) (hte : ∀ t, ¬ TestIs cfg x t) (hca : ∀ n fs f, ¬ CallsFn cfg x n fs f)
    (hs : ∀ span, StmtCand cfg x span ↔ cfg.skip span = false ∧ span = s.span ∧ Eligible st.ctx s ∧ isCall = false ∧
      s.control = false ∧ s.declaration = false ∧ ∀ y, R y → y.node.isStmt = false)
    (hm : ∀ span, ¬ MethCand cfg x span) :
    Eff cfg (fun y => y = x ∨ R y) st st3 ∧ st3.callStatement = none := by
  have e1 : st1 = { st with nBefore := st.leaves :: st.nBefore, callStatement := st1.callStatement } := by
    unfold visitStatement at h1
    simp only at h1
    split at h1
    · split at h1
      · cases h1
      · cases h1; rfl
    · cases h1; rfl
  have hn : x.ctx.names = st.testNames := by rw [hx]; rfl
  have hnB : st2.nBefore = st.leaves :: st.nBefore := by rw [h2.nBefore, e1]
  have hl1 : st1.leaves = st.leaves := by rw [e1]
  have hle := h2.leavesLe
  unfold visitStatementPost at h3
  split at h3
  · cases h3
  · rename_i hcs
    have hcs : st2.callStatement = none := by simpa using hcs
    rw [hnB] at h3
    simp only at h3
    -- the state after the children and the leaf counter
    have key : ∃ st4 : VState, st3 = { st4 with statements := st3.statements, methodCalls := st3.methodCalls } ∧
        st4 = { st2 with nBefore := st.nBefore, leaves := st4.leaves } ∧ st.leaves < st4.leaves ∧
        st3.methodCalls = st2.methodCalls ∧
        (∀ p, p ∈ st3.statements ↔ p ∈ st2.statements ∨ (StmtCand cfg x p.1 ∧ p.2 ∈ st.testNames)) := by
      split at h3
      · rename_i hne
        cases h3
        refine ⟨{ st2 with nBefore := st.nBefore }, rfl, rfl, ?_, rfl, ?_⟩
        · simp only; omega
        · intro p
          constructor
          · exact Or.inl
          · rintro (h | ⟨h, _⟩)
            · exact h
            · exact absurd (((h2.leavesEq.mpr ((hs _).mp h).2.2.2.2.2.2).trans hl1).symm) hne
      · rename_i heq
        have heq : st.leaves = st2.leaves := Decidable.not_not.mp heq
        have hleaf : ∀ y, R y → y.node.isStmt = false := h2.leavesEq.mp (by omega)
        split at h3
        · rename_i hc
          simp only [Bool.and_eq_true, Bool.not_eq_true', beq_eq_false_iff_ne] at hc
          obtain ⟨⟨⟨⟨⟨c1, c2⟩, c3⟩, c4⟩, c5⟩, c6⟩ := hc
          obtain ⟨g1, g2, g3⟩ := registerSpan_some h3
          refine ⟨_, g1, rfl, ?_, ?_, ?_⟩
          · simp only; omega
          · unfold registerSpan at h3
            split at h3
            · cases h3
            · split at h3
              · cases h3; rfl
              · cases h3; rfl
          · intro p
            rw [g2]
            have hl : st2.last = st.last := by rw [h2.last, e1]
            have hnn : st2.testNames = st.testNames := by rw [h2.names, e1]
            have hel : Eligible st.ctx s := ⟨c2, fun h => c3 (hl.trans h)⟩
            simp only [hs, hnn, true_and]
            constructor
            · rintro (h | ⟨a1, a2, a3⟩)
              · exact Or.inl h
              · exact Or.inr ⟨⟨a1 ▸ a2, a1, hel, c4, c5, c6, hleaf⟩, a3⟩
            · rintro (h | ⟨⟨a1, a2, _⟩, a3⟩)
              · exact Or.inl h
              · exact Or.inr ⟨a2, a2 ▸ a1, a3⟩
        · rename_i hc
          cases h3
          refine ⟨{ st2 with nBefore := st.nBefore, leaves := st2.leaves + 1 }, rfl, rfl, ?_, rfl, ?_⟩
          · simp only; omega
          · intro p
            constructor
            · exact Or.inl
            · rintro (h | ⟨h, ht⟩)
              · exact h
              · exfalso
                apply hc
                obtain ⟨_, _, b1, b2, b3, b4, _⟩ := (hs _).mp h
                have hl : st2.last = st.last := by rw [h2.last, e1]
                have hnn : st2.testNames = st.testNames := by rw [h2.names, e1]
                have hne : st.testNames.isEmpty = false := by
                  rw [List.isEmpty_eq_false_iff]; exact fun h => by rw [h] at ht; cases ht
                have hb := b1.2
                simp only [VState.ctx] at hb
                simp [hl, hnn, hne, b1.1, b2, b3, b4, hb]
    obtain ⟨st4, k1, k2, k3, k4, k5⟩ := key
    have q1 : st3.leaves = st4.leaves := by rw [k1]
    have q2 : st3.testSet = st2.testSet := by rw [k1, k2]
    have q3 : st3.warnings = st2.warnings := by rw [k1, k2]
    have q4 : st3.pending = st2.pending := by rw [k1, k2]
    have r2 : st1.testSet = st.testSet := by rw [e1]
    have r3 : st1.warnings = st.warnings := by rw [e1]
    have r4 : st1.pending = st.pending := by rw [e1]
    have r5 : st1.statements = st.statements := by rw [e1]
    have r6 : st1.methodCalls = st.methodCalls := by rw [e1]
    refine ⟨?_, by rw [k1, k2]; exact hcs⟩
    exact
      { names := by rw [k1, k2]; simp only; rw [h2.names, e1]
        last := by rw [k1, k2]; simp only; rw [h2.last, e1]
        returned := by rw [k1, k2]; simp only; rw [h2.returned, e1]
        nBefore := by rw [k1, k2]
        leavesLe := by omega
        leavesEq := by
          constructor
          · intro h; omega
          · intro h; have := h x (Or.inl rfl); rw [hst] at this; cases this
        tests := by
          intro t; rw [q2, h2.tests, r2]
          constructor
          · rintro (h | ⟨y, h⟩)
            · exact Or.inl h
            · exact Or.inr ⟨y, Or.inr h.1, h.2⟩
          · rintro (h | ⟨y, rfl | h, h'⟩)
            · exact Or.inl h
            · exact absurd h' (hte _)
            · exact Or.inr ⟨y, h, h'⟩
        stmts := by
          intro p; rw [k5, h2.stmts, r5]
          constructor
          · rintro ((h | ⟨y, a1, a2⟩) | ⟨a1, a2⟩)
            · exact Or.inl h
            · exact Or.inr ⟨y, Or.inr a1, a2⟩
            · exact Or.inr ⟨x, Or.inl rfl, a1, by rw [hn]; exact a2⟩
          · rintro (h | ⟨y, rfl | h, a1, a2⟩)
            · exact Or.inl (Or.inl h)
            · rw [hn] at a2; exact Or.inr ⟨a1, a2⟩
            · exact Or.inl (Or.inr ⟨y, h, a1, a2⟩)
        meths := by
          intro p; rw [k4, h2.meths, r6]
          constructor
          · rintro (h | ⟨y, h⟩)
            · exact Or.inl h
            · exact Or.inr ⟨y, Or.inr h.1, h.2⟩
          · rintro (h | ⟨y, rfl | h, h'⟩)
            · exact Or.inl h
            · exact absurd h'.1 (hm _)
            · exact Or.inr ⟨y, h, h'⟩
        warns := by
          intro n; rw [q3, h2.warns, r3]
          constructor
          · rintro (h | ⟨y, fs, f, h⟩)
            · exact Or.inl h
            · exact Or.inr ⟨y, fs, f, Or.inr h.1, h.2⟩
          · rintro (h | ⟨y, fs, f, rfl | h, h'⟩)
            · exact Or.inl h
            · exact absurd h'.1 (hca _ _ _)
            · exact Or.inr ⟨y, fs, f, h, h'⟩
        pend := by
          intro k t; rw [q4, h2.pend, r4]
          constructor
          · rintro (h | ⟨y, n, fs, f, h⟩)
            · exact Or.inl h
            · exact Or.inr ⟨y, n, fs, f, Or.inr h.1, h.2⟩
          · rintro (h | ⟨y, n, fs, f, rfl | h, h'⟩)
            · exact Or.inl h
            · exact absurd h'.1 (hca _ _ _)
            · exact Or.inr ⟨y, n, fs, f, h, h'⟩
        keys := by
          intro k; rw [q4, h2.keys, r4]
          constructor
          · rintro (h | ⟨y, n, fs, f, h⟩)
            · exact Or.inl h
            · exact Or.inr ⟨y, n, fs, f, Or.inr h.1, h.2⟩
          · rintro (h | ⟨y, n, fs, f, rfl | h, h'⟩)
            · exact Or.inl h
            · exact absurd h'.1 (hca _ _ _)
            · exact Or.inr ⟨y, n, fs, f, h, h'⟩
        fns := by
          intro e he
          rw [q4] at he
          rcases h2.fns e he with h | ⟨y, n, fs, h, h'⟩
          · rw [r4] at h; exact Or.inl h
          · exact Or.inr ⟨y, n, fs, Or.inr h, h'⟩
        nodup := by
          intro h; rw [q4]; exact h2.nodup (by rw [r4]; exact h) }

/-- Only states without nested tests can be walked. -/
theorem test_eff {cfg name last cs st r st2 st3 R x}
    (hg : Good cfg st)
    (h1 : visitTest cfg name last st = some r)
    (h2 : if r.1 then Eff cfg R r.2 st2 ∧ st2.callStatement = none else st2 = r.2) (h3 : visitTestPost name st2 = some st3)
    (hc : st.callStatement = none)
    (hR : r.1 = false → ∀ y, ¬ R y) (hx : x = ⟨st.ctx, none, .test name last cs⟩) :
    Eff cfg (fun y => y = x ∨ R y) st st3 ∧ st3.callStatement = none := by
  have hns : ∀ span, ¬ StmtCand cfg x span := by intro span h; rw [hx] at h; exact h.2
  have hnm : ∀ span, ¬ MethCand cfg x span := by intro span h; rw [hx] at h; exact h.2
  have hca : ∀ n fs f, ¬ CallsFn cfg x n fs f := by
    rintro n fs f ⟨i', cn', callee', args', h, _⟩; rw [hx] at h; cases h
  have hxs : x.node.isStmt = false := by rw [hx]; rfl
  unfold visitTest at h1
  split at h1
  · rename_i hi
    have h1 := Option.some.inj h1
    subst h1
    simp only [Bool.false_eq_true, if_false] at h2
    rw [h2] at h3
    have hR' := hR rfl
    unfold visitTestPost at h3
    simp only at h3
    have hst3 : st3 = st := by
      split at h3
      · rename_i he
        cases h3
        have : st.testNames = [] := by simpa using he
        have := hg.1 this
        cases st; simp_all
      · split at h3
        · rename_i he
          have := hg.2 name (by rw [he]; simp)
          rw [hi] at this; cases this
        · cases h3
    subst hst3
    have htt : ∀ t, ¬ TestIs cfg x t := by
      rintro t ⟨h, l, c, h'⟩; rw [hx] at h'; cases h'; rw [hi] at h; cases h
    refine ⟨?_, hc⟩
    have hall : ∀ y, (y = x ∨ R y) ↔ y = x := fun y => by simp [hR' y]
    exact
      { names := rfl
        last := rfl
        returned := rfl
        nBefore := rfl
        leavesLe := Nat.le_refl _
        leavesEq := by simp only [true_iff, hall]; intro y hy; rw [hy]; exact hxs
        tests := by intro t; simp only [hall, exists_eq_left]; simp [htt]
        stmts := by intro t; simp only [hall, exists_eq_left]; simp [hns]
        meths := by intro t; simp only [hall, exists_eq_left]; simp [hnm]
        warns := by
          intro n; constructor
          · exact Or.inl
          · rintro (h | ⟨y, fs, f, h, h', _⟩)
            · exact h
            · rw [(hall y).mp h] at h'; exact absurd h' (hca _ _ _)
        pend := by
          intro k t; constructor
          · exact Or.inl
          · rintro (h | ⟨y, n, fs, f, h, h', _⟩)
            · exact h
            · rw [(hall y).mp h] at h'; exact absurd h' (hca _ _ _)
        keys := by
          intro k; constructor
          · exact Or.inl
          · rintro (h | ⟨y, n, fs, f, h, h', _⟩)
            · exact h
            · rw [(hall y).mp h] at h'; exact absurd h' (hca _ _ _)
        fns := fun e he => Or.inl ⟨e, he, rfl⟩
        nodup := id }
  · rename_i hi
    have hi : cfg.config.isIgnoredTest name = false := by simpa using hi
    split at h1
    · cases h1
    · rename_i hne
      have hne : st.testNames = [] := by simpa using hne
      split at h1
      · cases h1
      · rename_i hl
        have hl : st.last = none := by simpa using hl
        have h1 := Option.some.inj h1
        subst h1
        simp only [if_true] at h2
        obtain ⟨h2, h2c⟩ := h2
        have htt : ∀ t, TestIs cfg x t ↔ t = name := by
          intro t
          constructor
          · rintro ⟨h, l, c, h'⟩; rw [hx] at h'; cases h'; rfl
          · rintro rfl; exact ⟨hi, last, cs, by rw [hx]⟩
        have hst3 : st3 = { st2 with last := none, testNames := [] } := by
          unfold visitTestPost at h3
          simp only at h3
          have : st2.testNames = [name] := h2.names
          rw [this] at h3
          simp at h3
          exact h3.symm
        refine ⟨?_, by rw [hst3]; exact h2c⟩
        exact
          { names := by rw [hst3, hne]
            last := by rw [hst3, hl]
            returned := by rw [hst3]; exact h2.returned
            nBefore := by rw [hst3]; exact h2.nBefore
            leavesLe := by rw [hst3]; exact h2.leavesLe
            leavesEq := by
              rw [hst3]
              refine h2.leavesEq.trans ?_
              constructor
              · rintro h y (rfl | hy)
                · exact hxs
                · exact h y hy
              · exact fun h y hy => h y (Or.inr hy)
            tests := by
              intro t
              have : st3.testSet = st2.testSet := by rw [hst3]
              rw [this, h2.tests]
              simp only [mem_insertSet]
              constructor
              · rintro ((h | rfl) | ⟨y, h, h'⟩)
                · exact Or.inl h
                · exact Or.inr ⟨x, Or.inl rfl, (htt _).mpr rfl⟩
                · exact Or.inr ⟨y, Or.inr h, h'⟩
              · rintro (h | ⟨y, rfl | h, h'⟩)
                · exact Or.inl (Or.inl h)
                · exact Or.inl (Or.inr ((htt _).mp h'))
                · exact Or.inr ⟨y, h, h'⟩
            stmts := by
              intro p
              have : st3.statements = st2.statements := by rw [hst3]
              rw [this, h2.stmts]
              constructor
              · rintro (h | ⟨y, h, h'⟩)
                · exact Or.inl h
                · exact Or.inr ⟨y, Or.inr h, h'⟩
              · rintro (h | ⟨y, rfl | h, h'⟩)
                · exact Or.inl h
                · exact absurd h'.1 (hns _)
                · exact Or.inr ⟨y, h, h'⟩
            meths := by
              intro p
              have : st3.methodCalls = st2.methodCalls := by rw [hst3]
              rw [this, h2.meths]
              constructor
              · rintro (h | ⟨y, h, h'⟩)
                · exact Or.inl h
                · exact Or.inr ⟨y, Or.inr h, h'⟩
              · rintro (h | ⟨y, rfl | h, h'⟩)
                · exact Or.inl h
                · exact absurd h'.1 (hnm _)
                · exact Or.inr ⟨y, h, h'⟩
            warns := by
              intro n
              have : st3.warnings = st2.warnings := by rw [hst3]
              rw [this, h2.warns]
              constructor
              · rintro (h | ⟨y, fs, f, h, h'⟩)
                · exact Or.inl h
                · exact Or.inr ⟨y, fs, f, Or.inr h, h'⟩
              · rintro (h | ⟨y, fs, f, rfl | h, h'⟩)
                · exact Or.inl h
                · exact absurd h'.1 (hca _ _ _)
                · exact Or.inr ⟨y, fs, f, h, h'⟩
            pend := by
              intro k t
              have : st3.pending = st2.pending := by rw [hst3]
              rw [this, h2.pend]
              constructor
              · rintro (h | ⟨y, n, fs, f, h, h'⟩)
                · exact Or.inl h
                · exact Or.inr ⟨y, n, fs, f, Or.inr h, h'⟩
              · rintro (h | ⟨y, n, fs, f, rfl | h, h'⟩)
                · exact Or.inl h
                · exact absurd h'.1 (hca _ _ _)
                · exact Or.inr ⟨y, n, fs, f, h, h'⟩
            keys := by
              intro k
              have : st3.pending = st2.pending := by rw [hst3]
              rw [this, h2.keys]
              constructor
              · rintro (h | ⟨y, n, fs, f, h, h'⟩)
                · exact Or.inl h
                · exact Or.inr ⟨y, n, fs, f, Or.inr h, h'⟩
              · rintro (h | ⟨y, n, fs, f, rfl | h, h'⟩)
                · exact Or.inl h
                · exact absurd h'.1 (hca _ _ _)
                · exact Or.inr ⟨y, n, fs, f, h, h'⟩
            fns := by
              have : st3.pending = st2.pending := by rw [hst3]
              rw [this]
              intro e he
              rcases h2.fns e he with h | ⟨y, n, fs, h, h'⟩
              · exact Or.inl h
              · exact Or.inr ⟨y, n, fs, Or.inr h, h'⟩
            nodup := by
              have : st3.pending = st2.pending := by rw [hst3]
              rw [this]; exact h2.nodup }

theorem Good.same {cfg R st st'} (hg : Good cfg st) (h : Eff cfg R st st') : Good cfg st' := by
  unfold Good; rw [h.names, h.last]; exact hg

theorem Eff.ctx {cfg R st st'} (h : Eff cfg R st st') : st'.ctx = st.ctx := by
  unfold VState.ctx; rw [h.names, h.last, h.returned]

mutual
theorem walk_eff (cfg : VCfg) : ∀ (n : Node) (st st' : VState), walk cfg n st = some st' →
    (st.callStatement = none ∨ stripsToCall n = true) → Good cfg st →
    Eff cfg (Reach cfg ⟨st.ctx, st.callStatement, n⟩) st st' ∧ (st.callStatement = none → st'.callStatement = none)
  | .test name last cs, st, st', h, hc, hg => by
    have hc : st.callStatement = none := by rcases hc with h | h; exact h; cases h
    rw [walk] at h
    obtain ⟨r, h1, h⟩ := Option.bind_eq_some_iff.mp h
    obtain ⟨st2, h2, h3⟩ := Option.bind_eq_some_iff.mp h
    have hr : r.1 = !cfg.config.isIgnoredTest name ∧
        (r.1 = true → r.2.ctx = ⟨[name], last, st.returned⟩ ∧ r.2.callStatement = st.callStatement ∧ Good cfg r.2) := by
      unfold visitTest at h1
      split at h1
      · rename_i hi; cases h1; simp [hi]
      · rename_i hi
        split at h1
        · cases h1
        · split at h1
          · cases h1
          · cases h1
            have hi : cfg.config.isIgnoredTest name = false := by simpa using hi
            refine ⟨by rw [hi]; rfl, fun _ => ⟨rfl, rfl, ?_, ?_⟩⟩
            · intro h; cases h
            · intro t ht
              rw [List.mem_singleton.mp ht]; exact hi
    have key := test_eff (cs := cs) (R := fun y => r.1 = true ∧ ∃ m ∈ cs, Reach cfg ⟨⟨[name], last, st.returned⟩, none, m⟩ y)
      (x := ⟨st.ctx, none, .test name last cs⟩) (st2 := st2) (st3 := st') hg h1 (by
        split
        · rename_i hgo
          obtain ⟨q1, q2, q3⟩ := hr.2 hgo
          simp only [hgo, if_true] at h2
          have := walkList_eff cfg cs r.2 st2 h2 (q2.trans hc) q3
          rw [q1] at this
          exact ⟨this.1.congr (fun y => by simp [hgo]), this.2⟩
        · rename_i hgo
          simp only [hgo, if_false] at h2
          exact (Option.some.inj h2).symm) h3 hc (by intro h y hy; rw [h] at hy; cases hy.1) rfl
    refine ⟨key.1.congr fun y => ?_, fun _ => key.2⟩
    rw [hc, reach_iff]
    apply or_congr Iff.rfl
    rw [hr.1]
    simp only [next]
    cases cfg.config.isIgnoredTest name
    · simp only [Bool.not_false, true_and, Bool.false_eq_true, if_false, exists_map]; rfl
    · simp
  | .stmt s cs, st, st', h, hc, hg => by
    have hc : st.callStatement = none := by rcases hc with h | h; exact h; cases h
    rw [walk] at h
    obtain ⟨st1, h1, h⟩ := Option.bind_eq_some_iff.mp h
    obtain ⟨st2, h2, h3⟩ := Option.bind_eq_some_iff.mp h
    have e1 : st1.ctx = st.ctx ∧ st1.callStatement = none ∧ Good cfg st1 := by
      unfold visitStatement at h1; simp at h1; subst h1; exact ⟨rfl, hc, hg⟩
    have ih := walkList_eff cfg cs st1 st2 h2 e1.2.1 e1.2.2
    rw [e1.1] at ih
    have key := stmt_eff (x := ⟨st.ctx, none, .stmt s cs⟩) h1 ih.1 h3 rfl rfl
      (by rintro t ⟨_, l, c, h⟩; cases h) (by rintro n fs f ⟨_, _, _, _, h, _⟩; cases h)
      (by
        intro span
        simp only [StmtCand, Leaf, next, List.mem_map]
        constructor
        · rintro ⟨a1, a2, a3, a4, a5, a6⟩
          exact ⟨a1, a2, a3, trivial, a4, a5, fun y ⟨n, hn, hy⟩ => a6 _ ⟨n, hn, rfl⟩ y hy⟩
        · rintro ⟨a1, a2, a3, _, a4, a5, a6⟩
          refine ⟨a1, a2, a3, a4, a5, ?_⟩
          rintro y ⟨n, hn, rfl⟩ z hz
          exact a6 z ⟨n, hn, hz⟩)
      (by intro span h; exact h.2)
    refine ⟨key.1.congr fun y => ?_, fun _ => key.2⟩
    rw [hc, reach_iff]
    simp [next, -List.mem_map, exists_map]
  | .exprStmt s e, st, st', h, hc, hg => by
    have hc : st.callStatement = none := by rcases hc with h | h; exact h; cases h
    rw [walk] at h
    obtain ⟨st1, h1, h⟩ := Option.bind_eq_some_iff.mp h
    obtain ⟨st2, h2, h3⟩ := Option.bind_eq_some_iff.mp h
    have e1 : st1.ctx = st.ctx ∧ st1.callStatement = (if stripsToCall e then some s else none) ∧ Good cfg st1 := by
      unfold visitStatement at h1
      simp only [hc] at h1
      split at h1
      · rename_i hs; simp at h1; subst h1; rw [if_pos hs]; exact ⟨rfl, rfl, hg⟩
      · rename_i hs; cases h1; rw [if_neg hs]; exact ⟨rfl, rfl, hg⟩
    have ih := walk_eff cfg e st1 st2 h2 (by
      rw [e1.2.1]; cases stripsToCall e
      · exact Or.inl rfl
      · exact Or.inr rfl) e1.2.2
    rw [e1.1, e1.2.1] at ih
    have key := stmt_eff (x := ⟨st.ctx, none, .exprStmt s e⟩) h1 ih.1 h3 rfl rfl
      (by rintro t ⟨_, l, c, h⟩; cases h) (by rintro n fs f ⟨_, _, _, _, h, _⟩; cases h)
      (by
        intro span
        simp only [StmtCand, Leaf, next, List.mem_singleton, forall_eq])
      (by intro span h; exact h.2)
    refine ⟨key.1.congr fun y => ?_, fun _ => key.2⟩
    rw [hc]
    refine Iff.trans ?_ reach_iff.symm
    simp only [next, List.mem_singleton, exists_eq_left]
  | .call i cn callee args, st, st', h, hc, hg => by
    rw [walk] at h
    obtain ⟨r, h1, h⟩ := Option.bind_eq_some_iff.mp h
    obtain ⟨q1, q2, q3⟩ := visitCall_eff args h1
    change (if r.1 = true then _ else _) = _ at h
    have hg1 := hg.same q1
    have hx := q1.ctx
    split at h
    · rename_i hgo
      obtain ⟨st2, h2, h3⟩ := Option.bind_eq_some_iff.mp h
      have ih1 := walk_eff cfg callee r.2 st2 h2 (Or.inl q2) hg1
      have ih2 := walkList_eff cfg args st2 st' h3 (ih1.2 q2) (hg1.same ih1.1)
      rw [ih1.1.ctx, hx] at ih2
      rw [hx, q2] at ih1
      refine ⟨((q1.trans ih1.1).trans ih2.1).congr fun y => ?_, fun _ => ih2.2⟩
      rw [hgo] at q3
      refine Iff.trans ?_ reach_iff.symm
      simp only [next]
      rw [show st.ctx.returned = st.returned from rfl, ← q3]
      simp only [if_true, List.mem_cons, List.mem_map]
      grind
    · rename_i hgo
      have hgo : r.1 = false := by simpa using hgo
      rw [hgo] at q3
      split at h
      · rename_i hrec
        have ih1 := walk_eff cfg callee r.2 st' h (Or.inl q2) hg1
        rw [hx, q2] at ih1
        refine ⟨(q1.trans ih1.1).congr fun y => ?_, fun _ => ih1.2 rfl⟩
        refine Iff.trans ?_ reach_iff.symm
        simp only [next]
        rw [show st.ctx.returned = st.returned from rfl, ← q3]
        simp [hrec]
      · rename_i hrec
        have h := Option.some.inj h
        subst h
        refine ⟨q1.congr fun y => ?_, fun _ => q2⟩
        rw [reach_iff]
        simp only [next]
        rw [show st.ctx.returned = st.returned from rfl, ← q3]
        simp [hrec]
  | .macro_ i name args, st, st', h, hc, hg => by
    rw [walk] at h
    obtain ⟨r, h1, h⟩ := Option.bind_eq_some_iff.mp h
    obtain ⟨q1, q2, q3⟩ := visitMacroCall_eff args h1
    change (if r.1 = true then _ else _) = _ at h
    have hg1 := hg.same q1
    have hx := q1.ctx
    split at h
    · rename_i hgo
      have ih2 := walkList_eff cfg args r.2 st' h q2 hg1
      rw [hx] at ih2
      refine ⟨(q1.trans ih2.1).congr fun y => ?_, fun _ => ih2.2⟩
      rw [hgo] at q3
      rw [reach_iff]
      simp only [next]
      rw [← q3]
      simp [-List.mem_map, exists_map]
    · rename_i hgo
      have hgo : r.1 = false := by simpa using hgo
      have h := Option.some.inj h
      subst h
      refine ⟨q1.congr fun y => ?_, fun _ => q2⟩
      rw [hgo] at q3
      rw [reach_iff]
      simp only [next]
      rw [← q3]
      simp [-List.mem_map, exists_map]
  | .field i fn base, st, st', h, hc, hg => by
    rw [walk] at h
    have hself := silent_eff (cfg := cfg) (st := st) (x := ⟨st.ctx, st.callStatement, .field i fn base⟩) rfl
      (by rintro t ⟨_, l, c, h⟩; cases h) (by rintro n fs f ⟨_, _, _, _, h, _⟩; cases h)
      (by intro span h; exact h.2) (by intro span h; exact h.2)
    split at h
    · rename_i hf
      have ih := walk_eff cfg base st st' h hc hg
      refine ⟨(hself.trans ih.1).congr fun y => ?_, ih.2⟩
      refine Iff.trans ?_ reach_iff.symm
      simp [next, hf]
    · rename_i hf
      cases h
      refine ⟨hself.congr fun y => ?_, id⟩
      rw [reach_iff]; simp [next, hf]
  | .await i arg, st, st', h, hc, hg => by
    rw [walk] at h
    have hself := silent_eff (cfg := cfg) (st := st) (x := ⟨st.ctx, st.callStatement, .await i arg⟩) rfl
      (by rintro t ⟨_, l, c, h⟩; cases h) (by rintro n fs f ⟨_, _, _, _, h, _⟩; cases h)
      (by intro span h; exact h.2) (by intro span h; exact h.2)
    split at h
    · rename_i hf
      have ih := walk_eff cfg arg st st' h hc hg
      refine ⟨(hself.trans ih.1).congr fun y => ?_, ih.2⟩
      refine Iff.trans ?_ reach_iff.symm
      simp [next, hf]
    · rename_i hf
      cases h
      refine ⟨hself.congr fun y => ?_, id⟩
      rw [reach_iff]; simp [next, hf]
  | .other i cs, st, st', h, hc, hg => by
    have hc : st.callStatement = none := by rcases hc with h | h; exact h; cases h
    rw [walk] at h
    have hself := silent_eff (cfg := cfg) (st := st) (x := ⟨st.ctx, st.callStatement, .other i cs⟩) rfl
      (by rintro t ⟨_, l, c, h⟩; cases h) (by rintro n fs f ⟨_, _, _, _, h, _⟩; cases h)
      (by intro span h; exact h.2) (by intro span h; exact h.2)
    have ih := walkList_eff cfg cs st st' h hc hg
    refine ⟨(hself.trans ih.1).congr fun y => ?_, fun _ => ih.2⟩
    rw [hc, reach_iff]
    simp [next, -List.mem_map, exists_map]
theorem walkList_eff (cfg : VCfg) : ∀ (ns : List Node) (st st' : VState), walkList cfg ns st = some st' →
    st.callStatement = none → Good cfg st →
    Eff cfg (fun y => ∃ n ∈ ns, Reach cfg ⟨st.ctx, none, n⟩ y) st st' ∧ st'.callStatement = none
  | [], st, st', h, hc, hg => by
    rw [walkList] at h
    cases h
    exact ⟨Eff.nil.congr (by simp), hc⟩
  | n :: ns, st, st', h, hc, hg => by
    rw [walkList] at h
    obtain ⟨st1, h1, h2⟩ := Option.bind_eq_some_iff.mp h
    have ih1 := walk_eff cfg n st st1 h1 (Or.inl hc) hg
    have ih2 := walkList_eff cfg ns st1 st' h2 (ih1.2 hc) (hg.same ih1.1)
    rw [ih1.1.ctx] at ih2
    rw [hc] at ih1
    refine ⟨(ih1.1.trans ih2.1).congr fun y => by simp, ih2.2⟩
end

end Necessist.Visit
