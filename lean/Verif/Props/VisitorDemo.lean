import Verif.Props.Visitor
/-!
# Candidates: examples, and properties that do not hold
-/
namespace Necessist.Visit
namespace Demo

/-- The pattern, compiled. -/
def pat (p : String) (methods : Bool := false) : Re :=
  match compilePattern Char.isAlphanum p.toList methods with
  | .ok re => re
  | .error _ => .empty

def file : SourceFile := default
/-- A span on one line. -/
def sp (line a b : Nat) : Span := ⟨file, ⟨line, a⟩, ⟨line, b⟩⟩
/-- A statement on one line; its key is the line. -/
def st (line : Nat) : StmtInfo := ⟨sp line 0 20, line, true, false, false⟩
/-- An identifier. -/
def ident (line : Nat) (name : String) : Node := .other ⟨sp line 0 1, some name.toList⟩ []
/-- `name(args)` -/
def call (line : Nat) (name : String) (args : List Node := []) : Node :=
  .call ⟨sp line 0 10, none⟩ (some name.toList) (ident line name) args
/-- `base.name(args)` -/
def method (line : Nat) (base : Node) (name : String) (args : List Node := []) : Node :=
  .call ⟨sp line 0 15, none⟩ none (.field ⟨sp line 0 12, none⟩ (some name.toList) base) args

def config : Compiled :=
  ⟨[pat "assert*"], [], [pat "unwrap" true], .none_, ["skipped".toList], false, [pat "h*"]⟩

/-- `fn h2() { z; }` -/
def h2 : LocalFn := ⟨2, [.stmt (st 30) []]⟩
/-- `fn h1() { y; h2(); }` -/
def h1 : LocalFn := ⟨1, [.stmt (st 20) [], .exprStmt (st 21) (call 21 "h2")]⟩

def cfg : VCfg :=
  { config, skip := fun s => s.start.line == 5, walkable := [("h1".toList, [h1]), ("h2".toList, [h2])]
    trim := id, receiver := true, fields := true }

/-- A test that calls `h1`, one that calls `h2`, and an ignored one. -/
def tree : List Node :=
  [.other ⟨sp 1 0 0, none⟩
    [.test "t1".toList (some 8)
      [.stmt { st 2 with declaration := true } [call 2 "h1"],
       .exprStmt (st 3) (call 3 "foo" [call 3 "x"]),
       .exprStmt (st 4) (method 4 (call 4 "a") "b"),
       .exprStmt (st 5) (call 5 "foo"),
       .exprStmt (st 6) (call 6 "assert_eq" [method 6 (call 6 "a") "b"]),
       .stmt (st 7) [],
       .stmt (st 8) []],
     .test "t2".toList (some 12) [.exprStmt (st 11) (call 11 "h2"), .stmt (st 12) []],
     .test "skipped".toList none [.stmt (st 13) []]]]

/-- The lines of the candidates, with their tests. -/
def Found (v : Visited) : Option (List (Nat × Text) × List (Nat × Text)) :=
  match v with
  | .done st _ => some (st.statements.map (fun p => (p.1.start.line, p.2)), st.methodCalls.map (fun p => (p.1.start.line, p.2)))
  | _ => none

def t1 : Text := "t1".toList
def t2 : Text := "t2".toList

-- The declaration, the ignored call, the suppressed statement and the last ones are not there.
example : Found (visitFile cfg 2 tree) =
    some ([(3, t1), (4, t1), (7, t1), (30, t2), (20, t1), (21, t1)], [(4, t1)]) := by decide +kernel

/-- What `Found` says. -/
theorem found_done {v ss ms} (h : Found v = some (ss, ms)) : ∃ st walked, v = .done st walked ∧
    st.statements.map (fun p => (p.1.start.line, p.2)) = ss ∧ st.methodCalls.map (fun p => (p.1.start.line, p.2)) = ms := by
  unfold Found at h
  split at h
  · cases h; exact ⟨_, _, rfl, rfl, rfl⟩
  · cases h

theorem faithful : KeysFaithful cfg := by
  have hw : ∀ f, IsWalkable cfg f → f = h1 ∨ f = h2 := by
    rintro f ⟨name, fs, h⟩
    simp only [cfg, List.lookup] at h
    split at h
    · cases h; exact Or.inl rfl
    · split at h
      · cases h; exact Or.inr rfl
      · cases h
  intro f g hf hg hk
  rcases hw f hf with rfl | rfl <;> rcases hw g hg with rfl | rfl
  · rfl
  · exact absurd hk (by decide)
  · exact absurd hk (by decide)
  · rfl

/-- The body of the first test is part of a test. -/
theorem part1 {m} (h : m ∈ [Node.stmt { st 2 with declaration := true } [call 2 "h1"],
       .exprStmt (st 3) (call 3 "foo" [call 3 "x"]),
       .exprStmt (st 4) (method 4 (call 4 "a") "b"),
       .exprStmt (st 5) (call 5 "foo"),
       .exprStmt (st 6) (call 6 "assert_eq" [method 6 (call 6 "a") "b"]),
       .stmt (st 7) [],
       .stmt (st 8) []]) : TestPart cfg tree t1 (some 8) m :=
  ⟨by decide +kernel, _, ⟨_, List.mem_singleton.mpr rfl, .step List.mem_cons_self (by simp) (Or.inl rfl) (.refl _)⟩, h⟩

-- the hypotheses of `C36_test`, for `7;`
example : TestPart cfg tree t1 (some 8) (.stmt (st 7) []) ∧ PlainLeaf cfg (some 8) (.stmt (st 7) []) (st 7) :=
  ⟨part1 (by simp), ⟨Or.inl ⟨_, rfl⟩, rfl, by decide, rfl⟩, (fun _ _ _ h => by cases h), rfl, rfl, fun m hm => by cases hm⟩

theorem not_calls {line name args f} (h : cfg.walkable.lookup name.toList = none) : ¬ Calls cfg (call line name args) f := by
  rintro ⟨i, cn, callee, as, nm, fs, h1, h2, h3⟩
  unfold call at h1
  cases h1
  simp only [ident, Node.info] at h2
  cases h2
  rw [h] at h3; cases h3

-- … and for `foo(x());`
example : PlainCall cfg (some 8) (.exprStmt (st 3) (call 3 "foo" [call 3 "x"])) (st 3) := by
  refine ⟨⟨Or.inr ⟨_, rfl⟩, rfl, by decide, rfl⟩, _, _, rfl, .call (Or.inl ⟨_, _, _, _, rfl⟩), Or.inl rfl, ?_,
    fun f => not_calls (by decide +kernel)⟩
  intro h
  have := (callArgs_ignored cfg ⟨sp 3 0 10, none⟩ (some "foo".toList) (ident 3 "foo") [call 3 "x"]).1.mpr h
  revert this; decide +kernel

-- the hypotheses of `C36_function` and of `C38_direct_partial`, for the first statement of `h1`
example : Seen cfg (.stmt { st 2 with declaration := true } [call 2 "h1"]) (call 2 "h1") ∧ Calls cfg (call 2 "h1") h1 ∧
    PlainLeaf cfg none (.stmt (st 20) []) (st 20) :=
  ⟨.step ⟨by simp [Node.kids], trivial⟩ (.refl _), ⟨_, _, _, _, _, _, rfl, rfl, rfl⟩,
   ⟨Or.inl ⟨_, rfl⟩, rfl, by decide, rfl⟩, (fun _ _ _ h => by cases h), rfl, rfl, fun m hm => by cases hm⟩

-- the hypotheses of `C36_test_methods`, for `a().b();`
example : ∃ i cn callee args base p, method 4 (call 4 "a") "b" = .call i cn callee args ∧
    MethodCall (method 4 (call 4 "a") "b") base p ∧ (callArgs cfg i cn callee).isIgnoredAsCall = false ∧
    (callArgs cfg i cn callee).isIgnoredAsMethodCall = false :=
  ⟨_, _, _, _, call 4 "a", ["b".toList], rfl,
    ⟨by simp, _, _, _, _, rfl, by unfold call; exact .field (.base (fun _ _ _ h => by cases h))⟩, by decide +kernel, by decide +kernel⟩

/-- In the example nothing is called outside of tests. -/
def quiet : List Node := [.test t1 (some 8) [.exprStmt (st 2) (call 2 "h1"), .stmt (st 8) []]]
example : NoOutsideCalls cfg quiet := by
  intro r hr h f ho
  rw [List.mem_singleton.mp hr] at ho
  cases ho with
  | refl => rintro ⟨_, _, _, _, _, _, h, _⟩; cases h
  | step _ h => exact absurd rfl (h _ _ _)
example : Found (visitFile cfg 2 quiet) = some ([(20, t1), (30, t1)], []) := by decide +kernel

end Demo

/-- **C38, negation.** A test that exercises a function need not be among the tests of the function's candidates: here the
test `t1` calls `h1`, which calls `h2`, and `h2`'s statement, a candidate, is attributed to `t2` only, which calls `h2`
directly. Moreover, the call of `h2` in `h1` is a candidate, although it calls a walkable function. -/
theorem C38_negation : ∃ (cfg : VCfg) (tree : List Node) (rounds : Nat) (st : VState) (walked : List LocalFn)
    (t : Text) (f : LocalFn) (n : Node) (s : StmtInfo), KeysFaithful cfg ∧ visitFile cfg rounds tree = .done st walked ∧
    Exercises cfg tree t f ∧ n ∈ f.body ∧ IsStmt n s ∧ (∃ t', (s.span, t') ∈ st.statements) ∧ (s.span, t) ∉ st.statements := by
  have key : Demo.Found (visitFile Demo.cfg 2 Demo.tree) =
    some ([(3, Demo.t1), (4, Demo.t1), (7, Demo.t1), (30, Demo.t2), (20, Demo.t1), (21, Demo.t1)], [(4, Demo.t1)]) := by decide +kernel
  obtain ⟨st, walked, h1, h2, _⟩ := Demo.found_done key
  have hex : Exercises Demo.cfg Demo.tree Demo.t1 Demo.h1 := by
    refine .direct (last := some 8) (h := Demo.call 2 "h1")
      ⟨by decide +kernel, _, Or.inl ⟨_, List.mem_singleton.mpr rfl, .step List.mem_cons_self (.refl _)⟩,
        .stmt { Demo.st 2 with declaration := true } [Demo.call 2 "h1"], List.mem_cons_self,
        .step List.mem_cons_self (enters_of nofun nofun) (.refl _)⟩ ⟨_, _, _, _, _, _, rfl, rfl, rfl⟩
  have hex2 : Exercises Demo.cfg Demo.tree Demo.t1 Demo.h2 :=
    .via hex (h := Demo.call 21 "h2") ⟨.exprStmt (Demo.st 21) (Demo.call 21 "h2"), by simp [Demo.h1],
      .step List.mem_cons_self (enters_of nofun nofun) (.refl _)⟩ ⟨_, _, _, _, _, _, rfl, rfl, rfl⟩
  have hmem : ∀ l t, (∃ s : Span, s.start.line = l ∧ (s, t) ∈ st.statements) ↔ (l, t) ∈ st.statements.map (fun p => (p.1.start.line, p.2)) := by
    intro l t
    simp only [List.mem_map, Prod.mk.injEq]
    constructor
    · rintro ⟨s, h, h'⟩; exact ⟨(s, t), h', h, rfl⟩
    · rintro ⟨⟨s, t'⟩, h, h', rfl⟩; exact ⟨s, h', h⟩
  refine ⟨_, _, _, st, walked, Demo.t1, Demo.h2, _, Demo.st 30, Demo.faithful, h1, hex2, List.mem_singleton.mpr rfl, Or.inl ⟨_, rfl⟩, ⟨Demo.t2, ?_⟩, ?_⟩
  · have ht : TestPart Demo.cfg Demo.tree Demo.t2 (some 12) (.exprStmt (Demo.st 11) (Demo.call 11 "h2")) :=
      ⟨by decide +kernel, _, ⟨_, List.mem_singleton.mpr rfl,
        .step (List.mem_cons_of_mem _ List.mem_cons_self) (by simp) (Or.inl rfl) (.refl _)⟩, List.mem_cons_self⟩
    exact C38_direct_partial Demo.faithful h1 ht (h := Demo.call 11 "h2")
      (.step ⟨List.mem_cons_self, trivial⟩ (.refl _)) ⟨_, _, _, _, _, _, rfl, rfl, rfl⟩ (List.mem_singleton.mpr rfl) (.refl _)
      (Or.inl ⟨⟨Or.inl ⟨_, rfl⟩, rfl, by decide, rfl⟩, (fun _ _ _ h => by cases h), rfl, rfl, fun m hm => by cases hm⟩)
  · intro h
    have := (hmem 30 Demo.t1).mp ⟨_, rfl, h⟩
    rw [h2] at this
    revert this; decide +kernel

namespace Demo
/-- A file with a call of `h1` outside of tests, as in `before_each(|| h2())` -/
def outside : List Node :=
  [.other ⟨sp 1 0 0, none⟩
    [.test t1 (some 8) [.exprStmt (st 2) (call 2 "h1"), .stmt (st 8) []],
     call 9 "before_each" [.exprStmt (st 9) (call 9 "h2")]]]
end Demo

/-- **C36, negation** (for functions called by tests through other functions). If a function is also called outside of tests,
its statements may be overlooked: here the test calls `h1`, `h1` calls `h2`, and `h2` is called outside of tests as well; `h2`'s
statement is removable but not a candidate; instead, the call of `h2` in `h1` is one. -/
theorem C36_negation : ∃ (cfg : VCfg) (tree : List Node) (rounds : Nat) (st : VState) (walked : List LocalFn)
    (f : LocalFn) (m : Node) (s : StmtInfo), KeysFaithful cfg ∧ visitFile cfg rounds tree = .done st walked ∧
    Reached cfg tree f ∧ m ∈ f.body ∧ PlainLeaf cfg none m s ∧ ∀ t, (s.span, t) ∉ st.statements := by
  have key : Demo.Found (visitFile Demo.cfg 2 Demo.outside) = some ([(20, Demo.t1), (21, Demo.t1)], []) := by decide +kernel
  obtain ⟨st, walked, h1, h2, _⟩ := Demo.found_done key
  have ht : TestPart Demo.cfg Demo.outside Demo.t1 (some 8) (.exprStmt (Demo.st 2) (Demo.call 2 "h1")) :=
    ⟨by decide +kernel, _, ⟨_, List.mem_singleton.mpr rfl,
      .step List.mem_cons_self (by simp) (Or.inl rfl) (.refl _)⟩, List.mem_cons_self⟩
  have hr1 : Reached Demo.cfg Demo.outside Demo.h1 := .direct ht (h := Demo.call 2 "h1")
    (.step ⟨List.mem_cons_self, trivial⟩ (.refl _)) ⟨_, _, _, _, _, _, rfl, rfl, rfl⟩
  have hr2 : Reached Demo.cfg Demo.outside Demo.h2 := .via hr1 (m := .exprStmt (Demo.st 21) (Demo.call 21 "h2"))
    (h := Demo.call 21 "h2") (by simp [Demo.h1]) (.step ⟨List.mem_cons_self, trivial⟩ (.refl _)) ⟨_, _, _, _, _, _, rfl, rfl, rfl⟩
  refine ⟨_, _, _, st, walked, Demo.h2, _, Demo.st 30, Demo.faithful, h1, hr2, List.mem_singleton.mpr rfl,
    ⟨⟨Or.inl ⟨_, rfl⟩, rfl, by decide, rfl⟩, (fun _ _ _ h => by cases h), rfl, rfl, fun m hm => by cases hm⟩, ?_⟩
  intro t h
  have : (30, t) ∈ st.statements.map (fun p => (p.1.start.line, p.2)) := List.mem_map.mpr ⟨_, h, rfl⟩
  rw [h2] at this
  simp at this

/-- **C37, negation.** The arguments of an ignored call are visited, although `visit_ignored_arguments` is not set, if the call
is the last statement of its test. -/
theorem C37_negation : ∃ (cfg : VCfg) (t : Text) (s : StmtInfo) (h a : Node) (st : VState) (walked : List LocalFn) (span : Span),
    cfg.config.visitIgnoredArguments = false ∧ IgnoredCall cfg.config h ∧ (∃ i cn callee, h = .call i cn callee [a]) ∧
    visitFile cfg 0 [.test t (some s.key) [.exprStmt s h]] = .done st walked ∧ (span, t) ∈ st.methodCalls ∧
    ∃ i cn callee args base p, a = .call i cn callee args ∧ MethodCall a base p ∧
      span = cfg.trim { i.span with start := base.info.span.stop } := by
  have key : Demo.Found (visitFile Demo.cfg 0 [.test Demo.t1 (some 6)
      [.exprStmt (Demo.st 6) (Demo.call 6 "assert_eq" [Demo.method 6 (Demo.call 6 "a") "b"])]]) =
    some ([], [(6, Demo.t1)]) := by decide +kernel
  obtain ⟨st, walked, h1, _, h2⟩ := Demo.found_done key
  refine ⟨Demo.cfg, Demo.t1, Demo.st 6, Demo.call 6 "assert_eq" [Demo.method 6 (Demo.call 6 "a") "b"],
    Demo.method 6 (Demo.call 6 "a") "b", st, walked, ⟨default, ⟨6, 10⟩, ⟨6, 15⟩⟩, rfl, ?_, ⟨_, _, _, rfl⟩, h1, ?_,
    ⟨_, _, _, _, Demo.call 6 "a", ["b".toList], rfl, ⟨by simp, _, _, _, _, rfl, by unfold Demo.call; exact .field (.base (fun _ _ _ h => by cases h))⟩, rfl⟩⟩
  · exact (callArgs_ignored Demo.cfg ⟨Demo.sp 6 0 10, none⟩ (some "assert_eq".toList) (Demo.ident 6 "assert_eq") _).1.mp (by decide +kernel)
  · obtain ⟨rs, W, _⟩ := visitFile_names h1
    have : (6, Demo.t1) ∈ st.methodCalls.map (fun p => (p.1.start.line, p.2)) := by rw [h2]; simp
    obtain ⟨⟨s, t'⟩, hm, he⟩ := List.mem_map.mp this
    have het : t' = Demo.t1 := (Prod.mk.inj he).2
    subst het
    have hsp : (st.methodCalls.map (·.1)) = [⟨default, ⟨6, 10⟩, ⟨6, 15⟩⟩] := by
      have hv : (match visitFile Demo.cfg 0 [.test Demo.t1 (some 6)
          [.exprStmt (Demo.st 6) (Demo.call 6 "assert_eq" [Demo.method 6 (Demo.call 6 "a") "b"])]] with
        | .done st _ => st.methodCalls.map (·.1)
        | _ => []) = [⟨default, ⟨6, 10⟩, ⟨6, 15⟩⟩] := by decide +kernel
      rw [h1] at hv; exact hv
    have : s ∈ st.methodCalls.map (·.1) := List.mem_map.mpr ⟨_, hm, rfl⟩
    rw [hsp, List.mem_singleton] at this
    subst this
    exact hm

namespace Demo
/-- Only `b` is an ignored method, and paths are to be ignored only as functions. -/
def pathCfg : VCfg := { cfg with config := { config with ignoredMethods := [pat "b" true], ignoredPathDisambiguation := .function } }
end Demo

/-- **C65, negation.** With `ignored_path_disambiguation = "Function"` the path `a.b` is ignored although it matches no pattern of
`ignored_functions`. -/
theorem C65_negation : ∃ (cfg : VCfg) (t : Text) (s : StmtInfo) (h base : Node) (p : List Text) (name : Text) (st : VState)
    (walked : List LocalFn), MethodCall h base p ∧ ¬ IsCall base ∧ base.info.name = some name ∧
    cfg.config.ignoredPathDisambiguation = .function ∧ ¬ IgnoredPath cfg.config name p ∧
    Removable cfg none (.exprStmt s h) s ∧ (∀ f, ¬ Calls cfg h f) ∧
    visitFile cfg 0 [.test t none [.exprStmt s h]] = .done st walked ∧ ∀ t, (s.span, t) ∉ st.statements := by
  have key : Demo.Found (visitFile Demo.pathCfg 0 [.test Demo.t1 none [.exprStmt (Demo.st 6) (Demo.method 6 (Demo.ident 6 "a") "b")]]) =
    some ([], []) := by decide +kernel
  obtain ⟨st, walked, h1, h2, _⟩ := Demo.found_done key
  refine ⟨Demo.pathCfg, Demo.t1, Demo.st 6, Demo.method 6 (Demo.ident 6 "a") "b", Demo.ident 6 "a", ["b".toList], "a".toList, st, walked,
    ⟨by simp, _, _, _, _, rfl, by unfold Demo.ident; exact .field (.base (fun _ _ _ h => by cases h))⟩, ?_, rfl, rfl, ?_,
    ⟨Or.inr ⟨_, rfl⟩, rfl, by decide, rfl⟩, ?_, h1, ?_⟩
  · rintro (⟨_, _, _, _, h⟩ | ⟨_, _, _, h⟩) <;> cases h
  · show ¬ (Demo.pathCfg.config.isIgnoredFunction _ = true)
    decide +kernel
  · rintro f ⟨_, _, _, _, _, _, h, h', _⟩
    unfold Demo.method at h
    cases h
    cases h'
  · intro t h
    rw [List.map_eq_nil_iff] at h2
    rw [h2] at h; cases h

/-- **C66, negation.** A test inside a test makes the visitor panic. (In TypeScript, an `it` inside an `it`.) -/
theorem C66_negation_nested : ∃ (cfg : VCfg) (t t' : Text), ∀ rounds, visitFile cfg rounds [.test t none [.test t' none []]] = .panic :=
  ⟨Demo.cfg, Demo.t1, Demo.t2, fun _ => rfl⟩

/-- **C66, negation.** So does a test inside a walkable function that a test calls. -/
theorem C66_negation_walkable : ∃ (cfg : VCfg) (tree : List Node), (∀ n ∈ tree, FlatTests n) ∧ cfg.fields = true ∧
    visitFile cfg 1 tree = .panic := by
  refine ⟨{ Demo.cfg with walkable := [("h".toList, [⟨3, [.test Demo.t2 none []]⟩])] },
    [.test Demo.t1 none [.exprStmt (Demo.st 2) (Demo.call 2 "h")]], ?_, rfl, ?_⟩
  · intro n hn t last cs hs m hm t' last' cs' hs'
    rw [List.mem_singleton.mp hn] at hs
    cases hs with
    | refl =>
      obtain rfl := List.mem_singleton.mp hm
      cases hs' with
      | step h h' =>
        obtain rfl := List.mem_singleton.mp h
        cases h' with
        | step h h' =>
          obtain rfl := List.mem_singleton.mp h
          cases h' with
          | step h h' => cases h
    | step h hs =>
      obtain rfl := List.mem_singleton.mp h
      cases hs with
      | step h hs =>
        obtain rfl := List.mem_singleton.mp h
        cases hs with
        | step h hs =>
          obtain rfl := List.mem_singleton.mp h
          cases hs with
          | step h hs => cases h
  · have : (match visitFile { Demo.cfg with walkable := [("h".toList, [⟨3, [.test Demo.t2 none []]⟩])] } 1
        [.test Demo.t1 none [.exprStmt (Demo.st 2) (Demo.call 2 "h")]] with
      | .panic => true
      | _ => false) = true := by decide +kernel
    split at this
    · assumption
    · cases this

/-- **C66, negation.** In Foundry, whose visitor does not visit field accesses, so does the statement `f().x;`. -/
theorem C66_negation_field : ∃ (cfg : VCfg) (t : Text) (s : StmtInfo) (i i' : ExprInfo) (x f : Text) (callee : Node), cfg.fields = false ∧
    ∀ rounds, visitFile cfg rounds [.test t none [.exprStmt s (.field i (some x) (.call i' (some f) callee []))]] = .panic :=
  ⟨{ Demo.cfg with fields := false }, Demo.t1, Demo.st 2, ⟨Demo.sp 2 0 5, none⟩, ⟨Demo.sp 2 0 3, none⟩, "x".toList, "f".toList,
    Demo.ident 2 "f", rfl, fun _ => rfl⟩

end Necessist.Visit
