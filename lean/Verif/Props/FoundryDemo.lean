import Verif.Props.FoundryTests
import Verif.Lemmas.TreeSitterCheck
/-!
# Foundry: examples, and what is not looked at (C76)
-/
namespace Necessist.Foundry.Demo
open Visit (Visited)

mutual
/-- The statements in a statement. -/
def all : Stmt → List Stmt
  | .block l ss => .block l ss :: allOf ss
  | .compound l ps => .compound l ps :: allIn ps
  | s => [s]
/-- … of a part -/
def allAt : Part → List Stmt
  | .stmt s => all s
  | .expr _ => []
/-- … of parts -/
def allIn : List Part → List Stmt
  | [] => []
  | p :: ps => allAt p ++ allIn ps
/-- … of several -/
def allOf : List Stmt → List Stmt
  | [] => []
  | s :: ss => all s ++ allOf ss
end

theorem mem_allIn {ps : List Part} {s x} (h : .stmt s ∈ ps) (hx : x ∈ all s) : x ∈ allIn ps := by
  induction ps with
  | nil => cases h
  | cons p ps ih =>
    rw [allIn, List.mem_append]
    rcases List.mem_cons.mp h with rfl | h
    · exact Or.inl (by rw [allAt]; exact hx)
    · exact Or.inr (ih h)

theorem mem_allOf {ss : List Stmt} {s x} (h : s ∈ ss) (hx : x ∈ all s) : x ∈ allOf ss := by
  induction ss with
  | nil => cases h
  | cons p ps ih =>
    rw [allOf, List.mem_append]
    rcases List.mem_cons.mp h with rfl | h
    · exact Or.inl hx
    · exact Or.inr (ih h)

theorem self_all (x : Stmt) : x ∈ all x := by cases x <;> simp [all]

theorem exposed_all {b x} (h : Exposed b x) : x ∈ all b := by
  induction h with
  | refl => exact self_all _
  | part h1 _ ih => rw [all]; exact List.mem_cons_of_mem _ (mem_allIn h1 ih)
  | block _ _ ih => rw [all]; exact List.mem_cons_of_mem _ (mem_allOf (by simp) ih)

/-- The statements of a file. -/
def stmts (items : List Item) : List Stmt :=
  items.flatMap fun
    | .fn f => (f.body.map all).getD []
    | .expr _ => []

theorem mem_stmts {items f x} (hf : .fn f ∈ items) (h : HasStmt f x) : x ∈ stmts items := by
  obtain ⟨b, hb, h⟩ := h
  exact List.mem_flatMap.mpr ⟨_, hf, by simp only [hb]; exact exposed_all h⟩

/-- The functions of a file. -/
def fnsOf (items : List Item) : List Fn := items.filterMap fun | .fn f => some f | .expr _ => none

theorem mem_fnsOf {items f} (h : .fn f ∈ items) : f ∈ fnsOf items := List.mem_filterMap.mpr ⟨_, h, rfl⟩

/-- Not `f().x;`. -/
def direct : Stmt → Bool
  | .expr _ (.member _ _ _) => false
  | _ => true

theorem regular_of {c : Ctx} {items} (h1 : ((stmts items).map c.key).Nodup) (h2 : (stmts items).all (fun x => c.key x != c.faux) = true)
    (h3 : ((fnsOf items).map c.fnKey).Nodup) (h4 : (stmts items).all direct = true) : Regular c items where
  keys f g x y hf hg hx hy he := TS.nodup_inj h1 (mem_stmts hf hx) (mem_stmts hg hy) he
  faux f x hf hx := by
    have := List.all_eq_true.mp h2 x (mem_stmts hf hx)
    simpa using this
  fns f g hf hg he := TS.nodup_inj h3 (mem_fnsOf hf) (mem_fnsOf hg) he
  calls f l e base p hf hx hs hp := by
    have := List.all_eq_true.mp h4 _ (mem_stmts hf hx)
    cases hs with
    | base _ => exact absurd rfl hp
    | member _ => cases this

/-- Statements are told apart by their locations, and blocks from others. -/
def ctx : Ctx := { c with
  key := fun s => 2 * s.loc.start + (match s with | .block _ _ => 1 | _ => 2) }

theorem items_regular : Regular ctx items := regular_of (by decide +kernel) (by decide +kernel) (by decide +kernel) (by decide +kernel)

example : Found (visit ctx config (fun _ => false) id 3 items) =
    some ([(20, "testA".toList), (100, "testA".toList), (120, "testA".toList), (130, "testA".toList), (210, "testA".toList)],
      [(21, "testA".toList), (121, "testA".toList)]) := by decide +kernel

theorem test_test : Test items "testA".toList test := ⟨by simp [items], rfl, by decide +kernel, rfl, _, rfl, _, _, rfl⟩

theorem helper_local : Local config items "helper".toList helper := by
  refine ⟨⟨[.fn pureFn, .fn test], [], rfl, rfl, rfl, ?_⟩, by decide +kernel⟩
  intro g hg hn
  simp only [List.mem_cons, Item.fn.injEq, List.not_mem_nil, or_false] at hg
  rcases hg with rfl | rfl
  · rfl
  · exact absurd hn (by decide +kernel)

/-- The statements of the test. -/
theorem test_stmt {before s after} (h : test.body = some (.block (at_ 0) (before ++ s :: after)))
    (hb : (before.getLast?.any isPrefixCheatcode) = false) : HasStmt test s := by
  refine ⟨_, h, .block (fun a ha hu => ?_) (.refl _)⟩
  rw [ha, Option.any_some, (isPrefixCheatcode_iff a).mpr hu] at hb
  cases hb

theorem selects_var {l n base p} (h : Selects (.var l n) base p) : p = [] := by cases h; rfl

/-- `n(…)` is ignored only if the configuration ignores the function. -/
theorem call_notIgnored {n name args} (h : config.isIgnoredFunction name.toList = false) : ¬ Ignored config (call n name args) := by
  have hm : ∀ base p, ¬ Method (call n name args) base p := by
    rintro base p ⟨hp, _, _, _, g, h1, h2, h3⟩
    cases h1
    cases h2
    exact hp (selects_var h3)
  rintro (hi | ⟨base, p, h1, _⟩)
  · generalize he : call n name args = e at hi hm
    cases hi with
    | function hi => cases he; rw [h] at hi; cases hi
    | path h _ => exact hm _ _ h
    | chain h _ => exact hm _ _ h
  · exact hm _ _ h1

theorem method_of (n v' m as) : Method (method n (.var v' "vm".toList) m as) (.var v' "vm".toList) [m.toList] :=
  ⟨by simp, _, _, _, _, rfl, .refl _, .member (p := []) (.base (by intros; simp))⟩

theorem method_unique {n l' v' m as base p} (h : Method (method n (.var l' v') m as) base p) : base = .var l' v' ∧ p = [m.toList] := by
  obtain ⟨hp, _, _, _, g, h1, h2, h3⟩ := h
  cases h1
  cases h2
  cases h3 with
  | base hb => exact absurd rfl (hb _ _ _)
  | member h => cases h; exact ⟨rfl, rfl⟩

theorem prank_notIgnored (n l as) : ¬ Ignored config (method n (.var l "vm".toList) "prank" as) := by
  rintro (hi | ⟨base, p, h1, _, h2⟩)
  · generalize he : method n (.var l "vm".toList) "prank" as = e at hi
    cases hi with
    | function _ => cases he
    | path h hi =>
      subst he
      obtain ⟨h1, rfl⟩ := method_unique h
      cases h1
      exact absurd hi (by
        simp only [Visit.IgnoredPath, config]
        decide +kernel)
    | chain h hi =>
      subst he
      obtain ⟨rfl, _⟩ := method_unique h
      generalize he : Expr.var l "vm".toList = v at hi
      cases hi with
      | function _ => cases he
      | path h _ => obtain ⟨_, _, _, _, _, h, _⟩ := h; rw [h] at he; cases he
      | chain h _ => obtain ⟨_, _, _, _, _, h, _⟩ := h; rw [h] at he; cases he
  · obtain ⟨_, rfl⟩ := method_unique h1
    exact absurd h2 (by decide +kernel)

-- The hypotheses of `C76_complete` are met: `vm.prank(a);`.
example : HasStmt test (st 2 (method 2 (v 2 "vm") "prank" [v 2 "a"])) ∧ Plain config items (st 2 (method 2 (v 2 "vm") "prank" [v 2 "a"])) ∧
    ¬ Last test (st 2 (method 2 (v 2 "vm") "prank" [v 2 "a"])) := by
  refine ⟨test_stmt (before := [st 1 (call 1 "helper")]) rfl (by decide +kernel), Or.inr ⟨_, _, rfl, ⟨_, _, _, rfl⟩, prank_notIgnored 2 _ _, ?_⟩, ?_⟩
  · rintro name f ⟨_, _, _, _, h, h'⟩
    cases h
    cases h'
  · rintro ⟨l, ss, h, _⟩
    have h1 : (test.body.map fun b => match b with | .block _ ss => ss.getLast?.map (·.loc.start) | _ => none) = some (some 140) := by decide +kernel
    rw [h] at h1
    simp at h1
    exact absurd h1 (by decide +kernel)

-- … and those of `C76_complete_functions`: `helper();` and the statement `f();` of `helper`.
example : HasExpr test (call 1 "helper") ∧ Clear config (call 1 "helper") (call 1 "helper") ∧ CallOf (call 1 "helper") "helper".toList ∧
    HasStmt helper (st 21 (call 21 "f")) ∧ Plain config items (st 21 (call 21 "f")) := by
  refine ⟨Or.inr ⟨_, test_stmt (before := []) (s := st 1 (call 1 "helper")) rfl rfl, rfl⟩, .refl _, ⟨_, _, _, _, rfl, .refl _⟩,
    ⟨_, rfl, .block (before := []) (by simp) (.refl _)⟩, Or.inr ⟨_, _, rfl, ⟨_, _, _, rfl⟩, call_notIgnored (by decide +kernel), ?_⟩⟩
  rintro name f ⟨_, _, _, _, h, h'⟩ hl
  cases h
  cases h'
  exact absurd hl.2 (by decide +kernel)

-- … and those of `C76_complete_methods`: `vm.prank(a)`.
example : HasExpr test (method 2 (v 2 "vm") "prank" [v 2 "a"]) ∧
    Method (method 2 (v 2 "vm") "prank" [v 2 "a"]) (v 2 "vm") ["prank".toList] ∧
    ¬ Ignored config (method 2 (v 2 "vm") "prank" [v 2 "a"]) :=
  ⟨Or.inr ⟨_, test_stmt (before := [st 1 (call 1 "helper")]) (s := st 2 (method 2 (v 2 "vm") "prank" [v 2 "a"])) rfl (by decide +kernel), rfl⟩,
    method_of 2 _ _ _, prank_notIgnored 2 _ _⟩

-- A plain statement that is no call: `x = 1;`.
example : Plain config items (st 1 (.assign (at_ 1) (v 1 "x") (.op (at_ 1) []))) := by
  refine Or.inl ⟨(by rintro ⟨_, _, h⟩; cases h), (by rintro ⟨_, _, h⟩; cases h), ?_, ?_, ?_⟩
  · rintro (⟨_, _, h⟩ | ⟨_, _, _, _, _, _, h, _⟩) <;> cases h
  · intro l ps s y h; cases h
  · rintro l e h ⟨_, _, _, h'⟩; cases h; cases h'

/-! ## What is not looked at -/

/-- A test with these statements, and `f();` at the end. -/
def run (ss : List Stmt) (head : List Expr := []) : Option (List (Nat × Text) × List (Nat × Text)) :=
  Found (visit ctx config (fun _ => false) id 3 [.fn ⟨some "testB".toList, false, head, some (.block (at_ 0) (ss ++ [st 99 (call 99 "f")]))⟩, .fn helper])

/-- Only calls are looked into: of `x = t.m();`, `t.m() + 1;` and `t.m().n();`, the method call `.m()` is not a candidate, and in
`x = helper();` the function is not gone into. -/
theorem only_calls :
    run [st 1 (.assign (at_ 1) (v 1 "x") (method 1 (v 1 "t") "m"))] = some ([(10, "testB".toList)], []) ∧
    run [st 1 (.op (at_ 1) [method 1 (v 1 "t") "m"])] = some ([(10, "testB".toList)], []) ∧
    run [st 1 (.assign (at_ 1) (v 1 "x") (call 1 "helper"))] = some ([(10, "testB".toList)], []) ∧
    run [st 1 (.call ⟨10, 19⟩ (.member ⟨10, 17⟩ (.call ⟨10, 15⟩ (.member ⟨10, 13⟩ (v 1 "t") "m".toList) []) "n".toList) [])] =
      some ([(10, "testB".toList)], [(15, "testB".toList)]) := by
  refine ⟨?_, ?_, ?_, ?_⟩ <;> decide +kernel

/-- … but a variable's initial value is: `uint x = t.m();` and `uint x = helper();`. -/
theorem initial_value :
    run [.varDef (at_ 1) [method 1 (v 1 "t") "m"]] = some ([], [(11, "testB".toList)]) ∧
    run [.varDef (at_ 1) [call 1 "helper"]] = some ([(210, "testB".toList)], []) := by decide +kernel

/-- The arguments of a test's modifiers are part of the test: `function testB() public mod(t.m()) {…}`. -/
theorem modifier_arguments : run [] [method 1 (v 1 "t") "m"] = some ([], [(11, "testB".toList)]) := by decide +kernel

/-- With options, a call is not recognised as one of an ignored function, though as one of a function that is gone into: `assertX{…}();`
and `helper{…}();`. -/
theorem options_ignored :
    run [st 1 (.call (at_ 1) (.options (at_ 1) (.var (at_ 1) "assertX".toList) []) [])] = some ([(10, "testB".toList)], []) ∧
    run [st 1 (call 1 "assertX")] = some ([], []) ∧
    run [st 1 (.call (at_ 1) (.options (at_ 1) (.var (at_ 1) "helper".toList) []) [])] = some ([(210, "testB".toList)], []) := by
  refine ⟨?_, ?_, ?_⟩ <;> decide +kernel

/-- What is panicked upon: `f().x;`. -/
theorem field_of_call : run [st 1 (.member (at_ 1) (call 1 "f") "x".toList)] = none := by decide +kernel

end Necessist.Foundry.Demo
