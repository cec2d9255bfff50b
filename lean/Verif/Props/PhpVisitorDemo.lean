import Verif.Props.PhpVisitor
import Verif.Props.GoVisitorDemo
/-!
# PHP: examples, and what goes wrong (C71)
-/
namespace Necessist.TS.Php
namespace Demo
open Visit.Demo (sp pat Found)
open Go.Demo (nd tok inField at_ within_of Step.isPanic)

def name (line : Nat) (s : String) : Tree := nd "name" line [] (text := s)
def var (line : Nat) (s : String) : Tree := nd "variable_name" line [tok line "$", name line s] (text := "$" ++ s)
def args (line : Nat) (as : List Tree) : Tree := inField "arguments" (nd "arguments" line ([tok line "("] ++ as ++ [tok line ")"]))
def fcall (line : Nat) (f : String) : Tree :=
  nd "function_call_expression" line [inField "function" (name line f), args line []]
def mcall (line : Nat) (b : Tree) (f : String) (as : List Tree := []) : Tree :=
  nd "member_call_expression" line [inField "object" b, tok line "->", inField "name" (name line f), args line as]
def scall (line : Nat) (b : String) (f : String) (as : List Tree := []) : Tree :=
  nd "scoped_call_expression" line [inField "scope" (name line b), tok line "::", inField "name" (name line f), args line as]
def acc (line : Nat) (b : Tree) (f : String) : Tree :=
  nd "member_access_expression" line [inField "object" b, tok line "->", inField "name" (name line f)]
def exprStmt (line : Nat) (e : Tree) : Tree := nd "expression_statement" line [e, tok line ";"]
def block (line : Nat) (ss : List Tree) : Tree := nd "compound_statement" line ([tok line "{"] ++ ss ++ [tok line "}"])
def comment (line : Nat) : Tree := .node ⟨"comment".toList, none, true, true, false, sp line 0 9, "// …".toList, 0⟩ []
def method (line : Nat) (n : String) (ss : List Tree) : Tree :=
  nd "method_declaration" line [tok line "function", inField "name" (name line n), inField "body" (block line ss)]

def config : Compiled := ⟨[pat "dump*", pat "Log.write"], [], [pat "assert*"], .none_, ["testSkipped".toList], false, []⟩

/-- ```php
class FooTest {
  function helper() { y(); z(); }
  function testA() {
    // …
    foo();
    $this->obj->bar();
    $this->assertSame(foo());
    Log::write();
    A::b();
    if ($x) { baz(); }
    throw $e;
    return;
    // …
    qux();
    // …
  }
  function testSkipped() { foo(); foo(); }
}
``` -/
def tree : Tree := (number 0 (nd "program" 1 [nd "class_declaration" 1 [tok 1 "class", inField "name" (name 1 "FooTest"),
  inField "body" (nd "declaration_list" 1 [tok 1 "{",
   method 10 "helper" [exprStmt 11 (fcall 11 "y"), exprStmt 12 (fcall 12 "z")],
   method 20 "testA"
    [comment 21,
     exprStmt 22 (fcall 22 "foo"),
     exprStmt 23 (mcall 23 (acc 23 (var 23 "this") "obj") "bar"),
     exprStmt 24 (mcall 24 (var 24 "this") "assertSame" [fcall 24 "foo"]),
     exprStmt 25 (scall 25 "Log" "write"),
     exprStmt 26 (scall 26 "A" "b"),
     nd "if_statement" 27 [tok 27 "if", var 27 "x", inField "body" (block 27 [exprStmt 28 (fcall 28 "baz")])],
     exprStmt 29 (nd "throw_expression" 29 [tok 29 "throw", var 29 "e"]),
     nd "return_statement" 30 [tok 30 "return", tok 30 ";"],
     comment 31,
     exprStmt 32 (fcall 32 "qux"),
     comment 33],
   method 40 "testSkipped" [exprStmt 41 (fcall 41 "foo"), exprStmt 42 (fcall 42 "foo")],
   tok 1 "}"])]])).2

def testA : Text := "testA".toList

-- `assertSame`, `Log::write()`, `throw`, `return` and the last statement are not candidates, and the `if` with a statement in it
-- is not one, but the statement is
example : Found (visitFile config (fun _ => false) id 500 4 tree) =
    some ([(22, testA), (23, testA), (26, testA), (28, testA)], [(23, testA), (26, testA)]) := by
  decide +kernel

/-- A file is as the grammar says, if this can be checked. -/
theorem phpFile_of {file : Tree} (h1 : ((nodes none file).all fun e => nodeOk lang e.1 e.2) = true)
    (h2 : ((nodes none file).all fun e => !lang.isStmt e.1 e.2.attr || !(accesses ++ calls ++ names).contains e.2.attr.kind) = true)
    (h3 : ((nodes none file).all fun e => !(accesses ++ memberCalls).contains e.2.attr.kind ||
      (childByField e.2.children "name".toList).isSome) = true)
    (h4 : ((decls "method_declaration".toList "name".toList "compound_statement".toList file).all
      fun d => !d.body.children.isEmpty) = true)
    (h5 : ((nodes none file).map fun e => e.2.attr.id).Nodup) : PhpFile file where
  grammar := grammatical_of h1
  expr q x hw hs hm := by
    have := within_of h2 hw
    rw [Bool.or_eq_true] at this
    rcases this with h | h
    · rw [isStmt_iff.mpr hs] at h; cases h
    · rw [List.contains_iff_mem.mpr hm] at h; cases h
  name q x hw hk := by
    have := within_of h3 hw
    rw [Bool.or_eq_true] at this
    rcases this with h | h
    · rw [List.contains_iff_mem.mpr hk] at h; cases h
    · obtain ⟨f, h⟩ := Option.isSome_iff_exists.mp h
      exact ⟨f, childByField_iff.mp h⟩
  braces name body hb := by
    have := List.all_eq_true.mp h4 ⟨name, body⟩ (mem_decls_iff.mpr hb)
    simpa using this
  ids := ids_of h5

theorem tree_ok : PhpFile tree :=
  phpFile_of (by decide +kernel) (by decide +kernel) (by decide +kernel) (by decide +kernel) (by decide +kernel)

def bodyOf (file : Tree) (name : Text) : Tree := (((tests file).find? fun d => d.name == name).map Decl.body).getD (nd "" 0 [])

theorem bodyOf_spec {file : Tree} {name : Text} (h : ((tests file).find? fun d => d.name == name).isSome = true) :
    Method file name (bodyOf file name) := by
  obtain ⟨d, hd⟩ := Option.isSome_iff_exists.mp h
  have h1 := List.mem_of_find?_eq_some hd
  have h2 := List.find?_some hd
  have := (tests_iff.mp h1).1
  rw [bodyOf, hd, Option.map_some, Option.getD_some, ← eq_of_beq h2]
  exact this

abbrev bodyA : Tree := bodyOf tree testA

-- the hypotheses of `C71_tests`, …
example : IsTest testA ∧ Method tree testA bodyA ∧ config.isIgnoredTest testA = false :=
  ⟨by unfold IsTest; decide +kernel, bodyOf_spec (by decide +kernel), by decide +kernel⟩

/-- No calls on the way; the parent's kind at the end. -/
def clearTo (p : Option Text) (t : Tree) : List Nat → Option (Option Text × Tree)
  | [] => some (p, t)
  | i :: is => if calls.contains t.attr.kind then none else match t.children[i]? with
    | some c => clearTo (some t.attr.kind) c is
    | none => none

theorem clearTo_clear {config : Compiled} {p t is q x} (h : clearTo p t is = some (q, x)) : Clear (Hidden config) p t q x := by
  induction is generalizing p t with
  | nil => cases h; exact .refl _ _
  | cons i is ih =>
    obtain ⟨a, cs⟩ := t
    rw [clearTo] at h
    split at h
    · cases h
    · rename_i hn
      split at h
      · rename_i c hc
        exact .step (fun hb => hn (List.contains_iff_mem.mpr hb.1)) (List.mem_of_getElem? hc) (ih h)
      · cases h

/-- The node at these indices in the body of `testA`. -/
def nodeOf (i : Nat) (is : List Nat) : Option Text × Tree :=
  ((bodyA.children[i]?).bind fun c => clearTo (some bodyA.attr.kind) c is).getD (none, nd "" 0 [])

theorem nodeOf_visible {config : Compiled} {i is}
    (h : ((bodyA.children[i]?).bind fun c => clearTo (some bodyA.attr.kind) c is).isSome = true) :
    Visible config bodyA (nodeOf i is).1 (nodeOf i is).2 := by
  obtain ⟨⟨q, x⟩, h⟩ := Option.isSome_iff_exists.mp h
  rw [nodeOf, h]
  obtain ⟨c, hc, h⟩ := Option.bind_eq_some_iff.mp h
  exact ⟨c, List.mem_of_getElem? hc, clearTo_clear h⟩

-- … of `C71_complete`, for `baz()`, …
example : Visible config bodyA (nodeOf 7 [2, 1]).1 (nodeOf 7 [2, 1]).2 ∧ IsStatement (nodeOf 7 [2, 1]).1 (nodeOf 7 [2, 1]).2 ∧
    Plain config (nodeOf 7 [2, 1]).2 ∧ ¬ IsLast bodyA (nodeOf 7 [2, 1]).2 ∧ (nodeOf 7 [2, 1]).2.attr.span = sp 28 0 9 := by
  refine ⟨nodeOf_visible (by decide +kernel), ⟨by decide +kernel, by decide +kernel, by decide +kernel⟩, ?_, ?_, by decide +kernel⟩
  · have h1 : ((firstNamed (nodeOf 7 [2, 1]).2.children).bind fun i => (nodeOf 7 [2, 1]).2.children[i]?).isSome = true := by
      decide +kernel
    have h2 : (((firstNamed (nodeOf 7 [2, 1]).2.children).bind fun i => (nodeOf 7 [2, 1]).2.children[i]?).map fun e => (e.attr.kind,
        (childByField e.children "function".toList).map fun f => (f.attr.kind, f.attr.text))) =
        some ("function_call_expression".toList, some ("name".toList, "baz".toList)) := by decide +kernel
    obtain ⟨e, he⟩ := Option.isSome_iff_exists.mp h1
    rw [he, Option.map_some, Option.some.injEq, Prod.mk.injEq] at h2
    obtain ⟨h2, h3⟩ := h2
    refine Or.inr ⟨e, e, ⟨by decide +kernel, firstNamed_iff.mp he⟩, .call (by rw [h2]; exact List.mem_cons_self), ?_⟩
    obtain ⟨f, hf, h4⟩ := Option.map_eq_some_iff.mp h3
    rw [Prod.mk.injEq] at h4
    have hf := childByField_iff.mp hf
    have nochain : ∀ base p, ¬ Chain e base p := by
      rintro base p (⟨b, f', p', hm, _⟩ | ⟨hp, f', _, hf', hs⟩)
      · have := hm.1
        rw [h2] at this; exact absurd this (by decide +kernel)
      · rw [← Go.FieldChild.unique hf hf'] at hs
        cases hs with
        | base _ => exact hp rfl
        | access ha _ =>
          have := ha.1
          rw [h4.1] at this; exact absurd this (by decide +kernel)
    rintro (h | ⟨base, p, hc, _⟩)
    · cases h with
      | function _ hf' _ hi =>
        rw [← Go.FieldChild.unique hf hf', h4.2] at hi
        exact absurd hi (by decide +kernel)
      | path hc _ _ => exact nochain _ _ hc
      | chain hc _ => exact nochain _ _ hc
    · exact nochain _ _ hc
  · intro h
    have := last_iff.mpr ⟨_, h, rfl⟩
    revert this
    decide +kernel

-- … and of `C71_complete_methods`, for `$this->obj->bar()`
example : ∃ base, Visible config bodyA (nodeOf 3 [0]).1 (nodeOf 3 [0]).2 ∧ Chain (nodeOf 3 [0]).2 base ["obj".toList, "bar".toList] ∧
    config.isIgnoredMethod (Visit.dotted ["obj".toList, "bar".toList]) = false := by
  have h1 : ((childByField (nodeOf 3 [0]).2.children "object".toList).bind fun o => childByField o.children "object".toList).isSome = true := by
    decide +kernel
  have h2 : ((childByField (nodeOf 3 [0]).2.children "object".toList).map fun o => (o.attr.kind,
      (childByField o.children "object".toList).map (fun b => b.attr.kind),
      (childByField o.children "name".toList).map fun f => f.attr.text)) =
      some ("member_access_expression".toList, some "variable_name".toList, some "obj".toList) := by decide +kernel
  have h3 : ((childByField (nodeOf 3 [0]).2.children "name".toList).map fun f => f.attr.text) = some "bar".toList := by decide +kernel
  obtain ⟨b, hb⟩ := Option.isSome_iff_exists.mp h1
  obtain ⟨o, ho, hb⟩ := Option.bind_eq_some_iff.mp hb
  rw [ho, Option.map_some, Option.some.injEq, Prod.mk.injEq, Prod.mk.injEq] at h2
  obtain ⟨h2, h4, h5⟩ := h2
  rw [hb, Option.map_some, Option.some.injEq] at h4
  obtain ⟨f, hf, h5⟩ := Option.map_eq_some_iff.mp h5
  obtain ⟨g, hg, h6⟩ := Option.map_eq_some_iff.mp h3
  refine ⟨b, nodeOf_visible (by decide +kernel), ?_, by decide +kernel⟩
  have hbase : Base (nodeOf 3 [0]).2 o := by
    unfold Base; rw [if_neg (by decide +kernel)]; exact childByField_iff.mp ho
  have hbase' : Base o b := by
    unfold Base; rw [h2, if_neg (by decide +kernel)]; exact childByField_iff.mp hb
  have hsel := Selects.access (x := o) (b := b) (f := f) (base := b) (p := [])
    ⟨by rw [h2]; decide +kernel, hbase', childByField_iff.mp hf⟩ (.base (by rw [h4]; decide +kernel))
  refine Or.inl ⟨o, g, [f.attr.text], ⟨by decide +kernel, hbase, childByField_iff.mp hg⟩, hsel, ?_⟩
  rw [h5, h6]
  rfl

/-- `function testB() { ⟨a statement without children⟩ z(); }` -/
def leafy : Tree := (number 0 (nd "program" 1 [method 10 "testB" [nd "ERROR" 11 [], exprStmt 12 (fcall 12 "z")]])).2

/-- **C71**, what does not hold without the hypothesis that statements have children: on a file with a test that contains a
statement without children, as tree-sitter makes them up for text that it cannot parse, Necessist panics. -/
theorem C71_negation_leaf : ∃ file : Tree, (∃ body, Method file "testB".toList body ∧ ∃ q x, InBody body q x ∧ IsStatement q x ∧ x.children = []) ∧
    ∀ fuel rounds, 50 ≤ fuel → visitFile config (fun _ => false) id fuel rounds file = .panic := by
  refine ⟨leafy, ⟨bodyOf leafy "testB".toList, bodyOf_spec (by decide +kernel), ?_⟩, fun fuel rounds hle => ?_⟩
  · have h1 : ((nodesAll (bodyOf leafy "testB".toList).attr.kind (bodyOf leafy "testB".toList).children).any fun e => lang.isStmt e.1 e.2.attr && e.2.children.isEmpty) = true := by
      decide +kernel
    obtain ⟨⟨q, x⟩, hm, hx⟩ := List.any_eq_true.mp h1
    rw [nodesAll_eq, List.mem_flatMap] at hm
    obtain ⟨c, hc, hm⟩ := hm
    rw [Bool.and_eq_true] at hx
    exact ⟨q, x, ⟨c, hc, nodes_within hm⟩, isStmt_iff.mp hx.1, List.isEmpty_iff.mp hx.2⟩
  · have h1 : Step.isPanic (visitDecls lang (visitorCfg lang config (fun _ => false) id []) last 50 (tests leafy) {}) = true := by
      decide +kernel
    have h2 : visitDecls lang (visitorCfg lang config (fun _ => false) id []) last 50 (tests leafy) {} = .panic := by
      revert h1
      cases visitDecls lang (visitorCfg lang config (fun _ => false) id []) last 50 (tests leafy) {} <;> simp [Step.isPanic]
    rw [visitFile, visit, visitDecls_mono h2 (by simp) hle]

end Demo
end Necessist.TS.Php
