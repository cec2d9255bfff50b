import Verif.Props.GoVisitor
import Verif.Props.VisitorDemo
import Verif.Lemmas.TreeSitterCheck
/-!
# Go: examples, and what goes wrong (C70)
-/
namespace Necessist.TS.Go
namespace Demo
open Visit.Demo (sp pat Found found_done)

/-- A node; `line` is where it is. -/
def nd (kind : String) (line : Nat) (cs : List Tree) (stmt : Bool := false) (field : Option String := none) (text : String := "") :
    Tree := .node ⟨kind.toList, field.map String.toList, true, false, stmt, sp line 0 9, text.toList, 0⟩ cs
/-- A token. -/
def tok (line : Nat) (s : String) : Tree := .node ⟨s.toList, none, false, false, false, sp line 0 1, s.toList, 0⟩ []
def inField (f : String) : Tree → Tree
  | .node a cs => .node { a with field := some f.toList } cs
def ident (line : Nat) (s : String) : Tree := nd "identifier" line [] (text := s)
def call (line : Nat) (f : Tree) (args : List Tree := []) : Tree :=
  nd "call_expression" line [inField "function" f, nd "argument_list" line ([tok line "("] ++ args ++ [tok line ")"])]
def sel (line : Nat) (b : Tree) (f : String) : Tree :=
  nd "selector_expression" line [inField "operand" b, tok line ".", inField "field" (nd "field_identifier" line [] (text := f))]
def exprStmt (line : Nat) (e : Tree) : Tree := nd "expression_statement" line [e] (stmt := true)
def block (line : Nat) (ss : List Tree) : Tree := nd "block" line [tok line "{", nd "statement_list" line ss, tok line "}"]
def func (line : Nat) (name : String) (ss : List Tree) : Tree :=
  nd "function_declaration" line [tok line "func", inField "name" (ident line name), inField "body" (block line ss)]

def config : Compiled := ⟨[pat "assert.*"], [], [pat "Close" true], .none_, ["TestSkipped".toList], false, [pat "h*"]⟩

/-- ```go
func helper() { y() ; z++ }
func TestA(t *testing.T) {
  x := 1
  helper()
  foo().bar()
  assert.Equal(x)
  t.Run("n", func() { inner() })
  w.Close()
  return
  v++
  z++
}
func TestMain() { foo() ; foo() }
func TestSkipped() { foo() ; foo() }
``` -/
def tree : Tree := (number 0 (nd "source_file" 1
  [func 10 "helper" [exprStmt 11 (call 11 (ident 11 "y")), nd "inc_statement" 12 [ident 12 "z", tok 12 "++"] (stmt := true)],
   func 20 "TestA"
    [nd "short_var_declaration" 21 [ident 21 "x", tok 21 ":=", nd "int_literal" 21 []] (stmt := true),
     exprStmt 22 (call 22 (ident 22 "helper")),
     exprStmt 23 (call 23 (sel 23 (call 23 (ident 23 "foo")) "bar")),
     exprStmt 24 (call 24 (sel 24 (ident 24 "assert") "Equal") [ident 24 "x"]),
     exprStmt 25 (call 25 (sel 25 (ident 25 "t") "Run") [nd "func_literal" 25 [tok 25 "func", inField "body" (block 25
       [exprStmt 26 (call 26 (ident 26 "inner"))])]]),
     exprStmt 27 (call 27 (sel 27 (ident 27 "w") "Close")),
     nd "return_statement" 28 [tok 28 "return"] (stmt := true),
     nd "inc_statement" 33 [ident 33 "v", tok 33 "++"] (stmt := true),
     nd "inc_statement" 29 [ident 29 "z", tok 29 "++"] (stmt := true)],
   func 30 "TestMain" [exprStmt 31 (call 31 (ident 31 "foo")), exprStmt 32 (call 32 (ident 32 "foo"))],
   func 40 "TestSkipped" [exprStmt 41 (call 41 (ident 41 "foo")), exprStmt 42 (call 42 (ident 42 "foo"))]])).2

def testA : Text := "TestA".toList

-- `helper()` is gone into instead of being removed; `assert.Equal`, `w.Close()`, the declaration, the `return` and the last
-- statement are not candidates; `t.Run(…)` and what is within it are
example : Found (visitFile config (fun _ => false) id 500 4 tree) =
    some ([(23, testA), (25, testA), (26, testA), (33, testA), (11, testA), (12, testA)], [(23, testA), (25, testA)]) := by
  decide +kernel

theorem within_of {p t q x} {P : Option Text × Tree → Bool} (h : ((nodes p t).all P) = true) (hw : Within p t q x) : P (q, x) = true :=
  List.all_eq_true.mp h _ (mem_nodes hw)

/-- A file is as the grammar says, if this can be checked. -/
theorem goFile_of {file : Tree} (h1 : ((nodes none file).all fun e => nodeOk lang e.1 e.2) = true)
    (h2 : ((nodes none file).all fun e => !e.2.attr.stmt ||
      !["identifier".toList, "call_expression".toList, "selector_expression".toList].contains e.2.attr.kind) = true)
    (h3 : ((nodes none file).all fun e => !(e.2.attr.kind == "selector_expression".toList) ||
      (childByField e.2.children "field".toList).isSome) = true)
    (h4 : ((fns file).all fun d => !d.body.children.isEmpty) = true)
    (h5 : ((nodes none file).map fun e => e.2.attr.id).Nodup) : GoFile file where
  grammar := grammatical_of h1
  expr q x hw hs hm := by
    have := within_of h2 hw
    rw [Bool.or_eq_true] at this
    rcases this with h | h
    · rw [hs] at h; cases h
    · rw [List.contains_iff_mem.mpr hm] at h; cases h
  selector q x hw hk := by
    have := within_of h3 hw
    rw [Bool.or_eq_true] at this
    rcases this with h | h
    · simp only [beq_iff_eq.mpr hk] at h; cases h
    · obtain ⟨f, h⟩ := Option.isSome_iff_exists.mp h
      exact ⟨f, childByField_iff.mp h⟩
  braces name body hb := by
    have := List.all_eq_true.mp h4 ⟨name, body⟩ (fns_iff.mpr hb)
    simpa using this
  ids := ids_of h5

theorem tree_ok : GoFile tree :=
  goFile_of (by decide +kernel) (by decide +kernel) (by decide +kernel) (by decide +kernel) (by decide +kernel)

/-- The body of the first function of this name. -/
def bodyOf (file : Tree) (name : Text) : Tree := (((fns file).find? fun d => d.name == name).map Decl.body).getD (nd "" 0 [])

theorem bodyOf_spec {file : Tree} {name : Text} (h : ((fns file).find? fun d => d.name == name).isSome = true) :
    Function file name (bodyOf file name) := by
  obtain ⟨d, hd⟩ := Option.isSome_iff_exists.mp h
  have h1 := List.mem_of_find?_eq_some hd
  have h2 := List.find?_some hd
  have := fns_iff.mp h1
  rw [bodyOf, hd, Option.map_some, Option.getD_some, ← eq_of_beq h2]
  exact this

-- the hypotheses of `C70_tests`, …
example : IsTest testA ∧ Function tree testA (bodyOf tree testA) ∧ config.isIgnoredTest testA = false :=
  ⟨⟨by decide +kernel, by decide +kernel⟩, bodyOf_spec (by decide +kernel), by decide +kernel⟩

/-- The node at these indices, from the root. -/
def at_ (t : Tree) : List Nat → Option Tree
  | [] => some t
  | i :: is => match t.children[i]? with
    | some c => at_ c is
    | none => none

/-- No calls on the way. -/
def noCalls (t : Tree) : List Nat → Bool
  | [] => true
  | i :: is => !(t.attr.kind == "call_expression".toList) && match t.children[i]? with
    | some c => noCalls c is
    | none => false

theorem at_clear {config : Compiled} {t : Tree} {is : List Nat} {x} (h : at_ t is = some x) (hn : noCalls t is = true) (p) :
    ∃ q, Clear (Hidden config) p t q x := by
  induction is generalizing t p with
  | nil => cases h; exact ⟨p, .refl _ _⟩
  | cons i is ih =>
    obtain ⟨a, cs⟩ := t
    rw [at_] at h
    rw [noCalls, Bool.and_eq_true] at hn
    cases hc : cs[i]? with
    | none => simp only [Tree.children, hc] at h; cases h
    | some c =>
      simp only [Tree.children, hc] at h hn
      obtain ⟨q, hq⟩ := ih h hn.2 (some a.kind)
      refine ⟨q, .step (fun hb => ?_) (List.mem_of_getElem? hc) hq⟩
      have h1 : a.kind = "call_expression".toList := hb.1
      have h2 := hn.1
      simp only [Tree.attr, beq_iff_eq.mpr h1] at h2
      cases h2

theorem at_visible {config : Compiled} {body c x : Tree} {i : Nat} {is : List Nat} (hc : body.children[i]? = some c)
    (h : at_ c is = some x) (hn : noCalls c is = true) : Visible config body x := by
  obtain ⟨q, hq⟩ := at_clear (config := config) h hn (some body.attr.kind)
  exact ⟨c, List.mem_of_getElem? hc, q, hq⟩

/-- The statement at these indices in the body of the function. -/
def stmtOf (name : Text) (is : List Nat) : Tree := ((at_ (bodyOf tree name) is).getD (nd "" 0 []))

theorem simple_of {x : Tree} (h : (nodesAll x.attr.kind x.children).all (fun e => !e.2.attr.stmt) = true) : Simple x := by
  rintro q y ⟨c, hc, hw⟩
  have hm : (q, y) ∈ nodesAll x.attr.kind x.children := by
    rw [nodesAll_eq]; exact List.mem_flatMap.mpr ⟨c, hc, mem_nodes hw⟩
  have := List.all_eq_true.mp h _ hm
  simpa using this

theorem not_expr {x e : Tree} (h : (x.attr.kind == "expression_statement".toList) = false) : ¬ Expr x e := by
  rintro ⟨hk, _⟩
  rw [beq_iff_eq.mpr hk] at h; cases h

/-- The body of `TestA`. -/
abbrev bodyA : Tree := bodyOf tree testA

-- … of `C70_complete`, for `v++`, …
example : Visible config bodyA (stmtOf testA [1, 7]) ∧ Plain config tree (stmtOf testA [1, 7]) ∧ ¬ IsLast bodyA (stmtOf testA [1, 7]) ∧
    (stmtOf testA [1, 7]).attr.span = sp 33 0 9 := by
  refine ⟨?_, ⟨by decide +kernel, Or.inl ⟨simple_of (by decide +kernel), by unfold NeverRemoved; decide +kernel,
    fun e c he => absurd he (not_expr (by decide +kernel))⟩⟩, ?_, by decide +kernel⟩
  · obtain ⟨c, hc⟩ := Option.isSome_iff_exists.mp (by decide +kernel : (bodyA.children[1]?).isSome = true)
    have h2 : (at_ bodyA [1, 7]).isSome = true := by decide +kernel
    have h3 : noCalls bodyA [1, 7] = true := by decide +kernel
    obtain ⟨x, hx⟩ := Option.isSome_iff_exists.mp h2
    rw [stmtOf, hx]
    rw [at_, hc] at hx
    rw [noCalls, hc, Bool.and_eq_true] at h3
    exact at_visible hc hx h3.2
  · intro h
    have := last_iff.mpr ⟨_, h, rfl⟩
    revert this
    decide +kernel

-- … and of `C70_complete_functions`, for `z++` in `helper`
example : Visible config bodyA (stmtOf testA [1, 1, 0]) ∧ CallOf (stmtOf testA [1, 1, 0]) "helper".toList ∧
    Local config tree "helper".toList (bodyOf tree "helper".toList) ∧ Visible config (bodyOf tree "helper".toList) (stmtOf "helper".toList [1, 1]) ∧
    Plain config tree (stmtOf "helper".toList [1, 1]) := by
  refine ⟨?_, ?_, ⟨bodyOf_spec (by decide +kernel), by decide +kernel, by decide +kernel⟩, ?_, ⟨by decide +kernel,
    Or.inl ⟨simple_of (by decide +kernel), by unfold NeverRemoved; decide +kernel, fun e c he => absurd he (not_expr (by decide +kernel))⟩⟩⟩
  · obtain ⟨c, hc⟩ := Option.isSome_iff_exists.mp (by decide +kernel : (bodyA.children[1]?).isSome = true)
    have h2 : (at_ bodyA [1, 1, 0]).isSome = true := by decide +kernel
    have h3 : noCalls bodyA [1, 1, 0] = true := by decide +kernel
    obtain ⟨x, hx⟩ := Option.isSome_iff_exists.mp h2
    rw [stmtOf, hx]
    rw [at_, hc] at hx
    rw [noCalls, hc, Bool.and_eq_true] at h3
    exact at_visible hc hx h3.2
  · have h1 : (childByField (stmtOf testA [1, 1, 0]).children "function".toList).isSome = true := by decide +kernel
    have h2 : ((childByField (stmtOf testA [1, 1, 0]).children "function".toList).map fun f => (f.attr.kind, f.attr.text)) =
      some ("identifier".toList, "helper".toList) := by decide +kernel
    obtain ⟨f, hf⟩ := Option.isSome_iff_exists.mp h1
    rw [hf, Option.map_some, Option.some.injEq, Prod.mk.injEq] at h2
    exact ⟨f, ⟨by decide +kernel, childByField_iff.mp hf⟩, h2.1, h2.2⟩
  · obtain ⟨c, hc⟩ := Option.isSome_iff_exists.mp (by decide +kernel : ((bodyOf tree "helper".toList).children[1]?).isSome = true)
    have h2 : (at_ (bodyOf tree "helper".toList) [1, 1]).isSome = true := by decide +kernel
    have h3 : noCalls (bodyOf tree "helper".toList) [1, 1] = true := by decide +kernel
    obtain ⟨x, hx⟩ := Option.isSome_iff_exists.mp h2
    rw [stmtOf, hx]
    rw [at_, hc] at hx
    rw [noCalls, hc, Bool.and_eq_true] at h3
    exact at_visible hc hx h3.2

/-- `func TestB() { switch x { … ; fallthrough } ; z++ }`, as far as it matters: a statement without children. -/
def leafy : Tree := (number 0 (nd "source_file" 1
  [func 10 "TestB" [nd "fallthrough_statement" 11 [] (stmt := true), nd "inc_statement" 12 [ident 12 "z", tok 12 "++"] (stmt := true)]])).2

def Step.isPanic : Step → Bool
  | .panic => true
  | _ => false

/-- **C70**, what does not hold without the hypothesis that statements have children: on a file with a test that contains a
statement without children, Necessist panics. -/
theorem C70_negation_leaf : ∃ file : Tree, (∃ body, Function file "TestB".toList body ∧ ∃ q x, InBody body q x ∧ x.attr.stmt = true ∧ x.children = []) ∧
    ∀ fuel rounds, 50 ≤ fuel → visitFile config (fun _ => false) id fuel rounds file = .panic := by
  refine ⟨leafy, ⟨bodyOf leafy "TestB".toList, bodyOf_spec (by decide +kernel), ?_⟩, fun fuel rounds hle => ?_⟩
  · have h1 : ((nodesAll (bodyOf leafy "TestB".toList).attr.kind (bodyOf leafy "TestB".toList).children).any fun e => e.2.attr.stmt && e.2.children.isEmpty) = true := by
      decide +kernel
    obtain ⟨⟨q, x⟩, hm, hx⟩ := List.any_eq_true.mp h1
    rw [nodesAll_eq, List.mem_flatMap] at hm
    obtain ⟨c, hc, hm⟩ := hm
    rw [Bool.and_eq_true] at hx
    exact ⟨q, x, ⟨c, hc, nodes_within hm⟩, hx.1, List.isEmpty_iff.mp hx.2⟩
  · have h1 : Step.isPanic (visitDecls lang (visitorCfg lang config (fun _ => false) id (locals leafy)) last 50 (tests leafy) {}) = true := by
      decide +kernel
    have h2 : visitDecls lang (visitorCfg lang config (fun _ => false) id (locals leafy)) last 50 (tests leafy) {} = .panic := by
      revert h1
      cases visitDecls lang (visitorCfg lang config (fun _ => false) id (locals leafy)) last 50 (tests leafy) {} <;> simp [Step.isPanic]
    rw [visitFile, visit, visitDecls_mono h2 (by simp) hle]

end Demo
end Necessist.TS.Go
