import Verif.Props.Parse
/-!
# Parsing: examples
-/
namespace Necessist.Parse
open Visit Run
namespace Demo

def file (n : String) : SourceFile := ⟨["src".toList, n.toList]⟩
def fileA := file "a.rs"
def fileB := file "b.rs"
def fileC := file "c.rs"
def fileD := file "d.rs"
def path (f : SourceFile) : Path := ["p".toList] ++ f.path
def sp (f : SourceFile) (line : Nat) : Span := ⟨f, ⟨line, 0⟩, ⟨line, 2⟩⟩
def stm (f : SourceFile) (line : Nat) : Node := .stmt ⟨sp f line, line, true, false, false⟩ []

/-- Two files with tests, one that cannot be parsed, one that asks to be skipped. -/
def proj (deny allow : List Warning) : Backend where
  root := ["p".toList]
  canonicalize := fun p => if p == ["p".toList, "..".toList] then .ok [] else .ok p
  kind := fun p =>
    if p = ["p".toList] then .dir [.ok (path fileC, true), .ok (["p".toList, "src".toList], false), .ok (path fileB, true),
      .ok (path fileA, true), .ok (path fileD, true)]
    else if p = path fileA ∨ p = path fileB ∨ p = path fileC ∨ p = path fileD then .file else .other
  read := fun f => .ok (if f = fileD then "// necessist: skip-file\na;\nb;\nc;\n".toList else "a;\nb;\nc;\n".toList)
  parseFile := fun f =>
    if f = fileB then .error "unexpected token".toList
    else if f = fileA then .ok { localFunctions := .ok [], tree := [.test "t".toList (some 3) [stm f 1, stm f 2, stm f 3],
      .test "u".toList none [stm f 2]] }
    else .ok { localFunctions := .ok [], tree := [.test "t".toList none [stm f 3]] }
  builtins := ⟨some [], some [], some []⟩
  receiver := true
  fields := true
  alnum := Char.isAlphanum
  warn := ⟨allow, deny, false⟩

/-- What can be compared: success, the number of tests, for each file the lines of its statements with their tests, the warnings. -/
structure Res₄ where
  ok : Bool
  nTests : Nat
  files : List (SourceFile × List (Nat × List Text))
  warnings : List Warning
deriving DecidableEq

/-- Parse. -/
def result (deny allow : List Warning) (paths : List Path) : Res₄ :=
  match parse (proj deny allow) {} paths WStates.init with
  | (r, st) => ⟨match r with | .ok _ => true | _ => false, st.nTests,
      st.map.map fun p => (p.1, p.2.statement.map fun q => (q.1.start.line, q.2)), st.printed.map (·.warning)⟩

/-- The whole project: files in order, the broken one reported. -/
example : result [] [] [] = ⟨true, 3, [(fileA, [(1, ["t".toList]), (2, ["t".toList, "u".toList])]), (fileC, [(3, ["t".toList])])],
    [.parsingFailed]⟩ := by decide +kernel

/-- The same file given twice: the same candidates; but its tests are counted twice. -/
example : result [] [] [path fileA, path fileA] =
      ⟨true, 4, [(fileA, [(1, ["t".toList]), (2, ["t".toList, "u".toList])])], []⟩ ∧
    result [] [] [path fileA] = ⟨true, 2, [(fileA, [(1, ["t".toList]), (2, ["t".toList, "u".toList])])], []⟩ := by
  decide +kernel

/-- Denied. -/
example : (result [.parsingFailed] [] []).ok = false := by decide +kernel
/-- Allowed. -/
example : (result [] [.parsingFailed] []).warnings = [] := by decide +kernel
/-- Another order. -/
example : (result [] [] [path fileA, path fileC]).files = (result [] [] [path fileC, path fileA]).files := by decide +kernel

/-- An argument that leads outside. -/
example : canonicalizeAll (proj [] []) [⟨false, ["src".toList]⟩, ⟨false, ["..".toList]⟩] = .error (.notInRoot []) := rfl
example : canonicalizeAll (proj [] []) [⟨false, fileA.path⟩, ⟨true, path fileC⟩] = .ok [path fileA, path fileC] := rfl

theorem parses {deny allow paths x} (h : result deny allow paths = x) (hx : x.ok = true) :
    ∃ st, parse (proj deny allow) {} paths WStates.init = (.ok (), st) := by
  subst h
  unfold result at hx
  rcases hp : parse (proj deny allow) {} paths WStates.init with ⟨r, st⟩
  rw [hp] at hx
  cases r with
  | ok u => exact ⟨st, rfl⟩
  | _ => simp at hx

/-- The hypotheses of C41 and of C64 are met: parsing succeeds, with a given file that cannot be parsed. -/
example : (∃ st, parse (proj [] []) {} [] WStates.init = (.ok (), st)) ∧ Given (proj [] []) [] fileB ∧
    (∃ contents d e, (proj [] []).read fileB = .ok contents ∧ HasDirectives (proj [] []) fileB contents d ∧ d.skipFile = false ∧
      (proj [] []).parseFile fileB = .error e) ∧ Shows (proj [] []).warn .parsingFailed ∧ ¬ Denied (proj [] []).warn .parsingFailed := by
  refine ⟨parses (x := result [] [] []) rfl (by decide +kernel), ?_, ?_, ?_, ?_⟩
  · refine ⟨["p".toList], by decide +kernel, Or.inr ⟨[.ok (path fileC, true), .ok (["p".toList, "src".toList], false), .ok (path fileB, true),
      .ok (path fileA, true), .ok (path fileD, true)], rfl, ?_⟩⟩
    exact List.mem_cons_of_mem _ (List.mem_cons_of_mem _ List.mem_cons_self)
  · have hs : ((Directives.collect Char.isAlphanum ⟨[], [], false⟩ WStates.init fileB "a;\nb;\nc;\n".toList).1.map (·.1)) = some {} := by
      decide +kernel
    rcases hc : Directives.collect Char.isAlphanum ⟨[], [], false⟩ WStates.init fileB "a;\nb;\nc;\n".toList with ⟨_ | ⟨d, w⟩, ms⟩
    · rw [hc] at hs; simp at hs
    · rw [hc] at hs
      simp only [Option.map_some, Option.some.injEq] at hs
      subst hs
      exact ⟨_, _, _, rfl, ⟨_, _, _, hc⟩, rfl, rfl⟩
  · exact ⟨fun h => (by rcases h with h | h <;> cases h), rfl, (by intro h; cases h), (by intro h; cases h)⟩
  · exact fun h => (by rcases h with h | h <;> cases h)

end Demo
end Necessist.Parse
