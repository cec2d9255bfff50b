import Verif.Props.Sources
import Verif.Props.GoVisitorDemo
import Verif.Props.MainDemo
/-!
# From source text to removal: an example (C79)
-/
namespace Necessist.Sources.Demo
open Framework (Identifier)
open Parse Run Main TS TS.Go.Demo

/-- A file of the project. -/
def file : SourceFile := ⟨["a_test.go".toList]⟩

mutual
/-- The tree, in `file`. -/
def here : Tree → Tree
  | .node a cs => .node { a with span := { a.span with file := file } } (hereAll cs)
def hereAll : List Tree → List Tree
  | [] => []
  | c :: cs => here c :: hereAll cs
end

def assign (line : Nat) (v : String) : Tree :=
  nd "assignment_statement" line [ident line v, tok line "+=", ident line "one"] (stmt := true)

def text : Text := "func TestA() {\nv += one;\nfoo(bar);\nz += one;\n}\n".toList

def tree : Tree := here (number 0 (nd "source_file" 1 [func 1 "TestA" [assign 2 "v", exprStmt 3 (call 3 (ident 3 "foo") [ident 3 "bar"]), assign 4 "z"]])).2

/-- Parsers that know this file. -/
def parsers : Parsers where
  root := ["p".toList]
  contents := fun f => if f = file then text else []
  sol _ := .error []
  solKey _ := 0
  solFaux := 0
  solFnKey _ := 0
  go f := if f = file then .ok tree else .error []
  php _ := .error []
  js _ := .error []
  jsKey _ := 0
  rs _ := .error []
  rsKey _ := 0
  rsBkey _ := 0
  cargo := ⟨fun _ => .ok [], fun _ => .ok []⟩
  args := []

/-- The framework. -/
def fw (i : Identifier) : Fw (Nat × Nat) where
  backend := { Parse.Demo.proj [] [] with
    kind := Walk.kindOf Walk.Demo.disk (Walk.walkerOf false i) Walk.Demo.rule
    parseFile := fileAst parsers i
    builtins := builtinsOf i
    receiver := walksReceiver i
    fields := walksFields i
    alnum := Char.isAlphanum }
  env := (Main.Demo.fwAt 99).env
  parsed := id

def host : Host Nat (Nat × Nat) := { Main.Demo.host with
  exists_ := fun t => .ok (t == "go.mod".toList)
  impl := fun _ i => .ok (some (fw i)) }

def machine : Machine (Nat × Nat) := { Main.Demo.machine with fs := parsers.contents }

/-- The program tries to remove the first statement and the call, and not the last statement. -/
example : (main host {} machine).1 = some 0 ∧ (main host {} machine).2.console.map Main.Demo.Msg.show =
    ["warning", "2 candidates in 1 test in 1 source file", "dry running a_test.go", "mutilating a_test.go",
      "a_test.go:2:1-2:10: `v += one;` passed", "a_test.go:3:1-3:10: `foo(bar);` passed"] := by decide +kernel

theorem implements : Implements parsers host {} machine Walk.Demo.disk false Walk.Demo.rule Char.isAlphanum where
  root := rfl
  contents := rfl
  impl i f h := by
    have h : (Except.ok (some (fw i)) : Except Text (Option (Fw (Nat × Nat)))) = .ok (some f) := h
    cases h
    exact ⟨rfl, rfl, rfl, rfl, rfl, rfl⟩

theorem located : Located parsers where
  go f t h q x hw := by
    unfold parsers at h
    dsimp only at h
    split at h
    · cases h
      rename_i hf
      subst hf
      have := within_of (P := fun e => decide (e.2.attr.span.file = file)) (by decide +kernel) hw
      simpa using this
    · cases h
  php f t h := by cases h
  js f t h := by cases h
  rs f t h := by cases h

theorem locates : Locates host := by
  intro ext i f h
  have h : (Except.ok (some (fw i)) : Except Text (Option (Fw (Nat × Nat)))) = .ok (some f) := h
  cases h
  exact ⟨parsers, located, rfl⟩

/-- The configuration for Go, there being none in the project. -/
def config : Compiled := match ((builtinConfig .go).merge ({} : Toml)).map (·.compile Char.isAlphanum) with
  | some (Except.ok c) => c
  | _ => TS.Go.Demo.config

theorem configures : Configures Char.isAlphanum .go {} config := by
  have h : (match ((builtinConfig .go).merge ({} : Toml)).map (·.compile Char.isAlphanum) with
    | some (Except.ok _) => true
    | _ => false) = true := by decide +kernel
  unfold Configures config
  cases he : ((builtinConfig .go).merge ({} : Toml)).map (·.compile Char.isAlphanum) with
  | none => rw [he] at h; cases h
  | some r => cases r with
    | ok c => rfl
    | error e => rw [he] at h; cases h

def testA : Text := "TestA".toList
def body : Tree := bodyOf tree testA
/-- `v += one;` -/
def first : Tree := (at_ body [1, 0]).getD tree

theorem usual : Usual parsers .go config file := by
  intro t h
  cases h
  exact goFile_of (by decide +kernel) (by decide +kernel) (by decide +kernel) (by decide +kernel) (by decide +kernel)

theorem says : ∃ d, Says Char.isAlphanum ({} : Opts).warn file (machine.fs file) d ∧ d.skipFile = false ∧
    parsers.suppressed file d first.attr.span = false := by
  have h : (match (Directives.collect Char.isAlphanum ({} : Opts).warn .init file (machine.fs file)).1 with
    | some (d, _) => !d.skipFile && !parsers.suppressed file d first.attr.span
    | none => false) = true := by decide +kernel
  cases he : (Directives.collect Char.isAlphanum ({} : Opts).warn .init file (machine.fs file)).1 with
  | none => rw [he] at h; cases h
  | some r =>
    obtain ⟨d, st⟩ := r
    rw [he] at h
    simp only [Bool.and_eq_true, Bool.not_eq_true'] at h
    exact ⟨d, ⟨_, st, (Directives.collect Char.isAlphanum ({} : Opts).warn .init file (machine.fs file)).2, by rw [← he]⟩, h.1, h.2⟩

theorem looks : Walk.LooksAt Walk.Demo.disk false .go Walk.Demo.rule ["p".toList] ["p".toList, "a_test.go".toList] := by
  refine Or.inr ⟨_, _, Walk.Demo.file "a_test.go", rfl, ⟨_, _, Or.inl rfl⟩, rfl,
    .inside (name := "a_test.go".toList) ⟨rfl, _, _, Or.inl rfl, List.mem_cons_self⟩ (fun h => ?_) .here, ⟨_, Or.inl rfl⟩⟩
  cases h with
  | ignored h => exact absurd h (by decide)
  | hidden _ h =>
    obtain ⟨r, h⟩ := h
    exact absurd (show "a_test.go".toList.head? = some '.' by rw [h]; rfl) (by decide)
  | reserved h => cases h
  | name _ h => exact h (.go (stem := "a".toList))

theorem due {d} (hd : parsers.suppressed file d first.attr.span = false) : Due parsers .go config d file .statement first.attr.span testA := by
  refine ⟨tree, rfl, .statement (body := body) (x := first) ⟨by decide +kernel, by decide +kernel⟩ (bodyOf_spec (by decide +kernel)) (by decide +kernel) ?_
    ⟨by decide +kernel, Or.inl ⟨simple_of (by decide +kernel), by unfold TS.Go.NeverRemoved; decide +kernel,
    fun e c he => absurd he (not_expr (by decide +kernel))⟩⟩ ?_ hd⟩
  · obtain ⟨c, hc⟩ := Option.isSome_iff_exists.mp (by decide +kernel : (body.children[1]?).isSome = true)
    have h2 : (at_ body [1, 0]).isSome = true := by decide +kernel
    have h3 : noCalls body [1, 0] = true := by decide +kernel
    obtain ⟨x, hx⟩ := Option.isSome_iff_exists.mp h2
    rw [first, hx]
    rw [at_, hc] at hx
    rw [noCalls, hc, Bool.and_eq_true] at h3
    exact at_visible hc hx h3.2
  · intro h
    have := TS.Go.last_iff.mpr ⟨_, h, rfl⟩
    exact absurd this (by decide +kernel)

/-- The hypotheses of `C79_candidates`, `C79_sound` and `C79_complete` are met, by the statement `v += one;`. -/
example : Locates host ∧ Implements parsers host {} machine Walk.Demo.disk false Walk.Demo.rule Char.isAlphanum ∧ RunsTests {} ∧
    (∃ root fw nTests map ws st, FindsCandidates host {} machine root fw nTests map ws st) ∧
    (main host {} machine).1 = some 0 ∧ Walk.Chosen host {} .go ∧ Toml.read host.configStatFails machine.config = .ok {} ∧
    Configures Char.isAlphanum .go {} config ∧ Usual parsers .go config file ∧
    ∃ d, Searched host {} machine parsers Walk.Demo.disk false Walk.Demo.rule Char.isAlphanum .go file d ∧
      Due parsers .go config d file .statement first.attr.span testA := by
  have hrun : RunsTests {} := ⟨⟨rfl, rfl, rfl, rfl⟩, rfl, rfl⟩
  have hx : (main host {} machine).1 = some 0 := by decide +kernel
  obtain ⟨root, fw, nT, map, ws, st, hf, _⟩ := zero_runs hrun hx
  obtain ⟨d, h1, h2, h3⟩ := says
  exact ⟨locates, implements, hrun, ⟨root, fw, nT, map, ws, st, hf⟩, hx, Or.inr ⟨rfl, rfl⟩, rfl, configures, usual, d,
    ⟨⟨_, Or.inl ⟨rfl, rfl⟩, looks⟩, rfl, h1, h2⟩, due h3⟩

/-- … and the remaining ones of `C79_listed`. -/
example : (main host { dumpCandidates := true } machine).1 = some 0 ∧
    (main host { dumpCandidates := true } machine).2.console.map Main.Demo.Msg.show =
      ["warning", "a_test.go:2:1-2:10: `v += one;`", "a_test.go:3:1-3:10: `foo(bar);`"] := by
  refine ⟨?_, ?_⟩ <;> decide +kernel

end Necessist.Sources.Demo
