import Verif.Props.AnchorRun
import Verif.Props.RunDemo
/-! A concrete Anchor project. -/
namespace Necessist.Anchor.Demo
open Run

def word (c : Char) : Bool := c.isAlphanum || c == '_'

theorem letters : Letters word := by unfold Letters; decide +kernel

def str (s : String) : Item := .value (.str s.toList [' '] " # run tests".toList)

/-- ```
[provider]
cluster = "localnet"
[scripts]
build = "make"
test = "yarn run ts-mocha -p ./tsconfig.json -t 1000000 tests/a.ts --exit"
``` -/
def doc : Doc :=
  [("provider".toList, .table [("cluster".toList, str "localnet")]),
    ("scripts".toList, .table [("build".toList, str "make"),
      ("test".toList, str "yarn run ts-mocha -p ./tsconfig.json -t 1000000 tests/a.ts --exit")])]

def anchor : Anchor := ⟨doc, .mocha, "yarn run ts-mocha -p ./tsconfig.json -t 1000000 ".toList, " --exit".toList⟩

theorem accepted : create word doc = .ok anchor := by
  have h : editTestScript doc (parseTestValue word) = .ok ((.mocha, anchor.pre, anchor.suf), doc) := by
    refine (editTestScript_iff _ _ _ _).2 ⟨_, _, ⟨[("provider".toList, _)], [("build".toList, _)], [], [], rfl, rfl, by decide, by decide⟩, ?_⟩
    have : testRe word "yarn run ts-mocha -p ./tsconfig.json -t 1000000 tests/a.ts --exit".toList = some (anchor.pre, anchor.suf) := by
      decide +kernel
    unfold parseTestValue
    simp only [this]
    have : (hasWord word "mocha".toList none anchor.pre || hasWord word "ts-mocha".toList none anchor.pre) = true := by decide +kernel
    rw [if_pos this]
  unfold create
  rw [h]
  rfl

/-- Several files: the last is replaced. -/
example : testRe word "vitest run a.ts b.ts -x".toList = some ("vitest run a.ts ".toList, " -x".toList) := by decide +kernel
/-- The extension must not be part of a longer word, and there must be a command. -/
example : testRe word "mocha a.tsx".toList = none ∧ testRe word "a.ts".toList = none := by decide +kernel
/-- `.ts` within a name. -/
example : testRe word "mocha a.ts.b c".toList = some ("mocha ".toList, ".b c".toList) := by decide +kernel

/-- Prints the script only. -/
def render (d : Doc) : Text :=
  match editTestScript d fun v => .ok (v, v) with
  | .ok (.str s _ _, _) => s
  | _ => []

/-- Commands leave nonsense in Anchor.toml. Which tests succeed is as in `Run.Demo`. -/
def around (checkOk startOk : Bool) (duration : Option Nat) (killOk : Bool) : Around (Nat × Nat) where
  base := { Run.Demo.env 99 99 with
    dryRun := fun w _ => ⟨.ok (), w.warns, w.ext, []⟩
    start := fun w test _ _ => ⟨if startOk then .ok ⟨false, duration, decide (test ≠ "q".toList)⟩ else .err .io, w.warns, w.ext, []⟩
    kill := fun w => ⟨if killOk then .ok () else .err .backend, w.warns, w.ext, []⟩ }
  install w := ⟨.ok (), w.warns, w.ext, []⟩
  backup w := ⟨.ok (), w.warns, w.ext, []⟩
  write w _ := (none, w.ext)
  check w _ _ := ⟨.ok checkOk, w.warns, w.ext, []⟩
  leaves _ _ _ := "nonsense".toList
  shown := SourceFile.display
  render := render

def start : World (St (Nat × Nat)) :=
  ⟨Run.Demo.src, some [], .init, [], 0, [], none, [], ⟨"original".toList, none, [], (0, 0)⟩⟩

def run (x : Around (Nat × Nat)) := runFiles Run.Demo.cfg (inRun anchor x) Run.Demo.files start

/-- A complete run: everything is tested, and Anchor.toml is as before. -/
example : (run (around true true (some 10) true)).1 = .ok () ∧
    ((run (around true true (some 10) true)).2.db.map fun rows => rows.map fun r => (r.text, r.outcome)) =
      some [("aa;".toList, "failed".toList), ("bb;".toList, "passed".toList), (".d()".toList, "failed".toList),
        ("x;".toList, "passed".toList)] ∧
    (run (around true true (some 10) true)).2.ext.toml = "original".toList := by decide +kernel

/-- What Anchor.toml contained when the first tests were started. -/
example : ((run (around true true (some 10) true)).2.ext.seen.filterMap fun e => match e with | (.start f, t) => some (f, t) | _ => none).take 1 =
    [(Run.Demo.t, "yarn run ts-mocha -p ./tsconfig.json -t 1000000 t.rs --exit".toList)] := by decide +kernel

/-- All tests time out. -/
example : (run (around true true none true)).1 = .ok () ∧
    (run (around true true none true)).2.ext.toml = "original".toList := by decide +kernel
/-- All tests time out and cannot be killed. -/
example : (run (around true true none false)).1 = .err .backend ∧
    (run (around true true none false)).2.ext.toml = "original".toList := by decide +kernel
/-- Tests cannot be started. -/
example : (run (around true false none true)).1 = .err .io ∧
    (run (around true false none true)).2.ext.toml = "original".toList := by decide +kernel
/-- The check fails: so do the dry runs, and everything is skipped. -/
example : (run (around false true (some 10) true)).1 = .ok () ∧
    (run (around false true (some 10) true)).2.ext.toml = "original".toList := by decide +kernel

/-- The theorems apply. -/
example : (run (around true true none false)).2.ext.toml = start.ext.toml :=
  C62_restored doc anchor accepted _ _ _ _ rfl (by decide +kernel)

example : jsonExtractor "\nFound a 'test' script\n\nRunning\n\n{}".toList = some "{}".toList := by decide +kernel
example : jsonExtractor "\n\n\n\n{}".toList = none := by decide +kernel

end Necessist.Anchor.Demo
