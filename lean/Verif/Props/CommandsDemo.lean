import Verif.Props.Commands
import Verif.Props.RunDemo
import Verif.Props.AnchorDemo
/-! Concrete cases for C75. -/
namespace Necessist.Cmd.Demo
open Run

/-- A project in `/p` with arguments `-x`; nothing exists in it, except what is given. Every command succeeds and prints the given bytes, except
those about `u.rs`. Tests take 10 ms, but `q` never ends. -/
def around (existing : List Text) (out : List UInt8) : Around (Nat × Nat) where
  base := Run.Demo.env 99 99
  root := ["p".toList]
  args := ["-x".toList]
  exists_ w n := ⟨.ok (existing.contains n), w.warns, w.ext, []⟩
  output w c := ⟨.ok ⟨!(c.args.any fun a => Exec.contains "u.rs".toList a), out⟩, w.warns, w.ext, []⟩
  spawn w c := ⟨.ok ⟨false, if c.args.any (fun a => Exec.contains "q".toList a) then none else some 10, true⟩, w.warns, w.ext, []⟩
  temp w := ⟨.ok (), w.warns, w.ext, []⟩
  captured w := ⟨.ok (out, some 0), w.warns, w.ext, []⟩
  warn := ⟨[], [], false⟩
  decode bs := some (bs.map fun b => Char.ofNat b.toNat)
  invalidMsg _ := []
  outputText _ := []
  debug t := t
  anchor := Anchor.Demo.anchor
  edit w _ := ⟨.ok (), w.warns, w.ext, []⟩

def bytes (s : String) : List UInt8 := s.toList.map fun c => UInt8.ofNat c.toNat
def start : World (St (Nat × Nat)) := ⟨Run.Demo.src, some [], .init, [], 0, [], none, [], ⟨[], none, ItMessage.Table.init, none, (0, 0)⟩⟩

theorem fresh : Fresh start := ⟨rfl, rfl, rfl⟩
theorem paths : ∀ p ∈ Run.Demo.files, p.1.path ≠ [] ∧ ∀ c ∈ p.2, c.span.file.path ≠ [] := by decide +kernel

/-- What was executed, without directories and results. -/
def shown (l : List Ran) : List (String × List String) := l.map fun r => match r with
  | .asked n _ => ("?", [String.ofList n])
  | .ran c _ => (String.ofList c.program, c.args.map String.ofList)
  | .started c _ => ("$", c.args.map String.ofList)
  | .looked _ => ("<", [])

/-- Go: `t.rs` and `u.rs` are in the root, so both are in the same package. Test `q` does not end and is killed. -/
example : shown (runFiles Run.Demo.cfg (inRun (around [] (bytes "=== RUN   p\n")) (adapter (around [] (bytes "=== RUN   p\n")) (go (around [] (bytes "=== RUN   p\n")))))
      [(Run.Demo.t, [Run.Demo.c1, Run.Demo.c3])] start).2.ext.ran =
    [("go", ["test", "./", "-x"]), ("go", ["test", "./", "-run=^$", "-x"]),
     ("go", ["test", "./", "-run=^$", "-x"]), ("$", ["test", "./", "-run=^p$", "-v", "-x"]), ("<", []),
     ("go", ["test", "./", "-run=^$", "-x"]), ("$", ["test", "./", "-run=^q$", "-v", "-x"]),
     ("go", ["test", "./", "-run=^$", "-x"]), ("$", ["test", "./", "-run=^q$", "-v", "-x"])] := by decide +kernel

/-- PHP, with `composer install` first; the dry run of `u.rs` fails. -/
example : shown (runFiles Run.Demo.cfg (inRun (around [] []) (adapter (around [] []) (php (around [] [])))) [(Run.Demo.t, [Run.Demo.c2]), (Run.Demo.u, [Run.Demo.d1])]
      start).2.ext.ran =
    [("?", ["vendor"]), ("composer", ["install"]), ("vendor/bin/phpunit", ["t.rs", "-x"]),
     ("php", ["-l", "/p/t.rs", "-x"]), ("php", ["-l", "/p/t.rs", "-x"]), ("$", ["--filter", "^.*::p$", "t.rs", "-x"]),
     ("?", ["vendor"]), ("composer", ["install"]), ("vendor/bin/phpunit", ["u.rs", "-x"])] := by decide +kernel

/-- Foundry, in a project with a `package.json`, dependencies to be installed with `yarn`. The output does not show that the test ran. -/
example : shown (runFiles Run.Demo.cfg (inRun (around ["package.json".toList, "yarn.lock".toList] (bytes "[PASS] pp()\n"))
        (adapter (around ["package.json".toList, "yarn.lock".toList] (bytes "[PASS] pp()\n")) (foundry (around ["package.json".toList, "yarn.lock".toList] (bytes "[PASS] pp()\n")))))
      [(Run.Demo.t, [Run.Demo.c2])] start).2.ext.ran =
    [("?", ["package.json"]), ("?", ["node_modules"]), ("?", ["pnpm-lock.yaml"]), ("?", ["yarn.lock"]), ("yarn", []),
     ("forge", ["test", "--match-path", "t.rs", "-x"]), ("forge", ["build", "-x"]), ("forge", ["build", "-x"]),
     ("$", ["test", "--match-path", "t.rs", "--match-test", "p", "-x"]), ("<", [])] := by decide +kernel

/-- … and then the removal has no result. -/
example : ((runFiles Run.Demo.cfg (inRun (around [] (bytes "[PASS] pp()\n")) (adapter (around [] (bytes "[PASS] pp()\n")) (foundry (around [] (bytes "[PASS] pp()\n")))))
      [(Run.Demo.t, [Run.Demo.c2])] start).2.trace.map (·.event)).filter (fun e => match e with | .tested .. => true | _ => false) =
    [.tested Run.Demo.c2 "p".toList none] := by decide +kernel

/-- Rust. -/
example : shown (runFiles Run.Demo.cfg (inRun (around [] (bytes "running 1 test\n")) (adapter (around [] (bytes "running 1 test\n"))
        (rust { flags := [(["p".toList, "t.rs".toList], ["--lib".toList])] }))) [(Run.Demo.t, [Run.Demo.c2])] start).2.ext.ran =
    [("cargo", ["test", "--lib", "-x"]), ("cargo", ["test", "--lib", "--no-run", "-x"]), ("cargo", ["test", "--lib", "--no-run", "-x"]),
     ("$", ["test", "--lib", "-x", "--", "--exact", "p"]), ("<", [])] := by decide +kernel

/-- Hardhat: only `p` is reported by the dry run. -/
example : shown (runFiles Run.Demo.cfg (inRun (around ["node_modules".toList] (bytes "  * p (5ms)\n")) (hardhat (around ["node_modules".toList] (bytes "  * p (5ms)\n"))))
      [(Run.Demo.t, [Run.Demo.c2, Run.Demo.c3])] start).2.ext.ran =
    [("?", ["node_modules"]), ("npx", ["hardhat", "compile", "-x"]), ("npx", ["hardhat", "test", "/p/t.rs", "-x"]),
     ("npx", ["hardhat", "compile", "-x"]), ("npx", ["hardhat", "compile", "-x"]), ("$", ["hardhat", "test", "/p/t.rs", "-x"]),
     ("npx", ["hardhat", "compile", "-x"])] := by decide +kernel

/-- Vitest. -/
def report (_ : Text) : Option Json := some (.obj [("testResults".toList, .arr [.obj [("assertionResults".toList, .arr [.obj [("title".toList, .str "p".toList)]])]])])
example : shown (runFiles Run.Demo.cfg (inRun (around ["node_modules".toList] []) (vitest (around ["node_modules".toList] []) report))
      [(Run.Demo.t, [Run.Demo.c2, Run.Demo.c3])] start).2.ext.ran =
    [("?", ["node_modules"]), ("npx", ["vitest", "run", "/p/t.rs", "--bail=1", "--reporter=json", "-x"]),
     ("npx", ["vitest", "run", "/p/t.rs", "--bail=1", "--reporter=json", "-x"]),
     ("$", ["vitest", "run", "/p/t.rs", "--bail=1", "--reporter=json", "-x"])] := by decide +kernel

/-- The test scripts in Anchor.toml while the commands are executed. -/
def scripts (l : List Ran) : List (Option String) := l.filterMap fun r => match r with
  | .ran c _ => some (c.script.map String.ofList)
  | .started c _ => some (c.script.map String.ofList)
  | _ => none

/-- Anchor, with Mocha: `anchor test` each time, with the file and, but for the dry run and the tests, `--dry-run` in the test script. -/
example : shown (runFiles Run.Demo.cfg (inRun (around ["node_modules".toList] (bytes "  * p (5ms)\n")) (anchor (around ["node_modules".toList] (bytes "  * p (5ms)\n")) report))
      [(Run.Demo.t, [Run.Demo.c2, Run.Demo.c3])] start).2.ext.ran =
    [("?", ["node_modules"]), ("anchor", ["test", "-x"]), ("anchor", ["test", "-x"]), ("anchor", ["test", "-x"]),
     ("anchor", ["test", "-x"]), ("$", ["test", "-x"]), ("anchor", ["test", "-x"])] := by decide +kernel
example : scripts (runFiles Run.Demo.cfg (inRun (around ["node_modules".toList] (bytes "  * p (5ms)\n")) (anchor (around ["node_modules".toList] (bytes "  * p (5ms)\n")) report))
      [(Run.Demo.t, [Run.Demo.c2, Run.Demo.c3])] start).2.ext.ran =
    [some "yarn run ts-mocha -p ./tsconfig.json -t 1000000 /p/t.rs --exit --dry-run", some "yarn run ts-mocha -p ./tsconfig.json -t 1000000 /p/t.rs --exit",
     some "yarn run ts-mocha -p ./tsconfig.json -t 1000000 /p/t.rs --exit --dry-run", some "yarn run ts-mocha -p ./tsconfig.json -t 1000000 /p/t.rs --exit --dry-run",
     some "yarn run ts-mocha -p ./tsconfig.json -t 1000000 /p/t.rs --exit", some "yarn run ts-mocha -p ./tsconfig.json -t 1000000 /p/t.rs --exit --dry-run"] := by decide +kernel
/-- In the end no script is left there. -/
example : (runFiles Run.Demo.cfg (inRun (around ["node_modules".toList] (bytes "  * p (5ms)\n")) (anchor (around ["node_modules".toList] (bytes "  * p (5ms)\n")) report))
      [(Run.Demo.t, [Run.Demo.c2, Run.Demo.c3])] start).2.ext.script = none := by decide +kernel

/-- Foundry selects other tests too, and PHPUnit's filter none of a test with data sets. -/
example : Pattern.Selects ⟨false, "testA".toList.map .char, false⟩ "testAll".toList := ⟨[], "testA".toList, "ll".toList, rfl, (fits_chars _ _).2 rfl, nofun, nofun⟩
example : ¬ ∃ cls, '\n' ∉ cls ∧ "T::testA with data set #0".toList = cls ++ "::".toList ++ "testA".toList := by
  rintro ⟨cls, -, h⟩
  have := congrArg (fun l => l.reverse.head?) h
  simp at this

end Necessist.Cmd.Demo
