import Verif.Props.LimitProgram
import Verif.Props.AnchorProgram
import Verif.Props.LimitDemo
import Verif.Props.AnchorDemo
import Verif.Props.MainDemo
/-! The program of `Main.Demo`, with the limit on the number of threads, and with Anchor. -/
namespace Necessist
open Run Main

namespace Limit.Demo

def cfg : Cfg := runCfg Main.Demo.host {} Main.Demo.machine

def host : Host Nat (St (Nat × Nat)) :=
  { Main.Demo.host with
    impl := fun _ _ => .ok (some { backend := Parse.Demo.proj [] [], env := limited cfg (sys true true true), parsed := id })
    chosen := id }

def machine : Machine (St (Nat × Nat)) := { Main.Demo.machine with ext := ⟨500, 4000, none, [], (0, 0)⟩ }

theorem limits : Limits host {} machine where
  chosen _ := ⟨rfl, rfl, rfl, rfl⟩
  parsed _ _ _ hi _ := by cases hi; exact ⟨rfl, rfl, rfl, rfl⟩
  env _ _ _ hi := by cases hi; exact ⟨_, rfl⟩

example : (main host {} machine).1 = some 0 ∧ ((main host {} machine).2.ext.seen.filterMap fun e => match e with | (.start _ t, n) => some (t, n) | _ => none) =
    [("t".toList, 1324), ("t".toList, 1324), ("u".toList, 1324), ("t".toList, 1324)] := by decide +kernel
example : (main host {} machine).2.ext.soft = 500 := C89_program_restored limits (by decide) (by decide +kernel)

end Limit.Demo

namespace Anchor.Demo

def host (checkOk : Bool) : Host Nat (St (Nat × Nat)) :=
  { Main.Demo.host with
    impl := fun _ _ => .ok (some { backend := Parse.Demo.proj [] [], env := inRun anchor (around checkOk true (some 10) true), parsed := id })
    chosen := id }

def machine : Machine (St (Nat × Nat)) := { Main.Demo.machine with ext := ⟨"original".toList, none, [], (0, 0)⟩ }

theorem anchored (checkOk : Bool) : Anchored word (host checkOk) {} machine SourceFile.display render anchor where
  created := ⟨_, accepted⟩
  chosen _ := ⟨rfl, rfl, rfl⟩
  parsed _ _ _ hi _ := by cases hi; exact ⟨rfl, rfl, rfl⟩
  env _ _ _ hi := by cases hi; exact ⟨_, rfl, rfl, rfl⟩

example : (main (host true) {} machine).1 = some 0 ∧
    ((main (host true) {} machine).2.ext.seen.filterMap fun e => match e with | (.start f, t) => some (f.display, t) | _ => none).take 1 =
      [("src/a.rs".toList, "yarn run ts-mocha -p ./tsconfig.json -t 1000000 src/a.rs --exit".toList)] := by decide +kernel
example : (main (host true) {} machine).2.ext.toml = "original".toList :=
  C62_program_restored (anchored true) rfl (by decide +kernel)

end Anchor.Demo
end Necessist
