import Verif.Lemmas.Blind
import Verif.Props.Verbose
import Verif.Props.MeaningDemo
/-!
# C90 for the frameworks
-/
namespace Necessist
open Run Cmd
namespace Main
variable {V σ : Type} {h : Host V (St σ)} {o : Opts} {m : Machine (St σ)}

/-- The frameworks are those of Necessist, and the commands they execute do not depend on what Necessist has printed. -/
def DeafCommands (h : Host V (St σ)) : Prop := ∀ ext i fw, h.impl ext i = .ok (some fw) →
  ∃ (x : Around σ) (caches : Rust.Caches) (parse : Text → Option Json), x.Deaf ∧ fw.env = inRun x (highOf x caches parse i)

/-- **C90**, for the frameworks: of what they do, it has to be assumed only that the commands they execute (and the file system, the database, and Ctrl-C) do not
depend on what Necessist has printed. Also the same commands are executed, with the same results. -/
theorem C90_frameworks (hd : DeafCommands h) (hq : o.quiet = false) (hv : o.verbose = false) :
    VerboseOnly h o m.console (main h o m) (main h { o with verbose := true } m) ∧
      (main h { o with verbose := true } m).2.ext.ran = (main h o m).2.ext.ran := by
  have key := C90_program (h := h) (o := o) (m := m) (fun ext i fw hi => by
    obtain ⟨x, caches, parse, hx, he⟩ := hd ext i fw hi
    rw [he]
    exact deaf_inRun hx (highOf_blind hx caches parse i)) hq hv
  exact ⟨key, by rw [key.2.1]⟩

end Main

namespace Results.Demo
open Main

theorem deaf_around : around.Deaf := by
  refine ⟨?_, ?_, ?_, ?_, ?_, ?_, ?_⟩
  · constructor <;> intros <;> rfl
  all_goals intros; rfl

/-- The hypotheses are met by a run in which commands are executed, and `--verbose` prints one more removal. -/
example : DeafCommands host ∧ (main host {} machine).1 = some 0 ∧ (main host {} machine).2.ext.ran.length = 8 ∧
    (main host {} machine).2.console.length = 5 ∧ (main host { verbose := true } machine).2.console.length = 6 :=
  ⟨fun _ i _ hi => ⟨around, {}, noJson, deaf_around, by rw [impl_eq hi]; rfl⟩, by decide +kernel, by decide +kernel, by decide +kernel, by decide +kernel⟩

end Results.Demo
end Necessist
