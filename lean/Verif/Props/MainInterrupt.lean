import Verif.Props.MainMore
import Verif.Props.Interrupt
import Verif.Props.MainDemo
/-!
# C15 and C16 for the program
-/
namespace Necessist.Main
open Run
variable {V σ : Type} {h : Host V σ} {o : Opts} {m : Machine σ}

/-- **C15.** If the dry run of a file fails, then the file is as it was at the start at every moment, it is never built with
instrumentation, and no test is built or executed for a candidate in it. -/
theorem C15_program (hs : SpansInFile h) : ∃ events, (main h o m).2.trace = m.trace ++ events ∧
    ∀ f, (∃ s ∈ events, s.event = .dryRunFailed f) → (main h o m).2.fs f = m.fs f ∧
      ∀ s ∈ events, s.fs f = m.fs f ∧ s.event ≠ .buildFile f ∧
        (∀ c t, s.event = .buildTest c t → c.span.file ≠ f) ∧
        (∀ c t v, s.event = .startTest c t v → c.span.file ≠ f) ∧
        (∀ c t r, s.event = .tested c t r → c.span.file ≠ f) := by
  rw [main_snd]
  rcases necessist_runs (o := o) (m := m) hs with ⟨_, h1, _⟩ | ⟨root, fw, nT, map, ws, st, hf, hok, w0, hfr, hfs, h1, h2, h3⟩
  · exact ⟨[], by rw [h1, List.append_nil], fun f hf => by obtain ⟨s, hs, _⟩ := hf; cases hs⟩
  · refine ⟨_, h2, fun f hfail => ?_⟩
    have := C15_untouched fw.env (runCfg h o m) map.toRun hok w0 hfr f hfail
    rw [hfs] at this
    rw [h1]
    exact this

/-- **C16.** If the program sees that Ctrl-C has been pressed, then nothing happens afterwards, and it fails. After each dry run, and after
the tests of each candidate, it looks, before anything is recorded and before any other file or candidate is turned to; when it succeeds, it
has looked after the last of them too, and has never seen that Ctrl-C had been pressed. -/
theorem C16_program (hs : SpansInFile h) : ∃ events, (main h o m).2.trace = m.trace ++ events ∧
    (∀ before s after, events = before ++ s :: after → s.event = .ctrlc true → after = [] ∧ (main h o m).1 = some 2) ∧
    (∀ before x between y after, events = before ++ x :: (between ++ y :: after) → IsWork x.event → MustWait x.event y.event →
      ∃ s ∈ between, s.event = .ctrlc false) ∧
    ((main h o m).1 = some 0 → (∀ s ∈ events, s.event ≠ .ctrlc true) ∧
      ∀ before x after, events = before ++ x :: after → IsWork x.event → ∃ s ∈ after, s.event = .ctrlc false) := by
  rw [main_snd, main_fst]
  rcases necessist_runs (o := o) (m := m) hs with ⟨_, h1, _⟩ | ⟨root, fw, nT, map, ws, st, hf, hok, w0, hfr, hfs, h1, h2, h3⟩
  · refine ⟨[], by rw [h1, List.append_nil], ?_, ?_, fun _ => ⟨nofun, ?_⟩⟩
    · intro before s after he
      cases before <;> cases he
    · intro before x between y after he
      cases before <;> cases he
    · intro before x after he
      cases before <;> cases he
  · generalize hy : runFiles (runCfg h o m) fw.env map.toRun w0 = y at h1 h2 h3
    obtain ⟨r, w'⟩ := y
    refine ⟨_, h2, fun before s after ht he => ?_, fun before x between y after ht hx hy' => ?_, fun h0 => ?_⟩
    · obtain ⟨h4, h5⟩ := C16_stops fw.env (runCfg h o m) map.toRun w0 w' r hfr hy before after s ht he
      refine ⟨h4, ?_⟩
      rw [h3, h5]
      rfl
    · exact C16_checked_first fw.env (runCfg h o m) map.toRun w0 w' r hfr hy before between after x y ht hx hy'
    · rw [h3] at h0
      cases r with
      | ok u => exact C16_success fw.env (runCfg h o m) map.toRun w0 w' hfr hy
      | err e => cases h0
      | panic => cases h0
      | hang => cases h0

namespace Demo

def what (s : Snap) : Option String :=
  match s.event with
  | .ctrlc true => some "pressed"
  | .ctrlc false => some "not pressed"
  | .dryRun _ => some "dry run"
  | .tested c _ _ => some (String.ofList (showNat c.span.start.line))
  | .insert _ => some "recorded"
  | .buildFile _ => some "instrumented"
  | _ => none

/-- Ctrl-C is pressed before it is looked at for the third time: after the tests of the candidate in line 2. -/
example : (main (hostAt 2) {} machine).1 = some 2 ∧ (main (hostAt 2) {} machine).2.trace.filterMap what =
    ["dry run", "not pressed", "instrumented", "1", "not pressed", "recorded", "2", "2", "pressed"] := by decide +kernel

end Demo
end Necessist.Main
