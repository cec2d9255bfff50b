import Verif.Props.Limit
import Verif.Lemmas.MainOwn
/-!
# C89 for the program
-/
namespace Necessist.Limit
open Run Main

variable {V σ : Type} {h : Host V (St σ)} {o : Opts} {m : Machine (St σ)}

/-- Apart from running tests, the frameworks leave the limits of the process alone; they run tests with the limit. -/
structure Limits (h : Host V (St σ)) (o : Opts) (m : Machine (St σ)) : Prop where
  chosen : ∀ s, (h.chosen s).soft = s.soft ∧ (h.chosen s).hard = s.hard ∧ (h.chosen s).init = s.init ∧ (h.chosen s).seen = s.seen
  parsed : ∀ i fw, Walk.Chosen h o i → h.impl m.ext i = .ok (some fw) →
    ∀ s, (fw.parsed s).soft = s.soft ∧ (fw.parsed s).hard = s.hard ∧ (fw.parsed s).init = s.init ∧ (fw.parsed s).seen = s.seen
  env : ∀ i fw, Walk.Chosen h o i → h.impl m.ext i = .ok (some fw) → ∃ x, fw.env = limited (runCfg h o m) x

theorem Quiet.same {s0 h0 : Nat} {k0 : Option Nat} {seen0 : List (Call × Nat)} {s s' : St σ} (q : Quiet s0 h0 k0 seen0 s)
    (e : s'.soft = s.soft ∧ s'.hard = s.hard ∧ s'.init = s.init ∧ s'.seen = s.seen) : Quiet s0 h0 k0 seen0 s' := by
  obtain ⟨h1, l, h2⟩ := q
  exact ⟨e.1.trans h1, l, h2.same e.2.2.2 e.2.2.1 e.2.1⟩

instance {s0 h0 : Nat} {k0 : Option Nat} {seen0 : List (Call × Nat)} : Weaker (Over (σ := σ) s0 h0 k0 seen0) (Over s0 h0 k0 seen0) := ⟨fun _ h => h⟩

theorem program_ends (k : Limits h o m) (hs : m.ext.soft ≤ m.ext.hard) :
    Ends (Quiet m.ext.soft m.ext.hard m.ext.init m.ext.seen) (Over m.ext.soft m.ext.hard m.ext.init m.ext.seen)
      (Over m.ext.soft m.ext.hard m.ext.init m.ext.seen) (necessist h o m) := by
  refine necessist_ends ⟨fun s q => q.same (k.chosen s), fun i fw hc hi s q => q.same (k.parsed i fw hc hi s), fun i fw hc hi => ?_⟩
    ⟨rfl, [], by simp, trivial, rfl, (fun _ h => nomatch h), rfl⟩
  obtain ⟨x, hx⟩ := k.env i fw hc hi
  rw [hx]
  exact settled _ x hs

/-- The program, whatever its options and however it ends, also if it does not end: tests are executed with the limit that they should be
executed with, and everything else with the limit that the program was started with. -/
theorem C89_program (k : Limits h o m) (hs : m.ext.soft ≤ m.ext.hard) :
    ∃ calls, (main h o m).2.ext.seen = m.ext.seen ++ calls ∧ Right m.ext.soft m.ext.hard m.ext.init calls ∧
      (main h o m).2.ext.hard = m.ext.hard ∧ ((main h o m).2.ext.soft = m.ext.soft ∨ EndsInTest calls) := by
  have := program_ends k hs
  have e : (main h o m).2 = (necessist h o m).2 := rfl
  rw [e]
  unfold Ends at this
  split at this
  · exact this.over
  · exact this
  · exact this

/-- When the program succeeds, the soft limit is what it was. -/
theorem C89_program_restored (k : Limits h o m) (hs : m.ext.soft ≤ m.ext.hard) (hok : (main h o m).1 = some 0) :
    (main h o m).2.ext.soft = m.ext.soft := by
  have := program_ends k hs
  have e : (main h o m).2 = (necessist h o m).2 := rfl
  have e' : (main h o m).1 = exitCode (necessist h o m).1 := rfl
  rw [e'] at hok
  rw [e]
  unfold Ends at this
  cases hr : (necessist h o m).1 with
  | ok n => rw [hr] at this; exact this.1
  | _ => rw [hr] at hok; cases hok

end Necessist.Limit
