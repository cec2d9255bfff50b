import Verif.Props.MainWarningsDemo
/-!
# C29 and C30 for the program
-/
namespace Necessist
open Main

theorem mem_messages {rs : List (Option WarnMsg)} {x : WarnMsg} : x ∈ messages rs ↔ some x ∈ rs := by
  simp [messages, List.mem_flatMap]

/-- If warnings of a kind are to be printed and none has been, there has been no call about it. -/
theorem Results.none_called {o : WarnOpts} {is : List Issue} {rs : List (Option WarnMsg)} (hr : Results o is rs) {w : Warning} (h0 : w ≠ .all)
    (hd : ¬ Denied o w) (ha : ¬ Allowed o w) (hq : o.quiet = false) (hn : ∀ m, some m ∈ rs → m.warning ≠ w) : ∀ i ∈ is, i.call.warning ≠ w := by
  induction hr with
  | nil => nofun
  | @silent is rs i hr hs ih =>
    have ih := ih fun m hm => hn m (List.mem_append_left _ hm)
    intro j hj
    rcases List.mem_append.1 hj with hj | hj
    · exact ih j hj
    · rw [List.mem_singleton.1 hj]
      intro e
      rcases hs with h | h | h | h | ⟨_, m, hm, h⟩
      · exact h0 (e ▸ h)
      · exact hd (e ▸ h)
      · exact ha (e ▸ h)
      · rw [hq] at h; cases h
      · exact hn m (List.mem_append_left _ hm) (h.trans e)
  | @printed is rs i bug hint hr hl _ _ ih =>
    have ih := ih fun m hm => hn m (List.mem_append_left _ hm)
    intro j hj
    rcases List.mem_append.1 hj with hj | hj
    · exact ih j hj
    · rw [List.mem_singleton.1 hj]
      exact hn _ (List.mem_append_right _ List.mem_cons_self)

theorem Results.hints {o : WarnOpts} {is : List Issue} {rs : List (Option WarnMsg)} (hr : Results o is rs) :
    ∀ before x after, messages rs = before ++ x :: after →
      (x.allowHint = true ↔ ∀ y ∈ before, y.warning ≠ x.warning) ∧
      (x.bug = true ↔ PotentialBug x.warning ∧ ∀ y ∈ before, y.warning ≠ x.warning) := by
  induction hr with
  | nil => intro before x after h; cases before <;> cases h
  | silent _ _ ih =>
    intro before x after h
    rw [messages_snoc] at h
    simp only [Option.toList, List.append_nil] at h
    exact ih before x after h
  | @printed is rs i bug hint hr hl hb hh ih =>
    intro before x after h
    rw [messages_snoc] at h
    simp only [Option.toList] at h
    rcases List.eq_nil_or_concat after with rfl | ⟨after', z, rfl⟩
    · obtain ⟨h1, h2⟩ := List.append_inj' h rfl
      cases h2
      subst h1
      have e1 : (∀ y ∈ messages rs, y.warning ≠ i.call.warning) ↔ ∀ m, some m ∈ rs → m.warning ≠ i.call.warning :=
        ⟨fun k m hm => k m (mem_messages.2 hm), fun k m hm => k m (mem_messages.1 hm)⟩
      refine ⟨hh.trans e1.symm, hb.trans ?_⟩
      show _ ↔ PotentialBug i.call.warning ∧ ∀ y ∈ messages rs, y.warning ≠ i.call.warning
      rw [e1]
      refine and_congr_right fun _ => ⟨fun k m hm e => ?_, fun k => ?_⟩
      · obtain ⟨_, j, hj, hjw, _⟩ := messages_mem hr (mem_messages.2 hm)
        exact k j hj (hjw.symm.trans e)
      · exact hr.none_called (fun e => hl (.inl e)) (fun e => hl (.inr (.inl e))) (fun e => hl (.inr (.inr (.inl e))))
          (Bool.eq_false_iff.2 fun e => hl (.inr (.inr (.inr (.inl e))))) k
    · rw [List.concat_eq_append, ← List.cons_append, ← List.append_assoc] at h
      obtain ⟨h1, _⟩ := List.append_inj' h rfl
      exact ih before x after' h1

namespace Main
open Run
variable {V σ : Type} {h : Host V σ} {o : Opts} {m : Machine σ}

/-- **C30.** Of all the warnings that the program prints, exactly the first of each kind says how to allow it; and exactly the first of each kind that may be
due to a bug in Necessist asks for a report. -/
theorem C30_program (hs : Sound h o) (hw : m.warns = .init) {before x after} (he : newWarnings m (main h o m).2 = before ++ x :: after) :
    (x.allowHint = true ↔ ∀ y ∈ before, y.warning ≠ x.warning) ∧
    (x.bug = true ↔ PotentialBug x.warning ∧ ∀ y ∈ before, y.warning ≠ x.warning) := by
  obtain ⟨events, is, rs, h1, h2, h3, h4, h5⟩ := C81_warnings (m := m) hs hw
  unfold newWarnings at he
  rw [h5, List.drop_left] at he
  exact h4.hints before x after he

/-- The hypotheses are met, with several warnings, some of which ask for a report. -/
example : Sound (Demo.hostBad {}) {} ∧ Demo.machine.warns = .init ∧
    (newWarnings Demo.machine (main (Demo.hostBad {}) {} Demo.machine).2).length = 4 := ⟨Demo.sound _ rfl, rfl, by decide +kernel⟩

end Main
end Necessist
