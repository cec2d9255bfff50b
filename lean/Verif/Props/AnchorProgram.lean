import Verif.Props.AnchorRun
import Verif.Lemmas.MainOwn
/-!
# C62 for the program
-/
namespace Necessist.Anchor
open Run Main

variable {V σ : Type} {word : Char → Bool} {h : Host V (St σ)} {o : Opts} {m : Machine (St σ)}

/-- The project is tested as an Anchor project. Choosing the framework and looking for candidates leave Anchor.toml alone. -/
structure Anchored (word : Char → Bool) (h : Host V (St σ)) (o : Opts) (m : Machine (St σ)) (shown : SourceFile → Text) (render : Doc → Text)
    (a : Anchor) : Prop where
  created : ∃ doc, create word doc = .ok a
  chosen : ∀ s, (h.chosen s).toml = s.toml ∧ (h.chosen s).held = s.held ∧ (h.chosen s).seen = s.seen
  parsed : ∀ i fw, Walk.Chosen h o i → h.impl m.ext i = .ok (some fw) →
    ∀ s, (fw.parsed s).toml = s.toml ∧ (fw.parsed s).held = s.held ∧ (fw.parsed s).seen = s.seen
  env : ∀ i fw, Walk.Chosen h o i → h.impl m.ext i = .ok (some fw) → ∃ x, x.shown = shown ∧ x.render = render ∧ fw.env = inRun a x

variable {shown : SourceFile → Text} {render : Doc → Text} {a : Anchor}

/-- `LogOk` and `Quiet` do not depend on what else is around. -/
def LogOk' (a : Anchor) (shown : SourceFile → Text) (render : Doc → Text) (orig : Text) (seen0 : List (Call × Text)) (s : St σ) : Prop :=
  ∃ l, s.seen = seen0 ++ l ∧ ∀ e ∈ l, Sees a shown render orig e

structure Quiet' (a : Anchor) (shown : SourceFile → Text) (render : Doc → Text) (orig : Text) (seen0 : List (Call × Text)) (s : St σ) : Prop where
  toml : s.toml = orig
  held : s.held = none
  log : LogOk' a shown render orig seen0 s

theorem quiet_eq (x : Around σ) (orig : Text) (seen0 : List (Call × Text)) :
    Quiet' (σ := σ) a x.shown x.render orig seen0 = Quiet a x orig seen0 :=
  funext fun _ => propext ⟨fun h => ⟨h.1, h.2, h.3⟩, fun h => ⟨h.1, h.2, h.3⟩⟩

theorem logOk_eq (x : Around σ) (orig : Text) (seen0 : List (Call × Text)) :
    LogOk' (σ := σ) a x.shown x.render orig seen0 = LogOk a x orig seen0 := rfl

theorem Quiet'.same {orig : Text} {seen0 : List (Call × Text)} {s s' : St σ} (q : Quiet' a shown render orig seen0 s)
    (e : s'.toml = s.toml ∧ s'.held = s.held ∧ s'.seen = s.seen) : Quiet' a shown render orig seen0 s' := by
  obtain ⟨h1, h2, l, h3, h4⟩ := q
  exact ⟨e.1.trans h1, e.2.1.trans h2, l, e.2.2.trans h3, h4⟩

instance {orig : Text} {seen0 : List (Call × Text)} : Weaker (Quiet' (σ := σ) a shown render orig seen0) (LogOk' a shown render orig seen0) :=
  ⟨fun _ h => h.log⟩

theorem program_ends (k : Anchored word h o m shown render a) (hw : m.ext.held = none) :
    Ends (Quiet' a shown render m.ext.toml m.ext.seen) (Quiet' a shown render m.ext.toml m.ext.seen)
      (LogOk' a shown render m.ext.toml m.ext.seen) (necessist h o m) := by
  refine necessist_ends ⟨fun s q => q.same (k.chosen s), fun i fw hc hi s q => q.same (k.parsed i fw hc hi s), fun i fw hc hi => ?_⟩
    ⟨rfl, hw, [], by simp, (fun _ h => nomatch h)⟩
  obtain ⟨doc, hd⟩ := k.created
  obtain ⟨x, rfl, rfl, hx⟩ := k.env i fw hc hi
  rw [hx, quiet_eq, logOk_eq]
  exact settled hd _

/-- Whatever the options: whenever the program ends, Anchor.toml contains what it contained before. -/
theorem C62_program_restored (k : Anchored word h o m shown render a) (hw : m.ext.held = none) (hend : (main h o m).1 ≠ none) :
    (main h o m).2.ext.toml = m.ext.toml := by
  have := program_ends k hw
  have e : (main h o m).2 = (necessist h o m).2 := rfl
  have e' : (main h o m).1 = exitCode (necessist h o m).1 := rfl
  rw [e'] at hend
  rw [e]
  unfold Ends at this
  cases hr : (necessist h o m).1 with
  | hang => rw [hr] at hend; exact absurd rfl hend
  | _ => rw [hr] at this; exact this.toml

/-- Whether or not the program ends: `anchor test` is executed with Anchor.toml patched for the file in question, with the script changed
and nothing else. Whenever anything else is done, Anchor.toml contains what it contained at the start. -/
theorem C62_program_only_while_testing (k : Anchored word h o m shown render a) (hw : m.ext.held = none) :
    ∃ calls, (main h o m).2.ext.seen = m.ext.seen ++ calls ∧ ∀ e ∈ calls, Sees a shown render m.ext.toml e := by
  have := program_ends k hw
  have e : (main h o m).2 = (necessist h o m).2 := rfl
  rw [e]
  unfold Ends at this
  split at this
  · exact this.log
  · exact this
  · exact this.log

end Necessist.Anchor
