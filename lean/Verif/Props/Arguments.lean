import Verif.Spec.Arguments
import Verif.Props.Meaning
import Verif.Props.Commands
import Verif.Props.Cli
/-!
# C75 for the program, and what becomes of the arguments after `--` (C88)
-/
namespace Necessist.Results
open Framework (Identifier)
open Run Main Cmd Sources Parse
open Walk (Chosen)

variable {V σ : Type} {h : Host V (St σ)} {o : Opts} {m : Machine (St σ)}
  {P : Parsers} {disk : Walk.Entry} {v : Bool} {rule : Cache.Path → Bool → Walk.Verdict} {alnum : Char → Bool}
  {x : Around σ} {caches : Rust.Caches} {parse : Text → Option Json}

/-- **C75.** All that the program executes when it runs tests is explained by the plan of the framework in use; and if it exits with 0, no
step was broken off. -/
theorem C75_program (hl : Locates h) (hi : Sources.Implements P h o m disk v rule alnum) (hx : Executes P h o m disk v rule alnum x caches parse)
    (hrun : RunsTests o) (hopt : processOptions o.set = .ok) {root fw nTests map ws st}
    (hc : FindsCandidates h o m root fw nTests map ws st) {i plan} (hch : Chosen h o i)
    (hp : planOf (projectOf x) (flagsOf P) parse i = plan) :
    ∃ events result, (main h o m).2.trace = m.trace ++ events ∧
      Planned (runCfg h o m) plan result (events.map (·.event)) (main h o m).2.ext.ran ∧ ((main h o m).1 = some 0 → result = .ok ()) := by
  obtain ⟨events, result, h1, h2, h3, _⟩ := program_planned hl hi hx hrun hopt hc hch hp
  exact ⟨events, result, h1, h3, h2⟩

section plans
variable (p : Project) (flags : SourceFile → List Text)

theorem has_run {cmd : Command} {cs} (hh : Todo.Has cmd (.run cs)) : cmd ∈ cs := by cases hh; assumption

theorem has_if {cmd : Command} {n a b} (hh : Todo.Has cmd (.ifExists n a b)) : Todo.Has cmd a ∨ Todo.Has cmd b := by
  cases hh with
  | yes _ _ _ h => exact .inl h
  | no _ _ _ h => exact .inr h

theorem has_node {cmd : Command} {cs} (hh : Todo.Has cmd (nodeThen p cs)) : cmd ∈ cs ∨ Installs p.root cmd := by
  rcases has_if hh with hh | hh
  · exact .inl (has_run hh)
  · rcases has_if hh with hh | hh
    · rcases List.mem_cons.1 (has_run hh) with rfl | hh
      · exact .inr ⟨rfl, .inr (.inl ⟨rfl, rfl⟩)⟩
      · exact .inl hh
    · rcases has_if hh with hh | hh
      · rcases List.mem_cons.1 (has_run hh) with rfl | hh
        · exact .inr ⟨rfl, .inr (.inr (.inl ⟨rfl, rfl⟩))⟩
        · exact .inl hh
      · rcases List.mem_cons.1 (has_run hh) with rfl | hh
        · exact .inr ⟨rfl, .inr (.inr (.inr ⟨rfl, rfl⟩))⟩
        · exact .inl hh

/-- The arguments at the end. -/
abbrev Ends (cmd : Command) : Prop := ∃ a, cmd.args = a ++ p.args

theorem plan_dry (i : Identifier) (f : SourceFile) (cmd : Command) (hh : Todo.Has cmd ((planOf p flags parse i).dry f)) :
    Installs p.root cmd ∨ Ends p cmd := by
  have hn : ∀ cs, (∀ c ∈ cs, Ends p c) → Todo.Has cmd (nodeThen p cs) → Installs p.root cmd ∨ Ends p cmd := fun cs hcs hh => by
    rcases has_node p hh with hh | hh
    · exact .inr (hcs _ hh)
    · exact .inl hh
  cases i with
  | go =>
    obtain rfl := List.mem_singleton.1 (has_run hh)
    exact .inr ⟨_, rfl⟩
  | rust =>
    obtain rfl := List.mem_singleton.1 (has_run hh)
    exact .inr ⟨_, rfl⟩
  | php =>
    rcases has_if hh with hh | hh
    · obtain rfl := List.mem_singleton.1 (has_run hh)
      exact .inr ⟨_, rfl⟩
    · rcases List.mem_cons.1 (has_run hh) with rfl | hh
      · exact .inl ⟨rfl, .inl ⟨rfl, rfl⟩⟩
      · obtain rfl := List.mem_singleton.1 hh
        exact .inr ⟨_, rfl⟩
  | foundry =>
    rcases has_if hh with hh | hh
    · refine hn _ (fun c hc => ?_) hh
      obtain rfl := List.mem_singleton.1 hc
      exact ⟨_, rfl⟩
    · obtain rfl := List.mem_singleton.1 (has_run hh)
      exact .inr ⟨_, rfl⟩
  | hardhat =>
    refine hn _ (fun c hc => ?_) hh
    rcases List.mem_cons.1 hc with rfl | hc
    · exact ⟨_, rfl⟩
    · obtain rfl := List.mem_singleton.1 hc
      exact ⟨_, rfl⟩
  | vitest =>
    refine hn _ (fun c hc => ?_) hh
    obtain rfl := List.mem_singleton.1 hc
    exact ⟨_, rfl⟩
  | anchor =>
    refine hn _ (fun c hc => ?_) hh
    rcases List.mem_cons.1 hc with rfl | hc
    · exact ⟨_, rfl⟩
    · obtain rfl := List.mem_singleton.1 hc
      exact ⟨_, rfl⟩

theorem plan_build (i : Identifier) (f : SourceFile) (cmd : Command) (hh : cmd ∈ (planOf p flags parse i).build f) : Ends p cmd := by
  cases i <;> obtain rfl := List.mem_singleton.1 hh <;> exact ⟨_, rfl⟩

theorem plan_prepare (i : Identifier) (f : SourceFile) (cmd : Command) (hh : cmd ∈ (planOf p flags parse i).prepare f) : Ends p cmd := by
  cases i
  case vitest => cases hh
  all_goals obtain rfl := List.mem_singleton.1 hh; exact ⟨_, rfl⟩

theorem plan_test (i : Identifier) (f : SourceFile) (t : Text) :
    (i = .rust ∧ ∃ a, ((planOf p flags parse i).test f t).args = a ++ p.args ++ ["--".toList, "--exact".toList, t]) ∨
      i ≠ .rust ∧ Ends p ((planOf p flags parse i).test f t) := by
  cases i
  case rust => exact .inl ⟨rfl, _, rfl⟩
  all_goals exact .inr ⟨nofun, _, rfl⟩

end plans

/-- **C88.** Whatever the arguments after `--` are, they are passed on, in this order and unchanged, to each command that is executed, except
those that install dependencies. They come last, except that `cargo test` is told after them which test to run. -/
theorem C88_program {paths : Cli.Paths} {host : List Text → Host V (St σ)} {argv args : List Text} (ha : Cli.CommandLine paths argv o args)
    (hl : Locates (host args)) (hi : Sources.Implements P (host args) o m disk v rule alnum)
    (hx : Executes P (host args) o m disk v rule alnum x caches parse) (hargs : x.args = args)
    (hrun : RunsTests o) (hopt : processOptions o.set = .ok) {root fw nTests map ws st}
    (hc : FindsCandidates (host args) o m root fw nTests map ws st) {i} (hch : Chosen (host args) o i) (cmd : Command)
    (he : WasExecuted (Cli.main paths host argv m).2.ext.ran cmd) :
    Installs P.root cmd ∨ (∃ a, cmd.args = a ++ args) ∨
      i = .rust ∧ ∃ a t, cmd.args = a ++ args ++ ["--".toList, "--exact".toList, t] := by
  rw [(Cli.C87_program paths host argv m).1 o args ha] at he
  obtain ⟨events, result, _, hplan, _⟩ := C75_program hl hi hx hrun hopt hc hch rfl
  subst hargs
  rw [← hx.root]
  rcases he with ⟨out, he⟩ | ⟨p, he⟩
  · rcases C75_ran hplan cmd out he with ⟨f, _, hh⟩ | ⟨f, _, hh⟩ | ⟨c, t, _, hh⟩
    · rcases plan_dry (projectOf x) _ i f cmd hh with hh | hh
      · exact .inl hh
      · exact .inr (.inl hh)
    · exact .inr (.inl (plan_build (projectOf x) _ i f cmd hh))
    · exact .inr (.inl (plan_prepare (projectOf x) _ i _ cmd hh))
  · obtain ⟨c, t, _, _, rfl⟩ := C75_started hplan cmd p he
    rcases plan_test (projectOf x) (flagsOf P) (parse := parse) i c.span.file t with ⟨hr, a, hh⟩ | ⟨_, a, hh⟩
    · exact .inr (.inr ⟨hr, a, t, hh⟩)
    · exact .inr (.inl ⟨a, hh⟩)

end Necessist.Results
