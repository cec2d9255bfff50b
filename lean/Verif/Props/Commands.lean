import Verif.Lemmas.CommandsFw
import Verif.Spec.Pattern
/-!
# C75: the commands that are executed
-/
namespace Necessist.Cmd
open Run

variable {σ : Type} (x : Around σ) (cfg : Cfg) (fcs : List (SourceFile × List Candidate)) (w : World (St σ))

/-- **C75.** With Go, all that a run executes is explained by Go's plan. -/
theorem C75_go (hf : ∀ p ∈ fcs, p.1.path ≠ [] ∧ ∀ c ∈ p.2, c.span.file.path ≠ []) (hw : Fresh w) :
    Planned cfg (goPlan (projectOf x)) (runFiles cfg (inRun x (adapter x (go x))) fcs w).1
      ((runFiles cfg (inRun x (adapter x (go x))) fcs w).2.trace.map (·.event)) (runFiles cfg (inRun x (adapter x (go x))) fcs w).2.ext.ran :=
  runs (adapter_implements (go_follows x)) cfg fcs hf w hw

/-- **C75.** With PHP. -/
theorem C75_php (hw : Fresh w) :
    Planned cfg (phpPlan (projectOf x)) (runFiles cfg (inRun x (adapter x (php x))) fcs w).1
      ((runFiles cfg (inRun x (adapter x (php x))) fcs w).2.trace.map (·.event)) (runFiles cfg (inRun x (adapter x (php x))) fcs w).2.ext.ran :=
  runs (adapter_implements (php_follows x)) cfg fcs (fun _ _ => ⟨trivial, fun _ _ => trivial⟩) w hw

/-- **C75.** With Foundry. -/
theorem C75_foundry (hw : Fresh w) :
    Planned cfg (foundryPlan (projectOf x)) (runFiles cfg (inRun x (adapter x (foundry x))) fcs w).1
      ((runFiles cfg (inRun x (adapter x (foundry x))) fcs w).2.trace.map (·.event))
      (runFiles cfg (inRun x (adapter x (foundry x))) fcs w).2.ext.ran :=
  runs (adapter_implements (foundry_follows x)) cfg fcs (fun _ _ => ⟨trivial, fun _ _ => trivial⟩) w hw

/-- **C75.** With Rust, `flags` being what was determined for the files when they were parsed (C68). -/
theorem C75_rust (caches : Rust.Caches) (flags : SourceFile → List Text)
    (hf : ∀ p ∈ fcs, caches.flags.lookup (absolute x p.1) = some (flags p.1) ∧
      ∀ c ∈ p.2, caches.flags.lookup (absolute x c.span.file) = some (flags c.span.file)) (hw : Fresh w) :
    Planned cfg (rustPlan (projectOf x) flags) (runFiles cfg (inRun x (adapter x (rust caches))) fcs w).1
      ((runFiles cfg (inRun x (adapter x (rust caches))) fcs w).2.trace.map (·.event))
      (runFiles cfg (inRun x (adapter x (rust caches))) fcs w).2.ext.ran :=
  runs (adapter_implements (rust_follows x caches flags)) cfg fcs hf w hw

/-- **C75.** With Hardhat. -/
theorem C75_hardhat (hw : Fresh w) :
    Planned cfg (hardhatPlan (projectOf x) fun s t => t ∈ ItMessage.mochaMessages s) (runFiles cfg (inRun x (hardhat x)) fcs w).1
      ((runFiles cfg (inRun x (hardhat x)) fcs w).2.trace.map (·.event)) (runFiles cfg (inRun x (hardhat x)) fcs w).2.ext.ran :=
  runs (hardhat_implements x) cfg fcs (fun _ _ => ⟨trivial, fun _ _ => trivial⟩) w hw

/-- **C75.** With Vitest. -/
theorem C75_vitest (parse : Text → Option Json) (hw : Fresh w) :
    Planned cfg (vitestPlan (projectOf x) parse) (runFiles cfg (inRun x (vitest x parse)) fcs w).1
      ((runFiles cfg (inRun x (vitest x parse)) fcs w).2.trace.map (·.event)) (runFiles cfg (inRun x (vitest x parse)) fcs w).2.ext.ran :=
  runs (vitest_implements x parse) cfg fcs (fun _ _ => ⟨trivial, fun _ _ => trivial⟩) w hw

/-- **C75.** With Anchor, whose file Anchor.toml holds the test script of each command while it is executed. -/
theorem C75_anchor (parse : Text → Option Json) (hw : Fresh w) :
    Planned cfg (anchorPlan (projectOf x) parse fun s t => t ∈ ItMessage.mochaMessages s) (runFiles cfg (inRun x (anchor x parse)) fcs w).1
      ((runFiles cfg (inRun x (anchor x parse)) fcs w).2.trace.map (·.event)) (runFiles cfg (inRun x (anchor x parse)) fcs w).2.ext.ran :=
  runs (anchor_implements x parse) cfg fcs (fun _ _ => ⟨trivial, fun _ _ => trivial⟩) w hw

/-! ### What follows from a plan -/

section
variable {cfg : Cfg} {plan : Plan} {result : Res Err Unit} {es : List Event} {l : List Ran}

/-- Every part of what happened is in a step, or in a step that was broken off. -/
theorem Planned.cases (h : Planned cfg plan result es l) :
    ∃ hs, History cfg plan hs ∧
      (∀ r ∈ l, (∃ s ∈ hs, r ∈ s.2) ∨ ∃ s, Cut cfg plan hs result s ∧ r ∈ s.2 ∧ (∀ e ∈ s.1, e ∈ es) ∧ ∀ r ∈ s.2, r ∈ l) ∧
      (∀ e ∈ es, (∃ s ∈ hs, e ∈ s.1) ∨ ∃ s, Cut cfg plan hs result s ∧ e ∈ s.1 ∧ (∀ e ∈ s.1, e ∈ es) ∧ ∀ r ∈ s.2, r ∈ l) ∧
      ∀ s ∈ hs, (∀ e ∈ s.1, e ∈ es) ∧ ∀ r ∈ s.2, r ∈ l := by
  obtain ⟨hs, hh, ⟨rfl, rfl⟩ | ⟨_, s, hc, rfl, rfl⟩⟩ := h
  · exact ⟨hs, hh, fun r hr => .inl (by simpa [List.mem_flatMap] using hr), fun r hr => .inl (by simpa [List.mem_flatMap] using hr),
      fun s hs => ⟨fun e he => List.mem_flatMap.2 ⟨s, hs, he⟩, fun e he => List.mem_flatMap.2 ⟨s, hs, he⟩⟩⟩
  · have h1 : ∀ s' ∈ hs ++ [s], (∀ e ∈ s'.1, e ∈ (hs ++ [s]).flatMap Prod.fst) ∧ ∀ e ∈ s'.2, e ∈ (hs ++ [s]).flatMap Prod.snd :=
      fun s' hs => ⟨fun e he => List.mem_flatMap.2 ⟨s', hs, he⟩, fun e he => List.mem_flatMap.2 ⟨s', hs, he⟩⟩
    refine ⟨hs, hh, fun r hr => ?_, fun r hr => ?_, fun s' h' => h1 s' (List.mem_append_left _ h')⟩
    · obtain ⟨s', hs', hr⟩ := List.mem_flatMap.1 hr
      rcases List.mem_append.1 hs' with h | h
      · exact .inl ⟨s', h, hr⟩
      · rw [List.mem_singleton.1 h] at hr
        exact .inr ⟨s, hc, hr, h1 s (by simp)⟩
    · obtain ⟨s', hs', hr⟩ := List.mem_flatMap.1 hr
      rcases List.mem_append.1 hs' with h | h
      · exact .inl ⟨s', h, hr⟩
      · rw [List.mem_singleton.1 h] at hr
        exact .inr ⟨s, hc, hr, h1 s (by simp)⟩

theorem History.step_of_mem {hs : List Did} (h : History cfg plan hs) {s : Did} (hm : s ∈ hs) : ∃ hs', (∃ r, hs = hs' ++ r) ∧ Step cfg plan hs' s := by
  induction h with
  | nil => cases hm
  | snoc h s' hh hs ih =>
    rcases List.mem_append.1 hm with hm | hm
    · obtain ⟨hs', ⟨r, e⟩, h'⟩ := ih hm
      exact ⟨hs', ⟨r ++ [s'], by rw [e, List.append_assoc]⟩, h'⟩
    · rw [List.mem_singleton.1 hm]
      exact ⟨h, ⟨[s'], rfl⟩, hs⟩

theorem Follows.no_started {todo l r} (h : Follows todo l r) {c : Command} {p : Option Proc} : .started c p ∉ l := by
  induction h <;> simp_all

theorem Follows.no_looked {todo l r} (h : Follows todo l r) {out} : .looked out ∉ l := by
  induction h <;> simp_all

/-- The command is one of those. -/
inductive Todo.Has (c : Command) : Todo → Prop
  | run (cs) : c ∈ cs → Todo.Has c (.run cs)
  | yes (n a b) : Todo.Has c a → Todo.Has c (.ifExists n a b)
  | no (n a b) : Todo.Has c b → Todo.Has c (.ifExists n a b)

theorem Follows.has {todo l r} (h : Follows todo l r) {c : Command} {o} (hc : .ran c o ∈ l) : Todo.Has c todo := by
  induction h with
  | done => cases hc
  | ok c' cs o' l r ho h ih =>
    rcases List.mem_cons.1 hc with e | hc
    · cases e; exact .run _ (by simp)
    · cases ih hc with
      | run _ hm => exact .run _ (List.mem_cons_of_mem _ hm)
  | fails c' cs o' ho => cases List.mem_singleton.1 hc; exact .run _ (by simp)
  | broken c' cs => cases List.mem_singleton.1 hc; exact .run _ (by simp)
  | yes n a b l r h ih =>
    rcases List.mem_cons.1 hc with e | hc
    · cases e
    · exact .yes _ _ _ (ih hc)
  | no n a b l r h ih =>
    rcases List.mem_cons.1 hc with e | hc
    · cases e
    · exact .no _ _ _ (ih hc)
  | unknown n a b => cases List.mem_singleton.1 hc
  | unedited => cases hc

theorem Started.only {h c t} {l : List Ran} {p} (hs : Started cfg plan h c t l p) :
    (∀ cmd q, .started cmd q ∈ l → cmd = (plan.test c.span.file t).withVar "NECESSIST_REMOVAL".toList (cfg.ident c.span)) ∧
    .started ((plan.test c.span.file t).withVar "NECESSIST_REMOVAL".toList (cfg.ident c.span)) p ∈ l ∧
    ∀ cmd o, .ran cmd o ∈ l → Todo.Has cmd (.run (plan.prepare c.span.file)) := by
  cases hs with
  | mk l p hp hk =>
    refine ⟨fun cmd q hm => ?_, by simp, fun cmd o hm => ?_⟩
    · rcases List.mem_append.1 hm with hm | hm
      · exact absurd hm hp.no_started
      · cases List.mem_singleton.1 hm; rfl
    · rcases List.mem_append.1 hm with hm | hm
      · exact hp.has hm
      · cases List.mem_singleton.1 hm

/-- **C75.** A test is started only for a candidate, with the command for one of the candidate's tests in the candidate's file, and with the removal's
identifier in its environment. -/
theorem C75_started (h : Planned cfg plan result es l) (cmd : Command) (p : Option Proc) (hr : .started cmd p ∈ l) :
    ∃ c t, t ∈ c.tests ∧ .startTest c t (cfg.ident c.span) ∈ es ∧
      cmd = (plan.test c.span.file t).withVar "NECESSIST_REMOVAL".toList (cfg.ident c.span) := by
  obtain ⟨hs, hh, h1, _, h3⟩ := h.cases
  rcases h1 _ hr with ⟨s, hm, hr⟩ | ⟨s, hc, hr, he, _⟩
  · obtain ⟨hs', _, hstep⟩ := hh.step_of_mem hm
    have he := (h3 s hm).1
    cases hstep with
    | ctrlc => cases hr
    | insert => cases hr
    | dryRun f l ok => exact absurd hr ok.no_started
    | dryRunFailed f l r hf => exact absurd hr hf.no_started
    | build f l hf => exact absurd hr hf.no_started
    | buildFailed f l r hf => exact absurd hr hf.no_started
    | notBuilt c t l r _ hf => exact absurd hr hf.no_started
    | ended c t l p d ht hst => exact ⟨c, t, ht, he _ (by simp), hst.only.1 _ _ hr⟩
    | shown c t l p d out s ht hst =>
      exact ⟨c, t, ht, he _ (by simp), hst.only.1 cmd _ (by simpa using hr)⟩
    | hidden c t l p d out s ht hst =>
      exact ⟨c, t, ht, he _ (by simp), hst.only.1 cmd _ (by simpa using hr)⟩
    | killed c t l p ht hst => exact ⟨c, t, ht, he _ (by simp), hst.only.1 _ _ hr⟩
  · cases hc with
    | dryRun f l ok => exact absurd hr ok.no_started
    | build f l ok => exact absurd hr ok.no_started
    | buildTest c t l r _ hf => exact absurd hr hf.no_started
    | startTest c t l p ht hst => exact ⟨c, t, ht, he _ (by simp), hst.only.1 _ _ hr⟩
    | looked c t l p d out s ht hst =>
      exact ⟨c, t, ht, he _ (by simp), hst.only.1 cmd _ (by simpa using hr)⟩
    | kill c t l p ht hst => exact ⟨c, t, ht, he _ (by simp), hst.only.1 _ _ hr⟩

/-- **C75.** Nothing else is executed than what belongs to a dry run, to building a file, or to preparing a test. -/
theorem C75_ran (h : Planned cfg plan result es l) (cmd : Command) (o : Option Output) (hr : .ran cmd o ∈ l) :
    (∃ f, .dryRun f ∈ es ∧ Todo.Has cmd (plan.dry f)) ∨ (∃ f, .buildFile f ∈ es ∧ cmd ∈ plan.build f) ∨
      ∃ c t, .buildTest c t ∈ es ∧ cmd ∈ plan.prepare c.span.file := by
  have hrun : ∀ {cs}, Todo.Has cmd (.run cs) → cmd ∈ cs := fun h => by cases h; assumption
  obtain ⟨hs, hh, h1, _, h3⟩ := h.cases
  rcases h1 _ hr with ⟨s, hm, hr⟩ | ⟨s, hc, hr, he, _⟩
  · obtain ⟨hs', _, hstep⟩ := hh.step_of_mem hm
    have he := (h3 s hm).1
    cases hstep with
    | ctrlc => cases hr
    | insert => cases hr
    | dryRun f l ok => exact .inl ⟨f, he _ (by simp), ok.has hr⟩
    | dryRunFailed f l r hf => exact .inl ⟨f, he _ (by simp), hf.has hr⟩
    | build f l hf => exact .inr (.inl ⟨f, he _ (by simp), hrun (hf.has hr)⟩)
    | buildFailed f l r hf => exact .inr (.inl ⟨f, he _ (by simp), hrun (hf.has hr)⟩)
    | notBuilt c t l r _ hf => exact .inr (.inr ⟨c, t, he _ (by simp), hrun (hf.has hr)⟩)
    | ended c t l p d ht hst => exact .inr (.inr ⟨c, t, he _ (by simp), hrun (hst.only.2.2 _ _ hr)⟩)
    | shown c t l p d out s ht hst => exact .inr (.inr ⟨c, t, he _ (by simp), hrun (hst.only.2.2 cmd o (by simpa using hr))⟩)
    | hidden c t l p d out s ht hst => exact .inr (.inr ⟨c, t, he _ (by simp), hrun (hst.only.2.2 cmd o (by simpa using hr))⟩)
    | killed c t l p ht hst => exact .inr (.inr ⟨c, t, he _ (by simp), hrun (hst.only.2.2 _ _ hr)⟩)
  · cases hc with
    | dryRun f l ok => exact .inl ⟨f, he _ (by simp), ok.has hr⟩
    | build f l hf => exact .inr (.inl ⟨f, he _ (by simp), hrun (hf.has hr)⟩)
    | buildTest c t l r _ hf => exact .inr (.inr ⟨c, t, he _ (by simp), hrun (hf.has hr)⟩)
    | startTest c t l p ht hst => exact .inr (.inr ⟨c, t, he _ (by simp), hrun (hst.only.2.2 _ _ hr)⟩)
    | looked c t l p d out s ht hst => exact .inr (.inr ⟨c, t, he _ (by simp), hrun (hst.only.2.2 cmd o (by simpa using hr))⟩)
    | kill c t l p ht hst => exact .inr (.inr ⟨c, t, he _ (by simp), hrun (hst.only.2.2 _ _ hr)⟩)

/-- **C75.** A test counts as passed, or failed, only if its command was started and ended in time, successfully or not; and, if the framework's output
tells whether the test ran, the output showed it. -/
theorem C75_passed (h : Planned cfg plan result es l) (c : Candidate) (t : Text) (b : Bool)
    (he : .tested c t (some (if b then .passed else .failed)) ∈ es) :
    ∃ p, .started ((plan.test c.span.file t).withVar "NECESSIST_REMOVAL".toList (cfg.ident c.span)) (some p) ∈ l ∧
      p.duration ≠ none ∧ ¬ Outlives cfg.timeout p.duration ∧ p.success = b ∧
      ∀ s, plan.shows = some s → ∃ out, .looked out ∈ l ∧ Shown plan s t out := by
  have hb : ∀ b', (some (if b then Outcome.passed else .failed)) = some (if b' = true then .passed else .failed) → b' = b := by
    intro b' e; cases b <;> cases b' <;> simp at e <;> rfl
  obtain ⟨hs, hh, _, h2, h3⟩ := h.cases
  rcases h2 _ he with ⟨s, hm, he⟩ | ⟨s, hc, he, _⟩
  · obtain ⟨hs', _, hstep⟩ := hh.step_of_mem hm
    have hl := (h3 s hm).2
    cases hstep with
    | ctrlc => simp at he
    | insert => simp at he
    | dryRun f l ok => simp at he
    | dryRunFailed f l r hf => simp at he
    | build f l hf => simp at he
    | buildFailed f l r hf => simp at he
    | notBuilt c t l r _ hf => cases b <;> simp at he
    | ended c' t' l' p d ht hst hw hd ho hsh =>
      simp only [List.mem_cons, reduceCtorEq, Event.tested.injEq, List.not_mem_nil, or_false, false_or] at he
      obtain ⟨rfl, rfl, e⟩ := he
      exact ⟨p, hl _ hst.only.2.1, by rw [hd]; nofun, ho, hb _ e, fun s hs => by rw [hsh] at hs; cases hs⟩
    | shown c' t' l' p d out s ht hst hw hd ho hsh hsn =>
      simp only [List.mem_cons, reduceCtorEq, Event.tested.injEq, List.not_mem_nil, or_false, false_or] at he
      obtain ⟨rfl, rfl, e⟩ := he
      exact ⟨p, hl _ (List.mem_append_left _ hst.only.2.1), by rw [hd]; nofun, ho, hb _ e, fun s' hs => by
        rw [hsh] at hs; cases hs; exact ⟨out, hl _ (by simp), hsn⟩⟩
    | hidden c t l p d out s ht hst => simp at he
    | killed c t l p ht hst => cases b <;> simp at he
  · cases hc <;> simp at he

end

/-! ### What is selected -/
open Pattern

/-- A name without characters that are special in regular expressions, such as an identifier of letters, digits and underscores. -/
def Plain (t : Text) : Prop := ∀ c ∈ t, ¬ Special c

theorem readAtoms_plain {t : Text} (h : Plain t) (r : Text) :
    readAtoms (t ++ r) = (readAtoms r).map fun (as, e) => (t.map .char ++ as, e) := by
  induction t with
  | nil => simp
  | cons c t ih =>
    have hc := h c (by simp)
    have h1 : c ≠ '$' := fun e => hc (e ▸ by decide)
    have h2 : c ≠ '.' := fun e => hc (e ▸ by decide)
    rw [List.cons_append, readAtoms]
    · rw [if_neg hc, ih fun c hm => h c (List.mem_cons_of_mem _ hm)]
      cases readAtoms r <;> rfl
    · intro e; exact absurd e h1
    · intro r' e; exact absurd e h2

theorem fits_chars (t m : Text) : Fits (t.map .char) m ↔ m = t := by
  induction t generalizing m with
  | nil =>
    constructor
    · intro h; cases h; rfl
    · rintro rfl; exact .nil
  | cons c t ih =>
    constructor
    · intro h
      cases h with
      | char _ _ t' h => rw [(ih _).1 h]
    · rintro rfl; exact .char _ _ _ ((ih _).2 rfl)

/-- **C75.** Go is told to run exactly the test: the pattern `^NAME$` selects the name and no other. -/
theorem C75_go_selects (t : Text) (ht : Plain t) (f : SourceFile) (p : Project) :
    ∃ before after pat r, ((goPlan p).test f t).args = before ++ ["-run=".toList ++ pat] ++ after ∧ Pattern.read pat = some r ∧
      ∀ name, Selects r name ↔ name = t := by
  refine ⟨["test".toList, "./".toList ++ p.relDir f], ["-v".toList] ++ p.args, "^".toList ++ t ++ "$".toList, ⟨true, t.map .char, true⟩, ?_, ?_, ?_⟩
  · simp [goPlan, Project.cmd]
  · show Pattern.read ('^' :: (t ++ ['$'])) = _
    rw [Pattern.read, readAtoms_plain ht]
    simp [readAtoms]
  · intro name
    constructor
    · rintro ⟨a, m, b, rfl, hf, ha, hb⟩
      rw [ha rfl, hb rfl, (fits_chars t m).1 hf]
      simp
    · rintro rfl
      exact ⟨[], name, [], by simp, (fits_chars _ _).2 rfl, fun _ => rfl, fun _ => rfl⟩

/-- **C75.** No test at all is selected when a Go file is only to be built: `^$` selects only the empty name. -/
theorem C75_go_build_selects (f : SourceFile) (p : Project) :
    ∃ before after pat r, (goPlan p).prepare f = [p.cmd "go" (before ++ ["-run=".toList ++ pat] ++ after)] ∧ Pattern.read pat = some r ∧
      ∀ name, Selects r name ↔ name = [] := by
  refine ⟨["test".toList, "./".toList ++ p.relDir f], p.args, "^$".toList, ⟨true, [], true⟩, ?_, rfl, ?_⟩
  · simp [goPlan]
  · intro name
    constructor
    · rintro ⟨a, m, b, rfl, hf, ha, hb⟩
      rw [ha rfl, hb rfl]
      cases hf; rfl
    · rintro rfl
      exact ⟨[], [], [], rfl, .nil, fun _ => rfl, fun _ => rfl⟩

/-- **C75.** PHPUnit is told to run the methods of that name, in whichever class of the file, and no others: in particular not
`CLASS::NAME with data set …`. -/
theorem C75_php_selects (t : Text) (ht : Plain t) (f : SourceFile) (p : Project) :
    ∃ pat r after, ((phpPlan p).test f t).args = ["--filter".toList, pat, p.rel f] ++ after ∧ Pattern.read pat = some r ∧
      ∀ name, Selects r name ↔ ∃ cls, '\n' ∉ cls ∧ name = cls ++ "::".toList ++ t := by
  refine ⟨"^.*::".toList ++ t ++ "$".toList, ⟨true, .any :: .char ':' :: .char ':' :: t.map .char, true⟩, p.args, ?_, ?_, ?_⟩
  · simp [phpPlan, Project.cmd]
  · show Pattern.read ('^' :: '.' :: '*' :: ((':' :: ':' :: t) ++ ['$'])) = _
    rw [Pattern.read, readAtoms, readAtoms_plain (t := ':' :: ':' :: t)]
    · simp [readAtoms]
    · intro c hc
      rcases List.mem_cons.1 hc with rfl | hc
      · decide
      rcases List.mem_cons.1 hc with rfl | hc
      · decide
      exact ht c hc
  · intro name
    constructor
    · rintro ⟨a, m, b, rfl, hf, ha, hb⟩
      rw [ha rfl, hb rfl]
      cases hf with
      | any cls _ t' hn hf =>
        cases hf with
        | char _ _ t'' hf => cases hf with
          | char _ _ t3 hf =>
            rw [(fits_chars t t3).1 hf]
            exact ⟨cls, hn, by simp⟩
    · rintro ⟨cls, hn, rfl⟩
      exact ⟨[], cls ++ "::".toList ++ t, [], by simp,
        by rw [List.append_assoc]; exact .any cls _ _ hn (.char _ _ _ (.char _ _ _ ((fits_chars _ _).2 rfl))), fun _ => rfl, fun _ => rfl⟩

/-- **C75.** Foundry is told to run the tests whose names contain the name: the test itself, but possibly others as well. -/
theorem C75_foundry_selects (t : Text) (ht : Plain t) (hne : t ≠ []) (f : SourceFile) (p : Project) :
    ∃ r after, ((foundryPlan p).test f t).args = ["test".toList, "--match-path".toList, p.rel f, "--match-test".toList, t] ++ after ∧
      Pattern.read t = some r ∧ ∀ name, Selects r name ↔ ∃ a b, name = a ++ t ++ b := by
  refine ⟨⟨false, t.map .char, false⟩, p.args, ?_, ?_, ?_⟩
  · simp [foundryPlan, Project.cmd, Command.withVar]
  · have h0 : readAtoms t = some (t.map .char, false) := by
      have := readAtoms_plain ht []
      simpa [readAtoms] using this
    cases t with
    | nil => exact absurd rfl hne
    | cons c t =>
      rw [Pattern.read, h0]
      · rfl
      · intro r e
        cases e
        exact ht '^' (by simp) (by decide)
  · intro name
    constructor
    · rintro ⟨a, m, b, rfl, hf, -, -⟩
      rw [(fits_chars t m).1 hf]
      exact ⟨a, b, rfl⟩
    · rintro ⟨a, b, rfl⟩
      exact ⟨a, t, b, rfl, (fits_chars _ _).2 rfl, nofun, nofun⟩

theorem passes_iff {a b r : List Text} (ha : "--".toList ∉ a) : Passes (a ++ "--".toList :: b) r ↔ r = b := by
  constructor
  · intro h
    generalize hn : a ++ "--".toList :: b = n at h
    cases h with
    | found a' b' ha' =>
      have : ∀ (a a' : List Text), "--".toList ∉ a → "--".toList ∉ a' → a ++ "--".toList :: b = a' ++ "--".toList :: r → r = b := by
        intro a
        induction a with
        | nil =>
          intro a' _ h' e
          cases a' with
          | nil => exact (List.cons.inj e).2.symm
          | cons x a' => exact absurd ((List.cons.inj e).1 ▸ List.mem_cons_self) h'
        | cons x a ih =>
          intro a' h h' e
          cases a' with
          | nil => exact absurd ((List.cons.inj e).1 ▸ List.mem_cons_self) h
          | cons y a' => exact ih a' (fun hm => h (List.mem_cons_of_mem _ hm)) (fun hm => h' (List.mem_cons_of_mem _ hm)) (List.cons.inj e).2
      exact this a a' ha ha' hn
    | none _ h => exact absurd (by rw [← hn]; exact List.mem_append_right _ List.mem_cons_self) h
  · rintro rfl; exact .found a r ha

/-- **C75.** With Rust, the tests' program is told to run exactly the test, if the user's arguments (and the flags) have no `--`. -/
theorem C75_rust_selects (t : Text) (f : SourceFile) (p : Project) (flags : SourceFile → List Text) (hf : "--".toList ∉ flags f)
    (hp : "--".toList ∉ p.args) (r : List Text) : Passes ((rustPlan p flags).test f t).args r ↔ r = ["--exact".toList, t] := by
  have : ((rustPlan p flags).test f t).args = (["test".toList] ++ flags f ++ p.args) ++ "--".toList :: ["--exact".toList, t] := by simp [rustPlan]
  rw [this]
  refine passes_iff ?_
  simp only [List.mem_append, not_or]
  exact ⟨⟨by decide, hf⟩, hp⟩

/-- **C75.** If the user's arguments have a `--`, the tests' program gets the user's arguments after it, and then another `--` before `--exact`. -/
theorem C75_rust_selects_otherwise (t : Text) (f : SourceFile) (p : Project) (flags : SourceFile → List Text) (hf : "--".toList ∉ flags f)
    (a b : List Text) (ha : "--".toList ∉ a) (hp : p.args = a ++ "--".toList :: b) (r : List Text) :
    Passes ((rustPlan p flags).test f t).args r ↔ r = b ++ ["--".toList, "--exact".toList, t] := by
  have : ((rustPlan p flags).test f t).args = (["test".toList] ++ flags f ++ a) ++ "--".toList :: (b ++ ["--".toList, "--exact".toList, t]) := by
    simp [rustPlan, hp]
  rw [this]
  refine passes_iff ?_
  simp only [List.mem_append, not_or]
  exact ⟨⟨by decide, hf⟩, ha⟩

end Necessist.Cmd
