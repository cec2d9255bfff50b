import Verif.Spec.Results
import Verif.Lemmas.CommandsFw
import Verif.Props.Commands
/-! # What a result means: lemmas -/
namespace Necessist.Results
open Framework (Identifier)
open Run Main Cmd Sources

/-- Steps that explain what happened can be told apart in what happened. -/
theorem split_parts (hs : List Did) (snaps : List Snap) (h : hs.flatMap Prod.fst = snaps.map (·.event)) :
    ∃ run : List Part, run.map Part.did = hs ∧ run.flatMap Prod.fst = snaps := by
  induction hs generalizing snaps with
  | nil =>
    refine ⟨[], rfl, ?_⟩
    cases snaps with
    | nil => rfl
    | cons s ss => cases h
  | cons d hs ih =>
    obtain ⟨es, l⟩ := d
    rw [List.flatMap_cons] at h
    obtain ⟨a, b, rfl, h1, h2⟩ := List.map_eq_append_iff.1 h.symm
    obtain ⟨run, r1, r2⟩ := ih b h2.symm
    refine ⟨(a, l) :: run, ?_, ?_⟩
    · rw [List.map_cons, r1, Part.did, h1]
    · rw [List.flatMap_cons, r2]

theorem did_snd (run : List Part) : (run.map Part.did).flatMap Prod.snd = run.flatMap Prod.snd := by
  induction run with
  | nil => rfl
  | cons p run ih => simp only [List.map_cons, List.flatMap_cons, ih]; rfl

section
variable {cfg : Cfg} {plan : Plan}

/-- Each step comes after those before. -/
theorem _root_.Necessist.Cmd.History.split {hs : List Did} (h : History cfg plan hs) :
    ∀ a s b, hs = a ++ s :: b → Step cfg plan a s := by
  induction h with
  | nil => intro a s b e; simp at e
  | snoc h s' hh hs ih =>
    intro a s b e
    rcases List.eq_nil_or_concat b with rfl | ⟨b', x, rfl⟩
    · obtain ⟨rfl, e2⟩ := List.append_inj' e rfl
      cases e2
      exact hs
    · have e : h ++ [s'] = (a ++ s :: b') ++ [x] := by rw [e]; simp
      obtain ⟨rfl, _⟩ := List.append_inj' e rfl
      exact ih a s b' rfl

variable {σ : Type} {env : Env (St σ)} {src : SourceFile → Text}

/-- What is known about the source files at what happened. -/
structure Seen (env : Env (St σ)) (src : SourceFile → Text) (snaps : List Snap) : Prop where
  build : ∀ s ∈ snaps, ∀ c t, s.event = .buildTest c t → OneRemoval env src src c s.fs
  start : ∀ s ∈ snaps, ∀ c t v, s.event = .startTest c t v → OneRemoval env src src c s.fs
  dry : ∀ s ∈ snaps, ∀ f, s.event = .dryRun f → s.fs = src

theorem event_mem {part : Part} {e : Event} (h : e ∈ part.did.1) : ∃ s ∈ part.1, s.event = e := List.mem_map.1 h

theorem Seen.tried {part : Part} (h : Seen env src part.1) {c t} (he : .buildTest c t ∈ part.did.1) : Tried env src part c t := by
  obtain ⟨s, hs, e⟩ := event_mem he
  exact ⟨s, hs, e, h.build s hs c t e⟩

theorem Seen.executed {earlier : List Part} {part : Part} (h : Seen env src part.1) {c t l p after}
    (h1 : .buildTest c t ∈ part.did.1) (h2 : .startTest c t (cfg.ident c.span) ∈ part.did.1) (h3 : part.2 = l ++ after)
    (hst : Cmd.Started cfg plan (earlier.map Part.did) c t l (some p)) : Executed env cfg plan src earlier part c t p := by
  refine ⟨h.tried h1, ?_, ?_⟩
  · obtain ⟨s, hs, e⟩ := event_mem h2
    exact ⟨s, hs, e, h.start s hs c t _ e⟩
  · generalize hq : some p = q at hst
    cases hst with
    | mk l' p' hp hk =>
      subst hq
      exact ⟨l', after, h3, hp, hk⟩

/-- A result, explained. -/
theorem result_of_step {earlier : List Part} {part : Part} (hseen : Seen env src part.1) (hstep : Step cfg plan (earlier.map Part.did) part.did)
    {c t r} (he : .tested c t r ∈ part.did.1) : TestResult env cfg plan src earlier part c t r := by
  have hl : part.did.2 = part.2 := rfl
  generalize hd : part.did = d at hstep he
  cases hstep with
  | ctrlc => simp at he
  | insert => simp at he
  | dryRun => simp at he
  | dryRunFailed => simp at he
  | build => simp at he
  | buildFailed => simp at he
  | notBuilt c' t' l' r' ht hf hw =>
    simp only [List.mem_cons, reduceCtorEq, Event.tested.injEq, List.not_mem_nil, or_false, false_or] at he
    obtain ⟨rfl, rfl, rfl⟩ := he
    refine .nonbuildable r' (hseen.tried (by rw [hd]; simp)) ?_ hw
    rw [← hl, hd]; exact hf
  | ended c' t' l' p d ht hst hw hdur ho hsh =>
    simp only [List.mem_cons, reduceCtorEq, Event.tested.injEq, List.not_mem_nil, or_false, false_or] at he
    obtain ⟨rfl, rfl, rfl⟩ := he
    have hx : Executed env cfg plan src earlier part c t p :=
      hseen.executed (by rw [hd]; simp) (by rw [hd]; simp) (after := []) (by rw [← hl, hd]; simp) hst
    have hno : ∀ s, plan.shows = some s → ∃ out, .looked out ∈ part.2 ∧ Shown plan s t out := fun s hs => by rw [hsh] at hs; cases hs
    cases hs : p.success with
    | true => exact .passed p hx ⟨by rw [hdur]; nofun, ho⟩ hs hno
    | false => exact .failed p hx ⟨by rw [hdur]; nofun, ho⟩ hs hno
  | shown c' t' l' p d out s ht hst hw hdur ho hsh hsn =>
    simp only [List.mem_cons, reduceCtorEq, Event.tested.injEq, List.not_mem_nil, or_false, false_or] at he
    obtain ⟨rfl, rfl, rfl⟩ := he
    have hx : Executed env cfg plan src earlier part c t p :=
      hseen.executed (by rw [hd]; simp) (by rw [hd]; simp) (after := [.looked out]) (by rw [← hl, hd]) hst
    have hno : ∀ s, plan.shows = some s → ∃ out, .looked out ∈ part.2 ∧ Shown plan s t out := fun s hs => by
      rw [hsh] at hs; cases hs
      exact ⟨out, by rw [← hl, hd]; simp, hsn⟩
    cases hs : p.success with
    | true => exact .passed p hx ⟨by rw [hdur]; nofun, ho⟩ hs hno
    | false => exact .failed p hx ⟨by rw [hdur]; nofun, ho⟩ hs hno
  | hidden c' t' l' p d out s ht hst hw hdur ho hsh hsn =>
    simp only [List.mem_cons, reduceCtorEq, Event.tested.injEq, List.not_mem_nil, or_false, false_or] at he
    obtain ⟨rfl, rfl, rfl⟩ := he
    exact .unseen p s out (hseen.executed (by rw [hd]; simp) (by rw [hd]; simp) (after := [.looked out]) (by rw [← hl, hd]) hst)
      ⟨by rw [hdur]; nofun, ho⟩ hsh (by rw [← hl, hd]; simp) hsn
  | killed c' t' l' p ht hst hw ho =>
    simp only [List.mem_cons, reduceCtorEq, Event.tested.injEq, List.not_mem_nil, or_false, false_or] at he
    obtain ⟨rfl, rfl, rfl⟩ := he
    exact .timedOut p (hseen.executed (by rw [hd]; simp) (by rw [hd]; simp) (after := []) (by rw [← hl, hd]; simp) hst) ho
      (event_mem (by rw [hd]; simp))

/-- A failed dry run, explained. -/
theorem failed_of_step {h : List Did} {part : Part} (hseen : Seen env src part.1) (hstep : Step cfg plan h part.did)
    {f} (he : .dryRunFailed f ∈ part.did.1) : DryRunFailed plan src [part] f := by
  have hl : part.did.2 = part.2 := rfl
  generalize hd : part.did = d at hstep he
  cases hstep with
  | dryRunFailed f' l r hf hw =>
    simp only [List.mem_cons, reduceCtorEq, Event.dryRunFailed.injEq, List.not_mem_nil, or_false, false_or] at he
    subst he
    obtain ⟨s, hs, e⟩ := event_mem (part := part) (e := .dryRun f) (by rw [hd]; simp)
    refine ⟨part, by simp, ⟨s, hs, e, hseen.dry s hs f e⟩, r, ?_, ?_⟩
    · rw [← hl, hd]; exact hf
    · rw [← hl, hd]; exact hw
  | _ => simp at he

theorem mem_testedOf {snaps : List Snap} {c t r} (h : (c, t, r) ∈ testedOf snaps) : ∃ s ∈ snaps, s.event = .tested c t r := by
  obtain ⟨s, hs, e⟩ := List.mem_filterMap.1 h
  refine ⟨s, hs, ?_⟩
  split at e
  · rename_i h'; rw [h']; cases e; rfl
  · cases e

theorem mem_failedOf {snaps : List Snap} {f} (h : f ∈ failedOf snaps) : ∃ s ∈ snaps, s.event = .dryRunFailed f := by
  obtain ⟨s, hs, e⟩ := List.mem_filterMap.1 h
  refine ⟨s, hs, ?_⟩
  split at e
  · rename_i h'; rw [h']; cases e; rfl
  · cases e

/-- The parts of a run, and a last part that was broken off, in which there is no result. -/
theorem Planned_parts {result : Res Err Unit} {snaps : List Snap} {l : List Ran} (hp : Planned cfg plan result (snaps.map (·.event)) l)
    (hseen : Seen env src snaps) :
    ∃ run : List Part, run.flatMap Prod.fst <+: snaps ∧ run.flatMap Prod.snd <+: l ∧ History cfg plan (run.map Part.did) ∧
      (result = .ok () → run.flatMap Prod.fst = snaps ∧ run.flatMap Prod.snd = l) ∧
      (∀ c t r, (c, t, r) ∈ testedOf snaps → HadResult env cfg plan src run c t r) ∧
      ∀ f ∈ failedOf snaps, DryRunFailed plan src run f := by
  have main : ∀ run : List Part, History cfg plan (run.map Part.did) → (∀ part ∈ run, Seen env src part.1) → ∀ part ∈ run,
      (∀ c t r, .tested c t r ∈ part.did.1 → HadResult env cfg plan src run c t r) ∧
      ∀ f, .dryRunFailed f ∈ part.did.1 → DryRunFailed plan src run f := by
    intro run hh hs part hm
    obtain ⟨a, b, rfl⟩ := List.append_of_mem hm
    have hstep := hh.split (a.map Part.did) part.did (b.map Part.did) (by simp)
    refine ⟨fun c t r he => ⟨a, part, b, rfl, result_of_step (hs part hm) hstep he⟩, fun f he => ?_⟩
    obtain ⟨p, hp, h⟩ := failed_of_step (hs part hm) hstep he
    rw [List.mem_singleton.1 hp] at h
    exact ⟨part, hm, h⟩
  have sub : ∀ run : List Part, (∀ s ∈ run.flatMap Prod.fst, s ∈ snaps) → ∀ part ∈ run, Seen env src part.1 := by
    intro run h part hm
    have : ∀ s ∈ part.1, s ∈ snaps := fun s hs => h s (List.mem_flatMap.2 ⟨part, hm, hs⟩)
    exact ⟨fun s hs => hseen.build s (this s hs), fun s hs => hseen.start s (this s hs), fun s hs => hseen.dry s (this s hs)⟩
  have find : ∀ run : List Part, ∀ s ∈ run.flatMap Prod.fst, ∃ part ∈ run, s.event ∈ part.did.1 := by
    intro run s hs
    obtain ⟨part, hm, hs⟩ := List.mem_flatMap.1 hs
    exact ⟨part, hm, List.mem_map.2 ⟨s, hs, rfl⟩⟩
  obtain ⟨hs, hh, ⟨h1, h2⟩ | ⟨hne, s, hc, h1, h2⟩⟩ := hp
  · obtain ⟨run, rfl, r2⟩ := split_parts hs snaps h1
    rw [did_snd] at h2
    have hsub := sub run (fun s hs => by rw [← r2]; exact hs)
    refine ⟨run, by rw [r2]; exact List.prefix_refl _, by rw [h2]; exact List.prefix_refl _, hh, fun _ => ⟨r2, h2⟩, fun c t r he => ?_, fun f he => ?_⟩
    · obtain ⟨s, hs, e⟩ := mem_testedOf he
      obtain ⟨part, hm, hin⟩ := find run s (by rw [r2]; exact hs)
      exact (main run hh hsub part hm).1 c t r (by rw [← e]; exact hin)
    · obtain ⟨s, hs, e⟩ := mem_failedOf he
      obtain ⟨part, hm, hin⟩ := find run s (by rw [r2]; exact hs)
      exact (main run hh hsub part hm).2 f (by rw [← e]; exact hin)
  · obtain ⟨run', r1, r2⟩ := split_parts (hs ++ [s]) snaps h1
    obtain ⟨run, last, rfl, rfl, r4⟩ := List.map_eq_append_iff.1 r1
    obtain ⟨last, rfl, rfl⟩ : ∃ x, last = [x] ∧ Part.did x = s := by
      cases last with
      | nil => cases r4
      | cons x xs =>
        rw [List.map_cons] at r4
        obtain ⟨e1, e2⟩ := List.cons.inj r4
        cases xs with
        | nil => exact ⟨x, rfl, e1⟩
        | cons => cases e2
    have hsub := sub run (fun s hs => by rw [← r2]; simp only [List.flatMap_append, List.mem_append]; exact Or.inl hs)
    have hcut : ∀ e ∈ last.did.1, (∀ c t r, e ≠ .tested c t r) ∧ ∀ f, e ≠ .dryRunFailed f := by
      generalize last.did = d at hc
      cases hc <;> simp
    refine ⟨run, ⟨last.1, by rw [← r2]; simp⟩, ⟨last.2, ?_⟩, hh, fun h => absurd h hne, fun c t r he => ?_, fun f he => ?_⟩
    · have h2' : ((run ++ [last]).map Part.did).flatMap Prod.snd = l := by rw [List.map_append]; exact h2
      rw [did_snd] at h2'
      rw [← h2']; simp
    · obtain ⟨s, hs, e⟩ := mem_testedOf he
      obtain ⟨part, hm, hin⟩ := find (run ++ [last]) s (by rw [r2]; exact hs)
      rw [e] at hin
      rcases List.mem_append.1 hm with hm | hm
      · exact (main run hh hsub part hm).1 c t r hin
      · rw [List.mem_singleton.1 hm] at hin
        exact absurd rfl ((hcut _ hin).1 c t r)
    · obtain ⟨s, hs, e⟩ := mem_failedOf he
      obtain ⟨part, hm, hin⟩ := find (run ++ [last]) s (by rw [r2]; exact hs)
      rw [e] at hin
      rcases List.mem_append.1 hm with hm | hm
      · exact (main run hh hsub part hm).2 f hin
      · rw [List.mem_singleton.1 hm] at hin
        exact absurd rfl ((hcut _ hin).2 f)

end
end Necessist.Results
