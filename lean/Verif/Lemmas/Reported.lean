import Verif.Spec.Reported
import Verif.Lemmas.RunWarnings
import Verif.Lemmas.CommandsFw
import Verif.Model.Results
/-! The frameworks and their warnings. -/
namespace Necessist

/-- Calls of a framework. -/
def foreign (cs : List WarnCall) : List Issue := cs.map fun c => ⟨c, false⟩

theorem foreign_append (cs ds : List WarnCall) : foreign (cs ++ ds) = foreign cs ++ foreign ds := by simp [foreign]

theorem shownFor_one (o : WarnOpts) (st : WStates) (c : WarnCall) (b b' : Bool) : shownFor o st [⟨c, b⟩] = shownFor o st [⟨c, b'⟩] := rfl

/-- One call, in the form in which the frameworks' implementations make it. -/
theorem warnStep_foreign {o : WarnOpts} {st : WStates} {c : WarnCall} (h : c.warning ≠ .all) :
    (Denied o c.warning ∧ warnStep o st c = none ∧ shownFor o st (foreign [c]) = [] ∧ EndsDenied o (foreign [c])) ∨
    (NoneDenied o (foreign [c]) ∧ warnStep o st c = some (shownFor o st (foreign [c]), WStates.after o st (foreign [c]))) := by
  rcases warnStep_issue (o := o) (st := st) h with ⟨h1, h2, h3⟩ | ⟨h1, h2⟩
  · exact Or.inl ⟨h1, h2, h3, [], _, rfl, NoneDenied.nil, h1⟩
  · exact Or.inr ⟨by intro i hi; obtain rfl : i = ⟨c, false⟩ := by simpa [foreign] using hi
                     exact h1, h2⟩

namespace Exec
variable {s : Setup}

/-- The calls for lines that are not text. -/
def invalidCalls (s : Setup) (ls : List (List UInt8)) : List WarnCall := (ls.filter fun l => (s.decode l).isNone).map (invalidCall s)

/-- From one state to another, these calls were made. -/
structure Made (s : Setup) (cs : List WarnCall) (o o' : Out) : Prop where
  warns : o'.warns = WStates.after s.warn o.warns (foreign cs)
  printed : o'.printed = o.printed ++ shownFor s.warn o.warns (foreign cs)

theorem Made.trans {cs ds} {o o' o'' : Out} (h : Made s cs o o') (h' : Made s ds o' o'') : Made s (cs ++ ds) o o'' where
  warns := by rw [h'.warns, h.warns, foreign_append, after_append]
  printed := by rw [h'.printed, h.printed, h.warns, foreign_append, shownFor_append, List.append_assoc]

theorem Made.refl (o : Out) : Made s [] o o := ⟨rfl, by simp [foreign, shownFor_nil]⟩

theorem foldLines_calls (ls : List (List UInt8)) : ∀ (prev : Bool) (o : Out),
    (∃ b o', foldLines s ls prev o = (.ok b, o') ∧ Made s (invalidCalls s ls) o o' ∧ NoneDenied s.warn (foreign (invalidCalls s ls))) ∨
    (∃ cs o', foldLines s ls prev o = (.err .denied, o') ∧ cs <+: invalidCalls s ls ∧ Made s cs o o' ∧ EndsDenied s.warn (foreign cs)) := by
  induction ls with
  | nil => exact fun prev o => Or.inl ⟨prev, o, rfl, Made.refl o, NoneDenied.nil⟩
  | cons l ls ih =>
    intro prev o
    rw [foldLines]
    cases hd : s.decode l with
    | some line =>
      have e : invalidCalls s (l :: ls) = invalidCalls s ls := by simp [invalidCalls, hd]
      rw [e]
      exact ih _ o
    | none =>
      have e : invalidCalls s (l :: ls) = invalidCall s l :: invalidCalls s ls := by simp [invalidCalls, hd]
      rw [e]
      dsimp only
      rcases warnStep_foreign (o := s.warn) (st := o.warns) (c := invalidCall s l) (by simp [invalidCall]) with ⟨_, h2, h3, h4⟩ | ⟨h1, h2⟩
      · rw [h2]
        refine Or.inr ⟨[invalidCall s l], _, rfl, ⟨_, rfl⟩, ⟨rfl, ?_⟩, h4⟩
        rw [h3]; simp
      · rw [h2]
        dsimp only
        have hm : Made s [invalidCall s l] o ⟨o.printed ++ shownFor s.warn o.warns (foreign [invalidCall s l]),
          WStates.after s.warn o.warns (foreign [invalidCall s l])⟩ := ⟨rfl, rfl⟩
        rcases ih prev ⟨o.printed ++ shownFor s.warn o.warns (foreign [invalidCall s l]),
          WStates.after s.warn o.warns (foreign [invalidCall s l])⟩ with ⟨b, o', h3, h4, h5⟩ | ⟨cs, o', h3, ⟨ds, h4⟩, h5, h6⟩
        · exact Or.inl ⟨b, o', h3, hm.trans h4, by
            have := h1.append h5
            rwa [← foreign_append] at this⟩
        · refine Or.inr ⟨[invalidCall s l] ++ cs, o', h3, ⟨ds, by rw [← h4]; rfl⟩, hm.trans h5, ?_⟩
          rw [foreign_append]
          exact h1.cut h6

theorem postprocess_calls (stdout : List UInt8) (status : Option Nat) (o : Out) :
    (∃ b o', postprocess s stdout status o = (.ok b, o') ∧
      Made s (invalidCalls s (byteLines stdout) ++ if b then [] else [notRunCall s]) o o' ∧
      NoneDenied s.warn (foreign (invalidCalls s (byteLines stdout) ++ if b then [] else [notRunCall s]))) ∨
    (∃ cs e o', postprocess s stdout status o = (.err e, o') ∧ Made s cs o o' ∧
      (∀ c ∈ cs, c = notRunCall s ∨ c ∈ invalidCalls s (byteLines stdout)) ∧
      (NoneDenied s.warn (foreign cs) ∨ e = .denied ∧ EndsDenied s.warn (foreign cs))) := by
  unfold postprocess
  rcases foldLines_calls (s := s) (byteLines stdout) s.init o with ⟨b, o1, h1, h2, h3⟩ | ⟨cs, o1, h1, ⟨ds, h2⟩, h3, h4⟩
  · rw [h1]
    cases b with
    | true => exact Or.inl ⟨true, o1, rfl, by simpa using h2, by simpa using h3⟩
    | false =>
      dsimp only
      cases status with
      | none => exact Or.inr ⟨_, _, _, rfl, h2, fun c hc => Or.inr hc, Or.inl h3⟩
      | some k =>
        dsimp only
        rcases warnStep_foreign (o := s.warn) (st := o1.warns) (c := notRunCall s) (by simp [notRunCall]) with ⟨_, g2, g3, g4⟩ | ⟨g1, g2⟩
        · rw [g2]
          refine Or.inr ⟨invalidCalls s (byteLines stdout) ++ [notRunCall s], _, _, rfl, h2.trans ⟨rfl, ?_⟩, ?_, Or.inr ⟨rfl, ?_⟩⟩
          · rw [g3]; simp
          · intro c hc
            rcases List.mem_append.1 hc with hc | hc
            · exact Or.inr hc
            · exact Or.inl (by simpa using hc)
          · rw [foreign_append]; exact h3.cut g4
        · rw [g2]
          refine Or.inl ⟨false, _, rfl, h2.trans ⟨rfl, rfl⟩, ?_⟩
          show NoneDenied s.warn (foreign (_ ++ [notRunCall s]))
          rw [foreign_append]; exact h3.append g1
  · rw [h1]
    exact Or.inr ⟨cs, _, _, rfl, h3, fun c hc => Or.inr (h2 ▸ List.mem_append_left _ hc), Or.inr ⟨rfl, h4⟩⟩

end Exec

namespace Cmd
open Run
variable {σ α β : Type}

/-- Nothing is said. -/
def Hush (m : M (St σ) α) : Prop := ∀ w, (m w).2.warns = w.warns ∧ (m w).2.out = w.out

/-- What is said takes account of warnings. -/
def Voiced (o : WarnOpts) (m : M (St σ) α) : Prop := ∀ w, ∃ cs : List WarnCall, (∀ c ∈ cs, OfFramework c) ∧
  (m w).2.warns = WStates.after o w.warns (foreign cs) ∧ (m w).2.out = w.out ++ (shownFor o w.warns (foreign cs)).map .warning ∧
  (NoneDenied o (foreign cs) ∨ EndsDenied o (foreign cs) ∧ (m w).1 = .err .denied)

theorem saidSince_append {w w' : World (St σ)} {ms : List WarnMsg} (h : w'.out = w.out ++ ms.map .warning) : saidSince w w' = ms := by
  unfold saidSince
  rw [h, List.drop_left]
  exact warningsOf_warnings ms

theorem Hush.mute {m : M (St σ) α} (h : Hush m) (w : World (St σ)) : (reply m w).Mute w :=
  ⟨(h w).1, saidSince_append (ms := []) (by simp [(h w).2])⟩

theorem Hush.voiced {o : WarnOpts} {m : M (St σ) α} (h : Hush m) : Voiced o m := fun w =>
  ⟨[], nofun, (h w).1, by rw [(h w).2]; simp [foreign, shownFor_nil], Or.inl NoneDenied.nil⟩

theorem Voiced.honest {o : WarnOpts} {m : M (St σ) α} (h : Voiced o m) (w : World (St σ)) : (reply m w).Honest o w := by
  obtain ⟨cs, h1, h2, h3, h4⟩ := h w
  exact ⟨cs, h1, h2, saidSince_append h3, h4⟩

theorem Hush.bind {m : M (St σ) α} {k : α → M (St σ) β} (h : Hush m) (h' : ∀ a, Hush (k a)) : Hush (Run.bind m k) := by
  intro w
  unfold Run.bind
  have := h w
  generalize m w = mw at this ⊢
  obtain ⟨r, w'⟩ := mw
  cases r with
  | ok a => exact ⟨((h' a w').1).trans this.1, ((h' a w').2).trans this.2⟩
  | err e => exact this
  | panic => exact this
  | hang => exact this

theorem Hush.voicedBind {o : WarnOpts} {m : M (St σ) α} {k : α → M (St σ) β} (h : Hush m) (h' : ∀ a, Voiced o (k a)) : Voiced o (Run.bind m k) := by
  intro w
  unfold Run.bind
  have := h w
  generalize m w = mw at this ⊢
  obtain ⟨r, w'⟩ := mw
  have none : ∀ r' : Res Err β, ∃ cs : List WarnCall, (∀ c ∈ cs, OfFramework c) ∧
      w'.warns = WStates.after o w.warns (foreign cs) ∧ w'.out = w.out ++ (shownFor o w.warns (foreign cs)).map .warning ∧
      (NoneDenied o (foreign cs) ∨ EndsDenied o (foreign cs) ∧ r' = .err .denied) := fun r' =>
    ⟨[], nofun, this.1, by rw [this.2]; simp [foreign, shownFor_nil], Or.inl NoneDenied.nil⟩
  cases r with
  | ok a =>
    obtain ⟨cs, h1, h2, h3, h4⟩ := h' a w'
    dsimp only at this
    refine ⟨cs, h1, ?_, ?_, h4⟩
    · show (k a w').2.warns = _
      rw [h2, this.1]
    · show (k a w').2.out = _
      rw [h3, this.1, this.2]
  | err e => exact none _
  | panic => exact none _
  | hang => exact none _

theorem hush_ret (a : α) : Hush (ret a : M (St σ) α) := fun _ => ⟨rfl, rfl⟩
theorem hush_fail (e : Err) : Hush (fail e : M (St σ) α) := fun _ => ⟨rfl, rfl⟩
theorem hush_orPanic (a : Option α) : Hush (Run.orPanic a : M (St σ) α) := by
  cases a <;> exact fun _ => ⟨rfl, rfl⟩
theorem hush_prepare (c : Command) (p : Option Closure) : Hush (prepare c p : M (St σ) (Option Bool)) := fun _ => ⟨rfl, rfl⟩

theorem hush_inner {f : World σ → Reply σ α} (h : ∀ w, (f w).Mute w) : Hush (inner f) := fun w =>
  ⟨(h (forget w)).1, by show w.out ++ (f (forget w)).said.map .warning = _; rw [(h (forget w)).2]; simp⟩

variable {x : Around σ} (hx : x.Mute)
include hx

theorem hush_exists (n : Text) : Hush (exists? x n) := fun w =>
  ⟨(hx.exists_ (forget w) n).1, by show w.out ++ (x.exists_ (forget w) n).said.map .warning = _; rw [(hx.exists_ (forget w) n).2]; simp⟩

theorem hush_output (c : Command) : Hush (output x c) := fun w =>
  ⟨(hx.output (forget w) c).1, by show w.out ++ (x.output (forget w) c).said.map .warning = _; rw [(hx.output (forget w) c).2]; simp⟩

theorem hush_checked (c : Command) : Hush (checked x c) :=
  (hush_output hx c).bind fun o => by
    split
    · exact hush_ret _
    · exact hush_fail _

omit hx in
theorem hush_thenLetGo {keep : α → Bool} {m : M (St σ) α} (h : Hush m) : Hush (thenLetGo keep m) := fun w => by
  obtain ⟨s, hs⟩ := thenLetGo_run keep m w
  rw [hs]
  exact h w

omit hx in
theorem voiced_thenLetGo {o : WarnOpts} {keep : α → Bool} {m : M (St σ) α} (h : Voiced o m) : Voiced o (thenLetGo keep m) := fun w => by
  obtain ⟨s, hs⟩ := thenLetGo_run keep m w
  rw [hs]
  exact h w

omit hx in
theorem hush_letGo {m : M (St σ) α} (h : Hush m) : Hush (finally_ m letGo) := fun w => by
  obtain ⟨s, hs⟩ := finally_letGo m w
  rw [hs]
  exact h w

theorem hush_edit (f : SourceFile) (check : Bool) : Hush (edit x f check) := fun w => by
  unfold edit
  have := hush_inner (f := fun w => x.edit w (Anchor.script x.anchor (Rust.showPath (absolute x f)) check)) (fun w => hx.edit w _) w
  generalize inner _ w = R at this ⊢
  obtain ⟨r, w'⟩ := R
  cases r <;> exact this

theorem hush_anchorCheck (f : SourceFile) : Hush (anchorCheck x f) :=
  (hush_edit hx f true).bind fun _ => hush_letGo fun w => hush_checked hx _ w

theorem hush_installNode : Hush (installNode x) := by
  refine (hush_exists hx _).bind fun b => ?_
  split
  · exact hush_ret _
  · refine (hush_exists hx _).bind fun p => ?_
    refine Hush.bind ?_ fun c => hush_checked hx _
    split
    · exact hush_ret _
    · exact (hush_exists hx _).bind fun y => hush_ret _

theorem hush_start (i : Text) : Hush (start x i) := by
  intro w
  unfold start
  split
  · exact ⟨rfl, rfl⟩
  · rename_i n hn
    refine ⟨(hx.spawn (forget w) _).1, ?_⟩
    show w.out ++ (x.spawn (forget w) _).said.map .warning = _
    rw [(hx.spawn (forget w) _).2]; simp

theorem voiced_post : Voiced x.warn (post x) := by
  intro w
  unfold post
  split
  · rename_i c _ hc
    refine Hush.voicedBind (hush_inner hx.captured) (fun p w => ?_) w
    obtain ⟨stdout, status⟩ := p
    have hk1 : OfFramework (Exec.notRunCall (setup x c stdout)) := ⟨Or.inr (Or.inl rfl), rfl⟩
    have hk2 : ∀ k ∈ Exec.invalidCalls (setup x c stdout) (Exec.byteLines stdout), OfFramework k := by
      intro k hk
      obtain ⟨l, _, rfl⟩ := List.mem_map.1 hk
      exact ⟨Or.inl rfl, rfl⟩
    rcases Exec.postprocess_calls (s := setup x c stdout) stdout status ⟨[], w.warns⟩ with ⟨b, o', h1, h2, h3⟩ | ⟨cs, e, o', h1, h2, h3, h4⟩
    · refine ⟨_, ?_, ?_, ?_, Or.inl h3⟩
      · intro k hk
        rcases List.mem_append.1 hk with hk | hk
        · exact hk2 k hk
        · cases b with
          | true => cases hk
          | false => obtain rfl := List.mem_singleton.1 hk; exact hk1
      · dsimp only
        rw [h1]
        exact h2.warns
      · dsimp only
        rw [h1, h2.printed]; rfl
    · refine ⟨cs, ?_, ?_, ?_, ?_⟩
      · intro k hk
        rcases h3 k hk with rfl | hk
        · exact hk1
        · exact hk2 k hk
      · dsimp only
        rw [h1]
        exact h2.warns
      · dsimp only
        rw [h1, h2.printed]; rfl
      · dsimp only
        rw [h1]
        rcases h4 with h4 | ⟨rfl, h4⟩
        · exact Or.inl h4
        · exact Or.inr ⟨h4, rfl⟩
  · exact Hush.voiced (o := x.warn) (m := (fun w => (.ok true, w) : M (St σ) Bool)) (fun _ => ⟨rfl, rfl⟩) w
  · exact Hush.voiced (o := x.warn) (m := (fun w => (.panic, w) : M (St σ) Bool)) (fun _ => ⟨rfl, rfl⟩) w

omit hx in
theorem itExec_calls (t : Text) (span : Span) (c : Command) (w : World (St σ)) :
    ∃ cs : List WarnCall, (∀ k ∈ cs, k = ⟨.itMessageNotFound, some span.display, ItMessage.notFoundMsg (x.debug t), false⟩) ∧
      (itExec x t span c w).2.warns = WStates.after x.warn w.warns (foreign cs) ∧
      (itExec x t span c w).2.out = w.out ++ (shownFor x.warn w.warns (foreign cs)).map .warning ∧
      (NoneDenied x.warn (foreign cs) ∨ EndsDenied x.warn (foreign cs) ∧ (itExec x t span c w).1 = .err .denied) := by
  have none : ∃ cs : List WarnCall, (∀ k ∈ cs, k = ⟨.itMessageNotFound, some span.display, ItMessage.notFoundMsg (x.debug t), false⟩) ∧
      w.warns = WStates.after x.warn w.warns (foreign cs) ∧ w.out = w.out ++ (shownFor x.warn w.warns (foreign cs)).map .warning ∧
      NoneDenied x.warn (foreign cs) := ⟨[], nofun, rfl, by simp [foreign, shownFor_nil], NoneDenied.nil⟩
  obtain ⟨cs, g1, g2, g3, g4⟩ := none
  unfold itExec ItMessage.exec
  cases w.ext.it span.file with
  | none => exact ⟨cs, g1, g2, by simpa using g3, Or.inl g4⟩
  | some m =>
    dsimp only
    cases m t with
    | found => exact ⟨cs, g1, g2, by simpa [prepare] using g3, Or.inl g4⟩
    | warningEmitted => exact ⟨cs, g1, g2, by simpa using g3, Or.inl g4⟩
    | notFound =>
      dsimp only
      generalize hc : (⟨.itMessageNotFound, some span.display, ItMessage.notFoundMsg (x.debug t), false⟩ : WarnCall) = k
      have hall : k.warning ≠ .all := by subst hc; simp
      have ha : WStates.after x.warn w.warns (foreign [k]) = (warnInternal x.warn w.warns k).2 := rfl
      rcases internal_cases x.warn w.warns k hall with ⟨h1, ⟨m', h2⟩, h3⟩ | ⟨h1, h2, h3⟩ | ⟨h1, _, m', h2, h3⟩
      · rcases hw : warnInternal x.warn w.warns k with ⟨r, ws⟩
        rw [hw] at h2 ha
        dsimp only at h2
        subst h2
        exact ⟨[k], by simp, ha.symm, by rw [show shownFor x.warn w.warns (foreign [k]) = [] from h3], Or.inr ⟨⟨[], _, rfl, NoneDenied.nil, h1⟩, rfl⟩⟩
      all_goals
        have hn : NoneDenied x.warn (foreign [k]) := by
          intro i hi
          obtain rfl : i = ⟨k, false⟩ := by simpa [foreign] using hi
          exact h1
        rcases hw : warnInternal x.warn w.warns k with ⟨r, ws⟩
        rw [hw] at h2 ha
        dsimp only at h2
        subst h2
        exact ⟨[k], by simp, ha.symm, by rw [show shownFor x.warn w.warns (foreign [k]) = _ from h3] <;> try rfl, Or.inl hn⟩

omit hx in
theorem voiced_itExec (t : Text) (span : Span) (c : Command) : Voiced x.warn (itExec x t span c) := fun w => by
  obtain ⟨cs, h1, h2⟩ := itExec_calls t span c w
  exact ⟨cs, fun k hk => by rw [h1 k hk]; exact ⟨Or.inr (Or.inr rfl), rfl⟩, h2⟩

theorem hush_itDryRun (e : List UInt8 → Option (List Text)) (f : SourceFile) (c : Command) : Hush (itDryRun x e f c) :=
  (hush_output hx c).bind fun _ _ => ⟨rfl, rfl⟩

theorem hush_adapterExec (low : Low σ) (t : Text) (span : Span) : Hush (adapterExec x low t span) := by
  refine (hush_orPanic _).bind fun c => (hush_output hx _).bind fun o => ?_
  split
  · exact hush_ret _
  · refine (hush_orPanic _).bind fun p => ?_
    obtain ⟨c, final, pred⟩ := p
    cases pred with
    | none => exact hush_prepare _ _
    | some q => exact (hush_inner hx.temp).bind fun _ => hush_prepare _ _

theorem hush_install : Hush (go x).install ∧ Hush (php x).install ∧ Hush (foundry x).install ∧ ∀ caches, Hush (rust (σ := σ) caches).install := by
  refine ⟨hush_ret _, (hush_exists hx _).bind fun b => ?_, (hush_exists hx _).bind fun b => ?_, fun _ => hush_ret _⟩
  · split
    · exact hush_ret _
    · exact hush_checked hx _
  · split
    · exact hush_installNode hx
    · exact hush_ret _

/-- A framework says nothing but what it may say when a test is to be run. -/
structure SaysLittle (x : Around σ) (high : High σ) : Prop where
  dryRun : ∀ f, Hush (high.dryRun f)
  build : ∀ f, Hush (high.build f)
  exec : ∀ t s, Voiced x.warn (high.exec t s)

theorem adapter_little {low : Low σ} (h : Hush low.install) : SaysLittle x (adapter x low) where
  dryRun f := h.bind fun _ => (hush_orPanic _).bind fun c => hush_checked hx _
  build f := (hush_orPanic _).bind fun c => hush_checked hx _
  exec t s := (hush_adapterExec hx low t s).voiced

theorem hush_hardhatCompile : Hush (hardhatCompile x) := hush_checked hx _

theorem hardhat_little : SaysLittle x (hardhat x) where
  dryRun f := (hush_installNode hx).bind fun _ => (hush_hardhatCompile hx).bind fun _ => hush_itDryRun hx _ _ _
  build f := hush_hardhatCompile hx
  exec t s := by
    intro w
    have hc := hush_hardhatCompile hx w
    have e : (hardhat x).exec t s w = match hardhatCompile x w with
      | (.ok _, w) => itExec x t s (hardhatTest x s.file) w
      | (.err _, w) => (.ok none, w)
      | (.panic, w) => (.panic, w)
      | (.hang, w) => (.hang, w) := rfl
    rw [e]
    generalize hardhatCompile x w = mw at hc ⊢
    obtain ⟨r, w'⟩ := mw
    have none : ∀ r' : Res Err (Option Bool), ∃ cs : List WarnCall, (∀ c ∈ cs, OfFramework c) ∧
        w'.warns = WStates.after x.warn w.warns (foreign cs) ∧ w'.out = w.out ++ (shownFor x.warn w.warns (foreign cs)).map .warning ∧
        (NoneDenied x.warn (foreign cs) ∨ EndsDenied x.warn (foreign cs) ∧ r' = .err .denied) := fun r' =>
      ⟨[], nofun, hc.1, by rw [hc.2]; simp [foreign, shownFor_nil], Or.inl NoneDenied.nil⟩
    cases r with
    | ok a =>
      obtain ⟨cs, h1, h2, h3, h4⟩ := voiced_itExec (x := x) t s (hardhatTest x s.file) w'
      dsimp only at hc
      exact ⟨cs, h1, by rw [← hc.1]; exact h2, by rw [← hc.1, ← hc.2]; exact h3, h4⟩
    | err e => exact none _
    | panic => exact none _
    | hang => exact none _

theorem vitest_little (parse : Text → Option Json) : SaysLittle x (vitest x parse) where
  dryRun f := (hush_installNode hx).bind fun _ => hush_itDryRun hx _ _ _
  build f := hush_checked hx _
  exec t s := voiced_itExec t s _

theorem anchor_little (parse : Text → Option Json) : SaysLittle x (anchor x parse) where
  dryRun f := (hush_installNode hx).bind fun _ => (hush_anchorCheck hx f).bind fun _ =>
    (hush_edit hx f false).bind fun _ => hush_letGo fun w => hush_itDryRun hx _ _ _ w
  build f := hush_anchorCheck hx f
  exec t s := by
    intro w
    have hc := hush_anchorCheck hx s.file w
    dsimp only [anchor]
    generalize anchorCheck x s.file w = mw at hc ⊢
    obtain ⟨r, w'⟩ := mw
    have none : ∀ r' : Res Err (Option Bool), ∃ cs : List WarnCall, (∀ c ∈ cs, OfFramework c) ∧
        w'.warns = WStates.after x.warn w.warns (foreign cs) ∧ w'.out = w.out ++ (shownFor x.warn w.warns (foreign cs)).map .warning ∧
        (NoneDenied x.warn (foreign cs) ∨ EndsDenied x.warn (foreign cs) ∧ r' = .err .denied) := fun r' =>
      ⟨[], nofun, hc.1, by rw [hc.2]; simp [foreign, shownFor_nil], Or.inl NoneDenied.nil⟩
    cases r with
    | ok a =>
      have key : Voiced x.warn (Run.bind (edit x s.file false) (fun _ w =>
          match itExec x t s (anchorTest x Option.none) w with
          | (.ok (some _), w) => (.ok (some true), { w with ext := { w.ext with next := some ⟨anchorTest x Option.none, Option.none, true⟩ } })
          | (.hang, w) => (.hang, w)
          | (r, w) => (r, letGo w))) := by
        refine (hush_edit hx s.file false).voicedBind fun _ w => ?_
        obtain ⟨cs, h1, h2, h3, h4⟩ := voiced_itExec (x := x) t s (anchorTest x Option.none) w
        generalize itExec x t s (anchorTest x Option.none) w = R at h2 h3 h4 ⊢
        obtain ⟨r, w'⟩ := R
        refine ⟨cs, h1, ?_⟩
        cases r with
        | ok a => cases a with
          | none => exact ⟨h2, h3, h4⟩
          | some b => exact ⟨h2, h3, h4.imp id fun h => ⟨h.1, nomatch h.2⟩⟩
        | err e => exact ⟨h2, h3, h4⟩
        | panic => exact ⟨h2, h3, h4⟩
        | hang => exact ⟨h2, h3, h4⟩
      obtain ⟨cs, h1, h2, h3, h4⟩ := key w'
      dsimp only at hc
      exact ⟨cs, h1, by rw [← hc.1]; exact h2, by rw [← hc.1, ← hc.2]; exact h3, h4⟩
    | err e => exact none _
    | panic => exact none _
    | hang => exact none _

theorem highOf_little (caches : Rust.Caches) (parse : Text → Option Json) (i : Framework.Identifier) : SaysLittle x (highOf x caches parse i) := by
  obtain ⟨h1, h2, h3, h4⟩ := hush_install hx
  cases i
  · exact anchor_little hx parse
  · exact adapter_little hx h3
  · exact adapter_little hx h1
  · exact hardhat_little hx
  · exact adapter_little hx h2
  · exact adapter_little hx (h4 caches)
  · exact vitest_little hx parse

/-- What a framework says takes account of the warnings it gives. -/
theorem honest {high : High σ} (h : SaysLittle x high) : Honest x.warn (inRun x high) where
  dryRun w f := (h.dryRun f).mute w
  backup w f := ((hush_inner fun w => hx.backup w f).mute w).honest
  instrFile w f n := ((hush_inner fun w => hx.instrFile w f n).mute w).honest
  wrap w s := ((hush_inner fun w => hx.wrap w s).mute w).honest
  build w f := (h.build f).mute w
  exec w t s := (h.exec t s).honest w
  start w _ _ i := ((hush_thenLetGo (hush_start hx i)).mute w).honest
  post w := (voiced_thenLetGo (voiced_post hx)).honest w
  kill w := ((hush_thenLetGo (hush_inner hx.kill)).mute w).honest
  reap w := ((hush_thenLetGo (hush_inner hx.reap)).mute w).honest
  insert w s := ((hush_inner fun w => hx.insert w s).mute w).honest

end Cmd
end Necessist
