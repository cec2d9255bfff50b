import Verif.Lemmas.RunFrame
import Verif.Spec.Run
import Verif.Props.Text
import Verif.Props.Instrument
/-! C01–C03: what a run does to the source files. -/
namespace Necessist.Run

variable {σ : Type}

/-- Internal: what holds of the files at each event. `A` are the files whose dry runs succeeded, `B` those whose
dry runs failed. -/
def SnapOk (env : Env σ) (cfg : Cfg) (orig : SourceFile → Text) (A B : List SourceFile) (s : Snap) : Prop :=
  (∃ f, OnlyDiffersAt f orig s.fs) ∧ (∀ g, s.fs g ≠ orig g → g ∈ A) ∧
  match s.event with
  | .dryRun _ => s.fs = orig
  | .dryRunFailed f => s.fs = orig ∧ f ∈ B
  | .buildFile f | .buildFailed f => OnlyDiffersAt f orig s.fs ∧ f ∈ A
  | .startTest c _ var => (OneRemoval env cfg.src orig c s.fs ∧ c.span.file ∈ A) ∧ var = cfg.ident c.span
  | .buildTest c _ | .kill c _ | .tested c _ _ => OneRemoval env cfg.src orig c s.fs ∧ c.span.file ∈ A
  | .ctrlc _ | .insert _ => True

theorem SnapOk.mono {env : Env σ} {cfg : Cfg} {orig : SourceFile → Text} {A B A' B' : List SourceFile} {s : Snap}
    (hA : ∀ f ∈ A, f ∈ A') (hB : ∀ f ∈ B, f ∈ B') (h : SnapOk env cfg orig A B s) : SnapOk env cfg orig A' B' s := by
  obtain ⟨h1, h2, h3⟩ := h
  refine ⟨h1, fun g hg => hA g (h2 g hg), ?_⟩
  obtain ⟨e, fs⟩ := s
  cases e with
  | dryRun => exact h3
  | dryRunFailed f => exact ⟨h3.1, hB _ h3.2⟩
  | buildFile f => exact ⟨h3.1, hA _ h3.2⟩
  | buildFailed f => exact ⟨h3.1, hA _ h3.2⟩
  | startTest c t v => exact ⟨⟨h3.1.1, hA _ h3.1.2⟩, h3.2⟩
  | buildTest c t => exact ⟨h3.1, hA _ h3.2⟩
  | kill c t => exact ⟨h3.1, hA _ h3.2⟩
  | tested c t r => exact ⟨h3.1, hA _ h3.2⟩
  | ctrlc => trivial
  | insert => trivial

section
variable (env : Env σ) (cfg : Cfg) (orig : SourceFile → Text) (A B : List SourceFile)

private def TG (w : World σ) : Prop := ∀ s ∈ w.trace, SnapOk env cfg orig A B s

private def Fix (F : SourceFile → Text) (i : Option (SourceFile × Text)) (w : World σ) : Prop :=
  TG env cfg orig A B w ∧ w.fs = F ∧ w.instr = i

/-- when not finishing -/
private def Hg (w : World σ) : Prop := TG env cfg orig A B w ∧ (∃ f, OnlyDiffersAt f orig w.fs) ∧ ∀ g, w.fs g ≠ orig g → g ∈ A

private theorem fixFrame (F : SourceFile → Text) (i : Option (SourceFile × Text)) (hd : ∃ f, OnlyDiffersAt f orig F)
    (hA : ∀ g, F g ≠ orig g → g ∈ A) :
    Frame (Fix env cfg orig A B F i) (fun _ => Fix env cfg orig A B F i) (Hg env cfg orig A B)
      (fun e => SnapOk env cfg orig A B ⟨e, F⟩) where
  aux w a b c d e g h := h
  note w e he h := by
    obtain ⟨h1, h2, h3⟩ := h
    refine ⟨?_, h2, h3⟩
    intro s hs
    rcases List.mem_append.1 hs with hs | hs
    · exact h1 s hs
    · rw [List.mem_singleton.1 hs, h2]; exact he
  err w e h := h
  hang w h := ⟨h.1, by rw [h.2.1]; exact hd, by rw [h.2.1]; exact hA⟩
  ctrlc w h := by
    obtain ⟨h1, h2, h3⟩ := h
    refine ⟨?_, h2, h3⟩
    intro s hs
    rcases List.mem_append.1 hs with hs | hs
    · exact h1 s hs
    · rw [List.mem_singleton.1 hs, h2]; exact ⟨hd, hA, trivial⟩

private theorem upd_self (g : SourceFile → Text) (f : SourceFile) : upd g f (g f) = g := by
  funext x; unfold upd; split <;> simp_all

private theorem upd_same (g : SourceFile → Text) (f : SourceFile) (t : Text) : upd g f t f = t := by simp [upd]

private theorem onlyDiffers_refl (f : SourceFile) : OnlyDiffersAt f orig orig := fun _ _ => rfl

private theorem onlyDiffers_upd {f : SourceFile} {F : SourceFile → Text} (t : Text) (h : OnlyDiffersAt f orig F) :
    OnlyDiffersAt f orig (upd F f t) := fun g hg => by simp [upd, hg, h g hg]

private theorem restore_eq {f : SourceFile} {F : SourceFile → Text} (h : OnlyDiffersAt f orig F) :
    upd F f (orig f) = orig := by
  funext x
  by_cases hx : x = f
  · subst hx; simp [upd]
  · simp [upd, hx, h x hx]

private theorem differs_mem {F : SourceFile → Text} {f : SourceFile} (hf : f ∈ A) (h : OnlyDiffersAt f orig F)
    (g : SourceFile) (hg : F g ≠ orig g) : g ∈ A := by
  by_cases hgf : g = f
  · rw [hgf]; exact hf
  · exact absurd (h g hgf) hg

private theorem same_mem (g : SourceFile) (hg : orig g ≠ orig g) : g ∈ A := absurd rfl hg

private theorem testEvents_ok {F : SourceFile → Text} {c : Candidate} (hf : c.span.file ∈ A)
    (h : OneRemoval env cfg.src orig c F) (e : Event) (he : TestEvent cfg c e) :
    SnapOk env cfg orig A B ⟨e, F⟩ := by
  refine ⟨⟨_, h.1⟩, differs_mem orig A hf h.1, ?_⟩
  cases e <;> simp only [TestEvent] at he
  · subst he; exact ⟨h, hf⟩
  · obtain ⟨rfl, rfl⟩ := he; exact ⟨⟨h, hf⟩, rfl⟩
  · subst he; exact ⟨h, hf⟩
  · subst he; exact ⟨h, hf⟩

/-- state while a file is being processed -/
private def InstrSt (f : SourceFile) (cs : List Candidate) (w : World σ) : Prop :=
  TG env cfg orig A B w ∧ OnlyDiffersAt f orig w.fs ∧ w.instr = some (f, orig f) ∧
    ∀ c ∈ cs, c.kind = .statement → CandidateInstrumented env c (cfg.src f) (w.fs f)

private def Clean (w : World σ) : Prop := Fix env cfg orig A B orig none w

/-- state in which `dropInstr` restores everything -/
private def Rest (f : SourceFile) (w : World σ) : Prop :=
  Clean env cfg orig A B w ∨ TG env cfg orig A B w ∧ OnlyDiffersAt f orig w.fs ∧ w.instr = some (f, orig f)

private theorem rest_drop {f : SourceFile} {w : World σ} (h : Rest env cfg orig A B f w) :
    Clean env cfg orig A B (dropInstr w) := by
  unfold dropInstr
  rcases h with h | ⟨h1, h2, h3⟩
  · rw [h.2.2]; exact h
  · rw [h3]
    exact ⟨h1, restore_eq orig h2, rfl⟩

private theorem triExplicit (c : Candidate) (text : Text) (hf : c.span.file ∈ A) :
    Tri (Clean env cfg orig A B) (removeAndTest cfg env c text)
      (fun _ => Clean env cfg orig A B) (fun _ => Clean env cfg orig A B) (Hg env cfg orig A B) := by
  have F0 := fixFrame env cfg orig A B orig none ⟨c.span.file, onlyDiffers_refl orig _⟩ (same_mem orig A)
  refine Tri.bind (R := fun _ => Clean env cfg orig A B) (F0.triAsk _) fun _ => ?_
  intro w hw
  have hwf : w.fs c.span.file = orig c.span.file := by rw [hw.2.1]
  let J : World σ → Prop := fun w => TG env cfg orig A B w ∧ OnlyDiffersAt c.span.file orig w.fs ∧ w.instr = none
  have hJ : ∀ w', J w' → Clean env cfg orig A B { w' with fs := upd w'.fs c.span.file (w.fs c.span.file) } := by
    intro w' h
    refine ⟨h.1, ?_, h.2.2⟩
    rw [hwf]
    exact restore_eq orig h.2.1
  have key : Tri (Clean env cfg orig A B)
      (bind (orPanic (removeText? (cfg.src c.span.file) c.span.start c.span.stop)) fun x =>
          bind (writeFile env c.span.file x.2) fun _ => testAndRecord cfg env c text true)
      (fun _ => J) (fun _ => J) (Hg env cfg orig A B) := by
    have hC : ∀ w, Clean env cfg orig A B w → J w := by
      intro w h
      exact ⟨h.1, by rw [h.2.1]; exact onlyDiffers_refl orig _, h.2.2⟩
    refine Tri.bind ((F0.triOrPanic _).weaken (fun _ h => h) (fun _ _ h => h) (fun _ w h => hC w h)
      (fun _ h => h)) fun x => ?_
    rintro w ⟨hx, hw⟩
    have hdel : OneRemoval env cfg.src orig c (upd orig c.span.file x.2) := by
      refine ⟨onlyDiffers_upd orig _ (onlyDiffers_refl orig _), Or.inl ?_⟩
      rw [upd_same]
      obtain ⟨pre, suf, h1, h2⟩ := (C04_remove_exact _ _ _ x.1 x.2).1 hx
      exact ⟨pre, x.1, suf, h1, h2⟩
    refine Tri.bind (P := Clean env cfg orig A B)
      (R := fun _ => Fix env cfg orig A B (upd orig c.span.file x.2) none) ?_ (fun _ => ?_) w hw
    · intro w hw
      unfold writeFile
      rcases env.write w c.span.file x.2 with ⟨_ | left, ext⟩
      · exact ⟨hw.1, by dsimp only; rw [hw.2.1], hw.2.2⟩
      · exact ⟨hw.1, by dsimp only; rw [hw.2.1]; exact onlyDiffers_upd orig _ (onlyDiffers_refl orig _), hw.2.2⟩
    · have F1 := fixFrame env cfg orig A B (upd orig c.span.file x.2) none ⟨_, hdel.1⟩ (differs_mem orig A hf hdel.1)
      refine (F1.triTestAndRecord cfg env c text true (testEvents_ok env cfg orig A B hf hdel)
        ⟨⟨_, hdel.1⟩, differs_mem orig A hf hdel.1, trivial⟩
        (fun r => ⟨⟨_, hdel.1⟩, differs_mem orig A hf hdel.1, trivial⟩)).weaken (fun _ h => h) ?_ ?_ (fun _ h => h)
      · intro _ w h; exact ⟨h.1, by rw [h.2.1]; exact hdel.1, h.2.2⟩
      · intro _ w h; exact ⟨h.1, by rw [h.2.1]; exact hdel.1, h.2.2⟩
  exact Tri.finally key (fun _ w' h => hJ w' h) (fun _ w' h => hJ w' h) w hw

private theorem triOneCandidate (f : SourceFile) (c : Candidate) (rest : List Candidate) (hf : c.span.file = f)
    (hmem : f ∈ A) (hok : c.kind ≠ .statement → ∀ c' ∈ rest, c'.kind ≠ .statement) :
    Tri (fun w => Clean env cfg orig A B w ∨ InstrSt env cfg orig A B f (c :: rest) w) (oneCandidate cfg env c)
      (fun _ w => Clean env cfg orig A B w ∨ InstrSt env cfg orig A B f rest w)
      (fun _ => Rest env cfg orig A B f) (Hg env cfg orig A B) := by
  subst hf
  intro w hw
  have F0 := fixFrame env cfg orig A B orig none ⟨c.span.file, onlyDiffers_refl orig _⟩ (same_mem orig A)
  have hclean : Tri (Clean env cfg orig A B) (candidateBody cfg env c)
      (fun _ w' => Clean env cfg orig A B w' ∨ InstrSt env cfg orig A B c.span.file rest w')
      (fun _ => Rest env cfg orig A B c.span.file) (Hg env cfg orig A B) := by
    intro w hw
    refine Tri.bind (P := Clean env cfg orig A B) (E := fun _ => Rest env cfg orig A B c.span.file)
      (Q := fun _ w' => Clean env cfg orig A B w' ∨ InstrSt env cfg orig A B c.span.file rest w')
      ((F0.triOrPanic _).weaken (fun _ h => h) (fun _ _ h => h)
      (fun _ w h => Or.inl h) (fun _ h => h)) (fun text => ?_) w hw
    rintro w ⟨-, hw⟩
    have hi : w.instr = none := hw.2.2
    dsimp only
    rw [if_pos (Or.inl hi)]
    exact ((triExplicit env cfg orig A B c text hmem).weaken (fun _ h => h) (fun _ _ h => Or.inl h)
      (fun _ _ h => Or.inl h) (fun _ h => h)) w hw
  unfold oneCandidate
  by_cases hk : c.kind = .statement
  · rw [if_neg (by simp [hk])]
    rcases hw with hw | hw
    · exact hclean w hw
    · obtain ⟨h1, h2, h3, h4⟩ := hw
      have hone : OneRemoval env cfg.src orig c w.fs := ⟨h2, Or.inr ⟨hk, h4 c (by simp) hk⟩⟩
      have F1 := fixFrame env cfg orig A B w.fs (some (c.span.file, orig c.span.file)) ⟨_, h2⟩
        (differs_mem orig A hmem h2)
      have hfix : ∀ w', Fix env cfg orig A B w.fs (some (c.span.file, orig c.span.file)) w' →
          TG env cfg orig A B w' ∧ OnlyDiffersAt c.span.file orig w'.fs ∧
            w'.instr = some (c.span.file, orig c.span.file) := by
        intro w' h; exact ⟨h.1, by rw [h.2.1]; exact h2, h.2.2⟩
      refine Tri.bind (P := Fix env cfg orig A B w.fs (some (c.span.file, orig c.span.file)))
        (E := fun _ => Rest env cfg orig A B c.span.file)
        (Q := fun _ w' => Clean env cfg orig A B w' ∨ InstrSt env cfg orig A B c.span.file rest w')
        ((F1.triOrPanic _).weaken (fun _ h => h) (fun _ _ h => h)
        (fun _ w h => Or.inr (hfix w h)) (fun _ h => h)) (fun text => ?_) w ⟨h1, rfl, h3⟩
      rintro w' ⟨-, hw'⟩
      have hi := hw'.2.2
      dsimp only
      rw [if_neg (by simp [hi, hk])]
      refine ((F1.triTestAndRecord cfg env c text false (testEvents_ok env cfg orig A B hmem hone)
        ⟨⟨_, h2⟩, differs_mem orig A hmem h2, trivial⟩ (fun r => ⟨⟨_, h2⟩, differs_mem orig A hmem h2, trivial⟩)).weaken (fun _ h => h) ?_ ?_ (fun _ h => h)) w' hw'
      · intro _ w' h
        obtain ⟨k1, k2, k3⟩ := hfix w' h
        exact Or.inr ⟨k1, k2, k3, fun c' hc' hk' => by rw [h.2.1]; exact h4 c' (by simp [hc']) hk'⟩
      · intro _ w' h; exact Or.inr (hfix w' h)
  · rw [if_pos hk]
    refine hclean _ ?_
    refine rest_drop env cfg orig A B (f := c.span.file) ?_
    rcases hw with hw | ⟨h1, h2, h3, -⟩
    · exact Or.inl hw
    · exact Or.inr ⟨h1, h2, h3⟩

private theorem statementsFirst_tail {cs : List Candidate}
    (h : ∃ ss ms, cs = ss ++ ms ∧ (∀ c ∈ ss, c.kind = .statement) ∧ ∀ c ∈ ms, c.kind ≠ .statement)
    (s : List Candidate) (hs : s <:+ cs) :
    ∃ ss ms, s = ss ++ ms ∧ (∀ c ∈ ss, c.kind = .statement) ∧ ∀ c ∈ ms, c.kind ≠ .statement := by
  obtain ⟨ss, ms, rfl, h1, h2⟩ := h
  obtain ⟨p, hp⟩ := hs
  rcases List.append_eq_append_iff.1 hp with ⟨a, rfl, hb⟩ | ⟨a, rfl, hb⟩
  · exact ⟨a, ms, hb, fun c hc => h1 c (by simp [hc]), h2⟩
  · exact ⟨[], s, rfl, by simp, fun c hc => h2 c (by rw [hb]; simp [hc])⟩

theorem skipPast_suffix (mm cs past) : (skipPast mm cs past).rest <:+ cs := by
  fun_induction skipPast mm cs past with
  | case4 mm c cs r past _ s ih => exact ih.trans (List.suffix_cons _ _)
  | case5 mm c cs r past _ ih => exact ih
  | _ => simp

theorem FileOk.suffix {f : SourceFile} {cs s : List Candidate} (h : FileOk f cs) (hs : s <:+ cs) : FileOk f s :=
  ⟨fun c hc => h.1 c (hs.subset hc), statementsFirst_tail h.2 s hs⟩

private theorem fileOk_head {f : SourceFile} {c : Candidate} {rest : List Candidate} (h : FileOk f (c :: rest)) :
    c.kind ≠ .statement → ∀ c' ∈ rest, c'.kind ≠ .statement := by
  intro hk
  obtain ⟨-, ss, ms, he, h1, h2⟩ := h
  cases ss with
  | nil =>
    intro c' hc'
    exact h2 c' (by rw [← List.nil_append ms, ← he]; simp [hc'])
  | cons a ss =>
    simp only [List.cons_append, List.cons.injEq] at he
    exact absurd (h1 c (by simp [he.1])) hk

private theorem triCandidateLoop (f : SourceFile) (hmem : f ∈ A) (cs : List Candidate) :
    Tri (fun w => FileOk f cs ∧ (Clean env cfg orig A B w ∨ InstrSt env cfg orig A B f cs w))
      (candidateLoop cfg env cs)
      (fun _ => Rest env cfg orig A B f) (fun _ => Rest env cfg orig A B f) (Hg env cfg orig A B) := by
  have hR : ∀ cs w, Clean env cfg orig A B w ∨ InstrSt env cfg orig A B f cs w → Rest env cfg orig A B f w := by
    rintro cs w (h | ⟨h1, h2, h3, -⟩)
    · exact Or.inl h
    · exact Or.inr ⟨h1, h2, h3⟩
  refine Tri.candidateLoop
    (P := fun cs w => FileOk f cs ∧ (Clean env cfg orig A B w ∨ InstrSt env cfg orig A B f cs w)) ?_ ?_ ?_ cs
  · rintro cs w ⟨hok, hw⟩
    have hsuf := skipPast_suffix none cs w.past
    rcases hw with hw | hw
    · have F0 := fixFrame env cfg orig A B orig none ⟨f, onlyDiffers_refl orig _⟩ (same_mem orig A)
      exact ((F0.triSkipPastM cfg _).weaken (fun _ h => h) (fun _ _ h => ⟨hok.suffix hsuf, Or.inl h⟩)
        (fun _ _ h => Or.inl h) (fun _ h => h)) w hw
    · obtain ⟨h1, h2, h3, h4⟩ := hw
      have F1 := fixFrame env cfg orig A B w.fs (some (f, orig f)) ⟨f, h2⟩ (differs_mem orig A hmem h2)
      refine ((F1.triSkipPastM cfg _).weaken (fun _ h => h) (fun _ w' h => ⟨hok.suffix hsuf, Or.inr ?_⟩)
        (fun _ w' h => ?_) (fun _ h => h)) w ⟨h1, rfl, h3⟩
      · exact Or.inr ⟨h.1, by rw [h.2.1]; exact h2, h.2.2⟩
      · refine ⟨h.1, by rw [h.2.1]; exact h2, h.2.2, fun c hc hk => ?_⟩
        rw [h.2.1]; exact h4 c (hsuf.subset hc) hk
  · rintro w ⟨-, hw⟩; exact hR _ w hw
  · intro c rest w ⟨hok, hw⟩
    exact ((triOneCandidate env cfg orig A B f c rest (hok.1 c (by simp)) hmem (fileOk_head hok)).weaken
      (fun _ h => h) (fun _ _ h => ⟨hok.suffix (List.suffix_cons _ _), h⟩) (fun _ _ h => h) (fun _ h => h)) w hw

private theorem requested_mem {w : Wrap} {ws : List Wrap} (h : w ∈ ws) :
    (w.start, w.pre) ∈ requested ws ∧ (w.stop, w.suf) ∈ requested ws := by
  unfold requested
  constructor <;> exact List.mem_flatMap.2 ⟨w, h, by simp⟩

private theorem triInstrument (f : SourceFile) (hmem : f ∈ A) (cs : List Candidate) (hok : FileOk f cs) :
    Tri (Clean env cfg orig A B) (instrumentStatements cfg env f cs)
      (fun _ w => Clean env cfg orig A B w ∨ InstrSt env cfg orig A B f cs w)
      (fun _ => Rest env cfg orig A B f) (Hg env cfg orig A B) := by
  have F0 := fixFrame env cfg orig A B orig none ⟨f, onlyDiffers_refl orig _⟩ (same_mem orig A)
  refine Tri.bind (R := fun _ => Clean env cfg orig A B) ((F0.triAsk _).weaken (fun _ h => h) (fun _ _ h => h)
    (fun _ _ h => Or.inl h) (fun _ h => h)) fun _ => ?_
  -- the body leaves at most `f` changed
  let J : World σ → Prop := fun w => TG env cfg orig A B w ∧ OnlyDiffersAt f orig w.fs ∧ w.instr = none
  have hC : ∀ w, Clean env cfg orig A B w → J w := by
    intro w h
    exact ⟨h.1, by rw [h.2.1]; exact onlyDiffers_refl orig _, h.2.2⟩
  have key : Tri (Clean env cfg orig A B) (instrumentBody cfg env f cs)
      (fun b w => J w ∧ (b = true → ∀ c ∈ cs, c.kind = .statement →
        CandidateInstrumented env c (cfg.src f) (w.fs f)))
      (fun _ => J) (Hg env cfg orig A B) := by
    refine Tri.bind (R := fun _ => Clean env cfg orig A B) ((F0.triAsk _).weaken (fun _ h => h) (fun _ _ h => h)
      (fun _ _ h => hC _ h) (fun _ h => h)) fun pre => ?_
    refine Tri.bind ((F0.triWraps env _).weaken (fun _ h => h) (fun _ _ h => h)
      (fun _ _ h => hC _ h) (fun _ h => h)) fun ws => ?_
    rintro w ⟨hw, hws⟩
    refine Tri.bind (P := Clean env cfg orig A B) ((F0.triOrPanic _).weaken (fun _ h => h) (fun _ _ h => h)
      (fun _ _ h => hC _ h) (fun _ h => h)) (fun out => ?_) w hw
    rintro w ⟨hout, hw⟩
    have hins : ∀ c ∈ cs, c.kind = .statement → CandidateInstrumented env c (cfg.src f) out := by
      intro c hc hk
      have hlead : c ∈ leadingStatements cs := by
        obtain ⟨-, ss, ms, rfl, h1, h2⟩ := hok
        rcases List.mem_append.1 hc with hc | hc
        · unfold leadingStatements
          rw [List.takeWhile_append_of_pos (fun c hc => by simp [h1 c hc])]
          simp [hc]
        · exact absurd hk (h2 c hc)
      obtain ⟨p, s, h1, h2⟩ := hws c hlead
      have := requested_mem h1
      exact ⟨pre ++ requested ws, p, s, C05_only_insertions _ _ _ _ hout, by simp [this.1], by simp [this.2], h2⟩
    refine Tri.bind (P := Clean env cfg orig A B)
      (R := fun _ => Fix env cfg orig A B (upd orig f out) none) ?_ (fun _ => ?_) w hw
    · intro w hw
      unfold writeFile
      rcases env.write w f out with ⟨_ | left, ext⟩
      · exact ⟨hw.1, by dsimp only; rw [hw.2.1], hw.2.2⟩
      · exact ⟨hw.1, by dsimp only; rw [hw.2.1]; exact onlyDiffers_upd orig _ (onlyDiffers_refl orig _), hw.2.2⟩
    · have hd : OnlyDiffersAt f orig (upd orig f out) := onlyDiffers_upd orig _ (onlyDiffers_refl orig _)
      have F1 := fixFrame env cfg orig A B (upd orig f out) none ⟨f, hd⟩ (differs_mem orig A hmem hd)
      have hJ : ∀ w, Fix env cfg orig A B (upd orig f out) none w → J w :=
        fun w h => ⟨h.1, by rw [h.2.1]; exact hd, h.2.2⟩
      have lift : ∀ {α : Type} {m : M σ α} {R : α → World σ → Prop},
          Tri (Fix env cfg orig A B (upd orig f out) none) m R
            (fun _ => Fix env cfg orig A B (upd orig f out) none) (Hg env cfg orig A B) →
          Tri (Fix env cfg orig A B (upd orig f out) none) m R (fun _ => J) (Hg env cfg orig A B) :=
        fun h => h.weaken (fun _ h => h) (fun _ _ h => h) (fun _ _ h => hJ _ h) (fun _ h => h)
      refine Tri.bind (lift (F1.triNote (e := .buildFile f) ⟨⟨f, hd⟩, differs_mem orig A hmem hd, hd, hmem⟩)) fun _ => ?_
      refine Tri.bind (lift (F1.triAskTry _)) fun r => ?_
      cases r with
      | ok _ =>
        refine Tri.ret _ fun w h => ⟨hJ w h, fun _ c hc hk => ?_⟩
        rw [h.2.1, upd_same]; exact hins c hc hk
      | error _ =>
        refine Tri.bind (lift (F1.triNote (e := .buildFailed f) ⟨⟨f, hd⟩, differs_mem orig A hmem hd, hd, hmem⟩)) fun _ => ?_
        refine Tri.bind (lift (F1.triWarnM cfg _)) fun _ => ?_
        exact Tri.ret _ fun w h => ⟨hJ w h, fun h => by cases h⟩
  intro w hw
  have hwf : w.fs f = orig f := by rw [hw.2.1]
  have hback : ∀ w', J w' → Clean env cfg orig A B { w' with fs := upd w'.fs f (w.fs f) } := by
    intro w' h
    exact ⟨h.1, by rw [hwf]; exact restore_eq orig h.2.1, h.2.2⟩
  have := key w hw
  dsimp only
  rcases hm : instrumentBody cfg env f cs w with ⟨r, w'⟩
  rw [hm] at this
  rcases r with (_ | _) | _ | _ | _
  · exact Or.inl (hback w' this.1)
  · refine Or.inr ⟨this.1.1, this.1.2.1, ?_, this.2 rfl⟩
    dsimp only; rw [hwf]
  · exact Or.inl (hback w' this)
  · exact Or.inl (hback w' this)
  · exact this

private theorem clean_mono {A' B' : List SourceFile} (hA : ∀ f ∈ A, f ∈ A') (hB : ∀ f ∈ B, f ∈ B') {w : World σ}
    (h : Clean env cfg orig A B w) : Clean env cfg orig A' B' w :=
  ⟨fun s hs => (h.1 s hs).mono hA hB, h.2⟩

private theorem hg_mono {A' B' : List SourceFile} (hA : ∀ f ∈ A, f ∈ A') (hB : ∀ f ∈ B, f ∈ B') {w : World σ}
    (h : Hg env cfg orig A B w) : Hg env cfg orig A' B' w :=
  ⟨fun s hs => (h.1 s hs).mono hA hB, h.2.1, fun g hg => hA g (h.2.2 g hg)⟩

/-- one file succeeds or fails its dry run -/
private def Either (f : SourceFile) (X : List SourceFile → List SourceFile → World σ → Prop) (w : World σ) : Prop :=
  X (f :: A) B w ∨ X A (f :: B) w

private theorem triOneFile (f : SourceFile) (cs : List Candidate) (hok : FileOk f cs) :
    Tri (Clean env cfg orig A B) (oneFile cfg env f cs)
      (fun _ => Either A B f (Clean env cfg orig)) (fun _ => Either A B f (Clean env cfg orig))
      (Either A B f (Hg env cfg orig)) := by
  have hd := onlyDiffers_refl orig f
  have F0 := fixFrame env cfg orig A B orig none ⟨f, hd⟩ (same_mem orig A)
  have hc : ∀ A B, SnapOk env cfg orig A B ⟨.ctrlc false, orig⟩ := fun A B => ⟨⟨f, hd⟩, same_mem orig A, trivial⟩
  have lift : ∀ {α : Type} {m : M σ α} {R : α → World σ → Prop},
      Tri (Clean env cfg orig A B) m R (fun _ => Clean env cfg orig A B) (Hg env cfg orig A B) →
      Tri (Clean env cfg orig A B) m R (fun _ => Either A B f (Clean env cfg orig)) (Either A B f (Hg env cfg orig)) :=
    fun h => h.weaken (fun _ h => h) (fun _ _ h => h)
      (fun _ _ h => Or.inl (clean_mono env cfg orig A B (fun _ h => by simp [h]) (fun _ h => h) h))
      (fun _ h => Or.inl (hg_mono env cfg orig A B (fun _ h => by simp [h]) (fun _ h => h) h))
  refine Tri.bind (lift (F0.triSay cfg _)) fun _ => ?_
  refine Tri.bind (lift (F0.triNote (e := .dryRun f) ⟨⟨f, hd⟩, same_mem orig A, rfl⟩)) fun _ => ?_
  refine Tri.bind (lift (F0.triAskTry _)) fun r => ?_
  cases r with
  | error _ =>
    have F1 := fixFrame env cfg orig A (f :: B) orig none ⟨f, hd⟩ (same_mem orig A)
    refine Tri.weaken (Q := fun _ => Clean env cfg orig A (f :: B)) (E := fun _ => Clean env cfg orig A (f :: B))
      (H := Hg env cfg orig A (f :: B)) (P := Clean env cfg orig A (f :: B)) ?_
      (fun _ h => clean_mono env cfg orig A B (fun _ h => h) (fun _ h => by simp [h]) h)
      (fun _ _ h => Or.inr h) (fun _ _ h => Or.inr h) (fun _ h => Or.inr h)
    refine Tri.bind (F1.triNote (e := .dryRunFailed f) ⟨⟨f, hd⟩, same_mem orig A, rfl, by simp⟩) fun _ => ?_
    refine Tri.bind (F1.triWarnM cfg _) fun _ => ?_
    refine Tri.bind (F1.triCheckCtrlc env (hc _ _)) fun _ => ?_
    refine Tri.bind (F1.triSkipPresent cfg env (fun r => ⟨⟨f, hd⟩, same_mem orig A, trivial⟩) cs) fun _ => ?_
    exact F1.triUpdateProgress cfg _ _
  | ok _ =>
    have F1 := fixFrame env cfg orig (f :: A) B orig none ⟨f, hd⟩ (same_mem orig (f :: A))
    have hmem : f ∈ f :: A := by simp
    refine Tri.weaken (Q := fun _ => Clean env cfg orig (f :: A) B) (E := fun _ => Clean env cfg orig (f :: A) B)
      (H := Hg env cfg orig (f :: A) B) (P := Clean env cfg orig (f :: A) B) ?_
      (fun _ h => clean_mono env cfg orig A B (fun _ h => by simp [h]) (fun _ h => h) h)
      (fun _ _ h => Or.inl h) (fun _ _ h => Or.inl h) (fun _ h => Or.inl h)
    refine Tri.bind (F1.triCheckCtrlc env (hc _ _)) fun _ => ?_
    refine Tri.bind (F1.triSay cfg _) fun _ => ?_
    refine Tri.finally (Q := fun _ => Rest env cfg orig (f :: A) B f) (E := fun _ => Rest env cfg orig (f :: A) B f)
      (Tri.bind (triInstrument env cfg orig (f :: A) B f hmem cs hok) fun _ => ?_)
      (fun _ w h => rest_drop env cfg orig (f :: A) B h) (fun _ w h => rest_drop env cfg orig (f :: A) B h)
    exact (triCandidateLoop env cfg orig (f :: A) B f hmem cs).pre fun w h => ⟨hok, h⟩

/-- for some disjoint sets of files dealt with -/
private def Some2 (fs : List SourceFile) (X : List SourceFile → List SourceFile → World σ → Prop) (w : World σ) : Prop :=
  ∃ A B, X A B w ∧ (∀ f ∈ A, f ∉ B) ∧ ∀ f, f ∈ A ∨ f ∈ B → f ∈ fs

private theorem triRunFiles (done : List SourceFile) (fcs : List (SourceFile × List Candidate))
    (hn : (done ++ fcs.map (·.1)).Nodup) (hok : ∀ x ∈ fcs, FileOk x.1 x.2) :
    Tri (Some2 done (Clean env cfg orig)) (runFiles cfg env fcs)
      (fun _ => Some2 (done ++ fcs.map (·.1)) (Clean env cfg orig))
      (fun _ => Some2 (done ++ fcs.map (·.1)) (Clean env cfg orig))
      (Some2 (done ++ fcs.map (·.1)) (Hg env cfg orig)) := by
  induction fcs generalizing done with
  | nil => exact Tri.ret _ fun _ h => by simpa using h
  | cons x fcs ih =>
    obtain ⟨f, cs⟩ := x
    rintro w ⟨A, B, hw, hdis, hsub⟩
    have hfd : f ∉ done := by
      rw [List.nodup_append] at hn
      exact fun h => hn.2.2 f h f (by simp) rfl
    have grow : ∀ {X : List SourceFile → List SourceFile → World σ → Prop} {w : World σ},
        Either A B f X w → Some2 (done ++ [f]) X w := by
      intro X w h
      rcases h with h | h
      · refine ⟨f :: A, B, h, ?_, ?_⟩
        · intro g hg hb
          rcases List.mem_cons.1 hg with rfl | hg
          · exact hfd (hsub g (Or.inr hb))
          · exact hdis g hg hb
        · intro g hg
          rcases hg with hg | hg
          · rcases List.mem_cons.1 hg with rfl | hg
            · simp
            · simp [hsub g (Or.inl hg)]
          · simp [hsub g (Or.inr hg)]
      · refine ⟨A, f :: B, h, ?_, ?_⟩
        · intro g hg hb
          rcases List.mem_cons.1 hb with rfl | hb
          · exact hfd (hsub g (Or.inl hg))
          · exact hdis g hg hb
        · intro g hg
          rcases hg with hg | hg
          · simp [hsub g (Or.inl hg)]
          · rcases List.mem_cons.1 hg with rfl | hg
            · simp
            · simp [hsub g (Or.inr hg)]
    have widen : ∀ {X : List SourceFile → List SourceFile → World σ → Prop} {w : World σ},
        Some2 (done ++ [f]) X w → Some2 (done ++ ((f, cs) :: fcs).map (·.1)) X w := by
      rintro X w ⟨A, B, h1, h2, h3⟩
      refine ⟨A, B, h1, h2, fun g hg => ?_⟩
      have := h3 g hg
      simp only [List.map_cons, List.mem_append, List.mem_cons, List.not_mem_nil, or_false] at this ⊢
      rcases this with h | h
      · exact Or.inl h
      · exact Or.inr (Or.inl h)
    have now : ∀ {X : List SourceFile → List SourceFile → World σ → Prop} {w : World σ},
        X A B w → Some2 (done ++ [f]) X w := fun h => ⟨A, B, h, hdis, fun g hg => by simp [hsub g hg]⟩
    have F0 := fixFrame env cfg orig A B orig none ⟨f, onlyDiffers_refl orig f⟩ (same_mem orig A)
    refine Tri.bind (P := Clean env cfg orig A B) (R := fun _ => Clean env cfg orig A B)
      ((F0.triSkipPastM cfg _).exits (fun _ _ h => widen (now h)) (fun _ h => widen (now h))) (fun _ => ?_) w hw
    refine Tri.bind (R := fun _ => Some2 (done ++ [f]) (Clean env cfg orig)) ?_ fun _ => ?_
    · split
      · exact Tri.ret _ fun _ h => now h
      · exact (triOneFile env cfg orig A B f _ ((hok (f, cs) (by simp)).suffix (skipPast_suffix _ _ _))).weaken
          (fun _ h => h) (fun _ _ h => grow h) (fun _ _ h => widen (grow h)) (fun _ h => widen (grow h))
    · have := ih (done ++ [f]) (by simpa using hn) (fun x hx => hok x (by simp [hx]))
      simpa using this

end

variable (env : Env σ) (cfg : Cfg)

/-- The candidate map: each file once, each with its own candidates, statements first. -/
def FilesOk (fcs : List (SourceFile × List Candidate)) : Prop :=
  (fcs.map (·.1)).Nodup ∧ ∀ x ∈ fcs, FileOk x.1 x.2

private theorem run_post (fcs : List (SourceFile × List Candidate)) (hok : FilesOk fcs) (w : World σ)
    (h : Fresh w) :
    Post (fun _ => Some2 (fcs.map (·.1)) (Clean env cfg w.fs)) (fun _ => Some2 (fcs.map (·.1)) (Clean env cfg w.fs))
      (Some2 (fcs.map (·.1)) (Hg env cfg w.fs)) (runFiles cfg env fcs w) := by
  have := triRunFiles env cfg w.fs [] fcs (by simpa using hok.1) hok.2
  simp only [List.nil_append] at this
  refine this w ⟨[], [], ⟨?_, rfl, h.2⟩, by simp, by simp⟩
  intro s hs
  rw [h.1] at hs
  simp at hs

/-- **C01.** However a run ends other than by not finishing, every source file has the contents it had at the
start. `env` is arbitrary: any backend call may fail, panic or hang, any write may fail after changing the file,
any warning may be denied, Ctrl-C may arrive at any time. -/
theorem C01_restored (fcs : List (SourceFile × List Candidate)) (hok : FilesOk fcs)
    (w : World σ) (h : Fresh w) (hfin : (runFiles cfg env fcs w).1 ≠ .hang) :
    (runFiles cfg env fcs w).2.fs = w.fs := by
  have := run_post env cfg fcs hok w h
  rcases hr : runFiles cfg env fcs w with ⟨r, w'⟩
  rw [hr] at this hfin
  cases r with
  | ok => obtain ⟨A, B, h, -⟩ := this; exact h.2.1
  | err e => obtain ⟨A, B, h, -⟩ := this; exact h.2.1
  | panic => obtain ⟨A, B, h, -⟩ := this; exact h.2.1
  | hang => exact absurd rfl hfin

private theorem run_trace (fcs : List (SourceFile × List Candidate)) (hok : FilesOk fcs)
    (w : World σ) (h : Fresh w) : ∃ A B, (∀ f ∈ A, f ∉ B) ∧ (∀ f, f ∈ A ∨ f ∈ B → f ∈ fcs.map (·.1)) ∧
      (∃ f, OnlyDiffersAt f w.fs (runFiles cfg env fcs w).2.fs) ∧
      (∀ g, (runFiles cfg env fcs w).2.fs g ≠ w.fs g → g ∈ A) ∧
      ∀ s ∈ (runFiles cfg env fcs w).2.trace, SnapOk env cfg w.fs A B s := by
  have := run_post env cfg fcs hok w h
  rcases hr : runFiles cfg env fcs w with ⟨r, w'⟩
  rw [hr] at this
  have clean : Some2 (fcs.map (·.1)) (Clean env cfg w.fs) w' → ∃ A B, (∀ f ∈ A, f ∉ B) ∧
      (∀ f, f ∈ A ∨ f ∈ B → f ∈ fcs.map (·.1)) ∧ (∃ f, OnlyDiffersAt f w.fs w'.fs) ∧
      (∀ g, w'.fs g ≠ w.fs g → g ∈ A) ∧ ∀ s ∈ w'.trace, SnapOk env cfg w.fs A B s := by
    rintro ⟨A, B, h1, h2, h3⟩
    refine ⟨A, B, h2, h3, ⟨⟨[]⟩, ?_⟩, ?_, h1.1⟩
    · rw [h1.2.1]; exact fun _ _ => rfl
    · rw [h1.2.1]; exact fun g hg => absurd rfl hg
  cases r with
  | ok => exact clean this
  | err e => exact clean this
  | panic => exact clean this
  | hang =>
    obtain ⟨A, B, h1, h2, h3⟩ := this
    exact ⟨A, B, h2, h3, h1.2.1, h1.2.2, h1.1⟩

/-- **C02.** However the run ends (or even if it never does), whenever a test was built, started, timed out or its
result determined for a candidate, the file containing the candidate was either the original with exactly the
candidate's text deleted, or (only for a statement) the original with insertions among which are the candidate's own
prefix and suffix; and all other files had their original contents. -/
theorem C02_one_removal (fcs : List (SourceFile × List Candidate)) (hok : FilesOk fcs)
    (w : World σ) (h : Fresh w) (hsrc : cfg.src = w.fs) (s : Snap) (hs : s ∈ (runFiles cfg env fcs w).2.trace)
    (c : Candidate) (t : Text)
    (he : s.event = .buildTest c t ∨ (∃ v, s.event = .startTest c t v) ∨ s.event = .kill c t ∨
      ∃ r, s.event = .tested c t r) :
    OneRemoval env w.fs w.fs c s.fs := by
  obtain ⟨A, B, -, -, -, -, this⟩ := run_trace env cfg fcs hok w h
  have := (this s hs).2.2
  rcases he with he | ⟨v, he⟩ | he | ⟨r, he⟩ <;> rw [he, hsrc] at this
  · exact this.1
  · exact this.1.1
  · exact this.1
  · exact this.1

/-- **C02.** A test process is told the id of the candidate it is run for. -/
theorem C02_told_the_id (fcs : List (SourceFile × List Candidate)) (hok : FilesOk fcs)
    (w : World σ) (h : Fresh w) (s : Snap) (hs : s ∈ (runFiles cfg env fcs w).2.trace)
    (c : Candidate) (t v : Text) (he : s.event = .startTest c t v) : v = cfg.ident c.span := by
  obtain ⟨A, B, -, -, -, -, this⟩ := run_trace env cfg fcs hok w h
  have := (this s hs).2.2
  rw [he] at this
  exact this.2

/-- **C02.** A dry run sees the original files. -/
theorem C02_dry_run_on_original (fcs : List (SourceFile × List Candidate)) (hok : FilesOk fcs)
    (w : World σ) (h : Fresh w) (s : Snap) (hs : s ∈ (runFiles cfg env fcs w).2.trace) (f : SourceFile)
    (he : s.event = .dryRun f) : s.fs = w.fs := by
  obtain ⟨A, B, -, -, -, -, this⟩ := run_trace env cfg fcs hok w h
  have := (this s hs).2.2
  rw [he] at this
  exact this

/-- **C03.** At every event, and when the run ends, and if it hangs (in any call to the outside: since `env` is
arbitrary, this covers every point at which the outside is called), at most one source file differs from its original
contents, and it is one of the files of the run. -/
theorem C03_at_most_one_modified (fcs : List (SourceFile × List Candidate)) (hok : FilesOk fcs)
    (w : World σ) (h : Fresh w) :
    (∀ s ∈ (runFiles cfg env fcs w).2.trace, (∃ f, OnlyDiffersAt f w.fs s.fs) ∧
      ∀ g, s.fs g ≠ w.fs g → g ∈ fcs.map (·.1)) ∧
    (∃ f, OnlyDiffersAt f w.fs (runFiles cfg env fcs w).2.fs) ∧
      ∀ g, (runFiles cfg env fcs w).2.fs g ≠ w.fs g → g ∈ fcs.map (·.1) := by
  obtain ⟨A, B, -, h1, h2, h3, h4⟩ := run_trace env cfg fcs hok w h
  exact ⟨fun s hs => ⟨(h4 s hs).1, fun g hg => h1 g (Or.inl ((h4 s hs).2.1 g hg))⟩, h2,
    fun g hg => h1 g (Or.inl (h3 g hg))⟩

/-- **C03.** While a file is built or a test is run for a candidate, the file that may differ is that one. -/
theorem C03_the_one_being_processed (fcs : List (SourceFile × List Candidate)) (hok : FilesOk fcs)
    (w : World σ) (h : Fresh w) (s : Snap) (hs : s ∈ (runFiles cfg env fcs w).2.trace) :
    (∀ f, s.event = .buildFile f → OnlyDiffersAt f w.fs s.fs) ∧
    (∀ c t, s.event = .buildTest c t → OnlyDiffersAt c.span.file w.fs s.fs) ∧
    (∀ c t v, s.event = .startTest c t v → OnlyDiffersAt c.span.file w.fs s.fs) := by
  obtain ⟨A, B, -, -, -, -, this⟩ := run_trace env cfg fcs hok w h
  have := (this s hs).2.2
  refine ⟨fun f he => ?_, fun c t he => ?_, fun c t v he => ?_⟩ <;> rw [he] at this
  · exact this.1
  · exact this.1.1
  · exact this.1.1.1

/-- **C15.** If the dry run of `f` failed, then at no event of the run, nor at its end, does `f` differ from its
original contents; `f` was never built with instrumentation; and no test was built or started for a candidate
in `f`. -/
theorem C15_untouched (fcs : List (SourceFile × List Candidate)) (hok : FilesOk fcs)
    (w : World σ) (h : Fresh w) (f : SourceFile)
    (hf : ∃ s ∈ (runFiles cfg env fcs w).2.trace, s.event = .dryRunFailed f) :
    (runFiles cfg env fcs w).2.fs f = w.fs f ∧
    ∀ s ∈ (runFiles cfg env fcs w).2.trace, s.fs f = w.fs f ∧ s.event ≠ .buildFile f ∧
      (∀ c t, s.event = .buildTest c t → c.span.file ≠ f) ∧
      (∀ c t v, s.event = .startTest c t v → c.span.file ≠ f) ∧
      (∀ c t r, s.event = .tested c t r → c.span.file ≠ f) := by
  obtain ⟨A, B, hdis, -, -, h3, this⟩ := run_trace env cfg fcs hok w h
  obtain ⟨s0, hs0, he0⟩ := hf
  have hB : f ∈ B := by
    have := (this s0 hs0).2.2
    rw [he0] at this
    exact this.2
  have hA : f ∉ A := fun h => hdis f h hB
  refine ⟨Classical.byContradiction fun hne => hA (h3 f hne), fun s hs => ⟨?_, ?_, ?_, ?_, ?_⟩⟩
  · exact Classical.byContradiction fun hne => hA ((this s hs).2.1 f hne)
  all_goals have := (this s hs).2.2
  · intro he; rw [he] at this; exact hA this.2
  · intro c t he hc; rw [he] at this; exact hA (hc ▸ this.2)
  · intro c t v he hc; rw [he] at this; exact hA (hc ▸ this.1.2)
  · intro c t r he hc; rw [he] at this; exact hA (hc ▸ this.2)

end Necessist.Run
