import Verif.Lemmas.RunWarnings
import Verif.Lemmas.RunResume
/-! The warnings about changed sources. -/
namespace Necessist.Run
open Std
variable {σ : Type}

/-! ### What `skipPast` finds -/

theorem skipPast_same {mm cs past} (h : (skipPast mm cs past).mismatch = none) :
    mm = none ∧ ∃ s : List Span, cs.map (·.span) = s ++ (skipPast mm cs past).rest.map (·.span) ∧
      past.map (·.span) = s ++ (skipPast mm cs past).past.map (·.span) ∧ ((skipPast mm cs past).rest = [] ∨ (skipPast mm cs past).past = []) := by
  fun_induction skipPast mm cs past with
  | case1 mm past => exact ⟨h, [], by simp, by simp, Or.inl rfl⟩
  | case2 mm c cs => exact ⟨h, [], by simp, by simp, Or.inr rfl⟩
  | case3 mm c cs r past hlt => simp at h
  | case4 mm c cs r past heq s ih =>
    obtain ⟨h1, s', h2, h3, h4⟩ := ih h
    have he := (Span.cmp_eq_iff _ _).1 heq
    refine ⟨h1, c.span :: s', ?_, ?_, h4⟩
    · simp only [List.map_cons, List.cons_append, h2, s]
    · simp only [List.map_cons, List.cons_append, h3, s, he]
  | case5 mm c cs r past hgt ih =>
    have := (ih h).1
    cases mm <;> simp at this

theorem skipPast_differ {mm cs past} (h : (skipPast mm cs past).mismatch ≠ none) (hm : none = mm) :
    ∃ (s : List Span) (a b : Span) (xs ys : List Span), a ≠ b ∧ cs.map (·.span) = s ++ a :: xs ∧ past.map (·.span) = s ++ b :: ys := by
  fun_induction skipPast mm cs past with
  | case1 mm past => exact absurd hm.symm h
  | case2 mm c cs => exact absurd hm.symm h
  | case3 mm c cs r past hlt =>
    refine ⟨[], c.span, r.span, cs.map (·.span), past.map (·.span), ?_, by simp, by simp⟩
    intro e
    rw [e, (Span.cmp_eq_iff _ _).2 rfl] at hlt
    cases hlt
  | case4 mm c cs r past heq s ih =>
    obtain ⟨s', a, b, xs, ys, h1, h2, h3⟩ := ih h hm
    have he := (Span.cmp_eq_iff _ _).1 heq
    exact ⟨c.span :: s', a, b, xs, ys, h1, by simp [h2], by simp [h3, he]⟩
  | case5 mm c cs r past hgt ih =>
    refine ⟨[], c.span, r.span, cs.map (·.span), past.map (·.span), ?_, by simp, by simp⟩
    intro e
    rw [e, (Span.cmp_eq_iff _ _).2 rfl] at hgt
    cases hgt

theorem not_consistent {A B s xs ys : List Span} {a b : Span} (hne : a ≠ b) (h1 : A = s ++ a :: xs) (h2 : B = s ++ b :: ys) :
    ¬ (A <+: B ∨ B <+: A) := by
  subst h1; subst h2
  rintro (h | h) <;> rw [List.prefix_append_right_inj, List.cons_prefix_cons] at h
  · exact hne h.1
  · exact hne h.1.symm

section
variable (fcs : List (SourceFile × List Candidate)) (P : List Removal)

/-- Whether the entries have fitted so far; `rem` are the remaining candidates. -/
def Fits (rem : List Candidate) (cc : List WarnCall) (past : List Removal) : Prop :=
  cc ≠ [] ∧ ¬ Consistent fcs P ∨ cc = [] ∧
    ((∃ s, (allOf fcs).map (·.span) = s ++ rem.map (·.span) ∧ P.map (·.span) = s ++ past.map (·.span)) ∨
      past = [] ∧ P.map (·.span) <+: (allOf fcs).map (·.span))

/-- What is known of the entries that remain. -/
structure Track (rem : List Candidate) (past : List Removal) (tr : List Snap) : Prop where
  entries : past <:+ P
  sorted : SortedPast past
  cands : rem <:+ allOf fcs
  ahead : InOrder fcs → ∀ c ∈ rem, ∀ r ∈ P, r.span = c.span → r ∈ past
  behind : InOrder fcs → (P.map (·.span)).Nodup → ∀ c ∈ allOf fcs, c ∉ rem → ∀ r ∈ past, r.span = c.span →
    ∃ f cs, (f, cs) ∈ fcs ∧ c ∈ cs ∧ f ∈ failedOf tr

structure Follow (rem : List Candidate) (cc : List WarnCall) (past : List Removal) (tr : List Snap) : Prop where
  listed : ∀ c ∈ cc, IsChanged fcs P (failedOf tr) c
  fits : Fits fcs P rem cc past
  track : Track fcs P rem past tr

/-- At the end. -/
def Found (cc : List WarnCall) (tr : List Snap) : Prop := (∀ c ∈ cc, IsChanged fcs P (failedOf tr) c) ∧ (cc ≠ [] → ¬ Consistent fcs P)

variable {fcs P}

theorem IsChanged.grow {failed xs : List SourceFile} {c : WarnCall} (h : IsChanged fcs P failed c) : IsChanged fcs P (failed ++ xs) c := by
  obtain ⟨r, hr, ⟨h1, h2, h3⟩ | h⟩ := h
  · refine ⟨r, hr, Or.inl ⟨h1, h2, fun a b c hc e => ?_⟩⟩
    obtain ⟨f, cs, k1, k2, k3⟩ := h3 a b c hc e
    exact ⟨f, cs, k1, k2, List.mem_append_left _ k3⟩
  · exact ⟨r, hr, Or.inr h⟩

theorem Track.grow {rem past tr} (h : Track fcs P rem past tr) (xs : List Snap) : Track fcs P rem past (tr ++ xs) where
  entries := h.entries
  sorted := h.sorted
  cands := h.cands
  ahead := h.ahead
  behind := fun a b c hc hn r hr e => by
    obtain ⟨f, cs, k1, k2, k3⟩ := h.behind a b c hc hn r hr e
    exact ⟨f, cs, k1, k2, by rw [failedOf_append]; exact List.mem_append_left _ k3⟩

theorem Follow.mono (rem : List Candidate) : Mono (Follow fcs P rem) (Found fcs P) where
  grow := fun cc p tr xs h => ⟨fun c hc => by rw [failedOf_append]; exact (h.listed c hc).grow, h.fits, h.track.grow xs⟩
  weak := fun cc p tr h => ⟨h.listed, fun hne => by
    rcases h.fits with ⟨_, k⟩ | ⟨k, _⟩
    · exact k
    · exact absurd k hne⟩

theorem Mono.and {L : List WarnCall → List Removal → List Snap → Prop} {N : List WarnCall → List Snap → Prop} (h : Mono L N)
    (X : List WarnCall → List Removal → Prop) : Mono (fun cc p tr => L cc p tr ∧ X cc p) N where
  grow := fun cc p tr xs k => ⟨h.grow cc p tr xs k.1, k.2⟩
  weak := fun cc p tr k => h.weak cc p tr k.1

/-- The reason for a mismatch. -/
def Reason (fcs : List (SourceFile × List Candidate)) (P : List Removal) (tr : List Snap) : Mismatch → Prop
  | .missing r => r ∈ P ∧ Missing fcs P (failedOf tr) r
  | .unexpected r => r ∈ P ∧ Unexpected fcs P r

theorem Track.skip (more : List Candidate) {tr : List Snap} (mm cs past) (h : Track fcs P (cs ++ more) past tr) (hmm : ∀ m, mm = some m → Reason fcs P tr m) :
    Track fcs P ((skipPast mm cs past).rest ++ more) (skipPast mm cs past).past tr ∧
    (∀ m, (skipPast mm cs past).mismatch = some m → Reason fcs P tr m) ∧
    ∀ c rest, (skipPast mm cs past).rest = c :: rest → ∀ r ∈ (skipPast mm cs past).past, r.span ≠ c.span := by
  have hasc : InOrder fcs → ∀ {rem : List Candidate}, rem <:+ allOf fcs → Ascending rem := fun hi _ hr => List.Pairwise.sublist hr.sublist hi
  fun_induction skipPast mm cs past with
  | case1 mm past => exact ⟨h, hmm, by simp⟩
  | case2 mm c cs => exact ⟨h, hmm, by simp⟩
  | case3 mm c cs r past hlt =>
    have hgt : ∀ r' ∈ r :: past, c.span.cmp r'.span = .lt := by
      intro r' hm
      rcases List.mem_cons.1 hm with rfl | hm
      · exact hlt
      · exact TransCmp.lt_of_lt_of_isLE hlt ((List.pairwise_cons.1 h.sorted).1 r' hm)
    have hne : ∀ r' ∈ r :: past, r'.span ≠ c.span := by
      intro r' hm e
      have := hgt r' hm
      rw [e, (Span.cmp_eq_iff _ _).2 rfl] at this
      cases this
    refine ⟨h, ?_, ?_⟩
    · intro m hm
      simp at hm
      subst hm
      refine ⟨h.entries.subset List.mem_cons_self, c, h.cands.subset (by simp), hlt, fun hi r' hr' e => ?_⟩
      exact hne r' (h.ahead hi c (by simp) r' hr' e) e
    · intro c' rest he
      simp only [List.cons.injEq] at he
      rw [← he.1]; exact hne
  | case4 mm c cs r past heq s ih =>
    have he := (Span.cmp_eq_iff _ _).1 heq
    refine ih ⟨(List.suffix_cons r past).trans h.entries, (List.pairwise_cons.1 h.sorted).2, (List.suffix_cons c (cs ++ more)).trans h.cands, ?_, ?_⟩ hmm
    · intro hi c' hc' r' hr' e
      rcases List.mem_cons.1 (h.ahead hi c' (List.mem_cons_of_mem _ hc') r' hr' e) with rfl | hm
      · have hlt := (List.pairwise_cons.1 (hasc hi h.cands)).1 c' hc'
        rw [← e, ← he, (Span.cmp_eq_iff _ _).2 rfl] at hlt
        cases hlt
      · exact hm
    · intro hi hnd c' hc' hn r' hr' e
      by_cases hcc : c' = c
      · exfalso
        subst hcc
        have hnd : ((r :: past).map (·.span)).Nodup := List.Nodup.sublist (h.entries.sublist.map _) hnd
        simp only [List.map_cons, List.nodup_cons] at hnd
        exact hnd.1 (List.mem_map.2 ⟨r', hr', by rw [e, he]⟩)
      · exact h.behind hi hnd c' hc' (by simp only [List.cons_append, List.mem_cons, not_or]; exact ⟨hcc, hn⟩) r' (List.mem_cons_of_mem _ hr') e
  | case5 mm c cs r past hgt ih =>
    have hlt : r.span.cmp c.span = .lt := by rw [OrientedCmp.eq_swap (cmp := Span.cmp), hgt]; rfl
    have hafter : InOrder fcs → ∀ c' ∈ c :: cs ++ more, r.span ≠ c'.span := by
      intro hi c' hc' e
      have hl : r.span.cmp c'.span = .lt := by
        rcases List.mem_cons.1 hc' with rfl | hc'
        · exact hlt
        · exact TransCmp.lt_trans hlt ((List.pairwise_cons.1 (hasc hi h.cands)).1 c' hc')
      rw [e, (Span.cmp_eq_iff _ _).2 rfl] at hl
      cases hl
    refine ih ⟨(List.suffix_cons r past).trans h.entries, (List.pairwise_cons.1 h.sorted).2, h.cands, ?_, ?_⟩ ?_
    · intro hi c' hc' r' hr' e
      rcases List.mem_cons.1 (h.ahead hi c' hc' r' hr' e) with rfl | hm
      · exact absurd e (hafter hi c' hc')
      · exact hm
    · exact fun hi hnd c' hc' hn r' hr' e => h.behind hi hnd c' hc' hn r' (List.mem_cons_of_mem _ hr') e
    · intro m hm
      cases mm with
      | some m' => exact hmm m hm
      | none =>
        simp at hm
        subst hm
        refine ⟨h.entries.subset List.mem_cons_self, ⟨c, h.cands.subset (by simp), hlt⟩, fun hi hnd c' hc' e => ?_⟩
        by_cases hin : c' ∈ c :: cs ++ more
        · exact absurd e.symm (hafter hi c' hin)
        · exact h.behind hi hnd c' hc' hin r List.mem_cons_self e.symm

/-- What is known once candidates have been skipped. -/
def SkipsPast (rest : List Candidate) (cc : List WarnCall) (past : List Removal) : Prop :=
  (rest ≠ [] → cc ≠ [] ∨ past = []) ∧ ∀ c tl, rest = c :: tl → ∀ r ∈ past, r.span ≠ c.span

theorem Follow.fine {more cs cc past tr} (h : Follow fcs P (cs ++ more) cc past tr) (hm : (skipPast none cs past).mismatch = none) :
    Follow fcs P ((skipPast none cs past).rest ++ more) cc (skipPast none cs past).past tr ∧ SkipsPast (skipPast none cs past).rest cc (skipPast none cs past).past := by
  obtain ⟨h1, -, h3⟩ := h.track.skip more none cs past nofun
  obtain ⟨-, s, k1, k2, k3⟩ := skipPast_same hm
  refine ⟨⟨h.listed, ?_, h1⟩, fun hne => Or.inr (k3.resolve_left hne), h3⟩
  rcases h.fits with h | ⟨hc, ⟨s0, j1, j2⟩ | ⟨rfl, j⟩⟩
  · exact Or.inl h
  · right
    refine ⟨hc, Or.inl ⟨s0 ++ s, ?_, ?_⟩⟩
    · rw [j1, List.map_append, k1, List.map_append]; simp
    · rw [j2, k2]; simp
  · right
    have : (skipPast none cs []).past = [] := by
      have := (List.map_eq_nil_iff (l := (skipPast none cs []).past) (f := fun r : Removal => r.span)).1
      exact this (List.append_eq_nil_iff.1 k2.symm).2
    exact ⟨hc, Or.inr ⟨this, j⟩⟩

theorem Follow.mismatch {more cs cc past tr m} (h : Follow fcs P (cs ++ more) cc past tr) (hm : (skipPast none cs past).mismatch = some m) :
    Reason fcs P tr m ∧ ∀ x, IsChanged fcs P (failedOf tr) x →
      Follow fcs P ((skipPast none cs past).rest ++ more) (cc ++ [x]) (skipPast none cs past).past tr ∧ SkipsPast (skipPast none cs past).rest (cc ++ [x]) (skipPast none cs past).past := by
  obtain ⟨h1, h2, h3⟩ := h.track.skip more none cs past nofun
  refine ⟨h2 m hm, fun x hx => ⟨⟨?_, Or.inl ⟨by simp, ?_⟩, h1⟩, fun _ => Or.inl (by simp), h3⟩⟩
  · intro c hc
    rcases List.mem_append.1 hc with hc | hc
    · exact h.listed c hc
    · rw [List.mem_singleton.1 hc]; exact hx
  · obtain ⟨s, a, b, xs, ys, k1, k2, k3⟩ := skipPast_differ (by rw [hm]; simp : (skipPast none cs past).mismatch ≠ none) rfl
    rcases h.fits with ⟨_, h⟩ | ⟨_, ⟨s0, j1, j2⟩ | ⟨rfl, _⟩⟩
    · exact h
    · rintro (k | k)
      · exact not_consistent k1 (s := s0 ++ s) (xs := xs ++ more.map (·.span)) (ys := ys) (by rw [j1, List.map_append, k2]; simp) (by rw [j2, k3]; simp) (Or.inr k)
      · exact not_consistent k1 (s := s0 ++ s) (xs := xs ++ more.map (·.span)) (ys := ys) (by rw [j1, List.map_append, k2]; simp) (by rw [j2, k3]; simp) (Or.inl k)
    · simp at k3

/-- Candidates are done with. -/
theorem Follow.drop {xs more cc past tr} (h : Follow fcs P (xs ++ more) cc past tr) (hd : cc ≠ [] ∨ past = [])
    (hb : ∀ c ∈ xs, (∀ r ∈ past, r.span ≠ c.span) ∨ ∃ f cs, (f, cs) ∈ fcs ∧ c ∈ cs ∧ f ∈ failedOf tr) : Follow fcs P more cc past tr where
  listed := h.listed
  fits := by
    rcases h.fits with h | ⟨hc, k⟩
    · exact Or.inl h
    · have hp := hd.resolve_left (fun hn => hn hc)
      subst hp
      right
      refine ⟨hc, Or.inr ⟨rfl, ?_⟩⟩
      rcases k with ⟨s, j1, j2⟩ | ⟨_, k⟩
      · rw [j1, j2]; simp
      · exact k
  track :=
    { entries := h.track.entries
      sorted := h.track.sorted
      cands := (List.suffix_append xs more).trans h.track.cands
      ahead := fun hi c hc => h.track.ahead hi c (List.mem_append_right _ hc)
      behind := fun hi hnd c hc hn r hr e => by
        by_cases hx : c ∈ xs
        · rcases hb c hx with hb | hb
          · exact absurd e (hb r hr)
          · exact hb
        · exact h.track.behind hi hnd c hc (by simp [hx, hn]) r hr e }

end

section
variable {fcs : List (SourceFile × List Candidate)} {P : List Removal} {o : WarnOpts} {st0 : WStates} {out0 : List WarnMsg} {cfg : Cfg} (hcfg : cfg.warn = o)
  {env : Env σ} (henv : Honest o env)

local notation "F" rem => Between' o st0 out0 (Follow fcs P rem)
local notation "EE" => Ended o st0 out0 (Found fcs P)

include hcfg

theorem cSkip {cs more : List Candidate} {w : World σ} (h : (F (cs ++ more)) w) :
    Post (fun _ => Between' o st0 out0 fun cc p tr => Follow fcs P ((skipPast none cs w.past).rest ++ more) cc p tr ∧ SkipsPast (skipPast none cs w.past).rest cc p)
      EE (EE none) (skipPastM cfg (skipPast none cs w.past) w) := by
  refine wMismatch hcfg ((Follow.mono _).and _) _ _ h (w1 := { w with past := (skipPast none cs w.past).past }) rfl rfl rfl ?_ ?_ ?_
  · exact fun hm cc hf => hf.fine hm
  · intro r hm cc hf
    obtain ⟨⟨k1, k2⟩, k3⟩ := hf.mismatch hm
    exact k3 _ ⟨r, k1, Or.inl ⟨rfl, k2⟩⟩
  · intro r hm cc hf
    obtain ⟨⟨k1, k2⟩, k3⟩ := hf.mismatch hm
    exact k3 _ ⟨r, k1, Or.inr ⟨rfl, k2⟩⟩

omit hcfg in
theorem Between'.imp {L L' : List WarnCall → List Removal → List Snap → Prop} {w : World σ} (h : Between' o st0 out0 L w)
    (hi : ∀ cc, L cc w.past w.trace → L' cc w.past w.trace) : Between' o st0 out0 L' w := by
  obtain ⟨is, h1, h2, h3⟩ := h
  exact ⟨is, h1, h2, hi _ h3⟩

include henv

theorem cCandidateLoop (more cs : List Candidate) : Tri (F (cs ++ more)) (candidateLoop cfg env cs) (fun _ => F more) EE (EE none) := by
  suffices ∀ n cs, cs.length ≤ n → Tri (F (cs ++ more)) (candidateLoop cfg env cs) (fun _ => F more) EE (EE none) from this _ cs (Nat.le_refl _)
  intro n
  induction n with
  | zero =>
    intro cs hn w hw
    have : cs = [] := List.eq_nil_of_length_eq_zero (by omega)
    subst this
    unfold candidateLoop
    have h1 := cSkip hcfg hw
    refine Tri.bind (P := (· = w)) (R := fun _ => Between' o st0 out0 fun cc p tr =>
      Follow fcs P ((skipPast none [] w.past).rest ++ more) cc p tr ∧ SkipsPast (skipPast none [] w.past).rest cc p) ?_ (fun _ => ?_) w rfl
    · rintro w' rfl; exact h1
    · split
      · rename_i h
        rw [h]
        exact Tri.ret _ fun w h => h.imp fun _ h => h.1
      · rename_i h
        simp [skipPast] at h
  | succ n ih =>
    intro cs hn w hw
    unfold candidateLoop
    have h1 := cSkip hcfg hw
    refine Tri.bind (P := (· = w)) (R := fun _ => Between' o st0 out0 fun cc p tr =>
      Follow fcs P ((skipPast none cs w.past).rest ++ more) cc p tr ∧ SkipsPast (skipPast none cs w.past).rest cc p) ?_ (fun _ => ?_) w rfl
    · rintro w' rfl; exact h1
    · have hl := skipPast_length none cs w.past
      split
      · rename_i h
        rw [h]
        exact Tri.ret _ fun w h => h.imp fun _ h => h.1
      · rename_i c rest h
        rw [h] at hl
        have hl' : rest.length + 1 ≤ cs.length := hl
        refine Tri.bind ((wOneCandidate (Follow.mono (rest ++ more)) hcfg henv c).pre fun w hw => ?_) fun _ => ih rest (by omega)
        rw [h] at hw
        refine hw.imp fun cc ⟨k1, k2, k3⟩ => Follow.drop (xs := [c]) (by simpa using k1) (k2 (by simp)) fun c' hc' => ?_
        rw [List.mem_singleton.1 hc']
        exact Or.inl (k3 c rest rfl)

theorem cOneFile (f : SourceFile) (more cs cs0 : List Candidate) (hf : (f, cs0) ∈ fcs) (hsub : ∀ c ∈ cs, c ∈ cs0) (hne : cs ≠ []) :
    Tri (Between' o st0 out0 fun cc p tr => Follow fcs P (cs ++ more) cc p tr ∧ SkipsPast cs cc p) (oneFile cfg env f cs) (fun _ => F more) EE (EE none) := by
  have hm := (Follow.mono (fcs := fcs) (P := P) (cs ++ more)).and (SkipsPast cs)
  refine Tri.bind (wSay _ nofun) fun _ => Tri.bind (wNote hm _ rfl) fun _ => Tri.bind (wAskTry hm fun w => henv.dryRun w f) fun r => ?_
  cases r with
  | error _ =>
    dsimp only
    intro w hw
    have hm' := Follow.mono (fcs := fcs) (P := P) more
    obtain ⟨is, ⟨g1, g2, g3, g4⟩, h5, h6, h7⟩ := hw
    have hdrop : Follow fcs P more (changedOf is) w.past (w.trace ++ [⟨.dryRunFailed f, w.fs⟩]) := by
      refine Follow.drop ((Follow.mono (cs ++ more)).grow _ _ _ _ h6) (h7.1 hne) fun c hc => Or.inr ⟨f, cs0, hf, hsub c hc, ?_⟩
      rw [failedOf_append]
      simp [failedOf]
    -- the state after the event and the call
    have hcall : Post (fun _ => F more) EE (EE none) ((Run.bind (note (.dryRunFailed f)) fun _ => warnM cfg (dryRunFailedCall f) : M σ Unit) w) := by
      have h1 : ownCalls [(⟨dryRunFailedCall f, true⟩ : Issue)] = [dryRunFailedCall f] := rfl
      have h2 : changedOf [(⟨dryRunFailedCall f, true⟩ : Issue)] = [] := by
        show [dryRunFailedCall f].filter _ = []
        simp [dryRunFailedCall]
      refine wCall hcfg (L := fun cc _ _ => cc = changedOf is) (c := dryRunFailedCall f) (by simp [dryRunFailedCall]) (w := w) ⟨is, ⟨g1, g2, g3, g4⟩, h5, rfl⟩
        (w1 := { w with trace := w.trace ++ [⟨.dryRunFailed f, w.fs⟩] }) rfl rfl (fun is hr => ?_) (fun cc hcc => ?_) hm'
      · rw [ownCalls_append, eventCalls_append, List.filter_append, hr, h1]
        simp [eventCalls, eventCall, dryRunFailedCall]
      · rw [h2, List.append_nil, hcc]; exact hdrop
    rw [← bind_assoc]
    refine Tri.bind (P := (· = w)) (R := fun _ => F more) ?_ (fun _ => Tri.bind (wCheckCtrlc hm') fun _ => Tri.bind (wSkipPresent hm' hcfg henv _) fun _ => wProgress hm' hcfg _) w rfl
    rintro w' rfl
    exact hcall
  | ok _ =>
    refine Tri.bind (wCheckCtrlc hm) fun _ => Tri.bind (wSay _ nofun) fun _ => ?_
    exact Tri.finally (Q' := fun _ => F more) (E' := EE) (Q := fun _ => F more) (E := EE)
      (Tri.bind (wInstrumentStatements hm hcfg henv _ _) fun _ => (cCandidateLoop hcfg henv more cs).pre fun w h => h.imp fun _ h => h.1)
      (fun _ w h => wDrop h) (fun _ w h => wDropE h)

theorem cRunFiles (xs : List (SourceFile × List Candidate)) (hxs : ∀ x ∈ xs, x ∈ fcs) :
    Tri (F (allOf xs)) (runFiles cfg env xs) (fun _ => F []) EE (EE none) := by
  induction xs with
  | nil => exact Tri.ret _ fun _ h => h
  | cons x xs ih =>
    obtain ⟨f, cs⟩ := x
    have ih := ih fun x hx => hxs x (List.mem_cons_of_mem _ hx)
    intro w hw
    have hw : (F (cs ++ allOf xs)) w := hw
    refine Tri.bind (P := (· = w)) (R := fun _ => Between' o st0 out0 fun cc p tr =>
      Follow fcs P ((skipPast none cs w.past).rest ++ allOf xs) cc p tr ∧ SkipsPast (skipPast none cs w.past).rest cc p) ?_ (fun _ => Tri.bind (R := fun _ => F (allOf xs)) ?_ fun _ => ih) w rfl
    · rintro w' rfl; exact cSkip hcfg hw
    · split
      · rename_i h
        rw [List.isEmpty_iff.1 h]
        exact Tri.ret _ fun w h => h.imp fun _ h => h.1
      · rename_i hr
        have hr : (skipPast none cs w.past).rest ≠ [] := fun h => hr (List.isEmpty_iff.2 h)
        exact cOneFile hcfg henv f (allOf xs) _ cs (hxs _ List.mem_cons_self) (fun c hc => skipPast_mem hc) hr

omit hcfg henv in
/-- What a run tells. -/
def Tells (o : WarnOpts) (st0 : WStates) (out0 : List WarnMsg) (fcs : List (SourceFile × List Candidate)) (P : List Removal) (done : Prop) (e : Option Err)
    (w : World σ) : Prop :=
  ∃ is, w.warns = WStates.after o st0 is ∧ warningsOf w.out = out0 ++ shownFor o st0 is ∧
    (NoneDenied o is ∨ e = some .denied ∧ EndsDenied o is) ∧ RunCalls fcs P done w.trace is

/-- The calls of a run. -/
theorem runFiles_calls {w : World σ} (hw : w.warns = st0) (ho : warningsOf w.out = out0) (ht : w.trace = []) (hp : w.past = P) (hs : SortedPast P) :
    Post (fun _ => Tells o st0 out0 fcs P True none) (Tells o st0 out0 fcs P False) (Tells o st0 out0 fcs P False none) (runFiles cfg env fcs w) := by
  have hmem : ∀ {is : List Issue} {c : WarnCall}, c ∈ changedOf is ↔ c ∈ ownCalls is ∧ c.warning = .filesChanged := by
    intro is c; simp [changedOf]
  have hstart : (F (allOf fcs)) w := by
    refine ⟨[], ⟨hw, by simp [ho, shownFor_nil], by simp [ht, eventCalls, ownCalls], by simp⟩, NoneDenied.nil, by simp [changedOf, ownCalls], Or.inr ⟨rfl, Or.inl ⟨[], by simp, by simp [hp]⟩⟩, ?_⟩
    exact ⟨by rw [hp]; exact List.suffix_refl _, by rw [hp]; exact hs, List.suffix_refl _, fun _ c _ r hr _ => by rw [hp]; exact hr, fun _ _ c hc hn => absurd hc hn⟩
  have hend : ∀ {is : List Issue} {tr}, (ownCalls is).filter (fun c => c.warning ≠ .filesChanged) = eventCalls tr →
      (∀ i ∈ is, i.own = false → OfFramework i.call) → Found fcs P (changedOf is) tr → RunCalls fcs P False tr is := by
    intro is tr h1 h4 ⟨h2, h3⟩
    refine ⟨h1, fun c hc hw => h2 c (hmem.2 ⟨hc, hw⟩), ?_, nofun, h4⟩
    rintro ⟨c, hc, hw⟩
    exact h3 (List.ne_nil_of_mem (hmem.2 ⟨hc, hw⟩))
  have := cRunFiles (st0 := st0) (out0 := out0) (P := P) hcfg henv fcs (fun _ h => h) w hstart
  rcases hx : runFiles cfg env fcs w with ⟨r, w'⟩
  rw [hx] at this
  cases r with
  | ok u =>
    obtain ⟨is, ⟨g1, g2, g3, g4⟩, h5, h6⟩ := this
    obtain ⟨k1, k2, k3, -⟩ := hend g3 g4 ((Follow.mono []).weak _ _ _ h6)
    refine ⟨is, g1, g2, Or.inl h5, k1, k2, k3, fun _ hnc => ?_, g4⟩
    rcases h6.fits with ⟨h, _⟩ | ⟨_, ⟨s, j1, j2⟩ | ⟨_, j⟩⟩
    · obtain ⟨c, hc⟩ := List.exists_mem_of_ne_nil _ h
      exact ⟨c, hmem.1 hc⟩
    · refine absurd (Or.inr ?_) hnc
      rw [j1, j2]; simp
    · exact absurd (Or.inl j) hnc
  | err e =>
    obtain ⟨is, ⟨g1, g2, g3, g4⟩, h5, h6⟩ := this
    exact ⟨is, g1, g2, h5, hend g3 g4 h6⟩
  | panic =>
    obtain ⟨is, ⟨g1, g2, g3, g4⟩, h5, h6⟩ := this
    exact ⟨is, g1, g2, h5, hend g3 g4 h6⟩
  | hang =>
    obtain ⟨is, ⟨g1, g2, g3, g4⟩, h5, h6⟩ := this
    exact ⟨is, g1, g2, h5, hend g3 g4 h6⟩

end
end Necessist.Run
