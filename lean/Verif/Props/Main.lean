import Verif.Lemmas.Main
import Verif.Props.Parse
import Verif.Props.Skill
import Verif.Props.Resume
/-!
# C61, C63, and C01, C02, C03, C10, C14, C44, C64 for the whole program
-/
namespace Necessist.Main
open Run Parse Std

variable {V σ : Type} {h : Host V σ} {o : Opts} {m : Machine σ}

theorem consolePath_spec (cd : Option Path) (p : Path) : ShownPath cd p (consolePath cd p) := by
  unfold consolePath
  cases cd with
  | none => exact .outside p (fun d hd => by cases hd)
  | some d =>
    dsimp only
    split
    · rename_i hd
      obtain ⟨t, rfl⟩ := List.isPrefixOf_iff_prefix.1 hd
      rw [List.drop_left]
      exact .inside d t rfl
    · rename_i hd
      refine .outside p (fun d' hd' hp => ?_)
      cases hd'
      exact hd (List.isPrefixOf_iff_prefix.2 hp)

theorem location_spec (root : Path) (s : Span) : ShownLocation h.currentDir root o.noLinesOrColumns s (location h o root s) := by
  unfold location
  dsimp only
  split
  · rename_i hn
    exact .short _ (consolePath_spec _ _) hn
  · rename_i hn
    have := ShownLocation.long (currentDir := h.currentDir) (root := root) (noLinesOrColumns := o.noLinesOrColumns) (s := s) _
      (consolePath_spec _ _) (by simpa using hn)
    simpa [Span.displayWith] using this

theorem candidateLines_spec (src : SourceFile → Text) (root : Path) (cs : List Candidate) (ls : List Text) (ok : Bool)
    (hc : candidateLines src (location h o root) cs = (ls, ok)) :
    ls.length ≤ cs.length ∧ (ok = true → ls.length = cs.length) ∧
    (∀ (i : Nat) c l, cs[i]? = some c → ls[i]? = some l → ShownCandidate h o root src c l) ∧
    (ok = false → ∃ c, cs[ls.length]? = some c ∧ ∀ text, ¬ HasText src c text) := by
  induction cs generalizing ls with
  | nil => simp only [candidateLines] at hc; cases hc; simp
  | cons c cs ih =>
    rw [candidateLines] at hc
    cases ht : sourceText? (src c.span.file) c.span.start c.span.stop with
    | none =>
      rw [ht] at hc; cases hc
      refine ⟨by simp, by simp, by simp, fun _ => ⟨c, rfl, ?_⟩⟩
      rintro text ⟨pre, suf, hl⟩
      rw [sourceText?_of_located hl] at ht; cases ht
    | some text =>
      rw [ht] at hc
      dsimp only at hc
      rcases hr : candidateLines src (location h o root) cs with ⟨ls', ok'⟩
      rw [hr] at hc
      cases hc
      obtain ⟨h1, h2, h3, h4⟩ := ih ls' hr
      refine ⟨by simp [h1], fun hk => by simp [h2 hk], ?_, fun hk => ?_⟩
      · intro i c' l hc hl
        cases i with
        | zero =>
          simp only [List.getElem?_cons_zero, Option.some.injEq] at hc hl
          subst hc hl
          refine ⟨_, text, location_spec root _, sourceText?_hasText (cfg := ⟨src, ⟨[], [], false⟩, false, none, fun _ => []⟩) ht, ?_⟩
          unfold candidateLine dropCr
          have : text.filter (· != '\r') = text.filter (fun x => decide (x ≠ '\r')) :=
            List.filter_congr (fun x _ => by rw [Bool.eq_iff_iff]; simp)
          rw [this]
        | succ i => exact h3 i c' l (by simpa using hc) (by simpa using hl)
      · obtain ⟨c', hc', hn⟩ := h4 hk
        exact ⟨c', by simpa using hc', hn⟩

/-! ### C61 -/

theorem accepted (hopt : processOptions o.set = .ok) :
    (o.dumpCandidates = true ∨ o.dumpCandidateCounts = true → LooksForCandidates o ∧ o.quiet = false) ∧
    (o.dumpCandidates = true → o.dumpCandidateCounts = false) ∧
    (o.checkSkill.isSome = true → o.findSkill = false) ∧
    (o.dump = true → o.defaultConfig = false ∧ o.reset = false ∧ o.resume = false ∧ o.noSqlite = false) := by
  obtain ⟨hc, -⟩ := (C31_accepted_iff _).1 hopt
  have key : ∀ x y, Conflict x y → o.set x = true → o.set y = false := by
    intro x y hxy hx
    cases hy : o.set y
    · rfl
    · exact absurd ⟨hx, hy⟩ (hc x y hxy)
  have cs : ∀ x, (x = .dumpCandidates ∨ x = .dumpCandidateCounts) → o.set x = true →
      LooksForCandidates o ∧ o.quiet = false := by
    intro x hx hs
    have hm : IsMode x := by rcases hx with rfl | rfl <;> simp [IsMode]
    have ho : IsOutput x := by rcases hx with rfl | rfl <;> simp [IsOutput]
    have hmode : ∀ y, IsMode y → y ≠ x → o.set y = false := fun y hy hne => key x y ⟨hne.symm, Or.inl ⟨hm, hy⟩⟩ hs
    have hne : ∀ y : Opt, y ≠ .dumpCandidates → y ≠ .dumpCandidateCounts → y ≠ x := by
      rintro y h1 h2 rfl; rcases hx with rfl | rfl
      · exact h1 rfl
      · exact h2 rfl
    refine ⟨⟨?_, hmode .findSkill (by simp [IsMode]) (hne _ (by simp) (by simp)),
      hmode .defaultConfig (by simp [IsMode]) (hne _ (by simp) (by simp)), hmode .dump (by simp [IsMode]) (hne _ (by simp) (by simp))⟩,
      key x .quiet ⟨(hne _ (by simp) (by simp)).symm, Or.inr (Or.inr (Or.inr (Or.inr ⟨rfl, ho⟩)))⟩ hs⟩
    have := hmode .checkSkill (by simp [IsMode]) (hne _ (by simp) (by simp))
    simp only [Opts.set] at this
    cases hck : o.checkSkill with
    | none => rfl
    | some p => rw [hck] at this; cases this
  refine ⟨?_, fun hx => ?_, fun hx => ?_, fun hx => ?_⟩
  · rintro (hx | hx)
    · exact cs .dumpCandidates (Or.inl rfl) hx
    · exact cs .dumpCandidateCounts (Or.inr rfl) hx
  · exact key .dumpCandidates .dumpCandidateCounts ⟨by simp, Or.inl (by simp [IsMode])⟩ hx
  · exact key .checkSkill .findSkill ⟨by simp, Or.inl (by simp [IsMode])⟩ hx
  · exact ⟨key .dump .defaultConfig ⟨by simp, Or.inl (by simp [IsMode])⟩ hx, key .dump .reset ⟨by simp, Or.inl (by simp [IsMode])⟩ hx,
      key .dump .resume ⟨by simp, Or.inl (by simp [IsMode])⟩ hx,
      key .dump .noSqlite ⟨by simp, Or.inr (Or.inr (Or.inl ⟨rfl, by simp [NeedsDatabase]⟩))⟩ hx⟩

theorem necessist_refused (hopt : processOptions o.set ≠ .ok) : ∃ e, necessist h o m = (.err e, m) := by
  unfold necessist
  split
  · contradiction
  · exact ⟨_, rfl⟩

/-- **C61.** `--dump-candidates` and `--dump-candidate-counts`, however they end, execute no test and modify no file. -/
theorem C61_no_effects (hd : o.dumpCandidates = true ∨ o.dumpCandidateCounts = true) : Undisturbed m (necessist h o m).2 := by
  by_cases hopt : processOptions o.set = .ok
  · obtain ⟨hl, -⟩ := (accepted hopt).1 hd
    rcases necessist_candidates (h := h) (m := m) hopt hl with ⟨hu, _⟩ | ⟨root, fw, nT, map, ws, st, -, he⟩
    · exact hu
    · rw [he]
      obtain ⟨u, -, -, hsome, herr⟩ := prepareFound_spec (h := h) (o := o)
        (m := { m with ext := fw.parsed (h.chosen m.ext), warns := st, console := m.console ++ ws.map .warning }) root fw nT map
      rcases hp : prepareFound h o root fw nT map
        { m with ext := fw.parsed (h.chosen m.ext), warns := st, console := m.console ++ ws.map .warning } with ⟨r, m'⟩
      rw [hp] at u hsome herr
      have u' : Undisturbed m m' := ⟨u.skills, u.config, u.db, u.fs, u.trace, u.progress⟩
      rcases r with (_ | p) | e | _ | _
      · exact u'
      · obtain ⟨_, h1, h2⟩ := hsome p rfl
        rcases hd with hd | hd
        · rw [hd] at h1; cases h1
        · rw [hd] at h2; cases h2
      · exact u'
      · exact u'
      · exact u'
  · obtain ⟨e, he⟩ := necessist_refused (h := h) (m := m) hopt
    rw [he]; exact .refl _

/-- **C61.** If `--dump-candidates` succeeds, it has printed, after the warnings given while the candidates were looked for, one message for
each candidate, in their order: its location and its text. -/
theorem C61_candidates (hd : o.dumpCandidates = true) {n m'} (hr : necessist h o m = (.ok n, m')) :
    ∃ root fw nTests map ws st, FindsCandidates h o m root fw nTests map ws st ∧
    ∃ lines : List Text, m'.console = m.console ++ ws.map .warning ++ lines.map .text ∧
      lines.length = (candidates map.toRun).length ∧
      ∀ (i : Nat) c l, (candidates map.toRun)[i]? = some c → lines[i]? = some l → ShownCandidate h o root m.fs c l := by
  by_cases hopt : processOptions o.set = .ok
  · obtain ⟨hl, hq⟩ := (accepted hopt).1 (Or.inl hd)
    rcases necessist_candidates (h := h) (m := m) hopt hl with ⟨_, hn, _⟩ | ⟨root, fw, nT, map, ws, st, hf, he⟩
    · rw [hr] at hn; exact absurd rfl (hn n)
    · refine ⟨root, fw, nT, map, ws, st, hf, ?_⟩
      rw [hr] at he
      unfold prepareFound at he
      rw [if_pos hd] at he
      unfold dumpCandidates at he
      have hcs : candidates map.toRun = map.flatMap fun p => p.2.candidates := by
        unfold candidates FileMap.toRun; rw [List.flatMap_map]
      rw [hcs]
      rcases hc : candidateLines m.fs (location h o root) (map.flatMap fun p => p.2.candidates) with ⟨ls, ok⟩
      obtain ⟨h1, h2, h3, h4⟩ := candidateLines_spec m.fs root _ ls ok hc
      dsimp only at he
      rw [hc] at he
      cases ok with
      | false => simp [afterPrepare] at he
      | true =>
        simp only [if_true, afterPrepare, print, hq, Bool.false_eq_true, if_false, Prod.mk.injEq] at he
        refine ⟨ls, ?_, h2 rfl, h3⟩
        rw [he.2]
  · obtain ⟨e, he⟩ := necessist_refused (h := h) (m := m) hopt
    rw [hr] at he; cases he

/-- **C61.** It fails to print all the candidates that were found only if one of them has no text, i.e. its positions are not in the file. -/
theorem C61_candidates_fails_only (hopt : processOptions o.set = .ok) (hd : o.dumpCandidates = true) {root fw nTests map ws st}
    (hf : FindsCandidates h o m root fw nTests map ws st) :
    (∃ m', necessist h o m = (.ok 0, m')) ∨ ∃ c ∈ candidates map.toRun, ∀ text, ¬ HasText m.fs c text := by
  obtain ⟨hl, hq⟩ := (accepted hopt).1 (Or.inl hd)
  rcases necessist_candidates (h := h) (m := m) hopt hl with ⟨_, _, _, _, hno⟩ | ⟨root', fw', nT, map', ws', st', hf', he⟩
  · exact absurd hf (hno _ _ _ _ _ _)
  · obtain ⟨rfl, rfl, rfl, rfl, rfl, rfl⟩ := hf.unique hf'
    rw [he]
    unfold prepareFound
    rw [if_pos hd]
    unfold dumpCandidates
    have hcs : candidates map.toRun = map.flatMap fun p => p.2.candidates := by
      unfold candidates FileMap.toRun; rw [List.flatMap_map]
    rw [hcs]
    rcases hc : candidateLines m.fs (location h o root) (map.flatMap fun p => p.2.candidates) with ⟨ls, ok⟩
    obtain ⟨h1, h2, h3, h4⟩ := candidateLines_spec m.fs root _ ls ok hc
    dsimp only
    rw [hc]
    cases ok with
    | true => exact Or.inl ⟨_, rfl⟩
    | false =>
      obtain ⟨c, hc', hn⟩ := h4 rfl
      exact Or.inr ⟨c, List.mem_of_getElem? hc', hn⟩

/-! ### Counts -/

theorem insertCount_perm (x : Nat × SourceFile) (l : List (Nat × SourceFile)) : (insertCount x l).Perm (x :: l) := by
  induction l with
  | nil => exact .refl _
  | cons y ys ih =>
    rw [insertCount]
    split
    · exact .refl _
    · exact ((ih.cons y).trans (List.Perm.swap x y ys))

theorem sortCounts_perm (l : List (Nat × SourceFile)) : (sortCounts l).Perm l := by
  unfold sortCounts
  induction l with
  | nil => exact .refl _
  | cons x xs ih => exact (insertCount_perm x _).trans (ih.cons x)

theorem countCmp_isLE (a b : Nat × SourceFile) : (countCmp a b).isLE = true ↔ a.1 < b.1 ∨ a.1 = b.1 ∧ (a.2.cmp b.2).isLE = true := by
  unfold countCmp
  rcases Nat.lt_trichotomy a.1 b.1 with h | h | h
  · rw [Nat.compare_eq_lt.2 h]; simp [Ordering.then, h]
  · rw [Nat.compare_eq_eq.2 h]; simp [Ordering.then, h]
  · rw [Nat.compare_eq_gt.2 h]; simp [Ordering.then]; omega

theorem countCmp_trans {a b c : Nat × SourceFile} (h1 : (countCmp a b).isLE = true) (h2 : (countCmp b c).isLE = true) :
    (countCmp a c).isLE = true := by
  rw [countCmp_isLE] at *
  rcases h1 with h1 | ⟨h1, h1'⟩ <;> rcases h2 with h2 | ⟨h2, h2'⟩
  · exact Or.inl (by omega)
  · exact Or.inl (by omega)
  · exact Or.inl (by omega)
  · exact Or.inr ⟨by omega, TransCmp.isLE_trans (cmp := SourceFile.cmp) h1' h2'⟩

theorem countCmp_total {a b : Nat × SourceFile} (h : ¬ (countCmp a b).isLE = true) : (countCmp b a).isLE = true := by
  rw [countCmp_isLE] at *
  rcases Nat.lt_trichotomy a.1 b.1 with hl | hl | hl
  · exact absurd (Or.inl hl) h
  · refine Or.inr ⟨hl.symm, ?_⟩
    have hn : ¬ (a.2.cmp b.2).isLE = true := fun h' => h (Or.inr ⟨hl, h'⟩)
    rw [OrientedCmp.eq_swap (cmp := SourceFile.cmp)]
    cases hc : a.2.cmp b.2 <;> simp_all [Ordering.isLE, Ordering.swap]
  · exact Or.inl hl

theorem insertCount_sorted (x : Nat × SourceFile) (l : List (Nat × SourceFile)) (hl : l.Pairwise fun a b => (countCmp a b).isLE = true) :
    (insertCount x l).Pairwise fun a b => (countCmp a b).isLE = true := by
  induction l with
  | nil => simp [insertCount]
  | cons y ys ih =>
    obtain ⟨h1, h2⟩ := List.pairwise_cons.1 hl
    rw [insertCount]
    split
    · rename_i hxy
      refine List.pairwise_cons.2 ⟨fun z hz => ?_, hl⟩
      rcases List.mem_cons.1 hz with rfl | hz
      · exact hxy
      · exact countCmp_trans hxy (h1 z hz)
    · rename_i hxy
      refine List.pairwise_cons.2 ⟨fun z hz => ?_, ih h2⟩
      rcases List.mem_cons.1 ((insertCount_perm x ys).mem_iff.1 hz) with rfl | hz
      · exact countCmp_total hxy
      · exact h1 z hz

theorem sortCounts_sorted (l : List (Nat × SourceFile)) : (sortCounts l).Pairwise fun a b => (countCmp a b).isLE = true := by
  unfold sortCounts
  induction l with
  | nil => exact .nil
  | cons x xs ih => exact insertCount_sorted x _ ih

theorem foldl_max (l : List Nat) (a : Nat) : a ≤ l.foldl max a ∧ (∀ x ∈ l, x ≤ l.foldl max a) ∧ (l.foldl max a = a ∨ l.foldl max a ∈ l) := by
  induction l generalizing a with
  | nil => simp
  | cons x xs ih =>
    obtain ⟨h1, h2, h3⟩ := ih (max a x)
    rw [List.foldl_cons]
    refine ⟨by omega, ?_, ?_⟩
    · intro y hy
      rcases List.mem_cons.1 hy with rfl | hy
      · omega
      · exact h2 y hy
    · rcases h3 with h3 | h3
      · rw [h3]
        rcases Nat.le_total a x with h | h
        · right; rw [Nat.max_eq_right h]; exact List.mem_cons_self
        · left; exact Nat.max_eq_left h
      · exact Or.inr (List.mem_cons_of_mem _ h3)

/-- **C61.** If `--dump-candidate-counts` succeeds, it has printed, after the warnings, one line for each file in which candidates were
looked for: the number of its candidates and its path. They come in ascending order of the numbers and, where these are equal, of the
paths. The numbers are aligned to the right, without superfluous spaces. -/
theorem C61_counts (hd : o.dumpCandidateCounts = true) {n m'} (hr : necessist h o m = (.ok n, m')) :
    ∃ root fw nTests map ws st, FindsCandidates h o m root fw nTests map ws st ∧
    ∃ (counts : List (Nat × SourceFile)) (lines : List Text) (width : Nat),
      m'.console = m.console ++ ws.map .warning ++ lines.map .text ∧
      (counts.map (·.2)).Perm (map.map (·.1)) ∧ (∀ x ∈ counts, candidateCount map x.2 x.1) ∧
      counts.Pairwise (fun a b => a.1 < b.1 ∨ a.1 = b.1 ∧ a.2.cmp b.2 = .lt) ∧
      lines.length = counts.length ∧
      (∀ (i : Nat) x l, counts[i]? = some x → lines[i]? = some l → ShownCount h root width x.1 x.2 l) ∧
      (counts ≠ [] → ∃ x ∈ counts, (showNat x.1).length = width) := by
  by_cases hopt : processOptions o.set = .ok
  · obtain ⟨hl, hq⟩ := (accepted hopt).1 (Or.inr hd)
    have hdc : o.dumpCandidates = false := by
      cases hc : o.dumpCandidates with
      | false => rfl
      | true => have := (accepted hopt).2.1 hc; rw [hd] at this; cases this
    rcases necessist_candidates (h := h) (m := m) hopt hl with ⟨_, hn, _⟩ | ⟨root, fw, nT, map, ws, st, hf, he⟩
    · rw [hr] at hn; exact absurd rfl (hn n)
    · refine ⟨root, fw, nT, map, ws, st, hf, ?_⟩
      have hasc : map.Pairwise fun x y => x.1.cmp y.1 = .lt := by
        obtain ⟨_, _, config, paths, m1, pst, ws0, _, _, _, _, _, hp, _, rfl, _⟩ := hf
        exact (C41_sorted hp).1
      rw [hr] at he
      simp only [prepareFound, hdc, hd, Bool.false_eq_true, if_false, if_true, afterPrepare, print, hq, Prod.mk.injEq] at he
      have hperm := sortCounts_perm (map.map fun p => (p.2.statement.length + p.2.methodCall.length, p.1))
      have hsort := sortCounts_sorted (map.map fun p => (p.2.statement.length + p.2.methodCall.length, p.1))
      rw [he.2]
      unfold countLines
      dsimp only
      generalize sortCounts (map.map fun p => (p.2.statement.length + p.2.methodCall.length, p.1)) = counts at hperm hsort ⊢
      have hfiles : (counts.map (·.2)).Perm (map.map (·.1)) := by
        have := hperm.map (·.2)
        rwa [List.map_map] at this
      have hnd : (counts.map (·.2)).Nodup := by
        refine hfiles.nodup_iff.2 ?_
        refine List.pairwise_map.2 (hasc.imp ?_)
        intro a b hab heq
        rw [heq, ReflCmp.compare_self (cmp := SourceFile.cmp)] at hab; cases hab
      refine ⟨counts, _, (counts.map fun x => (showNat x.1).length).foldl max 0, rfl, hfiles, ?_, ?_, by simp, ?_, ?_⟩
      · intro x hx
        obtain ⟨⟨f, ms⟩, hp, rfl⟩ := List.mem_map.1 (hperm.mem_iff.1 hx)
        exact ⟨ms, hp, by simp [Maps.candidates]⟩
      · have hnd := List.pairwise_map.1 hnd
        refine (hsort.and hnd).imp ?_
        rintro a b ⟨hab, hne⟩
        rcases (countCmp_isLE a b).1 hab with hlt | ⟨heq, hle⟩
        · exact Or.inl hlt
        · refine Or.inr ⟨heq, ?_⟩
          cases hc : a.2.cmp b.2 with
          | lt => rfl
          | eq => exact absurd (LawfulEqCmp.eq_of_compare (cmp := SourceFile.cmp) hc) hne
          | gt => rw [hc] at hle; cases hle
      · intro i x l hx hl
        rw [List.getElem?_map, hx] at hl
        cases hl
        have hle := (foldl_max (counts.map fun x => (showNat x.1).length) 0).2.1 _
          (List.mem_map.2 ⟨x, List.mem_of_getElem? hx, rfl⟩)
        refine ⟨_, _, consolePath_spec _ _, rfl, ?_⟩
        omega
      · intro hne
        obtain ⟨-, hall, h0 | h0⟩ := foldl_max (counts.map fun x => (showNat x.1).length) 0
        · obtain ⟨x, hx⟩ := List.exists_mem_of_ne_nil _ hne
          have := hall _ (List.mem_map.2 ⟨x, hx, rfl⟩)
          exact ⟨x, hx, by omega⟩
        · obtain ⟨x, hx, hw⟩ := List.mem_map.1 h0
          exact ⟨x, hx, hw⟩
  · obtain ⟨e, he⟩ := necessist_refused (h := h) (m := m) hopt
    rw [hr] at he; cases he

end Necessist.Main
