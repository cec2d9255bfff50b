import Verif.Model.ItMessage
import Verif.Lemmas.RunKeep
import Verif.Props.RunDemo
/-!
# C48: `it` messages
-/
namespace Necessist.ItMessage
open Run (Candidate)

/-! ### Histories of dry runs and executions -/

/-- What a use shows, in the state in which it happens. -/
def seen (o : WarnOpts) (debug : Text → Text) (tb : Table) (ws : WStates) : Op → Seen
  | .dryRun f out => .dryRun (dryRun f out tb).1
  | .exec test span =>
    let r := exec o debug test span tb ws
    .exec r.1 r.2.1 r.2.2.1

/-- Test `test` of file `f` was warned about, and necessist was not stopped by that. -/
def Warned (done : List (Op × Seen)) (f : SourceFile) (test : Text) : Prop :=
  ∃ span r p, (Op.exec test span, Seen.exec r true p) ∈ done ∧ span.file = f

/-- What the table says about the past. -/
structure Inv (done : List (Op × Seen)) (tb : Table) : Prop where
  known : ∀ f, (tb f).isSome ↔ ∃ out s, (Op.dryRun f out, s) ∈ done ∧ out ≠ .failed
  found : ∀ f m t, tb f = some m → (m t = .found ↔ ∃ ms s, (Op.dryRun f (.messages ms), s) ∈ done ∧ t ∈ ms)
  emitted : ∀ f m t, tb f = some m → m t = .warningEmitted → Warned done f t
  warned : ∀ f t, Warned done f t → ∃ m, tb f = some m ∧ m t ≠ .notFound

theorem Inv.dryRun {done tb f out s} (h : Inv done tb) (hs : ∃ b, s = Seen.dryRun b) :
    Inv (done ++ [(.dryRun f out, s)]) (dryRun f out tb).2 := by
  obtain ⟨b, rfl⟩ := hs
  have hw : ∀ g t, Warned (done ++ [(.dryRun f out, .dryRun b)]) g t ↔ Warned done g t := by
    intro g t
    constructor
    · rintro ⟨sp, r, p, hm, hf⟩
      rcases List.mem_append.1 hm with hm | hm
      · exact ⟨sp, r, p, hm, hf⟩
      · simp at hm
    · rintro ⟨sp, r, p, hm, hf⟩
      exact ⟨sp, r, p, List.mem_append_left _ hm, hf⟩
  constructor
  · intro g
    cases out with
    | failed =>
      rw [ItMessage.dryRun, h.known]
      simp only [List.mem_append, List.mem_singleton, Prod.mk.injEq]
      constructor
      · rintro ⟨o, s, h1, h2⟩; exact ⟨o, s, .inl h1, h2⟩
      · rintro ⟨o, s, h1 | h1, h2⟩
        · exact ⟨o, s, h1, h2⟩
        · simp_all
    | unusable | messages ms =>
      by_cases hg : g = f
      · subst hg
        simp [ItMessage.dryRun, Table.set]
        exact ⟨_, ⟨_, .inr ⟨rfl, rfl⟩⟩, by simp⟩
      · simp only [ItMessage.dryRun, Table.set, hg, if_false]
        rw [h.known]
        simp only [List.mem_append, List.mem_singleton, Prod.mk.injEq]
        constructor
        · rintro ⟨o, s, h1, h2⟩; exact ⟨o, s, .inl h1, h2⟩
        · rintro ⟨o, s, h1 | h1, h2⟩
          · exact ⟨o, s, h1, h2⟩
          · simp_all
  · intro g m t hm
    -- no dry run of `g` reported anything if `g` is not in the map
    have hnone : tb g = none → ∀ ms s, (Op.dryRun g (.messages ms), s) ∈ done → False := by
      intro hn ms s hmem
      have := (h.known g).2 ⟨_, s, hmem, by simp⟩
      simp [hn] at this
    have hold : ((tb g).getD fun _ => .notFound) t = .found ↔
        ∃ ms s, (Op.dryRun g (.messages ms), s) ∈ done ∧ t ∈ ms := by
      cases hg : tb g with
      | none =>
        simp
        intro ms s hmem _
        exact (hnone hg ms s hmem).elim
      | some m' => exact h.found g m' t hg
    have hold' : ∀ m', tb g = some m' → (m' t = .found ↔
        ∃ ms s, (Op.dryRun g (.messages ms), s) ∈ done ∧ t ∈ ms) := fun m' => h.found g m' t
    have hext : ∀ (hne : ∀ ms, out = .messages ms → g = f → t ∈ ms → False),
        (∃ ms s, (Op.dryRun g (.messages ms), s) ∈ done ∧ t ∈ ms) ↔
          ∃ ms s, (Op.dryRun g (.messages ms), s) ∈ done ++ [(.dryRun f out, .dryRun b)] ∧ t ∈ ms := by
      intro hne
      constructor
      · rintro ⟨ms, s, h1, h2⟩; exact ⟨ms, s, List.mem_append_left _ h1, h2⟩
      · rintro ⟨ms, s, h1, h2⟩
        rcases List.mem_append.1 h1 with h1 | h1
        · exact ⟨ms, s, h1, h2⟩
        · simp only [List.mem_singleton, Prod.mk.injEq, Op.dryRun.injEq] at h1
          exact (hne ms h1.1.2.symm h1.1.1 h2).elim
    cases out with
    | failed => rw [← hext (by simp)]; exact hold' m hm
    | unusable =>
      rw [← hext (by simp)]
      by_cases hg : g = f
      · subst hg
        simp [ItMessage.dryRun, Table.set] at hm
        rw [← hm]; exact hold
      · simp only [ItMessage.dryRun, Table.set, hg, if_false] at hm
        exact hold' m hm
    | messages ms =>
      by_cases hg : g = f
      · subst hg
        simp only [ItMessage.dryRun, Table.set, if_true, Option.some.injEq] at hm
        rw [← hm]
        by_cases ht : t ∈ ms
        · simp only [ht, if_true, true_iff]
          exact ⟨ms, _, List.mem_append_right _ (List.mem_singleton.2 rfl), ht⟩
        · simp only [ht, if_false]
          rw [← hext (by simp only [Output.messages.injEq]; rintro _ rfl _ h; exact ht h)]
          exact hold
      · simp only [ItMessage.dryRun, Table.set, hg, if_false] at hm
        rw [← hext (by intro _ _ h; exact absurd h hg)]
        exact hold' m hm
  · intro g m t hm ht
    rw [hw]
    cases out with
    | failed => exact h.emitted g m t hm ht
    | unusable =>
      by_cases hg : g = f
      · subst hg
        simp [ItMessage.dryRun, Table.set] at hm
        subst hm
        cases hb : tb g with
        | none => simp [hb] at ht
        | some m' => exact h.emitted g m' t hb (by simpa [hb] using ht)
      · simp only [ItMessage.dryRun, Table.set, hg, if_false] at hm
        exact h.emitted g m t hm ht
    | messages ms =>
      by_cases hg : g = f
      · subst hg
        simp only [ItMessage.dryRun, Table.set, if_true, Option.some.injEq] at hm
        subst hm
        by_cases hms : t ∈ ms
        · simp [hms] at ht
        · cases hb : tb g with
          | none => simp [hb, hms] at ht
          | some m' => exact h.emitted g m' t hb (by simpa [hb, hms] using ht)
      · simp only [ItMessage.dryRun, Table.set, hg, if_false] at hm
        exact h.emitted g m t hm ht
  · intro g t hwd
    rw [hw] at hwd
    obtain ⟨m, hm, hn⟩ := h.warned g t hwd
    cases out with
    | failed => exact ⟨m, hm, hn⟩
    | unusable =>
      by_cases hg : g = f
      · subst hg
        exact ⟨m, by simp [ItMessage.dryRun, Table.set, hm], hn⟩
      · exact ⟨m, by simp only [ItMessage.dryRun, Table.set, hg, if_false]; exact hm, hn⟩
    | messages ms =>
      by_cases hg : g = f
      · subst hg
        refine ⟨fun t => if t ∈ ms then .found else m t, by simp [ItMessage.dryRun, Table.set, hm], ?_⟩
        dsimp only
        split
        · simp
        · exact hn
      · exact ⟨m, by simp only [ItMessage.dryRun, Table.set, hg, if_false]; exact hm, hn⟩

/-- The ways an execution ends. -/
theorem exec_cases (o : WarnOpts) (debug : Text → Text) (test : Text) (span : Span) (tb : Table) (ws : WStates) :
    (tb span.file = none ∧ exec o debug test span tb ws = (.panic, false, [], tb, ws)) ∨
    ∃ m, tb span.file = some m ∧
      ((m test = .found ∧ exec o debug test span tb ws = (.execute, false, [], tb, ws)) ∨
       (m test = .warningEmitted ∧ exec o debug test span tb ws = (.notBuildable, false, [], tb, ws)) ∨
       (m test = .notFound ∧ ∃ r p ws', (r = .notBuildable ∨ r = .denied) ∧ exec o debug test span tb ws =
          (r, true, p, if r = .denied then tb else tb.set span.file fun t => if t = test then .warningEmitted else m t, ws'))) := by
  unfold exec
  cases hf : tb span.file with
  | none => exact .inl ⟨rfl, rfl⟩
  | some m =>
    refine .inr ⟨m, rfl, ?_⟩
    dsimp only
    cases hm : m test with
    | found => exact .inl ⟨rfl, rfl⟩
    | warningEmitted => exact .inr (.inl ⟨rfl, rfl⟩)
    | notFound =>
      refine .inr (.inr ⟨rfl, ?_⟩)
      dsimp only
      rcases warnInternal o ws ⟨.itMessageNotFound, some span.display, notFoundMsg (debug test), false⟩ with ⟨r, ws'⟩
      cases r with
      | print msg => exact ⟨.notBuildable, _, _, .inl rfl, rfl⟩
      | silent => exact ⟨.notBuildable, _, _, .inl rfl, rfl⟩
      | bail _ => exact ⟨.denied, _, _, .inr rfl, rfl⟩
      | panic => exact ⟨.denied, _, _, .inr rfl, rfl⟩

theorem Inv.exec {done tb test span o debug ws} (h : Inv done tb)
    (hr : ¬ ((ItMessage.exec o debug test span tb ws).1 = .denied ∨ (ItMessage.exec o debug test span tb ws).1 = .panic)) :
    Inv (done ++ [(.exec test span, seen o debug tb ws (.exec test span))])
      (ItMessage.exec o debug test span tb ws).2.2.2.1 := by
  have hd : ∀ f out s, (Op.dryRun f out, s) ∈ done ++ [(.exec test span, seen o debug tb ws (.exec test span))] ↔
      (Op.dryRun f out, s) ∈ done := by simp
  have hwsub : ∀ x f t, Warned done f t → Warned (done ++ [x]) f t := by
    rintro x f t ⟨sp, r, p, hm, hf⟩
    exact ⟨sp, r, p, List.mem_append_left _ hm, hf⟩
  rcases exec_cases o debug test span tb ws with ⟨_, he⟩ | ⟨m, hf, ⟨hm, he⟩ | ⟨hm, he⟩ | ⟨hm, r, p, ws', hr', he⟩⟩
  · simp [he] at hr
  · have hw : ∀ f t, Warned (done ++ [(.exec test span, seen o debug tb ws (.exec test span))]) f t → Warned done f t := by
      rintro f t ⟨sp, r, p, hm, hf⟩
      rcases List.mem_append.1 hm with hm | hm
      · exact ⟨sp, r, p, hm, hf⟩
      · simp [seen, he] at hm
    rw [he]
    refine ⟨fun f => ?_, fun f m t hmt => ?_, fun f m t a b => hwsub _ _ _ (h.emitted f m t a b), fun f t a => h.warned f t (hw f t a)⟩
    · simp only [hd]; exact h.known f
    · simp only [hd]; exact h.found f m t hmt
  · have hw : ∀ f t, Warned (done ++ [(.exec test span, seen o debug tb ws (.exec test span))]) f t → Warned done f t := by
      rintro f t ⟨sp, r, p, hm, hf⟩
      rcases List.mem_append.1 hm with hm | hm
      · exact ⟨sp, r, p, hm, hf⟩
      · simp [seen, he] at hm
    rw [he]
    refine ⟨fun f => ?_, fun f m t hmt => ?_, fun f m t a b => hwsub _ _ _ (h.emitted f m t a b), fun f t a => h.warned f t (hw f t a)⟩
    · simp only [hd]; exact h.known f
    · simp only [hd]; exact h.found f m t hmt
  · have hrd : r ≠ .denied := by rintro rfl; simp [he] at hr
    have hself : Warned (done ++ [(.exec test span, seen o debug tb ws (.exec test span))]) span.file test :=
      ⟨span, r, p, by simp [seen, he], rfl⟩
    have htb : (ItMessage.exec o debug test span tb ws).2.2.2.1 =
        tb.set span.file fun t => if t = test then .warningEmitted else m t := by rw [he]; simp [hrd]
    rw [htb]
    refine ⟨fun f => ?_, fun f m' t hmt => ?_, fun f m' t hmt ht => ?_, fun f t hwd => ?_⟩
    · simp only [hd]
      rw [← h.known f]
      by_cases hff : f = span.file
      · subst hff; simp [Table.set, hf]
      · simp only [Table.set, hff, if_false]
    · simp only [hd]
      by_cases hff : f = span.file
      · subst hff
        simp only [Table.set, if_true, Option.some.injEq] at hmt
        subst hmt
        dsimp only
        by_cases ht : t = test
        · subst ht
          rw [← h.found span.file m t hf]
          simp [hm]
        · simp only [ht, if_false]; exact h.found span.file m t hf
      · simp only [Table.set, hff, if_false] at hmt
        exact h.found f m' t hmt
    · by_cases hff : f = span.file
      · subst hff
        simp only [Table.set, if_true, Option.some.injEq] at hmt
        subst hmt
        dsimp only at ht
        by_cases htt : t = test
        · subst htt; exact hself
        · simp only [htt, if_false] at ht
          exact hwsub _ _ _ (h.emitted _ m t hf ht)
      · simp only [Table.set, hff, if_false] at hmt
        exact hwsub _ _ _ (h.emitted f m' t hmt ht)
    · obtain ⟨sp, r', p', hmem, hspf⟩ := hwd
      rcases List.mem_append.1 hmem with hmem | hmem
      · obtain ⟨m', hm', hn⟩ := h.warned f t ⟨sp, r', p', hmem, hspf⟩
        by_cases hff : f = span.file
        · subst hff
          rw [hf] at hm'
          cases hm'
          refine ⟨fun t => if t = test then .warningEmitted else m t, by simp [Table.set], ?_⟩
          dsimp only
          split
          · simp
          · exact hn
        · exact ⟨m', by simp only [Table.set, hff, if_false]; exact hm', hn⟩
      · simp only [List.mem_singleton, Prod.mk.injEq, Op.exec.injEq] at hmem
        obtain ⟨⟨rfl, rfl⟩, _⟩ := hmem
        subst hspf
        exact ⟨_, by simp [Table.set]; rfl, by simp⟩

/-- The state in which the `i`-th use happens. -/
theorem history_at (o : WarnOpts) (debug : Text → Text) (ops : List Op) (tb : Table) (ws : WStates)
    (done : List (Op × Seen)) (h : Inv done tb) (i : Nat) (x : Seen) (hx : (history o debug ops tb ws)[i]? = some x) :
    ∃ op tb' ws', ops[i]? = some op ∧ x = seen o debug tb' ws' op ∧
      Inv (done ++ (ops.zip (history o debug ops tb ws)).take i) tb' := by
  induction ops generalizing tb ws done i with
  | nil => simp [history] at hx
  | cons op ops ih =>
    cases op with
    | dryRun f out =>
      rw [history] at hx ⊢
      cases i with
      | zero =>
        simp at hx
        exact ⟨_, tb, ws, rfl, by rw [← hx]; rfl, by simpa using h⟩
      | succ i =>
        rw [List.getElem?_cons_succ] at hx
        obtain ⟨op, tb', ws', h1, h2, h3⟩ := ih _ ws _ (h.dryRun (f := f) (out := out) ⟨_, rfl⟩) i hx
        exact ⟨op, tb', ws', h1, h2, by simpa using h3⟩
    | exec test span =>
      rw [history] at hx ⊢
      cases i with
      | zero =>
        simp at hx
        exact ⟨_, tb, ws, rfl, by rw [← hx]; rfl, by simpa using h⟩
      | succ i =>
        rw [List.getElem?_cons_succ] at hx
        by_cases hend : (exec o debug test span tb ws).1 = .denied ∨ (exec o debug test span tb ws).1 = .panic
        · rw [if_pos hend] at hx; simp at hx
        · rw [if_neg hend] at hx ⊢
          obtain ⟨op, tb', ws', h1, h2, h3⟩ := ih _ _ _ (h.exec hend) i hx
          exact ⟨op, tb', ws', h1, h2, by simpa [seen] using h3⟩

theorem Inv.init : Inv [] Table.init :=
  ⟨by simp [Table.init], by simp [Table.init], by simp [Table.init], by rintro _ _ ⟨_, _, _, h, _⟩; simp at h⟩

/-- Entries of the past. -/
theorem mem_take_zip {ops : List Op} {log : List Seen} {i : Nat} {op : Op} {s : Seen} :
    (op, s) ∈ (ops.zip log).take i ↔ ∃ j : Nat, j < i ∧ ops[j]? = some op ∧ log[j]? = some s := by
  rw [List.mem_iff_getElem?]
  constructor
  · rintro ⟨j, hj⟩
    rw [List.getElem?_take] at hj
    split at hj
    · rename_i hji
      rw [List.getElem?_zip_eq_some] at hj
      exact ⟨j, hji, hj.1, hj.2⟩
    · simp at hj
  · rintro ⟨j, hji, h1, h2⟩
    exact ⟨j, by rw [List.getElem?_take, if_pos hji, List.getElem?_zip_eq_some]; exact ⟨h1, h2⟩⟩

theorem history_at_init {o debug ops ws i x} (hx : (history o debug ops Table.init ws)[i]? = some x) :
    ∃ op tb' ws', ops[i]? = some op ∧ x = seen o debug tb' ws' op ∧
      Inv ((ops.zip (history o debug ops Table.init ws)).take i) tb' := by
  simpa using history_at o debug ops Table.init ws [] Inv.init i x hx

/-- There are log entries for all earlier uses. -/
theorem log_before {log : List Seen} {i j : Nat} {x : Seen} (h : log[i]? = some x) (hj : j < i) : ∃ y, log[j]? = some y := by
  have := (List.getElem?_eq_some_iff.1 h).1
  exact ⟨log[j]'(by omega), List.getElem?_eq_getElem _⟩

/-- C48: in any sequence of dry runs and executions, a test is executed individually exactly if an earlier dry run of the same
source file reported its message. -/
theorem C48_executed_iff (o : WarnOpts) (debug : Text → Text) (ops : List Op) (ws : WStates) (i : Nat) (test : Text) (span : Span)
    (r : ExecResult) (w : Bool) (p : List WarnMsg) (hop : ops[i]? = some (.exec test span))
    (hx : (history o debug ops Table.init ws)[i]? = some (.exec r w p)) :
    r = .execute ↔ ∃ (j : Nat) (ms : List Text), j < i ∧ ops[j]? = some (.dryRun span.file (.messages ms)) ∧ test ∈ ms := by
  obtain ⟨op, tb, ws', h1, h2, h3⟩ := history_at_init hx
  rw [hop] at h1
  cases h1
  simp only [seen, Seen.exec.injEq] at h2
  obtain ⟨rfl, -, -⟩ := h2
  have hfound : (∃ m, tb span.file = some m ∧ m test = .found) ↔
      ∃ (j : Nat) (ms : List Text), j < i ∧ ops[j]? = some (.dryRun span.file (.messages ms)) ∧ test ∈ ms := by
    constructor
    · rintro ⟨m, hm, ht⟩
      obtain ⟨ms, s, hmem, hms⟩ := (h3.found _ m test hm).1 ht
      obtain ⟨j, hj, h4, -⟩ := mem_take_zip.1 hmem
      exact ⟨j, ms, hj, h4, hms⟩
    · rintro ⟨j, ms, hj, h4, hms⟩
      obtain ⟨y, hy⟩ := log_before hx hj
      have hmem := mem_take_zip.2 ⟨j, hj, h4, hy⟩
      have hs := (h3.known span.file).2 ⟨_, y, hmem, by simp⟩
      obtain ⟨m, hm⟩ := Option.isSome_iff_exists.1 hs
      exact ⟨m, hm, (h3.found _ m test hm).2 ⟨ms, y, hmem, hms⟩⟩
  rw [← hfound]
  rcases exec_cases o debug test span tb ws' with ⟨hn, he⟩ | ⟨m, hf, ⟨hm, he⟩ | ⟨hm, he⟩ | ⟨hm, r, p, ws', hr', he⟩⟩
  · simp [he, hn]
  · simp [he, hf, hm]
  · simp [he, hf, hm]
  · rw [he]; rcases hr' with rfl | rfl <;> simp [hf, hm]

/-- C48: a message is warned about at most once for each source file. -/
theorem C48_warned_once (o : WarnOpts) (debug : Text → Text) (ops : List Op) (ws : WStates) (i j : Nat) (test : Text)
    (span span' : Span) (hf : span.file = span'.file) (r r' : ExecResult) (p p' : List WarnMsg)
    (hi : ops[i]? = some (.exec test span)) (hj : ops[j]? = some (.exec test span'))
    (hxi : (history o debug ops Table.init ws)[i]? = some (.exec r true p))
    (hxj : (history o debug ops Table.init ws)[j]? = some (.exec r' true p')) : i = j := by
  have key : ∀ (i j : Nat) (span span' : Span) (r r' : ExecResult) (p p' : List WarnMsg), span.file = span'.file →
      ops[i]? = some (.exec test span) → ops[j]? = some (.exec test span') →
      (history o debug ops Table.init ws)[i]? = some (.exec r true p) →
      (history o debug ops Table.init ws)[j]? = some (.exec r' true p') → ¬ i < j := by
    intro i j span span' r r' p p' hf hi hj hxi hxj hij
    obtain ⟨op, tb, ws', h1, h2, h3⟩ := history_at_init hxj
    rw [hj] at h1
    cases h1
    simp only [seen, Seen.exec.injEq] at h2
    obtain ⟨-, h2, -⟩ := h2
    obtain ⟨m, hm, hn⟩ := h3.warned span'.file test ⟨span, r, p, mem_take_zip.2 ⟨i, hij, hi, hxi⟩, hf⟩
    rcases exec_cases o debug test span' tb ws' with ⟨hn, he⟩ | ⟨m', hf, ⟨hm', he⟩ | ⟨hm', he⟩ | ⟨hm', r, p, ws', hr', he⟩⟩
    · simp [he] at h2
    · simp [he] at h2
    · simp [he] at h2
    · rw [hf] at hm; cases hm; exact hn hm'
  have h1 := key i j span span' r r' p p' hf hi hj hxi hxj
  have h2 := key j i span' span r' r p' p hf.symm hj hi hxj hxi
  omega

/-- C48: if a test is not executed because its message was not reported, then it is warned about, now or earlier; and necessist
fails or carries on with the outcome "nonbuildable". -/
theorem C48_warned (o : WarnOpts) (debug : Text → Text) (ops : List Op) (ws : WStates) (i : Nat) (test : Text) (span : Span)
    (r : ExecResult) (w : Bool) (p : List WarnMsg) (hop : ops[i]? = some (.exec test span))
    (hx : (history o debug ops Table.init ws)[i]? = some (.exec r w p)) (hr : r ≠ .execute) (hp : r ≠ .panic) :
    (r = .notBuildable ∨ r = .denied) ∧
    ∃ (j : Nat) (span' : Span) (r' : ExecResult) (p' : List WarnMsg), j ≤ i ∧ span'.file = span.file ∧
      ops[j]? = some (.exec test span') ∧ (history o debug ops Table.init ws)[j]? = some (.exec r' true p') := by
  obtain ⟨op, tb, ws', h1, h2, h3⟩ := history_at_init hx
  rw [hop] at h1
  cases h1
  simp only [seen, Seen.exec.injEq] at h2
  obtain ⟨h2, h2', -⟩ := h2
  rcases exec_cases o debug test span tb ws' with ⟨hn, he⟩ | ⟨m, hf, ⟨hm, he⟩ | ⟨hm, he⟩ | ⟨hm, r', p', ws', hr', he⟩⟩
  · simp [he] at h2; exact absurd h2 hp
  · simp [he] at h2; exact absurd h2 hr
  · refine ⟨.inl (by simp [h2, he]), ?_⟩
    obtain ⟨sp, r', p', hmem, hspf⟩ := h3.emitted _ m test hf hm
    obtain ⟨j, hj, h4, h5⟩ := mem_take_zip.1 hmem
    exact ⟨j, sp, r', p', by omega, hspf, h4, h5⟩
  · refine ⟨by simp [h2, he, hr'], i, span, r, p, by omega, rfl, hop, ?_⟩
    rw [hx, h2']; simp [he]

/-- C48: the panic "source file is not in map" happens only if no dry run of the file was successful. -/
theorem C48_in_map (o : WarnOpts) (debug : Text → Text) (ops : List Op) (ws : WStates) (i : Nat) (test : Text) (span : Span)
    (w : Bool) (p : List WarnMsg) (hop : ops[i]? = some (.exec test span))
    (hx : (history o debug ops Table.init ws)[i]? = some (.exec .panic w p)) (j : Nat) (hj : j < i) (ms : List Text) :
    ops[j]? ≠ some (.dryRun span.file (.messages ms)) := by
  intro h4
  obtain ⟨op, tb, ws', h1, h2, h3⟩ := history_at_init hx
  rw [hop] at h1
  cases h1
  simp only [seen, Seen.exec.injEq] at h2
  obtain ⟨h2, -, -⟩ := h2
  obtain ⟨y, hy⟩ := log_before hx hj
  have hs := (h3.known span.file).2 ⟨_, y, mem_take_zip.2 ⟨j, hj, h4, hy⟩, by simp⟩
  rcases exec_cases o debug test span tb ws' with ⟨hn, he⟩ | ⟨m, hf, ⟨hm, he⟩ | ⟨hm, he⟩ | ⟨hm, r', p', ws', hr', he⟩⟩
  · simp [hn] at hs
  · simp [he] at h2
  · simp [he] at h2
  · rw [he] at h2; rcases hr' with rfl | rfl <;> simp at h2

/-- C48: what a warning says. It is printed unless `--quiet` or `--allow`. -/
theorem C48_warning (o : WarnOpts) (debug : Text → Text) (test : Text) (span : Span) (tb : Table) (ws : WStates)
    (hw : (exec o debug test span tb ws).2.1 = true) (hr : (exec o debug test span tb ws).1 = .notBuildable)
    (hq : o.quiet = false) (ha : Warning.all ∉ o.allow) (ha' : Warning.itMessageNotFound ∉ o.allow) :
    ∃ msg : WarnMsg, (exec o debug test span tb ws).2.2.1 = [msg] ∧ msg.warning = .itMessageNotFound ∧
      msg.source = some span.display ∧
      msg.msg = "`it` message ".toList ++ debug test ++ " was not found during dry run".toList := by
  unfold exec at hw hr ⊢
  cases hf : tb span.file with
  | none => simp [hf] at hw
  | some m =>
    cases hm : m test with
    | found => simp [hf, hm] at hw
    | warningEmitted => simp [hf, hm] at hw
    | notFound =>
      simp only [hf, hm] at hw hr ⊢
      rcases hc : warnInternal o ws ⟨.itMessageNotFound, some span.display, notFoundMsg (debug test), false⟩ with ⟨r, ws'⟩
      rw [hc] at hr hw
      unfold warnInternal at hc
      simp only [hq, Bool.false_or, Bool.false_and, Bool.or_false] at hc
      by_cases hd : Warning.all ∈ o.deny ∨ Warning.itMessageNotFound ∈ o.deny
      · simp [hd] at hc
        rw [← hc.1] at hr
        simp at hr
      · simp [hd, ha, ha'] at hc
        rw [← hc.1]
        exact ⟨_, rfl, rfl, rfl, rfl⟩

/-! ### In a run -/

section
variable {σ : Type} (base : Run.Env σ) (o : WarnOpts) (debug : Text → Text) (output : Run.World σ → SourceFile → Output)

/-- Every message recorded as found was reported by a dry run. -/
def Reported (tb : Table) : Prop :=
  ∀ f m t, tb f = some m → m t = .found → ∃ w ms, output w f = .messages ms ∧ t ∈ ms

theorem reported_dryRun {tb : Table} (h : Reported output tb) (w : Run.World σ) (f : SourceFile) :
    Reported output (dryRun f (output w f) tb).2 := by
  intro g m t hm ht
  have hd : ∀ m', ((tb g).getD fun _ => .notFound) = m' → m' t = .found →
      ∃ w ms, output w g = .messages ms ∧ t ∈ ms := by
    intro m' h1 h2
    cases hb : tb g with
    | none => rw [hb] at h1; subst h1; simp at h2
    | some m'' => rw [hb] at h1; exact h g m'' t hb (by simp at h1; rw [h1]; exact h2)
  cases ho : output w f with
  | failed => rw [ho] at hm; exact h g m t hm ht
  | unusable =>
    rw [ho] at hm
    by_cases hg : g = f
    · subst hg
      simp only [dryRun, Table.set, if_true, Option.some.injEq] at hm
      exact hd m hm ht
    · simp only [dryRun, Table.set, hg, if_false] at hm
      exact h g m t hm ht
  | messages ms =>
    rw [ho] at hm
    by_cases hg : g = f
    · subst hg
      simp only [dryRun, Table.set, if_true, Option.some.injEq] at hm
      subst hm
      by_cases hms : t ∈ ms
      · exact ⟨w, ms, ho, hms⟩
      · simp only [hms, if_false] at ht
        exact hd _ rfl ht
    · simp only [dryRun, Table.set, hg, if_false] at hm
      exact h g m t hm ht

theorem reported_exec {tb : Table} (h : Reported output tb) (test : Text) (span : Span) (ws : WStates) :
    Reported output (exec o debug test span tb ws).2.2.2.1 := by
  rcases exec_cases o debug test span tb ws with ⟨hn, he⟩ | ⟨m, hf, ⟨hm, he⟩ | ⟨hm, he⟩ | ⟨hm, r', p', ws', hr', he⟩⟩
  · rw [he]; exact h
  · rw [he]; exact h
  · rw [he]; exact h
  · rw [he]
    dsimp only
    split
    · exact h
    · intro g m' t hm' ht
      by_cases hg : g = span.file
      · subst hg
        simp only [Table.set, if_true, Option.some.injEq] at hm'
        subst hm'
        by_cases htt : t = test
        · simp [htt] at ht
        · simp only [htt, if_false] at ht
          exact h _ m t hf ht
      · simp only [Table.set, hg, if_false] at hm'
        exact h g m' t hm' ht

theorem guarded : Run.Guarded (inRun base o debug output) (fun e => Reported output e.1)
    (fun f t => ∃ w ms, output w f = .messages ms ∧ t ∈ ms) where
  ctrlc _ h := h
  dryRun w f h := reported_dryRun output h _ f
  backup _ _ h := h
  write _ _ _ h := h
  instrFile _ _ _ h := h
  wrap _ _ h := h
  build _ _ h := h
  exec w t s h := reported_exec o debug output h t s _
  start _ _ _ _ h := h
  post _ h := h
  kill _ h := h
  reap _ h := h
  insert _ _ h := h
  execute w t s b h hr := by
    rcases exec_cases o debug t s w.ext.1 w.warns with ⟨hn, he⟩ | ⟨m, hf, ⟨hm, he⟩ | ⟨hm, he⟩ | ⟨hm, r', p', ws', hr', he⟩⟩
    · simp [inRun, he] at hr
    · exact h _ m t hf hm
    · simp [inRun, he] at hr
    · rcases hr' with rfl | rfl <;> simp [inRun, he] at hr

/-- C48: in a run, however it ends, every test that was started has a message that a dry run of its source file reports. -/
theorem C48_run (cfg : Run.Cfg) (fcs : List (SourceFile × List Candidate)) (w : Run.World (Table × σ))
    (hw : w.ext.1 = Table.init) (ht : w.trace = []) (s : Run.Snap)
    (hs : s ∈ (Run.runFiles cfg (inRun base o debug output) fcs w).2.trace) (c : Candidate) (t : Text) (i : Text)
    (he : s.event = .startTest c t i) : ∃ w' ms, output w' c.span.file = .messages ms ∧ t ∈ ms :=
  (guarded base o debug output).started cfg fcs w (by rw [hw]; intro f m t h; simp [Table.init] at h) ht s hs c t i he

/-- C48: a test whose message was not reported is not started. If the removal is made by deleting the text, the candidate is
recorded as nonbuildable; if the removal is an instrumented statement, necessist panics; or the warning is denied. -/
theorem C48_not_reported_partial (cfg : Run.Cfg) (c : Candidate) (explicit : Bool) (t : Text) (w : Run.World (Table × σ))
    (m : Text → ItState) (hm : w.ext.1 c.span.file = some m) (ht : m t ≠ .found) :
    (∀ s ∈ (Run.oneTest cfg (inRun base o debug output) c explicit t w).2.trace, s ∉ w.trace →
      s.event = .buildTest c t ∨ s.event = .tested c t (some .nonbuildable)) ∧
    ((Run.oneTest cfg (inRun base o debug output) c explicit t w).1 = .err .denied ∨
      (Run.oneTest cfg (inRun base o debug output) c explicit t w).1 =
        if explicit then .ok (some .nonbuildable) else .panic) := by
  have hmem : ∀ (l : List Run.Snap) (a b : Run.Snap) s, s ∈ l ++ [a] ++ [b] → s ∉ l → s = a ∨ s = b := by
    intro l a b s h1 h2
    simp at h1
    rcases h1 with h1 | h1 | h1
    · exact absurd h1 h2
    · exact .inl h1
    · exact .inr h1
  have hmem' : ∀ (l : List Run.Snap) (a : Run.Snap) s, s ∈ l ++ [a] → s ∉ l → s = a := by
    intro l a s h1 h2
    simp at h1
    rcases h1 with h1 | h1
    · exact absurd h1 h2
    · exact h1
  unfold Run.oneTest
  simp only [Run.bind, Run.note, Run.ask, inRun]
  rcases exec_cases o debug t c.span w.ext.1 w.warns with ⟨hn, he⟩ | ⟨m', hf, ⟨hm', he⟩ | ⟨hm', he⟩ | ⟨hm', r', p', ws', hr', he⟩⟩
  · rw [hn] at hm; cases hm
  · rw [hf] at hm; cases hm; exact absurd hm' ht
  · simp only [he]
    cases explicit
    · refine ⟨fun s h1 h2 => .inl ?_, .inr rfl⟩
      rw [hmem' _ _ s h1 h2]
    · refine ⟨fun s h1 h2 => ?_, .inr rfl⟩
      rcases hmem _ _ _ s h1 h2 with rfl | rfl
      · exact .inl rfl
      · exact .inr rfl
  · rcases hr' with rfl | rfl
    · simp only [he]
      cases explicit
      · refine ⟨fun s h1 h2 => .inl ?_, .inr rfl⟩
        rw [hmem' _ _ s h1 h2]
      · refine ⟨fun s h1 h2 => ?_, .inr rfl⟩
        rcases hmem _ _ _ s h1 h2 with rfl | rfl
        · exact .inl rfl
        · exact .inr rfl
    · simp only [he]
      refine ⟨fun s h1 h2 => .inl ?_, by simp⟩
      rw [hmem' _ _ s h1 h2]

end

/-! ### Mocha's output -/

theorem isDigit_iff (c : Char) : isDigit c = true ↔ c ∈ "0123456789".toList := by
  constructor
  · intro h
    simp only [isDigit, Bool.and_eq_true, decide_eq_true_eq, Char.le_def, UInt32.le_iff_toNat_le] at h
    have h1 : 48 ≤ c.toNat := h.1
    have h2 : c.toNat ≤ 57 := h.2
    have : c = Char.ofNat c.toNat := by simp
    rw [this]
    have : ∀ n, 48 ≤ n → n ≤ 57 → Char.ofNat n ∈ "0123456789".toList := by
      intro n h1 h2
      have : n = 48 ∨ n = 49 ∨ n = 50 ∨ n = 51 ∨ n = 52 ∨ n = 53 ∨ n = 54 ∨ n = 55 ∨ n = 56 ∨ n = 57 := by omega
      rcases this with rfl | rfl | rfl | rfl | rfl | rfl | rfl | rfl | rfl | rfl <;> decide
    exact this _ h1 h2
  · intro h
    have : ∀ c ∈ "0123456789".toList, isDigit c = true := by decide
    exact this c h

theorem stripParens_eq (unit m ds : Text) (hd : ds ≠ []) (hds : ∀ d ∈ ds, isDigit d = true) :
    stripParens unit (m ++ (' ' :: '(' :: ds) ++ unit ++ [')']) = some m := by
  have hrev : (m ++ (' ' :: '(' :: ds) ++ unit ++ [')']).reverse =
      (unit ++ [')']).reverse ++ (ds.reverse ++ ('(' :: ' ' :: m.reverse)) := by simp
  have htake : (ds.reverse ++ ('(' :: ' ' :: m.reverse)).takeWhile isDigit = ds.reverse := by
    rw [List.takeWhile_append_of_pos (by simpa using hds)]
    simp [isDigit]
  unfold stripParens
  rw [hrev]
  have hp : (unit ++ [')']).reverse.isPrefixOf ((unit ++ [')']).reverse ++ (ds.reverse ++ ('(' :: ' ' :: m.reverse))) = true := by
    rw [List.isPrefixOf_iff_prefix]; exact List.prefix_append _ _
  simp only [hp, if_true]
  rw [show (unit ++ [')']).length = (unit ++ [')']).reverse.length by simp, List.drop_left, htake, List.drop_left]
  cases hc : ds.reverse with
  | nil => simp at hc; exact absurd hc hd
  | cons a b => simp

theorem stripParens_suffix {unit t m : Text} (h : stripParens unit t = some m) :
    ∃ ds, ds ≠ [] ∧ (∀ d ∈ ds, isDigit d = true) ∧ t = m ++ (' ' :: '(' :: ds) ++ unit ++ [')'] := by
  unfold stripParens at h
  simp only at h
  split at h
  · rename_i hp
    rw [List.isPrefixOf_iff_prefix] at hp
    obtain ⟨r, hr⟩ := hp
    rw [← hr] at h
    rw [show (unit ++ [')']).length = (unit ++ [')']).reverse.length by simp, List.drop_left] at h
    have hsplit : r = r.takeWhile isDigit ++ r.drop (r.takeWhile isDigit).length := by
      have h1 : r.takeWhile isDigit ++ r.dropWhile isDigit = r := List.takeWhile_append_dropWhile
      have h2 : r.dropWhile isDigit = r.drop (r.takeWhile isDigit).length := by
        conv => rhs; arg 2; rw [← h1]
        rw [List.drop_left]
      rw [← h2, h1]
    have hall : ∀ x ∈ r.takeWhile isDigit, isDigit x = true := List.all_eq_true.1 List.all_takeWhile
    generalize r.takeWhile isDigit = ds at *
    generalize r.drop ds.length = rest at *
    split at h
    · simp at h
    · rename_i d ds m'
      cases h
      refine ⟨(d :: ds).reverse, by simp, fun x hx => hall x (List.mem_reverse.1 hx), ?_⟩
      have : t = ((unit ++ [')']).reverse ++ r).reverse := by rw [hr, List.reverse_reverse]
      rw [this, hsplit]
      simp
    · simp at h
  · simp at h

theorem afterMark_none {f : Text → Option Text} {line : Text} {k : Nat} (h : ∀ j, matchAt f line j = none) :
    afterMark f line k = none := by
  induction k with
  | zero => exact h 0
  | succ k ih => rw [afterMark, h]; exact ih

theorem afterMark_first {f : Text → Option Text} {line m : Text} {k : Nat} (h : matchAt f line k = some m) :
    afterMark f line k = some m := by
  cases k with
  | zero => exact h
  | succ k => rw [afterMark, h]

/-- If a line does not end in a number and a unit in parentheses, then no rest of it does. -/
theorem matchAt_none {unit line : Text} {j : Nat}
    (h : ∀ x ds, ds ≠ [] → (∀ d ∈ ds, isDigit d = true) → line ≠ x ++ (' ' :: '(' :: ds) ++ unit ++ [')']) :
    matchAt (stripParens unit) line j = none := by
  unfold matchAt
  split
  · rename_i a rest hd
    cases hs : stripParens unit rest with
    | none => rfl
    | some m =>
      obtain ⟨ds, h1, h2, h3⟩ := stripParens_suffix hs
      refine absurd ?_ (h (line.take j ++ a :: ' ' :: m) ds h1 h2)
      conv => lhs; rw [← List.take_append_drop j line, hd, h3]
      simp
  · rfl

/-- The line of the report about a test: indentation, a mark, and a text. -/
theorem matchAt_line {f : Text → Option Text} {ws t : Text} {mark : Char} :
    matchAt f (ws ++ mark :: ' ' :: t) ws.length = f t := by
  unfold matchAt
  rw [List.drop_left]
  rfl

theorem indent_line {ws t : Text} {mark : Char} (hws : ∀ c ∈ ws, isWhitespace c = true) (hm : isWhitespace mark = false) :
    indent (ws ++ mark :: t) = ws.length := by
  unfold indent
  rw [List.takeWhile_append_of_pos hws]
  simp [hm]

/-- C48: a line of Mocha's report with the gas used is about the message before it. -/
theorem C48_mocha_gas (ws m ds : Text) (mark : Char) (hws : ∀ c ∈ ws, isWhitespace c = true) (hmark : isWhitespace mark = false)
    (hd : ds ≠ []) (hds : ∀ d ∈ ds, d ∈ "0123456789".toList) :
    extractLine (ws ++ mark :: ' ' :: (m ++ (' ' :: '(' :: ds) ++ " gas".toList ++ [')'])) = some m := by
  unfold extractLine
  rw [indent_line hws hmark, afterMark_first (m := m)]
  rw [matchAt_line]
  exact stripParens_eq _ m ds hd fun d h => (isDigit_iff d).2 (hds d h)

/-- C48: a line of Mocha's report with the time taken is about the message before it. -/
theorem C48_mocha_time (ws m ds : Text) (mark : Char) (hws : ∀ c ∈ ws, isWhitespace c = true) (hmark : isWhitespace mark = false)
    (hd : ds ≠ []) (hds : ∀ d ∈ ds, d ∈ "0123456789".toList) :
    extractLine (ws ++ mark :: ' ' :: (m ++ (' ' :: '(' :: ds) ++ "ms".toList ++ [')'])) = some m := by
  unfold extractLine
  rw [indent_line hws hmark, afterMark_none (f := stripParens " gas".toList)]
  · dsimp only
    rw [afterMark_first (m := m)]
    rw [matchAt_line]
    exact stripParens_eq _ m ds hd fun d h => (isDigit_iff d).2 (hds d h)
  · intro j
    refine matchAt_none fun x ds' _ _ h => ?_
    have := congrArg (fun t => (t.reverse).take 3) h
    simp at this

/-- C48: a line of Mocha's report with neither is about all of the text after the mark. -/
theorem C48_mocha_plain (ws m : Text) (mark : Char) (hws : ∀ c ∈ ws, isWhitespace c = true) (hmark : isWhitespace mark = false)
    (h : ∀ x ds unit, unit = " gas".toList ∨ unit = "ms".toList → ds ≠ [] → (∀ d ∈ ds, d ∈ "0123456789".toList) →
      ws ++ mark :: ' ' :: m ≠ x ++ (' ' :: '(' :: ds) ++ unit ++ [')']) :
    extractLine (ws ++ mark :: ' ' :: m) = some m := by
  unfold extractLine
  rw [indent_line hws hmark, afterMark_none (f := stripParens " gas".toList), afterMark_none (f := stripParens "ms".toList)]
  · dsimp only
    rw [afterMark_first (m := m)]
    rw [matchAt_line]
  · exact fun j => matchAt_none fun x ds h1 h2 => h x ds _ (.inr rfl) h1 fun d hd => (isDigit_iff d).1 (h2 d hd)
  · exact fun j => matchAt_none fun x ds h1 h2 => h x ds _ (.inl rfl) h1 fun d hd => (isDigit_iff d).1 (h2 d hd)

/-- C48: the messages are those of the lines. -/
theorem C48_mocha (stdout : Text) (m : Text) :
    m ∈ mochaMessages stdout ↔ ∃ line ∈ lines stdout, extractLine line = some m := List.mem_filterMap

/-- C48: as part of a run, a dry run fails exactly if its command does, or if no messages can be read from its output. -/
theorem C48_dry_run {σ : Type} (base : Run.Env σ) (o : WarnOpts) (debug : Text → Text) (output : Run.World σ → SourceFile → Output)
    (w : Run.World (Table × σ)) (f : SourceFile) :
    (output (forget w) f = .failed ∨ output (forget w) f = .unusable → ((inRun base o debug output).dryRun w f).res = .err .backend) ∧
    ((∃ ms, output (forget w) f = .messages ms) → ((inRun base o debug output).dryRun w f).res = .ok ()) := by
  constructor
  · rintro (h | h) <;> simp only [inRun, dryRun, h] <;> rfl
  · rintro ⟨ms, h⟩
    simp only [inRun, dryRun, h]
    rfl

/-! ### Cases -/

example : mochaMessages "  C\n    ✔ adds (12ms)\n    ✔ subtracts\n    ✔ mints (34 gas)\n\n  3 passing\n".toList =
    ["C", "adds", "subtracts", "mints", "passing"].map (·.toList) := by decide +kernel

/-- Finding: the message `takes (5ms)` is not among those found. -/
example : mochaMessages "    ✔ takes (5ms)\n".toList = ["takes".toList] := by decide +kernel

namespace Demo
open Run.Demo

def opts : WarnOpts := ⟨[], [], false⟩
def ops : List Op :=
  [.dryRun t (.messages ["p".toList]), .exec "p".toList c1.span, .exec "q".toList c1.span, .exec "q".toList c3.span,
    .dryRun t (.messages ["q".toList]), .exec "q".toList c3.span, .exec "p".toList d1.span]

example : (history opts id ops Table.init .init).map (fun s => match s with | .exec r w _ => some (r, w) | _ => none) =
    [none, some (.execute, false), some (.notBuildable, true), some (.notBuildable, false), none, some (.execute, false),
      some (.panic, false)] := by decide +kernel

def start' : Run.World (Table × (Nat × Nat)) := ⟨src, some [], .init, [], 0, [], none, [], (Table.init, (0, 0))⟩

/-- A run in which all messages are reported. -/
def reported (_ : Run.World (Nat × Nat)) (_ : SourceFile) : Output := .messages ["p".toList, "q".toList, "r".toList]

example : (Run.runFiles Run.Demo.cfg (inRun (Run.Demo.env 99 99) opts id reported) files start').1 = .ok () ∧
    ((Run.runFiles Run.Demo.cfg (inRun (Run.Demo.env 99 99) opts id reported) files start').2.db.map fun rows =>
      rows.map fun r => (r.text, r.outcome)) =
      some [("aa;".toList, "failed".toList), ("bb;".toList, "passed".toList), (".d()".toList, "failed".toList),
        ("x;".toList, "passed".toList)] := by decide +kernel

/-- A dry run that does not report `q`. -/
def unreported (_ : Run.World (Nat × Nat)) (_ : SourceFile) : Output := .messages ["p".toList, "r".toList]

/-- C48, what does not hold: that the run goes on when the message of a test is not found. The test `q` of the statement `aa;`
is not reported, and the run panics. -/
theorem C48_negation :
    (Run.runFiles Run.Demo.cfg (inRun (Run.Demo.env 99 99) opts id unreported) files start').1 = .panic := by decide +kernel

/-- With the method call only, the run goes on, and the outcome is "nonbuildable". -/
example : (Run.runFiles Run.Demo.cfg (inRun (Run.Demo.env 99 99) opts id unreported) [(t, [c3]), (u, [d1])] start').1 = .ok () ∧
    ((Run.runFiles Run.Demo.cfg (inRun (Run.Demo.env 99 99) opts id unreported) [(t, [c3]), (u, [d1])] start').2.db.map fun rows =>
      rows.map fun r => (r.text, r.outcome)) =
      some [(".d()".toList, "nonbuildable".toList), ("x;".toList, "passed".toList)] := by decide +kernel

end Demo

end Necessist.ItMessage
