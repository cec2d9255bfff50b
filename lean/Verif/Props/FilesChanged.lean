import Verif.Props.MainWarningsDemo
import Verif.Props.Resume
/-!
# C82: the warning that the configuration or the sources have changed
-/
namespace Necessist.Main
open Run Parse
variable {V σ : Type} {h : Host V σ} {o : Opts} {m : Machine σ}

/-- Entries that are read from the same rows have, in order, the same spans. -/
theorem Remembers.spans {past past' : List Removal} (h1 : Remembers h o m past) (h2 : Remembers h o m past') :
    past.map (·.span) = past'.map (·.span) := by
  rcases h1 with ⟨a, rfl⟩ | ⟨a1, a2, rows, stored, a3, a4, a5, a6⟩ <;> rcases h2 with ⟨b, rfl⟩ | ⟨b1, b2, rows', stored', b3, b4, b5, b6⟩
  · rfl
  · rcases a with a | a | a
    · rw [b1] at a; cases a
    · rw [b2] at a; cases a
    · rw [b3] at a; cases a
  · rcases b with b | b | b
    · rw [a1] at b; cases b
    · rw [a2] at b; cases b
    · rw [a3] at b; cases b
  · rw [a3] at b3
    cases b3
    have := (loadRows_iff _ _ _).2 a4
    rw [(loadRows_iff _ _ _).2 b4] at this
    cases this
    have hp : (past.map (·.span)).Perm (past'.map (·.span)) := (a5.trans b5.symm).map _
    refine hp.eq_of_pairwise (le := fun a b => (a.cmp b).isLE) ?_ (List.pairwise_map.2 a6) (List.pairwise_map.2 b6)
    intro a b _ _ h1 h2
    apply (Span.cmp_eq_iff _ _).1
    have := Std.OrientedCmp.eq_swap (cmp := Span.cmp) (a := b) (b := a)
    rw [this] at h2
    cases hab : a.cmp b with
    | eq => rfl
    | lt => rw [hab] at h2; cases h2
    | gt => rw [hab] at h1; cases h1

/-- The messages about changed sources. -/
def changedMessages (m m' : Machine σ) : List WarnMsg := (newWarnings m m').filter (·.warning = .filesChanged)

/-- Exit code 0, and candidates are looked for: everything needed was there. -/
theorem zero_begins (hl : LooksForCandidates o) (hc : (main h o m).1 = some 0) :
    processOptions o.set = .ok ∧ ∃ root config fw paths, Begins h o m root config fw paths ∧ h.lockFails root = false := by
  rw [main_fst] at hc
  by_cases hopt : processOptions o.set = .ok
  · rcases necessist_candidates (h := h) (m := m) hopt hl with ⟨_, k, _⟩ | ⟨root, fw, nT, map, ws, st, hf, _⟩
    · exfalso
      cases hn : (necessist h o m).1 with
      | ok n => exact k n hn
      | err _ => rw [hn] at hc; simp [exitCode] at hc
      | panic => rw [hn] at hc; simp [exitCode] at hc
      | hang => rw [hn] at hc; simp [exitCode] at hc
    · obtain ⟨g0, g1, config, paths, m1, pst, ws0, _, _, g3, g4, g5, _⟩ := hf
      exact ⟨hopt, root, config, fw, paths, ⟨hl, g0, g3, g4, g5⟩, g1⟩
  · obtain ⟨e, he⟩ := necessist_refused (h := h) (m := m) hopt
    rw [he] at hc; simp [exitCode] at hc

/-- Calls about changed sources are made by a run only. -/
theorem makes_changed {code events is} (hs : Sound h o) (hm : Makes h o m code events is) {c : WarnCall} (hc : c ∈ ownCalls is)
    (hw : c.warning = .filesChanged) : ∃ root fw nTests map ws st past is0 is', FindsCandidates h o m root fw nTests map ws st ∧ Remembers h o m past ∧
      is = own is0 ++ is' ∧ c ∈ ownCalls is' ∧ RunCalls map.toRun past (code = some 0) events is' := by
  have hdep : ∀ c ∈ deprecatedCalls o, c.warning ≠ .filesChanged := by
    unfold deprecatedCalls; split <;> simp
  have hdb : ∀ c ∈ databaseCalls h o m, c.warning ≠ .filesChanged := by
    unfold databaseCalls
    split
    · split
      · simp [missingDatabase]
      · split <;> simp [missingDatabase]
    · simp
  have hgiv : ∀ {root config fw paths ws r cs}, Begins h o m root config fw paths → Gives (projectBackend h o root m fw) config paths ws r cs →
      ∀ c ∈ cs, c.warning ≠ .filesChanged := by
    intro root config fw paths ws r cs hb hg c hc e
    obtain ⟨t, ht⟩ := impl_of hb.frameworkIs
    have := gives_kinds (b := projectBackend h o root m fw) (hs _ _ _ ht).2 hg c hc
    unfold SearchKind at this
    rw [e] at this
    simp at this
  cases hm with
  | none _ => cases hc
  | deprecated _ => rw [ownCalls_own] at hc; exact absurd hw (hdep c hc)
  | fails begins gives _ _ | found begins gives _ =>
    rw [ownCalls_own] at hc
    exact absurd hw ((List.mem_append.1 hc).elim (hdep c) (hgiv begins gives c))
  | database begins gives _ _ =>
    rw [ownCalls_own] at hc
    exact absurd hw ((List.mem_append.1 hc).elim (fun hc => (List.mem_append.1 hc).elim (hdep c) (hgiv begins gives c)) (hdb c))
  | @run root config fw paths cs past _ is' nTests map ws st begins gives only remembers finds calls =>
    refine ⟨root, fw, nTests, map, ws, st, past, deprecatedCalls o ++ cs ++ databaseCalls h o m, is', finds, remembers, rfl, ?_, calls⟩
    rw [ownCalls_append, ownCalls_own] at hc
    refine (List.mem_append.1 hc).resolve_left fun hc => ?_
    exact absurd hw ((List.mem_append.1 hc).elim (fun hc => (List.mem_append.1 hc).elim (hdep c) (hgiv begins gives c)) (hdb c))

/-- **C82.** Each such warning names an entry of the database that is being resumed, and says truthfully that it is missing or unexpected: see
`Missing` and `Unexpected`. It is printed only if the entries are not those of the first candidates, in order. -/
theorem C82_entry (hs : Sound h o) (hw : m.warns = .init) {x : WarnMsg} (hx : x ∈ changedMessages m (main h o m).2) :
    ∃ root fw nTests map ws st past events, FindsCandidates h o m root fw nTests map ws st ∧ Remembers h o m past ∧
      (main h o m).2.trace = m.trace ++ events ∧ ¬ Consistent map.toRun past ∧ x.source = none ∧ ∃ r ∈ past,
        x.msg = (changedCall "missing" r).msg ∧ Missing map.toRun past (failedOf events) r ∨
        x.msg = (changedCall "unexpected" r).msg ∧ Unexpected map.toRun past r := by
  obtain ⟨events, is, rs, h1, h2, h3, h4, h5⟩ := C81_warnings (m := m) hs hw
  unfold changedMessages newWarnings at hx
  rw [h5, List.drop_left, List.mem_filter] at hx
  obtain ⟨hx, hk⟩ := hx
  simp only [decide_eq_true_eq] at hk
  obtain ⟨i, hi, hown, k1, k2, k3⟩ := messages_own h4 (makes_foreign h2) hx (by rw [hk]; simp [FrameworkKind])
  have hc : i.call ∈ ownCalls is := List.mem_map.2 ⟨i, List.mem_filter.2 ⟨hi, hown⟩, rfl⟩
  have hkw : i.call.warning = .filesChanged := by rw [← k1, hk]
  obtain ⟨root, fw, nTests, map, ws, st, past, is0, is', hf, hr, _, hc', hcalls⟩ := makes_changed hs h2 hc hkw
  refine ⟨root, fw, nTests, map, ws, st, past, events, hf, hr, h1, hcalls.differs ⟨_, hc', hkw⟩, ?_⟩
  obtain ⟨r, hrp, ⟨e, hm⟩ | ⟨e, hm⟩⟩ := hcalls.changed _ hc' hkw
  · exact ⟨by rw [k2, e]; rfl, r, hrp, Or.inl ⟨by rw [k3, e], hm⟩⟩
  · exact ⟨by rw [k2, e]; rfl, r, hrp, Or.inr ⟨by rw [k3, e], hm⟩⟩

/-- **C82.** If the entries of the database are, in order, those of the first candidates, or of all of them and then some, no such warning is
printed. -/
theorem C82_fits (hs : Sound h o) (hw : m.warns = .init) {root fw nTests map ws st past} (hf : FindsCandidates h o m root fw nTests map ws st)
    (hr : Remembers h o m past) (hc : Consistent map.toRun past) : changedMessages m (main h o m).2 = [] := by
  refine List.eq_nil_iff_forall_not_mem.2 fun x hx => ?_
  obtain ⟨root', fw', nTests', map', ws', st', past', events, hf', hr', _, hn, _⟩ := C82_entry hs hw hx
  obtain ⟨rfl, rfl, rfl, rfl, rfl, rfl⟩ := hf.unique hf'
  apply hn
  unfold Consistent at hc ⊢
  rw [hr'.spans hr]
  exact hc

/-- A call for which something is printed, unless that has already been said. -/
theorem results_once {o : WarnOpts} {w : Warning} (hd : ¬ Denied o w) (ha : ¬ Allowed o w) (hq : o.quiet = false) (hw : w ≠ .all) {is : List Issue}
    {rs : List (Option WarnMsg)} (hr : Results o is rs) :
    (∀ x, some x ∈ rs → x.warning = w → x ∈ messages rs) ∧ ((∃ i ∈ is, i.call.warning = w) → ∃ x ∈ messages rs, x.warning = w) := by
  induction hr with
  | nil => simp
  | @silent is rs i hr hs ih =>
    obtain ⟨ih1, ih2⟩ := ih
    rw [messages_snoc]
    simp only [Option.toList, List.append_nil]
    refine ⟨fun x hx => ih1 x (by simpa using hx), ?_⟩
    rintro ⟨j, hj, hjw⟩
    rcases List.mem_append.1 hj with hj | hj
    · exact ih2 ⟨j, hj, hjw⟩
    · rw [List.mem_singleton.1 hj] at hjw
      rcases hs with e | e | e | e | ⟨_, x, hx, e⟩
      · rw [hjw] at e; exact absurd e hw
      · rw [hjw] at e; exact absurd e hd
      · rw [hjw] at e; exact absurd e ha
      · rw [hq] at e; cases e
      · rw [hjw] at e; exact ⟨x, ih1 x hx e, e⟩
  | @printed is rs i bug hint hr hl _ _ ih =>
    obtain ⟨ih1, ih2⟩ := ih
    rw [messages_snoc]
    constructor
    · intro x hx hxw
      rcases List.mem_append.1 hx with hx | hx
      · exact List.mem_append_left _ (ih1 x hx hxw)
      · simp only [List.mem_singleton, Option.some.injEq] at hx
        subst hx
        exact List.mem_append_right _ (by simp)
    · rintro ⟨j, hj, hjw⟩
      rcases List.mem_append.1 hj with hj | hj
      · obtain ⟨x, hx, e⟩ := ih2 ⟨j, hj, hjw⟩
        exact ⟨x, List.mem_append_left _ hx, e⟩
      · rw [List.mem_singleton.1 hj] at hjw
        exact ⟨_, List.mem_append_right _ (List.mem_singleton.2 rfl), hjw⟩

/-- **C82.** Conversely, if tests are run, all is done (exit code 0), and the entries of the database are neither those of the first candidates
nor those of all candidates and then some, the warning is printed, unless the user does not want to see it. -/
theorem C82_noticed (hs : Sound h o) (hw : m.warns = .init) (hrun : RunsTests o) (hz : (main h o m).1 = some 0) (hq : o.quiet = false)
    (ha : ¬ Allowed o.warn .filesChanged) {root fw nTests map ws st past} (hf : FindsCandidates h o m root fw nTests map ws st)
    (hr : Remembers h o m past) (hc : ¬ Consistent map.toRun past) :
    ¬ Denied o.warn .filesChanged ∧ (changedMessages m (main h o m).2).length = 1 := by
  obtain ⟨events, is, rs, h1, h2, h3, h4, h5⟩ := C81_warnings (m := m) hs hw
  have h3 : NoneDenied o.warn is := h3.elim id fun h => by rw [hz] at h; cases h.2
  obtain ⟨hopt, root', config', fw', paths', hb, hlock⟩ := zero_begins hrun.1 hz
  have hmany := C81_once (m := m) hs hw (w := .filesChanged) (Or.inl rfl)
  rw [hz] at h2
  cases h2 with
  | none why =>
    exfalso
    rcases why with e | e | e | e | ⟨root, e, e'⟩
    · exact e hopt
    · rw [hrun.1.1] at e; cases e
    · rw [hrun.1.2.1] at e; cases e
    · rw [hb.rootIs] at e; cases e
    · rw [hb.rootIs] at e; cases e
      rw [hlock] at e'; cases e'
  | deprecated why =>
    exfalso
    rcases why with e | e | e | e
    · rw [hrun.1.2.2.1] at e; cases e
    · rw [hrun.1.2.2.2] at e; cases e
    · obtain ⟨is', i, e1, _, e3⟩ := e
      exact h3 i (by rw [e1]; simp) e3
    · exact e _ _ _ _ hb
  | fails _ _ _ ne => exact absurd rfl ne
  | database _ _ _ ne => exact absurd rfl ne
  | found _ _ only =>
    exfalso
    rcases only with e | e
    · rw [hrun.2.1] at e; cases e
    · rw [hrun.2.2] at e; cases e
  | @run root' config fw' paths cs past' _ is' nTests' map' ws' st' begins gives only remembers finds calls =>
    obtain ⟨rfl, rfl, rfl, rfl, rfl, rfl⟩ := hf.unique finds
    have hc' : ¬ Consistent map.toRun past' := by
      intro h; apply hc; unfold Consistent at h ⊢; rw [hr.spans remembers]; exact h
    obtain ⟨c, hcm, hcw⟩ := calls.noticed rfl hc'
    obtain ⟨i, hi, rfl⟩ := List.mem_map.1 hcm
    obtain ⟨hi, hown⟩ := List.mem_filter.1 hi
    have hnd : ¬ Denied o.warn .filesChanged := by
      have := h3 i (List.mem_append_right _ hi)
      rwa [hcw] at this
    refine ⟨hnd, ?_⟩
    obtain ⟨x, hx, hxw⟩ := (results_once hnd ha hq (by simp) h4).2 ⟨i, List.mem_append_right _ hi, hcw⟩
    refine Nat.le_antisymm hmany ?_
    refine List.length_pos_iff.2 (List.ne_nil_of_mem (a := x) ?_)
    unfold changedMessages newWarnings
    rw [h5, List.drop_left]
    exact List.mem_filter.2 ⟨hx, by simp [hxw]⟩

/-- **C82 (partial).** What the message says is what is meant if the candidates come in ascending order (in a file, statements come before method
calls, so this need not be so: see `C82_negation`), and no entry is there twice: of an entry called missing, there is no candidate, or only one
in a file whose dry run fails; and if an entry is called unexpected, there is a candidate before it without an entry. -/
theorem C82_in_order_partial (hs : Sound h o) (hw : m.warns = .init) {root fw nTests map ws st past} (hf : FindsCandidates h o m root fw nTests map ws st)
    (hr : Remembers h o m past) (ho : InOrder map.toRun) (hn : (past.map (·.span)).Nodup) {x : WarnMsg}
    (hx : x ∈ changedMessages m (main h o m).2) :
    ∃ events r, (main h o m).2.trace = m.trace ++ events ∧ r.span ∈ past.map (·.span) ∧
      (x.msg = (changedCall "missing" r).msg ∧
          (∀ c ∈ candidates map.toRun, c.span = r.span → ∃ f cs, (f, cs) ∈ map.toRun ∧ c ∈ cs ∧ f ∈ failedOf events) ∨
        x.msg = (changedCall "unexpected" r).msg ∧ ∃ c ∈ candidates map.toRun, c.span.cmp r.span = .lt ∧ ∀ r' ∈ past, r'.span ≠ c.span) := by
  obtain ⟨root', fw', nTests', map', ws', st', past', events, hf', hr', ht, _, _, r, hrm, hmsg⟩ := C82_entry hs hw hx
  obtain ⟨rfl, rfl, rfl, rfl, rfl, rfl⟩ := hf.unique hf'
  have e := hr'.spans hr
  rw [← e] at hn ⊢
  refine ⟨events, r, ht, List.mem_map.2 ⟨r, hrm, rfl⟩, hmsg.imp (fun ⟨h1, _, h2⟩ => ⟨h1, h2 ho hn⟩) ?_⟩
  rintro ⟨h1, c, hc, h2, h3⟩
  refine ⟨h1, c, hc, h2, fun r' hr' => ?_⟩
  have : r'.span ∈ past'.map (·.span) := by rw [e]; exact List.mem_map.2 ⟨r', hr', rfl⟩
  obtain ⟨r'', hr'', e'⟩ := List.mem_map.1 this
  rw [← e']
  exact h3 ho r'' hr''

end Necessist.Main

/-! ### Where the code does not do what it should -/
namespace Necessist.Run
open Demo

def entriesNamed (x : Res (DbError ⊕ Err) Unit × DbFile × World (Nat × Nat)) : List String := (warningsOf x.2.2.out).filterMap fun w =>
  if w.warning = .filesChanged then some (String.ofList w.msg) else none

/-- **C82 (negation of the full claim).** Nothing has changed, yet the user is told so: a run is interrupted and resumed, and the entry of a
method call, which comes in the middle of the file but is tried after all statements, is called missing. -/
theorem C82_negation : CandidatesOk filesV ∧ interrupted.1 = .err (.inr .ctrlc) ∧ entriesNamed interrupted = [] ∧
    entriesNamed resumed = ["configuration or source files have changed since necessist.db was created; the following entry is missing:\n    " ++
      "v.rs:1:5-1:9: `.c()`"] := by
  refine ⟨candidatesOkV, ?_, ?_, ?_⟩ <;> decide +kernel

/-- **C82 (negation, second way).** The source has changed, yet the user is not told: the last statement of the file is no longer there. -/
theorem C82_negation_removed :
    let x := runWhole (call false false false) cfgV (env 99 99) [(v, [s1, s2])] .absent startV
    let y := runWhole (call false false true) cfgV (env 99 99) [(v, [s1])] x.2.1 startV
    x.1 = .ok () ∧ y.1 = .ok () ∧ entriesNamed y = [] := by
  refine ⟨?_, ?_, ?_⟩ <;> decide +kernel

end Necessist.Run

/-! ### An example -/
namespace Necessist.Main.Demo
open Run Parse

def dbAfter : DbFile := (main host { } machine).2.db
/-- The first row is gone. -/
def dbCut : DbFile := match dbAfter with | .table (_ :: rows) => .table rows | d => d

def saysChanged (d : DbFile) (o : Opts) : Option Nat × List String :=
  ((main host o { machine with db := d }).1, (changedMessages { machine with db := d } (main host o { machine with db := d }).2).map fun w => String.ofList w.msg)

example : saysChanged dbAfter { resume := true } = (some 0, []) ∧ saysChanged dbCut { resume := true } = (some 0,
    ["configuration or source files have changed since necessist.db was created; the following entry is unexpected:\n    src/a.rs:2:1-2:3: `b;`"]) := by
  refine ⟨?_, ?_⟩ <;> decide +kernel

/-- The hypotheses of `C82_entry` and `C82_noticed` are met in the second case: the framework is sound, tests are run, the exit code is 0, and
there is a message (so that, by `C82_entry`, there are candidates and entries which do not fit). -/
example : Sound host { resume := true } ∧ machine.warns = .init ∧ RunsTests { resume := true } ∧
    ¬ Allowed (Opts.warn { resume := true }) .filesChanged ∧ changedMessages { machine with db := dbCut } (main host { resume := true } { machine with db := dbCut }).2 ≠ [] := by
  refine ⟨?_, rfl, ⟨⟨rfl, rfl, rfl, rfl⟩, rfl, rfl⟩, by simp [Allowed, Opts.warn], ?_⟩
  · intro ext i fw hi
    simp only [host, hostAt, Except.ok.injEq, Option.some.injEq] at hi
    subst hi
    refine ⟨⟨?_, ?_, ?_, ?_, ?_, ?_, ?_, ?_, ?_, ?_, ?_⟩, ?_⟩
    · exact fun w f => ⟨rfl, rfl⟩
    · exact fun w f => Reply.Mute.honest ⟨rfl, rfl⟩
    · exact fun w f n => Reply.Mute.honest ⟨rfl, rfl⟩
    · exact fun w s => Reply.Mute.honest ⟨rfl, rfl⟩
    · exact fun w f => ⟨rfl, rfl⟩
    · exact fun w t s => Reply.Mute.honest ⟨rfl, rfl⟩
    · exact fun w t s v => Reply.Mute.honest ⟨rfl, rfl⟩
    · exact fun w => Reply.Mute.honest ⟨rfl, rfl⟩
    · exact fun w => Reply.Mute.honest ⟨rfl, rfl⟩
    · exact fun w => Reply.Mute.honest ⟨rfl, rfl⟩
    · exact fun w s => Reply.Mute.honest ⟨rfl, rfl⟩
    · intro f ast hp c hc
      unfold fwAt Parse.Demo.proj at hp
      dsimp only at hp
      split at hp
      · cases hp
      · split at hp <;> · cases hp; cases hc
  · decide +kernel
/-- The second candidate fits an entry, the first has none: not consistent. -/
example : ¬ Consistent [(Run.Demo.u, [Run.Demo.d1, Run.Demo.d2])] [⟨Run.Demo.d2.span, "y;".toList, .passed⟩] ∧
    Consistent [(Run.Demo.u, [Run.Demo.d1, Run.Demo.d2])] [⟨Run.Demo.d1.span, "x;".toList, .passed⟩] ∧
    InOrder [(Run.Demo.u, [Run.Demo.d1, Run.Demo.d2])] := by
  unfold Consistent InOrder; refine ⟨?_, ?_, ?_⟩ <;> decide +kernel
end Necessist.Main.Demo
