import Verif.Lemmas.RunNotices
import Verif.Props.MainWarningsDemo
/-!
# C84: the notices about files

Whatever the program is asked to do, and however it ends, the notices it prints follow the dry runs.
-/
namespace Necessist.Main
open Run Parse Std

variable {V σ : Type} {h : Host V σ} {o : Opts} {m : Machine σ}

theorem noticesIn_append (a b : List Msg) : noticesIn (a ++ b) = noticesIn a ++ noticesIn b := List.filterMap_append

theorem noticesIn_lines (root : Path) (ls : List Line) : noticesIn (ls.map (showLine h o root)) = noticesAmong ls := by
  induction ls with
  | nil => rfl
  | cons l ls ih => cases l <;> simp [noticesIn, noticesAmong, showLine] at ih ⊢ <;> exact ih

theorem noticesIn_texts {α} (f : α → Text) (ts : List α) : noticesIn (ts.map fun t => .text (f t)) = [] := by
  induction ts with
  | nil => rfl
  | cons m ms ih => simp [noticesIn] at ih ⊢

theorem noticesIn_warnings (ws : List WarnMsg) : noticesIn (ws.map .warning) = [] := by
  induction ws with
  | nil => rfl
  | cons m ms ih => simp [noticesIn] at ih ⊢

/-- No notices, no events. -/
def Still (m m' : Machine σ) : Prop := ∃ ms, m'.console = m.console ++ ms ∧ noticesIn ms = [] ∧ m'.trace = m.trace

theorem Still.of (h1 : m'.console = m.console) (h2 : m'.trace = m.trace) : Still m m' := ⟨[], by simp [h1], rfl, h2⟩

theorem Still.trans {a b c : Machine σ} (h1 : Still a b) (h2 : Still b c) : Still a c := by
  obtain ⟨m1, e1, n1, t1⟩ := h1
  obtain ⟨m2, e2, n2, t2⟩ := h2
  exact ⟨m1 ++ m2, by rw [e2, e1, List.append_assoc], by rw [noticesIn_append, n1, n2]; rfl, t2.trans t1⟩

theorem Still.print (ms : List Msg) (hm : noticesIn ms = []) (m : Machine σ) : Still m (print o ms m) := by
  unfold Main.print
  split
  · exact .of rfl rfl
  · exact ⟨ms, rfl, hm, rfl⟩

theorem Still.warnDeprecated (o : Opts) (m : Machine σ) : Still m (warnDeprecated o m).2 := by
  unfold Main.warnDeprecated
  split
  · generalize warnInternal _ _ _ = x
    rcases x with ⟨r, st⟩
    cases r with
    | print w => exact (Still.of (m' := { m with warns := st }) rfl rfl).trans (Still.print _ rfl _)
    | _ => exact .of rfl rfl
  · exact .of rfl rfl

theorem Still.prepareFound (root : Path) (fw : Fw σ) (n : Nat) (map : FileMap) (m : Machine σ) : Still m (prepareFound h o root fw n map m).2 := by
  unfold Main.prepareFound
  split
  · unfold Main.dumpCandidates
    generalize candidateLines _ _ _ = x
    obtain ⟨ls, ok⟩ := x
    cases ok <;> exact Still.print _ (noticesIn_texts (fun t => t) _) _
  · split
    · exact Still.print _ (noticesIn_texts (fun t => t) _) _
    · exact Still.print _ rfl _

theorem Still.prepareCandidates (root : Path) (config : Toml) (m : Machine σ) : Still m (prepareCandidates h o root config m).2 := by
  unfold Main.prepareCandidates
  split
  · exact .of rfl rfl
  · dsimp only
    split
    · exact .of rfl rfl
    · rename_i fw _ _ paths _
      rcases hp : parse (projectBackend h o root { m with ext := h.chosen m.ext } fw) config paths m.warns with ⟨r, st⟩
      have h1 : Still m { m with ext := fw.parsed (h.chosen m.ext), warns := st.warns, console := m.console ++ st.printed.map .warning } :=
        ⟨st.printed.map .warning, rfl, noticesIn_warnings _, rfl⟩
      cases r with
      | ok _ => exact h1.trans (Still.prepareFound ..)
      | _ => exact h1

theorem Still.prepareDump (root : Path) (m : Machine σ) : Still m (prepareDump h o root m).2 := by
  unfold Main.prepareDump
  split
  · rename_i rs note db _
    refine ⟨rs.map (fun r => .text (removalLine h o root r)) ++ if note then [.verboseNote] else [], by simp, ?_, rfl⟩
    rw [noticesIn_append, noticesIn_texts]
    cases note <;> rfl
  all_goals exact .of rfl rfl

theorem Still.prepare (root : Path) (m : Machine σ) : Still m (prepare h o root m).2 := by
  unfold Main.prepare
  split
  · split <;> exact .of rfl rfl
  · split
    · exact .of rfl rfl
    · split
      · exact Still.prepareDump ..
      · exact Still.prepareCandidates ..

theorem Still.skillResult (m : Machine σ) (r : Skill.Ran Skill.Status) : Still m (skillResult m r).2 :=
  ⟨r.out.map .text, rfl, noticesIn_texts (fun t => t) _, rfl⟩

theorem noticesAmong_pastInit (ns : Bool) (w : WarnOpts) (st : WStates) (rd : SourceFile → Bool) (faults : DbFaults) (flags : DbFlags) (file : DbFile) :
    noticesAmong (pastInit ns w st rd faults flags file).out = [] := by
  unfold pastInit
  split
  · rfl
  · dsimp only
    unfold dbInit
    split
    · rfl
    · dsimp only
      split
      · rfl
      · rfl
      all_goals try (split <;> first | rfl | (dsimp only; split <;> rfl))
      rfl

/-- What may be said between two states of the machine. -/
def Tells (o : Opts) (m : Machine σ) (x : Res Error Nat × Machine σ) : Prop :=
  ∃ ms events, x.2.console = m.console ++ ms ∧ x.2.trace = m.trace ++ events ∧
    NoticesFor o.quiet (decide (exitCode x.1 = some 0)) events (noticesIn ms)

theorem _root_.Necessist.Run.NoticesFor.none (quiet done : Bool) : NoticesFor quiet done [] [] := by
  cases quiet
  · exact .inr ⟨rfl, [], rfl, .inl rfl⟩
  · exact .inl ⟨rfl, rfl⟩

theorem Still.tells {m' : Machine σ} (hs : Still m m') (r : Res Error Nat) : Tells o m (r, m') := by
  obtain ⟨ms, h1, h2, h3⟩ := hs
  exact ⟨ms, [], h1, by simp [h3], by rw [h2]; exact .none _ _⟩

theorem Still.then {m1 : Machine σ} {x} (hs : Still m m1) (ht : Tells o m1 x) : Tells o m x := by
  obtain ⟨ms, h1, h2, h3⟩ := hs
  obtain ⟨ms', ev, g1, g2, g3⟩ := ht
  exact ⟨ms ++ ms', ev, by rw [g1, h1, List.append_assoc], by rw [g2, h3], by rw [noticesIn_append, h2]; exact g3⟩

theorem runAll_tells (root : Path) (p : Prepared σ) (m : Machine σ) : Tells o m (runAll h o root p m) := by
  unfold runAll
  generalize hw : ({ fs := m.fs, db := none, warns := m.warns, out := [], progress := 0, trace := [], instr := none, past := [], ext := m.ext } : World σ) = w
  have ho : w.out = [] := by rw [← hw]
  have ht : w.trace = [] := by rw [← hw]
  have key : ∀ b, ((runWhole (dbCall h o) (runCfg h o m) p.env p.map.toRun m.db w).1 ≠ .ok () → b = false) →
      NoticesFor o.quiet b (runWhole (dbCall h o) (runCfg h o m) p.env p.map.toRun m.db w).2.2.trace
      (noticesAmong (runWhole (dbCall h o) (runCfg h o m) p.env p.map.toRun m.db w).2.2.out) := by
    unfold runWhole
    dsimp only
    have hn := noticesAmong_pastInit (dbCall h o).noSqlite (runCfg h o m).warn w.warns (dbCall h o).readable (dbCall h o).faults (dbCall h o).flags m.db
    generalize pastInit (dbCall h o).noSqlite (runCfg h o m).warn w.warns (dbCall h o).readable (dbCall h o).faults (dbCall h o).flags m.db = i at hn ⊢
    obtain ⟨res, fl, ws, out⟩ := i
    dsimp only at hn ⊢
    rw [ho, List.nil_append]
    cases res with
    | ok past =>
      dsimp only
      generalize hw' : ({ w with warns := ws, out, db := _, past } : World σ) = w'
      have e1 : brief w' = ([], []) := by
        rw [← hw']
        simp only [brief, hn, ht]
        rfl
      obtain ⟨files, ns, a1, a2⟩ := runFiles_adds (runCfg h o m) p.env p.map.toRun w'
      rw [e1] at a1
      dsimp only at a1
      intro b hb
      have a2 : ns = noticesOf files ∨ b = false ∧ ∃ f, noticesOf files = ns ++ [.mutilating f] := by
        rcases a2 with a2 | ⟨a2, a3⟩
        · exact .inl a2
        · refine .inr ⟨hb ?_, a3⟩
          revert a2
          generalize (runFiles (runCfg h o m) p.env p.map.toRun w').1 = r
          cases r <;> simp [Res.isOk]
      have b1 : noticesAmong (runFiles (runCfg h o m) p.env p.map.toRun w').2.out = shownNotices (runCfg h o m) ns := congrArg Prod.fst a1
      have b2 : dryRunEvents (runFiles (runCfg h o m) p.env p.map.toRun w').2.trace = dryRunsOf files := congrArg Prod.snd a1
      rw [b1]
      have hq : (runCfg h o m).warn.quiet = o.quiet := rfl
      unfold shownNotices
      rw [hq]
      cases hx : o.quiet with
      | true => exact .inl ⟨rfl, rfl⟩
      | false => exact .inr ⟨rfl, files, b2, a2⟩
    | err e => intro b _; rw [hn, ht]; exact .none _ _
    | panic => intro b _; rw [hn, ht]; exact .none _ _
    | hang => intro b _; rw [hn, ht]; exact .none _ _
  generalize runWhole (dbCall h o) (runCfg h o m) p.env p.map.toRun m.db w = x at key ⊢
  obtain ⟨r, db, w'⟩ := x
  refine ⟨_, _, rfl, rfl, ?_⟩
  dsimp only at key ⊢
  rw [noticesIn_lines]
  refine key _ ?_
  rcases r with u | (e | e) | _ | _ <;> simp [exitCode]

/-- **C84.** What is new on the console and what happened, for any call of the program: if quiet, then there are no notices. Else there is, for each dry run, in
order, a notice before it, and one after it exactly if it did not fail; if the program did not succeed, then the last notice may be missing. -/
theorem C84_program : ∃ ms events, (main h o m).2.console = m.console ++ ms ∧ (main h o m).2.trace = m.trace ++ events ∧
    NoticesFor o.quiet (decide ((main h o m).1 = some 0)) events (noticesIn ms) := by
  rw [main_fst, main_snd]
  show Tells o m (necessist h o m)
  unfold necessist
  split
  · split
    · exact (Still.skillResult m _).tells _
    · split
      · exact (Still.skillResult m _).tells _
      · unfold project
        split
        · exact (Still.of rfl rfl).tells _
        · split
          · exact (Still.of rfl rfl).tells _
          · rename_i root _ _
            have hd := Still.warnDeprecated o m
            generalize warnDeprecated o m = x at hd ⊢
            obtain ⟨r, m1⟩ := x
            dsimp only at hd
            cases r with
            | err e => exact hd.tells _
            | panic => exact hd.tells _
            | hang => exact hd.tells _
            | ok _ =>
              refine hd.then ?_
              have hp := Still.prepare (h := h) (o := o) root m1
              dsimp only
              generalize prepare h o root m1 = x at hp ⊢
              obtain ⟨r, m2⟩ := x
              dsimp only at hp
              rcases r with (_ | p) | e | _ | _
              · exact hp.tells _
              · exact hp.then (runAll_tells root p m2)
              · exact hp.tells _
              · exact hp.tells _
              · exact hp.tells _
  · exact (Still.of rfl rfl).tells _

end Necessist.Main

/-! ### An example -/
namespace Necessist.Main.Demo
open Run Parse

/-- The dry run of the first file fails, that of the second does not; with `--quiet` no notice is printed; Ctrl-C before the second file is mutilated. -/
example : noticesIn (main (hostBad {}) { } machine).2.console = [.dryRunning Parse.Demo.fileA, .dryRunning Parse.Demo.fileC, .mutilating Parse.Demo.fileC] ∧
    dryRunEvents (main (hostBad {}) { } machine).2.trace = dryRunsOf [(Parse.Demo.fileA, true), (Parse.Demo.fileC, false)] ∧
    noticesIn (main (hostBad { quiet := true }) { quiet := true } machine).2.console = [] ∧ dryRunEvents (main (hostBad { quiet := true }) { quiet := true } machine).2.trace ≠ [] ∧
    noticesIn (main (hostAt 0) { } machine).2.console = [.dryRunning Parse.Demo.fileA] ∧ (main (hostAt 0) { } machine).1 ≠ some 0 := by
  refine ⟨?_, ?_, ?_, ?_, ?_, ?_⟩ <;> decide +kernel

end Necessist.Main.Demo
