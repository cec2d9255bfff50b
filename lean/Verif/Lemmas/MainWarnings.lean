import Verif.Spec.MainWarnings
import Verif.Lemmas.RunChanged
import Verif.Props.MainRun
/-! The warnings of one execution of the program. -/
namespace Necessist.Run

theorem pastInit_gives (w : WarnOpts) (st : WStates) (rd : SourceFile → Bool) (faults : DbFaults) (flags : DbFlags) (file : DbFile) (ns : Bool)
    (hd : flags.dump = false) :
    let i := pastInit ns w st rd faults flags file
    let cs := if ns = false ∧ faults.stat = false ∧ file = .absent then
      if flags.reset then [noDatabaseCall "reset".toList] else if flags.resume then [noDatabaseCall "resume".toList] else [] else []
    (NoneDenied w (own cs) ∧ i.warns = WStates.after w st (own cs) ∧ i.out = (shownFor w st (own cs)).map .warning) ∨
    (EndsDenied w (own cs) ∧ i.res = .err .denied ∧ i.out = [] ∧ shownFor w st (own cs) = []) := by
  have hnil : NoneDenied w (own []) ∧ st = WStates.after w st (own []) ∧ ([] : List Line) = (shownFor w st (own [])).map .warning :=
    ⟨NoneDenied.nil, rfl, rfl⟩
  cases ns with
  | true => left; simpa [pastInit] using hnil
  | false =>
    unfold pastInit dbInit
    simp only [Bool.false_eq_true, if_false, true_and]
    by_cases hs : faults.stat = true
    · rw [if_pos hs]; simp only [hs]; exact Or.inl hnil
    rw [if_neg hs]
    have hs : faults.stat = false := by simpa using hs
    simp only [hs, true_and, hd]
    by_cases hf : file = .absent
    · subst hf
      simp only [if_true]
      have hone : ∀ flag : Text, let c := noDatabaseCall flag
          (¬ Denied w c.warning ∧ (warnInternal w st c).1 = .silent ∧ shownFor w st [⟨c, true⟩] = []) ∨
          (¬ Denied w c.warning ∧ w.quiet = false ∧ ∃ m, (warnInternal w st c).1 = .print m ∧ shownFor w st [⟨c, true⟩] = [m]) ∨
          (Denied w c.warning ∧ (∃ m, (warnInternal w st c).1 = .bail m) ∧ shownFor w st [⟨c, true⟩] = []) := by
        intro flag c
        rcases internal_cases w st c (by simp [c, noDatabaseCall]) with h | h | h
        · exact Or.inr (Or.inr h)
        · exact Or.inl h
        · exact Or.inr (Or.inl h)
      have hgo : ∀ flag : Text, let i : DbInit := (match warnInternal w st (noDatabaseCall flag) with
            | (.bail _, st) => ⟨.err .denied, .absent, st, []⟩
            | (.panic, st) => ⟨.panic, .absent, st, []⟩
            | (.silent, st) => ⟨(dbOpen rd faults flags .absent).1, (dbOpen rd faults flags .absent).2, st, []⟩
            | (.print m, st) => ⟨(dbOpen rd faults flags .absent).1, (dbOpen rd faults flags .absent).2, st, if w.quiet then [] else [.warning m]⟩)
          (NoneDenied w (own [noDatabaseCall flag]) ∧ i.warns = WStates.after w st (own [noDatabaseCall flag]) ∧
            i.out = (shownFor w st (own [noDatabaseCall flag])).map .warning) ∨
          (EndsDenied w (own [noDatabaseCall flag]) ∧ i.res = .err .denied ∧ i.out = [] ∧ shownFor w st (own [noDatabaseCall flag]) = []) := by
        intro flag
        dsimp only
        have ho : own [noDatabaseCall flag] = [⟨noDatabaseCall flag, true⟩] := rfl
        have ha : WStates.after w st [⟨noDatabaseCall flag, true⟩] = (warnInternal w st (noDatabaseCall flag)).2 := rfl
        have hn : ¬ Denied w (noDatabaseCall flag).warning → NoneDenied w [⟨noDatabaseCall flag, true⟩] := Parse.step_clean
        rw [ho, ha]
        have := hone flag
        rcases hw : warnInternal w st (noDatabaseCall flag) with ⟨r, st'⟩
        simp only [hw] at this
        rcases this with ⟨h1, h2, h3⟩ | ⟨h1, hq, m, h2, h3⟩ | ⟨h1, ⟨m, h2⟩, h3⟩ <;> subst h2
        · exact Or.inl ⟨hn h1, rfl, by rw [h3]; rfl⟩
        · refine Or.inl ⟨hn h1, rfl, ?_⟩
          rw [h3]; simp [hq]
        · exact Or.inr ⟨⟨[], _, rfl, NoneDenied.nil, h1⟩, rfl, rfl, h3⟩
      cases hre : flags.reset with
      | true =>
        have := hgo "reset".toList
        simp only [hre, decide_false, ne_eq, not_true_eq_false, if_true]
        rcases this with ⟨h1, h2, h3⟩ | ⟨h1, h2, h3, h4⟩
        · exact Or.inl ⟨h1, h2, h3⟩
        · refine Or.inr ⟨h1, ?_, h3, h4⟩
          exact congrArg (fun x : Res DbError (List Removal) => match x with | .ok rs => Res.ok (sortPast rs) | r => r) h2
      | false =>
        cases hrs : flags.resume with
        | true =>
          have := hgo "resume".toList
          simp only [hre, hrs, decide_false, ne_eq, not_true_eq_false, if_true, Bool.false_eq_true, if_false]
          rcases this with ⟨h1, h2, h3⟩ | ⟨h1, h2, h3, h4⟩
          · exact Or.inl ⟨h1, h2, h3⟩
          · refine Or.inr ⟨h1, ?_, h3, h4⟩
            exact congrArg (fun x : Res DbError (List Removal) => match x with | .ok rs => Res.ok (sortPast rs) | r => r) h2
        | false => left; simpa [hre, hrs] using hnil
    · simp only [hf, if_false]
      left
      cases hre : flags.reset <;> cases hrs : flags.resume <;> simpa [hf, hre, hrs] using hnil

section
variable {σ : Type}

theorem runWhole_gives {o : WarnOpts} (call : Call) (cfg : Cfg) (hcfg : cfg.warn = o) (env : Env σ) (henv : Honest o env)
    (fcs : List (SourceFile × List Candidate)) (file : DbFile) (w : World σ) (hd : call.flags.dump = false) (ho : w.out = []) (ht : w.trace = []) :
    let x := runWhole call cfg env fcs file w
    let cs := if call.noSqlite = false ∧ call.faults.stat = false ∧ file = .absent then
      if call.flags.reset then [noDatabaseCall "reset".toList] else if call.flags.resume then [noDatabaseCall "resume".toList] else [] else []
    ∃ is, warningsOf x.2.2.out = shownFor o w.warns is ∧
      (is = own cs ∧ x.2.2.trace = [] ∧ x.1 ≠ .ok () ∨
        ∃ past is', is = own cs ++ is' ∧
          ((call.noSqlite = true ∨ call.flags.reset = true ∨ file = .absent) ∧ past = [] ∨
            call.noSqlite = false ∧ call.flags.reset = false ∧ ∃ rows stored, file = .table rows ∧ RowsRead call.readable rows stored ∧
              past = sortPast stored) ∧ RunCalls fcs past (x.1 = .ok ()) x.2.2.trace is') ∧
      (NoneDenied o is ∨ EndsDenied o is ∧ ∃ e, x.1 = .err e) := by
  intro x cs
  subst hcfg
  have hg := pastInit_gives cfg.warn w.warns call.readable call.faults call.flags file call.noSqlite hd
  dsimp only at hg
  have hg : (NoneDenied cfg.warn (own cs) ∧ _ = WStates.after cfg.warn w.warns (own cs) ∧ _ = (shownFor cfg.warn w.warns (own cs)).map Line.warning) ∨
    (EndsDenied cfg.warn (own cs) ∧ _ ∧ _ ∧ shownFor cfg.warn w.warns (own cs) = []) := hg
  generalize cs = cs at hg ⊢
  have hpast : ∀ past, (pastInit call.noSqlite cfg.warn w.warns call.readable call.faults call.flags file).res = .ok past →
      ((call.noSqlite = true ∨ call.flags.reset = true ∨ file = .absent) ∧ past = [] ∨
            call.noSqlite = false ∧ call.flags.reset = false ∧ ∃ rows stored, file = .table rows ∧ RowsRead call.readable rows stored ∧
              past = sortPast stored) := by
    intro past hp
    cases hn : call.noSqlite with
    | true =>
      rw [hn] at hp
      simp [pastInit] at hp
      exact Or.inl ⟨Or.inl rfl, hp⟩
    | false =>
      rcases pastInit_cases cfg call file w hn with ⟨_, k⟩ | ⟨rows, stored, _, k, h1 | h1⟩
      · exact absurd hp (k past)
      · rw [k] at hp; cases hp
        exact Or.inr ⟨rfl, h1.2.1, rows, stored, h1.1, h1.2.2, rfl⟩
      · rw [k] at hp; cases hp
        obtain ⟨h2, -, rfl⟩ := h1
        exact Or.inl ⟨Or.inr h2, rfl⟩
  have hwm : ∀ ms : List WarnMsg, warningsOf (ms.map Line.warning) = ms := by
    intro ms
    induction ms with
    | nil => rfl
    | cons m ms ih => simp [warningsOf] at ih ⊢; exact ih
  simp only [x, runWhole]
  rcases hi : pastInit call.noSqlite cfg.warn w.warns call.readable call.faults call.flags file with ⟨res, fl, ws, out⟩
  rw [hi] at hg hpast
  dsimp only at hg hpast ⊢
  rcases hg with ⟨h1, rfl, rfl⟩ | ⟨h1, rfl, rfl, h2⟩
  · cases res with
    | err e => exact ⟨_, by simp [ho, hwm], Or.inl ⟨rfl, ht, nofun⟩, Or.inl h1⟩
    | panic => exact ⟨_, by simp [ho, hwm], Or.inl ⟨rfl, ht, nofun⟩, Or.inl h1⟩
    | hang => exact ⟨_, by simp [ho, hwm], Or.inl ⟨rfl, ht, nofun⟩, Or.inl h1⟩
    | ok past =>
      dsimp only
      have hsort : SortedPast past := by
        rcases hpast past rfl with ⟨_, rfl⟩ | ⟨_, _, rows, stored, _, _, rfl⟩
        · exact List.Pairwise.nil
        · exact sortPast_sorted _
      have := fun db => runFiles_calls (o := cfg.warn) (st0 := WStates.after cfg.warn w.warns (own cs)) (out0 := shownFor cfg.warn w.warns (own cs)) (P := past) (fcs := fcs)
        rfl henv (w := { w with warns := WStates.after cfg.warn w.warns (own cs), out := w.out ++ (shownFor cfg.warn w.warns (own cs)).map .warning, db, past })
        rfl (by simp [ho, hwm]) ht rfl hsort
      generalize hy : runFiles cfg env fcs _ = y
      replace this : Post (fun _ => Tells cfg.warn (WStates.after cfg.warn w.warns (own cs)) (shownFor cfg.warn w.warns (own cs)) fcs past True none)
          (Tells cfg.warn (WStates.after cfg.warn w.warns (own cs)) (shownFor cfg.warn w.warns (own cs)) fcs past False)
          (Tells cfg.warn (WStates.after cfg.warn w.warns (own cs)) (shownFor cfg.warn w.warns (own cs)) fcs past False none) y := by
        rw [← hy]; exact this _
      obtain ⟨r, w'⟩ := y
      have key : ∀ (done done' : Prop) (e : Option Err), (done' → done) → Tells cfg.warn (WStates.after cfg.warn w.warns (own cs)) (shownFor cfg.warn w.warns (own cs)) fcs past done e w' →
          ∃ is, warningsOf w'.out = shownFor cfg.warn w.warns is ∧ (∃ past is', is = own cs ++ is' ∧
          ((call.noSqlite = true ∨ call.flags.reset = true ∨ file = .absent) ∧ past = [] ∨
            call.noSqlite = false ∧ call.flags.reset = false ∧ ∃ rows stored, file = .table rows ∧ RowsRead call.readable rows stored ∧
              past = sortPast stored) ∧ RunCalls fcs past done' w'.trace is') ∧ (NoneDenied cfg.warn is ∨ EndsDenied cfg.warn is ∧ e = some .denied) := by
        rintro done done' e hdd ⟨is, _, g2, g4, g5⟩
        refine ⟨own cs ++ is, by rw [g2, shownFor_append], ⟨past, is, rfl, hpast past rfl, g5.others, g5.changed, g5.differs, fun h => g5.noticed (hdd h), g5.foreign⟩, ?_⟩
        rcases g4 with g4 | ⟨g4, g5⟩
        · exact Or.inl (h1.append g4)
        · exact Or.inr ⟨h1.cut g5, g4⟩
      cases r with
      | ok u =>
        obtain ⟨is, k1, k2, k3⟩ := key True (Res.ok u = (.ok () : Res (DbError ⊕ Err) Unit)) none (fun _ => trivial) this
        exact ⟨is, k1, Or.inr k2, Or.inl (k3.elim id (fun h => by cases h.2))⟩
      | hang =>
        obtain ⟨is, k1, k2, k3⟩ := key False ((.hang : Res (DbError ⊕ Err) Unit) = .ok ()) none (fun h => nomatch h) this
        exact ⟨is, k1, Or.inr k2, Or.inl (k3.elim id (fun h => by cases h.2))⟩
      | panic =>
        obtain ⟨is, k1, k2, k3⟩ := key False ((.panic : Res (DbError ⊕ Err) Unit) = .ok ()) none (fun h => nomatch h) this
        exact ⟨is, k1, Or.inr k2, Or.inl (k3.elim id (fun h => by cases h.2))⟩
      | err e =>
        obtain ⟨is, k1, k2, k3⟩ := key False ((.err (.inr e) : Res (DbError ⊕ Err) Unit) = .ok ()) _ (fun h => nomatch h) this
        exact ⟨is, k1, Or.inr k2, k3.elim Or.inl (fun h => Or.inr ⟨h.1, _, rfl⟩)⟩
  · exact ⟨_, by simp [ho, h2, warningsOf], Or.inl ⟨rfl, ht, nofun⟩, Or.inr ⟨h1, _, rfl⟩⟩

end
end Necessist.Run

namespace Necessist.Main
open Run Parse
variable {V σ : Type} {h : Host V σ} {o : Opts} {m : Machine σ}

theorem warningsIn_append (a b : List Msg) : warningsIn (a ++ b) = warningsIn a ++ warningsIn b := by simp [warningsIn]
theorem warningsIn_warnings (ws : List WarnMsg) : warningsIn (ws.map .warning) = ws := by
  induction ws with
  | nil => rfl
  | cons m ms ih => simp [warningsIn] at ih ⊢; exact ih
theorem warningsIn_texts {α} (f : α → Text) (ts : List α) : warningsIn (ts.map fun t => .text (f t)) = [] := by
  induction ts with
  | nil => rfl
  | cons m ms ih => simp [warningsIn] at ih ⊢
theorem warningsIn_lines (root : Path) (ls : List Line) : warningsIn (ls.map (showLine h o root)) = warningsOf ls := by
  induction ls with
  | nil => rfl
  | cons l ls ih => cases l <;> simp [warningsIn, warningsOf, showLine] at ih ⊢ <;> exact ih

theorem warningsIn_print (ts : List Text) (m : Machine σ) : warningsIn (print o (ts.map .text) m).console = warningsIn m.console := by
  unfold print
  split
  · rfl
  · simp only [warningsIn_append, warningsIn_texts (fun t => t), List.append_nil]

theorem warnDeprecated_gives :
    (NoneDenied o.warn (own (deprecatedCalls o)) ∧ ∃ m1, warnDeprecated o m = (.ok (), m1) ∧
      m1.warns = WStates.after o.warn m.warns (own (deprecatedCalls o)) ∧
      warningsIn m1.console = warningsIn m.console ++ shownFor o.warn m.warns (own (deprecatedCalls o))) ∨
    (EndsDenied o.warn (own (deprecatedCalls o)) ∧ shownFor o.warn m.warns (own (deprecatedCalls o)) = [] ∧
      ∃ m1, warnDeprecated o m = (.err .denied, m1) ∧ m1.console = m.console ∧ m1.trace = m.trace) := by
  unfold warnDeprecated deprecatedCalls
  cases o.noLocalFunctions with
  | false => exact Or.inl ⟨NoneDenied.nil, m, rfl, rfl, by simp [own, shownFor_nil]⟩
  | true =>
    simp only [if_true]
    generalize hc : (⟨.optionDeprecated, none, "--no-local-functions is now the default; hence, this option is deprecated".toList, false⟩ : WarnCall) = c
    have hne : c.warning ≠ .all := by rw [← hc]; simp
    have ho : own [c] = [⟨c, true⟩] := rfl
    have ha : WStates.after o.warn m.warns [⟨c, true⟩] = (warnInternal o.warn m.warns c).2 := rfl
    rw [ho, ha]
    have := internal_cases o.warn m.warns c hne
    rcases hw : warnInternal o.warn m.warns c with ⟨r, st'⟩
    simp only [hw] at this
    rcases this with ⟨h1, ⟨m, h2⟩, h3⟩ | ⟨h1, h2, h3⟩ | ⟨h1, hq, m, h2, h3⟩ <;> subst h2
    · exact Or.inr ⟨⟨[], _, rfl, NoneDenied.nil, h1⟩, h3, _, rfl, rfl, rfl⟩
    · exact Or.inl ⟨step_clean h1, _, rfl, rfl, by simp [h3]⟩
    · refine Or.inl ⟨step_clean h1, _, rfl, ?_, ?_⟩
      · unfold print; split <;> rfl
      · have hq : o.quiet = false := hq
        simp only [print, hq, Bool.false_eq_true, if_false, warningsIn_append, h3]
        rfl

end Necessist.Main
