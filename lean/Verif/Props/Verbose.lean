import Verif.Lemmas.RunVerbose
import Verif.Props.MainDemo
import Verif.Props.MainWarnings
/-!
# C90: `--verbose` changes nothing but what is printed
-/
namespace Necessist
open Main Run

theorem incompatible_congr {a b : OptSet} (l : List Opt) (h : ∀ x ∈ l, a x = b x) : incompatible a l = incompatible b l := by
  induction l with
  | nil => rfl
  | cons x ys ih =>
    have hf : (fun y => a x && a y) = (fun y => a x && a y) := rfl
    have : ys.find? (fun y => a x && a y) = ys.find? (fun y => b x && b y) := by
      rw [h x List.mem_cons_self]
      have hys : ∀ y ∈ ys, a y = b y := fun y hy => h y (List.mem_cons_of_mem _ hy)
      clear ih h hf
      induction ys with
      | nil => rfl
      | cons y ys ih =>
        rw [List.find?_cons, List.find?_cons, hys y List.mem_cons_self, ih fun y hy => hys y (List.mem_cons_of_mem _ hy)]
    unfold incompatible
    rw [this, ih fun y hy => h y (List.mem_cons_of_mem _ hy)]

namespace Main
variable {V σ : Type} {h : Host V σ} {o : Opts} {m : Machine σ}

theorem processOptions_verbose (hq : o.quiet = false) : processOptions ({ o with verbose := true } : Opts).set = processOptions o.set := by
  have h1 : ∀ l : List Opt, Opt.verbose ∉ l → incompatible ({ o with verbose := true } : Opts).set l = incompatible o.set l := by
    intro l hl
    refine incompatible_congr l fun x hx => ?_
    cases x <;> first | rfl | exact absurd hx hl
  have h2 : ∀ p : Opts, p.quiet = false → incompatible p.set [.quiet, .verbose] = none := by
    intro p hp
    simp [incompatible, Opts.set, hp]
  unfold processOptions incompatibleLists
  simp only [List.findSome?_cons, h1 [.checkSkill, .defaultConfig, .dump, .dumpCandidates, .dumpCandidateCounts, .findSkill, .reset, .resume] (by simp),
    h1 [.dump, .noSqlite, .reset, .resume] (by simp), h1 [.checkSkill, .dump, .dumpCandidates, .dumpCandidateCounts, .findSkill, .quiet] (by simp),
    h2 o hq, h2 { o with verbose := true } hq]
  rfl

/-- What two calls print, after what has been printed before them: the same, except that the second prints also removals of candidates that did not
pass. -/
inductive Fewer (h : Host V σ) (o : Opts) (before : List Msg) : List Msg → List Msg → Prop
  | start : Fewer h o before before before
  | both (x : Msg) {a b} : Fewer h o before a b → Fewer h o before (a ++ [x]) (b ++ [x])
  | more {root : Parse.Path} {r : Removal} {line : Text} {a b} (shown : ShownRemoval h o root r line) (other : r.outcome ≠ .passed) :
      Fewer h o before a b → Fewer h o before a (b ++ [.text line])

theorem Fewer.append {before a b : List Msg} (hf : Fewer h o before a b) (l : List Msg) : Fewer h o before (a ++ l) (b ++ l) := by
  induction l generalizing a b with
  | nil => simpa
  | cons x xs ih =>
    have := ih (hf.both x)
    simpa using this

theorem Fewer.same {before a : List Msg} (k : List Msg) (ha : a = before ++ k) : Fewer h o before a a := by
  rw [ha]; exact Fewer.start.append k

theorem Fewer.lines {before a : List Msg} (root : Parse.Path) {l l' : List Line} (ho : Omits l l') (hb : Fewer h o before a a) :
    Fewer h o before (a ++ l.map (showLine h o root)) (a ++ l'.map (showLine h o root)) := by
  induction ho with
  | nil => simpa
  | both x _ ih =>
    have := ih.both (showLine h o root x)
    simpa using this
  | more r hr _ ih =>
    have := ih.more (removalLine_spec root r) hr
    simpa [showLine] using this

/-- The results of a call without `--verbose` and one with it. -/
def VerboseOnly (h : Host V σ) (o : Opts) (before : List Msg) {α} (x y : α × Machine σ) : Prop :=
  x.1 = y.1 ∧ y.2 = { x.2 with console := y.2.console } ∧
    ∃ a note, x.2.console = a ++ note ∧ (note = [] ∨ o.dump = true ∧ note = [.verboseNote]) ∧ Fewer h o before a y.2.console

theorem VerboseOnly.refl {α} {before} (x : α × Machine σ) (k : List Msg) (hk : x.2.console = before ++ k) : VerboseOnly h o before x x :=
  ⟨rfl, rfl, x.2.console, [], (List.append_nil _).symm, .inl rfl, Fewer.same k hk⟩

theorem dumpLoop_other (q v : Bool) (rs : List Removal) (x : Bool) : (dumpLoop q v rs x).2 = (dumpLoop q (!v) rs x).2 := by
  induction rs generalizing x with
  | nil => rfl
  | cons r rs ih =>
    unfold dumpLoop
    dsimp only
    rw [ih]
    split <;> split <;> rfl

theorem dumpLoop_fewer {before a : List Msg} (root : Parse.Path) (hb : Fewer h o before a a) (rs : List Removal) (x x' : Bool) :
    Fewer h o before (a ++ (dumpLoop false false rs x).1.map fun r => .text (removalLine h o root r))
      (a ++ (dumpLoop false true rs x').1.map fun r => .text (removalLine h o root r)) := by
  have e : ∀ (v : Bool) (rs : List Removal) (x : Bool), (dumpLoop false v rs x).1 = rs.filter fun r => v || r.outcome == .passed := by
    intro v rs
    induction rs with
    | nil => intro x; rfl
    | cons r rs ih =>
      intro x
      unfold dumpLoop
      dsimp only
      rw [List.filter_cons]
      cases hp : (v || r.outcome == Outcome.passed) <;> simp [ih]
  rw [e, e]
  clear e x x'
  suffices H : ∀ (a b : List Msg), Fewer h o before a b →
      Fewer h o before (a ++ (rs.filter fun r => false || r.outcome == .passed).map fun r => .text (removalLine h o root r))
        (b ++ (rs.filter fun r => true || r.outcome == .passed).map fun r => .text (removalLine h o root r)) from H a a hb
  clear hb a
  induction rs with
  | nil => intro a b hb; simpa
  | cons r rs ih =>
    intro a b hb
    cases hp : r.outcome == Outcome.passed
    · have := ih a (b ++ [.text (removalLine h o root r)]) (hb.more (removalLine_spec root r) (fun e => by rw [e] at hp; cases hp))
      simpa [hp] using this
    · have := ih _ _ (hb.both (.text (removalLine h o root r)))
      simpa [hp] using this

theorem prepareDump_verbose {before : List Msg} (hq : o.quiet = false) (hv : o.verbose = false) (hd : o.dump = true) (root : Parse.Path)
    (k : List Msg) (hk : m.console = before ++ k) :
    VerboseOnly h o before (prepareDump h o root m) (prepareDump h { o with verbose := true } root m) := by
  have e : dbCall h { o with verbose := true } = dbCall h o := rfl
  unfold prepareDump dumpWhole
  rw [e]
  dsimp only [Opts.warn]
  generalize pastInit (dbCall h o).noSqlite _ m.warns (dbCall h o).readable (dbCall h o).faults (dbCall h o).flags m.db = i
  obtain ⟨res, fl, ws, out⟩ := i
  cases res with
  | ok past =>
    refine ⟨rfl, rfl, m.console ++ ((dump o.quiet o.verbose past).1.map fun r => .text (removalLine h o root r)),
      if (dump o.quiet o.verbose past).2 then [.verboseNote] else [], ?_, ?_, ?_⟩
    · simp [Opts.warn]
    · split
      · exact .inr ⟨hd, rfl⟩
      · exact .inl rfl
    · have := dumpLoop_fewer (h := h) (o := o) root (Fewer.same k hk) past false false
      show Fewer h o before _ (m.console ++ ((dump o.quiet true past).1.map fun r => Msg.text (removalLine h o root r)) ++ if (dump o.quiet true past).2 then [.verboseNote] else [])
      simpa [dump, hq, hv] using this
  | err e => exact VerboseOnly.refl _ k hk
  | panic => exact VerboseOnly.refl _ k hk
  | hang => exact VerboseOnly.refl _ k hk

theorem warnDeprecated_console : ∃ k, (warnDeprecated o m).2.console = m.console ++ k := by
  have hn : ∃ k, m.console = m.console ++ k := ⟨[], (List.append_nil _).symm⟩
  unfold warnDeprecated
  split
  · split
    · exact hn
    · exact hn
    · unfold print
      split
      · exact hn
      · exact ⟨_, rfl⟩
    · exact hn
  · exact hn

theorem prepareFound_console (root : Parse.Path) (fw : Fw σ) (n : Nat) (map : Parse.FileMap) :
    ∃ k, (prepareFound h o root fw n map m).2.console = m.console ++ k := by
  have hp : ∀ l, ∃ k, (print o l m).console = m.console ++ k := by
    intro l
    unfold print
    split
    · exact ⟨[], (List.append_nil _).symm⟩
    · exact ⟨_, rfl⟩
  unfold prepareFound
  split
  · generalize hd : dumpCandidates h o root map m = x
    have : ∃ k, x.2.console = m.console ++ k := by rw [← hd]; exact hp _
    obtain ⟨r, m1⟩ := x
    cases r <;> exact this
  · split <;> exact hp _

theorem prepareFound_env (root : Parse.Path) (fw : Fw σ) (n : Nat) (map : Parse.FileMap) {p m1}
    (hr : prepareFound h o root fw n map m = (.ok (some p), m1)) : p.env = fw.env := by
  unfold prepareFound at hr
  split at hr
  · split at hr <;> cases hr
  · split at hr
    · cases hr
    · cases hr; rfl

theorem prepareCandidates_console (root : Parse.Path) (config : Toml) :
    (∃ k, (prepareCandidates h o root config m).2.console = m.console ++ k) ∧
    ∀ p m1, prepareCandidates h o root config m = (.ok (some p), m1) → ∃ ext i fw, h.impl ext i = .ok (some fw) ∧ p.env = fw.env := by
  have hn : ∃ k, m.console = m.console ++ k := ⟨[], (List.append_nil _).symm⟩
  unfold prepareCandidates
  split
  · exact ⟨hn, fun _ _ h => nomatch h⟩
  · rename_i fw hfw
    dsimp only
    split
    · exact ⟨hn, fun _ _ h => nomatch h⟩
    · generalize Parse.parse _ _ _ _ = y
      obtain ⟨r, st⟩ := y
      cases r with
      | ok _ =>
        obtain ⟨k, hk⟩ := prepareFound_console (h := h) (o := o) (m := { m with ext := fw.parsed (h.chosen m.ext), warns := st.warns, console := m.console ++ st.printed.map .warning }) root fw st.nTests st.map
        refine ⟨⟨_, by rw [← List.append_assoc]; exact hk⟩, fun p m1 hr => ?_⟩
        obtain ⟨t, ht⟩ := impl_of hfw
        exact ⟨_, _, fw, ht, prepareFound_env _ _ _ _ hr⟩
      | err e => exact ⟨⟨_, rfl⟩, fun _ _ h => nomatch h⟩
      | panic => exact ⟨⟨_, rfl⟩, fun _ _ h => nomatch h⟩
      | hang => exact ⟨⟨_, rfl⟩, fun _ _ h => nomatch h⟩

theorem VerboseOnly.runAll {before k : List Msg} {p : Prepared σ} (hp : Deaf p.env) (hv : o.verbose = false) (root : Parse.Path)
    (hk : m.console = before ++ k) : VerboseOnly h o before (runAll h o root p m) (Main.runAll h { o with verbose := true } root p m) := by
  obtain ⟨h1, h2, h3⟩ := runWhole_verbose (cfg := runCfg h o m) hp hv (dbCall h o) p.map.toRun m.db
    { fs := m.fs, db := none, warns := m.warns, out := [], progress := 0, trace := [], instr := none, past := [], ext := m.ext }
  unfold Main.runAll
  have e : dbCall h { o with verbose := true } = dbCall h o := rfl
  have e' : runCfg h { o with verbose := true } m = { runCfg h o m with verbose := true } := rfl
  rw [e, e']
  generalize runWhole (dbCall h o) (runCfg h o m) p.env p.map.toRun m.db _ = x at h1 h2 h3 ⊢
  generalize runWhole (dbCall h o) { runCfg h o m with verbose := true } p.env p.map.toRun m.db _ = y at h1 h2 h3 ⊢
  obtain ⟨r, d, a⟩ := x
  obtain ⟨r', d', b⟩ := y
  obtain ⟨out', h3, h4⟩ := h3
  dsimp only at h1 h2 h3 h4
  subst h1 h2 h3
  refine ⟨rfl, rfl, _, [], (List.append_nil _).symm, .inl rfl, ?_⟩
  exact (Fewer.same k hk).lines root h4

theorem project_verbose (hd : ∀ ext i fw, h.impl ext i = .ok (some fw) → Deaf fw.env) (hq : o.quiet = false) (hv : o.verbose = false) :
    VerboseOnly h o m.console (project h o m) (project h { o with verbose := true } m) := by
  unfold project
  have e1 : projectRoot h { o with verbose := true } = projectRoot h o := rfl
  have e2 : warnDeprecated { o with verbose := true } m = warnDeprecated o m := rfl
  rw [e1, e2]
  split
  · exact VerboseOnly.refl _ [] (List.append_nil _).symm
  · rename_i root _
    split
    · exact VerboseOnly.refl _ [] (List.append_nil _).symm
    · obtain ⟨k, hk⟩ := warnDeprecated_console (o := o) (m := m)
      generalize warnDeprecated o m = x at hk ⊢
      obtain ⟨r, m1⟩ := x
      cases r with
      | err e => exact VerboseOnly.refl _ k hk
      | panic => exact VerboseOnly.refl _ k hk
      | hang => exact VerboseOnly.refl _ k hk
      | ok _ =>
        dsimp only at hk ⊢
        unfold prepare
        dsimp only
        split
        · generalize defaultConfig _ _ _ = x
          obtain ⟨r, config⟩ := x
          cases r <;> exact VerboseOnly.refl _ k hk
        · split
          · exact VerboseOnly.refl _ k hk
          · rename_i config _
            split
            · rename_i hdump
              obtain ⟨h1, h2, h3⟩ := prepareDump_verbose (h := h) (o := o) hq hv hdump root k hk
              have hnone : ∀ p m2, prepareDump h o root m1 ≠ (.ok (some p), m2) := by
                intro p m2 he
                unfold prepareDump at he
                split at he <;> cases he
              generalize prepareDump h o root m1 = x at h1 h2 h3 hnone ⊢
              generalize prepareDump h { o with verbose := true } root m1 = y at h1 h2 h3 ⊢
              obtain ⟨r, a⟩ := x
              obtain ⟨r', b⟩ := y
              cases h1
              rcases r with (_ | p) | e | _ | _
              · exact ⟨rfl, h2, h3⟩
              · exact absurd rfl (hnone p a)
              · exact ⟨rfl, h2, h3⟩
              · exact ⟨rfl, h2, h3⟩
              · exact ⟨rfl, h2, h3⟩
            · have e3 : prepareCandidates h { o with verbose := true } root config m1 = prepareCandidates h o root config m1 := rfl
              rw [e3]
              obtain ⟨⟨k', hk'⟩, henv⟩ := prepareCandidates_console (h := h) (o := o) (m := m1) root config
              generalize prepareCandidates h o root config m1 = x at hk' henv ⊢
              obtain ⟨r, a⟩ := x
              dsimp only at hk'
              rw [hk, List.append_assoc] at hk'
              rcases r with (_ | p) | e | _ | _
              · exact VerboseOnly.refl _ _ hk'
              · obtain ⟨ext, i, fw, hfw, he⟩ := henv p a rfl
                exact VerboseOnly.runAll (he ▸ hd ext i fw hfw) hv root hk'
              · exact VerboseOnly.refl _ _ hk'
              · exact VerboseOnly.refl _ _ hk'
              · exact VerboseOnly.refl _ _ hk'

/-- **C90.** Two calls that differ only in `--verbose` end in the same way and do the same: to the database, the configuration, the source files and the outside, in
the same steps, and give the same warnings. They print the same, in the same order, except that with `--verbose` also the removals of candidates that did not
pass are printed, and that without it `--dump` may say at the end that there is more. (It is assumed that the framework, and what it runs, do not depend on
what has been printed. `--verbose` is refused if there is `--quiet`, see C31.) -/
theorem C90_program (hd : ∀ ext i fw, h.impl ext i = .ok (some fw) → Deaf fw.env) (hq : o.quiet = false) (hv : o.verbose = false) :
    VerboseOnly h o m.console (main h o m) (main h { o with verbose := true } m) := by
  have key : VerboseOnly h o m.console (necessist h o m) (necessist h { o with verbose := true } m) := by
    unfold necessist
    rw [processOptions_verbose hq]
    have hs : ∀ r : Skill.Ran Skill.Status, VerboseOnly h o m.console (skillResult m r) (skillResult m r) := fun r =>
      VerboseOnly.refl _ _ rfl
    split
    · dsimp only
      split
      · exact hs _
      · split
        · exact hs _
        · exact project_verbose hd hq hv
    · exact VerboseOnly.refl _ [] (List.append_nil _).symm
  unfold main
  obtain ⟨h1, h2, h3⟩ := key
  generalize necessist h o m = x at h1 h2 h3 ⊢
  generalize necessist h { o with verbose := true } m = y at h1 h2 h3 ⊢
  obtain ⟨r, a⟩ := x
  obtain ⟨r', b⟩ := y
  cases h1
  exact ⟨rfl, h2, h3⟩

namespace Demo

theorem deaf : ∀ ext i fw, host.impl ext i = .ok (some fw) → Deaf fw.env := by
  intro ext i fw hi
  cases hi
  constructor <;> intros <;> rfl

/-- The hypotheses are met by the ordinary run, in which `--verbose` prints one more removal. -/
example : (∀ ext i fw, host.impl ext i = .ok (some fw) → Deaf fw.env) ∧ (shown {}).2.length = 8 ∧ (shown { verbose := true }).2.length = 9 ∧
    (main host {} machine).1 = some 0 := ⟨deaf, by decide +kernel, by decide +kernel, by decide +kernel⟩

end Demo
end Main
end Necessist
