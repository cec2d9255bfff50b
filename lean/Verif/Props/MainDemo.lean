import Verif.Props.MainMore
import Verif.Props.ParseDemo
import Verif.Props.RunDemo
import Verif.Props.Skill
/-!
# The whole program: an example, and C69
-/
namespace Necessist.Main
open Run Parse Std
namespace Demo

/-- The project of `Parse.Demo` (two files with tests, one that cannot be parsed, one to be skipped), with tests that pass, unless they are called
`u`, in `/p`, with the skills of `Skill.Demo`. -/
def fwAt (n : Nat) : Fw (Nat × Nat) where
  backend := Parse.Demo.proj [] []
  env := { Run.Demo.env n 99 with
    dryRun := fun w _ => ⟨.ok (), w.warns, w.ext, []⟩
    start := fun w test _ _ => ⟨.ok ⟨false, some 10, decide (test ≠ "u".toList)⟩, w.warns, w.ext, []⟩ }
  parsed := id

/-- Ctrl-C is pressed before the flag is read for the `n`-th time. -/
def hostAt (n : Nat) : Host Nat (Nat × Nat) where
  skill := Skill.Demo.world
  home := some ["h".toList]
  currentDir := some ["p".toList]
  canonicalize p := some p.components
  lockFails _ := false
  configStatFails := false
  configWriteFails := none
  dbFaults := ⟨false, false, false, false, false⟩
  unreadable _ := none
  exists_ t := .ok (t == "Cargo.toml".toList)
  impl _ _ := .ok (some (fwAt n))
  chosen := id
  ident := Span.display
  paint o := o.display

def host := hostAt 99

def machine : Machine (Nat × Nat) where
  skills := Skill.Demo.fs
  config := .absent
  db := .absent
  fs f := if f = Parse.Demo.fileD then "// necessist: skip-file\na;\nb;\nc;\n".toList else "a;\nb;\nc;\n".toList
  ext := (0, 0)
  warns := .init
  console := []
  trace := []
  progress := 0

def Msg.show : Msg → String
  | .text t => String.ofList t
  | .warning _ => "warning"
  | .verboseNote => "note"
  | .dryRunning f => "dry running " ++ String.ofList f.display
  | .mutilating f => "mutilating " ++ String.ofList f.display

def shown (o : Opts) (m : Machine (Nat × Nat) := machine) : Option Nat × List String :=
  ((main host o m).1, (main host o m).2.console.map Msg.show)

/-- The hypothesis about the parsers is met. -/
theorem spansInFile (k : Nat) : SpansInFile (hostAt k) := by
  intro ext i fw' hi f ast hp n hn ht
  simp only [hostAt, Except.ok.injEq, Option.some.injEq] at hi
  subst hi
  have hnil : ∀ (s : Visit.StmtInfo), ∀ n, Visit.Sub (.stmt s []) n → n = .stmt s [] := by
    intro s n h
    cases h with
    | refl => rfl
    | step hm _ => simp [Visit.Node.kids] at hm
  have hts : ∀ t last ls, (∀ r ∈ ls, ∃ l, r = Parse.Demo.stm f l) → ∀ n, Visit.Sub (.test t last ls) n → (∀ t last cs, n ≠ .test t last cs) →
      n.info.span.file = f := by
    intro t last ls hls n h hnt
    cases h with
    | refl => exact absurd rfl (hnt _ _ _)
    | step hm hs =>
      obtain ⟨l, rfl⟩ := hls _ hm
      rw [hnil _ _ hs]; rfl
  rcases hn with ⟨r, hr, hs⟩ | ⟨fns, hf, x, hx, g, hg, r, hr, hs⟩
  · unfold fwAt Parse.Demo.proj at hp
    dsimp only at hp
    split at hp
    · cases hp
    · split at hp
      · cases hp
        rcases List.mem_cons.1 hr with rfl | hr
        · exact hts _ _ _ (by intro r hr; simp only [List.mem_cons, List.not_mem_nil, or_false] at hr; first | (rcases hr with rfl | rfl | rfl <;> exact ⟨_, rfl⟩) | exact ⟨_, hr⟩) n hs ht
        · rw [List.mem_singleton.1 hr] at hs
          exact hts _ _ _ (by intro r hr; simp only [List.mem_cons, List.not_mem_nil, or_false] at hr; first | (rcases hr with rfl | rfl | rfl <;> exact ⟨_, rfl⟩) | exact ⟨_, hr⟩) n hs ht
      · cases hp
        rw [List.mem_singleton.1 hr] at hs
        exact hts _ _ _ (by intro r hr; simp only [List.mem_cons, List.not_mem_nil, or_false] at hr; first | (rcases hr with rfl | rfl | rfl <;> exact ⟨_, rfl⟩) | exact ⟨_, hr⟩) n hs ht
  · have : ast.localFunctions = .ok [] := by
      unfold fwAt Parse.Demo.proj at hp
      dsimp only at hp
      split at hp
      · cases hp
      · split at hp <;> · cases hp; rfl
    rw [this] at hf
    cases hf
    cases hx

/-- An ordinary run: what is printed. -/
example : shown {} = (some 0, ["warning", "4 candidates in 3 tests in 2 source files", "dry running src/a.rs", "mutilating src/a.rs",
  "src/a.rs:1:1-1:3: `a;` passed", "dry running src/c.rs", "mutilating src/c.rs", "src/c.rs:3:1-3:3: `c;` passed"]) := by decide +kernel

/-- It can be resumed, and `--dump` then shows the results; without `--resume` it is refused. -/
example : (main host { resume := true } (main host {} machine).2).1 = some 0 ∧ (main host {} (main host {} machine).2).1 = some 2 ∧
    ((main host { dump := true } { (main host {} machine).2 with console := [] }).2.console.map Msg.show =
      ["src/a.rs:1:1-1:3: `a;` passed", "src/c.rs:3:1-3:3: `c;` passed", "note"]) ∧
    ((main host { dump := true, verbose := true } { (main host {} machine).2 with console := [] }).2.console.map Msg.show =
      ["src/a.rs:1:1-1:3: `a;` passed", "src/a.rs:2:1-2:3: `b;` failed", "src/c.rs:3:1-3:3: `c;` passed"]) := by decide +kernel

example : shown { dumpCandidates := true } =
    (some 0, ["warning", "src/a.rs:1:1-1:3: `a;`", "src/a.rs:2:1-2:3: `b;`", "src/c.rs:3:1-3:3: `c;`"]) := by decide +kernel
example : shown { dumpCandidateCounts := true } = (some 0, ["warning", "1 src/c.rs", "2 src/a.rs"]) := by decide +kernel
/-- Errors: nothing to dump; contradictory options; a denied warning. -/
example : shown { dump := true } = (some 2, []) ∧ shown { quiet := true, verbose := true } = (some 2, []) ∧
    shown { deny := [.parsingFailed] } = (some 2, []) := by decide +kernel
/-- Skills that need an update. -/
example : (shown { findSkill := true }).1 = some 1 := by decide +kernel

/-- The hypotheses of the program-level theorems are met by the ordinary run. -/
example : SpansInFile host ∧ RunsTests {} ∧ processOptions ({} : Opts).set = .ok ∧ (main host {} machine).1 = some 0 ∧
    (∃ root fw nTests map ws st, FindsCandidates host {} machine root fw nTests map ws st) ∧
    (∃ rows, (main host {} machine).2.db = .table rows ∧ rows.length = 3) ∧ (main host {} machine).2.trace.length > 5 := by
  have hrun : RunsTests {} := ⟨⟨rfl, rfl, rfl, rfl⟩, rfl, rfl⟩
  have hx : (main host {} machine).1 = some 0 := by decide +kernel
  obtain ⟨root, fw, nT, map, ws, st, hf, _⟩ := zero_runs hrun hx
  refine ⟨spansInFile 99, hrun, rfl, hx, ⟨root, fw, nT, map, ws, st, hf⟩, ?_, by decide +kernel⟩
  have : (match (main host {} machine).2.db with | .table rows => decide (rows.length = 3) | _ => false) = true := by decide +kernel
  cases hd : (main host {} machine).2.db with
  | table rows => rw [hd] at this; exact ⟨rows, rfl, by simpa using this⟩
  | absent => rw [hd] at this; cases this
  | empty => rw [hd] at this; cases this

/-- The candidates of the project. -/
def fcs : List (SourceFile × List Candidate) :=
  [(Parse.Demo.fileA, [⟨Parse.Demo.sp Parse.Demo.fileA 1, .statement, ["t".toList]⟩, ⟨Parse.Demo.sp Parse.Demo.fileA 2, .statement, ["t".toList, "u".toList]⟩]),
   (Parse.Demo.fileC, [⟨Parse.Demo.sp Parse.Demo.fileC 3, .statement, ["t".toList]⟩])]

theorem finds {n : Nat} {o : Opts} {db : DbFile} {root fw nTests map ws st} (ho : o = {} ∨ o = { resume := true })
    (hf : FindsCandidates (hostAt n) o { machine with db } root fw nTests map ws st) : map.toRun = fcs := by
  obtain ⟨k0, _, config, paths, m1, pst, ws0, k1, _, k3, k4, k5, k6, _, rfl, _⟩ := hf
  have hfw : fw = fwAt n := by
    rcases ho with rfl | rfl
    all_goals
      obtain ⟨_, t, _, _, _, ht⟩ := (Framework.C42_auto_iff (by decide) fw).1 k4
      simp only [hostAt, Except.ok.injEq, Option.some.injEq] at ht
      exact ht.symm
  subst hfw
  have e : (parse (projectBackend (hostAt n) {} ["p".toList] machine (fwAt n)) {} [] .init).2.map.toRun = fcs := by
    have : (parse (projectBackend (hostAt 0) {} ["p".toList] machine (fwAt 0)) {} [] .init).2.map.toRun = fcs := by decide +kernel
    exact this
  rcases ho with rfl | rfl
  all_goals
    cases k0
    cases k1
    cases k3
    cases k5
    rw [← e]
    have : parse (projectBackend (hostAt n) {} ["p".toList] machine (fwAt n)) {} [] .init = (.ok (), pst) := k6
    rw [this]

/-- The project's tests. -/
def det : Determined where
  result _ t := some (if t = "u".toList then .failed else .passed)
  dryRunFails _ := false

theorem agrees_of {tr : List Snap}
    (h : (∀ x ∈ testedOf tr, x.2.2 = det.result x.1 x.2.1 ∧ det.dryRunFails x.1.span.file = false) ∧
      ∀ f ∈ failedOf tr, det.dryRunFails f = true) : Agrees det tr := ⟨fun c t r hm => h.1 (c, t, r) hm, h.2⟩

theorem candidatesOk : CandidatesOk fcs where
  files := ⟨by decide, fun x hx => by
    rcases List.mem_cons.1 hx with rfl | hx
    · exact ⟨by decide, _, [], (List.append_nil _).symm, by decide, by decide⟩
    · rw [List.mem_singleton.1 hx]
      exact ⟨by decide, _, [], (List.append_nil _).symm, by decide, by decide⟩⟩
  distinct := by decide
  paths := by unfold SourceFile.WellFormed; decide
  numbers := by decide
  tested := by decide

def interrupted := (main (hostAt 2) {} machine).2.db
def again : Machine (Nat × Nat) := { machine with db := interrupted }

/-- The hypotheses of `C13_program` are met by a run that was interrupted, leaving a row, and then resumed. -/
example : (main (hostAt 2) {} machine).1 = some 2 ∧ (∃ row, interrupted = .table [row]) ∧ History det machine.fs fcs again.db ∧
    (∀ root fw nTests map ws st, FindsCandidates host { resume := true } again root fw nTests map ws st → map.toRun = fcs) ∧
    Agrees det (main host { resume := true } again).2.trace ∧ (main host { resume := true } again).1 = some 0 ∧ CandidatesOk fcs ∧
    RunsTests { resume := true } := by
  refine ⟨by decide +kernel, ?_, ?_, fun _ _ _ _ _ _ hf => finds (Or.inr rfl) hf, agrees_of (by decide +kernel), by decide +kernel, candidatesOk,
    ⟨⟨rfl, rfl, rfl, rfl⟩, rfl, rfl⟩⟩
  · have : (match interrupted with | .table rows => decide (rows.length = 1) | _ => false) = true := by decide +kernel
    cases hd : interrupted with
    | table rows =>
      rw [hd] at this
      obtain ⟨row, rfl⟩ := List.length_eq_one_iff.1 (by simpa using this)
      exact ⟨row, rfl⟩
    | absent => rw [hd] at this; cases this
    | empty => rw [hd] at this; cases this
  · exact .exec (hostAt 2) {} machine _ .new (spansInFile 2) rfl (fun _ _ _ _ _ _ hf => finds (Or.inl rfl) hf) (List.nil_append _).symm
      (agrees_of (by decide +kernel))

end Demo

/-! ### C69 -/

theorem sum_map_append {α} (f : α → Nat) (l m : List α) : ((l ++ m).map f).sum = (l.map f).sum + (m.map f).sum := by
  rw [List.map_append, List.sum_append]

theorem nSpans_eq (map : FileMap) : map.nSpans = ((candidates map.toRun).map (·.tests.length)).sum := by
  unfold FileMap.nSpans candidates FileMap.toRun
  induction map with
  | nil => rfl
  | cons p ps ih =>
    rw [List.map_cons, List.map_cons, List.flatMap_cons, List.sum_cons, ih, sum_map_append]
    congr 1
    simp only [Maps.candidates, List.map_append, List.map_map, List.sum_append]
    rfl

theorem sum_lengths (cs : List Candidate) (h : ∀ c ∈ cs, c.tests ≠ []) :
    cs.length ≤ (cs.map (·.tests.length)).sum ∧
    ((cs.map (·.tests.length)).sum = cs.length ↔ ∀ c ∈ cs, ∃ t, c.tests = [t]) := by
  induction cs with
  | nil => simp
  | cons c cs ih =>
    obtain ⟨h1, h2⟩ := ih (fun c hc => h c (List.mem_cons_of_mem _ hc))
    have hc : 1 ≤ c.tests.length := by
      exact List.length_pos_iff.2 (h c List.mem_cons_self)
    simp only [List.map_cons, List.sum_cons, List.length_cons, List.forall_mem_cons]
    refine ⟨by omega, ?_⟩
    rw [← h2, ← List.length_eq_one_iff]
    omega

/-- **C69 (partial).** The number of candidates announced (and the total of the progress bar) is that of the pairs of a candidate and a
test; it is at least the number of candidates that the run deals with, and equal to it exactly if every candidate belongs to one test
only. Missing: that it is always equal, which is false (`Demo.C69_negation`). -/
theorem C69_total_partial {V σ : Type} {h : Host V σ} {o : Opts} {m : Machine σ} (hrun : RunsTests o) (hopt : processOptions o.set = .ok) (hq : o.quiet = false) {root fw nTests map ws st}
    (hf : FindsCandidates h o m root fw nTests map ws st) :
    ∃ n out, (main h o m).2.console = m.console ++ ws.map .warning ++
        [.text (showNat n ++ " candidates in ".toList ++ showNat nTests ++ (if nTests = 1 then " test" else " tests").toList ++
          " in ".toList ++ showNat map.length ++ (if map.length = 1 then " source file" else " source files").toList)] ++ out ∧
      (candidates map.toRun).length ≤ n ∧ (n = (candidates map.toRun).length ↔ ∀ c ∈ candidates map.toRun, ∃ t, c.tests = [t]) := by
  rw [main_snd]
  rcases necessist_whole (h := h) (o := o) (m := m) with ⟨_, _, _, _, _, h6⟩ | ⟨root', fw', nT', map', ws', st', hf', _, _, warns, ext, h1, h2, h3, h4, h5⟩
  · exact absurd hf (h6 hrun hopt _ _ _ _ _ _)
  · obtain ⟨rfl, rfl, rfl, rfl, rfl, rfl⟩ := hf.unique hf'
    refine ⟨map.nSpans, (runWhole (dbCall h o) (runCfg h o m) fw.env map.toRun m.db (startWorld m warns ext)).2.2.out.map
      (showLine h o root), ?_, ?_⟩
    · rw [h4.1, if_neg (by simp [hq])]
      have e1 : ∀ n, (if n = 1 then " test" else " tests").toList = " test".toList ++ plural n := by
        intro n; unfold plural; split <;> rfl
      have e2 : ∀ n, (if n = 1 then " source file" else " source files").toList = " source file".toList ++ plural n := by
        intro n; unfold plural; split <;> rfl
      unfold summary
      rw [e1, e2]
      simp only [List.append_assoc]
    · obtain ⟨_, _, config, paths, m1, pst, ws0, _, _, _, _, _, hparse, _, rfl, _⟩ := hf
      obtain ⟨_, _, h2, _, _⟩ := parse_ok hparse
      rw [nSpans_eq]
      refine sum_lengths _ fun c hc => ?_
      obtain ⟨x, hx, hc⟩ := List.mem_flatMap.1 hc
      obtain ⟨⟨f, ms⟩, hm, rfl⟩ := List.mem_map.1 hx
      have hc := mem_candidates.1 hc
      have hg : SpanMap.Good (ms.of c.kind) := by
        cases hk : c.kind with
        | statement => exact (h2.maps _ _ hm).1
        | methodCall => exact (h2.maps _ _ hm).2
      exact (hg.tests _ _ hc).1

namespace Demo
/-- **C69 (negation).** Four candidates are announced, but there are three: one belongs to two tests. -/
theorem C69_negation : (shown {}).2[1]? = some "4 candidates in 3 tests in 2 source files" ∧ (main host {} machine).1 = some 0 ∧
    (main host {} machine).2.progress = 3 ∧ (shown { dumpCandidates := true }).2.length = 1 + 3 := by decide +kernel
end Demo

end Necessist.Main
