import Verif.Lemmas.Walk
import Verif.Props.MainRun
import Verif.Props.ParseDemo
/-!
# Which files are searched (C77)
-/
namespace Necessist.Walk
open Parse
open Framework (Identifier)
open Run (Err)

section
variable {disk : Entry} {v : Bool} {fw : Identifier} {rule : Path → Bool → Verdict} {b : Backend}
  {user : Toml} {paths : List Path} {ws : WStates}
variable (hk : b.kind = kindOf disk (walkerOf v fw) rule)
include hk

theorem kind_file (p : Path) : b.kind p = .file ↔ ∃ e, disk.at? p = some e ∧ e.IsFile := by
  rw [hk, kindOf]
  cases disk.at? p with
  | none => simp
  | some e =>
    simp only [Option.some.injEq]
    cases hd : e.isDir with
    | true =>
      have := not_file_of_dir hd
      simp [← isFile_iff, this]
    | false =>
      simp only [Bool.false_eq_true, if_false]
      cases hf : e.isFile with
      | true => simp [← isFile_iff, hf]
      | false => simp [← isFile_iff, hf]

theorem kind_dir (p : Path) (es) : b.kind p = .dir es ↔ es = walkDir disk (walkerOf v fw) rule p ∧ ∃ e, disk.at? p = some e ∧ e.IsDir := by
  rw [hk, kindOf]
  cases disk.at? p with
  | none => simp
  | some e =>
    simp only [Option.some.injEq]
    cases hd : e.isDir with
    | true =>
      simp only [if_true, PathKind.dir.injEq]
      refine ⟨fun h => ⟨h.symm, e, rfl, (isDir_iff e).mp hd⟩, fun h => h.1.symm⟩
    | false =>
      simp only [Bool.false_eq_true, if_false]
      cases hf : e.isFile <;> simp [← isDir_iff, hd]

/-- **C77.** The files that are searched are exactly those that the framework is to look at, according to the paths given (or the root, if
none is). -/
theorem C77_files (q : Path) : GivenPath b paths q ↔ ∃ p ∈ startingPaths b paths, LooksAt disk v fw rule p q := by
  unfold GivenPath LooksAt
  refine exists_congr fun p => and_congr_right fun _ => or_congr ?_ ?_
  · rw [kind_file hk, and_comm]
  · constructor
    · rintro ⟨es, h1, h2⟩
      obtain ⟨rfl, d, hd, hdir⟩ := (kind_dir hk p es).mp h1
      obtain ⟨e, x, h3, h4, h5⟩ := (walkDir_files disk p q).mp h2
      rw [start_eq] at h3 h4
      exact ⟨d, e, x, hd, hdir, h3, h4, h5⟩
    · rintro ⟨d, e, x, hd, hdir, h3, h4, h5⟩
      refine ⟨_, (kind_dir hk p _).mpr ⟨rfl, d, hd, hdir⟩, (walkDir_files disk p q).mpr ⟨e, x, ?_, ?_, h5⟩⟩ <;> rw [start_eq]
      · exact h3
      · exact h4

/-- **C77.** If a directory that would have to be searched cannot be read, or the framework's subdirectory does not exist, the search for
candidates fails. -/
theorem C77_unreadable {p} (hp : p ∈ startingPaths b paths) (hu : Unreadable disk v fw rule p) : (parse b user paths ws).1 ≠ .ok () := by
  intro h
  obtain ⟨config, _, h1, _⟩ := C64_ok_iff.1 h
  obtain ⟨d, hd, hdir, hx⟩ := hu
  have : ∃ err, .error err ∈ walkDir disk (walkerOf v fw) rule p := by
    rw [walkDir_errors, start_eq]; exact hx
  obtain ⟨err, he⟩ := this
  exact h1 p hp _ ((kind_dir hk p _).mpr ⟨rfl, d, hd, hdir⟩) err he

/-- **C77.** Otherwise, and if no file gives rise to an error, it succeeds. -/
theorem C77_readable {config} (hc : Compiles b user ws config) (hu : ∀ p ∈ startingPaths b paths, ¬ Unreadable disk v fw rule p)
    (hroot : ∀ p ∈ startingPaths b paths, b.root <+: p)
    (hfine : ∀ f : SourceFile, (∃ p ∈ startingPaths b paths, LooksAt disk v fw rule p (b.root ++ f.path)) → Parse.Fine b config f) :
    (parse b user paths ws).1 = .ok () := by
  refine C64_ok_iff.2 ⟨config, hc, fun p hp es hes err he => ?_, fun q hq => ?_⟩
  · obtain ⟨rfl, d, hd, hdir⟩ := (kind_dir hk p es).mp hes
    have := (walkDir_errors disk p).mp ⟨err, he⟩
    rw [start_eq] at this
    exact hu p hp ⟨d, hd, hdir, this⟩
  · have hpre : b.root <+: q := by
      obtain ⟨p, hp, ⟨_, rfl⟩ | ⟨es, h1, h2⟩⟩ := hq
      · exact hroot q hp
      · obtain ⟨rfl, _⟩ := (kind_dir hk p es).mp h1
        exact (hroot p hp).trans (walkDir_prefix h2)
    obtain ⟨r, rfl⟩ := hpre
    exact ⟨⟨r⟩, rfl, hfine ⟨r⟩ ((C77_files hk _).mp hq)⟩

/-- **C44, C77.** Every file that is searched is a file of the project. -/
theorem C77_under_root {args ps} (h : canonicalizeAll b args = .ok ps) (q : Path) (hq : GivenPath b ps q) :
    ∃ f : SourceFile, q = b.root ++ f.path ∧ Given b ps f :=
  C44_only_under_root args ps h (fun p es q i h1 h2 => by
    obtain ⟨rfl, _⟩ := (kind_dir hk p es).mp h1
    exact walkDir_prefix h2) q hq

/-- **C77.** If the search succeeds, the files that appear in its result are those that are to be looked at, except the ones that ask to be
skipped or cannot be parsed. -/
theorem C77_searched {st} (h : parse b user paths ws = (.ok (), st)) : ∃ config, Compiles b user ws config ∧
    ∀ f, (∃ m, (f, m) ∈ st.map) ↔
      (∃ p ∈ startingPaths b paths, LooksAt disk v fw rule p (b.root ++ f.path)) ∧ ∃ vs, Yields b config f vs := by
  obtain ⟨config, h1, h2⟩ := C41_files h
  exact ⟨config, h1, fun f => (h2 f).trans (and_congr_left fun _ => C77_files hk _)⟩

end

/-! ## The whole program -/

open Main Run

variable {V σ : Type} {h : Host V σ} {o : Opts} {m : Machine σ}

/-- The frameworks find files in `disk` as described. -/
def FindsFiles (h : Host V σ) (disk : Entry) (v : Bool) (rule : Path → Bool → Verdict) : Prop :=
  ∀ ext i fw, h.impl ext i = .ok (some fw) → fw.backend.kind = kindOf disk (walkerOf v i) rule

/-- Where to look: at what the arguments lead to, or at the root. -/
def Target (h : Host V σ) (o : Opts) (root p : Path) : Prop :=
  (o.sourceFiles = [] ∧ p = root) ∨
  ∃ a ∈ o.sourceFiles, h.canonicalize ⟨true, if a.absolute then a.components else root ++ a.components⟩ = some p

/-- The framework that is asked for, or, if none is, one that applies to the project. -/
def Chosen (h : Host V σ) (o : Opts) (i : Identifier) : Prop :=
  o.framework = some i ∨ (o.framework = none ∧ Framework.Identifier.applicable h.exists_ i = .ok true)

theorem chosen_impl {fw} (hfw : Framework.backendFor Framework.Identifier.all Framework.Identifier.name
    (Framework.Identifier.applicable h.exists_) (h.impl m.ext) o.framework = .ok fw) : ∃ i, Chosen h o i ∧ h.impl m.ext i = .ok (some fw) := by
  cases hof : o.framework with
  | some t => rw [hof] at hfw; exact ⟨t, Or.inl hof, (Framework.C42_explicit t fw).1 hfw⟩
  | none =>
    rw [hof] at hfw
    obtain ⟨_, t, _, h1, _, ht⟩ := (Framework.C42_auto_iff (by decide) fw).1 hfw
    exact ⟨t, Or.inr ⟨hof, h1⟩, ht⟩

/-- **C77.** When candidates are found, they are in files at which the framework is to look. -/
theorem C77_program_found {disk v rule} (hf : FindsFiles h disk v rule) {root fw nTests map ws st}
    (hc : FindsCandidates h o m root fw nTests map ws st) :
    ∃ i, Chosen h o i ∧ h.impl m.ext i = .ok (some fw) ∧ ∀ f ms, (f, ms) ∈ map → ∃ p, Target h o root p ∧ LooksAt disk v i rule p (root ++ f.path) := by
  obtain ⟨h0, _, config, paths, m1, pst, ws0, _, _, _, k1, k2, k3, _, rfl, rfl, _⟩ := hc
  obtain ⟨i, hch, hi⟩ := chosen_impl k1
  have hk : (projectBackend h o root m fw).kind = kindOf disk (walkerOf v i) rule := hf _ _ _ hi
  refine ⟨i, hch, hi, fun f ms hm => ?_⟩
  obtain ⟨config', _, h2⟩ := C77_searched hk k3
  obtain ⟨⟨p, hp, hl⟩, _⟩ := (h2 f).mp ⟨ms, hm⟩
  refine ⟨p, ?_, hl⟩
  unfold startingPaths at hp
  obtain ⟨hlen, hres⟩ := (C44_accepted _ _).1 k2
  split at hp
  · rename_i hnil
    subst hnil
    exact Or.inl ⟨List.eq_nil_of_length_eq_zero (by simpa using hlen), List.mem_singleton.1 hp⟩
  · right
    obtain ⟨j, hj⟩ := List.mem_iff_getElem?.1 hp
    have hlt : j < paths.length := by
      refine Classical.byContradiction fun hn => ?_
      rw [List.getElem?_eq_none (by omega)] at hj; cases hj
    have ha : o.sourceFiles[j]? = some (o.sourceFiles[j]'(by omega)) := List.getElem?_eq_getElem _
    obtain ⟨hr, _⟩ := hres j _ p ha hj
    refine ⟨_, List.mem_of_getElem? ha, ?_⟩
    have hr : canonicalizePath h (if (o.sourceFiles[j]'(by omega)).absolute then (o.sourceFiles[j]'(by omega)).components
      else root ++ (o.sourceFiles[j]'(by omega)).components) = .ok p := hr
    unfold canonicalizePath at hr
    split at hr
    · rename_i q hq
      cases hr
      exact hq
    · cases hr

/-- **C77.** Whatever is dry-run, built, or tested with something removed is a file, or is in a file, at which the framework is to look. -/
theorem C77_program {disk v rule} (hs : SpansInFile h) (hf : FindsFiles h disk v rule) :
    ∃ events, (main h o m).2.trace = m.trace ++ events ∧ ∀ s ∈ events, ∀ f,
      (s.event = .dryRun f ∨ s.event = .buildFile f ∨ ∃ c t, c.span.file = f ∧ (s.event = .buildTest c t ∨ ∃ var, s.event = .startTest c t var)) →
      ∃ root i p, rootOf h o = some root ∧ Chosen h o i ∧ Target h o root p ∧ LooksAt disk v i rule p (root ++ f.path) := by
  obtain ⟨events, h1, h2⟩ := C10_program_nothing_else (o := o) (m := m) hs
  refine ⟨events, h1, fun s hsm f hev => ?_⟩
  obtain ⟨root, fw, nT, map, ws, st, hc, hmeant⟩ := h2 (fun hn => by rw [hn] at hsm; cases hsm)
  have hfile : f ∈ map.map (·.1) := by
    have := hmeant s hsm
    have hcand : ∀ c, c ∈ candidates map.toRun → c.span.file ∈ map.map (·.1) := by
      intro c hcm
      obtain ⟨hn, hok⟩ := hc.filesOk hs
      obtain ⟨x, hx, hcx⟩ := List.mem_flatMap.1 hcm
      obtain ⟨y, hy, rfl⟩ := List.mem_map.1 hx
      rw [(hok _ hx).1 c hcx]
      exact List.mem_map.2 ⟨y, hy, rfl⟩
    rcases hev with he | he | ⟨c, t, rfl, he | ⟨var, he⟩⟩ <;> rw [he] at this
    · exact this
    · exact this
    · exact hcand c this.1
    · exact hcand c this.1
  obtain ⟨⟨f', ms⟩, hm, rfl⟩ := List.mem_map.1 hfile
  obtain ⟨i, hch, _, hl⟩ := C77_program_found hf hc
  obtain ⟨p, hp, hq⟩ := hl f' ms hm
  exact ⟨root, i, p, hc.1, hch, hp, hq⟩

/-- **C77.** If something that would have to be searched cannot be read, or the framework's subdirectory does not exist, the program does
not succeed, and leaves everything as it is. -/
theorem C77_program_unreadable {disk v rule} (hf : FindsFiles h disk v rule) (hl : LooksForCandidates o) {root p}
    (hroot : rootOf h o = some root) (hp : Target h o root p) (hu : ∀ i, Chosen h o i → Unreadable disk v i rule p) :
    (main h o m).1 ≠ some 0 ∧ Undisturbed m (main h o m).2 := by
  by_cases hopt : processOptions o.set = .ok
  · rcases necessist_candidates (h := h) (m := m) hopt hl with ⟨u, h1, _⟩ | ⟨root', fw, nT, map, ws, st, hc, _⟩
    · rw [main_fst, main_snd]
      refine ⟨fun hx => ?_, u⟩
      cases hn : (necessist h o m).1 with
      | ok n => exact h1 n hn
      | err e => rw [hn] at hx; simp [exitCode] at hx
      | panic => rw [hn] at hx; simp [exitCode] at hx
      | hang => rw [hn] at hx; simp [exitCode] at hx
    · exfalso
      obtain ⟨h0, _, config, paths, m1, pst, ws0, _, _, _, k1, k2, k3, _⟩ := hc
      rw [hroot] at h0; cases h0
      obtain ⟨i, hch, hi⟩ := chosen_impl k1
      have hk : (projectBackend h o root m fw).kind = kindOf disk (walkerOf v i) rule := hf _ _ _ hi
      refine C77_unreadable hk ?_ (hu i hch) (by rw [k3])
      obtain ⟨hlen, hres⟩ := (C44_accepted _ _).1 k2
      unfold startingPaths
      rcases hp with ⟨hn, rfl⟩ | ⟨a, ha, hcan⟩
      · have : paths = [] := List.eq_nil_of_length_eq_zero (by rw [← hlen, hn]; rfl)
        rw [if_pos this]; exact List.mem_singleton.2 rfl
      · obtain ⟨j, hj⟩ := List.mem_iff_getElem?.1 ha
        have hlt : j < o.sourceFiles.length := by
          refine Classical.byContradiction fun hn => ?_
          rw [List.getElem?_eq_none (by omega)] at hj; cases hj
        have hq : paths[j]? = some (paths[j]'(by omega)) := List.getElem?_eq_getElem _
        have hr := (hres j a _ hj hq).1
        have hr : canonicalizePath h (if a.absolute then a.components else root ++ a.components) = .ok (paths[j]'(by omega)) := hr
        unfold canonicalizePath at hr
        rw [hcan] at hr
        have hr : p = paths[j]'(by omega) := by simpa using hr
        rw [if_neg (fun hn => by rw [hn] at hlen; rw [hlen] at hlt; cases hlt), hr]
        exact List.mem_of_getElem? hq
  · have : necessist h o m = (.err (.options (processOptions o.set)), m) := by
      unfold necessist
      cases hx : processOptions o.set with
      | ok => exact absurd hx hopt
      | _ => rfl
    rw [main_fst, main_snd, this]
    exact ⟨by simp [exitCode], ⟨rfl, rfl, rfl, rfl, rfl, rfl⟩⟩

/-! ## Examples -/

namespace Demo

def file (n : String) : Entry := .file n.toList
def dir (n : String) (es : List Entry) : Entry := .dir n.toList es

/-- A project with files for all frameworks. -/
def disk : Entry := dir "" [dir "p" [
  file "a_test.go", file "lib.rs", file "a.go",
  dir "target" [file "b.rs"], dir "vendor" [file "VTest.php", file "v_test.go"], dir ".git" [file "c.rs"],
  dir "test" [file "A.t.sol", file "A.sol", file "ATest.php", file "a.test.ts", file "b.js", file "c.test-d.ts", file ".d.ts",
    .linkFile "L.t.sol".toList, .linkDir "l".toList [file "B.t.sol"], dir "sub" [file "B.t.sol", file "ignored.t.sol", .other "x".toList]],
  dir "tests" [file "e.ts"]]]

def at_ (l : List String) : Path := l.map String.toList

/-- An ignore rule. -/
def rule (p : Path) (_ : Bool) : Verdict :=
  if p = at_ ["p", "test", "sub", "ignored.t.sol"] then .ignore else if p = at_ ["p", "test", ".d.ts"] then .keep else .nothing

/-- The files that are found below a path, if there is no error. -/
def files (fw : Framework.Identifier) (p : Path) : Option (List Path) :=
  (walkDir disk (walkerOf false fw) rule p).foldr (fun x acc => match x, acc with
    | .ok (q, true), some qs => some (q :: qs)
    | .ok (_, false), some qs => some qs
    | _, _ => none) (some [])

example : files .go (at_ ["p"]) = some [at_ ["p", "a_test.go"], at_ ["p", "vendor", "v_test.go"]] := by decide +kernel
example : files .rust (at_ ["p"]) = some [at_ ["p", "lib.rs"]] := by decide +kernel
example : files .php (at_ ["p"]) = some [at_ ["p", "test", "ATest.php"]] := by decide +kernel
example : files .foundry (at_ ["p"]) = some [at_ ["p", "test", "A.t.sol"], at_ ["p", "test", "L.t.sol"], at_ ["p", "test", "sub", "B.t.sol"]] := by
  decide +kernel
example : files .hardhat (at_ ["p"]) =
    some [at_ ["p", "test", "a.test.ts"], at_ ["p", "test", "b.js"], at_ ["p", "test", "c.test-d.ts"], at_ ["p", "test", ".d.ts"]] := by
  decide +kernel
example : files .vitest (at_ ["p"]) =
    some [at_ ["p", "test", "a.test.ts"], at_ ["p", "test", "b.js"], at_ ["p", "test", ".d.ts"], at_ ["p", "tests", "e.ts"]] := by
  decide +kernel
example : files .anchor (at_ ["p"]) = some [at_ ["p", "tests", "e.ts"]] := by decide +kernel

-- The hypotheses of `C77_files`, and what it says: this file is looked at, and this one is not.
example : LooksAt disk false .foundry rule (at_ ["p"]) (at_ ["p", "test", "sub", "B.t.sol"]) ∧
    ¬ LooksAt disk false .foundry rule (at_ ["p"]) (at_ ["p", "test", "sub", "ignored.t.sol"]) := by
  let b : Backend := { Parse.Demo.proj [] [] with kind := kindOf disk (walkerOf false .foundry) rule }
  have hk : b.kind = kindOf disk (walkerOf false .foundry) rule := rfl
  have hd : ∃ e, disk.at? (at_ ["p"]) = some e ∧ e.IsDir := ⟨_, rfl, _, _, Or.inl rfl⟩
  have key : ∀ q, LooksAt disk false .foundry rule (at_ ["p"]) q ↔ .ok (q, true) ∈ walkDir disk (walkerOf false .foundry) rule (at_ ["p"]) := by
    intro q
    have h1 := C77_files (paths := [at_ ["p"]]) hk q
    have h2 : startingPaths b [at_ ["p"]] = [at_ ["p"]] := rfl
    rw [h2] at h1
    simp only [List.mem_singleton, exists_eq_left] at h1
    rw [← h1]
    unfold GivenPath
    rw [h2]
    simp only [List.mem_singleton, exists_eq_left]
    constructor
    · rintro (⟨h, _⟩ | ⟨es, h, h'⟩)
      · exact absurd ((kind_dir hk _ _).mpr ⟨rfl, hd⟩) (by rw [h]; simp)
      · rw [((kind_dir hk _ _).mp h).1] at h'; exact h'
    · exact fun h => Or.inr ⟨_, (kind_dir hk _ _).mpr ⟨rfl, hd⟩, h⟩
  have mem : ∀ q (l : List (Except Err (Path × Bool))), .ok (q, true) ∈ l ↔ (l.any fun
      | .ok (q', true) => q' == q
      | _ => false) = true := by
    intro q l
    rw [List.any_eq_true]
    constructor
    · exact fun h => ⟨_, h, by simp⟩
    · rintro ⟨x, hx, h⟩
      split at h
      · rw [eq_of_beq h] at hx; exact hx
      · cases h
  rw [key, key, mem, mem]
  constructor <;> decide +kernel

/-- Foundry and Hardhat look for their subdirectory in whatever directory they are given, so that `necessist test` fails in a project with
the directory `test`. -/
theorem subdirectory_given : Unreadable disk false .foundry rule (at_ ["p", "test"]) ∧ Unreadable disk false .hardhat rule (at_ ["p", "test"]) :=
  ⟨⟨_, rfl, ⟨_, _, Or.inl rfl⟩, Or.inl rfl⟩, ⟨_, rfl, ⟨_, _, Or.inl rfl⟩, Or.inl rfl⟩⟩

/-- A file that is given is looked at whatever its name, and even if it would be left out otherwise. -/
theorem given_file : LooksAt disk false .foundry rule (at_ ["p", "target", "b.rs"]) (at_ ["p", "target", "b.rs"]) :=
  Or.inl ⟨rfl, _, rfl, _, Or.inl rfl⟩

end Demo

end Necessist.Walk
