import Verif.Props.UnknownModules
import Verif.Props.AmbiguousMain
import Verif.Props.Sources
/-!
# C85, for the program: what is printed about tests whose module path is unknown
-/
namespace Necessist.Rs
open Std

/-- The map of the tests that need warnings. -/
theorem needingWarnings_spec (l : List (Text × Rust.Err)) :
    Parse.Asc compare (needingWarnings l) ∧ ∀ n es, (n, es) ∈ needingWarnings l ↔ n ∈ l.map (·.1) ∧ es = (l.filter (·.1 = n)).map (·.2) := by
  unfold needingWarnings
  suffices key : ∀ (l seen : List (Text × Rust.Err)) m, Parse.Asc compare m →
      (∀ n es, (n, es) ∈ m ↔ n ∈ seen.map (·.1) ∧ es = (seen.filter (·.1 = n)).map (·.2)) →
      Parse.Asc compare (l.foldl (fun m x => Parse.upsert compare [] x.1 (· ++ [x.2]) m) m) ∧
      ∀ n es, (n, es) ∈ l.foldl (fun m x => Parse.upsert compare [] x.1 (· ++ [x.2]) m) m ↔
        n ∈ (seen ++ l).map (·.1) ∧ es = ((seen ++ l).filter (·.1 = n)).map (·.2) from
    key l [] [] .nil (by simp)
  intro l
  induction l with
  | nil => intro seen m h1 h2; rw [List.append_nil]; exact ⟨h1, h2⟩
  | cons x l ih =>
    intro seen m h1 h2
    have := ih (seen ++ [x]) (Parse.upsert compare [] x.1 (· ++ [x.2]) m) (h1.upsert _) (by
      intro n es
      rw [Parse.mem_upsert h1]
      by_cases hn : n = x.1
      · subst hn
        have hf : ((seen ++ [x]).filter (·.1 = x.1)).map (·.2) = (seen.filter (·.1 = x.1)).map (·.2) ++ [x.2] := by simp
        rw [hf]
        constructor
        · rintro (⟨h, _⟩ | ⟨_, ⟨v, hv, he⟩ | ⟨hno, he⟩⟩)
          · exact absurd rfl h
          · exact ⟨by simp, (show es = v ++ [x.2] from he).trans (by rw [((h2 _ _).1 hv).2])⟩
          · refine ⟨by simp, ?_⟩
            have : seen.filter (·.1 = x.1) = [] := by
              rw [List.filter_eq_nil_iff]
              intro y hy e
              exact hno _ ((h2 x.1 _).2 ⟨List.mem_map.2 ⟨y, hy, by simpa using e⟩, rfl⟩)
            rw [this]; exact he
        · rintro ⟨_, rfl⟩
          refine .inr ⟨rfl, ?_⟩
          by_cases hs : x.1 ∈ seen.map (·.1)
          · exact .inl ⟨_, (h2 _ _).2 ⟨hs, rfl⟩, rfl⟩
          · refine .inr ⟨fun v hv => hs ((h2 _ _).1 hv).1, ?_⟩
            have : seen.filter (·.1 = x.1) = [] := by
              rw [List.filter_eq_nil_iff]
              intro y hy e
              exact hs (List.mem_map.2 ⟨y, hy, by simpa using e⟩)
            show _ = [] ++ [x.2]
            rw [this]; rfl
      · have hf : ((seen ++ [x]).filter (·.1 = n)).map (·.2) = (seen.filter (·.1 = n)).map (·.2) := by
          have : ¬ x.1 = n := fun e => hn e.symm
          simp [this]
        rw [hf]
        constructor
        · rintro (⟨_, h⟩ | ⟨h, _⟩)
          · obtain ⟨k1, k2⟩ := (h2 _ _).1 h
            exact ⟨by rw [List.map_append]; exact List.mem_append_left _ k1, k2⟩
          · exact absurd h hn
        · rintro ⟨h, rfl⟩
          refine .inl ⟨hn, (h2 _ _).2 ⟨?_, rfl⟩⟩
          rw [List.map_append] at h
          exact (List.mem_append.1 h).resolve_right fun h => hn (by simpa using h))
    rw [List.append_assoc] at this
    exact this

/-- If all errors are alike: the names, in order, with one error for each test. -/
theorem needingWarnings_same (ns : List Text) (e : Rust.Err) : ∃ names : List Text, names.Pairwise (fun a b => compare a b = .lt) ∧
    (∀ n, n ∈ names ↔ n ∈ ns) ∧ needingWarnings (ns.map (·, e)) = names.map fun n => (n, List.replicate (ns.count n) e) := by
  obtain ⟨h1, h2⟩ := needingWarnings_spec (ns.map (·, e))
  have hm : ∀ n, n ∈ (ns.map (·, e)).map (·.1) ↔ n ∈ ns := by intro n; simp
  have hc : ∀ n, ((ns.map (·, e)).filter (·.1 = n)).map (·.2) = List.replicate (ns.count n) e := by
    intro n
    rw [List.filter_map, List.map_map]
    induction ns with
    | nil => rfl
    | cons x ns ih =>
      have ih := ih (needingWarnings_spec _).1 (needingWarnings_spec _).2 (by simp)
      by_cases hx : x = n
      · subst hx; simp [List.filter_cons] at ih ⊢; rw [ih]; rfl
      · simp [List.filter_cons, hx] at ih ⊢
        exact ih
  refine ⟨(needingWarnings (ns.map (·, e))).map (·.1), List.pairwise_map.2 (by exact h1), fun n => ?_, ?_⟩
  · constructor
    · intro h
      obtain ⟨⟨n', es⟩, hx, rfl⟩ := List.mem_map.1 h
      exact (hm _).1 ((h2 _ _).1 hx).1
    · intro h
      exact List.mem_map.2 ⟨(n, _), (h2 _ _).2 ⟨(hm n).2 h, rfl⟩, rfl⟩
  · rw [List.map_map]
    conv => lhs; rw [← List.map_id (needingWarnings (ns.map (·, e)))]
    refine List.map_congr_left fun x hx => ?_
    obtain ⟨n, es⟩ := x
    have := ((h2 n es).1 hx).2
    rw [hc] at this
    simp [this]

end Necessist.Rs

namespace Necessist.Sources
open Parse Run Main Walk
open Rust (parent relativePath prefixes stripPath nearest)
open Framework (Identifier)

theorem nearest_parent {file : Path} : ∀ {ps : List Rust.Package} {near : Option Rust.Package} {p},
    nearest file ps near = .ok (some p) → (∀ q, near = some q → ∃ d, parent q.manifest = some d) → ∃ d, parent p.manifest = some d
  | [], near, p, h, hn => by rw [nearest] at h; cases h; exact hn _ rfl
  | q :: ps, near, p, h, hn => by
    rw [nearest.eq_def] at h
    dsimp only at h
    split at h
    · cases h
    · rename_i dir hd
      split at h
      · exact nearest_parent h hn
      · split at h
        · rename_i prev
          refine nearest_parent h fun r hr => ?_
          split at hr
          · cases hr; exact ⟨_, hd⟩
          · cases hr; exact hn _ rfl
        · refine nearest_parent h fun r hr => ?_
          cases hr; exact ⟨_, hd⟩

theorem stripPath_iff {file base suffix : Path} : stripPath file base = some suffix ↔ file = base ++ suffix := by
  unfold stripPath
  constructor
  · intro h
    split at h
    · rename_i hp
      cases h
      obtain ⟨t, rfl⟩ := List.isPrefixOf_iff_prefix.1 hp
      simp
    · cases h
  · rintro rfl
    rw [if_pos (List.isPrefixOf_iff_prefix.2 (List.prefix_append ..))]
    simp

theorem stripPath_none {file base : Path} (h : stripPath file base = none) (suffix : Path) : file ≠ base ++ suffix := by
  intro e
  rw [stripPath_iff.2 e] at h; cases h

theorem relativePath_none {dir file : Path} : relativePath dir file prefixes = none ↔ ¬ InModules dir file := by
  unfold prefixes
  unfold relativePath InModules
  cases h1 : stripPath file (dir ++ ["src".toList, "bin".toList]) with
  | some suffix =>
    have e := stripPath_iff.1 h1
    cases suffix with
    | nil =>
      simp only [if_true, true_iff]
      rintro (⟨rest, h, hb⟩ | ⟨c, rest, h⟩)
      · rw [e] at h
        have := List.append_cancel_left (h.symm.trans (by simp : _ = dir ++ ["src".toList, "bin".toList]))
        simp at this; exact hb (by simpa using this)
      · rw [e] at h
        have := List.append_cancel_left (h.symm.trans (by simp : _ = dir ++ ["src".toList, "bin".toList]))
        simp at this
    | cons c rest =>
      simp only [if_true, reduceCtorEq, false_iff, Classical.not_not]
      exact .inl ⟨"bin".toList :: c :: rest, by rw [e]; simp, by simp⟩
  | none =>
    have n1 := stripPath_none h1
    simp only []
    unfold relativePath
    cases h2 : stripPath file (dir ++ ["src".toList]) with
    | some suffix =>
      have e := stripPath_iff.1 h2
      simp only [Bool.false_eq_true, if_false, reduceCtorEq, false_iff, Classical.not_not]
      refine .inl ⟨suffix, by rw [e]; simp, fun hs => n1 [] ?_⟩
      rw [e, hs]; simp
    | none =>
      have n2 := stripPath_none h2
      simp only []
      unfold relativePath
      cases h3 : stripPath file (dir ++ ["tests".toList]) with
      | some suffix =>
        have e := stripPath_iff.1 h3
        cases suffix with
        | nil =>
          simp only [if_true, true_iff]
          rintro (⟨rest, h, hb⟩ | ⟨c, rest, h⟩)
          · exact n2 rest (by rw [h]; simp)
          · rw [e] at h
            have := List.append_cancel_left (h.symm.trans (by simp : _ = dir ++ ["tests".toList]))
            simp at this
        | cons c rest =>
          simp only [if_true, reduceCtorEq, false_iff, Classical.not_not]
          exact .inr ⟨c, rest, by rw [e]; simp⟩
      | none =>
        have n3 := stripPath_none h3
        simp only []
        unfold relativePath
        simp only [true_iff]
        rintro (⟨rest, h, hb⟩ | ⟨c, rest, h⟩)
        · exact n2 rest (by rw [h]; simp)
        · exact n3 (c :: rest) (by rw [h]; simp)

variable {P : Parsers}

/-- When modules are unknown although the package is known. -/
theorem unknown_iff {f : SourceFile} : UnknownModules P f ↔ ∃ fl e, P.cargo.flags (P.path f) = .ok fl ∧ P.cargo.fsModulePath (P.path f) = .error e := by
  unfold UnknownModules Rust.Answers.flags Rust.Answers.fsModulePath
  constructor
  · rintro ⟨p, dir, h1, h2, h3⟩
    rw [h1]
    simp only [h2, relativePath_none.2 h3]
    exact ⟨_, _, rfl, rfl⟩
  · rintro ⟨fl, e, h1, h2⟩
    cases hp : P.cargo.package (P.path f) with
    | error e => rw [hp] at h1; cases h1
    | ok p =>
      rw [hp] at h2
      have hpar : ∃ d, parent p.manifest = some d := by
        unfold Rust.Answers.package at hp
        split at hp
        · cases hp
        · split at hp
          · cases hp
          · split at hp
            · cases hp
            · cases hp
            · rename_i hn
              cases hp
              exact nearest_parent hn nofun
      obtain ⟨dir, hd⟩ := hpar
      refine ⟨p, dir, rfl, hd, fun hin => ?_⟩
      simp only [hd] at h2
      split at h2
      · rename_i hr; exact relativePath_none.1 hr hin
      · cases h2

/-- … the error is always the same. -/
theorem unknown_error {f : SourceFile} {fl e} (h1 : P.cargo.flags (P.path f) = .ok fl) (h2 : P.cargo.fsModulePath (P.path f) = .error e) :
    e = .relative := by
  obtain ⟨p, dir, k1, k2, k3⟩ := unknown_iff.2 ⟨fl, e, h1, h2⟩
  unfold Rust.Answers.fsModulePath at h2
  rw [k1] at h2
  simp only [k2, relativePath_none.2 k3] at h2
  cases h2; rfl

theorem msg_relative (path : Path) (n : Text) (k : Nat) : Rs.modulePathUnknownMsg path n (List.replicate k .relative) = unknownText path n k := by
  unfold Rs.modulePathUnknownMsg unknownText
  rw [List.map_replicate]
  have : "    ".toList ++ Rs.errText path .relative ++ ",\n".toList =
      "    failed to determine relative path of source file \"".toList ++ Rust.showPath path ++ "\",\n".toList := by
    unfold Rs.errText
    show _ = ("    ".toList ++ "failed to determine relative path of source file \"".toList) ++ _ ++ ("\"".toList ++ ",\n".toList)
    simp only [List.append_assoc]
  rw [this]
  unfold Rust.showPath
  rfl

/-- All warnings of the frameworks' own are about unknown modules. -/
theorem fileAst_kinds {i : Identifier} {f ast} (h : fileAst P i f = .ok ast) : ∀ c ∈ ast.warnings, c.warning = .modulePathUnknown ∧ c.once = false := by
  have em : ∀ {α} {e : Except Text α} {F : α → FileAst}, e.map F = .ok ast → ∃ a, e = .ok a ∧ F a = ast := by
    intro α e F he
    cases e with
    | error x => cases he
    | ok a => cases he; exact ⟨a, rfl, rfl⟩
  cases i <;> obtain ⟨a, _, rfl⟩ := em h <;> intro c hc
  case rust =>
    simp only [rsAst] at hc
    split at hc
    · obtain ⟨x, _, rfl⟩ := List.mem_map.1 hc; exact ⟨rfl, rfl⟩
    · cases hc
  all_goals cases hc

/-- What the framework's own warnings about a file say. -/
theorem rust_says {f ast} (h : fileAst P .rust f = .ok ast) : (∀ c ∈ ast.warnings, c.source = none) ∧ ∀ searched : Prop, searched →
    Says85 P searched f (ast.warnings.map (·.msg)) := by
  unfold fileAst at h
  cases hs : P.rs f with
  | error x => rw [hs] at h; cases h
  | ok file =>
    rw [hs] at h
    cases h
    refine ⟨fun c hc => ?_, fun searched hsd => ⟨fun _ hu file' ns hf hns => ?_, fun hn => ?_⟩⟩
    · simp only [rsAst] at hc
      split at hc
      · obtain ⟨x, _, rfl⟩ := List.mem_map.1 hc; rfl
      · cases hc
    · rw [hs] at hf; cases hf
      rw [hns.unique]
      obtain ⟨fl, e, k1, k2⟩ := unknown_iff.1 hu
      cases unknown_error k1 k2
      obtain ⟨names, l1, l2, l3⟩ := Rs.needingWarnings_same (Rs.testFns file) .relative
      refine ⟨names, l1, l2, ?_⟩
      simp only [rsAst, k1, k2, Rs.unknownCalls, l3, List.map_map]
      refine List.map_congr_left fun n _ => ?_
      exact msg_relative _ _ _
    · rcases hn with hn | hn | hn
      · exact absurd hsd hn
      · simp only [rsAst]
        split
        · rename_i e1 e2
          exact absurd (unknown_iff.2 ⟨_, _, e1, e2⟩) hn
        · rfl
      · exact absurd hs (hn file)

/-! ## The program -/

section
variable {b : Backend} {config : Compiled}

/-- What is due for a file. -/
theorem due_unknown (hb : b.parseFile = fileAst P .rust) {f : SourceFile} {cs : List WarnCall} (hd : Parse.Due b config f true cs) :
    Says85 P (∃ contents d, b.read f = .ok contents ∧ HasDirectives b f contents d ∧ d.skipFile = false) f
      ((cs.filter (·.warning = .modulePathUnknown)).map (·.msg)) ∧ ∀ c ∈ cs, c.warning = .modulePathUnknown → c.source = none := by
  have hdir : ∀ {contents cs}, DirectiveCalls b f contents cs → ∀ c ∈ cs, c.warning ≠ .modulePathUnknown := by
    rintro contents cs ⟨due, _, h1, rfl⟩ c hc
    obtain ⟨⟨n, c'⟩, hm, rfl⟩ := List.mem_map.1 hc
    obtain ⟨l, _, ⟨_, _, e⟩ | ⟨_, _, d, _, _, e⟩⟩ := (h1 n c').1 hm <;> simp only at e ⊢ <;> rw [e] <;> simp
  have hnil : ∀ {xs : List WarnCall}, (∀ c ∈ xs, c.warning ≠ .modulePathUnknown) → xs.filter (·.warning = .modulePathUnknown) = [] := by
    intro xs hx; rw [List.filter_eq_nil_iff]; simpa using hx
  generalize hx : true = x at hd
  cases hd with
  | directives _ dirs => cases hx
  | visited _ dirs _ _ parse _ _ => cases hx
  | skipped read dirs has skip =>
    refine ⟨⟨?_, fun _ => by rw [hnil (hdir dirs)]; rfl⟩, fun c hc e => absurd e (hdir dirs c hc)⟩
    rintro ⟨contents, d, s1, s2, s3⟩
    rw [read] at s1; cases s1
    rw [hasDirectives_unique has s2] at skip
    rw [skip] at s3; cases s3
  | @unparsable contents cs d e read dirs has skip parse =>
    have hno : ∀ c ∈ cs ++ [parsingFailedCall f e], c.warning ≠ .modulePathUnknown := by
      intro c hc
      rcases List.mem_append.1 hc with hc | hc
      · exact hdir dirs c hc
      · cases List.mem_singleton.1 hc; simp [parsingFailedCall]
    refine ⟨⟨fun _ _ file ns hf => ?_, fun _ => by rw [hnil hno]; rfl⟩, fun c hc e => absurd e (hno c hc)⟩
    rw [hb] at parse
    simp [fileAst, hf, Except.map] at parse
  | @done contents cs d ast fns vs walked as read dirs has skip parse locals visit error ambiguous =>
    have has' : ∀ c ∈ as, c.warning ≠ .modulePathUnknown := by
      rcases ambiguous with ⟨_, rfl⟩ | ⟨_, _, _, _, rfl⟩ <;> simp [ambiguousCall]
    rw [hb] at parse
    have hall : ast.warnings.filter (·.warning = .modulePathUnknown) = ast.warnings := by
      rw [List.filter_eq_self]; intro c hc; simpa using (fileAst_kinds parse c hc).1
    obtain ⟨k1, k2⟩ := rust_says parse
    refine ⟨?_, fun c hc e => ?_⟩
    · rw [List.filter_append, List.filter_append, hnil (hdir dirs), hnil has', hall, List.nil_append, List.append_nil]
      exact k2 _ ⟨_, _, read, has, skip⟩
    · rcases List.mem_append.1 hc with hc | hc
      · rcases List.mem_append.1 hc with hc | hc
        · exact absurd e (hdir dirs c hc)
        · exact k1 c hc
      · exact absurd e (has' c hc)

theorem dueAll_unknown (hb : b.parseFile = fileAst P .rust) {fs : List SourceFile} {cs : List WarnCall} (hd : DueAll b config fs cs) :
    ∃ found : List (SourceFile × List Text), found.map (·.1) = fs ∧ (∀ x ∈ found, Says85 P
        (∃ contents d, b.read x.1 = .ok contents ∧ HasDirectives b x.1 contents d ∧ d.skipFile = false) x.1 x.2) ∧
      (cs.filter (·.warning = .modulePathUnknown)).map (fun c => (c.source, c.msg)) = (found.flatMap (·.2)).map (none, ·) := by
  induction hd with
  | nil => exact ⟨[], rfl, nofun, rfl⟩
  | @cons f fs cs cs' first others ih =>
    obtain ⟨found, i0, i1, i2⟩ := ih
    obtain ⟨k1, k2⟩ := due_unknown hb first
    refine ⟨(f, _) :: found, by rw [List.map_cons, i0], fun x hx => (List.mem_cons.1 hx).elim (fun e => by rw [e]; exact k1) (i1 x), ?_⟩
    rw [List.filter_append, List.map_append, i2, List.flatMap_cons, List.map_append, List.map_map]
    congr 1
    refine List.map_congr_left fun c hc => ?_
    obtain ⟨h1, h2⟩ := List.mem_filter.1 hc
    rw [k2 c h1 (by simpa using h2)]
    rfl
end

section
variable {V σ : Type} {h : Host V σ} {o : Opts} {m : Machine σ} {disk : Walk.Entry} {v : Bool} {rule : Path → Bool → Walk.Verdict}
  {alnum : Char → Bool}

/-- **C85.** If the program looks for candidates in a Rust project and ends with exit code 0, then what it says about tests whose module path is
unknown is, file by file: nothing, unless the file is read, not skipped, parsed, and outside `src` and `tests` of its package; and then, for each
name of a test function in it, in order, one message, with one line for each test function of that name. -/
theorem C85_program (hi : Implements P h o m disk v rule alnum) (hs : Sound h o) (hw : m.warns = .init) (hl : LooksForCandidates o)
    (hc : (main h o m).1 = some 0) (hq : o.quiet = false) (ha : ¬ Allowed o.warn .modulePathUnknown) (hr : Chosen h o .rust) :
    ∃ config fw paths, ∃ found : List (SourceFile × List Text), Begins h o m P.root config fw paths ∧
      pathsOf (projectBackend h o P.root m fw) paths = found.map (fun x => P.root ++ x.1.path) ∧
      (∀ x ∈ found, Says85 P (h.unreadable x.1 = none ∧ ∃ d, Says alnum o.warn x.1 (m.fs x.1) d ∧ d.skipFile = false) x.1 x.2) ∧
      said .modulePathUnknown (newWarnings m (main h o m).2) = (found.flatMap (·.2)).map (none, ·) := by
  obtain ⟨root, config, fw, paths, compiled, fs, cs, hb, ⟨_, h2, h3⟩, _, h5⟩ :=
    C81_sources hs hw hl hc hq (w := .modulePathUnknown) (by simp) ha
  have hroot : root = P.root := by have := hb.rootIs; rw [hi.root] at this; exact (Option.some.inj this).symm
  subst hroot
  obtain ⟨i, hch, hfw⟩ := chosen_impl hb.frameworkIs
  cases chosen_unique hb.frameworkIs hch hr
  obtain ⟨_, e2, _, _, _, e6⟩ := hi.impl _ fw hfw
  obtain ⟨found, k0, k1, k2⟩ := dueAll_unknown (b := projectBackend h o P.root m fw) e2 h3
  refine ⟨config, fw, paths, found, hb, by rw [h2, ← k0, List.map_map]; rfl, ?_, ?_⟩
  · rintro ⟨f, ms⟩ hx
    have hsay := k1 _ hx
    dsimp only at hsay ⊢
    have he : (∃ contents d, (projectBackend h o P.root m fw).read f = .ok contents ∧ HasDirectives (projectBackend h o P.root m fw) f contents d ∧
        d.skipFile = false) ↔ (h.unreadable f = none ∧ ∃ d, Says alnum o.warn f (m.fs f) d ∧ d.skipFile = false) := by
      have hal : (projectBackend h o P.root m fw).alnum = alnum := e6
      have hrd : ∀ contents, (projectBackend h o P.root m fw).read f = .ok contents ↔ h.unreadable f = none ∧ contents = m.fs f := by
        intro contents
        show readFile h m f = .ok contents ↔ _
        unfold readFile
        cases h.unreadable f with
        | some e => simp
        | none => simp [eq_comm]
      constructor
      · rintro ⟨contents, d, s1, s2, s3⟩
        obtain ⟨r1, rfl⟩ := (hrd _).1 s1
        obtain ⟨st, st', ms, hd⟩ := s2
        rw [hal] at hd
        exact ⟨r1, d, ⟨st, st', ms, hd⟩, s3⟩
      · rintro ⟨r1, d, ⟨st, st', ms, hd⟩, s3⟩
        rw [← hal] at hd
        exact ⟨_, d, (hrd _).2 ⟨r1, rfl⟩, ⟨st, st', ms, hd⟩, s3⟩
    rw [he] at hsay
    exact hsay
  · rw [h5]
    unfold asked
    exact k2

/-- The framework's own warnings are about a file of those given that is read, not skipped and parsed. -/
theorem gives_own {b : Backend} (hb : ∀ f ast, b.parseFile f = .ok ast → ∀ c ∈ ast.warnings, c.warning = .modulePathUnknown ∧ c.once = false)
    {user paths ws r cs} (hg : Gives b user paths ws r cs) {c : WarnCall} (hc : c ∈ cs) (hw : c.warning = .modulePathUnknown) :
    ∃ f contents d ast, b.root ++ f.path ∈ pathsOf b paths ∧ b.read f = .ok contents ∧ HasDirectives b f contents d ∧ d.skipFile = false ∧
      b.parseFile f = .ok ast ∧ c ∈ ast.warnings := by
  have hno : ∀ c ∈ configCalls b user, c.warning ≠ .modulePathUnknown := by
    intro c hc
    unfold configCalls at hc
    rcases List.mem_append.1 hc with hc | hc
    · rcases List.mem_append.1 hc with hc | hc <;> split at hc <;> first | (cases List.mem_singleton.1 hc; simp [unsupportedCall]) | cases hc
    · split at hc
      · cases List.mem_singleton.1 hc; simp [unsupportedCall]
      · cases hc
  have hone : ∀ {config f x cs}, Parse.Due b config f x cs → c ∈ cs → ∃ contents d ast, b.read f = .ok contents ∧ HasDirectives b f contents d ∧
      d.skipFile = false ∧ b.parseFile f = .ok ast ∧ c ∈ ast.warnings := by
    intro config f x cs hd hc
    have hdir : ∀ {contents cs}, DirectiveCalls b f contents cs → c ∉ cs := by
      rintro contents cs ⟨due, _, h1, rfl⟩ hc
      obtain ⟨⟨n, c'⟩, hm, rfl⟩ := List.mem_map.1 hc
      obtain ⟨l, _, ⟨_, _, e⟩ | ⟨_, _, d, _, _, e⟩⟩ := (h1 n c').1 hm <;> simp only at e hw <;> rw [e] at hw <;> cases hw
    cases hd with
    | directives _ dirs => exact absurd hc (hdir dirs)
    | skipped _ dirs => exact absurd hc (hdir dirs)
    | unparsable _ dirs _ _ _ =>
      rcases List.mem_append.1 hc with hc | hc
      · exact absurd hc (hdir dirs)
      · cases List.mem_singleton.1 hc; cases hw
    | visited read dirs has skip parse _ _ =>
      rcases List.mem_append.1 hc with hc | hc
      · exact absurd hc (hdir dirs)
      · exact ⟨_, _, _, read, has, skip, parse, hc⟩
    | done read dirs has skip parse _ _ _ ambiguous =>
      rcases List.mem_append.1 hc with hc | hc
      · rcases List.mem_append.1 hc with hc | hc
        · exact absurd hc (hdir dirs)
        · exact ⟨_, _, _, read, has, skip, parse, hc⟩
      · rcases ambiguous with ⟨_, rfl⟩ | ⟨_, _, _, _, rfl⟩
        · cases hc
        · cases List.mem_singleton.1 hc; cases hw
  have hall : ∀ {config fs cs}, DueAll b config fs cs → c ∈ cs → ∃ f ∈ fs, ∃ contents d ast, b.read f = .ok contents ∧
      HasDirectives b f contents d ∧ d.skipFile = false ∧ b.parseFile f = .ok ast ∧ c ∈ ast.warnings := by
    intro config fs cs hd
    induction hd with
    | nil => intro hc; cases hc
    | cons first _ ih =>
      intro hc
      rcases List.mem_append.1 hc with hc | hc
      · exact ⟨_, List.mem_cons_self, hone first hc⟩
      · obtain ⟨f, hf, k⟩ := ih hc
        exact ⟨f, List.mem_cons_of_mem _ hf, k⟩
  cases hg with
  | config calls _ => exact absurd hw (hno c (by rw [calls]; exact List.mem_append_left _ hc))
  | refused _ _ _ => exact absurd hw (hno c hc)
  | ok _ files due _ =>
    rcases List.mem_append.1 hc with hc | hc
    · exact absurd hw (hno c hc)
    · obtain ⟨f, hf, contents, d, ast, k⟩ := hall due hc
      exact ⟨f, contents, d, ast, by rw [files]; exact List.mem_map.2 ⟨f, hf, rfl⟩, k⟩
  | between _ _ files due _ =>
    rcases List.mem_append.1 hc with hc | hc
    · exact absurd hw (hno c hc)
    · obtain ⟨f, hf, contents, d, ast, k⟩ := hall due hc
      exact ⟨f, contents, d, ast, by rw [files]; exact List.mem_append_left _ (List.mem_map.2 ⟨f, hf, rfl⟩), k⟩
  | @within config fs g rest cs0 part _ _ _ files due last _ =>
    rcases List.mem_append.1 hc with hc | hc
    · rcases List.mem_append.1 hc with hc | hc
      · exact absurd hw (hno c hc)
      · obtain ⟨f, hf, contents, d, ast, k⟩ := hall due hc
        exact ⟨f, contents, d, ast, by rw [files]; exact List.mem_append_left _ (List.mem_map.2 ⟨f, hf, rfl⟩), k⟩
    · obtain ⟨contents, d, ast, k⟩ := hone last hc
      exact ⟨g, contents, d, ast, by rw [files]; exact List.mem_append_right _ List.mem_cons_self, k⟩
  | @denied config fs g rest cs0 part es x _ files due last _ =>
    rcases List.mem_append.1 hc with hc | hc
    · rcases List.mem_append.1 hc with hc | hc
      · exact absurd hw (hno c hc)
      · obtain ⟨f, hf, contents, d, ast, k⟩ := hall due hc
        exact ⟨f, contents, d, ast, by rw [files]; exact List.mem_append_left _ (List.mem_map.2 ⟨f, hf, rfl⟩), k⟩
    · obtain ⟨contents, d, ast, k⟩ := hone last (List.mem_append_left _ hc)
      exact ⟨g, contents, d, ast, by rw [files]; exact List.mem_append_right _ List.mem_cons_self, k⟩

theorem makes_own {code events is} (hs : Sound h o) (hm : Makes h o m code events is) {c : WarnCall} (hc : c ∈ ownCalls is)
    (hw : c.warning = .modulePathUnknown) :
    ∃ root config fw paths f contents d ast, Begins h o m root config fw paths ∧
      (let b := projectBackend h o root m fw
       root ++ f.path ∈ pathsOf b paths ∧ b.read f = .ok contents ∧ HasDirectives b f contents d ∧ d.skipFile = false ∧
       b.parseFile f = .ok ast ∧ c ∈ ast.warnings) := by
  have hdep : c ∉ deprecatedCalls o := by
    unfold deprecatedCalls
    intro hc
    split at hc
    · cases List.mem_singleton.1 hc; cases hw
    · cases hc
  have hdb : c ∉ databaseCalls h o m := by
    unfold databaseCalls
    intro hc
    split at hc
    · split at hc
      · cases List.mem_singleton.1 hc; cases hw
      · split at hc
        · cases List.mem_singleton.1 hc; cases hw
        · cases hc
    · cases hc
  have key : ∀ {root config fw paths ws r cs}, Begins h o m root config fw paths → Gives (projectBackend h o root m fw) config paths ws r cs → c ∈ cs →
      ∃ root config fw paths f contents d ast, Begins h o m root config fw paths ∧
      (let b := projectBackend h o root m fw
       root ++ f.path ∈ pathsOf b paths ∧ b.read f = .ok contents ∧ HasDirectives b f contents d ∧ d.skipFile = false ∧
       b.parseFile f = .ok ast ∧ c ∈ ast.warnings) := by
    intro root config fw paths ws r cs hb hg hc
    obtain ⟨t, ht⟩ := impl_of hb.frameworkIs
    obtain ⟨f, contents, d, ast, k⟩ := gives_own (b := projectBackend h o root m fw) (hs _ _ _ ht).2 hg hc hw
    exact ⟨root, config, fw, paths, f, contents, d, ast, hb, k⟩
  cases hm with
  | none _ => cases hc
  | deprecated _ => rw [ownCalls_own] at hc; exact absurd hc hdep
  | fails hb hg _ _ =>
    rw [ownCalls_own] at hc
    exact (List.mem_append.1 hc).elim (fun h => absurd h hdep) (key hb hg)
  | found hb hg _ =>
    rw [ownCalls_own] at hc
    exact (List.mem_append.1 hc).elim (fun h => absurd h hdep) (key hb hg)
  | database hb hg _ _ =>
    rw [ownCalls_own] at hc
    rcases List.mem_append.1 hc with hc | hc
    · exact (List.mem_append.1 hc).elim (fun h => absurd h hdep) (key hb hg)
    · exact absurd hc hdb
  | @run root config fw paths cs past _ is _ _ _ _ hb hg _ _ _ calls =>
    have e : ownCalls (own (deprecatedCalls o ++ cs ++ databaseCalls h o m) ++ is) = (deprecatedCalls o ++ cs ++ databaseCalls h o m) ++ ownCalls is := by
      conv => rhs; rw [← ownCalls_own (deprecatedCalls o ++ cs ++ databaseCalls h o m)]
      simp [ownCalls]
    rw [e] at hc
    rcases List.mem_append.1 hc with hc | hc
    · rcases List.mem_append.1 hc with hc | hc
      · exact (List.mem_append.1 hc).elim (fun h => absurd h hdep) (key hb hg)
      · exact absurd hc hdb
    · exfalso
      have : c ∈ eventCalls events := by rw [← calls.others]; exact List.mem_filter.2 ⟨hc, by simp [hw]⟩
      obtain ⟨s, _, hs⟩ := List.mem_filterMap.1 this
      unfold eventCall at hs
      split at hs <;> cases hs <;> cases hw

/-- **C85.** However the program ends: if it says that a test's module path is unknown, then the project is a Rust project, and there is a file,
among those given, read and not skipped, with unknown modules, that has such a test. -/
theorem C85_program_sound (hi : Implements P h o m disk v rule alnum) (hs : Sound h o) (hw : m.warns = .init) {x : WarnMsg}
    (hx : x ∈ newWarnings m (main h o m).2) (hk : x.warning = .modulePathUnknown) :
    Chosen h o .rust ∧ ∃ config fw paths f d file ns n, Begins h o m P.root config fw paths ∧
      P.root ++ f.path ∈ pathsOf (projectBackend h o P.root m fw) paths ∧ h.unreadable f = none ∧
      Says alnum o.warn f (m.fs f) d ∧ d.skipFile = false ∧ P.rs f = .ok file ∧ UnknownModules P f ∧ Rs.HasTests file ns ∧ n ∈ ns ∧
      x.source = none ∧ x.msg = unknownText (P.path f) n (ns.count n) := by
  obtain ⟨events, is, rs, h1, h2, h3, h4, h5⟩ := C81_warnings (m := m) hs hw
  unfold newWarnings at hx
  rw [h5, List.drop_left] at hx
  obtain ⟨i, hii, ho, e1, e2, e3⟩ := messages_own h4 (makes_foreign h2) hx (by rw [hk]; simp [FrameworkKind])
  obtain ⟨root, config, fw, paths, f, contents, d, ast, hb, k1, k2, k3, k4, k5, k6⟩ := makes_own hs h2 (c := i.call)
    (List.mem_map.2 ⟨i, List.mem_filter.2 ⟨hii, ho⟩, rfl⟩) (by rw [← e1, hk])
  have hroot : root = P.root := by have := hb.rootIs; rw [hi.root] at this; exact (Option.some.inj this).symm
  subst hroot
  obtain ⟨j, hch, hfw⟩ := chosen_impl hb.frameworkIs
  obtain ⟨_, e4, _, _, _, e6⟩ := hi.impl _ fw hfw
  have k5 : fw.backend.parseFile f = .ok ast := k5
  rw [e4] at k5
  have hread : h.unreadable f = none ∧ contents = m.fs f := by
    have r1 : readFile h m f = .ok contents := k2
    unfold readFile at r1
    split at r1
    · cases r1
    · rename_i hn; cases r1; exact ⟨hn, rfl⟩
  obtain ⟨hn, rfl⟩ := hread
  have hal : (projectBackend h o P.root m fw).alnum = alnum := e6
  obtain ⟨st, st', ms, hd⟩ := k3
  rw [hal] at hd
  have hem : ∀ {α} {e : Except Text α} {F : α → FileAst}, e.map F = .ok ast → ∃ a, e = .ok a ∧ F a = ast := by
    intro α e F he
    cases e with
    | error x => cases he
    | ok a => cases he; exact ⟨a, rfl, rfl⟩
  have hj : j = .rust := by
    cases j <;> first | rfl | (obtain ⟨a, _, rfl⟩ := hem k5; cases k6)
  subst hj
  obtain ⟨file, hf, rfl⟩ := hem k5
  obtain ⟨l1, l2⟩ := rust_says k5
  obtain ⟨l3, l4⟩ := l2 True trivial
  have hu : UnknownModules P f := Classical.byContradiction fun hu => by
    have := l4 (.inr (.inl hu))
    rw [List.map_eq_nil_iff] at this
    rw [this] at k6; cases k6
  obtain ⟨names, n1, n2, n3⟩ := l3 trivial hu file _ hf (Rs.hasTests file)
  have hmem : i.call.msg ∈ (rsAst P f file).warnings.map (·.msg) := List.mem_map.2 ⟨_, k6, rfl⟩
  rw [n3] at hmem
  obtain ⟨n, hn', hmsg⟩ := List.mem_map.1 hmem
  exact ⟨hch, config, fw, paths, f, d, file, _, n, hb, k1, hn, ⟨st, st', ms, hd⟩, k4, hf, hu, Rs.hasTests file, (n2 n).1 hn',
    by rw [e2, l1 _ k6], by rw [e3, ← hmsg]⟩
end
end Necessist.Sources
