import Verif.Spec.Skill
import Verif.Lemmas.Directives
/-!
# C49, C50, C51: the skill options
-/
namespace Necessist.Skill
open Std
variable {V : Type}

theorem untilDashes_iff (ls hs : List Text) : untilDashes ls = some hs ↔
    (∃ rest, ls = hs ++ "---".toList :: rest) ∧ ∀ l ∈ hs, l ≠ "---".toList := by
  induction ls generalizing hs with
  | nil => simp [untilDashes]
  | cons l ls ih =>
    rw [untilDashes]
    split
    · rename_i h
      subst h
      cases hs with
      | nil => simp
      | cons x xs => simp; rintro rfl _ _ h; exact absurd rfl h
    · rename_i h
      cases hs with
      | nil => simpa using fun h' => absurd h' h
      | cons x xs =>
        simp only [Option.map_eq_some_iff, List.cons.injEq, ih]
        constructor
        · rintro ⟨a, ⟨⟨rest, hr⟩, h2⟩, rfl, rfl⟩
          exact ⟨⟨rest, by simp [hr]⟩, fun y hy => by rcases List.mem_cons.1 hy with rfl | hy; exact h; exact h2 y hy⟩
        · rintro ⟨⟨rest, hr⟩, h2⟩
          simp only [List.cons_append, List.cons.injEq] at hr
          exact ⟨xs, ⟨⟨rest, hr.2⟩, fun y hy => h2 y (List.mem_cons_of_mem _ hy)⟩, hr.1, rfl⟩

/-- **C51.** The header that is parsed is exactly the front matter; a file without front matter has no header. -/
theorem C51_header (contents body : Text) : headerText contents = some body ↔ FrontMatter contents body := by
  unfold headerText FrontMatter
  simp only [← List.flatMap_def]
  cases hl : lines contents with
  | nil =>
    simp only [reduceCtorEq, false_iff]
    rintro ⟨h, _⟩
    rw [← lines_spec contents 0, hl] at h
    cases h
  | cons l ls =>
    have h0 : ∀ x, LineAt contents 1 x ↔ x = l := by
      intro x; rw [← lines_spec contents 0, hl]; simp [eq_comm]
    have hn : ∀ i x, LineAt contents (i + 2) x ↔ ls[i]? = some x := by
      intro i x; rw [show i + 2 = (i + 1) + 1 from rfl, ← lines_spec contents (i + 1), hl]; simp
    simp only [h0, hn]
    split
    · rename_i h
      simp only [h, true_and, Option.map_eq_some_iff, untilDashes_iff]
      constructor
      · rintro ⟨hs, ⟨⟨rest, rfl⟩, h2⟩, rfl⟩
        refine ⟨hs, by simp, fun i x hx => ⟨?_, h2 x (List.mem_of_getElem? hx)⟩, rfl⟩
        have := (List.getElem?_eq_some_iff.1 hx).1
        rw [List.getElem?_append_left this, hx]
      · rintro ⟨hs, h1, h2, rfl⟩
        refine ⟨hs, ⟨⟨ls.drop (hs.length + 1), ?_⟩, fun x hx => ?_⟩, rfl⟩
        · have hlen := (List.getElem?_eq_some_iff.1 h1).1
          have htake : ls.take hs.length = hs := by
            apply List.ext_getElem?
            intro i
            by_cases hi : i < hs.length
            · rw [List.getElem?_take_of_lt hi, (h2 i hs[i] (List.getElem?_eq_getElem hi)).1, List.getElem?_eq_getElem hi]
            · rw [List.getElem?_eq_none (by simp; omega), List.getElem?_eq_none (by omega)]
          rw [show hs ++ "---".toList :: ls.drop (hs.length + 1) = ls.take hs.length ++ ls.drop hs.length by
            rw [htake, List.drop_eq_getElem_cons hlen]
            obtain ⟨_, h⟩ := List.getElem?_eq_some_iff.1 h1
            rw [h]]
          exact (List.take_append_drop _ _).symm
        · obtain ⟨i, hi⟩ := List.getElem?_of_mem hx
          exact (h2 i x hi).2
    · rename_i h
      simp only [reduceCtorEq, false_iff, not_and]
      intro h'; exact absurd h'.symm h

/-- **C51.** There is at most one header. -/
theorem C51_unique (contents b b' : Text) (h : FrontMatter contents b) (h' : FrontMatter contents b') : b = b' := by
  rw [← C51_header] at h h'
  rw [h] at h'; exact Option.some.inj h'

variable {w : World V}

/-- What the program computes of the contents is what the specification says of them. -/
theorem isSkill_iff (c : Text) (v : V) : IsSkill w c v ↔
    ∃ h, skillHeader w c = some h ∧ h.name = some "necessist-audit".toList ∧ skillVersion? w h = some v := by
  unfold IsSkill skillHeader skillVersion?
  constructor
  · rintro ⟨body, ver, h1, h2, h3⟩
    rw [← C51_header] at h1
    exact ⟨⟨some "necessist-audit".toList, some ver⟩, (by rw [h1]; exact h2), rfl, h3⟩
  · rintro ⟨⟨name, version⟩, h1, h2, h3⟩
    simp only [Option.bind_eq_some_iff] at h1 h3
    obtain ⟨body, hb, hy⟩ := h1
    obtain ⟨ver, rfl, hv⟩ := h3
    simp only at h2
    subst h2
    exact ⟨body, ver, (C51_header _ _).1 hb, hy, hv⟩

theorem isSkill_unique {c : Text} {v v' : V} (h : IsSkill w c v) (h' : IsSkill w c v') : v = v' := by
  rw [isSkill_iff] at h h'
  obtain ⟨a, h1, _, h3⟩ := h
  obtain ⟨b, g1, _, g3⟩ := h'
  rw [h1] at g1; cases g1
  rw [h3] at g3; exact Option.some.inj g3

/-- **C51.** A file without front matter is refused and left alone. -/
theorem C51_refused (mode : Mode) (p : Path) (write : Bool) (fs : FS) (c : Text) (hc : fs p = .file c)
    (h : ∀ body, ¬ FrontMatter c body) : checkImpl w mode p write fs = ⟨none, fs, []⟩ := by
  have : headerText c = none := by
    cases hh : headerText c with
    | none => rfl
    | some b => exact absurd ((C51_header _ _).1 hh) (h b)
  unfold checkImpl skillHeader
  simp [hc, this]

/-! ### One check -/

/-- What writing the skill does. -/
theorem writeSkill_eq (p : Path) (fs : FS) :
    (w.writeFails p = none ∧ writeSkill w p fs = (true, fs.set p (.file w.skill))) ∨
    (∃ n, w.writeFails p = some n ∧ writeSkill w p fs = (false, fs.set p n)) := by
  unfold writeSkill
  cases h : w.writeFails p with
  | none => left; simp
  | some n => right; simp

/-- Directories missing above `p` may have been created, and nothing else has happened. -/
def OnlyDirs (p : Path) (fs fs' : FS) : Prop := ∀ q, fs' q = fs q ∨ (q ≠ p ∧ q <+: p ∧ fs q = .absent ∧ fs' q = .dir)

theorem mkdirs_eq (p : Path) (fs : FS) : ∃ b fs', mkdirs w p fs = (b, fs') ∧ OnlyDirs p fs fs' ∧ (b = true ↔ w.mkdirFails p = none) := by
  unfold mkdirs
  cases h : w.mkdirFails p with
  | none =>
    refine ⟨_, _, rfl, fun q => ?_, by simp⟩
    simp only
    split
    · rename_i hq; exact Or.inr ⟨hq.1, hq.2.1, hq.2.2, rfl⟩
    · exact Or.inl rfl
  | some made =>
    refine ⟨_, _, rfl, fun q => ?_, by simp⟩
    simp only
    split
    · rename_i hq; exact Or.inr ⟨hq.1, hq.2.1, hq.2.2.1, rfl⟩
    · exact Or.inl rfl

/-- What a check of a path at which there is nothing does. -/
theorem check_absent (mode : Mode) (p : Path) (write : Bool) (fs : FS) (hp : fs p = .absent) :
    (∃ msg, checkImpl w mode p write fs = ⟨some .nonexistent, fs, [skillAt p ++ msg]⟩ ∧ (mode = .find ∨ write = false) ∧
      msg = if mode = .find then "does not exist".toList else "does not exist; pass `--write` to write the current version".toList) ∨
    (mode = .check ∧ write = true ∧ ∃ fs', OnlyDirs p fs fs' ∧
      ((checkImpl w mode p write fs = ⟨none, fs', []⟩ ∧ (p = [] ∨ w.mkdirFails p ≠ none)) ∨
       (∃ n, checkImpl w mode p write fs = ⟨none, fs'.set p n, []⟩ ∧ w.writeFails p = some n) ∨
       (checkImpl w mode p write fs = ⟨some .current, fs'.set p (.file w.skill), [skillAt p ++ "did not exist; written".toList]⟩ ∧
        p ≠ []))) := by
  cases mode with
  | find => left; exact ⟨_, by unfold checkImpl; rw [hp]; rfl, Or.inl rfl, rfl⟩
  | check =>
    cases write with
    | false => left; exact ⟨_, by unfold checkImpl; rw [hp]; rfl, Or.inr rfl, rfl⟩
    | true =>
      right
      refine ⟨rfl, rfl, ?_⟩
      by_cases h : p = []
      · exact ⟨fs, fun q => Or.inl rfl, Or.inl ⟨by unfold checkImpl maybeWrite; rw [hp]; simp only [h, if_true], Or.inl h⟩⟩
      · obtain ⟨b, fs', e, ho, hb⟩ := mkdirs_eq (w := w) p fs
        refine ⟨fs', ho, ?_⟩
        unfold checkImpl maybeWrite
        rw [hp]
        simp only [if_true, if_neg h, e]
        cases b with
        | false => left; exact ⟨rfl, Or.inr (by simpa using hb)⟩
        | true =>
          right
          rcases writeSkill_eq (w := w) p fs' with ⟨_, e⟩ | ⟨n, hn, e⟩
          · right; dsimp only; rw [e]; exact ⟨rfl, h⟩
          · left; dsimp only; rw [e]; exact ⟨n, rfl, hn⟩

/-- What a check of a skill does. -/
theorem check_skill (mode : Mode) (p : Path) (write : Bool) (fs : FS) {c v} (hp : fs p = .file c) (hs : IsSkill w c v) :
    checkImpl w mode p write fs = checkVersion w p write v fs := by
  obtain ⟨h, h1, h2, h3⟩ := isSkill_iff c v |>.1 hs
  unfold checkImpl
  rw [hp]
  simp only [h1, h2, h3, if_true]

/-- What a check of anything else does. -/
theorem check_other (mode : Mode) (p : Path) (write : Bool) (fs : FS) (h1 : fs p ≠ .absent)
    (h2 : ∀ c v, fs p = .file c → ¬ IsSkill w c v) : checkImpl w mode p write fs = ⟨none, fs, []⟩ := by
  unfold checkImpl
  cases hp : fs p with
  | absent => exact absurd hp h1
  | unknown => rfl
  | dir => rfl
  | unreadable => rfl
  | file c =>
    simp only
    cases hh : skillHeader w c with
    | none => rfl
    | some h =>
      simp only
      split
      · rename_i hn
        cases hv : skillVersion? w h with
        | none => rfl
        | some v => exact absurd ((isSkill_iff c v).2 ⟨h, hh, hn, hv⟩) (h2 c v hp)
      · rfl

/-- All cases. -/
theorem node_cases (fs : FS) (p : Path) : fs p = .absent ∨ (∃ c v, fs p = .file c ∧ IsSkill w c v) ∨
    (fs p ≠ .absent ∧ ∀ c v, fs p = .file c → ¬ IsSkill w c v) := by
  by_cases h : fs p = .absent
  · exact Or.inl h
  · by_cases h2 : ∃ c v, fs p = .file c ∧ IsSkill w c v
    · exact Or.inr (Or.inl h2)
    · exact Or.inr (Or.inr ⟨h, fun c v hc hs => h2 ⟨c, v, hc, hs⟩⟩)

theorem version_cases (p : Path) (write : Bool) (v : V) (fs : FS) :
    (w.cmp w.skillVersion v = .lt ∧ checkVersion w p write v fs = ⟨some .newer, fs, [skillAt p ++ ("is a newer version (".toList ++
      w.showVersion v ++ "); consider updating the `necessist` binary".toList)]⟩) ∨
    (w.cmp w.skillVersion v = .eq ∧ checkVersion w p write v fs = ⟨some .current, fs, [skillAt p ++ "is the current version".toList]⟩) ∨
    (w.cmp w.skillVersion v = .gt ∧ write = false ∧ checkVersion w p write v fs = ⟨some .old, fs, [skillAt p ++
      ("is an old version (".toList ++ w.showVersion v ++ "); pass `--write` to update to the current version".toList)]⟩) ∨
    (w.cmp w.skillVersion v = .gt ∧ write = true ∧ ((w.writeFails p = none ∧
      checkVersion w p write v fs = ⟨some .current, fs.set p (.file w.skill), [skillAt p ++ ("was an old version (".toList ++
        w.showVersion v ++ "); updated".toList)]⟩) ∨
      ∃ n, w.writeFails p = some n ∧ checkVersion w p write v fs = ⟨none, fs.set p n, []⟩)) := by
  unfold checkVersion
  cases h : w.cmp w.skillVersion v with
  | lt => left; exact ⟨rfl, rfl⟩
  | eq => right; left; exact ⟨rfl, rfl⟩
  | gt =>
    right; right
    cases write with
    | false => left; exact ⟨rfl, rfl, rfl⟩
    | true =>
      right
      refine ⟨rfl, rfl, ?_⟩
      simp only [maybeUpdate, if_true]
      rcases writeSkill_eq (w := w) p fs with ⟨hn, e⟩ | ⟨n, hn, e⟩
      · left; rw [e]; exact ⟨hn, rfl⟩
      · right; rw [e]; exact ⟨n, hn, rfl⟩

theorem FS.set_self (fs : FS) (p : Path) (n : Node) : fs.set p n p = n := by simp [FS.set]
theorem FS.set_other (fs : FS) {p q : Path} (n : Node) (h : q ≠ p) : fs.set p n q = fs q := by simp [FS.set, h]

section
variable [OrientedCmp w.cmp]

theorem cmp_self (v : V) : w.cmp v v = .eq := ReflCmp.compare_self

theorem current_of_skill (he : Embedded w) {fs : FS} {p : Path} (h : fs p = .file w.skill) : Describes w fs p .current :=
  ⟨_, _, h, he, cmp_self _⟩

/-- **C49.** The status that is reported describes the file as it is afterwards, and the exit code is a failure iff the file is
then nonexistent or old. -/
theorem C49_check (he : Embedded w) {mode p write fs s fs' out} (h : checkImpl w mode p write fs = ⟨some s, fs', out⟩) :
    Describes w fs' p s ∧ (s.exitCode ≠ 0 ↔ Describes w fs' p .nonexistent ∨ Describes w fs' p .old) := by
  have hd : Describes w fs' p s := by
    rcases node_cases (w := w) fs p with hp | ⟨c, v, hp, hs⟩ | ⟨h1, h2⟩
    · rcases check_absent (w := w) mode p write fs hp with ⟨msg, e, _⟩ | ⟨_, _, fs1, _, ⟨e, _⟩ | ⟨n, e, _⟩ | ⟨e, _⟩⟩
      · rw [e] at h; cases h; exact hp
      · rw [e] at h; cases h
      · rw [e] at h; cases h
      · rw [e] at h; cases h; exact current_of_skill he (FS.set_self _ _ _)
    · rw [check_skill mode p write fs hp hs] at h
      rcases version_cases (w := w) p write v fs with ⟨hv, e⟩ | ⟨hv, e⟩ | ⟨hv, _, e⟩ | ⟨hv, _, ⟨_, e⟩ | ⟨n, _, e⟩⟩
      · rw [e] at h; cases h; exact ⟨c, v, hp, hs, by rw [OrientedCmp.eq_swap (cmp := w.cmp), hv]; rfl⟩
      · rw [e] at h; cases h; exact ⟨c, v, hp, hs, by rw [OrientedCmp.eq_swap (cmp := w.cmp), hv]; rfl⟩
      · rw [e] at h; cases h; exact ⟨c, v, hp, hs, by rw [OrientedCmp.eq_swap (cmp := w.cmp), hv]; rfl⟩
      · rw [e] at h; cases h; exact current_of_skill he (FS.set_self _ _ _)
      · rw [e] at h; cases h
    · rw [check_other mode p write fs h1 h2] at h; cases h
  refine ⟨hd, ?_⟩
  cases s with
  | nonexistent => simp [Status.exitCode, hd]
  | old => simp [Status.exitCode, hd]
  | current =>
    obtain ⟨c, v, h1, h2, h3⟩ := hd
    simp only [Status.exitCode, ne_eq, not_true_eq_false, false_iff]
    rintro (h | ⟨c', v', g1, g2, g3⟩)
    · simp only [Describes] at h; rw [h1] at h; cases h
    · rw [h1] at g1; cases g1
      rw [isSkill_unique h2 g2, g3] at h3; cases h3
  | newer =>
    obtain ⟨c, v, h1, h2, h3⟩ := hd
    simp only [Status.exitCode, ne_eq, not_true_eq_false, false_iff]
    rintro (h | ⟨c', v', g1, g2, g3⟩)
    · simp only [Describes] at h; rw [h1] at h; cases h
    · rw [h1] at g1; cases g1
      rw [isSkill_unique h2 g2, g3] at h3; cases h3

omit [OrientedCmp w.cmp] in
/-- **C49.** When a status is reported: if nothing fails in the file system, exactly if there is nothing at the path or a skill
named `necessist-audit` with a version. -/
theorem C49_reported_iff {mode p write fs} (hw : w.writeFails p = none) (hm : w.mkdirFails p = none) (hp : p ≠ []) :
    (∃ s, (checkImpl w mode p write fs).result = some s) ↔ fs p = .absent ∨ ∃ c v, fs p = .file c ∧ IsSkill w c v := by
  rcases node_cases (w := w) fs p with h | ⟨c, v, h, hs⟩ | ⟨h1, h2⟩
  · simp only [h, true_or, iff_true]
    rcases check_absent (w := w) mode p write fs h with ⟨msg, e, _⟩ | ⟨_, _, fs1, _, ⟨e, h'⟩ | ⟨n, e, h'⟩ | ⟨e, _⟩⟩
    · rw [e]; exact ⟨_, rfl⟩
    · rcases h' with h' | h'
      · exact absurd h' hp
      · exact absurd hm h'
    · rw [hw] at h'; cases h'
    · rw [e]; exact ⟨_, rfl⟩
  · refine ⟨fun _ => Or.inr ⟨c, v, h, hs⟩, fun _ => ?_⟩
    rw [check_skill mode p write fs h hs]
    rcases version_cases (w := w) p write v fs with ⟨hv, e⟩ | ⟨hv, e⟩ | ⟨hv, _, e⟩ | ⟨hv, _, ⟨_, e⟩ | ⟨n, hn, e⟩⟩
    · rw [e]; exact ⟨_, rfl⟩
    · rw [e]; exact ⟨_, rfl⟩
    · rw [e]; exact ⟨_, rfl⟩
    · rw [e]; exact ⟨_, rfl⟩
    · rw [hw] at hn; cases hn
  · rw [check_other mode p write fs h1 h2]
    simp only [reduceCtorEq, exists_false, false_iff, not_or]
    exact ⟨h1, fun ⟨c, v, hc, hs⟩ => h2 c v hc hs⟩

/-- **C49.** What is printed, in terms of the state before. -/
theorem C49_printed {mode p write fs s fs' out} (h : checkImpl w mode p write fs = ⟨some s, fs', out⟩) :
    ∃ msg, out = ["skill at `".toList ++ ('/' :: List.intercalate ['/'] p) ++ "` ".toList ++ msg] ∧
      ((Describes w fs p .nonexistent ∧ mode = .find ∧ msg = "does not exist".toList) ∨
       (Describes w fs p .nonexistent ∧ mode = .check ∧ write = false ∧
          msg = "does not exist; pass `--write` to write the current version".toList) ∨
       (Describes w fs p .nonexistent ∧ mode = .check ∧ write = true ∧ msg = "did not exist; written".toList) ∨
       (Describes w fs p .current ∧ msg = "is the current version".toList) ∨
       ∃ c v, fs p = .file c ∧ IsSkill w c v ∧
         ((Describes w fs p .newer ∧ msg = "is a newer version (".toList ++ w.showVersion v ++
            "); consider updating the `necessist` binary".toList) ∨
          (Describes w fs p .old ∧ write = false ∧ msg = "is an old version (".toList ++ w.showVersion v ++
            "); pass `--write` to update to the current version".toList) ∨
          (Describes w fs p .old ∧ write = true ∧ msg = "was an old version (".toList ++ w.showVersion v ++ "); updated".toList))) := by
  rcases node_cases (w := w) fs p with hp | ⟨c, v, hp, hs⟩ | ⟨h1, h2⟩
  · rcases check_absent (w := w) mode p write fs hp with ⟨msg, e, hm, hmsg⟩ | ⟨hm, hw, fs1, _, ⟨e, _⟩ | ⟨n, e, _⟩ | ⟨e, _⟩⟩
    · rw [e] at h; cases h
      refine ⟨msg, rfl, ?_⟩
      cases mode with
      | find => exact Or.inl ⟨hp, rfl, by simpa using hmsg⟩
      | check => exact Or.inr (Or.inl ⟨hp, rfl, by simpa using hm, by simpa using hmsg⟩)
    · rw [e] at h; cases h
    · rw [e] at h; cases h
    · rw [e] at h; cases h; exact ⟨_, rfl, Or.inr (Or.inr (Or.inl ⟨hp, hm, hw, rfl⟩))⟩
  · rw [check_skill mode p write fs hp hs] at h
    have sw : ∀ o, w.cmp w.skillVersion v = o → w.cmp v w.skillVersion = o.swap := by
      intro o ho; rw [OrientedCmp.eq_swap (cmp := w.cmp), ho]
    rcases version_cases (w := w) p write v fs with ⟨hv, e⟩ | ⟨hv, e⟩ | ⟨hv, hw, e⟩ | ⟨hv, hw, ⟨_, e⟩ | ⟨n, _, e⟩⟩
    · rw [e] at h; cases h
      exact ⟨_, rfl, Or.inr (Or.inr (Or.inr (Or.inr ⟨c, v, hp, hs, Or.inl ⟨⟨c, v, hp, hs, sw _ hv⟩, rfl⟩⟩)))⟩
    · rw [e] at h; cases h
      exact ⟨_, rfl, Or.inr (Or.inr (Or.inr (Or.inl ⟨⟨c, v, hp, hs, sw _ hv⟩, rfl⟩)))⟩
    · rw [e] at h; cases h
      exact ⟨_, rfl, Or.inr (Or.inr (Or.inr (Or.inr ⟨c, v, hp, hs, Or.inr (Or.inl ⟨⟨c, v, hp, hs, sw _ hv⟩, hw, rfl⟩)⟩)))⟩
    · rw [e] at h; cases h
      exact ⟨_, rfl, Or.inr (Or.inr (Or.inr (Or.inr ⟨c, v, hp, hs, Or.inr (Or.inr ⟨⟨c, v, hp, hs, sw _ hv⟩, hw, rfl⟩)⟩)))⟩
    · rw [e] at h; cases h
  · rw [check_other mode p write fs h1 h2] at h; cases h

/-! ### C50 -/

omit [OrientedCmp w.cmp] in
/-- **C50.** Without `--write` nothing changes. -/
theorem C50_no_write (mode : Mode) (p : Path) (fs : FS) : (checkImpl w mode p false fs).fs = fs := by
  rcases node_cases (w := w) fs p with hp | ⟨c, v, hp, hs⟩ | ⟨h1, h2⟩
  · rcases check_absent (w := w) mode p false fs hp with ⟨msg, e, _⟩ | ⟨_, h, _⟩
    · rw [e]
    · cases h
  · rw [check_skill mode p false fs hp hs]
    rcases version_cases (w := w) p false v fs with ⟨_, e⟩ | ⟨_, e⟩ | ⟨_, _, e⟩ | ⟨_, h, _⟩
    · rw [e]
    · rw [e]
    · rw [e]
    · cases h
  · rw [check_other mode p false fs h1 h2]

/-- **C50.** What can change at all: directories missing above the path, when the skill is created; and the file, if there is
nothing and `--check-skill` was used, or if it is an older skill. If there is no error it is then the current skill. -/
theorem C50_changes (mode : Mode) (p : Path) (write : Bool) (fs : FS) (q : Path)
    (h : (checkImpl w mode p write fs).fs q ≠ fs q) :
    write = true ∧
    ((q ≠ p ∧ q <+: p ∧ fs p = .absent ∧ mode = .check ∧ fs q = .absent ∧ (checkImpl w mode p write fs).fs q = .dir) ∨
     (q = p ∧ ((fs p = .absent ∧ mode = .check) ∨ Describes w fs p .old) ∧
       ((checkImpl w mode p write fs).result ≠ none → (checkImpl w mode p write fs).fs p = .file w.skill))) := by
  rcases node_cases (w := w) fs p with hp | ⟨c, v, hp, hs⟩ | ⟨h1, h2⟩
  · rcases check_absent (w := w) mode p write fs hp with ⟨msg, e, _⟩ | ⟨hm, hw, fs1, ho, ⟨e, _⟩ | ⟨n, e, _⟩ | ⟨e, _⟩⟩
    · rw [e] at h; exact absurd rfl h
    all_goals
      refine ⟨hw, ?_⟩
      rw [e] at h ⊢
    · rcases ho q with h' | h'
      · exact absurd h' h
      · exact Or.inl ⟨h'.1, h'.2.1, hp, hm, h'.2.2⟩
    · by_cases hq : q = p
      · exact Or.inr ⟨hq, Or.inl ⟨hp, hm⟩, fun h => absurd rfl h⟩
      · rcases ho q with h' | h'
        · simp only [FS.set_other _ _ hq] at h; exact absurd h' h
        · exact Or.inl ⟨h'.1, h'.2.1, hp, hm, h'.2.2.1, by simp only [FS.set_other _ _ hq]; exact h'.2.2.2⟩
    · by_cases hq : q = p
      · exact Or.inr ⟨hq, Or.inl ⟨hp, hm⟩, fun h => FS.set_self _ _ _⟩
      · rcases ho q with h' | h'
        · simp only [FS.set_other _ _ hq] at h; exact absurd h' h
        · exact Or.inl ⟨h'.1, h'.2.1, hp, hm, h'.2.2.1, by simp only [FS.set_other _ _ hq]; exact h'.2.2.2⟩
  · rw [check_skill mode p write fs hp hs] at h ⊢
    rcases version_cases (w := w) p write v fs with ⟨hv, e⟩ | ⟨hv, e⟩ | ⟨hv, hw, e⟩ | ⟨hv, hw, ⟨_, e⟩ | ⟨n, _, e⟩⟩
    · rw [e] at h; exact absurd rfl h
    · rw [e] at h; exact absurd rfl h
    · rw [e] at h; exact absurd rfl h
    all_goals
      rw [e] at h ⊢
      have hq : q = p := by
        by_cases hq : q = p
        · exact hq
        · simp only [FS.set_other _ _ hq] at h; exact absurd rfl h
      refine ⟨hw, Or.inr ⟨hq, Or.inr ⟨c, v, hp, hs, by rw [OrientedCmp.eq_swap (cmp := w.cmp), hv]; rfl⟩, ?_⟩⟩
    · exact fun _ => FS.set_self _ _ _
    · exact fun h => absurd rfl h
  · rw [check_other mode p write fs h1 h2] at h; exact absurd rfl h

/-- **C50.** A current, newer, foreign or malformed file is never touched: only an older skill is replaced. -/
theorem C50_untouched (mode : Mode) (p : Path) (write : Bool) (fs : FS) (h : fs p ≠ .absent) (ho : ¬ Describes w fs p .old) :
    (checkImpl w mode p write fs).fs = fs := by
  funext q
  apply Classical.byContradiction
  intro h'
  obtain ⟨_, ⟨_, _, h1, _⟩ | ⟨_, ⟨h1, _⟩ | h1, _⟩⟩ := C50_changes mode p write fs q h'
  · exact h h1
  · exact h h1
  · exact ho h1

/-- **C50.** `--find-skill` never creates a file. -/
theorem C50_find_creates_nothing (p : Path) (write : Bool) (fs : FS) (q : Path) (h : fs q = .absent) :
    (checkImpl w .find p write fs).fs q = .absent := by
  apply Classical.byContradiction
  intro h'
  have := C50_changes .find p write fs q (by rw [h]; exact h')
  obtain ⟨_, ⟨_, _, _, h1, _⟩ | ⟨rfl, ⟨_, h1⟩ | ⟨c, v, h1, _⟩, _⟩⟩ := this
  · cases h1
  · cases h1
  · rw [h] at h1; cases h1

/-- **C50.** After a check that succeeded, a second one changes nothing and reports the same status. -/
theorem C50_idempotent (he : Embedded w) {mode p write fs s fs' out} (h : checkImpl w mode p write fs = ⟨some s, fs', out⟩) :
    (checkImpl w mode p write fs').fs = fs' ∧ (checkImpl w mode p write fs').result = some s := by
  cases write with
  | false =>
    have : fs' = fs := by
      have := C50_no_write (w := w) mode p fs
      rw [h] at this; exact this
    subst this
    rw [h]; exact ⟨rfl, rfl⟩
  | true =>
    have hd := (C49_check he h).1
    cases s with
    | nonexistent =>
      have hp : fs' p = .absent := hd
      have hmode : mode = .find := by
        rcases node_cases (w := w) fs p with hp | ⟨c, v, hp, hs⟩ | ⟨h1, h2⟩
        · rcases check_absent (w := w) mode p true fs hp with ⟨msg, e, hm, _⟩ | ⟨_, _, fs1, _, ⟨e, _⟩ | ⟨n, e, _⟩ | ⟨e, _⟩⟩
          · simpa using hm
          · rw [e] at h; cases h
          · rw [e] at h; cases h
          · rw [e] at h; cases h
        · rw [check_skill mode p true fs hp hs] at h
          rcases version_cases (w := w) p true v fs with ⟨hv, e⟩ | ⟨hv, e⟩ | ⟨hv, _, e⟩ | ⟨hv, _, ⟨_, e⟩ | ⟨n, _, e⟩⟩ <;>
            rw [e] at h <;> cases h
        · rw [check_other mode p true fs h1 h2] at h; cases h
      subst hmode
      rcases check_absent (w := w) .find p true fs' hp with ⟨msg, e, _⟩ | ⟨h', _⟩
      · rw [e]; exact ⟨rfl, rfl⟩
      · cases h'
    | old =>
      exfalso
      rcases node_cases (w := w) fs p with hp | ⟨c, v, hp, hs⟩ | ⟨h1, h2⟩
      · rcases check_absent (w := w) mode p true fs hp with ⟨msg, e, hm, _⟩ | ⟨_, _, fs1, _, ⟨e, _⟩ | ⟨n, e, _⟩ | ⟨e, _⟩⟩ <;>
          rw [e] at h <;> cases h
      · rw [check_skill mode p true fs hp hs] at h
        rcases version_cases (w := w) p true v fs with ⟨hv, e⟩ | ⟨hv, e⟩ | ⟨hv, h', e⟩ | ⟨hv, _, ⟨_, e⟩ | ⟨n, _, e⟩⟩
        · rw [e] at h; cases h
        · rw [e] at h; cases h
        · cases h'
        · rw [e] at h; cases h
        · rw [e] at h; cases h
      · rw [check_other mode p true fs h1 h2] at h; cases h
    | current =>
      obtain ⟨c, v, h1, h2, h3⟩ := hd
      rw [check_skill mode p true fs' h1 h2]
      rcases version_cases (w := w) p true v fs' with ⟨hv, e⟩ | ⟨hv, e⟩ | ⟨hv, _⟩ | ⟨hv, _⟩
      all_goals rw [OrientedCmp.eq_swap (cmp := w.cmp), hv] at h3
      · cases h3
      · rw [e]; exact ⟨rfl, rfl⟩
      · cases h3
      · cases h3
    | newer =>
      obtain ⟨c, v, h1, h2, h3⟩ := hd
      rw [check_skill mode p true fs' h1 h2]
      rcases version_cases (w := w) p true v fs' with ⟨hv, e⟩ | ⟨hv, e⟩ | ⟨hv, _⟩ | ⟨hv, _⟩
      all_goals rw [OrientedCmp.eq_swap (cmp := w.cmp), hv] at h3
      · rw [e]; exact ⟨rfl, rfl⟩
      · cases h3
      · cases h3
      · cases h3

/-! ### `--find-skill` -/

/-- A check at one path does not affect what is found at another. -/
theorem check_frame (p : Path) (write : Bool) (fs : FS) {q : Path} (h : q ≠ p) :
    (checkImpl w .find p write fs).fs q = fs q := by
  apply Classical.byContradiction
  intro h'
  obtain ⟨_, ⟨_, _, _, h1, _⟩ | ⟨h1, _⟩⟩ := C50_changes .find p write fs q h'
  · cases h1
  · exact h h1

theorem describes_congr {fs fs' : FS} {p : Path} (h : fs p = fs' p) (s : Status) : Describes w fs p s ↔ Describes w fs' p s := by
  cases s <;> simp only [Describes, h]

theorem findLoop_spec (he : Embedded w) (write : Bool) (ps : List Path) (hd : ps.Nodup) (st : Status) (fs : FS) {s fs' out}
    (h : findLoop w write ps st fs = ⟨some s, fs', out⟩) :
    (∀ q, q ∉ ps → fs' q = fs q) ∧ (∀ p ∈ ps, ∃ t, Describes w fs' p t) ∧ out.length = ps.length ∧
    (s.exitCode ≠ 0 ↔ st.exitCode ≠ 0 ∨ ∃ p ∈ ps, Describes w fs' p .nonexistent ∨ Describes w fs' p .old) := by
  induction ps generalizing st fs s fs' out with
  | nil =>
    rw [findLoop] at h
    cases h
    simp
  | cons p ps ih =>
    rw [findLoop] at h
    rcases hc : checkImpl w .find p write fs with ⟨_ | t, fs1, out1⟩
    · rw [hc] at h; cases h
    · rw [hc] at h
      dsimp only at h
      rcases hr : findLoop w write ps (if st.exitCode = 0 then t else st) fs1 with ⟨_ | s', fs2, out2⟩
      · rw [hr] at h; cases h
      · rw [hr] at h
        cases h
        obtain ⟨i1, i2, i3, i4⟩ := ih (List.nodup_cons.1 hd).2 _ _ hr
        have hp : p ∉ ps := (List.nodup_cons.1 hd).1
        have e1 : fs2 p = fs1 p := i1 p hp
        obtain ⟨c1, c2⟩ := C49_check he hc
        have hlen : out1.length = 1 := by
          obtain ⟨msg, e, _⟩ := C49_printed hc; rw [e]; rfl
        dsimp only
        refine ⟨fun q hq => ?_, fun q hq => ?_, ?_, ?_⟩
        · rw [i1 q fun h => hq (List.mem_cons_of_mem _ h)]
          have := check_frame (w := w) p write fs (q := q) fun h => hq (h ▸ List.mem_cons_self)
          rw [hc] at this; exact this
        · rcases List.mem_cons.1 hq with rfl | hq
          · exact ⟨t, (describes_congr e1 t).2 c1⟩
          · exact i2 q hq
        · simp [hlen, i3]; omega
        · rw [i4]
          simp only [List.mem_cons, exists_eq_or_imp, describes_congr e1]
          rw [← c2]
          by_cases hst : st.exitCode = 0
          · simp only [hst, if_true, ne_eq, not_true_eq_false, false_or]
          · simp [hst]

theorem wellKnownPaths_nodup (home : Path) : (wellKnownPaths home).Nodup := by
  unfold wellKnownPaths
  simp

/-- The locations, in words: `.claude/skills/necessist-audit/SKILL.md` and the same in `.codex`. -/
def WellKnown (home p : Path) : Prop :=
  p = home ++ [".claude".toList, "skills".toList, "necessist-audit".toList, "SKILL.md".toList] ∨
  p = home ++ [".codex".toList, "skills".toList, "necessist-audit".toList, "SKILL.md".toList]

theorem mem_wellKnownPaths {home p : Path} : p ∈ wellKnownPaths home ↔ WellKnown home p := by
  simp only [wellKnownPaths, List.map_cons, List.map_nil, List.mem_cons, List.not_mem_nil, or_false, WellKnown]

/-- **C49.** A warning is given for exactly the paths that `--find-skill` would not look at. -/
theorem C49_warning (home : Path) (p : Path) :
    (WellKnown home p → warnIfNotWellKnown (some home) p = []) ∧
    (¬ WellKnown home p → warnIfNotWellKnown (some home) p =
      ["Warning: `".toList ++ ('/' :: List.intercalate ['/'] p) ++ "` is not a path that `--find-skill` checks".toList]) := by
  have : (wellKnownPaths home).any (· == p) = true ↔ WellKnown home p := by
    rw [← mem_wellKnownPaths, List.any_eq_true]
    constructor
    · rintro ⟨q, hq, he⟩; rw [← eq_of_beq he]; exact hq
    · exact fun h => ⟨p, h, beq_self_eq_true p⟩
  unfold warnIfNotWellKnown
  dsimp only
  constructor
  · intro h; rw [if_pos (this.2 h)]
  · intro h; rw [if_neg (fun hh => h (this.1 hh))]; rfl

/-- **C49.** `--find-skill` looks at the well-known locations in the home directory; each is then nonexistent or holds a skill, and
the exit code is a failure iff one of them is then nonexistent or old. -/
theorem C49_find (he : Embedded w) {home : Path} {write fs s fs' out} (h : find w (some home) write fs = ⟨some s, fs', out⟩) :
    (s.exitCode ≠ 0 ↔ ∃ p, WellKnown home p ∧ (Describes w fs' p .nonexistent ∨ Describes w fs' p .old)) ∧
    (∀ p, WellKnown home p → ∃ t, Describes w fs' p t) ∧ out.length = 2 := by
  simp only [← mem_wellKnownPaths]
  have h0 : (wellKnownPaths home).length = 2 := rfl
  rw [← h0]
  obtain ⟨_, h2, h3, h4⟩ := findLoop_spec he write _ (wellKnownPaths_nodup home) .current fs h
  exact ⟨by rw [h4]; simp [Status.exitCode], h2, h3⟩

/-- **C50.** `--find-skill`, even if it fails: without `--write` it changes nothing; with it, it changes only old skills at well-known
locations. -/
theorem C50_find {home : Option Path} {write : Bool} {fs : FS} {q : Path} (h : (find w home write fs).fs q ≠ fs q) :
    write = true ∧ (∃ home', home = some home' ∧ WellKnown home' q) ∧ Describes w fs q .old := by
  simp only [← mem_wellKnownPaths]
  cases home with
  | none => exact absurd rfl h
  | some home =>
    have key : ∀ ps st fs, ps.Nodup → (findLoop w write ps st fs).fs q ≠ fs q →
        write = true ∧ q ∈ ps ∧ Describes w fs q .old := by
      intro ps
      induction ps with
      | nil => intro st fs _ h; exact absurd rfl h
      | cons p ps ih =>
        intro st fs hd h
        rw [findLoop] at h
        rcases hc : checkImpl w .find p write fs with ⟨t, fs1, out1⟩
        by_cases hq : fs1 q = fs q
        · cases t with
          | none => rw [hc] at h; exact absurd hq h
          | some t =>
            rw [hc] at h
            dsimp only at h
            rw [← hq] at h
            obtain ⟨h1, h2, h3⟩ := ih _ fs1 (List.nodup_cons.1 hd).2 h
            exact ⟨h1, List.mem_cons_of_mem _ h2, (describes_congr hq _).1 h3⟩
        · have := C50_changes (w := w) .find p write fs q (by rw [hc]; exact hq)
          obtain ⟨hw, ⟨_, _, _, h1, _⟩ | ⟨rfl, ⟨_, h1⟩ | h1, _⟩⟩ := this
          · cases h1
          · cases h1
          · exact ⟨hw, List.mem_cons_self, h1⟩
    obtain ⟨h1, h2, h3⟩ := key _ _ _ (wellKnownPaths_nodup home) h
    exact ⟨h1, ⟨home, rfl, h2⟩, h3⟩

end

/-- The well-known locations. -/
example : wellKnownPaths ["home".toList, "me".toList] =
    [["home".toList, "me".toList, ".claude".toList, "skills".toList, "necessist-audit".toList, "SKILL.md".toList],
     ["home".toList, "me".toList, ".codex".toList, "skills".toList, "necessist-audit".toList, "SKILL.md".toList]] := rfl

namespace Demo
/-- A world in which versions are numbers of characters, and a header is `v` and such a version. -/
def world : World Nat where
  skill := "---\nvxx\n---\nbody\n".toList
  skillVersion := 2
  yaml t := match t with | 'v' :: rest => some ⟨some "necessist-audit".toList, some rest⟩ | _ => none
  parseVersion t := some (t.length - 1)
  cmp := compare
  showVersion v := List.replicate v 'x'
  writeFails _ := none
  mkdirFails _ := none

instance : OrientedCmp world.cmp := inferInstanceAs (OrientedCmp (compare : Nat → Nat → Ordering))

theorem embedded : Embedded world := by
  rw [Embedded, isSkill_iff]
  exact ⟨⟨some "necessist-audit".toList, some "xx\n".toList⟩, by decide +kernel, rfl, rfl⟩

/-- An old skill in one of the locations, nothing in the other, and a current skill elsewhere. -/
def fs : FS := fun p =>
  if p = ["h".toList, ".claude".toList, "skills".toList, "necessist-audit".toList, "SKILL.md".toList] then
    .file "---\r\nvx\r\n---".toList
  else if p = ["x".toList] then .file "---\nvxx\n---".toList else .absent

example : (find world (some ["h".toList]) true fs).result = some .nonexistent := by decide +kernel
example : (find world (some ["h".toList]) true fs).out.map String.ofList =
    ["skill at `/h/.claude/skills/necessist-audit/SKILL.md` was an old version (x); updated",
     "skill at `/h/.codex/skills/necessist-audit/SKILL.md` does not exist"] := by decide +kernel
example : (find world (some ["h".toList]) false fs).result = some .old := by decide +kernel
example : (check world ["x".toList] true fs).result = some .current := by decide +kernel
example : (check world ["y".toList, "z".toList] true fs).fs ["y".toList, "z".toList] = .file world.skill := by decide +kernel
example : (check world ["y".toList, "z".toList] true fs).fs ["y".toList] = .dir := by decide +kernel
example : headerText "---\nname: a\n\n---\n\n---\nbody".toList = some "name: a\n\n".toList := by decide +kernel
example : headerText "\n---\nname: a\n---\n".toList = none := by decide +kernel
example : headerText "---\nname: a\n".toList = none := by decide +kernel
end Demo

end Necessist.Skill
