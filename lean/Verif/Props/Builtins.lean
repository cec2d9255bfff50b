import Verif.Spec.Builtins
import Verif.Props.Config
import Verif.Props.MainRun
import Verif.Props.ParseDemo
/-!
# The documented names are ignored (C78)
-/
namespace Necessist
open Framework (Identifier)

/-- The pattern for an entry of the documentation. -/
def DocEntry.pattern : DocEntry → Text
  | .name s => s.toList
  | .beginning s => s.toList ++ ['*']

theorem instance_literal {p name : Text} (hs : '*' ∉ p) : Instance p name ↔ name = p := by
  induction p generalizing name with
  | nil => constructor
           · intro h; cases h; rfl
           · rintro rfl; exact .done
  | cons c p ih =>
    have hc : c ≠ '*' := fun h => hs (by simp [h])
    have hp : '*' ∉ p := fun h => hs (by simp [h])
    constructor
    · intro h
      cases h with
      | star => exact absurd rfl hc
      | same _ _ h2 => rw [(ih hp).1 h2]
    · rintro rfl
      exact .same c hc ((ih hp).2 rfl)

theorem instance_beginning {p name : Text} (hs : '*' ∉ p) : Instance (p ++ ['*']) name ↔ ∃ rest, '\n' ∉ rest ∧ name = p ++ rest := by
  induction p generalizing name with
  | nil =>
    constructor
    · intro h
      cases h with
      | star fill h1 h2 => cases h2; exact ⟨fill, h1, by simp⟩
      | same _ h1 _ => exact absurd rfl h1
    · rintro ⟨rest, h1, hn⟩
      rw [hn]
      simpa using Instance.star rest h1 .done
  | cons c p ih =>
    have hc : c ≠ '*' := fun h => hs (by simp [h])
    have hp : '*' ∉ p := fun h => hs (by simp [h])
    constructor
    · intro h
      cases h with
      | star => exact absurd rfl hc
      | same _ _ h2 =>
        obtain ⟨rest, h3, rfl⟩ := (ih hp).1 h2
        exact ⟨rest, h3, rfl⟩
    · rintro ⟨rest, h3, rfl⟩
      exact .same c hc ((ih hp).2 ⟨rest, h3, rfl⟩)

/-- There are no stars in an entry. -/
def DocEntry.plain : DocEntry → Bool
  | .name s | .beginning s => s.toList.all (· != '*')

theorem DocEntry.says_iff {d : DocEntry} (h : d.plain = true) (n : Text) : Instance d.pattern n ↔ d.Says n := by
  cases d with
  | name s => exact instance_literal (fun hm => by simpa using List.all_eq_true.1 h _ hm)
  | beginning s => exact instance_beginning (fun hm => by simpa using List.all_eq_true.1 h _ hm)

/-- The two lists say the same. -/
def agree (l : List Text) (ds : List DocEntry) : Bool :=
  l.all (fun p => ds.any fun d => decide (d.pattern = p)) && ds.all (fun d => l.any fun p => decide (d.pattern = p)) && ds.all DocEntry.plain

theorem agree_spec {l : List Text} {ds : List DocEntry} (h : agree l ds = true) (n : Text) :
    (∃ p ∈ l, Instance p n) ↔ ∃ d ∈ ds, d.Says n := by
  simp only [agree, Bool.and_eq_true, List.all_eq_true, List.any_eq_true, decide_eq_true_eq] at h
  obtain ⟨⟨h1, h2⟩, h3⟩ := h
  constructor
  · rintro ⟨p, hp, hi⟩
    obtain ⟨d, hd, rfl⟩ := h1 p hp
    exact ⟨d, hd, (DocEntry.says_iff (h3 d hd) n).1 hi⟩
  · rintro ⟨d, hd, hs⟩
    obtain ⟨p, hp, rfl⟩ := h2 d hd
    exact ⟨_, hp, (DocEntry.says_iff (h3 d hd) n).2 hs⟩

theorem agree_functions (i : Identifier) : agree ((builtinsOf i).functions.getD []) (Readme.functions i) = true := by
  cases i <;> decide +kernel

theorem agree_macros (i : Identifier) : agree ((builtinsOf i).macros.getD []) (Readme.macros i) = true := by
  cases i <;> decide +kernel

theorem agree_methods (i : Identifier) : agree ((builtinsOf i).methods.getD []) (Readme.methods i) = true := by
  cases i <;> decide +kernel

theorem builtins_valid {alnum : Char → Bool} (ha : AlnumOk alnum) (i : Identifier) :
    ∀ p ∈ (builtinsOf i).functions.getD [] ++ (builtinsOf i).macros.getD [] ++ (builtinsOf i).methods.getD [], ValidPattern alnum p := by
  have : (((builtinsOf i).functions.getD [] ++ (builtinsOf i).macros.getD [] ++ (builtinsOf i).methods.getD []).all fun p =>
      p.all fun c => (decide (c.toNat < 128) && c.isAlphanum) || c == '_' || c == '.' || c == '*') = true := by
    cases i <;> decide +kernel
  intro p hp c hc
  have h := List.all_eq_true.1 (List.all_eq_true.1 this p hp) c hc
  simp only [Bool.or_eq_true, Bool.and_eq_true, decide_eq_true_eq, beq_iff_eq] at h
  rcases h with ((⟨h1, h2⟩ | h) | h) | h
  · exact Or.inl (by rw [ha c h1]; exact h2)
  · exact Or.inr (Or.inl h)
  · exact Or.inr (Or.inr (Or.inl h))
  · exact Or.inr (Or.inr (Or.inr h))

section
variable {alnum : Char → Bool} {o : WarnOpts} {st : WStates} {i : Identifier} {user : Toml} {c : Compiled}

/-- **C78.** A function is ignored exactly if the documentation says so or it matches a pattern of the user's. -/
theorem C78_functions (ha : AlnumOk alnum) (h : (compileConfig alnum o st (builtinsOf i) user).1 = some (.ok c)) (name : Text) :
    c.isIgnoredFunction name = true ↔ (∃ d ∈ Readme.functions i, d.Says name) ∨ ∃ p ∈ user.ignoredFunctions, Instance p name := by
  rw [(C26_effective ha o st _ user c h).functions, agree_spec (agree_functions i)]

/-- **C78.** A macro is ignored exactly if the documentation says so or it matches a pattern of the user's. -/
theorem C78_macros (ha : AlnumOk alnum) (h : (compileConfig alnum o st (builtinsOf i) user).1 = some (.ok c)) (name : Text) :
    c.isIgnoredMacro name = true ↔ (∃ d ∈ Readme.macros i, d.Says name) ∨ ∃ p ∈ user.ignoredMacros, Instance p name := by
  rw [(C26_effective ha o st _ user c h).macros, agree_spec (agree_macros i)]

/-- **C78.** A method is ignored exactly if, perhaps without some leading components of its path, the documentation says so or it matches a
pattern of the user's. -/
theorem C78_methods (ha : AlnumOk alnum) (h : (compileConfig alnum o st (builtinsOf i) user).1 = some (.ok c)) (path : Text) :
    c.isIgnoredMethod path = true ↔
      ∃ suffix, DotSuffix path suffix ∧ ((∃ d ∈ Readme.methods i, d.Says suffix) ∨ ∃ p ∈ user.ignoredMethods, Instance p suffix) := by
  rw [(C26_effective ha o st _ user c h).methods]
  constructor
  · rintro (⟨p, hp, s, hs, hi⟩ | ⟨p, hp, s, hs, hi⟩)
    · exact ⟨s, hs, Or.inl ((agree_spec (agree_methods i) s).1 ⟨p, hp, hi⟩)⟩
    · exact ⟨s, hs, Or.inr ⟨p, hp, hi⟩⟩
  · rintro ⟨s, hs, hd | ⟨p, hp, hi⟩⟩
    · obtain ⟨p, hp, hi⟩ := (agree_spec (agree_methods i) s).2 hd
      exact Or.inl ⟨p, hp, s, hs, hi⟩
    · exact Or.inr ⟨p, hp, s, hs, hi⟩

/-- **C78.** What a framework ignores by itself is never a reason to refuse a configuration. -/
theorem C78_accepted (ha : AlnumOk alnum) (hw : (warnAll o st (configWarnings (builtinsOf i) user)).1 = true) :
    (∃ c, (compileConfig alnum o st (builtinsOf i) user).1 = some (.ok c)) ↔ ∀ p ∈ user.patterns, ValidPattern alnum p := by
  rw [(C26_never_panics ha o st _ user).2.2 hw]
  constructor
  · exact fun h p hp => h p (List.mem_append_right _ hp)
  · intro h p hp
    rcases List.mem_append.1 hp with hp | hp
    · exact builtins_valid ha i p hp
    · exact h p hp

/-- **C78.** All frameworks support ignored functions and methods; ignored macros are used only by Rust, and otherwise warned about. -/
theorem C78_unsupported (w : Warning) :
    w ∈ configWarnings (builtinsOf i) user ↔ w = .ignoredMacrosUnsupported ∧ i ≠ .rust ∧ user.ignoredMacros ≠ [] := by
  rw [C26_unsupported_warned]
  have h1 : (builtinsOf i).functions ≠ none := by cases i <;> decide
  have h2 : (builtinsOf i).methods ≠ none := by cases i <;> decide
  have h3 : (builtinsOf i).macros = none ↔ i ≠ .rust := by cases i <;> decide
  simp [h1, h2, h3]

end

/-! ## Examples -/

namespace Builtins.Demo

def user : Toml := { ignoredFunctions := ["check*".toList], ignoredMethods := ["build".toList] }

/-- What Foundry's configuration is with these settings. -/
def foundry : Option (Except ConfigError Compiled) := (compileConfig Char.isAlphanum ⟨[], [], false⟩ WStates.init (builtinsOf .foundry) user).1

-- The hypothesis of `C78_functions`, `C78_macros` and `C78_methods`.
theorem accepted : ∃ c, foundry = some (.ok c) :=
  (C78_accepted (fun _ _ => rfl) (by decide +kernel)).2 (by
    intro p hp
    have hp : p ∈ ["check*".toList, "build".toList] := hp
    intro c hc
    have : (["check*".toList, "build".toList].all fun p => p.all fun c => c.isAlphanum || c == '*') = true := by decide +kernel
    have := List.all_eq_true.1 (List.all_eq_true.1 this p hp) c hc
    simp only [Bool.or_eq_true, beq_iff_eq] at this
    rcases this with h | h
    · exact Or.inl h
    · exact Or.inr (Or.inr (Or.inr h)))

-- What the theorems say about it.
example : ∃ c, foundry = some (.ok c) ∧ c.isIgnoredFunction "assertEq".toList = true ∧ c.isIgnoredFunction "checkAll".toList = true ∧
    c.isIgnoredFunction "vm.prank".toList = false ∧ c.isIgnoredMethod "a.b.build".toList = true := by
  obtain ⟨c, hc⟩ := accepted
  refine ⟨c, hc, (C78_functions (fun _ _ => rfl) hc _).2 (Or.inl ⟨.beginning "assert", by decide, "Eq".toList, by decide, by decide⟩),
    (C78_functions (fun _ _ => rfl) hc _).2 (Or.inr ⟨"check*".toList, by decide, (instance_beginning (p := "check".toList) (by decide)).2
      ⟨"All".toList, by decide, by decide⟩⟩), ?_,
    (C78_methods (fun _ _ => rfl) hc _).2 ⟨"build".toList, ⟨["a".toList, "b".toList], by decide, by decide⟩, Or.inr ⟨"build".toList, by decide,
      (instance_literal (by decide)).2 rfl⟩⟩⟩
  rw [Bool.eq_false_iff]
  intro h
  rcases (C78_functions (fun _ _ => rfl) hc _).1 h with ⟨d, hd, hs⟩ | ⟨p, hp, hi⟩
  · have : d ∈ Readme.functions .foundry := hd
    simp only [Readme.functions, List.mem_cons, List.not_mem_nil, or_false] at this
    have no : ∀ (a : String) {rest : Text}, "vm.prank".toList = a.toList ++ rest → a.toList.isPrefixOf "vm.prank".toList = true := by
      intro a rest h; rw [h, List.isPrefixOf_iff_prefix]; exact ⟨rest, rfl⟩
    rcases this with rfl | rfl | rfl | rfl | rfl | rfl | rfl | rfl
    iterate 4 (obtain ⟨rest, _, hr⟩ := hs; exact absurd (no _ hr) (by decide +kernel))
    all_goals (simp only [DocEntry.Says] at hs; exact absurd hs (by decide +kernel))
  · have : p = "check*".toList := by simpa [user] using hp
    subst this
    obtain ⟨rest, _, hr⟩ := (instance_beginning (p := "check".toList) (by decide)).1 hi
    exact absurd (show "check".toList <+: "vm.prank".toList from ⟨rest, hr.symm⟩) (by decide +kernel)

-- A user's macros are of no use to Foundry.
example : Warning.ignoredMacrosUnsupported ∈ configWarnings (builtinsOf .foundry) { ignoredMacros := ["m".toList] } :=
  (C78_unsupported _).2 ⟨rfl, by decide, by decide⟩

end Builtins.Demo
end Necessist
