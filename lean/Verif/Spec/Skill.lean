import Verif.Model.Skill
import Verif.Spec.Directives
/-!
# The state of a skill file (specification)

Independent of the functions of the model; uses only its data types, and the YAML and version parsers that are parameters.
-/
namespace Necessist.Skill
variable {V : Type}

/-- The front matter of a file: its first line and line `n + 2` are `---`, and no line between them is; `body` consists of the
`n` lines between them, each with a line break. -/
def FrontMatter (contents body : Text) : Prop :=
  LineAt contents 1 "---".toList ∧ ∃ hs : List Text, LineAt contents (hs.length + 2) "---".toList ∧
    (∀ i l, hs[i]? = some l → LineAt contents (i + 2) l ∧ l ≠ "---".toList) ∧
    body = (hs.map fun l => l ++ ['\n']).flatten

/-- The file is a necessist skill of version `v`. -/
def IsSkill (w : World V) (contents : Text) (v : V) : Prop :=
  ∃ body ver, FrontMatter contents body ∧ w.yaml body = some ⟨some "necessist-audit".toList, some ver⟩ ∧
    w.parseVersion ver = some v

/-- `s` describes what is at `p`, compared to the version that is part of the program. -/
def Describes (w : World V) (fs : FS) (p : Path) : Status → Prop
  | .nonexistent => fs p = .absent
  | .old => ∃ c v, fs p = .file c ∧ IsSkill w c v ∧ w.cmp v w.skillVersion = .lt
  | .current => ∃ c v, fs p = .file c ∧ IsSkill w c v ∧ w.cmp v w.skillVersion = .eq
  | .newer => ∃ c v, fs p = .file c ∧ IsSkill w c v ∧ w.cmp v w.skillVersion = .gt

/-- The skill that is part of the program is one, of the version it is said to be (checked by tests `skill_name_is_necessist_audit`
and `skill_version_is_necessist_version` in core/src/skill.rs). -/
def Embedded (w : World V) : Prop := IsSkill w w.skill w.skillVersion

end Necessist.Skill
