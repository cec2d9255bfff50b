import Verif.Model.Anchor
/-!
# Anchor.toml (specification)
-/
namespace Necessist.Anchor

/-- `v` is the value of the key `test` in the table `scripts` of `doc`, and `doc'` is `doc` with this value replaced by `v'`. -/
def OnlyTest (doc doc' : Doc) (v v' : Val) : Prop :=
  ∃ a b c d, doc = a ++ ("scripts".toList, .table (b ++ ("test".toList, .value v) :: c)) :: d ∧
    doc' = a ++ ("scripts".toList, .table (b ++ ("test".toList, .value v') :: c)) :: d ∧
    (∀ e ∈ a, e.1 ≠ "scripts".toList) ∧ ∀ e ∈ b, e.1 ≠ "test".toList

/-- A script consists of `pre`, which ends in a space, a file name without spaces that ends in `.ts`, and `suf`. Neither `pre` nor `suf`
contains a line break, and the name is not part of a longer word. -/
structure Script (word : Char → Bool) (s pre name suf : Text) : Prop where
  eq : s = pre ++ name ++ suf
  space : ∃ p, pre = p ++ [' ']
  noSpace : ' ' ∉ name
  ts : ∃ n, name = n ++ ".ts".toList
  boundary : ∀ c ∈ suf.head?, word c = false
  noBreak : '\n' ∉ pre ∧ '\n' ∉ suf

/-- `needle` occurs in `t` as a whole word. -/
def WholeWord (word : Char → Bool) (needle t : Text) : Prop :=
  ∃ a b, t = a ++ needle ++ b ∧ (∀ c ∈ a.getLast?, word c = false) ∧ ∀ c ∈ b.head?, word c = false

/-- What is added to the script: Mocha is told not to run tests when a file is only to be checked; Vitest is told to stop at the first
failure, and to report in JSON. -/
inductive Extra : Runner → Bool → Text → Prop
  | check : Extra .mocha true " --dry-run".toList
  | mocha : Extra .mocha false []
  | vitest (check : Bool) : Extra .vitest check " --bail=1 --reporter=json".toList

/-- What Anchor.toml may contain when something is called: `orig` is what it contained at the start. -/
def Sees (a : Anchor) (shown : SourceFile → Text) (render : Doc → Text) (orig : Text) : Call × Text → Prop
  | (.check f, t) =>
    ∃ doc v x, Extra a.runner true x ∧ OnlyTest a.document doc v (.str (a.pre ++ shown f ++ a.suf ++ x) [] []) ∧ t = render doc
  | (.dryRun f, t) | (.start f, t) =>
    ∃ doc v x, Extra a.runner false x ∧ OnlyTest a.document doc v (.str (a.pre ++ shown f ++ a.suf ++ x) [] []) ∧ t = render doc
  | (.install, t) | (.other, t) => t = orig
  | (.post, _) | (.kill, _) | (.reap, _) => True

end Necessist.Anchor
