import Verif.Props.AmbiguousMain
import Verif.Props.VisitorDemo
import Verif.Props.TypeScript
import Verif.Props.Foundry
import Verif.Props.GoVisitor
import Verif.Props.RustVisitor
import Verif.Props.MainDemo
/-!
# C83: the frameworks, a negation and examples
-/
namespace Necessist

/-- **C83.** In TypeScript, no function is the definition of two names. -/
theorem Js.C83_one_name {key : Js → Nat} {config : Compiled} {skip : Span → Bool} {trim : Span → Span} {file : Js} (hr : Regular key file) :
    Visit.OneName (visitorCfg key config skip trim (decls file)) := by
  intro n n' f fs fs' h h'
  obtain ⟨d, hd, rfl, rfl, _⟩ := walkable_local h
  obtain ⟨e, he, rfl, hk, _⟩ := walkable_local h'
  obtain ⟨s, h1, h2⟩ := decls_outer d file hd
  obtain ⟨s', h3, h4⟩ := decls_outer e file he
  have := hr.keys _ _ h2.within h4.within (congrArg Visit.LocalFn.key hk)
  rw [h1, h3] at this
  simp only [Js.fnDecl.injEq] at this
  exact this.2.1

/-- **C83.** Nor in Solidity. -/
theorem Foundry.C83_one_name {c : Ctx} {config : Compiled} {skip : Span → Bool} {trim : Span → Span} {items : List Item}
    (hfn : FnsApart c items) : Visit.OneName (visitorCfg c config skip trim items) := by
  intro n n' f fs fs' h h'
  obtain ⟨d, hd, rfl⟩ := walkable_lookup h
  obtain ⟨e, he, hk⟩ := walkable_lookup h'
  have := hfn d e hd.mem.1 he.mem.1 (congrArg Visit.LocalFn.key hk)
  subst this
  have h1 := hd.mem.2.1
  rw [he.mem.2.1] at h1
  exact (Option.some.inj h1).symm

/-- **C83.** Nor in Go, as no two functions have one body. -/
theorem TS.Go.C83_one_name {config : Compiled} {skip : Span → Bool} {trim : Span → Span} {file : Tree}
    (hb : ∀ d ∈ locals file, ∀ e ∈ locals file, d.body.attr.id = e.body.attr.id → d = e) :
    Visit.OneName (visitorCfg lang config skip trim (locals file)) := by
  intro n n' f fs fs' h h'
  obtain ⟨_, d, hd, rfl, rfl⟩ := walkable_lookup h
  obtain ⟨_, e, he, rfl, hk⟩ := walkable_lookup h'
  rw [hb d hd e he (congrArg Visit.LocalFn.key hk)]

/-- **C83.** In Rust, if no two functions' bodies are alike (see `C83_negation`). -/
theorem Rs.C83_one_name {key : Syn → Nat} {bkey : List Syn → Nat} {config : Compiled} {skip : Span → Bool} {trim : Span → Span} {file : Syn}
    (hb : ∀ d ∈ fns file, ∀ e ∈ fns file, bkey d.body = bkey e.body → d.name = e.name) :
    Visit.OneName (visitorCfg key bkey config skip trim (fns file)) := by
  intro n n' f fs fs' h h'
  obtain ⟨d, hd, rfl, rfl, _⟩ := walkable_local h
  obtain ⟨e, he, rfl, hk, _⟩ := walkable_local h'
  exact hb d hd e he (congrArg Visit.LocalFn.key hk)

namespace Visit
namespace Demo

/-- `fn h1() { h2(); }`, also defined as `fn h1() { z; }`; `fn h2() { h3(); }`; `fn h3() { h2(); }`, also defined as `fn h3() { }`. The first bodies of
`h1` and `h3` are alike. -/
def alike : LocalFn := ⟨1, [.exprStmt (st 21) (call 21 "h2")]⟩
def between : LocalFn := ⟨2, [.exprStmt (st 31) (call 31 "h3")]⟩
def cfgAlike : VCfg :=
  { cfg with walkable := [("h1".toList, [alike, ⟨3, [.stmt (st 41) []]⟩]), ("h2".toList, [between]), ("h3".toList, [alike, ⟨4, []⟩])] }
/-- `h3`'s first body is not like `h1`'s. -/
def cfgApart : VCfg :=
  { cfg with walkable := [("h1".toList, [alike, ⟨3, [.stmt (st 41) []]⟩]), ("h2".toList, [between]), ("h3".toList, [⟨5, []⟩, ⟨4, []⟩])] }

def Warned (v : Visited) : Option (List String) :=
  match v with
  | .done st _ => some (st.warnings.map String.ofList)
  | _ => none

/-- The test calls `h1`, which calls `h2`, which calls `h3`; only `h1` is called ambiguous. -/
example : Warned (visitFile cfgAlike 3 quiet) = some ["h1"] := by decide +kernel
example : Warned (visitFile cfgApart 3 quiet) = some ["h1", "h3"] ∨ Warned (visitFile cfgApart 3 quiet) = some ["h3", "h1"] := by decide +kernel

theorem part_quiet {c : VCfg} (hc : c.config = config) : TestPart c quiet t1 (some 8) (.exprStmt (st 2) (call 2 "h1")) :=
  ⟨by rw [hc]; decide +kernel, _, ⟨_, List.mem_singleton.mpr rfl, .refl _⟩, List.mem_cons_self⟩

/-- The hypotheses of `C83_test_partial` and of `C83_function_partial` are met. -/
example : CallsName cfgApart (call 2 "h1") "h1".toList [alike, ⟨3, [.stmt (st 41) []]⟩] ∧
    Seen cfgApart (.exprStmt (st 2) (call 2 "h1")) (call 2 "h1") ∧ TestPart cfgApart quiet t1 (some 8) (.exprStmt (st 2) (call 2 "h1")) ∧
    OneName cfgApart ∧ KeysFaithful cfgApart := by
  have hw : ∀ {n f fs}, cfgApart.walkable.lookup n = some (f :: fs) →
      n = "h1".toList ∧ f = alike ∨ n = "h2".toList ∧ f = between ∨ n = "h3".toList ∧ f = ⟨5, []⟩ := by
    intro n f fs h
    simp only [cfgApart, List.lookup] at h
    split at h
    · rename_i e; cases h; exact .inl ⟨by simpa using e, rfl⟩
    · split at h
      · rename_i e; cases h; exact .inr (.inl ⟨by simpa using e, rfl⟩)
      · split at h
        · rename_i e; cases h; exact .inr (.inr ⟨by simpa using e, rfl⟩)
        · cases h
  refine ⟨⟨_, _, _, _, rfl, rfl, rfl⟩, .step ⟨List.mem_cons_self, trivial⟩ (.refl _), part_quiet rfl, ?_, ?_⟩
  · intro n n' f fs fs' h h'
    rcases hw h with ⟨rfl, rfl⟩ | ⟨rfl, rfl⟩ | ⟨rfl, rfl⟩ <;> rcases hw h' with ⟨rfl, e⟩ | ⟨rfl, e⟩ | ⟨rfl, e⟩ <;>
      first | rfl | exact absurd (congrArg LocalFn.key e) (by decide)
  · rintro f g ⟨n, fs, h⟩ ⟨n', fs', h'⟩ hk
    rcases hw h with ⟨_, rfl⟩ | ⟨_, rfl⟩ | ⟨_, rfl⟩ <;> rcases hw h' with ⟨_, rfl⟩ | ⟨_, rfl⟩ | ⟨_, rfl⟩ <;>
      first | rfl | exact absurd hk (by decide)

end Demo

/-- **C83, negation** (if functions' bodies are alike, as may be in Rust, where functions are compared by their bodies). A function that is
called and has two definitions need not be named: here the test calls `h1`, `h1` calls `h2`, `h2` calls `h3`, and the first definitions of `h1` and
`h3` have the same body. -/
theorem C83_negation : ∃ (cfg : VCfg) (tree : List Node) (rounds : Nat) (st : VState) (walked : List LocalFn) (name : Text) (g : LocalFn) (m call : Node)
    (f : LocalFn) (fs : List LocalFn), KeysFaithful cfg ∧ visitFile cfg rounds tree = .done st walked ∧ Reached cfg tree g ∧ m ∈ g.body ∧
    Seen cfg m call ∧ CallsName cfg call name (f :: fs) ∧ fs ≠ [] ∧ name ∉ st.warnings := by
  have key : Demo.Warned (visitFile Demo.cfgAlike 3 Demo.quiet) = some ["h1"] := by decide +kernel
  unfold Demo.Warned at key
  split at key
  · rename_i st walked hv
    have hr1 : Reached Demo.cfgAlike Demo.quiet Demo.alike := .direct (Demo.part_quiet rfl) (h := Demo.call 2 "h1")
      (.step ⟨List.mem_cons_self, trivial⟩ (.refl _)) ⟨_, _, _, _, _, _, rfl, rfl, rfl⟩
    have hr2 : Reached Demo.cfgAlike Demo.quiet Demo.between := .via hr1 (m := .exprStmt (Demo.st 21) (Demo.call 21 "h2"))
      (h := Demo.call 21 "h2") (by simp [Demo.alike]) (.step ⟨List.mem_cons_self, trivial⟩ (.refl _)) ⟨_, _, _, _, _, _, rfl, rfl, rfl⟩
    refine ⟨Demo.cfgAlike, Demo.quiet, 3, st, walked, "h3".toList, Demo.between, .exprStmt (Demo.st 31) (Demo.call 31 "h3"), Demo.call 31 "h3",
      Demo.alike, _, ?_, hv, hr2, List.mem_singleton.2 rfl, .step ⟨List.mem_cons_self, trivial⟩ (.refl _), ⟨_, _, _, _, rfl, rfl, rfl⟩, by simp, ?_⟩
    · have hw : ∀ f, IsWalkable Demo.cfgAlike f → f = Demo.alike ∨ f = Demo.between := by
        rintro f ⟨name, fs, h⟩
        simp only [Demo.cfgAlike, List.lookup] at h
        split at h
        · cases h; exact .inl rfl
        · split at h
          · cases h; exact .inr rfl
          · split at h
            · cases h; exact .inl rfl
            · cases h
      intro f g hf hg hk
      rcases hw f hf with rfl | rfl <;> rcases hw g hg with rfl | rfl <;> first | rfl | exact absurd hk (by decide)
    · intro hm
      have := Option.some.inj key
      have h2 : String.ofList "h3".toList ∈ st.warnings.map String.ofList := List.mem_map.2 ⟨_, hm, rfl⟩
      rw [this] at h2
      exact absurd h2 (by decide)
  · cases key

end Visit

namespace Main.Demo
open Run Parse Visit

/-- A project with a file that has a test that calls `h1`, of which there are two definitions. -/
def fwTwice : Fw (Nat × Nat) where
  backend := { Parse.Demo.proj [] [] with
    parseFile := fun f => if f = Parse.Demo.fileA then .ok
        { localFunctions := .ok [("h1".toList, [⟨1, []⟩, ⟨2, []⟩]), ("h0".toList, [⟨3, []⟩, ⟨4, []⟩]), ("h2".toList, [⟨5, []⟩])]
          tree := [.test "t".toList none [.exprStmt ⟨Parse.Demo.sp f 1, 1, true, false, false⟩ (Visit.Demo.call 1 "h1"),
            .exprStmt ⟨Parse.Demo.sp f 2, 2, true, false, false⟩ (Visit.Demo.call 2 "h0"),
            .exprStmt ⟨Parse.Demo.sp f 3, 3, true, false, false⟩ (Visit.Demo.call 3 "h2")]] }
      else .ok { localFunctions := .ok [("h1".toList, [⟨1, []⟩, ⟨2, []⟩])], tree := [] } }
  env := (fwAt 99).env
  parsed := id

def hostTwice : Host Nat (Nat × Nat) := { host with impl := fun _ _ => .ok (some fwTwice) }
def machineTwice : Machine (Nat × Nat) := { machine with config := .doc (Toml.toDoc { walkableFunctions := ["h*".toList] }) }

/-- It is said which ones they are. -/
example : ((main hostTwice {} machineTwice).1, (warningsIn (main hostTwice {} machineTwice).2.console).map fun w => (w.warning, String.ofList w.msg)) =
    (some 0, [(.localFunctionAmbiguous, "found multiple functions with the following names in `src/a.rs`: {\n    \"h0\",\n    \"h1\",\n}")]) := by
  decide +kernel

end Main.Demo
end Necessist
