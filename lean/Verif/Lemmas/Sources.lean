import Verif.Spec.Sources
import Verif.Props.GoVisitor
import Verif.Props.PhpVisitor
import Verif.Props.TypeScript
import Verif.Props.RustVisitor
import Verif.Props.FoundryTests
import Verif.Props.Parse
/-!
# From syntax trees to what parsing yields (lemmas)
-/
namespace Necessist
open Parse (found)

namespace TS.Go
variable {file : Tree} {config : Compiled} {skip : Span → Bool} {trim : Span → Span} {st : Visit.VState} {walked : List Visit.LocalFn}

theorem own_visit (hf : GoFile file) (h : Visit.visitFile (visitorCfg lang config skip trim (locals file))
    (visitorCfg lang config skip trim (locals file)).walkable.length (lowerTests lang last (tests file)) = .done st walked) :
    ∃ fuel rounds, visitFile config skip trim fuel rounds file = .done st walked := by
  obtain ⟨N, st', walked', hN⟩ := ends (config := config) (skip := skip) (trim := trim) (tests_ok hf) (locals_ok hf) (ids_ok hf) last
    (visitorCfg lang config skip trim (locals file)).walkable.length (Nat.le_refl _)
  have h1 : visitFile config skip trim N (visitorCfg lang config skip trim (locals file)).walkable.length file = .done st' walked' :=
    hN N (Nat.le_refl _)
  have h2 := refines hf h1
  rw [h] at h2
  cases h2
  exact ⟨_, _, h1⟩

theorem removes (hf : GoFile file) {fuel rounds} (h : visitFile config skip trim fuel rounds file = .done st walked) {k s t}
    (hm : (s, t) ∈ found st k) : Removes config skip trim file k s t := by
  have ht : t ∈ st.testSet := (Visit.C38_only (keysFaithful (ids_ok hf)) (refines hf h) (by cases k; exact Or.inl hm; exact Or.inr hm)).1.1
  have ht' := (C70_tests hf h t).mp ht
  cases k with
  | statement => exact ⟨⟨ht'.1, ht'.2.1⟩, (C70_statements hf h hm).2⟩
  | methodCall => exact ⟨⟨ht'.1, ht'.2.1⟩, (C70_methods hf h hm).2⟩

theorem due (hf : GoFile file) {fuel rounds} (h : visitFile config skip trim fuel rounds file = .done st walked) {k s t}
    (hd : Due config skip trim file k s t) : (s, t) ∈ found st k := by
  cases hd with
  | statement a1 a2 a3 a4 a5 a6 a7 => exact C70_complete hf h a1 a2 a3 a4 a5 a6 a7
  | functionStatement a1 a2 a3 a4 a5 a6 a7 a8 a9 a10 => exact C70_complete_functions hf h a1 a2 a3 a4 a5 a6 a7 a8 a9 a10
  | method a1 a2 a3 a4 a5 a6 a7 a8 a9 => exact C70_complete_methods hf h a1 a2 a3 a4 a5 a6 a7 a8 a9
  | functionMethod a1 a2 a3 a4 a5 a6 a7 a8 a9 a10 a11 a12 =>
    exact C70_complete_functions_methods hf h a1 a2 a3 a4 a5 a6 a7 a8 a9 a10 a11 a12

end TS.Go

namespace TS.Php
variable {file : Tree} {config : Compiled} {skip : Span → Bool} {trim : Span → Span} {st : Visit.VState} {walked : List Visit.LocalFn}

theorem own_visit (hf : PhpFile file) (h : Visit.visitFile (visitorCfg lang config skip trim [])
    (visitorCfg lang config skip trim []).walkable.length (lowerTests lang last (tests file)) = .done st walked) :
    ∃ fuel rounds, visitFile config skip trim fuel rounds file = .done st walked := by
  obtain ⟨N, st', walked', hN⟩ := C71_ends hf config skip trim (visitorCfg lang config skip trim []).walkable.length
  have h1 := hN N (Nat.le_refl _)
  have h2 := refines hf h1
  rw [h] at h2
  cases h2
  exact ⟨_, _, h1⟩

theorem removes (hf : PhpFile file) {fuel rounds} (h : visitFile config skip trim fuel rounds file = .done st walked) {k s t}
    (hm : (s, t) ∈ found st k) : Removes config skip trim file k s t := by
  have ht : t ∈ st.testSet := (Visit.C38_only (keysFaithful ids_ok) (refines hf h) (by cases k; exact Or.inl hm; exact Or.inr hm)).1.1
  have ht' := (C71_tests hf h t).mp ht
  cases k with
  | statement => exact ⟨⟨ht'.1, ht'.2.1⟩, (C71_statements hf h hm).2⟩
  | methodCall => exact ⟨⟨ht'.1, ht'.2.1⟩, (C71_methods hf h hm).2⟩

theorem due (hf : PhpFile file) {fuel rounds} (h : visitFile config skip trim fuel rounds file = .done st walked) {k s t}
    (hd : Due config skip trim file k s t) : (s, t) ∈ found st k := by
  cases hd with
  | statement a1 a2 a3 a4 a5 a6 a7 a8 => exact C71_complete hf h a1 a2 a3 a4 a5 a6 a7 a8
  | method a1 a2 a3 a4 a5 a6 a7 a8 a9 => exact C71_complete_methods hf h a1 a2 a3 a4 a5 a6 a7 a8 a9

end TS.Php

namespace Js
variable {file : Js} {key : Js → Nat} {config : Compiled} {skip : Span → Bool} {trim : Span → Span} {st : Visit.VState}
  {walked : List Visit.LocalFn}

theorem removes (hr : Regular key file) (hp : ItPlain config file) {rounds}
    (h : visitFile key config skip trim rounds file = .done st walked) {k s t}
    (hm : (s, t) ∈ found st k) : Removes config skip trim file k s t := by
  cases k with
  | statement => exact C72_statements hr hp h hm
  | methodCall => exact C72_methods hr hp h hm

theorem due (hr : Regular key file) (hp : ItPlain config file) {rounds}
    (h : visitFile key config skip trim rounds file = .done st walked) {k s t}
    (hd : Due config skip trim file k s t) : (s, t) ∈ found st k := by
  cases hd with
  | statement a1 a2 a3 a4 a5 a6 => exact C72_complete hr hp h a1 a2 a3 a4 a5 a6
  | functionStatement a1 a2 a3 a4 a5 a6 a7 a8 a9 a10 => exact C72_complete_functions hr hp h a1 a2 a3 a4 a5 a6 a7 a8 a9 a10
  | method a1 a2 a3 a4 a5 a6 a7 a8 => exact C72_complete_methods hr hp h a1 a2 a3 a4 a5 a6 a7 a8
  | functionMethod a1 a2 a3 a4 a5 a6 a7 a8 a9 a10 a11 a12 =>
    exact C72_complete_functions_methods hr hp h a1 a2 a3 a4 a5 a6 a7 a8 a9 a10 a11 a12

end Js

namespace Foundry
variable {c : Ctx} {items : List Item} {config : Compiled} {skip : Span → Bool} {trim : Span → Span} {st : Visit.VState}
  {walked : List Visit.LocalFn}

theorem removes (hr : Regular c items) {rounds} (h : visit c config skip trim rounds items = .done st walked) {k s t}
    (hm : (s, t) ∈ found st k) : Removes c config skip trim items k s t := by
  cases k with
  | statement => exact C76_statements hr h hm
  | methodCall => exact C76_methods hr h hm

theorem due (hr : Regular c items) {rounds} (h : visit c config skip trim rounds items = .done st walked) {k s t}
    (hd : Due c config skip trim items k s t) : (s, t) ∈ found st k := by
  cases hd with
  | statement a1 a2 a3 a4 a5 a6 => exact C76_complete hr h a1 a2 a3 a4 a5 a6
  | functionStatement a1 a2 a3 a4 a5 a6 a7 a8 a9 => exact C76_complete_functions hr h a1 a2 a3 a4 a5 a6 a7 a8 a9
  | method a1 a2 a3 a4 a5 a6 a7 a8 a9 => exact C76_complete_methods hr h a1 a2 a3 a4 a5 a6 a7 a8 a9
  | functionMethod a1 a2 a3 a4 a5 a6 a7 a8 a9 a10 a11 a12 =>
    exact C76_complete_functions_methods hr h a1 a2 a3 a4 a5 a6 a7 a8 a9 a10 a11 a12

end Foundry

namespace Rs
open Rust
variable {a : Answers} {args : List Text} {path : Cache.Path} {key : Syn → Nat} {bkey : List Syn → Nat} {file : Syn} {config : Compiled}
  {skip : Span → Bool} {trim : Span → Span} {st : Visit.VState} {walked : List Visit.LocalFn}

/-- A `cargo` that gives these answers. -/
def answering (a : Answers) : Cargo Unit := ⟨fun d w => (a.metadata d, w), fun l w => (a.list l, w)⟩

theorem answering_stable (a : Answers) : Stable (answering a) a := ⟨fun _ _ => rfl, fun _ _ => rfl⟩

theorem own_visit (hr : Regular bkey file) {fl} (hfl : a.flags path = .ok fl)
    (hnames : ∀ fs, a.fsModulePath path = .ok fs → ∃ ns, a.testNames fl args = .ok ns) {rounds}
    (h : Visit.visitFile (visitorCfg key bkey config skip trim (fns file)) rounds [lower (listedName a args path fl) key [] file] =
      .done st walked) :
    CargoOk (answering a) a args path (({} : Rust.Caches), ()) ∧
    ∃ found s', visitFile (answering a) args path key bkey config skip trim rounds file (({} : Rust.Caches), ()) = .done st found s' walked := by
  have hc : CargoOk (answering a) a args path (({} : Rust.Caches), ()) := ⟨answering_stable a, agrees_empty, fl, hfl, hnames⟩
  refine ⟨hc, ?_⟩
  have h1 := (refines (key := key) (config := config) (skip := skip) (trim := trim) hr hc.stable hc.agrees hfl hnames rounds).1
  rw [h] at h1
  cases hv : visitFile (answering a) args path key bkey config skip trim rounds file (({} : Rust.Caches), ()) with
  | done st' found s' w' => rw [hv] at h1; cases h1; exact ⟨_, _, rfl⟩
  | _ => rw [hv] at h1; cases h1

theorem removes {ω} {cargo : Cargo ω} {s0 : St ω} (hr : Regular bkey file) (hc : CargoOk cargo a args path s0) {rounds fd s'}
    (h : visitFile cargo args path key bkey config skip trim rounds file s0 = .done st fd s' walked) {k s t}
    (hm : (s, t) ∈ found st k) : Removes a args path key config skip trim file k s t := by
  cases k with
  | statement => exact C74_statements hr hc h hm
  | methodCall => exact C74_methods hr hc h hm

theorem due {ω} {cargo : Cargo ω} {s0 : St ω} (hr : Regular bkey file) (hc : CargoOk cargo a args path s0) {rounds fd s'}
    (h : visitFile cargo args path key bkey config skip trim rounds file s0 = .done st fd s' walked) {k s t}
    (hd : Due a args path key config skip trim file k s t) : (s, t) ∈ found st k := by
  cases hd with
  | statement a1 a2 a3 a4 a5 a6 => exact C74_complete hr hc h a1 a2 a3 a4 a5 a6
  | functionStatement a1 a2 a3 a4 a5 a6 a7 a8 a9 => exact C74_complete_functions hr hc h a1 a2 a3 a4 a5 a6 a7 a8 a9
  | method a1 a2 a3 a4 a5 a6 a7 a8 a9 => exact C74_complete_methods hr hc h a1 a2 a3 a4 a5 a6 a7 a8 a9
  | functionMethod a1 a2 a3 a4 a5 a6 a7 a8 a9 a10 a11 a12 a13 =>
    exact C74_complete_functions_methods hr hc h a1 a2 a3 a4 a5 a6 a7 a8 a9 a10 a11 a12 a13

end Rs

namespace Sources
open Framework (Identifier)
open Parse

variable {P : Parsers} {i : Identifier} {config : Compiled} {f : SourceFile}

/-- The file's tree was visited, by the visitor of its language, and the result is `vs`. -/
theorem visited {b : Backend} (hb : b.parseFile = fileAst P i) (hrec : b.receiver = walksReceiver i) (hfi : b.fields = walksFields i)
    (hu : Usual P i config f) {d ast fns vs walked} (hp : b.parseFile f = .ok ast) (hl : ast.localFunctions = .ok fns)
    (hv : Visit.visitFile (visitorFor b config (P.contents f) d fns) (visitorFor b config (P.contents f) d fns).walkable.length ast.tree =
      .done vs walked) :
    (∀ k s t, (s, t) ∈ found vs k → Removes P i config d f k s t) ∧ ∀ k s t, Due P i config d f k s t → (s, t) ∈ found vs k := by
  have e : visitorFor b config (P.contents f) d fns = { config
                                                        skip := P.suppressed f d
                                                        walkable := fns.filter fun p => config.isWalkableFunction p.1
                                                        trim := P.trim f
                                                        receiver := walksReceiver i
                                                        fields := walksFields i } := by
    rw [← hrec, ← hfi]; rfl
  rw [e] at hv
  rw [hb] at hp
  have js : ∀ {vs walked}, Usual P .vitest config f → fileAst P .vitest f = .ok ast →
      Visit.visitFile { config
                        skip := P.suppressed f d
                        walkable := fns.filter fun p => config.isWalkableFunction p.1
                        trim := P.trim f
                        receiver := walksReceiver .vitest
                        fields := walksFields .vitest } (fns.filter fun p => config.isWalkableFunction p.1).length ast.tree =
        .done vs walked →
      (∀ k s t, (s, t) ∈ found vs k → Removes P .vitest config d f k s t) ∧
        ∀ k s t, Due P .vitest config d f k s t → (s, t) ∈ found vs k := by
    intro vs walked hu hp hv
    cases hs : P.js f with
    | error x => simp [fileAst, hs, Except.map] at hp
    | ok file =>
      simp only [fileAst, hs, Except.map, Except.ok.injEq] at hp
      subst hp
      cases hl
      obtain ⟨hr, hp⟩ := hu file hs
      have hv' := (Js.refines (skip := P.suppressed f d) (trim := P.trim f) hr hp _).trans hv
      refine ⟨fun k s t h => ⟨file, hs, Js.removes hr hp hv' h⟩, ?_⟩
      rintro k s t ⟨file', hs', h⟩
      rw [hs] at hs'; cases hs'
      exact Js.due hr hp hv' h
  cases i with
  | anchor => exact js hu hp hv
  | hardhat => exact js hu hp hv
  | vitest => exact js hu hp hv
  | foundry =>
    cases hs : P.sol f with
    | error x => simp [fileAst, hs, Except.map] at hp
    | ok items =>
      simp only [fileAst, hs, Except.map, Except.ok.injEq] at hp
      subst hp
      cases hl
      have hr := hu items hs
      have hv' := (Foundry.refines (skip := P.suppressed f d) (trim := P.trim f) hr.fns _).trans hv
      refine ⟨fun k s t h => ⟨items, hs, Foundry.removes hr hv' h⟩, ?_⟩
      rintro k s t ⟨file', hs', h⟩
      rw [hs] at hs'; cases hs'
      exact Foundry.due hr hv' h
  | go =>
    cases hs : P.go f with
    | error x => simp [fileAst, hs, Except.map] at hp
    | ok file =>
      simp only [fileAst, hs, Except.map, Except.ok.injEq] at hp
      subst hp
      cases hl
      have hf := hu file hs
      obtain ⟨_, _, hv'⟩ := TS.Go.own_visit (config := config) (skip := P.suppressed f d) (trim := P.trim f) hf hv
      refine ⟨fun k s t h => ⟨file, hs, TS.Go.removes hf hv' h⟩, ?_⟩
      rintro k s t ⟨file', hs', h⟩
      rw [hs] at hs'; cases hs'
      exact TS.Go.due hf hv' h
  | php =>
    cases hs : P.php f with
    | error x => simp [fileAst, hs, Except.map] at hp
    | ok file =>
      simp only [fileAst, hs, Except.map, Except.ok.injEq] at hp
      subst hp
      cases hl
      have hf := hu file hs
      obtain ⟨_, _, hv'⟩ := TS.Php.own_visit (config := config) (skip := P.suppressed f d) (trim := P.trim f) hf hv
      refine ⟨fun k s t h => ⟨file, hs, TS.Php.removes hf hv' h⟩, ?_⟩
      rintro k s t ⟨file', hs', h⟩
      rw [hs] at hs'; cases hs'
      exact TS.Php.due hf hv' h
  | rust =>
    cases hs : P.rs f with
    | error x => simp [fileAst, hs, Except.map] at hp
    | ok file =>
      simp only [fileAst, hs, Except.map, Except.ok.injEq] at hp
      subst hp
      cases hl
      obtain ⟨hr, fl, hfl, hnames⟩ := hu file hs
      simp only [rsAst, hfl] at hv
      obtain ⟨hc, _, _, hv'⟩ := Rs.own_visit (config := config) (key := P.rsKey) (skip := P.suppressed f d) (trim := P.trim f) hr hfl hnames hv
      refine ⟨fun k s t h => ⟨file, hs, Rs.removes hr hc hv' h⟩, ?_⟩
      rintro k s t ⟨file', hs', h⟩
      rw [hs] at hs'; cases hs'
      exact Rs.due hr hc hv' h

end Sources
end Necessist
