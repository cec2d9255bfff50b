import Verif.Spec.UnknownModules
import Verif.Lemmas.UnknownModules
import Verif.Lemmas.Parse
/-!
# Tests whose module path is unknown (C85): the visit of a file
-/
namespace Necessist.Rs
open Visit
open Rust (Cargo Caches St Found Err isTest testNew join cachedFlags cachedFlags_spec cachedFlags_stored Answers Stable Agrees Fine isTest_iff
  cachedFsModulePath_spec cachedFsModulePath cachedTestNames cachedFsModulePath_extends cachedTestNames_spec cachedTestNames_extends)
open Cache (Path)

/-! ## The tests of a file -/

theorem testFnsAll_eq (xs : List Syn) : testFnsAll xs = (xs.map testFns).flatten := by
  induction xs with
  | nil => rw [testFnsAll]; rfl
  | cons x xs ih => rw [testFnsAll, ih]; rfl

/-- The tests met are those of the parts, unless this is a function. -/
theorem testFns_kids {x : Syn} (h : ¬ Free x) : testFns x = (x.kids.map testFns).flatten := by
  cases x with
  | fn s n at_ sig b => exact absurd ⟨s, n, at_, sig, b, rfl⟩ h
  | macStmt s n t => simp [Syn.kids, testFns]
  | method s r n g as => simp [Syn.kids, testFns, testFnsAll_eq]
  | implFn s n sig b => simp [Syn.kids, testFns, testFnsAll_eq]
  | _ => simp [Syn.kids, testFns, testFnsAll_eq]

theorem free_or (x : Syn) : Free x ∨ ¬ Free x := Classical.em _

theorem hasTests : ∀ x : Syn, HasTests x (testFns x) := by
  intro x
  induction hn : sizeOf x using Nat.strongRecOn generalizing x with
  | _ k ih =>
    subst hn
    rcases free_or x with ⟨s, n, at_, sig, b, rfl⟩ | hf
    · rw [testFns]
      split
      · exact .test (isTest_iff.1 ‹_›)
      · exact .fn fun h => ‹¬ _› (isTest_iff.2 h)
    · rw [testFns_kids hf]
      refine .other hf (by simp) fun i h => ?_
      simp only [List.getElem_map]
      by_cases hm : ∃ s n t, x = .macStmt s n t
      · obtain ⟨s, n, t, rfl⟩ := hm
        simp only [Syn.kids, List.getElem_singleton]
        exact .other (x := .mac s n t) (ns := []) (Free.not_of nofun) rfl nofun
      · exact ih _ (sizeOf_kid (List.getElem_mem h) fun s n t e => hm ⟨s, n, t, e⟩) _ rfl

theorem HasTests.unique {x ns} (h : HasTests x ns) : ns = testFns x := by
  induction h with
  | test ha => rw [testFns, if_pos (isTest_iff.2 ha)]
  | fn ha => rw [testFns, if_neg fun h => ha (isTest_iff.1 h)]
  | other hf hl _ ih =>
    rw [testFns_kids hf]
    congr 1
    refine List.ext_getElem (by simp [hl]) fun i h1 h2 => ?_
    rw [List.getElem_map, ih i (by rw [← hl]; exact h1)]

theorem testFns_none : ∀ x : Syn, NoTestFn x → testFns x = [] := by
  intro x
  induction hn : sizeOf x using Nat.strongRecOn generalizing x with
  | _ k ih =>
    subst hn
    intro h
    rcases free_or x with ⟨s, n, at_, sig, b, rfl⟩ | hf
    · rw [testFns, if_neg fun ht => h _ (.refl _) ⟨s, n, at_, sig, b, rfl, isTest_iff.1 ht⟩]
    · rw [testFns_kids hf]
      by_cases hm : ∃ s n t, x = .macStmt s n t
      · obtain ⟨s, n, t, rfl⟩ := hm
        simp [Syn.kids, testFns]
      · rw [List.flatten_eq_nil_iff]
        intro l hl
        obtain ⟨y, hy, rfl⟩ := List.mem_map.1 hl
        exact ih _ (sizeOf_kid hy fun s n t e => hm ⟨s, n, t, e⟩) _ rfl (h.kid hf hy)

/-! ## The visit -/

section
variable {ω : Type} {cargo : Cargo ω} {a : Answers} {args : List Text} {path : Path} {s : St ω} {fl : List Text}
variable {key : Syn → Nat} {bkey : List Syn → Nat} {config : Compiled} {skip : Span → Bool} {trim : Span → Span} {file : Syn}

theorem foldl_unknown (e : Err) (ns : List Text) (f : Found) :
    ns.foldl (fun (f : Found) n => { f with unknown := f.unknown ++ [(n, e)] }) f = { f with unknown := f.unknown ++ ns.map (·, e) } := by
  induction ns generalizing f with
  | nil => simp
  | cons n ns ih => rw [List.foldl_cons, ih]; simp

theorem foldl_error (e : Err) (ns : List Text) (f : Found) :
    ns.foldl (fun (f : Found) (_ : Text) => { f with error := some e }) f = { f with error := if ns = [] then f.error else some e } := by
  induction ns generalizing f with
  | nil => simp
  | cons n ns ih => rw [List.foldl_cons, ih]; simp

theorem new_unknown {e : Err} (hs : Stable cargo a) (he : a.fsModulePath path = .error e) (p : List Text) (n : Text) (f : Found) (s : St ω)
    (hc : Fine a path fl s) : ∃ s', Fine a path fl s' ∧ testNew cargo args path p n f s = (.ok none, { f with unknown := f.unknown ++ [(n, e)] }, s') := by
  unfold testNew
  obtain ⟨h1, h2⟩ := cachedFsModulePath_spec hs (file := path) hc.1
  have h3 := (cachedFsModulePath_extends (cargo := cargo) (file := path) (s := s)).flags path fl hc.2
  generalize hx : cachedFsModulePath cargo path s = x at h1 h2 h3
  obtain ⟨r, s1⟩ := x
  dsimp only at h1 h2 h3
  rw [he] at h1
  subst h1
  exact ⟨s1, ⟨h2, h3⟩, rfl⟩

theorem new_fails {fs : List Text} {e : Err} (hs : Stable cargo a) (hok : a.fsModulePath path = .ok fs) (he : a.testNames fl args = .error e)
    (p : List Text) (n : Text) (f : Found) (s : St ω) (hc : Fine a path fl s) :
    ∃ s', Fine a path fl s' ∧ testNew cargo args path p n f s = (.error e, f, s') := by
  unfold testNew
  obtain ⟨h1, h2⟩ := cachedFsModulePath_spec hs (file := path) hc.1
  have h3 := (cachedFsModulePath_extends (cargo := cargo) (file := path) (s := s)).flags path fl hc.2
  generalize hx : cachedFsModulePath cargo path s = x at h1 h2 h3
  obtain ⟨r, s1⟩ := x
  dsimp only at h1 h2 h3
  rw [hok] at h1
  subst h1
  dsimp only
  obtain ⟨k1, k2⟩ := cachedTestNames_spec hs (args := args) h2 h3
  have k3 := (cachedTestNames_extends (cargo := cargo) (args := args) (file := path) (s := s1)).flags path fl h3
  generalize hy : cachedTestNames cargo args path s1 = y at k1 k2 k3
  obtain ⟨r, s2⟩ := y
  dsimp only at k1 k2 k3
  rw [he] at k1
  subst k1
  exact ⟨s2, ⟨k2, k3⟩, rfl⟩

/-- A visit that goes into no test. -/
theorem visitFile_comes (hr : Regular bkey file) (hs : Stable cargo a) (ha : Agrees s.1 a) (hfl : a.flags path = .ok fl) {g : Found → Text → Found}
    (hnew : ∀ p n f s, Fine a path fl s → ∃ s', Fine a path fl s' ∧ (testNew cargo args path p n f s = (.ok none, g f n, s') ∨
      ∃ e f', testNew cargo args path p n f s = (.error e, f', s') ∧ { f' with error := some e } = g f n)) (rounds : Nat) :
    (∀ st found s' walked, visitFile cargo args path key bkey config skip trim rounds file s = .done st found s' walked →
      Idle st ∧ found = (testFns file).foldl g {} ∧ found.error = none) ∧
    ∀ e s', visitFile cargo args path key bkey config skip trim rounds file s = .err e s' → ((testFns file).foldl g {}).error = some e := by
  obtain ⟨e1, e2⟩ := cachedFlags_spec hs (file := path) ha
  have e3 := cachedFlags_stored (cargo := cargo) (file := path) (s := s) (fl := fl) (e1.trans hfl)
  unfold visitFile
  rcases hc : cachedFlags cargo path s with ⟨r, s1⟩
  rw [hc] at e1 e2 e3
  rw [hfl] at e1
  cases e1
  simp only []
  split
  · exact ⟨nofun, nofun⟩
  · rename_i v hv
    obtain ⟨k1, k2, k3⟩ := visit_comes (E := ⟨cargo, args, path, key, bkey, visitorCfg key bkey config skip trim (fns file)⟩) hnew file []
      ⟨{}, {}, s1⟩ ⟨rfl, nofun, rfl, rfl, rfl⟩ ⟨e2, e3⟩ v hv
    obtain ⟨l1, l2⟩ := loop_comes (E := ⟨cargo, args, path, key, bkey, visitorCfg key bkey config skip trim (fns file)⟩) hnew (fs := fns file)
      (fun d hd => by
        rw [testFnsAll_eq, List.flatten_eq_nil_iff]
        intro l hl
        obtain ⟨y, hy, rfl⟩ := List.mem_map.1 hl
        exact testFns_none y ((fns_function hd).noTest hr hy)) rounds v [] k1 k2
    rw [k3] at l1 l2
    refine ⟨fun st found s' walked h => ?_, fun e s' h => l2 e s' h⟩
    obtain ⟨m1, m2, m3⟩ := l1 st found s' walked h
    exact ⟨m1, m2, m3⟩

/-- **C85.** If the module path of the file's tests is unknown, then each of its test functions is recorded as such, with the reason; no test is
found, no candidates are, and there is no error. -/
theorem C85_visit (hr : Regular bkey file) (hs : Stable cargo a) (ha : Agrees s.1 a) (hfl : a.flags path = .ok fl) {e : Err}
    (he : a.fsModulePath path = .error e) {ns : List Text} (hns : HasTests file ns) {rounds : Nat} :
    (∀ st found s' walked, visitFile cargo args path key bkey config skip trim rounds file s = .done st found s' walked →
      found.unknown = ns.map (·, e) ∧ found.tests = [] ∧ st.testSet = [] ∧ st.statements = [] ∧ st.methodCalls = []) ∧
    ∀ e s', visitFile cargo args path key bkey config skip trim rounds file s ≠ .err e s' := by
  obtain ⟨h1, h2⟩ := visitFile_comes (args := args) (key := key) (config := config) (skip := skip) (trim := trim) hr hs ha hfl
    (g := fun f n => { f with unknown := f.unknown ++ [(n, e)] }) (fun p n f s hc => by
      obtain ⟨s', k1, k2⟩ := new_unknown (args := args) hs he p n f s hc
      exact ⟨s', k1, .inl k2⟩) rounds
  rw [foldl_unknown, ← hns.unique] at h1 h2
  refine ⟨fun st found s' walked h => ?_, fun e s' h => ?_⟩
  · obtain ⟨k1, rfl, _⟩ := h1 st found s' walked h
    exact ⟨rfl, rfl, k1.tests, k1.statements, k1.methods⟩
  · cases h2 e s' h

/-- **C85.** If `cargo` fails to list the tests, then there is an error if and only if the file has test functions; otherwise no candidates are
found. -/
theorem C85_visit_fails (hr : Regular bkey file) (hs : Stable cargo a) (ha : Agrees s.1 a) (hfl : a.flags path = .ok fl) {fs : List Text} {e : Err}
    (hok : a.fsModulePath path = .ok fs) (he : a.testNames fl args = .error e) {ns : List Text} (hns : HasTests file ns) {rounds : Nat} :
    (∀ st found s' walked, visitFile cargo args path key bkey config skip trim rounds file s = .done st found s' walked →
      ns = [] ∧ found.unknown = [] ∧ found.tests = [] ∧ st.testSet = [] ∧ st.statements = [] ∧ st.methodCalls = []) ∧
    ∀ e' s', visitFile cargo args path key bkey config skip trim rounds file s = .err e' s' → ns ≠ [] ∧ e' = e := by
  obtain ⟨h1, h2⟩ := visitFile_comes (args := args) (key := key) (config := config) (skip := skip) (trim := trim) hr hs ha hfl
    (g := fun f _ => { f with error := some e }) (fun p n f s hc => by
      obtain ⟨s', k1, k2⟩ := new_fails hs hok he p n f s hc
      exact ⟨s', k1, .inr ⟨e, f, k2, rfl⟩⟩) rounds
  rw [foldl_error, ← hns.unique] at h1 h2
  refine ⟨fun st found s' walked h => ?_, fun e' s' h => ?_⟩
  · obtain ⟨k1, rfl, k3⟩ := h1 st found s' walked h
    refine ⟨?_, rfl, rfl, k1.tests, k1.statements, k1.methods⟩
    by_cases hn : ns = []
    · exact hn
    · rw [if_neg hn] at k3; cases k3
  · have := h2 e' s' h
    by_cases hn : ns = []
    · rw [if_pos hn] at this; cases this
    · rw [if_neg hn] at this; cases this; exact ⟨hn, rfl⟩

/-- **C85.** If the module path is known, then no test is recorded as one whose module path is not. -/
theorem C85_visit_known (hs : Stable cargo a) (ha : Agrees s.1 a) (hfl : a.flags path = .ok fl) {fs : List Text}
    (hok : a.fsModulePath path = .ok fs) {rounds : Nat} {st found s' walked}
    (h : visitFile cargo args path key bkey config skip trim rounds file s = .done st found s' walked) : found.unknown = [] := by
  have hnew : ∀ p n f s, Fine a path fl s → ∃ r f' s', testNew cargo args path p n f s = (r, f', s') ∧ Fine a path fl s' ∧ f'.unknown = f.unknown := by
    intro p n f s hc
    unfold testNew
    obtain ⟨h1, h2⟩ := cachedFsModulePath_spec hs (file := path) hc.1
    have h3 := (cachedFsModulePath_extends (cargo := cargo) (file := path) (s := s)).flags path fl hc.2
    generalize hx : cachedFsModulePath cargo path s = x at h1 h2 h3
    obtain ⟨r, s1⟩ := x
    dsimp only at h1 h2 h3
    rw [hok] at h1
    subst h1
    dsimp only
    obtain ⟨k1, k2⟩ := cachedTestNames_spec hs (args := args) h2 h3
    have k3 := (cachedTestNames_extends (cargo := cargo) (args := args) (file := path) (s := s1)).flags path fl h3
    generalize hy : cachedTestNames cargo args path s1 = y at k1 k2 k3
    obtain ⟨r, s2⟩ := y
    dsimp only at k1 k2 k3
    cases r with
    | error e => exact ⟨_, _, _, rfl, ⟨k2, k3⟩, rfl⟩
    | ok ns =>
      dsimp only
      split <;> exact ⟨_, _, _, rfl, ⟨k2, k3⟩, rfl⟩
  obtain ⟨e1, e2⟩ := cachedFlags_spec hs (file := path) ha
  have e3 := cachedFlags_stored (cargo := cargo) (file := path) (s := s) (fl := fl) (e1.trans hfl)
  unfold visitFile at h
  rcases hc : cachedFlags cargo path s with ⟨r, s1⟩
  rw [hc] at e1 e2 e3
  rw [hfl] at e1
  cases e1
  rw [hc] at h
  simp only [] at h
  split at h
  · cases h
  · rename_i v hv
    obtain ⟨k1, k2⟩ := visit_known (E := ⟨cargo, args, path, key, bkey, visitorCfg key bkey config skip trim (fns file)⟩) hnew file [] false
      ⟨{}, {}, s1⟩ ⟨e2, e3⟩ v hv
    exact (loop_known (E := ⟨cargo, args, path, key, bkey, visitorCfg key bkey config skip trim (fns file)⟩) hnew rounds v [] k1 _ _ _ _ h).trans k2
end
end Necessist.Rs
