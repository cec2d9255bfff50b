import Verif.Props.RustVisitorDemo
/-!
# Rust: when `cargo` fails (C74)
-/
namespace Necessist.Rs
open Visit
open Rust (Cargo Caches St Found Err Answers Stable Agrees Fine cachedFlags cachedFlags_spec cachedFlags_stored isTest_iff testNew
  testNew_spec foundStep isTest)
open Cache (Path)

variable {ω : Type} {a : Answers} {fl : List Text}

/-- `x` is `t`, or an item in `t` or in a module in `t`. -/
inductive ItemOf : Syn → Syn → Prop
  | refl (t) : ItemOf t t
  | part {s k t ps m x} : m ∈ ps → ItemOf m x → ItemOf (.other s k t ps) x
  | module {s n xs m x} : m ∈ xs → ItemOf m x → ItemOf (.mod_ s n xs) x

/-- A visit does not forget an error, nor break the caches. -/
def Keeps (a : Answers) (path : Path) (fl : List Text) (v : Vis ω) (r : Option (Vis ω)) : Prop :=
  ∀ v', r = some v' → Fine a path fl v.st → Fine a path fl v'.st ∧ (v.found.error ≠ none → v'.found.error ≠ none)

section
variable {path : Path}

theorem Keeps.pure {v : Vis ω} : Keeps a path fl v (some v) := by rintro _ ⟨⟩ h; exact ⟨h, id⟩

theorem Keeps.bind {v : Vis ω} {r k} (h : Keeps a path fl v r) (hk : ∀ v', Keeps a path fl v' (k v')) : Keeps a path fl v (r.bind k) := by
  intro v' hv' hf
  cases r with
  | none => cases hv'
  | some v1 =>
    obtain ⟨h1, h2⟩ := h v1 rfl hf
    obtain ⟨h3, h4⟩ := hk v1 v' hv' h1
    exact ⟨h3, h4 ∘ h2⟩

theorem Keeps.on {v : Vis ω} (f : VState → Option VState) : Keeps a path fl v (on f v) := by
  intro v' hv' hf
  unfold Rs.on at hv'
  cases h : f v.gen with
  | none => rw [h] at hv'; cases hv'
  | some g => rw [h] at hv'; cases hv'; exact ⟨hf, id⟩

theorem Keeps.ask {v : Vis ω} {k : Bool × Vis ω → Option (Vis ω)} (f : VState → Option (Bool × VState))
    (hk : ∀ b v', Keeps a path fl v' (k (b, v'))) : Keeps a path fl v ((Rs.ask f v).bind k) := by
  intro v' hv' hf
  unfold Rs.ask at hv'
  cases h : f v.gen with
  | none => rw [h] at hv'; cases hv'
  | some g =>
    rw [h] at hv'
    exact hk g.1 ⟨g.2, v.found, v.st⟩ v' hv' hf
end

theorem foundStep_error {fs : Except Err (List Text)} {ns : Except Err (List Text)} {f : Found} {p : List Text × Text}
    (h : f.error ≠ none) : (foundStep fs ns f p).error ≠ none := by
  unfold foundStep
  split
  · exact h
  · split
    · simp
    · split <;> exact h

section
variable {E : Env ω} (hs : Stable E.cargo a)
include hs

mutual
theorem visit_keeps : ∀ (x : Syn) (p : List Text) (i : Bool) (v : Vis ω), Keeps a E.file fl v (visit E p i x v)
  | .ident s n, p, i, v => by rw [visit]; exact .pure
  | .mac s n t, p, i, v => by rw [visit]; exact .ask _ fun _ _ => .pure
  | .path s t ps, p, i, v => by rw [visit]; exact visitAll_keeps ps p i v
  | .other s k t ps, p, i, v => by rw [visit]; exact visitAll_keeps ps p i v
  | .field s b n, p, i, v => by rw [visit]; exact visit_keeps b p i v
  | .await s b, p, i, v => by rw [visit]; exact visit_keeps b p i v
  | .call s f as, p, i, v => by
    rw [visit]
    refine .ask _ fun b v' => ?_
    dsimp only
    split
    · exact .bind (visit_keeps f p i v') fun v2 => visitAll_keeps as p i v2
    · exact visit_keeps f p i v'
  | .method s r n g as, p, i, v => by
    rw [visit]
    refine .ask _ fun b v' => ?_
    dsimp only
    split
    · exact .bind (visit_keeps r p i v') fun v2 => .bind (visitAll_keeps g p i v2) fun v3 => visitAll_keeps as p i v3
    · exact visit_keeps r p i v'
  | .expr s e semi, p, i, v => by
    rw [visit]; exact .bind (.on _) fun v1 => .bind (visit_keeps e p i v1) fun v2 => .on _
  | .macStmt s n t, p, i, v => by
    rw [visit]; exact .bind (.on _) fun v1 => .ask _ fun _ _ => .on _
  | .local_ s t ps, p, i, v => by
    rw [visit]; exact .bind (.on _) fun v1 => .bind (visitAll_keeps ps p i v1) fun v2 => .on _
  | .item s x, p, i, v => by
    rw [visit]; exact .bind (.on _) fun v1 => .bind (visit_keeps x p i v1) fun v2 => .on _
  | .mod_ s n xs, p, i, v => by rw [visit]; exact visitAll_keeps xs _ i v
  | .implFn s n sig b, p, i, v => by
    rw [visit]; exact .bind (visitAll_keeps sig p i v) fun v2 => visitAll_keeps b p i v2
  | .fn s n at_ sig b, p, i, v => by
    rw [visit]
    split
    · split
      · intro v' h; cases h
      · intro v' hv' hf
        have ht := testNew_spec hs (args := E.args) (path := p) (name := n) (f := v.found) hf
        rcases he : testNew E.cargo E.args E.file p n v.found v.st with ⟨r, f', s'⟩
        rw [he] at ht hv'
        have hstep := fun h => foundStep_error (fs := a.fsModulePath E.file) (ns := a.testNames fl E.args) (p := (p, n)) (f := v.found) h
        rcases r with e | _ | t
        · cases hv'
          exact ⟨ht.2, fun _ => by simp⟩
        · cases hv'
          exact ⟨ht.2, fun h => ht.1 ▸ hstep h⟩
        · dsimp only at ht hv'
          have hk : Keeps a E.file fl (⟨v.gen, { f' with tests := f'.tests ++ [t] }, s'⟩ : Vis ω) (some v') := by
            rw [← hv']
            refine .ask _ fun go v1 => .bind ?_ fun v2 => .on _
            dsimp only
            split
            · exact .bind (visitAll_keeps sig p true v1) fun v2 => visitAll_keeps b p true v2
            · exact .pure
          obtain ⟨h1, h2⟩ := hk v' rfl ht.2
          exact ⟨h1, fun h => h2 (ht.1 ▸ hstep h)⟩
    · exact .pure
theorem visitAll_keeps : ∀ (xs : List Syn) (p : List Text) (i : Bool) (v : Vis ω), Keeps a E.file fl v (visitAll E p i xs v)
  | [], p, i, v => by rw [visitAll]; exact .pure
  | x :: xs, p, i, v => by rw [visitAll]; exact .bind (visit_keeps x p i v) fun v' => visitAll_keeps xs p i v'
end

variable {e : Err} {fs : List Text} (hfs : a.fsModulePath E.file = .ok fs) (hns : a.testNames fl E.args = .error e)
include hfs hns

mutual
theorem visit_hits : ∀ (x : Syn) (p : List Text) (v v' : Vis ω), (∃ y, ItemOf x y ∧ TestFn y) → Fine a E.file fl v.st →
    visit E p false x v = some v' → v'.found.error ≠ none
  | .other s k t ps, p, v, v', hy, hf, h => by
    rw [visit] at h
    refine visitAll_hits ps p v v' ?_ hf h
    obtain ⟨y, hy, ht⟩ := hy
    cases hy with
    | refl => obtain ⟨_, _, _, _, _, h, _⟩ := ht; cases h
    | part hm hx => exact ⟨_, hm, y, hx, ht⟩
  | .mod_ s n xs, p, v, v', hy, hf, h => by
    rw [visit] at h
    refine visitAll_hits xs _ v v' ?_ hf h
    obtain ⟨y, hy, ht⟩ := hy
    cases hy with
    | refl => obtain ⟨_, _, _, _, _, h, _⟩ := ht; cases h
    | module hm hx => exact ⟨_, hm, y, hx, ht⟩
  | .fn s n at_ sig b, p, v, v', hy, hf, h => by
    obtain ⟨y, hy, ht⟩ := hy
    cases hy
    obtain ⟨_, _, _, _, _, h1, h2⟩ := ht
    cases h1
    rw [visit, if_pos (isTest_iff.mpr h2), if_neg (by simp)] at h
    have ht := testNew_spec hs (args := E.args) (path := p) (name := n) (f := v.found) hf
    rcases he : testNew E.cargo E.args E.file p n v.found v.st with ⟨r, f', s'⟩
    rw [he] at ht h
    have hst : (foundStep (a.fsModulePath E.file) (a.testNames fl E.args) v.found (p, n)).error ≠ none := by
      rw [hfs, hns]; simp [foundStep]
    rcases r with e' | _ | t
    · cases h; simp
    · cases h
      dsimp only at ht ⊢
      rw [ht.1]; exact hst
    · dsimp only at ht h
      have hk : Keeps a E.file fl (⟨v.gen, { f' with tests := f'.tests ++ [t] }, s'⟩ : Vis ω) (some v') := by
        rw [← h]
        refine .ask _ fun go v1 => .bind ?_ fun v2 => .on _
        dsimp only
        split
        · exact .bind (visitAll_keeps hs sig p true v1) fun v2 => visitAll_keeps hs b p true v2
        · exact .pure
      exact (hk v' rfl ht.2).2 (by dsimp only; rw [← ht.1] at hst; exact hst)
  | .ident .., p, v, v', hy, hf, h | .mac .., p, v, v', hy, hf, h | .path .., p, v, v', hy, hf, h | .field .., p, v, v', hy, hf, h
  | .await .., p, v, v', hy, hf, h | .call .., p, v, v', hy, hf, h | .method .., p, v, v', hy, hf, h | .expr .., p, v, v', hy, hf, h
  | .macStmt .., p, v, v', hy, hf, h | .local_ .., p, v, v', hy, hf, h | .item .., p, v, v', hy, hf, h
  | .implFn .., p, v, v', hy, hf, h => by
    obtain ⟨y, hy, ht⟩ := hy
    cases hy
    obtain ⟨_, _, _, _, _, h, _⟩ := ht
    cases h
theorem visitAll_hits : ∀ (xs : List Syn) (p : List Text) (v v' : Vis ω), (∃ x ∈ xs, ∃ y, ItemOf x y ∧ TestFn y) → Fine a E.file fl v.st →
    visitAll E p false xs v = some v' → v'.found.error ≠ none
  | [], p, v, v', hy, hf, h => by obtain ⟨x, hx, _⟩ := hy; cases hx
  | x :: xs, p, v, v', hy, hf, h => by
    rw [visitAll] at h
    cases h1 : visit E p false x v with
    | none => rw [h1] at h; cases h
    | some v1 =>
      rw [h1] at h
      have hf1 := (visit_keeps hs x p false v v1 h1 hf).1
      obtain ⟨z, hz, y, hy⟩ := hy
      by_cases hc : ∃ y, ItemOf x y ∧ TestFn y
      · exact (visitAll_keeps hs xs p false v1 v' h hf1).2 (visit_hits x p v v1 hc hf h1)
      · rcases List.mem_cons.mp hz with rfl | hz
        · exact absurd ⟨y, hy⟩ hc
        · exact visitAll_hits xs p v1 v' ⟨z, hz, y, hy⟩ hf1 h
end
end

section
variable {cargo : Cargo ω} {args : List Text} {path : Path} {s : St ω}
variable {key : Syn → Nat} {bkey : List Syn → Nat} {config : Compiled} {skip : Span → Bool} {trim : Span → Span} {file : Syn}

theorem loop_error {E : Env ω} {fs : List Fn} {rounds : Nat} {v : Vis ω} {w st found s' walked} (hs : Stable E.cargo a)
    (hf : Fine a E.file fl v.st) (h : loop E fs rounds v w = .done st found s' walked) : v.found.error = none := by
  induction rounds generalizing v w with
  | zero =>
    rw [loop.eq_def] at h
    dsimp only at h
    cases hn : nextLocalFunction v.gen with
    | none =>
      rw [hn] at h
      cases he : v.found.error with
      | none => rfl
      | some e => rw [he] at h; cases h
    | some fg => rw [hn] at h; cases h
  | succ rounds ih =>
    rw [loop.eq_def] at h
    dsimp only at h
    cases hn : nextLocalFunction v.gen with
    | none =>
      rw [hn] at h
      cases he : v.found.error with
      | none => rfl
      | some e => rw [he] at h; cases h
    | some fg =>
      obtain ⟨f, g⟩ := fg
      rw [hn] at h
      dsimp only at h
      cases hd : fs.find? fun d => E.bkey d.body == f.key with
      | none => rw [hd] at h; cases h
      | some d =>
        rw [hd] at h
        dsimp only at h
        cases hv : visitAll E [] false d.body { v with gen := g } with
        | none => rw [hv] at h; cases h
        | some v1 =>
          rw [hv] at h
          obtain ⟨h1, h2⟩ := visitAll_keeps hs d.body [] false _ v1 hv hf
          have := ih h1 h
          by_cases he : v.found.error = none
          · exact he
          · exact absurd this (h2 he)

/-- **C74.** If `cargo` does not know the file's package, then visiting the file is an error. -/
theorem C74_no_package (hs : Stable cargo a) (hc : Agrees s.1 a) {e : Err} (he : a.flags path = .error e) (rounds : Nat) :
    ∃ s', visitFile cargo args path key bkey config skip trim rounds file s = .err e s' := by
  unfold visitFile
  obtain ⟨h1, -⟩ := cachedFlags_spec hs (file := path) hc
  rcases hx : cachedFlags cargo path s with ⟨r, s'⟩
  rw [hx, he] at h1
  dsimp only at h1 ⊢
  subst h1
  exact ⟨s', rfl⟩

/-- **C74.** If the file or one of its modules contains a test function, the modules' path is known and `cargo` fails to list the tests, then
the file is not taken for one without tests: visiting it does not succeed. -/
theorem C74_no_list (hs : Stable cargo a) (hc : Agrees s.1 a) {fl fs : List Text} {e : Err} (hfl : a.flags path = .ok fl)
    (hfs : a.fsModulePath path = .ok fs) (hns : a.testNames fl args = .error e) (ht : ∃ y, ItemOf file y ∧ TestFn y) (rounds : Nat)
    (st found s' walked) : visitFile cargo args path key bkey config skip trim rounds file s ≠ .done st found s' walked := by
  intro h
  unfold visitFile at h
  obtain ⟨h1, h2⟩ := cachedFlags_spec hs (file := path) hc
  have h3 := cachedFlags_stored (cargo := cargo) (file := path) (s := s) (fl := fl)
  rcases hx : cachedFlags cargo path s with ⟨r, s1⟩
  rw [hx] at h h1 h2 h3
  rw [hfl] at h1
  dsimp only at h h1 h2 h3
  subst h1
  have hf : Fine a path fl s1 := ⟨h2, h3 rfl⟩
  dsimp only at h
  cases hv : visit ⟨cargo, args, path, key, bkey, visitorCfg key bkey config skip trim (fns file)⟩ [] false file ⟨{}, {}, s1⟩ with
  | none => rw [hv] at h; cases h
  | some v =>
    rw [hv] at h
    dsimp only at h
    have h4 := visit_hits (E := ⟨cargo, args, path, key, bkey, visitorCfg key bkey config skip trim (fns file)⟩) hs hfs hns file [] _ v ht hf hv
    have h5 := (visit_keeps (E := ⟨cargo, args, path, key, bkey, visitorCfg key bkey config skip trim (fns file)⟩) hs file [] false _ v hv hf).1
    exact h4 (loop_error (a := a) (fl := fl) hs h5 h)
end

namespace Demo

/-- `cargo` knows the package but fails to list the tests. -/
def unlisting : Answers := { Rust.Demo.answers with list := fun _ => .error .list }
/-- `cargo` knows no package. -/
def knowsNothing : Answers := { Rust.Demo.answers with metadata := fun _ => .ok [] }

theorem unlisting_stable : Stable (⟨fun d w => (unlisting.metadata d, w), fun l w => (unlisting.list l, w)⟩ : Cargo Unit) unlisting :=
  ⟨fun _ _ => rfl, fun _ _ => rfl⟩

def errOf {α ε : Type} : Except ε α → Bool
  | .ok _ => false
  | .error _ => true

theorem errOf_eq {α ε : Type} {e : Except ε α} (h : errOf e = true) : ∃ x, e = .error x := by
  cases e with
  | ok _ => cases h
  | error x => exact ⟨x, rfl⟩

theorem tree_test : ∃ y, ItemOf tree y ∧ TestFn y :=
  ⟨_, .part (.tail _ (.head _)) (.module (.head _) (.refl _)), _, _, _, _, _, rfl, isTest_iff.mp (by decide +kernel)⟩

-- the example tree has test functions, in a module
example (rounds : Nat) (st found s' walked) :
    visitFile (⟨fun d w => (unlisting.metadata d, w), fun l w => (unlisting.list l, w)⟩ : Cargo Unit) [] Rust.Demo.file key bkey config
      (fun _ => false) id rounds tree ({}, ()) ≠ .done st found s' walked := by
  obtain ⟨fs, hfs⟩ := okOf_some (e := unlisting.fsModulePath Rust.Demo.file) (by decide +kernel)
  obtain ⟨e, he⟩ := errOf_eq (e := unlisting.testNames Demo.fl []) (by decide +kernel)
  exact C74_no_list unlisting_stable Rust.agrees_empty (fl := Demo.fl) (okOf_eq (by decide +kernel)) hfs he tree_test rounds _ _ _ _

example : errOf (knowsNothing.flags Rust.Demo.file) = true := by decide +kernel
end Demo
end Necessist.Rs
