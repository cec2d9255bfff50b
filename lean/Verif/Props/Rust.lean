import Verif.Spec.Rust
import Verif.Props.Cache
import Verif.Props.Text
/-!
# C57, C58, C67, C68: Rust
-/
namespace Necessist.Rust
open Cache (Path orTryInsertWith)

/-! ### C58: packages -/

theorem parent_eq {p dir : Path} : parent p = some dir ↔ ∃ x, p = dir ++ [x] := by
  cases p with
  | nil => simp [parent]
  | cons a as =>
    rw [parent]
    · simp only [Option.some.injEq]
      constructor
      · intro h
        exact ⟨(a :: as).getLast (by simp), by rw [← h, List.dropLast_concat_getLast]⟩
      · rintro ⟨x, h⟩
        rw [h]; simp
    · simp

theorem manifestIn_iff {p : Package} {dir : Path} : ManifestIn p dir ↔ parent p.manifest = some dir := parent_eq.symm

/-- The best among those considered. -/
def Best (seen : List Package) (file : Path) : Option Package → Prop
  | none => ∀ q ∈ seen, ∀ dir, ManifestIn q dir → ¬ dir <+: file
  | some p => IsNearest seen file p ∧ ∃ before after, seen = before ++ p :: after ∧ ∀ q ∈ before, ¬ IsNearest seen file q

theorem manifestIn_inj {p : Package} {d d' : Path} (h : ManifestIn p d) (h' : ManifestIn p d') : d = d' := by
  rw [manifestIn_iff] at h h'
  rw [h] at h'; cases h'; rfl

theorem best_step {seen : List Package} {file : Path} {near : Option Package} {curr : Package} {dir : Path} (hb : Best seen file near)
    (hd : ManifestIn curr dir) (hf : dir <+: file) : Best (seen ++ [curr]) file (match near with
      | some prev => if prev.manifest.length < curr.manifest.length then some curr else some prev
      | none => some curr) := by
  cases near with
  | none =>
    refine ⟨⟨dir, by simp, hd, hf, ?_⟩, seen, [], rfl, ?_⟩
    · intro q hq dir' hd' hf'
      rcases List.mem_append.1 hq with hq | hq
      · exact absurd hf' (hb q hq dir' hd')
      · simp only [List.mem_singleton] at hq
        subst hq; rw [manifestIn_inj hd' hd]; exact List.prefix_rfl
    · rintro q hq ⟨d, _, h1, h2, _⟩
      exact hb q hq d h1 h2
  | some prev =>
    obtain ⟨⟨pd, h1, h2, h3, h4⟩, b, a, hs, hfirst⟩ := hb
    obtain ⟨pn, hpn⟩ := h2
    obtain ⟨cn, hcn⟩ := hd
    have hd : ManifestIn curr dir := ⟨cn, hcn⟩
    have h2 : ManifestIn prev pd := ⟨pn, hpn⟩
    dsimp only
    have hlen : prev.manifest.length < curr.manifest.length ↔ pd.length < dir.length := by rw [hpn, hcn]; simp
    by_cases hlt : prev.manifest.length < curr.manifest.length
    · rw [if_pos hlt]
      rw [hlen] at hlt
      have hpp : pd <+: dir := List.prefix_of_prefix_length_le h3 hf (Nat.le_of_lt hlt)
      refine ⟨⟨dir, by simp, hd, hf, ?_⟩, seen, [], rfl, ?_⟩
      · intro q hq dir' hd' hf'
        rcases List.mem_append.1 hq with hq | hq
        · exact (h4 q hq dir' hd' hf').trans hpp
        · simp only [List.mem_singleton] at hq
          subst hq; rw [manifestIn_inj hd' hd]; exact List.prefix_rfl
      · rintro q hq ⟨d, _, e1, e2, e3⟩
        have := (e3 curr (by simp) dir hd hf).length_le
        have := (h4 q hq d e1 e2).length_le
        omega
    · rw [if_neg hlt]
      rw [hlen] at hlt
      have hpp : dir <+: pd := List.prefix_of_prefix_length_le hf h3 (by omega)
      have hn : IsNearest (seen ++ [curr]) file prev := by
        refine ⟨pd, by simp [h1], h2, h3, ?_⟩
        intro q hq dir' hd' hf'
        rcases List.mem_append.1 hq with hq | hq
        · exact h4 q hq dir' hd' hf'
        · simp only [List.mem_singleton] at hq
          subst hq; rw [manifestIn_inj hd' hd]; exact hpp
      refine ⟨hn, b, a ++ [curr], by simp [hs], ?_⟩
      rintro q hq ⟨d, _, e1, e2, e3⟩
      refine hfirst q hq ⟨d, by rw [hs]; simp [hq], e1, e2, fun q' hq' => e3 q' (by simp [hq'])⟩

theorem nearest_spec (file : Path) (ps : List Package) : ∀ seen near, Best seen file near → ∀ r, nearest file ps near = .ok r →
    Best (seen ++ ps) file r := by
  induction ps with
  | nil => intro seen near hb r h; cases h; simpa using hb
  | cons c cs ih =>
    intro seen near hb r h
    rw [nearest.eq_def] at h
    dsimp only at h
    cases hp : parent c.manifest with
    | none => rw [hp] at h; cases h
    | some dir =>
      rw [hp] at h
      dsimp only at h
      have hd : ManifestIn c dir := manifestIn_iff.2 hp
      rw [show seen ++ c :: cs = (seen ++ [c]) ++ cs by simp]
      by_cases hf : dir.isPrefixOf file = true
      · rw [if_neg (by simp [hf])] at h
        have := best_step hb hd (List.isPrefixOf_iff_prefix.1 hf)
        cases near with
        | none => exact ih _ _ this r h
        | some prev => exact ih _ _ this r h
      · rw [if_pos hf] at h
        have hf' : ¬ dir <+: file := fun h => hf (List.isPrefixOf_iff_prefix.2 h)
        refine ih _ near ?_ r h
        cases near with
        | none =>
          intro q hq d h1 h2
          rcases List.mem_append.1 hq with hq | hq
          · exact hb q hq d h1 h2
          · simp only [List.mem_singleton] at hq
            subst hq; rw [manifestIn_inj h1 hd] at h2; exact hf' h2
        | some prev =>
          obtain ⟨⟨pd, h1, h2, h3, h4⟩, b, a, hs, hfirst⟩ := hb
          have : ∀ {d}, (∀ q ∈ seen, ∀ dir', ManifestIn q dir' → dir' <+: file → dir' <+: d) →
              ∀ q ∈ seen ++ [c], ∀ dir', ManifestIn q dir' → dir' <+: file → dir' <+: d := by
            intro d hh q hq dir' e1 e2
            rcases List.mem_append.1 hq with hq | hq
            · exact hh q hq dir' e1 e2
            · simp only [List.mem_singleton] at hq
              subst hq; rw [manifestIn_inj e1 hd] at e2; exact absurd e2 hf'
          refine ⟨⟨pd, by simp [h1], h2, h3, this h4⟩, b, a ++ [c], by simp [hs], ?_⟩
          rintro q hq ⟨d, _, e1, e2, e3⟩
          exact hfirst q hq ⟨d, by rw [hs]; simp [hq], e1, e2, fun q' hq' => e3 q' (by simp [hq'])⟩

theorem nearest_ok (file : Path) (ps : List Package) (hm : ∀ p ∈ ps, ∃ dir, ManifestIn p dir) : ∀ near, ∃ r, nearest file ps near = .ok r := by
  induction ps with
  | nil => intro near; exact ⟨_, rfl⟩
  | cons c cs ih =>
    intro near
    have ih := ih fun p hp => hm p (List.mem_cons_of_mem _ hp)
    obtain ⟨dir, hd⟩ := hm c (List.mem_cons_self ..)
    rw [nearest.eq_def]
    dsimp only
    rw [manifestIn_iff.1 hd]
    dsimp only
    split
    · exact ih _
    · split <;> exact ih _

theorem nearest_mono (file : Path) (ps : List Package) : ∀ near, near ≠ none → nearest file ps near ≠ .ok none := by
  induction ps with
  | nil => intro near hn h; cases h; exact hn rfl
  | cons c cs ih =>
    intro near hn h
    rw [nearest.eq_def] at h
    dsimp only at h
    split at h
    · cases h
    · split at h
      · exact ih _ hn h
      · split at h
        · refine ih _ ?_ h; split <;> simp
        · exact ih _ (by simp) h

/-- **C58.** The package is the one whose manifest's directory is the longest that contains the file; if there are several in that
directory, the first of them. -/
theorem C58_nearest {file : Path} {ps : List Package} {p : Package} (h : nearest file ps none = .ok (some p)) :
    IsNearest ps file p ∧ ∃ before after, ps = before ++ p :: after ∧ ∀ q ∈ before, ¬ IsNearest ps file q := by
  have := nearest_spec file ps [] none (by intro q hq; cases hq) _ h
  simpa [Best] using this

/-- **C58.** There is one exactly if the file is in some package's directory. (A manifest always is in some directory.) -/
theorem C58_exists {file : Path} {ps : List Package} (hm : ∀ p ∈ ps, ∃ dir, ManifestIn p dir) :
    (∃ p, nearest file ps none = .ok (some p)) ↔ ∃ q ∈ ps, ∃ dir, ManifestIn q dir ∧ dir <+: file := by
  obtain ⟨r, hr⟩ := nearest_ok file ps hm none
  have := nearest_spec file ps [] none (by intro q hq; cases hq) _ hr
  rw [hr]
  cases r with
  | none =>
    simp only [List.nil_append, Best] at this
    constructor
    · rintro ⟨p, h⟩; cases h
    · rintro ⟨q, hq, dir, h1, h2⟩; exact absurd h2 (this q hq dir h1)
  | some p =>
    obtain ⟨⟨d, h1, h2, h3, _⟩, _⟩ := this
    exact ⟨fun _ => ⟨p, h1, d, h2, h3⟩, fun _ => ⟨p, rfl⟩⟩

/-! ### Caches -/

section
variable {ω σ κ ν : Type} [BEq κ] [LawfulBEq κ]

theorem orTry_spec {m : List (κ × ν)} {k : κ} {f : κ → Except Err ν} {default : σ → Except Err ν × σ} {s : σ}
    (hm : ∀ k v, m.lookup k = some v → f k = .ok v) (hd : m.lookup k = none → (default s).1 = f k) :
    (orTryInsertWith k default m s).1 = f k ∧
      (∀ k' v, (orTryInsertWith k default m s).2.1.lookup k' = some v → f k' = .ok v) := by
  unfold orTryInsertWith
  cases hl : m.lookup k with
  | some v => exact ⟨(hm k v hl).symm, hm⟩
  | none =>
    have hd := hd hl
    dsimp only
    cases hds : default s with
    | mk r s' =>
      rw [hds] at hd
      cases r with
      | error e => exact ⟨hd, hm⟩
      | ok v =>
        refine ⟨hd, ?_⟩
        intro k' v' h
        simp only [Cache.lookup_cons] at h
        by_cases hk : k' = k
        · subst hk; simp at h; subst h; exact hd.symm
        · have : (k' == k) = false := by simpa using hk
          rw [this] at h
          exact hm k' v' h

theorem orTry_extends {m : List (κ × ν)} {k : κ} {default : σ → Except Err ν × σ} {s : σ} :
    ∀ k' v, m.lookup k' = some v → (orTryInsertWith k default m s).2.1.lookup k' = some v := by
  intro k' v h
  unfold orTryInsertWith
  cases hl : m.lookup k with
  | some v => exact h
  | none =>
    dsimp only
    cases hds : default s with
    | mk r s' =>
      cases r with
      | error e => exact h
      | ok v' =>
        simp only [Cache.lookup_cons]
        by_cases hk : k' = k
        · subst hk; rw [hl] at h; cases h
        · have : (k' == k) = false := by simpa using hk
          rw [this]; exact h

theorem orTry_stored {m : List (κ × ν)} {k : κ} {default : σ → Except Err ν × σ} {s : σ} {v : ν}
    (h : (orTryInsertWith k default m s).1 = .ok v) : (orTryInsertWith k default m s).2.1.lookup k = some v := by
  unfold orTryInsertWith at h ⊢
  cases hl : m.lookup k with
  | some v => rw [hl] at h; cases h; exact hl
  | none =>
    rw [hl] at h
    dsimp only at h ⊢
    cases hds : default s with
    | mk r s' =>
      rw [hds] at h
      cases r with
      | error e => cases h
      | ok v' => cases h; simp [Cache.lookup_cons]

theorem orTry_state {m : List (κ × ν)} {k : κ} {default : σ → Except Err ν × σ} {s : σ} (P : σ → Prop) (h0 : P s)
    (h1 : P (default s).2) : P (orTryInsertWith k default m s).2.2 := by
  unfold orTryInsertWith
  cases hl : m.lookup k with
  | some v => exact h0
  | none =>
    dsimp only
    cases hds : default s with
    | mk r s' =>
      rw [hds] at h1
      cases r <;> exact h1
end

theorem Extends.refl (c : Caches) : Extends c c := ⟨fun _ _ h => h, fun _ _ h => h, fun _ _ h => h, fun _ _ h => h, fun _ _ h => h⟩
theorem Extends.trans {a b c : Caches} (h : Extends a b) (h' : Extends b c) : Extends a c :=
  ⟨fun _ _ x => h'.1 _ _ (h.1 _ _ x), fun _ _ x => h'.2 _ _ (h.2 _ _ x), fun _ _ x => h'.3 _ _ (h.3 _ _ x),
    fun _ _ x => h'.4 _ _ (h.4 _ _ x), fun _ _ x => h'.5 _ _ (h.5 _ _ x)⟩

section
variable {ω : Type} {cargo : Cargo ω} {a : Answers}

theorem agrees_empty : Agrees {} a := by
  constructor <;> (intro k v h; cases h)

theorem cachedMetadata_spec (hs : Stable cargo a) {dir : Path} {s : St ω} (hc : Agrees s.1 a) :
    (cachedMetadata cargo dir s).1 = a.metadata dir ∧ Agrees (cachedMetadata cargo dir s).2.1 a := by
  have := orTry_spec (k := dir) (default := cargo.metadata dir) (s := s.2) hc.metadata (fun _ => hs.1 dir s.2)
  unfold cachedMetadata
  exact ⟨this.1, { hc with metadata := this.2 }⟩

theorem cachedMetadata_extends {dir : Path} {s : St ω} : Extends s.1 (cachedMetadata cargo dir s).2.1 := by
  unfold cachedMetadata
  exact { Extends.refl s.1 with metadata := orTry_extends }

/-- The computation in `cachedPackage`. -/
def packageDefault (cargo : Cargo ω) (file : Path) (s : St ω) : Except Err Package × St ω :=
  match parent file with
  | none => (.error .parent, s)
  | some dir => match cachedMetadata cargo dir s with
    | (.error e, s) => (.error e, s)
    | (.ok packages, s) => match nearest file packages none with
      | .error e => (.error e, s)
      | .ok none => (.error .package, s)
      | .ok (some p) => (.ok p, s)

theorem cachedPackage_eq (file : Path) (s : St ω) : cachedPackage cargo file s =
    match orTryInsertWith file (packageDefault cargo file) s.1.package s with
    | (r, m, s) => (r, ({ s.1 with package := m }, s.2)) := rfl

theorem packageDefault_keeps {file : Path} {s : St ω} : (packageDefault cargo file s).2.1.package = s.1.package ∧
    Extends s.1 (packageDefault cargo file s).2.1 := by
  unfold packageDefault
  cases parent file with
  | none => exact ⟨rfl, Extends.refl _⟩
  | some dir =>
    dsimp only
    have h1 : (cachedMetadata cargo dir s).2.1.package = s.1.package := rfl
    have h2 := cachedMetadata_extends (cargo := cargo) (dir := dir) (s := s)
    generalize hx : cachedMetadata cargo dir s = x at h1 h2
    obtain ⟨r, s'⟩ := x
    cases r with
    | error e => exact ⟨h1, h2⟩
    | ok ps =>
      dsimp only
      cases nearest file ps none with
      | error e => exact ⟨h1, h2⟩
      | ok o => cases o <;> exact ⟨h1, h2⟩

theorem packageDefault_spec (hs : Stable cargo a) {file : Path} {s : St ω} (hc : Agrees s.1 a) :
    (packageDefault cargo file s).1 = a.package file ∧ Agrees (packageDefault cargo file s).2.1 a := by
  unfold packageDefault Answers.package
  cases parent file with
  | none => exact ⟨rfl, hc⟩
  | some dir =>
    dsimp only
    obtain ⟨h1, h2⟩ := cachedMetadata_spec hs (dir := dir) hc
    generalize hx : cachedMetadata cargo dir s = x at h1 h2
    obtain ⟨r, s'⟩ := x
    dsimp only at h1 h2 ⊢
    rw [← h1]
    cases r with
    | error e => exact ⟨rfl, h2⟩
    | ok ps =>
      dsimp only
      cases nearest file ps none with
      | error e => exact ⟨rfl, h2⟩
      | ok o => cases o <;> exact ⟨rfl, h2⟩

theorem cachedPackage_spec (hs : Stable cargo a) {file : Path} {s : St ω} (hc : Agrees s.1 a) :
    (cachedPackage cargo file s).1 = a.package file ∧ Agrees (cachedPackage cargo file s).2.1 a := by
  have h := orTry_spec (k := file) (default := packageDefault cargo file) (s := s) hc.package (fun _ => (packageDefault_spec hs hc).1)
  have hst := orTry_state (k := file) (m := s.1.package) (default := packageDefault cargo file) (s := s) (fun s => Agrees s.1 a) hc
    (packageDefault_spec hs hc).2
  rw [cachedPackage_eq]
  exact ⟨h.1, { hst with package := h.2 }⟩

theorem cachedPackage_extends {file : Path} {s : St ω} : Extends s.1 (cachedPackage cargo file s).2.1 := by
  have hst := orTry_state (k := file) (m := s.1.package) (default := packageDefault cargo file) (s := s) (fun s' => Extends s.1 s'.1)
    (Extends.refl _) packageDefault_keeps.2
  rw [cachedPackage_eq]
  exact { hst with package := orTry_extends }

/-- The computation in `cachedFsModulePath`. -/
def fsDefault (cargo : Cargo ω) (file : Path) (s : St ω) : Except Err (List Text) × St ω :=
  match cachedPackage cargo file s with
  | (.error e, s) => (.error e, s)
  | (.ok p, s) => match parent p.manifest with
    | none => (.error .parent, s)
    | some dir => match relativePath dir file prefixes with
      | none => (.error .relative, s)
      | some rel => (.ok (fsModulePathOf rel), s)

theorem cachedFsModulePath_eq (file : Path) (s : St ω) : cachedFsModulePath cargo file s =
    match orTryInsertWith file (fsDefault cargo file) s.1.fsModulePath s with
    | (r, m, s) => (r, ({ s.1 with fsModulePath := m }, s.2)) := rfl

theorem fsDefault_extends {file : Path} {s : St ω} : Extends s.1 (fsDefault cargo file s).2.1 := by
  unfold fsDefault
  have h2 := cachedPackage_extends (cargo := cargo) (file := file) (s := s)
  generalize hx : cachedPackage cargo file s = x at h2
  obtain ⟨r, s'⟩ := x
  cases r with
  | error e => exact h2
  | ok p =>
    dsimp only
    cases parent p.manifest with
    | none => exact h2
    | some dir => dsimp only; cases relativePath dir file prefixes <;> exact h2

theorem fsDefault_spec (hs : Stable cargo a) {file : Path} {s : St ω} (hc : Agrees s.1 a) :
    (fsDefault cargo file s).1 = a.fsModulePath file ∧ Agrees (fsDefault cargo file s).2.1 a := by
  unfold fsDefault Answers.fsModulePath
  obtain ⟨h1, h2⟩ := cachedPackage_spec hs (file := file) hc
  generalize hx : cachedPackage cargo file s = x at h1 h2
  obtain ⟨r, s'⟩ := x
  dsimp only at h1 h2
  rw [← h1]
  cases r with
  | error e => exact ⟨rfl, h2⟩
  | ok p =>
    dsimp only
    cases parent p.manifest with
    | none => exact ⟨rfl, h2⟩
    | some dir => dsimp only; cases relativePath dir file prefixes <;> exact ⟨rfl, h2⟩

theorem cachedFsModulePath_spec (hs : Stable cargo a) {file : Path} {s : St ω} (hc : Agrees s.1 a) :
    (cachedFsModulePath cargo file s).1 = a.fsModulePath file ∧ Agrees (cachedFsModulePath cargo file s).2.1 a := by
  have h := orTry_spec (k := file) (default := fsDefault cargo file) (s := s) hc.fsModulePath (fun _ => (fsDefault_spec hs hc).1)
  have hst := orTry_state (k := file) (m := s.1.fsModulePath) (default := fsDefault cargo file) (s := s) (fun s => Agrees s.1 a) hc
    (fsDefault_spec hs hc).2
  rw [cachedFsModulePath_eq]
  exact ⟨h.1, { hst with fsModulePath := h.2 }⟩

theorem cachedFsModulePath_extends {file : Path} {s : St ω} : Extends s.1 (cachedFsModulePath cargo file s).2.1 := by
  have hst := orTry_state (k := file) (m := s.1.fsModulePath) (default := fsDefault cargo file) (s := s) (fun s' => Extends s.1 s'.1)
    (Extends.refl _) fsDefault_extends
  rw [cachedFsModulePath_eq]
  exact { hst with fsModulePath := orTry_extends }

/-- The computation in `cachedFlags`. -/
def flagsDefault (cargo : Cargo ω) (file : Path) (s : St ω) : Except Err (List Text) × St ω :=
  match cachedPackage cargo file s with
  | (.error e, s) => (.error e, s)
  | (.ok p, s) => (.ok (flagsOf p file), s)

theorem cachedFlags_eq (file : Path) (s : St ω) : cachedFlags cargo file s =
    match orTryInsertWith file (flagsDefault cargo file) s.1.flags s with
    | (r, m, s) => (r, ({ s.1 with flags := m }, s.2)) := rfl

theorem flagsDefault_extends {file : Path} {s : St ω} : Extends s.1 (flagsDefault cargo file s).2.1 := by
  unfold flagsDefault
  have h2 := cachedPackage_extends (cargo := cargo) (file := file) (s := s)
  generalize hx : cachedPackage cargo file s = x at h2
  obtain ⟨r, s'⟩ := x
  cases r <;> exact h2

theorem flagsDefault_spec (hs : Stable cargo a) {file : Path} {s : St ω} (hc : Agrees s.1 a) :
    (flagsDefault cargo file s).1 = a.flags file ∧ Agrees (flagsDefault cargo file s).2.1 a := by
  unfold flagsDefault Answers.flags
  obtain ⟨h1, h2⟩ := cachedPackage_spec hs (file := file) hc
  generalize hx : cachedPackage cargo file s = x at h1 h2
  obtain ⟨r, s'⟩ := x
  dsimp only at h1 h2
  rw [← h1]
  cases r <;> exact ⟨rfl, h2⟩

theorem cachedFlags_spec (hs : Stable cargo a) {file : Path} {s : St ω} (hc : Agrees s.1 a) :
    (cachedFlags cargo file s).1 = a.flags file ∧ Agrees (cachedFlags cargo file s).2.1 a := by
  have h := orTry_spec (k := file) (default := flagsDefault cargo file) (s := s) hc.flags (fun _ => (flagsDefault_spec hs hc).1)
  have hst := orTry_state (k := file) (m := s.1.flags) (default := flagsDefault cargo file) (s := s) (fun s => Agrees s.1 a) hc
    (flagsDefault_spec hs hc).2
  rw [cachedFlags_eq]
  exact ⟨h.1, { hst with flags := h.2 }⟩

theorem cachedFlags_extends {file : Path} {s : St ω} : Extends s.1 (cachedFlags cargo file s).2.1 := by
  have hst := orTry_state (k := file) (m := s.1.flags) (default := flagsDefault cargo file) (s := s) (fun s' => Extends s.1 s'.1)
    (Extends.refl _) flagsDefault_extends
  rw [cachedFlags_eq]
  exact { hst with flags := orTry_extends }

theorem cachedFlags_stored {file : Path} {s : St ω} {fl : List Text} (h : (cachedFlags cargo file s).1 = .ok fl) :
    (cachedFlags cargo file s).2.1.flags.lookup file = some fl := by
  rw [cachedFlags_eq] at h ⊢
  exact orTry_stored h

theorem testNames_key (flags flags' args args' : List Text) (h : flags ++ args = flags' ++ args') :
    a.testNames flags args = a.testNames flags' args' := by
  unfold Answers.testNames
  have : ["test".toList] ++ flags ++ args = ["test".toList] ++ flags' ++ args' := by
    rw [List.append_assoc, h, ← List.append_assoc]
  rw [this]

theorem cachedTestNames_spec (hs : Stable cargo a) {args : List Text} {file : Path} {s : St ω} (hc : Agrees s.1 a) {fl : List Text}
    (hf : s.1.flags.lookup file = some fl) :
    (cachedTestNames cargo args file s).1 = a.testNames fl args ∧ Agrees (cachedTestNames cargo args file s).2.1 a := by
  unfold cachedTestNames
  rw [hf]
  dsimp only
  have h := orTry_spec (k := fl ++ args) (m := s.1.testNames) (s := s.2) (f := fun key => a.testNames key [])
    (default := fun w => match cargo.list (["test".toList] ++ fl ++ args ++ ["--".toList, "--list".toList, "--format=terse".toList]) w with
        | (.error e, w) => (.error e, w)
        | (.ok stdout, w) => (.ok (testNamesOf stdout), w))
    (fun k v hk => hc.testNames k v hk k [] (by simp)) (fun _ => by
      rw [testNames_key (fl ++ args) fl [] args (by simp)]
      unfold Answers.testNames
      have := hs.2 (["test".toList] ++ fl ++ args ++ ["--".toList, "--list".toList, "--format=terse".toList]) s.2
      rw [← this]
      generalize cargo.list _ s.2 = x
      obtain ⟨r, w⟩ := x
      cases r <;> rfl)
  refine ⟨h.1.trans (testNames_key _ _ _ _ (by simp)), { hc with testNames := ?_ }⟩
  intro key v hk flags args' hkey
  rw [← h.2 key v hk]
  exact testNames_key _ _ _ _ (by simp [hkey])

theorem cachedTestNames_extends {args : List Text} {file : Path} {s : St ω} : Extends s.1 (cachedTestNames cargo args file s).2.1 := by
  unfold cachedTestNames
  cases s.1.flags.lookup file with
  | none => exact Extends.refl _
  | some fl => exact { Extends.refl s.1 with testNames := orTry_extends }

/-- **C59.** With the caches of the Rust backend, in whatever order they are filled, each lookup gives what it would give without. -/
theorem C59_rust (hs : Stable cargo a) {file : Path} {args : List Text} {s : St ω} (hc : Agrees s.1 a) :
    (cachedPackage cargo file s).1 = a.package file ∧
    (cachedFsModulePath cargo file s).1 = a.fsModulePath file ∧
    (cachedFlags cargo file s).1 = a.flags file ∧
    (∀ fl, s.1.flags.lookup file = some fl → (cachedTestNames cargo args file s).1 = a.testNames fl args) ∧
    Agrees (cachedPackage cargo file s).2.1 a ∧ Agrees (cachedFsModulePath cargo file s).2.1 a ∧ Agrees (cachedFlags cargo file s).2.1 a ∧
    (∀ fl, s.1.flags.lookup file = some fl → Agrees (cachedTestNames cargo args file s).2.1 a) ∧ Agrees {} a :=
  ⟨(cachedPackage_spec hs hc).1, (cachedFsModulePath_spec hs hc).1, (cachedFlags_spec hs hc).1, fun _ h => (cachedTestNames_spec hs hc h).1,
    (cachedPackage_spec hs hc).2, (cachedFsModulePath_spec hs hc).2, (cachedFlags_spec hs hc).2, fun _ h => (cachedTestNames_spec hs hc h).2,
    agrees_empty⟩

/-! ### C57: tests -/

theorem isTest_iff {attrs : List (List Segment)} : isTest attrs = true ↔
    [some "test".toList] ∈ attrs ∨ [some "tokio".toList, some "test".toList] ∈ attrs := by
  unfold isTest
  rw [List.any_eq_true]
  constructor
  · rintro ⟨x, hx, h⟩
    rcases Bool.or_eq_true _ _ |>.mp h with h | h
    · rw [of_decide_eq_true h] at hx; exact Or.inl hx
    · rw [of_decide_eq_true h] at hx; exact Or.inr hx
  · rintro (h | h)
    · exact ⟨_, h, by rw [decide_eq_true rfl]; rfl⟩
    · exact ⟨_, h, by rw [Bool.or_eq_true]; exact Or.inr (decide_eq_true rfl)⟩

mutual
/-- The tests in an item, with the modules around them. -/
def testsIn : Item → List (List Text × Text)
  | .fn name attrs _ => if isTest attrs then [([], name)] else []
  | .mod_ m items => (testsInL items).map fun x => (m :: x.1, x.2)
  | .other items => testsInL items
def testsInL : List Item → List (List Text × Text)
  | [] => []
  | i :: is => testsIn i ++ testsInL is
end

theorem mem_testsInL {items : List Item} {x : List Text × Text} : x ∈ testsInL items ↔ ∃ i ∈ items, x ∈ testsIn i := by
  induction items with
  | nil => simp [testsInL]
  | cons i is ih => simp [testsInL, ih]

mutual
theorem testAt_of_testsIn : (i : Item) → ∀ x ∈ testsIn i, TestAt [i] x.1 x.2
  | .fn name attrs body => by
    intro x hx
    rw [testsIn] at hx
    by_cases h : isTest attrs = true
    · rw [if_pos h] at hx
      simp only [List.mem_singleton] at hx
      subst hx
      exact .here (List.mem_singleton.2 rfl) (isTest_iff.1 h)
    · rw [if_neg h] at hx; cases hx
  | .mod_ m items => by
    intro x hx
    rw [testsIn] at hx
    obtain ⟨y, hy, rfl⟩ := List.mem_map.1 hx
    exact .inModule (List.mem_singleton.2 rfl) (testAt_of_testsInL items y hy)
  | .other items => by
    intro x hx
    rw [testsIn] at hx
    exact .inOther (List.mem_singleton.2 rfl) (testAt_of_testsInL items x hx)
termination_by i => (sizeOf i, 0)
theorem testAt_of_testsInL : (items : List Item) → ∀ x ∈ testsInL items, TestAt items x.1 x.2
  | [] => by intro x hx; simp [testsInL] at hx
  | i :: is => by
    intro x hx
    rw [testsInL] at hx
    have mono : ∀ {l l' : List Item} {ms n}, (∀ y ∈ l, y ∈ l') → TestAt l ms n → TestAt l' ms n := by
      intro l l' ms n hl h
      cases h with
      | here h1 h2 => exact .here (hl _ h1) h2
      | inModule h1 h2 => exact .inModule (hl _ h1) h2
      | inOther h1 h2 => exact .inOther (hl _ h1) h2
    rcases List.mem_append.1 hx with hx | hx
    · exact mono (by simp) (testAt_of_testsIn i x hx)
    · exact mono (fun y hy => List.mem_cons_of_mem _ hy) (testAt_of_testsInL is x hx)
termination_by items => (sizeOf items, 1)
end

theorem testsInL_iff {items : List Item} {ms : List Text} {n : Text} : (ms, n) ∈ testsInL items ↔ TestAt items ms n := by
  refine ⟨fun h => testAt_of_testsInL items _ h, fun h => ?_⟩
  induction h with
  | here h1 h2 => exact mem_testsInL.2 ⟨_, h1, by rw [testsIn, if_pos (isTest_iff.2 h2)]; simp⟩
  | inModule h1 _ ih => exact mem_testsInL.2 ⟨_, h1, by rw [testsIn]; exact List.mem_map.2 ⟨_, ih, rfl⟩⟩
  | inOther h1 _ ih => exact mem_testsInL.2 ⟨_, h1, by rw [testsIn]; exact ih⟩

/-- What a test changes. -/
def foundStep (fs : Except Err (List Text)) (names : Except Err (List Text)) (f : Found) (x : List Text × Text) : Found :=
  match fs with
  | .error e => { f with unknown := f.unknown ++ [(x.2, e)] }
  | .ok fs => match names with
    | .error e => { f with error := some e }
    | .ok ns => if ns.contains (join (fs ++ x.1 ++ [x.2])) then { f with tests := f.tests ++ [fs ++ x.1 ++ [x.2]] } else f

/-- The state is as expected. -/
def Fine (a : Answers) (file : Path) (fl : List Text) (s : St ω) : Prop := Agrees s.1 a ∧ s.1.flags.lookup file = some fl

theorem testNew_spec (hs : Stable cargo a) {args : List Text} {file : Path} {path : List Text} {name : Text} {f : Found} {s : St ω}
    {fl : List Text} (hc : Fine a file fl s) :
    (match testNew cargo args file path name f s with
      | (.error e, f', s') => { f' with error := some e } = foundStep (a.fsModulePath file) (a.testNames fl args) f (path, name) ∧
          Fine a file fl s'
      | (.ok none, f', s') => f' = foundStep (a.fsModulePath file) (a.testNames fl args) f (path, name) ∧ Fine a file fl s'
      | (.ok (some p), f', s') => { f' with tests := f'.tests ++ [p] } =
          foundStep (a.fsModulePath file) (a.testNames fl args) f (path, name) ∧ Fine a file fl s' : Prop) := by
  unfold testNew foundStep
  obtain ⟨h1, h2⟩ := cachedFsModulePath_spec hs (file := file) hc.1
  have h3 := (cachedFsModulePath_extends (cargo := cargo) (file := file) (s := s)).flags file fl hc.2
  generalize hx : cachedFsModulePath cargo file s = x at h1 h2 h3
  obtain ⟨r, s1⟩ := x
  dsimp only at h1 h2 h3
  rw [← h1]
  cases r with
  | error e => exact ⟨rfl, h2, h3⟩
  | ok fs =>
    dsimp only
    obtain ⟨k1, k2⟩ := cachedTestNames_spec hs (args := args) h2 h3
    have k3 := (cachedTestNames_extends (cargo := cargo) (args := args) (file := file) (s := s1)).flags file fl h3
    generalize hy : cachedTestNames cargo args file s1 = y at k1 k2 k3
    obtain ⟨r, s2⟩ := y
    dsimp only at k1 k2 k3
    rw [← k1]
    cases r with
    | error e => exact ⟨rfl, k2, k3⟩
    | ok ns =>
      dsimp only
      by_cases hj : ns.contains (join (fs ++ path ++ [name])) = true
      · rw [if_pos hj, if_pos hj]; exact ⟨rfl, k2, k3⟩
      · rw [if_neg hj, if_neg hj]; exact ⟨rfl, k2, k3⟩

section
variable {args : List Text} {file : Path} {walk : Text → Bool}

mutual
theorem visitItem_inTest (path : List Text) (x x' : Found × St ω) : (i : Item) →
    visitItem cargo args file walk path true i x = some x' → x' = x ∧ testsIn i = []
  | .fn name attrs body => by
    intro h
    rw [visitItem] at h
    by_cases ht : isTest attrs = true
    · rw [if_pos ht, if_pos rfl] at h; cases h
    · rw [if_neg ht] at h; cases h
      exact ⟨rfl, by rw [testsIn, if_neg ht]⟩
  | .mod_ m items => by
    intro h
    rw [visitItem] at h
    obtain ⟨h1, h2⟩ := visitItems_inTest _ x x' items h
    exact ⟨h1, by rw [testsIn, h2]; rfl⟩
  | .other items => by
    intro h
    rw [visitItem] at h
    obtain ⟨h1, h2⟩ := visitItems_inTest _ x x' items h
    exact ⟨h1, by rw [testsIn, h2]⟩
termination_by i => (sizeOf i, 0)
theorem visitItems_inTest (path : List Text) (x x' : Found × St ω) : (items : List Item) →
    visitItems cargo args file walk path true items x = some x' → x' = x ∧ testsInL items = []
  | [] => by intro h; rw [visitItems] at h; cases h; exact ⟨rfl, by rw [testsInL]⟩
  | i :: is => by
    intro h
    rw [visitItems] at h
    cases hi : visitItem cargo args file walk path true i x with
    | none => rw [hi] at h; cases h
    | some x1 =>
      rw [hi] at h
      obtain ⟨rfl, h2⟩ := visitItem_inTest path x x1 i hi
      obtain ⟨rfl, h3⟩ := visitItems_inTest path x1 x' is h
      exact ⟨rfl, by rw [testsInL, h2, h3]; rfl⟩
termination_by items => (sizeOf items, 1)
end

mutual
theorem visitItem_spec (hs : Stable cargo a) {fl : List Text} (path : List Text) (f f' : Found) (s s' : St ω) : (i : Item) →
    Fine a file fl s → visitItem cargo args file walk path false i (f, s) = some (f', s') →
    f' = ((testsIn i).map fun x => (path ++ x.1, x.2)).foldl (foundStep (a.fsModulePath file) (a.testNames fl args)) f ∧ Fine a file fl s'
  | .fn name attrs body => by
    intro hc h
    rw [visitItem] at h
    by_cases ht : isTest attrs = true
    · rw [if_pos ht, if_neg (by simp)] at h
      rw [testsIn, if_pos ht]
      have := testNew_spec hs (args := args) (path := path) (name := name) (f := f) hc
      generalize hx : testNew cargo args file path name f s = x at h this
      obtain ⟨r, f1, s1⟩ := x
      simp only [List.map_cons, List.map_nil, List.append_nil, List.foldl_cons, List.foldl_nil]
      cases r with
      | error e => dsimp only at h this; cases h; exact this
      | ok o =>
        cases o with
        | none => dsimp only at h this; cases h; exact this
        | some p =>
          dsimp only at h this
          by_cases hw : walk (join p) = true
          · rw [if_pos hw] at h
            obtain ⟨h1, _⟩ := visitItems_inTest _ _ _ _ h
            cases h1; exact this
          · rw [if_neg hw] at h; cases h; exact this
    · rw [if_neg ht] at h; cases h
      rw [testsIn, if_neg ht]
      exact ⟨rfl, hc⟩
  | .mod_ m items => by
    intro hc h
    rw [visitItem, if_neg (by simp)] at h
    obtain ⟨h1, h2⟩ := visitItems_spec hs _ f f' s s' items hc h
    refine ⟨?_, h2⟩
    rw [h1, testsIn, List.map_map]
    congr 1
    apply List.map_congr_left
    intro x _
    simp
  | .other items => by
    intro hc h
    rw [visitItem] at h
    rw [testsIn]
    exact visitItems_spec hs _ f f' s s' items hc h
termination_by i => (sizeOf i, 0)
theorem visitItems_spec (hs : Stable cargo a) {fl : List Text} (path : List Text) (f f' : Found) (s s' : St ω) : (items : List Item) →
    Fine a file fl s → visitItems cargo args file walk path false items (f, s) = some (f', s') →
    f' = ((testsInL items).map fun x => (path ++ x.1, x.2)).foldl (foundStep (a.fsModulePath file) (a.testNames fl args)) f ∧
      Fine a file fl s'
  | [] => by intro hc h; rw [visitItems] at h; cases h; rw [testsInL]; exact ⟨rfl, hc⟩
  | i :: is => by
    intro hc h
    rw [visitItems] at h
    cases hi : visitItem cargo args file walk path false i (f, s) with
    | none => rw [hi] at h; cases h
    | some x1 =>
      rw [hi] at h
      obtain ⟨f1, s1⟩ := x1
      obtain ⟨h1, h2⟩ := visitItem_spec hs path f f1 s s1 i hc hi
      obtain ⟨h3, h4⟩ := visitItems_spec hs path f1 f' s1 s' is h2 h
      refine ⟨?_, h4⟩
      rw [h3, h1, testsInL, List.map_append, List.foldl_append]
termination_by items => (sizeOf items, 1)
end

theorem foldl_unknown {e : Err} {names : Except Err (List Text)} (xs : List (List Text × Text)) : ∀ f : Found,
    xs.foldl (foundStep (.error e) names) f = { f with unknown := f.unknown ++ xs.map fun x => (x.2, e) } := by
  induction xs with
  | nil => intro f; simp
  | cons x xs ih => intro f; rw [List.foldl_cons, ih]; simp [foundStep]

theorem foldl_error {fs : List Text} {e : Err} (xs : List (List Text × Text)) : ∀ f : Found,
    xs.foldl (foundStep (.ok fs) (.error e)) f = { f with error := if xs = [] then f.error else some e } := by
  induction xs with
  | nil => intro f; simp
  | cons x xs ih => intro f; rw [List.foldl_cons, ih]; simp [foundStep]

theorem foldl_tests {fs : List Text} {ns : List Text} (xs : List (List Text × Text)) : ∀ f : Found,
    xs.foldl (foundStep (.ok fs) (.ok ns)) f =
      { f with tests := f.tests ++ (xs.map fun x => fs ++ x.1 ++ [x.2]).filter fun p => ns.contains (join p) } := by
  induction xs with
  | nil => intro f; simp
  | cons x xs ih =>
    intro f
    rw [List.foldl_cons, ih, List.map_cons]
    unfold foundStep
    by_cases h : ns.contains (join (fs ++ x.1 ++ [x.2])) = true
    · rw [List.filter_cons_of_pos (by simpa using h)]
      dsimp only
      rw [if_pos h]
      simp
    · rw [List.filter_cons_of_neg (by simpa using h)]
      dsimp only
      rw [if_neg h]

theorem visitFile_cases (hs : Stable cargo a) {items : List Item} {s s' : St ω} (hc : Agrees s.1 a) {r : Except Err Found}
    (h : visitFile cargo args file walk items s = some (r, s')) :
    (∃ e, a.flags file = .error e ∧ r = .error e) ∨ ∃ fl, a.flags file = .ok fl ∧
      ∃ f, f = (testsInL items).foldl (foundStep (a.fsModulePath file) (a.testNames fl args)) {} ∧
        r = (match f.error with | some e => .error e | none => .ok f) := by
  unfold visitFile at h
  obtain ⟨h1, h2⟩ := cachedFlags_spec hs (file := file) hc
  have h3 := fun fl => cachedFlags_stored (cargo := cargo) (file := file) (s := s) (fl := fl)
  generalize hx : cachedFlags cargo file s = x at h h1 h2 h3
  obtain ⟨q, s1⟩ := x
  dsimp only at h1 h2 h3 h
  cases q with
  | error e => cases h; exact Or.inl ⟨e, h1.symm, rfl⟩
  | ok fl =>
    dsimp only at h
    cases hv : visitItems cargo args file walk [] false items ({}, s1) with
    | none => rw [hv] at h; cases h
    | some y =>
      rw [hv] at h
      obtain ⟨f, s2⟩ := y
      obtain ⟨k1, _⟩ := visitItems_spec hs [] {} f s1 s2 items ⟨h2, h3 fl rfl⟩ hv
      refine Or.inr ⟨fl, h1.symm, f, ?_, ?_⟩
      · rw [k1]; congr 1; exact List.map_id'' (fun x => by simp) _
      · cases h; rfl

/-- **C57.** If visiting a file succeeds and its module path is known, then the tests of which the generic visitor is told are those in
the file, wherever in modules, but not in functions, that `cargo test -- --list` lists, under the name of the file's module path, the
modules around the test, and its own name. -/
theorem C57_tests (hs : Stable cargo a) {items : List Item} {s s' : St ω} (hc : Agrees s.1 a) {f : Found} {fs : List Text}
    (hfs : a.fsModulePath file = .ok fs) (h : visitFile cargo args file walk items s = some (.ok f, s')) :
    ∃ flags, a.flags file = .ok flags ∧ ∀ p, p ∈ f.tests ↔
      ∃ ms n, TestAt items ms n ∧ p = fs ++ ms ++ [n] ∧ ∃ names, a.testNames flags args = .ok names ∧ join p ∈ names := by
  rcases visitFile_cases hs hc h with ⟨e, _, h'⟩ | ⟨fl, hfl, f', hf, hr⟩
  · cases h'
  · refine ⟨fl, hfl, ?_⟩
    rw [hfs] at hf
    cases hn : a.testNames fl args with
    | error e =>
      rw [hn, foldl_error] at hf
      by_cases hemp : testsInL items = []
      · rw [hf] at hr
        simp only [hemp, if_true] at hr
        cases hr
        intro p
        simp
      · rw [hf] at hr
        simp only [if_neg hemp] at hr
        cases hr
    | ok ns =>
      rw [hn, foldl_tests] at hf
      rw [hf] at hr
      dsimp only at hr
      cases hr
      intro p
      simp only [List.nil_append, List.mem_filter, List.mem_map, List.contains_iff_mem, Prod.exists]
      constructor
      · rintro ⟨⟨ms, n, h1, rfl⟩, h2⟩
        exact ⟨ms, n, testsInL_iff.1 h1, rfl, ns, rfl, h2⟩
      · rintro ⟨ms, n, h1, rfl, ns', e, h2⟩
        cases e
        exact ⟨⟨ms, n, testsInL_iff.2 h1, rfl⟩, h2⟩

/-- **C57.** If the module path of the file is unknown, there are no tests, and there is a warning for each. -/
theorem C57_unknown (hs : Stable cargo a) {items : List Item} {s s' : St ω} (hc : Agrees s.1 a) {f : Found} {e : Err}
    (hfs : a.fsModulePath file = .error e) (h : visitFile cargo args file walk items s = some (.ok f, s')) :
    f.tests = [] ∧ ∀ n e', (n, e') ∈ f.unknown ↔ e' = e ∧ ∃ ms, TestAt items ms n := by
  rcases visitFile_cases hs hc h with ⟨e, _, h'⟩ | ⟨fl, hfl, f', hf, hr⟩
  · cases h'
  · rw [hfs, foldl_unknown] at hf
    rw [hf] at hr
    cases hr
    refine ⟨rfl, fun n e' => ?_⟩
    simp only [List.nil_append, List.mem_map, Prod.mk.injEq, Prod.exists]
    constructor
    · rintro ⟨ms, n', h1, rfl, rfl⟩; exact ⟨rfl, ms, testsInL_iff.1 h1⟩
    · rintro ⟨rfl, ms, h1⟩; exact ⟨ms, n, testsInL_iff.2 h1, rfl, rfl⟩

/-- **C57.** Visiting a file fails exactly if no package or flags can be determined for it, or there is a test in it, its module path is
known, and `cargo test -- --list` fails. -/
theorem C57_fails (hs : Stable cargo a) {items : List Item} {s s' : St ω} (hc : Agrees s.1 a) {r : Except Err Found}
    (h : visitFile cargo args file walk items s = some (r, s')) {e : Err} :
    r = .error e ↔ a.flags file = .error e ∨ ∃ flags, a.flags file = .ok flags ∧ (∃ ms n, TestAt items ms n) ∧
      (∃ fs, a.fsModulePath file = .ok fs) ∧ a.testNames flags args = .error e := by
  rcases visitFile_cases hs hc h with ⟨e', h1, rfl⟩ | ⟨fl, hfl, f', hf, rfl⟩
  · rw [h1]; simp
  · rw [hfl]
    simp only [Except.ok.injEq, reduceCtorEq, false_or, exists_eq_left']
    cases hfs : a.fsModulePath file with
    | error e' => rw [hfs, foldl_unknown] at hf; subst hf; simp
    | ok fs =>
      rw [hfs] at hf
      cases hn : a.testNames fl args with
      | ok ns => rw [hn, foldl_tests] at hf; subst hf; simp
      | error e' =>
        rw [hn, foldl_error] at hf
        have hex : testsInL items ≠ [] ↔ ∃ ms n, TestAt items ms n := by
          constructor
          · intro hne
            obtain ⟨⟨ms, n⟩, hx⟩ := List.exists_mem_of_ne_nil _ hne
            exact ⟨ms, n, testsInL_iff.1 hx⟩
          · rintro ⟨ms, n, hx⟩ hemp
            have := testsInL_iff.2 hx
            rw [hemp] at this; cases this
        subst hf
        by_cases hemp : testsInL items = []
        · rw [if_pos hemp, ← hex]; simp [hemp]
        · rw [if_neg hemp, ← hex]; simp [hemp]

mutual
theorem visitItem_total (path : List Text) (x : Found × St ω) : (i : Item) → testsIn i = [] →
    ∃ x', visitItem cargo args file walk path true i x = some x'
  | .fn name attrs body => by
    intro h
    rw [testsIn] at h
    by_cases ht : isTest attrs = true
    · rw [if_pos ht] at h; cases h
    · rw [visitItem, if_neg ht]; exact ⟨_, rfl⟩
  | .mod_ m items => by
    intro h
    rw [testsIn, List.map_eq_nil_iff] at h
    rw [visitItem]
    exact visitItems_total _ x items h
  | .other items => by
    intro h
    rw [testsIn] at h
    rw [visitItem]
    exact visitItems_total _ x items h
termination_by i => (sizeOf i, 0)
theorem visitItems_total (path : List Text) (x : Found × St ω) : (items : List Item) → testsInL items = [] →
    ∃ x', visitItems cargo args file walk path true items x = some x'
  | [] => fun _ => ⟨x, by rw [visitItems]⟩
  | i :: is => by
    intro h
    rw [testsInL, List.append_eq_nil_iff] at h
    obtain ⟨x1, h1⟩ := visitItem_total path x i h.1
    obtain ⟨x2, h2⟩ := visitItems_total path x1 is h.2
    exact ⟨x2, by rw [visitItems, h1]; exact h2⟩
termination_by items => (sizeOf items, 1)
end

theorem TestBody.mono {l l' : List Item} {b} (hl : ∀ y ∈ l, y ∈ l') (h : TestBody l b) : TestBody l' b := by
  cases h with
  | here h1 h2 => exact .here (hl _ h1) h2
  | inModule h1 h2 => exact .inModule (hl _ h1) h2
  | inOther h1 h2 => exact .inOther (hl _ h1) h2

mutual
theorem visitItem_no_panic (path : List Text) (x : Found × St ω) : (i : Item) → (∀ b, TestBody [i] b → testsInL b = []) →
    ∃ x', visitItem cargo args file walk path false i x = some x'
  | .fn name attrs body => by
    intro h
    obtain ⟨f, s⟩ := x
    rw [visitItem]
    by_cases ht : isTest attrs = true
    · rw [if_pos ht, if_neg (by simp)]
      have hb := h body (.here (List.mem_singleton.2 rfl) (isTest_iff.1 ht))
      generalize testNew cargo args file path name f s = y
      obtain ⟨r, f1, s1⟩ := y
      cases r with
      | error e => exact ⟨_, rfl⟩
      | ok o =>
        cases o with
        | none => exact ⟨_, rfl⟩
        | some p =>
          dsimp only
          split
          · exact visitItems_total _ _ body hb
          · exact ⟨_, rfl⟩
    · rw [if_neg ht]; exact ⟨_, rfl⟩
  | .mod_ m items => by
    intro h
    rw [visitItem]
    exact visitItems_no_panic _ x items fun b hb => h b (.inModule (List.mem_singleton.2 rfl) hb)
  | .other items => by
    intro h
    rw [visitItem]
    exact visitItems_no_panic _ x items fun b hb => h b (.inOther (List.mem_singleton.2 rfl) hb)
termination_by i => (sizeOf i, 0)
theorem visitItems_no_panic (path : List Text) (x : Found × St ω) : (items : List Item) → (∀ b, TestBody items b → testsInL b = []) →
    ∃ x', visitItems cargo args file walk path false items x = some x'
  | [] => fun _ => ⟨x, by rw [visitItems]⟩
  | i :: is => by
    intro h
    obtain ⟨x1, h1⟩ := visitItem_no_panic path x i fun b hb => h b (hb.mono (by simp))
    obtain ⟨x2, h2⟩ := visitItems_no_panic path x1 is fun b hb => h b (hb.mono fun y hy => List.mem_cons_of_mem _ hy)
    exact ⟨x2, by rw [visitItems, h1]; exact h2⟩
termination_by items => (sizeOf items, 1)
end

/-- **C57.** Visiting a file does not panic unless there is a test inside a test. -/
theorem C57_no_panic {items : List Item} {s : St ω} (h : ∀ b, TestBody items b → ∀ ms n, ¬ TestAt b ms n) :
    ∃ r, visitFile cargo args file walk items s = some r := by
  unfold visitFile
  generalize cachedFlags cargo file s = x
  obtain ⟨r, s1⟩ := x
  cases r with
  | error e => exact ⟨_, rfl⟩
  | ok fl =>
    dsimp only
    obtain ⟨x', hx⟩ := visitItems_no_panic (cargo := cargo) (args := args) (file := file) (walk := walk) [] ({}, s1) items (by
      intro b hb
      cases he : testsInL b with
      | nil => rfl
      | cons y ys =>
        have := h b hb y.1 y.2 (testsInL_iff.1 (by rw [he]; simp))
        exact this.elim)
    rw [hx]
    exact ⟨_, rfl⟩

end

/-! ### C57: module paths of files -/

theorem stripPath_eq {path base rest : Path} : stripPath path base = some rest ↔ path = base ++ rest := by
  unfold stripPath
  constructor
  · intro h
    split at h
    · rename_i hp
      obtain ⟨t, rfl⟩ := List.isPrefixOf_iff_prefix.1 hp
      simp at h; rw [h]
    · cases h
  · rintro rfl
    rw [if_pos (List.isPrefixOf_iff_prefix.2 (List.prefix_append ..))]
    simp

theorem stripPath_none {path base : Path} : stripPath path base = none ↔ ∀ rest, path ≠ base ++ rest := by
  constructor
  · intro h rest he
    rw [stripPath_eq.2 he] at h; cases h
  · intro h
    cases hs : stripPath path base with
    | none => rfl
    | some r => exact absurd (stripPath_eq.1 hs) (h r)

/-- **C57.** Relative to the crate, a file's path is what is below `src/bin/CRATE`, `src` or `tests/CRATE`. Other files have none. -/
theorem C57_relative {dir file rel : Path} : relativePath dir file prefixes = some rel ↔ Below dir file rel := by
  simp only [prefixes, relativePath]
  cases h1 : stripPath file (dir ++ ["src".toList, "bin".toList]) with
  | some suffix =>
    have e := stripPath_eq.1 h1
    dsimp only
    rw [if_pos trivial]
    cases suffix with
    | nil =>
      subst e
      refine ⟨fun h => (by cases h), fun h => ?_⟩
      exfalso
      generalize hf : dir ++ ["src".toList, "bin".toList] ++ [] = file at h
      cases h with
      | bin c r => rw [List.append_assoc, List.append_assoc, List.append_cancel_left_eq] at hf; simp at hf
      | src r hr =>
        rw [List.append_assoc, List.append_assoc, List.append_cancel_left_eq] at hf
        simp only [List.append_nil, List.cons_append, List.nil_append, List.cons.injEq, true_and] at hf
        exact hr _ hf.symm
      | tests c r =>
        rw [List.append_assoc, List.append_assoc, List.append_cancel_left_eq] at hf
        simp at hf
    | cons c rest =>
      dsimp only
      rw [Option.some.injEq]
      constructor
      · rintro rfl
        have := Below.bin (dir := dir) c rest
        rw [e]; simpa using this
      · intro h
        generalize hf : file = file' at h
        rw [e] at hf
        cases h with
        | bin c' r =>
          rw [List.append_assoc, List.append_assoc, List.append_cancel_left_eq] at hf
          simp at hf; exact hf.2
        | src r hr =>
          rw [List.append_assoc, List.append_assoc, List.append_cancel_left_eq] at hf
          simp only [List.cons_append, List.nil_append, List.cons.injEq, true_and] at hf
          exact absurd hf.symm (hr _)
        | tests c' r =>
          rw [List.append_assoc, List.append_assoc, List.append_cancel_left_eq] at hf
          simp at hf
  | none =>
    have n1 := stripPath_none.1 h1
    dsimp only
    cases h2 : stripPath file (dir ++ ["src".toList]) with
    | some suffix =>
      have e := stripPath_eq.1 h2
      dsimp only
      rw [if_neg (by simp), Option.some.injEq]
      constructor
      · rintro rfl
        rw [e]
        refine Below.src suffix ?_
        intro rest' h
        exact n1 rest' (by rw [e, h]; simp)
      · intro h
        generalize hf : file = file' at h
        rw [e] at hf
        cases h with
        | bin c' r =>
          exact absurd (show file = dir ++ ["src".toList, "bin".toList] ++ (c' :: rel) by rw [e, hf]; simp) (n1 _)
        | src r hr =>
          rw [List.append_assoc, List.append_assoc, List.append_cancel_left_eq] at hf
          simp at hf; exact hf
        | tests c' r =>
          rw [List.append_assoc, List.append_assoc, List.append_cancel_left_eq] at hf
          simp at hf
    | none =>
      have n2 := stripPath_none.1 h2
      dsimp only
      cases h3 : stripPath file (dir ++ ["tests".toList]) with
      | none =>
        have n3 := stripPath_none.1 h3
        refine ⟨fun h => (by cases h), fun h => ?_⟩
        exfalso
        cases h with
        | bin c r => exact n1 (c :: rel) (by simp)
        | src r hr => exact n2 rel rfl
        | tests c r => exact n3 (c :: rel) (by simp)
      | some suffix =>
        have e := stripPath_eq.1 h3
        dsimp only
        rw [if_pos trivial]
        have key : Below dir file rel ↔ ∃ c, suffix = c :: rel := by
          constructor
          · intro h
            cases h with
            | bin c r => exact (n1 (c :: rel) (by simp)).elim
            | src r hr => exact (n2 rel rfl).elim
            | tests c r =>
              rw [List.append_assoc, List.append_assoc, List.append_cancel_left_eq] at e
              simp only [List.cons_append, List.nil_append, List.cons.injEq, true_and] at e
              exact ⟨c, e.symm⟩
          · rintro ⟨c, rfl⟩
            have := Below.tests (dir := dir) c rel
            rw [e]; simpa using this
        rw [key]
        cases suffix with
        | nil => simp
        | cons c r => simp

theorem fileStem_rs {stem : Text} (hne : stem ≠ []) : fileStem (stem ++ ".rs".toList) = stem := by
  unfold fileStem
  have : (stem ++ ".rs".toList).reverse = 's' :: 'r' :: '.' :: stem.reverse := by
    rw [List.reverse_append]; rfl
  rw [this]
  simp [List.dropWhile_cons, hne]

theorem fileStem_hidden {rest : Text} (h : '.' ∉ rest) : fileStem ('.' :: rest) = '.' :: rest := by
  unfold fileStem
  have : (('.' :: rest).reverse.dropWhile (· != '.')) = ['.'] := by
    rw [List.reverse_cons, List.dropWhile_append_of_pos]
    · rfl
    · intro c hc
      simp only [bne_iff_ne]
      rintro rfl
      exact h (List.mem_reverse.mp hc)
  rw [this]
  rfl

theorem modulesOf_fs {rel : Path} {ms : List Text} (h : ModulesOf rel ms) : fsModulePathOf rel = ms := by
  cases h with
  | root => rfl
  | named dirs stem h1 h2 h3 h4 h5 =>
    unfold fsModulePathOf
    simp only [List.getLast?_append, List.getLast?_singleton, Option.some_or, fileStem_rs h2, List.dropLast_concat]
    rw [if_neg]
    simp only [List.contains_eq_mem, List.mem_cons, List.not_mem_nil, or_false, decide_eq_true_eq]
    rintro (h | h | h)
    · exact h3 h
    · exact h4 h
    · exact h5 h
  | unnamed dirs stem h =>
    have hne : stem ≠ [] := by rcases h with rfl | rfl | rfl <;> decide
    unfold fsModulePathOf
    simp only [List.getLast?_append, List.getLast?_singleton, Option.some_or, fileStem_rs hne, List.dropLast_concat]
    rw [if_pos]
    simp only [List.contains_eq_mem, List.mem_cons, List.not_mem_nil, or_false, decide_eq_true_eq]
    exact h
  | hidden dirs rest h =>
    unfold fsModulePathOf
    simp only [List.getLast?_append, List.getLast?_singleton, Option.some_or, fileStem_hidden h, List.dropLast_concat]
    rw [if_neg]
    simp only [List.contains_eq_mem, List.mem_cons, List.not_mem_nil, or_false, decide_eq_true_eq]
    rintro (h | h | h) <;> cases h

/-- **C57.** The module path of a file consists of the directories below `src`, `src/bin/CRATE` or `tests/CRATE` of the nearest package
that it is in, and its name unless that is `lib`, `main` or `mod`; nothing if it is itself `src/bin/CRATE` or `tests/CRATE`. -/
theorem C57_fs {file dir rel : Path} {ps : List Package} {p : Package} {ms : List Text} {d : Path} {n : Text} (hd : file = d ++ [n])
    (hmd : a.metadata d = .ok ps) (hm : ∀ q ∈ ps, ∃ dir, ManifestIn q dir)
    (hn : IsNearest ps file p) (hu : ∀ q, IsNearest ps file q → q = p) (hpd : ManifestIn p dir) (hb : Below dir file rel) (hms : ModulesOf rel ms) :
    a.fsModulePath file = .ok ms := by
  have hpk : a.package file = .ok p := by
    unfold Answers.package
    rw [parent_eq.2 ⟨n, hd⟩]
    dsimp only
    rw [hmd]
    dsimp only
    obtain ⟨q, hq⟩ := (C58_exists hm (file := file)).2 (by
      obtain ⟨dd, h1, h2, h3, _⟩ := hn; exact ⟨p, h1, dd, h2, h3⟩)
    rw [hq]
    dsimp only
    obtain ⟨hq1, _⟩ := C58_nearest hq
    rw [hu q hq1]
  unfold Answers.fsModulePath
  rw [hpk]
  dsimp only
  rw [manifestIn_iff.1 hpd]
  dsimp only
  rw [C57_relative.2 hb]
  dsimp only
  rw [modulesOf_fs hms]

/-- **C57.** The name of a test stays the same whichever tests are visited later. -/
theorem C57_names (p : List Text) (paths later : List (List Text)) :
    nameOf (reserve p [] paths).1 ((reserve p [] paths).2 ++ later) = some (join p) := by
  simp [reserve, nameOf]

/-! ### C67: the compiler's module paths -/

theorem fsModulePathOf_named {dirs : Path} {m : Text} (hne : m ≠ []) (hm : m ≠ "lib".toList ∧ m ≠ "main".toList ∧ m ≠ "mod".toList) :
    fsModulePathOf (dirs ++ [m ++ ".rs".toList]) = dirs ++ [m] := by
  unfold fsModulePathOf
  simp only [List.getLast?_append, List.getLast?_singleton, Option.some_or, fileStem_rs hne, List.dropLast_concat]
  rw [if_neg]
  simp only [List.contains_eq_mem, List.mem_cons, List.not_mem_nil, or_false, decide_eq_true_eq]
  rintro (h | h | h)
  · exact hm.1 h
  · exact hm.2.1 h
  · exact hm.2.2 h

theorem fsModulePathOf_unnamed {dirs : Path} {m : Text} (hm : m = "lib".toList ∨ m = "main".toList ∨ m = "mod".toList) :
    fsModulePathOf (dirs ++ [m ++ ".rs".toList]) = dirs := modulesOf_fs (.unnamed dirs m hm)

theorem modRs : "mod.rs".toList = "mod".toList ++ ".rs".toList := rfl
theorem mainRs : "main.rs".toList = "main".toList ++ ".rs".toList := rfl
theorem libRs : "lib.rs".toList = "lib".toList ++ ".rs".toList := rfl

/-- What is computed for a file below the directory of its crate's root. -/
theorem fs_of_moduleFile {base root file : Path} {ms : List Text} (h : ModuleFile base root ms file)
    (hroot : ∃ n, root = base ++ [n ++ ".rs".toList] ∧ (n = "lib".toList ∨ n = "main".toList))
    (hok : ∀ ms' m, file = base ++ ms' ++ [m ++ ".rs".toList] → ms = ms' ++ [m] →
      m ≠ [] ∧ m ≠ "lib".toList ∧ m ≠ "main".toList ∧ m ≠ "mod".toList) :
    ∃ rel, file = base ++ rel ∧ rel ≠ [] ∧ fsModulePathOf rel = ms ∧ (ms = [] → ∃ n, rel = [n ++ ".rs".toList] ∧ (n = "lib".toList ∨ n = "main".toList)) ∧
      (ms ≠ [] → rel.head? = ms.head? ∨ ∃ m, ms = [m] ∧ rel = [m ++ ".rs".toList]) := by
  cases h with
  | root =>
    obtain ⟨n, rfl, hn⟩ := hroot
    refine ⟨[n ++ ".rs".toList], rfl, by simp, ?_, fun _ => ⟨n, rfl, hn⟩, by simp⟩
    have := fsModulePathOf_unnamed (dirs := []) (m := n) (by rcases hn with h | h <;> simp [h])
    simpa using this
  | file ms' m =>
    have ho := hok ms' m rfl rfl
    refine ⟨ms' ++ [m ++ ".rs".toList], by simp, by simp, fsModulePathOf_named ho.1 ho.2, by simp, ?_⟩
    intro _
    cases ms' with
    | nil => exact Or.inr ⟨m, rfl, rfl⟩
    | cons x xs => exact Or.inl rfl
  | dir ms' m =>
    refine ⟨ms' ++ [m] ++ ["mod.rs".toList], by simp, by simp, ?_, by simp, ?_⟩
    · rw [modRs]; exact fsModulePathOf_unnamed (by simp)
    · intro _
      left
      cases ms' <;> simp

theorem dot_ne (n : Text) (w : Text) (hw : '.' ∉ w) : n ++ ".rs".toList ≠ w := by
  intro h
  apply hw
  rw [← h]
  simp

/-- **C67** (in part). For the modules of the crates that `cargo` finds, the computed path is the one that the compiler uses, provided
that no module with a file of its own is named `lib` or `main`, that no module of the package's library or main program is named `bin`,
and that the crate is not a single file below `src/bin` or `tests` unless the module is its root. -/
theorem C67_partial {dir base root file : Path} {ms : List Text} (hc : Crate dir base root) (h : ModuleFile base root ms file)
    (hok : ∀ ms' m, ms = ms' ++ [m] → file = base ++ ms' ++ [m ++ ".rs".toList] →
      m ≠ [] ∧ m ≠ "lib".toList ∧ m ≠ "main".toList ∧ m ≠ "mod".toList)
    (hbin : base = dir ++ ["src".toList] → ms.head? ≠ some "bin".toList)
    (hsingle : base = dir ++ ["src".toList, "bin".toList] ∨ base = dir ++ ["tests".toList] → ms = []) :
    ∃ rel, relativePath dir file prefixes = some rel ∧ fsModulePathOf rel = ms := by
  simp only [C57_relative]
  have hok' : ∀ ms' m, file = base ++ ms' ++ [m ++ ".rs".toList] → ms = ms' ++ [m] →
      m ≠ [] ∧ m ≠ "lib".toList ∧ m ≠ "main".toList ∧ m ≠ "mod".toList := fun ms' m e1 e2 => hok ms' m e2 e1
  have src : ∀ n, n = "lib".toList ∨ n = "main".toList → root = dir ++ ["src".toList] ++ [n ++ ".rs".toList] → base = dir ++ ["src".toList] →
      ∃ rel, Below dir file rel ∧ fsModulePathOf rel = ms := by
    intro n hn hr hb
    subst hb
    obtain ⟨rel, e1, e2, e3, e4, e5⟩ := fs_of_moduleFile h ⟨n, hr, hn⟩ hok'
    refine ⟨rel, ?_, e3⟩
    rw [e1]
    refine Below.src rel ?_
    intro rest' he
    by_cases hms : ms = []
    · obtain ⟨n', e6, _⟩ := e4 hms
      rw [e6] at he
      simp only [List.cons.injEq] at he
      exact dot_ne n' _ (by decide) he.1
    · rcases e5 hms with e | ⟨m, _, e⟩
      · rw [he] at e
        exact hbin rfl e.symm
      · rw [e] at he
        simp only [List.cons.injEq] at he
        exact dot_ne m _ (by decide) he.1
  cases hc with
  | lib => exact src "lib".toList (Or.inl rfl) (by simp [← libRs]) rfl
  | main => exact src "main".toList (Or.inr rfl) (by simp [← mainRs]) rfl
  | binFile c =>
    have := hsingle (Or.inl rfl)
    subst this
    generalize hm : ([] : List Text) = ms at h
    cases h with
    | root =>
      refine ⟨[], ?_, rfl⟩
      have := Below.bin (dir := dir) (c ++ ".rs".toList) []
      simpa using this
    | file ms' m => simp at hm
    | dir ms' m => simp at hm
  | testFile c =>
    have := hsingle (Or.inr rfl)
    subst this
    generalize hm : ([] : List Text) = ms at h
    cases h with
    | root =>
      refine ⟨[], ?_, rfl⟩
      have := Below.tests (dir := dir) (c ++ ".rs".toList) []
      simpa using this
    | file ms' m => simp at hm
    | dir ms' m => simp at hm
  | binDir c =>
    obtain ⟨rel, e1, e2, e3, e4, e5⟩ := fs_of_moduleFile h ⟨"main".toList, by simp [← mainRs], Or.inr rfl⟩ hok'
    exact ⟨rel, by rw [e1]; exact Below.bin c rel, e3⟩
  | testDir c =>
    obtain ⟨rel, e1, e2, e3, e4, e5⟩ := fs_of_moduleFile h ⟨"main".toList, by simp [← mainRs], Or.inr rfl⟩ hok'
    exact ⟨rel, by rw [e1]; exact Below.tests c rel, e3⟩

/-- **C67** fails for a module named `main`: the compiler calls it `m::main`, the computed path is `m`. -/
theorem C67_negation_main (dir : Path) (m : Text) (hm : m ≠ "bin".toList) :
    ∃ file, ModuleFile (dir ++ ["src".toList]) (dir ++ ["src".toList, "lib.rs".toList]) [m, "main".toList] file ∧
      ∃ rel, relativePath dir file prefixes = some rel ∧ fsModulePathOf rel = [m] := by
  refine ⟨dir ++ ["src".toList] ++ [m] ++ ["main".toList ++ ".rs".toList], ModuleFile.file [m] _, [m, "main".toList ++ ".rs".toList], ?_, ?_⟩
  · rw [C57_relative]
    have := Below.src (dir := dir) [m, "main".toList ++ ".rs".toList] (by
      rintro rest h; simp only [List.cons.injEq] at h; exact hm h.1)
    rw [List.append_assoc _ [m]]
    exact this
  · exact fsModulePathOf_unnamed (dirs := [m]) (m := "main".toList) (by simp)

/-- **C67** fails for the module `tests/m/mod.rs` of the test `tests/t.rs`: the compiler calls it `m`, the computed path is empty. -/
theorem C67_negation_tests (dir : Path) (t m : Text) :
    ∃ file, ModuleFile (dir ++ ["tests".toList]) (dir ++ ["tests".toList, t ++ ".rs".toList]) [m] file ∧
      Crate dir (dir ++ ["tests".toList]) (dir ++ ["tests".toList, t ++ ".rs".toList]) ∧
      ∃ rel, relativePath dir file prefixes = some rel ∧ fsModulePathOf rel = [] := by
  refine ⟨dir ++ ["tests".toList] ++ [] ++ [m, "mod.rs".toList], ModuleFile.dir [] m, Crate.testFile t, ["mod.rs".toList], ?_, ?_⟩
  · rw [C57_relative]
    have := Below.tests (dir := dir) m ["mod.rs".toList]
    simpa using this
  · rw [modRs]
    exact fsModulePathOf_unnamed (dirs := []) (m := "mod".toList) (by simp)

/-! ### C68: commands -/

theorem filterMap_singleton {α β : Type} {f : α → Option β} : ∀ {l : List α} {b : β}, l.filterMap f = [b] ↔
    ∃ before x after, l = before ++ x :: after ∧ f x = some b ∧ ∀ y ∈ before ++ after, f y = none := by
  intro l
  induction l with
  | nil => intro b; simp
  | cons x xs ih =>
    intro b
    cases hx : f x with
    | none =>
      rw [List.filterMap_cons_none hx, ih]
      constructor
      · rintro ⟨bf, y, af, rfl, h1, h2⟩
        refine ⟨x :: bf, y, af, rfl, h1, ?_⟩
        intro z hz
        rcases List.mem_cons.1 hz with rfl | hz
        · exact hx
        · exact h2 z hz
      · rintro ⟨bf, y, af, e, h1, h2⟩
        cases bf with
        | nil => cases e; rw [hx] at h1; cases h1
        | cons z zs => cases e; exact ⟨zs, y, af, rfl, h1, fun w hw => h2 w (List.mem_cons_of_mem _ hw)⟩
    | some b' =>
      rw [List.filterMap_cons_some hx]
      constructor
      · intro h
        simp only [List.cons.injEq] at h
        obtain ⟨rfl, h⟩ := h
        exact ⟨[], x, xs, rfl, hx, by simpa using List.filterMap_eq_nil_iff.1 h⟩
      · rintro ⟨bf, y, af, e, h1, h2⟩
        cases bf with
        | nil =>
          cases e
          rw [hx] at h1; cases h1
          rw [List.filterMap_eq_nil_iff.2 (by simpa using h2)]
        | cons z zs => cases e; rw [h2 x (by simp)] at hx; cases hx

/-- **C68.** If exactly one test target of the package has the file as its source, the flags select that target. -/
theorem C68_test_target {p : Package} {file : Path} {t : Target} {before after : List Target} (ht : p.targets = before ++ t :: after)
    (hk : t.kind = [.test]) (hs : t.srcPath = file) (hu : ∀ u ∈ before ++ after, ¬ (u.kind = [.test] ∧ u.srcPath = file)) :
    flagsOf p file = ["--manifest-path".toList, '/' :: List.intercalate ['/'] p.manifest, "--test".toList, t.name] := by
  unfold flagsOf sourceFileTest
  rw [(filterMap_singleton (b := t.name)).2 ⟨before, t, after, ht, by rw [if_pos ⟨hk, hs⟩], fun u hu' => by rw [if_neg (hu u hu')]⟩]
  rfl

theorem unitFlags_spec (ks : List Kind) : ∀ bin lib, (unitFlags ks bin lib).Nodup ∧
    (∀ x, x ∈ unitFlags ks bin lib ↔ x = "--bins".toList ∧ bin = false ∧ .bin ∈ ks ∨ x = "--lib".toList ∧ lib = false ∧ .lib ∈ ks) := by
  induction ks with
  | nil => intro bin lib; simp [unitFlags]
  | cons k ks ih =>
    intro bin lib
    have hne : "--bins".toList ≠ "--lib".toList := by decide
    have h1 := (ih true lib).1
    have h2 := (ih true lib).2
    have h3 := (ih bin true).1
    have h4 := (ih bin true).2
    have h5 := ih bin lib
    cases k with
    | bin =>
      cases bin with
      | false =>
        rw [unitFlags]
        refine ⟨List.nodup_cons.2 ⟨?_, h1⟩, ?_⟩
        · rw [h2]
          rintro (⟨_, h, _⟩ | ⟨h, _⟩)
          · cases h
          · exact hne h
        · intro x
          rw [List.mem_cons, h2]
          generalize "--bins".toList = B
          generalize "--lib".toList = L
          simp
      | true =>
        have e : unitFlags (.bin :: ks) true lib = unitFlags ks true lib := by cases lib <;> rfl
        rw [e]
        refine ⟨h1, fun x => ?_⟩
        rw [h2]
        generalize "--bins".toList = B
        generalize "--lib".toList = L
        simp
    | lib =>
      cases lib with
      | false =>
        have e : unitFlags (.lib :: ks) bin false = "--lib".toList :: unitFlags ks bin true := by cases bin <;> rfl
        rw [e]
        refine ⟨List.nodup_cons.2 ⟨?_, h3⟩, ?_⟩
        · rw [h4]
          rintro (⟨h, _⟩ | ⟨_, h, _⟩)
          · exact hne h.symm
          · cases h
        · intro x
          rw [List.mem_cons, h4]
          generalize "--bins".toList = B
          generalize "--lib".toList = L
          simp [or_comm]
      | true =>
        have e : unitFlags (.lib :: ks) bin true = unitFlags ks bin true := by cases bin <;> rfl
        rw [e]
        refine ⟨h3, fun x => ?_⟩
        rw [h4]
        generalize "--bins".toList = B
        generalize "--lib".toList = L
        simp
    | test =>
      have e : unitFlags (.test :: ks) bin lib = unitFlags ks bin lib := by cases bin <;> cases lib <;> rfl
      rw [e]
      refine ⟨h5.1, fun x => ?_⟩
      rw [h5.2]
      generalize "--bins".toList = B
      generalize "--lib".toList = L
      simp
    | other =>
      have e : unitFlags (.other :: ks) bin lib = unitFlags ks bin lib := by cases bin <;> cases lib <;> rfl
      rw [e]
      refine ⟨h5.1, fun x => ?_⟩
      rw [h5.2]
      generalize "--bins".toList = B
      generalize "--lib".toList = L
      simp

/-- **C68.** Otherwise the flags select the package's programs, if it has any, and its library, if it has one (of kind `lib`), and nothing
in particular if it has neither. -/
theorem C68_unit {p : Package} {file : Path}
    (h : ¬ ∃ t before after, p.targets = before ++ t :: after ∧ (t.kind = [.test] ∧ t.srcPath = file) ∧
      ∀ u ∈ before ++ after, ¬ (u.kind = [.test] ∧ u.srcPath = file)) :
    ∃ l, flagsOf p file = ["--manifest-path".toList, '/' :: List.intercalate ['/'] p.manifest] ++ l ∧ l.Nodup ∧
      ∀ x, x ∈ l ↔ x = "--bins".toList ∧ (∃ t ∈ p.targets, .bin ∈ t.kind) ∨ x = "--lib".toList ∧ ∃ t ∈ p.targets, .lib ∈ t.kind := by
  have hn : sourceFileTest p file = none := by
    unfold sourceFileTest
    split
    · rename_i name hf
      obtain ⟨bf, t, af, e, h1, h2⟩ := filterMap_singleton.1 hf
      exfalso
      apply h
      refine ⟨t, bf, af, e, ?_, ?_⟩
      · apply Classical.byContradiction
        intro hc; rw [if_neg hc] at h1; cases h1
      · intro u hu hc
        have := h2 u hu
        rw [if_pos hc] at this; cases this
    · rfl
  unfold flagsOf
  rw [hn]
  refine ⟨_, rfl, (unitFlags_spec _ _ _).1, fun x => ?_⟩
  rw [(unitFlags_spec _ _ _).2]
  generalize "--bins".toList = B
  generalize "--lib".toList = L
  simp

section
variable {args : List Text} {file file' : Path} {walk : Text → Bool}

theorem testNew_extends {path : List Text} {name : Text} {f : Found} {s : St ω} :
    Extends s.1 (testNew cargo args file path name f s).2.2.1 := by
  unfold testNew
  have h1 := cachedFsModulePath_extends (cargo := cargo) (file := file) (s := s)
  generalize cachedFsModulePath cargo file s = x at h1
  obtain ⟨r, s1⟩ := x
  cases r with
  | error e => exact h1
  | ok fs =>
    dsimp only
    have h2 := cachedTestNames_extends (cargo := cargo) (args := args) (file := file) (s := s1)
    generalize cachedTestNames cargo args file s1 = y at h2
    obtain ⟨r, s2⟩ := y
    cases r with
    | error e => exact h1.trans h2
    | ok ns => dsimp only; split <;> exact h1.trans h2

mutual
theorem visitItem_extends (path : List Text) (x x' : Found × St ω) (b : Bool) : (i : Item) →
    visitItem cargo args file walk path b i x = some x' → Extends x.2.1 x'.2.1
  | .fn name attrs body => by
    intro h
    obtain ⟨f, s⟩ := x
    rw [visitItem] at h
    by_cases ht : isTest attrs = true
    · rw [if_pos ht] at h
      cases b with
      | true => rw [if_pos rfl] at h; cases h
      | false =>
        rw [if_neg (by simp)] at h
        have hx := testNew_extends (cargo := cargo) (args := args) (file := file) (path := path) (name := name) (f := f) (s := s)
        generalize testNew cargo args file path name f s = y at h hx
        obtain ⟨r, f1, s1⟩ := y
        cases r with
        | error e => cases h; exact hx
        | ok o =>
          cases o with
          | none => cases h; exact hx
          | some p =>
            dsimp only at h
            by_cases hw : walk (join p) = true
            · rw [if_pos hw] at h
              have := visitItems_extends path _ x' true body h
              exact Extends.trans hx this
            · rw [if_neg hw] at h; cases h; exact hx
    · rw [if_neg ht] at h; cases h; exact Extends.refl _
  | .mod_ m items => by
    intro h
    rw [visitItem] at h
    exact visitItems_extends _ x x' b items h
  | .other items => by
    intro h
    rw [visitItem] at h
    exact visitItems_extends _ x x' b items h
termination_by i => (sizeOf i, 0)
theorem visitItems_extends (path : List Text) (x x' : Found × St ω) (b : Bool) : (items : List Item) →
    visitItems cargo args file walk path b items x = some x' → Extends x.2.1 x'.2.1
  | [] => by intro h; rw [visitItems] at h; cases h; exact Extends.refl _
  | i :: is => by
    intro h
    rw [visitItems] at h
    cases hi : visitItem cargo args file walk path b i x with
    | none => rw [hi] at h; cases h
    | some x1 =>
      rw [hi] at h
      exact (visitItem_extends path x x1 b i hi).trans (visitItems_extends path x1 x' b is h)
termination_by items => (sizeOf items, 1)
end

theorem visitFile_extends {items : List Item} {s s' : St ω} {r : Except Err Found}
    (h : visitFile cargo args file walk items s = some (r, s')) :
    Extends s.1 s'.1 ∧ ∀ f, r = .ok f → ∃ fl, s'.1.flags.lookup file = some fl ∧ (cachedFlags cargo file s).1 = .ok fl := by
  unfold visitFile at h
  have h1 := cachedFlags_extends (cargo := cargo) (file := file) (s := s)
  have h3 := fun fl => cachedFlags_stored (cargo := cargo) (file := file) (s := s) (fl := fl)
  generalize hx : cachedFlags cargo file s = x at h h1 h3
  obtain ⟨q, s1⟩ := x
  cases q with
  | error e => cases h; exact ⟨h1, fun f hf => by cases hf⟩
  | ok fl =>
    dsimp only at h
    cases hv : visitItems cargo args file walk [] false items ({}, s1) with
    | none => rw [hv] at h; cases h
    | some y =>
      rw [hv] at h
      obtain ⟨f, s2⟩ := y
      have h2 := visitItems_extends [] _ _ _ items hv
      cases h
      refine ⟨h1.trans h2, ?_⟩
      intro f' _
      exact ⟨fl, h2.flags _ _ (h3 fl rfl), rfl⟩

/-- **C68.** Once a file has been visited successfully, and whatever is visited after that, the commands for its tests are `cargo test`
with the flags that were determined then; a test is run by `-- --exact` and its name. -/
theorem C68_commands {items : List Item} {s s' : St ω} {f : Found} (h : visitFile cargo args file walk items s = some (.ok f, s'))
    {c : Caches} (hc : Extends s'.1 c) (name : Text) :
    ∃ flags, (cachedFlags cargo file s).1 = .ok flags ∧
      commandToBuild file c = some (["cargo".toList, "test".toList] ++ flags ++ ["--no-run".toList]) ∧
      commandToRunTest file name c = some (["cargo".toList, "test".toList] ++ flags, ["--".toList, "--exact".toList, name]) := by
  obtain ⟨_, h2⟩ := visitFile_extends h
  obtain ⟨fl, h3, h4⟩ := h2 f rfl
  have := hc.flags _ _ h3
  refine ⟨fl, h4, ?_, ?_⟩
  · simp [commandToBuild, testCommand, this]
  · simp [commandToRunTest, testCommand, this]

/-- **C68.** Visiting other files is such a later change. -/
theorem C68_later {items : List Item} {s s' : St ω} {r : Except Err Found} (h : visitFile cargo args file walk items s = some (r, s')) :
    Extends s.1 s'.1 := (visitFile_extends h).1

end

end

/-! ### Cases -/
namespace Demo

def dir : Path := ["p".toList]
def pkg : Package := ⟨dir ++ ["Cargo.toml".toList],
  [⟨[.lib], dir ++ ["src".toList, "lib.rs".toList], "p".toList⟩, ⟨[.bin], dir ++ ["src".toList, "main.rs".toList], "p".toList⟩,
   ⟨[.test], dir ++ ["tests".toList, "t.rs".toList], "t".toList⟩]⟩
def inner : Package := ⟨dir ++ ["src".toList, "q".toList, "Cargo.toml".toList], []⟩
def answers : Answers where
  metadata _ := .ok [pkg, inner]
  list _ := .ok "a::tests::one: test\na::two: test\na: bench\n\n2 tests\n".toList
def cargo : Cargo Unit := ⟨fun d w => (answers.metadata d, w), fun l w => (answers.list l, w)⟩
example : Stable cargo answers := ⟨fun _ _ => rfl, fun _ _ => rfl⟩

def file : Path := dir ++ ["src".toList, "a.rs".toList]
def testAttr : List (List Segment) := [[some "test".toList]]
def items : List Item :=
  [.fn "two".toList testAttr [.other []], .fn "helper".toList [] [.fn "hidden".toList testAttr []],
   .mod_ "tests".toList [.fn "one".toList [[some "tokio".toList, some "test".toList]] [], .fn "cfged_out".toList testAttr []]]

example : (visitFile cargo [] file (fun _ => true) items ({}, ())).map (fun r => match r.1 with
    | .ok f => f.tests
    | .error _ => []) = some [["a".toList, "two".toList], ["a".toList, "tests".toList, "one".toList]] := by decide +kernel

example : (visitFile cargo [] file (fun _ => true) items ({}, ())).bind (fun r => commandToRunTest file "a::two".toList r.2.1) =
    some (["cargo", "test", "--manifest-path", "/p/Cargo.toml", "--lib", "--bins"].map String.toList, ["--", "--exact", "a::two"].map String.toList) := by
  decide +kernel

example : flagsOf pkg (dir ++ ["tests".toList, "t.rs".toList]) =
    ["--manifest-path", "/p/Cargo.toml", "--test", "t"].map String.toList := by decide +kernel

example : (match nearest (dir ++ ["src".toList, "q".toList, "src".toList, "lib.rs".toList]) [pkg, inner] none with
    | .ok (some p) => some p.manifest
    | _ => none) = some inner.manifest := by decide +kernel

/-- A test in `tests/common/mod.rs` is taken for a test of the same name at the root of the library. -/
theorem C67_negation_confused :
    let lib : Answers := ⟨answers.metadata, fun _ => .ok "works: test\n".toList⟩
    let cargo : Cargo Unit := ⟨fun d w => (lib.metadata d, w), fun l w => (lib.list l, w)⟩
    (visitFile cargo [] (dir ++ ["tests".toList, "common".toList, "mod.rs".toList]) (fun _ => true)
      [.fn "works".toList testAttr []] ({}, ())).map (fun r => (match r.1 with
        | .ok f => f.tests
        | .error _ => [], r.2.1.flags.map (·.2))) =
      some ([["works".toList]], [["--manifest-path", "/p/Cargo.toml", "--lib", "--bins"].map String.toList]) := by decide +kernel

end Demo

end Necessist.Rust
