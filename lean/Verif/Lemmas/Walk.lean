import Verif.Spec.Walk
/-!
# Walking directories (lemmas)
-/
namespace Necessist.Walk
open Parse (Path)
open Framework (Identifier)
open Run (Err)

theorem isFile_iff (e : Entry) : e.isFile = true ↔ e.IsFile := by
  unfold Entry.IsFile
  cases e <;> simp [Entry.isFile]

theorem isDir_iff (e : Entry) : e.isDir = true ↔ e.IsDir := by
  unfold Entry.IsDir
  cases e <;> simp [Entry.isDir]

theorem hidden_iff (n : Text) : hidden n = true ↔ Hidden n := by
  unfold hidden Hidden
  cases n <;> simp

/-- A suffix without slashes is a suffix of the last component. -/
theorem suffix_showPath {s : Text} (hs : '/' ∉ s) (p : Path) (n : Text) :
    s <:+ Rust.showPath (p ++ [n]) ↔ s <:+ n := by
  have key : ∃ pre, Rust.showPath (p ++ [n]) = pre ++ '/' :: n := by
    induction p with
    | nil => exact ⟨[], by simp [Rust.showPath, List.intercalate, List.intersperse]⟩
    | cons a p ih =>
      obtain ⟨pre, ih⟩ := ih
      refine ⟨'/' :: a ++ pre, ?_⟩
      have : Rust.showPath (a :: p ++ [n]) = '/' :: a ++ Rust.showPath (p ++ [n]) := by
        cases p <;> simp [Rust.showPath, List.intercalate, List.intersperse]
      rw [this, ih]; simp
  obtain ⟨pre, hp⟩ := key
  rw [hp]
  constructor
  · intro h
    rcases List.suffix_or_suffix_of_suffix h (show n <:+ pre ++ '/' :: n from ⟨pre ++ ['/'], by simp⟩) with h1 | h1
    · exact h1
    · by_cases hle : s.length ≤ n.length
      · have := h1.length_le
        exact (h1.eq_of_length (by omega)) ▸ List.suffix_rfl
      · exfalso
        have h2 : '/' :: n <:+ s := by
          rcases List.suffix_or_suffix_of_suffix h (show '/' :: n <:+ pre ++ '/' :: n from ⟨pre, rfl⟩) with h2 | h2
          · have := h2.length_le
            have h3 : s = '/' :: n := h2.eq_of_length (by simp at this ⊢; omega)
            exact h3 ▸ List.suffix_rfl
          · exact h2
        exact hs (h2.subset List.mem_cons_self)
  · exact fun h => h.trans ⟨pre ++ ['/'], by simp⟩

theorem extension_iff (n e : Text) (he : '.' ∉ e) : extension n = some e ↔ ∃ stem, stem ≠ [] ∧ n = stem ++ '.' :: e := by
  unfold extension
  have hsplit := List.takeWhile_append_dropWhile (p := (· != '.')) (l := n.reverse)
  constructor
  · intro h
    simp only at h
    split at h
    · cases h
    · rename_i hne
      injection h with h
      cases hd : n.reverse.dropWhile (· != '.') with
      | nil => simp [hd] at hne
      | cons c cs =>
        have hc : c = '.' := by
          have := List.head?_dropWhile_not (· != '.') n.reverse
          simp [hd] at this
          exact this
        subst hc
        rw [hd] at hne hsplit
        refine ⟨cs.reverse, by simpa using hne, ?_⟩
        rw [← List.reverse_inj, ← hsplit, ← h]
        simp
  · rintro ⟨stem, hs, rfl⟩
    have h1 : (stem ++ '.' :: e).reverse = e.reverse ++ ('.' :: stem.reverse) := by simp
    have h2 : ∀ x ∈ e.reverse, (x != '.') = true := by
      intro x hx
      simp only [bne_iff_ne, ne_eq]
      rintro rfl
      exact he (List.mem_reverse.mp hx)
    simp only [h1]
    rw [List.takeWhile_append_of_pos h2, List.dropWhile_append_of_pos h2]
    simp [hs]

theorem isScript_iff (n : Text) : isScript n = true ↔ ∃ stem ext, stem ≠ [] ∧ (ext = ".js".toList ∨ ext = ".ts".toList) ∧ n = stem ++ ext := by
  unfold isScript
  rw [Bool.or_eq_true, beq_iff_eq, beq_iff_eq, extension_iff _ _ (by decide), extension_iff _ _ (by decide)]
  constructor
  · rintro (⟨s, h1, h2⟩ | ⟨s, h1, h2⟩)
    · exact ⟨s, _, h1, Or.inl rfl, h2⟩
    · exact ⟨s, _, h1, Or.inr rfl, h2⟩
  · rintro ⟨s, e, h1, rfl | rfl, h2⟩
    · exact Or.inl ⟨s, h1, h2⟩
    · exact Or.inr ⟨s, h1, h2⟩

theorem notTypeTest_iff (n : Text) : notTypeTest n = true ↔ ¬ ".test-d.ts".toList <:+ n := by
  unfold notTypeTest
  rw [Bool.not_eq_true', ← Bool.not_eq_true, List.isSuffixOf_iff_suffix]

theorem not_file_of_dir {c : Entry} (h : c.isDir = true) : c.isFile = false := by
  cases c <;> simp_all [Entry.isDir, Entry.isFile]

/-- The filter, in the specification's terms. (PHP's also leaves out what is neither file nor directory.) -/
theorem filter_iff (v : Bool) (fw : Identifier) (p : Path) (n : Text) (c : Entry) (hc : fw = .php → c.isDir = true ∨ c.isFile = true) :
    (walkerOf v fw).filter (p ++ [n]) n c = true ↔ ¬ Reserved fw n c ∧ (c.IsFile → TestName v fw n) := by
  have hsuf : ∀ s : Text, '/' ∉ s → (s.isSuffixOf (Rust.showPath (p ++ [n])) = true ↔ ∃ stem, n = stem ++ s) := by
    intro s hs
    rw [List.isSuffixOf_iff_suffix, suffix_showPath hs]
    exact ⟨fun ⟨t, h⟩ => ⟨t, h.symm⟩, fun ⟨t, h⟩ => ⟨t, h.symm⟩⟩
  have hfile : ∀ P : Prop, (c.isFile = false ∨ P ↔ (c.IsFile → P)) := by
    intro P
    rw [← isFile_iff]
    cases c.isFile <;> simp
  cases fw with
  | foundry =>
    simp only [walkerOf, Walker.filter, Bool.or_eq_true, Bool.not_eq_true', hsuf ".t.sol".toList (by decide), hfile]
    refine ⟨fun h => ⟨nofun, fun hc => ?_⟩, fun h hc => ?_⟩
    · obtain ⟨s, rfl⟩ := h hc; exact .foundry
    · obtain ⟨_, h⟩ := h
      cases h hc; exact ⟨_, rfl⟩
  | go =>
    simp only [walkerOf, Walker.filter, Bool.or_eq_true, Bool.not_eq_true', hsuf "_test.go".toList (by decide), hfile]
    refine ⟨fun h => ⟨nofun, fun hc => ?_⟩, fun h hc => ?_⟩
    · obtain ⟨s, rfl⟩ := h hc; exact .go
    · obtain ⟨_, h⟩ := h
      cases h hc; exact ⟨_, rfl⟩
  | php =>
    simp only [walkerOf, Walker.filter]
    by_cases hd : c.isDir = true
    · rw [if_pos hd]
      simp only [bne_iff_ne, ne_eq]
      refine ⟨fun h => ⟨fun hr => ?_, fun hf => ?_⟩, fun h hn => ?_⟩
      · cases hr; exact h rfl
      · rw [← isFile_iff, not_file_of_dir hd] at hf; cases hf
      · subst hn; exact h.1 (.php ((isDir_iff c).mp hd))
    · rw [if_neg hd, hsuf "Test.php".toList (by decide)]
      have hf : c.IsFile := (isFile_iff c).mp ((hc rfl).resolve_left hd)
      refine ⟨fun ⟨s, h⟩ => ⟨fun hr => ?_, fun _ => h ▸ .php⟩, fun h => ?_⟩
      · cases hr with | php h => exact hd ((isDir_iff c).mpr h)
      · cases h.2 hf; exact ⟨_, rfl⟩
  | rust =>
    simp only [walkerOf, Walker.filter, Bool.and_eq_true, Bool.or_eq_true, Bool.not_eq_true', beq_iff_eq, hfile, bne_iff_ne, ne_eq,
      extension_iff _ "rs".toList (by decide)]
    refine ⟨fun ⟨h1, h2⟩ => ⟨fun hr => ?_, fun hc => ?_⟩, fun ⟨h1, h2⟩ => ⟨fun hn => ?_, fun hc => ?_⟩⟩
    · cases hr; exact h1 rfl
    · obtain ⟨s, hs, rfl⟩ := h2 hc; exact .rust hs
    · subst hn; exact h1 .rust
    · cases h2 hc with | rust hs => exact ⟨_, hs, rfl⟩
  | hardhat =>
    simp only [walkerOf, Walker.filter, Bool.or_eq_true, Bool.not_eq_true', hfile, isScript_iff]
    refine ⟨fun h => ⟨nofun, fun hc => ?_⟩, fun h hc => ?_⟩
    · obtain ⟨s, e, hs, he, rfl⟩ := h hc; exact .hardhat hs he
    · cases h.2 hc with | hardhat hs he => exact ⟨_, _, hs, he, rfl⟩
  | vitest =>
    simp only [walkerOf, Walker.filter, Bool.or_eq_true, Bool.and_eq_true, Bool.not_eq_true', hfile, isScript_iff, notTypeTest_iff]
    refine ⟨fun h => ⟨nofun, fun hc => ?_⟩, fun h hc => ?_⟩
    · obtain ⟨⟨s, e, hs, he, rfl⟩, ht⟩ := h hc; exact .vitest hs he ht
    · cases h.2 hc with | vitest hs he ht => exact ⟨⟨_, _, hs, he, rfl⟩, ht⟩
  | anchor =>
    cases v with
    | true =>
      simp only [walkerOf, if_true, Walker.filter, Bool.or_eq_true, Bool.and_eq_true, Bool.not_eq_true', hfile, isScript_iff, notTypeTest_iff]
      refine ⟨fun h => ⟨nofun, fun hc => ?_⟩, fun h hc => ?_⟩
      · obtain ⟨⟨s, e, hs, he, rfl⟩, ht⟩ := h hc; exact .anchor hs he (fun _ => ht)
      · cases h.2 hc with | anchor hs he ht => exact ⟨⟨_, _, hs, he, rfl⟩, ht rfl⟩
    | false =>
      simp only [walkerOf, Bool.false_eq_true, if_false, Walker.filter, Bool.or_eq_true, Bool.not_eq_true', hfile, isScript_iff]
      refine ⟨fun h => ⟨nofun, fun hc => ?_⟩, fun h hc => ?_⟩
      · obtain ⟨s, e, hs, he, rfl⟩ := h hc; exact .anchor hs he (by simp)
      · cases h.2 hc with | anchor hs he ht => exact ⟨_, _, hs, he, rfl⟩

theorem skips_iff (v : Bool) (fw : Identifier) (rule : Path → Bool → Verdict) (p : Path) (n : Text) (c : Entry)
    (hc : fw = .php → c.isDir = true ∨ c.isFile = true) :
    skips (walkerOf v fw) rule (p ++ [n]) n c = false ↔ ¬ LeftOut v fw rule (p ++ [n]) n c := by
  have h1 := filter_iff v fw p n c hc
  unfold skips
  rw [Bool.or_eq_false_iff, Bool.not_eq_false', h1]
  have h2 : matched (rule (p ++ [n]) c.isDir) n = false ↔ rule (p ++ [n]) c.isDir ≠ .ignore ∧ (rule (p ++ [n]) c.isDir = .nothing → ¬ Hidden n) := by
    unfold matched
    cases rule (p ++ [n]) c.isDir <;> simp [← hidden_iff]
  rw [h2]
  constructor
  · rintro ⟨⟨a1, a2⟩, a3, a4⟩ (h | ⟨h, h'⟩ | h | ⟨h, h'⟩)
    · exact a1 h
    · exact a2 h h'
    · exact a3 h
    · exact h' (a4 h)
  · intro h
    exact ⟨⟨fun a => h (.ignored a), fun a b => h (.hidden a b)⟩, fun a => h (.reserved a), fun a =>
      Classical.byContradiction fun b => h (.name a b)⟩

section
variable {v : Bool} {fw : Identifier} {rule : Path → Bool → Verdict}

mutual
theorem walkEntry_found {p q : Path} : ∀ c : Entry, .ok (q, true) ∈ walkEntry (walkerOf v fw) rule p c →
    ∃ n x, c.name? = some n ∧ ¬ LeftOut v fw rule (p ++ [n]) n c ∧ Found v fw rule false (p ++ [n]) c q x ∧ x.IsFile
  | .error _, h => by simp [walkEntry] at h
  | .dir n es, h => by
    rw [walkEntry] at h
    by_cases hs : skips (walkerOf v fw) rule (p ++ [n]) n (.dir n es) = true
    · rw [if_pos hs] at h; cases h
    · rw [if_neg hs] at h
      have hl := (skips_iff v fw rule p n (.dir n es) (fun _ => Or.inl rfl)).mp (by simpa using hs)
      have h : .ok (q, true) ∈ walkEntries (walkerOf v fw) rule (p ++ [n]) es := by simpa using h
      obtain ⟨c, hc, m, x, h1, h2, h3, h4⟩ := walkEntries_found es h
      exact ⟨n, x, rfl, hl, .inside ⟨h1, n, es, Or.inl rfl, hc⟩ h2 h3, h4⟩
  | .file n, h => by
    rw [walkEntry] at h
    by_cases hs : skips (walkerOf v fw) rule (p ++ [n]) n (.file n) = true
    · rw [if_pos hs] at h; cases h
    · rw [if_neg hs] at h
      have hl := (skips_iff v fw rule p n (.file n) (fun _ => Or.inr rfl)).mp (by simpa using hs)
      have h : q = p ++ [n] := by simpa using h
      subst h
      exact ⟨n, _, rfl, hl, .here, n, Or.inl rfl⟩
  | .linkFile n, h => by
    rw [walkEntry] at h
    by_cases hs : skips (walkerOf v fw) rule (p ++ [n]) n (.linkFile n) = true
    · rw [if_pos hs] at h; cases h
    · rw [if_neg hs] at h
      have hl := (skips_iff v fw rule p n (.linkFile n) (fun _ => Or.inr rfl)).mp (by simpa using hs)
      have h : q = p ++ [n] := by simpa using h
      subst h
      exact ⟨n, _, rfl, hl, .here, n, Or.inr rfl⟩
  | .linkDir n es, h => by
    rw [walkEntry] at h
    split at h <;> simp at h
  | .other n, h => by
    rw [walkEntry] at h
    split at h <;> simp at h
theorem walkEntries_found {p q : Path} : ∀ cs : List Entry, .ok (q, true) ∈ walkEntries (walkerOf v fw) rule p cs →
    ∃ c ∈ cs, ∃ n x, c.name? = some n ∧ ¬ LeftOut v fw rule (p ++ [n]) n c ∧ Found v fw rule false (p ++ [n]) c q x ∧ x.IsFile
  | [], h => by simp [walkEntries] at h
  | c :: cs, h => by
    rw [walkEntries, List.mem_append] at h
    rcases h with h | h
    · obtain ⟨n, x, h'⟩ := walkEntry_found c h
      exact ⟨c, List.mem_cons_self, n, x, h'⟩
    · obtain ⟨c', hc, h'⟩ := walkEntries_found cs h
      exact ⟨c', List.mem_cons_of_mem _ hc, h'⟩
end

mutual
theorem walkEntry_error {p : Path} {err : Err} : ∀ c : Entry, .error err ∈ walkEntry (walkerOf v fw) rule p c →
    c = .error err ∨ ∃ n q m es, c.name? = some n ∧ ¬ LeftOut v fw rule (p ++ [n]) n c ∧ Found v fw rule false (p ++ [n]) c q (.dir m es) ∧
      .error err ∈ es
  | .error _, h => by
    simp only [walkEntry, List.mem_singleton, Except.error.injEq] at h
    exact Or.inl (by rw [h])
  | .dir n es, h => by
    rw [walkEntry] at h
    by_cases hs : skips (walkerOf v fw) rule (p ++ [n]) n (.dir n es) = true
    · rw [if_pos hs] at h; cases h
    · rw [if_neg hs] at h
      have hl := (skips_iff v fw rule p n (.dir n es) (fun _ => Or.inl rfl)).mp (by simpa using hs)
      have h : .error err ∈ walkEntries (walkerOf v fw) rule (p ++ [n]) es := by simpa using h
      rcases walkEntries_error es h with h | ⟨c, hc, k, q, m, es', h1, h2, h3, h4⟩
      · exact Or.inr ⟨n, _, n, es, rfl, hl, .here, h⟩
      · exact Or.inr ⟨n, q, m, es', rfl, hl, .inside ⟨h1, n, es, Or.inl rfl, hc⟩ h2 h3, h4⟩
  | .file n, h => by rw [walkEntry] at h; split at h <;> simp at h
  | .linkFile n, h => by rw [walkEntry] at h; split at h <;> simp at h
  | .linkDir n es, h => by rw [walkEntry] at h; split at h <;> simp at h
  | .other n, h => by rw [walkEntry] at h; split at h <;> simp at h
theorem walkEntries_error {p : Path} {err : Err} : ∀ cs : List Entry, .error err ∈ walkEntries (walkerOf v fw) rule p cs →
    .error err ∈ cs ∨ ∃ c ∈ cs, ∃ n q m es, c.name? = some n ∧ ¬ LeftOut v fw rule (p ++ [n]) n c ∧
      Found v fw rule false (p ++ [n]) c q (.dir m es) ∧ .error err ∈ es
  | [], h => by simp [walkEntries] at h
  | c :: cs, h => by
    rw [walkEntries, List.mem_append] at h
    rcases h with h | h
    · rcases walkEntry_error c h with rfl | h'
      · exact Or.inl List.mem_cons_self
      · exact Or.inr ⟨c, List.mem_cons_self, h'⟩
    · rcases walkEntries_error cs h with h' | ⟨c', hc, h'⟩
      · exact Or.inl (List.mem_cons_of_mem _ h')
      · exact Or.inr ⟨c', List.mem_cons_of_mem _ hc, h'⟩
end

theorem mem_walkEntries {w : Walker} {p : Path} {c y} : ∀ {cs : List Entry}, c ∈ cs → y ∈ walkEntry w rule p c → y ∈ walkEntries w rule p cs
  | [], h, _ => by cases h
  | d :: ds, h, hy => by
    rw [walkEntries, List.mem_append]
    rcases List.mem_cons.mp h with rfl | h
    · exact Or.inl hy
    · exact Or.inr (mem_walkEntries h hy)

/-- What is found in a directory is walked. -/
theorem Found.walked {start p' c q x} (h : Found v fw rule start p' c q x) : start = false → ∀ {p n}, p' = p ++ [n] → c.name? = some n →
    ¬ LeftOut v fw rule (p ++ [n]) n c →
    (x.IsFile → .ok (q, true) ∈ walkEntry (walkerOf v fw) rule p c) ∧
    ∀ m es err, x = .dir m es → .error err ∈ es → .error err ∈ walkEntry (walkerOf v fw) rule p c := by
  induction h with
  | @here start p' e =>
    rintro - p n rfl hn hl
    refine ⟨?_, ?_⟩
    · rintro ⟨m, rfl | rfl⟩
      · cases hn
        have := (skips_iff v fw rule p n (.file n) (fun _ => Or.inr rfl)).mpr hl
        rw [walkEntry, this]; simp
      · cases hn
        have := (skips_iff v fw rule p n (.linkFile n) (fun _ => Or.inr rfl)).mpr hl
        rw [walkEntry, this]; simp
    · rintro m es err rfl he
      cases hn
      have := (skips_iff v fw rule p n (.dir n es) (fun _ => Or.inl rfl)).mpr hl
      rw [walkEntry, this]
      simp only [Bool.false_eq_true, if_false]
      exact List.mem_cons_of_mem _ (mem_walkEntries he (by rw [walkEntry]; exact List.mem_singleton.mpr rfl))
  | @inside start p' e name c q x hc hlc hf ih =>
    rintro rfl p n rfl hn hl
    obtain ⟨hcn, m, es, he | ⟨h, _⟩, hmem⟩ := hc
    · subst he
      cases hn
      have hs := (skips_iff v fw rule p n (.dir n es) (fun _ => Or.inl rfl)).mpr hl
      obtain ⟨i1, i2⟩ := ih rfl rfl hcn hlc
      rw [walkEntry, hs]
      simp only [Bool.false_eq_true, if_false]
      exact ⟨fun hx => List.mem_cons_of_mem _ (mem_walkEntries hmem (i1 hx)),
        fun m' es' err hx he => List.mem_cons_of_mem _ (mem_walkEntries hmem (i2 m' es' err hx he))⟩
    · cases h

theorem contains_start {e : Entry} {name c} : Contains true e name c ↔ c.name? = some name ∧ c ∈ e.entries := by
  unfold Contains
  refine and_congr_right fun _ => ⟨?_, fun h => ?_⟩
  · rintro ⟨n, es, rfl | ⟨_, rfl⟩, h⟩ <;> exact h
  · cases e with
    | dir n es => exact ⟨n, es, Or.inl rfl, h⟩
    | linkDir n es => exact ⟨n, es, Or.inr ⟨rfl, rfl⟩, h⟩
    | _ => cases h

/-- The files that a walk yields. -/
theorem walkDir_files (disk : Entry) (p q : Path) : .ok (q, true) ∈ walkDir disk (walkerOf v fw) rule p ↔
    ∃ e x, disk.at? ((walkerOf v fw).start p) = some e ∧ Found v fw rule true ((walkerOf v fw).start p) e q x ∧ x.IsFile := by
  unfold walkDir
  cases he : disk.at? ((walkerOf v fw).start p) with
  | none => simp
  | some e =>
    simp only [List.mem_cons, Except.ok.injEq, Prod.mk.injEq, Option.some.injEq]
    constructor
    · rintro (⟨rfl, h⟩ | h)
      · exact ⟨e, e, rfl, .here, (isFile_iff e).mp h.symm⟩
      · obtain ⟨c, hc, n, x, h1, h2, h3, h4⟩ := walkEntries_found _ h
        exact ⟨e, x, rfl, .inside (contains_start.mpr ⟨h1, hc⟩) h2 h3, h4⟩
    · rintro ⟨_, x, rfl, h, hx⟩
      cases h with
      | here => exact Or.inl ⟨rfl, ((isFile_iff _).mpr hx).symm⟩
      | inside hc hl hf =>
        obtain ⟨h1, h2⟩ := contains_start.mp hc
        exact Or.inr (mem_walkEntries h2 ((hf.walked rfl rfl h1 hl).1 hx))

/-- The errors that a walk yields. -/
theorem walkDir_errors (disk : Entry) (p : Path) : (∃ err, .error err ∈ walkDir disk (walkerOf v fw) rule p) ↔
    disk.at? ((walkerOf v fw).start p) = none ∨
    ∃ e, disk.at? ((walkerOf v fw).start p) = some e ∧ ((e.IsDir ∧ ∃ err, .error err ∈ e.entries) ∨
      ∃ q n es err, Found v fw rule true ((walkerOf v fw).start p) e q (.dir n es) ∧ .error err ∈ es) := by
  unfold walkDir
  cases he : disk.at? ((walkerOf v fw).start p) with
  | none => simp
  | some e =>
    simp only [List.mem_cons, reduceCtorEq, false_or, Option.some.injEq]
    have hd : ∀ {err}, .error err ∈ e.entries → e.IsDir := by
      intro err h
      cases e with
      | dir n es => exact ⟨n, es, Or.inl rfl⟩
      | linkDir n es => exact ⟨n, es, Or.inr rfl⟩
      | _ => cases h
    constructor
    · rintro ⟨err, h⟩
      rcases walkEntries_error _ h with h | ⟨c, hc, n, q, m, es, h1, h2, h3, h4⟩
      · exact ⟨e, rfl, Or.inl ⟨hd h, err, h⟩⟩
      · exact ⟨e, rfl, Or.inr ⟨q, m, es, err, .inside (contains_start.mpr ⟨h1, hc⟩) h2 h3, h4⟩⟩
    · rintro ⟨_, rfl, ⟨_, err, h⟩ | ⟨q, n, es, err, h, h'⟩⟩
      · exact ⟨err, mem_walkEntries h (by rw [walkEntry]; exact List.mem_singleton.mpr rfl)⟩
      · refine ⟨err, ?_⟩
        cases h with
        | here => exact mem_walkEntries h' (by rw [walkEntry]; exact List.mem_singleton.mpr rfl)
        | inside hc hl hf =>
          obtain ⟨h1, h2⟩ := contains_start.mp hc
          exact mem_walkEntries h2 ((hf.walked rfl rfl h1 hl).2 _ _ err rfl h')

mutual
theorem walkEntry_prefix {w : Walker} {p q : Path} {b : Bool} : ∀ c : Entry, .ok (q, b) ∈ walkEntry w rule p c → p <+: q
  | .error _, h => by simp [walkEntry] at h
  | .dir n es, h => by
    rw [walkEntry] at h
    split at h
    · cases h
    · rcases List.mem_cons.mp h with h | h
      · cases h; exact List.prefix_append _ _
      · exact (List.prefix_append _ _).trans (walkEntries_prefix es h)
  | .file n, h => by rw [walkEntry] at h; split at h <;> simp at h; rw [h.1]; exact List.prefix_append _ _
  | .linkFile n, h => by rw [walkEntry] at h; split at h <;> simp at h; rw [h.1]; exact List.prefix_append _ _
  | .linkDir n es, h => by rw [walkEntry] at h; split at h <;> simp at h; rw [h.1]; exact List.prefix_append _ _
  | .other n, h => by rw [walkEntry] at h; split at h <;> simp at h; rw [h.1]; exact List.prefix_append _ _
theorem walkEntries_prefix {w : Walker} {p q : Path} {b : Bool} : ∀ cs : List Entry, .ok (q, b) ∈ walkEntries w rule p cs → p <+: q
  | [], h => by simp [walkEntries] at h
  | c :: cs, h => by
    rw [walkEntries, List.mem_append] at h
    exact h.elim (walkEntry_prefix c) (walkEntries_prefix cs)
end

theorem start_eq (v : Bool) (fw : Identifier) (p : Path) : (walkerOf v fw).start p = p ++ subdirectory fw := by
  cases fw <;> cases v <;> simp [walkerOf, Walker.start, subdirectory]

theorem walkDir_prefix {disk : Entry} {p q : Path} {b : Bool} (h : .ok (q, b) ∈ walkDir disk (walkerOf v fw) rule p) : p <+: q := by
  have hp : p <+: (walkerOf v fw).start p := by rw [start_eq]; exact List.prefix_append _ _
  unfold walkDir at h
  split at h
  · simp at h
  · rcases List.mem_cons.mp h with h | h
    · cases h; exact hp
    · exact hp.trans (walkEntries_prefix _ h)

end

end Necessist.Walk
