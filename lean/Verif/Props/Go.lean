import Verif.Spec.Go
import Verif.Props.Instrument
import Verif.Lemmas.Directives
/-!
# Go: referring to the package `os` (C56)
-/
namespace Necessist.Go

theorem mem_lit (w : Text) (m m' : At) : m' ∈ (lit w).run m ↔ m.rest = w ++ m'.rest ∧ m'.cap = m.cap := by
  induction w generalizing m with
  | nil =>
    simp only [lit, Rx.run, List.mem_singleton, List.nil_append]
    constructor
    · rintro rfl; exact ⟨rfl, rfl⟩
    · rintro ⟨h1, h2⟩; cases m; cases m'; simp_all
  | cons c w ih =>
    simp only [lit, Rx.run, List.mem_flatMap]
    constructor
    · rintro ⟨m1, h1, h2⟩
      rw [ih] at h2
      split at h1
      · rename_i d cs hm
        split at h1
        · rename_i hd
          simp at h1 hd
          subst h1
          subst hd
          dsimp only at h2
          exact ⟨by rw [hm, h2.1]; rfl, h2.2⟩
        · simp at h1
      · simp at h1
    · rintro ⟨h1, h2⟩
      refine ⟨⟨w ++ m'.rest, m.cap⟩, ?_, ?_⟩
      · rw [h1]; simp
      · rw [ih]; simp [h2]

theorem mem_star (p : Char → Bool) (cap : Option Text) (t : Text) (m' : At) :
    m' ∈ starRun p cap t ↔ ∃ w, t = w ++ m'.rest ∧ (∀ c ∈ w, p c = true) ∧ m'.cap = cap := by
  induction t with
  | nil =>
    simp only [starRun, List.mem_singleton]
    constructor
    · rintro rfl; exact ⟨[], rfl, by simp, rfl⟩
    · rintro ⟨w, h1, _, h2⟩
      have := (List.append_eq_nil_iff.1 h1.symm).2
      cases m'; simp only at this h2; subst this h2; rfl
  | cons c cs ih =>
    have hself : m' = ⟨c :: cs, cap⟩ ↔ c :: cs = [] ++ m'.rest ∧ m'.cap = cap := by
      cases m'; simp [eq_comm]
    rw [starRun]
    split
    · rename_i hc
      rw [List.mem_append, ih, List.mem_singleton, hself]
      constructor
      · rintro (⟨w, h1, h2, h3⟩ | ⟨h1, h2⟩)
        · exact ⟨c :: w, by simp [h1], by simp [hc]; exact h2, h3⟩
        · exact ⟨[], h1, by simp, h2⟩
      · rintro ⟨w, h1, h2, h3⟩
        cases w with
        | nil => exact Or.inr ⟨h1, h3⟩
        | cons d w =>
          simp at h1
          exact Or.inl ⟨w, h1.2, fun c hc => h2 c (by simp [hc]), h3⟩
    · rename_i hc
      rw [List.mem_singleton, hself]
      constructor
      · rintro ⟨h1, h2⟩; exact ⟨[], h1, by simp, h2⟩
      · rintro ⟨w, h1, h2, h3⟩
        cases w with
        | nil => exact ⟨h1, h3⟩
        | cons d w =>
          simp at h1
          exact absurd (h2 d (by simp)) (by rw [← h1.1]; exact hc)

theorem mem_chr (p : Char → Bool) (m m' : At) : m' ∈ (Rx.chr p).run m ↔ ∃ c, m.rest = c :: m'.rest ∧ p c = true ∧ m'.cap = m.cap := by
  rw [Rx.run]
  split
  · rename_i d cs hm
    rw [hm]
    split
    · rename_i hd
      simp only [List.mem_singleton]
      constructor
      · rintro rfl; exact ⟨d, rfl, hd, rfl⟩
      · rintro ⟨c, h1, _, h2⟩; cases m'; simp_all
    · rename_i hd
      simp only [List.not_mem_nil, false_iff]
      rintro ⟨c, h1, h2, _⟩
      cases h1
      exact hd h2
  · rename_i hm
    simp [hm]

theorem mem_name (m m' : At) : m' ∈ name.run m ↔
    ∃ n sp, m.rest = n ++ sp ++ m'.rest ∧ IsName n ∧ (sp = [] ∨ sp = [' ']) ∧ m'.cap = some n := by
  have hn : ∀ m1, m1 ∈ (Rx.grp (.alt (.chr (· == '.')) (.seq (.chr isAlpha) (.star isAlnum)))).run m ↔
      ∃ n, m.rest = n ++ m1.rest ∧ IsName n ∧ m1.cap = some n := by
    intro m1
    simp only [Rx.run, List.mem_map, List.mem_append, List.mem_flatMap]
    constructor
    · rintro ⟨m2, h, rfl⟩
      have : ∃ n, m.rest = n ++ m2.rest ∧ IsName n := by
        rcases h with h | ⟨m3, h1, h2⟩
        · have h : m2 ∈ (Rx.chr (· == '.')).run m := h
          rw [mem_chr] at h
          obtain ⟨c, h1, h2, _⟩ := h
          simp at h2
          subst h2
          exact ⟨['.'], by simp [h1], Or.inl rfl⟩
        · have h1 : m3 ∈ (Rx.chr isAlpha).run m := h1
          rw [mem_chr] at h1
          rw [mem_star] at h2
          obtain ⟨c, h1, h3, _⟩ := h1
          obtain ⟨w, h2, h4, _⟩ := h2
          exact ⟨c :: w, by simp [h1, h2], Or.inr ⟨c, w, rfl, h3, h4⟩⟩
      obtain ⟨n, h1, h2⟩ := this
      refine ⟨n, h1, h2, ?_⟩
      rw [h1]
      simp
    · rintro ⟨n, h1, h2, h3⟩
      refine ⟨⟨m1.rest, m.cap⟩, ?_, ?_⟩
      · rcases h2 with rfl | ⟨c, cs, rfl, h4, h5⟩
        · left
          exact (mem_chr _ _ _).2 ⟨'.', h1, rfl, rfl⟩
        · right
          exact ⟨⟨cs ++ m1.rest, m.cap⟩, (mem_chr _ _ _).2 ⟨c, h1, h4, rfl⟩, (mem_star _ _ _ _).2 ⟨cs, rfl, h5, rfl⟩⟩
      · cases m1
        simp at h1 h3 ⊢
        rw [h1, h3]
        simp
  rw [name, Rx.run, List.mem_flatMap]
  constructor
  · rintro ⟨m1, h1, h2⟩
    obtain ⟨n, h1, h3, h4⟩ := (hn m1).1 h1
    rw [Rx.run, List.mem_append, mem_chr, List.mem_singleton] at h2
    rcases h2 with ⟨c, h2, h5, h6⟩ | rfl
    · simp at h5
      subst h5
      exact ⟨n, [' '], by simp [h1, h2], h3, Or.inr rfl, by rw [h6, h4]⟩
    · exact ⟨n, [], by simp [h1], h3, Or.inl rfl, h4⟩
  · rintro ⟨n, sp, h1, h2, h3, h4⟩
    refine ⟨⟨sp ++ m'.rest, some n⟩, (hn _).2 ⟨n, by simp [h1], h2, rfl⟩, ?_⟩
    rw [Rx.run, List.mem_append, mem_chr, List.mem_singleton]
    rcases h3 with rfl | rfl
    · right; cases m'; simp_all
    · left; exact ⟨' ', by simp, rfl, h4⟩

/-- The name in front of `"os"` is determined by the text. -/
theorem name_unique {n n' sp sp' x x' : Text} (h : n ++ sp ++ '"' :: x = n' ++ sp' ++ '"' :: x')
    (hn : IsName n) (hn' : IsName n') (hs : sp = [] ∨ sp = [' ']) (hs' : sp' = [] ∨ sp' = [' ']) : n = n' := by
  have hd : isAlpha '.' = false := by decide
  have tw : ∀ {n sp x : Text}, IsIdent n → (sp = [] ∨ sp = [' ']) → (n ++ sp ++ '"' :: x).takeWhile isAlnum = n := by
    rintro n sp x ⟨c, cs, rfl, h1, h2⟩ hs
    have ha : ∀ d ∈ c :: cs, isAlnum d = true := by
      intro d hd
      rcases List.mem_cons.1 hd with rfl | hd
      · simp only [isAlpha, isAlnum, Bool.or_eq_true, Char.isAlphanum] at h1 ⊢
        rcases h1 with h1 | h1
        · exact Or.inl (by simp [h1])
        · exact Or.inr h1
      · exact h2 d hd
    rw [List.append_assoc, List.takeWhile_append_of_pos ha]
    rcases hs with rfl | rfl <;> simp [isAlnum] <;> decide
  rcases hn with rfl | hi <;> rcases hn' with rfl | hi'
  · rfl
  · obtain ⟨c, cs, rfl, h1, h2⟩ := hi'
    have : '.' = c := (List.cons.inj h).1
    rw [← this] at h1
    cases h1
  · obtain ⟨c, cs, rfl, h1, h2⟩ := hi
    have : c = '.' := (List.cons.inj h).1
    rw [this] at h1
    cases h1
  · rw [← tw (x := x) hi hs, ← tw (x := x') hi' hs', h]

/-- What `captures` finds. -/
theorem captures_some {word r prev t m} (h : captures word r prev t = some m) : ∃ before rest, t = before ++ rest ∧
    ((before.getLast?.or prev).any word != rest.head?.any word) = true ∧ (r.run ⟨rest, none⟩).head? = some m ∧
    ∀ b r', t = b ++ r' → b.length < before.length →
      ((b.getLast?.or prev).any word != r'.head?.any word) = true → r.run ⟨r', none⟩ = [] := by
  induction t generalizing prev with
  | nil =>
    rw [captures] at h
    split at h
    · rename_i m' hm
      cases h
      split at hm
      · rename_i hb
        exact ⟨[], [], rfl, by simpa using hb, hm, by simp⟩
      · cases hm
    · cases h
  | cons c cs ih =>
    rw [captures] at h
    split at h
    · rename_i m' hm
      cases h
      split at hm
      · rename_i hb
        exact ⟨[], c :: cs, rfl, by simpa using hb, hm, by simp⟩
      · cases hm
    · rename_i hm
      obtain ⟨before, rest, h1, h2, h3, h4⟩ := ih h
      have hl : ∀ (b : Text), (b.getLast?.or (some c)) = ((c :: b).getLast?.or prev) := by
        intro b
        rw [List.getLast?_cons]
        cases b.getLast? <;> rfl
      refine ⟨c :: before, rest, by simp [h1], by rw [← hl]; exact h2, h3, ?_⟩
      intro b r' hb hlen hbd
      cases b with
      | nil =>
        simp at hb
        subst hb
        rw [if_pos (by simpa using hbd)] at hm
        exact List.head?_eq_none_iff.1 hm
      | cons d b =>
        simp at hb
        obtain ⟨rfl, hb⟩ := hb
        exact h4 b r' hb (by simpa using hlen) (by rw [hl]; exact hbd)

theorem captures_none {word r prev t} (h : captures word r prev t = none) : ∀ b r', t = b ++ r' →
      ((b.getLast?.or prev).any word != r'.head?.any word) = true → r.run ⟨r', none⟩ = [] := by
  induction t generalizing prev with
  | nil =>
    intro b r' hb hbd
    simp at hb
    obtain ⟨rfl, rfl⟩ := hb
    rw [captures] at h
    split at h
    · cases h
    · rename_i hm
      rw [if_pos (by simpa using hbd)] at hm
      exact List.head?_eq_none_iff.1 hm
  | cons c cs ih =>
    intro b r' hb hbd
    rw [captures] at h
    split at h
    · cases h
    · rename_i hm
      cases b with
      | nil =>
        simp at hb
        subst hb
        rw [if_pos (by simpa using hbd)] at hm
        exact List.head?_eq_none_iff.1 hm
      | cons d b =>
        simp at hb
        obtain ⟨rfl, hb⟩ := hb
        refine ih h b r' hb ?_
        have : (b.getLast?.or (some c)) = ((c :: b).getLast?.or prev) := by
          rw [List.getLast?_cons]
          cases b.getLast? <;> rfl
        rw [this]
        exact hbd

theorem mem_import (p n s : Rx) (m m' : At) : m' ∈ (importOsRe p n s).run m ↔
    ∃ m1 m2 m3, m.rest = "import ".toList ++ m1.rest ∧ m1.cap = m.cap ∧ m2 ∈ p.run m1 ∧ m3 ∈ n.run m2 ∧
      ∃ r, m3.rest = "\"os\"".toList ++ r ∧ m' ∈ s.run ⟨r, m3.cap⟩ := by
  rw [importOsRe]
  simp only [Rx.run, List.mem_flatMap, mem_lit]
  constructor
  · rintro ⟨m1, h1, m2, h2, m3, h3, m4, h4, h5⟩
    refine ⟨m1, m2, m3, h1.1, h1.2, h2, h3, m4.rest, h4.1, ?_⟩
    rw [← h4.2]
    exact h5
  · rintro ⟨m1, m2, m3, h1, h1', h2, h3, r, h4, h5⟩
    exact ⟨m1, ⟨h1, h1'⟩, m2, h2, m3, h3, ⟨r, m3.cap⟩, ⟨h4, rfl⟩, h5⟩

/-- Before `import`, the boundary is one if the character before is no word character. -/
theorem boundary_iff {word : Char → Bool} (hw : word 'i' = true) {b r : Text} {x : Text} (hr : r = "import ".toList ++ x) :
    ((b.getLast?.or none).any word != r.head?.any word) = true ↔ AtBoundary word b := by
  have : r.head? = some 'i' := by rw [hr]; rfl
  rw [this]
  unfold AtBoundary
  cases hb : b.getLast? with
  | none => simp [hw]
  | some c => simp [hw]

theorem mem_named (m : At) (t : Text) : m ∈ (importOsRe .eps name .eps).run ⟨t, none⟩ ↔
    ∃ n sp, t = "import ".toList ++ (n ++ sp ++ ("\"os\"".toList ++ m.rest)) ∧ IsName n ∧ (sp = [] ∨ sp = [' ']) ∧ m.cap = some n := by
  rw [mem_import]
  constructor
  · rintro ⟨m1, m2, m3, h1, h1', h2, h3, r, h4, h5⟩
    simp only [Rx.run, List.mem_singleton] at h2 h5
    subst h2 h5
    rw [mem_name] at h3
    obtain ⟨n, sp, h6, h7, h8, h9⟩ := h3
    exact ⟨n, sp, by rw [← h4, ← h6]; exact h1, h7, h8, h9⟩
  · rintro ⟨n, sp, h1, h2, h3, h4⟩
    refine ⟨⟨n ++ sp ++ ("\"os\"".toList ++ m.rest), none⟩, _, ⟨"\"os\"".toList ++ m.rest, some n⟩, h1, rfl, List.mem_singleton.2 rfl,
      (mem_name _ _).2 ⟨n, sp, rfl, h2, h3, rfl⟩, m.rest, rfl, ?_⟩
    simp only [Rx.run, List.mem_singleton]
    cases m
    simp only at h4
    rw [h4]

theorem mem_unnamed (m : At) (t : Text) : m ∈ (importOsRe .eps .eps .eps).run ⟨t, none⟩ ↔
    t = "import ".toList ++ ("\"os\"".toList ++ m.rest) ∧ m.cap = none := by
  rw [mem_import]
  constructor
  · rintro ⟨m1, m2, m3, h1, h1', h2, h3, r, h4, h5⟩
    simp only [Rx.run, List.mem_singleton] at h2 h3 h5
    subst h2 h3 h5
    exact ⟨by rw [← h4]; exact h1, h1'⟩
  · rintro ⟨h1, h2⟩
    refine ⟨⟨"\"os\"".toList ++ m.rest, none⟩, _, _, h1, rfl, List.mem_singleton.2 rfl, List.mem_singleton.2 rfl, m.rest, rfl, ?_⟩
    simp only [Rx.run, List.mem_singleton]
    cases m
    simp only at h2
    rw [h2]

theorem mem_prefix (m m' : At) : m' ∈ prefix_.run m ↔ ∃ inner, m.rest = '(' :: inner ++ m'.rest ∧ ')' ∉ inner ∧ m'.cap = m.cap := by
  rw [prefix_, Rx.run, List.mem_flatMap]
  constructor
  · rintro ⟨m1, h1, h2⟩
    rw [mem_chr] at h1
    obtain ⟨c, h1, h3, h4⟩ := h1
    rw [Rx.run, mem_star] at h2
    obtain ⟨w, h2, h5, h6⟩ := h2
    simp at h3
    subst h3
    refine ⟨w, by rw [h1, h2]; rfl, ?_, by rw [h6, h4]⟩
    intro h
    simpa using h5 _ h
  · rintro ⟨inner, h1, h2, h3⟩
    refine ⟨⟨inner ++ m'.rest, m.cap⟩, (mem_chr _ _ _).2 ⟨'(', h1, rfl, rfl⟩, ?_⟩
    rw [Rx.run, mem_star]
    refine ⟨inner, rfl, ?_, h3⟩
    intro c hc
    simp
    rintro rfl
    exact h2 hc

theorem mem_suffix (m m' : At) : m' ∈ suffix_.run m ↔ ∃ outer, m.rest = outer ++ ')' :: m'.rest ∧ ')' ∉ outer ∧ m'.cap = m.cap := by
  rw [suffix_, Rx.run, List.mem_flatMap]
  constructor
  · rintro ⟨m1, h1, h2⟩
    rw [mem_chr] at h2
    obtain ⟨c, h2, h3, h4⟩ := h2
    rw [Rx.run, mem_star] at h1
    obtain ⟨w, h1, h5, h6⟩ := h1
    simp at h3
    subst h3
    refine ⟨w, by rw [h1, h2], ?_, by rw [h4, h6]⟩
    intro h
    simpa using h5 _ h
  · rintro ⟨outer, h1, h2, h3⟩
    refine ⟨⟨')' :: m'.rest, m.cap⟩, ?_, (mem_chr _ _ _).2 ⟨')', rfl, rfl, h3⟩⟩
    rw [Rx.run, mem_star]
    refine ⟨outer, h1, ?_, rfl⟩
    intro c hc
    simp
    rintro rfl
    exact h2 hc

theorem mem_groupedNamed (m : At) (t : Text) : m ∈ (importOsRe prefix_ name suffix_).run ⟨t, none⟩ ↔
    ∃ inner n sp outer, t = "import ".toList ++ ('(' :: inner ++ (n ++ sp ++ ("\"os\"".toList ++ (outer ++ ')' :: m.rest)))) ∧
      IsName n ∧ (sp = [] ∨ sp = [' ']) ∧ ')' ∉ inner ∧ ')' ∉ outer ∧ m.cap = some n := by
  rw [mem_import]
  constructor
  · rintro ⟨m1, m2, m3, h1, h1', h2, h3, r, h4, h5⟩
    rw [mem_prefix] at h2
    rw [mem_name] at h3
    rw [mem_suffix] at h5
    obtain ⟨inner, a1, a2, a3⟩ := h2
    obtain ⟨n, sp, h6, h7, h8, h9⟩ := h3
    obtain ⟨outer, b1, b2, b3⟩ := h5
    refine ⟨inner, n, sp, outer, ?_, h7, h8, a2, b2, by rw [b3, h9]⟩
    rw [← b1, ← h4, ← h6, ← a1]
    exact h1
  · rintro ⟨inner, n, sp, outer, h1, h2, h3, h4, h5, h6⟩
    exact ⟨⟨_, none⟩, ⟨_, none⟩, ⟨_, some n⟩, h1, rfl, (mem_prefix _ _).2 ⟨inner, rfl, h4, rfl⟩,
      (mem_name _ _).2 ⟨n, sp, rfl, h2, h3, rfl⟩, _, rfl, (mem_suffix _ _).2 ⟨outer, rfl, h5, h6⟩⟩

theorem mem_groupedUnnamed (m : At) (t : Text) : m ∈ (importOsRe prefix_ .eps suffix_).run ⟨t, none⟩ ↔
    ∃ inner outer, t = "import ".toList ++ ('(' :: inner ++ ("\"os\"".toList ++ (outer ++ ')' :: m.rest))) ∧
      ')' ∉ inner ∧ ')' ∉ outer ∧ m.cap = none := by
  rw [mem_import]
  constructor
  · rintro ⟨m1, m2, m3, h1, h1', h2, h3, r, h4, h5⟩
    rw [mem_prefix] at h2
    simp only [Rx.run, List.mem_singleton] at h3
    subst h3
    rw [mem_suffix] at h5
    obtain ⟨inner, a1, a2, a3⟩ := h2
    obtain ⟨outer, b1, b2, b3⟩ := h5
    refine ⟨inner, outer, ?_, a2, b2, by rw [b3]; simp only; rw [a3, h1']⟩
    rw [← b1, ← h4, ← a1]
    exact h1
  · rintro ⟨inner, outer, h1, h4, h5, h6⟩
    exact ⟨⟨_, none⟩, ⟨_, none⟩, _, h1, rfl, (mem_prefix _ _).2 ⟨inner, rfl, h4, rfl⟩,
      List.mem_singleton.2 rfl, _, rfl, (mem_suffix _ _).2 ⟨outer, rfl, h5, h6⟩⟩

theorem star_head {p : Char → Bool} {cap : Option Text} {t : Text} {f : At → List At} {m : At}
    (h : ((starRun p cap t).flatMap f).head? = some m) : ∃ w r, t = w ++ r ∧ (∀ c ∈ w, p c = true) ∧
      (f ⟨r, cap⟩).head? = some m ∧
      ∀ w' r', t = w' ++ r' → (∀ c ∈ w', p c = true) → w.length < w'.length → f ⟨r', cap⟩ = [] := by
  induction t with
  | nil =>
    simp only [starRun, List.flatMap_cons, List.flatMap_nil, List.append_nil] at h
    refine ⟨[], [], rfl, by simp, h, ?_⟩
    intro w' r' h1 _ h2
    simp at h1
    rw [h1.1] at h2
    simp at h2
  | cons c cs ih =>
    rw [starRun] at h
    split at h
    · rename_i hc
      rw [List.flatMap_append, List.head?_append] at h
      cases h1 : ((starRun p cap cs).flatMap f).head? with
      | some m1 =>
        rw [h1] at h
        simp only [Option.some_or, Option.some.injEq] at h
        subst h
        obtain ⟨w, r, a1, a2, a3, a4⟩ := ih h1
        refine ⟨c :: w, r, by simp [a1], by simp [hc]; exact a2, a3, ?_⟩
        intro w' r' b1 b2 b3
        cases w' with
        | nil => simp at b3
        | cons d w' =>
          simp at b1 b3
          exact a4 w' r' b1.2 (fun c hc => b2 c (by simp [hc])) (by omega)
      | none =>
        rw [h1] at h
        simp only [Option.none_or, List.flatMap_cons, List.flatMap_nil, List.append_nil] at h
        refine ⟨[], c :: cs, rfl, by simp, h, ?_⟩
        intro w' r' b1 b2 b3
        cases w' with
        | nil => simp at b3
        | cons d w' =>
          simp at b1
          have hm : (⟨r', cap⟩ : At) ∈ starRun p cap cs := (mem_star _ _ _ _).2 ⟨w', b1.2, fun c hc => b2 c (by simp [hc]), rfl⟩
          exact List.flatMap_eq_nil_iff.1 (List.head?_eq_none_iff.1 h1) _ hm
    · rename_i hc
      simp only [List.flatMap_cons, List.flatMap_nil, List.append_nil] at h
      refine ⟨[], c :: cs, rfl, by simp, h, ?_⟩
      intro w' r' b1 b2 b3
      cases w' with
      | nil => simp at b3
      | cons d w' =>
        simp at b1
        exact absurd (b2 d (by simp)) (by rw [← b1.1]; exact hc)

theorem run_lit (w r : Text) (cap : Option Text) : (lit w).run ⟨w ++ r, cap⟩ = [⟨r, cap⟩] := by
  induction w with
  | nil => rfl
  | cons c w ih => simp [lit, Rx.run, ih]

theorem head_mem {α} {l : List α} {x : α} (h : l.head? = some x) : x ∈ l := by
  cases l with
  | nil => cases h
  | cons => simp at h; simp [h]

theorem starts_import {m : At} {t : Text} {p n s} (h : m ∈ (importOsRe p n s).run ⟨t, none⟩) : ∃ x, t = "import ".toList ++ x := by
  rw [mem_import] at h
  obtain ⟨m1, _, _, h, _⟩ := h
  exact ⟨_, h⟩

variable {word : Char → Bool}

theorem no_named (hw : word 'i' = true) {t : Text} (h : captures word (importOsRe .eps name .eps) none t = none) :
    ∀ before n, ¬ NamedAt word t before n := by
  rintro before n ⟨sp, after, h1, h2, h3, h4⟩
  have h5 := captures_none h before ("import ".toList ++ (n ++ sp ++ ("\"os\"".toList ++ after))) (by simp [h1]) ((boundary_iff hw rfl).2 h4)
  have : (⟨after, some n⟩ : At) ∈ (importOsRe .eps name .eps).run ⟨"import ".toList ++ (n ++ sp ++ ("\"os\"".toList ++ after)), none⟩ :=
    (mem_named _ _).2 ⟨n, sp, rfl, h3, h2, rfl⟩
  rw [h5] at this
  cases this

theorem no_unnamed (hw : word 'i' = true) {t : Text} (h : captures word (importOsRe .eps .eps .eps) none t = none) :
    ∀ before, ¬ UnnamedAt word t before := by
  rintro before ⟨after, h1, h4⟩
  have h5 := captures_none h before ("import ".toList ++ ("\"os\"".toList ++ after)) (by simp [h1]) ((boundary_iff hw rfl).2 h4)
  have : (⟨after, none⟩ : At) ∈ (importOsRe .eps .eps .eps).run ⟨"import ".toList ++ ("\"os\"".toList ++ after), none⟩ :=
    (mem_unnamed _ _).2 ⟨rfl, rfl⟩
  rw [h5] at this
  cases this

theorem no_groupedNamed (hw : word 'i' = true) {t : Text} (h : captures word (importOsRe prefix_ name suffix_) none t = none) :
    ∀ before inner n, ¬ GroupedNamedAt word t before inner n := by
  rintro before inner n ⟨sp, outer, after, h1, h2, h3, h4, h5, h6⟩
  have h7 := captures_none h before
    ("import ".toList ++ ('(' :: inner ++ (n ++ sp ++ ("\"os\"".toList ++ (outer ++ ')' :: after))))) (by simp [h1]) ((boundary_iff hw rfl).2 h6)
  have : (⟨after, some n⟩ : At) ∈ (importOsRe prefix_ name suffix_).run _ :=
    (mem_groupedNamed _ _).2 ⟨inner, n, sp, outer, rfl, h3, h2, h4, h5, rfl⟩
  rw [h7] at this
  cases this

theorem no_groupedUnnamed (hw : word 'i' = true) {t : Text} (h : captures word (importOsRe prefix_ .eps suffix_) none t = none) :
    ∀ before inner, ¬ GroupedUnnamedAt word t before inner := by
  rintro before inner ⟨outer, after, h1, h4, h5, h6⟩
  have h7 := captures_none h before
    ("import ".toList ++ ('(' :: inner ++ ("\"os\"".toList ++ (outer ++ ')' :: after)))) (by simp [h1]) ((boundary_iff hw rfl).2 h6)
  have : (⟨after, none⟩ : At) ∈ (importOsRe prefix_ .eps suffix_).run _ :=
    (mem_groupedUnnamed _ _).2 ⟨inner, outer, rfl, h4, h5, rfl⟩
  rw [h7] at this
  cases this

theorem some_named (hw : word 'i' = true) {t : Text} {m} (h : captures word (importOsRe .eps name .eps) none t = some m) :
    ∃ before n, NamedAt word t before n ∧ m.cap = some n ∧ ∀ b n', NamedAt word t b n' → before.length ≤ b.length := by
  obtain ⟨before, rest, h1, h2, h3, h4⟩ := captures_some h
  obtain ⟨n, sp, h5, h6, h7, h8⟩ := (mem_named _ _).1 (head_mem h3)
  refine ⟨before, n, ⟨sp, m.rest, by rw [h1, h5]; simp, h7, h6, (boundary_iff hw h5).1 h2⟩, h8, ?_⟩
  rintro b n' ⟨sp', after', b1, b2, b3, b4⟩
  refine Nat.le_of_not_lt fun hlt => ?_
  have := h4 b ("import ".toList ++ (n' ++ sp' ++ ("\"os\"".toList ++ after'))) (by rw [b1]; simp) hlt ((boundary_iff hw rfl).2 b4)
  have hm : (⟨after', some n'⟩ : At) ∈ (importOsRe .eps name .eps).run _ := (mem_named _ _).2 ⟨n', sp', rfl, b3, b2, rfl⟩
  rw [this] at hm
  cases hm

/-- **C56.** If the file contains declarations `import NAME "os"`, the name used is that of the first one. -/
theorem C56_named (hw : word 'i' = true) {t before n : Text} (h : NamedAt word t before n)
    (hf : ∀ b n', NamedAt word t b n' → before.length ≤ b.length) : importsOs word t = some n := by
  unfold importsOs
  cases hc : captures word (importOsRe .eps name .eps) none t with
  | none => exact absurd h (no_named hw hc before n)
  | some m =>
    obtain ⟨b, n', h1, h2, h3⟩ := some_named hw hc
    dsimp only
    rw [h2]
    have hl : b.length = before.length := Nat.le_antisymm (h3 _ _ h) (hf _ _ h1)
    obtain ⟨sp, after, a1, a2, a3, _⟩ := h
    obtain ⟨sp', after', b1, b2, b3, _⟩ := h1
    have he : before ++ ("import ".toList ++ (n ++ sp ++ '"' :: ("os\"".toList ++ after))) =
        b ++ ("import ".toList ++ (n' ++ sp' ++ '"' :: ("os\"".toList ++ after'))) := by
      have e1 : t = before ++ ("import ".toList ++ (n ++ sp ++ '"' :: ("os\"".toList ++ after))) := by rw [a1]; simp
      have e2 : t = b ++ ("import ".toList ++ (n' ++ sp' ++ '"' :: ("os\"".toList ++ after'))) := by rw [b1]; simp
      rw [← e1, ← e2]
    have h5 := (List.append_inj he hl.symm).2
    have h6 := List.append_cancel_left h5
    rw [name_unique h6 a3 b3 a2 b2]

/-- **C56.** Otherwise, if it contains `import "os"`, the name used is `os`. -/
theorem C56_unnamed (hw : word 'i' = true) {t before : Text} (hn : ∀ b n, ¬ NamedAt word t b n) (h : UnnamedAt word t before) :
    importsOs word t = some "os".toList := by
  unfold importsOs
  cases hc : captures word (importOsRe .eps name .eps) none t with
  | some m => obtain ⟨b, n, h1, _⟩ := some_named hw hc; exact absurd h1 (hn b n)
  | none =>
    dsimp only
    cases hc' : captures word (importOsRe .eps .eps .eps) none t with
    | some m => rfl
    | none => exact absurd h (no_unnamed hw hc' before)

/-- A name of which no proper suffix is a name. -/
def Short (n : Text) : Prop := n = ['.'] ∨ ∃ c ds, n = c :: ds ∧ isAlpha c = true ∧ ∀ d ∈ ds, d.isDigit = true

theorem mem_tail (m : At) (r : Text) (k : Option Text) :
    m ∈ (Rx.seq name (.seq (lit "\"os\"".toList) suffix_)).run ⟨r, k⟩ ↔
      ∃ n sp outer, r = n ++ sp ++ ("\"os\"".toList ++ (outer ++ ')' :: m.rest)) ∧ IsName n ∧ (sp = [] ∨ sp = [' ']) ∧ ')' ∉ outer ∧
        m.cap = some n := by
  simp only [Rx.run, List.mem_flatMap, mem_lit, mem_suffix, mem_name]
  constructor
  · rintro ⟨m1, ⟨n, sp, h1, h2, h3, h4⟩, m2, ⟨h5, h6⟩, outer, h7, h8, h9⟩
    exact ⟨n, sp, outer, by rw [← h7, ← h5]; exact h1, h2, h3, h8, by rw [h9, h6, h4]⟩
  · rintro ⟨n, sp, outer, h1, h2, h3, h4, h5⟩
    exact ⟨⟨_, some n⟩, ⟨n, sp, h1, h2, h3, rfl⟩, ⟨_, some n⟩, ⟨rfl, rfl⟩, outer, rfl, h4, h5⟩

theorem isAlnum_not_close {c : Char} (h : isAlnum c = true) : c ≠ ')' := by
  rintro rfl
  revert h
  decide

theorem isAlpha_alnum {c : Char} (h : isAlpha c = true) : isAlnum c = true := by
  simp only [isAlpha, isAlnum, Bool.or_eq_true, Char.isAlphanum] at h ⊢
  rcases h with h | h
  · exact Or.inl (Or.inl h)
  · exact Or.inr h

theorem some_groupedNamed (hw : word 'i' = true) {t : Text} {m}
    (h : captures word (importOsRe prefix_ name suffix_) none t = some m) :
    ∃ before inner n, GroupedNamedAt word t before inner n ∧ m.cap = some n ∧ Short n := by
  obtain ⟨before, rest, h1, h2, h3, _⟩ := captures_some h
  obtain ⟨inner0, n0, sp0, outer0, h5, _⟩ := (mem_groupedNamed _ _).1 (head_mem h3)
  have hrun : ∀ x : Text, (importOsRe prefix_ name suffix_).run ⟨"import ".toList ++ '(' :: x, none⟩ =
      (starRun (· != ')') none x).flatMap (Rx.seq name (.seq (lit "\"os\"".toList) suffix_)).run := by
    intro x
    rw [importOsRe, Rx.run, run_lit]
    simp only [List.flatMap_cons, List.flatMap_nil, List.append_nil]
    rw [Rx.run, prefix_, Rx.run]
    simp only [Rx.run, beq_self_eq_true, ite_true, List.flatMap_cons, List.flatMap_nil, List.append_nil]
  have h5' : rest = "import ".toList ++ '(' :: (inner0 ++ (n0 ++ sp0 ++ ("\"os\"".toList ++ (outer0 ++ ')' :: m.rest)))) := by
    rw [h5]; simp
  rw [h5', hrun] at h3
  obtain ⟨inner, r, a1, a2, a3, a4⟩ := star_head h3
  obtain ⟨n, sp, outer, b1, b2, b3, b4, b5⟩ := (mem_tail _ _ _).1 (head_mem a3)
  have hin : ')' ∉ inner := by
    intro hm
    simpa using a2 _ hm
  refine ⟨before, inner, n, ⟨sp, outer, m.rest, ?_, b3, b2, hin, b4, (boundary_iff hw h5').1 h2⟩, b5, ?_⟩
  · rw [h1, h5', a1, b1]; simp
  · rcases b2 with b2 | ⟨c, ds, rfl, hc, hds⟩
    · exact Or.inl b2
    · refine Or.inr ⟨c, ds, rfl, hc, fun d hd => ?_⟩
      cases hdd : d.isDigit with
      | true => rfl
      | false =>
        exfalso
        obtain ⟨ds1, ds2, rfl⟩ := List.append_of_mem hd
        have hda : isAlpha d = true := by
          have := hds d hd
          simp only [isAlnum, isAlpha, Bool.or_eq_true, Char.isAlphanum, hdd] at this ⊢
          rcases this with (h | h) | h
          · exact Or.inl h
          · cases h
          · exact Or.inr h
        have := a4 (inner ++ c :: ds1) (d :: ds2 ++ sp ++ ("\"os\"".toList ++ (outer ++ ')' :: m.rest))) (by rw [a1, b1]; simp) (by
          intro x hx
          rcases List.mem_append.1 hx with hx | hx
          · exact a2 x hx
          · have : isAlnum x = true := by
              rcases List.mem_cons.1 hx with rfl | hx
              · exact isAlpha_alnum hc
              · exact hds x (by simp [hx])
            simp [isAlnum_not_close this]) (by simp)
        have hm : (⟨m.rest, some (d :: ds2)⟩ : At) ∈ (Rx.seq name (.seq (lit "\"os\"".toList) suffix_)).run _ :=
          (mem_tail _ _ none).2 ⟨d :: ds2, sp, outer, rfl, Or.inr ⟨d, ds2, rfl, hda, fun x hx => hds x (by simp [hx])⟩, b3, b4, rfl⟩
        rw [this] at hm
        cases hm

/-- **C56.** Otherwise, if a parenthesized import contains `NAME "os"`, what is used is a way to read the text as such, but only with the
shortest name: a dot, or a letter or underscore followed by digits. -/
theorem C56_grouped (hw : word 'i' = true) {t before inner n : Text} (hn : ∀ b n, ¬ NamedAt word t b n)
    (hu : ∀ b, ¬ UnnamedAt word t b) (h : GroupedNamedAt word t before inner n) :
    ∃ b i n', importsOs word t = some n' ∧ GroupedNamedAt word t b i n' ∧ Short n' := by
  unfold importsOs
  cases hc : captures word (importOsRe .eps name .eps) none t with
  | some m => obtain ⟨b, n, h1, _⟩ := some_named hw hc; exact absurd h1 (hn b n)
  | none =>
    cases hc' : captures word (importOsRe .eps .eps .eps) none t with
    | some m =>
      obtain ⟨b, r, h1, h2, h3, _⟩ := captures_some hc'
      obtain ⟨h4, _⟩ := (mem_unnamed _ _).1 (head_mem h3)
      exact absurd ⟨m.rest, by rw [h1, h4]; simp, (boundary_iff hw h4).1 h2⟩ (hu b)
    | none =>
      cases hc'' : captures word (importOsRe prefix_ name suffix_) none t with
      | none => exact absurd h (no_groupedNamed hw hc'' _ _ _)
      | some m =>
        obtain ⟨b, i, n', h1, h2, h3⟩ := some_groupedNamed hw hc''
        exact ⟨b, i, n', h2, h1, h3⟩

/-- **C56**, in part: in that case the name used is the right one if there is only one way to read the text; so in particular if the name is
a dot or one letter. -/
theorem C56_grouped_partial (hw : word 'i' = true) {t before inner n : Text} (hn : ∀ b n, ¬ NamedAt word t b n)
    (hu : ∀ b, ¬ UnnamedAt word t b) (h : GroupedNamedAt word t before inner n)
    (hone : ∀ b i n', GroupedNamedAt word t b i n' → n' = n) : importsOs word t = some n := by
  obtain ⟨b, i, n', h1, h2, _⟩ := C56_grouped hw hn hu h
  rw [h1, hone _ _ _ h2]

/-- C56 is false: a longer name in a parenthesized import is never used. -/
theorem C56_negation (hw : word 'i' = true) {t before inner n : Text} (hn : ∀ b n, ¬ NamedAt word t b n)
    (hu : ∀ b, ¬ UnnamedAt word t b) (h : GroupedNamedAt word t before inner n) (hl : ¬ Short n) :
    ∃ n', importsOs word t = some n' ∧ n' ≠ n := by
  obtain ⟨b, i, n', h1, _, h3⟩ := C56_grouped hw hn hu h
  exact ⟨n', h1, fun e => hl (e ▸ h3)⟩

/-- **C56.** Otherwise, if a parenthesized import contains `"os"`, the name used is `os`. -/
theorem C56_grouped_unnamed (hw : word 'i' = true) {t before inner : Text} (hn : ∀ b n, ¬ NamedAt word t b n)
    (hu : ∀ b, ¬ UnnamedAt word t b) (hg : ∀ b i n, ¬ GroupedNamedAt word t b i n) (h : GroupedUnnamedAt word t before inner) :
    importsOs word t = some "os".toList := by
  unfold importsOs
  cases hc : captures word (importOsRe .eps name .eps) none t with
  | some m => obtain ⟨b, n, h1, _⟩ := some_named hw hc; exact absurd h1 (hn b n)
  | none =>
    cases hc' : captures word (importOsRe .eps .eps .eps) none t with
    | some m => rfl
    | none =>
      cases hc'' : captures word (importOsRe prefix_ name suffix_) none t with
      | some m => obtain ⟨b, i, n', h1, _⟩ := some_groupedNamed hw hc''; exact absurd h1 (hg _ _ _)
      | none =>
        cases hc3 : captures word (importOsRe prefix_ .eps suffix_) none t with
        | some m => rfl
        | none => exact absurd h (no_groupedUnnamed hw hc3 _ _)

/-- **C56.** The file is taken not to import `os` exactly if it contains none of these. -/
theorem C56_none (hw : word 'i' = true) (t : Text) : importsOs word t = none ↔
    (∀ b n, ¬ NamedAt word t b n) ∧ (∀ b, ¬ UnnamedAt word t b) ∧ (∀ b i n, ¬ GroupedNamedAt word t b i n) ∧
      ∀ b i, ¬ GroupedUnnamedAt word t b i := by
  constructor
  · intro h
    unfold importsOs at h
    cases hc : captures word (importOsRe .eps name .eps) none t with
    | some m =>
      obtain ⟨b, n, _, h2, _⟩ := some_named hw hc
      rw [hc] at h
      simp only at h
      rw [h2] at h; cases h
    | none =>
      rw [hc] at h
      dsimp only at h
      cases hc' : captures word (importOsRe .eps .eps .eps) none t with
      | some m => rw [hc'] at h; cases h
      | none =>
        rw [hc'] at h
        dsimp only at h
        cases hc'' : captures word (importOsRe prefix_ name suffix_) none t with
        | some m =>
          obtain ⟨b, i, n', _, h2, _⟩ := some_groupedNamed hw hc''
          rw [hc''] at h
          simp only at h
          rw [h2] at h; cases h
        | none =>
          rw [hc''] at h
          dsimp only at h
          cases hc3 : captures word (importOsRe prefix_ .eps suffix_) none t with
          | some m => rw [hc3] at h; cases h
          | none => exact ⟨no_named hw hc, no_unnamed hw hc', no_groupedNamed hw hc'', no_groupedUnnamed hw hc3⟩
  · rintro ⟨h1, h2, h3, h4⟩
    unfold importsOs
    cases hc : captures word (importOsRe .eps name .eps) none t with
    | some m => obtain ⟨b, n, h, _⟩ := some_named hw hc; exact absurd h (h1 b n)
    | none =>
      cases hc' : captures word (importOsRe .eps .eps .eps) none t with
      | some m =>
        obtain ⟨b, r, a1, a2, a3, _⟩ := captures_some hc'
        obtain ⟨a4, _⟩ := (mem_unnamed _ _).1 (head_mem a3)
        exact absurd ⟨m.rest, by rw [a1, a4]; simp, (boundary_iff hw a4).1 a2⟩ (h2 b)
      | none =>
        cases hc'' : captures word (importOsRe prefix_ name suffix_) none t with
        | some m => obtain ⟨b, i, n', h, _⟩ := some_groupedNamed hw hc''; exact absurd h (h3 _ _ _)
        | none =>
          cases hc3 : captures word (importOsRe prefix_ .eps suffix_) none t with
          | none => rfl
          | some m =>
            obtain ⟨b, r, a1, a2, a3, _⟩ := captures_some hc3
            obtain ⟨inner, outer, a4, a5, a6, _⟩ := (mem_groupedUnnamed _ _).1 (head_mem a3)
            exact absurd ⟨outer, m.rest, by rw [a1, a4]; simp, a5, a6, (boundary_iff hw a4).1 a2⟩ (h4 b inner)

/-- The line at which the import goes is the one after the first line that starts with `package `. -/
theorem packageLine_iff (t : Text) (k : Nat) : packageLine t = some k ↔
    (∃ line, LineAt t k line ∧ "package ".toList <+: line) ∧ ∀ j line, LineAt t j line → "package ".toList <+: line → k ≤ j := by
  have h0 : ∀ {j line}, LineAt t j line → ∃ i, j = i + 1 := by
    rintro j line ⟨pre, suf, h, _⟩
    exact ⟨_, h.1⟩
  unfold packageLine
  rw [Option.map_eq_some_iff]
  constructor
  · rintro ⟨i, h, rfl⟩
    rw [List.findIdx?_eq_some_iff_getElem] at h
    obtain ⟨hi, h1, h2⟩ := h
    refine ⟨⟨(lines t)[i], (lines_spec t i _).1 (List.getElem?_eq_getElem hi), List.isPrefixOf_iff_prefix.1 h1⟩, ?_⟩
    intro j line hj hl
    obtain ⟨j, rfl⟩ := h0 hj
    refine Nat.succ_le_succ (Nat.le_of_not_lt fun hlt => ?_)
    have := (lines_spec t j line).2 hj
    obtain ⟨hj', e⟩ := List.getElem?_eq_some_iff.1 this
    have := h2 j hlt
    rw [e] at this
    exact this (List.isPrefixOf_iff_prefix.2 hl)
  · rintro ⟨⟨line, h1, h2⟩, h3⟩
    obtain ⟨i, rfl⟩ := h0 h1
    refine ⟨i, ?_, rfl⟩
    obtain ⟨hi, e⟩ := List.getElem?_eq_some_iff.1 ((lines_spec t i line).2 h1)
    rw [List.findIdx?_eq_some_iff_getElem]
    refine ⟨hi, by rw [e]; exact List.isPrefixOf_iff_prefix.2 h2, ?_⟩
    intro j hj hl
    have := h3 (j + 1) _ ((lines_spec t j _).1 (List.getElem?_eq_getElem (Nat.lt_trans hj hi))) (List.isPrefixOf_iff_prefix.1 hl)
    omega

/-- **C56.** If there is nothing to instrument, or the file has been instrumented before, nothing is inserted. -/
theorem C56_nothing {path t n names} (h : n = 0 ∨ ∃ os, names.lookup path = some os) :
    instrumentSourceFile word path t n names = some ([], names) := by
  unfold instrumentSourceFile
  rw [if_pos]
  rcases h with rfl | ⟨os, h⟩ <;> simp_all

/-- **C56.** If the file imports `os`, nothing is inserted, and the name is remembered. -/
theorem C56_imported {path t n names os} (hn : n ≠ 0) (hl : names.lookup path = none) (h : importsOs word t = some os) :
    instrumentSourceFile word path t n names = some ([], (path, os) :: names) := by
  unfold instrumentSourceFile
  rw [if_neg (by simp [hl, hn]), h]

theorem insert_one {t : Text} {lc : LineColumn} {o : Nat} (hoff : lc.offset? t = some o) (x : Text) :
    instrumentText t [(lc, x)] [] = some (t.take o ++ x ++ t.drop o) := by
  have ho := origin_le hoff
  have hlen := offset_le hoff
  simp only [instrumentText, insertionMap, List.foldl_nil, InsertionMap.flatten, List.flatMap_nil, List.append_nil, insertAll,
    Rewriter.insert, Rewriter.rewrite, Rewriter.new, hoff, if_pos ho, Option.bind_eq_bind, Option.bind_some, Int.add_zero]
  rw [if_pos (by omega)]
  simp

/-- **C56.** If the file does not import `os`, an import is inserted on the line after the first line that starts with `package `; the rest
of the file stays as it is. -/
theorem C56_inserted {path t names pre line suf k} (n : Nat) (hn : n ≠ 0) (hl : names.lookup path = none)
    (h : importsOs word t = none) (ht : t = pre ++ line ++ '\n' :: suf) (hp : EndsAt pre ⟨k, 0⟩) (hline : '\n' ∉ line)
    (hpk : "package ".toList <+: line) (hfirst : ∀ j l, LineAt t j l → "package ".toList <+: l → k ≤ j) :
    ∃ ins, instrumentSourceFile word path t n names = some (ins, (path, "os".toList) :: names) ∧
      instrumentText t ins [] = some (pre ++ line ++ '\n' :: ("import \"os\"\n".toList ++ suf)) := by
  have hk : packageLine t = some k := by
    rw [packageLine_iff]
    refine ⟨?_, hfirst⟩
    by_cases hcr : line.getLast? = some '\r'
    · obtain ⟨l, hl'⟩ := List.getLast?_eq_some_iff.1 hcr
      refine ⟨l, ⟨pre, suf, hp, fun hm => hline (by simp [hl', hm]), Or.inr (Or.inr (by rw [ht, hl']; simp))⟩, ?_⟩
      obtain ⟨x, hx⟩ := hpk
      rcases List.eq_nil_or_concat x with rfl | ⟨x', c, hx'⟩
      · rw [hl'] at hx
        have := congrArg List.getLast? hx
        rw [List.append_nil, List.getLast?_append] at this
        simp at this
      · rw [hx', hl', List.concat_eq_append, ← List.append_assoc] at hx
        exact ⟨x', (List.append_inj' hx rfl).1⟩
    · exact ⟨line, ⟨pre, suf, hp, hline, Or.inr (Or.inl ⟨ht, hcr⟩)⟩, hpk⟩
  refine ⟨[(⟨k + 1, 0⟩, importText)], ?_, ?_⟩
  · unfold instrumentSourceFile
    rw [if_neg (by simp [hl, hn]), h, hk]
  · have hend : EndsAt (pre ++ line ++ ['\n']) ⟨k + 1, 0⟩ := by
      refine ⟨?_, by simp⟩
      have := hp.1
      simp only [List.count_append, List.count_eq_zero.2 hline, List.count_singleton_self] at this ⊢
      omega
    have hoff : (⟨k + 1, 0⟩ : LineColumn).offset? t = some (pre ++ line ++ ['\n']).length := by
      rw [offset?_iff]
      have : t = (pre ++ line ++ ['\n']) ++ suf := by rw [ht]; simp
      rw [this, List.take_left]
      exact ⟨by simp, hend⟩
    have : t = (pre ++ line ++ ['\n']) ++ suf := by rw [ht]; simp
    have hi : "import \"os\"\n".toList = importText := rfl
    rw [hi]
    generalize importText = x
    rw [insert_one hoff x, this, List.take_left, List.drop_left]
    simp only [List.append_assoc, List.cons_append, List.nil_append]

/-- **C56.** After that, the guards of the file's statements refer to the environment by that name, or without a name if the import is
of the form `import . "os"`: producing them never fails. -/
theorem C56_guard {path t n names ins names' id} (hn : n ≠ 0)
    (h : instrumentSourceFile word path t n names = some (ins, names')) :
    ∃ os, names'.lookup path = some os ∧ prefixAndSuffix path id names' = some
      ("if ".toList ++ (if os = ".".toList then [] else os ++ ['.']) ++ "Getenv(\"NECESSIST_REMOVAL\") != \"".toList ++ id ++ "\" { ".toList,
        " }".toList) ∧ ∀ p, p ≠ path → names'.lookup p = names.lookup p := by
  have key : ∃ os, names'.lookup path = some os ∧ ∀ p, p ≠ path → names'.lookup p = names.lookup p := by
    have hlk : ∀ os : Text, ((path, os) :: names).lookup path = some os ∧
        ∀ p, p ≠ path → ((path, os) :: names).lookup p = names.lookup p := by
      intro os
      refine ⟨by simp, fun p hp => ?_⟩
      have : (p == path) = false := by simpa using hp
      simp [List.lookup, this]
    unfold instrumentSourceFile at h
    split at h
    · rename_i hc
      cases h
      have hc : (names.lookup path).isSome = true := by
        rcases Bool.or_eq_true _ _ |>.mp hc with hc | hc
        · exact hc
        · exact absurd (by simpa using hc) hn
      obtain ⟨os, ho⟩ := Option.isSome_iff_exists.1 hc
      exact ⟨os, ho, fun _ _ => rfl⟩
    · split at h
      · cases h; exact ⟨_, hlk _⟩
      · split at h
        · cases h
        · cases h; exact ⟨_, hlk _⟩
  obtain ⟨os, h1, h2⟩ := key
  refine ⟨os, h1, ?_, h2⟩
  unfold prefixAndSuffix
  rw [h1]

/-! ### Cases -/
namespace Demo

/-- `\w`, on ASCII. -/
def asciiWord (c : Char) : Bool := isAlnum c

def grouped : Text := "package p\nimport (\n\t\"fmt\"\n\tstdos \"os\"\n)\n".toList

/-- The name that is used here is `s`. -/
theorem C56_negation_example : importsOs asciiWord grouped = some "s".toList := by decide +kernel

example : GroupedNamedAt asciiWord grouped "package p\n".toList "\n\t\"fmt\"\n\t".toList "stdos".toList ∧ ¬ Short "stdos".toList := by
  refine ⟨⟨[' '], ['\n'], ['\n'], by decide +kernel, Or.inr rfl, Or.inr ⟨'s', "tdos".toList, by decide, by decide, by decide⟩, by decide +kernel, by decide, ?_⟩, ?_⟩
  · intro c hc
    have : c = '\n' := by
      have : "package p\n".toList.getLast? = some '\n' := by decide +kernel
      rw [this] at hc; simpa using hc.symm
    subst this
    decide
  · rintro (h | ⟨c, ds, h, _, h'⟩)
    · exact absurd h (by decide)
    · have : "stdos".toList = ['s', 't', 'd', 'o', 's'] := by decide
      rw [this] at h
      cases h
      exact absurd (h' 't' (by simp)) (by decide)

example : importsOs asciiWord "package p\nimport stdos \"os\"\n".toList = some "stdos".toList ∧
    importsOs asciiWord "package p\nimport (\n\to2 \"os\"\n)\n".toList = some "o2".toList ∧
    importsOs asciiWord "package p\nimport (\n\t. \"os\"\n)\n".toList = some ".".toList ∧
    importsOs asciiWord "package p\nimport (\n\t\"fmt\"\n\t\"os\"\n)\n".toList = some "os".toList ∧
    importsOs asciiWord "package p\nimport \"fmt\"\n".toList = none := by decide +kernel

/-- A comment is as good as an import: no import is inserted here, and the file does not compile. -/
theorem C56_negation_comment : importsOs asciiWord "package p\n// TODO: import \"os\"\n".toList = some "os".toList := by decide +kernel

/-- The line of the package clause may be one of a comment, and then so is the import. -/
theorem C56_negation_package :
    ((instrumentSourceFile asciiWord [] "/*\npackage p does it\n*/\npackage p\n".toList 1 []).bind fun r =>
      instrumentText "/*\npackage p does it\n*/\npackage p\n".toList r.1 []) =
      some "/*\npackage p does it\nimport \"os\"\n*/\npackage p\n".toList := by decide +kernel

example : ((instrumentSourceFile asciiWord [] "// Hello.\npackage p\nfunc f() {}\n".toList 1 []).bind fun r =>
      instrumentText "// Hello.\npackage p\nfunc f() {}\n".toList r.1 []) =
      some "// Hello.\npackage p\nimport \"os\"\nfunc f() {}\n".toList := by decide +kernel

end Demo

end Necessist.Go
