import Verif.Model.Span
import Verif.Spec.Span
import Verif.Lemmas.Text
namespace Necessist
open Std

/-! ### numbers -/

theorem digitChar_val (n : Nat) : digitVal? (digitChar n) = some (n % 10) := by
  unfold digitVal? digitChar
  have h : n % 10 < 10 := Nat.mod_lt _ (by omega)
  generalize n % 10 = k at *
  match k, h with
  | 0, _ | 1, _ | 2, _ | 3, _ | 4, _ | 5, _ | 6, _ | 7, _ | 8, _ | 9, _ => rfl

theorem readDigits_append (acc : Nat) (a b : Text) :
    readDigits acc (a ++ b) = (readDigits acc a).bind fun n => readDigits n b := by
  induction a generalizing acc with
  | nil => simp [readDigits]
  | cons c cs ih =>
    simp only [List.cons_append, readDigits]
    cases digitVal? c with
    | none => simp
    | some d => simp [ih]

theorem showNat_lt {n : Nat} (h : n < 10) : showNat n = [digitChar n] := by
  rw [showNat]; simp [h]

theorem showNat_ge {n : Nat} (h : ¬ n < 10) : showNat n = showNat (n / 10) ++ [digitChar (n % 10)] := by
  rw [showNat]; simp [h]

theorem readDigits_showNat (n : Nat) : readDigits 0 (showNat n) = some n := by
  induction n using Nat.strongRecOn with
  | ind n ih =>
    by_cases h : n < 10
    · rw [showNat_lt h]
      simp only [readDigits, digitChar_val, Option.bind_eq_bind, Option.bind_some]
      congr 1; omega
    · rw [showNat_ge h, readDigits_append, ih (n / 10) (by omega)]
      simp only [readDigits, digitChar_val, Option.bind_eq_bind, Option.bind_some]
      congr 1; omega

theorem showNat_ne_nil (n : Nat) : showNat n ≠ [] := by
  by_cases h : n < 10
  · rw [showNat_lt h]; simp
  · rw [showNat_ge h]; simp

theorem isDigit_digitChar (n : Nat) : 48 ≤ (digitChar n).toNat ∧ (digitChar n).toNat ≤ 57 := by
  have := digitChar_val n
  unfold digitVal? at this
  split at this
  · assumption
  · contradiction

theorem showNat_digits (n : Nat) : ∀ c ∈ showNat n, 48 ≤ c.toNat ∧ c.toNat ≤ 57 := by
  induction n using Nat.strongRecOn with
  | ind n ih =>
    intro c hc
    by_cases h : n < 10
    · rw [showNat_lt h] at hc; simp at hc; subst hc; exact isDigit_digitChar n
    · rw [showNat_ge h] at hc
      rcases List.mem_append.1 hc with hc | hc
      · exact ih _ (by omega) c hc
      · simp at hc; subst hc; exact isDigit_digitChar _

theorem showNat_not_mem (n : Nat) (c : Char) (h : ¬ (48 ≤ c.toNat ∧ c.toNat ≤ 57)) : c ∉ showNat n :=
  fun hc => h (showNat_digits n c hc)

theorem showNat_inj {m n : Nat} (h : showNat m = showNat n) : m = n := by
  have h1 := readDigits_showNat m
  rw [h, readDigits_showNat] at h1
  simpa using h1.symm

theorem parseUsize_showNat {n : Nat} (h : n < 2 ^ 64) : parseUsize (showNat n) = some n := by
  unfold parseUsize
  have hne := showNat_ne_nil n
  have hplus : ∀ cs, showNat n ≠ '+' :: cs := by
    intro cs hcs
    exact showNat_not_mem n '+' (by decide) (by rw [hcs]; simp)
  have : (match showNat n with | '+' :: cs => cs | cs => cs) = showNat n := by
    split
    · rename_i cs heq; exact absurd heq (hplus cs)
    · rfl
  simp only [this]
  have hE : (showNat n).isEmpty = false := by simp [List.isEmpty_iff, hne]
  simp [hE, readDigits_showNat, h]

/-! ### splitting -/

theorem splitFirst_append (c : Char) (a b : Text) (h : c ∉ a) : splitFirst c (a ++ c :: b) = some (a, b) := by
  induction a with
  | nil => simp [splitFirst]
  | cons x xs ih =>
    have hx : x ≠ c := fun e => h (by simp [e])
    have hxs : c ∉ xs := fun e => h (by simp [e])
    simp [splitFirst, hx, ih hxs]

theorem splitFirst_none (c : Char) (a : Text) : splitFirst c a = none ↔ c ∉ a := by
  induction a with
  | nil => simp [splitFirst]
  | cons x xs ih =>
    unfold splitFirst
    by_cases hx : x = c
    · simp [hx]
    · simp [hx, ih, Ne.symm hx]

/-- Separator lemma: when the right parts do not contain the separator, the split is unique. -/
theorem append_sep_inj {c : Char} {a a' d d' : Text} (hd : c ∉ d) (hd' : c ∉ d')
    (h : a ++ c :: d = a' ++ c :: d') : a = a' ∧ d = d' := by
  have h2 := congrArg List.reverse h
  simp only [List.reverse_append, List.reverse_cons, List.append_assoc, List.singleton_append] at h2
  have e1 := splitFirst_append c d.reverse a.reverse (by simpa using hd)
  have e2 := splitFirst_append c d'.reverse a'.reverse (by simpa using hd')
  have e : d.reverse ++ c :: a.reverse = d'.reverse ++ c :: a'.reverse := by simpa using h2
  rw [e, e2] at e1
  simp at e1
  exact ⟨e1.2.symm, e1.1.symm⟩

/-! ### paths -/

theorem splitSlash_noSlash (a : Text) (h : '/' ∉ a) : splitSlash a = [a] := by
  induction a with
  | nil => rfl
  | cons x xs ih =>
    have hx : x ≠ '/' := fun e => h (by simp [e])
    simp [splitSlash, hx, ih (fun e => h (by simp [e]))]

theorem splitSlash_append (a b : Text) (h : '/' ∉ a) : splitSlash (a ++ '/' :: b) = a :: splitSlash b := by
  induction a with
  | nil => simp [splitSlash]
  | cons x xs ih =>
    have hx : x ≠ '/' := fun e => h (by simp [e])
    simp [splitSlash, hx, ih (fun e => h (by simp [e]))]

theorem splitSlash_intercalate (l : List Text) (hne : l ≠ []) (h : ∀ x ∈ l, '/' ∉ x) :
    splitSlash (List.intercalate ['/'] l) = l := by
  induction l with
  | nil => simp at hne
  | cons x xs ih =>
    cases xs with
    | nil => simpa [List.intercalate] using splitSlash_noSlash x (h x (by simp))
    | cons y ys =>
      have : List.intercalate ['/'] (x :: y :: ys) = x ++ '/' :: List.intercalate ['/'] (y :: ys) := by
        simp [List.intercalate, List.intersperse]
      rw [this, splitSlash_append _ _ (h x (by simp)), ih (by simp) (fun z hz => h z (by simp [hz]))]

theorem pathComponents_display (f : SourceFile) (h : f.WellFormed) : pathComponents f.display = f.path := by
  unfold pathComponents SourceFile.display
  rw [splitSlash_intercalate _ h.1 (fun x hx => (h.2 x hx).2.2)]
  rw [List.filter_eq_self]
  intro x hx
  have := h.2 x hx
  simp [List.isEmpty_iff, this.1, this.2.1]

theorem display_inj (f g : SourceFile) (hf : f.WellFormed) (hg : g.WellFormed)
    (h : f.display = g.display) : f = g := by
  have h1 := pathComponents_display f hf
  rw [h, pathComponents_display g hg] at h1
  cases f; cases g; simp_all

theorem mem_intercalate {c : Char} {l : List Text} (hc : c ≠ '/') :
    c ∈ List.intercalate ['/'] l → ∃ x ∈ l, c ∈ x := by
  induction l with
  | nil => simp [List.intercalate]
  | cons x xs ih =>
    cases xs with
    | nil => simp [List.intercalate]
    | cons y ys =>
      have : List.intercalate ['/'] (x :: y :: ys) = x ++ '/' :: List.intercalate ['/'] (y :: ys) := by
        simp [List.intercalate, List.intersperse]
      rw [this]
      intro h
      rcases List.mem_append.1 h with h | h
      · exact ⟨x, by simp, h⟩
      · rcases List.mem_cons.1 h with h | h
        · exact absurd h hc
        · obtain ⟨z, hz, hcz⟩ := ih h
          exact ⟨z, by simp [hz], hcz⟩

theorem display_head (f : SourceFile) (h : f.WellFormed) : f.display.head? ≠ some '/' := by
  unfold SourceFile.display
  obtain ⟨hne, hall⟩ := h
  match hp : f.path, hne with
  | x :: xs, _ =>
    have hx := hall x (by simp [hp])
    match x, hx with
    | c :: cs, hx =>
      have hc : c ≠ '/' := fun e => hx.2.2 (by simp [e])
      cases xs with
      | nil => simpa [List.intercalate] using hc
      | cons y ys =>
        simpa [List.intercalate, List.intersperse] using hc

/-! ### order -/

instance : TransCmp LineColumn.cmp where
  eq_swap {a b} := by
    have h1 := LineColumn.cmp_lt_iff a b
    have h2 := LineColumn.cmp_lt_iff b a
    have h3 := LineColumn.cmp_eq_iff a b
    have h4 := LineColumn.cmp_eq_iff b a
    have h5 := LineColumn.cmp_gt_iff a b
    have h6 := LineColumn.cmp_gt_iff b a
    rcases hx : a.cmp b with _ | _ | _ <;> rcases hy : b.cmp a with _ | _ | _ <;> simp_all <;> omega
  isLE_trans {a b c} h1 h2 := by
    have e1 := LineColumn.ble_iff a b
    have e2 := LineColumn.ble_iff b c
    have e3 := LineColumn.ble_iff a c
    unfold LineColumn.ble at *
    rw [e1] at h1; rw [e2] at h2; rw [e3]
    rcases h1 with h1 | rfl
    · rcases h2 with h2 | rfl
      · left; rw [LineColumn.cmp_lt_iff] at *; omega
      · left; exact h1
    · exact h2

instance : LawfulEqCmp LineColumn.cmp where
  compare_self := by intro a; rw [LineColumn.cmp_eq_iff]
  eq_of_compare := by intro a b h; rwa [LineColumn.cmp_eq_iff] at h

instance : TransCmp SourceFile.cmp where
  eq_swap {a b} := by unfold SourceFile.cmp; exact OrientedCmp.eq_swap (cmp := compare)
  isLE_trans {a b c} h1 h2 := by
    unfold SourceFile.cmp at *; exact TransCmp.isLE_trans (cmp := compare) h1 h2

instance : LawfulEqCmp SourceFile.cmp where
  compare_self := by intro a; unfold SourceFile.cmp; exact ReflCmp.compare_self
  eq_of_compare := by
    intro a b h; unfold SourceFile.cmp at h
    have := LawfulEqCmp.eq_of_compare h
    cases a; cases b; simp_all

theorem Span.cmp_eq : Span.cmp = compareLex (fun a b => SourceFile.cmp a.file b.file)
    (compareLex (fun a b => LineColumn.cmp a.start b.start) (fun a b => LineColumn.cmp a.stop b.stop)) := rfl

instance instTransFile : TransCmp (fun a b : Span => SourceFile.cmp a.file b.file) where
  eq_swap {a b} := OrientedCmp.eq_swap (cmp := SourceFile.cmp)
  isLE_trans {a b c} h1 h2 := TransCmp.isLE_trans (cmp := SourceFile.cmp) h1 h2
instance instTransStart : TransCmp (fun a b : Span => LineColumn.cmp a.start b.start) where
  eq_swap {a b} := OrientedCmp.eq_swap (cmp := LineColumn.cmp)
  isLE_trans {a b c} h1 h2 := TransCmp.isLE_trans (cmp := LineColumn.cmp) h1 h2
instance instTransStop : TransCmp (fun a b : Span => LineColumn.cmp a.stop b.stop) where
  eq_swap {a b} := OrientedCmp.eq_swap (cmp := LineColumn.cmp)
  isLE_trans {a b c} h1 h2 := TransCmp.isLE_trans (cmp := LineColumn.cmp) h1 h2

instance : TransCmp Span.cmp := by
  rw [Span.cmp_eq]; infer_instance

theorem Span.cmp_lt_iff (a b : Span) :
    a.cmp b = .lt ↔ a.file.cmp b.file = .lt ∨
      (a.file = b.file ∧ (a.start.cmp b.start = .lt ∨ (a.start = b.start ∧ a.stop.cmp b.stop = .lt))) := by
  unfold Span.cmp
  rw [Ordering.then_eq_lt, Ordering.then_eq_lt]
  constructor
  · rintro (h | ⟨h, h2 | ⟨h2, h3⟩⟩)
    · exact .inl h
    · exact .inr ⟨LawfulEqCmp.eq_of_compare h, .inl h2⟩
    · exact .inr ⟨LawfulEqCmp.eq_of_compare h, .inr ⟨LawfulEqCmp.eq_of_compare h2, h3⟩⟩
  · rintro (h | ⟨h, h2 | ⟨h2, h3⟩⟩)
    · exact .inl h
    · exact .inr ⟨by rw [h]; exact ReflCmp.compare_self, .inl h2⟩
    · exact .inr ⟨by rw [h]; exact ReflCmp.compare_self, .inr ⟨by rw [h2]; exact ReflCmp.compare_self, h3⟩⟩

theorem Span.cmp_eq_iff (a b : Span) : a.cmp b = .eq ↔ a = b := by
  unfold Span.cmp
  rw [Ordering.then_eq_eq, Ordering.then_eq_eq]
  constructor
  · rintro ⟨h1, h2, h3⟩
    have h1 := LawfulEqCmp.eq_of_compare h1
    have h2 := LawfulEqCmp.eq_of_compare h2
    have h3 := LawfulEqCmp.eq_of_compare h3
    cases a; cases b; simp_all
  · rintro rfl
    exact ⟨ReflCmp.compare_self, ReflCmp.compare_self, ReflCmp.compare_self⟩

instance : LawfulEqCmp Span.cmp where
  compare_self := by intro a; rw [Span.cmp_eq_iff]
  eq_of_compare := by intro a b h; rwa [Span.cmp_eq_iff] at h

end Necessist
