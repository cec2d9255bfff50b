import Verif.Spec.Directives
import Verif.Model.Directives
import Verif.Lemmas.Text
/-! Lines of a text; trimming; what counts as a directive. -/
namespace Necessist

theorem mem_takeWhile_imp {α} {p : α → Bool} {x : α} {l : List α} (h : x ∈ l.takeWhile p) : p x = true := by
  induction l with
  | nil => simp at h
  | cons a l ih =>
    rw [List.takeWhile_cons] at h
    split at h
    · rcases List.mem_cons.1 h with rfl | h
      · assumption
      · exact ih h
    · simp at h

theorem drop_takeWhile_length {α} (p : α → Bool) (l : List α) : l.drop (l.takeWhile p).length = l.dropWhile p := by
  induction l with
  | nil => rfl
  | cons a l ih =>
    rw [List.takeWhile_cons, List.dropWhile_cons]
    split <;> simp [ih]

theorem takeWhile_all {α} {p : α → Bool} {l : List α} (h : ∀ x ∈ l, p x = true) : l.takeWhile p = l := by
  induction l with
  | nil => rfl
  | cons a l ih => simp [List.takeWhile_cons, h a (by simp), ih fun x hx => h x (by simp [hx])]

theorem split_nl {a b x y : Text} (ha : '\n' ∉ a) (hb : '\n' ∉ b) (h : a ++ '\n' :: x = b ++ '\n' :: y) : a = b ∧ x = y := by
  induction a generalizing b with
  | nil =>
    cases b with
    | nil => simpa using h
    | cons c b => simp at h; exact absurd h.1 (by rintro rfl; simp at hb)
  | cons c a ih =>
    cases b with
    | nil => simp at h; exact absurd h.1 (by rintro rfl; simp at ha)
    | cons d b =>
      simp only [List.cons_append, List.cons.injEq] at h
      simp only [List.mem_cons, not_or] at ha hb
      obtain ⟨h1, h2⟩ := ih ha.2 hb.2 h.2
      exact ⟨by rw [h.1, h1], h2⟩

theorem split_nl_left {a r x y : Text} (ha : '\n' ∈ a) (hr : '\n' ∉ r) (h : a ++ x = r ++ '\n' :: y) :
    ∃ a', a = r ++ '\n' :: a' ∧ a' ++ x = y := by
  obtain ⟨p, q, hp, rfl⟩ : ∃ p q, '\n' ∉ p ∧ a = p ++ '\n' :: q := by
    induction a with
    | nil => simp at ha
    | cons c a ih2 =>
      by_cases hc : c = '\n'
      · exact ⟨[], a, by simp, by simp [hc]⟩
      · have : '\n' ∈ a := by simpa [Ne.symm hc] using ha
        have := List.append_of_mem this
        clear ih2
        obtain ⟨p, q, rfl, hp⟩ : ∃ p q, a = p ++ '\n' :: q ∧ '\n' ∉ p := by
          clear h ha
          induction a with
          | nil => simp at this
          | cons d a ih =>
            by_cases hd : d = '\n'
            · exact ⟨[], a, by simp [hd], by simp⟩
            · have hm : '\n' ∈ a := by
                obtain ⟨s, t, e⟩ := this
                have : '\n' ∈ d :: a := by rw [e]; simp
                simpa [Ne.symm hd] using this
              obtain ⟨p, q, rfl, hp⟩ := ih hm (List.append_of_mem hm)
              exact ⟨d :: p, q, rfl, by simp [Ne.symm hd, hp]⟩
        exact ⟨c :: p, q, by simp [Ne.symm hc, hp], rfl⟩
  rw [List.append_assoc, List.cons_append] at h
  obtain ⟨rfl, h2⟩ := split_nl hp hr h
  exact ⟨q, rfl, h2⟩

theorem endsAt_col0 (pre : Text) (n : Nat) :
    EndsAt pre ⟨n, 0⟩ ↔ n = pre.count '\n' + 1 ∧ (pre = [] ∨ pre.getLast? = some '\n') := by
  unfold EndsAt
  refine and_congr Iff.rfl ?_
  rw [← List.head?_reverse]
  cases h : pre.reverse with
  | nil => simp at h; simp [h]
  | cons c cs =>
    have : pre ≠ [] := by rintro rfl; simp at h
    by_cases hc : c = '\n' <;> simp [List.takeWhile_cons, hc, this]

theorem endsAt_one {pre : Text} : EndsAt pre ⟨1, 0⟩ ↔ pre = [] := by
  rw [endsAt_col0]
  constructor
  · rintro ⟨h1, h2⟩
    have h1 : '\n' ∉ pre := List.count_eq_zero.1 (by omega)
    rcases h2 with h2 | h2
    · exact h2
    · exact absurd (List.mem_of_getLast? h2) h1
  · rintro rfl; simp

theorem endsAt_zero {pre : Text} {k : Nat} : ¬ EndsAt pre ⟨0, k⟩ := by
  unfold EndsAt; simp

theorem endsAt_step {r pre : Text} (hr : '\n' ∉ r) (n : Nat) :
    EndsAt (r ++ '\n' :: pre) ⟨n + 2, 0⟩ ↔ EndsAt pre ⟨n + 1, 0⟩ := by
  rw [endsAt_col0, endsAt_col0, List.count_append, List.count_eq_zero.2 hr, List.count_cons_self]
  simp only [List.append_eq_nil_iff, List.cons_ne_nil, and_false, false_or]
  cases pre with
  | nil => simp
  | cons c cs => simp [List.getLast?_append, List.getLast?_cons_cons]

theorem endsAt_two {pre : Text} {n : Nat} (h : EndsAt pre ⟨n + 2, 0⟩) : '\n' ∈ pre := by
  rw [endsAt_col0] at h
  exact List.count_pos_iff.1 (by omega)

/-- A text without line break has at most one line. -/
theorem lineAt_no_nl {t : Text} (ht : '\n' ∉ t) (n : Nat) (l : Text) : LineAt t n l ↔ n = 1 ∧ l = t ∧ t ≠ [] := by
  constructor
  · rintro ⟨pre, suf, hp, hl, h⟩
    have hpre : '\n' ∉ pre := by
      intro hm
      rcases h with ⟨rfl, _⟩ | ⟨rfl, _⟩ | rfl <;> simp [hm] at ht
    cases n with
    | zero => exact absurd hp endsAt_zero
    | succ n =>
      cases n with
      | zero =>
        have := endsAt_one.1 hp
        subst this
        rcases h with ⟨rfl, h2, _⟩ | ⟨rfl, _⟩ | rfl
        · exact ⟨rfl, by simp, by simpa using h2⟩
        · simp at ht
        · simp at ht
      | succ n => exact absurd (endsAt_two hp) hpre
  · rintro ⟨rfl, rfl, h⟩
    exact ⟨[], [], endsAt_one.2 rfl, ht, Or.inl ⟨by simp, h, rfl⟩⟩

theorem stripCr_append (l : Text) : stripCr (l ++ ['\r']) = l := by simp [stripCr]
theorem stripCr_of_ne {l : Text} (h : l.getLast? ≠ some '\r') : stripCr l = l := by simp [stripCr, h]
theorem stripCr_cases (l : Text) : l = stripCr l ++ ['\r'] ∨ (l = stripCr l ∧ (stripCr l).getLast? ≠ some '\r') := by
  by_cases h : l.getLast? = some '\r'
  · left
    obtain ⟨ys, rfl⟩ := List.getLast?_eq_some_iff.1 h
    rw [stripCr_append]
  · right
    rw [stripCr_of_ne h]; exact ⟨rfl, h⟩

/-- The first line. -/
theorem lineAt_first {r rest : Text} (hr : '\n' ∉ r) (l : Text) : LineAt (r ++ '\n' :: rest) 1 l ↔ l = stripCr r := by
  constructor
  · rintro ⟨pre, suf, hp, hl, h⟩
    have := endsAt_one.1 hp
    subst this
    rcases h with ⟨h, h2, _⟩ | ⟨h, h2⟩ | h
    · exfalso; rw [List.nil_append] at h; rw [← h] at hl; simp at hl
    · rw [List.nil_append] at h
      obtain ⟨rfl, _⟩ := split_nl hr hl h
      rw [stripCr_of_ne h2]
    · rw [List.nil_append, show l ++ '\r' :: '\n' :: suf = (l ++ ['\r']) ++ '\n' :: suf by simp] at h
      obtain ⟨rfl, _⟩ := split_nl hr (by simp [hl]) h
      rw [stripCr_append]
  · rintro rfl
    rcases stripCr_cases r with h | ⟨h1, h2⟩
    · refine ⟨[], rest, endsAt_one.2 rfl, fun hm => hr (by rw [h]; simp [hm]), Or.inr (Or.inr ?_)⟩
      conv => lhs; rw [h]
      simp
    · refine ⟨[], rest, endsAt_one.2 rfl, by rw [← h1]; exact hr, Or.inr (Or.inl ⟨?_, h2⟩)⟩
      rw [← h1]; simp

/-- The lines after the first. -/
theorem lineAt_rest {r rest : Text} (hr : '\n' ∉ r) (n : Nat) (l : Text) :
    LineAt (r ++ '\n' :: rest) (n + 2) l ↔ LineAt rest (n + 1) l := by
  constructor
  · rintro ⟨pre, suf, hp, hl, h⟩
    have hm := endsAt_two hp
    rcases h with ⟨h, h2, h3⟩ | ⟨h, h2⟩ | h
    · obtain ⟨pre', rfl, h'⟩ := split_nl_left hm hr h.symm
      exact ⟨pre', suf, (endsAt_step hr n).1 hp, hl, Or.inl ⟨h'.symm, h2, h3⟩⟩
    · rw [List.append_assoc] at h
      obtain ⟨pre', rfl, h'⟩ := split_nl_left hm hr h.symm
      exact ⟨pre', suf, (endsAt_step hr n).1 hp, hl, Or.inr (Or.inl ⟨by rw [← h']; simp, h2⟩)⟩
    · rw [List.append_assoc] at h
      obtain ⟨pre', rfl, h'⟩ := split_nl_left hm hr h.symm
      exact ⟨pre', suf, (endsAt_step hr n).1 hp, hl, Or.inr (Or.inr (by rw [← h']; simp))⟩
  · rintro ⟨pre, suf, hp, hl, h⟩
    refine ⟨r ++ '\n' :: pre, suf, (endsAt_step hr n).2 hp, hl, ?_⟩
    rcases h with ⟨rfl, h2, h3⟩ | ⟨rfl, h2⟩ | rfl
    · exact Or.inl ⟨by simp, h2, h3⟩
    · exact Or.inr (Or.inl ⟨by simp, h2⟩)
    · exact Or.inr (Or.inr (by simp))

theorem takeWhile_nl (t : Text) : '\n' ∉ t.takeWhile (· != '\n') := by
  intro h
  have := mem_takeWhile_imp h
  simp at this

theorem dropWhile_nl_head {t : Text} {c : Char} {rest : Text} (h : t.drop (t.takeWhile (· != '\n')).length = c :: rest) :
    c = '\n' ∧ t = t.takeWhile (· != '\n') ++ '\n' :: rest := by
  have h1 : t.drop (t.takeWhile (· != '\n')).length = t.dropWhile (· != '\n') := drop_takeWhile_length _ _
  rw [h1] at h
  have hc : c = '\n' := by
    have := List.head?_dropWhile_not (p := (· != '\n')) (l := t)
    rw [h] at this
    simpa using this
  subst hc
  exact ⟨rfl, by rw [← h, List.takeWhile_append_dropWhile]⟩

/-- `lines` gives the lines of the text. -/
theorem lines_spec (t : Text) (k : Nat) (l : Text) : (lines t)[k]? = some l ↔ LineAt t (k + 1) l := by
  fun_induction lines t generalizing k l with
  | case1 => rw [lineAt_no_nl (by simp)]; simp
  | case2 c cs l' h =>
    have ht : '\n' ∉ c :: cs := by
      have h1 : l' = c :: cs := by
        have h2 : l'.length ≥ (c :: cs).length := by
          have := congrArg List.length h
          simp only [List.length_drop, List.length_nil] at this
          omega
        exact (List.takeWhile_prefix (p := (· != '\n')) (l := c :: cs)).eq_of_length_le h2
      rw [← h1]; exact takeWhile_nl _
    have h1 : l' = c :: cs := by
      show List.takeWhile _ (c :: cs) = _
      refine takeWhile_all fun x hx => ?_
      simp only [bne_iff_ne, ne_eq]; rintro rfl; exact ht hx
    rw [lineAt_no_nl ht, h1]
    cases k with
    | zero => simp [eq_comm]
    | succ k => simp
  | case3 c cs l' x rest h _ ih =>
    obtain ⟨-, ht⟩ := dropWhile_nl_head h
    have hn := takeWhile_nl (c :: cs)
    rw [ht]
    cases k with
    | zero =>
      rw [lineAt_first hn]
      simp only [List.getElem?_cons_zero, Option.some.injEq]
      exact eq_comm
    | succ k =>
      rw [lineAt_rest hn, List.getElem?_cons_succ]
      exact ih k l

/-! ### Trimming -/

theorem dropWhile_iff {p : Char → Bool} {t r : Text} :
    t.dropWhile p = r ↔ ∃ b, (∀ c ∈ b, p c = true) ∧ t = b ++ r ∧ ∀ c, r.head? = some c → p c = false := by
  constructor
  · rintro rfl
    refine ⟨t.takeWhile p, fun c hc => mem_takeWhile_imp hc, (List.takeWhile_append_dropWhile).symm, ?_⟩
    intro c hc
    have := List.head?_dropWhile_not (p := p) (l := t)
    rw [hc] at this
    simpa using this
  · rintro ⟨b, hb, rfl, hr⟩
    induction b with
    | nil =>
      cases r with
      | nil => rfl
      | cons c r => simp [List.dropWhile_cons, hr c rfl]
    | cons c b ih =>
      simp [List.dropWhile_cons, hb c (by simp), ih fun x hx => hb x (by simp [hx])]

theorem trimStartText_iff {t r : Text} :
    trimStartText t = r ↔ ∃ b, Blank b ∧ t = b ++ r ∧ ∀ c, r.head? = some c → isWhitespace c = false := dropWhile_iff

theorem stripPrefix?_iff {p : String} {t r : Text} : stripPrefix? p t = some r ↔ t = p.toList ++ r := by
  unfold stripPrefix?
  split
  · rename_i h
    obtain ⟨s, rfl⟩ := List.isPrefixOf_iff_prefix.1 h
    simp [eq_comm]
  · rename_i h
    constructor
    · intro h'; cases h'
    · rintro rfl
      exact absurd (List.isPrefixOf_iff_prefix.2 ⟨r, rfl⟩) h

/-- What `directive_text` returns. -/
theorem directiveText_iff {line d : Text} :
    directiveText line = some d ↔ DirectiveLine line d ∧ ∀ c, d.head? = some c → isWhitespace c = false := by
  constructor
  · intro h
    unfold directiveText at h
    split at h
    · cases h
    · rename_i r1 h1
      split at h
      · cases h
      · rename_i r2 h2
        cases h
        obtain ⟨b1, hb1, e1, _⟩ := trimStartText_iff.1 (stripPrefix?_iff.1 h1)
        obtain ⟨b2, hb2, e2, _⟩ := trimStartText_iff.1 (stripPrefix?_iff.1 h2)
        obtain ⟨b3, hb3, e3, h3⟩ := trimStartText_iff.1 (rfl : trimStartText r2 = trimStartText r2)
        refine ⟨⟨b1, b2, b3, hb1, hb2, hb3, ?_⟩, h3⟩
        rw [e1, e2]
        conv => lhs; rw [e3]
        simp
  · rintro ⟨⟨b1, b2, b3, hb1, hb2, hb3, rfl⟩, hd⟩
    have h1 : trimStartText (b1 ++ "//".toList ++ b2 ++ "necessist:".toList ++ b3 ++ d) =
        "//".toList ++ (b2 ++ "necessist:".toList ++ b3 ++ d) :=
      trimStartText_iff.2 ⟨b1, hb1, by simp, by intro c hc; simp at hc; subst hc; decide⟩
    have h2 : trimStartText (b2 ++ "necessist:".toList ++ b3 ++ d) = "necessist:".toList ++ (b3 ++ d) :=
      trimStartText_iff.2 ⟨b2, hb2, by simp, by intro c hc; simp at hc; subst hc; decide⟩
    have h3 : trimStartText (b3 ++ d) = d := trimStartText_iff.2 ⟨b3, hb3, rfl, hd⟩
    rw [directiveText, h1, stripPrefix?_iff.2 rfl]
    simp only
    rw [h2, stripPrefix?_iff.2 rfl]
    simp only [h3]

theorem hasWordBoundary_iff {alnum : Char → Bool} {rest : Text} :
    hasWordBoundary alnum rest = true ↔ ∀ c, rest.head? = some c → c ≠ '-' ∧ c ≠ '_' ∧ alnum c = false := by
  cases rest with
  | nil => simp [hasWordBoundary]
  | cons c cs =>
    simp [hasWordBoundary]
    constructor <;> (intro h; simp [h])

theorem directiveWord_iff {alnum : Char → Bool} {line : Text} {word : String}
    (hw : ∃ c, word.toList.head? = some c ∧ isWhitespace c = false) :
    (match directiveText line with
      | none => false
      | some rest => match stripPrefix? word rest with
        | none => false
        | some rest => hasWordBoundary alnum rest) = true ↔ DirectiveWord alnum line word := by
  obtain ⟨c0, hc0, hc1⟩ := hw
  have hh : ∀ rest : Text, (word.toList ++ rest).head? = some c0 := by
    intro rest; rw [List.head?_append, hc0]; rfl
  constructor
  · intro h
    split at h
    · cases h
    · rename_i d hd
      split at h
      · cases h
      · rename_i rest hr
        have := stripPrefix?_iff.1 hr
        subst this
        exact ⟨rest, (directiveText_iff.1 hd).1, hasWordBoundary_iff.1 h⟩
  · rintro ⟨rest, hd, hb⟩
    have h1 : directiveText line = some (word.toList ++ rest) :=
      directiveText_iff.2 ⟨hd, fun c hc => by rw [hh] at hc; cases hc; exact hc1⟩
    rw [h1]
    simp only
    rw [stripPrefix?_iff.2 rfl]
    exact hasWordBoundary_iff.2 hb

theorem isSkipFileDirective_iff {alnum : Char → Bool} {line : Text} :
    isSkipFileDirective alnum line = true ↔ DirectiveWord alnum line "skip-file" :=
  directiveWord_iff ⟨'s', rfl, by decide⟩

theorem isSkipDirective_iff {alnum : Char → Bool} {line : Text} :
    isSkipDirective alnum line = true ↔ DirectiveWord alnum line "skip" :=
  directiveWord_iff ⟨'s', rfl, by decide⟩

theorem blank_iff_trim {t : Text} : Blank t ↔ trimStartText t = [] := by
  rw [trimStartText_iff]
  exact ⟨fun h => ⟨t, h, by simp, by simp⟩, fun ⟨b, h, e, _⟩ => by simpa [e] using h⟩

theorem isLineCommentOrWhitespace_iff {line : Text} : isLineCommentOrWhitespace line = true ↔ CommentOrBlank line := by
  unfold isLineCommentOrWhitespace CommentOrBlank
  rw [Bool.or_eq_true, List.isEmpty_iff, ← blank_iff_trim, List.isPrefixOf_iff_prefix]
  refine or_congr Iff.rfl ⟨?_, ?_⟩
  · rintro ⟨rest, h⟩
    obtain ⟨b, hb, e, _⟩ := trimStartText_iff.1 h.symm
    exact ⟨b, rest, hb, by rw [e]; simp⟩
  · rintro ⟨b, rest, hb, rfl⟩
    refine ⟨rest, (trimStartText_iff.2 ⟨b, hb, by simp, ?_⟩).symm⟩
    intro c hc; simp at hc; subst hc; decide

theorem trimText_iff {t r : Text} (h1 : ∀ c, r.head? = some c → isWhitespace c = false) (hr : r ≠ [])
    (h2 : ∀ c, r.getLast? = some c → isWhitespace c = false) :
    trimText t = r ↔ ∃ b1 b2, Blank b1 ∧ Blank b2 ∧ t = b1 ++ r ++ b2 := by
  unfold trimText
  constructor
  · intro h
    have h := congrArg List.reverse h
    rw [List.reverse_reverse] at h
    obtain ⟨b, hb, e, _⟩ := dropWhile_iff.1 h
    have e := congrArg List.reverse e
    rw [List.reverse_reverse, List.reverse_append, List.reverse_reverse] at e
    obtain ⟨b1, hb1, e1, _⟩ := trimStartText_iff.1 e
    exact ⟨b1, b.reverse, hb1, fun c hc => hb c (by simpa using hc), by rw [e1]; simp⟩
  · rintro ⟨b1, b2, hb1, hb2, rfl⟩
    have e : trimStartText (b1 ++ r ++ b2) = r ++ b2 := by
      refine trimStartText_iff.2 ⟨b1, hb1, by simp, fun c hc => h1 c ?_⟩
      rw [List.head?_append] at hc
      cases r with
      | nil => exact absurd rfl hr
      | cons x r => simpa using hc
    rw [e, List.reverse_append]
    have : List.dropWhile isWhitespace (b2.reverse ++ r.reverse) = r.reverse := by
      refine dropWhile_iff.2 ⟨b2.reverse, fun c hc => hb2 c (by simpa using hc), rfl, fun c hc => h2 c ?_⟩
      rwa [List.head?_reverse] at hc
    rw [this, List.reverse_reverse]

theorem isFileHeaderLine_iff {line : Text} : isFileHeaderLine line = true ↔ HeaderLine line := by
  unfold isFileHeaderLine HeaderLine
  rw [Bool.or_eq_true, isLineCommentOrWhitespace_iff, beq_iff_eq]
  refine or_congr Iff.rfl (trimText_iff ?_ (by decide) ?_)
  · intro c hc; simp at hc; subst hc; decide
  · intro c hc; simp at hc; subst hc; decide

end Necessist
