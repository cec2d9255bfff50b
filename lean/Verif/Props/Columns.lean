import Verif.Model.Columns
import Verif.Lemmas.Text
/-!
# C53: positions are converted to characters
-/
namespace Necessist.Columns

/-- What follows the last line break. -/
def lastLine (pre : Text) : Text := (pre.reverse.takeWhile (· != '\n')).reverse

/-- What precedes the last line. -/
def firstLines (pre : Text) : Text := (pre.reverse.dropWhile (· != '\n')).reverse

theorem split_last (pre : Text) : firstLines pre ++ lastLine pre = pre := by
  unfold firstLines lastLine
  rw [← List.reverse_append, List.takeWhile_append_dropWhile, List.reverse_reverse]

theorem lastLine_no_break (pre : Text) : '\n' ∉ lastLine pre := by
  unfold lastLine
  rw [List.mem_reverse]
  intro h
  have := List.all_eq_true.1 (List.all_takeWhile (p := (· != '\n')) (l := pre.reverse)) _ h
  simp at this

theorem firstLines_cases (pre : Text) : firstLines pre = [] ∨ ∃ a, firstLines pre = a ++ ['\n'] := by
  unfold firstLines
  cases h : pre.reverse.dropWhile (· != '\n') with
  | nil => left; rfl
  | cons c cs =>
    right
    have := List.head_dropWhile_not (p := (· != '\n')) (l := pre.reverse) (by rw [h]; simp)
    simp [h] at this
    exact ⟨cs.reverse, by simp [this]⟩

/-- A parser's point: the row is the number of line breaks before, the column the number of bytes since the last one. -/
def IsPoint (pre : Text) (row column : Nat) : Prop := row = pre.count '\n' ∧ column = byteLen (lastLine pre)

theorem charOffsets_length (n : Nat) (t : Text) : (charOffsets n t).length = t.length := by
  induction t generalizing n with
  | nil => rfl
  | cons c cs ih => simp [charOffsets, ih]

theorem byteLen_append (a b : Text) : byteLen (a ++ b) = byteLen a + byteLen b := by simp [byteLen]
theorem byteLen_cons (c : Char) (a : Text) : byteLen (c :: a) = c.utf8Size + byteLen a := by simp [byteLen]

theorem charOffsets_ge (n : Nat) (t : Text) : ∀ x ∈ charOffsets n t, n ≤ x := by
  induction t generalizing n with
  | nil => simp [charOffsets]
  | cons c cs ih =>
    intro x hx
    rw [charOffsets, List.mem_cons] at hx
    rcases hx with rfl | hx
    · omega
    · have := ih _ x hx; omega

theorem idxOf_charOffsets (n : Nat) (a b : Text) (hb : b ≠ []) :
    (charOffsets n (a ++ b)).idxOf? (n + byteLen a) = some a.length := by
  induction a generalizing n with
  | nil =>
    cases b with
    | nil => exact absurd rfl hb
    | cons c cs => simp [charOffsets, byteLen, List.idxOf?, List.findIdx?_cons]
  | cons c a ih =>
    rw [List.cons_append, charOffsets, byteLen_cons, List.idxOf?, List.findIdx?_cons]
    have hpos := Char.utf8Size_pos c
    rw [if_neg (by simp; omega)]
    have := ih (n + c.utf8Size)
    rw [List.idxOf?] at this
    rw [show n + (c.utf8Size + byteLen a) = n + c.utf8Size + byteLen a by omega, this]
    rfl

theorem idxOf_charOffsets_end (n : Nat) (a : Text) : (charOffsets n a).idxOf? (n + byteLen a) = none := by
  rw [List.idxOf?_eq_none_iff]
  induction a generalizing n with
  | nil => simp [charOffsets]
  | cons c a ih =>
    rw [charOffsets, byteLen_cons, List.mem_cons]
    rintro (h | h)
    · have := Char.utf8Size_pos c; omega
    · exact ih (n + c.utf8Size) (by rw [show n + c.utf8Size + byteLen a = n + (c.utf8Size + byteLen a) by omega]; exact h)

theorem endsAt_firstLines (pre : Text) : EndsAt (firstLines pre) ⟨pre.count '\n' + 1, 0⟩ := by
  have hc : (firstLines pre).count '\n' = pre.count '\n' := by
    conv => rhs; rw [← split_last pre]
    rw [List.count_append, List.count_eq_zero.2 (lastLine_no_break pre)]
    rfl
  refine ⟨by simp [hc], ?_⟩
  rcases firstLines_cases pre with h | ⟨a, h⟩ <;> simp [h]

theorem lineOffset (pre suf : Text) : offset? (pre ++ suf) (pre.count '\n' + 1) 0 = some (firstLines pre).length := by
  have := (offset?_iff (pre ++ suf) ⟨pre.count '\n' + 1, 0⟩ (firstLines pre).length).2
  refine this ⟨?_, ?_⟩
  · rw [← split_last pre]
    simp only [List.length_append]
    have : (firstLines (firstLines pre ++ lastLine pre)).length = (firstLines pre).length := by rw [split_last]
    omega
  · have ht : (pre ++ suf).take (firstLines pre).length = firstLines pre := by
      conv => lhs; arg 2; rw [← split_last pre]
      rw [List.append_assoc, List.take_left]
    rw [ht]
    exact endsAt_firstLines pre

/-- C53: a point of tree-sitter (Go, PHP) that is not at the end of the file is converted to the line and column, in characters, of
the same position. -/
theorem C53_point (pre suf : Text) (hs : suf ≠ []) (row column : Nat) (h : IsPoint pre row column) :
    ∃ lc, pointToLineColumn (pre ++ suf) row column = some lc ∧ EndsAt pre lc ∧
      lc.offset? (pre ++ suf) = some pre.length := by
  obtain ⟨rfl, rfl⟩ := h
  have hd : (pre ++ suf).drop (firstLines pre).length = lastLine pre ++ suf := by
    conv => lhs; arg 2; rw [← split_last pre]
    rw [List.append_assoc, List.drop_left]
  have hi := idxOf_charOffsets 0 (lastLine pre) suf hs
  rw [Nat.zero_add] at hi
  have he : EndsAt pre ⟨pre.count '\n' + 1, (lastLine pre).length⟩ := by
    refine ⟨rfl, ?_⟩
    simp [lastLine]
  refine ⟨⟨pre.count '\n' + 1, (lastLine pre).length⟩, ?_, he, ?_⟩
  · unfold pointToLineColumn
    rw [lineOffset pre suf]
    dsimp only
    rw [hd, hi]
  · rw [offset?_iff]
    exact ⟨by simp, by rw [List.take_left]; exact he⟩

/-- C53: converting a point at the end of the file panics. -/
theorem C53_point_eof (pre : Text) (row column : Nat) (h : IsPoint pre row column) : pointToLineColumn pre row column = none := by
  obtain ⟨rfl, rfl⟩ := h
  have hl := lineOffset pre []
  rw [List.append_nil] at hl
  have hd : pre.drop (firstLines pre).length = lastLine pre := by
    conv => lhs; arg 2; rw [← split_last pre]
    rw [List.drop_left]
  have hi := idxOf_charOffsets_end 0 (lastLine pre)
  rw [Nat.zero_add] at hi
  unfold pointToLineColumn
  rw [hl]
  dsimp only
  rw [hd, hi]

/-! ### Foundry -/

theorem utf8Size_newline : Char.utf8Size '\n' = 1 := by decide

theorem lineStarts_gt (n : Nat) (t : Text) : ∀ x ∈ lineStarts n t, n < x := by
  induction t generalizing n with
  | nil => simp [lineStarts]
  | cons c cs ih =>
    intro x hx
    have hpos := Char.utf8Size_pos c
    rw [lineStarts] at hx
    split at hx
    · rcases List.mem_cons.1 hx with rfl | hx
      · omega
      · have := ih _ x hx; omega
    · have := ih _ x hx; omega

theorem lineStarts_append (n : Nat) (a b : Text) : lineStarts n (a ++ b) = lineStarts n a ++ lineStarts (n + byteLen a) b := by
  induction a generalizing n with
  | nil => simp [lineStarts, byteLen]
  | cons c a ih =>
    rw [List.cons_append, lineStarts, lineStarts, ih, byteLen_cons, Nat.add_assoc]
    split <;> simp

theorem lineStarts_le (n : Nat) (t : Text) : ∀ x ∈ lineStarts n t, x ≤ n + byteLen t := by
  induction t generalizing n with
  | nil => simp [lineStarts]
  | cons c cs ih =>
    intro x hx
    have hpos := Char.utf8Size_pos c
    rw [lineStarts] at hx
    rw [byteLen_cons]
    split at hx
    · rcases List.mem_cons.1 hx with rfl | hx
      · omega
      · have := ih _ x hx; omega
    · have := ih _ x hx; omega

theorem lineStarts_count (n : Nat) (t : Text) : (lineStarts n t).length = t.count '\n' := by
  induction t generalizing n with
  | nil => rfl
  | cons c cs ih =>
    rw [lineStarts]
    by_cases h : c = '\n'
    · simp [h, ih]
    · simp [h, ih]

theorem lineStarts_no_break (n : Nat) (t : Text) (h : '\n' ∉ t) : lineStarts n t = [] := by
  have := lineStarts_count n t
  rw [List.count_eq_zero.2 h] at this
  exact List.eq_nil_of_length_eq_zero this

/-- What Foundry's conversion yields: the line is right, the column is the number of bytes since the last line break. -/
theorem offsetToLineColumn_eq (pre suf : Text) :
    offsetToLineColumn (pre ++ suf) (byteLen pre) = ⟨pre.count '\n' + 1, byteLen (lastLine pre)⟩ := by
  have hle := lineStarts_le 0 pre
  have hgt := lineStarts_gt (0 + byteLen pre) suf
  simp only [Nat.zero_add] at hle hgt
  have htake : ((lineStarts 0 (pre ++ suf)).takeWhile fun s => s ≤ byteLen pre) = lineStarts 0 pre := by
    rw [lineStarts_append, Nat.zero_add, List.takeWhile_append_of_pos (by intro x hx; simpa using hle x hx)]
    cases hs : lineStarts (byteLen pre) suf with
    | nil => simp
    | cons x xs =>
      have : byteLen pre < x := hgt x (by rw [hs]; simp)
      rw [List.takeWhile_cons_of_neg (by simp; omega), List.append_nil]
  unfold offsetToLineColumn
  simp only [htake, lineStarts_count]
  congr 1
  by_cases h0 : 0 < pre.count '\n'
  · rw [if_pos h0]
    obtain ⟨a, ha⟩ : ∃ a, firstLines pre = a ++ ['\n'] := by
      rcases firstLines_cases pre with h | h
      · have := endsAt_firstLines pre
        rw [h] at this
        have := this.1
        simp at this
        omega
      · exact h
    have hls : lineStarts 0 pre = lineStarts 0 a ++ [byteLen a + 1] := by
      conv => lhs; rw [← split_last pre]
      rw [lineStarts_append, lineStarts_no_break _ _ (lastLine_no_break pre), ha, lineStarts_append]
      simp [lineStarts]
    have hget : (lineStarts 0 (pre ++ suf)).getD (pre.count '\n' - 1) 0 = byteLen a + 1 := by
      rw [lineStarts_append, hls]
      have hl : (lineStarts 0 a).length = pre.count '\n' - 1 := by
        have := lineStarts_count 0 pre
        rw [hls] at this
        simp at this
        omega
      rw [← hl]
      simp [List.getD_eq_getElem?_getD]
    rw [hget]
    have : byteLen pre = byteLen a + 1 + byteLen (lastLine pre) := by
      conv => lhs; rw [← split_last pre]
      rw [byteLen_append, ha, byteLen_append]
      simp [byteLen, utf8Size_newline]
    omega
  · rw [if_neg h0]
    have hz : '\n' ∉ pre := by
      rw [← List.count_eq_zero]; omega
    have : lastLine pre = pre := by
      unfold lastLine
      have h1 := List.takeWhile_append_of_pos (p := (· != '\n')) (l₁ := pre.reverse) (l₂ := []) (by
        intro x hx
        simp
        rintro rfl
        exact hz (List.mem_reverse.1 hx))
      simp only [List.append_nil, List.takeWhile_nil] at h1
      rw [h1, List.reverse_reverse]
    rw [this]

theorem byteLen_ascii (t : Text) (h : ∀ c ∈ t, c.utf8Size = 1) : byteLen t = t.length := by
  induction t with
  | nil => rfl
  | cons c t ih =>
    rw [byteLen_cons, h c (by simp), ih fun c hc => h c (by simp [hc])]
    simp
    omega

/-- C53, Foundry: an offset is converted to the line and column of the same position if the characters between the last line break
and the position are ASCII. -/
theorem C53_foundry_partial (pre suf : Text) (h : ∀ c ∈ lastLine pre, c.utf8Size = 1) :
    EndsAt pre (offsetToLineColumn (pre ++ suf) (byteLen pre)) ∧
      (offsetToLineColumn (pre ++ suf) (byteLen pre)).offset? (pre ++ suf) = some pre.length := by
  rw [offsetToLineColumn_eq, byteLen_ascii _ h]
  have he : EndsAt pre ⟨pre.count '\n' + 1, (lastLine pre).length⟩ := ⟨rfl, by simp [lastLine]⟩
  refine ⟨he, ?_⟩
  rw [offset?_iff]
  exact ⟨by simp, by rw [List.take_left]; exact he⟩

/-- C53, Foundry: if there is a non-ASCII character between the last line break and the position, the conversion is wrong. -/
theorem C53_foundry_only (pre suf : Text) (h : ¬ ∀ c ∈ lastLine pre, c.utf8Size = 1) :
    ¬ EndsAt pre (offsetToLineColumn (pre ++ suf) (byteLen pre)) := by
  rw [offsetToLineColumn_eq]
  rintro ⟨-, h2⟩
  have h3 : byteLen (lastLine pre) = (lastLine pre).length := by
    simp only at h2
    rw [h2]; simp [lastLine]
  apply h
  generalize lastLine pre = t at h3
  clear h h2
  have hge : ∀ t : Text, t.length ≤ byteLen t := by
    intro t
    induction t with
    | nil => simp
    | cons c t ih =>
      have := Char.utf8Size_pos c
      rw [byteLen_cons]; simp; omega
  induction t with
  | nil => simp
  | cons c t ih =>
    have := Char.utf8Size_pos c
    have := hge t
    rw [byteLen_cons] at h3
    simp at h3
    intro x hx
    rcases List.mem_cons.1 hx with rfl | hx
    · omega
    · exact ih (by omega) x hx

/-- C53 is false of Foundry: the text removed is then another one. The statement is `f();`. -/
theorem C53_negation_foundry :
    let pre := "function test() { s = unicode\"é\"; ".toList
    let stmt := "f();".toList
    let whole := pre ++ stmt ++ " g(); }\n".toList
    sourceText? whole (offsetToLineColumn whole (byteLen pre)) (offsetToLineColumn whole (byteLen (pre ++ stmt))) =
      some "(); ".toList := by decide +kernel

/-! ### Cases -/

example : pointToLineColumn "a\nb = \"é\"; f()\n".toList 1 10 = some ⟨2, 9⟩ ∧ IsPoint "a\nb = \"é\"; ".toList 1 10 := by
  unfold IsPoint
  decide +kernel

example : offsetToLineColumn "ab\ncde\nf".toList 5 = ⟨2, 2⟩ ∧ (∀ c ∈ lastLine "ab\ncd".toList, c.utf8Size = 1) := by decide +kernel

end Necessist.Columns
