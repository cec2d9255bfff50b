import Verif.Lemmas.Text
/-!
# C04, C54: removal and trimming are exact
-/
namespace Necessist

/-- **C04.** Removing a span succeeds with text `txt` and new contents `out` exactly when the file is
`pre ++ txt ++ suf` with `pre` ending at the span's start, `pre ++ txt` ending at its end, and
`out = pre ++ suf`. -/
theorem C04_remove_exact (t : Text) (start stop : LineColumn) (txt out : Text) :
    removeText? t start stop = some (txt, out) ↔
      ∃ pre suf, Located t pre txt suf start stop ∧ out = pre ++ suf := by
  rw [removeText?_iff]
  constructor
  · rintro ⟨s, e, hs, he, hle, rfl, rfl⟩
    have hel := offset_le he
    refine ⟨t.take s, t.drop e, ?_, rfl⟩
    rw [located_iff]
    have hl1 : (t.take s).length = s := by simp; omega
    have hl2 : ((t.drop s).take (e - s)).length = e - s := by simp; omega
    refine ⟨split3 t s e hle hel, ?_, ?_⟩
    · rw [hl1]; exact hs
    · rw [hl1, hl2, he]; congr 1; omega
  · rintro ⟨pre, suf, h, rfl⟩
    rw [located_iff] at h
    obtain ⟨rfl, hs, he⟩ := h
    refine ⟨_, _, hs, he, by omega, ?_, ?_⟩
    · simp [List.append_assoc]
    · rw [← List.length_append, List.drop_left' rfl]
      simp [List.append_assoc]

/-- **C04.** The text reported for a candidate is exactly the text that its removal deletes. -/
theorem C04_reported_text_is_removed_text (t : Text) (start stop : LineColumn) :
    sourceText? t start stop = (removeText? t start stop).map (·.1) := by
  cases h : removeText? t start stop with
  | some p =>
    obtain ⟨txt, out⟩ := p
    rw [removeText?_iff] at h
    obtain ⟨s, e, hs, he, hle, rfl, rfl⟩ := h
    have := offset_le he
    simp [sourceText?, hs, he, slice?, hle, this]
  | none =>
    cases h2 : sourceText? t start stop with
    | none => rfl
    | some x =>
      unfold sourceText? slice? at h2
      cases hs : start.offset? t with
      | none => simp [hs] at h2
      | some s =>
        cases he : stop.offset? t with
        | none => simp [hs, he] at h2
        | some e =>
          simp only [hs, he, Option.bind_eq_bind, Option.bind_some] at h2
          split at h2 <;> try contradiction
          rename_i hc
          have := (removeText?_iff t start stop _ _).2 ⟨s, e, hs, he, hc.1, rfl, rfl⟩
          rw [this] at h; contradiction

/-- **C04.** The removal is determined by the span: no two ways of reading a span. -/
theorem C04_location_unique (t pre txt suf pre' txt' suf' : Text) (start stop : LineColumn)
    (h : Located t pre txt suf start stop) (h' : Located t pre' txt' suf' start stop) :
    pre = pre' ∧ txt = txt' ∧ suf = suf' := by
  rw [located_iff] at h h'
  obtain ⟨e, hs, he⟩ := h
  obtain ⟨e', hs', he'⟩ := h'
  rw [hs] at hs'; rw [he] at he'
  simp only [Option.some.injEq] at hs' he'
  rw [e, List.append_assoc, List.append_assoc] at e'
  have h1 := List.append_inj e' hs'
  have h2 := List.append_inj h1.2 (by omega)
  exact ⟨h1.1, h2.1, h2.2⟩

/-- non-vacuity: removing `bar();` (with a non-ASCII comment before it) on line 2. -/
example : removeText? "fn f() {\n    é; bar(); baz();\n}".toList ⟨2, 7⟩ ⟨2, 13⟩ =
    some ("bar();".toList, "fn f() {\n    é;  baz();\n}".toList) := by decide

/-- The first character of `t` (if any) is not whitespace. -/
def NoLeadingWhitespace (t : Text) : Prop := ∀ c, t.head? = some c → isWhitespace c = false

/-- **C54.** If the span designates `txt`, the trimmed span designates `txt` without its leading whitespace:
`txt = ws ++ rest`, all of `ws` is whitespace, `rest` does not begin with whitespace, and the trimmed span
designates `rest` and has the same end. -/
theorem C54_trim_start (t pre txt suf : Text) (start stop : LineColumn)
    (h : Located t pre txt suf start stop) :
    ∃ ws rest, txt = ws ++ rest ∧ (∀ c ∈ ws, isWhitespace c = true) ∧ NoLeadingWhitespace rest ∧
      Located t (pre ++ ws) rest suf (trimStart t start stop) stop := by
  have hadv : ∀ (txt : Text) (lc : LineColumn), ∃ ws rest, txt = ws ++ rest ∧
      (∀ c ∈ ws, isWhitespace c = true) ∧ NoLeadingWhitespace rest ∧
      advance txt lc = endPos lc ws := by
    intro txt
    induction txt with
    | nil => intro lc; exact ⟨[], [], rfl, by simp, by simp [NoLeadingWhitespace], rfl⟩
    | cons c cs ih =>
      intro lc
      by_cases hw : isWhitespace c
      · by_cases hn : c = '\n'
        · obtain ⟨ws, rest, h1, h2, h3, h4⟩ := ih ⟨lc.line + 1, 0⟩
          refine ⟨c :: ws, rest, by simp [h1], ?_, h3, ?_⟩
          · intro x hx; rcases List.mem_cons.1 hx with rfl | hx
            · exact hw
            · exact h2 x hx
          · subst hn; simp only [advance, hw, if_true]; simpa [stepPos] using h4
        · obtain ⟨ws, rest, h1, h2, h3, h4⟩ := ih ⟨lc.line, lc.column + 1⟩
          refine ⟨c :: ws, rest, by simp [h1], ?_, h3, ?_⟩
          · intro x hx; rcases List.mem_cons.1 hx with rfl | hx
            · exact hw
            · exact h2 x hx
          · simp only [advance, hw, hn, if_true, if_false]; simpa [stepPos, hn] using h4
      · exact ⟨[], c :: cs, rfl, by simp, by simp [NoLeadingWhitespace, hw], by simp [advance, hw]⟩
  have hrem := (C04_remove_exact t start stop txt (pre ++ suf)).2 ⟨pre, suf, h, rfl⟩
  have hsrc : sourceText? t start stop = some txt := by
    rw [C04_reported_text_is_removed_text, hrem]; rfl
  obtain ⟨ws, rest, h1, h2, h3, h4⟩ := hadv txt start
  refine ⟨ws, rest, h1, h2, h3, ?_⟩
  have hpre := (endsAt_iff _ _).1 h.atStart
  refine ⟨?_, ?_, ?_⟩
  · rw [h.split, h1]; simp [List.append_assoc]
  · rw [endsAt_iff, endPos_append, hpre]
    simp [trimStart, hsrc, h4]
  · have := h.atStop
    rw [h1] at this
    simpa [List.append_assoc] using this

/-- non-vacuity: the span of `"\n  .foo()"` is trimmed to `.foo()` on the next line. -/
example : Located "x\n  .foo();".toList "x".toList "\n  .foo()".toList ";".toList ⟨1, 1⟩ ⟨2, 8⟩ ∧
    trimStart "x\n  .foo();".toList ⟨1, 1⟩ ⟨2, 8⟩ = ⟨2, 2⟩ := by
  refine ⟨⟨by decide, by decide, by decide⟩, by decide⟩

end Necessist
