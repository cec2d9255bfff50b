import Verif.Lemmas.Directives
/-!
# Directives (C32–C34)
-/
namespace Necessist

variable {alnum : Char → Bool}

/-! ### C32: syntax -/

/-- C32: a line is taken for a skip directive iff it has that form. -/
theorem C32_skip_syntax (line : Text) : isSkipDirective alnum line = true ↔ DirectiveWord alnum line "skip" :=
  isSkipDirective_iff

/-- C32: a line is taken for a skip-file directive iff it has that form. -/
theorem C32_skip_file_syntax (line : Text) :
    isSkipFileDirective alnum line = true ↔ DirectiveWord alnum line "skip-file" := isSkipFileDirective_iff

/-- C32: the text of a directive is determined by the line, up to leading blanks. -/
theorem C32_directive_text (line d : Text) : directiveText line = some d ↔
    DirectiveLine line d ∧ ∀ c, d.head? = some c → isWhitespace c = false := directiveText_iff

/-- C32: no line is both. -/
theorem C32_not_both (line : Text) : ¬ (DirectiveWord alnum line "skip" ∧ DirectiveWord alnum line "skip-file") := by
  rintro ⟨⟨r1, d1, h1⟩, ⟨r2, d2, h2⟩⟩
  have e1 := directiveText_iff.2 ⟨d1, fun c hc => by simp at hc; subst hc; decide⟩
  have e2 := directiveText_iff.2 ⟨d2, fun c hc => by simp at hc; subst hc; decide⟩
  rw [e1] at e2
  simp at e2
  subst e2
  exact (h1 '-' rfl).1 rfl

/-! ### The loop -/

/-- What remains of a history of warnings: those printed before the first one that is denied. -/
def printedUntilDenied : List WarnResult → List WarnMsg
  | [] => []
  | .bail _ :: _ => []
  | .panic :: _ => []
  | .silent :: rs => printedUntilDenied rs
  | .print m :: rs => m :: printedUntilDenied rs

/-- Some warning of the history is denied. -/
def anyDenied (rs : List WarnResult) : Prop := ∃ r ∈ rs, (∃ m, r = .bail m) ∨ r = .panic

/-- The warning due for line `n`, given whether only header lines precede it. -/
def dueFor (alnum : Char → Bool) (f : SourceFile) (n : Nat) (hdr : Bool) (line : Text) : Option WarnCall :=
  if isSkipFileDirective alnum line then
    if hdr then none
    else some ⟨.skipFileMispositioned, some (directiveSpan f n line).display, mispositionedMsg, false⟩
  else if isSkipDirective alnum line then none
  else (directiveText line).map fun d =>
    ⟨.directiveUnrecognized, some (directiveSpan f n line).display, unrecognizedMsg d, false⟩

/-- All warnings due, with their lines. -/
def dueCalls (alnum : Char → Bool) (f : SourceFile) : Nat → Bool → List Text → List (Nat × WarnCall)
  | _, _, [] => []
  | n, hdr, line :: ls =>
    (dueFor alnum f n hdr line).toList.map (fun c => (n, c)) ++ dueCalls alnum f (n + 1) (hdr && isFileHeaderLine line) ls

/-- The directives found. -/
def foundIn (alnum : Char → Bool) : Nat → Bool → Directives → List Text → Directives
  | _, _, d, [] => d
  | n, hdr, d, line :: ls =>
    foundIn alnum (n + 1) (hdr && isFileHeaderLine line)
      ⟨d.skipFile || (isSkipFileDirective alnum line && hdr),
       if isSkipDirective alnum line && !isSkipFileDirective alnum line then d.skipLines ++ [n + 1] else d.skipLines⟩ ls

theorem warnStep_cases (o : WarnOpts) (st : WStates) (c : WarnCall) (cs : List WarnCall) :
    (warnStep o st c = none ∧ anyDenied (warnHistory o st (c :: cs)) ∧
      printedUntilDenied (warnHistory o st (c :: cs)) = []) ∨
    (∃ ms st', warnStep o st c = some (ms, st') ∧
      (anyDenied (warnHistory o st (c :: cs)) ↔ anyDenied (warnHistory o st' cs)) ∧
      printedUntilDenied (warnHistory o st (c :: cs)) = ms ++ printedUntilDenied (warnHistory o st' cs)) := by
  unfold warnStep
  rw [warnHistory]
  rcases h : warnInternal o st c with ⟨r, st'⟩
  cases r with
  | bail m => exact Or.inl ⟨rfl, ⟨_, List.mem_cons_self .., Or.inl ⟨_, rfl⟩⟩, rfl⟩
  | panic => exact Or.inl ⟨rfl, ⟨_, List.mem_cons_self .., Or.inr rfl⟩, rfl⟩
  | silent => exact Or.inr ⟨[], st', rfl, by simp [anyDenied], rfl⟩
  | print m => exact Or.inr ⟨[m], st', rfl, by simp [anyDenied], rfl⟩

theorem collectLoop_spec (o : WarnOpts) (f : SourceFile) (ls : List Text) (n : Nat) (hdr : Bool) (d : Directives)
    (st : WStates) :
    (collectLoop alnum o f n hdr d st ls).2 =
        printedUntilDenied (warnHistory o st ((dueCalls alnum f n hdr ls).map (·.2))) ∧
    ((collectLoop alnum o f n hdr d st ls).1 = none ↔
        anyDenied (warnHistory o st ((dueCalls alnum f n hdr ls).map (·.2)))) ∧
    (∀ d' st', (collectLoop alnum o f n hdr d st ls).1 = some (d', st') → d' = foundIn alnum n hdr d ls) := by
  induction ls generalizing n hdr d st with
  | nil =>
    simp [collectLoop, dueCalls, warnHistory, printedUntilDenied, anyDenied, foundIn]
  | cons line ls ih =>
    have hh : (if !isFileHeaderLine line then false else hdr) = (hdr && isFileHeaderLine line) := by
      cases isFileHeaderLine line <;> simp
    rw [collectLoop, hh, dueCalls, foundIn]
    unfold dueFor
    cases h1 : isSkipFileDirective alnum line with
    | true =>
      cases hdr with
      | true => simpa using ih (n + 1) (true && isFileHeaderLine line) ⟨true, d.skipLines⟩ st
      | false =>
        simp only [if_true, Bool.false_eq_true, if_false, Option.toList_some, List.map_cons, List.map_nil,
          List.singleton_append]
        rcases warnStep_cases o st ⟨.skipFileMispositioned, some (directiveSpan f n line).display, mispositionedMsg, false⟩
          ((dueCalls alnum f (n + 1) (false && isFileHeaderLine line) ls).map (·.2)) with ⟨e, h2, h3⟩ | ⟨ms, st', e, h2, h3⟩
        · rw [e]
          exact ⟨h3.symm, ⟨fun _ => h2, fun _ => rfl⟩, fun _ _ h => by cases h⟩
        · rw [e]
          obtain ⟨i1, i2, i3⟩ := ih (n + 1) (false && isFileHeaderLine line) d st'
          refine ⟨by rw [h3, ← i1], i2.trans h2.symm, ?_⟩
          simpa using i3
    | false =>
      cases h2 : isSkipDirective alnum line with
      | true => simpa using ih (n + 1) (hdr && isFileHeaderLine line) ⟨d.skipFile, d.skipLines ++ [n + 1]⟩ st
      | false =>
        cases h4 : directiveText line with
        | none => simpa using ih (n + 1) (hdr && isFileHeaderLine line) d st
        | some dt =>
          simp only [if_true, Bool.false_eq_true, if_false, Option.map_some, Option.toList_some, List.map_cons, List.map_nil,
            List.singleton_append]
          rcases warnStep_cases o st ⟨.directiveUnrecognized, some (directiveSpan f n line).display, unrecognizedMsg dt, false⟩
            ((dueCalls alnum f (n + 1) (hdr && isFileHeaderLine line) ls).map (·.2)) with ⟨e, h2, h3⟩ | ⟨ms, st', e, h2, h3⟩
          · rw [e]
            exact ⟨h3.symm, ⟨fun _ => h2, fun _ => rfl⟩, fun _ _ h => by cases h⟩
          · rw [e]
            obtain ⟨i1, i2, i3⟩ := ih (n + 1) (hdr && isFileHeaderLine line) d st'
            refine ⟨by rw [h3, ← i1], i2.trans h2.symm, ?_⟩
            simpa using i3

theorem foundIn_skipFile (ls : List Text) (n : Nat) (hdr : Bool) (d : Directives) :
    (foundIn alnum n hdr d ls).skipFile = true ↔ d.skipFile = true ∨
      (hdr = true ∧ ∃ (k : Nat) (l : Text), ls[k]? = some l ∧ isSkipFileDirective alnum l = true ∧
        ∀ j < k, ∀ l', ls[j]? = some l' → isFileHeaderLine l' = true) := by
  induction ls generalizing n hdr d with
  | nil => simp [foundIn]
  | cons line ls ih =>
    rw [foundIn, ih]
    simp only [Bool.or_eq_true, Bool.and_eq_true]
    constructor
    · rintro ((h | ⟨h1, h2⟩) | ⟨⟨h1, h2⟩, k, l, hk, hl, hj⟩)
      · exact Or.inl h
      · exact Or.inr ⟨h2, 0, line, rfl, h1, by simp⟩
      · refine Or.inr ⟨h1, k + 1, l, hk, hl, fun j hjk l' hl' => ?_⟩
        cases j with
        | zero => simp at hl'; rw [← hl']; exact h2
        | succ j => exact hj j (by omega) l' hl'
    · rintro (h | ⟨h1, k, l, hk, hl, hj⟩)
      · exact Or.inl (Or.inl h)
      · cases k with
        | zero => simp at hk; subst hk; exact Or.inl (Or.inr ⟨hl, h1⟩)
        | succ k =>
          exact Or.inr ⟨⟨h1, hj 0 (by omega) line rfl⟩, k, l, hk, hl, fun j hjk l' hl' => hj (j + 1) (by omega) l' hl'⟩

theorem foundIn_skipLines (ls : List Text) (n : Nat) (hdr : Bool) (d : Directives) (m : Nat) :
    m ∈ (foundIn alnum n hdr d ls).skipLines ↔ m ∈ d.skipLines ∨
      ∃ (k : Nat) (l : Text), ls[k]? = some l ∧ m = n + k + 1 ∧ isSkipDirective alnum l = true ∧ isSkipFileDirective alnum l = false := by
  induction ls generalizing n hdr d with
  | nil => simp [foundIn]
  | cons line ls ih =>
    rw [foundIn, ih]
    have : (∃ k l, (line :: ls)[k]? = some l ∧ m = n + k + 1 ∧ isSkipDirective alnum l = true ∧
          isSkipFileDirective alnum l = false) ↔
        (m = n + 1 ∧ isSkipDirective alnum line = true ∧ isSkipFileDirective alnum line = false) ∨
        ∃ k l, ls[k]? = some l ∧ m = n + 1 + k + 1 ∧ isSkipDirective alnum l = true ∧
          isSkipFileDirective alnum l = false := by
      constructor
      · rintro ⟨k, l, hk, hm, h1, h2⟩
        cases k with
        | zero => simp at hk; subst hk; exact Or.inl ⟨by simpa using hm, h1, h2⟩
        | succ k => exact Or.inr ⟨k, l, hk, by omega, h1, h2⟩
      · rintro (⟨hm, h1, h2⟩ | ⟨k, l, hk, hm, h1, h2⟩)
        · exact ⟨0, line, rfl, by simpa using hm, h1, h2⟩
        · exact ⟨k + 1, l, hk, by omega, h1, h2⟩
    rw [this, ← or_assoc]
    refine or_congr ?_ Iff.rfl
    cases isSkipDirective alnum line <;> cases isSkipFileDirective alnum line <;> simp

theorem dueCalls_mem (f : SourceFile) (ls : List Text) (n : Nat) (hdr : Bool) (m : Nat) (c : WarnCall) :
    (m, c) ∈ dueCalls alnum f n hdr ls ↔ ∃ k l, ls[k]? = some l ∧ m = n + k ∧
      ∃ h : Bool, (h = true ↔ hdr = true ∧ ∀ j < k, ∀ l', ls[j]? = some l' → isFileHeaderLine l' = true) ∧
        dueFor alnum f m h l = some c := by
  induction ls generalizing n hdr with
  | nil => simp [dueCalls]
  | cons line ls ih =>
    rw [dueCalls, List.mem_append, ih]
    constructor
    · rintro (h | ⟨k, l, hk, hm, h, hh, hd⟩)
      · simp only [List.mem_map, Option.mem_toList, Prod.mk.injEq] at h
        obtain ⟨c', hc, rfl, rfl⟩ := h
        exact ⟨0, line, rfl, rfl, hdr, by simp, hc⟩
      · refine ⟨k + 1, l, hk, by omega, h, hh.trans ?_, hd⟩
        simp only [Bool.and_eq_true]
        constructor
        · rintro ⟨⟨h1, h2⟩, h3⟩
          refine ⟨h1, fun j hj l' hl' => ?_⟩
          cases j with
          | zero => simp at hl'; rw [← hl']; exact h2
          | succ j => exact h3 j (by omega) l' hl'
        · rintro ⟨h1, h2⟩
          exact ⟨⟨h1, h2 0 (by omega) line rfl⟩, fun j hj l' hl' => h2 (j + 1) (by omega) l' hl'⟩
    · rintro ⟨k, l, hk, hm, h, hh, hd⟩
      cases k with
      | zero =>
        left
        simp at hk
        subst hk
        have : h = hdr := by
          cases h <;> cases hdr <;> simp at hh ⊢
        subst this
        simp only [Nat.add_zero] at hm
        subst hm
        simp [hd]
      | succ k =>
        right
        refine ⟨k, l, hk, by omega, h, hh.trans ?_, hd⟩
        simp only [Bool.and_eq_true]
        constructor
        · rintro ⟨h1, h2⟩
          exact ⟨⟨h1, h2 0 (by omega) line rfl⟩, fun j hj l' hl' => h2 (j + 1) (by omega) l' hl'⟩
        · rintro ⟨⟨h1, h2⟩, h3⟩
          refine ⟨h1, fun j hj l' hl' => ?_⟩
          cases j with
          | zero => simp at hl'; rw [← hl']; exact h2
          | succ j => exact h3 j (by omega) l' hl'

theorem dueCalls_ge (f : SourceFile) (ls : List Text) (n : Nat) (hdr : Bool) (x : Nat × WarnCall)
    (h : x ∈ dueCalls alnum f n hdr ls) : n ≤ x.1 := by
  obtain ⟨k, l, _, hm, _⟩ := (dueCalls_mem f ls n hdr x.1 x.2).1 h
  omega

theorem dueCalls_sorted (f : SourceFile) (ls : List Text) (n : Nat) (hdr : Bool) :
    (dueCalls alnum f n hdr ls).Pairwise fun x y => x.1 < y.1 := by
  induction ls generalizing n hdr with
  | nil => exact List.Pairwise.nil
  | cons line ls ih =>
    rw [dueCalls, List.pairwise_append]
    refine ⟨?_, ih _ _, ?_⟩
    · cases dueFor alnum f n hdr line <;> simp
    · intro a ha b hb
      have := dueCalls_ge f ls _ _ b hb
      simp only [List.mem_map, Option.mem_toList] at ha
      obtain ⟨c, _, rfl⟩ := ha
      exact this

/-! ### Results -/

theorem lines_prefix {contents : Text} {k : Nat} {P : Text → Bool} {Q : Text → Prop} (hPQ : ∀ l, P l = true ↔ Q l) :
    (∀ j < k, ∀ l', (lines contents)[j]? = some l' → P l' = true) ↔
      ∀ m < k + 1, ∀ l', LineAt contents m l' → Q l' := by
  constructor
  · intro h m hm l' hl'
    cases m with
    | zero => obtain ⟨_, _, hp, _⟩ := hl'; exact absurd hp endsAt_zero
    | succ m => exact (hPQ _).1 (h m (by omega) l' ((lines_spec _ _ _).2 hl'))
  · intro h j hj l' hl'
    exact (hPQ _).2 (h (j + 1) (by omega) l' ((lines_spec _ _ _).1 hl'))

/-- C34: a file is skipped iff some line is a skip-file directive and all lines before it are line comments, blank, or
`<?php`. -/
theorem C34_skip_file (o : WarnOpts) (st : WStates) (f : SourceFile) (contents : Text) (d : Directives) (st' : WStates)
    (h : (Directives.collect alnum o st f contents).1 = some (d, st')) :
    d.skipFile = true ↔ ∃ n l, LineAt contents n l ∧ DirectiveWord alnum l "skip-file" ∧
      ∀ m < n, ∀ l', LineAt contents m l' → HeaderLine l' := by
  rw [(collectLoop_spec o f (lines contents) 1 true {} st).2.2 d st' h, foundIn_skipFile]
  simp only [Bool.false_eq_true, false_or, true_and]
  constructor
  · rintro ⟨k, l, hk, hl, hj⟩
    exact ⟨k + 1, l, (lines_spec _ _ _).1 hk, isSkipFileDirective_iff.1 hl,
      (lines_prefix fun l => isFileHeaderLine_iff).1 hj⟩
  · rintro ⟨n, l, hn, hl, hj⟩
    cases n with
    | zero => obtain ⟨_, _, hp, _⟩ := hn; exact absurd hp endsAt_zero
    | succ k =>
      exact ⟨k, l, (lines_spec _ _ _).2 hn, isSkipFileDirective_iff.2 hl,
        (lines_prefix fun l => isFileHeaderLine_iff).2 hj⟩

theorem collect_skipLines (o : WarnOpts) (st : WStates) (f : SourceFile) (contents : Text) (d : Directives) (st' : WStates)
    (h : (Directives.collect alnum o st f contents).1 = some (d, st')) (m : Nat) :
    m ∈ d.skipLines ↔ ∃ n l, LineAt contents n l ∧ m = n + 1 ∧ DirectiveWord alnum l "skip" := by
  rw [(collectLoop_spec o f (lines contents) 1 true {} st).2.2 d st' h, foundIn_skipLines]
  simp only [List.not_mem_nil, false_or]
  constructor
  · rintro ⟨k, l, hk, hm, h1, _⟩
    exact ⟨k + 1, l, (lines_spec _ _ _).1 hk, by omega, isSkipDirective_iff.1 h1⟩
  · rintro ⟨n, l, hn, hm, hl⟩
    cases n with
    | zero => obtain ⟨_, _, hp, _⟩ := hn; exact absurd hp endsAt_zero
    | succ k =>
      refine ⟨k, l, (lines_spec _ _ _).2 hn, by omega, isSkipDirective_iff.2 hl, ?_⟩
      cases hf : isSkipFileDirective alnum l with
      | false => rfl
      | true => exact absurd ⟨hl, isSkipFileDirective_iff.1 hf⟩ (C32_not_both l)

theorem sourceText?_of_located {contents pre txt suf : Text} {start stop : LineColumn}
    (hl : Located contents pre txt suf start stop) : sourceText? contents start stop = some txt := by
  obtain ⟨h, h1, h2⟩ := (located_iff ..).1 hl
  have := offset_le h2
  rw [sourceText?, h1, h2]
  simp only [Option.bind_eq_bind, Option.bind_some, slice?]
  rw [if_pos ⟨by omega, this⟩, h]
  simp

theorem findIdx?_none {α} {p : α → Bool} {l : List α} (h : l.findIdx? p = none) (j : Nat) (x : α) (hx : l[j]? = some x) :
    p x = false := by
  have := List.findIdx?_eq_none_iff.1 h x (List.mem_of_getElem? hx)
  simpa using this

theorem codeStartsOn_spec (txt : Text) (first n : Nat) :
    first + ((lines txt).findIdx? fun line => !isLineCommentOrWhitespace line).getD 0 = n ↔ CodeStartsOn txt first n := by
  have hcb : ∀ l, ¬ CommentOrBlank l ↔ isLineCommentOrWhitespace l = false := by
    intro l; rw [← isLineCommentOrWhitespace_iff]; simp
  cases h : (lines txt).findIdx? fun line => !isLineCommentOrWhitespace line with
  | none =>
    have hall := findIdx?_none h
    simp only [Bool.not_eq_false'] at hall
    simp only [Option.getD_none, Nat.add_zero]
    constructor
    · rintro rfl
      refine Or.inr ⟨rfl, fun k l hl => ?_⟩
      cases k with
      | zero => obtain ⟨_, _, hp, _⟩ := hl; exact absurd hp endsAt_zero
      | succ k => exact isLineCommentOrWhitespace_iff.1 (hall k l ((lines_spec _ _ _).2 hl))
    · rintro (⟨k, l, _, hl, hn, _⟩ | ⟨rfl, _⟩)
      · exact absurd (isLineCommentOrWhitespace_iff.1 (hall k l ((lines_spec _ _ _).2 hl))) hn
      · rfl
  | some i =>
    obtain ⟨hi, h1, h2⟩ := List.findIdx?_eq_some_iff_getElem.1 h
    have hl : LineAt txt (i + 1) (lines txt)[i] := (lines_spec _ _ _).1 (List.getElem?_eq_getElem hi)
    have hnc : ¬ CommentOrBlank (lines txt)[i] := by
      rw [hcb]; simpa using h1
    have hbefore : ∀ j < i, ∀ l', LineAt txt (j + 1) l' → CommentOrBlank l' := by
      intro j hj l' hl'
      have e := (lines_spec _ _ _).2 hl'
      have hj' : j < (lines txt).length := by omega
      rw [List.getElem?_eq_getElem hj'] at e
      cases e
      exact isLineCommentOrWhitespace_iff.1 (by simpa using h2 j hj)
    simp only [Option.getD_some]
    constructor
    · rintro rfl
      exact Or.inl ⟨i, _, rfl, hl, hnc, hbefore⟩
    · rintro (⟨k, l, rfl, hk, hn, hb⟩ | ⟨rfl, hall⟩)
      · have : k = i := by
          rcases Nat.lt_trichotomy k i with hlt | he | hgt
          · exact absurd (hbefore k hlt l hk) hn
          · exact he
          · exact absurd (hb i hgt _ hl) hnc
        rw [this]
      · exact absurd (hall _ _ hl) hnc

/-- C33: a candidate (any span located in the file) is suppressed iff its code begins on the line after a skip
directive. -/
theorem C33_skip (o : WarnOpts) (st : WStates) (f : SourceFile) (contents : Text) (d : Directives) (st' : WStates)
    (h : (Directives.collect alnum o st f contents).1 = some (d, st')) (pre txt suf : Text) (start stop : LineColumn)
    (hl : Located contents pre txt suf start stop) :
    d.skip contents start stop = true ↔
      ∃ n l, LineAt contents n l ∧ DirectiveWord alnum l "skip" ∧ CodeStartsOn txt start.line (n + 1) := by
  have hs : sourceText? contents start stop = some txt := sourceText?_of_located hl
  have e : spanCodeStartLine contents start stop =
      start.line + ((lines txt).findIdx? fun line => !isLineCommentOrWhitespace line).getD 0 := by
    rw [spanCodeStartLine, hs]
  have hskip : d.skip contents start stop = true ↔ spanCodeStartLine contents start stop ∈ d.skipLines := by
    unfold Directives.skip
    rw [Bool.and_eq_true, List.contains_iff_mem]
    refine ⟨fun h => h.2, fun h => ⟨?_, h⟩⟩
    cases hd : d.skipLines with
    | nil => rw [hd] at h; simp at h
    | cons => rfl
  rw [hskip, collect_skipLines o st f contents d st' h]
  constructor
  · rintro ⟨n, l, h1, h2, h3⟩
    exact ⟨n, l, h1, h3, (codeStartsOn_spec txt start.line _).1 (by rw [← e, h2])⟩
  · rintro ⟨n, l, h1, h3, h2⟩
    exact ⟨n, l, h1, by rw [e]; exact (codeStartsOn_spec txt start.line _).2 h2, h3⟩

/-- The warning that line `n` with text `l` of `contents` calls for: C34's late skip-file, C32's unrecognised directive. -/
def WarningDue (alnum : Char → Bool) (f : SourceFile) (contents : Text) (n : Nat) (c : WarnCall) : Prop :=
  ∃ l, LineAt contents n l ∧
    ((DirectiveWord alnum l "skip-file" ∧ (∃ m < n, ∃ l', LineAt contents m l' ∧ ¬ HeaderLine l') ∧
        c = ⟨.skipFileMispositioned, some (directiveSpan f n l).display,
          "`necessist: skip-file` is preceded by a line that is not a line comment, whitespace, or `<?php`".toList, false⟩) ∨
     (¬ DirectiveWord alnum l "skip-file" ∧ ¬ DirectiveWord alnum l "skip" ∧
        ∃ d, DirectiveLine l d ∧ (∀ c, d.head? = some c → isWhitespace c = false) ∧
        c = ⟨.directiveUnrecognized, some (directiveSpan f n l).display,
          "`necessist: ".toList ++ d ++ "` is not a recognized directive".toList, false⟩))

/-- The calls are those that are due. -/
theorem dueCalls_due {alnum : Char → Bool} {f : SourceFile} {contents : Text} (n : Nat) (c : WarnCall) :
    (n, c) ∈ dueCalls alnum f 1 true (lines contents) ↔ WarningDue alnum f contents n c := by
  rw [dueCalls_mem]
  have hsf : ∀ l, ¬ DirectiveWord alnum l "skip-file" ↔ isSkipFileDirective alnum l = false := by
    intro l; rw [← isSkipFileDirective_iff]; simp
  have hsk : ∀ l, ¬ DirectiveWord alnum l "skip" ↔ isSkipDirective alnum l = false := by
    intro l; rw [← isSkipDirective_iff]; simp
  constructor
  · rintro ⟨k, l, hk, rfl, hd, hh, hdue⟩
    have hl := (lines_spec _ _ _).1 hk
    rw [show k + 1 = 1 + k by omega] at hl
    refine ⟨l, hl, ?_⟩
    unfold dueFor at hdue
    split at hdue
    · rename_i h1
      split at hdue
      · cases hdue
      · rename_i h2
        cases hdue
        refine Or.inl ⟨isSkipFileDirective_iff.1 h1, ?_, rfl⟩
        refine Classical.byContradiction fun hn => h2 (hh.2 ⟨rfl, ?_⟩)
        refine (lines_prefix fun l => isFileHeaderLine_iff).2 fun m hm l' hl' => ?_
        exact Classical.byContradiction fun hc => hn ⟨m, by omega, l', hl', hc⟩
    · rename_i h1
      split at hdue
      · cases hdue
      · rename_i h2
        simp only [Option.map_eq_some_iff] at hdue
        obtain ⟨dt, hdt, rfl⟩ := hdue
        obtain ⟨h3, h4⟩ := directiveText_iff.1 hdt
        exact Or.inr ⟨(hsf l).2 (by simpa using h1), (hsk l).2 (by simpa using h2), dt, h3, h4, rfl⟩
  · rintro ⟨l, hl, h⟩
    cases n with
    | zero => obtain ⟨_, _, hp, _⟩ := hl; exact absurd hp endsAt_zero
    | succ k =>
      have hk := (lines_spec _ _ _).2 hl
      refine ⟨k, l, hk, by omega, ?_⟩
      rcases h with ⟨h1, ⟨m, hm, l', hl', hnh⟩, rfl⟩ | ⟨h1, h2, dt, h3, h4, rfl⟩
      · refine ⟨false, ⟨fun h => (by cases h), fun h => ?_⟩, ?_⟩
        · exact absurd ((lines_prefix fun l => isFileHeaderLine_iff).1 h.2 m hm l' hl') hnh
        · rw [dueFor, isSkipFileDirective_iff.2 h1]; rfl
      · have hb : ∃ b : Bool, (b = true ↔ true = true ∧
            ∀ j < k, ∀ l', (lines contents)[j]? = some l' → isFileHeaderLine l' = true) := by
          by_cases hx : ∀ j < k, ∀ l', (lines contents)[j]? = some l' → isFileHeaderLine l' = true
          · exact ⟨true, by simpa using hx⟩
          · exact ⟨false, by simpa using hx⟩
        obtain ⟨b, hb⟩ := hb
        refine ⟨b, hb, ?_⟩
        rw [dueFor, (hsf l).1 h1, (hsk l).1 h2, directiveText_iff.2 ⟨h3, h4⟩]
        rfl

/-- C32, C34: warnings are given, in the order of the lines, exactly for late skip-file directives and for unrecognised
directives, until one is denied; collecting fails iff one is denied. -/
theorem C34_warnings (o : WarnOpts) (st : WStates) (f : SourceFile) (contents : Text) :
    ∃ due : List (Nat × WarnCall), due.Pairwise (fun x y => x.1 < y.1) ∧
      (∀ n c, (n, c) ∈ due ↔ WarningDue alnum f contents n c) ∧
      (Directives.collect alnum o st f contents).2 = printedUntilDenied (warnHistory o st (due.map (·.2))) ∧
      ((Directives.collect alnum o st f contents).1 = none ↔ anyDenied (warnHistory o st (due.map (·.2)))) := by
  have hs := collectLoop_spec (alnum := alnum) o f (lines contents) 1 true {} st
  refine ⟨dueCalls alnum f 1 true (lines contents), dueCalls_sorted _ _ _ _, dueCalls_due, hs.1, hs.2.1⟩

theorem trimText_split (l : Text) : ∃ b2, l = l.takeWhile isWhitespace ++ trimText l ++ b2 := by
  refine ⟨((trimStartText l).reverse.takeWhile isWhitespace).reverse, ?_⟩
  unfold trimText
  rw [List.append_assoc, ← List.reverse_append, List.takeWhile_append_dropWhile, List.reverse_reverse]
  exact (List.takeWhile_append_dropWhile).symm

theorem endsAt_append {pre x : Text} {n c : Nat} (h : EndsAt pre ⟨n, c⟩) (hx : '\n' ∉ x) :
    EndsAt (pre ++ x) ⟨n, c + x.length⟩ := by
  rw [endsAt_iff] at h ⊢
  rw [endPos_append, h]
  clear h
  induction x generalizing c with
  | nil => rfl
  | cons a x ih =>
    simp only [List.mem_cons, not_or] at hx
    rw [endPos_cons]
    have : stepPos ⟨n, c⟩ a = ⟨n, c + 1⟩ := by simp [stepPos, Ne.symm hx.1]
    rw [this, ih hx.2]
    simp only [List.length_cons, LineColumn.mk.injEq, true_and]; omega

/-- C32: the location in these warnings is that of the directive without the blanks around it. -/
theorem C32_warning_location (f : SourceFile) (contents : Text) (n : Nat) (l : Text) (h : LineAt contents n l) :
    (directiveSpan f n l).file = f ∧ (directiveSpan f n l).start.line = n ∧
    ∃ pre suf, Located contents pre (trimText l) suf (directiveSpan f n l).start (directiveSpan f n l).stop := by
  refine ⟨rfl, rfl, ?_⟩
  obtain ⟨pre, suf, hp, hl, h⟩ := h
  obtain ⟨b2, hb⟩ := trimText_split l
  have hn1 : '\n' ∉ l.takeWhile isWhitespace := fun hm => hl (by rw [hb]; simp [hm])
  have hn2 : '\n' ∉ trimText l := fun hm => hl (by rw [hb]; simp [hm])
  have key : ∀ rest, contents = pre ++ l ++ rest →
      ∃ pre suf, Located contents pre (trimText l) suf (directiveSpan f n l).start (directiveSpan f n l).stop := by
    intro rest hc
    refine ⟨pre ++ l.takeWhile isWhitespace, b2 ++ rest, ?_, ?_, ?_⟩
    · conv => lhs; rw [hc, hb]
      simp
    · have := endsAt_append hp hn1
      rwa [Nat.zero_add] at this
    · have := endsAt_append (endsAt_append hp hn1) hn2
      rwa [Nat.zero_add] at this
  rcases h with ⟨h, _⟩ | ⟨h, _⟩ | h
  · exact key [] (by simpa using h)
  · exact key _ h
  · exact key _ h

/-! ### Non-vacuity -/
namespace Demo
def dirText : Text :=
  "// header\r\n\n  //necessist:skip-file\nfn f() {\n  // necessist: skip, as it is slow\n  // because\n  g()\n    .h();\n// necessist: skip-file\n// necessist: skipp".toList
def dirResult := Directives.collect Char.isAlphanum ⟨[], [], false⟩ WStates.init ⟨["t.rs".toList]⟩ dirText

example : dirResult.1.map (fun x => (x.1.skipFile, x.1.skipLines)) = some (true, [6]) := by decide +kernel
example : dirResult.2.map (·.warning) = [.skipFileMispositioned, .directiveUnrecognized] := by decide +kernel
example : (Directives.collect Char.isAlphanum ⟨[], [.directiveUnrecognized], false⟩ WStates.init ⟨["t.rs".toList]⟩ dirText).1.isNone = true := by
  decide +kernel
/-- A span that includes a leading comment. -/
example : (⟨false, [7]⟩ : Directives).skip dirText ⟨6, 2⟩ ⟨7, 5⟩ = true ∧
    (⟨false, [6]⟩ : Directives).skip dirText ⟨6, 2⟩ ⟨7, 5⟩ = false := by decide +kernel
example : isSkipDirective Char.isAlphanum "\t//  necessist:skip, reason".toList = true := by decide +kernel
example : isSkipDirective Char.isAlphanum "x; // necessist: skip".toList = false := by decide +kernel
example : isSkipFileDirective Char.isAlphanum "// necessist: skip-filex".toList = false := by decide +kernel
end Demo
end Necessist
