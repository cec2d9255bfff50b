import Verif.Model.Text
import Verif.Spec.Text
namespace Necessist

/-- position after reading one more character -/
def stepPos (lc : LineColumn) (c : Char) : LineColumn :=
  if c = '\n' then ⟨lc.line + 1, 0⟩ else ⟨lc.line, lc.column + 1⟩

/-- position after reading `t` starting at `lc` -/
def endPos (lc : LineColumn) (t : Text) : LineColumn := t.foldl stepPos lc

@[simp] theorem endPos_nil (lc) : endPos lc [] = lc := rfl
@[simp] theorem endPos_cons (lc c cs) : endPos lc (c :: cs) = endPos (stepPos lc c) cs := rfl
theorem endPos_append (lc a b) : endPos lc (a ++ b) = endPos (endPos lc a) b := by
  simp [endPos, List.foldl_append]

theorem endsAt_iff (p : Text) (lc : LineColumn) : EndsAt p lc ↔ endPos ⟨1, 0⟩ p = lc := by
  suffices h : ∀ p : Text, (endPos ⟨1,0⟩ p.reverse).line = p.count '\n' + 1 ∧
      (endPos ⟨1,0⟩ p.reverse).column = (p.takeWhile (· != '\n')).length by
    have h1 := h p.reverse
    simp only [List.reverse_reverse, List.count_reverse] at h1
    unfold EndsAt
    constructor
    · rintro ⟨a, b⟩
      cases hx : endPos ⟨1,0⟩ p; cases lc; simp_all
    · rintro rfl; exact h1
  intro p
  induction p with
  | nil => simp
  | cons c cs ih =>
    simp only [List.reverse_cons, endPos_append, endPos_cons, endPos_nil]
    by_cases hc : c = '\n'
    · subst hc; simp [stepPos, ih.1]
    · simp [stepPos, hc, ih.1, ih.2]

theorem endPos_line_shift (a b : Nat) (p : Text) (k : Nat) :
    endPos ⟨a + k, b⟩ p = ⟨(endPos ⟨a, b⟩ p).line + k, (endPos ⟨a, b⟩ p).column⟩ := by
  induction p generalizing a b with
  | nil => simp
  | cons c cs ih =>
    simp only [endPos_cons, stepPos]
    split
    · have := ih (a+1) 0
      rw [show a + k + 1 = a + 1 + k by omega]; exact this
    · exact ih a (b+1)

theorem endPos_line_ge (lc : LineColumn) (p : Text) : lc.line ≤ (endPos lc p).line := by
  induction p generalizing lc with
  | nil => simp
  | cons c cs ih =>
    simp only [endPos_cons]
    refine Nat.le_trans ?_ (ih _)
    unfold stepPos; split <;> simp

theorem lineLen_nil : lineLen [] = 0 := rfl
theorem lineLen_cons (c : Char) (cs : Text) :
    lineLen (c :: cs) = if c = '\n' then 0 else lineLen cs + 1 := by
  unfold lineLen
  by_cases h : c = '\n' <;> simp [h]

theorem lineLen_le (t : Text) : lineLen t ≤ t.length := by
  unfold lineLen; exact (List.takeWhile_prefix _).length_le

theorem endPos_same_line (t : Text) (n : Nat) (b : Nat) (hn : n ≤ t.length) (col : Nat) :
    endPos ⟨1, b⟩ (t.take n) = ⟨1, col⟩ ↔ n ≤ lineLen t ∧ col = b + n := by
  induction t generalizing n b with
  | nil =>
    simp at hn; subst hn; simp [lineLen_nil]; omega
  | cons c cs ih =>
    cases n with
    | zero => simp; omega
    | succ n =>
      simp only [List.take_succ_cons, endPos_cons, lineLen_cons]
      simp at hn
      by_cases hc : c = '\n'
      · subst hc
        have := endPos_line_ge ⟨2, 0⟩ (cs.take n)
        simp [stepPos]
        intro h; rw [h] at this; simp at this
      · simp only [stepPos, hc, if_false]
        rw [ih n (b+1) (by omega)]
        constructor <;> rintro ⟨h1, h2⟩ <;> exact ⟨by omega, by omega⟩

theorem offset?_one (t : Text) (col n : Nat) :
    offset? t 1 col = some n ↔ n ≤ t.length ∧ endPos ⟨1, 0⟩ (t.take n) = ⟨1, col⟩ := by
  have hl := lineLen_le t
  have : offset? t 1 col = if col ≤ lineLen t then some col else none := by
    cases t <;> simp [offset?]
  rw [this]
  constructor
  · intro h
    split at h
    · simp at h; subst h
      refine ⟨by omega, ?_⟩
      rw [endPos_same_line _ _ _ (by omega)]; exact ⟨by omega, by omega⟩
    · simp at h
  · rintro ⟨h1, h2⟩
    rw [endPos_same_line _ _ _ h1] at h2
    rw [if_pos (by omega)]; simp; omega

theorem offset?_many (t : Text) (l col n b : Nat) :
    offset? t (l + 2) col = some n ↔ n ≤ t.length ∧ endPos ⟨1, b⟩ (t.take n) = ⟨l + 2, col⟩ := by
  induction t generalizing l n b with
  | nil => simp [offset?]
  | cons c cs ih =>
    by_cases hc : c = '\n'
    · subst hc
      cases n with
      | zero =>
        simp [offset?]
      | succ n =>
        simp only [offset?, if_true, Option.map_eq_some_iff, List.take_succ_cons, endPos_cons,
          List.length_cons, Nat.add_le_add_iff_right, Nat.add_right_cancel_iff, exists_eq_right]
        have hs := endPos_line_shift 1 0 (cs.take n) 1
        simp only [stepPos, if_true]
        have e : (endPos ⟨1 + 1, 0⟩ (cs.take n) = ⟨l + 2, col⟩ ↔
            endPos ⟨1, 0⟩ (cs.take n) = ⟨l + 1, col⟩) := by
          rw [hs]; cases endPos ⟨1, 0⟩ (cs.take n); simp
        rw [e]
        cases l with
        | zero => exact offset?_one cs col n
        | succ l => exact ih l n 0
    · cases n with
      | zero => simp [offset?, hc]
      | succ n =>
        simp only [offset?, hc, if_false, Option.map_eq_some_iff, List.take_succ_cons, endPos_cons,
          List.length_cons, Nat.add_le_add_iff_right, Nat.add_right_cancel_iff, exists_eq_right]
        rw [ih l n (b+1)]
        simp [stepPos, hc]

theorem offset?_iff (t : Text) (lc : LineColumn) (n : Nat) :
    lc.offset? t = some n ↔ n ≤ t.length ∧ EndsAt (t.take n) lc := by
  rw [endsAt_iff]
  rcases lc with ⟨l, c⟩
  unfold LineColumn.offset?
  match l with
  | 0 =>
    simp only [offset?]
    constructor
    · simp
    · rintro ⟨_, h⟩
      have := endPos_line_ge ⟨1, 0⟩ (t.take n)
      rw [h] at this; simp at this
  | 1 => exact offset?_one t c n
  | l + 2 => exact offset?_many t l c n 0

theorem EndsAt.unique {p : Text} {a b : LineColumn} (ha : EndsAt p a) (hb : EndsAt p b) : a = b := by
  rw [endsAt_iff] at ha hb; rw [← ha, ← hb]

/-- positions strictly increase along a text -/
theorem stepPos_lt (lc : LineColumn) (c : Char) : lc.cmp (stepPos lc c) = .lt := by
  unfold LineColumn.cmp stepPos
  split <;> simp [Nat.compare_eq_lt.2]

theorem LineColumn.cmp_lt_iff (a b : LineColumn) :
    a.cmp b = .lt ↔ a.line < b.line ∨ (a.line = b.line ∧ a.column < b.column) := by
  unfold LineColumn.cmp
  rw [Ordering.then_eq_lt, Nat.compare_eq_lt, Nat.compare_eq_eq, Nat.compare_eq_lt]

theorem LineColumn.cmp_eq_iff (a b : LineColumn) : a.cmp b = .eq ↔ a = b := by
  unfold LineColumn.cmp
  rw [Ordering.then_eq_eq, Nat.compare_eq_eq, Nat.compare_eq_eq]
  cases a; cases b; simp

theorem LineColumn.cmp_gt_iff (a b : LineColumn) : a.cmp b = .gt ↔ b.cmp a = .lt := by
  rw [LineColumn.cmp_lt_iff]
  unfold LineColumn.cmp
  rw [Ordering.then_eq_gt, Nat.compare_eq_gt, Nat.compare_eq_eq, Nat.compare_eq_gt]
  constructor <;> (intro h; omega)

theorem LineColumn.ble_iff (a b : LineColumn) : a.ble b = true ↔ a.cmp b = .lt ∨ a = b := by
  unfold LineColumn.ble
  rw [← LineColumn.cmp_eq_iff]
  cases a.cmp b <;> simp

theorem endPos_lt (lc : LineColumn) (t : Text) (h : t ≠ []) : lc.cmp (endPos lc t) = .lt := by
  induction t generalizing lc with
  | nil => simp at h
  | cons c cs ih =>
    simp only [endPos_cons]
    have h1 := stepPos_lt lc c
    by_cases hcs : cs = []
    · subst hcs; simpa using h1
    · have h2 := ih (stepPos lc c) hcs
      rw [LineColumn.cmp_lt_iff] at *
      omega

/-- order on offsets = order on positions -/
theorem offset_mono {t : Text} {a b : LineColumn} {m n : Nat} (ha : a.offset? t = some m)
    (hb : b.offset? t = some n) : a.ble b = true ↔ m ≤ n := by
  rw [offset?_iff, endsAt_iff] at ha hb
  obtain ⟨hm, rfl⟩ := ha
  obtain ⟨hn, rfl⟩ := hb
  rw [LineColumn.ble_iff]
  have key : ∀ m n, m < n → n ≤ t.length →
      (endPos ⟨1,0⟩ (t.take m)).cmp (endPos ⟨1,0⟩ (t.take n)) = .lt := by
    intro m n hmn hn
    have : t.take n = t.take m ++ (t.drop m).take (n - m) := by
      rw [← List.take_add]; congr 1; omega
    rw [this, endPos_append]
    apply endPos_lt
    intro h
    have := congrArg List.length h
    simp at this; omega
  constructor
  · rintro (h | h)
    · by_cases hlt : m ≤ n
      · exact hlt
      · have := key n m (by omega) hm
        rw [LineColumn.cmp_lt_iff] at *; omega
    · by_cases hlt : m ≤ n
      · exact hlt
      · have := key n m (by omega) hm
        rw [← h, LineColumn.cmp_lt_iff] at this; omega
  · intro h
    rcases Nat.lt_or_eq_of_le h with h | h
    · exact Or.inl (key m n h hn)
    · subst h; right; rfl

theorem offset_inj {t : Text} {a b : LineColumn} {n : Nat} (ha : a.offset? t = some n)
    (hb : b.offset? t = some n) : a = b := by
  rw [offset?_iff] at ha hb
  exact ha.2.unique hb.2

theorem offset_le {t : Text} {a : LineColumn} {n : Nat} (ha : a.offset? t = some n) : n ≤ t.length := by
  rw [offset?_iff] at ha; exact ha.1

theorem origin_le {t : Text} {a : LineColumn} {n : Nat} (ha : a.offset? t = some n) :
    (⟨1, 0⟩ : LineColumn).ble a = true := by
  have h0 : (⟨1, 0⟩ : LineColumn).offset? t = some 0 := by
    rw [offset?_iff]; simp [EndsAt]
  rw [offset_mono h0 ha]; omega

/-- `Located` in terms of offsets -/
theorem located_iff (t pre txt suf : Text) (start stop : LineColumn) :
    Located t pre txt suf start stop ↔
      t = pre ++ txt ++ suf ∧ start.offset? t = some pre.length ∧
        stop.offset? t = some (pre.length + txt.length) := by
  constructor
  · rintro ⟨h, h1, h2⟩
    subst h
    refine ⟨rfl, ?_, ?_⟩
    · rw [offset?_iff]; refine ⟨by simp, ?_⟩
      simpa [List.append_assoc] using h1
    · rw [offset?_iff]; refine ⟨by simp, ?_⟩
      have : (pre ++ txt ++ suf).take (pre.length + txt.length) = pre ++ txt := by
        rw [← List.length_append, List.take_left']; rfl
      rw [this]; exact h2
  · rintro ⟨h, h1, h2⟩
    subst h
    rw [offset?_iff] at h1 h2
    refine ⟨rfl, ?_, ?_⟩
    · simpa [List.append_assoc] using h1.2
    · have : (pre ++ txt ++ suf).take (pre.length + txt.length) = pre ++ txt := by
        rw [← List.length_append, List.take_left']; rfl
      rw [this] at h2; exact h2.2

theorem split3 (t : Text) (s e : Nat) (h : s ≤ e) (he : e ≤ t.length) :
    t = t.take s ++ (t.drop s).take (e - s) ++ t.drop e := by
  have h1 : t.take s ++ (t.drop s).take (e - s) = t.take e := by
    rw [← List.take_add]; congr 1; omega
  rw [h1, List.take_append_drop]

/-- `Span::remove` in terms of offsets. -/
theorem removeText?_iff (t : Text) (a b : LineColumn) (txt out : Text) :
    removeText? t a b = some (txt, out) ↔
      ∃ s e, a.offset? t = some s ∧ b.offset? t = some e ∧ s ≤ e ∧
        txt = (t.drop s).take (e - s) ∧ out = t.take s ++ t.drop e := by
  unfold removeText? Rewriter.rewrite Rewriter.new
  simp only [Option.map_eq_some_iff]
  constructor
  · rintro ⟨⟨x, r⟩, h, h2⟩
    simp only [Prod.mk.injEq] at h2
    obtain ⟨rfl, rfl⟩ := h2
    split at h <;> try contradiction
    cases hs : a.offset? t with
    | none => simp [hs] at h
    | some s =>
      cases he : b.offset? t with
      | none => simp [hs, he] at h
      | some e =>
        simp only [hs, he, Option.bind_eq_bind, Option.bind_some, Int.add_zero] at h
        split at h <;> try contradiction
        rename_i hc
        simp only [Option.some.injEq, Prod.mk.injEq] at h
        obtain ⟨rfl, rfl⟩ := h
        exact ⟨s, e, rfl, rfl, by omega, by simp, by simp⟩
  · rintro ⟨s, e, hs, he, hle, rfl, rfl⟩
    have hel := offset_le he
    refine ⟨((t.drop s).take (e - s), ⟨t, t.take s ++ t.drop e, -((e : Int) - s), b⟩), ?_, rfl⟩
    · rw [if_pos (origin_le hs)]
      simp only [hs, he, Option.bind_eq_bind, Option.bind_some, Int.add_zero]
      rw [if_pos (by omega)]
      simp

end Necessist
