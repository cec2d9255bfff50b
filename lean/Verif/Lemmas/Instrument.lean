import Verif.Model.Instrument
import Verif.Spec.Instrument
import Verif.Lemmas.Text
/-! Lemmas about the insertion map, the rewriter and `weave`. -/
namespace Necessist

/-- Concatenation of the strings inserted at offset `n`. -/
def insAt (es : List (Nat × Text)) (n : Nat) : Text := ((es.filter (·.1 = n)).map (·.2)).flatten

@[simp] theorem insAt_nil (n) : insAt [] n = [] := rfl
theorem insAt_cons (e : Nat × Text) (es n) : insAt (e :: es) n = (if e.1 = n then e.2 else []) ++ insAt es n := by
  unfold insAt; by_cases h : e.1 = n <;> simp [h]
theorem insAt_append (a b n) : insAt (a ++ b) n = insAt a n ++ insAt b n := by
  simp [insAt]

theorem weave_congr {f g : Nat → Text} (i : Nat) (t : Text) (h : ∀ n, i ≤ n → n ≤ i + t.length → f n = g n) :
    weave f i t = weave g i t := by
  induction t generalizing i with
  | nil => exact h i (Nat.le_refl _) (by simp)
  | cons c cs ih =>
    simp only [weave]
    rw [h i (Nat.le_refl _) (by simp), ih (i + 1) (fun n h1 h2 => h n (by omega) (by simp at h2 ⊢; omega))]

theorem weave_nil_fun (i t) (f : Nat → Text) (h : ∀ n, i ≤ n → n ≤ i + t.length → f n = []) : weave f i t = t := by
  induction t generalizing i with
  | nil => exact h i (Nat.le_refl _) (by simp)
  | cons c cs ih =>
    simp only [weave]
    rw [h i (Nat.le_refl _) (by simp), ih (i + 1) (fun n h1 h2 => h n (by omega) (by simp at h2 ⊢; omega))]
    rfl

/-- Splitting `weave` where the insertions of the first part are all within it and those of the second within
it. -/
theorem weave_append (f g : Nat → Text) (i : Nat) (x y : Text)
    (hf : ∀ n, i + x.length < n → f n = []) (hg : ∀ n, n < i + x.length → g n = []) :
    weave (fun n => f n ++ g n) i (x ++ y) = weave f i x ++ weave g (i + x.length) y := by
  induction x generalizing i with
  | nil =>
    simp only [List.nil_append, List.length_nil, Nat.add_zero, weave] at *
    cases y with
    | nil => simp [weave]
    | cons c cs =>
      simp only [weave, List.append_assoc]
      congr 3
      exact weave_congr _ _ fun n h1 _ => by rw [hf n (by omega)]; rfl
  | cons c cs ih =>
    simp only [List.cons_append, weave, List.length_cons] at *
    rw [hg i (by omega)]
    simp only [List.append_nil, List.append_assoc, List.cons_append]
    rw [ih (i + 1) (fun n h => hf n (by omega)) (fun n h => hg n (by omega))]
    have : i + 1 + cs.length = i + (cs.length + 1) := by omega
    rw [this]

/-- Insertions in increasing order of offset, as the rewriter sees them: result from offset `k` on. -/
def applyFrom (t : Text) (k : Nat) : List (Nat × Text) → Text
  | [] => t.drop k
  | (s, x) :: rest => (t.drop k).take (s - k) ++ x ++ applyFrom t s rest

theorem applyFrom_weave (t : Text) (k : Nat) (es : List (Nat × Text))
    (hs : (es.map (·.1)).Pairwise (· ≤ ·)) (hk : ∀ e ∈ es, k ≤ e.1) (hl : ∀ e ∈ es, e.1 ≤ t.length)
    (hkt : k ≤ t.length) :
    applyFrom t k es = weave (insAt es) k (t.drop k) := by
  induction es generalizing k with
  | nil => simp only [applyFrom]; rw [weave_nil_fun]; intros; rfl
  | cons e es ih =>
    obtain ⟨s, x⟩ := e
    simp only [List.map_cons, List.pairwise_cons] at hs
    have hks : k ≤ s := hk (s, x) (by simp)
    have hsl : s ≤ t.length := hl (s, x) (by simp)
    have ih := ih s hs.2 (fun e he => hs.1 e.1 (List.mem_map_of_mem he)) (fun e he => hl e (by simp [he])) hsl
    simp only [applyFrom]
    rw [ih]
    have h0 : t.drop k = (t.drop k).take (s - k) ++ t.drop s := by
      conv => lhs; rw [← List.take_append_drop (s - k) (t.drop k)]
      rw [List.drop_drop]; congr 2; omega
    have hlen : ((t.drop k).take (s - k)).length = s - k := by simp; omega
    conv => rhs; rw [h0]
    have hfun : insAt ((s, x) :: es) = fun n => (if s = n then x else []) ++ insAt es n := by
      funext n; rw [insAt_cons]
    rw [hfun, weave_append (fun n => if s = n then x else []) (insAt es)]
    · rw [hlen]
      have : k + (s - k) = s := by omega
      rw [this]
      congr 1
      clear hfun h0 ih
      generalize hA : (t.drop k).take (s - k) = A at hlen ⊢
      have hs' : s = k + A.length := by omega
      rw [hs']
      clear hA hlen this hs hk hl hks hsl hkt hs'
      induction A generalizing k with
      | nil => simp [weave]
      | cons c cs ih =>
        simp only [weave, List.length_cons]
        rw [if_neg (by omega)]
        have : k + (cs.length + 1) = k + 1 + cs.length := by omega
        simp only [this]
        rw [← ih (k + 1)]; rfl
    · intro n h; rw [if_neg]; omega
    · intro n h
      rw [hlen] at h
      have : es.filter (·.1 = n) = [] := by
        rw [List.filter_eq_nil_iff]
        intro e he
        have := hs.1 e.1 (List.mem_map_of_mem he)
        simp; omega
      simp [insAt, this]

/-- The rewriter's state after insertions in order. -/
structure Rewriter.At (r : Rewriter) (t done : Text) (k : Nat) : Prop where
  orig : r.original = t
  text : r.rewritten = done ++ t.drop k
  len : (done.length : Int) = k + r.delta
  pos : r.pos.offset? t = some k ∨ (k = 0 ∧ r.pos = ⟨1, 0⟩)

theorem insert_at {r : Rewriter} {t done : Text} {k : Nat} (h : r.At t done k) (lc : LineColumn) (x : Text)
    (s : Nat) (hs : lc.offset? t = some s) (hks : k ≤ s) :
    ∃ r', r.insert lc x = some r' ∧ r'.At t (done ++ (t.drop k).take (s - k) ++ x) s := by
  have hsl := offset_le hs
  have hble : r.pos.ble lc = true := by
    rcases h.pos with hp | ⟨_, hp⟩
    · exact (offset_mono hp hs).2 hks
    · rw [hp]; exact origin_le hs
  have hlen : (r.rewritten.length : Int) = t.length + r.delta := by
    rw [h.text, List.length_append]; have := h.len; simp only [List.length_drop]; omega
  have h3 := h.len
  have hpos : (0:Int) ≤ s + r.delta := by omega
  have hto : ((s : Int) + r.delta).toNat = done.length + (s - k) := by omega
  refine ⟨⟨t, (done ++ (t.drop k).take (s - k)) ++ x ++ t.drop s, r.delta + x.length - 0, lc⟩, ?_, ?_⟩
  · unfold Rewriter.insert Rewriter.rewrite
    simp only [h.orig, hble, if_true, hs, Option.bind_eq_bind, Option.bind_some]
    rw [if_pos ⟨hpos, Int.le_refl _, by rw [hlen]; omega⟩]
    simp only [Option.map_some, hto, h.text]
    have e1 : List.take (done.length + (s - k)) (done ++ t.drop k) = done ++ (t.drop k).take (s - k) := by
      rw [List.take_append, List.take_of_length_le (by omega)]; congr 2; omega
    have e2 : List.drop (done.length + (s - k)) (done ++ t.drop k) = t.drop s := by
      rw [List.drop_append, List.drop_eq_nil_of_le (by omega), List.drop_drop, List.nil_append]; congr 1; omega
    rw [e1, e2]
    congr 2
    omega
  · refine ⟨rfl, rfl, ?_, .inl hs⟩
    simp; omega

theorem insertAll_at {r : Rewriter} {t done : Text} {k : Nat} (h : r.At t done k) (es : List (LineColumn × Text))
    (os : List (Nat × Text)) (hos : es.map (fun e => (e.1.offset? t, e.2)) = os.map (fun e => (some e.1, e.2)))
    (hs : (os.map (·.1)).Pairwise (· ≤ ·)) (hk : ∀ e ∈ os, k ≤ e.1) :
    ∃ r', insertAll r es = some r' ∧ r'.rewritten = done ++ applyFrom t k os := by
  induction es generalizing r done k os with
  | nil =>
    cases os with
    | nil => exact ⟨r, rfl, by simp [applyFrom, h.text]⟩
    | cons => simp at hos
  | cons e es ih =>
    cases os with
    | nil => simp at hos
    | cons o os =>
      obtain ⟨lc, x⟩ := e
      obtain ⟨s, x'⟩ := o
      simp only [List.map_cons, List.cons.injEq, Prod.mk.injEq] at hos
      obtain ⟨⟨h1, rfl⟩, h2⟩ := hos
      simp only [List.map_cons, List.pairwise_cons] at hs
      obtain ⟨r', hr', hat⟩ := insert_at h lc x s h1 (hk (s, x) (by simp))
      obtain ⟨r'', hr'', htext⟩ := ih hat os h2 hs.2 (fun e he => hs.1 e.1 (List.mem_map_of_mem he))
      exact ⟨r'', by simp [insertAll, hr', hr''], by rw [htext]; simp [applyFrom]⟩

theorem new_at (t : Text) : (Rewriter.new t).At t [] 0 :=
  ⟨rfl, rfl, rfl, .inr ⟨rfl, rfl⟩⟩

/-! ### the insertion map is a stable sort -/

def InsertionMap.Sorted (m : InsertionMap) : Prop := (m.map (·.1)).Pairwise (fun a b => a.cmp b = .lt)

theorem push_mem_keys (m : InsertionMap) (lc : LineColumn) (x : Text) (k : LineColumn)
    (h : k ∈ (InsertionMap.push lc x m).map (·.1)) : k = lc ∨ k ∈ m.map (·.1) := by
  induction m with
  | nil => simpa [InsertionMap.push] using h
  | cons e m ih =>
    obtain ⟨k', xs⟩ := e
    unfold InsertionMap.push at h
    split at h
    · simpa using h
    · simp only [List.map_cons, List.mem_cons] at h ⊢; exact .inr h
    · simp only [List.map_cons, List.mem_cons] at h ⊢
      rcases h with h | h
      · exact .inr (.inl h)
      · rcases ih h with h | h
        · exact .inl h
        · exact .inr (.inr h)

theorem LineColumn.cmp_trans {a b c : LineColumn} (h1 : a.cmp b = .lt) (h2 : b.cmp c = .lt) : a.cmp c = .lt := by
  rw [LineColumn.cmp_lt_iff] at *; omega

theorem push_sorted (m : InsertionMap) (lc : LineColumn) (x : Text) (h : InsertionMap.Sorted m) :
    InsertionMap.Sorted (InsertionMap.push lc x m) := by
  unfold InsertionMap.Sorted at *
  induction m with
  | nil => simp [InsertionMap.push]
  | cons e m ih =>
    obtain ⟨k, xs⟩ := e
    simp only [List.map_cons, List.pairwise_cons] at h
    unfold InsertionMap.push
    split
    · rename_i hc
      simp only [List.map_cons, List.pairwise_cons, List.mem_cons]
      refine ⟨?_, h⟩
      rintro a (rfl | ha)
      · exact hc
      · exact LineColumn.cmp_trans hc (h.1 a ha)
    · simpa using h
    · rename_i hc
      simp only [List.map_cons, List.pairwise_cons]
      refine ⟨fun a ha => ?_, ih h.2⟩
      rcases push_mem_keys m lc x a ha with rfl | ha
      · exact (LineColumn.cmp_gt_iff _ _).1 hc
      · exact h.1 a ha

/-- Pushing appends, as far as the insertions at one position are concerned. -/
theorem push_filter (m : InsertionMap) (lc : LineColumn) (x : Text) (h : InsertionMap.Sorted m) (k : LineColumn) :
    (InsertionMap.flatten (InsertionMap.push lc x m)).filter (fun e => e.1 = k) =
      (InsertionMap.flatten m).filter (fun e => e.1 = k) ++ (if lc = k then [(lc, x)] else []) := by
  unfold InsertionMap.Sorted at h
  have flat_cons : ∀ (k' : LineColumn) xs (m : InsertionMap), InsertionMap.flatten ((k', xs) :: m) =
      xs.map (fun x => (k', x)) ++ InsertionMap.flatten m := fun _ _ _ => rfl
  have flat_none : ∀ (m : InsertionMap) (k : LineColumn), (∀ a ∈ m.map (·.1), a ≠ k) →
      (InsertionMap.flatten m).filter (fun e => e.1 = k) = [] := by
    intro m k hm
    rw [List.filter_eq_nil_iff]
    intro e he
    simp only [InsertionMap.flatten, List.mem_flatMap, List.mem_map] at he
    obtain ⟨⟨k', xs⟩, h1, y, _, rfl⟩ := he
    simpa using hm k' (List.mem_map_of_mem h1)
  induction m with
  | nil => by_cases hk : lc = k <;> simp [InsertionMap.push, InsertionMap.flatten, hk]
  | cons e m ih =>
    obtain ⟨k', xs⟩ := e
    simp only [List.map_cons, List.pairwise_cons] at h
    unfold InsertionMap.push
    split
    · rename_i hc
      rw [flat_cons]
      by_cases hk : lc = k
      · subst hk
        rw [List.filter_append, flat_none ((k', xs) :: m)]
        · simp
        · intro a ha e
          subst e
          simp only [List.map_cons, List.mem_cons] at ha
          rcases ha with rfl | ha
          · simp [(LineColumn.cmp_eq_iff _ _).2 rfl] at hc
          · have := LineColumn.cmp_trans hc (h.1 _ ha)
            simp [(LineColumn.cmp_eq_iff _ _).2 rfl] at this
      · rw [List.filter_append]; simp [hk]
    · rename_i hc
      have := (LineColumn.cmp_eq_iff _ _).1 hc
      subst this
      rw [flat_cons, flat_cons, List.map_append, List.append_assoc, List.filter_append, List.filter_append,
        List.filter_append]
      by_cases hk : lc = k
      · subst hk
        rw [flat_none m lc]
        · simp
        · intro a ha e
          subst e
          have := h.1 _ ha
          simp [(LineColumn.cmp_eq_iff _ _).2 rfl] at this
      · simp [hk]
    · rw [flat_cons, flat_cons, List.filter_append, List.filter_append, ih h.2, List.append_assoc]

/-- The pushes in program order. -/
def pushes (ws : List Wrap) : List (LineColumn × Text) := ws.flatMap fun w => [(w.start, w.pre), (w.stop, w.suf)]

theorem insertionMap_spec (ws : List Wrap) :
    InsertionMap.Sorted (insertionMap ws) ∧
      ∀ k, (insertionMap ws).flatten.filter (fun e => e.1 = k) = (pushes ws).filter (fun e => e.1 = k) := by
  suffices H : ∀ (ws : List Wrap) (m : InsertionMap), InsertionMap.Sorted m →
      let m' := ws.foldl (fun m w => (m.push w.start w.pre).push w.stop w.suf) m
      InsertionMap.Sorted m' ∧ ∀ k, (InsertionMap.flatten m').filter (fun e => e.1 = k) =
        (InsertionMap.flatten m).filter (fun e => e.1 = k) ++ (pushes ws).filter (fun e => e.1 = k) by
    have := H ws [] (by simp [InsertionMap.Sorted])
    exact ⟨this.1, fun k => by rw [insertionMap, this.2 k]; simp [InsertionMap.flatten]⟩
  intro ws
  induction ws with
  | nil => intro m hm; exact ⟨hm, fun k => by simp [pushes]⟩
  | cons w ws ih =>
    intro m hm
    have h1 := push_sorted m w.start w.pre hm
    have h2 := push_sorted _ w.stop w.suf h1
    have := ih _ h2
    refine ⟨this.1, fun k => ?_⟩
    simp only [List.foldl_cons]
    rw [this.2 k, push_filter _ _ _ h1, push_filter _ _ _ hm]
    have : pushes (w :: ws) = [(w.start, w.pre), (w.stop, w.suf)] ++ pushes ws := by simp [pushes]
    rw [this, List.filter_append]
    by_cases ha : w.start = k <;> by_cases hb : w.stop = k <;> simp [ha, hb]

theorem flatten_sorted (m : InsertionMap) (h : InsertionMap.Sorted m) :
    ((InsertionMap.flatten m).map (·.1)).Pairwise (fun a b => a.cmp b = .lt ∨ a = b) := by
  unfold InsertionMap.Sorted at h
  induction m with
  | nil => simp [InsertionMap.flatten]
  | cons e m ih =>
    obtain ⟨k, xs⟩ := e
    simp only [List.map_cons, List.pairwise_cons] at h
    have : InsertionMap.flatten ((k, xs) :: m) = xs.map (fun x => (k, x)) ++ InsertionMap.flatten m := rfl
    rw [this, List.map_append, List.pairwise_append]
    refine ⟨?_, ih h.2, ?_⟩
    · rw [List.map_map]
      have : (xs.map ((fun e : LineColumn × Text => e.1) ∘ fun x => (k, x))) = List.replicate xs.length k := by
        rw [List.eq_replicate_iff]; simp
      rw [this, List.pairwise_replicate]; simp
    · intro a ha b hb
      simp only [List.map_map, List.mem_map, Function.comp] at ha
      obtain ⟨_, _, rfl⟩ := ha
      left
      refine h.1 b ?_
      simp only [InsertionMap.flatten, List.mem_map, List.mem_flatMap] at hb
      obtain ⟨e, ⟨⟨k', ys⟩, h1, y, _, rfl⟩, rfl⟩ := hb
      exact List.mem_map_of_mem h1

theorem flatten_mem (ws : List Wrap) (e) : e ∈ (insertionMap ws).flatten ↔ e ∈ pushes ws := by
  have := (insertionMap_spec ws).2 e.1
  constructor
  · intro h
    have : e ∈ (pushes ws).filter (fun x => x.1 = e.1) := by rw [← this]; simp [h]
    exact (List.mem_filter.1 this).1
  · intro h
    have : e ∈ (insertionMap ws).flatten.filter (fun x => x.1 = e.1) := by rw [this]; simp [h]
    exact (List.mem_filter.1 this).1

/-- If all insertions succeed, their positions exist and are in order. -/
theorem insertAll_some {r : Rewriter} {t done : Text} {k : Nat} (h : r.At t done k)
    (es : List (LineColumn × Text)) (r' : Rewriter) (hr : insertAll r es = some r') :
    ∃ os : List (Nat × Text), es.map (fun e => (e.1.offset? t, e.2)) = os.map (fun e => (some e.1, e.2)) ∧
      (os.map (·.1)).Pairwise (· ≤ ·) ∧ ∀ e ∈ os, k ≤ e.1 := by
  induction es generalizing r done k with
  | nil => exact ⟨[], by simp⟩
  | cons e es ih =>
    obtain ⟨lc, x⟩ := e
    simp only [insertAll, Option.bind_eq_some_iff] at hr
    obtain ⟨r1, h1, h2⟩ := hr
    have h1' := h1
    unfold Rewriter.insert Rewriter.rewrite at h1
    simp only [Option.map_eq_some_iff] at h1
    obtain ⟨_, h1, _⟩ := h1
    split at h1
    · rename_i hble
      simp only [Option.bind_eq_bind, Option.bind_eq_some_iff, h.orig] at h1
      obtain ⟨s, hs, _⟩ := h1
      have hks : k ≤ s := by
        rcases h.pos with hp | ⟨rfl, _⟩
        · exact (offset_mono hp hs).1 hble
        · omega
      obtain ⟨r2, hr2, hat⟩ := insert_at h lc x s hs hks
      rw [h1'] at hr2
      cases hr2
      obtain ⟨os, a, b, c⟩ := ih hat h2
      refine ⟨(s, x) :: os, by simp [hs, a], ?_, ?_⟩
      · simp only [List.map_cons, List.pairwise_cons]
        refine ⟨fun y hy => ?_, b⟩
        obtain ⟨e, he, rfl⟩ := List.mem_map.1 hy
        exact c e he
      · intro e he
        rcases List.mem_cons.1 he with rfl | he
        · exact hks
        · exact Nat.le_trans hks (c e he)
    · simp at h1

theorem inserted_eq_insAt (t : Text) (es : List (LineColumn × Text)) (os : List (Nat × Text))
    (h : es.map (fun e => (e.1.offset? t, e.2)) = os.map (fun e => (some e.1, e.2))) (n : Nat) (hn : n ≤ t.length) :
    inserted t es n = insAt os n := by
  induction es generalizing os with
  | nil => cases os with
    | nil => simp [inserted]
    | cons => simp at h
  | cons e es ih =>
    cases os with
    | nil => simp at h
    | cons o os =>
      simp only [List.map_cons, List.cons.injEq, Prod.mk.injEq] at h
      obtain ⟨⟨h1, h2⟩, h3⟩ := h
      have : EndsAt (t.take n) e.1 ↔ o.1 = n := by
        constructor
        · intro he
          have : e.1.offset? t = some n := (offset?_iff _ _ _).2 ⟨hn, he⟩
          rw [h1] at this; simpa using this
        · rintro rfl
          exact ((offset?_iff _ _ _).1 h1).2
      rw [insAt_cons, ← ih os h3]
      unfold inserted
      by_cases ho : o.1 = n
      · rw [List.filter_cons_of_pos (by simpa using this.2 ho)]; simp [ho, h2]
      · rw [List.filter_cons_of_neg (by simpa using fun h => ho (this.1 h))]; simp [ho]

theorem inserted_flatten (t : Text) (pre : List (LineColumn × Text)) (ws : List Wrap) (n : Nat) :
    inserted t (pre ++ (insertionMap ws).flatten) n = inserted t (pre ++ pushes ws) n := by
  unfold inserted
  rw [List.filter_append, List.filter_append]
  congr 3
  -- all positions at which `t.take n` ends are the same
  by_cases hex : ∃ k, EndsAt (t.take n) k
  · obtain ⟨k, hk⟩ := hex
    have : ∀ e : LineColumn × Text, decide (EndsAt (t.take n) e.1) = decide (e.1 = k) := by
      intro e
      apply decide_eq_decide.2
      exact ⟨fun h => h.unique hk, fun h => h ▸ hk⟩
    simp only [this]
    exact (insertionMap_spec ws).2 k
  · have : ∀ e : LineColumn × Text, decide (EndsAt (t.take n) e.1) = false := by
      intro e; simp; exact fun h => hex ⟨_, h⟩
    simp only [this]
    rw [List.filter_eq_nil_iff.2 (by simp), List.filter_eq_nil_iff.2 (by simp)]

end Necessist
