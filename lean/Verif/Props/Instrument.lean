import Verif.Lemmas.Instrument
/-!
# C05: instrumentation only inserts, and wraps each statement exactly
-/
namespace Necessist

/-- The insertions requested by a list of statements: for each, its prefix at its start and its suffix at its
end, in the order of the list. -/
def requested (ws : List Wrap) : List (LineColumn × Text) :=
  ws.flatMap fun w => [(w.start, w.pre), (w.stop, w.suf)]

/-- **C05.** Whatever the file, the backend's own insertions `pre` and the statements (in any order, overlapping
or not), if instrumentation produces a file then that file is the original with insertions only: at each place,
what was requested for that place, in the order requested. -/
theorem C05_only_insertions (t : Text) (pre : List (LineColumn × Text)) (ws : List Wrap) (out : Text)
    (h : instrumentText t pre ws = some out) :
    out = weave (inserted t (pre ++ requested ws)) 0 t := by
  simp only [instrumentText, Option.map_eq_some_iff] at h
  obtain ⟨r', hr, rfl⟩ := h
  obtain ⟨os, h1, h2, h3⟩ := insertAll_some (new_at t) _ _ hr
  obtain ⟨r'', hr'', ht⟩ := insertAll_at (new_at t) _ os h1 h2 h3
  rw [hr] at hr''; cases hr''
  rw [ht, List.nil_append]
  have hl : ∀ e ∈ os, e.1 ≤ t.length := by
    intro e he
    have : (some e.1, e.2) ∈ os.map (fun e => (some e.1, e.2)) := List.mem_map_of_mem he
    rw [← h1] at this
    obtain ⟨e', _, he'⟩ := List.mem_map.1 this
    exact offset_le (Prod.mk.inj he').1
  rw [applyFrom_weave t 0 os h2 h3 hl (Nat.zero_le _), List.drop_zero]
  refine weave_congr _ _ fun n _ hn => ?_
  rw [← inserted_eq_insAt t _ os h1 n (by omega), inserted_flatten]
  rfl

/-- **C05.** Instrumentation never fails (panics) when every position is in the file and the backend's own
insertions come first and in order. -/
theorem C05_succeeds (t : Text) (pre : List (LineColumn × Text)) (ws : List Wrap)
    (hpos : ∀ e ∈ pre ++ requested ws, ∃ n ≤ t.length, EndsAt (t.take n) e.1)
    (hpre : (pre.map (·.1)).Pairwise fun a b => a.ble b = true)
    (hfirst : ∀ a ∈ pre, ∀ b ∈ requested ws, a.1.ble b.1 = true) :
    ∃ out, instrumentText t pre ws = some out := by
  have hoff : ∀ e ∈ pre ++ (insertionMap ws).flatten, ∃ n, e.1.offset? t = some n := by
    intro e he
    have : e ∈ pre ++ requested ws := by
      rw [List.mem_append] at he ⊢
      exact he.imp id fun h => (flatten_mem ws e).1 h
    obtain ⟨n, hn, h⟩ := hpos e this
    exact ⟨n, (offset?_iff _ _ _).2 ⟨hn, h⟩⟩
  have hord : ((pre ++ (insertionMap ws).flatten).map (·.1)).Pairwise fun a b => a.ble b = true := by
    rw [List.map_append, List.pairwise_append]
    refine ⟨hpre, (flatten_sorted _ (insertionMap_spec ws).1).imp fun h => (LineColumn.ble_iff _ _).2 h, ?_⟩
    intro a ha b hb
    obtain ⟨a', ha', rfl⟩ := List.mem_map.1 ha
    obtain ⟨b', hb', rfl⟩ := List.mem_map.1 hb
    exact hfirst a' ha' b' ((flatten_mem ws b').1 hb')
  have hgoal : ∀ r', insertAll (.new t) (pre ++ (insertionMap ws).flatten) = some r' →
      ∃ out, instrumentText t pre ws = some out := fun r' h => ⟨r'.rewritten, by simp [instrumentText, h]⟩
  generalize pre ++ (insertionMap ws).flatten = es at *
  have : ∃ os : List (Nat × Text), es.map (fun e => (e.1.offset? t, e.2)) = os.map (fun e => (some e.1, e.2)) ∧
      (os.map (·.1)).Pairwise (· ≤ ·) := by
    clear hpos hpre hfirst hgoal
    induction es with
    | nil => exact ⟨[], by simp⟩
    | cons e es ih =>
      simp only [List.map_cons, List.pairwise_cons] at hord
      obtain ⟨os, h1, h2⟩ := ih (fun e he => hoff e (by simp [he])) hord.2
      obtain ⟨n, hn⟩ := hoff e (by simp)
      refine ⟨(n, e.2) :: os, by simp [hn, h1], ?_⟩
      simp only [List.map_cons, List.pairwise_cons]
      refine ⟨fun m hm => ?_, h2⟩
      obtain ⟨o, ho, rfl⟩ := List.mem_map.1 hm
      have : (some o.1, o.2) ∈ os.map (fun e => (some e.1, e.2)) := List.mem_map_of_mem ho
      rw [← h1] at this
      obtain ⟨e', he', heq⟩ := List.mem_map.1 this
      exact (offset_mono hn (Prod.mk.inj heq).1).1 (hord.1 _ (List.mem_map_of_mem he'))
  obtain ⟨os, h1, h2⟩ := this
  obtain ⟨r', hr, _⟩ := insertAll_at (new_at t) es os h1 h2 (fun _ _ => Nat.zero_le _)
  exact hgoal r' hr

/-! ## wrapping -/

/-- The model's input for a list of marked statements. -/
def Wrap.ofMark : Mark → Wrap := fun (a, b, p, s) => ⟨a, b, p, s⟩

private theorem posAfter_endsAt (t : Text) : EndsAt t (posAfter t) := ⟨rfl, rfl⟩

/-- Insertion requests by offset. -/
private def reqs (k : Nat) : List Doc → List (Nat × Text)
  | [] => []
  | .lit _ :: ds => reqs (k + 1) ds
  | .stmt p s body :: ds =>
    (k, p) :: (k + (docsText body).length, s) :: reqs k body ++ reqs (k + (docsText body).length) ds

private theorem reqs_range (ds : List Doc) (k : Nat) :
    ∀ e ∈ reqs k ds, k ≤ e.1 ∧ e.1 ≤ k + (docsText ds).length := by
  match ds with
  | [] => simp [reqs]
  | .lit c :: ds =>
    intro e he
    have := reqs_range ds (k + 1) e (by simpa [reqs] using he)
    simp [docsText, Doc.text]; omega
  | .stmt p s body :: ds =>
    intro e he
    simp only [reqs, List.cons_append, List.mem_cons, List.mem_append] at he
    simp only [docsText, Doc.text, List.length_append]
    rcases he with rfl | rfl | he | he
    · simp
    · simp
    · have := reqs_range body k e he; omega
    · have := reqs_range ds _ e he; omega

private theorem insAt_out (es : List (Nat × Text)) (n : Nat) (h : ∀ e ∈ es, e.1 ≠ n) : insAt es n = [] := by
  have : es.filter (·.1 = n) = [] := by rw [List.filter_eq_nil_iff]; intro e he; simpa using h e he
  simp [insAt, this]

/-- nothing is requested at the start of a body that begins with a plain character -/
private theorem reqs_head (ds : List Doc) (k : Nat) (h : isLit ds.head? = true) : ∀ e ∈ reqs k ds, e.1 ≠ k := by
  match ds, h with
  | .lit c :: ds, _ =>
    intro e he
    have := reqs_range ds (k + 1) e (by simpa [reqs] using he)
    omega

private theorem reqs_append (a b : List Doc) (k : Nat) :
    reqs k (a ++ b) = reqs k a ++ reqs (k + (docsText a).length) b := by
  match a with
  | [] => simp [reqs, docsText]
  | .lit c :: a =>
    simp only [List.cons_append, reqs, docsText, Doc.text]
    rw [reqs_append a b (k + 1)]
    congr 2
    simp; omega
  | .stmt p s body :: a =>
    simp only [List.cons_append, reqs, docsText, Doc.text, List.length_append]
    rw [reqs_append a b]
    simp [Nat.add_assoc]

private theorem docsText_append (a b : List Doc) : docsText (a ++ b) = docsText a ++ docsText b := by
  induction a with
  | nil => rfl
  | cons d a ih => simp [docsText, ih]

/-- nothing is requested at the end of a body that ends with a plain character -/
private theorem reqs_last (ds : List Doc) (k : Nat) (h : isLit ds.getLast? = true) :
    ∀ e ∈ reqs k ds, e.1 ≠ k + (docsText ds).length := by
  rcases List.eq_nil_or_concat ds with rfl | ⟨a, d, rfl⟩
  · simp [isLit] at h
  · simp only [List.concat_eq_append, List.getLast?_append, List.getLast?_singleton, Option.some_or] at h
    match d, h with
    | .lit c, _ =>
      intro e he
      rw [List.concat_eq_append, reqs_append] at he
      simp only [reqs, List.append_nil] at he
      have := reqs_range a k e he
      simp [docsText_append, docsText, Doc.text]; omega

private theorem weave_reqs (ds : List Doc) (k : Nat) (hs : docsStrict ds) :
    weave (insAt (reqs k ds)) k (docsText ds) = docsWrapped ds := by
  match ds, hs with
  | [], _ => simp [reqs, docsText, docsWrapped, weave]
  | .lit c :: ds, hs =>
    simp only [docsStrict] at hs
    simp only [reqs, docsText, docsWrapped, Doc.text, Doc.wrapped]
    have ih := weave_reqs ds (k + 1) hs.2
    simp only [List.cons_append, List.nil_append, weave]
    rw [ih, insAt_out]
    · rfl
    · intro e he; have := reqs_range ds _ e he; omega
  | .stmt p s body :: ds, hs =>
    simp only [docsStrict, Doc.Strict] at hs
    obtain ⟨⟨h1, h2, h3⟩, h4⟩ := hs
    have ihb := weave_reqs body k h3
    have ihd := weave_reqs ds (k + (docsText body).length) h4
    simp only [docsText, docsWrapped, Doc.text, Doc.wrapped]
    have hfun : insAt (reqs k (.stmt p s body :: ds)) =
        fun n => insAt ((k, p) :: (k + (docsText body).length, s) :: reqs k body) n ++
          insAt (reqs (k + (docsText body).length) ds) n := by
      funext n; rw [← insAt_append]; simp only [reqs]
    rw [hfun, weave_append, ihd]
    · congr 1
      -- the statement itself
      rw [← ihb]
      have hb := reqs_head body k h1
      have he := reqs_last body k h2
      have hne : docsText body ≠ [] := by
        match body, h1 with
        | .lit c :: b, _ => simp [docsText, Doc.text]
      generalize docsText body = T at *
      generalize reqs k body = E at *
      match T, hne with
      | c :: cs, _ =>
        simp only [weave, List.length_cons] at *
        rw [insAt_cons, insAt_cons, insAt_out E k hb]
        simp only [if_true, List.append_nil, List.nil_append, List.append_assoc, List.cons_append]
        rw [if_neg (by omega)]
        congr 2
        have hk : k + (cs.length + 1) = (k + 1) + cs.length := by omega
        rw [hk] at he ⊢
        suffices H : ∀ (cs : Text) (j m : Nat), k < j → m = j + cs.length → (∀ e ∈ E, e.1 ≠ m) →
            weave (insAt ((k, p) :: (m, s) :: E)) j cs = weave (insAt E) j cs ++ s from
          (congrArg (c :: ·) (H cs (k + 1) _ (by omega) rfl he))
        intro cs
        induction cs with
        | nil =>
          intro j m hj hm he
          simp only [List.length_nil, Nat.add_zero] at hm
          cases hm
          simp only [weave]
          rw [insAt_cons, insAt_cons, insAt_out E _ he]
          simp only [List.append_nil]
          rw [if_neg (by omega)]; simp
        | cons d ds ih =>
          intro j m hj hm he
          simp only [weave]
          rw [ih (j + 1) m (by omega) (by simp at hm; omega) he, insAt_cons, insAt_cons]
          rw [if_neg (by omega), if_neg (by simp at hm; simp; omega)]
          simp
    · intro n hn
      apply insAt_out
      intro e he
      simp only [List.mem_cons] at he
      rcases he with rfl | rfl | he
      · simp; omega
      · simp; omega
      · have := reqs_range body k e he; omega
    · intro n hn
      apply insAt_out
      intro e he
      have := reqs_range ds _ e he; omega

private theorem marks_reqs (ds : List Doc) (before after : Text) :
    (requested ((docsMarks before ds).map .ofMark)).map
        (fun e => (e.1.offset? (before ++ docsText ds ++ after), e.2)) =
      (reqs before.length ds).map (fun e => (some e.1, e.2)) := by
  have off : ∀ (a b : Text), (posAfter a).offset? (a ++ b) = some a.length := by
    intro a b
    rw [offset?_iff]
    refine ⟨by simp, ?_⟩
    rw [List.take_left]; exact posAfter_endsAt a
  match ds with
  | [] => simp [docsMarks, requested, reqs]
  | .lit c :: ds =>
    have ih := marks_reqs ds (before ++ [c]) after
    simp only [docsMarks, Doc.marks, List.nil_append, Doc.text, reqs, docsText]
    simpa using ih
  | .stmt p s body :: ds =>
    have ih1 := marks_reqs body before (docsText ds ++ after)
    have ih2 := marks_reqs ds (before ++ docsText body) after
    simp only [docsMarks, Doc.marks, Doc.text, reqs, docsText]
    simp only [List.cons_append, List.map_cons, List.map_append, requested, List.flatMap_cons, List.flatMap_append,
      List.nil_append, Wrap.ofMark] at *
    have e1 : before ++ (docsText body ++ docsText ds) ++ after =
        before ++ docsText body ++ (docsText ds ++ after) := by simp
    have e2 : before ++ (docsText body ++ docsText ds) ++ after =
        before ++ docsText body ++ docsText ds ++ after := by simp
    have o1 := off before (docsText body ++ docsText ds ++ after)
    have o2 := off (before ++ docsText body) (docsText ds ++ after)
    refine List.cons_eq_cons.2 ⟨?_, List.cons_eq_cons.2 ⟨?_, ?_⟩⟩
    · rw [← o1]; simp
    · simp only [List.length_append] at o2; rw [← o2]; simp
    · congr 1
      · rw [e1]; exact ih1
      · rw [e2, ih2]; simp

/-- **C05.** For a file in which statements are marked so that nested ones are strictly inside (siblings may be
adjacent), instrumenting those statements, given with their true positions, yields exactly the file in which each
statement's text is immediately preceded by its own prefix and immediately followed by its own suffix: prefixes
and suffixes nest properly. -/
theorem C05_wraps_each_statement (ds : List Doc) (hs : docsStrict ds) :
    instrumentText (docsText ds) [] ((docsMarks [] ds).map .ofMark) = some (docsWrapped ds) := by
  have hm := marks_reqs ds [] []
  simp only [List.nil_append, List.append_nil, List.length_nil] at hm
  have hpos : ∀ e ∈ requested ((docsMarks [] ds).map .ofMark), ∃ n, e.1.offset? (docsText ds) = some n := by
    intro e he
    have : (e.1.offset? (docsText ds), e.2) ∈ (reqs 0 ds).map (fun e => (some e.1, e.2)) := by
      rw [← hm]; exact List.mem_map_of_mem he
    obtain ⟨o, _, ho⟩ := List.mem_map.1 this
    exact ⟨o.1, (Prod.mk.inj ho).1.symm⟩
  obtain ⟨out, hout⟩ := C05_succeeds (docsText ds) [] ((docsMarks [] ds).map .ofMark)
    (by intro e he
        obtain ⟨n, hn⟩ := hpos e (by simpa using he)
        exact ⟨n, (offset?_iff _ _ _).1 hn⟩)
    (by simp) (by simp)
  rw [hout, C05_only_insertions _ _ _ _ hout, ← weave_reqs ds 0 hs]
  congr 1
  refine weave_congr _ _ fun n _ hn => ?_
  rw [List.nil_append]
  exact inserted_eq_insAt _ _ _ hm n (by omega)

/-- **C05**, with a backend preamble (Go's import): the preamble goes where the backend asked, before the
statements, and the statements are wrapped as before. -/
theorem C05_wraps_with_preamble (before x : Text) (ds : List Doc) (hs : docsStrict ds) :
    instrumentText (before ++ docsText ds) [(posAfter before, x)] ((docsMarks before ds).map .ofMark) =
      some (before ++ x ++ docsWrapped ds) := by
  have hm := marks_reqs ds before []
  simp only [List.append_nil] at hm
  have ho : (posAfter before).offset? (before ++ docsText ds) = some before.length := by
    rw [offset?_iff]
    refine ⟨by simp, ?_⟩
    rw [List.take_left]; exact posAfter_endsAt before
  have hpos : ∀ e ∈ requested ((docsMarks before ds).map .ofMark),
      ∃ n, e.1.offset? (before ++ docsText ds) = some n ∧ before.length ≤ n := by
    intro e he
    have : (e.1.offset? (before ++ docsText ds), e.2) ∈
        (reqs before.length ds).map (fun e => (some e.1, e.2)) := by
      rw [← hm]; exact List.mem_map_of_mem he
    obtain ⟨o, ho, ho'⟩ := List.mem_map.1 this
    exact ⟨o.1, (Prod.mk.inj ho').1.symm, (reqs_range ds _ o ho).1⟩
  obtain ⟨out, hout⟩ := C05_succeeds (before ++ docsText ds) [(posAfter before, x)]
    ((docsMarks before ds).map .ofMark)
    (by intro e he
        rcases List.mem_append.1 he with he | he
        · simp at he; subst he; exact ⟨_, (offset?_iff _ _ _).1 ho⟩
        · obtain ⟨n, hn, _⟩ := hpos e he
          exact ⟨n, (offset?_iff _ _ _).1 hn⟩)
    (by simp)
    (by intro a ha b hb
        simp at ha; subst ha
        obtain ⟨n, hn, hle⟩ := hpos b hb
        exact (offset_mono ho hn).2 hle)
  rw [hout, C05_only_insertions _ _ _ _ hout]
  congr 1
  have h1 : (([(posAfter before, x)] ++ requested ((docsMarks before ds).map .ofMark)).map
      (fun e => (e.1.offset? (before ++ docsText ds), e.2))) =
      ((before.length, x) :: reqs before.length ds).map (fun e => (some e.1, e.2)) := by
    simp [ho, hm]
  rw [weave_congr (g := insAt ((before.length, x) :: reqs before.length ds)) _ _ (fun n _ hn =>
    inserted_eq_insAt _ _ _ h1 n (by omega))]
  have hfun : insAt ((before.length, x) :: reqs before.length ds) =
      fun n => insAt [(before.length, x)] n ++ insAt (reqs before.length ds) n := by
    funext n; rw [← insAt_append]; rfl
  rw [hfun, weave_append]
  · simp only [Nat.zero_add]
    rw [weave_reqs ds before.length hs]
    congr 1
    have := applyFrom_weave before 0 [(before.length, x)] (by simp) (by simp) (by simp) (by simp)
    rw [List.drop_zero] at this
    rw [← this]; simp [applyFrom]
  · intro n hn; apply insAt_out; simp; omega
  · intro n hn; apply insAt_out; intro e he; have := reqs_range ds _ e he; omega

private theorem pos_lt (t x : Text) (hx : x ≠ []) : (posAfter t).cmp (posAfter (t ++ x)) = .lt := by
  have pos_eq : ∀ t : Text, posAfter t = endPos ⟨1, 0⟩ t := fun t => ((endsAt_iff _ _).1 (posAfter_endsAt t)).symm
  rw [pos_eq, pos_eq, endPos_append]; exact endPos_lt _ _ hx

private theorem marks_order (ds : List Doc) (before : Text) (hs : docsStrict ds) :
    ((docsMarks before ds).map (·.1)).Pairwise (fun a b => a.cmp b = .lt) ∧
      ∀ m ∈ docsMarks before ds, ∃ a b c, docsText ds = a ++ b ++ c ∧ b ≠ [] ∧ m.1 = posAfter (before ++ a) ∧
        (isLit ds.head? = true → a ≠ []) := by
  match ds, hs with
  | [], _ => simp [docsMarks]
  | .lit c :: ds, hs =>
    simp only [docsStrict] at hs
    have ih := marks_order ds (before ++ [c]) hs.2
    simp only [docsMarks, Doc.marks, List.nil_append, Doc.text, docsText]
    refine ⟨ih.1, fun m hm => ?_⟩
    obtain ⟨a, b, d, h1, h2, h3, _⟩ := ih.2 m hm
    exact ⟨c :: a, b, d, by simp [h1], h2, by simp [h3], by simp⟩
  | .stmt p s body :: ds, hs =>
    simp only [docsStrict, Doc.Strict] at hs
    obtain ⟨⟨h1, h2, h3⟩, h4⟩ := hs
    have ihb := marks_order body before h3
    have ihd := marks_order ds (before ++ docsText body) h4
    have hne : docsText body ≠ [] := by
      match body, h1 with
      | .lit c :: b, _ => simp [docsText, Doc.text]
    simp only [docsMarks, Doc.marks, Doc.text, docsText, List.cons_append, List.map_cons, List.map_append,
      List.pairwise_cons, List.pairwise_append, List.mem_append, List.mem_cons]
    refine ⟨⟨?_, ihb.1, ihd.1, ?_⟩, ?_⟩
    · rintro x (hx | hx)
      · obtain ⟨m, hm, rfl⟩ := List.mem_map.1 hx
        obtain ⟨a, b, d, _, _, e3, e4⟩ := ihb.2 m hm
        rw [e3]; exact pos_lt _ _ (e4 h1)
      · obtain ⟨m, hm, rfl⟩ := List.mem_map.1 hx
        obtain ⟨a, b, d, _, _, e3, _⟩ := ihd.2 m hm
        rw [e3, List.append_assoc]; exact pos_lt _ _ (by simp [hne])
    · intro x hx y hy
      obtain ⟨m, hm, rfl⟩ := List.mem_map.1 hx
      obtain ⟨m', hm', rfl⟩ := List.mem_map.1 hy
      obtain ⟨a, b, d, e1, e2, e3, _⟩ := ihb.2 m hm
      obtain ⟨a', b', d', _, _, e3', _⟩ := ihd.2 m' hm'
      rw [e3, e3', e1]
      have : before ++ (a ++ b ++ d) ++ a' = (before ++ a) ++ (b ++ (d ++ a')) := by simp
      rw [this]; exact pos_lt _ _ (by simp [e2])
    · rintro m (rfl | hm | hm)
      · exact ⟨[], docsText body, docsText ds, by simp, hne, by simp, by simp [isLit]⟩
      · obtain ⟨a, b, d, e1, e2, e3, _⟩ := ihb.2 m hm
        exact ⟨a, b, d ++ docsText ds, by simp [e1], e2, e3, by simp [isLit]⟩
      · obtain ⟨a, b, d, e1, e2, e3, _⟩ := ihd.2 m hm
        exact ⟨docsText body ++ a, b, d, by simp [e1], e2, by simp [e3], by simp [isLit]⟩

/-- **C05.** The order in which `docsMarks` lists the statements is the order in which the code meets them, i.e.
increasing start (the candidates are kept sorted by span). -/
theorem C05_marks_in_span_order (ds : List Doc) (hs : docsStrict ds) (before : Text) :
    ((docsMarks before ds).map (·.1)).Pairwise fun a b => a.cmp b = .lt := (marks_order ds before hs).1

/-- Two statements, one nested in the other, and an adjacent third. -/
def exampleDocs : List Doc :=
  [.lit 'x', .stmt "<1".toList "1>".toList [.lit 'a', .stmt "<2".toList "2>".toList [.lit 'b', .lit '\n'], .lit ';'],
   .stmt "<3".toList "3>".toList [.lit 'c']]

example : docsStrict exampleDocs ∧ docsWrapped exampleDocs = "x<1a<2b\n2>;1><3c3>".toList ∧
    docsText exampleDocs = "xab\n;c".toList := by
  refine ⟨?_, by decide, by decide⟩
  simp [exampleDocs, docsStrict, Doc.Strict, isLit]
example : instrumentText "xab\n;c".toList [] ((docsMarks [] exampleDocs).map .ofMark) =
    some "x<1a<2b\n2>;1><3c3>".toList := by decide
/-- The strictness hypothesis is needed: when a nested statement ends where the outer one does, the suffixes come
out in the wrong order (the two statements are pushed in order of start). -/
theorem C05_shared_end_not_nested :
    instrumentText "ab".toList [] [⟨⟨1, 0⟩, ⟨1, 2⟩, "<1".toList, "1>".toList⟩, ⟨⟨1, 1⟩, ⟨1, 2⟩, "<2".toList, "2>".toList⟩]
      = some "<1a<2b1>2>".toList := by decide

end Necessist
