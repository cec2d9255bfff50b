import Verif.Spec.Anchor
import Verif.Lemmas.RunOwn
/-!
# C62: Anchor.toml
-/
namespace Necessist.Anchor
open Run

/-! ### The patch -/

variable {α σ : Type}

theorem editKey_ok {key : Text} {missing : Problem} {f : Item → Except Problem (α × Item)} {es es' : List (Text × Item)} {r : α}
    (h : editKey key missing f es = .ok (r, es')) :
    ∃ a i i' d, es = a ++ (key, i) :: d ∧ es' = a ++ (key, i') :: d ∧ (∀ e ∈ a, e.1 ≠ key) ∧ f i = .ok (r, i') := by
  induction es generalizing es' with
  | nil => simp [editKey] at h
  | cons x es ih =>
    obtain ⟨k, i⟩ := x
    unfold editKey at h
    split at h
    · rename_i hk
      subst hk
      split at h
      · cases h
      · rename_i a i' hf
        cases h
        exact ⟨[], i, i', es, rfl, rfl, by simp, hf⟩
    · rename_i hk
      split at h
      · cases h
      · rename_i a es'' hf
        cases h
        obtain ⟨a, i1, i2, d, h1, h2, h3, h4⟩ := ih hf
        refine ⟨(k, i) :: a, i1, i2, d, by rw [h1]; rfl, by rw [h2]; rfl, ?_, h4⟩
        intro e he
        rcases List.mem_cons.1 he with rfl | he
        · exact hk
        · exact h3 e he

theorem editKey_of {key : Text} {missing : Problem} {f : Item → Except Problem (α × Item)} {a d : List (Text × Item)} {i i' : Item}
    {r : α} (ha : ∀ e ∈ a, e.1 ≠ key) (hf : f i = .ok (r, i')) :
    editKey key missing f (a ++ (key, i) :: d) = .ok (r, a ++ (key, i') :: d) := by
  induction a with
  | nil => simp [editKey, hf]
  | cons x a ih =>
    obtain ⟨k, j⟩ := x
    have hk : k ≠ key := ha (k, j) (by simp)
    have := ih fun e he => ha e (by simp [he])
    simp [editKey, hk, this]

theorem editTestScript_iff (doc doc' : Doc) (f : Val → Except Problem (α × Val)) (r : α) :
    editTestScript doc f = .ok (r, doc') ↔ ∃ v v', OnlyTest doc doc' v v' ∧ f v = .ok (r, v') := by
  constructor
  · intro h
    obtain ⟨a, i, i', d, h1, h2, h3, h4⟩ := editKey_ok h
    cases i with
    | value v => simp [editScripts] at h4
    | tables ts => simp [editScripts] at h4
    | table es =>
      simp only [editScripts] at h4
      split at h4
      · cases h4
      · rename_i r' es' hk
        cases h4
        obtain ⟨b, j, j', c, h5, h6, h7, h8⟩ := editKey_ok hk
        cases j with
        | table _ => simp [editTest] at h8
        | tables ts => simp [editTest] at h8
        | value v =>
          simp only [editTest] at h8
          split at h8
          · cases h8
          · rename_i r'' v' hv
            cases h8
            exact ⟨v, v', ⟨a, b, c, d, by rw [h1, h5], by rw [h2, h6], h3, h7⟩, hv⟩
  · rintro ⟨v, v', ⟨a, b, c, d, rfl, rfl, ha, hb⟩, hf⟩
    refine editKey_of ha ?_
    have : editKey "test".toList .noTest (editTest f) (b ++ ("test".toList, .value v) :: c) =
        .ok (r, b ++ ("test".toList, .value v') :: c) := editKey_of hb (by simp [editTest, hf])
    simp only [editScripts, this]

theorem OnlyTest.unique {doc d1 d2 : Doc} {v v1 w w1 : Val} (h : OnlyTest doc d1 v v1) (h' : OnlyTest doc d2 w w1) : v = w := by
  have e1 := (editTestScript_iff doc d1 (fun x => .ok (x, v1)) v).2 ⟨v, v1, h, rfl⟩
  have e2 := (editTestScript_iff doc d1 (fun x => .ok (x, v1)) w).2 ⟨w, v1, ?_, rfl⟩
  · rw [e1] at e2
    cases e2
    rfl
  · obtain ⟨a, b, c, d, p1, p2, p3, p4⟩ := h
    obtain ⟨a', b', c', d', q1, q2, q3, q4⟩ := h'
    have e1 := (editTestScript_iff doc (a ++ ("scripts".toList, .table (b ++ ("test".toList, .value v1) :: c)) :: d)
      (fun x => .ok ((), v1)) ()).2 ⟨v, v1, ⟨a, b, c, d, p1, rfl, p3, p4⟩, rfl⟩
    have e2 := (editTestScript_iff doc (a' ++ ("scripts".toList, .table (b' ++ ("test".toList, .value v1) :: c')) :: d')
      (fun x => .ok ((), v1)) ()).2 ⟨w, v1, ⟨a', b', c', d', q1, rfl, q3, q4⟩, rfl⟩
    rw [e1] at e2
    refine ⟨a', b', c', d', q1, ?_, q3, q4⟩
    rw [p2]
    injection e2 with e2
    injection e2 with _ e2

theorem onlyTest_refl {doc doc' : Doc} {v : Val} (h : OnlyTest doc doc' v v) : doc' = doc := by
  obtain ⟨a, b, c, d, rfl, rfl, _, _⟩ := h
  rfl


/-! ### The script -/

variable {word : Char → Bool}

theorem afterExt_iff (t r : Text) : afterExt word t = some r ↔
    t = ".ts".toList ++ r ∧ (∀ c ∈ r.head?, word c = false) ∧ '\n' ∉ r := by
  have key : ∀ r : Text, ((!(r.head?.any word) && r.all (· != '\n')) = true ↔ (∀ c ∈ r.head?, word c = false) ∧ '\n' ∉ r) := by
    intro r
    have h2 : (r.all (· != '\n')) = true ↔ '\n' ∉ r := by
      simp only [List.all_eq_true, bne_iff_ne]
      exact ⟨fun h hm => h _ hm rfl, fun h c hc he => h (he ▸ hc)⟩
    rw [Bool.and_eq_true, h2]
    refine and_congr ?_ Iff.rfl
    cases r.head? <;> simp
  unfold afterExt
  split
  · rename_i r'
    constructor
    · intro h
      split at h
      · rename_i hc
        cases h
        exact ⟨rfl, (key r).1 hc⟩
      · cases h
    · rintro ⟨h, hr⟩
      have : r' = r := by
        have : '.' :: 't' :: 's' :: r' = '.' :: 't' :: 's' :: r := h
        simpa using this
      rw [this, if_pos ((key r).2 hr)]
  · rename_i hno
    constructor
    · intro h; cases h
    · rintro ⟨h, _⟩
      exact absurd h (hno r)

theorem fileAt_some {t r : Text} {k : Nat} (h : fileAt word t k = some r) :
    ∃ j, j ≤ k ∧ afterExt word (t.drop j) = some r ∧ ∀ i, j < i → i ≤ k → afterExt word (t.drop i) = none := by
  induction k with
  | zero => exact ⟨0, Nat.le_refl _, by simpa [fileAt] using h, fun i h1 h2 => by omega⟩
  | succ k ih =>
    unfold fileAt at h
    split at h
    · rename_i r' hr
      cases h
      exact ⟨k + 1, Nat.le_refl _, hr, fun i h1 h2 => by omega⟩
    · rename_i hn
      obtain ⟨j, hj, h1, h2⟩ := ih h
      refine ⟨j, by omega, h1, fun i hi hk => ?_⟩
      by_cases hik : i = k + 1
      · exact hik ▸ hn
      · exact h2 i hi (by omega)

theorem fileAt_none {t : Text} {k : Nat} (h : fileAt word t k = none) : ∀ j, j ≤ k → afterExt word (t.drop j) = none := by
  induction k with
  | zero => intro j hj; have : j = 0 := by omega
            subst this; simpa [fileAt] using h
  | succ k ih =>
    unfold fileAt at h
    split at h
    · cases h
    · rename_i hn
      intro j hj
      by_cases hjk : j = k + 1
      · exact hjk ▸ hn
      · exact ih h j (by omega)

theorem testAt_some {t : Text} {k : Nat} {x : Text × Text} (h : testAt word t k = some x) :
    ∃ j, j < k ∧ t[j]? = some ' ' ∧ x.1 = t.take (j + 1) ∧
      fileAt word (t.drop (j + 1)) ((t.drop (j + 1)).takeWhile (· != ' ')).length = some x.2 ∧
      ∀ i, j < i → i < k → t[i]? = some ' ' →
        fileAt word (t.drop (i + 1)) ((t.drop (i + 1)).takeWhile (· != ' ')).length = none := by
  induction k with
  | zero => simp [testAt] at h
  | succ k ih =>
    unfold testAt at h
    split at h
    · rename_i r hr
      cases h
      split at hr
      · rename_i hs
        exact ⟨k, by omega, hs, rfl, hr, fun i h1 h2 => by omega⟩
      · cases hr
    · rename_i hn
      obtain ⟨j, hj, h1, h2, h3, h4⟩ := ih h
      refine ⟨j, by omega, h1, h2, h3, fun i hi hk hs => ?_⟩
      by_cases hik : i = k
      · subst hik
        rw [if_pos hs] at hn
        exact hn
      · exact h4 i hi (by omega) hs

theorem testAt_none {t : Text} {k : Nat} (h : testAt word t k = none) : ∀ i, i < k → t[i]? = some ' ' →
    fileAt word (t.drop (i + 1)) ((t.drop (i + 1)).takeWhile (· != ' ')).length = none := by
  induction k with
  | zero => intro i hi; omega
  | succ k ih =>
    unfold testAt at h
    split at h
    · cases h
    · rename_i hn
      intro i hi hs
      by_cases hik : i = k
      · subst hik
        rw [if_pos hs] at hn
        exact hn
      · exact ih h i (by omega) hs

theorem takeWhile_ne_length_ge {c : Char} {a b : Text} (h : c ∉ a) : a.length ≤ ((a ++ b).takeWhile (· != c)).length := by
  induction a with
  | nil => simp
  | cons x a ih =>
    have hx : x ≠ c := fun e => h (by simp [e])
    have := ih fun hm => h (by simp [hm])
    simp [List.takeWhile_cons, hx, this]

theorem not_mem_take_of_le {c : Char} {t : Text} {k : Nat} (h : k ≤ (t.takeWhile (· != c)).length) : c ∉ t.take k := by
  induction t generalizing k with
  | nil => simp
  | cons x t ih =>
    cases k with
    | zero => simp
    | succ k =>
      by_cases hx : x = c
      · subst hx; simp at h
      · simp [List.takeWhile_cons, hx] at h
        simp only [List.take_succ_cons, List.mem_cons, not_or]
        exact ⟨fun e => hx e.symm, ih h⟩

/-- A script in terms of positions. -/
theorem script_iff (s pre suf : Text) : (∃ name, Script word s pre name suf) ↔
    ∃ i j, i < (s.takeWhile (· != '\n')).length ∧ s[i]? = some ' ' ∧ pre = s.take (i + 1) ∧
      j ≤ ((s.drop (i + 1)).takeWhile (· != ' ')).length ∧ afterExt word ((s.drop (i + 1)).drop j) = some suf := by
  constructor
  · rintro ⟨name, rfl, ⟨p, rfl⟩, h1, ⟨n, rfl⟩, h3, h4, h5⟩
    refine ⟨p.length, n.length, ?_, ?_, ?_, ?_, ?_⟩
    · have := takeWhile_ne_length_ge (b := n ++ ".ts".toList ++ suf) h4
      simp only [List.length_append, List.length_singleton, List.append_assoc] at this ⊢
      exact this
    · simp
    · rw [show p.length + 1 = (p ++ [' ']).length by simp, List.append_assoc, List.take_left']
      rfl
    · have : (p ++ [' '] ++ (n ++ ".ts".toList) ++ suf).drop (p.length + 1) = n ++ (".ts".toList ++ suf) := by simp
      rw [this]
      exact takeWhile_ne_length_ge fun h => h1 (by simp [h])
    · have : ((p ++ [' '] ++ (n ++ ".ts".toList) ++ suf).drop (p.length + 1)).drop n.length = ".ts".toList ++ suf := by
        simp
      rw [this]
      exact (afterExt_iff _ _).2 ⟨rfl, h3, h5⟩
  · rintro ⟨i, j, h1, h2, rfl, h3, h4⟩
    obtain ⟨h5, h6, h7⟩ := (afterExt_iff _ _).1 h4
    refine ⟨(s.drop (i + 1)).take j ++ ".ts".toList, ?_, ?_, ?_, ⟨_, rfl⟩, h6, ?_, h7⟩
    · rw [List.append_assoc, List.append_assoc, ← h5, List.take_append_drop, List.take_append_drop]
    · refine ⟨s.take i, ?_⟩
      rw [List.take_succ, h2]
      rfl
    · intro hm
      rcases List.mem_append.1 hm with hm | hm
      · exact not_mem_take_of_le h3 hm
      · simp at hm
    · exact not_mem_take_of_le (by omega)

/-- A script is recognised exactly if it has the described form, and then it is divided as far to the right as possible. -/
theorem testRe_iff (s pre suf : Text) : testRe word s = some (pre, suf) ↔
    (∃ name, Script word s pre name suf) ∧
      ∀ pre' name' suf', Script word s pre' name' suf' →
        pre'.length ≤ pre.length ∧ (pre' = pre → suf.length ≤ suf'.length) := by
  have hdir : ∀ pre suf, testRe word s = some (pre, suf) → (∃ name, Script word s pre name suf) ∧
      ∀ pre' name' suf', Script word s pre' name' suf' →
        pre'.length ≤ pre.length ∧ (pre' = pre → suf.length ≤ suf'.length) := by
    intro pre suf h
    obtain ⟨j, h1, h2, h3, h4, h5⟩ := testAt_some h
    dsimp only at h3 h4
    obtain ⟨i, h6, h7, h8⟩ := fileAt_some h4
    refine ⟨(script_iff s pre suf).2 ⟨j, i, h1, h2, h3, h6, h7⟩, fun pre' name' suf' hs => ?_⟩
    obtain ⟨j', i', g1, g2, g3, g4, g5⟩ := (script_iff s pre' suf').1 ⟨name', hs⟩
    have hl := (List.takeWhile_prefix (· != '\n') (l := s)).length_le
    have e1 : pre.length = j + 1 := by rw [h3, List.length_take]; omega
    have e2 : pre'.length = j' + 1 := by rw [g3, List.length_take]; omega
    constructor
    · rw [e1, e2]
      by_cases hj : j < j'
      · have := fileAt_none (h5 j' hj g1 g2) i' g4
        rw [this] at g5
        cases g5
      · omega
    · intro hp
      have hj : j' = j := by rw [hp, e1] at e2; omega
      subst hj
      have hi : i' ≤ i := by
        by_cases hi : i < i'
        · have := h8 i' hi g4
          rw [this] at g5
          cases g5
        · omega
      have k1 := congrArg List.length ((afterExt_iff _ _).1 h7).1
      have k2 := congrArg List.length ((afterExt_iff _ _).1 g5).1
      simp only [List.length_drop, List.length_append] at k1 k2
      omega
  refine ⟨hdir pre suf, fun ⟨hs, hmax⟩ => ?_⟩
  obtain ⟨name, hs⟩ := hs
  cases hr : testRe word s with
  | none =>
    obtain ⟨j, i, g1, g2, g3, g4, g5⟩ := (script_iff s pre suf).1 ⟨name, hs⟩
    have := fileAt_none (testAt_none hr j g1 g2) i g4
    rw [this] at g5
    cases g5
  | some x =>
    obtain ⟨pre', suf'⟩ := x
    obtain ⟨⟨name', hs'⟩, hmax'⟩ := hdir _ _ hr
    have a1 := hmax _ _ _ hs'
    have a2 := hmax' _ _ _ hs
    have hl : pre'.length = pre.length := by omega
    have hp : pre' = pre := by
      have := hs.eq.symm.trans hs'.eq
      simp only [List.append_assoc] at this
      exact (List.append_inj this hl.symm).1.symm
    have hl2 : suf'.length = suf.length := by
      have := a1.2 hp; have := a2.2 hp.symm; omega
    have hsuf : suf' = suf := by
      have := hs.eq.symm.trans hs'.eq
      exact (List.append_inj' this hl2.symm).2.symm
    rw [hp, hsuf]

theorem isPrefixOf_iff {a b : Text} : a.isPrefixOf b = true ↔ ∃ c, b = a ++ c := by
  rw [List.isPrefixOf_iff_prefix]
  exact ⟨fun ⟨c, h⟩ => ⟨c, h.symm⟩, fun ⟨c, h⟩ => ⟨c, h.symm⟩⟩

theorem any_false {o : Option Char} : (!o.any word) = true ↔ ∀ c ∈ o, word c = false := by cases o <;> simp

theorem wordHere_iff {needle : Text} (hn : needle ≠ []) (hw : ∀ c ∈ needle, c ≠ '-' → word c = true) (h1 : ∀ c ∈ needle.head?, c ≠ '-')
    (h2 : ∀ c ∈ needle.getLast?, c ≠ '-') (prev : Option Char) (t : Text) : wordHere word needle prev t = true ↔
      ∃ b, t = needle ++ b ∧ (∀ c ∈ prev, word c = false) ∧ ∀ c ∈ b.head?, word c = false := by
  have hl : needle.getLast?.any word = true := by
    rw [List.getLast?_eq_some_getLast hn]
    exact hw _ (List.getLast_mem hn) (h2 _ (by rw [List.getLast?_eq_some_getLast hn]; rfl))
  unfold wordHere
  rw [hl, Bool.true_and, Bool.and_eq_true, Bool.and_eq_true, Bool.and_eq_true, any_false, any_false, isPrefixOf_iff]
  constructor
  · rintro ⟨⟨⟨g1, _⟩, b, rfl⟩, g3⟩
    exact ⟨b, rfl, g1, by simpa using g3⟩
  · rintro ⟨b, rfl, g1, g2⟩
    refine ⟨⟨⟨g1, ?_⟩, b, rfl⟩, by simpa using g2⟩
    cases needle with
    | nil => exact absurd rfl hn
    | cons x n => exact hw x (by simp) (h1 x (by simp))

theorem hasWord_iff_aux {needle : Text} (hn : needle ≠ []) (hw : ∀ c ∈ needle, c ≠ '-' → word c = true)
    (h1 : ∀ c ∈ needle.head?, c ≠ '-') (h2 : ∀ c ∈ needle.getLast?, c ≠ '-') (t : Text) (p : Text) :
    hasWord word needle p.getLast? t = true ↔
      ∃ a b, t = a ++ needle ++ b ∧ (∀ c ∈ (p ++ a).getLast?, word c = false) ∧ ∀ c ∈ b.head?, word c = false := by
  induction t generalizing p with
  | nil =>
    rw [hasWord, wordHere_iff hn hw h1 h2]
    constructor
    · rintro ⟨b, h, _⟩
      exact absurd h (by simp [hn])
    · rintro ⟨a, b, h, _⟩
      exact absurd h (by simp [hn])
  | cons x t ih =>
    rw [hasWord, Bool.or_eq_true, wordHere_iff hn hw h1 h2, show some x = (p ++ [x]).getLast? by simp, ih]
    constructor
    · rintro (⟨b, h, g1, g2⟩ | ⟨a, b, rfl, g1, g2⟩)
      · exact ⟨[], b, by simpa using h, by simpa using g1, g2⟩
      · exact ⟨x :: a, b, rfl, by simpa using g1, g2⟩
    · rintro ⟨a, b, h, g1, g2⟩
      cases a with
      | nil => exact .inl ⟨b, by simpa using h, by simpa using g1, g2⟩
      | cons y a =>
        have h : x :: t = y :: (a ++ needle ++ b) := h
        obtain ⟨rfl, rfl⟩ := List.cons.inj h
        exact .inr ⟨a, b, rfl, by simpa using g1, g2⟩

theorem hasWord_iff {needle : Text} (hn : needle ≠ []) (hw : ∀ c ∈ needle, c ≠ '-' → word c = true)
    (h1 : ∀ c ∈ needle.head?, c ≠ '-') (h2 : ∀ c ∈ needle.getLast?, c ≠ '-') (t : Text) :
    hasWord word needle none t = true ↔ WholeWord word needle t := by
  have := hasWord_iff_aux hn hw h1 h2 t []
  simpa [WholeWord] using this

/-- The letters are word characters and `-` is not. -/
def Letters (word : Char → Bool) : Prop := (∀ c ∈ "mochatsvitest".toList, word c = true) ∧ word '-' = false

theorem Letters.mocha (hw : Letters word) (t : Text) : hasWord word "mocha".toList none t = true ↔ WholeWord word "mocha".toList t := by
  refine hasWord_iff (by decide) (fun c hc _ => hw.1 c ?_) (by decide) (by decide) t
  revert c; decide

theorem Letters.tsMocha (hw : Letters word) (t : Text) :
    hasWord word "ts-mocha".toList none t = true → WholeWord word "mocha".toList t := by
  intro h
  have := (hasWord_iff (word := word) (needle := "ts-mocha".toList) (by decide) (fun c hc hd => hw.1 c ?_) (by decide) (by decide) t).1 h
  · obtain ⟨a, b, rfl, _, h2⟩ := this
    refine ⟨a ++ "ts-".toList, b, by simp, ?_, h2⟩
    intro c hc
    have : (a ++ "ts-".toList).getLast? = some '-' := by simp
    rw [this] at hc
    cases hc
    exact hw.2
  · revert c; decide

theorem Letters.vitest (hw : Letters word) (t : Text) :
    hasWord word "vitest".toList none t = true ↔ WholeWord word "vitest".toList t := by
  refine hasWord_iff (by decide) (fun c hc _ => hw.1 c ?_) (by decide) (by decide) t
  revert c; decide

theorem parseTestValue_ok {v v' : Val} {r : Runner × Text × Text} (h : parseTestValue word v = .ok (r, v')) :
    v' = v ∧ ∃ s b e, v = .str s b e ∧ testRe word s = some (r.2.1, r.2.2) := by
  unfold parseTestValue at h
  split at h
  · cases h
  · rename_i s b e
    split at h
    · cases h
    · rename_i pre suf hs
      split at h
      · cases h
        exact ⟨rfl, s, b, e, rfl, hs⟩
      · split at h
        · cases h
          exact ⟨rfl, s, b, e, rfl, hs⟩
        · cases h

/-- Anchor.toml is accepted exactly if its table `scripts` has a string `test` that consists of a part mentioning `mocha` or `vitest`, the
name of a TypeScript file, and the rest; which of the two is used, and what these parts are. -/
theorem C62_accepted (hw : Letters word) (doc : Doc) (a : Anchor) : create word doc = .ok a ↔
    a.document = doc ∧ ∃ s b e name, OnlyTest doc doc (.str s b e) (.str s b e) ∧ Script word s a.pre name a.suf ∧
      (∀ pre' name' suf', Script word s pre' name' suf' →
        pre'.length ≤ a.pre.length ∧ (pre' = a.pre → a.suf.length ≤ suf'.length)) ∧
      (a.runner = .mocha ∧ WholeWord word "mocha".toList a.pre ∨
        a.runner = .vitest ∧ ¬ WholeWord word "mocha".toList a.pre ∧ WholeWord word "vitest".toList a.pre) := by
  have hm : ∀ t, (hasWord word "mocha".toList none t || hasWord word "ts-mocha".toList none t) = true ↔
      WholeWord word "mocha".toList t := by
    intro t
    rw [Bool.or_eq_true]
    exact ⟨fun h => h.elim (hw.mocha t).1 (hw.tsMocha t), fun h => .inl ((hw.mocha t).2 h)⟩
  unfold create
  constructor
  · intro h
    split at h
    · cases h
    · rename_i runner pre suf doc' he
      cases h
      obtain ⟨v, v', ho, hv⟩ := (editTestScript_iff _ _ _ _).1 he
      obtain ⟨rfl, s, b, e, rfl, hs⟩ := parseTestValue_ok hv
      have := onlyTest_refl ho
      subst this
      obtain ⟨⟨name, h1⟩, h2⟩ := (testRe_iff _ _ _).1 hs
      refine ⟨rfl, s, b, e, name, ho, h1, h2, ?_⟩
      unfold parseTestValue at hv
      simp only [hs] at hv
      split at hv
      · rename_i hm'
        cases hv
        exact .inl ⟨rfl, (hm _).1 hm'⟩
      · rename_i hm'
        split at hv
        · rename_i hv'
          cases hv
          exact .inr ⟨rfl, fun h => hm' ((hm _).2 h), (hw.vitest _).1 hv'⟩
        · cases hv
  · rintro ⟨rfl, s, b, e, name, ho, h1, h2, h3⟩
    have hs := (testRe_iff _ _ _).2 ⟨⟨name, h1⟩, h2⟩
    have hv : parseTestValue word (.str s b e) = .ok ((a.runner, a.pre, a.suf), .str s b e) := by
      unfold parseTestValue
      simp only [hs]
      rcases h3 with ⟨hr, hm'⟩ | ⟨hr, hm', hv⟩
      · rw [if_pos ((hm _).2 hm'), hr]
      · rw [if_neg fun h => hm' ((hm _).1 h), if_pos ((hw.vitest _).2 hv), hr]
    have := (editTestScript_iff a.document a.document (parseTestValue word) (a.runner, a.pre, a.suf)).2 ⟨_, _, ho, hv⟩
    rw [this]

theorem args_extra (runner : Runner) (check : Bool) : Extra runner check (args runner check) := by
  cases runner <;> cases check
  · exact .mocha
  · exact .check
  · exact .vitest _
  · exact .vitest _

/-- For an accepted Anchor.toml, the patch exists and changes only the script: it is the old one with another file and with arguments
added. -/
theorem C62_patch (doc : Doc) (a : Anchor) (h : create word doc = .ok a) (file : Text) (check : Bool) :
    ∃ doc' s b e name x, patched a file check = .ok doc' ∧ Extra a.runner check x ∧
      OnlyTest doc doc' (.str s b e) (.str (a.pre ++ file ++ a.suf ++ x) [] []) ∧
      s = a.pre ++ name ++ a.suf ∧ Script word s a.pre name a.suf := by
  unfold create at h
  split at h
  · cases h
  · rename_i runner pre suf doc' he
    cases h
    obtain ⟨v, v', ho, hv⟩ := (editTestScript_iff _ _ _ _).1 he
    obtain ⟨rfl, s, b, e, rfl, hs⟩ := parseTestValue_ok hv
    have := onlyTest_refl ho
    subst this
    obtain ⟨⟨name, h1⟩, h2⟩ := (testRe_iff _ _ _).1 hs
    obtain ⟨a', b', c', d', p1, p2, p3, p4⟩ := ho
    have hp : OnlyTest doc' (a' ++ ("scripts".toList, .table (b' ++ ("test".toList,
        .value (.str (pre ++ file ++ suf ++ args runner check) [] [])) :: c')) :: d') (.str s b e)
        (.str (pre ++ file ++ suf ++ args runner check) [] []) := ⟨a', b', c', d', p1, rfl, p3, p4⟩
    refine ⟨_, s, b, e, name, _, ?_, args_extra _ _, hp, h1.eq, h1⟩
    have := (editTestScript_iff doc' _ (fun _ => .ok ((), .str (pre ++ file ++ suf ++ args runner check) [] [])) ()).2
      ⟨_, _, hp, rfl⟩
    unfold patched script
    rw [this]
    rfl

/-- Which text of Vitest's output is taken as JSON: what follows the fifth line break. -/
theorem C62_json (stdout json : Text) : jsonExtractor stdout = some json ↔
    ∃ l1 l2 l3 l4 l5 : Text, (∀ l ∈ [l1, l2, l3, l4, l5], '\n' ∉ l) ∧
      stdout = l1 ++ '\n' :: (l2 ++ '\n' :: (l3 ++ '\n' :: (l4 ++ '\n' :: (l5 ++ '\n' :: json)))) := by
  have step : ∀ n t, skipLines (n + 1) t = some json ↔ ∃ (l r : Text), '\n' ∉ l ∧ t = l ++ '\n' :: r ∧ skipLines n r = some json := by
    intro n t
    rw [skipLines]
    constructor
    · intro h
      split at h
      · cases h
      · rename_i c r hd
        have hc : c = '\n' := by
          have := List.head?_dropWhile_not (· != '\n') t
          rw [hd] at this
          simpa using this
        subst hc
        refine ⟨t.takeWhile (· != '\n'), r, ?_, ?_, h⟩
        · intro hm
          have := List.all_takeWhile (p := (· != '\n')) (l := t)
          have := List.all_eq_true.1 this _ hm
          simp at this
        · have := List.takeWhile_append_dropWhile (p := (· != '\n')) (l := t)
          rw [hd] at this
          exact this.symm
    · rintro ⟨l, r, hl, rfl, h⟩
      have : (l ++ '\n' :: r).dropWhile (· != '\n') = '\n' :: r := by
        rw [List.dropWhile_append_of_pos]
        · simp
        · intro c hc
          simp only [bne_iff_ne]
          exact fun e => hl (e ▸ hc)
      rw [this]
      exact h
  unfold jsonExtractor
  constructor
  · intro h
    obtain ⟨l1, _, h1, rfl, h'⟩ := (step 4 _).1 h
    clear h; have h := h'; clear h'
    obtain ⟨l2, _, h2, rfl, h'⟩ := (step 3 _).1 h
    clear h; have h := h'; clear h'
    obtain ⟨l3, _, h3, rfl, h'⟩ := (step 2 _).1 h
    clear h; have h := h'; clear h'
    obtain ⟨l4, _, h4, rfl, h'⟩ := (step 1 _).1 h
    clear h; have h := h'; clear h'
    obtain ⟨l5, r, h5, rfl, h'⟩ := (step 0 _).1 h
    clear h; have h := h'; clear h'
    have : r = json := by simpa [skipLines] using h
    subst this
    refine ⟨l1, l2, l3, l4, l5, ?_, rfl⟩
    intro l hl
    simp only [List.mem_cons, List.not_mem_nil, or_false] at hl
    rcases hl with rfl | rfl | rfl | rfl | rfl <;> assumption
  · rintro ⟨l1, l2, l3, l4, l5, hl, rfl⟩
    exact (step 4 _).2 ⟨l1, _, hl _ (by simp), rfl, (step 3 _).2 ⟨l2, _, hl _ (by simp), rfl, (step 2 _).2 ⟨l3, _, hl _ (by simp), rfl,
      (step 1 _).2 ⟨l4, _, hl _ (by simp), rfl, (step 0 _).2 ⟨l5, _, hl _ (by simp), rfl, rfl⟩⟩⟩⟩⟩

end Necessist.Anchor
