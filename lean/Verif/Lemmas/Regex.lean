import Verif.Spec.Config
/-! The matcher agrees with the meaning of regular expressions; what patterns compile to. -/
namespace Necessist

theorem Re.nullable_iff (r : Re) : r.nullable = true ↔ r.Lang [] := by
  constructor
  · induction r with
    | empty => simp [nullable]
    | eps => exact fun _ => .eps
    | one p => simp [nullable]
    | cat a b iha ihb =>
      intro h; simp only [nullable, Bool.and_eq_true] at h
      simpa using Lang.cat (iha h.1) (ihb h.2)
    | alt a b iha ihb =>
      intro h; simp only [nullable, Bool.or_eq_true] at h
      exact h.elim (fun h => .altL (iha h)) fun h => .altR (ihb h)
    | star a => exact fun _ => .starNil
  · intro h
    generalize ht : ([] : Text) = t at h
    induction h with
    | eps => rfl
    | one => simp at ht
    | cat h1 h2 ih1 ih2 =>
      have := List.append_eq_nil_iff.1 ht.symm
      simp [nullable, ih1 this.1.symm, ih2 this.2.symm]
    | altL h ih => simp [nullable, ih ht]
    | altR h ih => simp [nullable, ih ht]
    | starNil => rfl
    | starCons => rfl

theorem Re.deriv_sound (c : Char) (r : Re) (t : Text) (h : (r.deriv c).Lang t) : r.Lang (c :: t) := by
  induction r generalizing t with
  | empty => cases h
  | eps => cases h
  | one p =>
    simp only [deriv] at h
    split at h
    · rename_i hp; cases h; exact .one hp
    · cases h
  | cat a b iha ihb =>
    simp only [deriv] at h
    split at h
    · rename_i hn
      cases h with
      | altL h => cases h with | cat h1 h2 => exact Lang.cat (iha _ h1) h2
      | altR h => exact Lang.cat ((nullable_iff a).1 hn) (ihb _ h)
    · cases h with | cat h1 h2 => exact Lang.cat (iha _ h1) h2
  | alt a b iha ihb =>
    cases h with
    | altL h => exact .altL (iha _ h)
    | altR h => exact .altR (ihb _ h)
  | star a iha => cases h with | cat h1 h2 => exact Lang.starCons (iha _ h1) h2

theorem Re.deriv_complete (c : Char) (r : Re) (t : Text) (h : r.Lang (c :: t)) : (r.deriv c).Lang t := by
  generalize hs : c :: t = s at h
  induction h generalizing t with
  | eps => simp at hs
  | one h =>
    simp only [List.cons.injEq] at hs
    obtain ⟨rfl, rfl⟩ := hs
    simp only [deriv, h, if_true]; exact .eps
  | @cat a b s1 s2 h1 h2 ih1 ih2 =>
    simp only [deriv]
    cases s1 with
    | nil =>
      rw [if_pos ((nullable_iff a).2 h1)]
      exact .altR (ih2 t (by simpa using hs))
    | cons x xs =>
      simp only [List.cons_append, List.cons.injEq] at hs
      obtain ⟨rfl, rfl⟩ := hs
      have := Lang.cat (ih1 xs rfl) h2
      split
      · exact .altL this
      · exact this
  | altL h ih => exact .altL (ih t hs)
  | altR h ih => exact .altR (ih t hs)
  | starNil => simp at hs
  | @starCons a s1 s2 h1 h2 ih1 ih2 =>
    cases s1 with
    | nil => exact ih2 t (by simpa using hs)
    | cons x xs =>
      simp only [List.cons_append, List.cons.injEq] at hs
      obtain ⟨rfl, rfl⟩ := hs
      exact Lang.cat (ih1 xs rfl) h2

/-- The matcher decides the language. -/
theorem Re.isMatch_iff (r : Re) (t : Text) : r.isMatch t = true ↔ r.Lang t := by
  induction t generalizing r with
  | nil => exact nullable_iff r
  | cons c t ih =>
    unfold isMatch
    rw [ih]
    exact ⟨deriv_sound c r t, deriv_complete c r t⟩

theorem Re.Lang.cat_iff {a b : Re} {t : Text} : (Re.cat a b).Lang t ↔ ∃ s u, t = s ++ u ∧ a.Lang s ∧ b.Lang u := by
  constructor
  · intro h; cases h with | cat h1 h2 => exact ⟨_, _, rfl, h1, h2⟩
  · rintro ⟨s, u, rfl, h1, h2⟩; exact .cat h1 h2

theorem Re.Lang.one_iff {p : Char → Bool} {t : Text} : (Re.one p).Lang t ↔ ∃ c, t = [c] ∧ p c = true := by
  constructor
  · intro h; cases h with | one h => exact ⟨_, rfl, h⟩
  · rintro ⟨c, rfl, h⟩; exact .one h

theorem Re.Lang.star_one_iff {p : Char → Bool} {t : Text} : (Re.star (.one p)).Lang t ↔ ∀ c ∈ t, p c = true := by
  constructor
  · intro h
    generalize hr : Re.star (.one p) = r at h
    induction h with
    | starNil => simp
    | starCons h1 h2 ih1 ih2 =>
      cases hr
      obtain ⟨c, rfl, hc⟩ := one_iff.1 h1
      intro x hx
      rcases List.mem_cons.1 hx with rfl | hx
      · exact hc
      · exact ih2 rfl x hx
    | _ => cases hr
  · intro h
    induction t with
    | nil => exact .starNil
    | cons c t ih => exact Lang.starCons (s := [c]) (.one (h c (by simp))) (ih fun x hx => h x (by simp [hx]))

theorem Re.Lang.eps_iff {t : Text} : Re.eps.Lang t ↔ t = [] := by
  constructor
  · intro h; cases h; rfl
  · rintro rfl; exact .eps

/-- The method prefix. -/
theorem methodPrefix_iff (t : Text) :
    methodPrefix.Lang t ↔ ∃ comps : List Text, (∀ x ∈ comps, x ≠ [] ∧ '.' ∉ x) ∧ t = comps.flatMap (· ++ ['.']) := by
  constructor
  · intro h
    generalize hr : methodPrefix = r at h
    induction h with
    | starNil => exact ⟨[], by simp, rfl⟩
    | @starCons a s u h1 h2 ih1 ih2 =>
      unfold methodPrefix at hr
      cases hr
      obtain ⟨comps, hc, rfl⟩ := ih2 rfl
      obtain ⟨x, y, rfl, hx, hy⟩ := Re.Lang.cat_iff.1 h1
      obtain ⟨x1, x2, rfl, hx1, hx2⟩ := Re.Lang.cat_iff.1 hx
      obtain ⟨c, rfl, hc1⟩ := Re.Lang.one_iff.1 hx1
      have hx2' := Re.Lang.star_one_iff.1 hx2
      obtain ⟨d, rfl, hd⟩ := Re.Lang.one_iff.1 hy
      have hd : d = '.' := by simpa using hd
      subst hd
      refine ⟨([c] ++ x2) :: comps, ?_, by simp⟩
      intro z hz
      rcases List.mem_cons.1 hz with rfl | hz
      · refine ⟨by simp, ?_⟩
        intro hm
        simp only [List.singleton_append, List.mem_cons] at hm
        rcases hm with hm | hm
        · subst hm; simp at hc1
        · have := hx2' _ hm; simp at this
      · exact hc z hz
    | _ => unfold methodPrefix at hr; cases hr
  · rintro ⟨comps, hc, rfl⟩
    induction comps with
    | nil => exact .starNil
    | cons x comps ih =>
      have hx := hc x (by simp)
      rw [List.flatMap_cons]
      refine Re.Lang.starCons ?_ (ih fun y hy => hc y (by simp [hy]))
      refine Re.Lang.cat ?_ (.one (by simp))
      obtain ⟨c, cs, rfl⟩ := List.exists_cons_of_ne_nil hx.1
      refine Re.Lang.cat (s := [c]) (.one ?_) (Re.Lang.star_one_iff.2 ?_)
      · simp only [bne_iff_ne, ne_eq]; rintro rfl; exact hx.2 (by simp)
      · intro d hd
        simp only [bne_iff_ne, ne_eq]; rintro rfl; exact hx.2 (by simp [hd])

/-! ### Compiling patterns -/

/-- What a pattern compiles to. -/
def patternRe : Text → Re
  | [] => .eps
  | c :: cs => if c = '*' then .cat (.star .dot) (patternRe cs) else .cat (.lit c) (patternRe cs)

theorem patternRe_lang (p name : Text) : (patternRe p).Lang name ↔ Instance p name := by
  induction p generalizing name with
  | nil =>
    rw [patternRe, Re.Lang.eps_iff]
    constructor
    · rintro rfl; exact .done
    · intro h; cases h; rfl
  | cons c p ih =>
    unfold patternRe
    split
    · rename_i hc
      subst hc
      rw [Re.Lang.cat_iff]
      constructor
      · rintro ⟨s, u, rfl, h1, h2⟩
        refine .star s ?_ ((ih u).1 h2)
        intro hn
        have := Re.Lang.star_one_iff.1 h1 _ hn
        simp at this
      · intro h
        cases h with
        | star fill h1 h2 =>
          refine ⟨_, _, rfl, Re.Lang.star_one_iff.2 ?_, (ih _).2 h2⟩
          intro c hc
          simp only [bne_iff_ne, ne_eq]; rintro rfl; exact h1 hc
        | same _ h1 h2 => exact absurd rfl h1
    · rename_i hc
      rw [Re.Lang.cat_iff]
      constructor
      · rintro ⟨s, u, rfl, h1, h2⟩
        obtain ⟨d, rfl, hd⟩ := Re.Lang.one_iff.1 h1
        have : d = c := by simpa using hd
        subst this
        exact .same d hc ((ih u).1 h2)
      · intro h
        cases h with
        | star fill h1 h2 => exact absurd rfl hc
        | same _ h1 h2 => exact ⟨[c], _, rfl, .one (by simp), (ih _).2 h2⟩

theorem alnum_not_meta {alnum : Char → Bool} (ha : AlnumOk alnum) {c : Char} (h : alnum c = true ∨ c = '_') :
    isMeta c = false := by
  rcases h with h | rfl
  · cases hm : isMeta c with
    | false => rfl
    | true =>
      exfalso
      have hm : c ∈ "\\.+*?()|[]{}^$".toList := List.contains_iff_mem.1 hm
      have key : ∀ d ∈ "\\.+*?()|[]{}^$".toList, d.toNat < 128 ∧ d.isAlphanum = false := by decide
      have := key c hm
      rw [ha c this.1, this.2] at h
      cases h
  · decide

theorem alnum_ne {alnum : Char → Bool} (ha : AlnumOk alnum) {c d : Char} (h : alnum c = true ∨ c = '_')
    (hd : isMeta d = true) : c ≠ d := by
  rintro rfl
  rw [alnum_not_meta ha h] at hd; cases hd

theorem escapeChar_cases (alnum : Char → Bool) (c : Char) :
    ((alnum c = true ∨ c = '_') ∧ escapeChar alnum c = .ok [c]) ∨ (c = '.' ∧ escapeChar alnum c = .ok ['\\', '.']) ∨
      (c = '*' ∧ escapeChar alnum c = .ok ['.', '*']) ∨
      (¬ PatternChar alnum c ∧ escapeChar alnum c = .error (.badChar c)) := by
  unfold escapeChar
  by_cases h1 : (alnum c || c == '_') = true
  · exact Or.inl ⟨by simpa using h1, by simp [h1]⟩
  · by_cases h2 : c = '.'
    · exact Or.inr (Or.inl ⟨h2, by simp [h1, h2] at *; simp [h1]⟩)
    · by_cases h3 : c = '*'
      · exact Or.inr (Or.inr (Or.inl ⟨h3, by simp [h3] at *; simp [h1]⟩))
      · refine Or.inr (Or.inr (Or.inr ⟨?_, by simp [h1, h2, h3]⟩))
        rintro (h | h | h | h)
        · simp [h] at h1
        · simp [h] at h1
        · exact h2 h
        · exact h3 h

theorem escapeChar_ok (alnum : Char → Bool) (c : Char) : (∃ e, escapeChar alnum c = .ok e) ↔ PatternChar alnum c := by
  rcases escapeChar_cases alnum c with ⟨h, e⟩ | ⟨h, e⟩ | ⟨h, e⟩ | ⟨h, e⟩
  · exact ⟨fun _ => h.elim Or.inl fun h => Or.inr (Or.inl h), fun _ => ⟨_, e⟩⟩
  · exact ⟨fun _ => Or.inr (Or.inr (Or.inl h)), fun _ => ⟨_, e⟩⟩
  · exact ⟨fun _ => Or.inr (Or.inr (Or.inr h)), fun _ => ⟨_, e⟩⟩
  · refine ⟨fun ⟨x, hx⟩ => ?_, fun h' => absurd h' h⟩
    rw [e] at hx; cases hx

theorem escape_ok_iff (alnum : Char → Bool) (p : Text) : (∃ e, escape alnum p = .ok e) ↔ ValidPattern alnum p := by
  induction p with
  | nil => exact ⟨fun _ c hc => by simp at hc, fun _ => ⟨[], rfl⟩⟩
  | cons c p ih =>
    have hv : ValidPattern alnum (c :: p) ↔ PatternChar alnum c ∧ ValidPattern alnum p := by
      simp [ValidPattern]
    rw [hv, ← ih, ← escapeChar_ok]
    rw [escape]
    cases escapeChar alnum c with
    | error e => simp
    | ok s =>
      cases escape alnum p with
      | error e => simp
      | ok t => simp

theorem escape_error {alnum : Char → Bool} {p : Text} {e : ConfigError} (h : escape alnum p = .error e) :
    ∃ c ∈ p, e = .badChar c ∧ ¬ PatternChar alnum c := by
  induction p with
  | nil => cases h
  | cons c p ih =>
    rw [escape] at h
    cases hc : escapeChar alnum c with
    | error e' =>
      rw [hc] at h
      cases h
      rcases escapeChar_cases alnum c with ⟨_, e⟩ | ⟨_, e⟩ | ⟨_, e⟩ | ⟨hn, e⟩ <;> rw [e] at hc <;> cases hc
      exact ⟨c, by simp, rfl, hn⟩
    | ok s =>
      rw [hc] at h
      cases hp : escape alnum p with
      | ok t => rw [hp] at h; cases h
      | error e' =>
        rw [hp] at h
        cases h
        obtain ⟨d, hd, h2⟩ := ih hp
        exact ⟨d, by simp [hd], h2⟩

/-- No escaped pattern begins with a star. -/
theorem escape_head {alnum : Char → Bool} (ha : AlnumOk alnum) {p e : Text} (h : escape alnum p = .ok e) :
    e.head? ≠ some '*' := by
  cases p with
  | nil => cases h; simp
  | cons c p =>
    rw [escape] at h
    split at h
    · cases h
    · rename_i s hs
      split at h
      · cases h
      · cases h
        rcases escapeChar_cases alnum c with ⟨h1, e⟩ | ⟨_, e⟩ | ⟨_, e⟩ | ⟨hn, e⟩ <;> rw [e] at hs <;> cases hs
        · have := alnum_ne ha h1 (show isMeta '*' = true by decide)
          simpa using this
        · simp
        · simp

theorem parseRe_escape {alnum : Char → Bool} (ha : AlnumOk alnum) {p e : Text} (h : escape alnum p = .ok e) :
    parseRe e = some (patternRe p) := by
  induction p generalizing e with
  | nil => cases h; simp [parseRe, patternRe]
  | cons c p ih =>
    rw [escape] at h
    split at h
    · cases h
    · rename_i s hs
      split at h
      · cases h
      · rename_i t ht
        cases h
        have hh := escape_head ha ht
        have ih := ih ht
        rcases escapeChar_cases alnum c with ⟨h1, e⟩ | ⟨h2, e⟩ | ⟨h3, e⟩ | ⟨hn, e⟩ <;> rw [e] at hs <;> cases hs
        · have e1 : c ≠ '\\' := alnum_ne ha h1 (by decide)
          have e2 : c ≠ '.' := alnum_ne ha h1 (by decide)
          have e3 : c ≠ '*' := alnum_ne ha h1 (by decide)
          have ea : parseAtom (c :: t) = some (.lit c, t) := by
            have hm := alnum_not_meta ha h1
            unfold parseAtom
            split <;> simp_all
          rw [List.singleton_append, parseRe]
          split
          · rename_i h; rw [ea] at h; cases h
          · rename_i a rest h
            rw [ea] at h
            simp only [Option.some.injEq, Prod.mk.injEq] at h
            obtain ⟨rfl, rfl⟩ := h
            simp [hh, ih, patternRe, e3]
        · subst h2
          have ea : parseAtom ('\\' :: '.' :: t) = some (.lit '.', t) := by
            simp [parseAtom, isMeta]
          simp only [List.cons_append, List.nil_append]
          rw [parseRe]
          split
          · rename_i h; rw [ea] at h; cases h
          · rename_i a rest h
            rw [ea] at h
            simp only [Option.some.injEq, Prod.mk.injEq] at h
            obtain ⟨rfl, rfl⟩ := h
            simp [hh, ih, patternRe]
        · subst h3
          have ea : parseAtom ('.' :: '*' :: t) = some (.dot, '*' :: t) := by
            simp [parseAtom]
          simp only [List.cons_append, List.nil_append]
          rw [parseRe]
          split
          · rename_i h; rw [ea] at h; cases h
          · rename_i a rest h
            rw [ea] at h
            simp only [Option.some.injEq, Prod.mk.injEq] at h
            obtain ⟨rfl, rfl⟩ := h
            simp [ih, patternRe]

/-- What compiling a pattern gives. -/
theorem compilePattern_spec {alnum : Char → Bool} (ha : AlnumOk alnum) (p : Text) (methods : Bool) :
    (ValidPattern alnum p → compilePattern alnum p methods =
      .ok (if methods then .cat methodPrefix (patternRe p) else patternRe p)) ∧
    (¬ ValidPattern alnum p → ∃ c ∈ p, compilePattern alnum p methods = .error (.badChar c) ∧ ¬ PatternChar alnum c) := by
  constructor
  · intro hv
    obtain ⟨e, he⟩ := (escape_ok_iff alnum p).2 hv
    simp [compilePattern, he, parseRe_escape ha he]
  · intro hv
    cases he : escape alnum p with
    | ok e => exact absurd ((escape_ok_iff alnum p).1 ⟨e, he⟩) hv
    | error e =>
      obtain ⟨c, hc, rfl, hn⟩ := escape_error he
      exact ⟨c, hc, by simp [compilePattern, he], hn⟩

end Necessist
