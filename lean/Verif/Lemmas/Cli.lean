import Verif.Spec.Cli
/-! # Reading the command line -/
namespace Necessist.Cli
open Framework (Identifier)

/-! ### Pieces and entries -/

/-- What is kept of a piece. -/
def Item.entry? : Item → Option Entry
  | .flag n => (Flag.all.find? fun f => f.long == n).map .flag
  | .option n v _ => (Valued.all.find? fun v => v.long == n).bind (·.read v)
  | .file p => (readPath p).map .file

/-- No argument that may not be repeated is repeated. -/
def Distinct (es : List Entry) : Prop := ∀ as e bs, es = as ++ e :: bs → e.repeats = true ∨ as.any (Entry.same e) = false

theorem flag_find (f : Flag) : (Flag.all.find? fun g => g.long == f.long) = some f := by cases f <;> decide +kernel
theorem valued_find (v : Valued) : (Valued.all.find? fun g => g.long == v.long) = some v := by cases v <;> decide +kernel
theorem valued_no_flag (v : Valued) : (Flag.all.find? fun g => g.long == v.long) = none := by cases v <;> decide +kernel

theorem flag_found {n : Text} {f : Flag} (h : (Flag.all.find? fun g => g.long == n) = some f) : n = f.long := by
  have := List.find?_some h
  exact (by simpa using this : f.long = n).symm

theorem valued_found {n : Text} {v : Valued} (h : (Valued.all.find? fun g => g.long == n) = some v) : n = v.long := by
  have := List.find?_some h
  exact (by simpa using this : v.long = n).symm

theorem flag_plain (f : Flag) : f.long ≠ [] ∧ ∀ c ∈ f.long, c ≠ '=' := by cases f <;> decide +kernel
theorem valued_plain (v : Valued) : v.long ≠ [] ∧ ∀ c ∈ v.long, c ≠ '=' := by cases v <;> decide +kernel

theorem takeWhile_all {p : α → Bool} : ∀ {l : List α}, (∀ x ∈ l, p x = true) → ∀ r, (l ++ r).takeWhile p = l ++ r.takeWhile p := by
  intro l
  induction l with
  | nil => intro _ r; rfl
  | cons x l ih =>
    intro h r
    simp only [List.cons_append, List.takeWhile_cons, h x (by simp), if_true]
    rw [ih (fun y hy => h y (by simp [hy])) r]

theorem dropWhile_all {p : α → Bool} : ∀ {l : List α}, (∀ x ∈ l, p x = true) → ∀ r, (l ++ r).dropWhile p = r.dropWhile p := by
  intro l
  induction l with
  | nil => intro _ r; rfl
  | cons x l ih =>
    intro h r
    simp only [List.cons_append, List.dropWhile_cons, h x (by simp), if_true]
    exact ih (fun y hy => h y (by simp [hy])) r

theorem shape_long {n : Text} (h0 : n ≠ []) (h : ∀ c ∈ n, c ≠ '=') : shape ("--".toList ++ n) = .long n none := by
  cases n with
  | nil => exact absurd rfl h0
  | cons c n =>
    show Shape.long ((c :: n).takeWhile (· != '=')) (match (c :: n).dropWhile (· != '=') with
      | [] => none
      | _ :: v => some v) = _
    have hp : ∀ x ∈ (c :: n), (x != '=') = true := by simpa using h
    have h1 := takeWhile_all hp []
    have h2 := dropWhile_all hp []
    simp only [List.append_nil, List.takeWhile_nil, List.dropWhile_nil] at h1 h2
    rw [h1, h2]

theorem shape_joined {n : Text} (h : ∀ c ∈ n, c ≠ '=') (v : Text) : shape ("--".toList ++ n ++ "=".toList ++ v) = .long n (some v) := by
  have e : "--".toList ++ n ++ "=".toList ++ v = '-' :: '-' :: (n ++ '=' :: v) := by
    show '-' :: '-' :: _ = _
    simp
  rw [e]
  have hp : ∀ x ∈ n, (x != '=') = true := by simpa using h
  have hne : n ++ '=' :: v ≠ [] := by simp
  cases hx : n ++ '=' :: v with
  | nil => exact absurd hx hne
  | cons c r =>
    show Shape.long _ _ = _
    rw [← hx, takeWhile_all hp, dropWhile_all hp]
    simp

theorem shape_plain_iff (t : Text) : shape t = .plain ↔ ¬ Dashed t := by
  unfold Dashed
  match t with
  | [] => simp [shape]
  | [c] =>
    constructor
    · rintro - ⟨d, r, h⟩
      cases h
    · intro _
      unfold shape
      split <;> simp_all
  | c :: d :: r =>
    by_cases hc : c = '-'
    · subst hc
      refine ⟨fun h => ?_, fun h => absurd ⟨d, r, rfl⟩ h⟩
      exfalso
      revert h
      by_cases hd : d = '-'
      · subst hd
        cases r <;> simp [shape]
      · unfold shape
        split <;> simp_all
    · refine ⟨fun _ => ?_, fun _ => ?_⟩
      · rintro ⟨d', r', h⟩
        cases h
        exact hc rfl
      · unfold shape
        split <;> simp_all

/-- What `shape` says when it is a long option. -/
theorem shape_of_long {a name : Text} {value : Option Text} (h : shape a = .long name value) :
    (value = none ∧ a = "--".toList ++ name) ∨ ∃ v, value = some v ∧ a = "--".toList ++ name ++ "=".toList ++ v := by
  unfold shape at h
  split at h
  · cases h
  · rename_i r _
    cases h
    have hs := List.takeWhile_append_dropWhile (p := (· != '=')) (l := r)
    cases hd : r.dropWhile (· != '=') with
    | nil =>
      left
      rw [hd, List.append_nil] at hs
      exact ⟨rfl, by show '-' :: '-' :: r = '-' :: '-' :: (r.takeWhile (· != '=')); rw [hs]⟩
    | cons c v =>
      right
      refine ⟨v, rfl, ?_⟩
      have hc : c = '=' := by
        have := List.head?_dropWhile_not (p := (· != '=')) r
        rw [hd] at this
        simpa using this
      subst hc
      rw [hd] at hs
      have : "--".toList ++ r.takeWhile (· != '=') ++ "=".toList ++ v = '-' :: '-' :: (r.takeWhile (· != '=') ++ '=' :: v) := by
        show '-' :: '-' :: _ = _
        simp
      rw [this, hs]
  · cases h
  · cases h

theorem shape_of_escape {a : Text} (h : shape a = .escape) : a = "--".toList := by
  unfold shape at h
  split at h
  · rfl
  all_goals cases h

theorem shape_of_short {a : Text} {c : Char} (h : shape a = .short c) : ∃ r, a = '-' :: c :: r ∧ c ≠ '-' := by
  unfold shape at h
  split at h
  · cases h
  · cases h
  · rename_i c' r hn hn'
    cases h
    refine ⟨r, rfl, ?_⟩
    rintro rfl
    first | exact hn' r rfl | exact hn' rfl
  · cases h

theorem shape_short {c : Char} (h : c ≠ '-') (r : Text) : shape ('-' :: c :: r) = .short c := by
  unfold shape
  split
  · rename_i e; cases e; exact absurd rfl h
  · rename_i e; cases e; exact absurd rfl h
  · rename_i e; cases e; rfl
  · rename_i hn
    exact absurd rfl (hn c r)

/-- Nothing that looks like an option is where it would be taken for one. -/
def Item.Tidy : Item → Prop
  | .flag _ => True
  | .option _ v joined => joined = false → ¬ Dashed v
  | .file p => ¬ Dashed p

/-- Go on after an entry. -/
def andThen (es : Option (List Entry)) (as : List Text) : Parsed :=
  match es with
  | some es => parse es as
  | none => .usage

theorem parse_item {i : Item} {e : Entry} (h : i.entry? = some e) (ht : i.Tidy) (es : List Entry) (as : List Text) :
    parse es (i.words ++ as) = andThen (record es e) as := by
  cases i with
  | flag n =>
    obtain ⟨f, hf, rfl⟩ := Option.map_eq_some_iff.1 h
    obtain rfl := flag_found hf
    show parse es (("--".toList ++ f.long) :: as) = _
    rw [parse.eq_def]
    simp only [shape_long (flag_plain f).1 (flag_plain f).2, flag_find]
    rfl
  | option n v joined =>
    obtain ⟨o, ho, hr⟩ := Option.bind_eq_some_iff.1 h
    obtain rfl := valued_found ho
    cases joined with
    | true =>
      show parse es (("--".toList ++ o.long ++ "=".toList ++ v) :: as) = _
      rw [parse.eq_def]
      simp only [shape_joined (valued_plain o).2, valued_no_flag, valued_find, hr]
      rfl
    | false =>
      show parse es (("--".toList ++ o.long) :: v :: as) = _
      rw [parse.eq_def]
      simp only [shape_long (valued_plain o).1 (valued_plain o).2, valued_no_flag, valued_find, (shape_plain_iff v).2 (ht rfl), hr]
      rfl
  | file p =>
    obtain ⟨q, hq, rfl⟩ := Option.map_eq_some_iff.1 h
    show parse es (p :: as) = _
    rw [parse.eq_def]
    simp only [(shape_plain_iff p).2 ht, hq]
    have : q = p := by
      unfold readPath at hq
      split at hq
      · cases hq
      · exact (Option.some.inj hq).symm
    subst this
    rfl

theorem Distinct.left {es fs : List Entry} (h : Distinct (es ++ fs)) : Distinct es :=
  fun as e bs he => h as e (bs ++ fs) (by rw [he]; simp)

theorem record_eq {es : List Entry} {e : Entry} : record es e = some (es ++ [e]) ∨ record es e = none := by
  unfold record
  split
  · exact .inr rfl
  · exact .inl rfl

theorem record_some {es : List Entry} {e : Entry} (h : Distinct es) : record es e = some (es ++ [e]) ↔ Distinct (es ++ [e]) := by
  unfold record
  constructor
  · intro hr as e' bs he
    split at hr
    · cases hr
    · rename_i hn
      rcases List.eq_nil_or_concat bs with rfl | ⟨bs, b, rfl⟩
      · obtain ⟨h1, h2⟩ := List.append_inj' he rfl
        cases h2
        subst h1
        cases hx : e.repeats with
        | true => exact .inl rfl
        | false =>
          right
          cases hy : es.any (Entry.same e) with
          | false => rfl
          | true => simp [hx, hy] at hn
      · rw [List.concat_eq_append, ← List.cons_append, ← List.append_assoc] at he
        exact h as e' bs (List.append_inj' he rfl).1
  · intro hd
    rcases hd es e [] rfl with h1 | h1
    · simp [h1]
    · simp [h1]

theorem parse_items {items : List Item} : ∀ {new es : List Entry}, items.map Item.entry? = new.map some → (∀ i ∈ items, i.Tidy) →
    Distinct (es ++ new) → ∀ as, parse es (items.flatMap Item.words ++ as) = parse (es ++ new) as := by
  induction items with
  | nil =>
    intro new es hn _ _ as
    cases new with
    | nil => simp
    | cons _ _ => cases hn
  | cons i items ih =>
    intro new es hn ht hd as
    cases new with
    | nil => cases hn
    | cons e new =>
      obtain ⟨h1, h2⟩ := List.cons.inj hn
      have hd' : Distinct ((es ++ [e]) ++ new) := by simpa using hd
      rw [List.flatMap_cons, List.append_assoc, parse_item h1 (ht i (by simp)),
        (record_some (Distinct.left hd)).2 (Distinct.left hd')]
      show parse (es ++ [e]) _ = _
      rw [ih h2 (fun j hj => ht j (by simp [hj])) hd']
      simp

/-- A word that asks for help or the version. -/
def HelpWord (w : Text) : Prop := w = "--help".toList ∨ w = "--version".toList ∨ "-h".toList <+: w ∨ "-V".toList <+: w

theorem parse_help {w : Text} (h : HelpWord w) (es : List Entry) (as : List Text) :
    parse es (w :: as) = .help ∨ parse es (w :: as) = .version := by
  have hs : ∀ (c : Char) (r : Text), c ≠ '-' → parse es (('-' :: c :: r) :: as) = if c = 'h' then .help else if c = 'V' then .version else .usage := by
    intro c r hc
    rw [parse.eq_def]
    simp only [shape_short hc]
  rcases h with rfl | rfl | ⟨r, rfl⟩ | ⟨r, rfl⟩
  · left
    rw [parse.eq_def]
    simp only [shape_long (n := "help".toList) (by decide +kernel) (by decide +kernel),
      show ("--help".toList : Text) = "--".toList ++ "help".toList from by decide +kernel,
      show (Flag.all.find? fun f => f.long == "help".toList) = none from by decide +kernel,
      show (Valued.all.find? fun f => f.long == "help".toList) = none from by decide +kernel, if_true]
  · right
    rw [parse.eq_def]
    simp only [shape_long (n := "version".toList) (by decide +kernel) (by decide +kernel),
      show ("--version".toList : Text) = "--".toList ++ "version".toList from by decide +kernel,
      show (Flag.all.find? fun f => f.long == "version".toList) = none from by decide +kernel,
      show (Valued.all.find? fun f => f.long == "version".toList) = none from by decide +kernel, if_true,
      show ("version".toList = "help".toList) = False from eq_false (by decide +kernel), if_false]
  · left
    exact (hs 'h' r (by decide)).trans (by simp)
  · right
    exact (hs 'V' r (by decide)).trans (by simp)

/-- What the result says of the words. -/
def Explains (es : List Entry) (argv : List Text) : Parsed → Prop
  | .ok es' args => ∃ (items : List Item) (new : List Entry) (rest : List Text), argv = items.flatMap Item.words ++ rest ∧ (rest = [] ∧ args = [] ∨ rest = "--".toList :: args) ∧
      items.map Item.entry? = new.map some ∧ (∀ i ∈ items, i.Tidy) ∧ es' = es ++ new ∧ Distinct (es ++ new)
  | .help | .version => ∃ (items : List Item) (new : List Entry) (w : Text) (rest : List Text), argv = items.flatMap Item.words ++ w :: rest ∧
      items.map Item.entry? = new.map some ∧ (∀ i ∈ items, i.Tidy) ∧ Distinct (es ++ new) ∧ HelpWord w
  | .usage => True

theorem Explains.step {i : Item} {e : Entry} {es : List Entry} (h : i.entry? = some e) (ht : i.Tidy) {as : List Text} {r : Parsed}
    (hr : Explains (es ++ [e]) as r) : Explains es (i.words ++ as) r := by
  cases r with
  | ok es' args =>
    obtain ⟨items, new, rest, h1, h2, h3, h4, h5, h6⟩ := hr
    exact ⟨i :: items, e :: new, rest, by rw [h1]; simp, h2, by simp [h, h3], by simpa [ht] using h4, by rw [h5]; simp, by simpa using h6⟩
  | help =>
    obtain ⟨items, new, w, rest, h1, h3, h4, h6, h7⟩ := hr
    exact ⟨i :: items, e :: new, w, rest, by rw [h1]; simp, by simp [h, h3], by simpa [ht] using h4, by simpa using h6, h7⟩
  | version =>
    obtain ⟨items, new, w, rest, h1, h3, h4, h6, h7⟩ := hr
    exact ⟨i :: items, e :: new, w, rest, by rw [h1]; simp, by simp [h, h3], by simpa [ht] using h4, by simpa using h6, h7⟩
  | usage => exact True.intro

theorem explains_andThen {i : Item} {e : Entry} {es : List Entry} (h : i.entry? = some e) (ht : i.Tidy) (hd : Distinct es) {as : List Text}
    (ih : ∀ es, Distinct es → Explains es as (parse es as)) : Explains es (i.words ++ as) (andThen (record es e) as) := by
  rcases record_eq (es := es) (e := e) with hr | hr
  · rw [hr]
    exact .step h ht (ih _ ((record_some hd).1 hr))
  · rw [hr]
    exact True.intro

theorem parse_explains : ∀ (n : Nat) (argv : List Text), argv.length ≤ n → ∀ es, Distinct es → Explains es argv (parse es argv) := by
  intro n
  induction n with
  | zero =>
    intro argv hl es hd
    obtain rfl := List.length_eq_zero_iff.1 (Nat.le_zero.1 hl)
    rw [parse.eq_def]
    exact ⟨[], [], [], rfl, .inl ⟨rfl, rfl⟩, rfl, by simp, by simp, by simpa using hd⟩
  | succ n ih =>
    intro argv hl es hd
    cases argv with
    | nil =>
      rw [parse.eq_def]
      exact ⟨[], [], [], rfl, .inl ⟨rfl, rfl⟩, rfl, by simp, by simp, by simpa using hd⟩
    | cons a as =>
      have hl' : as.length ≤ n := by simpa using hl
      cases hs : shape a with
      | escape =>
        rw [parse.eq_def]
        simp only [hs]
        exact ⟨[], [], a :: as, rfl, .inr (by rw [shape_of_escape hs]), rfl, by simp, by simp, by simpa using hd⟩
      | plain =>
        have hp := (shape_plain_iff a).1 hs
        cases hq : readPath a with
        | none =>
          rw [parse.eq_def]
          simp only [hs, hq]
          exact True.intro
        | some q =>
          have he : (Item.file a).entry? = some (.file q) := by show (readPath a).map _ = _; rw [hq]; rfl
          have := parse_item (i := .file a) he hp es as
          rw [show a :: as = (Item.file a).words ++ as from rfl, this]
          exact explains_andThen he hp hd (ih as hl')
      | short c =>
        obtain ⟨r, rfl, hc⟩ := shape_of_short hs
        rw [parse.eq_def]
        simp only [hs]
        by_cases h1 : c = 'h'
        · subst h1
          exact ⟨[], [], _, as, rfl, rfl, by simp, by simpa using hd, .inr (.inr (.inl ⟨r, rfl⟩))⟩
        · by_cases h2 : c = 'V'
          · subst h2
            simp only [h1, if_false, if_true]
            exact ⟨[], [], _, as, rfl, rfl, by simp, by simpa using hd, .inr (.inr (.inr ⟨r, rfl⟩))⟩
          · simp only [h1, h2, if_false]
            exact True.intro
      | long name value =>
        cases hf : (Flag.all.find? fun f => f.long == name) with
        | some f =>
          cases hv : value with
          | some v =>
            rw [parse.eq_def]
            simp only [hs, hf, hv]
            exact True.intro
          | none =>
            have he : (Item.flag name).entry? = some (.flag f) := by show Option.map _ _ = _; rw [hf]; rfl
            have hw : a = "--".toList ++ name := by
              rcases shape_of_long hs with ⟨_, h⟩ | ⟨v, h, _⟩
              · exact h
              · rw [hv] at h; cases h
            subst hw
            rw [show ("--".toList ++ name) :: as = (Item.flag name).words ++ as from rfl, parse_item he True.intro es as]
            exact explains_andThen he True.intro hd (ih as hl')
        | none =>
          cases ho : (Valued.all.find? fun f => f.long == name) with
          | some o =>
            cases hv : value with
            | some v =>
              have hw : a = "--".toList ++ name ++ "=".toList ++ v := by
                rcases shape_of_long hs with ⟨h, _⟩ | ⟨v', h, h'⟩
                · rw [hv] at h; cases h
                · rw [hv] at h; cases h; exact h'
              subst hw
              cases hr : o.read v with
              | none =>
                rw [parse.eq_def]
                simp only [hs, hf, ho, hv, hr]
                exact True.intro
              | some e =>
                have he : (Item.option name v true).entry? = some e := by show Option.bind _ _ = _; rw [ho]; exact hr
                rw [show ("--".toList ++ name ++ "=".toList ++ v) :: as = (Item.option name v true).words ++ as from rfl,
                  parse_item he (by intro h; cases h) es as]
                exact explains_andThen he (by intro h; cases h) hd (ih as hl')
            | none =>
              have hw : a = "--".toList ++ name := by
                rcases shape_of_long hs with ⟨_, h⟩ | ⟨v, h, _⟩
                · exact h
                · rw [hv] at h; cases h
              subst hw
              cases as with
              | nil =>
                rw [parse.eq_def]
                simp only [hs, hf, ho, hv]
                exact True.intro
              | cons t as =>
                by_cases hp : shape t = .plain
                · cases hr : o.read t with
                  | none =>
                    rw [parse.eq_def]
                    simp only [hs, hf, ho, hv, hp, hr]
                    exact True.intro
                  | some e =>
                    have he : (Item.option name t false).entry? = some e := by show Option.bind _ _ = _; rw [ho]; exact hr
                    rw [show ("--".toList ++ name) :: t :: as = (Item.option name t false).words ++ as from rfl,
                      parse_item he (fun _ => (shape_plain_iff t).1 hp) es as]
                    exact explains_andThen he (fun _ => (shape_plain_iff t).1 hp) hd (ih as (by simp at hl'; omega))
                · rw [parse.eq_def]
                  simp only [hs, hf, ho, hv]
                  cases ht : shape t with
                  | plain => exact absurd ht hp
                  | escape => exact True.intro
                  | long _ _ => exact True.intro
                  | short _ => exact True.intro
          | none =>
            cases hv : value with
            | some v =>
              rw [parse.eq_def]
              simp only [hs, hf, ho, hv]
              exact True.intro
            | none =>
              have hw : a = "--".toList ++ name := by
                rcases shape_of_long hs with ⟨_, h⟩ | ⟨v, h, _⟩
                · exact h
                · rw [hv] at h; cases h
              rw [parse.eq_def]
              simp only [hs, hf, ho, hv]
              by_cases h1 : name = "help".toList
              · rw [if_pos h1]
                exact ⟨[], [], a, as, rfl, rfl, by simp, by simpa using hd, .inl (by rw [hw, h1]; decide +kernel)⟩
              · rw [if_neg h1]
                by_cases h2 : name = "version".toList
                · rw [if_pos h2]
                  exact ⟨[], [], a, as, rfl, rfl, by simp, by simpa using hd, .inr (.inl (by rw [hw, h2]; decide +kernel))⟩
                · rw [if_neg h2]
                  exact True.intro

theorem distinct_nil : Distinct [] := by
  intro as e bs h
  cases as <;> cases h

end Necessist.Cli
