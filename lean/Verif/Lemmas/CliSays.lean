import Verif.Lemmas.Cli
import Verif.Lemmas.Span
/-! # What entries say -/
namespace Necessist.Cli
open Framework (Identifier)

/-! ### Values -/

theorem digitVal?_iff (c : Char) (d : Nat) : digitVal? c = some d ↔ ('0' ≤ c ∧ c ≤ '9') ∧ d = c.toNat - '0'.toNat := by
  have h0 : '0'.toNat = 48 := rfl
  have h9 : '9'.toNat = 57 := rfl
  have e : ('0' ≤ c ∧ c ≤ '9') ↔ (48 ≤ c.toNat ∧ c.toNat ≤ 57) := by
    rw [Char.le_def, Char.le_def, UInt32.le_iff_toNat_le, UInt32.le_iff_toNat_le]
    exact Iff.rfl
  unfold digitVal?
  rw [e, h0]
  split
  · rename_i h
    simp only [h, Option.some.injEq, true_and, and_self]
    exact eq_comm
  · rename_i h
    simp [h]

theorem readDigits_iff : ∀ (ds : Text) (acc n : Nat), readDigits acc ds = some n ↔
    (∀ c ∈ ds, '0' ≤ c ∧ c ≤ '9') ∧ n = ds.foldl (fun n c => 10 * n + (c.toNat - '0'.toNat)) acc := by
  intro ds
  induction ds with
  | nil => intro acc n; simp [readDigits, eq_comm]
  | cons c ds ih =>
    intro acc n
    simp only [readDigits, Option.bind_eq_bind, Option.bind_eq_some_iff, digitVal?_iff, ih, List.mem_cons, List.foldl_cons]
    constructor
    · rintro ⟨d, ⟨h1, rfl⟩, h2, rfl⟩
      refine ⟨?_, by rw [Nat.mul_comm]⟩
      rintro x (rfl | hx)
      · exact h1
      · exact h2 x hx
    · rintro ⟨h1, rfl⟩
      exact ⟨_, ⟨h1 c (.inl rfl), rfl⟩, fun x hx => h1 x (.inr hx), by rw [Nat.mul_comm]⟩

theorem parseUsize_iff (t : Text) (n : Nat) : parseUsize t = some n ↔ Number t n := by
  have core : ∀ ds : Text, ((if ds.isEmpty then none else do
      let n ← readDigits 0 ds
      if n < 2 ^ 64 then some n else none) = some n ↔ (ds ≠ [] ∧ (∀ c ∈ ds, '0' ≤ c ∧ c ≤ '9') ∧
      n = ds.foldl (fun n c => 10 * n + (c.toNat - '0'.toNat)) 0 ∧ n < 2 ^ 64)) := by
    intro ds
    cases ds with
    | nil => simp
    | cons c ds =>
      simp only [List.isEmpty_cons, Bool.false_eq_true, if_false, Option.bind_eq_bind, Option.bind_eq_some_iff, readDigits_iff]
      constructor
      · rintro ⟨m, ⟨h1, h2⟩, h3⟩
        split at h3
        · cases h3
          exact ⟨by simp, h1, h2, by assumption⟩
        · cases h3
      · rintro ⟨-, h1, h2, h3⟩
        exact ⟨n, ⟨h1, h2⟩, by rw [if_pos h3]⟩
  unfold parseUsize Number
  split
  · rename_i cs
    rw [core cs]
    constructor
    · intro h
      exact ⟨cs, .inr rfl, h⟩
    · rintro ⟨ds, h | h, h'⟩
      · subst h
        exact absurd (h'.2.1 '+' (by simp)) (by decide)
      · cases h
        exact h'
  · rename_i hn
    rw [core t]
    constructor
    · intro h
      exact ⟨t, .inl rfl, h⟩
    · rintro ⟨ds, h | h, h'⟩
      · subst h
        exact h'
      · exact absurd h (hn ds)

theorem Number.unique {t : Text} {n m : Nat} (h : Number t n) (h' : Number t m) : n = m :=
  Option.some.inj (((parseUsize_iff t n).2 h).symm.trans ((parseUsize_iff t m).2 h'))

theorem warningName_called (w : Warning) : warningName w = called w := by cases w <;> decide +kernel

theorem find_called (w : Warning) : (warnings.find? fun v => warningName v == called w) = some w := by
  cases w <;> decide +kernel

theorem called_inj {w v : Warning} (h : called w = called v) : w = v := by
  have h1 := find_called w
  rw [h, find_called v] at h1
  exact (Option.some.inj h1).symm

theorem findWarning_iff (t : Text) (w : Warning) : (warnings.find? fun v => warningName v == t) = some w ↔ t = called w := by
  constructor
  · intro h
    have := List.find?_some h
    exact (by simpa [warningName_called] using this : called w = t).symm
  · rintro rfl
    exact find_called w

theorem find_framework (i : Option Identifier) :
    ((Framework.frameworkEnum.fromStr id (frameworkCalled i) false).map fun
      | .left _ => none
      | .right i => some i) = some i := by
  rcases i with _ | i
  · decide +kernel
  · cases i <;> decide +kernel

theorem frameworkCalled_inj {i j : Option Identifier} (h : frameworkCalled i = frameworkCalled j) : i = j := by
  have h1 := find_framework i
  rw [h, find_framework j] at h1
  exact (Option.some.inj h1).symm

theorem framework_iff (t : Text) (i : Option Identifier) :
    ((Framework.frameworkEnum.fromStr id t false).map fun
      | .left _ => none
      | .right i => some i) = some i ↔ t = frameworkCalled i := by
  constructor
  · intro h
    obtain ⟨u, hu, hi⟩ := Option.map_eq_some_iff.1 h
    have := List.find?_some hu
    have hn : Framework.frameworkEnum.name u = t := by simpa using this
    rw [← hn]
    rcases u with l | j
    · cases hi
      cases l
      decide +kernel
    · cases hi
      cases j <;> decide +kernel
  · rintro rfl
    exact find_framework i

theorem readPath_iff (t p : Text) : readPath t = some p ↔ t ≠ [] ∧ p = t := by
  unfold readPath
  cases t <;> simp [eq_comm]

/-! ### Which entry a piece gives -/

theorem option_entry (n v : Text) (j : Bool) (e : Entry) : (Item.option n v j).entry? = some e ↔
    (n = "allow".toList ∧ ∃ w, v = called w ∧ e = .allow w) ∨
    (n = "deny".toList ∧ ∃ w, v = called w ∧ e = .deny w) ∨
    (n = "framework".toList ∧ ∃ i, v = frameworkCalled i ∧ e = .framework i) ∨
    (n = "timeout".toList ∧ ∃ m, Number v m ∧ e = .timeout m) ∨
    (n = "root".toList ∧ v ≠ [] ∧ e = .root v) ∨
    (n = "check-skill".toList ∧ v ≠ [] ∧ e = .checkSkill v) := by
  have fw : ∀ t, Valued.read .framework t = ((Framework.frameworkEnum.fromStr id t false).map fun
      | .left _ => none
      | .right i => some i).map .framework := by
    intro t
    show Option.map _ _ = _
    rw [Option.map_map]
    congr 1
    funext u
    cases u <;> rfl
  constructor
  · intro h
    obtain ⟨o, ho, hr⟩ := Option.bind_eq_some_iff.1 h
    obtain rfl := valued_found ho
    cases o with
    | allow =>
      obtain ⟨w, hw, rfl⟩ := Option.map_eq_some_iff.1 hr
      exact .inl ⟨rfl, w, (findWarning_iff _ _).1 hw, rfl⟩
    | deny =>
      obtain ⟨w, hw, rfl⟩ := Option.map_eq_some_iff.1 hr
      exact .inr (.inl ⟨rfl, w, (findWarning_iff _ _).1 hw, rfl⟩)
    | framework =>
      rw [fw] at hr
      obtain ⟨i, hi, rfl⟩ := Option.map_eq_some_iff.1 hr
      exact .inr (.inr (.inl ⟨rfl, i, (framework_iff _ _).1 hi, rfl⟩))
    | timeout =>
      obtain ⟨m, hm, rfl⟩ := Option.map_eq_some_iff.1 hr
      exact .inr (.inr (.inr (.inl ⟨rfl, m, (parseUsize_iff _ _).1 hm, rfl⟩)))
    | root =>
      obtain ⟨p, hp, rfl⟩ := Option.map_eq_some_iff.1 hr
      obtain ⟨h1, rfl⟩ := (readPath_iff _ _).1 hp
      exact .inr (.inr (.inr (.inr (.inl ⟨rfl, h1, rfl⟩))))
    | checkSkill =>
      obtain ⟨p, hp, rfl⟩ := Option.map_eq_some_iff.1 hr
      obtain ⟨h1, rfl⟩ := (readPath_iff _ _).1 hp
      exact .inr (.inr (.inr (.inr (.inr ⟨rfl, h1, rfl⟩))))
  · have go : ∀ (o : Valued), n = o.long → o.read v = some e → (Item.option n v j).entry? = some e := by
      rintro o rfl hr
      show Option.bind _ _ = _
      rw [valued_find]
      exact hr
    rintro (⟨h, w, hw, rfl⟩ | ⟨h, w, hw, rfl⟩ | ⟨h, i, hi, rfl⟩ | ⟨h, m, hm, rfl⟩ | ⟨h, h1, rfl⟩ | ⟨h, h1, rfl⟩)
    · exact go .allow h (Option.map_eq_some_iff.2 ⟨w, (findWarning_iff _ _).2 hw, rfl⟩)
    · exact go .deny h (Option.map_eq_some_iff.2 ⟨w, (findWarning_iff _ _).2 hw, rfl⟩)
    · exact go .framework h (by rw [fw, (framework_iff _ _).2 hi]; rfl)
    · exact go .timeout h (Option.map_eq_some_iff.2 ⟨m, (parseUsize_iff _ _).2 hm, rfl⟩)
    · exact go .root h (Option.map_eq_some_iff.2 ⟨v, (readPath_iff _ _).2 ⟨h1, rfl⟩, rfl⟩)
    · exact go .checkSkill h (Option.map_eq_some_iff.2 ⟨v, (readPath_iff _ _).2 ⟨h1, rfl⟩, rfl⟩)

theorem flag_entry (n : Text) (e : Entry) : (Item.flag n).entry? = some e ↔ ∃ f : Flag, n = f.long ∧ e = .flag f := by
  constructor
  · intro h
    obtain ⟨f, hf, rfl⟩ := Option.map_eq_some_iff.1 h
    exact ⟨f, flag_found hf, rfl⟩
  · rintro ⟨f, rfl, rfl⟩
    show Option.map _ _ = _
    rw [flag_find]
    rfl

theorem file_entry (p : Text) (e : Entry) : (Item.file p).entry? = some e ↔ p ≠ [] ∧ e = .file p := by
  show Option.map _ _ = _ ↔ _
  rw [Option.map_eq_some_iff]
  constructor
  · rintro ⟨q, hq, rfl⟩
    obtain ⟨h, rfl⟩ := (readPath_iff _ _).1 hq
    exact ⟨h, rfl⟩
  · rintro ⟨h, rfl⟩
    exact ⟨p, (readPath_iff _ _).2 ⟨h, rfl⟩, rfl⟩

theorem flags_long (n : Text) : n ∈ flags.map Prod.fst ↔ ∃ f : Flag, n = f.long := by
  have e : flags.map Prod.fst = Flag.all.map Flag.long := by decide +kernel
  rw [e]
  constructor
  · intro h
    obtain ⟨f, _, rfl⟩ := List.mem_map.1 h
    exact ⟨f, rfl⟩
  · rintro ⟨f, rfl⟩
    exact List.mem_map.2 ⟨f, by cases f <;> decide, rfl⟩

theorem fine_iff (i : Item) : i.Fine ↔ (∃ e, i.entry? = some e) ∧ i.Tidy := by
  cases i with
  | flag n =>
    show n ∈ flags.map Prod.fst ↔ _
    rw [flags_long]
    constructor
    · rintro ⟨f, h⟩
      exact ⟨⟨_, (flag_entry n _).2 ⟨f, h, rfl⟩⟩, True.intro⟩
    · rintro ⟨⟨e, h⟩, -⟩
      obtain ⟨f, h, -⟩ := (flag_entry n e).1 h
      exact ⟨f, h⟩
  | option n v j =>
    refine and_congr ?_ Iff.rfl
    simp only [option_entry]
    constructor
    · rintro (⟨h, w, hw⟩ | ⟨h, w, hw⟩ | ⟨h, w, hw⟩ | ⟨h, w, hw⟩ | ⟨h, hw⟩ | ⟨h, hw⟩)
      · exact ⟨_, .inl ⟨h, w, hw, rfl⟩⟩
      · exact ⟨_, .inr (.inl ⟨h, w, hw, rfl⟩)⟩
      · exact ⟨_, .inr (.inr (.inl ⟨h, w, hw, rfl⟩))⟩
      · exact ⟨_, .inr (.inr (.inr (.inl ⟨h, w, hw, rfl⟩)))⟩
      · exact ⟨_, .inr (.inr (.inr (.inr (.inl ⟨h, hw, rfl⟩))))⟩
      · exact ⟨_, .inr (.inr (.inr (.inr (.inr ⟨h, hw, rfl⟩))))⟩
    · rintro ⟨e, ⟨h, w, hw, -⟩ | ⟨h, w, hw, -⟩ | ⟨h, w, hw, -⟩ | ⟨h, w, hw, -⟩ | ⟨h, hw, -⟩ | ⟨h, hw, -⟩⟩
      · exact .inl ⟨h, w, hw⟩
      · exact .inr (.inl ⟨h, w, hw⟩)
      · exact .inr (.inr (.inl ⟨h, w, hw⟩))
      · exact .inr (.inr (.inr (.inl ⟨h, w, hw⟩)))
      · exact .inr (.inr (.inr (.inr (.inl ⟨h, hw⟩))))
      · exact .inr (.inr (.inr (.inr (.inr ⟨h, hw⟩))))
  | file p =>
    constructor
    · rintro ⟨h1, h2⟩
      exact ⟨⟨_, (file_entry p _).2 ⟨h1, rfl⟩⟩, h2⟩
    · rintro ⟨⟨e, h⟩, h2⟩
      exact ⟨((file_entry p e).1 h).1, h2⟩

theorem fine_entries {items : List Item} (h : ∀ i ∈ items, i.Fine) :
    ∃ new : List Entry, items.map Item.entry? = new.map some ∧ ∀ i ∈ items, i.Tidy := by
  induction items with
  | nil => exact ⟨[], rfl, by simp⟩
  | cons i items ih =>
    obtain ⟨new, h1, h2⟩ := ih fun j hj => h j (by simp [hj])
    obtain ⟨⟨e, he⟩, ht⟩ := (fine_iff i).1 (h i (by simp))
    exact ⟨e :: new, by simp [he, h1], by simpa [ht] using h2⟩

theorem entries_fine {items : List Item} {new : List Entry} (h : items.map Item.entry? = new.map some) (ht : ∀ i ∈ items, i.Tidy) :
    ∀ i ∈ items, i.Fine := by
  intro i hi
  have : i.entry? ∈ items.map Item.entry? := List.mem_map.2 ⟨i, hi, rfl⟩
  rw [h] at this
  obtain ⟨e, _, he⟩ := List.mem_map.1 this
  exact (fine_iff i).2 ⟨⟨e, he.symm⟩, ht i hi⟩

/-! ### Repeated arguments -/

/-- The name of an entry's argument. -/
def Entry.name? : Entry → Option Text
  | .flag f => some f.long
  | .allow _ => some "allow".toList
  | .deny _ => some "deny".toList
  | .checkSkill _ => some "check-skill".toList
  | .framework _ => some "framework".toList
  | .root _ => some "root".toList
  | .timeout _ => some "timeout".toList
  | .file _ => none

theorem entry_name {i : Item} {e : Entry} (h : i.entry? = some e) : i.name? = e.name? := by
  cases i with
  | flag n =>
    obtain ⟨f, rfl, rfl⟩ := (flag_entry n e).1 h
    rfl
  | option n v j =>
    rcases (option_entry n v j e).1 h with ⟨rfl, w, _, rfl⟩ | ⟨rfl, w, _, rfl⟩ | ⟨rfl, w, _, rfl⟩ | ⟨rfl, w, _, rfl⟩ | ⟨rfl, _, rfl⟩ | ⟨rfl, _, rfl⟩
    all_goals rfl
  | file p =>
    obtain ⟨_, rfl⟩ := (file_entry p e).1 h
    rfl

theorem entry_names : ∀ {items : List Item} {new : List Entry}, items.map Item.entry? = new.map some →
    items.map Item.name? = new.map Entry.name? := by
  intro items
  induction items with
  | nil =>
    intro new h
    cases new with
    | nil => rfl
    | cons _ _ => cases h
  | cons i items ih =>
    intro new h
    cases new with
    | nil => cases h
    | cons e new =>
      obtain ⟨h1, h2⟩ := List.cons.inj h
      simp [entry_name h1, ih h2]

theorem repeats_name (e : Entry) : e.repeats = true ↔ e.name? = none ∨ e.name? = some "allow".toList ∨ e.name? = some "deny".toList := by
  cases e with
  | flag f =>
    show false = true ↔ some f.long = none ∨ some f.long = some _ ∨ some f.long = some _
    cases f <;> decide +kernel
  | allow w => exact ⟨fun _ => .inr (.inl rfl), fun _ => rfl⟩
  | deny w => exact ⟨fun _ => .inr (.inr rfl), fun _ => rfl⟩
  | file p => exact ⟨fun _ => .inl rfl, fun _ => rfl⟩
  | checkSkill p => 
    show false = true ↔ some "check-skill".toList = none ∨ some "check-skill".toList = some "allow".toList ∨ some "check-skill".toList = some "deny".toList
    decide +kernel
  | framework p => 
    show false = true ↔ some "framework".toList = none ∨ some "framework".toList = some "allow".toList ∨ some "framework".toList = some "deny".toList
    decide +kernel
  | root p => 
    show false = true ↔ some "root".toList = none ∨ some "root".toList = some "allow".toList ∨ some "root".toList = some "deny".toList
    decide +kernel
  | timeout p => 
    show false = true ↔ some "timeout".toList = none ∨ some "timeout".toList = some "allow".toList ∨ some "timeout".toList = some "deny".toList
    decide +kernel

theorem long_inj {f g : Flag} (h : f.long = g.long) : f = g := by
  have h1 := flag_find f
  rw [h, flag_find g] at h1
  exact (Option.some.inj h1).symm

theorem long_ne (f : Flag) (v : Valued) : f.long ≠ v.long := by
  intro h
  have h1 := valued_no_flag v
  rw [← h, flag_find f] at h1
  cases h1

theorem valued_inj {v w : Valued} (h : v.long = w.long) : v = w := by
  have h1 := valued_find v
  rw [h, valued_find w] at h1
  exact (Option.some.inj h1).symm

/-- The argument of an entry. -/
def Entry.arg : Entry → Option (Flag ⊕ Valued)
  | .flag f => some (.inl f)
  | .allow _ => some (.inr .allow)
  | .deny _ => some (.inr .deny)
  | .checkSkill _ => some (.inr .checkSkill)
  | .framework _ => some (.inr .framework)
  | .root _ => some (.inr .root)
  | .timeout _ => some (.inr .timeout)
  | .file _ => none

theorem name_arg (e : Entry) : e.name? = e.arg.map fun
    | .inl f => f.long
    | .inr v => v.long := by cases e <;> rfl

theorem name_eq_iff (e d : Entry) : e.name? = d.name? ↔ e.arg = d.arg := by
  rw [name_arg, name_arg]
  constructor
  · intro h
    cases he : e.arg with
    | none => cases hd : d.arg with
      | none => rfl
      | some y => rw [he, hd] at h; cases h
    | some x => cases hd : d.arg with
      | none => rw [he, hd] at h; cases h
      | some y =>
        rw [he, hd] at h
        have h := Option.some.inj h
        rcases x with f | v <;> rcases y with g | w
        · rw [long_inj h]
        · exact absurd h (long_ne f w)
        · exact absurd h.symm (long_ne g v)
        · rw [valued_inj h]
  · intro h
    rw [h]

theorem same_iff (e d : Entry) : Entry.same e d = true ↔ e.repeats = false ∧ e.name? = d.name? := by
  rw [name_eq_iff]
  cases e <;> cases d <;> simp [Entry.same, Entry.repeats, Entry.arg]

theorem distinct_names (es : List Entry) : Distinct es ↔ ∀ n, n ≠ "allow".toList → n ≠ "deny".toList →
    ∀ as bs, es.map Entry.name? = as ++ some n :: bs → some n ∉ as := by
  constructor
  · intro h n h1 h2 as bs he hm
    obtain ⟨l, r, rfl, hl, hr⟩ := List.map_eq_append_iff.1 he
    obtain ⟨e, r', rfl, hn, _⟩ := List.map_eq_cons_iff.1 hr
    rcases h l e r' rfl with hrep | hs
    · rcases (repeats_name e).1 hrep with h' | h' | h' <;> rw [hn] at h'
      · cases h'
      · exact h1 (Option.some.inj h')
      · exact h2 (Option.some.inj h')
    · rw [← hl] at hm
      obtain ⟨d, hd, hdn⟩ := List.mem_map.1 hm
      have hrep : e.repeats = false := by
        cases hx : e.repeats with
        | false => rfl
        | true =>
          rcases (repeats_name e).1 hx with h' | h' | h' <;> rw [hn] at h'
          · cases h'
          · exact absurd (Option.some.inj h') h1
          · exact absurd (Option.some.inj h') h2
      have := List.any_eq_false.1 hs d hd
      exact this ((same_iff e d).2 ⟨hrep, hn.trans hdn.symm⟩)
  · intro h as e bs he
    subst he
    cases hx : e.repeats with
    | true => exact .inl rfl
    | false =>
      right
      rw [List.any_eq_false]
      intro d hd hs
      obtain ⟨_, hn⟩ := (same_iff e d).1 hs
      have hno := mt (repeats_name e).2 (by simp [hx])
      cases hname : e.name? with
      | none => exact hno (.inl hname)
      | some n =>
        refine h n (fun h' => hno (.inr (.inl (by rw [hname, h'])))) (fun h' => hno (.inr (.inr (by rw [hname, h'])))) (as.map Entry.name?)
          (bs.map Entry.name?) (by simp [hname]) ?_
        exact List.mem_map.2 ⟨d, hd, by rw [← hn, hname]⟩

theorem count_le_one {α} [BEq α] [LawfulBEq α] (a : α) : ∀ l : List α, l.count a ≤ 1 ↔ ∀ as bs, l = as ++ a :: bs → a ∉ as := by
  intro l
  constructor
  · rintro h as bs rfl hm
    have := List.count_pos_iff.2 hm
    rw [List.count_append, List.count_cons_self] at h
    omega
  · induction l with
    | nil => intro _; simp
    | cons y ys ih =>
      intro h
      by_cases hy : y = a
      · subst hy
        have : y ∉ ys := by
          intro hm
          obtain ⟨as, bs, rfl⟩ := List.append_of_mem hm
          exact h (y :: as) bs rfl (by simp)
        rw [List.count_cons_self, List.count_eq_zero.2 this]
        exact Nat.le_refl _
      · rw [List.count_cons_of_ne hy]
        exact ih fun as bs he hm => h (y :: as) bs (by rw [he]; rfl) (by simp [hm])

theorem once_iff {items : List Item} {new : List Entry} (h : items.map Item.entry? = new.map some) : Once items ↔ Distinct new := by
  rw [distinct_names, ← entry_names h]
  unfold Once
  refine forall_congr' fun n => forall_congr' fun _ => forall_congr' fun _ => ?_
  rw [← count_le_one (some n)]
  have : (items.filter fun i => i.name? == some n).length = (items.map Item.name?).count (some n) := by
    rw [List.count, List.countP_map, List.countP_eq_length_filter]
    rfl
  rw [this]

/-! ### What is said -/

theorem filterMap_entries {f : Item → Option α} {g : Entry → Option α} (hfg : ∀ i e, i.entry? = some e → f i = g e) :
    ∀ {items : List Item} {new : List Entry}, items.map Item.entry? = new.map some → items.filterMap f = new.filterMap g := by
  intro items
  induction items with
  | nil =>
    intro new h
    cases new with
    | nil => rfl
    | cons _ _ => cases h
  | cons i items ih =>
    intro new h
    cases new with
    | nil => cases h
    | cons e new =>
      obtain ⟨h1, h2⟩ := List.cons.inj h
      simp only [List.filterMap_cons, hfg i e h1, ih h2]

theorem flag_mem {items : List Item} {new : List Entry} (h : items.map Item.entry? = new.map some) (f : Flag) :
    new.contains (.flag f) = true ↔ .flag f.long ∈ items := by
  rw [List.contains_iff_mem]
  constructor
  · intro hm
    have : some (Entry.flag f) ∈ new.map some := List.mem_map.2 ⟨_, hm, rfl⟩
    rw [← h] at this
    obtain ⟨i, hi, he⟩ := List.mem_map.1 this
    cases i with
    | flag n =>
      obtain ⟨g, rfl, hg⟩ := (flag_entry n _).1 he
      cases hg
      exact hi
    | option n v j =>
      rcases (option_entry n v j _).1 he with ⟨_, w, _, h'⟩ | ⟨_, w, _, h'⟩ | ⟨_, w, _, h'⟩ | ⟨_, w, _, h'⟩ | ⟨_, _, h'⟩ | ⟨_, _, h'⟩
      all_goals cases h'
    | file p =>
      obtain ⟨_, h'⟩ := (file_entry p _).1 he
      cases h'
  · intro hm
    have : (Item.flag f.long).entry? ∈ items.map Item.entry? := List.mem_map.2 ⟨_, hm, rfl⟩
    rw [h, (flag_entry _ _).2 ⟨f, rfl, rfl⟩] at this
    obtain ⟨e, he, h'⟩ := List.mem_map.1 this
    cases h'
    exact he

theorem values_le (n : Text) : ∀ items : List Item, (valuesOf n items).length ≤ (items.filter fun i => i.name? == some n).length := by
  intro items
  induction items with
  | nil => exact Nat.le_refl _
  | cons i items ih =>
    unfold valuesOf at ih ⊢
    cases i with
    | flag m =>
      simp only [List.filterMap_cons, List.filter_cons]
      split
      · simp only [List.length_cons]; omega
      · exact ih
    | option m v j =>
      simp only [List.filterMap_cons, List.filter_cons, show (Item.option m v j).name? = some m from rfl]
      by_cases hm : m = n
      · subst hm
        simp only [if_true, beq_self_eq_true, List.length_cons]
        omega
      · simp only [hm, if_false]
        split
        · simp only [List.length_cons]; omega
        · exact ih
    | file p =>
      simp only [List.filterMap_cons, List.filter_cons]
      exact ih

/-- Values of an option, from the entries. -/
theorem values_entries {items : List Item} {new : List Entry} (h : items.map Item.entry? = new.map some) (n : Text) (g : Entry → Option Text)
    (hflag : ∀ f, g (.flag f) = none) (hfile : ∀ p, g (.file p) = none)
    (hopt : ∀ m v j e, (Item.option m v j).entry? = some e → (if m = n then some v else none) = g e) :
    valuesOf n items = new.filterMap g := by
  refine filterMap_entries (fun i e he => ?_) h
  cases i with
  | flag m =>
    obtain ⟨f, _, rfl⟩ := (flag_entry m e).1 he
    exact (hflag f).symm
  | option m v j => exact hopt m v j e he
  | file p =>
    obtain ⟨_, rfl⟩ := (file_entry p e).1 he
    exact (hfile p).symm

end Necessist.Cli
