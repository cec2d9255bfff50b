import Verif.Lemmas.CliSays
/-!
# C87: the command line

`Verif.Spec.Cli` says what a command line means.
-/
namespace Necessist.Cli
open Framework (Identifier)

variable {P : Paths} {items : List Item} {new : List Entry}

theorem values_allow (h : items.map Item.entry? = new.map some) : valuesOf "allow".toList items = (toOpts P new).allow.map called := by
  rw [show (toOpts P new).allow = new.filterMap _ from rfl, List.map_filterMap]
  refine values_entries h _ _ (fun _ => rfl) (fun _ => rfl) fun m v j e he => ?_
  rcases (option_entry m v j e).1 he with ⟨rfl, w, h', rfl⟩ | ⟨rfl, w, h', rfl⟩ | ⟨rfl, w, h', rfl⟩ | ⟨rfl, w, h', rfl⟩ | ⟨rfl, h', rfl⟩ | ⟨rfl, h', rfl⟩
  · rw [if_pos rfl, h']; rfl
  all_goals rw [if_neg (by decide +kernel)]; rfl

theorem values_deny (h : items.map Item.entry? = new.map some) : valuesOf "deny".toList items = (toOpts P new).deny.map called := by
  rw [show (toOpts P new).deny = new.filterMap _ from rfl, List.map_filterMap]
  refine values_entries h _ _ (fun _ => rfl) (fun _ => rfl) fun m v j e he => ?_
  rcases (option_entry m v j e).1 he with ⟨rfl, w, h', rfl⟩ | ⟨rfl, w, h', rfl⟩ | ⟨rfl, w, h', rfl⟩ | ⟨rfl, w, h', rfl⟩ | ⟨rfl, h', rfl⟩ | ⟨rfl, h', rfl⟩
  · rw [if_neg (by decide +kernel)]; rfl
  · rw [if_pos rfl, h']; rfl
  all_goals rw [if_neg (by decide +kernel)]; rfl

theorem values_skill (h : items.map Item.entry? = new.map some) : (valuesOf "check-skill".toList items).head? = new.findSome? fun
    | .checkSkill p => some p
    | _ => none := by
  rw [← List.head?_filterMap]
  congr 1
  refine values_entries h _ _ (fun _ => rfl) (fun _ => rfl) fun m v j e he => ?_
  rcases (option_entry m v j e).1 he with ⟨rfl, w, h', rfl⟩ | ⟨rfl, w, h', rfl⟩ | ⟨rfl, w, h', rfl⟩ | ⟨rfl, w, h', rfl⟩ | ⟨rfl, h', rfl⟩ | ⟨rfl, h', rfl⟩
  all_goals first
    | (rw [if_pos rfl]; done)
    | (rw [if_neg (by decide +kernel)]; done)

theorem values_root (h : items.map Item.entry? = new.map some) : (valuesOf "root".toList items).head? = new.findSome? fun
    | .root p => some p
    | _ => none := by
  rw [← List.head?_filterMap]
  congr 1
  refine values_entries h _ _ (fun _ => rfl) (fun _ => rfl) fun m v j e he => ?_
  rcases (option_entry m v j e).1 he with ⟨rfl, w, h', rfl⟩ | ⟨rfl, w, h', rfl⟩ | ⟨rfl, w, h', rfl⟩ | ⟨rfl, w, h', rfl⟩ | ⟨rfl, h', rfl⟩ | ⟨rfl, h', rfl⟩
  all_goals first
    | (rw [if_pos rfl]; done)
    | (rw [if_neg (by decide +kernel)]; done)

theorem values_framework (h : items.map Item.entry? = new.map some) : valuesOf "framework".toList items = (new.filterMap fun
    | .framework i => some i
    | _ => none).map frameworkCalled := by
  rw [List.map_filterMap]
  refine values_entries h _ _ (fun _ => rfl) (fun _ => rfl) fun m v j e he => ?_
  rcases (option_entry m v j e).1 he with ⟨rfl, w, h', rfl⟩ | ⟨rfl, w, h', rfl⟩ | ⟨rfl, w, h', rfl⟩ | ⟨rfl, w, h', rfl⟩ | ⟨rfl, h', rfl⟩ | ⟨rfl, h', rfl⟩
  · rw [if_neg (by decide +kernel)]; rfl
  · rw [if_neg (by decide +kernel)]; rfl
  · rw [if_pos rfl, h']; rfl
  all_goals rw [if_neg (by decide +kernel)]; rfl

/-- The first timeout among entries. -/
def timeout? (es : List Entry) : Option Nat := es.findSome? fun
  | .timeout n => some n
  | _ => none

/-- How values of `--timeout` and entries go together. -/
def Timeouts (items : List Item) (new : List Entry) : Prop :=
  (valuesOf "timeout".toList items = [] ∧ timeout? new = none) ∨
    ∃ t ts n, valuesOf "timeout".toList items = t :: ts ∧ Number t n ∧ timeout? new = some n

theorem values_timeout : ∀ {items : List Item} {new : List Entry}, items.map Item.entry? = new.map some → Timeouts items new := by
  intro items
  induction items with
  | nil =>
    intro new h
    cases new with
    | nil => exact .inl ⟨rfl, rfl⟩
    | cons _ _ => cases h
  | cons i items ih =>
    intro new h
    cases new with
    | nil => cases h
    | cons e new =>
      obtain ⟨h1, h2⟩ := List.cons.inj h
      have skip : (∀ v j, i ≠ .option "timeout".toList v j) → (∀ n, e ≠ .timeout n) → Timeouts (i :: items) (e :: new) := fun hi he => by
        have a : valuesOf "timeout".toList (i :: items) = valuesOf "timeout".toList items := by
          unfold valuesOf
          rw [List.filterMap_cons]
          cases i with
          | flag _ => rfl
          | file _ => rfl
          | option m v j =>
            have : m ≠ "timeout".toList := fun hm => hi v j (by rw [hm])
            simp only [this, if_false]
        have b : timeout? (e :: new) = timeout? new := by
          unfold timeout?
          rw [List.findSome?_cons]
          cases e with
          | timeout n => exact absurd rfl (he n)
          | _ => rfl
        unfold Timeouts
        rw [a, b]
        exact ih h2
      cases i with
      | flag m =>
        obtain ⟨f, _, rfl⟩ := (flag_entry m e).1 h1
        exact skip nofun nofun
      | file p =>
        obtain ⟨_, rfl⟩ := (file_entry p e).1 h1
        exact skip nofun nofun
      | option m v j =>
        have ne : m ≠ "timeout".toList → ∀ v' j', Item.option m v j ≠ .option "timeout".toList v' j' := by
          intro hm v' j' he
          cases he
          exact hm rfl
        rcases (option_entry m v j e).1 h1 with ⟨rfl, w, h', rfl⟩ | ⟨rfl, w, h', rfl⟩ | ⟨rfl, w, h', rfl⟩ | ⟨rfl, w, h', rfl⟩ | ⟨rfl, h', rfl⟩ | ⟨rfl, h', rfl⟩
        · exact skip (ne (by decide +kernel)) nofun
        · exact skip (ne (by decide +kernel)) nofun
        · exact skip (ne (by decide +kernel)) nofun
        · right
          refine ⟨v, valuesOf "timeout".toList items, w, ?_, h', rfl⟩
          unfold valuesOf
          rw [List.filterMap_cons]
          simp only [if_true]
        · exact skip (ne (by decide +kernel)) nofun
        · exact skip (ne (by decide +kernel)) nofun

/-- What the pieces say is what the entries say. -/
theorem says_toOpts (P : Paths) (h : items.map Item.entry? = new.map some) (ho : Once items) : Says P items (toOpts P new) where
  flags := by
    intro f hf
    have key : ∀ g : Flag, new.contains (.flag g) = true ↔ .flag g.long ∈ items := flag_mem h
    simp only [flags, List.mem_cons, List.not_mem_nil, or_false] at hf
    rcases hf with rfl | rfl | rfl | rfl | rfl | rfl | rfl | rfl | rfl | rfl | rfl | rfl | rfl
    · exact key .defaultConfig
    · exact key .dump
    · exact key .dumpCandidateCounts
    · exact key .dumpCandidates
    · exact key .findSkill
    · exact key .noLinesOrColumns
    · exact key .noLocalFunctions
    · exact key .noSqlite
    · exact key .quiet
    · exact key .reset
    · exact key .resume
    · exact key .verbose
    · exact key .write
  allow := values_allow h
  deny := values_deny h
  checkSkill := by rw [values_skill h]; rfl
  root := by rw [values_root h]; rfl
  framework := by
    have hl := Nat.le_trans (values_le "framework".toList items) (ho _ (by decide +kernel) (by decide +kernel))
    have hv := values_framework h
    have hh : (toOpts P new).framework = ((new.filterMap fun
        | .framework i => some i
        | _ => none).head?).getD none := by rw [List.head?_filterMap]; rfl
    rw [hh]
    generalize (new.filterMap fun
      | .framework i => some i
      | _ => none) = l at hv
    rw [hv] at hl ⊢
    match l with
    | [] => exact .inl ⟨rfl, rfl⟩
    | [x] => exact .inr rfl
    | _ :: _ :: _ => simp at hl
  timeout := by
    have hl := Nat.le_trans (values_le "timeout".toList items) (ho _ (by decide +kernel) (by decide +kernel))
    rcases values_timeout h with ⟨h1, h2⟩ | ⟨t, ts, n, h1, h2, h3⟩
    · exact .inl ⟨h1, h2⟩
    · rw [h1] at hl
      cases ts with
      | nil => exact .inr ⟨t, n, h1, h2, h3⟩
      | cons _ _ => simp at hl
  files := by
    show new.filterMap _ = _
    unfold filesOf
    rw [List.map_filterMap]
    refine (filterMap_entries (fun i e he => ?_) h).symm
    cases i with
    | flag m =>
      obtain ⟨f, _, rfl⟩ := (flag_entry m e).1 he
      rfl
    | option m v j =>
      rcases (option_entry m v j e).1 he with ⟨_, w, h', rfl⟩ | ⟨_, w, h', rfl⟩ | ⟨_, w, h', rfl⟩ | ⟨_, w, h', rfl⟩ | ⟨_, h', rfl⟩ | ⟨_, h', rfl⟩
      all_goals rfl
    | file p =>
      obtain ⟨_, rfl⟩ := (file_entry p e).1 he
      rfl

theorem map_called_inj {l r : List Warning} (h : l.map called = r.map called) : l = r := by
  induction l generalizing r with
  | nil => cases r with
    | nil => rfl
    | cons _ _ => cases h
  | cons w l ih => cases r with
    | nil => cases h
    | cons v r =>
      obtain ⟨h1, h2⟩ := List.cons.inj h
      rw [called_inj h1, ih h2]

/-- Pieces say one thing only. -/
theorem Says.unique {o o' : Main.Opts} (h : Says P items o) (h' : Says P items o') : o = o' := by
  have fl : ∀ f ∈ Cli.flags, f.2 o = f.2 o' := fun f hf => Bool.eq_iff_iff.2 ((h.flags f hf).trans (h'.flags f hf).symm)
  simp only [Cli.flags, List.mem_cons, List.not_mem_nil, or_false, forall_eq_or_imp, forall_eq] at fl
  obtain ⟨f1, f2, f3, f4, f5, f6, f7, f8, f9, f10, f11, f12, f13⟩ := fl
  have a := map_called_inj (h.allow.symm.trans h'.allow)
  have b := map_called_inj (h.deny.symm.trans h'.deny)
  have c := h.checkSkill.trans h'.checkSkill.symm
  have d := h.root.trans h'.root.symm
  have e := h.files.trans h'.files.symm
  have f : o.framework = o'.framework := by
    rcases h.framework with ⟨h1, h2⟩ | h1 <;> rcases h'.framework with ⟨h3, h4⟩ | h3
    · rw [h2, h4]
    · rw [h1] at h3; cases h3
    · rw [h3] at h1; cases h1
    · rw [h1] at h3
      exact frameworkCalled_inj (List.cons.inj h3).1
  have g : o.timeout = o'.timeout := by
    rcases h.timeout with ⟨h1, h2⟩ | ⟨t, n, h1, h2, h2'⟩ <;> rcases h'.timeout with ⟨h3, h4⟩ | ⟨t', n', h3, h4, h4'⟩
    · rw [h2, h4]
    · rw [h1] at h3; cases h3
    · rw [h3] at h1; cases h1
    · rw [h1] at h3
      cases h3
      rw [h2', h4', h2.unique h4]
  cases o
  cases o'
  simp only at *
  simp only [*]

/-- **C87.** The program runs with the options `o`, and `args` for the commands, iff that is what the command line says. -/
theorem C87_reading (P : Paths) (argv : List Text) (o : Main.Opts) (args : List Text) :
    (∃ es, parse [] argv = .ok es args ∧ toOpts P es = o) ↔ CommandLine P argv o args := by
  constructor
  · rintro ⟨es, hp, rfl⟩
    have := parse_explains argv.length argv (Nat.le_refl _) [] distinct_nil
    rw [hp] at this
    obtain ⟨items, new, rest, h1, h2, h3, h4, h5, h6⟩ := this
    rw [List.nil_append] at h5 h6
    subst h5
    have ho := (once_iff h3).2 h6
    exact ⟨items, rest, h1, h2, entries_fine h3 h4, ho, says_toOpts P h3 ho⟩
  · rintro ⟨items, rest, rfl, h2, h3, h4, h5⟩
    obtain ⟨new, h6, h7⟩ := fine_entries h3
    have hd := (once_iff h6).1 h4
    refine ⟨new, ?_, (says_toOpts P h6 h4).unique h5⟩
    rw [parse_items (es := []) h6 h7 (by simpa using hd), List.nil_append]
    rcases h2 with ⟨rfl, rfl⟩ | rfl
    · rw [parse.eq_def]
    · rw [parse.eq_def]
      rfl

theorem asks_iff (argv : List Text) : AsksForHelp argv ↔ parse [] argv = .help ∨ parse [] argv = .version := by
  constructor
  · rintro ⟨items, w, rest, rfl, h3, h4, h5⟩
    obtain ⟨new, h6, h7⟩ := fine_entries h3
    have hd := (once_iff h6).1 h4
    rw [parse_items (es := []) h6 h7 (by simpa using hd)]
    exact parse_help h5 _ _
  · intro h
    have := parse_explains argv.length argv (Nat.le_refl _) [] distinct_nil
    rcases h with hp | hp <;> rw [hp] at this <;> obtain ⟨items, new, w, rest, h1, h3, h4, h6, h7⟩ := this <;>
      exact ⟨items, w, rest, h1, entries_fine h3 h4, (once_iff h3).2 h6, h7⟩

variable {V σ : Type}

/-- **C87.** What the program does: what the command line says; if it says nothing, nothing is changed, and the exit code is 0 if help or the version was
asked for, and otherwise 2. -/
theorem C87_program (P : Paths) (h : List Text → Main.Host V σ) (argv : List Text) (m : Main.Machine σ) :
    (∀ o args, CommandLine P argv o args → main P h argv m = Main.main (h args) o m) ∧
    (AsksForHelp argv → main P h argv m = (some 0, m)) ∧
    ((¬ ∃ o args, CommandLine P argv o args) → ¬ AsksForHelp argv → main P h argv m = (some 2, m)) := by
  refine ⟨fun o args hc => ?_, fun ha => ?_, fun hn ha => ?_⟩
  · obtain ⟨es, hp, rfl⟩ := (C87_reading P argv o args).2 hc
    unfold main
    rw [hp]
  · unfold main
    rcases (asks_iff argv).1 ha with hp | hp <;> rw [hp]
  · rw [asks_iff] at ha
    unfold main
    cases hp : parse [] argv with
    | ok es args => exact absurd ⟨_, _, (C87_reading P argv _ args).1 ⟨es, hp, rfl⟩⟩ hn
    | help => exact absurd (.inl hp) ha
    | version => exact absurd (.inr hp) ha
    | usage => rfl

/-- **C87.** A command line says one thing only, and one that asks for help says nothing else. -/
theorem C87_unambiguous (P : Paths) (argv : List Text) {o o' : Main.Opts} {args args' : List Text} (h : CommandLine P argv o args) :
    (CommandLine P argv o' args' → o = o' ∧ args = args') ∧ ¬ AsksForHelp argv := by
  obtain ⟨es, hp, he⟩ := (C87_reading P argv o args).2 h
  refine ⟨fun h' => ?_, fun h' => ?_⟩
  · obtain ⟨es', hp', he'⟩ := (C87_reading P argv o' args').2 h'
    rw [hp] at hp'
    cases hp'
    exact ⟨he.symm.trans he', rfl⟩
  · rcases (asks_iff argv).1 h' with hq | hq <;> rw [hp] at hq <;> cases hq

/-- **C87.** What stands after the first `--` is passed on as it is, whatever it looks like, and has no influence on the options. -/
theorem C87_passed_on (P : Paths) (front args args' : List Text) (hf : "--".toList ∉ front) (o : Main.Opts) (passed : List Text)
    (h : CommandLine P (front ++ "--".toList :: args) o passed) : passed = args ∧ CommandLine P (front ++ "--".toList :: args') o args' := by
  obtain ⟨items, rest, h1, h2, h3, h4, h5⟩ := h
  have none : "--".toList ∉ items.flatMap Item.words := by
    intro hm
    obtain ⟨i, hi, hw⟩ := List.mem_flatMap.1 hm
    obtain ⟨⟨e, he⟩, ht⟩ := (fine_iff i).1 (h3 i hi)
    have short : ∀ n : Text, n ≠ [] → "--".toList ≠ "--".toList ++ n := fun n hn he => by
      have := congrArg List.length he
      simp at this
      exact hn this
    cases i with
    | flag n =>
      obtain ⟨f, rfl, _⟩ := (flag_entry n e).1 he
      exact short _ (flag_plain f).1 (List.mem_singleton.1 hw)
    | option n v j =>
      have hn : n ≠ [] := by
        rintro rfl
        rcases (option_entry _ v j e).1 he with ⟨h, _⟩ | ⟨h, _⟩ | ⟨h, _⟩ | ⟨h, _⟩ | ⟨h, _⟩ | ⟨h, _⟩
        all_goals exact absurd h (by decide +kernel)
      cases j with
      | true =>
        have := List.mem_singleton.1 hw
        rw [List.append_assoc, List.append_assoc] at this
        exact short _ (by simp [hn]) this
      | false =>
        rcases List.mem_cons.1 hw with h' | h'
        · exact short _ hn h'
        · exact ht rfl ⟨'-', [], (List.mem_singleton.1 h').symm⟩
    | file p => exact ht ⟨'-', [], (List.mem_singleton.1 hw).symm⟩
  have split : front = items.flatMap Item.words ∧ rest = "--".toList :: args := by
    rcases h2 with ⟨rfl, -⟩ | h2
    · rw [List.append_nil] at h1
      exact absurd (by rw [← h1]; simp) none
    · rw [h2] at h1 ⊢
      clear h2 h3 h4 h5 rest
      generalize items.flatMap Item.words = ws at h1 none
      induction front generalizing ws with
      | nil =>
        cases ws with
        | nil => exact ⟨rfl, h1.symm⟩
        | cons w ws =>
          rw [List.nil_append, List.cons_append] at h1
          obtain ⟨h, -⟩ := List.cons.inj h1
          exact absurd (by rw [h]; simp) none
      | cons f front ih =>
        cases ws with
        | nil =>
          rw [List.nil_append, List.cons_append] at h1
          obtain ⟨h, -⟩ := List.cons.inj h1
          exact absurd (by rw [h]; simp) hf
        | cons w ws =>
          rw [List.cons_append, List.cons_append] at h1
          obtain ⟨h, h'⟩ := List.cons.inj h1
          obtain ⟨a, b⟩ := ih (fun hm => hf (List.mem_cons_of_mem _ hm)) ws h' (fun hm => none (List.mem_cons_of_mem _ hm))
          exact ⟨by rw [h, a], b⟩
  obtain ⟨s1, s2⟩ := split
  refine ⟨?_, items, "--".toList :: args', by rw [s1], .inr rfl, h3, h4, h5⟩
  rcases h2 with ⟨rfl, -⟩ | h2
  · cases s2
  · rw [h2] at s2
    exact (List.cons.inj s2).2

/-! ### Order -/

theorem perm_short {α} {l r : List α} (h : l.Perm r) (hl : l.length ≤ 1) : l = r := by
  match l with
  | [] => exact (List.nil_perm.1 h).symm ▸ rfl
  | [x] => exact (List.singleton_perm.1 h).symm ▸ rfl
  | _ :: _ :: _ => simp at hl

/-- **C87.** The order of the pieces does not matter, except that of the files among each other (and that in which warnings are listed): another
order says the same. -/
theorem C87_order (P : Paths) (items items' : List Item) (hf : ∀ i ∈ items, i.Fine) (ho : Once items) (o : Main.Opts) (hs : Says P items o)
    (hp : items'.Perm items) (hfiles : filesOf items' = filesOf items) :
    (∀ i ∈ items', i.Fine) ∧ Once items' ∧ ∃ allow deny, allow.Perm o.allow ∧ deny.Perm o.deny ∧
      Says P items' { o with allow := allow, deny := deny } := by
  have hf' : ∀ i ∈ items', i.Fine := fun i hi => hf i (hp.mem_iff.1 hi)
  have ho' : Once items' := fun n h1 h2 => by
    rw [(hp.filter _).length_eq]
    exact ho n h1 h2
  have hv : ∀ n, (valuesOf n items').Perm (valuesOf n items) := fun n => hp.filterMap _
  have he : ∀ n, n ≠ "allow".toList → n ≠ "deny".toList → valuesOf n items' = valuesOf n items := fun n h1 h2 =>
    perm_short (hv n) (Nat.le_trans (values_le n items') (ho' n h1 h2))
  obtain ⟨new, h6, -⟩ := fine_entries hf'
  have hs' := says_toOpts P h6 ho'
  have perm : ∀ {l r : List Warning}, (l.map called).Perm (r.map called) → l.Perm r := by
    intro l r h
    have e : ∀ l : List Warning, (l.map called).filterMap (fun t => warnings.find? fun w => warningName w == t) = l := by
      intro l
      rw [List.filterMap_map]
      have : ((fun t => warnings.find? fun w => warningName w == t) ∘ called) = some := by
        funext w
        exact find_called w
      rw [this, List.filterMap_some]
    have := h.filterMap (fun t => warnings.find? fun w => warningName w == t)
    rwa [e, e] at this
  refine ⟨hf', ho', (toOpts P new).allow, (toOpts P new).deny, perm ?_, perm ?_, ?_⟩
  · rw [← hs'.allow, ← hs.allow]
    exact hv _
  · rw [← hs'.deny, ← hs.deny]
    exact hv _
  · refine ⟨fun f hm => ?_, hs'.allow, hs'.deny, ?_, ?_, ?_, ?_, ?_⟩
    · rw [hp.mem_iff, ← hs.flags f hm]
      simp only [flags, List.mem_cons, List.not_mem_nil, or_false] at hm
      rcases hm with rfl | rfl | rfl | rfl | rfl | rfl | rfl | rfl | rfl | rfl | rfl | rfl | rfl
      all_goals exact Iff.rfl
    · rw [he _ (by decide +kernel) (by decide +kernel)]; exact hs.checkSkill
    · rw [he _ (by decide +kernel) (by decide +kernel)]; exact hs.root
    · rw [he _ (by decide +kernel) (by decide +kernel)]; exact hs.framework
    · rw [he _ (by decide +kernel) (by decide +kernel)]; exact hs.timeout
    · rw [hfiles]; exact hs.files

/-! ### Every combination of options can be asked for -/

/-- Whether a flag is to be set. -/
def Flag.of (o : Main.Opts) : Flag → Bool
  | .defaultConfig => o.defaultConfig
  | .dump => o.dump
  | .dumpCandidateCounts => o.dumpCandidateCounts
  | .dumpCandidates => o.dumpCandidates
  | .findSkill => o.findSkill
  | .noLinesOrColumns => o.noLinesOrColumns
  | .noLocalFunctions => o.noLocalFunctions
  | .noSqlite => o.noSqlite
  | .quiet => o.quiet
  | .reset => o.reset
  | .resume => o.resume
  | .verbose => o.verbose
  | .write => o.write

theorem filter_all_le (p : Flag → Bool) (n : Text) :
    (((Flag.all.filter p).map fun f => Item.flag f.long).filter fun i => i.name? == some n).length ≤ 1 := by
  have h : (Flag.all.map Flag.long).Nodup := by decide +kernel
  have h' : ((Flag.all.filter p).map Flag.long).Nodup := (List.filter_sublist.map _).nodup h
  have e : (((Flag.all.filter p).map fun f => Item.flag f.long).filter fun i => i.name? == some n).length =
      ((Flag.all.filter p).map Flag.long).count n := by
    rw [← List.countP_eq_length_filter, List.countP_map, List.count, List.countP_map]
    refine List.countP_congr fun f _ => ?_
    simp [Item.name?]
  rw [e]
  exact List.nodup_iff_count.1 h' n

/-- **C87.** Every combination of options can be asked for: paths must not be empty, files must not look like options, and a timeout must fit into 64
bits. -/
theorem C87_expressible (P : Paths) (o : Main.Opts) (args : List Text)
    (hroot : ∀ p, o.root = some p → ∃ t, t ≠ [] ∧ P.arg t = p) (hskill : ∀ p, o.checkSkill = some p → ∃ t, t ≠ [] ∧ P.skill t = p)
    (hfiles : ∀ p ∈ o.sourceFiles, ∃ t, t ≠ [] ∧ ¬ Dashed t ∧ P.arg t = p) (htime : ∀ n, o.timeout = some n → n < 2 ^ 64) :
    ∃ argv, CommandLine P argv o args := by
  obtain ⟨rt, hrt, hrt'⟩ : ∃ l : List Text, (∀ t ∈ l, t ≠ []) ∧ l.length ≤ 1 ∧ l.head?.map P.arg = o.root := by
    cases h : o.root with
    | none => exact ⟨[], by simp, by simp, rfl⟩
    | some p =>
      obtain ⟨t, h1, h2⟩ := hroot p h
      exact ⟨[t], by simpa using h1, by simp, by simp [h2]⟩
  obtain ⟨sk, hsk, hsk'⟩ : ∃ l : List Text, (∀ t ∈ l, t ≠ []) ∧ l.length ≤ 1 ∧ l.head?.map P.skill = o.checkSkill := by
    cases h : o.checkSkill with
    | none => exact ⟨[], by simp, by simp, rfl⟩
    | some p =>
      obtain ⟨t, h1, h2⟩ := hskill p h
      exact ⟨[t], by simpa using h1, by simp, by simp [h2]⟩
  obtain ⟨tm, htm, htm', htm''⟩ : ∃ l : List Text, (∀ t ∈ l, ∃ n, Number t n) ∧ l.length ≤ 1 ∧
      ((l = [] ∧ o.timeout = none) ∨ ∃ t n, l = [t] ∧ Number t n ∧ o.timeout = some n) := by
    cases h : o.timeout with
    | none => exact ⟨[], by simp, by simp, .inl ⟨rfl, rfl⟩⟩
    | some n =>
      have hn := (parseUsize_iff _ _).1 (parseUsize_showNat (htime n h))
      exact ⟨[showNat n], by simpa using ⟨n, hn⟩, by simp, .inr ⟨_, n, rfl, hn, rfl⟩⟩
  obtain ⟨fs, hfs, hfs'⟩ : ∃ l : List Text, (∀ t ∈ l, t ≠ [] ∧ ¬ Dashed t) ∧ l.map P.arg = o.sourceFiles := by
    generalize o.sourceFiles = ps at hfiles
    induction ps with
    | nil => exact ⟨[], by simp, rfl⟩
    | cons p ps ih =>
      obtain ⟨l, h1, h2⟩ := ih fun q hq => hfiles q (by simp [hq])
      obtain ⟨t, h3, h4, h5⟩ := hfiles p (by simp)
      exact ⟨t :: l, by simpa [h3, h4] using h1, by simp [h5, h2]⟩
  let opts (n : Text) (vs : List Text) : List Item := vs.map fun v => Item.option n v true
  let A := opts "allow".toList (o.allow.map called)
  let D := opts "deny".toList (o.deny.map called)
  let S := opts "check-skill".toList sk
  let R := opts "root".toList rt
  let T := opts "timeout".toList tm
  let W := opts "framework".toList [frameworkCalled o.framework]
  let G : List Item := (Flag.all.filter (Flag.of o)).map fun f => Item.flag f.long
  let F : List Item := fs.map Item.file
  let items := G ++ A ++ D ++ S ++ R ++ W ++ T ++ F
  have same : ∀ n vs, valuesOf n (opts n vs) = vs := by
    intro n vs
    show (List.map _ vs).filterMap _ = vs
    rw [List.filterMap_map]
    have : ∀ vs : List Text, vs.filterMap (fun v => if n = n then some v else Option.none) = vs := by
      intro vs
      simp
    exact this vs
  have other : ∀ n m vs, m ≠ n → valuesOf n (opts m vs) = [] := by
    intro n m vs h
    show (List.map _ vs).filterMap _ = []
    rw [List.filterMap_map, List.filterMap_eq_nil_iff]
    intro v _
    show (if m = n then some v else none) = none
    rw [if_neg h]
  have noG : ∀ n, valuesOf n G = [] := by
    intro n
    show (List.map _ _).filterMap _ = []
    rw [List.filterMap_map, List.filterMap_eq_nil_iff]
    intro v _
    rfl
  have noF : ∀ n, valuesOf n F = [] := by
    intro n
    show (List.map _ _).filterMap _ = []
    rw [List.filterMap_map, List.filterMap_eq_nil_iff]
    intro v _
    rfl
  have app : ∀ n, valuesOf n items = valuesOf n A ++ valuesOf n D ++ valuesOf n S ++ valuesOf n R ++ valuesOf n W ++ valuesOf n T := by
    intro n
    have e : ∀ a b, valuesOf n (a ++ b) = valuesOf n a ++ valuesOf n b := fun a b => List.filterMap_append
    simp only [items, e, noG, noF, List.nil_append, List.append_nil]
  have fine : ∀ i ∈ items, i.Fine := by
    intro i hi
    have join : ∀ n (vs : List Text), (∀ v ∈ vs, Value n v) → i ∈ opts n vs → i.Fine := by
      intro n vs hv hi
      obtain ⟨v, hm, rfl⟩ := List.mem_map.1 hi
      exact ⟨hv v hm, by intro h; cases h⟩
    simp only [items, List.mem_append] at hi
    rcases hi with ((((((hi | hi) | hi) | hi) | hi) | hi) | hi) | hi
    · obtain ⟨f, _, rfl⟩ := List.mem_map.1 hi
      exact (flags_long _).2 ⟨f, rfl⟩
    · refine join _ _ (fun v hv => ?_) hi
      obtain ⟨w, _, rfl⟩ := List.mem_map.1 hv
      exact .inl ⟨rfl, w, rfl⟩
    · refine join _ _ (fun v hv => ?_) hi
      obtain ⟨w, _, rfl⟩ := List.mem_map.1 hv
      exact .inr (.inl ⟨rfl, w, rfl⟩)
    · exact join _ _ (fun v hv => .inr (.inr (.inr (.inr (.inr ⟨rfl, hsk v hv⟩))))) hi
    · exact join _ _ (fun v hv => .inr (.inr (.inr (.inr (.inl ⟨rfl, hrt v hv⟩))))) hi
    · exact join _ _ (fun v hv => .inr (.inr (.inl ⟨rfl, _, List.mem_singleton.1 hv⟩))) hi
    · exact join _ _ (fun v hv => .inr (.inr (.inr (.inl ⟨rfl, htm v hv⟩)))) hi
    · obtain ⟨t, ht, rfl⟩ := List.mem_map.1 hi
      exact hfs t ht
  have once : Once items := by
    intro n h1 h2
    have cnt : ∀ m vs, ((opts m vs).filter fun i => i.name? == some n).length = if m = n then vs.length else 0 := by
      intro m vs
      show ((vs.map fun v => Item.option m v true).filter _).length = _
      induction vs with
      | nil => simp
      | cons v vs ih =>
        rw [List.map_cons, List.filter_cons]
        show (if (some m == some n) = true then _ else _ : List Item).length = _
        by_cases h : m = n
        · subst h
          simp only [beq_self_eq_true, if_true, List.length_cons]
          rw [ih]
          simp
        · have : (some m == some n) = false := by simpa using h
          rw [this, if_neg (by simp), ih, if_neg h, if_neg h]
    have cF : (F.filter fun i => i.name? == some n).length = 0 := by
      rw [List.length_eq_zero_iff, List.filter_eq_nil_iff]
      intro i hi
      obtain ⟨t, _, rfl⟩ := List.mem_map.1 hi
      simp [Item.name?]
    simp only [items, List.filter_append, List.length_append, cF, A, D, S, R, W, T, cnt, if_neg (Ne.symm h1), if_neg (Ne.symm h2)]
    by_cases hv : ∃ v : Valued, v.long = n
    · obtain ⟨v, rfl⟩ := hv
      have gz : (G.filter fun i => i.name? == some v.long).length = 0 := by
        rw [List.length_eq_zero_iff, List.filter_eq_nil_iff]
        intro i hi
        obtain ⟨f, _, rfl⟩ := List.mem_map.1 hi
        simp only [Item.name?]
        intro h
        exact long_ne f v (by simpa using h)
      rw [gz]
      have l1 := hrt'.1
      have l2 := hsk'.1
      cases v with
      | allow => exact absurd rfl h1
      | deny => exact absurd rfl h2
      | checkSkill =>
        rw [if_pos (show "check-skill".toList = Valued.long .checkSkill from rfl), if_neg (show "root".toList ≠ Valued.long .checkSkill by decide +kernel),
          if_neg (show "framework".toList ≠ Valued.long .checkSkill by decide +kernel), if_neg (show "timeout".toList ≠ Valued.long .checkSkill by decide +kernel)]
        omega
      | framework =>
        rw [if_neg (show "check-skill".toList ≠ Valued.long .framework by decide +kernel), if_neg (show "root".toList ≠ Valued.long .framework by decide +kernel),
          if_pos (show "framework".toList = Valued.long .framework from rfl), if_neg (show "timeout".toList ≠ Valued.long .framework by decide +kernel)]
        simp
      | root =>
        rw [if_neg (show "check-skill".toList ≠ Valued.long .root by decide +kernel), if_pos (show "root".toList = Valued.long .root from rfl),
          if_neg (show "framework".toList ≠ Valued.long .root by decide +kernel), if_neg (show "timeout".toList ≠ Valued.long .root by decide +kernel)]
        omega
      | timeout =>
        rw [if_neg (show "check-skill".toList ≠ Valued.long .timeout by decide +kernel), if_neg (show "root".toList ≠ Valued.long .timeout by decide +kernel),
          if_neg (show "framework".toList ≠ Valued.long .timeout by decide +kernel), if_pos (show "timeout".toList = Valued.long .timeout from rfl)]
        omega
    · have n1 : "check-skill".toList ≠ n := fun h => hv ⟨.checkSkill, h⟩
      have n2 : "root".toList ≠ n := fun h => hv ⟨.root, h⟩
      have n3 : "framework".toList ≠ n := fun h => hv ⟨.framework, h⟩
      have n4 : "timeout".toList ≠ n := fun h => hv ⟨.timeout, h⟩
      rw [if_neg n1, if_neg n2, if_neg n3, if_neg n4]
      have := filter_all_le (Flag.of o) n
      omega
  refine ⟨items.flatMap Item.words ++ "--".toList :: args, items, _, rfl, .inr rfl, fine, once, ?_⟩
  refine ⟨?_, ?_, ?_, ?_, ?_, ?_, ?_, ?_⟩
  · have key : ∀ g : Flag, Flag.of o g = true ↔ Item.flag g.long ∈ items := by
      intro g
      constructor
      · intro h
        have : Item.flag g.long ∈ G := List.mem_map.2 ⟨g, List.mem_filter.2 ⟨by cases g <;> decide, h⟩, rfl⟩
        simp only [items, List.mem_append]
        exact .inl (.inl (.inl (.inl (.inl (.inl (.inl this))))))
      · intro h
        simp only [items, List.mem_append] at h
        rcases h with ((((((h | h) | h) | h) | h) | h) | h) | h
        · obtain ⟨f, hf, he⟩ := List.mem_map.1 h
          have : f = g := long_inj (by injection he)
          rw [← this]
          exact (List.mem_filter.1 hf).2
        all_goals
          obtain ⟨_, _, he⟩ := List.mem_map.1 h
          cases he
    intro f hf
    simp only [flags, List.mem_cons, List.not_mem_nil, or_false] at hf
    rcases hf with rfl | rfl | rfl | rfl | rfl | rfl | rfl | rfl | rfl | rfl | rfl | rfl | rfl
    · exact key .defaultConfig
    · exact key .dump
    · exact key .dumpCandidateCounts
    · exact key .dumpCandidates
    · exact key .findSkill
    · exact key .noLinesOrColumns
    · exact key .noLocalFunctions
    · exact key .noSqlite
    · exact key .quiet
    · exact key .reset
    · exact key .resume
    · exact key .verbose
    · exact key .write
  all_goals try rw [app]
  all_goals try simp only [A, D, S, R, W, T]
  · rw [same, other _ _ _ (by decide +kernel), other _ _ _ (by decide +kernel), other _ _ _ (by decide +kernel), other _ _ _ (by decide +kernel), other _ _ _ (by decide +kernel)]
    simp
  · rw [other _ _ _ (by decide +kernel), same, other _ _ _ (by decide +kernel), other _ _ _ (by decide +kernel), other _ _ _ (by decide +kernel), other _ _ _ (by decide +kernel)]
    simp
  · rw [other _ _ _ (by decide +kernel), other _ _ _ (by decide +kernel), same, other _ _ _ (by decide +kernel), other _ _ _ (by decide +kernel), other _ _ _ (by decide +kernel)]
    simp only [List.nil_append, List.append_nil]
    exact hsk'.2.symm
  · rw [other _ _ _ (by decide +kernel), other _ _ _ (by decide +kernel), other _ _ _ (by decide +kernel), same, other _ _ _ (by decide +kernel), other _ _ _ (by decide +kernel)]
    simp only [List.nil_append, List.append_nil]
    exact hrt'.2.symm
  · right
    rw [other _ _ _ (by decide +kernel), other _ _ _ (by decide +kernel), other _ _ _ (by decide +kernel), other _ _ _ (by decide +kernel), same, other _ _ _ (by decide +kernel)]
    simp
  · rw [other _ _ _ (by decide +kernel), other _ _ _ (by decide +kernel), other _ _ _ (by decide +kernel), other _ _ _ (by decide +kernel), other _ _ _ (by decide +kernel), same]
    simp only [List.nil_append, List.append_nil]
    exact htm''
  · rw [← hfs']
    congr 1
    have e : ∀ a b, filesOf (a ++ b) = filesOf a ++ filesOf b := fun a b => List.filterMap_append
    have z : ∀ n vs, filesOf (opts n vs) = [] := by
      intro n vs
      show (List.map _ vs).filterMap _ = []
      rw [List.filterMap_map, List.filterMap_eq_nil_iff]
      intro v _
      rfl
    have zG : filesOf G = [] := by
      show (List.map _ _).filterMap _ = []
      rw [List.filterMap_map, List.filterMap_eq_nil_iff]
      intro v _
      rfl
    have zF : filesOf F = fs := by
      show (List.map _ fs).filterMap _ = fs
      rw [List.filterMap_map]
      exact List.filterMap_some
    simp only [items, e, A, D, S, R, W, T, z, zG, zF, List.nil_append]

/-- **C87.** The name under which a warning is printed (with `--allow` before it) can be given to `--allow` and `--deny`, and means that warning. -/
theorem C87_names (P : Paths) (w : Warning) :
    CommandLine P ["--allow".toList, warningName w] { allow := [w] } [] ∧ CommandLine P ["--deny=".toList ++ warningName w] { deny := [w] } [] := by
  constructor
  · refine (C87_reading P _ _ _).1 ⟨[.allow w], ?_, rfl⟩
    cases w <;> decide +kernel
  · refine (C87_reading P _ _ _).1 ⟨[.deny w], ?_, rfl⟩
    cases w <;> decide +kernel

/-! ### Examples -/
namespace Demo

/-- One way to understand paths. -/
def paths : Paths := ⟨fun t => ⟨t.head? == some '/', splitSlash t⟩, splitSlash⟩

/-- A command line with options in several styles, and arguments that look like options. -/
def argv : List Text :=
  ["--allow".toList, "dry-run-failed".toList, "src/a.rs".toList, "--timeout=30".toList, "--no-sqlite".toList, "-".toList, "--allow=all".toList,
   "--".toList, "--quiet".toList, "--".toList, "x".toList]

/-- What it says. -/
def opts : Main.Opts :=
  { allow := [.dryRunFailed, .all], timeout := some 30, noSqlite := true, sourceFiles := ["src/a.rs".toList, "-".toList].map paths.arg }

theorem says : CommandLine paths argv opts ["--quiet".toList, "--".toList, "x".toList] :=
  (C87_reading paths argv opts _).1 ⟨[.allow .dryRunFailed, .file "src/a.rs".toList, .timeout 30, .flag .noSqlite, .file "-".toList, .allow .all],
    by decide +kernel, rfl⟩

/-- Its part after `--` can be replaced. -/
example : CommandLine paths (argv.take 7 ++ "--".toList :: ["y".toList]) opts ["y".toList] :=
  (C87_passed_on paths (argv.take 7) _ ["y".toList] (by decide +kernel) opts _ says).2

/-- These say nothing, and do not ask for help: a repeated option, an option without its value, an unknown option before `--help`, a value for an option
that takes none, a number that is too large, a name in capitals. -/
example : ∀ argv ∈ [["--quiet".toList, "--quiet".toList], ["--root".toList, "--help".toList], ["--bogus".toList, "--help".toList],
      ["--quiet=true".toList], ["--timeout".toList, "18446744073709551616".toList], ["--framework".toList, "Rust".toList]],
    (¬ ∃ o args, CommandLine paths argv o args) ∧ ¬ AsksForHelp argv := by
  have key : ∀ argv, parse [] argv = .usage → (¬ ∃ o args, CommandLine paths argv o args) ∧ ¬ AsksForHelp argv := by
    intro argv h
    refine ⟨?_, ?_⟩
    · rintro ⟨o, args, hc⟩
      obtain ⟨es, hp, _⟩ := (C87_reading paths argv o args).2 hc
      rw [h] at hp
      cases hp
    · rw [asks_iff, h]
      simp
  intro argv h
  simp only [List.mem_cons, List.not_mem_nil, or_false] at h
  rcases h with rfl | rfl | rfl | rfl | rfl | rfl <;> exact key _ (by decide +kernel)

/-- … and this asks for help. -/
example : AsksForHelp ["--quiet".toList, "-hx".toList, "--bogus".toList] := (asks_iff _).2 (.inl (by decide +kernel))

/-- `C87_order`: the demo's pieces in another order. -/
example : ∃ items items' : List Item, items ≠ items' ∧ items'.Perm items ∧ filesOf items' = filesOf items ∧ (∀ i ∈ items, i.Fine) ∧ Once items ∧
    Says paths items { quiet := true, resume := true, sourceFiles := [paths.arg "a".toList] } := by
  have h : [Item.flag "quiet".toList, .file "a".toList, .flag "resume".toList].map Item.entry? =
      [Entry.flag .quiet, .file "a".toList, .flag .resume].map some := by decide +kernel
  have hd : Distinct [Entry.flag .quiet, .file "a".toList, .flag .resume] := by
    have := (record_some (es := [Entry.flag .quiet, .file "a".toList]) (e := .flag .resume)
      ((record_some (es := [Entry.flag .quiet]) (e := .file "a".toList)
        ((record_some (es := []) (e := .flag .quiet) distinct_nil).1 (by decide +kernel))).1 (by decide +kernel))).1 (by decide +kernel)
    exact this
  have ho := (once_iff h).2 hd
  have hf : ∀ i ∈ [Item.flag "quiet".toList, .file "a".toList, .flag "resume".toList], i.Fine := entries_fine h (by
    intro i hi
    simp only [List.mem_cons, List.not_mem_nil, or_false] at hi
    rcases hi with rfl | rfl | rfl
    · exact True.intro
    · exact (shape_plain_iff _).1 (by decide +kernel)
    · exact True.intro)
  exact ⟨_, [.file "a".toList, .flag "resume".toList, .flag "quiet".toList], by decide +kernel, by decide +kernel, by decide +kernel, hf, ho,
    says_toOpts paths h ho⟩

end Demo
end Necessist.Cli
