import Verif.Spec.Warnings
import Verif.Lemmas.Parse
/-! Facts about sequences of warnings. -/
namespace Necessist

theorem after_append (o : WarnOpts) (is js : List Issue) : ∀ st : WStates,
    WStates.after o st (is ++ js) = WStates.after o (WStates.after o st is) js := by
  induction is with
  | nil => intro st; rfl
  | cons i is ih => intro st; exact ih _

theorem shownFor_cons (o : WarnOpts) (st : WStates) (i : Issue) (is : List Issue) :
    shownFor o st (i :: is) = shownFor o st [i] ++ shownFor o (warnInternal o st i.call).2 is := by
  simp [shownFor, warnHistory, printedBy]

theorem shownFor_nil (o : WarnOpts) (st : WStates) : shownFor o st [] = [] := rfl

theorem shownFor_append (o : WarnOpts) (is js : List Issue) : ∀ st : WStates,
    shownFor o st (is ++ js) = shownFor o st is ++ shownFor o (WStates.after o st is) js := by
  induction is with
  | nil => intro st; rfl
  | cons i is ih =>
    intro st
    rw [List.cons_append, shownFor_cons, ih, shownFor_cons o st i is, List.append_assoc]
    rfl

theorem own_append (cs ds : List WarnCall) : own (cs ++ ds) = own cs ++ own ds := by simp [own]

theorem shownFor_own_cons (o : WarnOpts) (st : WStates) (c : WarnCall) (cs : List WarnCall) :
    shownFor o st (own (c :: cs)) = shownFor o st [⟨c, true⟩] ++ shownFor o (warnInternal o st c).2 (own cs) := shownFor_cons o st ⟨c, true⟩ _

theorem NoneDenied.nil {o : WarnOpts} : NoneDenied o [] := fun _ h => nomatch h

theorem NoneDenied.append {o : WarnOpts} {is js : List Issue} (h : NoneDenied o is) (h' : NoneDenied o js) : NoneDenied o (is ++ js) := by
  intro i hi
  rcases List.mem_append.1 hi with hi | hi
  · exact h i hi
  · exact h' i hi

theorem NoneDenied.cut {o : WarnOpts} {is js : List Issue} (h : NoneDenied o is) (h' : EndsDenied o js) : EndsDenied o (is ++ js) := by
  obtain ⟨js', i, rfl, h1, h2⟩ := h'
  exact ⟨is ++ js', i, by rw [List.append_assoc], h.append h1, h2⟩

theorem denied_iff (o : WarnOpts) (w : Warning) : Parse.Denied o w ↔ Denied o w := Iff.rfl

/-- One call. -/
theorem internal_cases (o : WarnOpts) (st : WStates) (c : WarnCall) (h : c.warning ≠ .all) :
    (Denied o c.warning ∧ (∃ m, (warnInternal o st c).1 = .bail m) ∧ shownFor o st [⟨c, true⟩] = []) ∨
    (¬ Denied o c.warning ∧ (warnInternal o st c).1 = .silent ∧ shownFor o st [⟨c, true⟩] = []) ∨
    (¬ Denied o c.warning ∧ o.quiet = false ∧ ∃ m, (warnInternal o st c).1 = .print m ∧ shownFor o st [⟨c, true⟩] = [m]) := by
  simp only [shownFor, List.map_cons, List.map_nil, warnHistory, printedBy, List.append_nil]
  unfold warnInternal Denied
  rw [if_neg h]
  dsimp only
  split
  · rename_i hd
    left
    refine ⟨by simpa using hd, ⟨_, rfl⟩, rfl⟩
  · rename_i hd
    right
    have hd : ¬ (Warning.all ∈ o.deny ∨ c.warning ∈ o.deny) := by simpa using hd
    split
    · exact Or.inl ⟨hd, rfl, rfl⟩
    · rename_i hq
      refine Or.inr ⟨hd, ?_, _, rfl, rfl⟩
      simp at hq
      exact hq.1.1.1

theorem messages_append (rs rs' : List (Option WarnMsg)) : messages (rs ++ rs') = messages rs ++ messages rs' := by
  simp [messages]

/-- Only the calls count for what is shown. -/
theorem shownFor_calls (o : WarnOpts) (st : WStates) (is js : List Issue) (h : is.map (·.call) = js.map (·.call)) :
    shownFor o st is = shownFor o st js := by unfold shownFor; rw [h]

/-- The states after some calls say what happened. -/
structure Knows (is : List Issue) (rs : List (Option WarnMsg)) (st : WStates) : Prop where
  bug : ∀ w, w ≠ .all → ((st w).bugMsg = true ↔ PotentialBug w ∧ ∃ i ∈ is, i.call.warning = w)
  emitted : ∀ w, w ≠ .all → ((st w).emitted = true ↔ ∃ m, some m ∈ rs ∧ m.warning = w)
  allow : ∀ w, (st w).allowMsg = (st w).emitted

theorem mayBeBug_iff (w : Warning) : mayBeBug w = true ↔ PotentialBug w := by
  unfold mayBeBug PotentialBug; cases w <;> simp

theorem results_exist (o : WarnOpts) (is : List Issue) :
    ∃ rs, Results o is rs ∧ is.length = rs.length ∧ shownFor o .init is = messages rs ∧ Knows is rs (WStates.after o .init is) := by
  have hrev : ∀ js : List Issue, ∃ rs, Results o js.reverse rs ∧ js.reverse.length = rs.length ∧ shownFor o .init js.reverse = messages rs ∧
      Knows js.reverse rs (WStates.after o .init js.reverse) := by
    intro js
    induction js with
    | nil => exact ⟨[], .nil, rfl, rfl, by simp [WStates.after, WStates.init], by simp [WStates.after, WStates.init], by simp [WStates.after, WStates.init]⟩
    | cons i js ih =>
      obtain ⟨rs, h1, h2, h3, k1, k2, k3⟩ := ih
      rw [List.reverse_cons]
      generalize js.reverse = is at *
      generalize hst : WStates.after o .init is = st at *
      have hsh : shownFor o .init (is ++ [i]) = messages rs ++ shownFor o st [i] := by rw [shownFor_append, h3, hst]
      have haf : WStates.after o .init (is ++ [i]) = (warnInternal o st i.call).2 := by rw [after_append, hst]; rfl
      have hms : ∀ r, messages (rs ++ [r]) = messages rs ++ r.toList := by
        intro r; rw [messages_append]; simp [messages]
      have hone : shownFor o st [i] = match (warnInternal o st i.call).1 with | .print m => [m] | _ => [] := by
        simp only [shownFor, warnHistory, printedBy, List.map_cons, List.map_nil, List.append_nil]
        rfl
      by_cases hall : i.call.warning = .all
      · refine ⟨rs ++ [none], .silent h1 (Or.inl hall), by simp [h2], ?_, ?_⟩
        · rw [hsh, hms, hone]
          simp [warnInternal, hall]
        · rw [haf]
          have : (warnInternal o st i.call).2 = st := by simp [warnInternal, hall]
          rw [this]
          refine ⟨fun w hw => ?_, fun w hw => ?_, k3⟩
          · rw [k1 w hw]
            have : ∀ j, j ∈ is ++ [i] ∧ j.call.warning = w ↔ j ∈ is ∧ j.call.warning = w := by
              intro j
              constructor
              · rintro ⟨a, b⟩
                rcases List.mem_append.1 a with a | a
                · exact ⟨a, b⟩
                · rw [List.mem_singleton.1 a, hall] at b; exact absurd b.symm hw
              · rintro ⟨a, b⟩; exact ⟨List.mem_append_left _ a, b⟩
            simp only [this]
          · rw [k2 w hw]; simp
      have hset : ∀ (s : WState) (w : Warning), w ≠ i.call.warning → (st.set i.call.warning s) w = st w := by
        intro s w hw; simp [WStates.set, hw]
      have hset' : ∀ (s : WState), (st.set i.call.warning s) i.call.warning = s := by intro s; simp [WStates.set]
      have kb := k1 i.call.warning hall
      have ke := k2 i.call.warning hall
      have hbug : ∀ (r : Option WarnMsg) (st' : WStates), (∀ w, w ≠ i.call.warning → st' w = st w) →
          (st' i.call.warning).bugMsg = ((st i.call.warning).bugMsg || (mayBeBug i.call.warning && !(st i.call.warning).bugMsg)) →
          ∀ w, w ≠ .all → ((st' w).bugMsg = true ↔ PotentialBug w ∧ ∃ j ∈ is ++ [i], j.call.warning = w) := by
        intro r st' e1 e2 w hw
        by_cases hwi : w = i.call.warning
        · subst hwi
          rw [e2]
          rw [← mayBeBug_iff] at kb ⊢
          cases hm : mayBeBug i.call.warning
          · simp [hm] at kb; simp [kb]
          · simp
        · rw [e1 w hwi, k1 w hw]
          refine and_congr_right fun _ => ⟨fun ⟨j, a, b⟩ => ⟨j, List.mem_append_left _ a, b⟩, fun ⟨j, a, b⟩ => ⟨j, ?_, b⟩⟩
          rcases List.mem_append.1 a with a | a
          · exact a
          · rw [List.mem_singleton.1 a] at b; exact absurd b.symm hwi
      unfold warnInternal at haf hone
      rw [if_neg hall] at haf hone
      dsimp only at haf hone
      by_cases hd : (o.deny.contains .all || o.deny.contains i.call.warning) = true
      · rw [if_pos hd] at haf hone
        refine ⟨rs ++ [none], .silent h1 (Or.inr (Or.inl ?_)), by simp [h2], by rw [hsh, hms, hone]; simp, ?_⟩
        · simpa [Denied] using hd
        · rw [haf]
          refine ⟨hbug none _ (hset _) (by simp only [hset']), fun w hw => ?_, fun w => ?_⟩
          · have : ((st.set i.call.warning { (st i.call.warning) with bugMsg := (st i.call.warning).bugMsg || (mayBeBug i.call.warning && !(st i.call.warning).bugMsg) }) w).emitted = (st w).emitted := by
              simp only [WStates.set]; split
              · rename_i e; rw [e]
              · rfl
            rw [this, k2 w hw]; simp
          · simp only [WStates.set]; split
            · exact k3 _
            · exact k3 w
      · rw [if_neg hd] at haf hone
        have hnd : ¬ Denied o i.call.warning := by simpa [Denied] using hd
        by_cases hq : (o.quiet || o.allow.contains .all || o.allow.contains i.call.warning || (i.call.once && (st i.call.warning).emitted)) = true
        · rw [if_pos hq] at haf hone
          refine ⟨rs ++ [none], .silent h1 ?_, by simp [h2], by rw [hsh, hms, hone]; simp, ?_⟩
          · simp only [Bool.or_eq_true, Bool.and_eq_true] at hq
            rcases hq with ((hq | hq) | hq) | hq
            · exact Or.inr (Or.inr (Or.inr (Or.inl hq)))
            · exact Or.inr (Or.inr (Or.inl (Or.inl (by simpa using hq))))
            · exact Or.inr (Or.inr (Or.inl (Or.inr (by simpa using hq))))
            · exact Or.inr (Or.inr (Or.inr (Or.inr ⟨hq.1, ke.1 hq.2⟩)))
          · rw [haf]
            refine ⟨hbug none _ (hset _) (by simp only [hset']), fun w hw => ?_, fun w => ?_⟩
            · have : ((st.set i.call.warning { (st i.call.warning) with bugMsg := (st i.call.warning).bugMsg || (mayBeBug i.call.warning && !(st i.call.warning).bugMsg) }) w).emitted = (st w).emitted := by
                simp only [WStates.set]; split
                · rename_i e; rw [e]
                · rfl
              rw [this, k2 w hw]; simp
            · simp only [WStates.set]; split
              · exact k3 _
              · exact k3 w
        · rw [if_neg hq] at haf hone
          have hl : ¬ Silent o rs i.call := by
            rintro (a | a | a | a | ⟨a, b⟩)
            · exact hall a
            · exact hnd a
            · apply hq; rcases a with a | a <;> simp [a]
            · apply hq; simp [a]
            · apply hq; simp [a, ke.2 b]
          refine ⟨rs ++ [some ⟨i.call.warning, i.call.source, i.call.msg, mayBeBug i.call.warning && !(st i.call.warning).bugMsg, !(st i.call.warning).allowMsg⟩],
            .printed h1 hl ?_ ?_, by simp [h2], ?_, ?_⟩
          · rw [Bool.and_eq_true, mayBeBug_iff]
            refine and_congr_right fun hp => ?_
            have : (st i.call.warning).bugMsg = true ↔ ∃ j ∈ is, j.call.warning = i.call.warning := by rw [kb]; simp [hp]
            simp only [Bool.not_eq_true', ← Bool.not_eq_true, this]
            simp
          · rw [k3]
            simp only [Bool.not_eq_true', ← Bool.not_eq_true, ke]
            simp
          · rw [hsh, hms, hone]
            rfl
          · rw [haf]
            refine ⟨hbug none _ (hset _) (by simp only [hset']), fun w hw => ?_, fun w => ?_⟩
            · simp only [WStates.set]; split
              · rename_i e; subst e; simp
              · rename_i e
                rw [k2 w hw]
                constructor
                · rintro ⟨m, a, b⟩; exact ⟨m, List.mem_append_left _ a, b⟩
                · rintro ⟨m, a, b⟩
                  rcases List.mem_append.1 a with a | a
                  · exact ⟨m, a, b⟩
                  · cases List.mem_singleton.1 a; exact absurd b.symm e
            · simp only [WStates.set]; split
              · rfl
              · exact k3 w
  have := hrev is.reverse
  rwa [List.reverse_reverse] at this

theorem warnStep_issue {o : WarnOpts} {st : WStates} {c : WarnCall} (h : c.warning ≠ .all) :
    (Denied o c.warning ∧ warnStep o st c = none ∧ shownFor o st [⟨c, true⟩] = []) ∨
    (¬ Denied o c.warning ∧ warnStep o st c = some (shownFor o st [⟨c, true⟩], (warnInternal o st c).2)) := by
  unfold warnStep
  rcases hw : warnInternal o st c with ⟨r, st'⟩
  have := internal_cases o st c h
  rw [hw] at this
  rcases this with ⟨h1, ⟨m, h2⟩, h3⟩ | ⟨h1, h2, h3⟩ | ⟨h1, _, m, h2, h3⟩ <;> simp only at h2 <;> subst h2
  · exact Or.inl ⟨h1, rfl, h3⟩
  · exact Or.inr ⟨h1, by rw [h3]⟩
  · exact Or.inr ⟨h1, by rw [h3]⟩

namespace Parse
open Visit Run

/-- From `st` to `st'`, exactly these warnings are given, and none is denied. -/
structure Gave (o : WarnOpts) (cs : List WarnCall) (st st' : PState) : Prop where
  warns : st'.warns = WStates.after o st.warns (own cs)
  printed : st'.printed = st.printed ++ shownFor o st.warns (own cs)
  clean : NoneDenied o (own cs)

/-- … but the last is denied. -/
structure Refused (o : WarnOpts) (cs : List WarnCall) (st st' : PState) : Prop where
  printed : st'.printed = st.printed ++ shownFor o st.warns (own cs)
  cut : EndsDenied o (own cs)

theorem Gave.refl (o : WarnOpts) (st : PState) : Gave o [] st st := ⟨rfl, by simp [own, shownFor_nil], NoneDenied.nil⟩

theorem Gave.trans {o cs ds} {st st' st'' : PState} (h : Gave o cs st st') (h' : Gave o ds st' st'') : Gave o (cs ++ ds) st st'' where
  warns := by rw [h'.warns, h.warns, own_append, after_append]
  printed := by rw [h'.printed, h.printed, own_append, shownFor_append, h.warns, List.append_assoc]
  clean := by rw [own_append]; exact h.clean.append h'.clean

theorem Gave.refused {o cs ds} {st st' st'' : PState} (h : Gave o cs st st') (h' : Refused o ds st' st'') : Refused o (cs ++ ds) st st'' where
  printed := by rw [h'.printed, h.printed, own_append, shownFor_append, h.warns, List.append_assoc]
  cut := by rw [own_append]; exact h.clean.cut h'.cut

theorem insertName_spec (n : Text) : ∀ xs : List Text, xs.Pairwise (fun a b => compare a b = .lt) →
    (insertName n xs).Pairwise (fun a b => compare a b = .lt) ∧ ∀ x, x ∈ insertName n xs ↔ x = n ∨ x ∈ xs
  | [], _ => by simp [insertName]
  | y :: ys, hp => by
    obtain ⟨h1, h2⟩ := List.pairwise_cons.1 hp
    obtain ⟨i1, i2⟩ := insertName_spec n ys h2
    unfold insertName
    cases hc : compare n y with
    | lt =>
      refine ⟨List.pairwise_cons.2 ⟨fun z hz => ?_, hp⟩, fun x => by simp⟩
      rcases List.mem_cons.1 hz with rfl | hz
      · exact hc
      · exact Std.TransCmp.lt_trans hc (h1 z hz)
    | eq =>
      have := Std.LawfulEqCmp.eq_of_compare hc
      subst this
      exact ⟨hp, fun x => by simp⟩
    | gt =>
      refine ⟨List.pairwise_cons.2 ⟨fun z hz => ?_, i1⟩, fun x => ?_⟩
      · rcases (i2 z).1 hz with rfl | hz
        · exact Std.OrientedCmp.gt_iff_lt.1 hc
        · exact h1 z hz
      · simp only [List.mem_cons, i2]
        constructor
        · rintro (h | h | h)
          · exact Or.inr (Or.inl h)
          · exact Or.inl h
          · exact Or.inr (Or.inr h)
        · rintro (h | h | h)
          · exact Or.inr (Or.inl h)
          · exact Or.inl h
          · exact Or.inr (Or.inr h)

theorem sortNames_sorted (ns : List Text) : (sortNames ns).Pairwise (fun a b => compare a b = .lt) := by
  induction ns with
  | nil => exact .nil
  | cons n ns ih => exact (insertName_spec n _ ih).1

theorem mem_sortNames {ns : List Text} {n : Text} : n ∈ sortNames ns ↔ n ∈ ns := by
  induction ns with
  | nil => rfl
  | cons m ns ih => rw [List.mem_cons, ← ih]; exact (insertName_spec m _ (sortNames_sorted ns)).2 n

theorem ambiguousCall_eq (f : SourceFile) (names : List Text) :
    [(⟨.localFunctionAmbiguous, none, ambiguousMsg f names, false⟩ : WarnCall)] = [ambiguousCall f (sortNames names)] := by
  unfold ambiguousMsg ambiguousCall
  rw [List.flatMap]
  have : ∀ a b c d : Text, a ++ b ++ "`: ".toList ++ ("{".toList ++ c ++ d) = a ++ b ++ "`: {".toList ++ c ++ d := by
    intro a b c d
    have e : "`: {".toList = "`: ".toList ++ "{".toList := rfl
    rw [e]; simp only [List.append_assoc]
  rw [this]

theorem warnP_gives (o : WarnOpts) (c : WarnCall) (h : c.warning ≠ .all) (st : PState) :
    (∃ st', warnP o c st = (.ok (), st') ∧ Gave o [c] st st') ∨ (∃ st', warnP o c st = (.err .denied, st') ∧ Refused o [c] st st') := by
  unfold warnP
  rcases warnStep_issue (o := o) (st := st.warns) h with ⟨h1, h2, h3⟩ | ⟨h1, h2⟩ <;> rw [h2]
  · exact Or.inr ⟨st, rfl, by simp [own, h3], [], ⟨c, true⟩, rfl, NoneDenied.nil, h1⟩
  · refine Or.inl ⟨_, rfl, rfl, rfl, ?_⟩
    intro i hi
    have : i = ⟨c, true⟩ := by simpa [own] using hi
    rw [this]; exact h1

theorem warnsP_gives (o : WarnOpts) : ∀ (cs : List WarnCall), (∀ c ∈ cs, c.warning ≠ .all) → ∀ st : PState,
    (∃ st', warnsP o cs st = (.ok (), st') ∧ Gave o cs st st') ∨
    (∃ st' ds es, warnsP o cs st = (.err .denied, st') ∧ cs = ds ++ es ∧ Refused o ds st st') := by
  intro cs
  induction cs with
  | nil => exact fun _ st => Or.inl ⟨st, rfl, Gave.refl _ _⟩
  | cons c cs ih =>
    intro h st
    rw [warnsP]
    rcases warnP_gives o c (h c List.mem_cons_self) st with ⟨st', h1, h2⟩ | ⟨st', h1, h2⟩ <;> rw [h1] <;> simp only
    · rcases ih (fun x hx => h x (List.mem_cons_of_mem _ hx)) st' with ⟨st2, h3, h4⟩ | ⟨st2, ds, es, h3, h4, h5⟩
      · exact Or.inl ⟨st2, h3, h2.trans h4⟩
      · exact Or.inr ⟨st2, c :: ds, es, h3, by rw [h4]; rfl, h2.refused h5⟩
    · exact Or.inr ⟨st', [c], cs, rfl, rfl, h2⟩

theorem step_clean {o : WarnOpts} {c : WarnCall} (h : ¬ Denied o c.warning) : NoneDenied o [⟨c, true⟩] := by
  intro i hi
  have : i = ⟨c, true⟩ := by simpa using hi
  rw [this]; exact h

theorem collectLoop_gives {alnum : Char → Bool} (o : WarnOpts) (f : SourceFile) : ∀ (ls : List Text) (n : Nat) (hdr : Bool) (d : Directives)
    (st : WStates),
    (∃ d', collectLoop alnum o f n hdr d st ls =
        (some (d', WStates.after o st (own ((dueCalls alnum f n hdr ls).map (·.2)))), shownFor o st (own ((dueCalls alnum f n hdr ls).map (·.2)))) ∧
      NoneDenied o (own ((dueCalls alnum f n hdr ls).map (·.2)))) ∨
    (∃ ds es, (dueCalls alnum f n hdr ls).map (·.2) = ds ++ es ∧ collectLoop alnum o f n hdr d st ls = (none, shownFor o st (own ds)) ∧
      EndsDenied o (own ds)) := by
  intro ls
  induction ls with
  | nil => exact fun n hdr d st => Or.inl ⟨d, rfl, NoneDenied.nil⟩
  | cons line ls ih =>
    intro n hdr d st
    have hh : (if !isFileHeaderLine line then false else hdr) = (hdr && isFileHeaderLine line) := by
      cases isFileHeaderLine line <;> simp
    have silent : dueFor alnum f n hdr line = none → ∀ d',
        (∃ d2, collectLoop alnum o f (n + 1) (hdr && isFileHeaderLine line) d' st ls =
          (some (d2, WStates.after o st (own ((dueCalls alnum f n hdr (line :: ls)).map (·.2)))),
            shownFor o st (own ((dueCalls alnum f n hdr (line :: ls)).map (·.2)))) ∧
          NoneDenied o (own ((dueCalls alnum f n hdr (line :: ls)).map (·.2)))) ∨
        (∃ ds es, (dueCalls alnum f n hdr (line :: ls)).map (·.2) = ds ++ es ∧
          collectLoop alnum o f (n + 1) (hdr && isFileHeaderLine line) d' st ls = (none, shownFor o st (own ds)) ∧ EndsDenied o (own ds)) := by
      intro hd d'
      rw [dueCalls, hd]
      exact ih (n + 1) _ d' st
    have given : ∀ c : WarnCall, c.warning ≠ .all → dueFor alnum f n hdr line = some c → ∀ d',
        (∃ d2, (match warnStep o st c with
            | none => (none, [])
            | some (ms, st) => ((collectLoop alnum o f (n + 1) (hdr && isFileHeaderLine line) d' st ls).1,
                ms ++ (collectLoop alnum o f (n + 1) (hdr && isFileHeaderLine line) d' st ls).2)) =
          (some (d2, WStates.after o st (own ((dueCalls alnum f n hdr (line :: ls)).map (·.2)))),
            shownFor o st (own ((dueCalls alnum f n hdr (line :: ls)).map (·.2)))) ∧
          NoneDenied o (own ((dueCalls alnum f n hdr (line :: ls)).map (·.2)))) ∨
        (∃ ds es, (dueCalls alnum f n hdr (line :: ls)).map (·.2) = ds ++ es ∧
          (match warnStep o st c with
            | none => (none, [])
            | some (ms, st) => ((collectLoop alnum o f (n + 1) (hdr && isFileHeaderLine line) d' st ls).1,
                ms ++ (collectLoop alnum o f (n + 1) (hdr && isFileHeaderLine line) d' st ls).2)) = (none, shownFor o st (own ds)) ∧
          EndsDenied o (own ds)) := by
      intro c hc hd d'
      rw [dueCalls, hd]
      have e : (((some c).toList.map (fun c => (n, c)) ++ dueCalls alnum f (n + 1) (hdr && isFileHeaderLine line) ls).map (·.2) : List WarnCall) =
          c :: (dueCalls alnum f (n + 1) (hdr && isFileHeaderLine line) ls).map (·.2) := by simp
      rw [e]
      rcases warnStep_issue (o := o) (st := st) hc with ⟨h1, h2, h3⟩ | ⟨h1, h2⟩ <;> rw [h2]
      · exact Or.inr ⟨[c], _, rfl, by simp only [own, List.map_cons, List.map_nil, h3], [], ⟨c, true⟩, rfl, NoneDenied.nil, h1⟩
      · simp only
        rcases ih (n + 1) (hdr && isFileHeaderLine line) d' (warnInternal o st c).2 with ⟨d2, h4, h5⟩ | ⟨ds, es, h4, h5, h6⟩
        · left
          refine ⟨d2, ?_, (step_clean h1).append h5⟩
          rw [h4, shownFor_own_cons]
          rfl
        · right
          refine ⟨c :: ds, es, by rw [h4]; rfl, ?_, (step_clean h1).cut h6⟩
          rw [h5, shownFor_own_cons]
    unfold collectLoop
    dsimp only
    rw [hh]
    split
    · rename_i h1
      split
      · rename_i h2
        exact silent (by simp [dueFor, h1, h2]) _
      · rename_i h2
        exact given ⟨.skipFileMispositioned, some (directiveSpan f n line).display, mispositionedMsg, false⟩ (by simp)
          (by simp [dueFor, h1, h2]) _
    · rename_i h1
      split
      · rename_i h2
        exact silent (by simp [dueFor, h1, h2]) _
      · rename_i h2
        split
        · rename_i dir h3
          exact given ⟨.directiveUnrecognized, some (directiveSpan f n line).display, unrecognizedMsg dir, false⟩ (by simp)
            (by simp [dueFor, h1, h2, h3]) _
        · rename_i h3
          exact silent (by simp [dueFor, h1, h2, h3]) _

theorem collect_gives (b : Backend) (f : SourceFile) (contents : Text) (st : PState) :
    ∃ cs, DirectiveCalls b f contents cs ∧
      ((∃ d ws ms, Directives.collect b.alnum b.warn st.warns f contents = (some (d, ws), ms) ∧ HasDirectives b f contents d ∧
          Gave b.warn cs st { st with warns := ws, printed := st.printed ++ ms }) ∨
       (∃ ms ds es, Directives.collect b.alnum b.warn st.warns f contents = (none, ms) ∧ cs = ds ++ es ∧
          Refused b.warn ds st { st with printed := st.printed ++ ms })) := by
  refine ⟨(dueCalls b.alnum f 1 true (lines contents)).map (·.2), ⟨_, dueCalls_sorted _ _ _ _, fun n c => dueCalls_due n c, rfl⟩, ?_⟩
  rcases collectLoop_gives (alnum := b.alnum) b.warn f (lines contents) 1 true {} st.warns with ⟨d, h1, h2⟩ | ⟨ds, es, h1, h2, h3⟩
  · exact Or.inl ⟨d, _, _, h1, ⟨_, _, _, h1⟩, rfl, rfl, h2⟩
  · exact Or.inr ⟨_, ds, es, h2, h1, rfl, h3⟩

/-- How far the warnings due for a file have come when it could not be dealt with: the last one given was denied, or something else
failed when there was nothing (more) to warn about. -/
def Broken (b : Backend) (config : Compiled) (f : SourceFile) (r : Res Err Unit) (cs : List WarnCall) (st st' : PState) : Prop :=
  (r = .err .denied ∧ Refused b.warn cs st st' ∧ ∃ x es, Due b config f x (cs ++ es)) ∨
  (r ≠ .ok () ∧ Gave b.warn cs st st' ∧ (cs = [] ∨ Due b config f false cs))

theorem Gave.frame {o cs} {st st' : PState} (h : Gave o cs st st') (n : Nat) (map : FileMap) :
    Gave o cs st { st' with nTests := n, map } := ⟨h.warns, h.printed, h.clean⟩

theorem visitSource_gives (b : Backend) (hb : NoAll b) (config : Compiled) (f : SourceFile) (st : PState) :
    (∃ cs st', visitSource b config f st = (.ok (), st') ∧ Due b config f true cs ∧ Gave b.warn cs st st') ∨
    (∃ r cs st', visitSource b config f st = (r, st') ∧ r ≠ .ok () ∧ Broken b config f r cs st st') := by
  unfold visitSource
  cases hr : b.read f with
  | error e => exact Or.inr ⟨_, [], st, rfl, nofun, Or.inr ⟨nofun, Gave.refl _ _, Or.inl rfl⟩⟩
  | ok contents =>
    simp only
    obtain ⟨cs, hdirs, h⟩ := collect_gives b f contents st
    rcases h with ⟨d, ws, ms, hc, hd, hg⟩ | ⟨ms, ds, es, hc, hcs, hg⟩
    rotate_left
    · rw [hc]
      exact Or.inr ⟨_, ds, _, rfl, nofun, Or.inl ⟨rfl, hg, false, es, hcs ▸ Due.directives hr hdirs⟩⟩
    rw [hc]
    simp only
    generalize ({ st with warns := ws, printed := st.printed ++ ms } : PState) = st1 at hg
    cases hsk : d.skipFile with
    | true => exact Or.inl ⟨cs, st1, rfl, Due.skipped hr hdirs hd hsk, hg⟩
    | false =>
      simp only [Bool.false_eq_true, if_false]
      cases hp : b.parseFile f with
      | error e =>
        simp only
        rcases warnP_gives b.warn (parsingFailedCall f e) (by simp [parsingFailedCall]) st1 with ⟨st2, h1, h2⟩ | ⟨st2, h1, h2⟩
        · exact Or.inl ⟨_, st2, h1, Due.unparsable hr hdirs hd hsk hp, hg.trans h2⟩
        · exact Or.inr ⟨_, _, st2, h1, nofun,
            Or.inl ⟨rfl, hg.refused h2, true, [], by rw [List.append_nil]; exact Due.unparsable hr hdirs hd hsk hp⟩⟩
      | ok ast =>
        simp only
        cases hl : ast.localFunctions with
        | error e => exact Or.inr ⟨_, cs, st1, rfl, nofun, Or.inr ⟨nofun, hg, Or.inr (Due.directives hr hdirs)⟩⟩
        | ok fns =>
          simp only
          unfold visitParsed
          dsimp only
          cases hv : visitFile (visitorFor b config contents d fns) (visitorFor b config contents d fns).walkable.length ast.tree with
          | panic => exact Or.inr ⟨_, cs, st1, rfl, nofun, Or.inr ⟨nofun, hg, Or.inr (Due.directives hr hdirs)⟩⟩
          | more => exact Or.inr ⟨_, cs, st1, rfl, nofun, Or.inr ⟨nofun, hg, Or.inr (Due.directives hr hdirs)⟩⟩
          | done vs walked =>
            simp only
            have hvis : Due b config f false (cs ++ ast.warnings) := Due.visited hr hdirs hd hsk hp hl hv
            rcases warnsP_gives b.warn ast.warnings (hb f ast hp) st1 with ⟨st2, h1, h2⟩ | ⟨st2, ds, es, h1, h2, h3⟩ <;> rw [h1] <;> simp only
            rotate_left
            · exact Or.inr ⟨_, cs ++ ds, st2, rfl, nofun,
                Or.inl ⟨rfl, hg.refused h3, false, es, by rw [List.append_assoc, ← h2]; exact hvis⟩⟩
            cases he : ast.error with
            | some e => exact Or.inr ⟨_, _, st2, rfl, nofun, Or.inr ⟨nofun, hg.trans h2, Or.inr hvis⟩⟩
            | none =>
              simp only
              have hdone := fun as => Due.done (as := as) hr hdirs hd hsk hp hl hv he
              by_cases hw : vs.warnings = []
              · simp only [hw, List.isEmpty_nil, if_true]
                refine Or.inl ⟨_, _, rfl, hdone [] (Or.inl ⟨hw, rfl⟩), ?_⟩
                rw [List.append_nil]
                exact (hg.trans h2).frame _ _
              · have hw' : vs.warnings.isEmpty = false := by simp [hw]
                simp only [hw', Bool.false_eq_true, if_false]
                have hdone := hdone _ (Or.inr ⟨hw, _, sortNames_sorted _, fun n => mem_sortNames, ambiguousCall_eq f _⟩)
                rcases warnP_gives b.warn ⟨.localFunctionAmbiguous, none, ambiguousMsg f vs.warnings, false⟩ (by simp) st2 with
                  ⟨st3, h3, h4⟩ | ⟨st3, h3, h4⟩ <;> rw [h3] <;> simp only
                · exact Or.inl ⟨_, _, rfl, hdone, ((hg.trans h2).trans h4).frame _ _⟩
                · exact Or.inr ⟨_, _, st3, rfl, nofun,
                    Or.inl ⟨rfl, (hg.trans h2).refused h4, true, [], by rw [List.append_nil]; exact hdone⟩⟩

/-- The files among the entries. -/
def filesIn (es : List (Except Err (Path × Bool))) : List Path :=
  es.filterMap fun e => match e with | .ok (q, true) => some q | _ => none

theorem pathsOf_eq (b : Backend) (paths : List Path) : pathsOf b paths = filesIn ((startingPaths b paths).flatMap (entriesOf b)) := by
  unfold pathsOf filesIn
  induction startingPaths b paths with
  | nil => rfl
  | cons p ps ih =>
    rw [List.flatMap_cons, List.flatMap_cons, List.filterMap_append, ih]
    congr 1
    unfold entriesOf
    cases b.kind p <;> rfl

theorem visitEntries_gives (b : Backend) (hb : NoAll b) (config : Compiled) : ∀ (es : List (Except Err (Path × Bool))) (st : PState),
    (∃ fs cs st', visitEntries b config es st = (.ok (), st') ∧ filesIn es = (fs.map fun f => b.root ++ f.path) ∧
      DueAll b config fs cs ∧ Gave b.warn cs st st') ∨
    (∃ r fs cs rest st', visitEntries b config es st = (r, st') ∧ r ≠ .ok () ∧
      filesIn es = (fs.map fun f => b.root ++ f.path) ++ rest ∧ DueAll b config fs cs ∧
      (Gave b.warn cs st st' ∨ ∃ (f : SourceFile) (rest' : List Path) (part : List WarnCall) (st1 : PState), rest = (b.root ++ f.path) :: rest' ∧
        Gave b.warn cs st st1 ∧ Broken b config f r part st1 st')) := by
  intro es
  induction es with
  | nil => exact fun st => Or.inl ⟨[], [], st, rfl, rfl, DueAll.nil, Gave.refl _ _⟩
  | cons e es ih =>
    intro st
    cases e with
    | error e => exact Or.inr ⟨_, [], [], filesIn es, st, rfl, nofun, rfl, DueAll.nil, Or.inl (Gave.refl _ _)⟩
    | ok x =>
      obtain ⟨p, isFile⟩ := x
      cases isFile with
      | false => exact ih st
      | true =>
        have hin : filesIn (.ok (p, true) :: es) = p :: filesIn es := rfl
        rw [visitEntries, hin]
        simp only [if_true]
        unfold visitPath
        cases hrel : relative? b.root p with
        | none => exact Or.inr ⟨_, [], [], _, st, rfl, nofun, rfl, DueAll.nil, Or.inl (Gave.refl _ _)⟩
        | some f =>
          have hp := relative?_some.1 hrel
          subst hp
          simp only
          rcases visitSource_gives b hb config f st with ⟨cs, st', h1, h2, h3⟩ | ⟨r, cs, st', h1, h2, h3⟩ <;> rw [h1]
          · simp only
            rcases ih st' with ⟨fs, cs', st2, g1, g2, g3, g4⟩ | ⟨r, fs, cs', rest, st2, g1, g2, g3, g4, g5⟩
            · exact Or.inl ⟨f :: fs, cs ++ cs', st2, g1, by rw [g2]; rfl, DueAll.cons h2 g3, h3.trans g4⟩
            · refine Or.inr ⟨r, f :: fs, cs ++ cs', rest, st2, g1, g2, by rw [g3]; rfl, DueAll.cons h2 g4, ?_⟩
              rcases g5 with g5 | ⟨f', rest', part, st3, e1, e2, e3⟩
              · exact Or.inl (h3.trans g5)
              · exact Or.inr ⟨f', rest', part, st3, e1, h3.trans e2, e3⟩
          · refine Or.inr ⟨r, [], [], _, st', ?_, h2, rfl, DueAll.nil, Or.inr ⟨f, filesIn es, cs, st, rfl, Gave.refl _ _, h3⟩⟩
            cases r with
            | ok u => exact absurd rfl h2
            | _ => rfl

theorem configWarnings_ne (b : Builtins) (user : Toml) : ∀ w ∈ configWarnings b user, w ≠ .all := by
  intro w hw
  unfold configWarnings at hw
  rcases List.mem_append.1 hw with hw | hw
  · rcases List.mem_append.1 hw with hw | hw <;> split at hw <;> simp at hw <;> subst hw <;> simp
  · split at hw <;> simp at hw <;> subst hw; simp

theorem warnAll_gives (o : WarnOpts) : ∀ (ws : List Warning), (∀ w ∈ ws, w ≠ .all) → ∀ st : WStates,
    (warnAll o st ws = (true, shownFor o st (own (ws.map configCall)), WStates.after o st (own (ws.map configCall))) ∧
      NoneDenied o (own (ws.map configCall))) ∨
    (∃ ds es st', ws.map (configCall) = ds ++ es ∧ warnAll o st ws = (false, shownFor o st (own ds), st') ∧
      EndsDenied o (own ds)) := by
  intro ws
  induction ws with
  | nil => exact fun _ st => Or.inl ⟨rfl, NoneDenied.nil⟩
  | cons w ws ih =>
    intro hw st
    have hs := internal_cases o st (configCall w) (hw w List.mem_cons_self)
    have ih := ih (fun x hx => hw x (List.mem_cons_of_mem _ hx)) (warnInternal o st (configCall w)).2
    rw [warnAll, List.map_cons]
    rcases hi : warnInternal o st (configCall w) with ⟨r, st'⟩
    have e : (warnInternal o st (configCall w)).2 = st' := by rw [hi]
    rw [hi] at hs ih
    rcases hs with ⟨h1, ⟨m, h2⟩, h3⟩ | ⟨h1, h2, h3⟩ | ⟨h1, _, m, h2, h3⟩ <;> simp only at h2 <;> subst h2 <;> simp only at ih ⊢
    · exact Or.inr ⟨[configCall w], _, st', rfl, by simp only [own, List.map_cons, List.map_nil, h3],
        [], ⟨_, true⟩, rfl, NoneDenied.nil, h1⟩
    all_goals
      rcases ih with ⟨h4, h5⟩ | ⟨ds, es, st2, h4, h5, h6⟩
      · left
        refine ⟨?_, (step_clean (c := (configCall w)) h1).append h5⟩
        rw [h4, shownFor_own_cons, h3, e]
        simp only [own, List.map_cons, WStates.after, e]
        rfl
      · right
        refine ⟨(configCall w) :: ds, es, st2, by rw [h4]; rfl, ?_, (step_clean (c := (configCall w)) h1).cut h6⟩
        rw [h5, shownFor_own_cons, h3, e]
        rfl

theorem configCalls_eq (b : Backend) (user : Toml) : configCalls b user = (configWarnings b.builtins user).map configCall := by
  unfold configCalls configWarnings
  rw [List.map_append, List.map_append]
  congr 1
  · congr 1
    · by_cases h1 : b.builtins.functions.isNone = true <;> by_cases h2 : user.ignoredFunctions = [] <;>
        simp only [h1, h2, List.isEmpty_iff, ne_eq, not_true, not_false_eq_true, and_true, and_false, true_and, false_and, if_true, if_false,
          Bool.and_eq_true, Bool.not_eq_true', List.isEmpty_eq_false_iff] <;> rfl
    · by_cases h1 : b.builtins.macros.isNone = true <;> by_cases h2 : user.ignoredMacros = [] <;>
        simp only [h1, h2, List.isEmpty_iff, ne_eq, not_true, not_false_eq_true, and_true, and_false, true_and, false_and, if_true, if_false,
          Bool.and_eq_true, Bool.not_eq_true', List.isEmpty_eq_false_iff] <;> rfl
  · by_cases h1 : b.builtins.methods.isNone = true <;> by_cases h2 : user.ignoredMethods = [] <;>
      simp only [h1, h2, List.isEmpty_iff, ne_eq, not_true, not_false_eq_true, and_true, and_false, true_and, false_and, if_true, if_false,
        Bool.and_eq_true, Bool.not_eq_true', List.isEmpty_eq_false_iff] <;> rfl

theorem parse_gives (b : Backend) (hb : NoAll b) (user : Toml) (paths : List Path) (ws : WStates) :
    ∃ r st cs, parse b user paths ws = (r, st) ∧ Gives b user paths ws r cs ∧ st.printed = shownFor b.warn ws (own cs) ∧
      (r = .ok () → st.warns = WStates.after b.warn ws (own cs)) := by
  have hc := warnAll_gives b.warn (configWarnings b.builtins user) (configWarnings_ne _ _) ws
  rw [← configCalls_eq] at hc
  rcases hc with ⟨h1, h2⟩ | ⟨ds, es, st', h1, h2, h3⟩
  rotate_left
  · refine ⟨.err .denied, { warns := st', printed := shownFor b.warn ws (own ds) }, ds, ?_, Gives.config h1 h3, rfl, nofun⟩
    unfold parse compileConfig
    rw [h2]
  · have hcc : ∃ x, compileConfig b.alnum b.warn ws b.builtins user =
        (x, shownFor b.warn ws (own (configCalls b user)), WStates.after b.warn ws (own (configCalls b user))) := by
      unfold compileConfig
      rw [h1]
      exact ⟨_, rfl⟩
    obtain ⟨x, hcc⟩ := hcc
    unfold parse
    rw [hcc]
    rcases x with _ | ⟨_ | config⟩
    · exact ⟨_, _, _, rfl, Gives.refused nofun (by rintro c ⟨_, _, h⟩; rw [hcc] at h; cases h) h2, rfl, nofun⟩
    · exact ⟨_, _, _, rfl, Gives.refused nofun (by rintro c ⟨_, _, h⟩; rw [hcc] at h; cases h) h2, rfl, nofun⟩
    · have hcomp : Compiles b user ws config := ⟨_, _, hcc⟩
      simp only [visitPaths_eq]
      have hp : (if paths.isEmpty = true then [b.root] else paths) = startingPaths b paths := by
        simp only [startingPaths, List.isEmpty_iff]
      rw [hp]
      have h2 : NoneDenied b.warn (own (configCalls b user)) := h2
      have hg : Gave b.warn (configCalls b user) { warns := ws } { warns := WStates.after b.warn ws (own (configCalls b user)), printed := shownFor b.warn ws (own (configCalls b user)) } :=
        ⟨rfl, rfl, h2⟩
      rcases visitEntries_gives b hb config ((startingPaths b paths).flatMap (entriesOf b))
        { warns := WStates.after b.warn ws (own (configCalls b user)), printed := shownFor b.warn ws (own (configCalls b user)) } with
        ⟨fs, cs, st', g1, g2, g3, g4⟩ | ⟨r, fs, cs, rest, st', g1, g2, g3, g4, g5⟩
      · have := hg.trans g4
        exact ⟨_, st', _, g1, Gives.ok hcomp (by rw [pathsOf_eq, g2]) g3 this.clean, by rw [this.printed]; rfl, fun _ => this.warns⟩
      · rcases g5 with g5 | ⟨f, rest', part, st1, e1, e2, e3⟩
        · have := hg.trans g5
          exact ⟨_, st', _, g1, Gives.between g2 hcomp (by rw [pathsOf_eq, g3]) g4 this.clean, by rw [this.printed]; rfl, fun h => absurd h g2⟩
        · subst e1
          rcases e3 with ⟨rfl, k1, x, es, k2⟩ | ⟨k1, k2, k3⟩
          · have := (hg.trans e2).refused k1
            exact ⟨_, st', _, g1, Gives.denied hcomp (by rw [pathsOf_eq, g3]) g4 k2 this.cut, by rw [this.printed]; rfl, nofun⟩
          · have := (hg.trans e2).trans k2
            rcases k3 with rfl | k3
            · rw [List.append_nil] at this
              exact ⟨_, st', _, g1, Gives.between k1 hcomp (by rw [pathsOf_eq, g3]) g4 this.clean, by rw [this.printed]; rfl, fun h => absurd h k1⟩
            · exact ⟨_, st', _, g1, Gives.within k1 hcomp (by rw [pathsOf_eq, g3]) g4 k3 this.clean, by rw [this.printed]; rfl, fun h => absurd h k1⟩

end Parse
end Necessist
