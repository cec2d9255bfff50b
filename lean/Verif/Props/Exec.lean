import Verif.Model.Exec
import Verif.Spec.Lines
import Verif.Lemmas.Parse
/-!
# C47: a test counts as run according to the whole output
-/
namespace Necessist.Exec
open Necessist.Parse

theorem not_mem_takeWhile (bs : List UInt8) : (10 : UInt8) ∉ bs.takeWhile (· != 10) := by
  intro h
  have := List.all_takeWhile (p := (· != (10 : UInt8))) (l := bs)
  rw [List.all_eq_true] at this
  simpa using this _ h

theorem byteLines_isLines (bs : List UInt8) : IsLines bs (byteLines bs) := by
  fun_induction byteLines bs with
  | case1 => exact .nil
  | case2 c cs l h =>
    have h1 : l = c :: cs := by
      have h2 : l.length ≥ (c :: cs).length := by
        have := congrArg List.length h
        simp only [List.length_drop, List.length_nil] at this
        omega
      exact (List.takeWhile_prefix (p := (· != (10 : UInt8))) (l := c :: cs)).eq_of_length_le h2
    rw [h1]
    exact .last _ (by simp) (h1 ▸ not_mem_takeWhile _)
  | case3 c cs l x rest h hlen ih =>
    have hn : (10 : UInt8) ∉ l := not_mem_takeWhile _
    have hx : c :: cs = l ++ x :: rest := by
      have e : l = (c :: cs).take l.length := List.prefix_iff_eq_take.1 (List.takeWhile_prefix _)
      rw [← h]; conv => lhs; rw [← List.take_append_drop l.length (c :: cs), ← e]
    have hx10 : x = 10 := by
      have e : (c :: cs).dropWhile (· != 10) = x :: rest := by
        have h1 := List.takeWhile_append_dropWhile (p := (· != (10 : UInt8))) (l := c :: cs)
        conv at h1 => rhs; rw [hx]
        exact List.append_cancel_left h1
      have := List.head?_dropWhile_not (p := (· != (10 : UInt8))) (l := c :: cs)
      rw [e] at this; simpa using this
    rw [hx, hx10]
    split
    · rename_i hr
      have e : l = l.dropLast ++ [13] := by
        have hne : l ≠ [] := by rintro h; rw [h] at hr; cases hr
        have h2 := List.dropLast_concat_getLast hne
        rw [List.getLast?_eq_some_getLast hne] at hr
        rw [Option.some.inj hr] at h2
        exact h2.symm
      have : IsLines (l.dropLast ++ 13 :: 10 :: rest) (l.dropLast :: byteLines rest) :=
        .crlf _ _ _ (fun hm => hn (List.dropLast_subset _ hm)) ih
      rw [show l ++ 10 :: rest = l.dropLast ++ 13 :: 10 :: rest by conv => lhs; rw [e]; simp]
      exact this
    · rename_i hr
      exact .lf _ _ _ hn hr ih

variable {s : Setup}

/-- The lines that are text. -/
def texts (s : Setup) (ls : List (List UInt8)) : List Text := ls.filterMap s.decode
/-- The lines that are not. -/
def invalid (s : Setup) (ls : List (List UInt8)) : List (List UInt8) := ls.filter fun l => (s.decode l).isNone

theorem foldLines_spec (ls : List (List UInt8)) (prev : Bool) (o : Out) :
    (∃ o', foldLines s ls prev o = (.ok (if s.init then prev && (texts s ls).all s.pred else prev || (texts s ls).any s.pred), o') ∧
      (invalid s ls = [] ∨ ¬ Denied s.warn .outputInvalid) ∧
      (∃ ms, o'.printed = o.printed ++ ms ∧ (∀ m ∈ ms, m.warning = .outputInvalid) ∧
        (Shows s.warn .outputInvalid → ms.map (fun m => (m.source, m.msg)) =
          (invalid s ls).map fun l => (some s.source, s.invalidMsg l)))) ∨
    ((∃ o', foldLines s ls prev o = (.err .denied, o')) ∧ invalid s ls ≠ [] ∧ Denied s.warn .outputInvalid) := by
  induction ls generalizing prev o with
  | nil => left; exact ⟨o, by cases h : s.init <;> simp [foldLines, texts], Or.inl rfl, [], by simp, by simp, by simp [invalid]⟩
  | cons l ls ih =>
    rw [foldLines]
    cases hd : s.decode l with
    | some line =>
      have e1 : texts s (l :: ls) = line :: texts s ls := by simp [texts, hd]
      have e2 : invalid s (l :: ls) = invalid s ls := by simp [invalid, hd]
      rw [e1, e2]
      have := ih (if s.init then prev && s.pred line else prev || s.pred line) o
      cases hi : s.init <;> simp only [hi, List.all_cons, List.any_cons, Bool.and_assoc, Bool.or_assoc, if_true, Bool.false_eq_true, if_false] at this ⊢ <;>
        exact this
    | none =>
      have e1 : texts s (l :: ls) = texts s ls := by simp [texts, hd]
      have e2 : invalid s (l :: ls) = l :: invalid s ls := by simp [invalid, hd]
      rw [e1, e2]
      dsimp only
      unfold invalidCall
      cases hw : warnStep s.warn o.warns ⟨.outputInvalid, some s.source, s.invalidMsg l, false⟩ with
      | none =>
        right
        exact ⟨⟨_, rfl⟩, by simp, by simpa using (warnStep_none_iff _ _ _).1 hw⟩
      | some p =>
        obtain ⟨ms, st⟩ := p
        dsimp only
        have hnd : ¬ Denied s.warn .outputInvalid := by
          intro h
          have := (warnStep_none_iff s.warn o.warns ⟨.outputInvalid, some s.source, s.invalidMsg l, false⟩).2 (Or.inr h)
          rw [hw] at this; cases this
        rcases ih prev ⟨o.printed ++ ms, st⟩ with ⟨o', h1, _, ms', h2, h3, h4⟩ | ⟨_, _, h⟩
        · left
          refine ⟨o', h1, Or.inr hnd, ms ++ ms', by rw [h2]; simp, fun m hm => ?_, fun hs => ?_⟩
          · rcases List.mem_append.1 hm with hm | hm
            · have hw' := hw
              unfold warnStep warnInternal at hw'
              rw [if_neg (by simp)] at hw'
              dsimp only at hw'
              split at hw' <;> try cases hw'
              · cases hm
              · rename_i heq
                simp only [List.mem_singleton] at hm
                subst hm
                split at heq
                · simp at heq
                · split at heq
                  · simp at heq
                  · simp only [Prod.mk.injEq, WarnResult.print.injEq] at heq
                    rw [← heq.1]
            · exact h3 m hm
          · obtain ⟨m, st', h5, h6, h7, h8⟩ := warnStep_shows (st := o.warns)
              (c := ⟨.outputInvalid, some s.source, s.invalidMsg l, false⟩) hs (by simp) rfl
            rw [hw] at h5
            cases h5
            simp only [List.map_append, List.map_cons, List.map_nil, h7, h8, h4 hs]
            rfl
        · exact absurd h hnd

/-- **C47.** If the decision is made, it is made over all lines of the output that are text: the test has run iff all of them match,
for a framework of the `all` kind, and iff one of them matches, for one of the `any` kind. In particular lines that are not text do
not matter. -/
theorem C47_decision {stdout status o b o'} (h : postprocess s stdout status o = (.ok b, o')) :
    ∃ ls, IsLines stdout ls ∧ (b = true ↔
      if s.init then ∀ l ∈ ls, ∀ t, s.decode l = some t → s.pred t = true
      else ∃ l ∈ ls, ∃ t, s.decode l = some t ∧ s.pred t = true) := by
  refine ⟨byteLines stdout, byteLines_isLines stdout, ?_⟩
  have key : b = if s.init then (texts s (byteLines stdout)).all s.pred else (texts s (byteLines stdout)).any s.pred := by
    unfold postprocess at h
    rcases foldLines_spec (s := s) (byteLines stdout) s.init o with ⟨o1, h1, _⟩ | ⟨⟨o1, h1⟩, _⟩
    · rw [h1] at h
      generalize hv : (if s.init then s.init && (texts s (byteLines stdout)).all s.pred
        else s.init || (texts s (byteLines stdout)).any s.pred) = v at h
      have hv' : (if s.init then (texts s (byteLines stdout)).all s.pred else (texts s (byteLines stdout)).any s.pred) = v := by
        rw [← hv]; cases s.init <;> simp
      rw [hv']
      cases v with
      | true => cases h; rfl
      | false =>
        cases status with
        | none => cases h
        | some c =>
          dsimp only at h
          split at h
          · cases h
          · cases h; rfl
    · rw [h1] at h; cases h
  rw [key]
  cases s.init
  · simp only [Bool.false_eq_true, if_false, List.any_eq_true, texts, List.mem_filterMap]
    exact ⟨fun ⟨t, ⟨l, hl, hd⟩, hp⟩ => ⟨l, hl, t, hd, hp⟩, fun ⟨l, hl, t, hd, hp⟩ => ⟨t, ⟨l, hl, hd⟩, hp⟩⟩
  · simp only [if_true, List.all_eq_true, texts, List.mem_filterMap]
    exact ⟨fun h l hl t hd => h t ⟨l, hl, hd⟩, fun h t ⟨l, hl, hd⟩ => h l hl t hd⟩

/-- **C47.** Each line that is not text is reported, once and in order, unless `--allow` or `--quiet` asks not to. -/
theorem C47_invalid_reported {stdout status o b o'} (h : postprocess s stdout status o = (.ok b, o'))
    (hs : Shows s.warn .outputInvalid) : ∃ ls ms, IsLines stdout ls ∧ o'.printed = o.printed ++ ms ∧
      (ms.filter fun m => m.warning = .outputInvalid).map (fun m => (m.source, m.msg)) =
        (ls.filter fun l => (s.decode l).isNone).map fun l => (some s.source, s.invalidMsg l) := by
  unfold postprocess at h
  rcases foldLines_spec (s := s) (byteLines stdout) s.init o with ⟨o1, h1, _, ms, h2, h3, h4⟩ | ⟨⟨o1, h1⟩, _⟩
  · have hall : ms.filter (fun m => m.warning = .outputInvalid) = ms := List.filter_eq_self.2 fun m hm => by simp [h3 m hm]
    rw [h1] at h
    generalize (if s.init then s.init && (texts s (byteLines stdout)).all s.pred
        else s.init || (texts s (byteLines stdout)).any s.pred) = v at h
    cases v with
    | true =>
      cases h
      exact ⟨_, ms, byteLines_isLines stdout, h2, by rw [hall]; exact h4 hs⟩
    | false =>
      cases status with
      | none => cases h
      | some c =>
        dsimp only at h
        split at h
        · cases h
        · rename_i ms' st hw
          cases h
          refine ⟨_, ms ++ ms', byteLines_isLines stdout, by rw [h2]; simp, ?_⟩
          rw [List.filter_append, hall]
          have : ms'.filter (fun m => m.warning = .outputInvalid) = [] := by
            rw [List.filter_eq_nil_iff]
            intro m hm
            unfold warnStep warnInternal notRunCall at hw
            rw [if_neg (by simp)] at hw
            dsimp only at hw
            split at hw <;> try cases hw
            · cases hm
            · rename_i heq
              simp only [List.mem_singleton] at hm
              subst hm
              split at heq
              · simp at heq
              · split at heq
                · simp at heq
                · simp only [Prod.mk.injEq, WarnResult.print.injEq] at heq
                  rw [← heq.1]; simp
          rw [this, List.append_nil]; exact h4 hs
  · rw [h1] at h; cases h

/-- **C47.** A test that has not run is reported, unless `--allow` or `--quiet` asks not to. -/
theorem C47_not_run_reported {stdout status o o'} (h : postprocess s stdout status o = (.ok false, o'))
    (hs : Shows s.warn .runTestFailed) :
    ∃ m ∈ o'.printed, m.warning = .runTestFailed ∧ m.source = some s.source ∧
      m.msg = "failed to run test `".toList ++ s.test ++ "`: ".toList ++ s.outputText := by
  unfold postprocess at h
  split at h
  · cases h
  · rename_i o1 _
    cases status with
    | none => cases h
    | some c =>
      obtain ⟨m, st', h5, h6, h7, h8⟩ := warnStep_shows (st := o1.warns) (c := notRunCall s)
        hs (by simp [notRunCall]) rfl
      dsimp only at h
      rw [h5] at h
      cases h
      exact ⟨m, by simp, h6, h7, h8⟩
  · rename_i r hr1 hr2
    exact absurd h (hr2 _)

/-- **C47.** The decision is made unless a warning is denied or a test that has not run was ended by a signal. -/
theorem C47_decided {stdout : List UInt8} {status : Option Nat} {o : Out} (h1 : ¬ Denied s.warn .outputInvalid)
    (h2 : ¬ Denied s.warn .runTestFailed) (h3 : status ≠ none) : ∃ b o', postprocess s stdout status o = (.ok b, o') := by
  unfold postprocess
  rcases foldLines_spec (s := s) (byteLines stdout) s.init o with ⟨o1, e, _⟩ | ⟨_, _, h⟩
  · rw [e]
    generalize (if s.init then s.init && (texts s (byteLines stdout)).all s.pred
        else s.init || (texts s (byteLines stdout)).any s.pred) = v
    cases v with
    | true => exact ⟨_, _, rfl⟩
    | false =>
      cases status with
      | none => exact absurd rfl h3
      | some c =>
        dsimp only
        cases hw : warnStep s.warn o1.warns (notRunCall s) with
        | none =>
          rcases (warnStep_none_iff _ _ _).1 hw with h | h
          · cases h
          · exact absurd h h2
        | some p => exact ⟨_, _, rfl⟩
  · exact absurd h h1

/-- **C47.** In a run: a test that is found not to have run has no outcome, whatever its exit status, unless it times out. -/
theorem C47_no_outcome {σ} {cfg : Run.Cfg} {env : Run.Env σ} {c : Run.Candidate} {t : Text} {w : Run.World σ} {r w'}
    (hpost : ∀ w, (env.post w).res = .ok false)
    (h : Run.performExec cfg env c t true w = (.ok r, w')) : r = none ∨ r = some .timedOut := by
  unfold Run.performExec Run.bind Run.note Run.ask at h
  simp only [if_true] at h
  split at h <;> try cases h
  rename_i p w1 _
  split at h <;> try cases h
  rename_i st w2 hw
  cases st with
  | none =>
    right
    simp only at h
    split at h <;> try cases h
    split at h <;> try cases h
    rfl
  | some b =>
    left
    simp only [hpost] at h
    simp [Run.ret] at h
    exact h.1.symm

theorem contains_iff (needle t : Text) : contains needle t = true ↔ ∃ a b, t = a ++ needle ++ b := by
  induction t with
  | nil =>
    rw [contains, List.isEmpty_iff]
    constructor
    · rintro rfl; exact ⟨[], [], rfl⟩
    · rintro ⟨a, b, h⟩; simp at h; exact h.2.1
  | cons c cs ih =>
    rw [contains, Bool.or_eq_true, ih, List.isPrefixOf_iff_prefix]
    constructor
    · rintro (⟨b, hb⟩ | ⟨a, b, h⟩)
      · exact ⟨[], b, by simpa using hb.symm⟩
      · exact ⟨c :: a, b, by simp [h]⟩
    · rintro ⟨a, b, h⟩
      cases a with
      | nil => exact Or.inl ⟨b, by simpa using h.symm⟩
      | cons x a => simp at h; exact Or.inr ⟨a, b, by simp [h.2]⟩

/-- **C47.** The lines that show that a test has run. -/
theorem C47_frameworks (test line : Text) :
    (rustRan line = true ↔ line = "running 1 test".toList) ∧
    (goRan test line = true ↔ line = "=== RUN   ".toList ++ test) ∧
    (foundryRan test line = true ↔ ∃ a b, line = a ++ " ".toList ++ test ++ "(".toList ++ b) := by
  refine ⟨by simp [rustRan], by simp [goRan], ?_⟩
  unfold foundryRan
  rw [contains_iff]
  simp

namespace Demo
/-- Bytes above 127 are not text here. -/
def setup (init : Bool) : Setup where
  warn := ⟨[], [], false⟩
  decode l := if l.all (· < 128) then some (l.map fun b => Char.ofNat b.toNat) else none
  invalidMsg _ := "invalid".toList
  outputText := []
  source := "a.rs:1:1-1:2".toList
  test := "t".toList
  init := init
  pred t := t == "ok".toList

/-- The result and the warnings. -/
def result (init : Bool) (stdout : List UInt8) : Option Bool × List Warning :=
  let r := postprocess (setup init) stdout (some 0) ⟨[], .init⟩
  ((match r.1 with | .ok b => some b | _ => none), r.2.printed.map (·.warning))

example : byteLines [111, 107, 13, 10, 200, 10, 10, 65] = [[111, 107], [200], [], [65]] := by decide +kernel
example : result false [111, 107, 13, 10, 200, 10, 10, 65] = (some true, [.outputInvalid]) := by decide +kernel
example : result false [111, 13, 10, 200, 10, 10, 65] = (some false, [.outputInvalid, .runTestFailed]) := by decide +kernel
example : result true [111, 107, 10, 200, 10, 111, 107] = (some true, [.outputInvalid]) := by decide +kernel
end Demo

end Necessist.Exec
