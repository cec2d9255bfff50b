import Verif.Lemmas.Run
import Verif.Lemmas.Span
import Verif.Spec.Run
/-! Invariants that may depend on the database and on what remains of the past removals. -/
open Std
namespace Necessist.Run

variable {σ α β : Type}

theorem Post.imp {Q Q' : α → World σ → Prop} {E : Option Err → World σ → Prop} {H : World σ → Prop} {x}
    (h : Post Q E H x) (hQ : ∀ a w, Q a w → Q' a w) : Post Q' E H x := by
  obtain ⟨r, w⟩ := x
  cases r with
  | ok a => exact hQ a w h
  | err e => exact h
  | panic => exact h
  | hang => exact h

/-- Every error of the outside satisfies `ok`. -/
structure EnvOk (ok : Option Err → Prop) (env : Env σ) : Prop where
  backup : ∀ w f e, (env.backup w f).res = .err e → ok (some e)
  instrFile : ∀ w f n e, (env.instrFile w f n).res = .err e → ok (some e)
  wrap : ∀ w s e, (env.wrap w s).res = .err e → ok (some e)
  exec : ∀ w t s e, (env.exec w t s).res = .err e → ok (some e)
  start : ∀ w t s v e, (env.start w t s v).res = .err e → ok (some e)
  post : ∀ w e, (env.post w).res = .err e → ok (some e)
  kill : ∀ w e, (env.kill w).res = .err e → ok (some e)
  reap : ∀ w e, (env.reap w).res = .err e → ok (some e)
  insert : ∀ w s e, (env.insert w s).res = .err e → ok (some e)
  panic : ok none
  ctrlc : ok (some .ctrlc)
  denied : ok (some .denied)
  io : ok (some .io)

/-- `I` does not depend on anything but the database, the past removals, and the events. -/
structure Core (ok : Option Err → Prop) (ev : Event → Prop) (I : World σ → Prop) (E : Option Err → World σ → Prop)
    (H : World σ → Prop) : Prop where
  aux : ∀ w warns out progress ext fs instr, I w → I { w with warns, out, progress, ext, fs, instr }
  note : ∀ w e, ev e → I w → I { w with trace := w.trace ++ [⟨e, w.fs⟩] }
  err : ∀ w e, ok e → I w → E e w
  hang : ∀ w, I w → H w

/-- The events that are always harmless. -/
structure EvOk (ev : Event → Prop) : Prop where
  dryRun : ∀ f, ev (.dryRun f)
  dryRunFailed : ∀ f, ev (.dryRunFailed f)
  buildFile : ∀ f, ev (.buildFile f)
  buildFailed : ∀ f, ev (.buildFailed f)
  ctrlc : ∀ b, ev (.ctrlc b)
  insert : ∀ r, ev (.insert r)

/-- The events that belong to the testing of `c`. -/
def IsTestOf (c : Candidate) : Event → Prop
  | .buildTest c' _ => c' = c
  | .startTest c' _ _ => c' = c
  | .kill c' _ => c' = c
  | .tested c' _ _ => c' = c
  | _ => False

instance (c : Candidate) (e : Event) : Decidable (IsTestOf c e) := by
  cases e <;> unfold IsTestOf <;> infer_instance

namespace Core
variable {ok : Option Err → Prop} {ev : Event → Prop} {I : World σ → Prop} {E : Option Err → World σ → Prop}
  {H : World σ → Prop} (F : Core ok ev I E H)
include F

theorem ask (f : World σ → Reply σ α) (hf : ∀ w e, (f w).res = .err e → ok (some e)) (hp : ok none) :
    Tri I (Run.ask f) (fun _ => I) E H := by
  intro w h
  have := F.aux w (f w).warns (w.out ++ (f w).said.map .warning) w.progress (f w).ext w.fs w.instr h
  unfold Run.ask
  dsimp only
  cases hr : (f w).res with
  | ok a => exact this
  | err e => exact F.err _ _ (hf w e hr) this
  | panic => exact F.err _ _ hp this
  | hang => exact F.hang _ this

theorem askTry (f : World σ → Reply σ α) (hp : ok none) : Tri I (Run.askTry f) (fun _ => I) E H := by
  intro w h
  have := F.aux w (f w).warns (w.out ++ (f w).said.map .warning) w.progress (f w).ext w.fs w.instr h
  unfold Run.askTry
  dsimp only
  cases hr : (f w).res with
  | ok a => exact this
  | err e => exact this
  | panic => exact F.err _ _ hp this
  | hang => exact F.hang _ this

theorem ret (a : α) : Tri I (Run.ret a) (fun _ => I) E H := Tri.ret a fun _ h => h
theorem orPanic (o : Option α) (hp : ok none) : Tri I (Run.orPanic o : M σ α) (fun _ => I) E H := by
  cases o with
  | none => exact Tri.panics fun w h => F.err w _ hp h
  | some a => exact Tri.ret a fun _ h => h
theorem tell {e : Event} (he : ev e) : Tri I (Run.note e) (fun _ => I) E H := fun w h => F.note w e he h
theorem say (cfg : Cfg) (l : Line) : Tri I (Run.say cfg l) (fun _ => I) E H := by
  intro w h
  by_cases hq : cfg.warn.quiet = true
  · simp only [Run.say, hq, if_true]; exact h
  · simp only [Run.say, hq]; exact F.aux w w.warns _ w.progress w.ext w.fs w.instr h
theorem warnM (cfg : Cfg) (c : WarnCall) (hp : ok none) (hd : ok (some .denied)) :
    Tri I (Run.warnM cfg c) (fun _ => I) E H := by
  intro w h
  have h' : ∀ st, I { w with warns := st } := fun st => F.aux w st w.out w.progress w.ext w.fs w.instr h
  unfold Run.warnM
  rcases warnInternal cfg.warn w.warns c with ⟨r, st⟩
  cases r with
  | bail m => exact F.err _ _ hd (h' st)
  | silent => exact h' st
  | print m => exact F.say cfg _ _ (h' st)
  | panic => exact F.err _ _ hp (h' st)
theorem updateProgress (cfg : Cfg) (mm : Option Mismatch) (n : Nat) (hp : ok none) (hd : ok (some .denied)) :
    Tri I (Run.updateProgress cfg mm n) (fun _ => I) E H := by
  refine Tri.bind (R := fun _ => I) ?_ fun _ => ?_
  · rcases mm with _ | (r | r)
    · exact F.ret ()
    · exact F.warnM cfg _ hp hd
    · exact F.warnM cfg _ hp hd
  · exact fun w h => F.aux w w.warns w.out _ w.ext w.fs w.instr h
theorem checkCtrlc (env : Env σ) (hc : ∀ b, ev (.ctrlc b)) (hk : ok (some .ctrlc)) :
    Tri I (Run.checkCtrlc env) (fun _ => I) E H := by
  intro w h
  unfold Run.checkCtrlc
  rcases env.ctrlc w with ⟨b, ext⟩
  have h1 := F.note _ (.ctrlc b) (hc b) (F.aux w w.warns w.out w.progress ext w.fs w.instr h)
  cases b
  · exact h1
  · exact F.err _ _ hk h1
theorem writeFile (env : Env σ) (f : SourceFile) (t : Text) (hi : ok (some .io)) :
    Tri I (Run.writeFile env f t) (fun _ => I) E H := by
  intro w h
  unfold Run.writeFile
  rcases env.write w f t with ⟨_ | l, ext⟩
  · exact F.aux w w.warns w.out w.progress ext _ w.instr h
  · exact F.err _ _ hi (F.aux w w.warns w.out w.progress ext _ w.instr h)
theorem dropInstr {w : World σ} (h : I w) : I (Run.dropInstr w) := by
  unfold Run.dropInstr
  rcases w.instr with _ | ⟨f, t⟩
  · exact h
  · exact F.aux w w.warns w.out w.progress w.ext _ none h

variable {env : Env σ} (henv : EnvOk ok env) (hev : EvOk ev)
include henv

theorem wraps (cs : List Candidate) : Tri I (Run.wraps env cs) (fun _ => I) E H := by
  induction cs with
  | nil => exact F.ret _
  | cons c cs ih =>
    exact Tri.bind (F.ask _ (fun w e => henv.wrap w _ e) henv.panic) fun _ => Tri.bind ih fun _ => F.ret _

theorem performExec (cfg : Cfg) (c : Candidate) (t : Text) (b : Bool) (hc : ∀ e, IsTestOf c e → ev e) :
    Tri I (Run.performExec cfg env c t b) (fun _ => I) E H := by
  refine Tri.bind (F.tell (hc (.startTest c t _) rfl)) fun _ =>
    Tri.bind (F.ask _ (fun w e => henv.start w _ _ _ e) henv.panic) fun p =>
    Tri.bind (R := fun _ => I) ?_ fun status => ?_
  · intro w h
    dsimp only
    have : ∀ e, waitFor (timeoutMs cfg) p = .err e → e = .io := by
      intro e he
      unfold waitFor at he
      split at he
      · simpa using he.symm
      · split at he <;> (try split at he) <;> simp at he
    cases hw : waitFor (timeoutMs cfg) p with
    | ok a => exact h
    | err e => rw [this e hw]; exact F.err _ _ henv.io h
    | panic => exact F.err _ _ henv.panic h
    | hang => exact F.hang _ h
  · cases status with
    | some s =>
      refine Tri.bind (R := fun _ => I) ?_ fun _ => F.ret _
      cases b
      · exact F.ret _
      · exact F.ask _ (fun w e => henv.post w e) henv.panic
    | none =>
      exact Tri.bind (F.tell (hc (.kill c t) rfl)) fun _ =>
        Tri.bind (F.ask _ (fun w e => henv.kill w e) henv.panic) fun _ =>
        Tri.bind (F.ask _ (fun w e => henv.reap w e) henv.panic) fun _ => F.ret _

theorem runTests (cfg : Cfg) (c : Candidate) (ex : Bool) (hc : ∀ e, IsTestOf c e → ev e) (ts : List Text)
    (acc : Option Outcome) : Tri I (Run.runTests cfg env c ex ts acc) (fun _ => I) E H := by
  induction ts generalizing acc with
  | nil => exact F.ret _
  | cons t ts ih =>
    unfold Run.runTests
    split
    · exact ih acc
    · refine Tri.bind (R := fun _ => I) ?_ fun r => ih r
      refine Tri.bind (F.tell (hc (.buildTest c t) rfl)) fun _ =>
        Tri.bind (F.ask _ (fun w e => henv.exec w _ _ e) henv.panic) fun r =>
        Tri.bind (R := fun _ => I) ?_ fun res => Tri.bind (F.tell (hc (.tested c t res) rfl)) fun _ => F.ret _
      cases r with
      | some b => exact F.performExec henv cfg c t b hc
      | none =>
        cases ex
        · exact Tri.panics fun w h => F.err w _ henv.panic h
        · exact F.ret _

include hev

theorem instrumentStatements (cfg : Cfg) (f : SourceFile) (cs : List Candidate) :
    Tri I (Run.instrumentStatements cfg env f cs) (fun _ => I) E H := by
  refine Tri.bind (F.ask _ (fun w e => henv.backup w _ e) henv.panic) fun _ => ?_
  have hbody : ∀ F' : Core ok ev I (fun e w => I w ∧ ok e) I,
      Tri I (instrumentBody cfg env f cs) (fun _ => I) (fun e w => I w ∧ ok e) I := by
    intro F'
    refine Tri.bind (F'.ask _ (fun w e => henv.instrFile w _ _ e) henv.panic) fun _ =>
      Tri.bind (F'.wraps henv _) fun _ => Tri.bind (F'.orPanic _ henv.panic) fun _ =>
      Tri.bind (F'.writeFile env _ _ henv.io) fun _ => Tri.bind (F'.tell (hev.buildFile f)) fun _ =>
      Tri.bind (F'.askTry _ henv.panic) fun r => ?_
    cases r with
    | ok _ => exact F'.ret _
    | error _ => exact Tri.bind (F'.tell (hev.buildFailed f)) fun _ => Tri.bind (F'.warnM cfg _ henv.panic henv.denied) fun _ => F'.ret _
  have hbody := hbody ⟨F.aux, F.note, fun _ _ h1 h2 => ⟨h2, h1⟩, fun _ h => h⟩
  intro w hw
  have := hbody w hw
  dsimp only
  rcases hm : instrumentBody cfg env f cs w with ⟨r, w'⟩
  rw [hm] at this
  rcases r with (_ | _) | e | _ | _
  · exact F.aux w' w'.warns w'.out w'.progress w'.ext _ w'.instr this
  · exact F.aux w' w'.warns w'.out w'.progress w'.ext w'.fs _ this
  · exact F.err _ _ this.2 (F.aux w' w'.warns w'.out w'.progress w'.ext _ w'.instr this.1)
  · exact F.err _ _ this.2 (F.aux w' w'.warns w'.out w'.progress w'.ext _ w'.instr this.1)
  · exact F.hang _ this

theorem testAndRecord (cfg : Cfg) (c : Candidate) (text : Text) (ex : Bool) (hc : ∀ e, IsTestOf c e → ev e)
    {J : World σ → Prop} (FJ : Core ok ev J E H) (hIJ : ∀ w, I w → J w)
    (hins : ∀ r : Removal, r.span = c.span → Tri I (insertRow env r) (fun _ => J) E H) :
    Tri I (Run.testAndRecord cfg env c text ex) (fun _ => J) E H := by
  refine Tri.bind (F.runTests henv cfg c ex hc _ _) fun outcome =>
    Tri.bind (F.checkCtrlc env hev.ctrlc henv.ctrlc) fun _ =>
    Tri.bind (R := fun _ => J) ?_ fun _ => FJ.updateProgress cfg none 1 henv.panic henv.denied
  cases outcome with
  | none => exact Tri.ret _ fun w h => hIJ w h
  | some o =>
    refine Tri.bind (hins _ rfl) fun _ => ?_
    unfold emitToConsole
    split
    · exact FJ.say cfg _
    · exact FJ.ret _

theorem oneCandidate (cfg : Cfg) (c : Candidate) (hc : ∀ e, IsTestOf c e → ev e)
    {J : World σ → Prop} (FJ : Core ok ev J E H) (hIJ : ∀ w, I w → J w)
    (haux : ∀ e w fs, E e w → E e { w with fs := fs })
    (hins : ∀ r : Removal, r.span = c.span → Tri I (insertRow env r) (fun _ => J) E H) :
    Tri I (Run.oneCandidate cfg env c) (fun _ => J) E H := by
  intro w hw
  have hw' : I (if c.kind ≠ .statement then Run.dropInstr w else w) := by
    split
    · exact F.dropInstr hw
    · exact hw
  refine Tri.bind (P := I) (F.orPanic _ henv.panic) (fun text => ?_) _ hw'
  intro w hw
  dsimp only
  split
  · refine Tri.bind (F.ask _ (fun w e => henv.backup w _ e) henv.panic) (fun _ => ?_) w hw
    intro w hw
    dsimp only
    refine Tri.finally (P := I) (Q := fun _ => J) (E := E) ?_ ?_ ?_ w hw
    rotate_left
    · exact fun a w h => FJ.aux w w.warns w.out w.progress w.ext _ w.instr h
    · exact fun e w h => haux e w _ h
    · exact Tri.bind (F.orPanic _ henv.panic) fun x => Tri.bind (F.writeFile env _ _ henv.io) fun _ =>
        F.testAndRecord henv hev cfg c text true hc FJ hIJ hins
  · exact F.testAndRecord henv hev cfg c text false hc FJ hIJ hins w hw

end Core

/-! ### The past removals -/

/-- Sorted by span. -/
def SortedPast (rs : List Removal) : Prop := rs.Pairwise fun a b => (a.span.cmp b.span).isLE = true

/-- The spans of the candidates are strictly ascending. -/
def Ascending (cs : List Candidate) : Prop := cs.Pairwise fun a b => a.span.cmp b.span = .lt

/-- Every past removal of a remaining candidate is still ahead. -/
def Ahead (P : List Removal) (cs : List Candidate) (past : List Removal) : Prop :=
  SortedPast past ∧ ∀ c ∈ cs, ∀ r ∈ P, r.span = c.span → r ∈ past

theorem Ahead.skip {P : List Removal} (more : List Candidate) (mm cs past) (ha : Ascending (cs ++ more))
    (h : Ahead P (cs ++ more) past) :
    Ahead P ((skipPast mm cs past).rest ++ more) (skipPast mm cs past).past ∧
    Ascending ((skipPast mm cs past).rest ++ more) ∧
    ∀ c rest, (skipPast mm cs past).rest = c :: rest → ∀ r ∈ P, r.span ≠ c.span := by
  fun_induction skipPast mm cs past with
  | case1 mm past => exact ⟨h, ha, by simp⟩
  | case2 mm c cs =>
    refine ⟨h, ha, ?_⟩
    intro c' rest he r hr hs
    simp only [List.cons.injEq] at he
    have := h.2 c (by simp) r hr (by rw [hs, he.1])
    simp at this
  | case3 mm c cs r past hlt =>
    refine ⟨h, ha, ?_⟩
    intro c' rest he r' hr' hs
    simp only [List.cons.injEq] at he
    have hm := h.2 c (by simp) r' hr' (by rw [hs, he.1])
    have hcr : c.span.cmp r'.span = .lt := by
      rcases List.mem_cons.1 hm with rfl | hm
      · exact hlt
      · exact TransCmp.lt_of_lt_of_isLE hlt ((List.pairwise_cons.1 h.1).1 r' hm)
    rw [hs, he.1, (Span.cmp_eq_iff _ _).2 rfl] at hcr
    simp at hcr
  | case4 mm c cs r past heq s ih =>
    have he := (Span.cmp_eq_iff _ _).1 heq
    have ha' : Ascending (cs ++ more) := (List.pairwise_cons.1 ha).2
    refine ih ha' ⟨(List.pairwise_cons.1 h.1).2, ?_⟩
    intro c' hc' r' hr' hs
    have := h.2 c' (List.mem_cons_of_mem _ hc') r' hr' hs
    rcases List.mem_cons.1 this with rfl | hm
    · have hlt := (List.pairwise_cons.1 ha).1 c' hc'
      rw [← hs, ← he, (Span.cmp_eq_iff _ _).2 rfl] at hlt
      simp at hlt
    · exact hm
  | case5 mm c cs r past hgt ih =>
    refine ih ha ⟨(List.pairwise_cons.1 h.1).2, ?_⟩
    intro c' hc' r' hr' hs
    have := h.2 c' hc' r' hr' hs
    rcases List.mem_cons.1 this with rfl | hm
    · exfalso
      have hlt : r'.span.cmp c.span = .lt := by rw [OrientedCmp.eq_swap (cmp := Span.cmp), hgt]; rfl
      rcases List.mem_cons.1 hc' with rfl | hc'
      · rw [hs, (Span.cmp_eq_iff _ _).2 rfl] at hlt
        simp at hlt
      · have := TransCmp.lt_trans hlt ((List.pairwise_cons.1 ha).1 c' hc')
        rw [hs, (Span.cmp_eq_iff _ _).2 rfl] at this
        simp at this
    · exact hm

/-- What is kept by the run with respect to the past removals `P`: `cs` are the remaining candidates. `K` is a property
of database and remaining candidates, `Bad` of events that must not happen. -/
structure Keep (P : List Removal) (K : List Candidate → Option (List Row) → Prop) (ev : Event → Prop)
    (cs : List Candidate) (w : World σ) : Prop where
  asc : Ascending cs
  ahead : Ahead P cs w.past
  db : K cs w.db
  trace : ∀ s ∈ w.trace, ev s.event

theorem Keep.core (P : List Removal) (K : List Candidate → Option (List Row) → Prop) (ok : Option Err → Prop)
    (ev : Event → Prop) (cs : List Candidate) :
    Core (σ := σ) ok ev (Keep P K ev cs) (fun e w => ok e ∧ ∀ s ∈ w.trace, ev s.event)
      (fun w => ∀ s ∈ w.trace, ev s.event) where
  aux := fun w _ _ _ _ _ _ h => ⟨h.asc, h.ahead, h.db, h.trace⟩
  note := fun w e he h => ⟨h.asc, h.ahead, h.db, fun s hs => by
    rcases List.mem_append.1 hs with hs | hs
    · exact h.trace s hs
    · rw [List.mem_singleton.1 hs]; exact he⟩
  err := fun w e he h => ⟨he, h.trace⟩
  hang := fun w h => h.trace

/-- The events allowed: no test of a candidate whose span is in `P`. -/
def NotPast (P : List Removal) (e : Event) : Prop := ∀ c, IsTestOf c e → ∀ r ∈ P, r.span ≠ c.span

theorem NotPast.evOk (P : List Removal) : EvOk (NotPast P) := by
  constructor <;> intros <;> intro c hc <;> exact hc.elim

/-- The requirements on `K`: what a step for candidate `c` and what skipping of candidates does to it. -/
structure KOk (ok : Option Err → Prop) (P : List Removal) (G : Candidate → Prop)
    (K : List Candidate → Option (List Row) → Prop) : Prop where
  /-- what is not in `P` may be recorded -/
  good : ∀ c, (∀ r ∈ P, r.span ≠ c.span) → G c
  /-- dropping candidates -/
  drop : ∀ pre cs db, K (pre ++ cs) db → K cs db
  /-- adding a row for the first candidate, if it may be recorded -/
  add : ∀ c cs rows url text o, G c → K (c :: cs) (some rows) →
    (rows.any fun x => x.span == (Row.ofRemoval url ⟨c.span, text, o⟩).span) = false →
    K cs (some (rows ++ [Row.ofRemoval url ⟨c.span, text, o⟩]))
  /-- a row can be added for it, or the error is allowed -/
  free : ∀ c cs rows, G c → Ascending (c :: cs) → K (c :: cs) (some rows) →
    (rows.any fun x => x.span == c.span.display) = false ∨ ok (some .db)

theorem resume_insertRow {ok : Option Err → Prop} {env : Env σ} (henv : EnvOk ok env) {P G K}
    (hK : KOk ok P G K) (c : Candidate) (cs : List Candidate) (hc : G c) (r : Removal)
    (hr : r.span = c.span) :
    Tri (Keep (σ := σ) P K (NotPast P) (c :: cs)) (insertRow env r) (fun _ => Keep P K (NotPast P) cs)
      (fun e w => ok e ∧ ∀ s ∈ w.trace, NotPast P s.event) (fun w => ∀ s ∈ w.trace, NotPast P s.event) := by
  have F := Keep.core (σ := σ) P K ok (NotPast P) (c :: cs)
  have hsub : ∀ past, Ahead P (c :: cs) past → Ahead P cs past :=
    fun _ h => ⟨h.1, fun c' hc' => h.2 c' (List.mem_cons_of_mem _ hc')⟩
  intro w hw
  unfold insertRow
  rcases hd : w.db with _ | rows
  · exact ⟨(List.pairwise_cons.1 hw.asc).2, hsub _ hw.ahead, hK.drop [c] cs _ hw.db, hw.trace⟩
  · have hk : K (c :: cs) (some rows) := by rw [← hd]; exact hw.db
    refine Tri.bind (P := Keep P K (NotPast P) (c :: cs))
      (F.ask _ (fun w e => henv.insert w _ e) henv.panic) (fun url => ?_) w hw
    intro w hw
    dsimp only
    by_cases hany : (rows.any fun x => x.span == (Row.ofRemoval url r).span) = true
    · rw [if_pos hany]
      rcases hK.free c cs rows hc hw.asc hk with h | h
      · have : (Row.ofRemoval url r).span = c.span.display := by simp [Row.ofRemoval, hr]
        rw [this, h] at hany
        simp at hany
      · exact ⟨h, hw.trace⟩
    · rw [if_neg hany]
      have hany' : (rows.any fun x => x.span == (Row.ofRemoval url r).span) = false := by simpa using hany
      have hrow : r = ⟨c.span, r.text, r.outcome⟩ := by rw [← hr]
      refine ⟨(List.pairwise_cons.1 hw.asc).2, hsub _ hw.ahead, ?_, ?_⟩
      · rw [hrow] at hany' ⊢
        exact hK.add c cs rows url _ _ hc hk hany'
      · intro s hs
        rcases List.mem_append.1 hs with hs | hs
        · exact hw.trace s hs
        · rw [List.mem_singleton.1 hs]; intro c hc; exact hc.elim

theorem resume_oneCandidate {ok : Option Err → Prop} {env : Env σ} (henv : EnvOk ok env) {P G K}
    (hK : KOk ok P G K) (cfg : Cfg) (c : Candidate) (cs : List Candidate) (hc : ∀ r ∈ P, r.span ≠ c.span) :
    Tri (Keep (σ := σ) P K (NotPast P) (c :: cs)) (oneCandidate cfg env c) (fun _ => Keep P K (NotPast P) cs)
      (fun e w => ok e ∧ ∀ s ∈ w.trace, NotPast P s.event) (fun w => ∀ s ∈ w.trace, NotPast P s.event) := by
  refine (Keep.core P K ok (NotPast P) (c :: cs)).oneCandidate henv (NotPast.evOk P) cfg c ?_
    (Keep.core P K ok (NotPast P) cs) ?_ (fun e w fs h => h) (resume_insertRow henv hK c cs (hK.good c hc))
  · intro e he c' hc' r hr
    have : c' = c := by
      cases e with
      | buildTest => exact (show _ = c' from hc').symm.trans he
      | startTest => exact (show _ = c' from hc').symm.trans he
      | kill => exact (show _ = c' from hc').symm.trans he
      | tested => exact (show _ = c' from hc').symm.trans he
      | _ => exact he.elim
    rw [this]; exact hc r hr
  · intro w h
    exact ⟨(List.pairwise_cons.1 h.asc).2, ⟨h.ahead.1, fun c' hc' => h.ahead.2 c' (List.mem_cons_of_mem _ hc')⟩,
      hK.drop [c] cs _ h.db, h.trace⟩

theorem skipPast_rest_suffix (mm cs past) : ∃ pre, cs = pre ++ (skipPast mm cs past).rest := by
  fun_induction skipPast mm cs past with
  | case4 mm c cs r past _ s ih => obtain ⟨pre, h⟩ := ih; exact ⟨c :: pre, by simp [← h, s]⟩
  | case5 mm c cs r past _ ih => exact ih
  | _ => exact ⟨[], rfl⟩

/-- The remaining candidates after the first `skip`: also the first is not in `P`. -/
theorem resume_skip {ok : Option Err → Prop} {env : Env σ} (henv : EnvOk ok env) {P G K} (hK : KOk ok P G K)
    (cfg : Cfg) (cs more : List Candidate) (w : World σ) (hw : Keep P K (NotPast P) (cs ++ more) w) :
    Post (fun _ w' => Keep P K (NotPast P) ((skipPast none cs w.past).rest ++ more) w' ∧
        ∀ c rest, (skipPast none cs w.past).rest = c :: rest → ∀ r ∈ P, r.span ≠ c.span)
      (fun e w => ok e ∧ ∀ s ∈ w.trace, NotPast P s.event) (fun w => ∀ s ∈ w.trace, NotPast P s.event)
      (skipPastM cfg (skipPast none cs w.past) w) := by
  obtain ⟨h1, h2, h3⟩ := Ahead.skip more none cs w.past hw.asc hw.ahead
  unfold skipPastM
  have hw' : Keep P K (NotPast P) ((skipPast none cs w.past).rest ++ more)
      { w with past := (skipPast none cs w.past).past } := by
    obtain ⟨pre, hpre⟩ := skipPast_rest_suffix none cs w.past
    refine ⟨h2, h1, hK.drop pre _ _ ?_, hw.trace⟩
    rw [← List.append_assoc, ← hpre]; exact hw.db
  exact ((Keep.core P K ok (NotPast P) ((skipPast none cs w.past).rest ++ more)).updateProgress cfg _ _ henv.panic
    henv.denied).weaken (fun _ h => h) (fun _ _ h => ⟨h, h3⟩) (fun _ _ h => h) (fun _ h => h) _ hw'

theorem resume_candidateLoop {ok : Option Err → Prop} {env : Env σ} (henv : EnvOk ok env) {P G K}
    (hK : KOk ok P G K) (cfg : Cfg) (more cs : List Candidate) :
    Tri (Keep (σ := σ) P K (NotPast P) (cs ++ more)) (candidateLoop cfg env cs) (fun _ => Keep P K (NotPast P) more)
      (fun e w => ok e ∧ ∀ s ∈ w.trace, NotPast P s.event) (fun w => ∀ s ∈ w.trace, NotPast P s.event) := by
  suffices ∀ n cs, cs.length ≤ n → Tri (Keep (σ := σ) P K (NotPast P) (cs ++ more)) (candidateLoop cfg env cs)
      (fun _ => Keep P K (NotPast P) more) (fun e w => ok e ∧ ∀ s ∈ w.trace, NotPast P s.event)
      (fun w => ∀ s ∈ w.trace, NotPast P s.event) from this _ cs (Nat.le_refl _)
  intro n
  induction n with
  | zero =>
    intro cs hn w hw
    have : cs = [] := List.eq_nil_of_length_eq_zero (by omega)
    subst this
    unfold candidateLoop
    refine Tri.bind (P := fun w' => w' = w) (R := fun _ w' => Keep P K (NotPast P) more w') ?_ (fun _ => ?_) w rfl
    · rintro w' rfl
      have hr : (skipPast none ([] : List Candidate) w'.past).rest = [] := by simp [skipPast]
      have := resume_skip henv hK cfg [] more w' hw
      rw [hr] at this
      exact this.imp fun _ _ h => h.1
    · split
      · exact Tri.ret _ fun _ h => h
      · rename_i h
        simp [skipPast] at h
  | succ n ih =>
    intro cs hn w hw
    unfold candidateLoop
    refine Tri.bind (P := fun w' => w' = w) (R := fun _ w' =>
      Keep P K (NotPast P) ((skipPast none cs w.past).rest ++ more) w' ∧
        ∀ c rest, (skipPast none cs w.past).rest = c :: rest → ∀ r ∈ P, r.span ≠ c.span) ?_ (fun _ => ?_) w rfl
    · rintro w' rfl; exact resume_skip henv hK cfg cs more w' hw
    · have hl := skipPast_length none cs w.past
      split
      · rename_i h
        rw [h]
        exact Tri.ret _ fun _ h => h.1
      · rename_i c rest h
        rw [h] at hl
        have hl' : rest.length + 1 ≤ cs.length := hl
        intro w1 hw1
        have hk : Keep P K (NotPast P) (c :: rest ++ more) w1 := by rw [← h]; exact hw1.1
        exact Tri.bind (P := Keep P K (NotPast P) (c :: rest ++ more))
          (resume_oneCandidate henv hK cfg c (rest ++ more) (hw1.2 c rest h)) (fun _ => ih rest (by omega)) w1 hk

theorem resume_skipPresent {ok : Option Err → Prop} {env : Env σ} (henv : EnvOk ok env) {P G K}
    (hK : KOk ok P G K) (cfg : Cfg) (more cs : List Candidate)
    (hcs : ∀ c ∈ cs, G c) :
    Tri (Keep (σ := σ) P K (NotPast P) (cs ++ more)) (skipPresent cfg env cs) (fun _ => Keep P K (NotPast P) more)
      (fun e w => ok e ∧ ∀ s ∈ w.trace, NotPast P s.event) (fun w => ∀ s ∈ w.trace, NotPast P s.event) := by
  induction cs with
  | nil => exact Tri.ret _ fun _ h => h
  | cons c cs ih =>
    intro w hw
    unfold skipPresent
    refine Tri.bind (P := Keep P K (NotPast P) (c :: cs ++ more)) (R := fun _ => Keep P K (NotPast P) (cs ++ more)) ?_
      (fun _ => ih fun c hc => hcs c (List.mem_cons_of_mem _ hc)) w hw
    split
    · exact Tri.bind ((Keep.core P K ok (NotPast P) (c :: cs ++ more)).orPanic _ henv.panic) fun text =>
        resume_insertRow henv hK c (cs ++ more) (hcs c List.mem_cons_self) _ rfl
    · refine Tri.ret _ fun w h => ?_
      exact ⟨(List.pairwise_cons.1 h.asc).2, ⟨h.ahead.1, fun c' hc' => h.ahead.2 c' (List.mem_cons_of_mem _ hc')⟩,
        hK.drop [c] _ _ h.db, h.trace⟩

theorem resume_oneFile {ok : Option Err → Prop} {env : Env σ} (henv : EnvOk ok env) {P G K}
    (hK : KOk ok P G K) (cfg : Cfg) (f : SourceFile) (more cs : List Candidate)
    (hgap : ∀ w e, (env.dryRun w f).res = .err e → ∀ c ∈ cs, G c) :
    Tri (Keep (σ := σ) P K (NotPast P) (cs ++ more)) (oneFile cfg env f cs) (fun _ => Keep P K (NotPast P) more)
      (fun e w => ok e ∧ ∀ s ∈ w.trace, NotPast P s.event) (fun w => ∀ s ∈ w.trace, NotPast P s.event) := by
  have F := Keep.core (σ := σ) P K ok (NotPast P) (cs ++ more)
  have FM := Keep.core (σ := σ) P K ok (NotPast P) more
  have hev := NotPast.evOk P
  refine Tri.bind (F.say cfg _) fun _ => Tri.bind (F.tell (hev.dryRun f)) fun _ =>
    Tri.bind (R := fun r w => Keep P K (NotPast P) (cs ++ more) w ∧ ∀ e, r = .error e → ∀ c ∈ cs, G c) ?_ fun r => ?_
  · intro w hw
    have := F.askTry (fun w => env.dryRun w f) henv.panic w hw
    unfold askTry at this ⊢
    dsimp only at this ⊢
    cases hr : (env.dryRun w f).res with
    | ok a => rw [hr] at this; exact ⟨this, by simp⟩
    | err e => rw [hr] at this; exact ⟨this, fun _ _ => hgap w e hr⟩
    | panic => rw [hr] at this; exact this
    | hang => rw [hr] at this; exact this
  cases r with
  | error e =>
    intro w hw
    exact Tri.bind (F.tell (hev.dryRunFailed f)) (fun _ => Tri.bind (F.warnM cfg _ henv.panic henv.denied) fun _ =>
      Tri.bind (F.checkCtrlc env hev.ctrlc henv.ctrlc) fun _ =>
      Tri.bind (resume_skipPresent henv hK cfg more cs (hw.2 e rfl)) fun _ =>
      FM.updateProgress cfg none _ henv.panic henv.denied) w hw.1
  | ok _ =>
    refine Tri.pre ?_ fun w hw => hw.1
    refine Tri.bind (F.checkCtrlc env hev.ctrlc henv.ctrlc) fun _ => Tri.bind (F.say cfg _) fun _ => ?_
    refine Tri.finally (Q := fun _ => Keep P K (NotPast P) more)
      (E := fun e w => ok e ∧ ∀ s ∈ w.trace, NotPast P s.event) ?_ ?_ ?_
    · exact Tri.bind (F.instrumentStatements henv hev cfg f cs) fun _ => resume_candidateLoop henv hK cfg more cs
    · exact fun _ w h => FM.dropInstr h
    · intro e w h
      have : (dropInstr w).trace = w.trace := by unfold dropInstr; rcases w.instr with _ | ⟨f, t⟩ <;> rfl
      rw [this]; exact h

/-- A run, given that the files whose dry run fails have no past removals among the candidates that remain once the
first of them has none (`hgap`). -/
theorem resume_runFiles {ok : Option Err → Prop} {env : Env σ} (henv : EnvOk ok env) {P G K}
    (hK : KOk ok P G K) (cfg : Cfg) (fcs : List (SourceFile × List Candidate))
    (hgap : ∀ f cs, (f, cs) ∈ fcs → ∀ w e, (env.dryRun w f).res = .err e →
      ∀ pre c rest, cs = pre ++ c :: rest → (∀ r ∈ P, r.span ≠ c.span) → ∀ c' ∈ c :: rest, G c') :
    Tri (Keep (σ := σ) P K (NotPast P) (fcs.flatMap (·.2))) (runFiles cfg env fcs) (fun _ => Keep P K (NotPast P) [])
      (fun e w => ok e ∧ ∀ s ∈ w.trace, NotPast P s.event) (fun w => ∀ s ∈ w.trace, NotPast P s.event) := by
  induction fcs with
  | nil => exact Tri.ret _ fun _ h => h
  | cons x fcs ih =>
    obtain ⟨f, cs⟩ := x
    have ih := ih fun f' cs' hf => hgap f' cs' (List.mem_cons_of_mem _ hf)
    intro w hw
    rw [List.flatMap_cons] at hw
    unfold runFiles
    refine Tri.bind (P := fun w' => w' = w) (R := fun _ w' =>
      Keep P K (NotPast P) ((skipPast none cs w.past).rest ++ fcs.flatMap (·.2)) w' ∧
        ∀ c rest, (skipPast none cs w.past).rest = c :: rest → ∀ r ∈ P, r.span ≠ c.span) ?_ (fun _ => ?_) w rfl
    · rintro w' rfl; exact resume_skip henv hK cfg cs _ w' hw
    · refine Tri.bind (R := fun _ => Keep P K (NotPast P) (fcs.flatMap (·.2))) ?_ fun _ => ih
      obtain ⟨pre, hpre⟩ := skipPast_rest_suffix none cs w.past
      cases hr : (skipPast none cs w.past).rest with
      | nil => exact Tri.ret _ fun _ h => h.1
      | cons c rest =>
        intro w1 hw1
        refine resume_oneFile henv hK cfg f (fcs.flatMap (·.2)) (c :: rest) ?_ w1 hw1.1
        intro w' e he
        rw [hr] at hpre
        exact hgap f cs List.mem_cons_self w' e he pre c rest hpre (hw1.2 c rest rfl)

end Necessist.Run
