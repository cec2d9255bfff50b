import Verif.Spec.Commands
import Verif.Lemmas.RunSteps
import Verif.Props.Exec
/-! Backends that follow a plan, and what then happens in a run. -/
namespace Necessist.Cmd
open Run
open ItMessage (Table)

variable {σ α : Type}

/-- In the table, the message was found. -/
def Found (tb : Table) (f : SourceFile) (t : Text) : Prop := ∃ m, tb f = some m ∧ m t = .found

/-- What a dry run does. -/
def DryOk (plan : Plan) (f : SourceFile) (s s' : St σ) (r : Res Err Unit) : Prop :=
  ∃ l ro, s'.ran = s.ran ++ l ∧ Follows (plan.dry f) l ro ∧
    match r with
    | .ok _ => ro = some true ∧ ∀ ns, plan.names = some ns → ∃ out, Printed l out ∧ ns.usable out ∧
        ∀ f' t, Found s'.it f' t ↔ Found s.it f' t ∨ f' = f ∧ ns.lists out t
    | .err _ => (ro ≠ some true ∨ ∃ ns out, plan.names = some ns ∧ Printed l out ∧ ¬ ns.usable out) ∧
        ∀ ns, plan.names = some ns → ∀ f' t, Found s'.it f' t ↔ Found s.it f' t
    | _ => ro = none

/-- What building a file does. -/
def BuildOk (plan : Plan) (f : SourceFile) (s s' : St σ) (r : Res Err Unit) : Prop :=
  ∃ l ro, s'.ran = s.ran ++ l ∧ Follows (.run (plan.build f)) l ro ∧ s'.it = s.it ∧
    match r with
    | .ok _ => ro = some true
    | .err _ => ro ≠ some true
    | _ => ro = none

/-- What `exec` does. -/
def ExecOk (x : Around σ) (plan : Plan) (t : Text) (span : Span) (s s' : St σ) (r : Res Err (Option Bool)) : Prop :=
  ∃ l ro, s'.ran = s.ran ++ l ∧ Follows (.run (plan.prepare span.file)) l ro ∧
    (∀ ns, plan.names = some ns → ∀ f' t, Found s'.it f' t ↔ Found s.it f' t) ∧
    match r with
    | .ok (some b) => ro = some true ∧ (∀ ns, plan.names = some ns → Found s.it span.file t) ∧
        match plan.shows with
        | none => b = false ∧ s'.next = some ⟨plan.test span.file t, none, false⟩ ∨
            b = true ∧ ∃ c, s'.next = some ⟨c, none, true⟩ ∧ { c with script := s'.script } = plan.test span.file t
        | some shows => b = true ∧ plan.decode = x.decode ∧ ∃ c : Closure, s'.next = some ⟨plan.test span.file t, some c, false⟩ ∧ c.init = false ∧
            ∀ line, c.pred line = true ↔ shows t line
    | .ok none => ro = some false ∨ (ro = none ∧ plan.lenient = true) ∨
        ro = some true ∧ ∃ ns, plan.names = some ns ∧ ¬ Found s.it span.file t
    | .err _ | .hang => ro ≠ some false
    | _ => True

/-- The backend follows the plan. -/
structure Implements (x : Around σ) (high : High σ) (plan : Plan) (files : SourceFile → Prop) : Prop where
  dry : ∀ f, files f → ∀ w, DryOk plan f w.ext (high.dryRun f w).2.ext (high.dryRun f w).1
  build : ∀ f, files f → ∀ w, BuildOk plan f w.ext (high.build f w).2.ext (high.build f w).1
  exec : ∀ t span, files span.file → ∀ w, ExecOk x plan t span w.ext (high.exec t span w).2.ext (high.exec t span w).1

/-! ### The run loop -/

/-- What holds after the steps `h`. -/
def At (cfg : Cfg) (plan : Plan) (h : List Did) (w : World (St σ)) : Prop :=
  History cfg plan h ∧ Explains h (w.trace.map (·.event)) w.ext.ran ∧
    ∀ ns, plan.names = some ns → ∀ f t, Known ns h f t ↔ Found w.ext.it f t

/-- What holds after one more step. -/
def Further (cfg : Cfg) (plan : Plan) (h : List Did) (w : World (St σ)) : Prop := ∃ s, At cfg plan (h ++ [s]) w

/-- What holds between steps. -/
def Inv (cfg : Cfg) (plan : Plan) (w : World (St σ)) : Prop := ∃ h, At cfg plan h w

/-- What holds when the run is over. -/
def Over (cfg : Cfg) (plan : Plan) (result : Res Err Unit) (w : World (St σ)) : Prop :=
  ∃ h, History cfg plan h ∧ (Explains h (w.trace.map (·.event)) w.ext.ran ∨
    ∃ s, Cut cfg plan h result s ∧ Explains (h ++ [s]) (w.trace.map (·.event)) w.ext.ran)

/-- … with an error or a panic. -/
def OverE (cfg : Cfg) (plan : Plan) : Option Err → World (St σ) → Prop
  | some e => Over cfg plan (.err e)
  | none => Over cfg plan .panic

/-- What holds after a failed dry run. -/
def FailedAt (cfg : Cfg) (plan : Plan) (f : SourceFile) (h : List Did) (w : World (St σ)) : Prop :=
  ∃ l, History cfg plan h ∧ Step cfg plan h ([.dryRun f, .dryRunFailed f], l) ∧
    Explains (h ++ [([.dryRun f], l)]) (w.trace.map (·.event)) w.ext.ran ∧
    ∀ ns, plan.names = some ns → ∀ f t, Known ns h f t ↔ Found w.ext.it f t

/-- What holds after a failed build. -/
def NotBuiltAt (cfg : Cfg) (plan : Plan) (f : SourceFile) (h : List Did) (w : World (St σ)) : Prop :=
  ∃ l, History cfg plan h ∧ Step cfg plan h ([.buildFile f, .buildFailed f], l) ∧
    Explains (h ++ [([.buildFile f], l)]) (w.trace.map (·.event)) w.ext.ran ∧
    ∀ ns, plan.names = some ns → ∀ f t, Known ns h f t ↔ Found w.ext.it f t

/-- … after some steps. -/
def Failed (cfg : Cfg) (plan : Plan) (f : SourceFile) (w : World (St σ)) : Prop := ∃ h, FailedAt cfg plan f h w
/-- … after some steps. -/
def NotBuilt (cfg : Cfg) (plan : Plan) (f : SourceFile) (w : World (St σ)) : Prop := ∃ h, NotBuiltAt cfg plan f h w

theorem Explains.snoc {h : List Did} {es l} (hx : Explains h es l) (es' l') : Explains (h ++ [(es', l')]) (es ++ es') (l ++ l') := by
  obtain ⟨rfl, rfl⟩ := hx
  constructor <;> simp

/-- A step that is not a successful dry run does not make a test known. -/
theorem known_snoc_other {ns h es l} (hne : ∀ f, es ≠ [.dryRun f]) (f t) : Known ns (h ++ [(es, l)]) f t ↔ Known ns h f t := by
  constructor
  · rintro ⟨l', out, hm, hp, ht⟩
    rcases List.mem_append.1 hm with hm | hm
    · exact ⟨l', out, hm, hp, ht⟩
    · exact absurd (congrArg Prod.fst (List.mem_singleton.1 hm)).symm (hne f)
  · rintro ⟨l', out, hm, hp, ht⟩
    exact ⟨l', out, List.mem_append_left _ hm, hp, ht⟩

theorem printed_unique {l out out'} (h : Printed l out) (h' : Printed l out') : out = out' := by
  obtain ⟨l1, c1, o1, rfl, rfl⟩ := h
  obtain ⟨l2, c2, o2, e, rfl⟩ := h'
  have := List.append_inj_right' e rfl
  simp only [List.cons.injEq, Ran.ran.injEq, Option.some.injEq, and_true] at this
  rw [this.2]

theorem known_snoc_dry {ns h f l out} (hp : Printed l out) (f' t) :
    Known ns (h ++ [([.dryRun f], l)]) f' t ↔ Known ns h f' t ∨ f' = f ∧ ns.lists out t := by
  constructor
  · rintro ⟨l', out', hm, hp', ht⟩
    rcases List.mem_append.1 hm with hm | hm
    · exact .inl ⟨l', out', hm, hp', ht⟩
    · have e := List.mem_singleton.1 hm
      simp only [Prod.mk.injEq, List.cons.injEq, Event.dryRun.injEq, and_true] at e
      obtain ⟨rfl, rfl⟩ := e
      exact .inr ⟨rfl, printed_unique hp hp' ▸ ht⟩
  · rintro (⟨l', out', hm, hp', ht⟩ | ⟨rfl, ht⟩)
    · exact ⟨l', out', List.mem_append_left _ hm, hp', ht⟩
    · exact ⟨l, out, by simp, hp, ht⟩

theorem Inv.over {cfg plan} {w : World (St σ)} {result} : Inv cfg plan w → Over cfg plan result w := fun ⟨h, h1, h2, _⟩ => ⟨h, h1, .inl h2⟩

/-- A step of another kind. -/
theorem At.step {cfg plan} {h : List Did} {w w' : World (St σ)} {es l} (hh : History cfg plan h)
    (hx : Explains h (w.trace.map (·.event)) w.ext.ran) (hk : ∀ ns, plan.names = some ns → ∀ f t, Known ns h f t ↔ Found w.ext.it f t)
    (hs : Step cfg plan h (es, l)) (hne : ∀ f, es ≠ [.dryRun f]) (ht : w'.trace.map (·.event) = w.trace.map (·.event) ++ es)
    (hr : w'.ext.ran = w.ext.ran ++ l) (hit : ∀ ns, plan.names = some ns → ∀ f t, Found w'.ext.it f t ↔ Found w.ext.it f t) :
    Further cfg plan h w' := by
  refine ⟨(es, l), .snoc _ _ hh hs, ?_, fun ns hns f t => ?_⟩
  · rw [ht, hr]; exact hx.snoc es l
  · rw [known_snoc_other hne, hk ns hns, hit ns hns]

theorem Inv.frame {cfg plan} {w w' : World (St σ)} (ht : w'.trace.map (·.event) = w.trace.map (·.event)) (hr : w'.ext.ran = w.ext.ran) (hi : w'.ext.it = w.ext.it)
    (h : Inv cfg plan w) : Inv cfg plan w' := by
  unfold Inv At at h ⊢
  rw [ht, hr, hi]; exact h

theorem note_run (e : Event) (w : World σ) : note e w = (.ok (), { w with trace := w.trace ++ [⟨e, w.fs⟩] }) := rfl

/-- A test has been started or refused, and its result is about to be noted. -/
def Pending (cfg : Cfg) (plan : Plan) (h : List Did) (c : Candidate) (t : Text) (res : Option Outcome) (w : World (St σ)) : Prop :=
  ∃ evs l, History cfg plan h ∧ Step cfg plan h (evs ++ [.tested c t res], l) ∧ evs ≠ [] ∧
    Explains (h ++ [(evs, l)]) (w.trace.map (·.event)) w.ext.ran ∧
    ∀ ns, plan.names = some ns → ∀ f t, Known ns h f t ↔ Found w.ext.it f t

theorem pending_note {cfg plan h c t res} :
    Tri (σ := St σ) (Pending cfg plan h c t res) (note (.tested c t res)) (fun _ => Further cfg plan h) (OverE cfg plan) (Over cfg plan .hang) := by
  rintro w ⟨evs, l, hh, hs, hne, hx, hk⟩
  refine ⟨(evs ++ [.tested c t res], l), .snoc _ _ hh hs, ?_, fun ns hns f t' => ?_⟩
  · obtain ⟨h1, h2⟩ := hx
    constructor
    · simp only [List.map_append, ← h1]; simp
    · rw [← h2]; simp
  · rw [known_snoc_other, hk ns hns]
    intro f e
    cases evs with
    | nil => exact hne rfl
    | cons a as =>
      have := congrArg List.length e
      simp at this

/-- A test can be run. -/
def Ready (x : Around σ) (cfg : Cfg) (plan : Plan) (h : List Did) (c : Candidate) (t : Text) (b : Bool) (w : World (St σ)) : Prop :=
  ∃ l, History cfg plan h ∧ Follows (.run (plan.prepare c.span.file)) l (some true) ∧
    (∀ ns, plan.names = some ns → Known ns h c.span.file t) ∧
    Explains (h ++ [([.buildTest c t], l)]) (w.trace.map (·.event)) w.ext.ran ∧
    (∀ ns, plan.names = some ns → ∀ f t, Known ns h f t ↔ Found w.ext.it f t) ∧
    match plan.shows with
    | none => b = false ∧ w.ext.next = some ⟨plan.test c.span.file t, none, false⟩ ∨
        b = true ∧ ∃ c', w.ext.next = some ⟨c', none, true⟩ ∧ { c' with script := w.ext.script } = plan.test c.span.file t
    | some shows => b = true ∧ plan.decode = x.decode ∧ ∃ k : Closure, w.ext.next = some ⟨plan.test c.span.file t, some k, false⟩ ∧ k.init = false ∧
        ∀ line, k.pred line = true ↔ shows t line

/-- Dropping what `exec` returned. -/
theorem thenLetGo_run (keep : α → Bool) (m : M (St σ) α) (w : World (St σ)) :
    ∃ s, thenLetGo keep m w = ((m w).1, { (m w).2 with ext := { (m w).2.ext with script := s } }) := by
  unfold thenLetGo
  generalize m w = R
  obtain ⟨r, w'⟩ := R
  cases r with
  | ok a =>
    dsimp only
    by_cases h : keep a = true
    · exact ⟨w'.ext.script, by rw [if_pos h]⟩
    · exact ⟨none, by rw [if_neg h]; rfl⟩
  | err e => exact ⟨none, rfl⟩
  | panic => exact ⟨none, rfl⟩
  | hang => exact ⟨w'.ext.script, rfl⟩

/-- The command that is started for what `exec` returned. -/
def Next.started (n : Next) (s : St σ) : Command := if n.holds then { n.cmd with script := s.script } else n.cmd

theorem start_run {x : Around σ} {i : Text} {w : World (St σ)} {n : Next} (h : w.ext.next = some n) (keep : Proc → Bool) :
    ∃ ws os e s, thenLetGo keep (start x i) w = ((x.spawn (forget w) ((n.started w.ext).withVar "NECESSIST_REMOVAL".toList i)).res,
      { w with warns := ws, out := os, ext := ⟨w.ext.ran ++ [.started ((n.started w.ext).withVar "NECESSIST_REMOVAL".toList i)
        (valueOf (x.spawn (forget w) ((n.started w.ext).withVar "NECESSIST_REMOVAL".toList i)).res)], w.ext.next, w.ext.it, s, e⟩ }) := by
  obtain ⟨s, hs⟩ := thenLetGo_run keep (start x i) w
  rw [hs]
  refine ⟨(x.spawn (forget w) ((n.started w.ext).withVar "NECESSIST_REMOVAL".toList i)).warns,
    w.out ++ (x.spawn (forget w) ((n.started w.ext).withVar "NECESSIST_REMOVAL".toList i)).said.map .warning, (x.spawn (forget w) ((n.started w.ext).withVar "NECESSIST_REMOVAL".toList i)).ext, s, ?_⟩
  have e : (if n.holds then { n.cmd.env "NECESSIST_REMOVAL".toList i with script := w.ext.script } else n.cmd.env "NECESSIST_REMOVAL".toList i) =
      (n.started w.ext).withVar "NECESSIST_REMOVAL".toList i := by
    unfold Next.started
    split <;> rfl
  simp only [start, h, e]

theorem inner_ext (f : World σ → Reply σ α) (w : World (St σ)) :
    (inner f w).2.ext.ran = w.ext.ran ∧ (inner f w).2.ext.it = w.ext.it ∧ (inner f w).2.ext.next = w.ext.next := ⟨rfl, rfl, rfl⟩

theorem post_run {x : Around σ} {w : World (St σ)} {cmd : Command} {k : Closure} {hold : Bool} (h : w.ext.next = some ⟨cmd, some k, hold⟩) (hk : k.init = false) :
    (post x w).2.ext.it = w.ext.it ∧
    ((∀ b, (post x w).1 ≠ .ok b) ∧ (post x w).2.ext.ran = w.ext.ran ∨
      ∃ out, (post x w).2.ext.ran = w.ext.ran ++ [.looked out] ∧ ∀ b, (post x w).1 = .ok b →
        ∃ ls, Exec.IsLines out ls ∧ (b = true ↔ ∃ l ∈ ls, ∃ t, x.decode l = some t ∧ k.pred t = true)) := by
  unfold post
  rw [h]
  dsimp only
  unfold Run.bind inner
  dsimp only
  cases hc : (x.captured (forget w)).res with
  | ok a =>
    obtain ⟨out, status⟩ := a
    refine ⟨rfl, .inr ⟨out, rfl, fun b hb => ?_⟩⟩
    dsimp only at hb
    obtain ⟨ls, h1, h2⟩ := Exec.C47_decision (s := setup x k out) (stdout := out) (status := status) (o := ⟨[], (x.captured (forget w)).warns⟩) (b := b)
      (Prod.ext hb rfl)
    refine ⟨ls, h1, h2.trans ?_⟩
    have : (setup x k out).init = false := hk
    rw [this]
    exact Iff.rfl
  | err e => exact ⟨rfl, .inl ⟨nofun, rfl⟩⟩
  | panic => exact ⟨rfl, .inl ⟨nofun, rfl⟩⟩
  | hang => exact ⟨rfl, .inl ⟨nofun, rfl⟩⟩

theorem timeoutMs_outlives {cfg : Cfg} {p : Proc} :
    (∀ b, waitFor (timeoutMs cfg) p = .ok (some b) → p.waitFails = false ∧ b = p.success ∧ (∃ d, p.duration = some d) ∧ ¬ Outlives cfg.timeout p.duration) ∧
    (waitFor (timeoutMs cfg) p = .ok none → p.waitFails = false ∧ Outlives cfg.timeout p.duration) := by
  unfold waitFor timeoutMs Outlives
  constructor
  · intro b h
    split at h
    · cases h
    · rename_i hw
      refine ⟨by simpa using hw, ?_⟩
      cases hd : p.duration with
      | none => cases ht : cfg.timeout with
        | none => simp [hd, ht] at h
        | some n => cases n <;> simp [hd, ht] at h
      | some d =>
        cases ht : cfg.timeout with
        | none =>
          simp only [hd, ht] at h
          split at h
          · rename_i hle
            cases h
            refine ⟨rfl, ⟨d, rfl⟩, ?_⟩
            rintro ⟨s, hs, hlt⟩
            rcases hs with ⟨_, rfl⟩ | ⟨h, _⟩
            · have := hlt d rfl; omega
            · cases h
          · cases h
        | some n =>
          cases n with
          | zero =>
            simp only [hd, ht] at h
            cases h
            refine ⟨rfl, ⟨d, rfl⟩, ?_⟩
            rintro ⟨s, hs, hlt⟩
            rcases hs with ⟨h, _⟩ | ⟨h, h'⟩
            · cases h
            · cases h; exact h' rfl
          | succ n =>
            simp only [hd, ht] at h
            split at h
            · rename_i hle
              cases h
              refine ⟨rfl, ⟨d, rfl⟩, ?_⟩
              rintro ⟨s, hs, hlt⟩
              rcases hs with ⟨h, _⟩ | ⟨h, _⟩
              · cases h
              · cases h; have := hlt d rfl; omega
            · cases h
  · intro h
    split at h
    · cases h
    · rename_i hw
      refine ⟨by simpa using hw, ?_⟩
      cases ht : cfg.timeout with
      | none =>
        refine ⟨60, .inl ⟨rfl, rfl⟩, fun d hd => ?_⟩
        simp only [hd, ht] at h
        split at h
        · cases h
        · omega
      | some n =>
        cases n with
        | zero =>
          exfalso
          cases hd : p.duration <;> simp only [hd, ht] at h <;> cases h
        | succ n =>
          refine ⟨n + 1, .inr ⟨rfl, by omega⟩, fun d hd => ?_⟩
          simp only [hd, ht] at h
          split at h
          · cases h
          · omega

theorem waitFor_other {cfg : Cfg} {p : Proc} :
    (∀ e, waitFor (timeoutMs cfg) p = .err e → p.waitFails = true) ∧ waitFor (timeoutMs cfg) p ≠ .panic ∧
    (waitFor (timeoutMs cfg) p = .hang → p.duration = none ∧ ¬ Outlives cfg.timeout p.duration) := by
  unfold waitFor timeoutMs Outlives
  cases hw : p.waitFails with
  | true => simp
  | false =>
    cases hd : p.duration with
    | none =>
      cases ht : cfg.timeout with
      | none => simp
      | some n => cases n <;> simp
    | some d =>
      cases ht : cfg.timeout with
      | none => by_cases h : d ≤ 60000 <;> simp [h]
      | some n =>
        cases n with
        | zero => simp
        | succ n => by_cases h : d ≤ (n + 1) * 1000 <;> simp [h]

theorem explains_more {h : List Did} {es l es' l' E L} (hx : Explains (h ++ [(es, l)]) E L) :
    Explains (h ++ [(es ++ es', l ++ l')]) (E ++ es') (L ++ l') := by
  obtain ⟨rfl, rfl⟩ := hx
  constructor <;> simp

theorem performExec_ok {x : Around σ} {high : High σ} {plan : Plan} {cfg : Cfg} {h : List Did} {c : Candidate} {t : Text} {b : Bool} (ht : t ∈ c.tests) :
    Tri (Ready x cfg plan h c t b) (performExec cfg (inRun x high) c t b) (fun r => Pending cfg plan h c t r) (OverE cfg plan)
      (Over cfg plan .hang) := by
  rintro w ⟨l, hh, hp, hkn, hx, hk, hnext⟩
  have hn : ∃ n, w.ext.next = some n ∧ n.started w.ext = plan.test c.span.file t := by
    split at hnext
    · rcases hnext with hnext | ⟨_, c', h1, h2⟩
      · exact ⟨_, hnext.2, rfl⟩
      · exact ⟨_, h1, h2⟩
    · obtain ⟨_, _, k, h, _⟩ := hnext; exact ⟨_, h, rfl⟩
  obtain ⟨n, hn, hcmd⟩ := hn
  unfold performExec Run.bind note ask
  dsimp only [inRun, reply]
  obtain ⟨ws, os, e, sc, hst⟩ := start_run (x := x) (i := cfg.ident c.span)
    (w := { w with trace := w.trace ++ [⟨.startTest c t (cfg.ident c.span), w.fs⟩] }) hn fun p => !p.waitFails
  dsimp only at hst
  rw [hcmd] at hst
  rw [hst]
  dsimp only
  generalize hr : (x.spawn (forget { w with trace := w.trace ++ [⟨.startTest c t (cfg.ident c.span), w.fs⟩] })
    ((plan.test c.span.file t).withVar "NECESSIST_REMOVAL".toList (cfg.ident c.span))).res = r
  have hx' := fun p => explains_more (es' := [.startTest c t (cfg.ident c.span)])
    (l' := [.started ((plan.test c.span.file t).withVar "NECESSIST_REMOVAL".toList (cfg.ident c.span)) p]) hx
  have hcut : ∀ result p w', (∀ q, p = some q → q.waitFails = true ∨ (result = .hang ∧ q.duration = none ∧ ¬ Outlives cfg.timeout q.duration) ∨
        q.duration ≠ none ∧ ¬ Outlives cfg.timeout q.duration ∧ plan.shows.isSome = true) → (w' : World (St σ)).trace.map (·.event) = w.trace.map (·.event) ++ [.startTest c t (cfg.ident c.span)] →
      w'.ext.ran = w.ext.ran ++ [.started ((plan.test c.span.file t).withVar "NECESSIST_REMOVAL".toList (cfg.ident c.span)) p] →
      Over cfg plan result w' := fun result p w' h0 h1 h2 => by
    refine ⟨h, hh, .inr ⟨_, Cut.startTest c t _ p ht (Started.mk l p hp hkn) h0, ?_⟩⟩
    rw [h1, h2]
    exact hx' p
  cases r with
  | err e => exact hcut _ none _ nofun (by simp) rfl
  | panic => exact hcut _ none _ nofun (by simp) rfl
  | hang => exact hcut _ none _ nofun (by simp) rfl
  | ok p =>
    dsimp only [valueOf]
    have hst' := Started.mk (cfg := cfg) (plan := plan) (h := h) (c := c) (t := t) l (some p) hp hkn
    obtain ⟨hw1, hw2⟩ := timeoutMs_outlives (cfg := cfg) (p := p)
    cases hwait : waitFor (timeoutMs cfg) p with
    | err e => exact hcut _ (some p) _ (fun q e' => by cases e'; exact .inl (waitFor_other.1 _ hwait)) (by simp) rfl
    | panic => exact absurd hwait waitFor_other.2.1
    | hang =>
      have := waitFor_other.2.2 hwait
      exact hcut _ (some p) _ (fun q e' => by cases e'; exact .inr (.inl ⟨rfl, this⟩)) (by simp) rfl
    | ok s =>
      cases s with
      | none =>
        obtain ⟨hf, ho⟩ := hw2 hwait
        dsimp only
        have hover : ∀ result (w' : World (St σ)), w'.trace.map (·.event) = w.trace.map (·.event) ++ [.startTest c t (cfg.ident c.span)] ++ [.kill c t] →
            w'.ext.ran = w.ext.ran ++ [.started ((plan.test c.span.file t).withVar "NECESSIST_REMOVAL".toList (cfg.ident c.span)) (some p)] →
            Over cfg plan result w' := fun result w' h1 h2 => by
          refine ⟨h, hh, .inr ⟨_, Cut.kill c t _ p ht hst' hf ho, ?_⟩⟩
          rw [h1, h2]
          have := explains_more (es' := [.kill c t]) (l' := []) (hx' (some p))
          rw [List.append_nil, List.append_nil] at this
          exact this
        have hpend : ∀ w' : World (St σ), w'.trace.map (·.event) = w.trace.map (·.event) ++ [.startTest c t (cfg.ident c.span)] ++ [.kill c t] →
            w'.ext.ran = w.ext.ran ++ [.started ((plan.test c.span.file t).withVar "NECESSIST_REMOVAL".toList (cfg.ident c.span)) (some p)] →
            w'.ext.it = w.ext.it → Pending cfg plan h c t (some .timedOut) w' := fun w' h1 h2 h3 => by
          refine ⟨[.buildTest c t, .startTest c t (cfg.ident c.span), .kill c t], _, hh, Step.killed c t _ p ht hst' hf ho, by simp, ?_, ?_⟩
          · rw [h1, h2]
            have := explains_more (es' := [.kill c t]) (l' := []) (hx' (some p))
            rw [List.append_nil, List.append_nil] at this
            exact this
          · rw [h3]; exact hk
        generalize hk1 : thenLetGo _ (inner x.base.kill) _ = K
        obtain ⟨s1, hs1⟩ := thenLetGo_run (fun _ => true) (inner x.base.kill) _
        rw [hs1] at hk1
        subst hk1
        dsimp only [inner]
        cases (x.base.kill _).res with
        | err e => exact hover _ _ (by simp) rfl
        | panic => exact hover _ _ (by simp) rfl
        | hang => exact hover _ _ (by simp) rfl
        | ok _ =>
          dsimp only
          generalize hk2 : thenLetGo _ (inner x.base.reap) _ = K
          obtain ⟨s2, hs2⟩ := thenLetGo_run (fun _ => false) (inner x.base.reap) _
          rw [hs2] at hk2
          subst hk2
          dsimp only [inner]
          cases (x.base.reap _).res with
          | err e => exact hover _ _ (by simp) rfl
          | panic => exact hover _ _ (by simp) rfl
          | hang => exact hover _ _ (by simp) rfl
          | ok _ => exact hpend _ (by simp) rfl rfl
      | some ok =>
        obtain ⟨hf, rfl, ⟨d, hd⟩, ho⟩ := hw1 ok hwait
        dsimp only
        cases hs : plan.shows with
        | none =>
          rw [hs] at hnext
          rcases hnext with ⟨rfl, _⟩ | ⟨rfl, c', hc', _⟩
          · refine ⟨[.buildTest c t, .startTest c t (cfg.ident c.span)], _, hh, Step.ended c t _ p d ht hst' hf hd ho hs, by simp, ?_, hk⟩
            have := hx' (some p)
            simpa using this
          · rw [if_pos rfl]
            have hpost : ∀ w' : World (St σ), w'.ext.next = some ⟨c', none, true⟩ → thenLetGo (fun _ => false) (post x) w' = (.ok true, letGo w') := by
              intro w' h
              simp only [thenLetGo, post, h]
              rfl
            rw [hpost]
            rotate_left
            · exact hc'
            refine ⟨[.buildTest c t, .startTest c t (cfg.ident c.span)], _, hh, Step.ended c t _ p d ht hst' hf hd ho hs, by simp, ?_, hk⟩
            have := hx' (some p)
            simpa [letGo] using this
        | some shows =>
          rw [hs] at hnext
          obtain ⟨rfl, hdec, k, hnk, hinit, hpred⟩ := hnext
          generalize hw' : ({ w with
            warns := ws, out := _, trace := w.trace ++ [⟨.startTest c t (cfg.ident c.span), w.fs⟩],
            ext := ⟨w.ext.ran ++ [.started ((plan.test c.span.file t).withVar "NECESSIST_REMOVAL".toList (cfg.ident c.span)) (some p)], w.ext.next, w.ext.it, sc, e⟩ } : World (St σ)) = w'
          have e1 : w'.trace.map (·.event) = w.trace.map (·.event) ++ [.startTest c t (cfg.ident c.span)] := by subst hw'; simp
          have e2 : w'.ext.ran = w.ext.ran ++ [.started ((plan.test c.span.file t).withVar "NECESSIST_REMOVAL".toList (cfg.ident c.span)) (some p)] := by subst hw'; rfl
          have e3 : w'.ext.it = w.ext.it := by subst hw'; rfl
          have e4 : w'.ext.next = some ⟨plan.test c.span.file t, some k, false⟩ := by subst hw'; exact hnk
          obtain ⟨p1, p2⟩ := post_run (x := x) e4 hinit
          rw [if_pos rfl]
          obtain ⟨s1, hs1⟩ := thenLetGo_run (fun _ => false) (post x) w'
          rw [hs1]
          rcases hpost : post x w' with ⟨r, w''⟩
          rw [hpost] at p1 p2
          dsimp only at p1 p2 ⊢
          rcases p2 with ⟨hno, hran⟩ | ⟨out, hran, hlines⟩
          · have hover : ∀ result o, Over cfg plan result { w' with warns := w''.warns, out := o, ext := { w''.ext with script := s1 } } := fun result _ =>
              hcut _ (some p) _ (fun q e' => by cases e'; exact .inr (.inr ⟨by rw [hd]; nofun, ho, by rw [hs]; rfl⟩)) e1 (by rw [hran]; exact e2)
            cases r with
            | ok b => exact absurd rfl (hno b)
            | err e => exact hover _ _
            | panic => exact hover _ _
            | hang => exact hover _ _
          · have hxl := explains_more (es' := []) (l' := [.looked out]) (hx' (some p))
            rw [List.append_nil, List.append_nil] at hxl
            have hover : ∀ result o, Over cfg plan result { w' with warns := w''.warns, out := o, ext := { w''.ext with script := s1 } } := by
              intro result o
              refine ⟨h, hh, .inr ⟨_, Cut.looked c t _ p d out shows ht hst' hf hd ho hs, ?_⟩⟩
              show Explains _ (w'.trace.map (·.event)) w''.ext.ran
              rw [e1, hran, e2]
              exact hxl
            cases r with
            | err e => exact hover _ _
            | panic => exact hover _ _
            | hang => exact hover _ _
            | ok b =>
              obtain ⟨ls, hls, hb⟩ := hlines b rfl
              refine ⟨[.buildTest c t, .startTest c t (cfg.ident c.span)],
                (l ++ [.started ((plan.test c.span.file t).withVar "NECESSIST_REMOVAL".toList (cfg.ident c.span)) (some p)]) ++ [.looked out], hh, ?_, by simp, ?_, ?_⟩
              · cases b with
                | true =>
                  obtain ⟨ln, hln, line, hl1, hl2⟩ := hb.1 rfl
                  exact Step.shown c t _ p d out shows ht hst' hf hd ho hs ⟨ls, hls, ln, hln, line, by rw [hdec]; exact hl1, (hpred line).1 hl2⟩
                | false =>
                  refine Step.hidden c t _ p d out shows ht hst' hf hd ho hs ⟨ls, hls, fun ln hln line hl1 hl2 => ?_⟩
                  have := hb.2 ⟨ln, hln, line, by rw [← hdec]; exact hl1, (hpred line).2 hl2⟩
                  cases this
              · show Explains _ (w'.trace.map (·.event)) w''.ext.ran
                rw [e1, hran, e2]
                exact hxl
              · show ∀ ns, plan.names = some ns → ∀ f t, Known ns h f t ↔ Found w''.ext.it f t
                rw [p1, e3]; exact hk

/-- A test. -/
theorem test_ok {x : Around σ} {high : High σ} {plan : Plan} {files : SourceFile → Prop} (hi : Implements x high plan files) (cfg : Cfg)
    (h : List Did) (c : Candidate) (ex : Bool) (t : Text) (hc : files c.span.file) (ht : t ∈ c.tests) :
    Tri (At cfg plan h) (oneTest cfg (inRun x high) c ex t) (fun _ => Further cfg plan h) (OverE cfg plan) (Over cfg plan .hang) := by
  rintro w ⟨hh, hx, hk⟩
  have he := hi.exec t c.span hc { w with trace := w.trace ++ [⟨.buildTest c t, w.fs⟩] }
  obtain ⟨l, ro, h1, h2, h3, h4⟩ := he
  have hx' : Explains (h ++ [([.buildTest c t], l)]) (w.trace.map (·.event) ++ [.buildTest c t]) (w.ext.ran ++ l) := hx.snoc _ _
  unfold oneTest Run.bind note ask
  dsimp only [inRun, reply]
  generalize hE : high.exec t c.span { w with trace := w.trace ++ [⟨.buildTest c t, w.fs⟩] } = R at *
  obtain ⟨r, w2⟩ := R
  dsimp only at h1 h2 h3 h4 ⊢
  have hover : ∀ result (w' : World (St σ)), (ro = some false → result = .panic) → w'.trace.map (·.event) = w.trace.map (·.event) ++ [.buildTest c t] →
      w'.ext = w2.ext → Over cfg plan result w' := by
    intro result w' e0 e1 e2
    refine ⟨h, hh, .inr ⟨_, Cut.buildTest c t l ro ht h2 e0, ?_⟩⟩
    rw [e1, e2, h1]
    exact hx'
  cases r with
  | err e => exact hover _ _ (fun h => absurd h h4) (by simp) rfl
  | panic => exact hover _ _ (fun _ => rfl) (by simp) rfl
  | hang => exact hover _ _ (fun h => absurd h h4) (by simp) rfl
  | ok o =>
    cases o with
    | none =>
      cases ex with
      | false => exact hover _ _ (fun _ => rfl) (by simp) rfl
      | true =>
        dsimp only at h4
        refine At.step hh hx hk (es := [.buildTest c t, .tested c t (some .nonbuildable)]) (l := l) ?_ nofun (by simp [Run.ret, Run.bind]) h1 h3
        refine Step.notBuilt c t l ro ht h2 ?_
        rcases h4 with h4 | h4 | ⟨h4, ns, hns, h5⟩
        · exact .inl h4
        · exact .inr (.inl h4)
        · exact .inr (.inr ⟨h4, ns, hns, fun hkn => h5 ((hk ns hns _ _).1 hkn)⟩)
    | some b =>
      dsimp only at h4 ⊢
      obtain ⟨rfl, h5, h6⟩ := h4
      have key : Tri (Ready x cfg plan h c t b) (Run.bind (performExec cfg (inRun x high) c t b) fun res =>
          Run.bind (note (.tested c t res)) fun _ => ret res) (fun _ => Further cfg plan h) (OverE cfg plan) (Over cfg plan .hang) :=
        Tri.bind (performExec_ok ht) fun r => Tri.bind pending_note fun _ => Tri.ret _ fun _ h => h
      generalize w.out ++ _ = O
      refine key { w with warns := w2.warns, out := O, trace := w.trace ++ [⟨.buildTest c t, w.fs⟩], ext := w2.ext } ?_
      refine ⟨l, hh, h2, fun ns hns => (hk ns hns _ _).2 (h5 ns hns), ?_, fun ns hns f t => (hk ns hns f t).trans (h3 ns hns f t).symm, h6⟩
      have : ({ w with warns := w2.warns, out := O, trace := w.trace ++ [⟨.buildTest c t, w.fs⟩], ext := w2.ext } : World (St σ)).ext.ran = w.ext.ran ++ l := h1
      rw [this]
      simpa using hx'

theorem Over.frame {cfg plan result} {w w' : World (St σ)} (ht : w'.trace = w.trace) (hr : w'.ext = w.ext) (h : Over cfg plan result w) :
    Over cfg plan result w' := by
  unfold Over at h ⊢
  rw [ht, hr]; exact h

theorem dry_ok {x : Around σ} {high : High σ} {plan : Plan} {files : SourceFile → Prop} (hi : Implements x high plan files) (cfg : Cfg)
    (h : List Did) (f : SourceFile) (hf : files f) :
    Tri (At cfg plan h) (Run.bind (note (.dryRun f)) fun _ => askTry fun w => (inRun x high).dryRun w f)
      (fun r w => match r with | .ok _ => Further cfg plan h w | .error _ => FailedAt cfg plan f h w) (OverE cfg plan) (Over cfg plan .hang) := by
  rintro w ⟨hh, hx, hk⟩
  obtain ⟨l, ro, h1, h2, h3⟩ := hi.dry f hf { w with trace := w.trace ++ [⟨.dryRun f, w.fs⟩] }
  have hx' : Explains (h ++ [([.dryRun f], l)]) (w.trace.map (·.event) ++ [.dryRun f]) (w.ext.ran ++ l) := hx.snoc _ _
  unfold Run.bind note askTry
  dsimp only [inRun, reply]
  generalize high.dryRun f { w with trace := w.trace ++ [⟨.dryRun f, w.fs⟩] } = R at *
  obtain ⟨r, w2⟩ := R
  dsimp only at h1 h2 h3 ⊢
  have e : ∀ ws os, Explains (h ++ [([.dryRun f], l)])
      (({ w with warns := ws, out := os, trace := w.trace ++ [⟨.dryRun f, w.fs⟩], ext := w2.ext } : World (St σ)).trace.map (·.event)) w2.ext.ran := by
    intro ws os
    rw [h1]; simpa using hx'
  cases r with
  | ok a =>
    dsimp only at h3
    obtain ⟨rfl, h3⟩ := h3
    refine ⟨([.dryRun f], l), .snoc _ _ hh (.dryRun f l h2 fun ns hns => ?_), e _ _, fun ns hns f' t => ?_⟩
    · obtain ⟨out, hp, hu, _⟩ := h3 ns hns
      exact ⟨out, hp, hu⟩
    · obtain ⟨out, hp, hu, hfound⟩ := h3 ns hns
      rw [known_snoc_dry hp, hk ns hns]
      exact (hfound f' t).symm
  | err er =>
    dsimp only at h3
    exact ⟨l, hh, .dryRunFailed f l ro h2 h3.1, e _ _, fun ns hns f' t => (hk ns hns f' t).trans (h3.2 ns hns f' t).symm⟩
  | panic => exact ⟨h, hh, .inr ⟨_, .dryRun f l (by dsimp only at h3; rw [h3] at h2; exact h2) (.inl rfl), e _ _⟩⟩
  | hang => exact ⟨h, hh, .inr ⟨_, .dryRun f l (by dsimp only at h3; rw [h3] at h2; exact h2) (.inr rfl), e _ _⟩⟩

theorem build_ok {x : Around σ} {high : High σ} {plan : Plan} {files : SourceFile → Prop} (hi : Implements x high plan files) (cfg : Cfg)
    (h : List Did) (f : SourceFile) (hf : files f) :
    Tri (At cfg plan h) (Run.bind (note (.buildFile f)) fun _ => askTry fun w => (inRun x high).build w f)
      (fun r w => match r with | .ok _ => Further cfg plan h w | .error _ => NotBuiltAt cfg plan f h w) (OverE cfg plan) (Over cfg plan .hang) := by
  rintro w ⟨hh, hx, hk⟩
  have hx' : ∀ l, Explains (h ++ [([.buildFile f], l)]) (w.trace.map (·.event) ++ [.buildFile f]) (w.ext.ran ++ l) := fun l => hx.snoc _ _
  obtain ⟨l, ro, h1, h2, h3, h4⟩ := hi.build f hf { w with trace := w.trace ++ [⟨.buildFile f, w.fs⟩] }
  unfold Run.bind note askTry
  dsimp only [inRun, reply]
  generalize high.build f { w with trace := w.trace ++ [⟨.buildFile f, w.fs⟩] } = R at *
  obtain ⟨r, w2⟩ := R
  dsimp only at h1 h2 h3 h4 ⊢
  have e : ∀ ws os, Explains (h ++ [([.buildFile f], l)])
      (({ w with warns := ws, out := os, trace := w.trace ++ [⟨.buildFile f, w.fs⟩], ext := w2.ext } : World (St σ)).trace.map (·.event)) w2.ext.ran := by
    intro ws os
    rw [h1]; simpa using hx' l
  cases r with
  | ok a =>
    cases h4
    refine At.step hh hx hk (.build f l h2) nofun (by simp) h1 fun ns hns f t => ?_
    rw [h3]
  | err er => exact ⟨l, hh, .buildFailed f l ro h2 h4, e _ _, fun ns hns f' t => (hk ns hns f' t).trans (by rw [h3])⟩
  | panic => exact ⟨h, hh, .inr ⟨_, .build f l (by dsimp only at h4; rw [h4] at h2; exact h2) (.inl rfl), e _ _⟩⟩
  | hang => exact ⟨h, hh, .inr ⟨_, .build f l (by dsimp only at h4; rw [h4] at h2; exact h2) (.inr rfl), e _ _⟩⟩

theorem failed_note {cfg : Cfg} {plan : Plan} {h : List Did} {f : SourceFile} {w : World (St σ)} (hf : FailedAt cfg plan f h w) :
    Further cfg plan h { w with trace := w.trace ++ [⟨.dryRunFailed f, w.fs⟩] } := by
  obtain ⟨l, hh, hs, hx, hk⟩ := hf
  refine ⟨([.dryRun f, .dryRunFailed f], l), .snoc _ _ hh hs, ?_, fun ns hns f' t => ?_⟩
  · have := explains_more (es' := [.dryRunFailed f]) (l' := []) hx
    simpa using this
  · rw [known_snoc_other (by intro f e; cases e)]
    exact hk ns hns f' t

theorem notBuilt_note {cfg : Cfg} {plan : Plan} {h : List Did} {f : SourceFile} {w : World (St σ)} (hf : NotBuiltAt cfg plan f h w) :
    Further cfg plan h { w with trace := w.trace ++ [⟨.buildFailed f, w.fs⟩] } := by
  obtain ⟨l, hh, hs, hx, hk⟩ := hf
  refine ⟨([.buildFile f, .buildFailed f], l), .snoc _ _ hh hs, ?_, fun ns hns f' t => ?_⟩
  · have := explains_more (es' := [.buildFailed f]) (l' := []) hx
    simpa using this
  · rw [known_snoc_other (by intro f e; cases e)]
    exact hk ns hns f' t

theorem ctrlc_note {cfg : Cfg} {plan : Plan} {h : List Did} {w : World (St σ)} (b : Bool) (ha : At cfg plan h w) :
    Further cfg plan h { w with trace := w.trace ++ [⟨.ctrlc b, w.fs⟩] } :=
  At.step ha.1 ha.2.1 ha.2.2 (.ctrlc b) nofun (by simp) (by simp) fun _ _ _ _ => Iff.rfl

theorem insert_note {cfg : Cfg} {plan : Plan} {h : List Did} {w : World (St σ)} (r : Row) (ha : At cfg plan h w) :
    Further cfg plan h { w with trace := w.trace ++ [⟨.insert r, w.fs⟩] } :=
  At.step ha.1 ha.2.1 ha.2.2 (.insert r) nofun (by simp) (by simp) fun _ _ _ _ => Iff.rfl

theorem Further.inv {cfg : Cfg} {plan : Plan} {h : List Did} {w : World (St σ)} : Further cfg plan h w → Inv cfg plan w := fun ⟨_, h⟩ => ⟨_, h⟩

theorem rules {x : Around σ} {high : High σ} {plan : Plan} {files : SourceFile → Prop} (hi : Implements x high plan files) (cfg : Cfg) :
    Rules cfg (inRun x high) files (fun c => files c.span.file) (Inv cfg plan) (OverE cfg plan) (Over cfg plan .hang) (Failed cfg plan) (NotBuilt cfg plan) where
  frame w w' ht hr _ h := Inv.frame (by rw [ht]) (by rw [hr]) (by rw [hr]) h
  frameE e w w' ht hr _ h := by cases e <;> exact Over.frame ht hr h
  exits e w h := by cases e <;> exact h.over
  exitsH w h := h.over
  ctrlc_ w b := fun ⟨_, h⟩ => (ctrlc_note b h).inv
  insert_ w r := fun ⟨_, h⟩ => (insert_note r h).inv
  ctrlc w h := Inv.frame rfl rfl rfl h
  backup w f h := Inv.frame rfl rfl rfl h
  write w f t h := Inv.frame rfl rfl rfl h
  instrFile w f n h := Inv.frame rfl rfl rfl h
  wrap w s h := Inv.frame rfl rfl rfl h
  insert w s h := Inv.frame rfl rfl rfl h
  dry f hf := by
    rintro w ⟨h, hw⟩
    have := dry_ok hi cfg h f hf w hw
    revert this
    generalize (Run.bind (note (.dryRun f)) fun _ => askTry fun w => (inRun x high).dryRun w f) w = R
    obtain ⟨r, w'⟩ := R
    cases r with
    | ok a => cases a with
      | ok _ => exact Further.inv
      | error _ => exact fun h' => ⟨h, h'⟩
    | err e => exact id
    | panic => exact id
    | hang => exact id
  failed f w := fun ⟨_, h⟩ => (failed_note h).inv
  build f hf := by
    rintro w ⟨h, hw⟩
    have := build_ok hi cfg h f hf w hw
    revert this
    generalize (Run.bind (note (.buildFile f)) fun _ => askTry fun w => (inRun x high).build w f) w = R
    obtain ⟨r, w'⟩ := R
    cases r with
    | ok a => cases a with
      | ok _ => exact Further.inv
      | error _ => exact fun h' => ⟨h, h'⟩
    | err e => exact id
    | panic => exact id
    | hang => exact id
  buildFailed f w := fun ⟨_, h⟩ => (notBuilt_note h).inv
  test c ex t hc ht := by
    rintro w ⟨h, hw⟩
    have := test_ok hi cfg h c ex t hc ht w hw
    revert this
    generalize oneTest cfg (inRun x high) c ex t w = R
    obtain ⟨r, w'⟩ := R
    cases r with
    | ok a => exact Further.inv
    | err e => exact id
    | panic => exact id
    | hang => exact id

/-- What is executed in a run follows the plan. -/
theorem runs {x : Around σ} {high : High σ} {plan : Plan} {files : SourceFile → Prop} (hi : Implements x high plan files) (cfg : Cfg)
    (fcs : List (SourceFile × List Candidate)) (hf : ∀ p ∈ fcs, files p.1 ∧ ∀ c ∈ p.2, files c.span.file) (w : World (St σ))
    (hw : Fresh w) :
    Planned cfg plan (runFiles cfg (inRun x high) fcs w).1 ((runFiles cfg (inRun x high) fcs w).2.trace.map (·.event))
      (runFiles cfg (inRun x high) fcs w).2.ext.ran := by
  obtain ⟨hw, hr, hit⟩ := hw
  have h0 : Inv cfg plan w := by
    refine ⟨[], .nil, ?_, fun ns _ f t => ?_⟩
    · rw [hw, hr]; exact ⟨rfl, rfl⟩
    · rw [hit]
      constructor
      · rintro ⟨_, _, h, _⟩; exact absurd h List.not_mem_nil
      · rintro ⟨m, h, _⟩; cases h
  have h1 := (rules hi cfg).tRunFiles fcs hf w h0
  generalize runFiles cfg (inRun x high) fcs w = R at *
  obtain ⟨r, w'⟩ := R
  unfold Planned
  dsimp only
  have over : Over cfg plan r w' → r ≠ .ok () → ∃ h, History cfg plan h ∧ (Explains h (w'.trace.map (·.event)) w'.ext.ran ∨
      r ≠ .ok () ∧ ∃ s, Cut cfg plan h r s ∧ Explains (h ++ [s]) (w'.trace.map (·.event)) w'.ext.ran) := fun ⟨h, hh, hx⟩ hne => ⟨h, hh, hx.imp id fun hc => ⟨hne, hc⟩⟩
  cases r with
  | ok _ => obtain ⟨h, hh, hx, _⟩ := h1; exact ⟨h, hh, .inl hx⟩
  | err e => exact over h1 nofun
  | panic => exact over h1 nofun
  | hang => exact over h1 nofun

end Necessist.Cmd
