import Verif.Lemmas.Told
import Verif.Lemmas.Results
/-! The frameworks say what they should. -/
namespace Necessist.Cmd
open Run
open ItMessage (Table)
variable {σ α β : Type} {x : Around σ}

theorem follows_unlooked {T l r} (h : Follows T l r) : ∀ out, Ran.looked out ∉ l := by
  induction h with
  | done => simp
  | ok _ _ _ _ _ _ _ ih => simpa using ih
  | fails => simp
  | broken => simp
  | unedited => simp
  | yes _ _ _ _ _ _ ih => simpa using ih
  | no _ _ _ _ _ _ ih => simpa using ih
  | unknown => simp

theorem warned_set_found {tb : Table} {f : SourceFile} {ms : List Text} (f' : SourceFile) (t : Text) :
    Warned (tb.set f fun m => if m ∈ ms then .found else ((tb f).getD fun _ => .notFound) m) f' t ↔ Warned tb f' t ∧ ¬ (f' = f ∧ t ∈ ms) := by
  unfold Warned Table.set
  by_cases hf : f' = f
  · subst hf
    simp only [if_pos, true_and, Option.some.injEq, exists_eq_left']
    by_cases hm : t ∈ ms
    · simp [hm]
    · simp only [if_neg hm, hm, not_false_eq_true, and_true]
      cases tb f' with
      | none => simp
      | some m => simp
  · simp [hf]

theorem warned_set_same {tb : Table} {f : SourceFile} (f' : SourceFile) (t : Text) :
    Warned (tb.set f ((tb f).getD fun _ => .notFound)) f' t ↔ Warned tb f' t := by
  unfold Warned Table.set
  by_cases hf : f' = f
  · subst hf
    simp only [if_pos, Option.some.injEq, exists_eq_left']
    cases tb f' with
    | none => simp
    | some m => simp
  · simp [hf]

theorem before_unlooked {T : List Command → Todo} {m : M (St σ) Unit} (h : Before T m) (w : World (St σ)) :
    ∃ l, (m w).2.ext.ran = w.ext.ran ++ l ∧ (m w).2.ext.it = w.ext.it ∧ ∀ out, Ran.looked out ∉ l := by
  obtain ⟨l, ro, h1, h2, h3, _⟩ := h.all w
  exact ⟨l, h1, h2, follows_unlooked h3⟩

theorem beforeLast_unlooked {T : Todo} {c : Command} {m : M (St σ) Unit} (h : BeforeLast T c m) (w : World (St σ)) :
    ∃ l, (m w).2.ext.ran = w.ext.ran ++ l ∧ (m w).2.ext.it = w.ext.it ∧ ∀ out, Ran.looked out ∉ l := by
  obtain ⟨l, h1, h2, h3⟩ := h w
  refine ⟨l, h1, h2, ?_⟩
  generalize (m w).1 = r at h3
  cases r with
  | ok _ => exact fun out hm => follows_unlooked (h3 _ _ (.broken c [])) out (List.mem_append_left _ hm)
  | err _ => obtain ⟨_, _, h⟩ := h3; exact follows_unlooked h
  | panic => exact follows_unlooked h3
  | hang => exact follows_unlooked h3

/-- A dry run after something else. -/
theorem itDry_says {extract : List UInt8 → Option (List Text)} {plan : Plan} {ns : Names} {T : Todo} {m : M (St σ) Unit}
    {f : SourceFile} {c : Command} (hb : BeforeLast T c m) (hn : plan.names = some ns)
    (hl : ∀ out ms, extract out = some ms → ∀ t, ns.lists out t ↔ t ∈ ms) (hh : Hush (Run.bind m (fun _ => itDryRun x extract f c)))
    (w : World (St σ)) :
    DrySays plan f w (Run.bind m (fun _ => itDryRun x extract f c) w).2 (Run.bind m (fun _ => itDryRun x extract f c) w).1 := by
  refine ⟨(hh w).2, ?_⟩
  obtain ⟨l, h1, h2, h3⟩ := beforeLast_unlooked hb w
  unfold Run.bind
  rcases hm : m w with ⟨r, w'⟩
  rw [hm] at h1 h2
  dsimp only at h1 h2 ⊢
  cases r with
  | err e => exact ⟨l, h1, h3, fun f' t => by dsimp only; rw [h2]⟩
  | panic => exact ⟨l, h1, h3, trivial⟩
  | hang => exact ⟨l, h1, h3, trivial⟩
  | ok _ =>
    unfold itDryRun Run.bind output
    dsimp only
    generalize (x.output (forget w') c) = R
    obtain ⟨res, ws, e⟩ := R
    have unl : ∀ o, ∀ out, Ran.looked out ∉ l ++ [.ran c o] := fun o out hm => by
      rcases List.mem_append.1 hm with hm | hm
      · exact h3 out hm
      · simp at hm
    cases res with
    | err er => exact ⟨l ++ [.ran c none], by simp [h1, valueOf], unl _, fun f' t => by dsimp only; rw [h2]⟩
    | panic => exact ⟨l ++ [.ran c none], by simp [h1, valueOf], unl _, trivial⟩
    | hang => exact ⟨l ++ [.ran c none], by simp [h1, valueOf], unl _, trivial⟩
    | ok o =>
      dsimp only [valueOf]
      have hran : w'.ext.ran ++ [.ran c (some o)] = w.ext.ran ++ (l ++ [.ran c (some o)]) := by rw [h1, List.append_assoc]
      refine ⟨l ++ [.ran c (some o)], hran, unl _, ?_⟩
      cases ho : o.success with
      | false =>
        intro f' t
        show Warned w'.ext.it f' t ↔ _
        rw [h2]
      | true =>
        have hpr : Printed (l ++ [.ran c (some o)]) o.stdout := ⟨l, c, o, rfl, rfl⟩
        rw [if_pos rfl]
        cases he : extract o.stdout with
        | none =>
          intro f' t
          dsimp only [ItMessage.dryRun]
          rw [h2]
          exact warned_set_same f' t
        | some ms =>
          intro ns' hns out hp f' t
          rw [hn] at hns; cases hns
          obtain rfl := printed_unique hpr hp
          dsimp only [ItMessage.dryRun]
          rw [h2, hl _ _ he]
          exact warned_set_found f' t

/-- `exec` after the preparation `l`. -/
theorem itExec_says {plan : Plan} {ns : Names} {t : Text} {span : Span} {cmd : Command} {w0 w : World (St σ)} {l : List Ran}
    (hr : w.ext.ran = w0.ext.ran ++ l) (hi : w.ext.it = w0.ext.it) (ho : w.out = w0.out) (hf : Follows (.run (plan.prepare span.file)) l (some true))
    (hn : plan.names = some ns) :
    ExecSays x plan t span w0 (itExec x t span cmd w).2 (itExec x t span cmd w).1 := by
  unfold itExec ItMessage.exec
  cases hm : w.ext.it span.file with
  | none => trivial
  | some m =>
    have hm' : w0.ext.it span.file = some m := by rw [← hi]; exact hm
    dsimp only
    cases ht : m t with
    | found => exact ⟨l, _, hr, follows_unlooked hf, by simp [prepare, ho], hi, rfl, nofun⟩
    | warningEmitted =>
      exact ⟨l, hr, follows_unlooked hf, .inr ⟨by rw [hn]; nofun, hf, .inl ⟨⟨m, hm', ht⟩, by simp [ho], hi⟩⟩⟩
    | notFound =>
      have hset : ∀ f' t', Warned (w.ext.it.set span.file fun t' => if t' = t then .warningEmitted else m t') f' t' ↔
          Warned w0.ext.it f' t' ∨ f' = span.file ∧ t' = t := by
        intro f' t'
        rw [hi]
        unfold Warned Table.set
        by_cases hf : f' = span.file
        · subst hf
          simp only [if_pos, Option.some.injEq, exists_eq_left', hm', true_and]
          by_cases h : t' = t
          · subst h; simp
          · simp [h]
        · simp [hf]
      have hno : ¬ Warned w0.ext.it span.file t := by
        rintro ⟨m', h1, h2⟩
        rw [hm'] at h1; cases h1; rw [ht] at h2; cases h2
      dsimp only
      have hsh : ∀ (r : WarnResult) ws, warnInternal x.warn w.warns ⟨.itMessageNotFound, some span.display, ItMessage.notFoundMsg (x.debug t), false⟩ = (r, ws) →
          shownFor x.warn w.warns (foreign [⟨.itMessageNotFound, some span.display, ItMessage.notFoundMsg (x.debug t), false⟩]) =
            match r with | .print m => [m] | _ => [] := by
        intro r ws h
        simp only [foreign, shownFor, List.map_cons, List.map_nil, warnHistory, printedBy, List.append_nil, h]
        cases r <;> rfl
      rcases hw : warnInternal x.warn w.warns ⟨.itMessageNotFound, some span.display, ItMessage.notFoundMsg (x.debug t), false⟩ with ⟨r, ws⟩
      have hsh := hsh r ws hw
      have hden : (∀ e, r ≠ .bail e) → ¬ Denied x.warn .itMessageNotFound := by
        intro hne hd
        rcases internal_cases x.warn w.warns ⟨.itMessageNotFound, some span.display, ItMessage.notFoundMsg (x.debug t), false⟩ nofun with ⟨_, ⟨e, h⟩, _⟩ | ⟨h, _⟩ | ⟨h, _⟩
        · rw [hw] at h; exact hne e h
        · exact h hd
        · exact h hd
      cases r with
      | bail _ => trivial
      | panic => trivial
      | silent => exact ⟨l, hr, follows_unlooked hf, .inr ⟨by rw [hn]; nofun, hf, .inr ⟨hno, hset, hden (by nofun), w.warns, by rw [hsh, ← ho]⟩⟩⟩
      | print m => exact ⟨l, hr, follows_unlooked hf, .inr ⟨by rw [hn]; nofun, hf, .inr ⟨hno, hset, hden (by nofun), w.warns, by rw [hsh, ← ho]⟩⟩⟩

theorem adapterExec_state (low : Low σ) (t : Text) (span : Span) (w : World (St σ)) : (adapterExec x low t span w).2.ext.it = w.ext.it ∧
    ∀ b, (adapterExec x low t span w).1 = .ok (some b) → ∃ n, (adapterExec x low t span w).2.ext.next = some n ∧
      (b = true → ∃ k, n.post = some k ∧ k.test = t ∧ k.span = span) := by
  have key : ∀ it, Tri (fun w => w.ext.it = it) (adapterExec x low t span) (fun o w => w.ext.it = it ∧ ∀ b, o = some b → ∃ n, w.ext.next = some n ∧
      (b = true → ∃ k, n.post = some k ∧ k.test = t ∧ k.span = span)) (fun _ w => w.ext.it = it) (fun w => w.ext.it = it) := by
    intro it
    have orP : ∀ {α : Type} (o : Option α), Tri (σ := St σ) (fun w => w.ext.it = it) (Run.orPanic o) (fun _ w => w.ext.it = it) (fun _ w => w.ext.it = it) (fun w => w.ext.it = it) := by
      intro α o
      cases o with
      | none => exact Tri.panics fun _ h => h
      | some a => exact Tri.ret a fun _ h => h
    unfold adapterExec
    refine Tri.bind (orP _) fun c => Tri.bind (R := fun _ w => w.ext.it = it) ?_ fun o => ?_
    · intro w hw
      unfold output
      dsimp only
      cases (x.output (forget w) _).res <;> exact hw
    · split
      · exact Tri.ret _ fun w hw => ⟨hw, nofun⟩
      · refine Tri.bind (orP _) fun q => ?_
        obtain ⟨c', final, pred⟩ := q
        cases pred with
        | none => exact fun w hw => ⟨hw, fun b hb => ⟨_, rfl, by cases hb; nofun⟩⟩
        | some q =>
          obtain ⟨init, g⟩ := q
          refine Tri.bind (R := fun _ w => w.ext.it = it) ?_ fun _ => ?_
          · intro w hw
            unfold inner
            dsimp only
            cases (x.temp (forget w)).res <;> exact hw
          · exact fun w hw => ⟨hw, fun b hb => ⟨_, rfl, fun _ => ⟨_, rfl, rfl, rfl⟩⟩⟩
  have := key _ w rfl
  generalize adapterExec x low t span w = R at *
  obtain ⟨r, w'⟩ := R
  cases r with
  | ok o => exact ⟨this.1, fun b hb => this.2 b (by cases hb; rfl)⟩
  | err e => exact ⟨this, nofun⟩
  | panic => exact ⟨this, nofun⟩
  | hang => exact ⟨this, nofun⟩

variable (hx : x.Mute)
include hx

theorem adapter_speaks {low : Low σ} {plan : Plan} {files : SourceFile → Prop} (h : Follower x low plan files) (hl : Hush low.install) :
    Speaks x (adapter x low) plan files where
  dry f hf w := by
    refine ⟨((adapter_little hx hl).dryRun f w).2, ?_⟩
    obtain ⟨T, c, hT, hc, hp⟩ := h.dry f hf
    have hb := before_unlooked (before_bind hT (cs' := [c.add x.args]) (before_checked x (c.add x.args))) w
    dsimp only [adapter]
    rw [hc]
    obtain ⟨l, h1, h2, h3⟩ := hb
    refine ⟨l, h1, h3, ?_⟩
    split
    · intro ns hns; rw [h.names] at hns; cases hns
    · intro f' t
      have : (Run.bind low.install (fun _ => Run.bind (Run.orPanic (some c)) fun c => checked x (c.add x.args)) w).2.ext.it = w.ext.it := h2
      rw [this]
    · trivial
  build f hf w := by
    obtain ⟨l, ro, h1, h2, h3, _⟩ := (adapter_implements h).build f hf w
    exact ⟨((adapter_little hx hl).build f w).2, h3, l, h1, follows_unlooked h2⟩
  exec t span hs w := by
    obtain ⟨l, ro, h1, h2, _, _⟩ := (adapter_implements h).exec t span hs w
    obtain ⟨h3, h4⟩ := adapterExec_state (x := x) low t span w
    have h5 := (hush_adapterExec hx low t span w).2
    have hu := follows_unlooked h2
    dsimp only [adapter] at h1 ⊢
    generalize adapterExec x low t span w = R at *
    obtain ⟨r, w'⟩ := R
    cases r with
    | ok o =>
      cases o with
      | none => exact ⟨l, h1, hu, .inl ⟨.inl h.names, h5, h3⟩⟩
      | some b =>
        obtain ⟨n, hn, hk⟩ := h4 b rfl
        exact ⟨l, n, h1, hu, h5, h3, hn, fun hb => .inr (hk hb)⟩
    | _ => trivial

theorem hardhat_speaks : Speaks x (hardhat x) (hardhatPlan (projectOf x) fun s t => t ∈ ItMessage.mochaMessages s) fun _ => True where
  dry f _ w := by
    have hb := before_bind (before_node x) (cs' := [(projectOf x).cmd "npx" (["hardhat".toList, "compile".toList] ++ x.args)])
      (before_checked x _)
    have := itDry_says (x := x) (extract := mochaExtract x) (plan := hardhatPlan (projectOf x) fun s t => t ∈ ItMessage.mochaMessages s) (f := f)
      (c := hardhatTest x f) (hb.last _) rfl (fun out ms h t => by
        unfold mochaExtract at h
        constructor
        · rintro ⟨s, hs, ht⟩
          replace hs : x.decode out = some s := hs
          rw [hs] at h; cases h; exact ht
        · intro ht
          cases hs : x.decode out with
          | none => rw [hs] at h; cases h
          | some s => rw [hs] at h; cases h; exact ⟨s, hs, ht⟩)
      (((hush_installNode hx).bind fun _ => hush_hardhatCompile hx).bind fun _ => hush_itDryRun hx _ _ _) w
    dsimp only [hardhat]
    rw [bind_assoc] at this
    exact this
  build f _ w := by
    obtain ⟨l, ro, h1, h2, h3, _⟩ := (hardhat_implements x).build f trivial w
    exact ⟨((hardhat_little hx).build f w).2, h3, l, h1, follows_unlooked h2⟩
  exec t span _ w := by
    obtain ⟨l, ro, h1, h2, h3, h4⟩ := (before_checked x ((projectOf x).cmd "npx" (["hardhat".toList, "compile".toList] ++ x.args))).all w
    have ho := (hush_hardhatCompile hx w).2
    dsimp only [hardhat]
    have e : hardhatCompile x w = checked x ((projectOf x).cmd "npx" (["hardhat".toList, "compile".toList] ++ x.args)) w := rfl
    rw [e] at ho ⊢
    generalize checked x ((projectOf x).cmd "npx" (["hardhat".toList, "compile".toList] ++ x.args)) w = R at *
    obtain ⟨r, w'⟩ := R
    dsimp only at h1 h2 h4 ho ⊢
    cases r with
    | ok _ =>
      subst h4
      exact itExec_says (plan := hardhatPlan (projectOf x) fun s t => t ∈ ItMessage.mochaMessages s) h1 h2 ho h3 rfl
    | err er => exact ⟨l, h1, follows_unlooked h3, .inl ⟨.inr fun hf => h4 (follows_unique h3 hf), ho, h2⟩⟩
    | panic => trivial
    | hang => trivial

theorem vitest_speaks (parse : Text → Option Json) : Speaks x (vitest x parse) (vitestPlan (projectOf x) parse) fun _ => True where
  dry f _ w := by
    refine itDry_says (x := x) (extract := vitestExtract x parse) (plan := vitestPlan (projectOf x) parse) (f := f) (c := vitestTest x f)
      ((before_node x).last _) rfl (fun out ms h t => ?_) ((hush_installNode hx).bind fun _ => hush_itDryRun hx _ _ _) w
    unfold vitestExtract at h
    obtain ⟨s, h1, h⟩ := Option.bind_eq_some_iff.1 h
    obtain ⟨j, h2, h⟩ := Option.bind_eq_some_iff.1 h
    rw [← (vitestMessages_iff j).2 ms h]
    constructor
    · rintro ⟨s', j', h1', h2', h3⟩
      replace h1' : x.decode out = some s' := h1'
      rw [h1] at h1'; cases h1'; rw [h2] at h2'; cases h2'
      exact h3
    · exact fun h3 => ⟨s, j, h1, h2, h3⟩
  build f _ w := by
    obtain ⟨l, ro, h1, h2, h3, _⟩ := (vitest_implements x parse).build f trivial w
    exact ⟨((vitest_little hx parse).build f w).2, h3, l, h1, follows_unlooked h2⟩
  exec t span _ w := itExec_says (w := w) (w0 := w) (l := []) (by simp) rfl rfl .done rfl

theorem anchor_speaks (parse : Text → Option Json) : Speaks x (anchor x parse) (anchorPlanOf x parse) fun _ => True where
  dry f _ w := by
    obtain ⟨ns, hn, hu, hl⟩ := anchor_names x parse
    obtain ⟨_, e1, e2⟩ := anchor_extras (parse := parse) x
    have hb := before_bind (before_node x) (cs' := [_]) (before_anchorCheck x f e1)
    have hush : Hush (Run.bind (Run.bind (Run.bind (installNode x) fun _ => anchorCheck x f) fun _ => edit x f false) fun _ =>
      itDryRun x (anchorExtract x parse) f (anchorWith (project x) f (match x.anchor.runner with | .mocha => "" | .vitest => " --bail=1 --reporter=json"))) :=
      (((hush_installNode hx).bind fun _ => hush_anchorCheck hx f).bind fun _ => hush_edit hx f false).bind fun _ => hush_itDryRun hx _ _ _
    have := itDry_says (x := x) (extract := anchorExtract x parse) (plan := anchorPlanOf x parse) (f := f) (before_edit x f hb) hn hl hush w
    obtain ⟨s, hs⟩ := anchorDry_run x f (anchorExtract x parse) e2 (Run.bind (installNode x) fun _ => anchorCheck x f) w
    dsimp only [anchor]
    rw [bind_assoc] at hs
    rw [hs]
    exact this
  build f _ w := by
    obtain ⟨l, ro, h1, h2, h3, _⟩ := (anchor_implements x parse).build f trivial w
    exact ⟨((anchor_little hx parse).build f w).2, h3, l, h1, follows_unlooked h2⟩
  exec t span _ w := by
    obtain ⟨ns, hn, _⟩ := anchor_names x parse
    obtain ⟨_, e1, e2⟩ := anchor_extras (parse := parse) x
    obtain ⟨l, ro, h1, h2, h3, h4⟩ := (before_anchorCheck x span.file e1).all w
    have ho := (hush_anchorCheck hx span.file w).2
    dsimp only [anchor]
    generalize anchorCheck x span.file w = R at *
    obtain ⟨r, w'⟩ := R
    dsimp only at h1 h2 h4 ho ⊢
    cases r with
    | err er => exact ⟨l, h1, follows_unlooked h3, .inl ⟨.inr fun hf => h4 (follows_unique h3 hf), ho, h2⟩⟩
    | panic => trivial
    | hang => trivial
    | ok _ =>
      subst h4
      obtain ⟨k1, k2, _⟩ := edit_run x span.file false w'
      have k3 := (hush_edit hx span.file false w').2
      unfold Run.bind
      dsimp only
      generalize edit x span.file false w' = R at *
      obtain ⟨r, w2⟩ := R
      dsimp only at k1 k2 k3 ⊢
      cases r with
      | err er => trivial
      | panic => trivial
      | hang => trivial
      | ok _ =>
        dsimp only
        have key := itExec_says (x := x) (plan := anchorPlanOf x parse) (t := t) (span := span) (cmd := anchorTest x none) (w0 := w) (w := w2)
          (l := l) (k1.trans h1) (k2.trans h2) (k3.trans ho) h3 hn
        generalize itExec x t span (anchorTest x none) w2 = R at *
        obtain ⟨r, w3⟩ := R
        cases r with
        | ok o =>
          cases o with
          | none => exact key
          | some b =>
            obtain ⟨l', n, g1, g2, g3, g4, _⟩ := key
            exact ⟨l', _, g1, g2, g3, g4, rfl, fun _ => .inl ⟨rfl, rfl⟩⟩
        | err e => trivial
        | panic => trivial
        | hang => trivial

end Necessist.Cmd
