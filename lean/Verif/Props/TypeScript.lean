import Verif.Lemmas.TypeScriptSpec
import Verif.Props.Visitor
/-!
# TypeScript: what the candidates are (C72)
-/
namespace Necessist.Js
open Visit

variable {key : Js → Nat} {config : Compiled} {skip : Span → Bool} {trim : Span → Span} {file : Js}

local notation "VC" => visitorCfg key config skip trim (decls file)

theorem localFns_mem {fns : List Decl} {name f} (h : (name, f) ∈ localFns key fns) : ∃ d ∈ fns, d.name = name ∧ f = localFn key d := by
  obtain ⟨d, hd, h⟩ := List.mem_map.mp h
  cases h
  exact ⟨d, hd, rfl, rfl⟩

theorem decl_function {d : Decl} (h : d ∈ decls file) : Function file d.name d.params d.body := by
  obtain ⟨s, h1, h2⟩ := decls_outer d file h
  rw [h1] at h2
  exact ⟨s, h2⟩

theorem walkable_local {name f fs} (h : (VC).walkable.lookup name = some (f :: fs)) :
    ∃ d ∈ decls file, d.name = name ∧ f = localFn key d ∧ Local config file name d.params d.body := by
  obtain ⟨h1, h2⟩ := walkableOf_lookup h
  obtain ⟨d, hd, rfl, rfl⟩ := localFns_mem h2
  exact ⟨d, hd, rfl, rfl, decl_function hd, h1⟩

theorem isWalkable_decl {f} (h : IsWalkable VC f) : ∃ d ∈ decls file, f = localFn key d := by
  obtain ⟨name, fs, h⟩ := h
  obtain ⟨d, hd, _, h, _⟩ := walkable_local h
  exact ⟨d, hd, h⟩

theorem Function.within {name ps b} (h : Function file name ps b) {x} (hx : In (ps ++ b) x) : Within file x := by
  obtain ⟨s, h⟩ := h
  obtain ⟨p, hp, hx⟩ := hx
  exact h.within.trans (.step hp hx)

theorem Function.kid {name ps b} (h : Function file name ps b) {x} (hx : x ∈ ps ++ b) : Within file x :=
  h.within ⟨x, hx, .refl _⟩

theorem Test.within {t ps b} (h : Test file t ps b) {x} (hx : In (ps ++ b) x) : Within file x := by
  obtain ⟨y, hy, s, e, rfl, s0, s1, s2, s3, rfl⟩ := h
  obtain ⟨p, hp, hx⟩ := hx
  exact hy.trans (.step (List.mem_singleton.mpr rfl) (.step (m := .fn s3 ps b)
    (List.mem_cons_of_mem _ (List.mem_cons_of_mem _ (List.mem_singleton.mpr rfl))) (.step hp hx)))

section
variable (hr : Regular key file) (hp : ItPlain config file)
include hr hp

omit hr in
theorem cfgOk : CfgOk VC where
  receiver := rfl
  fields := rfl
  ignored := hp.ignored
  walkable := by
    intro f fs h
    obtain ⟨d, _, _, _, hl⟩ := walkable_local h
    exact hp.walkable _ _ hl

omit hp in
theorem keysFaithful : KeysFaithful VC := by
  intro f g hf hg hk
  obtain ⟨d, hd, rfl⟩ := isWalkable_decl hf
  obtain ⟨e, he, rfl⟩ := isWalkable_decl hg
  obtain ⟨s, h1, h2⟩ := decls_outer d file hd
  obtain ⟨s', h3, h4⟩ := decls_outer e file he
  have := hr.keys _ _ h2.within h4.within hk
  rw [h1, h3] at this
  cases d; cases e
  simp only [Js.fnDecl.injEq] at this h1 h3
  obtain ⟨rfl, rfl, rfl, rfl⟩ := this
  subst h1; subst h3; rfl

theorem visitDecl_eq {d : Decl} (hd : d ∈ decls file) {st : VState} (hc : st.callStatement = none) :
    visitDecl key VC d st = walkList VC (localFn key d).body st := by
  have hf := decl_function hd
  simp only [visitDecl, localFn]
  rw [walkList_append, visitAll_eq hr (cfgOk hp) d.params st (fun x hx => hf.kid (by simp [hx])) hc]
  cases hw : walkList VC (lowerAll key d.params) st with
  | none => rfl
  | some st1 =>
    simp only [Option.bind_some]
    exact visitAll_eq hr (cfgOk hp) d.body st1 (fun x hx => hf.kid (by simp [hx])) (walkList_calm _ _ _ _ hw hc)

theorem loop_eq (rounds : Nat) (st : VState) (w : List LocalFn) (hi : Inv VC st) (hc : st.callStatement = none) :
    loop key VC (decls file) rounds st w = localLoop VC rounds st w := by
  induction rounds generalizing st w with
  | zero => rw [loop, localLoop]; cases nextLocalFunction st <;> rfl
  | succ rounds ih =>
    rw [loop, localLoop]
    cases hn : nextLocalFunction st with
    | none => rfl
    | some r =>
      obtain ⟨f, st1⟩ := r
      obtain ⟨_, _, _, _, _, hw, _⟩ := hi.round hn
      obtain ⟨d, hdm, rfl⟩ := isWalkable_decl hw
      have hc1 : st1.callStatement = none := by
        unfold nextLocalFunction at hn
        split at hn
        · cases hn
        · cases hn; exact hc
      have he : (decls file).find? (fun d' => key d'.node == (localFn key d).key) = some d := by
        cases hfi : (decls file).find? (fun d' => key d'.node == (localFn key d).key) with
        | none =>
          have := List.find?_eq_none.mp hfi d hdm
          simp [localFn] at this
        | some e =>
          have h1 := List.find?_some hfi
          have h2 := List.mem_of_find?_eq_some hfi
          obtain ⟨s, a1, a2⟩ := decls_outer d file hdm
          obtain ⟨s', a3, a4⟩ := decls_outer e file h2
          have := hr.keys _ _ a2.within a4.within (by simpa [localFn] using (beq_iff_eq.mp h1).symm)
          rw [a1, a3] at this
          cases d; cases e
          simp only [Js.fnDecl.injEq] at this a1 a3
          obtain ⟨rfl, rfl, rfl, rfl⟩ := this
          subst a1; subst a3; rfl
      simp only [he, visitDecl_eq hr hp hdm hc1]
      cases hwl : walkList VC (localFn key d).body st1 with
      | none => rfl
      | some st2 => exact ih st2 _ (round_eff hi hn hwl).2 (walkList_calm _ _ _ _ hwl hc1)

/-- The whole visit is that of the generic visitor. -/
theorem refines (rounds : Nat) :
    visitFile key config skip trim rounds file = Visit.visitFile VC rounds [lower key file] := by
  have h1 : walkList VC [lower key file] {} = walk VC (lower key file) {} := by
    rw [walkList]
    cases walk VC (lower key file) {} with
    | none => rfl
    | some st => simp only [Option.bind_some, walkList]
  unfold visitFile Visit.visitFile
  simp only []
  rw [h1, visit_eq hr (cfgOk hp) file {} (.refl _) (Or.inl rfl)]
  cases hw : walk VC (lower key file) {} with
  | none => rfl
  | some st => exact loop_eq hr hp rounds st [] (file_eff (by rw [h1]; exact hw)).2.1 (walk_calm _ _ _ _ hw rfl)

/-! ## Back to the file -/

omit hr hp in
theorem world_within {n} (h : World VC [lower key file] n) : ∃ y, Within file y ∧ n = lower key y := by
  rcases h with ⟨r, hr, hs⟩ | ⟨f, hf, r, hr, hs⟩
  · cases List.mem_singleton.mp hr
    exact sub_within hs rfl
  · obtain ⟨d, hd, rfl⟩ := isWalkable_decl hf
    simp only [localFn, lowerAll_eq, ← List.map_append] at hr
    obtain ⟨y, hy, rfl⟩ := List.mem_map.mp hr
    obtain ⟨z, hz, rfl⟩ := sub_within hs rfl
    exact ⟨z, ((decl_function hd).kid hy).trans hz, rfl⟩

omit hr hp in
/-- What is in a test is the call of `it` itself, or in the function. -/
theorem within_it {e : Js} {t ps b y} (h : It e t ps b) (hw : Within e y) (hy : Stmt y ∨ ∃ f, Call y f) : y = e ∨ In (ps ++ b) y := by
  obtain ⟨s, s1, s2, s3, rfl⟩ := h
  cases hw with
  | refl => exact Or.inl rfl
  | step hk hw =>
    right
    simp only [Js.kids, List.mem_cons, List.not_mem_nil, or_false] at hk
    rcases hk with rfl | rfl | rfl
    · cases hw with
      | refl => rcases hy with (⟨_, _, h⟩ | ⟨_, _, h⟩ | ⟨_, _, h⟩ | ⟨_, _, h⟩) | ⟨_, _, _, h⟩ <;> cases h
      | step hk _ => cases hk
    · cases hw with
      | refl => rcases hy with (⟨_, _, h⟩ | ⟨_, _, h⟩ | ⟨_, _, h⟩ | ⟨_, _, h⟩) | ⟨_, _, _, h⟩ <;> cases h
      | step hk _ => cases hk
    · cases hw with
      | refl => rcases hy with (⟨_, _, h⟩ | ⟨_, _, h⟩ | ⟨_, _, h⟩ | ⟨_, _, h⟩) | ⟨_, _, _, h⟩ <;> cases h
      | step hk hw => exact ⟨_, hk, hw⟩

omit hr hp in
theorem inTest {t l n} (h : InTest VC [lower key file] t l n) :
    config.isIgnoredTest t = false ∧ ∃ e ps b y, Test file t ps b ∧ It e t ps b ∧ l = lastKey key b ∧ Within file y ∧ Within e y ∧
      n = lower key y := by
  obtain ⟨h1, cs, h2, m, hm, hs⟩ := h
  obtain ⟨y, hy, h3⟩ := world_within h2
  obtain ⟨s, e, ps, b, rfl, h4, rfl, rfl⟩ := lower_test h3.symm
  cases List.mem_singleton.mp hm
  obtain ⟨z, hz, rfl⟩ := sub_within hs.sub rfl
  exact ⟨h1, e, ps, b, z, ⟨_, hy, s, e, rfl, h4⟩, h4, rfl, hy.trans (.step (List.mem_singleton.mpr rfl) hz), hz, rfl⟩

omit hr hp in
theorem calls_callOf {x f} (h : Calls VC (lower key x) f) :
    ∃ name, ∃ d ∈ decls file, CallOf x name ∧ Local config file name d.params d.body ∧ f = localFn key d := by
  obtain ⟨i, cn, callee, args, name, fs, h1, h2, h3⟩ := h
  obtain ⟨s, g, as, rfl, _, _, rfl, _⟩ := lower_call h1
  obtain ⟨s', rfl⟩ := lower_name.mp h2
  obtain ⟨d, hd, rfl, rfl, hl⟩ := walkable_local h3
  exact ⟨d.name, d, hd, ⟨s', s, as, rfl⟩, hl, rfl⟩

omit hr in
theorem exercises_uses {t f} (h : Exercises VC [lower key file] t f) :
    ∃ d ∈ decls file, Uses config file t d.params d.body ∧ f = localFn key d := by
  induction h with
  | direct hi hc =>
    obtain ⟨_, e, ps, b, y, h1, h2, _, _, h4, rfl⟩ := inTest hi
    obtain ⟨name, d, hd, hco, hl, rfl⟩ := calls_callOf hc
    obtain ⟨s, hcall⟩ := id hco
    rcases within_it h2 h4 (Or.inr ⟨_, hcall⟩) with rfl | hin
    · obtain ⟨_, _, rfl⟩ := hcall
      obtain ⟨_, _, _, _, h2⟩ := h2
      cases h2
      exact absurd hl (hp.walkable _ _)
    · exact ⟨d, hd, .direct h1 hin hco hl, rfl⟩
  | via _ hi hc ih =>
    obtain ⟨d, hd, h1, rfl⟩ := ih
    obtain ⟨m, hm, hs⟩ := hi
    simp only [localFn, lowerAll_eq, ← List.map_append] at hm
    obtain ⟨y, hy, rfl⟩ := List.mem_map.mp hm
    obtain ⟨z, hz, rfl⟩ := sub_within hs.sub rfl
    obtain ⟨name, d', hd', hco, hl, rfl⟩ := calls_callOf hc
    exact ⟨d', hd', .via h1 ⟨y, hy, hz⟩ hco hl, rfl⟩

omit hr in
/-- What is covered, in terms of the file. -/
theorem covers {t l n} (h : Visit.Covers VC [lower key file] t l n) :
    ∃ x, n = lower key x ∧ Within file x ∧ ((Stmt x ∨ ∃ f, Call x f ∧ ∀ s, f ≠ .ident s "it".toList) →
      ∃ ps b, In (ps ++ b) x ∧ ((Test file t ps b ∧ l = lastKey key b) ∨ Uses config file t ps b)) := by
  rcases h with h | ⟨rfl, f, he, m, hm, hs⟩
  · obtain ⟨_, e, ps, b, y, h1, h2, h3, hw, h4, rfl⟩ := inTest h
    refine ⟨y, rfl, hw, fun hy => ⟨ps, b, ?_, Or.inl ⟨h1, h3⟩⟩⟩
    rcases within_it h2 h4 (hy.imp id fun ⟨f, h, _⟩ => ⟨f, h⟩) with rfl | hin
    · exfalso
      obtain ⟨_, s, _, _, rfl⟩ := h2
      rcases hy with (⟨_, _, h⟩ | ⟨_, _, h⟩ | ⟨_, _, h⟩ | ⟨_, _, h⟩) | ⟨f, ⟨_, _, h⟩, hf⟩
      any_goals (cases h; done)
      cases h
      exact hf s rfl
    · exact hin
  · obtain ⟨d, hd, h1, rfl⟩ := exercises_uses hp he
    simp only [localFn, lowerAll_eq, ← List.map_append] at hm
    obtain ⟨y, hy, rfl⟩ := List.mem_map.mp hm
    obtain ⟨z, hz, rfl⟩ := sub_within hs.sub rfl
    exact ⟨z, rfl, ((decl_function hd).kid hy).trans hz, fun _ => ⟨_, _, ⟨y, hy, hz⟩, Or.inr h1⟩⟩

omit hp in
theorem flat {s e} (h : Within file (.expr s e)) : Flat e := fun c s' o p hm hi => by
  obtain ⟨_, f, hf⟩ := id hm
  exact hr.index s e c f s' o p h hm hf hi

omit hp in
/-- Tests are not within tests. -/
theorem outside {x y} (h : Within x y) (hx : Within file x) {t ps b} (hy : IsTest y t ps b) : Outside VC (lower key x) (lower key y) := by
  induction h with
  | refl => exact .refl _
  | @step x m y hk hm ih =>
    refine .step (kids_lower hk (hasWork_up hm (stmt_hasWork hy.stmt))) ?_ (Or.inl rfl) (ih (hx.trans (.kid hk)) hy)
    intro t' l cs h
    obtain ⟨s, e, ps', b', rfl, h1, _, _⟩ := lower_test h
    cases List.mem_singleton.mp hk
    rcases within_it h1 hm (Or.inl hy.stmt) with rfl | hin
    · obtain ⟨_, _, rfl, _⟩ := hy
      obtain ⟨_, _, _, _, h1⟩ := h1
      cases h1
    · exact hr.flat t' ps' b' ⟨_, hx, s, m, rfl, h1⟩ y hin t ps b hy

omit hp in
theorem noTest {ps b} (hno : ∀ y, In (ps ++ b) y → ∀ t ps' b', ¬ IsTest y t ps' b') {x} (hx : x ∈ ps ++ b) : NoTest (lower key x) := by
  intro t l cs h
  obtain ⟨y, hy, h1⟩ := sub_within h rfl
  obtain ⟨s, e, ps', b', rfl, h2, _, _⟩ := lower_test h1.symm
  exact hno _ ⟨x, hx, hy⟩ t ps' b' ⟨s, e, rfl, h2⟩

omit hp in
theorem flatTests {x} (hx : Within file x) : FlatTests (lower key x) := by
  intro t l cs h m hm t' l' cs' h'
  obtain ⟨y, hy, h1⟩ := sub_within h rfl
  obtain ⟨s, e, ps, b, rfl, h2, _, rfl⟩ := lower_test h1.symm
  cases List.mem_singleton.mp hm
  obtain ⟨z, hz, h3⟩ := sub_within h' rfl
  obtain ⟨s', e', ps', b', rfl, h4, _, _⟩ := lower_test h3.symm
  rcases within_it h2 hz (Or.inl (Or.inl ⟨_, _, rfl⟩)) with rfl | hin
  · obtain ⟨_, _, _, _, h2⟩ := h2
    cases h2
  · exact hr.flat t ps b ⟨_, hx.trans hy, s, e, rfl, h2⟩ _ hin t' ps' b' ⟨s', e', rfl, h4⟩

omit hr hp in
theorem Clear.within {p x} (h : Clear config p x) : Within p x := by
  induction h with
  | refl => exact .refl _
  | step hk _ _ ih => exact .step hk ih

omit hr hp in
/-- What is not hidden is seen. -/
theorem clear_seen {p x} (h : Clear config p x) (hno : ∀ y, Within p y → ∀ t ps' b', ¬ IsTest y t ps' b')
    (hx : Stmt x ∨ ∃ f, Call x f) : Seen VC (lower key p) (lower key x) := by
  induction h with
  | refl => exact .refl _
  | @step p m x hk hhid hm ih =>
    have hwork : hasWork x = true := hx.elim stmt_hasWork fun ⟨_, h⟩ => call_hasWork h
    refine .step ⟨kids_lower hk (hasWork_up hm.within hwork), ?_⟩ (ih (fun y hy => hno y (.step hk hy)) hx)
    cases hl : lower key p with
    | test t l cs =>
      obtain ⟨s, e, ps, b, rfl, h1, _, _⟩ := lower_test hl
      exact hno _ (.refl _) t ps b ⟨s, e, rfl, h1⟩
    | call i cn callee args =>
      obtain ⟨s, g, as, rfl, rfl, _, rfl, _⟩ := lower_call hl
      rcases hhid s g as rfl with rfl | hh
      · exact Or.inr (Or.inr ⟨rfl, rfl⟩)
      · rw [hidden_iff (key := key), hl] at hh
        cases hv : config.visitIgnoredArguments with
        | true => exact Or.inr (Or.inl hv)
        | false => exact Or.inl fun hi => hh ⟨hv, hi⟩
    | macro_ i n as => exact absurd hl lower_macro
    | field _ _ _ => exact rfl
    | await _ _ => exact rfl
    | stmt _ _ => trivial
    | exprStmt _ _ => trivial
    | other _ _ => trivial

omit hr in
theorem it_notIgnored {e t ps b} (h : It e t ps b) : ¬ Visit.Ignored config (lower key e) := by
  obtain ⟨s, s1, s2, s3, rfl⟩ := h
  have hm : ∀ base p, ¬ Method (.call s (.ident s1 "it".toList) [.str s2 t, .fn s3 ps b]) base p := by
    rintro base p ⟨hp, f, ⟨_, _, hc⟩, hs⟩
    cases hc
    cases hs
    exact hp rfl
  rintro (hi | ⟨b', p, hmc, _⟩)
  · rcases ignored_iff.mp hi with hi | ⟨base, p, h, _⟩
    · generalize hn : Js.call s (.ident s1 "it".toList) [.str s2 t, .fn s3 ps b] = n at hi hm
      cases hi with
      | function hc hi =>
        obtain ⟨_, _, _, rfl⟩ := hc
        cases hn
        rw [hp.ignored] at hi; cases hi
      | path h _ => exact hm _ _ h
      | chain h _ => exact hm _ _ h
    · exact hm _ _ h
  · obtain ⟨base, _, h⟩ := method_low hmc
    exact hm _ _ h

/-- What is visible in a test is seen. -/
theorem visible_seen {t ps b x} (ht : Test file t ps b) (hi : config.isIgnoredTest t = false) (hv : Visible config (ps ++ b) x)
    (hx : Stmt x ∨ ∃ f, Call x f) :
    ∃ e, Within file e ∧ It e t ps b ∧ TestPart VC [lower key file] t (lastKey key b) (lower key e) ∧
      Seen VC (lower key e) (lower key x) := by
  obtain ⟨y, hy, s, e, rfl, he⟩ := id ht
  refine ⟨e, hy.trans (.kid (List.mem_singleton.mpr rfl)), he, ⟨hi, [lower key e], ⟨_, List.mem_singleton.mpr rfl, ?_⟩, by simp⟩, ?_⟩
  · rw [← test_lower (s := s) he]
    exact outside hr hy (.refl _) ⟨s, e, rfl, he⟩
  · obtain ⟨p, hpm, hcl⟩ := hv
    have h1 := clear_seen (key := key) (skip := skip) (trim := trim) (file := file) hcl
      (fun y hy => hr.flat t ps b ht y ⟨p, hpm, hy⟩) hx
    have hni := it_notIgnored (key := key) hp he
    obtain ⟨s0, s1, s2, s3, rfl⟩ := he
    rw [lower] at hni ⊢
    refine .step (m := lower key (.fn s3 ps b)) ⟨by simp [Node.kids, lowerAll], Or.inl hni⟩ ?_
    rw [lower]
    refine .step (m := lower key p) ⟨?_, trivial⟩ h1
    simp only [Node.kids, lowerAll_eq, ← List.map_append]
    exact List.mem_map.mpr ⟨p, hpm, rfl⟩

omit hr hp in
theorem visible_in {ps x} (h : Visible config ps x) : In ps x := by
  obtain ⟨p, hp, h⟩ := h
  exact ⟨p, hp, h.within⟩

omit hp in
theorem plain_low {x l} (hx : Within file x) (hpl : Plain config file x) (hl : l ≠ some (key x)) (hskip : skip x.span = false) :
    ∃ i, i.span = x.span ∧ (PlainLeaf VC l (lower key x) i ∨ PlainCall VC l (lower key x) i) := by
  obtain ⟨hs, hnt, hpl⟩ := hpl
  obtain ⟨i, hi⟩ := stmt_lower (key := key) hs hnt
  obtain ⟨_, _, h1, h2, h3, h4⟩ := lower_stmt hi
  have hrem : Removable VC l (lower key x) i := ⟨hi, h3, by rw [h2]; exact hl, by rw [h1]; exact hskip⟩
  refine ⟨i, h1, ?_⟩
  rcases hpl with ⟨a1, a2, a3⟩ | ⟨s, e, c, rfl, a2, a3, a4⟩
  · obtain ⟨h5, h6⟩ := h4.mpr a2
    refine Or.inl ⟨hrem, ?_, h5, h6, ?_⟩
    · intro s' e' h' hn hh
      obtain ⟨s, e, rfl, rfl, _, _⟩ := lower_exprStmt hn
      obtain ⟨c, _, hm⟩ := head_makes hh rfl
      exact a3 s e c rfl hm
    · intro m hm y i' hy his
      obtain ⟨z, hz, rfl⟩ := lower_kids hm
      obtain ⟨w, hw, rfl⟩ := sub_within hy rfl
      exact a1 w ⟨z, hz, hw⟩ (lower_stmt his).1
  · have hit : itOf e = none := itOf_none fun m ps b h => hnt m ps b ⟨s, e, rfl, h⟩
    have hl' := exprStmt_lower (key := key) (s := s) hit
    rw [hl'] at hi hrem ⊢
    have hie : i = info key (.expr s e) false false := by
      rcases hi with ⟨_, h⟩ | ⟨_, h⟩ <;> cases h
      rfl
    subst hie
    refine Or.inr ⟨hrem, _, _, rfl, a2.head (flat hr hx), Or.inl rfl, fun h => a3 (ignored_iff.mp h), fun f hc => ?_⟩
    obtain ⟨name, d, _, b1, b2, _⟩ := calls_callOf hc
    exact a4 name _ _ b1 b2

/-! ## What is found -/

/-- **C72.** The tests are the statements `it("…", function (…) {…});`, except those that the configuration ignores. -/
theorem C72_tests {rounds st walked} (h : visitFile key config skip trim rounds file = .done st walked) (t : Text) :
    t ∈ st.testSet ↔ (∃ ps b, Test file t ps b) ∧ config.isIgnoredTest t = false := by
  rw [refines hr hp] at h
  constructor
  · intro ht
    obtain ⟨h1, l, cs, h2⟩ := C38_tests_sound h ht
    obtain ⟨y, hy, h3⟩ := world_within h2
    obtain ⟨s, e, ps, b, rfl, h4, _, _⟩ := lower_test h3.symm
    exact ⟨⟨ps, b, _, hy, s, e, rfl, h4⟩, h1⟩
  · rintro ⟨⟨ps, b, x, hx, s, e, rfl, he⟩, hi⟩
    refine C38_tests_complete h (r := lower key file) (List.mem_singleton.mpr rfl) (last := lastKey key b) (cs := [lower key e]) ?_ hi
    rw [← test_lower (s := s) he]
    exact outside hr hx (.refl _) ⟨s, e, rfl, he⟩

/-- **C72.** The visit ends, after at most as many rounds as there are functions, and without a panic, unless a test calls a function
that contains a test. -/
theorem C72_ends (rounds : Nat) (hrounds : (decls file).length ≤ rounds)
    (hno : ∀ t ps b, Uses config file t ps b → ∀ x, In (ps ++ b) x → ∀ t' ps' b', ¬ IsTest x t' ps' b') :
    ∃ st walked, visitFile key config skip trim rounds file = .done st walked := by
  rw [refines hr hp]
  cases h : Visit.visitFile VC rounds [lower key file] with
  | done st walked => exact ⟨st, walked, rfl⟩
  | more =>
    refine absurd h (C39_terminates _ _ _ ?_)
    have h1 := walkableOf_length config (localFns key (decls file))
    have h2 : (localFns key (decls file)).length = (decls file).length := List.length_map _
    have h3 : (VC).walkable.length = (walkableOf config (localFns key (decls file))).length := rfl
    omega
  | panic =>
    refine absurd h (C66_no_panic_functions_partial (keysFaithful hr) _ _ ?_ ?_ ?_ ?_)
    · intro n hn
      cases List.mem_singleton.mp hn
      exact flatTests hr (.refl _)
    · exact fun n _ => Or.inl rfl
    · intro f hf m hm
      obtain ⟨d, hd, rfl⟩ := isWalkable_decl hf
      simp only [localFn, lowerAll_eq, ← List.map_append] at hm
      obtain ⟨y, hy, rfl⟩ := List.mem_map.mp hm
      exact ⟨flatTests hr ((decl_function hd).kid hy), Or.inl rfl⟩
    · intro t f he m hm
      obtain ⟨d, hd, hu, rfl⟩ := exercises_uses hp he
      simp only [localFn, lowerAll_eq, ← List.map_append] at hm
      obtain ⟨y, hy, rfl⟩ := List.mem_map.mp hm
      exact noTest hr (hno t _ _ hu) hy

/-- **C72.** A statement that is to be removed is a statement of a test (which is not the last one), or of a function of the file
that the test calls, directly or through others into which the configuration allows to go. It is not suppressed; and it is
either no call, and then no control statement and no declaration, or a call that is not ignored. -/
theorem C72_statements {rounds st walked} (h : visitFile key config skip trim rounds file = .done st walked)
    {span t} (hc : (span, t) ∈ st.statements) :
    (∃ ps b, Test file t ps b) ∧ config.isIgnoredTest t = false ∧ skip span = false ∧
    ∃ x, Covers config file t x ∧ Stmt x ∧ (∀ t' ps' b', ¬ IsTest x t' ps' b') ∧ x.span = span ∧
      ((¬ NeverRemoved x ∧ ∀ s e c, x = .expr s e → ¬ Makes e c) ∨
       ∃ s e c, x = .expr s e ∧ Makes e c ∧ ¬ Ignored config c) := by
  have h0 := h
  rw [refines hr hp] at h
  have hk : KeysFaithful VC := keysFaithful hr
  obtain ⟨h1, h2⟩ := (C38_only hk h (Or.inl hc)).1
  obtain ⟨l, n, i, h3, ⟨h4, h5, h6, h7⟩, rfl, h9⟩ := C38_statements hk h hc
  obtain ⟨x, rfl, hx, hcov⟩ := covers hp h3
  obtain ⟨hs, hnt, hspan, hkey, _, hnr⟩ := lower_stmt h4
  refine ⟨((C72_tests hr hp h0 t).mp h1).1, h2, h7, x, ?_, hs, hnt, hspan.symm, ?_⟩
  · obtain ⟨ps, b, hin, ⟨ht, rfl⟩ | hu⟩ := hcov (Or.inl hs)
    · refine .test ht hin fun hlast => h6 ?_
      rw [lastKey, hlast, hkey]; rfl
    · exact .function hu hin
  · rcases h9 with ⟨a1, a2, a3⟩ | ⟨e', h', a1, a2, a3⟩
    · refine Or.inl ⟨hnr.mp ⟨a2, a3⟩, ?_⟩
      rintro s e c rfl hm
      have hi : itOf e = none := itOf_none fun m ps b hi => hnt m ps b ⟨s, e, rfl, hi⟩
      exact a1 _ _ _ (exprStmt_lower hi) (hm.head (flat hr hx))
    · obtain ⟨s, e, rfl, rfl, _, _⟩ := lower_exprStmt a1
      obtain ⟨c, rfl, hm⟩ := head_makes a2 rfl
      exact Or.inr ⟨s, e, c, rfl, hm, fun hi => a3 (ignored_iff.mpr hi)⟩

/-- **C72.** A method call that is to be removed is the last one, `.p₁.….pₖ(…)`, of a call `base.p₁.….pₖ(…)` of a test or of
such a function; neither the method nor the call is ignored, and it is not suppressed. -/
theorem C72_methods {rounds st walked} (h : visitFile key config skip trim rounds file = .done st walked)
    {span t} (hc : (span, t) ∈ st.methodCalls) :
    (∃ ps b, Test file t ps b) ∧ config.isIgnoredTest t = false ∧ skip span = false ∧
    ∃ c base p, (∃ ps b, (Test file t ps b ∨ Uses config file t ps b) ∧ In (ps ++ b) c) ∧ Method c base p ∧
      ¬ Ignored config c ∧ config.isIgnoredMethod (dotted p) = false ∧
      span = trim { c.span with start := base.span.stop } := by
  have h0 := h
  rw [refines hr hp] at h
  have hk : KeysFaithful VC := keysFaithful hr
  obtain ⟨h1, h2⟩ := (C38_only hk h (Or.inr hc)).1
  obtain ⟨hskip, l, n, i, base, p, cn, callee, args, rfl, h3, h4, h5, h6, h7⟩ := C38_methods hk h hc
  refine ⟨((C72_tests hr hp h0 t).mp h1).1, h2, hskip, ?_⟩
  obtain ⟨x, hx, hw, hcov⟩ := covers hp h3
  rw [hx] at h4 h5
  obtain ⟨b, rfl, hm⟩ := method_low h4
  obtain ⟨s, g, as, rfl, rfl, _⟩ := lower_call hx.symm
  obtain ⟨hp', f, hcall, hsel⟩ := id hm
  obtain ⟨ps, bd, hin, hcov⟩ := hcov (Or.inr ⟨f, hcall, by
    rintro s rfl
    cases hsel with
    | base _ => exact hp' rfl⟩)
  refine ⟨_, b, p, ⟨ps, bd, hcov.imp (·.1) id, hin⟩, hm, fun h => h5 (ignored_iff.mpr h), h6, ?_⟩
  obtain ⟨s', n', ho⟩ := hm.object
  rw [h7, lower_span (hr.exprs s' b n' (hw.trans ho))]
  rfl

/-- **C72.** No plain statement of a test is overlooked: neither one that is no call and contains no statements, nor a call that is
not ignored and does not call a function that is gone into; except the test's last statement, and what is within the arguments of ignored
calls. -/
theorem C72_complete {rounds st walked} (h : visitFile key config skip trim rounds file = .done st walked) {t ps b x}
    (ht : Test file t ps b) (hi : config.isIgnoredTest t = false) (hv : Visible config (ps ++ b) x) (hpl : Plain config file x)
    (hl : b.getLast? ≠ some x) (hskip : skip x.span = false) : (x.span, t) ∈ st.statements := by
  rw [refines hr hp] at h
  have hx := ht.within (visible_in hv)
  obtain ⟨e, _, _, h1, h2⟩ := visible_seen (key := key) (skip := skip) (trim := trim) hr hp ht hi hv (Or.inl hpl.1)
  obtain ⟨i, h3, h4⟩ := plain_low (skip := skip) (trim := trim) (l := lastKey key b) hr hx hpl (by
    intro hk
    obtain ⟨y, hy, hky⟩ := Option.map_eq_some_iff.mp hk
    have hyw : Within file y := ht.within ⟨y, List.mem_append_right _ (List.mem_of_getLast? hy), .refl _⟩
    rw [hr.keys y x hyw hx hky] at hy
    exact hl hy) hskip
  rw [← h3]
  exact (C36_test h h1 h2 h4).2

/-- **C72.** … and likewise for a function that the test calls. -/
theorem C72_complete_functions {rounds st walked} (h : visitFile key config skip trim rounds file = .done st walked)
    {t ps b c name ps' b' x} (ht : Test file t ps b) (hi : config.isIgnoredTest t = false) (hv : Visible config (ps ++ b) c)
    (hc : CallOf c name) (hfn : Local config file name ps' b')
    (huniq : ∀ ps₂ b₂ s s', Outer file (.fnDecl s name ps' b') → Outer file (.fnDecl s' name ps₂ b₂) → s = s' ∧ ps₂ = ps' ∧ b₂ = b')
    (hno : ∀ y, In (ps' ++ b') y → ∀ t' ps₂ b₂, ¬ IsTest y t' ps₂ b₂)
    (hv' : Visible config (ps' ++ b') x) (hpl : Plain config file x) (hskip : skip x.span = false) :
    (x.span, t) ∈ st.statements := by
  rw [refines hr hp] at h
  obtain ⟨sc, hcall⟩ := hc
  obtain ⟨e, _, _, h1, h2⟩ := visible_seen (key := key) (skip := skip) (trim := trim) hr hp ht hi hv (Or.inr ⟨_, hcall⟩)
  obtain ⟨i, h3, h4⟩ := plain_low (skip := skip) (trim := trim) (l := none) hr (hfn.1.within (visible_in hv')) hpl (by simp) hskip
  obtain ⟨⟨sd, hout⟩, hwalk⟩ := id hfn
  have hd := outer_decls hout sd name ps' b' rfl
  obtain ⟨fs, hlook⟩ := lookup_walkableOf (config := config) (l := localFns key (decls file)) (name := name)
    (f := localFn key ⟨.fnDecl sd name ps' b', name, ps', b'⟩) (List.mem_map.mpr ⟨_, hd, rfl⟩) hwalk (by
      intro g hg
      obtain ⟨d, hdm, hdn, rfl⟩ := localFns_mem hg
      obtain ⟨s', hnode, hout'⟩ := decls_outer d file hdm
      cases d
      simp only at hdn hnode hout'
      subst hdn
      rw [hnode] at hout' ⊢
      obtain ⟨rfl, rfl, rfl⟩ := huniq _ _ _ _ hout hout'
      rfl)
  obtain ⟨s, as, rfl⟩ := hcall
  have hcalls : Calls VC (lower key (.call s (.ident sc name) as)) (localFn key ⟨.fnDecl sd name ps' b', name, ps', b'⟩) := by
    rw [lower]
    exact ⟨_, _, _, _, name, fs, rfl, by rw [lower]; rfl, hlook⟩
  obtain ⟨p, hpm, hcl⟩ := hv'
  rw [← h3]
  refine C36_function (keysFaithful hr) h h1 h2 hcalls (m' := lower key p) ?_
    (clear_seen hcl (fun y hy => hno y ⟨p, hpm, hy⟩) (Or.inl hpl.1)) h4
  simp only [localFn, lowerAll_eq, ← List.map_append]
  exact List.mem_map.mpr ⟨p, hpm, rfl⟩

/-- **C72.** No method call of a test is overlooked, unless it is ignored or the test's last statement. -/
theorem C72_complete_methods {rounds st walked} (h : visitFile key config skip trim rounds file = .done st walked)
    {t ps b c base p} (ht : Test file t ps b) (hi : config.isIgnoredTest t = false) (hv : Visible config (ps ++ b) c)
    (hm : Method c base p) (hig : ¬ Ignored config c) (him : config.isIgnoredMethod (dotted p) = false)
    (hskip : skip (trim { c.span with start := base.span.stop }) = false)
    (hl : ∀ s e c', In (ps ++ b) (.expr s e) → Makes e c' → c'.span = c.span → b.getLast? ≠ some (.expr s e)) :
    (trim { c.span with start := base.span.stop }, t) ∈ st.methodCalls := by
  rw [refines hr hp] at h
  obtain ⟨hp', g, hcall, hsel⟩ := id hm
  have hwc := ht.within (visible_in hv)
  obtain ⟨e, hwe, hite, h1, h2⟩ := visible_seen (key := key) (skip := skip) (trim := trim) hr hp ht hi hv (Or.inr ⟨_, hcall⟩)
  have hmc := hm.low (key := key)
  have hni : ¬ Visit.Ignored config (lower key c) := by
    rintro (hi | ⟨b, p', hm', hi⟩)
    · exact hig (ignored_iff.mp hi)
    · rw [← (hmc.unique hm').2, him] at hi; cases hi
  have hnc : ∀ f, ¬ Calls VC (lower key c) f := by
    intro f hcf
    obtain ⟨name, d, _, ⟨s', s'', as', h5⟩, _, _⟩ := calls_callOf hcf
    obtain ⟨s, as, rfl⟩ := hcall
    cases h5
    cases hsel
    exact hp' rfl
  obtain ⟨s', n', ho⟩ := hm.object
  have hbs : (lower key base).info.span = base.span := lower_span (hr.exprs s' base n' (hwc.trans ho))
  obtain ⟨s, as, rfl⟩ := hcall
  rw [lower] at h2 hmc hni hnc
  have := C36_test_methods h h1 h2 hmc hni hnc (by rw [hbs]; exact hskip) ?_
  · rw [hbs] at this; exact this
  · intro i e' hsub hhead
    obtain ⟨x, hx, hn⟩ := sub_within hsub rfl
    obtain ⟨sx, ex, rfl, rfl, rfl, _⟩ := lower_exprStmt hn.symm
    obtain ⟨c', hc', hm'⟩ := head_makes hhead rfl
    obtain ⟨s2, g2, as2, rfl, hs2, _⟩ := lower_call hc'.symm
    refine ⟨rfl, fun hlast => ?_⟩
    rcases within_it hite hx (Or.inl (Or.inl ⟨_, _, rfl⟩)) with rfl | hin
    · obtain ⟨_, _, _, _, h⟩ := hite; cases h
    · cases hs2
      obtain ⟨y, hy, hky⟩ := Option.map_eq_some_iff.mp hlast
      have hyw : Within file y := ht.within ⟨y, List.mem_append_right _ (List.mem_of_getLast? hy), .refl _⟩
      rw [hr.keys y (.expr sx ex) hyw (hwe.trans hx) hky] at hy
      exact hl sx ex _ hin hm' rfl hy

/-- **C72.** … and likewise for a function that the test calls. -/
theorem C72_complete_functions_methods {rounds st walked} (h : visitFile key config skip trim rounds file = .done st walked)
    {t ps b c' name ps' b' c base p} (ht : Test file t ps b) (hi : config.isIgnoredTest t = false) (hv : Visible config (ps ++ b) c')
    (hc : CallOf c' name) (hfn : Local config file name ps' b')
    (huniq : ∀ ps₂ b₂ s s', Outer file (.fnDecl s name ps' b') → Outer file (.fnDecl s' name ps₂ b₂) → s = s' ∧ ps₂ = ps' ∧ b₂ = b')
    (hno : ∀ y, In (ps' ++ b') y → ∀ t' ps₂ b₂, ¬ IsTest y t' ps₂ b₂)
    (hv' : Visible config (ps' ++ b') c)
    (hm : Method c base p) (hig : ¬ Ignored config c) (him : config.isIgnoredMethod (dotted p) = false)
    (hskip : skip (trim { c.span with start := base.span.stop }) = false) :
    (trim { c.span with start := base.span.stop }, t) ∈ st.methodCalls := by
  rw [refines hr hp] at h
  obtain ⟨sc, hcall⟩ := hc
  obtain ⟨e, _, _, h1, h2⟩ := visible_seen (key := key) (skip := skip) (trim := trim) hr hp ht hi hv (Or.inr ⟨_, hcall⟩)
  obtain ⟨⟨sd, hout⟩, hwalk⟩ := id hfn
  have hd := outer_decls hout sd name ps' b' rfl
  obtain ⟨fs, hlook⟩ := lookup_walkableOf (config := config) (l := localFns key (decls file)) (name := name)
    (f := localFn key ⟨.fnDecl sd name ps' b', name, ps', b'⟩) (List.mem_map.mpr ⟨_, hd, rfl⟩) hwalk (by
      intro g hg
      obtain ⟨d, hdm, hdn, rfl⟩ := localFns_mem hg
      obtain ⟨s', hnode, hout'⟩ := decls_outer d file hdm
      cases d
      simp only at hdn hnode hout'
      subst hdn
      rw [hnode] at hout' ⊢
      obtain ⟨rfl, rfl, rfl⟩ := huniq _ _ _ _ hout hout'
      rfl)
  obtain ⟨s, as, rfl⟩ := hcall
  have hcalls : Calls VC (lower key (.call s (.ident sc name) as)) (localFn key ⟨.fnDecl sd name ps' b', name, ps', b'⟩) := by
    rw [lower]
    exact ⟨_, _, _, _, name, fs, rfl, by rw [lower]; rfl, hlook⟩
  have hwc := hfn.1.within (visible_in hv')
  obtain ⟨hp', g, hcall', hsel⟩ := id hm
  have hmc := hm.low (key := key)
  have hni : ¬ Visit.Ignored config (lower key c) := by
    rintro (hi | ⟨b, p', hm', hi⟩)
    · exact hig (ignored_iff.mp hi)
    · rw [← (hmc.unique hm').2, him] at hi; cases hi
  have hnc : ∀ f, ¬ Calls VC (lower key c) f := by
    intro f hcf
    obtain ⟨name, d, _, ⟨s', s'', as', h5⟩, _, _⟩ := calls_callOf hcf
    obtain ⟨s, as, rfl⟩ := hcall'
    cases h5
    cases hsel
    exact hp' rfl
  obtain ⟨s', n', ho⟩ := hm.object
  have hbs : (lower key base).info.span = base.span := lower_span (hr.exprs s' base n' (hwc.trans ho))
  obtain ⟨q, hqm, hcl⟩ := hv'
  have hseen := clear_seen (key := key) (skip := skip) (trim := trim) (file := file) hcl
    (fun y hy => hno y ⟨q, hqm, hy⟩) (Or.inr ⟨_, hcall'⟩)
  obtain ⟨s2, as2, rfl⟩ := hcall'
  rw [lower] at hseen hmc hni hnc
  have := C36_function_methods (keysFaithful hr) h h1 h2 hcalls (m' := lower key q) (by
    simp only [localFn, lowerAll_eq, ← List.map_append]
    exact List.mem_map.mpr ⟨q, hqm, rfl⟩) hseen hmc hni hnc (by rw [hbs]; exact hskip) ?_
  · rw [hbs] at this; exact this
  · intro i e' hsub hhead
    obtain ⟨x, hx, hn⟩ := sub_within hsub rfl
    obtain ⟨sx, ex, rfl, rfl, rfl, _⟩ := lower_exprStmt hn.symm
    rfl

end

end Necessist.Js
