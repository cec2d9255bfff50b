import Verif.Lemmas.VisitorPanic
import Verif.Lemmas.LocalFunctions
import Verif.Spec.TypeScript
/-! # TypeScript: the visit is a visit of the generic visitor -/
namespace Necessist.Js
open Visit

/-! ## The generic visitor leaves no call statement behind -/

theorem visitTest_calm {cfg name last st go st'} (h : visitTest cfg name last st = some (go, st')) :
    st'.callStatement = st.callStatement := by
  unfold visitTest at h
  split at h
  · cases h; rfl
  · split at h
    · cases h
    · split at h
      · cases h
      · cases h; rfl

theorem visitTestPost_calm {name st st'} (h : visitTestPost name st = some st') : st'.callStatement = st.callStatement := by
  unfold visitTestPost at h
  simp only at h
  split at h
  · cases h; rfl
  · split at h
    · cases h; rfl
    · cases h

theorem registerSpan_calm {cfg span kind st st'} (h : registerSpan cfg span kind st = some st') :
    st'.callStatement = st.callStatement := by
  unfold registerSpan at h
  split at h
  · cases h
  · split at h
    · cases h; rfl
    · cases kind <;> cases h <;> rfl

theorem visitStatementPost_calm {cfg s isCall st st'} (h : visitStatementPost cfg s isCall st = some st') :
    st'.callStatement = none := by
  unfold visitStatementPost at h
  split at h
  · cases h
  · rename_i hc
    have hc : st.callStatement = none := by simpa using hc
    split at h
    · cases h
    · simp only at h
      split at h
      · cases h; exact hc
      · split at h
        · rw [registerSpan_calm h]; exact hc
        · cases h; exact hc

theorem visitCall_calm {cfg i cn callee st go st'} (h : visitCall cfg i cn callee st = some (go, st')) : st'.callStatement = none := by
  obtain ⟨go', st2, h1, h2⟩ := visitCall_ok cfg i cn callee st
  rw [h1] at h
  cases h
  exact h2.call

theorem visitMacroCall_calm {cfg i n st go st'} (h : visitMacroCall cfg i n st = some (go, st')) : st'.callStatement = none := by
  obtain ⟨go', st2, h1, h2⟩ := visitMaybeMacroCall_ok cfg (macroArgs cfg i n) st
  unfold visitMacroCall at h
  rw [h1] at h
  cases h
  exact h2.call

mutual
theorem walk_calm (cfg : VCfg) : ∀ (n : Node) (st st' : VState), walk cfg n st = some st' → st.callStatement = none →
    st'.callStatement = none
  | .test name last cs, st, st', h, hc => by
    rw [walk] at h
    obtain ⟨⟨go, st1⟩, h1, h⟩ := Option.bind_eq_some_iff.mp h
    obtain ⟨st2, h2, h3⟩ := Option.bind_eq_some_iff.mp h
    have hc1 := (visitTest_calm h1).trans hc
    rw [visitTestPost_calm h3]
    split at h2
    · exact walkList_calm cfg cs st1 st2 h2 hc1
    · cases h2; exact hc1
  | .stmt s cs, st, st', h, _ => by
    rw [walk] at h
    obtain ⟨st1, _, h⟩ := Option.bind_eq_some_iff.mp h
    obtain ⟨st2, _, h3⟩ := Option.bind_eq_some_iff.mp h
    exact visitStatementPost_calm h3
  | .exprStmt s e, st, st', h, _ => by
    rw [walk] at h
    obtain ⟨st1, _, h⟩ := Option.bind_eq_some_iff.mp h
    obtain ⟨st2, _, h3⟩ := Option.bind_eq_some_iff.mp h
    exact visitStatementPost_calm h3
  | .call i cn callee args, st, st', h, _ => by
    rw [walk] at h
    obtain ⟨⟨go, st1⟩, h1, h⟩ := Option.bind_eq_some_iff.mp h
    have hc1 := visitCall_calm h1
    simp only at h
    split at h
    · obtain ⟨st2, h2, h3⟩ := Option.bind_eq_some_iff.mp h
      exact walkList_calm cfg args st2 st' h3 (walk_calm cfg callee st1 st2 h2 hc1)
    · split at h
      · exact walk_calm cfg callee st1 st' h hc1
      · cases h; exact hc1
  | .macro_ i name args, st, st', h, _ => by
    rw [walk] at h
    obtain ⟨⟨go, st1⟩, h1, h⟩ := Option.bind_eq_some_iff.mp h
    have hc1 := visitMacroCall_calm h1
    simp only at h
    split at h
    · exact walkList_calm cfg args st1 st' h hc1
    · cases h; exact hc1
  | .field i f b, st, st', h, hc => by
    rw [walk] at h
    split at h
    · exact walk_calm cfg b st st' h hc
    · cases h; exact hc
  | .await i b, st, st', h, hc => by
    rw [walk] at h
    split at h
    · exact walk_calm cfg b st st' h hc
    · cases h; exact hc
  | .other i cs, st, st', h, hc => by
    rw [walk] at h
    exact walkList_calm cfg cs st st' h hc
theorem walkList_calm (cfg : VCfg) : ∀ (ns : List Node) (st st' : VState), walkList cfg ns st = some st' → st.callStatement = none →
    st'.callStatement = none
  | [], st, st', h, hc => by rw [walkList] at h; cases h; exact hc
  | n :: ns, st, st', h, hc => by
    rw [walkList] at h
    obtain ⟨st1, h1, h2⟩ := Option.bind_eq_some_iff.mp h
    exact walkList_calm cfg ns st1 st' h2 (walk_calm cfg n st st1 h1 hc)
end

theorem walkList_append (cfg : VCfg) (as bs : List Node) (st : VState) :
    walkList cfg (as ++ bs) st = (walkList cfg as st).bind fun st => walkList cfg bs st := by
  induction as generalizing st with
  | nil => rw [walkList]; rfl
  | cons a as ih =>
    rw [List.cons_append, walkList, walkList, Option.bind_assoc]
    congr 1
    funext st
    exact ih st

/-! ## Trees -/

theorem Within.trans {a b c} (h1 : Within a b) (h2 : Within b c) : Within a c := by
  induction h1 with
  | refl => exact h2
  | step hk _ ih => exact .step hk (ih h2)

theorem Within.kid {t m : Js} (h : m ∈ t.kids) : Within t m := .step h (.refl _)

theorem lowerAll_eq (key : Js → Nat) (xs : List Js) : lowerAll key xs = xs.map (lower key) := by
  induction xs with
  | nil => rw [lowerAll]; rfl
  | cons x xs ih => rw [lowerAll, ih]; rfl

theorem itOf_iff {x : Js} {m b} : itOf x = some (m, b) ↔ ∃ ps, It x m ps b := by
  constructor
  · intro h
    unfold itOf at h
    split at h
    · split at h
      · rename_i hn
        cases h
        exact ⟨_, _, _, _, _, by rw [hn]⟩
      · cases h
    · cases h
  · rintro ⟨ps, s, s1, s2, s3, rfl⟩
    simp [itOf]

theorem itOf_none {x : Js} (h : ∀ m ps b, ¬ It x m ps b) : itOf x = none := by
  cases hi : itOf x with
  | none => rfl
  | some r =>
    obtain ⟨ps, hi⟩ := itOf_iff.mp hi
    exact absurd hi (h _ _ _)

theorem itOf_none_iff {x : Js} : itOf x = none ↔ ∀ m ps b, ¬ It x m ps b := by
  refine ⟨fun h m ps b hi => ?_, itOf_none⟩
  rw [itOf_iff.mpr ⟨ps, hi⟩] at h; cases h

mutual
theorem hasWork_idle : ∀ x : Js, hasWork x = false → Idle x
  | .ident s n, _ => by
    intro y hy; cases hy with
    | refl => exact ⟨(by rintro (⟨_, _, h⟩ | ⟨_, _, h⟩ | ⟨_, _, h⟩ | ⟨_, _, h⟩) <;> cases h), (by rintro f ⟨_, _, h⟩; cases h)⟩
    | step hk _ => cases hk
  | .str s n, _ => by
    intro y hy; cases hy with
    | refl => exact ⟨(by rintro (⟨_, _, h⟩ | ⟨_, _, h⟩ | ⟨_, _, h⟩ | ⟨_, _, h⟩) <;> cases h), (by rintro f ⟨_, _, h⟩; cases h)⟩
    | step hk _ => cases hk
  | .member s o n, h => by
    rw [hasWork] at h
    intro y hy; cases hy with
    | refl => exact ⟨(by rintro (⟨_, _, h⟩ | ⟨_, _, h⟩ | ⟨_, _, h⟩ | ⟨_, _, h⟩) <;> cases h), (by rintro f ⟨_, _, h⟩; cases h)⟩
    | step hk hy =>
      exact hasWork_idle o h y (List.mem_singleton.mp hk ▸ hy)
  | .index s o p, h => by
    rw [hasWork, Bool.or_eq_false_iff] at h
    intro y hy; cases hy with
    | refl => exact ⟨(by rintro (⟨_, _, h⟩ | ⟨_, _, h⟩ | ⟨_, _, h⟩ | ⟨_, _, h⟩) <;> cases h), (by rintro f ⟨_, _, h⟩; cases h)⟩
    | step hk hy =>
      rcases List.mem_cons.mp hk with hk | hk
      · exact hasWork_idle o h.1 y (hk ▸ hy)
      · exact hasWork_idle p h.2 y (List.mem_singleton.mp hk ▸ hy)
  | .await s o, h => by
    rw [hasWork] at h
    intro y hy; cases hy with
    | refl => exact ⟨(by rintro (⟨_, _, h⟩ | ⟨_, _, h⟩ | ⟨_, _, h⟩ | ⟨_, _, h⟩) <;> cases h), (by rintro f ⟨_, _, h⟩; cases h)⟩
    | step hk hy =>
      exact hasWork_idle o h y (List.mem_singleton.mp hk ▸ hy)
  | .call s f as, h => by rw [hasWork] at h; cases h
  | .fn s ps b, h => by
    rw [hasWork, Bool.or_eq_false_iff] at h
    intro y hy; cases hy with
    | refl => exact ⟨(by rintro (⟨_, _, h⟩ | ⟨_, _, h⟩ | ⟨_, _, h⟩ | ⟨_, _, h⟩) <;> cases h), (by rintro f ⟨_, _, h⟩; cases h)⟩
    | step hk hy =>
      rcases List.mem_append.mp hk with hk | hk
      · exact hasWorkAny_idle ps h.1 _ hk y hy
      · exact hasWorkAny_idle b h.2 _ hk y hy
  | .fnDecl s n ps b, h => by
    rw [hasWork, Bool.or_eq_false_iff] at h
    intro y hy; cases hy with
    | refl => exact ⟨(by rintro (⟨_, _, h⟩ | ⟨_, _, h⟩ | ⟨_, _, h⟩ | ⟨_, _, h⟩) <;> cases h), (by rintro f ⟨_, _, h⟩; cases h)⟩
    | step hk hy =>
      rcases List.mem_append.mp hk with hk | hk
      · exact hasWorkAny_idle ps h.1 _ hk y hy
      · exact hasWorkAny_idle b h.2 _ hk y hy
  | .other s ps, h => by
    rw [hasWork] at h
    intro y hy; cases hy with
    | refl => exact ⟨(by rintro (⟨_, _, h⟩ | ⟨_, _, h⟩ | ⟨_, _, h⟩ | ⟨_, _, h⟩) <;> cases h), (by rintro f ⟨_, _, h⟩; cases h)⟩
    | step hk hy => exact hasWorkAny_idle ps h _ hk y hy
  | .expr s e, h => by rw [hasWork] at h; cases h
  | .control s e, h => by rw [hasWork] at h; cases h
  | .decl s e, h => by rw [hasWork] at h; cases h
  | .stmt s e, h => by rw [hasWork] at h; cases h
theorem hasWorkAny_idle : ∀ xs : List Js, hasWorkAny xs = false → ∀ x ∈ xs, Idle x
  | [], _, x, hx => by cases hx
  | y :: ys, h, x, hx => by
    rw [hasWorkAny, Bool.or_eq_false_iff] at h
    rcases List.mem_cons.mp hx with hx | hx
    · exact hx ▸ hasWork_idle y h.1
    · exact hasWorkAny_idle ys h.2 x hx
end

theorem Idle.kid {x m : Js} (h : Idle x) (hm : m ∈ x.kids) : Idle m := fun y hy => h y (.step hm hy)

mutual
theorem idle_hasWork : ∀ x : Js, Idle x → hasWork x = false
  | .ident s n, _ => by rw [hasWork]
  | .str s n, _ => by rw [hasWork]
  | .member s o n, h => by rw [hasWork]; exact idle_hasWork o (h.kid (by simp [Js.kids]))
  | .index s o p, h => by
    rw [hasWork, idle_hasWork o (h.kid (by simp [Js.kids])), idle_hasWork p (h.kid (by simp [Js.kids]))]; rfl
  | .await s o, h => by rw [hasWork]; exact idle_hasWork o (h.kid (by simp [Js.kids]))
  | .call s f as, h => absurd ⟨s, as, rfl⟩ ((h _ (.refl _)).2 f)
  | .fn s ps b, h => by
    rw [hasWork, idle_hasWorkAny ps (fun x hx => h.kid (by simp [Js.kids, hx])), idle_hasWorkAny b (fun x hx => h.kid (by simp [Js.kids, hx]))]
    rfl
  | .fnDecl s n ps b, h => by
    rw [hasWork, idle_hasWorkAny ps (fun x hx => h.kid (by simp [Js.kids, hx])), idle_hasWorkAny b (fun x hx => h.kid (by simp [Js.kids, hx]))]
    rfl
  | .other s ps, h => by rw [hasWork]; exact idle_hasWorkAny ps (fun x hx => h.kid hx)
  | .expr s e, h => absurd (Or.inl ⟨s, e, rfl⟩) (h _ (.refl _)).1
  | .control s e, h => absurd (Or.inr (Or.inl ⟨s, e, rfl⟩)) (h _ (.refl _)).1
  | .decl s e, h => absurd (Or.inr (Or.inr (Or.inl ⟨s, e, rfl⟩))) (h _ (.refl _)).1
  | .stmt s e, h => absurd (Or.inr (Or.inr (Or.inr ⟨s, e, rfl⟩))) (h _ (.refl _)).1
theorem idle_hasWorkAny : ∀ xs : List Js, (∀ x ∈ xs, Idle x) → hasWorkAny xs = false
  | [], _ => by rw [hasWorkAny]
  | x :: xs, h => by
    rw [hasWorkAny, idle_hasWork x (h x List.mem_cons_self), idle_hasWorkAny xs fun y hy => h y (List.mem_cons_of_mem _ hy)]
    rfl
end

mutual
/-- Visiting what is idle does nothing. -/
theorem visit_idle (key : Js → Nat) (cfg : VCfg) : ∀ (x : Js) (st : VState), hasWork x = false → visit key cfg x st = some st
  | .ident s n, st, _ => by rw [visit]
  | .str s n, st, _ => by rw [visit]
  | .member s o n, st, h => by rw [hasWork] at h; rw [visit]; exact visit_idle key cfg o st h
  | .index s o p, st, h => by
    rw [hasWork, Bool.or_eq_false_iff] at h
    rw [visit, visit_idle key cfg o st h.1]
    exact visit_idle key cfg p st h.2
  | .await s o, st, h => by rw [hasWork] at h; rw [visit]; exact visit_idle key cfg o st h
  | .call s f as, st, h => by rw [hasWork] at h; cases h
  | .fn s ps b, st, h => by
    rw [hasWork, Bool.or_eq_false_iff] at h
    rw [visit, visitAll_idle key cfg ps st h.1]
    exact visitAll_idle key cfg b st h.2
  | .fnDecl s n ps b, st, h => by
    rw [hasWork, Bool.or_eq_false_iff] at h
    rw [visit, visitAll_idle key cfg ps st h.1]
    exact visitAll_idle key cfg b st h.2
  | .other s ps, st, h => by rw [hasWork] at h; rw [visit]; exact visitAll_idle key cfg ps st h
  | .expr s e, st, h => by rw [hasWork] at h; cases h
  | .control s e, st, h => by rw [hasWork] at h; cases h
  | .decl s e, st, h => by rw [hasWork] at h; cases h
  | .stmt s e, st, h => by rw [hasWork] at h; cases h
theorem visitAll_idle (key : Js → Nat) (cfg : VCfg) : ∀ (xs : List Js) (st : VState), hasWorkAny xs = false →
    visitAll key cfg xs st = some st
  | [], st, _ => by rw [visitAll]
  | x :: xs, st, h => by
    rw [hasWorkAny, Bool.or_eq_false_iff] at h
    rw [visitAll, visit_idle key cfg x st h.1]
    exact visitAll_idle key cfg xs st h.2
end

/-! ## The queries -/

/-- `x` in `x.f` is no statement. -/
def Exprs (x : Js) : Prop := ∀ s obj name, Within x (.member s obj name) → ¬ Stmt obj

theorem Exprs.kid {x m : Js} (h : Exprs x) (hm : m ∈ x.kids) : Exprs m := fun s o n hw => h s o n (.step hm hw)

/-- What the queries see of an expression's name and span. -/
theorem info_eq (key : Js → Nat) (x : Js) (h : ¬ Stmt x) : (lower key x).info = (view x).info := by
  cases x with
  | ident | str | member | await | call | fn | fnDecl | other => rw [lower, view] <;> first | rfl | simp
  | index s o p =>
    rw [lower, view]
    split <;> rfl
  | expr s e => exact absurd (Or.inl ⟨s, e, rfl⟩) h
  | control s e => exact absurd (Or.inr (Or.inl ⟨s, e, rfl⟩)) h
  | decl s e => exact absurd (Or.inr (Or.inr (Or.inl ⟨s, e, rfl⟩))) h
  | stmt s e => exact absurd (Or.inr (Or.inr (Or.inr ⟨s, e, rfl⟩))) h

/-- What the queries see of any node's name. -/
theorem name_eq (key : Js → Nat) (x : Js) : (lower key x).info.name = (view x).info.name := by
  cases x with
  | ident | str | member | await | call | fn | fnDecl | other => rw [lower, view] <;> first | rfl | simp
  | index s o p =>
    rw [lower, view]
    split <;> rfl
  | expr s e =>
    rw [lower]
    split <;> rfl
  | control s e => rw [lower]; rfl
  | decl s e => rw [lower]; rfl
  | stmt s e => rw [lower]; rfl

/-- A node that is no call and no member access is neither to the queries. -/
theorem view_other {x : Js} (h : ∀ s o n, x ≠ .member s o n) (i n b) : view x ≠ .field i (some n) b := by
  cases x <;> rw [view] <;> simp_all

theorem lower_other {key : Js → Nat} {x : Js} (h : ∀ s o n, x ≠ .member s o n) (i n b) : lower key x ≠ .field i (some n) b := by
  cases x with
  | member s o n' => exact absurd rfl (h s o n')
  | index s o p => rw [lower]; split <;> simp
  | expr s e => rw [lower]; split <;> simp
  | _ => rw [lower]; simp

theorem peelFields_base {n : Node} (h : ∀ i m b, n ≠ .field i (some m) b) (path : List Text) : peelFields n path = (n, path) := by
  rw [peelFields.eq_def]
  split
  · exact absurd rfl (h _ _ _)
  · rfl

theorem peelFields_eq (key : Js → Nat) : ∀ (x : Js) (path : List Text), Exprs x → ¬ Stmt x →
    (peelFields (lower key x) path).2 = (peelFields (view x) path).2 ∧
    (peelFields (lower key x) path).1.info = (peelFields (view x) path).1.info := by
  intro x
  induction x using Js.rec (motive_2 := fun _ => True) with
  | member s o n ih =>
    intro path he _
    rw [lower, view, peelFields, peelFields]
    exact ih (n :: path) (he.kid (by simp [Js.kids])) (he s o n (.refl _))
  | nil | cons => trivial
  | _ =>
    intro path he hs
    rw [peelFields_base (lower_other (by intros; simp)), peelFields_base (view_other (by intros; simp))]
    exact ⟨rfl, info_eq key _ hs⟩

theorem innermost_call {cfg : VCfg} {i cn} {callee : Node} (h : ∀ j m b, callee ≠ .field j (some m) b) (args cs path r) :
    innermostInfo cfg (.call i cn callee args) cs path r =
      ⟨i.span, false, (match cn with | none => false | some n => cfg.config.isIgnoredFunction n), true⟩ := by
  rw [innermostInfo.eq_def]
  split
  · rename_i h'; cases h'
  · rename_i h'; cases h'; exact absurd rfl (h _ _ _)
  · rename_i h'; cases h'; rfl
  · rename_i h'; cases h'
  · rename_i h1 _ h2 _; exact absurd rfl (h2 _ _ _ _)

theorem innermost_base {cfg : VCfg} {n : Node} (h : ∀ j m b, n ≠ .field j (some m) b) (h' : ¬ IsCall n) (cs path r) :
    innermostInfo cfg n cs path r = match n.info.name with
    | some m => ⟨cs, false, isIgnoredPath cfg.config m (dotted path), r⟩
    | none => ⟨cfg.trim { cs with start := n.info.span.stop }, true, cfg.config.isIgnoredMethod (dotted path), r⟩ := by
  rw [innermostInfo.eq_def]
  split
  · exact absurd rfl (h _ _ _)
  · exact absurd (Or.inl ⟨_, _, _, _, rfl⟩) h'
  · exact absurd (Or.inl ⟨_, _, _, _, rfl⟩) h'
  · exact absurd (Or.inr ⟨_, _, _, rfl⟩) h'
  · rfl

theorem view_call {x : Js} {i cn f as} (h : view x = .call i cn f as) : ∃ s g as', x = .call s g as' := by
  cases x <;> rw [view] at h <;> simp_all

theorem lower_isCall {key : Js → Nat} {x : Js} (h : IsCall (lower key x)) : ∃ s g as', x = .call s g as' := by
  cases x with
  | call s g as => exact ⟨s, g, as, rfl⟩
  | index s o p => rw [lower] at h; split at h <;> rcases h with ⟨_, _, _, _, h⟩ | ⟨_, _, _, h⟩ <;> cases h
  | expr s e => rw [lower] at h; split at h <;> rcases h with ⟨_, _, _, _, h⟩ | ⟨_, _, _, h⟩ <;> cases h
  | _ => rw [lower] at h; rcases h with ⟨_, _, _, _, h⟩ | ⟨_, _, _, h⟩ <;> cases h

theorem view_isCall {x : Js} (h : IsCall (view x)) : ∃ s g as', x = .call s g as' := by
  cases x with
  | call s g as => exact ⟨s, g, as, rfl⟩
  | _ => rw [view] at h <;> first | (rcases h with ⟨_, _, _, _, h⟩ | ⟨_, _, _, h⟩ <;> cases h) | simp

theorem innermost_eq (key : Js → Nat) (cfg : VCfg) : ∀ (x : Js) (cs : Span) (path : List Text) (r : Bool), Exprs x → ¬ Stmt x →
    innermostInfo cfg (lower key x) cs path r = innermostInfo cfg (view x) cs path r
  | .member s o n, cs, path, r, he, _ => by
    rw [lower, view, innermostInfo, innermostInfo]
    exact innermost_eq key cfg o _ _ _ (he.kid (by simp [Js.kids])) (he s o n (.refl _))
  | .call s (.member s' o n) as, cs, path, r, he, _ => by
    rw [lower, view, lower, view, innermostInfo, innermostInfo]
    have h1 : Exprs (.member s' o n) := he.kid (by simp [Js.kids])
    exact innermost_eq key cfg o _ _ _ (h1.kid (by simp [Js.kids])) (h1 s' o n (.refl _))
  | .call s (.ident _ _) as, cs, path, r, he, _ | .call s (.str _ _) as, cs, path, r, he, _
  | .call s (.index _ _ _) as, cs, path, r, he, _ | .call s (.await _ _) as, cs, path, r, he, _
  | .call s (.call _ _ _) as, cs, path, r, he, _ | .call s (.fn _ _ _) as, cs, path, r, he, _
  | .call s (.fnDecl _ _ _ _) as, cs, path, r, he, _ | .call s (.other _ _) as, cs, path, r, he, _
  | .call s (.expr _ _) as, cs, path, r, he, _ | .call s (.control _ _) as, cs, path, r, he, _
  | .call s (.decl _ _) as, cs, path, r, he, _ | .call s (.stmt _ _) as, cs, path, r, he, _ => by
    rw [lower, view, innermost_call (lower_other (by intros; simp)), innermost_call (view_other (by intros; simp))]
  | .ident _ _, cs, path, r, he, hs | .str _ _, cs, path, r, he, hs
  | .index _ _ _, cs, path, r, he, hs | .await _ _, cs, path, r, he, hs
  | .fn _ _ _, cs, path, r, he, hs
  | .fnDecl _ _ _ _, cs, path, r, he, hs | .other _ _, cs, path, r, he, hs
  | .expr _ _, cs, path, r, he, hs | .control _ _, cs, path, r, he, hs
  | .decl _ _, cs, path, r, he, hs | .stmt _ _, cs, path, r, he, hs => by
    rw [innermost_base (lower_other (by intros; simp)) (fun h => by obtain ⟨_, _, _, h⟩ := lower_isCall h; cases h),
      innermost_base (view_other (by intros; simp)) (fun h => by obtain ⟨_, _, _, h⟩ := view_isCall h; cases h), info_eq key _ hs]

theorem callArgs_base {cfg : VCfg} {n : Node} (h : ∀ j m b, n ≠ .field j (some m) b) (i cn) :
    callArgs cfg i cn n = ⟨i.span, (match cn with | none => false | some n => cfg.config.isIgnoredFunction n), false, false⟩ := by
  rw [callArgs.eq_def]
  split
  · exact absurd rfl (h _ _ _)
  · rfl

theorem callArgs_eq (key : Js → Nat) (cfg : VCfg) (i cn) (x : Js) (he : Exprs x) :
    callArgs cfg i cn (lower key x) = callArgs cfg i cn (view x) := by
  cases x with
  | member s o n =>
    have h1 : Exprs o := he.kid (by simp [Js.kids])
    have h2 := he s o n (.refl _)
    obtain ⟨h3, h4⟩ := peelFields_eq key o [n] h1 h2
    rw [lower, view, callArgs, callArgs, innermost_eq key cfg o _ _ _ h1 h2, callInfo, callInfo, h3, h4]
  | _ => rw [callArgs_base (lower_other (by intros; simp)), callArgs_base (view_other (by intros; simp))]

theorem walkTarget_eq (key : Js → Nat) (cfg : VCfg) (ret) (x : Js) : walkTarget cfg ret (lower key x) = walkTarget cfg ret (view x) := by
  rw [walkTarget, walkTarget, name_eq]

theorem visitCall_eq (key : Js → Nat) (cfg : VCfg) (i cn) (x : Js) (st) (he : Exprs x) :
    visitCall cfg i cn (lower key x) st = visitCall cfg i cn (view x) st := by
  rw [visitCall, visitCall, walkTarget_eq, callArgs_eq key cfg i cn x he]

/-! ## Statements that are calls -/

theorem Spine.trans {a b c} (h1 : Spine a b) (h2 : Spine b c) : Spine a c := by
  induction h1 with
  | refl => exact h2
  | await _ ih => exact .await (ih h2)
  | member _ ih => exact .member (ih h2)
  | index _ ih => exact .index (ih h2)

theorem Spine.within {a b} (h : Spine a b) : Within a b := by
  induction h with
  | refl => exact .refl _
  | await _ ih => exact .step (by simp [Js.kids]) ih
  | member _ ih => exact .step (by simp [Js.kids]) ih
  | index _ ih => exact .step (by simp [Js.kids]) ih

/-- The call that `e` makes is not followed by an index in which something happens. -/
def Flat (e : Js) : Prop := ∀ c s obj prop, Makes e c → Spine e (.index s obj prop) → Idle prop

theorem Flat.spine {e e' : Js} (h : Flat e) (hs : Spine e e') : Flat e' :=
  fun c s o p hm hi => h c s o p ⟨hs.trans hm.1, hm.2⟩ (hs.trans hi)

theorem view_makes : ∀ e : Js, stripsToCall (view e) = true ↔ ∃ c, Makes e c := by
  intro e
  induction e using Js.rec (motive_2 := fun _ => True) with
  | nil | cons => trivial
  | call s f as _ _ => rw [view, stripsToCall]; exact ⟨fun _ => ⟨_, .refl _, f, s, as, rfl⟩, fun _ => rfl⟩
  | await s e ih =>
    rw [view, stripsToCall, ih]
    constructor
    · rintro ⟨c, h1, h2⟩; exact ⟨c, .await h1, h2⟩
    · rintro ⟨c, h1, h2⟩
      cases h1 with
      | refl => obtain ⟨_, _, _, h⟩ := h2; cases h
      | await h1 => exact ⟨c, h1, h2⟩
  | member s e n ih =>
    rw [view, stripsToCall, ih]
    constructor
    · rintro ⟨c, h1, h2⟩; exact ⟨c, .member h1, h2⟩
    · rintro ⟨c, h1, h2⟩
      cases h1 with
      | refl => obtain ⟨_, _, _, h⟩ := h2; cases h
      | member h1 => exact ⟨c, h1, h2⟩
  | index s e n ih _ =>
    rw [view, stripsToCall, ih]
    constructor
    · rintro ⟨c, h1, h2⟩; exact ⟨c, .index h1, h2⟩
    · rintro ⟨c, h1, h2⟩
      cases h1 with
      | refl => obtain ⟨_, _, _, h⟩ := h2; cases h
      | index h1 => exact ⟨c, h1, h2⟩
  | _ =>
    constructor
    · intro h
      have : false = true := h
      cases this
    · rintro ⟨c, h1, h2⟩
      cases h1
      obtain ⟨_, _, _, h⟩ := h2
      cases h

theorem strips_eq (key : Js → Nat) : ∀ e : Js, Flat e → stripsToCall (lower key e) = stripsToCall (view e) := by
  intro e
  induction e using Js.rec (motive_2 := fun _ => True) with
  | nil | cons => trivial
  | call s f as _ _ => intro _; rw [lower, view, stripsToCall, stripsToCall]
  | await s e ih => intro h; rw [lower, view, stripsToCall, stripsToCall]; exact ih (h.spine (.await (.refl _)))
  | member s e n ih => intro h; rw [lower, view, stripsToCall, stripsToCall]; exact ih (h.spine (.member (.refl _)))
  | index s e p ih _ =>
    intro h
    rw [lower]
    split
    · rename_i hw
      rw [view, stripsToCall]
      have : stripsToCall (view e) = false := by
        cases hv : stripsToCall (view e) with
        | false => rfl
        | true =>
          obtain ⟨c, h1, h2⟩ := (view_makes e).mp hv
          rw [idle_hasWork p (h c s e p ⟨.index h1, h2⟩ (.refl _))] at hw
          cases hw
      rw [this]; rfl
      all_goals simp
    · rw [view, stripsToCall, stripsToCall]; exact ih (h.spine (.index (.refl _)))
  | expr s e _ => intro _; rw [lower]; split <;> rfl
  | _ => intro _; rw [lower]; rfl

/-! ## The visit -/

/-- What is needed of the configuration. -/
structure CfgOk (cfg : VCfg) : Prop where
  receiver : cfg.receiver = true
  fields : cfg.fields = true
  ignored : cfg.config.isIgnoredFunction "it".toList = false
  walkable : ∀ f fs, cfg.walkable.lookup "it".toList ≠ some (f :: fs)

/-- The visit of `x` begins with no call statement waiting, or `x` makes the call that is waited for. -/
def Ready (x : Js) (st : VState) : Prop :=
  st.callStatement = none ∨ (Flat x ∧ (∃ c, Makes x c) ∧ ∀ c, Spine x c → itOf c = none)

theorem Ready.none {x : Js} {st} (h : Ready x st) (hx : ∀ c f, Spine x c → ¬ Call c f) : st.callStatement = none := by
  rcases h with h | ⟨_, ⟨c, h1, f, h2⟩, _⟩
  · exact h
  · exact absurd h2 (hx c f h1)

theorem visitCall_it {cfg : VCfg} (h : CfgOk cfg) {s s1 : Span} {st : VState} (hc : st.callStatement = none) :
    visitCall cfg ⟨s, none⟩ (some "it".toList) (.other ⟨s1, some "it".toList⟩ []) st = some (true, st) := by
  have h1 : walkTarget cfg st.returned (.other ⟨s1, some "it".toList⟩ []) = none := by
    rw [walkTarget]
    simp only [Node.info]
    cases hl : cfg.walkable.lookup "it".toList with
    | none => rfl
    | some fs => cases fs with
      | nil => rfl
      | cons f fs => exact absurd hl (h.walkable f fs)
  have h2 : { st with callStatement := none } = st := by rw [← hc]
  rw [visitCall, h1]
  simp only []
  rw [visitMaybeMacroCall, hc, h2]
  simp only [callArgs, h.ignored, Option.bind_some, Bool.not_false, Bool.and_false, Bool.and_true, Bool.true_or,
    Bool.false_eq_true, if_false]
  split <;> rfl

variable {key : Js → Nat} {cfg : VCfg} {file : Js}

mutual
theorem visit_eq (hr : Regular key file) (hp : CfgOk cfg) : ∀ (x : Js) (st : VState), Within file x → Ready x st →
    visit key cfg x st = walk cfg (lower key x) st
  | .ident s n, st, _, _ => by rw [visit, lower, walk, walkList]
  | .str s n, st, _, _ => by rw [visit, lower, walk, walkList]
  | .member s o n, st, hw, hs => by
    rw [visit, lower, walk, if_pos hp.fields]
    refine visit_eq hr hp o st (hw.trans (.kid (by simp [Js.kids]))) ?_
    rcases hs with hs | ⟨h1, ⟨c, h2, h3⟩, h4⟩
    · exact Or.inl hs
    · refine Or.inr ⟨h1.spine (.member (.refl _)), ⟨c, ?_, h3⟩, fun c hc => h4 c (.member hc)⟩
      cases h2 with
      | refl => obtain ⟨_, _, _, h⟩ := h3; cases h
      | member h => exact h
  | .await s o, st, hw, hs => by
    rw [visit, lower, walk, if_pos hp.fields]
    refine visit_eq hr hp o st (hw.trans (.kid (by simp [Js.kids]))) ?_
    rcases hs with hs | ⟨h1, ⟨c, h2, h3⟩, h4⟩
    · exact Or.inl hs
    · refine Or.inr ⟨h1.spine (.await (.refl _)), ⟨c, ?_, h3⟩, fun c hc => h4 c (.await hc)⟩
      cases h2 with
      | refl => obtain ⟨_, _, _, h⟩ := h3; cases h
      | await h => exact h
  | .index s o p, st, hw, hs => by
    have ho : Ready o st := by
      rcases hs with hs | ⟨h1, ⟨c, h2, h3⟩, h4⟩
      · exact Or.inl hs
      · refine Or.inr ⟨h1.spine (.index (.refl _)), ⟨c, ?_, h3⟩, fun c hc => h4 c (.index hc)⟩
        cases h2 with
        | refl => obtain ⟨_, _, _, h⟩ := h3; cases h
        | index h => exact h
    have e1 := visit_eq hr hp o st (hw.trans (.kid (by simp [Js.kids]))) ho
    rw [visit, lower, e1]
    by_cases hwk : hasWork p = true
    · rw [if_pos hwk, walk, walkList]
      have hc : st.callStatement = none := by
        rcases hs with hs | ⟨h1, ⟨c, h2⟩, _⟩
        · exact hs
        · rw [idle_hasWork p (h1 c s o p h2 (.refl _))] at hwk
          cases hwk
      cases hst : walk cfg (lower key o) st with
      | none => rfl
      | some st1 =>
        have hc1 := walk_calm cfg _ _ _ hst hc
        simp only [Option.bind_some]
        rw [walkList, visit_eq hr hp p st1 (hw.trans (.kid (by simp [Js.kids]))) (Or.inl hc1)]
        cases walk cfg (lower key p) st1 with
        | none => rfl
        | some st2 => simp only [Option.bind_some, walkList]
    · rw [if_neg hwk, walk, if_pos hp.fields]
      cases walk cfg (lower key o) st with
      | none => rfl
      | some st1 => simp only [Option.bind_some]; exact visit_idle key cfg p st1 (by simpa using hwk)
  | .call s f as, st, hw, hs => by
    have hf : Within file f := hw.trans (.kid (by simp [Js.kids]))
    have has : ∀ x ∈ as, Within file x := fun x hx => hw.trans (.kid (by simp [Js.kids, hx]))
    have he : Exprs f := fun s o n h => hr.exprs s o n (hf.trans h)
    have key' : ∀ st : VState, st.callStatement = none →
        ((visit key cfg f st).bind fun st => visitAll key cfg as st) =
        (walk cfg (lower key f) st).bind fun st => walkList cfg (lowerAll key as) st := by
      intro st hc
      rw [visit_eq hr hp f st hf (Or.inl hc)]
      cases hst : walk cfg (lower key f) st with
      | none => rfl
      | some st1 =>
        simp only [Option.bind_some]
        exact visitAll_eq hr hp as st1 has (walk_calm cfg _ _ _ hst hc)
    rw [visit, lower, walk, visitCall_eq key cfg _ _ f st he]
    by_cases hit : (itOf (.call s f as)).isSome = true
    · rw [if_pos hit]
      have hc : st.callStatement = none := by
        rcases hs with hs | ⟨_, _, h4⟩
        · exact hs
        · rw [h4 _ (.refl _)] at hit; cases hit
      obtain ⟨⟨m, b⟩, hi⟩ := Option.isSome_iff_exists.mp hit
      obtain ⟨ps, s', s1, s2, s3, hi⟩ := itOf_iff.mp hi
      cases hi
      rw [key' st hc]
      have : visitCall cfg ⟨s, none⟩ (callName (.ident s1 "it".toList)) (view (.ident s1 "it".toList)) st = some (true, st) := by
        rw [view]; exact visitCall_it hp hc
      rw [this]
      rfl
    · rw [if_neg hit]
      cases hv : visitCall cfg ⟨s, none⟩ (callName f) (view f) st with
      | none => rfl
      | some r =>
        obtain ⟨go, st1⟩ := r
        have hc := visitCall_calm hv
        simp only [Option.bind_some]
        cases go with
        | true => simp only [if_true]; exact key' st1 hc
        | false => simp only [Bool.false_eq_true, if_false, hp.receiver, if_true]; exact visit_eq hr hp f st1 hf (Or.inl hc)
  | .fn s ps b, st, hw, hs => by
    have hc := hs.none (by intro c f h h'; cases h; obtain ⟨_, _, h⟩ := h'; cases h)
    rw [visit, lower, walk, walkList_append, visitAll_eq hr hp ps st (fun x hx => hw.trans (.kid (by simp [Js.kids, hx]))) hc]
    cases hst : walkList cfg (lowerAll key ps) st with
    | none => rfl
    | some st1 =>
      simp only [Option.bind_some]
      exact visitAll_eq hr hp b st1 (fun x hx => hw.trans (.kid (by simp [Js.kids, hx]))) (walkList_calm cfg _ _ _ hst hc)
  | .fnDecl s n ps b, st, hw, hs => by
    have hc := hs.none (by intro c f h h'; cases h; obtain ⟨_, _, h⟩ := h'; cases h)
    rw [visit, lower, walk, walkList_append, visitAll_eq hr hp ps st (fun x hx => hw.trans (.kid (by simp [Js.kids, hx]))) hc]
    cases hst : walkList cfg (lowerAll key ps) st with
    | none => rfl
    | some st1 =>
      simp only [Option.bind_some]
      exact visitAll_eq hr hp b st1 (fun x hx => hw.trans (.kid (by simp [Js.kids, hx]))) (walkList_calm cfg _ _ _ hst hc)
  | .other s ps, st, hw, hs => by
    have hc := hs.none (by intro c f h h'; cases h; obtain ⟨_, _, h⟩ := h'; cases h)
    rw [visit, lower, walk]
    exact visitAll_eq hr hp ps st (fun x hx => hw.trans (.kid hx)) hc
  | .expr s e, st, hw, hs => by
    have hc := hs.none (by intro c f h h'; cases h; obtain ⟨_, _, h⟩ := h'; cases h)
    have hwe : Within file e := hw.trans (.kid (by simp [Js.kids]))
    rw [visit, lower]
    cases hi : itOf e with
    | some r =>
      obtain ⟨m, b⟩ := r
      simp only []
      rw [walk]
      cases hv : visitTest cfg m (lastKey key b) st with
      | none => rfl
      | some r =>
        obtain ⟨go, st1⟩ := r
        simp only [Option.bind_some]
        cases go with
        | false => rfl
        | true =>
          simp only [if_true]
          rw [visit_eq hr hp e st1 hwe (Or.inl ((visitTest_calm hv).trans hc)), walkList]
          cases walk cfg (lower key e) st1 with
          | none => rfl
          | some st2 => simp only [Option.bind_some, walkList]
    | none =>
      have hfl : Flat e := fun c s' o p hm hi => by
        obtain ⟨_, f, hf⟩ := id hm
        exact hr.index s e c f s' o p hw hm hf hi
      simp only []
      rw [walk, strips_eq key e hfl]
      cases hv : visitStatement (info key (.expr s e) false false) (stripsToCall (view e)) st with
      | none => rfl
      | some st1 =>
        simp only [Option.bind_some]
        rw [visit_eq hr hp e st1 hwe ?_]
        cases hcl : stripsToCall (view e) with
        | false =>
          rw [hcl] at hv
          cases hv
          exact Or.inl hc
        | true =>
          refine Or.inr ⟨hfl, (view_makes e).mp hcl, fun c h => itOf_none fun t ps b h' => ?_⟩
          rw [← hr.it s e c t ps b hw h h'] at h'
          rw [itOf_iff.mpr ⟨ps, h'⟩] at hi
          cases hi
  | .control s ps, st, hw, hs => by
    have hc := hs.none (by intro c f h h'; cases h; obtain ⟨_, _, h⟩ := h'; cases h)
    rw [visit, lower, walk]
    have : visitStatement (info key (.control s ps) true false) false st = some { st with nBefore := st.leaves :: st.nBefore } := rfl
    rw [this]
    simp only [Option.bind_some]
    rw [visitAll_eq hr hp ps _ (fun x hx => hw.trans (.kid hx)) (by exact hc)]
  | .decl s ps, st, hw, hs => by
    have hc := hs.none (by intro c f h h'; cases h; obtain ⟨_, _, h⟩ := h'; cases h)
    rw [visit, lower, walk]
    have : visitStatement (info key (.decl s ps) false true) false st = some { st with nBefore := st.leaves :: st.nBefore } := rfl
    rw [this]
    simp only [Option.bind_some]
    rw [visitAll_eq hr hp ps _ (fun x hx => hw.trans (.kid hx)) (by exact hc)]
  | .stmt s ps, st, hw, hs => by
    have hc := hs.none (by intro c f h h'; cases h; obtain ⟨_, _, h⟩ := h'; cases h)
    rw [visit, lower, walk]
    have : visitStatement (info key (.stmt s ps) false false) false st = some { st with nBefore := st.leaves :: st.nBefore } := rfl
    rw [this]
    simp only [Option.bind_some]
    rw [visitAll_eq hr hp ps _ (fun x hx => hw.trans (.kid hx)) (by exact hc)]
theorem visitAll_eq (hr : Regular key file) (hp : CfgOk cfg) : ∀ (xs : List Js) (st : VState), (∀ x ∈ xs, Within file x) →
    st.callStatement = none → visitAll key cfg xs st = walkList cfg (lowerAll key xs) st
  | [], st, _, _ => by rw [visitAll, lowerAll, walkList]
  | x :: xs, st, hw, hc => by
    rw [visitAll, lowerAll, walkList, visit_eq hr hp x st (hw x List.mem_cons_self) (Or.inl hc)]
    cases hst : walk cfg (lower key x) st with
    | none => rfl
    | some st1 =>
      simp only [Option.bind_some]
      exact visitAll_eq hr hp xs st1 (fun y hy => hw y (List.mem_cons_of_mem _ hy)) (walk_calm cfg _ _ _ hst hc)
end

end Necessist.Js
