import Verif.Lemmas.TypeScript
import Verif.Spec.Foundry
/-! # Foundry: the visit is a visit of the generic visitor -/
namespace Necessist.Foundry
open Visit

theorem lowerExprs_eq (c : Ctx) (es : List Expr) : lowerExprs c es = es.map (lowerExpr c .plain) := by
  induction es with
  | nil => rw [lowerExprs]; rfl
  | cons e es ih => rw [lowerExprs, ih]; rfl

/-- Without the `{…}`. -/
def peel : Expr → Expr
  | .options _ f _ => peel f
  | e => e

theorem peel_ne (e : Expr) : ∀ l f ps, peel e ≠ .options l f ps := by
  intro l f ps
  induction e using Expr.rec (motive_2 := fun _ => True) with
  | options l' f' ps' ih _ => rw [peel]; exact ih
  | nil | cons => trivial
  | _ => rw [peel] <;> simp

theorem peel_eq {e : Expr} (h : ∀ l f ps, e ≠ .options l f ps) : peel e = e := by
  cases e with
  | options l f ps => exact absurd rfl (h l f ps)
  | _ => rw [peel] <;> simp

theorem peels_peel (e : Expr) : Peels e (peel e) := by
  induction e using Expr.rec (motive_2 := fun _ => True) with
  | options l' f' ps' ih _ => rw [peel]; exact .options ih
  | nil | cons => trivial
  | _ => rw [peel] <;> first | exact .refl _ | simp

theorem Peels.peel {f g : Expr} (h : Peels f g) (hg : ∀ l f ps, g ≠ .options l f ps) : Foundry.peel f = g := by
  induction h with
  | refl => exact peel_eq hg
  | options _ ih => rw [Foundry.peel]; exact ih hg

theorem view_true (c : Ctx) (e : Expr) : view c true e = view c false (peel e) := by
  induction e using Expr.rec (motive_2 := fun _ => True) with
  | options l' f' ps' ih _ => rw [peel, view]; exact ih
  | nil | cons => trivial
  | _ => rw [peel] <;> simp [view]

theorem lower_peeled (c : Ctx) (e : Expr) : lowerExpr c .peeled e = lowerExpr c .peeled (peel e) := by
  induction e using Expr.rec (motive_2 := fun _ => True) with
  | options l' f' ps' ih _ => rw [peel, lowerExpr]; exact ih; simp
  | nil | cons => trivial
  | _ => rw [peel]; simp

/-- The callee of a call. -/
theorem lower_callee (c : Ctx) (e : Expr) :
    ((∀ l f ps, e ≠ .options l f ps) ∧ lowerExpr c .callee e = lowerExpr c .plain e) ∨
    ((∃ l f ps, e = .options l f ps) ∧ lowerExpr c .callee e = lowerExpr c .peeled (peel e)) := by
  cases e with
  | options l f ps =>
    refine Or.inr ⟨⟨_, _, _, rfl⟩, ?_⟩
    rw [lowerExpr, lower_peeled, peel]
    simp
  | _ => exact Or.inl ⟨nofun, by simp only [lowerExpr]⟩

theorem lower_member (c : Ctx) (pos : Position) (l b n) :
    lowerExpr c pos (.member l b n) = .field ⟨toSpan c l, none⟩ (some n) (lowerExpr c .plain b) := by
  rw [lowerExpr]

/-- Only member accesses are fields. -/
theorem lower_field {c : Ctx} {pos : Position} {e : Expr} {i n b} (h : lowerExpr c pos e = .field i n b) :
    ∃ l o m, (if pos = .plain then e else peel e) = .member l o m ∧ n = some m ∧ b = lowerExpr c .plain o := by
  have hpeel : ∀ e' : Expr, (∀ l f ps, e' ≠ .options l f ps) → ∀ pos, lowerExpr c pos e' = .field i n b →
      ∃ l o m, e' = .member l o m ∧ n = some m ∧ b = lowerExpr c .plain o := by
    intro e' he pos h
    cases e' with
    | member l o m => rw [lower_member] at h; cases h; exact ⟨l, o, m, rfl, rfl, rfl⟩
    | options l f ps => exact absurd rfl (he l f ps)
    | call l f as => cases pos <;> simp only [lowerExpr] at h <;> cases h
    | _ => simp only [lowerExpr] at h; cases h
  cases pos with
  | plain =>
    rw [if_pos rfl]
    cases e with
    | options l f ps => simp only [lowerExpr] at h; cases h
    | _ => exact hpeel _ nofun _ h
  | callee =>
    rw [if_neg (by simp)]
    rcases lower_callee c e with ⟨h1, h2⟩ | ⟨_, h2⟩
    · rw [peel_eq h1]; exact hpeel e h1 _ h
    · rw [h2] at h; exact hpeel _ (peel_ne e) _ h
  | peeled =>
    rw [if_neg (by simp)]
    rw [lower_peeled] at h; exact hpeel _ (peel_ne e) _ h

/-- … and only variables have a name. -/
theorem lower_name {c : Ctx} {pos : Position} {e : Expr} {n} :
    (lowerExpr c pos e).info.name = some n ↔ ∃ l, (if pos = .plain then e else peel e) = .var l n := by
  have hpeel : ∀ e' : Expr, (∀ l f ps, e' ≠ .options l f ps) → ∀ pos, (lowerExpr c pos e').info.name = some n ↔
      ∃ l, e' = .var l n := by
    intro e' he pos
    cases e' with
    | options l f ps => exact absurd rfl (he l f ps)
    | call l f as => cases pos <;> simp [lowerExpr, Node.info]
    | _ => simp [lowerExpr, Node.info]
  cases pos with
  | plain =>
    rw [if_pos rfl]
    cases e with
    | options l f ps => simp [lowerExpr, Node.info]
    | _ => exact hpeel _ (by intros; simp) _
  | callee =>
    rw [if_neg (by simp)]
    rcases lower_callee c e with ⟨h1, h2⟩ | ⟨_, h2⟩
    · rw [peel_eq h1]; exact hpeel e h1 _
    · rw [h2]; exact hpeel _ (peel_ne e) _
  | peeled =>
    rw [if_neg (by simp)]
    rw [lower_peeled]; exact hpeel _ (peel_ne e) _

theorem lower_plain_info (c : Ctx) (e : Expr) : (lowerExpr c .plain e).info = (view c false e).info := by
  cases e <;> simp [lowerExpr, view, Node.info, Expr.loc]

theorem lower_span (c : Ctx) (e : Expr) : (lowerExpr c .plain e).info.span = toSpan c e.loc := by
  cases e <;> simp [lowerExpr, Node.info, Expr.loc]

/-! ## The queries -/

theorem peelFields_eq (c : Ctx) (e : Expr) : ∀ path,
    (peelFields (lowerExpr c .plain e) path).2 = (peelFields (view c false e) path).2 ∧
    (peelFields (lowerExpr c .plain e) path).1.info = (peelFields (view c false e) path).1.info := by
  induction e using Expr.rec (motive_2 := fun _ => True) with
  | member l b n ih =>
    intro path
    rw [lower_member, view, peelFields, peelFields]
    exact ih _
  | nil | cons => trivial
  | _ => intro path; simp [lowerExpr, view, peelFields, Node.info, Expr.loc]

theorem stripsToCall_eq (c : Ctx) (e : Expr) : stripsToCall (lowerExpr c .plain e) = stripsToCall (view c false e) := by
  induction e using Expr.rec (motive_2 := fun _ => True) with
  | member l b n ih => rw [lower_member, view, stripsToCall, stripsToCall]; exact ih
  | nil | cons => trivial
  | _ => simp [lowerExpr, view, stripsToCall]

theorem peel_size (e : Expr) : sizeOf (peel e) ≤ sizeOf e := by
  induction e using Expr.rec (motive_2 := fun _ => True) with
  | options l' f' ps' ih _ => rw [peel]; simp only [Expr.options.sizeOf_spec]; omega
  | nil | cons => trivial
  | _ => rw [peel_eq (by intros; simp)]; exact Nat.le_refl _

theorem innermostInfo_other {cfg : VCfg} {i cn n m a b span path r} (h1 : ∀ i m b, n ≠ Node.field i m b) (h2 : ∀ i k b, m ≠ Node.field i k b) :
    innermostInfo cfg (.call i cn n a) span path r = innermostInfo cfg (.call i cn m b) span path r := by
  rw [innermostInfo.eq_def, innermostInfo.eq_def]
  cases n with
  | field => exact absurd rfl (h1 _ _ _)
  | _ => cases m with
    | field => exact absurd rfl (h2 _ _ _)
    | _ => rfl

theorem innermostInfo_eq (cfg : VCfg) (c : Ctx) : (e : Expr) → ∀ span path r,
    innermostInfo cfg (lowerExpr c .plain e) span path r = innermostInfo cfg (view c false e) span path r := by
  intro e span path r
  cases e with
  | member l b n =>
    rw [lower_member, view, innermostInfo, innermostInfo]
    exact innermostInfo_eq cfg c b _ _ _
  | call l f args =>
    have hl : lowerExpr c .plain (.call l f args) =
      .call ⟨toSpan c l, none⟩ (callName f) (lowerExpr c .callee f) (lowerExprs c args) := by simp [lowerExpr]
    rw [hl, view]
    cases hp : peel f with
    | member l' b n =>
      have h1 : lowerExpr c .callee f = .field ⟨toSpan c l', none⟩ (some n) (lowerExpr c .plain b) := by
        rcases lower_callee c f with ⟨h1, h2⟩ | ⟨_, h2⟩
        · rw [peel_eq h1] at hp; rw [hp, lower_member]
        · rw [h2, hp, lower_member]
      have hs : sizeOf (Expr.member l' b n) ≤ sizeOf f := hp ▸ peel_size f
      rw [h1, view_true, hp, view, innermostInfo, innermostInfo]
      exact innermostInfo_eq cfg c b _ _ _
    | _ =>
      have h1 : ∀ i m b, lowerExpr c .callee f ≠ .field i m b := by
        intro i m b h
        obtain ⟨_, _, _, h, _⟩ := lower_field h
        rw [if_neg (by simp), hp] at h
        cases h
      have h2 : ∀ i m b, view c true f ≠ .field i m b := by
        rw [view_true, hp]; simp [view]
      exact innermostInfo_other h1 h2
  | _ => simp [lowerExpr, view, innermostInfo, Node.info, Expr.loc]
termination_by e => sizeOf e
decreasing_by
  · simp only [Expr.member.sizeOf_spec]; omega
  · simp only [Expr.call.sizeOf_spec, Expr.member.sizeOf_spec] at hs ⊢; omega

theorem callArgs_other {cfg : VCfg} {i cn n m} (h1 : ∀ i m b, n ≠ Node.field i m b) (h2 : ∀ i k b, m ≠ Node.field i k b) :
    callArgs cfg i cn n = callArgs cfg i cn m := by
  rw [callArgs.eq_def, callArgs.eq_def]
  cases n with
  | field => exact absurd rfl (h1 _ _ _)
  | _ => cases m with
    | field => exact absurd rfl (h2 _ _ _)
    | _ => rfl

theorem callArgs_eq (cfg : VCfg) (c : Ctx) (i cn) (f : Expr) :
    callArgs cfg i cn (lowerExpr c .callee f) = callArgs cfg i cn (view c true f) := by
  cases hp : peel f with
  | member l' b n =>
    have h1 : lowerExpr c .callee f = .field ⟨toSpan c l', none⟩ (some n) (lowerExpr c .plain b) := by
      rcases lower_callee c f with ⟨h1, h2⟩ | ⟨_, h2⟩
      · rw [peel_eq h1] at hp; rw [hp, lower_member]
      · rw [h2, hp, lower_member]
    rw [h1, view_true, hp, view, callArgs, callArgs]
    obtain ⟨a1, a2⟩ := peelFields_eq c b [n]
    simp only [innermostInfo_eq, callInfo, a1, a2]
  | _ =>
    refine callArgs_other ?_ ?_
    · intro i m b h
      obtain ⟨_, _, _, h, _⟩ := lower_field h
      rw [if_neg (by simp), hp] at h
      cases h
    · rw [view_true, hp]; simp [view]

theorem view_name {c : Ctx} {e : Expr} {n} : (view c false e).info.name = some n ↔ ∃ l, e = .var l n := by
  cases e <;> simp [view, Node.info]

theorem calleeName_eq (c : Ctx) (f : Expr) : (lowerExpr c .callee f).info.name = (view c true f).info.name := by
  have : ∀ n, (lowerExpr c .callee f).info.name = some n ↔ (view c true f).info.name = some n := by
    intro n
    rw [lower_name, if_neg (by simp), view_true, view_name]
  cases h : (view c true f).info.name with
  | some n => exact (this n).mpr h
  | none =>
    cases h' : (lowerExpr c .callee f).info.name with
    | none => rfl
    | some n => rw [(this n).mp h'] at h; cases h

theorem visitCall_eq (cfg : VCfg) (c : Ctx) (i cn) (f : Expr) (st : VState) :
    visitCall cfg i cn (lowerExpr c .callee f) st = visitCall cfg i cn (view c true f) st := by
  unfold visitCall
  have : walkTarget cfg st.returned (lowerExpr c .callee f) = walkTarget cfg st.returned (view c true f) := by
    unfold walkTarget
    rw [calleeName_eq]
  rw [this, callArgs_eq]

/-! ## The visit -/

section
variable {c : Ctx} {cfg : VCfg} (hrc : cfg.receiver = true) (hf : cfg.fields = false)
include hrc hf

omit hrc in
theorem walk_peeled (e : Expr) (st : VState) : walk cfg (lowerExpr c .peeled e) st = some st := by
  rw [lower_peeled]
  have := peel_ne e
  cases hp : peel e with
  | options l f ps => exact absurd hp (this l f ps)
  | _ => simp [lowerExpr, walk, walkList, hf]

mutual
theorem visitExpr_eq : ∀ (e : Expr) (st : VState), visitExpr c cfg e st = walk cfg (lowerExpr c .plain e) st
  | .call l f args, st => by
    have hl : lowerExpr c .plain (.call l f args) =
      .call ⟨toSpan c l, none⟩ (callName f) (lowerExpr c .callee f) (lowerExprs c args) := by simp [lowerExpr]
    rw [hl, visitExpr, walk, visitCall_eq]
    congr 1
    funext ⟨go, st⟩
    have hcallee : visitExpr c cfg f st = walk cfg (lowerExpr c .callee f) st := by
      rcases lower_callee c f with ⟨h1, h2⟩ | ⟨⟨l', f', ps', h1⟩, h2⟩
      · rw [h2]; exact visitExpr_eq f st
      · rw [h2, walk_peeled hf, h1, visitExpr]
    simp only [hcallee, hrc, if_true]
    split
    · congr 1
      funext st
      exact visitExprs_eq args st
    · rfl
  | .var l n, st => by simp [lowerExpr, visitExpr, walk, walkList]
  | .member l n b, st => by simp [lowerExpr, visitExpr, walk, hf]
  | .options l n b, st => by simp [lowerExpr, visitExpr, walk, walkList]
  | .tuple l n, st => by simp [lowerExpr, visitExpr, walk, walkList]
  | .assign l n b, st => by simp [lowerExpr, visitExpr, walk, walkList]
  | .op l n, st => by simp [lowerExpr, visitExpr, walk, walkList]
theorem visitExprs_eq : ∀ (es : List Expr) (st : VState), visitExprs c cfg es st = walkList cfg (lowerExprs c es) st
  | [], st => by rw [visitExprs, lowerExprs, walkList]
  | e :: es, st => by
    rw [visitExprs, lowerExprs, walkList, visitExpr_eq e st]
    congr 1
    funext st
    exact visitExprs_eq es st
end

theorem walkList_one (n : Node) (st : VState) : walkList cfg [n] st = walk cfg n st := by
  rw [walkList]
  cases walk cfg n st with
  | none => rfl
  | some st => simp only [Option.bind_some, walkList]

omit hrc hf in
theorem visitFaux_eq (st : VState) : visitFaux c cfg st = walk cfg (fauxNode c) st := by
  unfold visitFaux fauxNode
  rw [walk]
  congr 1

mutual
theorem visitStmt_eq : ∀ (s : Stmt) (st : VState), visitStmt c cfg s st = walkList cfg (lowerStmt c s) st
  | .block l ss, st => by rw [visitStmt, lowerStmt]; exact visitBlock_eq none ss st
  | .expr l e, st => by
    rw [visitStmt, lowerStmt, walkList_one hrc hf, walk, stripsToCall_eq]
    congr 1
    funext st
    rw [visitExpr_eq hrc hf]
  | .control l es, st => by
    rw [visitStmt, lowerStmt, walkList_one hrc hf, walk]
    congr 1
    funext st
    rw [visitExprs_eq hrc hf]
  | .varDef l es, st => by
    rw [visitStmt, lowerStmt, walkList_one hrc hf, walk]
    congr 1
    funext st
    rw [visitExprs_eq hrc hf]
  | .compound l ps, st => by
    rw [visitStmt, lowerStmt, walkList_one hrc hf, walk]
    congr 1
    funext st
    rw [visitParts_eq ps st]
theorem visitPart_eq : ∀ (p : Part) (st : VState), visitPart c cfg p st = walkList cfg (lowerPart c p) st
  | .expr e, st => by rw [visitPart, lowerPart, walkList_one hrc hf, visitExpr_eq hrc hf]
  | .stmt s, st => by rw [visitPart, lowerPart]; exact visitStmt_eq s st
theorem visitParts_eq : ∀ (ps : List Part) (st : VState), visitParts c cfg ps st = walkList cfg (lowerParts c ps) st
  | [], st => by rw [visitParts, lowerParts, walkList]
  | p :: ps, st => by
    rw [visitParts, lowerParts, Js.walkList_append, visitPart_eq p st]
    congr 1
    funext st
    exact visitParts_eq ps st
theorem visitBlock_eq : ∀ (prev : Option Stmt) (ss : List Stmt) (st : VState),
    visitBlock c cfg prev ss st = walkList cfg (lowerBlock c prev ss) st
  | prev, [], st => by rw [visitBlock, lowerBlock, walkList]
  | prev, s :: ss, st => by
    rw [visitBlock, lowerBlock, Js.walkList_append]
    have : (if prev.any isPrefixCheatcode then visitFaux c cfg st else visitStmt c cfg s st) =
        walkList cfg (if prev.any isPrefixCheatcode then [fauxNode c] else lowerStmt c s) st := by
      split
      · rw [walkList_one hrc hf, visitFaux_eq]
      · exact visitStmt_eq s st
    rw [this]
    congr 1
    funext st
    exact visitBlock_eq (some s) ss st
end

theorem visitFn_eq (f : Fn) (st : VState) : visitFn c cfg f st = walkList cfg (lowerFn c f) st := by
  unfold visitFn lowerFn
  rw [Js.walkList_append, visitExprs_eq hrc hf]
  congr 1
  funext st
  cases f.body with
  | none => simp only []; rw [walkList]
  | some b => exact visitStmt_eq hrc hf b st

theorem visitItem_eq (i : Item) (st : VState) : visitItem c cfg i st = walkList cfg (lowerItem c i) st := by
  cases i with
  | expr e => rw [visitItem, lowerItem, walkList_one hrc hf, visitExpr_eq hrc hf]
  | fn f =>
    rw [visitItem, lowerItem]
    cases testOf f with
    | none => simp only []; rw [walkList]
    | some r =>
      obtain ⟨name, ss⟩ := r
      simp only []
      rw [walkList_one hrc hf, walk]
      simp only [visitFn_eq hrc hf]

theorem visitItems_eq (items : List Item) (st : VState) :
    visitItems c cfg items st = walkList cfg (items.flatMap (lowerItem c)) st := by
  induction items generalizing st with
  | nil => rw [visitItems, List.flatMap_nil, walkList]
  | cons i is ih =>
    rw [visitItems, List.flatMap_cons, Js.walkList_append, visitItem_eq hrc hf]
    congr 1
    funext st
    exact ih st

end

end Necessist.Foundry
