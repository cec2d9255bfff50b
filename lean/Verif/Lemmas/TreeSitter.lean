import Verif.Spec.TreeSitter
import Verif.Props.Cursor
import Verif.Props.Visitor
/-! # The cursor-driven visitors do what the generic visitor does on the lowered trees -/
namespace Necessist.TS
open Visit

theorem lowerAll_eq (L : Lang) (kind : Text) (cs : List Tree) : lowerAll L kind cs = cs.map (lower L (some kind)) := by
  induction cs with
  | nil => simp [lowerAll]
  | cons c cs ih => rw [lowerAll, ih]; rfl

theorem shapes_eq (cs : List Tree) : shapes cs = cs.map Tree.shape := by
  induction cs with
  | nil => simp [shapes]
  | cons c cs ih => rw [shapes, ih]; rfl

theorem lower_eq (L : Lang) (p : Option Text) (a : Attr) (cs : List Tree) :
    lower L p (.node a cs) = mkNode L p a cs (cs.map (lower L (some a.kind))) := by rw [lower, lowerAll_eq]

theorem Inert.child {L p a cs c} (h : Inert L p (.node a cs)) (hc : c ∈ cs) : Inert L (some a.kind) c :=
  fun q x hw => h q x (.step hc hw)

theorem Grammatical.child {L p a cs c} (h : Grammatical L p (.node a cs)) (hc : c ∈ cs) : Grammatical L (some a.kind) c :=
  fun q x hw => h q x (.step hc hw)

theorem walkList_id {cfg : VCfg} {ns : List Node} (h : ∀ n ∈ ns, ∀ st, walk cfg n st = some st) (st : VState) :
    walkList cfg ns st = some st := by
  induction ns generalizing st with
  | nil => simp [walkList]
  | cons n ns ih =>
    rw [walkList, h n (by simp)]
    exact ih (fun m hm => h m (by simp [hm])) st

/-- Nothing happens where there is no statement or call. -/
theorem walk_inert (L : Lang) (cfg : VCfg) (p : Option Text) (t : Tree) (h : Inert L p t) (st : VState) :
    walk cfg (lower L p t) st = some st := by
  match t with
  | .node a cs =>
    have hk : ∀ c ∈ cs, ∀ st, walk cfg (lower L (some a.kind) c) st = some st :=
      fun c hc st => walk_inert L cfg _ c (h.child hc) st
    have hl : ∀ n ∈ cs.map (lower L (some a.kind)), ∀ st, walk cfg n st = some st := by
      intro n hn
      obtain ⟨c, hc, rfl⟩ := List.mem_map.mp hn
      exact hk c hc
    obtain ⟨h1, h2⟩ := h p _ (.refl _ _)
    simp only [Tree.attr] at h1 h2
    rw [lower_eq, mkNode]
    simp only [h1, h2, Bool.false_eq_true, if_false]
    split
    · split
      · rename_i base hb
        rw [walk]
        split
        · exact hl _ (List.mem_of_getElem? hb) st
        · rfl
      · rw [walk]; exact walkList_id hl st
    · rw [walk]; exact walkList_id hl st
termination_by sizeOf t
decreasing_by
  simp only [Tree.node.sizeOf_spec]
  have := List.sizeOf_lt_of_mem hc
  omega

/-- If nothing happens but at the `k`-th node, then what happens is what happens there. -/
theorem walkList_only {cfg : VCfg} {ns : List Node} {k : Nat} {n : Node} (hk : ns[k]? = some n)
    (h : ∀ i m, ns[i]? = some m → i ≠ k → ∀ st, walk cfg m st = some st) (st : VState) :
    walkList cfg ns st = walk cfg n st := by
  induction ns generalizing k st with
  | nil => simp at hk
  | cons m ns ih =>
    rw [walkList]
    cases k with
    | zero =>
      simp at hk; subst hk
      cases hw : walk cfg m st with
      | none => rfl
      | some st' =>
        simp only [Option.bind_some]
        refine walkList_id (fun x hx st => ?_) st'
        obtain ⟨i, hi⟩ := List.getElem?_of_mem hx
        exact h (i + 1) x (by simpa using hi) (by omega) st
    | succ k =>
      rw [h 0 m (by simp) (by omega) st]
      simp only [Option.bind_some]
      exact ih (by simpa using hk) (fun i x hi hne => h (i + 1) x (by simpa using hi) (by omega)) st

theorem OnlyAt.walkList {L kind cs k} (h : OnlyAt L kind cs k) (cfg : VCfg) :
    ∃ n, (cs.map (lower L (some kind)))[k]? = some n ∧
      ∀ st, Visit.walkList cfg (cs.map (lower L (some kind))) st = walk cfg n st := by
  obtain ⟨hk, h⟩ := h
  refine ⟨lower L (some kind) cs[k], by simp [hk], fun st => ?_⟩
  refine walkList_only (k := k) (by simp [hk]) (fun i m hi hne st => ?_) st
  rw [List.getElem?_map, Option.map_eq_some_iff] at hi
  obtain ⟨c, hc, rfl⟩ := hi
  exact walk_inert L cfg _ c (h i c hc hne) st

theorem at_child {t : Tree} {p : Cursor.Pos} {q a cs} (h : t.at p = some (q, .node a cs)) {i : Nat} {c : Tree}
    (hc : cs[i]? = some c) : t.at (i :: p) = some (some a.kind, c) := by
  rw [Tree.at, h]
  simp [Tree.children, Tree.attr, hc]

theorem shape_node (a : Attr) (cs : List Tree) : Tree.shape (.node a cs) = .node (cs.map Tree.shape) := by
  rw [Tree.shape, shapes_eq]

theorem visitForest_of {L : Lang} {cfg : VCfg} {t : Tree} {p : Cursor.Pos} {q a cs}
    (hp : t.at p = some (q, .node a cs))
    (ih : ∀ i c, cs[i]? = some c → ∀ s, Cursor.visitTree (visitor L cfg t) c.shape (i :: p) s =
      s.bind (walk cfg (lower L (some a.kind) c))) (s : Option VState) :
    Cursor.visitForest (visitor L cfg t) (cs.map Tree.shape) 0 p s =
      s.bind (walkList cfg (cs.map (lower L (some a.kind)))) := by
  have key : ∀ (ds : List Tree) (i : Nat) s, (∀ j d, ds[j]? = some d → cs[i + j]? = some d) →
      Cursor.visitForest (visitor L cfg t) (ds.map Tree.shape) i p s =
        s.bind (walkList cfg (ds.map (lower L (some a.kind)))) := by
    intro ds
    induction ds with
    | nil => intro i s _; simp [Cursor.visitForest, walkList]
    | cons d ds ihd =>
      intro i s hd
      rw [List.map_cons, Cursor.visitForest, ih i d (by simpa using hd 0 d (by simp)), ihd]
      · rw [List.map_cons]
        cases s with
        | none => rfl
        | some st => rw [Option.bind_some, Option.bind_some, walkList]
      · intro j e he
        have := hd (j + 1) e (by simpa using he)
        rw [show i + 1 + j = i + (j + 1) by omega]
        exact this
  exact key cs 0 s (fun j d h => by simpa using h)

/-- Visiting the node at `p` is walking the lowered node. -/
theorem visitTree_eq (L : Lang) (cfg : VCfg) (hr : cfg.receiver = false) (hf : cfg.fields = true) (t : Tree) (p : Cursor.Pos)
    (q : Option Text) (x : Tree) (hp : t.at p = some (q, x)) (hg : Grammatical L q x) (s : Option VState) :
    Cursor.visitTree (visitor L cfg t) x.shape p s = s.bind (walk cfg (lower L q x)) := by
  match x with
  | .node a cs =>
    have ih : ∀ i c, cs[i]? = some c → ∀ s, Cursor.visitTree (visitor L cfg t) c.shape (i :: p) s =
        s.bind (walk cfg (lower L (some a.kind) c)) := fun i c hc s =>
      visitTree_eq L cfg hr hf t (i :: p) (some a.kind) c (at_child hp hc) (hg.child (List.mem_of_getElem? hc)) s
    have hfor := visitForest_of hp ih
    obtain ⟨o1, o2, o3, o4⟩ := hg q _ (.refl _ _)
    simp only [Tree.attr, Tree.children] at o1 o2 o3 o4
    rw [shape_node, Cursor.visitTree, lower_eq]
    have hs : (visitor L cfg t).see p s = s := rfl
    have hh : (visitor L cfg t).handles p = (L.isStmt q a || L.isCall a.kind) := by simp [visitor, hp]
    have he : ∀ s, (visitor L cfg t).enter p s = enter L cfg q a cs s := by intro s; simp [visitor, hp]
    have hl : ∀ s, (visitor L cfg t).leave p s = leave L cfg q a cs s := by intro s; simp [visitor, hp]
    rw [hs, hh]
    simp only [he, hl, enter, leave, mkNode, lowerAll_eq]
    by_cases h1 : L.isStmt q a = true
    · simp only [h1, Bool.true_or, if_true, hfor]
      unfold isCallStmt exprOf
      cases hx : L.expr a cs with
      | none =>
        simp only [Option.bind_none]
        cases s with
        | none => rfl
        | some st => rw [Option.bind_some, Option.bind_some, walk, Option.bind_assoc]
      | some k =>
        obtain ⟨n, hn, hw⟩ := (o2 h1 k hx).walkList cfg
        simp only [Option.bind_some, hn]
        cases s with
        | none => rfl
        | some st =>
          rw [Option.bind_some, Option.bind_some, walk, Option.bind_assoc]
          simp only [hw]
    · have h1 : L.isStmt q a = false := by simpa using h1
      simp only [h1, Bool.false_or, Bool.false_eq_true, if_false]
      by_cases h2 : L.isCall a.kind = true
      · obtain ⟨hi, hne⟩ := o3 h1 h2
        simp only [h2, if_true]
        obtain ⟨c, rest, rfl⟩ := List.exists_cons_of_ne_nil hne
        cases s with
        | none =>
          simp only [Option.bind_none]
          split <;> rfl
        | some st =>
          have hcal : ∃ callee, calleeOf L a (c :: rest) ((c :: rest).map (lower L (some a.kind))) = some callee ∧
              ∀ st, walk cfg callee st = walk cfg (lower L (some a.kind) c) st := by
            unfold calleeOf
            cases hcl : L.callee a (c :: rest) with
            | child k =>
              rw [hcl] at hi; simp only [Callee.idx] at hi; subst hi
              exact ⟨_, by simp, fun _ => rfl⟩
            | virtualField k name =>
              rw [hcl] at hi; simp only [Callee.idx] at hi; subst hi
              exact ⟨.field (exprInfo L a) name (lower L (some a.kind) c), by simp, fun st => by rw [walk, hf]; simp⟩
          obtain ⟨callee, hc, hw⟩ := hcal
          rw [hc, hi]
          simp only [Option.bind_some]
          rw [walk]
          cases hv : visitCall cfg (exprInfo L a) (L.callName a (c :: rest)) callee st with
          | none => simp
          | some r =>
            obtain ⟨go, st'⟩ := r
            simp only [Option.bind_some, hr, Bool.false_eq_true, if_false]
            cases go with
            | false => simp
            | true =>
              simp only [if_true]
              rw [hfor, Option.bind_some, List.map_cons, walkList]
              simp only [hw, List.eraseIdx_zero, List.tail_cons]
      · have h2 : L.isCall a.kind = false := by simpa using h2
        simp only [h2, Bool.false_eq_true, if_false, hfor]
        cases hx : L.field a cs with
        | none =>
          simp only
          cases s with
          | none => rfl
          | some st => rw [Option.bind_some, Option.bind_some, walk]
        | some r =>
          obtain ⟨k, name⟩ := r
          obtain ⟨j, rfl, ho⟩ := o4 h1 h2 k name hx
          obtain ⟨n, hn, hw⟩ := ho.walkList cfg
          simp only [hn]
          cases s with
          | none => rfl
          | some st => rw [Option.bind_some, Option.bind_some, walk, hf, if_pos rfl, hw]
termination_by sizeOf x
decreasing_by
  simp only [Tree.node.sizeOf_spec]
  have := List.sizeOf_lt_of_mem (List.mem_of_getElem? hc)
  omega

theorem shape_sub (t : Tree) (p : Cursor.Pos) : t.shape.sub p = (t.at p).map fun r => r.2.shape := by
  induction p with
  | nil => simp [Cursor.Tree.sub, Tree.at]
  | cons i p ih =>
    rw [Cursor.Tree.sub, Tree.at, ih]
    cases t.at p with
    | none => rfl
    | some r =>
      obtain ⟨q, ⟨a, cs⟩⟩ := r
      simp only [Option.map_some, Option.bind_some, shape_node, Cursor.Tree.children, Tree.children, List.getElem?_map]
      cases cs[i]? <;> rfl

theorem shape_arity (t : Tree) (p : Cursor.Pos) (q a cs) (h : t.at p = some (q, .node a cs)) : t.shape.arity p = cs.length := by
  rw [Cursor.Tree.arity, shape_sub, h]
  simp [shape_node, Cursor.Tree.children]

/-- Positions are within the tree. -/
theorem at_within {t : Tree} {p : Cursor.Pos} {q x} (h : t.at p = some (q, x)) : Within none t q x := by
  induction p generalizing q x with
  | nil => cases h; exact .refl _ _
  | cons i p ih =>
    rw [Tree.at, Option.bind_eq_some_iff] at h
    obtain ⟨⟨r, ⟨a, cs⟩⟩, h1, h2⟩ := h
    simp only [Tree.children, Tree.attr, Option.map_eq_some_iff, Prod.mk.injEq] at h2
    obtain ⟨c, hc, rfl, rfl⟩ := h2
    have hw := ih h1
    have : ∀ {p t q x}, Within p t q x → ∀ {a cs}, x = .node a cs → c ∈ cs → Within p t (some a.kind) c := by
      intro p t q x h
      induction h with
      | refl p t => rintro a cs rfl hc; exact .step hc (.refl _ _)
      | step hm _ ih => intro a cs hx hc; exact .step hm (ih hx hc)
    exact this hw rfl (List.mem_of_getElem? hc)

/-- The body of a test or function has children, which are as the grammar says. -/
def BodyOk (L : Lang) (body : Tree) : Prop :=
  body.children ≠ [] ∧ ∀ c ∈ body.children, Grammatical L (some body.attr.kind) c

theorem at_kid {t : Tree} {p : Cursor.Pos} {q x} (h : t.at p = some (q, x)) (hp : p ≠ []) :
    ∃ c ∈ t.children, Within (some t.attr.kind) c q x := by
  induction p generalizing q x with
  | nil => exact absurd rfl hp
  | cons i p ih =>
    rw [Tree.at, Option.bind_eq_some_iff] at h
    obtain ⟨⟨r, ⟨b, ds⟩⟩, h1, h2⟩ := h
    simp only [Tree.children, Tree.attr, Option.map_eq_some_iff, Prod.mk.injEq] at h2
    obtain ⟨c, hc, rfl, rfl⟩ := h2
    have hc := List.mem_of_getElem? hc
    cases p with
    | nil => cases h1; exact ⟨c, hc, .refl _ _⟩
    | cons j p =>
      obtain ⟨d, hd, hw⟩ := ih h1 (by simp)
      have : ∀ {p t q x}, Within p t q x → ∀ {a cs}, x = .node a cs → c ∈ cs → Within p t (some a.kind) c := by
        intro p t q x h
        induction h with
        | refl p t => rintro a cs rfl hc; exact .step hc (.refl _ _)
        | step hm _ ih => intro a cs hx hc; exact .step hm (ih hx hc)
      exact ⟨d, hd, this hw rfl hc⟩

/-- The same visitor, except that it does not handle the root (the cursor never asks). -/
theorem walkBody_eq (L : Lang) (cfg : VCfg) (hr : cfg.receiver = false) (hf : cfg.fields = true) (body : Tree)
    (hb : BodyOk L body) (st : VState) :
    ∃ N, ∀ n, N ≤ n → walkBody L cfg n body st =
      match walkList cfg (lowerAll L body.attr.kind body.children) st with
      | some st => .ok st
      | none => .panic := by
  obtain ⟨a, cs⟩ := body
  simp only [BodyOk, Tree.children, Tree.attr] at hb
  obtain ⟨hne, hg⟩ := hb
  have hw : ∀ q s, (visitor L cfg (.node a cs)).handles q = true → ((visitor L cfg (.node a cs)).enter q s).1 = true →
      0 < (Tree.shape (.node a cs)).arity q := by
    intro q s h1 h2
    cases hat : (Tree.node a cs).at q with
    | none => simp [visitor, hat] at h1
    | some r =>
      obtain ⟨parent, ⟨b, ds⟩⟩ := r
      rw [shape_arity _ _ _ _ _ hat]
      by_cases hq : q = []
      · subst hq; cases hat; exact List.length_pos_iff.2 hne
      · obtain ⟨c, hcm, hwi⟩ := at_kid hat hq
        obtain ⟨o1, _, o3, _⟩ := hg c hcm _ _ hwi
        simp only [Tree.attr, Tree.children] at o1 o3
        simp only [visitor, hat, Bool.or_eq_true] at h1
        by_cases h3 : L.isStmt parent b = true
        · exact List.length_pos_iff.2 (o1 h3)
        · have h3 : L.isStmt parent b = false := by simpa using h3
          rcases h1 with h1 | h1
          · rw [h3] at h1; cases h1
          · exact List.length_pos_iff.2 (o3 h3 h1).2
  obtain ⟨N, hN⟩ := Cursor.C52_walk (Tree.shape (.node a cs)) (visitor L cfg (.node a cs)) hw [] (cs.map Tree.shape)
    (by simp [Cursor.Tree.sub, shape_node]) (by simpa using hne) [] (by simp) (some st)
  refine ⟨N, fun n hn => ?_⟩
  rw [walkBody, Cursor.Cursor.new, hN n hn]
  rw [visitForest_of (q := none) (a := a) rfl (fun i c hi s => ?_)]
  · simp only [Option.bind_some, lowerAll_eq, Tree.attr, Tree.children]
    cases walkList cfg (cs.map (lower L (some a.kind))) st <;> rfl
  · exact visitTree_eq L cfg hr hf (.node a cs) [i] (some a.kind) c (by simp [Tree.at, hi, Tree.children, Tree.attr])
      (hg c (List.mem_of_getElem? hi)) s

/-- More steps change nothing. -/
theorem walk_mono {σ : Type} (t : Cursor.Tree) (v : Cursor.Visitor σ) (n : Nat) :
    (∀ c s r, Cursor.walkNodes t v n c s = r → r ≠ .more → Cursor.walkNodes t v (n + 1) c s = r) ∧
    (∀ c s r, Cursor.walkLoop t v n c s = r → r ≠ .more → Cursor.walkLoop t v (n + 1) c s = r) := by
  induction n with
  | zero =>
    refine ⟨fun c s r h hr => ?_, fun c s r h hr => ?_⟩
    · rw [Cursor.walkNodes] at h; exact absurd h.symm hr
    · rw [Cursor.walkLoop] at h; exact absurd h.symm hr
  | succ n ih =>
    obtain ⟨ih1, ih2⟩ := ih
    refine ⟨fun c s r h hr => ?_, fun c s r h hr => ?_⟩
    · rw [Cursor.walkNodes] at h
      rw [Cursor.walkNodes]
      cases hp : c.push with
      | none => simp only [hp] at h ⊢; exact h
      | some c1 =>
        simp only [hp] at h ⊢
        cases hq : c1.gotoNextNode t with
        | none => simp only [hq] at h ⊢; exact h
        | some bc =>
          obtain ⟨b, c2⟩ := bc
          simp only [hq] at h ⊢
          cases hl : Cursor.walkLoop t v n c2 s with
          | more => simp only [hl] at h; exact absurd h.symm hr
          | panic => rw [ih2 _ _ _ hl (by simp)]; simp only [hl] at h; exact h
          | ok c3 s3 => rw [ih2 _ _ _ hl (by simp)]; simp only [hl] at h; exact h
    · rw [Cursor.walkLoop] at h
      rw [Cursor.walkLoop]
      cases hp : c.current with
      | none => simp only [hp] at h ⊢; exact h
      | some node =>
        simp only [hp] at h ⊢
        by_cases hh : v.handles node = true
        · rw [if_pos hh] at h ⊢
          rcases he : v.enter node (v.see node s) with ⟨w, s1⟩
          simp only [he] at h ⊢
          by_cases hw : w = true
          · rw [if_pos hw] at h ⊢
            cases hl : Cursor.walkNodes t v n c s1 with
            | more => simp only [hl] at h; exact absurd h.symm hr
            | panic => rw [ih1 _ _ _ hl (by simp)]; simp only [hl] at h; exact h
            | ok c3 s3 =>
              rw [ih1 _ _ _ hl (by simp)]
              simp only [hl] at h ⊢
              by_cases hx : some node = c3.current
              · rw [if_pos hx] at h ⊢; exact h
              · rw [if_neg hx] at h ⊢; exact ih2 _ _ _ h hr
          · rw [if_neg hw] at h ⊢
            cases hx : c.skip t with
            | none => simp only [hx] at h ⊢; exact h
            | some bc =>
              obtain ⟨b, c3⟩ := bc
              simp only [hx] at h ⊢
              by_cases hy : some node = c3.current
              · rw [if_pos hy] at h ⊢; exact h
              · rw [if_neg hy] at h ⊢; exact ih2 _ _ _ h hr
        · rw [if_neg hh] at h ⊢
          cases hx : c.gotoNextNode t with
          | none => simp only [hx] at h ⊢; exact h
          | some bc =>
            obtain ⟨b, c3⟩ := bc
            simp only [hx] at h ⊢
            by_cases hy : some node = c3.current
            · rw [if_pos hy] at h ⊢; exact h
            · rw [if_neg hy] at h ⊢; exact ih2 _ _ _ h hr

theorem walkBody_mono {L cfg n body st r} (h : walkBody L cfg n body st = r) (hr : r ≠ .more) {m : Nat} (hm : n ≤ m) :
    walkBody L cfg m body st = r := by
  have key : ∀ k c s r, Cursor.walkNodes body.shape (visitor L cfg body) n c s = r → r ≠ .more →
      Cursor.walkNodes body.shape (visitor L cfg body) (n + k) c s = r := by
    intro k
    induction k with
    | zero => exact fun c s r h _ => h
    | succ k ih => exact fun c s r h hr => (walk_mono _ _ (n + k)).1 c s r (ih c s r h hr) hr
  obtain ⟨k, rfl⟩ := Nat.le.dest hm
  rw [walkBody] at h ⊢
  rw [key k _ _ _ rfl]
  · exact h
  · intro he; rw [he] at h; exact hr h.symm

theorem visitDecl_mono {L cfg last n d st r} (h : visitDecl L cfg last n d st = r) (hr : r ≠ .more) {m : Nat} (hm : n ≤ m) :
    visitDecl L cfg last m d st = r := by
  rw [visitDecl] at h ⊢
  cases hv : visitTest cfg d.name (last d.body) st with
  | none => simp only [hv] at h ⊢; exact h
  | some ws =>
    obtain ⟨w, st1⟩ := ws
    simp only [hv] at h ⊢
    cases w with
    | false => exact h
    | true =>
      simp only [if_true] at h ⊢
      cases hb : walkBody L cfg n d.body st1 with
      | more => simp only [hb] at h; exact absurd h.symm hr
      | panic => rw [walkBody_mono hb (by simp) hm]; simp only [hb] at h; exact h
      | ok st2 => rw [walkBody_mono hb (by simp) hm]; simp only [hb] at h; exact h

theorem visitDecls_mono {L cfg last n ds st r} (h : visitDecls L cfg last n ds st = r) (hr : r ≠ .more) {m : Nat} (hm : n ≤ m) :
    visitDecls L cfg last m ds st = r := by
  induction ds generalizing st with
  | nil => exact h
  | cons d ds ih =>
    rw [visitDecls] at h ⊢
    split at h
    · exact absurd h.symm hr
    · rename_i hb; rw [visitDecl_mono hb (by simp) hm]; exact h
    · rename_i st2 hb; rw [visitDecl_mono hb (by simp) hm]; exact ih h

theorem loop_mono {L cfg fns n rounds st w r} (h : loop L cfg fns n rounds st w = r) (hr : r ≠ .more) {m : Nat} (hm : n ≤ m) :
    loop L cfg fns m rounds st w = r := by
  induction rounds generalizing st w with
  | zero =>
    rw [loop] at h ⊢
    cases hp : nextLocalFunction st with
    | none => simp only [hp] at h ⊢; exact h
    | some fs => simp only [hp] at h; exact absurd h.symm hr
  | succ rounds ih =>
    rw [loop] at h ⊢
    cases hp : nextLocalFunction st with
    | none => simp only [hp] at h ⊢; exact h
    | some fs =>
      obtain ⟨f, st1⟩ := fs
      simp only [hp] at h ⊢
      cases hx : fns.find? fun d => d.body.attr.id == f.key with
      | none => simp only [hx] at h ⊢; exact h
      | some d =>
        simp only [hx] at h ⊢
        cases hb : walkBody L cfg n d.body st1 with
        | more => simp only [hb] at h; exact absurd h.symm hr
        | panic => rw [walkBody_mono hb (by simp) hm]; simp only [hb] at h; exact h
        | ok st2 => rw [walkBody_mono hb (by simp) hm]; simp only [hb] at h ⊢; exact ih h

theorem visit_mono {L cfg last tests fns n rounds r} (h : visit L cfg last tests fns n rounds = r) (hr : r ≠ .more) {m : Nat}
    (hm : n ≤ m) : visit L cfg last tests fns m rounds = r := by
  rw [visit] at h ⊢
  split at h
  · exact absurd h.symm hr
  · rename_i hb; rw [visitDecls_mono hb (by simp) hm]; exact h
  · rename_i st hb; rw [visitDecls_mono hb (by simp) hm]; exact loop_mono h hr hm

/-- A declaration whose body is as the grammar says. -/
def DeclOk (L : Lang) (d : Decl) : Prop := BodyOk L d.body

theorem visitDecl_eq {L : Lang} {cfg : VCfg} (hr : cfg.receiver = false) (hf : cfg.fields = true) {d : Decl} (hd : DeclOk L d)
    (last : Tree → Option Nat) (st : VState) :
    ∃ N, ∀ n, N ≤ n → visitDecl L cfg last n d st =
      match walk cfg (.test d.name (last d.body) (lowerAll L d.body.attr.kind d.body.children)) st with
      | some st => .ok st
      | none => .panic := by
  rw [walk]
  unfold visitDecl
  cases hv : visitTest cfg d.name (last d.body) st with
  | none => exact ⟨0, fun n _ => by simp⟩
  | some r =>
    obtain ⟨w, st1⟩ := r
    cases w with
    | false =>
      refine ⟨0, fun n _ => ?_⟩
      simp only [Bool.false_eq_true, if_false, Option.bind_some]
      cases visitTestPost d.name st1 <;> rfl
    | true =>
      obtain ⟨N, hN⟩ := walkBody_eq L cfg hr hf d.body hd st1
      refine ⟨N, fun n hn => ?_⟩
      simp only [if_true, hN n hn, Option.bind_some]
      cases walkList cfg (lowerAll L d.body.attr.kind d.body.children) st1 with
      | none => rfl
      | some st2 =>
        simp only [Option.bind_some]
        cases visitTestPost d.name st2 <;> rfl

theorem visitDecls_eq {L : Lang} {cfg : VCfg} (hr : cfg.receiver = false) (hf : cfg.fields = true) (last : Tree → Option Nat)
    {ds : List Decl} (hd : ∀ d ∈ ds, DeclOk L d) (st : VState) :
    ∃ N, ∀ n, N ≤ n → visitDecls L cfg last n ds st =
      match walkList cfg (lowerTests L last ds) st with
      | some st => .ok st
      | none => .panic := by
  induction ds generalizing st with
  | nil => exact ⟨0, fun n _ => by simp [visitDecls, lowerTests, walkList]⟩
  | cons d ds ih =>
    obtain ⟨N, hN⟩ := visitDecl_eq hr hf (hd d (by simp)) last st
    rw [lowerTests, List.map_cons, walkList, ← lowerTests]
    cases hw : walk cfg (.test d.name (last d.body) (lowerAll L d.body.attr.kind d.body.children)) st with
    | none =>
      refine ⟨N, fun n hn => ?_⟩
      rw [visitDecls, hN n hn, hw]
      simp
    | some st1 =>
      obtain ⟨M, hM⟩ := ih (fun d h => hd d (by simp [h])) st1
      refine ⟨max N M, fun n hn => ?_⟩
      rw [visitDecls, hN n (by omega), hw]
      simp only [Option.bind_some]
      exact hM n (by omega)

theorem addFn_mem {name : Text} {f g : LocalFn} {l : List (Text × List LocalFn)} {n fs} (h : (n, fs) ∈ addFn name f l)
    (hg : g ∈ fs) : g = f ∨ ∃ fs', (n, fs') ∈ l ∧ g ∈ fs' := by
  induction l with
  | nil => simp [addFn] at h; obtain ⟨_, rfl⟩ := h; simp at hg; exact Or.inl hg
  | cons p l ih =>
    obtain ⟨m, gs⟩ := p
    rw [addFn] at h
    split at h
    · rcases List.mem_cons.1 h with h | h
      · cases h
        rcases List.mem_append.1 hg with hg | hg
        · exact Or.inr ⟨gs, by simp, hg⟩
        · simp at hg; exact Or.inl hg
      · exact Or.inr ⟨fs, by simp [h], hg⟩
    · rcases List.mem_cons.1 h with h | h
      · cases h; exact Or.inr ⟨fs, by simp, hg⟩
      · rcases ih h with h | ⟨fs', h, hg'⟩
        · exact Or.inl h
        · exact Or.inr ⟨fs', by simp [h], hg'⟩

theorem localFunctions_mem {L : Lang} {fns : List Decl} {n fs g} (h : (n, fs) ∈ localFunctions L fns) (hg : g ∈ fs) :
    ∃ d ∈ fns, g = localFn L d := by
  have : ∀ (fns : List Decl) acc, (n, fs) ∈ fns.foldl (fun acc d => addFn d.name (localFn L d) acc) acc →
      (∃ d ∈ fns, g = localFn L d) ∨ ∃ fs', (n, fs') ∈ acc ∧ g ∈ fs' := by
    intro fns
    induction fns with
    | nil => intro acc h; exact Or.inr ⟨fs, h, hg⟩
    | cons d fns ih =>
      intro acc h
      rw [List.foldl_cons] at h
      rcases ih _ h with ⟨e, he, rfl⟩ | ⟨fs', h1, h2⟩
      · exact Or.inl ⟨e, by simp [he], rfl⟩
      · rcases addFn_mem h1 h2 with rfl | h
        · exact Or.inl ⟨d, by simp, rfl⟩
        · exact Or.inr h
  rcases this fns [] h with h | ⟨_, h, _⟩
  · exact h
  · simp at h

theorem walkable_decl {L : Lang} {config skip trim fns f} (h : IsWalkable (visitorCfg L config skip trim fns) f) :
    ∃ d ∈ fns, f = localFn L d := by
  obtain ⟨name, fs, h⟩ := h
  obtain ⟨l1, l2, h3, _⟩ := List.lookup_eq_some_iff.mp h
  have hm : (name, f :: fs) ∈ (visitorCfg L config skip trim fns).walkable := by rw [h3]; simp
  simp only [visitorCfg, List.mem_filter] at hm
  exact localFunctions_mem hm.1 (by simp)

/-- The bodies of different functions are different nodes. -/
def IdsFaithful (fns : List Decl) : Prop := ∀ d ∈ fns, ∀ e ∈ fns, d.body.attr.id = e.body.attr.id → d.body = e.body

theorem loop_eq {L : Lang} {config skip trim fns} (hd : ∀ d ∈ fns, DeclOk L d) (hu : IdsFaithful fns) (rounds : Nat) (st : VState)
    (w : List LocalFn) (hi : Inv (visitorCfg L config skip trim fns) st) :
    ∃ N, ∀ n, N ≤ n → loop L (visitorCfg L config skip trim fns) fns n rounds st w =
      localLoop (visitorCfg L config skip trim fns) rounds st w := by
  induction rounds generalizing st w with
  | zero => exact ⟨0, fun n _ => by rw [loop, localLoop]; cases nextLocalFunction st <;> rfl⟩
  | succ rounds ih =>
    cases hn : nextLocalFunction st with
    | none =>
      refine ⟨0, fun n _ => ?_⟩
      rw [loop, localLoop, hn]
    | some r =>
      obtain ⟨f, st1⟩ := r
      obtain ⟨_, _, _, _, _, hw, _⟩ := hi.round hn
      obtain ⟨d, hdm, rfl⟩ := walkable_decl hw
      obtain ⟨e, he, hed⟩ : ∃ e, fns.find? (fun d' => d'.body.attr.id == (localFn L d).key) = some e ∧ e.body = d.body := by
        cases hfi : fns.find? (fun d' => d'.body.attr.id == (localFn L d).key) with
        | none =>
          have := List.find?_eq_none.mp hfi d hdm
          simp [localFn] at this
        | some e =>
          have h1 := List.find?_some hfi
          have h2 := List.mem_of_find?_eq_some hfi
          exact ⟨e, rfl, hu e h2 d hdm (by simpa [localFn] using h1)⟩
      obtain ⟨N, hN⟩ := walkBody_eq L (visitorCfg L config skip trim fns) rfl rfl d.body (hd d hdm) st1
      have hb : (localFn L d).body = lowerAll L d.body.attr.kind d.body.children := rfl
      cases hwl : walkList (visitorCfg L config skip trim fns) (lowerAll L d.body.attr.kind d.body.children) st1 with
      | none =>
        refine ⟨N, fun n hle => ?_⟩
        rw [loop, localLoop, hn]
        simp only [he, hed, hN n hle, hb, hwl]
      | some st2 =>
        obtain ⟨M, hM⟩ := ih st2 (w ++ [localFn L d]) (round_eff hi hn (by rw [hb]; exact hwl)).2
        refine ⟨max N M, fun n hle => ?_⟩
        rw [loop, localLoop, hn]
        simp only [he, hed, hN n (by omega), hb, hwl]
        exact hM n (by omega)

/-- The whole visit, with enough steps, is that of the generic visitor. -/
theorem visit_eq {L : Lang} {config skip trim tests fns} (ht : ∀ d ∈ tests, DeclOk L d) (hd : ∀ d ∈ fns, DeclOk L d)
    (hu : IdsFaithful fns) (last : Tree → Option Nat) (rounds : Nat) :
    ∃ N, ∀ n, N ≤ n → visit L (visitorCfg L config skip trim fns) last tests fns n rounds =
      Visit.visitFile (visitorCfg L config skip trim fns) rounds (lowerTests L last tests) := by
  obtain ⟨N, hN⟩ := visitDecls_eq (cfg := visitorCfg L config skip trim fns) rfl rfl last ht {}
  unfold Visit.visitFile
  cases hw : walkList (visitorCfg L config skip trim fns) (lowerTests L last tests) {} with
  | none => exact ⟨N, fun n hn => by rw [visit, hN n hn, hw]⟩
  | some st =>
    obtain ⟨M, hM⟩ := loop_eq (L := L) (config := config) (skip := skip) (trim := trim) hd hu rounds st [] (file_eff hw).2.1
    refine ⟨max N M, fun n hn => ?_⟩
    rw [visit, hN n (by omega), hw]
    exact hM n (by omega)

/-- … and if the visit ends at all, it ends so. -/
theorem visit_done {L : Lang} {config skip trim tests fns} (ht : ∀ d ∈ tests, DeclOk L d) (hd : ∀ d ∈ fns, DeclOk L d)
    (hu : IdsFaithful fns) {last : Tree → Option Nat} {fuel rounds : Nat} {r}
    (h : visit L (visitorCfg L config skip trim fns) last tests fns fuel rounds = r) (hr : r ≠ .more) :
    Visit.visitFile (visitorCfg L config skip trim fns) rounds (lowerTests L last tests) = r := by
  obtain ⟨N, hN⟩ := visit_eq (config := config) (skip := skip) (trim := trim) ht hd hu last rounds
  rw [← hN (max N fuel) (by omega)]
  exact visit_mono h hr (by omega)

end Necessist.TS
