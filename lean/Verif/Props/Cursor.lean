import Verif.Spec.Cursor
/-!
# C52: walking syntax trees
-/
namespace Necessist.Cursor

variable {σ : Type}

/-- The cursor after `skip`. -/
def after (c : Cursor) : SkipEnd → Cursor
  | .next p => { c with pos := p, exhausted := false }
  | .bound p => { c with pos := p, exhausted := true }
  | .root => { c with pos := [], exhausted := true }

theorem skip_eq {t : Tree} {c : Cursor} (h : skipLoop t c.bounds.head? c.pos = .root → c.bounds = []) :
    ∃ b, c.skip t = some (b, after c (skipLoop t c.bounds.head? c.pos)) := by
  unfold Cursor.skip
  cases hs : skipLoop t c.bounds.head? c.pos with
  | next p => exact ⟨_, rfl⟩
  | bound p => exact ⟨_, rfl⟩
  | root => exact ⟨false, by simp [h hs, after]⟩

theorem skipLoop_not_root {t : Tree} {b p : Pos} (h : Under b p) : skipLoop t (some b) p ≠ .root := by
  obtain ⟨x, hx, rfl⟩ := h
  induction x with
  | nil => exact absurd rfl hx
  | cons i x ih =>
    rw [List.cons_append, skipLoop]
    split
    · simp
    · split
      · simp
      · rename_i hb
        refine ih ?_
        rintro rfl
        exact hb rfl

theorem skipLoop_ne (t : Tree) (bound : Option Pos) (p : Pos) : skipLoop t bound p ≠ .next p := by
  suffices ∀ q, (∀ x, x ++ p ≠ p ∨ x = []) → skipLoop t bound p = .next q → q.length ≤ p.length ∧ q ≠ p by
    intro h
    exact (this p (fun x => by
      by_cases hx : x = []
      · exact .inr hx
      · left; intro h; have := congrArg List.length h; simp at this; exact hx this) h).2 rfl
  intro q _ h
  induction p with
  | nil => simp [skipLoop] at h
  | cons i p ih =>
    rw [skipLoop] at h
    split at h
    · simp at h; subst h; simp
    · split at h
      · simp at h
      · have := ih (fun x => by
          by_cases hx : x = []
          · exact .inr hx
          · left; intro h; have := congrArg List.length h; simp at this; exact hx this) h
        refine ⟨by simp; omega, ?_⟩
        rintro rfl
        simp at this
        omega

theorem after_ne (t : Tree) (c : Cursor) (bound : Option Pos) (p : Pos) :
    some p ≠ (after c (skipLoop t bound p)).current := by
  have := skipLoop_ne t bound p
  cases hs : skipLoop t bound p with
  | next q => rw [hs] at this; simp [after, Cursor.current]; intro h; exact this (by rw [h])
  | bound q => simp [after, Cursor.current]
  | root => simp [after, Cursor.current]

theorem climb_self (b : Pos) : climb b b = some b := by
  cases b with
  | nil => rfl
  | cons i p => simp [climb]

/-- Where to go after the last child of `p`. -/
def up (t : Tree) (bound : Option Pos) (p : Pos) : SkipEnd := if bound = some p then .bound p else skipLoop t bound p

theorem skipLoop_cons (t : Tree) (bound : Option Pos) (i : Nat) (p : Pos) :
    skipLoop t bound (i :: p) = if i + 1 < t.arity p then .next ((i + 1) :: p) else up t bound p := rfl

theorem sub_cons {t : Tree} {p : Pos} {cs : List Tree} {i : Nat} {c : Tree} (h : t.sub p = some (.node cs)) (hc : cs[i]? = some c) :
    t.sub (i :: p) = some c := by
  rw [Tree.sub, h]; exact hc

theorem arity_eq {t : Tree} {p : Pos} {cs : List Tree} (h : t.sub p = some (.node cs)) : t.arity p = cs.length := by
  simp [Tree.arity, h, Tree.children]

theorem Under.cons {b p : Pos} (h : b = p ∨ Under b p) (i : Nat) : Under b (i :: p) := by
  rcases h with rfl | ⟨x, hx, rfl⟩
  · exact ⟨[i], by simp, rfl⟩
  · exact ⟨i :: x, by simp, rfl⟩

theorem Under.ne {b p : Pos} (h : Under b p) : b ≠ p := by
  rintro rfl
  obtain ⟨x, hx, h⟩ := h
  have := congrArg List.length h
  simp at this
  exact hx this

theorem current_live (q : Pos) (bs : List Pos) : (⟨q, bs, false⟩ : Cursor).current = some q := rfl

theorem step_walk {t : Tree} {v : Visitor σ} {n : Nat} {q : Pos} {bs : List Pos} {s s' s'' : σ} {c : Cursor}
    (hh : v.handles q = true) (he : v.enter q (v.see q s) = (true, s')) (hn : walkNodes t v n ⟨q, bs, false⟩ s' = .ok c s'')
    (hne : some q ≠ c.current) : walkLoop t v (n + 1) ⟨q, bs, false⟩ s = walkLoop t v n c (v.leave q s'') := by
  rw [walkLoop]
  simp only [current_live, hh, if_true, he, hn, hne, if_false]

theorem step_skip {t : Tree} {v : Visitor σ} {n : Nat} {q : Pos} {bs : List Pos} {s s' : σ} {c : Cursor} {b : Bool}
    (hh : v.handles q = true) (he : v.enter q (v.see q s) = (false, s'))
    (hn : (⟨q, bs, false⟩ : Cursor).skip t = some (b, c))
    (hne : some q ≠ c.current) : walkLoop t v (n + 1) ⟨q, bs, false⟩ s = walkLoop t v n c (v.leave q s') := by
  rw [walkLoop]
  simp only [current_live, hh, if_true, he, hn, hne, if_false, Bool.false_eq_true]

theorem step_plain {t : Tree} {v : Visitor σ} {n : Nat} {q : Pos} {bs : List Pos} {s : σ} {c : Cursor} {b : Bool}
    (hh : ¬ v.handles q = true) (hn : (⟨q, bs, false⟩ : Cursor).gotoNextNode t = some (b, c))
    (hne : some q ≠ c.current) : walkLoop t v (n + 1) ⟨q, bs, false⟩ s = walkLoop t v n c (v.see q s) := by
  rw [walkLoop]
  simp only [current_live, hh, hn, hne, if_false, Bool.false_eq_true]

theorem after_pos (q q' : Pos) (bs : List Pos) (e : SkipEnd) : after ⟨q, bs, false⟩ e = after ⟨q', bs, false⟩ e := by
  cases e <;> rfl

/-- A walk of a node with children, given that its loop goes over the children. -/
theorem walkNodes_of_loop {t : Tree} {v : Visitor σ} {m : Nat} {q : Pos} {bs : List Pos} {s s' : σ} (har : 0 < t.arity q)
    (hroot : skipLoop t bs.head? q = .root → bs = [])
    (h : walkLoop t v m ⟨0 :: q, q :: bs, false⟩ s = .ok ⟨q, q :: bs, true⟩ s') :
    walkNodes t v (m + 1) ⟨q, bs, false⟩ s = .ok (after ⟨q, bs, false⟩ (skipLoop t bs.head? q)) s' := by
  rw [walkNodes]
  simp only [Cursor.push, Bool.false_eq_true, if_false, Cursor.gotoNextNode, har, if_true, h, Cursor.pop, climb_self]
  obtain ⟨b, hb⟩ := skip_eq (t := t) (c := ⟨q, bs, true⟩) hroot
  rw [hb]
  cases skipLoop t bs.head? q <;> rfl

mutual
theorem tree_steps (t : Tree) (v : Visitor σ) (hw : ∀ q s, v.handles q = true → (v.enter q s).1 = true → 0 < t.arity q)
    (u : Tree) (q b : Pos) (bs : List Pos) (hq : t.sub q = some u) (hb : Under b q) (s : σ) :
    ∃ K k, ∀ n, K ≤ n → walkLoop t v (n + k) ⟨q, b :: bs, false⟩ s =
      walkLoop t v n (after ⟨q, b :: bs, false⟩ (skipLoop t (some b) q)) (visitTree v u q s) := by
  match u, hq with
  | .node cs, hq =>
  have hroot := skipLoop_not_root (t := t) hb
  have hskip : ∃ b', (⟨q, b :: bs, false⟩ : Cursor).skip t =
      some (b', after ⟨q, b :: bs, false⟩ (skipLoop t (some b) q)) := skip_eq fun h => absurd h hroot
  obtain ⟨b', hskip⟩ := hskip
  have hne := after_ne t ⟨q, b :: bs, false⟩ (some b) q
  by_cases hh : v.handles q = true
  · rcases he : v.enter q (v.see q s) with ⟨_ | _, s'⟩
    · refine ⟨0, 1, fun n _ => ?_⟩
      rw [step_skip hh he hskip hne, visitTree]
      simp [hh, he]
    · have har := hw q (v.see q s) hh (by rw [he])
      have har' := har
      rw [arity_eq hq] at har'
      obtain ⟨K, k, hK⟩ := forest_steps t v hw cs 0 q [] q (b :: bs) (by simpa using hq) rfl (.inl rfl)
        (by intro h; simp [h] at har') s'
      refine ⟨K + k + 2, 1, fun n hn => ?_⟩
      obtain ⟨m, rfl⟩ : ∃ m, n = ((m + 1) + k) + 1 := ⟨n - k - 2, by omega⟩
      have hl := hK (m + 1) (by omega)
      simp only [up, if_true, after] at hl
      rw [walkLoop] at hl
      have hwn := walkNodes_of_loop (m := m + 1 + k) har (bs := b :: bs) (fun h => absurd h hroot) hl
      rw [step_walk hh he hwn hne, visitTree]
      simp [hh, he]
  · cases cs with
    | nil =>
      refine ⟨0, 1, fun n _ => ?_⟩
      rw [step_plain hh (b := b') (c := after ⟨q, b :: bs, false⟩ (skipLoop t (some b) q)) ?_ hne, visitTree]
      · simp [hh, visitForest]
      · simp only [Cursor.gotoNextNode, arity_eq hq, List.length_nil, Nat.lt_irrefl, if_false]
        exact hskip
    | cons c cs =>
      obtain ⟨K, k, hK⟩ := forest_steps t v hw (c :: cs) 0 q [] b bs (by simpa using hq) rfl (.inr hb) (by simp) (v.see q s)
      refine ⟨K, k + 1, fun n hn => ?_⟩
      rw [show n + (k + 1) = (n + k) + 1 by omega,
        step_plain hh (b := true) (c := ⟨0 :: q, b :: bs, false⟩) (by simp [Cursor.gotoNextNode, arity_eq hq]) (by simp [current_live]),
        hK n hn, visitTree]
      simp only [hh, up, Option.some.injEq, hb.ne, if_false, Bool.false_eq_true]
      rw [after_pos]
termination_by (sizeOf u, 0)

theorem forest_steps (t : Tree) (v : Visitor σ) (hw : ∀ q s, v.handles q = true → (v.enter q s).1 = true → 0 < t.arity q)
    (ts : List Tree) (i : Nat) (p : Pos) (pre : List Tree) (b : Pos) (bs : List Pos)
    (hp : t.sub p = some (.node (pre ++ ts))) (hi : i = pre.length) (hb : b = p ∨ Under b p) (hne : ts ≠ []) (s : σ) :
    ∃ K k, ∀ n, K ≤ n → walkLoop t v (n + k) ⟨i :: p, b :: bs, false⟩ s =
      walkLoop t v n (after ⟨i :: p, b :: bs, false⟩ (up t (some b) p)) (visitForest v ts i p s) := by
  match ts, hne with
  | u :: ts, _ =>
    have hu : t.sub (i :: p) = some u := sub_cons hp (by simp [hi])
    obtain ⟨K, k, h1⟩ := tree_steps t v hw u (i :: p) b bs hu (Under.cons hb i) s
    rw [skipLoop_cons, arity_eq hp] at h1
    match ts with
    | [] =>
      refine ⟨K, k, fun n hn => ?_⟩
      rw [h1 n hn, if_neg (by simp [hi]), visitForest, visitForest]
    | u' :: ts =>
      obtain ⟨K', k', h2⟩ := forest_steps t v hw (u' :: ts) (i + 1) p (pre ++ [u]) b bs (by simpa using hp) (by simp [hi]) hb
        (by simp) (visitTree v u (i :: p) s)
      refine ⟨K + K', k' + k, fun n hn => ?_⟩
      rw [show n + (k' + k) = (n + k') + k by omega, h1 (n + k') (by omega), if_pos (by simp [hi])]
      have h3 := h2 n (by omega)
      rw [show after ⟨i :: p, b :: bs, false⟩ (.next ((i + 1) :: p)) = ⟨(i + 1) :: p, b :: bs, false⟩ from rfl, h3,
        after_pos _ (i :: p)]
      conv => rhs; rw [visitForest]
termination_by (sizeOf ts, 1)
end

/-- C52: walking a node that has children, if every statement or call that is walked has children, visits the node's proper
descendants in the order and with the calls of `enter` and `leave` of a recursive traversal, ends without a failed assertion, and
leaves the cursor where `skip` would take it. -/
theorem C52_walk (t : Tree) (v : Visitor σ) (hw : ∀ q s, v.handles q = true → (v.enter q s).1 = true → 0 < t.arity q)
    (p : Pos) (cs : List Tree) (hp : t.sub p = some (.node cs)) (hcs : cs ≠ []) (bs : List Pos)
    (hbs : ∀ b, bs.head? = some b → Under b p) (s : σ) :
    ∃ N, ∀ n, N ≤ n → walkNodes t v n ⟨p, bs, false⟩ s =
      .ok (after ⟨p, bs, false⟩ (skipLoop t bs.head? p)) (visitForest v cs 0 p s) := by
  obtain ⟨K, k, hK⟩ := forest_steps t v hw cs 0 p [] p bs (by simpa using hp) rfl (.inl rfl) hcs s
  refine ⟨K + k + 2, fun n hn => ?_⟩
  obtain ⟨m, rfl⟩ : ∃ m, n = ((m + 1) + k) + 1 := ⟨n - k - 2, by omega⟩
  have hl := hK (m + 1) (by omega)
  simp only [up, if_true, after] at hl
  rw [walkLoop] at hl
  refine walkNodes_of_loop (m := m + 1 + k) ?_ ?_ hl
  · rw [arity_eq hp]
    cases cs with
    | nil => exact absurd rfl hcs
    | cons c cs => simp
  · intro h
    cases bs with
    | nil => rfl
    | cons b bs => exact absurd h (skipLoop_not_root (hbs b rfl))

/-! ### Where the cursor is afterwards -/

theorem valid_cons {t : Tree} {i : Nat} {p : Pos} : Valid t (i :: p) ↔ i < t.arity p := by
  unfold Valid Tree.arity
  rw [Tree.sub]
  cases t.sub p with
  | none => simp
  | some s => simp [List.getElem?_eq_some_iff]

theorem Valid.suffix {t : Tree} {x p : Pos} (h : Valid t (x ++ p)) : Valid t p := by
  induction x with
  | nil => exact h
  | cons i x ih =>
    refine ih ?_
    have := valid_cons.1 h
    unfold Tree.arity at this
    unfold Valid
    revert this
    cases t.sub (x ++ p) <;> simp

/-- `q` comes after the node at `p` and all its descendants. -/
def Beyond (p q : Pos) : Prop := After p q ∧ ¬ Under p q

theorem beyond_iff {p q : Pos} : Beyond p q ↔ ∃ x y r i j, p = x ++ i :: r ∧ q = y ++ j :: r ∧ i < j := by
  constructor
  · rintro ⟨h | h, h'⟩
    · exact absurd h h'
    · exact h
  · rintro ⟨x, y, r, i, j, rfl, rfl, hij⟩
    refine ⟨.inr ⟨x, y, r, i, j, rfl, rfl, hij⟩, ?_⟩
    rintro ⟨z, _, hz⟩
    have : y ++ [j] = z ++ x ++ [i] := by
      have h : (y ++ [j]) ++ r = (z ++ x ++ [i]) ++ r := by simp; simpa using hz
      exact List.append_cancel_right h
    have := congrArg List.getLast? this
    simp at this
    omega

theorem beyond_cons {i : Nat} {p q : Pos} : Beyond (i :: p) q ↔ (∃ y j, q = y ++ j :: p ∧ i < j) ∨ Beyond p q := by
  rw [beyond_iff, beyond_iff]
  constructor
  · rintro ⟨x, y, r, a, b, h1, rfl, hab⟩
    cases x with
    | nil => simp at h1; obtain ⟨rfl, rfl⟩ := h1; exact .inl ⟨y, b, rfl, hab⟩
    | cons c x => simp at h1; exact .inr ⟨x, y, r, a, b, h1.2, rfl, hab⟩
  · rintro (⟨y, j, rfl, h⟩ | ⟨x, y, r, a, b, rfl, rfl, hab⟩)
    · exact ⟨[], y, p, i, j, rfl, rfl, h⟩
    · exact ⟨i :: x, y, r, a, b, rfl, rfl, hab⟩

/-- C52: after a walk (or `skip`) of the node at `p`, the cursor is at the node that follows it and its descendants in preorder,
among the descendants of the current bound; if there is none, the cursor is exhausted. -/
theorem C52_next (t : Tree) (bound : Option Pos) (p : Pos) (hp : Valid t p) (hb : ∀ b, bound = some b → Under b p) :
    match skipLoop t bound p with
    | .next q => Valid t q ∧ Beyond p q ∧ (∀ b, bound = some b → Under b q) ∧
        ∀ r, Valid t r → Beyond p r → (∀ b, bound = some b → Under b r) → r = q ∨ After q r
    | .bound b => bound = some b ∧ ∀ r, Valid t r → Beyond p r → ¬ Under b r
    | .root => bound = none ∧ ∀ r, Valid t r → ¬ Beyond p r := by
  induction p with
  | nil =>
    rw [skipLoop]
    refine ⟨?_, fun r _ h => ?_⟩
    · cases bound with
      | none => rfl
      | some b => obtain ⟨x, hx, h⟩ := hb b rfl; simp at h; exact absurd h.1 hx
    · rw [beyond_iff] at h
      obtain ⟨x, y, r, i, j, h, _⟩ := h
      simp at h
  | cons i p ih =>
    rw [skipLoop]
    by_cases hi : i + 1 < t.arity p
    · simp only [hi, if_true]
      refine ⟨valid_cons.2 hi, beyond_cons.2 (.inl ⟨[], i + 1, rfl, by omega⟩), fun b hb' => ?_, fun r hr hbr _ => ?_⟩
      · obtain ⟨x, hx, h⟩ := hb b hb'
        cases x with
        | nil => exact absurd rfl hx
        | cons a x =>
          simp at h
          exact ⟨(i + 1) :: x, by simp, by simp [h.2]⟩
      · rcases beyond_cons.1 hbr with ⟨y, j, rfl, hij⟩ | hbr
        · by_cases hj : j = i + 1
          · subst hj
            cases hy : y with
            | nil => left; rfl
            | cons a y' => right; exact .inl ⟨a :: y', by simp, rfl⟩
          · right; right
            exact ⟨[], y, p, i + 1, j, rfl, rfl, by omega⟩
        · right; right
          obtain ⟨x, y, r', a, b, rfl, rfl, hab⟩ := beyond_iff.1 hbr
          exact ⟨(i + 1) :: x, y, r', a, b, rfl, rfl, hab⟩
    · simp only [hi, if_false]
      have hsib : ∀ r, Valid t r → (∃ y j, r = y ++ j :: p ∧ i < j) → False := by
        rintro r hr ⟨y, j, rfl, hij⟩
        have h1 := valid_cons.1 (Valid.suffix hr)
        omega
      by_cases hbp : bound = some p
      · simp only [hbp, if_true]
        refine ⟨trivial, fun r hr hbr hu => ?_⟩
        rcases beyond_cons.1 hbr with h | h
        · exact hsib r hr h
        · exact h.2 hu
      · simp only [hbp, if_false]
        have hb' : ∀ b, bound = some b → Under b p := by
          intro b hbb
          obtain ⟨x, hx, h⟩ := hb b hbb
          cases x with
          | nil => exact absurd rfl hx
          | cons a x =>
            simp at h
            refine ⟨x, ?_, h.2⟩
            rintro rfl
            exact hbp (by rw [hbb, h.2]; rfl)
        have ih := ih (Valid.suffix (x := [i]) hp) hb'
        have hbey : ∀ r, Valid t r → (Beyond (i :: p) r ↔ Beyond p r) := by
          intro r hr
          rw [beyond_cons]
          exact ⟨fun h => h.resolve_left (hsib r hr), .inr⟩
        cases hs : skipLoop t bound p with
        | next q =>
          rw [hs] at ih
          obtain ⟨h1, h2, h3, h4⟩ := ih
          exact ⟨h1, (hbey q h1).2 h2, h3, fun r hr hbr => h4 r hr ((hbey r hr).1 hbr)⟩
        | bound b =>
          rw [hs] at ih
          exact ⟨ih.1, fun r hr hbr => ih.2 r hr ((hbey r hr).1 hbr)⟩
        | root =>
          rw [hs] at ih
          exact ⟨ih.1, fun r hr hbr => ih.2 r hr ((hbey r hr).1 hbr)⟩

/-! ### Which nodes are visited -/

/-- A visitor that records the nodes visited; handled nodes are walked if `w`. -/
def recorder (h w : Pos → Bool) : Visitor (List Pos) where
  see p l := l ++ [p]
  handles := h
  enter p l := (w p, l)
  leave _ l := l

mutual
/-- The nodes visited. -/
def nodesTree (h w : Pos → Bool) : Tree → Pos → List Pos
  | .node cs, p => p :: if h p && !w p then [] else nodesForest h w cs 0 p
/-- The nodes visited among the children. -/
def nodesForest (h w : Pos → Bool) : List Tree → Nat → Pos → List Pos
  | [], _, _ => []
  | t :: ts, i, p => nodesTree h w t (i :: p) ++ nodesForest h w ts (i + 1) p
end

mutual
theorem visitTree_recorder (h w : Pos → Bool) (t : Tree) (p : Pos) (l : List Pos) :
    visitTree (recorder h w) t p l = l ++ nodesTree h w t p := by
  match t with
  | .node cs =>
    rw [visitTree, nodesTree]
    simp only [recorder]
    have := visitForest_recorder h w cs 0 p (l ++ [p])
    simp only [recorder] at this
    rw [this]
    generalize nodesForest h w cs 0 p = z
    by_cases h1 : h p = true <;> by_cases h2 : w p = true <;> simp [h1, h2]
theorem visitForest_recorder (h w : Pos → Bool) (ts : List Tree) (i : Nat) (p : Pos) (l : List Pos) :
    visitForest (recorder h w) ts i p l = l ++ nodesForest h w ts i p := by
  match ts with
  | [] => simp [visitForest, nodesForest]
  | t :: ts =>
    rw [visitForest, visitTree_recorder, visitForest_recorder, nodesForest, List.append_assoc]
end

/-- No node strictly between is handled and not walked. -/
def Open (h w : Pos → Bool) (p q : Pos) : Prop := ∀ r, Under p r → Under r q → h r = true → w r = true

theorem under_append {x p : Pos} (h : x ≠ []) : Under p (x ++ p) := ⟨x, h, rfl⟩

theorem append_cons_inj {x y : Pos} {i j : Nat} {p : Pos} (h : x ++ i :: p = y ++ j :: p) : x = y ∧ i = j := by
  have : (x ++ [i]) ++ p = (y ++ [j]) ++ p := by simpa using h
  have := List.append_cancel_right this
  rw [List.append_eq_append_iff] at this
  rcases this with ⟨a, h1, h2⟩ | ⟨a, h1, h2⟩
  · cases a with
    | nil => simp at h1 h2; exact ⟨h1.symm, h2⟩
    | cons b a => simp at h2
  · cases a with
    | nil => simp at h1 h2; exact ⟨h1, h2.symm⟩
    | cons b a => simp at h2

theorem Under.of_cons {i : Nat} {p q : Pos} (h : Under (i :: p) q) : Under p q := by
  obtain ⟨x, hx, rfl⟩ := h
  exact ⟨x ++ [i], by simp, by simp⟩

theorem under_cases {p r : Pos} {y : Pos} {j : Nat} (h : Under p r) (h' : Under r (y ++ j :: p)) :
    r = j :: p ∨ Under (j :: p) r := by
  obtain ⟨x, hx, rfl⟩ := h
  obtain ⟨z, hz, h⟩ := h'
  obtain ⟨x, k, rfl⟩ : ∃ x' k, x = x' ++ [k] := ⟨x.dropLast, x.getLast hx, (List.dropLast_concat_getLast hx).symm⟩
  have : y ++ j :: p = (z ++ x) ++ k :: p := by simpa using h
  obtain ⟨_, rfl⟩ := append_cons_inj this
  cases x with
  | nil => left; rfl
  | cons a x => right; exact ⟨a :: x, by simp, by simp⟩

mutual
theorem mem_nodesTree (t : Tree) (h w : Pos → Bool) (u : Tree) (p : Pos) (hp : t.sub p = some u) (q : Pos) :
    q ∈ nodesTree h w u p ↔ Valid t q ∧ (q = p ∨ Under p q ∧ (h p = true → w p = true) ∧ Open h w p q) := by
  match u, hp with
  | .node cs, hp =>
    have hvp : Valid t p := by simp [Valid, hp]
    rw [nodesTree, List.mem_cons]
    have hF := mem_nodesForest t h w cs 0 p [] (by simpa using hp) rfl q
    constructor
    · rintro (rfl | hq)
      · exact ⟨hvp, .inl rfl⟩
      · split at hq
        · simp at hq
        · rename_i hhw
          obtain ⟨h1, ⟨y, j, rfl, -⟩, h3⟩ := hF.1 hq
          refine ⟨h1, .inr ⟨⟨y ++ [j], by simp, by simp⟩, fun hh => ?_, h3⟩⟩
          simp [hh] at hhw
          exact hhw
    · rintro ⟨hv, rfl | ⟨hu, hhw, ho⟩⟩
      · exact .inl rfl
      · right
        rw [if_neg (by cases hh : h p <;> simp [hh] at hhw ⊢; exact hhw)]
        obtain ⟨x, hx, rfl⟩ := hu
        obtain ⟨x, j, rfl⟩ : ∃ x' k, x = x' ++ [k] := ⟨x.dropLast, x.getLast hx, (List.dropLast_concat_getLast hx).symm⟩
        exact hF.2 ⟨hv, ⟨x, j, by simp, by omega⟩, ho⟩
termination_by (sizeOf u, 0)

theorem mem_nodesForest (t : Tree) (h w : Pos → Bool) (ts : List Tree) (i : Nat) (p : Pos) (pre : List Tree)
    (hp : t.sub p = some (.node (pre ++ ts))) (hi : i = pre.length) (q : Pos) :
    q ∈ nodesForest h w ts i p ↔ Valid t q ∧ (∃ y j, q = y ++ j :: p ∧ i ≤ j) ∧ Open h w p q := by
  match ts with
  | [] =>
    rw [nodesForest]
    constructor
    · intro h; simp at h
    · rintro ⟨hv, ⟨y, j, rfl, hij⟩, -⟩
      have := valid_cons.1 (Valid.suffix hv)
      rw [arity_eq hp] at this
      simp at this
      omega
  | u :: ts =>
    have hu : t.sub (i :: p) = some u := sub_cons hp (by simp [hi])
    rw [nodesForest, List.mem_append, mem_nodesTree t h w u (i :: p) hu q,
      mem_nodesForest t h w ts (i + 1) p (pre ++ [u]) (by simpa using hp) (by simp [hi]) q]
    constructor
    · rintro (⟨hv, rfl | ⟨hux, hhw, ho⟩⟩ | ⟨hv, ⟨y, j, rfl, hij⟩, ho⟩)
      · refine ⟨hv, ⟨[], i, rfl, by omega⟩, fun r hr hr' => ?_⟩
        exfalso
        rcases under_cases (y := []) hr hr' with h1 | h1
        · exact Under.ne hr' h1
        · obtain ⟨x, hx, rfl⟩ := h1
          obtain ⟨z, hz, h2⟩ := hr'
          have := congrArg List.length h2
          have hzl := List.length_pos_iff.2 hz
          simp at this
          omega
      · obtain ⟨x, hx, rfl⟩ := hux
        refine ⟨hv, ⟨x, i, rfl, by omega⟩, fun r hr hr' hh => ?_⟩
        rcases under_cases hr hr' with rfl | h1
        · exact hhw hh
        · exact ho r h1 hr' hh
      · exact ⟨hv, ⟨y, j, rfl, by omega⟩, ho⟩
    · rintro ⟨hv, ⟨y, j, rfl, hij⟩, ho⟩
      by_cases hj : j = i
      · subst hj
        left
        refine ⟨hv, ?_⟩
        cases hy : y with
        | nil => left; rfl
        | cons a y' =>
          right
          subst hy
          refine ⟨⟨a :: y', by simp, rfl⟩, fun hh => ?_, fun r hr => ho r hr.of_cons⟩
          exact ho (j :: p) ⟨[j], by simp, rfl⟩ ⟨a :: y', by simp, rfl⟩ hh
      · right
        exact ⟨hv, ⟨y, j, rfl, by omega⟩, ho⟩
termination_by (sizeOf ts, 1)
end

mutual
theorem nodesTree_order (t : Tree) (h w : Pos → Bool) (u : Tree) (p : Pos) (hp : t.sub p = some u) :
    (nodesTree h w u p).Pairwise After := by
  match u, hp with
  | .node cs, hp =>
    rw [nodesTree]
    split
    · simp
    · refine List.pairwise_cons.2 ⟨fun q hq => ?_, nodesForest_order t h w cs 0 p [] (by simpa using hp) rfl⟩
      obtain ⟨-, ⟨y, j, rfl, -⟩, -⟩ := (mem_nodesForest t h w cs 0 p [] (by simpa using hp) rfl q).1 hq
      exact .inl ⟨y ++ [j], by simp, by simp⟩
termination_by (sizeOf u, 0)

theorem nodesForest_order (t : Tree) (h w : Pos → Bool) (ts : List Tree) (i : Nat) (p : Pos) (pre : List Tree)
    (hp : t.sub p = some (.node (pre ++ ts))) (hi : i = pre.length) : (nodesForest h w ts i p).Pairwise After := by
  match ts with
  | [] => simp [nodesForest]
  | u :: ts =>
    have hu : t.sub (i :: p) = some u := sub_cons hp (by simp [hi])
    rw [nodesForest]
    refine List.pairwise_append.2 ⟨nodesTree_order t h w u (i :: p) hu,
      nodesForest_order t h w ts (i + 1) p (pre ++ [u]) (by simpa using hp) (by simp [hi]), fun a ha b hb => ?_⟩
    obtain ⟨-, ⟨y, j, rfl, hij⟩, -⟩ :=
      (mem_nodesForest t h w ts (i + 1) p (pre ++ [u]) (by simpa using hp) (by simp [hi]) b).1 hb
    obtain ⟨-, ha⟩ := (mem_nodesTree t h w u (i :: p) hu a).1 ha
    right
    rcases ha with rfl | ⟨⟨x, _, rfl⟩, -⟩
    · exact ⟨[], y, p, i, j, rfl, rfl, by omega⟩
    · exact ⟨x, y, p, i, j, rfl, rfl, by omega⟩
termination_by (sizeOf ts, 1)
end

theorem After.irrefl (p : Pos) : ¬ After p p := by
  rintro (h | ⟨x, y, r, i, j, rfl, h, hij⟩)
  · exact h.ne rfl
  · obtain ⟨_, rfl⟩ := append_cons_inj h
    omega

/-- C52: the nodes visited are the proper descendants of the node walked, except those below a node that is handled and not to be
walked; each is visited once, in preorder. -/
theorem C52_visited (t : Tree) (h w : Pos → Bool) (hw : ∀ q, h q = true → w q = true → 0 < t.arity q)
    (p : Pos) (cs : List Tree) (hp : t.sub p = some (.node cs)) (hcs : cs ≠ []) (bs : List Pos)
    (hbs : ∀ b, bs.head? = some b → Under b p) :
    ∃ N c l, (∀ n, N ≤ n → walkNodes t (recorder h w) n ⟨p, bs, false⟩ [] = .ok c l) ∧ l.Pairwise After ∧ l.Nodup ∧
      ∀ q, q ∈ l ↔ Valid t q ∧ Under p q ∧ ∀ r, Under p r → Under r q → h r = true → w r = true := by
  obtain ⟨N, hN⟩ := C52_walk t (recorder h w) (fun q _ => hw q) p cs hp hcs bs hbs []
  have hord := nodesForest_order t h w cs 0 p [] (by simpa using hp) rfl
  refine ⟨N, after ⟨p, bs, false⟩ (skipLoop t bs.head? p), nodesForest h w cs 0 p, fun n hn => ?_, hord, ?_, fun q => ?_⟩
  · rw [hN n hn, visitForest_recorder, List.nil_append]
  · exact hord.imp fun {a b} hab h => by subst h; exact After.irrefl a hab
  · rw [mem_nodesForest t h w cs 0 p [] (by simpa using hp) rfl q]
    constructor
    · rintro ⟨h1, ⟨y, j, rfl, -⟩, h3⟩
      exact ⟨h1, ⟨y ++ [j], by simp, by simp⟩, h3⟩
    · rintro ⟨h1, ⟨x, hx, rfl⟩, h3⟩
      obtain ⟨x, j, rfl⟩ : ∃ x' k, x = x' ++ [k] := ⟨x.dropLast, x.getLast hx, (List.dropLast_concat_getLast hx).symm⟩
      exact ⟨h1, ⟨x, j, by simp, by omega⟩, h3⟩

/-! ### Nodes without children -/

theorem skip_bounds {t : Tree} {c c' : Cursor} {b : Bool} (h : c.skip t = some (b, c')) : c'.bounds = c.bounds := by
  unfold Cursor.skip at h
  split at h
  · simp at h; rw [← h.2]
  · simp at h; rw [← h.2]
  · split at h
    · simp at h; rw [← h.2]
    · simp at h

theorem goto_bounds {t : Tree} {c c' : Cursor} {b : Bool} (h : c.gotoNextNode t = some (b, c')) : c'.bounds = c.bounds := by
  unfold Cursor.gotoNextNode at h
  split at h
  · simp at h; rw [← h.2]
  · exact skip_bounds h

theorem climb_eq {b p q : Pos} (h : climb b p = some q) : q = b := by
  induction p with
  | nil => simp [climb] at h; rw [h.1, h.2]
  | cons i p ih =>
    rw [climb] at h
    split at h
    · simp at h; exact h.symm
    · exact ih h

theorem skip_exhausted (t : Tree) (p : Pos) (bs : List Pos) (e : Bool) :
    (⟨p, bs, e⟩ : Cursor).skip t = (⟨p, bs, true⟩ : Cursor).skip t := rfl

theorem walk_bounds (t : Tree) (v : Visitor σ) (n : Nat) :
    (∀ c s c' s', walkLoop t v n c s = .ok c' s' → c'.bounds = c.bounds) ∧
    (∀ c s c' s', walkNodes t v n c s = .ok c' s' → ∃ b, c.skip t = some (b, c')) := by
  induction n with
  | zero => exact ⟨fun c s c' s' h => by simp [walkLoop] at h, fun c s c' s' h => by simp [walkNodes] at h⟩
  | succ n ih =>
    constructor
    · intro c s c' s' h
      rw [walkLoop] at h
      cases hc : c.current with
      | none => rw [hc] at h; simp at h; rw [h.1]
      | some node =>
        rw [hc] at h
        simp only at h
        by_cases hh : v.handles node = true
        · simp only [hh, if_true] at h
          split at h
          · split at h
            · simp at h
            · simp at h
            · rename_i c2 s2 hwn
              split at h
              · simp at h
              · obtain ⟨b, hb⟩ := ih.2 _ _ _ _ hwn
                rw [ih.1 _ _ _ _ h, skip_bounds hb]
          · split at h
            · simp at h
            · rename_i hsk
              split at h
              · simp at h
              · rw [ih.1 _ _ _ _ h, skip_bounds hsk]
        · simp only [hh, if_false, Bool.false_eq_true] at h
          split at h
          · simp at h
          · rename_i hsk
            split at h
            · simp at h
            · rw [ih.1 _ _ _ _ h, goto_bounds hsk]
    · intro c s c' s' h
      rw [walkNodes] at h
      split at h
      · simp at h
      · rename_i c1 hpush
        split at h
        · simp at h
        · rename_i c2 hgo
          split at h
          · simp at h
          · simp at h
          · rename_i c3 s3 hl
            split at h
            · simp at h
            · rename_i c4 hpop
              simp at h
              obtain ⟨rfl, rfl⟩ := h
              unfold Cursor.push at hpush
              split at hpush
              · simp at hpush
              · simp at hpush
                have h3 : c3.bounds = c.pos :: c.bounds := by
                  rw [ih.1 _ _ _ _ hl, goto_bounds hgo, ← hpush]
                unfold Cursor.pop at hpop
                rw [h3] at hpop
                simp only at hpop
                split at hpop
                · simp at hpop
                · rename_i hcl
                  rw [climb_eq hcl] at hpop
                  rw [skip_exhausted] at hpop
                  refine ⟨_, Eq.trans ?_ hpop⟩
                  exact skip_exhausted t c.pos c.bounds c.exhausted

theorem skipLoop_under {t : Tree} {p r : Pos} (h : Under r p) :
    (∃ q, skipLoop t (some p) r = .next q ∧ Beyond p q) ∨ skipLoop t (some p) r = .root := by
  induction r with
  | nil => right; rfl
  | cons k r ih =>
    obtain ⟨x, hx, rfl⟩ := h
    rw [skipLoop]
    split
    · left
      exact ⟨_, rfl, beyond_iff.2 ⟨x, [], r, k, k + 1, rfl, rfl, by omega⟩⟩
    · have hu : Under r (x ++ k :: r) := ⟨x ++ [k], by simp, by simp⟩
      rw [if_neg (by intro h; exact hu.ne (Option.some.inj h).symm)]
      exact ih hu

theorem skipLoop_beyond {t : Tree} {p q : Pos} (h : Beyond p q) :
    (∃ q', skipLoop t (some p) q = .next q' ∧ Beyond p q') ∨ skipLoop t (some p) q = .root := by
  obtain ⟨x, y, r, i, j, rfl, rfl, hij⟩ := beyond_iff.1 h
  clear h
  induction y with
  | nil =>
    rw [List.nil_append, skipLoop]
    split
    · left
      exact ⟨_, rfl, beyond_iff.2 ⟨x, [], r, i, j + 1, rfl, rfl, by omega⟩⟩
    · have hu : Under r (x ++ i :: r) := ⟨x ++ [i], by simp, by simp⟩
      rw [if_neg (by intro h; exact hu.ne (Option.some.inj h).symm)]
      exact skipLoop_under hu
  | cons a y ih =>
    rw [List.cons_append, skipLoop]
    split
    · left
      exact ⟨_, rfl, beyond_iff.2 ⟨x, (a + 1) :: y, r, i, j, rfl, rfl, hij⟩⟩
    · rw [if_neg ?_]
      · exact ih
      · intro h
        obtain ⟨_, rfl⟩ := append_cons_inj (Option.some.inj h)
        omega

theorem skip_astray {t : Tree} {p q : Pos} {bs : List Pos} {e : Bool} {c : Cursor} {b : Bool}
    (hq : q = p ∨ Beyond p q) (h : (⟨q, p :: bs, e⟩ : Cursor).skip t = some (b, c)) :
    ∃ q', c = ⟨q', p :: bs, false⟩ ∧ Beyond p q' := by
  have key : (∃ q', skipLoop t (some p) q = .next q' ∧ Beyond p q') ∨ skipLoop t (some p) q = .root := by
    rcases hq with rfl | hq
    · cases q with
      | nil => right; rfl
      | cons i r =>
        rw [skipLoop]
        split
        · left
          exact ⟨_, rfl, beyond_iff.2 ⟨[], [], r, i, i + 1, rfl, rfl, by omega⟩⟩
        · have hu : Under r (i :: r) := ⟨[i], by simp, rfl⟩
          rw [if_neg (by intro h; exact hu.ne (Option.some.inj h).symm)]
          exact skipLoop_under hu
    · exact skipLoop_beyond hq
  unfold Cursor.skip at h
  simp only [List.head?_cons] at h
  rcases key with ⟨q', hk, hb⟩ | hk
  · rw [hk] at h
    simp at h
    exact ⟨q', h.2.symm, hb⟩
  · rw [hk] at h
    simp at h

theorem loop_astray {t : Tree} {v : Visitor σ} (n : Nat) {p q : Pos} {bs : List Pos} (hq : Beyond p q) (s : σ)
    (c' : Cursor) (s' : σ) : walkLoop t v n ⟨q, p :: bs, false⟩ s ≠ .ok c' s' := by
  induction n generalizing q s with
  | zero => simp [walkLoop]
  | succ n ih =>
    intro h
    rw [walkLoop] at h
    simp only [current_live] at h
    by_cases hh : v.handles q = true
    · simp only [hh, if_true] at h
      split at h
      · split at h
        · simp at h
        · simp at h
        · rename_i c2 s2 hwn
          split at h
          · simp at h
          · obtain ⟨b, hb⟩ := (walk_bounds t v n).2 _ _ _ _ hwn
            obtain ⟨q', rfl, hq'⟩ := skip_astray (.inr hq) hb
            exact ih hq' _ h
      · split at h
        · simp at h
        · rename_i hsk
          split at h
          · simp at h
          · obtain ⟨q', rfl, hq'⟩ := skip_astray (.inr hq) hsk
            exact ih hq' _ h
    · simp only [hh, if_false, Bool.false_eq_true] at h
      split at h
      · simp at h
      · rename_i hsk
        split at h
        · simp at h
        · unfold Cursor.gotoNextNode at hsk
          split at hsk
          · simp at hsk
            rw [← hsk.2] at h
            obtain ⟨x, y, r, i, j, rfl, rfl, hij⟩ := beyond_iff.1 hq
            exact ih (q := 0 :: (y ++ j :: r)) (beyond_iff.2 ⟨x, 0 :: y, r, i, j, rfl, rfl, hij⟩) _ h
          · obtain ⟨q', rfl, hq'⟩ := skip_astray (.inr hq) hsk
            exact ih hq' _ h

/-- C52, what the walk relies on: a node without children must not be walked. If it is, the cursor leaves it for the nodes that
follow, and never comes back: the walk cannot end but by a failed assertion. -/
theorem C52_leaf (t : Tree) (v : Visitor σ) (p : Pos) (hp : t.arity p = 0) (bs : List Pos) (s : σ) (n : Nat) (c : Cursor) (s' : σ) :
    walkNodes t v n ⟨p, bs, false⟩ s ≠ .ok c s' := by
  intro h
  cases n with
  | zero => simp [walkNodes] at h
  | succ n =>
    rw [walkNodes] at h
    simp only [Cursor.push, Bool.false_eq_true, if_false, Cursor.gotoNextNode, hp, Nat.lt_irrefl] at h
    split at h
    · simp at h
    · rename_i hsk
      obtain ⟨q', rfl, hq'⟩ := skip_astray (.inl rfl) hsk
      split at h
      · simp at h
      · simp at h
      · rename_i hl
        exact loop_astray n hq' _ _ _ hl

/-! ### Cases -/

/-- A tree: a node with three children, the second of which has two children, the first of them with one. -/
def demo : Tree := .node [.node [], .node [.node [.node []], .node []], .node []]

example : walkNodes demo (recorder (fun _ => false) (fun _ => false)) 30 .new [] =
    .ok ⟨[], [], true⟩ [[0], [1], [0, 1], [0, 0, 1], [1, 1], [2]] := by rfl

/-- The second child is handled and walked, its first child is handled and skipped. -/
example : walkNodes demo (recorder (fun p => p = [1] || p = [0, 1]) (fun p => p = [1])) 30 .new [] =
    .ok ⟨[], [], true⟩ [[0], [1], [0, 1], [1, 1], [2]] := by rfl

/-- Within the node `[1]`, of the node `[0, 1]`: the cursor ends at `[1, 1]`. -/
example : walkNodes demo (recorder (fun _ => false) (fun _ => false)) 30 ⟨[0, 1], [[1]], false⟩ [] =
    .ok ⟨[1, 1], [[1]], false⟩ [[0, 0, 1]] := by rfl

/-- Walking a leaf: an assertion fails. -/
example : walkNodes demo (recorder (fun p => p = [0]) (fun p => p = [0])) 30 .new [] = .panic := by rfl

end Necessist.Cursor
