import Verif.Model.Kill
/-!
# C46: a timed-out test's whole process tree is killed, children first
-/
namespace Necessist.Kill

/-- `q` is `p` or a descendant of `p`, when the children of a process are those given by `ch`. -/
inductive InTree (ch : Pid → List Pid) : Pid → Pid → Prop where
  | self (p) : InTree ch p p
  | child {p c q} (h : c ∈ ch p) (hq : InTree ch c q) : InTree ch p q

/-- `q` is a proper descendant of `p`. -/
def Below (ch : Pid → List Pid) (p q : Pid) : Prop := ∃ c ∈ ch p, InTree ch c q

/-- A table of processes: no process is a child of two, nor twice of the same, and descending from a process ends. -/
structure Table (ch : Pid → List Pid) : Prop where
  oneParent : ∀ p p' c, c ∈ ch p → c ∈ ch p' → p = p'
  nodup : ∀ p, (ch p).Nodup
  ends : ∃ height : Pid → Nat, ∀ p, ∀ c ∈ ch p, height c < height p

/-- `x` comes before `y` in the list. -/
def Before (l : List Pid) (x y : Pid) : Prop := ∃ a b c, l = a ++ x :: b ++ y :: c

variable {ch : Pid → List Pid}

theorem InTree.trans {p q r} (h : InTree ch p q) (h' : InTree ch q r) : InTree ch p r := by
  induction h with
  | self => exact h'
  | child hc _ ih => exact .child hc (ih h')

theorem InTree.cases' {p q} (h : InTree ch p q) : p = q ∨ Below ch p q := by
  cases h with
  | self => exact Or.inl rfl
  | child hc hq => exact Or.inr ⟨_, hc, hq⟩

theorem InTree.height {height : Pid → Nat} (hh : ∀ p, ∀ c ∈ ch p, height c < height p) {p q} (h : InTree ch p q) :
    height q ≤ height p := by
  induction h with
  | self => exact Nat.le_refl _
  | child hc _ ih => exact Nat.le_trans ih (Nat.le_of_lt (hh _ _ hc))

/-- The chain of ancestors of a process is linear. -/
theorem InTree.linear (t : Table ch) {p p' q} (h : InTree ch p q) (h' : InTree ch p' q) : InTree ch p p' ∨ InTree ch p' p := by
  have last : ∀ {p q}, InTree ch p q → p = q ∨ ∃ m, InTree ch p m ∧ q ∈ ch m := by
    intro p q h
    induction h with
    | self => exact Or.inl rfl
    | child hc _ ih =>
      rcases ih with rfl | ⟨m, h1, h2⟩
      · exact Or.inr ⟨_, .self _, hc⟩
      · exact Or.inr ⟨m, .child hc h1, h2⟩
  obtain ⟨height, hh⟩ := t.ends
  generalize hd : height p + height p' - 2 * height q = d
  have key : ∀ n p p' q, (height p - height q) ≤ n → InTree ch p q → InTree ch p' q → InTree ch p p' ∨ InTree ch p' p := by
    intro n
    induction n with
    | zero =>
      intro p p' q hn h h'
      rcases h.cases' with rfl | ⟨c, hc, hq⟩
      · exact Or.inr h'
      · have := hh _ _ hc; have := hq.height hh; omega
    | succ n ih =>
      intro p p' q hn h h'
      rcases last h with rfl | ⟨m, h1, h2⟩
      · exact Or.inr h'
      · rcases last h' with rfl | ⟨m', h1', h2'⟩
        · exact Or.inl h
        · have := t.oneParent _ _ _ h2 h2'; subst this
          refine ih p p' m ?_ h1 h1'
          have := hh _ _ h2; omega
  exact key _ p p' q (Nat.le_refl _) h h'

/-- What a good order of killing the processes `S` is. -/
structure GoodOrder (ch : Pid → List Pid) (S : Pid → Prop) (ks : List Pid) : Prop where
  exactly : ∀ q, q ∈ ks ↔ S q
  once : ks.Nodup
  childrenFirst : ∀ x y, S x → Below ch x y → Before ks y x

theorem before_append_left {l m : List Pid} {x y} (h : Before l x y) : Before (l ++ m) x y := by
  obtain ⟨a, b, c, rfl⟩ := h
  exact ⟨a, b, c ++ m, by simp⟩

theorem before_append_right {l m : List Pid} {x y} (h : Before m x y) : Before (l ++ m) x y := by
  obtain ⟨a, b, c, rfl⟩ := h
  exact ⟨l ++ a, b, c, by simp⟩

theorem run_list (t : Table ch) (cs : List Pid) (hd : cs.Nodup)
    (ih : ∀ c ∈ cs, ∃ cost ks, GoodOrder ch (InTree ch c) ks ∧ ∀ n stack killed,
      run (fun p => some (ch p)) (cost + n) ((c, false) :: stack) killed = run (fun p => some (ch p)) n stack (killed ++ ks))
    (hdisj : ∀ c ∈ cs, ∀ c' ∈ cs, c ≠ c' → ∀ q, InTree ch c q → ¬ InTree ch c' q) :
    ∃ cost ks, GoodOrder ch (fun q => ∃ c ∈ cs, InTree ch c q) ks ∧ ∀ n stack killed,
      run (fun p => some (ch p)) (cost + n) (cs.map (fun c => (c, false)) ++ stack) killed =
        run (fun p => some (ch p)) n stack (killed ++ ks) := by
  induction cs with
  | nil => exact ⟨0, [], ⟨by simp, List.nodup_nil, by simp⟩, by simp⟩
  | cons c cs ihc =>
    obtain ⟨cost1, ks1, g1, r1⟩ := ih c List.mem_cons_self
    obtain ⟨cost2, ks2, g2, r2⟩ := ihc (List.nodup_cons.1 hd).2 (fun c hc => ih c (List.mem_cons_of_mem _ hc))
      fun c hc c' hc' => hdisj c (List.mem_cons_of_mem _ hc) c' (List.mem_cons_of_mem _ hc')
    have hdis : ∀ q, q ∈ ks1 → q ∉ ks2 := by
      intro q h1 h2
      obtain ⟨c', hc', hq⟩ := (g2.exactly q).1 h2
      refine hdisj c List.mem_cons_self c' (List.mem_cons_of_mem _ hc') ?_ q ((g1.exactly q).1 h1) hq
      rintro rfl
      exact (List.nodup_cons.1 hd).1 hc'
    refine ⟨cost1 + cost2, ks1 ++ ks2, ⟨fun q => ?_, ?_, fun x y hx hb => ?_⟩, fun n stack killed => ?_⟩
    · simp [g1.exactly, g2.exactly]
    · exact List.nodup_append.2 ⟨g1.once, g2.once, fun a ha b hb e => hdis a ha (e ▸ hb)⟩
    · obtain ⟨c', hc', hx⟩ := hx
      rcases List.mem_cons.1 hc' with rfl | hc'
      · exact before_append_left (g1.childrenFirst x y hx hb)
      · exact before_append_right (g2.childrenFirst x y ⟨c', hc', hx⟩ hb)
    · rw [List.map_cons, List.cons_append, Nat.add_assoc, r1, r2, List.append_assoc]

/-- The loop with `p` on top of the stack kills the tree of `p`, and then goes on with the rest. -/
theorem run_tree (t : Table ch) (p : Pid) : ∃ cost ks, GoodOrder ch (InTree ch p) ks ∧ ∀ n stack killed,
    run (fun p => some (ch p)) (cost + n) ((p, false) :: stack) killed = run (fun p => some (ch p)) n stack (killed ++ ks) := by
  obtain ⟨height, hh⟩ := t.ends
  generalize hb : height p = b
  induction b using Nat.strongRecOn generalizing p with
  | ind b ih =>
    have hdisj : ∀ c ∈ (ch p).reverse, ∀ c' ∈ (ch p).reverse, c ≠ c' → ∀ q, InTree ch c q → ¬ InTree ch c' q := by
      intro c hc c' hc' hne q h h'
      rw [List.mem_reverse] at hc hc'
      have key : ∀ c c', c ∈ ch p → c' ∈ ch p → c ≠ c' → ¬ InTree ch c c' := by
        intro c c' hc hc' hne h
        -- the parent of `c'` is `p`, which is above `c`
        have last : ∀ {x y}, InTree ch x y → x = y ∨ ∃ m, InTree ch x m ∧ y ∈ ch m := by
          intro x y h
          induction h with
          | self => exact Or.inl rfl
          | child hc _ ih =>
            rcases ih with rfl | ⟨m, h1, h2⟩
            · exact Or.inr ⟨_, .self _, hc⟩
            · exact Or.inr ⟨m, .child hc h1, h2⟩
        rcases last h with rfl | ⟨m, h1, h2⟩
        · exact hne rfl
        · have := t.oneParent _ _ _ h2 hc'; subst this
          have := h1.height hh; have := hh _ _ hc; omega
      rcases InTree.linear t h h' with h'' | h''
      · exact key c c' hc hc' hne h''
      · exact key c' c hc' hc (Ne.symm hne) h''
    obtain ⟨cost, ks, g, r⟩ := run_list t (ch p).reverse (List.pairwise_reverse.2 ((t.nodup p).imp Ne.symm))
      (fun c hc => ih (height c) (hb ▸ hh p c (List.mem_reverse.1 hc)) c rfl) hdisj
    refine ⟨cost + 2, ks ++ [p], ⟨fun q => ?_, ?_, fun x y hx hbel => ?_⟩, fun n stack killed => ?_⟩
    · simp only [List.mem_append, List.mem_singleton, g.exactly, List.mem_reverse]
      constructor
      · rintro (⟨c, hc, hq⟩ | rfl)
        · exact .child hc hq
        · exact .self _
      · intro h
        rcases h.cases' with rfl | h
        · exact Or.inr rfl
        · exact Or.inl h
    · refine List.nodup_append.2 ⟨g.once, by simp, fun a ha b hb' e => ?_⟩
      rw [List.mem_singleton] at hb'
      subst hb'; subst e
      obtain ⟨c, hc, hq⟩ := (g.exactly a).1 ha
      have := hq.height hh; have := hh _ _ (List.mem_reverse.1 hc); omega
    · rcases hx.cases' with rfl | ⟨c, hc, hx⟩
      · obtain ⟨c, hc, hy⟩ := hbel
        have : y ∈ ks := (g.exactly y).2 ⟨c, List.mem_reverse.2 hc, hy⟩
        obtain ⟨a, b, e⟩ := List.append_of_mem this
        exact ⟨a, b, [], by rw [e]⟩
      · exact before_append_left (g.childrenFirst x y ⟨c, List.mem_reverse.2 hc, hx⟩ hbel)
    · rw [show cost + 2 + n = (cost + (n + 1)) + 1 by omega, run]
      dsimp only
      rw [← List.map_reverse, r, run, List.append_assoc]

/-- **C46.** If the children of every process can be found out, the loop ends, having killed every process of the tree, no other
process, none twice, and each only after all of its descendants. -/
theorem C46_killed (t : Table ch) (p : Pid) : ∃ ks n0, (∀ n ≥ n0, transitiveKill (fun p => some (ch p)) n p = (.done, ks)) ∧
    (∀ q, q ∈ ks ↔ InTree ch p q) ∧ ks.Nodup ∧ ∀ x y, InTree ch p x → Below ch x y → Before ks y x := by
  obtain ⟨cost, ks, g, r⟩ := run_tree t p
  refine ⟨ks, cost, fun n hn => ?_, g.exactly, g.once, g.childrenFirst⟩
  obtain ⟨m, rfl⟩ := Nat.exists_eq_add_of_le hn
  unfold transitiveKill
  rw [r, List.nil_append]
  cases m <;> rfl

/-- What is killed within `n` iterations is the beginning of what is killed within more. -/
theorem run_mono (c : Pid → Option (List Pid)) (n m : Nat) (st killed) (h : n ≤ m) : (run c n st killed).2 <+: (run c m st killed).2 := by
  induction n generalizing m st killed with
  | zero =>
    clear h
    have : (run c 0 st killed).2 = killed := by cases st <;> rfl
    rw [this]
    clear this
    induction m generalizing st killed with
    | zero => cases st <;> exact List.prefix_refl _
    | succ m ih =>
      match st with
      | [] => exact List.prefix_refl _
      | (p, true) :: st => exact (List.prefix_append _ _).trans (ih st (killed ++ [p]))
      | (p, false) :: st =>
        rw [run]
        cases c p with
        | none => exact List.prefix_refl _
        | some cs => exact ih _ _
  | succ n ih =>
    obtain ⟨m, rfl⟩ := Nat.exists_eq_add_of_le h
    rw [show n + 1 + m = (n + m) + 1 by omega]
    match st with
    | [] => exact List.prefix_refl _
    | (p, true) :: st => exact ih _ st _ (by omega)
    | (p, false) :: st =>
      rw [run, run]
      cases c p with
      | none => exact List.prefix_refl _
      | some cs => exact ih _ _ _ (by omega)

/-- With a failing query, what was killed so far is what would be killed so far if it (and all others that fail) had said that there
are no children. -/
theorem run_total (c : Pid → Option (List Pid)) (n : Nat) (st killed) :
    (run c n st killed).2 <+: (run (fun p => some ((c p).getD [])) n st killed).2 := by
  induction n generalizing st killed with
  | zero => cases st <;> exact List.prefix_refl _
  | succ n ih =>
    match st with
    | [] => exact List.prefix_refl _
    | (p, true) :: st => exact ih st _
    | (p, false) :: st =>
      rw [run, run]
      cases h : c p with
      | none =>
        dsimp only
        exact run_mono (fun p => some ((c p).getD [])) 0 n
          (((([] : List Pid).map (fun c => (c, false))).reverse) ++ (p, true) :: st) killed (Nat.zero_le _)
      | some cs => exact ih _ _

/-- **C46.** At any time, and also if a query fails: only processes of the tree have been killed, none twice, and no process before
any of its descendants that are known. -/
theorem C46_always (c : Pid → Option (List Pid)) (t : Table fun p => (c p).getD []) (p : Pid) (n : Nat) :
    (∀ q ∈ (transitiveKill c n p).2, InTree (fun p => (c p).getD []) p q) ∧ (transitiveKill c n p).2.Nodup ∧
    ∀ x ∈ (transitiveKill c n p).2, ∀ y, Below (fun p => (c p).getD []) x y → Before (transitiveKill c n p).2 y x := by
  obtain ⟨ks, n0, h1, h2, h3, h4⟩ := C46_killed t p
  have hp : (transitiveKill c n p).2 <+: ks := by
    have a := run_total c n [(p, false)] []
    have b := run_mono (fun p => some ((c p).getD [])) n (n + n0) [(p, false)] [] (by omega)
    have e := h1 (n + n0) (by omega)
    unfold transitiveKill at e ⊢
    rw [e] at b
    exact a.trans b
  obtain ⟨rest, hr⟩ := hp
  refine ⟨fun q hq => (h2 q).1 (hr ▸ List.mem_append_left _ hq), ?_, fun x hx y hy => ?_⟩
  · rw [← hr] at h3; exact (List.nodup_append.1 h3).1
  · obtain ⟨a, b, d, e⟩ := h4 x y ((h2 x).1 (hr ▸ List.mem_append_left _ hx)) hy
    -- `x` occurs once, and within the beginning
    obtain ⟨u, v, huv⟩ := List.append_of_mem hx
    have e' : a ++ y :: b ++ x :: d = u ++ x :: (v ++ rest) := by rw [← e, ← hr, huv]; simp
    have hn1 : x ∉ a ++ y :: b := by
      rw [e] at h3
      intro hx'
      exact (List.nodup_append.1 h3).2.2 x hx' x List.mem_cons_self rfl
    have hn2 : x ∉ u := by
      rw [← hr, huv, List.append_assoc] at h3
      intro hx'
      exact (List.nodup_append.1 h3).2.2 x hx' x (by simp) rfl
    have : a ++ y :: b = u := by
      have g : ∀ (l1 l2 r1 r2 : List Pid), x ∉ l1 → x ∉ l2 → l1 ++ x :: r1 = l2 ++ x :: r2 → l1 = l2 := by
        intro l1
        induction l1 with
        | nil =>
          intro l2 r1 r2 _ hn he
          cases l2 with
          | nil => rfl
          | cons z l2 => simp at he; exact absurd (he.1 ▸ List.mem_cons_self) hn
        | cons z l1 ih =>
          intro l2 r1 r2 hn hn' he
          cases l2 with
          | nil => simp at he; exact absurd (he.1 ▸ List.mem_cons_self) hn
          | cons z' l2 =>
            simp at he
            rw [he.1, ih l2 r1 r2 (fun h => hn (List.mem_cons_of_mem _ h)) (fun h => hn' (List.mem_cons_of_mem _ h)) he.2]
      exact g _ _ _ _ hn1 hn2 e'
    exact ⟨a, b, v, by rw [huv, this]⟩

namespace Demo
/-- 1 has the children 2 and 3, 3 has 4; 9 is another process, with the child 5. -/
def table : Pid → List Pid
  | 1 => [2, 3]
  | 3 => [4]
  | 9 => [5]
  | _ => []

theorem table_ok : Table table where
  oneParent := by
    intro p p' c h h'
    unfold table at h h'
    split at h <;> split at h' <;> simp_all <;> omega
  nodup := by intro p; unfold table; split <;> decide
  ends := ⟨fun | 1 => 2 | 3 => 1 | 9 => 1 | _ => 0, by
    intro p c h
    unfold table at h
    split at h <;> simp at h
    · rcases h with rfl | rfl <;> decide
    · subst h; decide
    · subst h; decide⟩

example : transitiveKill (fun p => some (table p)) 10 1 = (.done, [4, 3, 2, 1]) := by decide
/-- If the children of 2 cannot be found out. -/
example : transitiveKill (fun p => if p = 2 then none else some (table p)) 10 1 = (.failed, [4, 3]) := by decide
end Demo

end Necessist.Kill
