import Verif.Model.Guard
/-!
# C06: instrumentation is equivalent to removal
-/
namespace Necessist.Guard

variable {σ V : Type}

@[simp] private theorem mapSt_st (f : St σ V → St σ V) (o : Out σ V) : (o.mapSt f).st = f o.st := by
  cases o <;> rfl

private theorem leave_len (n : Nat) (s : St σ V) (h : n ≤ s.locals.length) : (leave n s).locals.length = n := by
  simp [leave]; omega

private theorem leave_same (s : St σ V) (n : Nat) (h : s.locals.length = n) : leave n s = s := by
  simp [leave, h]

private theorem mapSt_leave (o : Out σ V) (n : Nat) (h : o.st.locals.length = n) : o.mapSt (leave n) = o := by
  cases o <;> simp only [Out.mapSt, Out.st] at * <;> rw [leave_same _ _ h]

/-- Executing never removes variables from scope, and adds none if there are no declarations. -/
private theorem locals_len (env : Text) (procs : Nat → Stmt σ V) (fuel : Nat) (s : Stmt σ V) (st : St σ V) :
    st.locals.length ≤ (exec env procs fuel s st).st.locals.length ∧
      (Braced s → NoDecl s → (exec env procs fuel s st).st.locals.length = st.locals.length) := by
  fun_induction exec env procs fuel s st with
  | case1 => simp [Out.st]
  | case2 => rename_i p; simp [p.keeps]
  | case3 => simp [Out.st, NoDecl]
  | case4 fuel st a b st' h ih1 ih2 =>
    rw [h] at ih1
    simp only [Out.st] at ih1
    exact ⟨Nat.le_trans ih1.1 ih2.1, fun hb hn => by
      simp only [Braced, NoDecl] at hb hn
      rw [ih2.2 hb.2 hn.2, ih1.2 hb.1 hn.1]⟩
  | case5 fuel st a b h ih1 =>
    exact ⟨ih1.1, fun hb hn => by simp only [Braced, NoDecl] at hb hn; exact ih1.2 hb.1 hn.1⟩
  | case6 fuel st s ih =>
    have := leave_len _ _ ih.1
    simp only [mapSt_st, this]
    simp
  | case7 fuel st c t e h hc ih =>
    exact ⟨ih.1, fun hb hn => ih.2 hb.2.1 hn.1⟩
  | case8 fuel st c t e h hc ih =>
    exact ⟨ih.1, fun hb hn => ih.2 hb.2.2.1 hn.2⟩
  | case9 => simp [Out.st]
  | case10 st c b fuel hc st' h ih1 ih2 =>
    rw [h] at ih1
    simp only [Out.st] at ih1
    exact ⟨Nat.le_trans ih1.1 ih2.1, fun hb hn => by
      rw [ih2.2 hb hn, ih1.2 hb.2 hn]⟩
  | case11 st c b fuel hc st' h ih1 =>
    rw [h] at ih1
    exact ⟨ih1.1, fun hb hn => ih1.2 hb.2 hn⟩
  | case12 st c b fuel hc st' h ih1 ih2 =>
    rw [h] at ih1
    simp only [Out.st] at ih1
    exact ⟨Nat.le_trans ih1.1 ih2.1, fun hb hn => by
      rw [ih2.2 hb hn, ih1.2 hb.2 hn]⟩
  | case13 st c b fuel hc h1 h2 h3 ih1 => exact ⟨ih1.1, fun hb hn => ih1.2 hb.2 hn⟩
  | case14 => simp [Out.st]
  | case15 => simp [Out.st]
  | case16 => simp [Out.st]
  | case17 => simp [Out.st]
  | case18 => simp
  | case19 fuel st k s ih => exact ⟨ih.1, fun hb hn => ih.2 hb.2 hn⟩
  | case20 fuel st id b e h hne ih =>
    have := leave_len _ _ ih.1
    simp only [mapSt_st, this]
    simp
  | case21 fuel st id b e h hne ih => exact ⟨ih.1, fun hb => by simp [Braced] at hb⟩

private theorem delete_isBlock (p : Nat → Bool) (s : Stmt σ V) (h : isBlock s = true) :
    isBlock (delete p s) = true := by
  cases s <;> simp_all [isBlock, delete]

private theorem delete_braced (p : Nat → Bool) (s : Stmt σ V) :
    (Braced s → Braced (delete p s)) ∧ (NoDecl s → NoDecl (delete p s)) := by
  induction s with
  | seq a b iha ihb => exact ⟨fun h => ⟨iha.1 h.1, ihb.1 h.2⟩, fun h => ⟨iha.2 h.1, ihb.2 h.2⟩⟩
  | block s ih => exact ⟨fun h => ih.1 h, fun _ => trivial⟩
  | ite c t e h iht ihe =>
    refine ⟨fun hb => ⟨delete_isBlock p t hb.1, iht.1 hb.2.1, ihe.1 hb.2.2.1, fun hf => ?_, fun ht => ?_⟩,
      fun hn => ⟨iht.2 hn.1, ihe.2 hn.2⟩⟩
    · rw [hb.2.2.2.1 hf]; rfl
    · rcases hb.2.2.2.2 ht with h | ⟨c', t', e', h', rfl⟩
      · exact .inl (delete_isBlock p e h)
      · exact .inr ⟨_, _, _, _, rfl⟩
  | loop c b ih => exact ⟨fun h => ⟨delete_isBlock p b h.1, ih.1 h.2⟩, fun h => ih.2 h⟩
  | cand k s ih =>
    simp only [delete]
    split
    · simp [Braced, NoDecl]
    · exact ⟨fun h => ⟨ih.2 h.1, ih.1 h.2⟩, fun h => ih.2 h⟩
  | _ => simp [Braced, NoDecl, delete]

private theorem attach_block (ident : Nat → Text) (t e : Stmt σ V) (h : isBlock t = true) :
    attachElse (instr ident t) e = none := by
  cases t <;> simp_all [isBlock, instr, attachElse]

/-- The general fact: under the value `v` of the variable, the instrumented program behaves like the program from
which all statements whose id is `v` have been deleted. -/
private theorem instr_delete (ident : Nat → Text) (v env' : Text) (procs : Nat → Stmt σ V)
    (hp : ∀ f, Braced (procs f)) (fuel : Nat) (s : Stmt σ V) (st : St σ V) (hs : Braced s) :
    exec v (fun f => instr ident (procs f)) fuel (instr ident s) st =
      exec env' (fun f => delete (fun k => ident k = v) (procs f)) fuel (delete (fun k => ident k = v) s) st := by
  match s, hs with
  | .skip, _ => simp [instr, delete, exec]
  | .prim p, _ => simp [instr, delete, exec]
  | .decl f, _ => simp [instr, delete, exec]
  | .seq a b, hs =>
    simp only [instr, delete]
    rw [exec, exec, instr_delete ident v env' procs hp fuel a st hs.1]
    split
    · exact instr_delete ident v env' procs hp fuel b _ hs.2
    · rfl
  | .block s, hs =>
    simp only [instr, delete]
    rw [exec, exec, instr_delete ident v env' procs hp fuel s st hs]
  | .ite c t e true, hs =>
    simp only [instr, delete, attach_block ident t _ hs.1]
    rw [exec, exec, instr_delete ident v env' procs hp fuel t _ hs.2.1,
      instr_delete ident v env' procs hp fuel e _ hs.2.2.1]
  | .ite c t e false, hs =>
    simp only [instr, delete]
    have he := hs.2.2.2.1 rfl
    subst he
    rw [exec, exec, instr_delete ident v env' procs hp fuel t _ hs.2.1]
    simp [exec, delete]
  | .loop c b, hs =>
    simp only [instr, delete]
    match fuel with
    | 0 => simp [exec]
    | fuel + 1 =>
      have ih := fun st => instr_delete ident v env' procs hp fuel (.loop c b) st hs
      simp only [instr, delete] at ih
      rw [exec, exec, instr_delete ident v env' procs hp fuel b _ hs.2]
      split
      · split
        · exact ih _
        · rfl
        · exact ih _
        · rfl
      · rfl
  | .call f, _ =>
    simp only [instr, delete]
    match fuel with
    | 0 => simp [exec]
    | fuel + 1 =>
      rw [exec, exec]
      rw [instr_delete ident v env' procs hp fuel (procs f) _ (hp f)]
  | .cand k s, hs =>
    simp only [instr, delete]
    rw [exec]
    by_cases hk : v = ident k
    · simp [hk, exec]
    · have hk' : ¬ ident k = v := fun h => hk h.symm
      simp only [ne_eq, hk, not_false_eq_true, if_true, hk', decide_false, Bool.false_eq_true, if_false]
      rw [exec, instr_delete ident v env' procs hp fuel s st hs.2]
      apply mapSt_leave
      exact (locals_len _ _ _ _ _).2 ((delete_braced _ _).1 hs.2) ((delete_braced _ _).2 hs.1)
termination_by (fuel, s)

private theorem delete_congr (p q : Nat → Bool) (s : Stmt σ V) (h : ∀ k ∈ cands s, p k = q k) :
    delete p s = delete q s := by
  induction s with
  | seq a b iha ihb =>
    simp only [cands, List.mem_append] at h
    simp [delete, iha fun k hk => h k (.inl hk), ihb fun k hk => h k (.inr hk)]
  | block s ih => simp [delete, ih h]
  | ite c t e _ iha ihb =>
    simp only [cands, List.mem_append] at h
    simp [delete, iha fun k hk => h k (.inl hk), ihb fun k hk => h k (.inr hk)]
  | loop c b ih => simp [delete, ih h]
  | cand k s ih =>
    simp only [cands, List.mem_cons] at h
    simp [delete, ih fun k hk => h k (.inr hk), h k (.inl rfl)]
  | _ => rfl

private theorem delete_none (s : Stmt σ V) : delete (fun _ => false) s = s := by
  induction s <;> simp_all [delete]

/-- **C06 (for programs with braces throughout, e.g. all Go and Rust programs).** If the ids of the candidates of
the whole program (main statement `s` and all functions) are different from `k`'s unless they are `k`, then running
the instrumented program with the variable set to `k`'s id is exactly — same states, same jumps, same
non-termination, for every initial state and any number of steps — running the original program with the statement
`k`, and nothing else, deleted; whatever the variable's value (`env'`) in the latter run. -/
theorem C06_instrumented_equals_removed_partial (ident : Nat → Text) (k : Nat) (env' : Text)
    (procs : Nat → Stmt σ V) (s : Stmt σ V) (hp : ∀ f, Braced (procs f)) (hs : Braced s)
    (hid : ∀ j, (j ∈ cands s ∨ ∃ f, j ∈ cands (procs f)) → ident j = ident k → j = k)
    (fuel : Nat) (st : St σ V) :
    exec (ident k) (fun f => instr ident (procs f)) fuel (instr ident s) st =
      exec env' (fun f => delete (fun j => j == k) (procs f)) fuel (delete (fun j => j == k) s) st := by
  rw [instr_delete ident (ident k) env' procs hp fuel s st hs]
  have h : ∀ x : Stmt σ V, (∀ j ∈ cands x, ident j = ident k → j = k) →
      delete (fun j => decide (ident j = ident k)) x = delete (fun j => j == k) x := by
    intro x hx
    apply delete_congr
    intro j hj
    by_cases h : j = k
    · simp [h]
    · have : ¬ ident j = ident k := fun e => h (hx j hj e)
      simp [h, this]
  rw [h s fun j hj => hid j (.inl hj)]
  congr 1
  funext f
  exact h _ fun j hj => hid j (.inr ⟨f, hj⟩)

/-- **C06.** With the variable set to a string that is no candidate's id, the instrumented program behaves exactly
like the original. -/
theorem C06_other_value_is_original_partial (ident : Nat → Text) (v env' : Text)
    (procs : Nat → Stmt σ V) (s : Stmt σ V) (hp : ∀ f, Braced (procs f)) (hs : Braced s)
    (hid : ∀ j, (j ∈ cands s ∨ ∃ f, j ∈ cands (procs f)) → ident j ≠ v) (fuel : Nat) (st : St σ V) :
    exec v (fun f => instr ident (procs f)) fuel (instr ident s) st = exec env' procs fuel s st := by
  rw [instr_delete ident v env' procs hp fuel s st hs]
  have h : ∀ x : Stmt σ V, (∀ j ∈ cands x, ident j ≠ v) → delete (fun j => decide (ident j = v)) x = x := by
    intro x hx
    rw [delete_congr _ (fun _ => false) x (fun j hj => by simp [hx j hj]), delete_none]
  rw [h s fun j hj => hid j (.inl hj)]
  congr 1
  funext f
  exact h _ fun j hj => hid j (.inr ⟨f, hj⟩)

/-- **C06.** What happens when ids collide (they are 64-bit prefixes of a hash): all statements with that id are
removed together. -/
theorem C06_collision_removes_all (ident : Nat → Text) (v env' : Text) (procs : Nat → Stmt σ V) (s : Stmt σ V)
    (hp : ∀ f, Braced (procs f)) (hs : Braced s) (fuel : Nat) (st : St σ V) :
    exec v (fun f => instr ident (procs f)) fuel (instr ident s) st =
      exec env' (fun f => delete (fun k => ident k = v) (procs f)) fuel (delete (fun k => ident k = v) s) st :=
  instr_delete ident v env' procs hp fuel s st hs

/-! ### Without braces the property is false (JavaScript, PHP, Solidity) -/

/-- A statement that appends to the trace. -/
def say (c : Char) : Stmt Text Unit := .prim ⟨fun s => .normal { s with store := s.store ++ [c] }, fun _ => rfl⟩

/-- `if (false) a(); else b();` with `a();` a candidate. -/
def danglingElse : Stmt Text Unit := .ite (fun s => (s.store, false)) (.cand 1 (say 'a')) (say 'b') true

/-- **C06, negation.** Instrumenting the unbraced branch of an `if … else` gives the `else` to the guard: even with
the variable set to no candidate's id the program changes meaning (`b()` is no longer called). -/
theorem C06_negation_dangling_else :
    ∃ (s : Stmt Text Unit) (ident : Nat → Text) (v : Text) (st : St Text Unit),
      (∀ j ∈ cands s, ident j ≠ v) ∧
      (exec v (fun _ => .skip) 1 (instr ident s) st).st.store = [] ∧
      (exec v (fun _ => .skip) 1 s st).st.store = ['b'] := by
  refine ⟨danglingElse, fun _ => ['1'], ['2'], ⟨[], []⟩, by simp [cands, danglingElse], ?_, ?_⟩
  · simp [danglingElse, instr, attachElse, say, exec, Out.st]
  · simp [danglingElse, say, exec, Out.st]

/-- A braced program with nested candidates in a loop, a declaration and a recursive function. -/
def exampleProg : Stmt Text Unit :=
  .seq (.decl fun _ => ()) (.loop (fun s => (s.store, s.store.length < 3))
    (.block (.cand 1 (.seq (.cand 2 (say 'a')) (.call 0)))))
example : Braced exampleProg ∧ Braced (.seq (.cand 3 (say 'b')) .skip : Stmt Text Unit) := by
  simp [exampleProg, Braced, isBlock, NoDecl, say]
example : (exec ['2'] (fun _ => .seq (.cand 3 (say 'b')) .skip) 9
      (instr (fun k => [Char.ofNat (48 + k)]) exampleProg) ⟨[], []⟩).st.store ≠ [] := by
  simp [exampleProg, instr, exec, say, Out.st, Out.mapSt, leave]

end Necessist.Guard
