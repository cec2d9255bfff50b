import Verif.Lemmas.RustVisitorSpec
/-! # Rust: visits that go into no test -/
namespace Necessist.Rs
open Visit
open Rust (Cargo Caches St Found Err isTest testNew join cachedFlags Answers Stable Fine isTest_iff)
open Cache (Path)

/-- No test is being visited, nor has one been. -/
structure Idle (g : VState) : Prop where
  names : g.testNames = []
  pending : ∀ x ∈ g.pending, x.2 = []
  statements : g.statements = []
  methods : g.methodCalls = []
  tests : g.testSet = []

theorem addPending_nil {f : LocalFn} : ∀ {l : List (LocalFn × List Text)}, (∀ x ∈ l, x.2 = []) → ∀ x ∈ addPending f [] l, x.2 = []
  | [], _, x, hx => by
    rw [addPending] at hx
    cases List.mem_singleton.1 hx; rfl
  | y :: l, h, x, hx => by
    rw [addPending] at hx
    split at hx
    · rcases List.mem_cons.1 hx with rfl | hx
      · simp only [extendSet, List.foldl_nil]; exact h y List.mem_cons_self
      · exact h x (List.mem_cons_of_mem _ hx)
    · rcases List.mem_cons.1 hx with rfl | hx
      · exact h _ List.mem_cons_self
      · exact addPending_nil (fun z hz => h z (List.mem_cons_of_mem _ hz)) x hx

theorem Idle.maybe {cfg a st go st'} (h : Idle st) (he : visitMaybeMacroCall cfg a st = some (go, st')) : go = true ∧ Idle st' := by
  unfold visitMaybeMacroCall at he
  have hc : considered st.testNames st.last st.callStatement = false := by
    rw [h.names]; cases st.callStatement <;> rfl
  simp only [hc] at he
  cases he
  exact ⟨rfl, h.names, h.pending, h.statements, h.methods, h.tests⟩

theorem Idle.call {cfg i cn callee st go st'} (h : Idle st) (he : visitCall cfg i cn callee st = some (go, st')) : go = true ∧ Idle st' := by
  unfold visitCall at he
  split at he
  · cases he
    refine ⟨rfl, h.names, ?_, h.statements, h.methods, h.tests⟩
    simp only [h.names]
    exact addPending_nil h.pending
  · exact h.maybe he

theorem Idle.statement {s c st st'} (h : Idle st) (he : visitStatement s c st = some st') : Idle st' := by
  unfold visitStatement at he
  dsimp only at he
  split at he
  · split at he
    · cases he
    · cases he; exact ⟨h.names, h.pending, h.statements, h.methods, h.tests⟩
  · cases he; exact ⟨h.names, h.pending, h.statements, h.methods, h.tests⟩

theorem Idle.post {cfg s c st st'} (h : Idle st) (he : visitStatementPost cfg s c st = some st') : Idle st' := by
  unfold visitStatementPost at he
  split at he
  · cases he
  · split at he
    · cases he
    · dsimp only at he
      split at he
      · cases he; exact ⟨h.names, h.pending, h.statements, h.methods, h.tests⟩
      · simp only [h.names] at he
        cases he; exact ⟨rfl, h.pending, h.statements, h.methods, h.tests⟩

theorem Idle.next {st f st'} (h : Idle st) (he : nextLocalFunction st = some (f, st')) : Idle st' := by
  unfold nextLocalFunction at he
  split at he
  · cases he
  · rename_i hl
    cases he
    exact ⟨h.pending _ (List.mem_of_getLast? hl), fun x hx => h.pending x (List.dropLast_subset _ hx), h.statements, h.methods, h.tests⟩

section
variable {ω : Type} {E : Env ω} {I : St ω → Prop} {g : Found → Text → Found}

/-- What is known after a visit that comes to the tests `ns`. -/
def Comes (I : St ω → Prop) (g : Found → Text → Found) (v : Vis ω) (ns : List Text) (r : Option (Vis ω)) : Prop :=
  ∀ v', r = some v' → Idle v'.gen ∧ I v'.st ∧ v'.found = ns.foldl g v.found

theorem Comes.pure {v : Vis ω} (h1 : Idle v.gen) (h2 : I v.st) : Comes I g v [] (some v) := by
  intro v' e; cases e; exact ⟨h1, h2, rfl⟩

theorem Comes.bind {v : Vis ω} {ns ms r k} (h : Comes I g v ns r) (hk : ∀ v', Idle v'.gen → I v'.st → Comes I g v' ms (k v')) :
    Comes I g v (ns ++ ms) (r.bind k) := by
  intro v' e
  obtain ⟨v1, e1, e2⟩ := Option.bind_eq_some_iff.1 e
  obtain ⟨k1, k2, k3⟩ := h v1 e1
  obtain ⟨l1, l2, l3⟩ := hk v1 k1 k2 v' e2
  exact ⟨l1, l2, by rw [l3, k3, List.foldl_append]⟩

theorem Comes.on {v : Vis ω} {f} (h1 : Idle v.gen) (h2 : I v.st) (hf : ∀ st st', Idle st → f st = some st' → Idle st') :
    Comes I g v [] (on f v) := by
  intro v' e
  obtain ⟨st, e1, rfl⟩ := Option.map_eq_some_iff.1 e
  exact ⟨hf _ _ h1 e1, h2, rfl⟩

theorem Comes.ask {v : Vis ω} {f k ms} (h1 : Idle v.gen) (h2 : I v.st) (hf : ∀ st go st', Idle st → f st = some (go, st') → go = true ∧ Idle st')
    (hk : ∀ v', Idle v'.gen → I v'.st → Comes I g v' ms (k (true, v'))) : Comes I g v ms ((Rs.ask f v).bind k) := by
  intro v' e
  obtain ⟨⟨go, v1⟩, e1, e2⟩ := Option.bind_eq_some_iff.1 e
  obtain ⟨⟨go', st⟩, e3, e4⟩ := Option.map_eq_some_iff.1 e1
  cases e4
  obtain ⟨rfl, k1⟩ := hf _ _ _ h1 e3
  exact hk { v with gen := st } k1 h2 v' e2

variable (hnew : ∀ p n f s, I s → ∃ s', I s' ∧ (testNew E.cargo E.args E.file p n f s = (.ok none, g f n, s') ∨
  ∃ e f', testNew E.cargo E.args E.file p n f s = (.error e, f', s') ∧ { f' with error := some e } = g f n))
include hnew

mutual
theorem visit_comes : ∀ (x : Syn) (p : List Text) (v : Vis ω), Idle v.gen → I v.st → Comes I g v (testFns x) (visit E p false x v)
  | .ident s n, p, v, h1, h2 => by rw [visit, testFns]; exact .pure h1 h2
  | .mac s n t, p, v, h1, h2 => by
    rw [visit, testFns]
    exact .ask h1 h2 (fun _ _ _ => Idle.maybe) fun v' h1 h2 => .pure h1 h2
  | .path s t ps, p, v, h1, h2 => by rw [visit, testFns]; exact visitAll_comes ps p v h1 h2
  | .other s k t ps, p, v, h1, h2 => by rw [visit, testFns]; exact visitAll_comes ps p v h1 h2
  | .field s b n, p, v, h1, h2 => by rw [visit, testFns]; exact visit_comes b p v h1 h2
  | .await s b, p, v, h1, h2 => by rw [visit, testFns]; exact visit_comes b p v h1 h2
  | .mod_ s n xs, p, v, h1, h2 => by rw [visit, testFns]; exact visitAll_comes xs _ v h1 h2
  | .call s f as, p, v, h1, h2 => by
    rw [visit, testFns]
    refine .ask h1 h2 (fun _ _ _ => Idle.call) fun v' h1 h2 => ?_
    simp only [if_true]
    exact .bind (visit_comes f p v' h1 h2) fun v'' h1 h2 => visitAll_comes as p v'' h1 h2
  | .method s r n gs as, p, v, h1, h2 => by
    rw [visit, testFns]
    refine .ask h1 h2 (fun _ _ _ => Idle.call) fun v' h1 h2 => ?_
    simp only [if_true]
    exact .bind (visit_comes r p v' h1 h2) fun v'' h1 h2 => .bind (visitAll_comes gs p v'' h1 h2) fun v3 h1 h2 => visitAll_comes as p v3 h1 h2
  | .implFn s n sig b, p, v, h1, h2 => by
    rw [visit, testFns]
    exact .bind (visitAll_comes sig p v h1 h2) fun v' h1 h2 => visitAll_comes b p v' h1 h2
  | .expr s e semi, p, v, h1, h2 => by
    rw [visit, testFns]
    refine .bind (ns := []) (.on h1 h2 fun _ _ => Idle.statement) fun v' h1 h2 => ?_
    rw [← List.append_nil (testFns e)]
    exact .bind (visit_comes e p v' h1 h2) fun v' h1 h2 => .on h1 h2 fun _ _ => Idle.post
  | .macStmt s n t, p, v, h1, h2 => by
    rw [visit, testFns]
    refine .bind (ns := []) (.on h1 h2 fun _ _ => Idle.statement) fun v' h1 h2 => ?_
    exact .ask h1 h2 (fun _ _ _ => Idle.maybe) fun v' h1 h2 => .on h1 h2 fun _ _ => Idle.post
  | .local_ s t ps, p, v, h1, h2 => by
    rw [visit, testFns]
    refine .bind (ns := []) (.on h1 h2 fun _ _ => Idle.statement) fun v' h1 h2 => ?_
    rw [← List.append_nil (testFnsAll ps)]
    exact .bind (visitAll_comes ps p v' h1 h2) fun v' h1 h2 => .on h1 h2 fun _ _ => Idle.post
  | .item s x, p, v, h1, h2 => by
    rw [visit, testFns]
    refine .bind (ns := []) (.on h1 h2 fun _ _ => Idle.statement) fun v' h1 h2 => ?_
    rw [← List.append_nil (testFns x)]
    exact .bind (visit_comes x p v' h1 h2) fun v' h1 h2 => .on h1 h2 fun _ _ => Idle.post
  | .fn s n at_ sig b, p, v, h1, h2 => by
    rw [visit, testFns]
    by_cases ht : isTest at_ = true
    · rw [if_pos ht, if_pos ht, if_neg (by simp)]
      intro v' e
      obtain ⟨s', k1, k2 | ⟨er, f', k2, k3⟩⟩ := hnew p n v.found v.st h2
      · rw [k2] at e; cases e; exact ⟨h1, k1, rfl⟩
      · rw [k2] at e; cases e; exact ⟨h1, k1, k3⟩
    · rw [if_neg ht, if_neg ht]; exact .pure h1 h2
theorem visitAll_comes : ∀ (xs : List Syn) (p : List Text) (v : Vis ω), Idle v.gen → I v.st → Comes I g v (testFnsAll xs) (visitAll E p false xs v)
  | [], p, v, h1, h2 => by rw [visitAll, testFnsAll]; exact .pure h1 h2
  | x :: xs, p, v, h1, h2 => by
    rw [visitAll, testFnsAll]
    exact .bind (visit_comes x p v h1 h2) fun v' h1 h2 => visitAll_comes xs p v' h1 h2
end

/-- … and then the local functions. -/
theorem loop_comes {fs : List Fn} (hfs : ∀ d ∈ fs, testFnsAll d.body = []) : ∀ (rounds : Nat) (v : Vis ω) (w : List LocalFn), Idle v.gen → I v.st →
    (∀ st found s walked, loop E fs rounds v w = .done st found s walked → Idle st ∧ found = v.found ∧ found.error = none) ∧
    ∀ e s, loop E fs rounds v w = .err e s → v.found.error = some e := by
  intro rounds
  induction rounds with
  | zero =>
    intro v w h1 h2
    rw [loop]
    cases hn : nextLocalFunction v.gen with
    | none =>
      simp only []
      cases he : v.found.error with
      | some e => exact ⟨nofun, fun _ _ h => by cases h; rfl⟩
      | none =>
        simp only []
        split
        · exact ⟨fun _ _ _ _ h => by cases h; exact ⟨h1, rfl, he⟩, nofun⟩
        · exact ⟨nofun, nofun⟩
    | some x => exact ⟨nofun, nofun⟩
  | succ rounds ih =>
    intro v w h1 h2
    rw [loop]
    cases hn : nextLocalFunction v.gen with
    | none =>
      simp only []
      cases he : v.found.error with
      | some e => exact ⟨nofun, fun _ _ h => by cases h; rfl⟩
      | none =>
        simp only []
        split
        · exact ⟨fun _ _ _ _ h => by cases h; exact ⟨h1, rfl, he⟩, nofun⟩
        · exact ⟨nofun, nofun⟩
    | some x =>
      obtain ⟨f, st⟩ := x
      simp only []
      split
      · exact ⟨nofun, nofun⟩
      · rename_i d hd
        have hm := List.mem_of_find?_eq_some hd
        split
        · exact ⟨nofun, nofun⟩
        · rename_i v1 hv1
          obtain ⟨k1, k2, k3⟩ := visitAll_comes hnew d.body [] { v with gen := st } (h1.next hn) h2 v1 hv1
          rw [hfs d hm] at k3
          obtain ⟨i1, i2⟩ := ih v1 (w ++ [f]) k1 k2
          simp only [List.foldl_nil] at k3
          rw [k3] at i1 i2
          exact ⟨i1, i2⟩
end

/-! ## … and visits of files whose modules are known -/

section
variable {ω : Type} {E : Env ω} {I : St ω → Prop}

/-- Nothing has been recorded of tests whose modules are unknown. -/
def NoneNew (I : St ω → Prop) (v : Vis ω) (r : Option (Vis ω)) : Prop := ∀ v', r = some v' → I v'.st ∧ v'.found.unknown = v.found.unknown

theorem NoneNew.pure {v : Vis ω} (h : I v.st) : NoneNew I v (some v) := by intro v' e; cases e; exact ⟨h, rfl⟩

theorem NoneNew.bind {v : Vis ω} {r k} (h : NoneNew I v r) (hk : ∀ v', I v'.st → NoneNew I v' (k v')) : NoneNew I v (r.bind k) := by
  intro v' e
  obtain ⟨v1, e1, e2⟩ := Option.bind_eq_some_iff.1 e
  obtain ⟨k1, k2⟩ := h v1 e1
  obtain ⟨l1, l2⟩ := hk v1 k1 v' e2
  exact ⟨l1, l2.trans k2⟩

theorem NoneNew.on {v : Vis ω} {f} (h : I v.st) : NoneNew I v (on f v) := by
  intro v' e
  obtain ⟨st, _, rfl⟩ := Option.map_eq_some_iff.1 e
  exact ⟨h, rfl⟩

theorem NoneNew.ask {v : Vis ω} {f k} (h : I v.st) (hk : ∀ go v', I v'.st → NoneNew I v' (k (go, v'))) : NoneNew I v ((Rs.ask f v).bind k) := by
  intro v' e
  obtain ⟨⟨go, v1⟩, e1, e2⟩ := Option.bind_eq_some_iff.1 e
  obtain ⟨⟨go', st⟩, e3, e4⟩ := Option.map_eq_some_iff.1 e1
  cases e4
  exact hk _ { v with gen := st } h v' e2

variable (hnew : ∀ p n f s, I s → ∃ r f' s', testNew E.cargo E.args E.file p n f s = (r, f', s') ∧ I s' ∧ f'.unknown = f.unknown)
include hnew

mutual
theorem visit_known : ∀ (x : Syn) (p : List Text) (i : Bool) (v : Vis ω), I v.st → NoneNew I v (visit E p i x v)
  | .ident s n, p, i, v, h => by rw [visit]; exact .pure h
  | .mac s n t, p, i, v, h => by rw [visit]; exact .ask h fun _ v' h => .pure h
  | .path s t ps, p, i, v, h => by rw [visit]; exact visitAll_known ps p i v h
  | .other s k t ps, p, i, v, h => by rw [visit]; exact visitAll_known ps p i v h
  | .field s b n, p, i, v, h => by rw [visit]; exact visit_known b p i v h
  | .await s b, p, i, v, h => by rw [visit]; exact visit_known b p i v h
  | .mod_ s n xs, p, i, v, h => by rw [visit]; exact visitAll_known xs _ i v h
  | .call s f as, p, i, v, h => by
    rw [visit]
    refine .ask h fun go v' h => ?_
    dsimp only
    split
    · exact .bind (visit_known f p i v' h) fun v' h => visitAll_known as p i v' h
    · exact visit_known f p i v' h
  | .method s r n gs as, p, i, v, h => by
    rw [visit]
    refine .ask h fun go v' h => ?_
    dsimp only
    split
    · exact .bind (visit_known r p i v' h) fun v' h => .bind (visitAll_known gs p i v' h) fun v' h => visitAll_known as p i v' h
    · exact visit_known r p i v' h
  | .implFn s n sig b, p, i, v, h => by
    rw [visit]; exact .bind (visitAll_known sig p i v h) fun v' h => visitAll_known b p i v' h
  | .expr s e semi, p, i, v, h => by
    rw [visit]; exact .bind (.on h) fun v' h => .bind (visit_known e p i v' h) fun v' h => .on h
  | .macStmt s n t, p, i, v, h => by
    rw [visit]; exact .bind (.on h) fun v' h => .ask h fun _ v' h => .on h
  | .local_ s t ps, p, i, v, h => by
    rw [visit]; exact .bind (.on h) fun v' h => .bind (visitAll_known ps p i v' h) fun v' h => .on h
  | .item s x, p, i, v, h => by
    rw [visit]; exact .bind (.on h) fun v' h => .bind (visit_known x p i v' h) fun v' h => .on h
  | .fn s n at_ sig b, p, i, v, h => by
    rw [visit]
    split
    · split
      · intro v' e; cases e
      · obtain ⟨r, f', s', k1, k2, k3⟩ := hnew p n v.found v.st h
        rw [k1]
        rcases r with e | o
        · intro v' e; cases e; exact ⟨k2, k3⟩
        · cases o with
          | none => intro v' e; cases e; exact ⟨k2, k3⟩
          | some q =>
            have key : NoneNew I (⟨v.gen, { f' with tests := f'.tests ++ [q] }, s'⟩ : Vis ω)
                ((Rs.ask (visitTest E.cfg (join q) (lastKey E.key b)) ⟨v.gen, { f' with tests := f'.tests ++ [q] }, s'⟩).bind fun (go, v) =>
                  (if go then (visitAll E p true sig v).bind fun v => visitAll E p true b v else some v).bind fun v =>
                  Rs.on (visitTestPost (join q)) v) := by
              refine .ask k2 fun go v' h => ?_
              dsimp only
              refine .bind ?_ fun v' h => .on h
              split
              · exact .bind (visitAll_known sig p true v' h) fun v' h => visitAll_known b p true v' h
              · exact .pure h
            intro v' e
            obtain ⟨l1, l2⟩ := key v' e
            exact ⟨l1, l2.trans k3⟩
    · exact .pure h
theorem visitAll_known : ∀ (xs : List Syn) (p : List Text) (i : Bool) (v : Vis ω), I v.st → NoneNew I v (visitAll E p i xs v)
  | [], p, i, v, h => by rw [visitAll]; exact .pure h
  | x :: xs, p, i, v, h => by
    rw [visitAll]
    exact .bind (visit_known x p i v h) fun v' h => visitAll_known xs p i v' h
end

theorem loop_known {fs : List Fn} : ∀ (rounds : Nat) (v : Vis ω) (w : List LocalFn), I v.st →
    ∀ st found s walked, loop E fs rounds v w = .done st found s walked → found.unknown = v.found.unknown := by
  intro rounds
  induction rounds with
  | zero =>
    intro v w h st found s walked e
    rw [loop] at e
    split at e
    · split at e
      · cases e
      · split at e <;> cases e; rfl
    · cases e
  | succ rounds ih =>
    intro v w h st found s walked e
    rw [loop] at e
    split at e
    · split at e
      · cases e
      · split at e <;> cases e; rfl
    · dsimp only at e
      split at e
      · cases e
      · split at e
        · cases e
        · rename_i v1 hv1
          obtain ⟨k1, k2⟩ := visitAll_known hnew _ _ _ _ (by exact h) v1 hv1
          exact (ih v1 _ k1 _ _ _ _ e).trans k2
end
end Necessist.Rs
