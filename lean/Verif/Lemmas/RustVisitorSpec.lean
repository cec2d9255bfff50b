import Verif.Lemmas.RustVisitor
import Verif.Lemmas.VisitorLoop
import Verif.Lemmas.VisitorSpec
/-! # Rust: from the generic visitor's trees back to syntax trees -/
namespace Necessist.Rs
open Visit
open Rust (isTest isTest_iff Segment)

variable {L : List Text → Text → Option Text} {key : Syn → Nat}

/-! ## Occurrences -/

theorem Within.trans {a b c} (h1 : Within a b) (h2 : Within b c) : Within a c := by
  induction h1 with
  | refl => exact h2
  | step hf hk _ ih => exact .step hf hk (ih h2)

theorem Within.anywhere {a b} (h : Within a b) : Anywhere a b := by
  induction h with
  | refl => exact .refl _
  | step _ hk _ ih => exact .step hk ih

theorem Inside.within {m x m' y} (h : Inside m x m' y) : Within x y := by
  induction h with
  | refl => exact .refl _
  | step hf hk _ ih => exact .step hf hk ih

theorem Inside.anywhere {m x m' y} (h : Inside m x m' y) : Anywhere x y := h.within.anywhere

theorem Within.inside {x y} (h : Within x y) : ∀ m, ∃ m', Inside m x m' y := by
  induction h with
  | refl => exact fun m => ⟨m, .refl _ _⟩
  | step hf hk _ ih =>
    intro m
    obtain ⟨m', h⟩ := ih (enter m _)
    exact ⟨m', .step hf hk h⟩

theorem Outer.within {x y} (h : Outer x y) : Within x y := by
  induction h with
  | refl => exact .refl _
  | step hf _ hk _ ih => exact .step hf hk ih

theorem Clear.within {config x y} (h : Clear config x y) : Within x y := by
  induction h with
  | refl => exact .refl _
  | step hf hk _ _ ih => exact .step hf hk ih

/-! ## Shapes -/

theorem lower_call_inv {p} {x : Syn} {i cn f as} (h : lower L key p x = .call i cn f as) :
    (∃ s g as', x = .call s g as' ∧ i = ⟨s, callName g⟩ ∧ cn = callName g ∧ f = calleeOf g (lower L key p g) ∧
      as = lowerAll L key p as') ∨
    ∃ s r n g as', x = .method s r n g as' ∧ i = ⟨s, some n⟩ ∧ cn = some n ∧
      f = .field ⟨s, some n⟩ (some n) (lower L key p r) ∧ as = lowerAll L key p g ++ lowerAll L key p as' := by
  cases x with
  | call s g as' => rw [lower] at h; cases h; exact Or.inl ⟨_, _, _, rfl, rfl, rfl, rfl, rfl⟩
  | method s r n g as' => rw [lower] at h; cases h; exact Or.inr ⟨_, _, _, _, _, rfl, rfl, rfl, rfl, rfl⟩
  | fn s n at_ sig b =>
    rw [lower] at h
    split at h
    · split at h <;> cases h
    · cases h
  | _ => rw [lower] at h; cases h

theorem lower_macro_inv {p} {x : Syn} {i n as} (h : lower L key p x = .macro_ i n as) :
    ∃ s t, x = .mac s n t ∧ i = ⟨s, some n⟩ ∧ as = [] := by
  cases x with
  | mac s n' t => rw [lower] at h; cases h; exact ⟨s, t, rfl, rfl, rfl⟩
  | fn s n at_ sig b =>
    rw [lower] at h
    split at h
    · split at h <;> cases h
    · cases h
  | _ => rw [lower] at h; cases h

theorem lower_field_inv {p} {x : Syn} {i n b} (h : lower L key p x = .field i n b) :
    ∃ s o, x = .field s o n ∧ b = lower L key p o := by
  cases x with
  | field s o n' => rw [lower] at h; cases h; exact ⟨s, o, rfl, rfl⟩
  | fn s n at_ sig b =>
    rw [lower] at h
    split at h
    · split at h <;> cases h
    · cases h
  | _ => rw [lower] at h; cases h

theorem lower_await_inv {p} {x : Syn} {i b} (h : lower L key p x = .await i b) : ∃ s o, x = .await s o ∧ b = lower L key p o := by
  cases x with
  | await s o => rw [lower] at h; cases h; exact ⟨s, o, rfl, rfl⟩
  | fn s n at_ sig b =>
    rw [lower] at h
    split at h
    · split at h <;> cases h
    · cases h
  | _ => rw [lower] at h; cases h

theorem lower_test_inv {p} {x : Syn} {t l cs} (h : lower L key p x = .test t l cs) :
    ∃ s n at_ sig b, x = .fn s n at_ sig b ∧ TestAttrs at_ ∧ L p n = some t ∧ l = lastKey key b ∧
      cs = (sig ++ b).map (lower L key p) := by
  cases x with
  | fn s n at_ sig b =>
    rw [lower] at h
    split at h
    · rename_i ht
      cases hl : L p n with
      | none => rw [hl] at h; cases h
      | some t' =>
        rw [hl] at h
        cases h
        exact ⟨s, n, at_, sig, b, rfl, isTest_iff.mp ht, hl, rfl, by rw [lowerAll_eq, lowerAll_eq, List.map_append]⟩
    · cases h
  | _ => rw [lower] at h; cases h

theorem lower_test {p s n at_ sig b t} (ht : TestAttrs at_) (hl : L p n = some t) :
    lower L key p (.fn s n at_ sig b) = .test t (lastKey key b) ((sig ++ b).map (lower L key p)) := by
  rw [lower, if_pos (isTest_iff.mpr ht), hl, lowerAll_eq, lowerAll_eq, List.map_append]

theorem lower_exprStmt_inv {p} {x : Syn} {i e'} (h : lower L key p x = .exprStmt i e') :
    ∃ e, ExprOf x e ∧ e' = lower L key p e ∧ i = info key x := by
  cases x with
  | expr s e semi => rw [lower] at h; cases h; exact ⟨e, Or.inl ⟨s, semi, rfl⟩, rfl, rfl⟩
  | macStmt s n t =>
    rw [lower] at h; cases h
    exact ⟨.mac s n t, Or.inr ⟨s, n, t, rfl, rfl⟩, by rw [lower], rfl⟩
  | fn s n at_ sig b =>
    rw [lower] at h
    split at h
    · split at h <;> cases h
    · cases h
  | _ => rw [lower] at h; cases h

theorem exprStmt_lower {p} {x e : Syn} (h : ExprOf x e) : lower L key p x = .exprStmt (info key x) (lower L key p e) := by
  rcases h with ⟨s, semi, rfl⟩ | ⟨s, n, t, rfl, rfl⟩
  · rw [lower]
  · rw [lower, lower]

theorem lower_stmt_inv {p} {x : Syn} {i} (h : IsStmt (lower L key p x) i) : Stmt x ∧ i = info key x := by
  rcases h with ⟨cs, h⟩ | ⟨e', h⟩
  · cases x with
    | local_ s t ps => rw [lower] at h; cases h; exact ⟨Or.inr (Or.inr (Or.inl ⟨s, t, ps, rfl⟩)), rfl⟩
    | item s y => rw [lower] at h; cases h; exact ⟨Or.inr (Or.inr (Or.inr ⟨s, y, rfl⟩)), rfl⟩
    | fn s n at_ sig b =>
      rw [lower] at h
      split at h
      · split at h <;> cases h
      · cases h
    | _ => rw [lower] at h; cases h
  · obtain ⟨e, h1, _, h2⟩ := lower_exprStmt_inv h
    refine ⟨?_, h2⟩
    rcases h1 with ⟨s, semi, rfl⟩ | ⟨s, n, t, rfl, _⟩
    · exact Or.inl ⟨s, e, semi, rfl⟩
    · exact Or.inr (Or.inl ⟨s, n, t, rfl⟩)

theorem stmt_lower {x : Syn} (p) (h : Stmt x) : IsStmt (lower L key p x) (info key x) := by
  rcases h with ⟨s, e, semi, rfl⟩ | ⟨s, n, t, rfl⟩ | ⟨s, t, ps, rfl⟩ | ⟨s, y, rfl⟩
  · exact Or.inr ⟨_, exprStmt_lower (Or.inl ⟨s, semi, rfl⟩)⟩
  · exact Or.inr ⟨_, exprStmt_lower (Or.inr ⟨s, n, t, rfl, rfl⟩)⟩
  · exact Or.inl ⟨_, by rw [lower]⟩
  · exact Or.inl ⟨_, by rw [lower]⟩

theorem withBlock_iff {e : Syn} : withBlock e = true ↔ BlockLike e := by
  constructor
  · intro h
    cases e with
    | other s k t ps => refine ⟨s, k, t, ps, rfl, ?_⟩; cases k <;> first | (cases h; done) | simp
    | _ => cases h
  · rintro ⟨s, k, t, ps, rfl, h⟩
    rcases h with rfl | rfl | rfl | rfl | rfl | rfl | rfl | rfl | rfl <;> rfl

/-- What the visitor asks about statements. -/
theorem info_spec {x : Syn} (h : Stmt x) : (info key x).span = x.span ∧ (info key x).key = key x ∧
    ((info key x).removable = true ↔ ¬ Tail x) ∧
    ((info key x).control = false ∧ (info key x).declaration = false ↔ ¬ NeverRemoved x) := by
  rcases h with ⟨s, e, semi, rfl⟩ | ⟨s, n, t, rfl⟩ | ⟨s, t, ps, rfl⟩ | ⟨s, y, rfl⟩
  · refine ⟨rfl, rfl, ?_, ?_⟩
    · simp only [info, Bool.or_eq_true, withBlock_iff]
      constructor
      · rintro h ⟨s', e', h1, h2⟩
        cases h1
        rcases h with h | h
        · cases h
        · exact h2 h
      · intro h
        cases semi with
        | true => exact Or.inl rfl
        | false => exact Or.inr (Classical.byContradiction fun hb => h ⟨s, e, rfl, hb⟩)
    · simp only [info, and_true]
      constructor
      · rintro h (⟨_, _, _, h'⟩ | ⟨_, _, h'⟩ | ⟨_, _, k, _, _, _, h', hk⟩)
        · cases h'
        · cases h'
        · cases h'
          rcases hk with rfl | rfl | rfl <;> cases h
      · intro h
        cases hj : isJump e with
        | false => rfl
        | true =>
          refine absurd (Or.inr (Or.inr ?_)) h
          cases e with
          | other s' k t ps => refine ⟨s, s', k, t, ps, semi, rfl, ?_⟩; cases k <;> first | (cases hj; done) | simp
          | _ => cases hj
  · refine ⟨rfl, rfl, ⟨fun _ => ?_, fun _ => rfl⟩, ⟨fun _ => ?_, fun _ => ⟨rfl, rfl⟩⟩⟩
    · rintro ⟨_, _, h, _⟩; cases h
    · rintro (⟨_, _, _, h⟩ | ⟨_, _, h⟩ | ⟨_, _, _, _, _, _, h, _⟩) <;> cases h
  · refine ⟨rfl, rfl, ⟨fun _ => ?_, fun _ => rfl⟩, ⟨(fun h => by cases h.2), fun h => absurd (Or.inl ⟨s, t, ps, rfl⟩) h⟩⟩
    rintro ⟨_, _, h, _⟩; cases h
  · refine ⟨rfl, rfl, ⟨fun _ => ?_, fun _ => rfl⟩, ⟨(fun h => by cases h.2), fun h => absurd (Or.inr (Or.inl ⟨s, y, rfl⟩)) h⟩⟩
    rintro ⟨_, _, h, _⟩; cases h

theorem lower_span {p} {x : Syn} (h : ¬ Free x) : (lower L key p x).info.span = x.span := by
  cases x with
  | fn s n at_ sig b => exact absurd ⟨s, n, at_, sig, b, rfl⟩ h
  | _ => rw [lower]; rfl

/-! ## Parts -/

/-- Nodes of the generic visitor's trees that are neither statements nor calls nor tests. -/
def Fake (n : Node) : Prop := (∃ i m b, n = .field i m b) ∨ ∃ i cs, n = .other i cs

/-- `m` is `x` for the generic visitor, or stands before it. -/
def Rep (L : List Text → Text → Option Text) (key : Syn → Nat) (p : List Text) (x : Syn) (m : Node) : Prop :=
  m = lower L key p x ∨ (∃ i n, m = .field i n (lower L key p x)) ∨ ∃ i, m = .other i []

theorem Rep.of_mem {p} {xs : List Syn} {m : Node} (h : m ∈ lowerAll L key p xs) : ∃ y ∈ xs, Rep L key p y m := by
  rw [lowerAll_eq] at h
  obtain ⟨y, hy, rfl⟩ := List.mem_map.mp h
  exact ⟨y, hy, Or.inl rfl⟩

theorem lower_kids {p} {x : Syn} {m : Node} (h : m ∈ (lower L key p x).kids) :
    (¬ Free x ∧ ∃ y ∈ x.kids, Rep L key (enter p x) y m) ∨
    ∃ s n at_ sig b t, x = .fn s n at_ sig b ∧ TestAttrs at_ ∧ L p n = some t ∧ ∃ y ∈ sig ++ b, m = lower L key p y := by
  cases x with
  | ident s n => rw [lower] at h; cases h
  | mac s n t => rw [lower] at h; cases h
  | path s t ps => rw [lower] at h; exact Or.inl ⟨Free.not_of nofun, Rep.of_mem h⟩
  | other s k t ps => rw [lower] at h; exact Or.inl ⟨Free.not_of nofun, Rep.of_mem h⟩
  | local_ s t ps => rw [lower] at h; exact Or.inl ⟨Free.not_of nofun, Rep.of_mem h⟩
  | mod_ s n ps => rw [lower] at h; exact Or.inl ⟨Free.not_of nofun, Rep.of_mem h⟩
  | field s b n =>
    rw [lower] at h
    exact Or.inl ⟨Free.not_of nofun, b, by simp [Syn.kids], Or.inl (List.mem_singleton.mp h)⟩
  | await s b =>
    rw [lower] at h
    exact Or.inl ⟨Free.not_of nofun, b, by simp [Syn.kids], Or.inl (List.mem_singleton.mp h)⟩
  | item s b =>
    rw [lower] at h
    exact Or.inl ⟨Free.not_of nofun, b, by simp [Syn.kids], Or.inl (List.mem_singleton.mp h)⟩
  | expr s b semi =>
    rw [lower] at h
    exact Or.inl ⟨Free.not_of nofun, b, by simp [Syn.kids], Or.inl (List.mem_singleton.mp h)⟩
  | macStmt s n t =>
    rw [lower] at h
    exact Or.inl ⟨Free.not_of nofun, .mac s n t, by simp [Syn.kids], Or.inl (by rw [lower]; exact List.mem_singleton.mp h)⟩
  | call s f as =>
    rw [lower] at h
    refine Or.inl ⟨Free.not_of nofun, ?_⟩
    rcases List.mem_cons.mp h with h | h
    · refine ⟨f, by simp [Syn.kids], ?_⟩
      cases f with
      | ident s' n => exact Or.inr (Or.inr ⟨_, h⟩)
      | _ => exact Or.inl h
    · obtain ⟨y, hy, h⟩ := Rep.of_mem h
      exact ⟨y, by simp [Syn.kids, hy], h⟩
  | method s r n g as =>
    rw [lower] at h
    refine Or.inl ⟨Free.not_of nofun, ?_⟩
    rcases List.mem_cons.mp h with h | h
    · exact ⟨r, by simp [Syn.kids], Or.inr (Or.inl ⟨_, _, h⟩)⟩
    · rcases List.mem_append.mp h with h | h
      · obtain ⟨y, hy, h⟩ := Rep.of_mem h
        exact ⟨y, by simp [Syn.kids, hy], h⟩
      · obtain ⟨y, hy, h⟩ := Rep.of_mem h
        exact ⟨y, by simp [Syn.kids, hy], h⟩
  | implFn s n sig b =>
    rw [lower] at h
    refine Or.inl ⟨Free.not_of nofun, ?_⟩
    rcases List.mem_append.mp h with h | h
    · obtain ⟨y, hy, h⟩ := Rep.of_mem h
      exact ⟨y, by simp [Syn.kids, hy], h⟩
    · obtain ⟨y, hy, h⟩ := Rep.of_mem h
      exact ⟨y, by simp [Syn.kids, hy], h⟩
  | fn s n at_ sig b =>
    generalize hl : lower L key p (.fn s n at_ sig b) = z at h
    rw [lower] at hl
    split at hl
    · rename_i ht
      cases hln : L p n with
      | none => rw [hln] at hl; subst hl; cases h
      | some t =>
        rw [hln] at hl
        subst hl
        simp only [Node.kids, lowerAll_eq, ← List.map_append] at h
        obtain ⟨y, hy, rfl⟩ := List.mem_map.mp h
        exact Or.inr ⟨s, n, at_, sig, b, t, rfl, isTest_iff.mp ht, hln, y, hy, rfl⟩
    · subst hl; cases h

/-- Where the parts of the generic visitor's trees come from. -/
theorem sub_rep {m n : Node} (h : Sub m n) : ∀ {p x}, Rep L key p x m → ¬ Fake n →
    (∃ p' y, Inside p x p' y ∧ n = lower L key p' y) ∨
    ∃ p' s nm at_ sig b t, Inside p x p' (.fn s nm at_ sig b) ∧ TestAttrs at_ ∧ L p' nm = some t ∧ ∃ y ∈ sig ++ b, Sub (lower L key p' y) n := by
  induction h with
  | refl m =>
    intro p x hr hf
    rcases hr with rfl | ⟨i, n, rfl⟩ | ⟨i, rfl⟩
    · exact Or.inl ⟨p, x, .refl _ _, rfl⟩
    · exact absurd (Or.inl ⟨_, _, _, rfl⟩) hf
    · exact absurd (Or.inr ⟨_, _, rfl⟩) hf
  | @step m k n hk hs ih =>
    intro p x hr hf
    rcases hr with rfl | ⟨i, n', rfl⟩ | ⟨i, rfl⟩
    · rcases lower_kids hk with ⟨hx, y, hy, hrep⟩ | ⟨s, nm, at_, sig, b, t, rfl, ht, hl, y, hy, rfl⟩
      · rcases ih hrep hf with ⟨p', z, hz, rfl⟩ | ⟨p', s, nm, at_, sig, b, t, hz, h1, h2, h3⟩
        · exact Or.inl ⟨p', z, .step hx hy hz, rfl⟩
        · exact Or.inr ⟨p', s, nm, at_, sig, b, t, .step hx hy hz, h1, h2, h3⟩
      · exact Or.inr ⟨p, s, nm, at_, sig, b, t, .refl _ _, ht, hl, y, hy, hs⟩
    · cases List.mem_singleton.mp hk
      exact ih (Or.inl rfl) hf
    · cases hk

theorem sub_within {p} {x : Syn} {n : Node} (h : Sub (lower L key p x) n) (hx : NoTestFn x) (hf : ¬ Fake n) :
    ∃ p' y, Inside p x p' y ∧ n = lower L key p' y := by
  rcases sub_rep h (Or.inl rfl) hf with h | ⟨p', s, nm, at_, sig, b, t, hz, h1, _⟩
  · exact h
  · exact absurd ⟨s, nm, at_, sig, b, rfl, h1⟩ (hx _ hz.within)

/-! ## Calls -/

theorem isCall_lower {p} {x : Syn} : IsCall (lower L key p x) ↔ CallOrMacro x := by
  constructor
  · rintro (⟨i, cn, f, as, h⟩ | ⟨i, n, as, h⟩)
    · rcases lower_call_inv h with ⟨s, g, as', rfl, _⟩ | ⟨s, r, n, g, as', rfl, _⟩
      · exact Or.inl (Or.inl ⟨_, _, _, rfl⟩)
      · exact Or.inl (Or.inr ⟨_, _, _, _, _, rfl⟩)
    · obtain ⟨s, t, rfl, _⟩ := lower_macro_inv h
      exact Or.inr ⟨_, _, _, rfl⟩
  · rintro ((⟨s, f, as, rfl⟩ | ⟨s, r, n, g, as, rfl⟩) | ⟨s, n, t, rfl⟩)
    · rw [lower]; exact Or.inl ⟨_, _, _, _, rfl⟩
    · rw [lower]; exact Or.inl ⟨_, _, _, _, rfl⟩
    · rw [lower]; exact Or.inr ⟨_, _, _, rfl⟩

theorem call_lower {p} {x : Syn} : (∃ i cn f as, lower L key p x = .call i cn f as) ↔ Call x := by
  constructor
  · rintro ⟨i, cn, f, as, h⟩
    rcases lower_call_inv h with ⟨s, g, as', rfl, _⟩ | ⟨s, r, n, g, as', rfl, _⟩
    · exact Or.inl ⟨_, _, _, rfl⟩
    · exact Or.inr ⟨_, _, _, _, _, rfl⟩
  · rintro (⟨s, f, as, rfl⟩ | ⟨s, r, n, g, as, rfl⟩)
    · rw [lower]; exact ⟨_, _, _, _, rfl⟩
    · rw [lower]; exact ⟨_, _, _, _, rfl⟩

theorem Makes.head {p} {e c : Syn} (h : Makes e c) : Head (lower L key p e) (lower L key p c) := by
  obtain ⟨h1, h2⟩ := h
  induction h1 with
  | refl => exact .call (isCall_lower.mpr h2)
  | await _ ih => rw [lower]; exact .await (ih h2)
  | field _ ih => rw [lower]; exact .field (ih h2)

theorem head_makes {p} {n h : Node} (hh : Head n h) : ∀ {x}, n = lower L key p x → ∃ c, h = lower L key p c ∧ Makes x c := by
  induction hh with
  | call hc =>
    intro x hx
    subst hx
    exact ⟨x, rfl, .refl _, isCall_lower.mp hc⟩
  | await _ ih =>
    intro x hx
    obtain ⟨s, o, rfl, h⟩ := lower_await_inv hx.symm
    obtain ⟨c, h1, h2, h3⟩ := ih h
    exact ⟨c, h1, .await h2, h3⟩
  | field _ ih =>
    intro x hx
    obtain ⟨s, o, rfl, h⟩ := lower_field_inv hx.symm
    obtain ⟨c, h1, h2, h3⟩ := ih h
    exact ⟨c, h1, .field h2, h3⟩

theorem Selects.path {p} {x base : Syn} {q} (h : Selects x base q) : Path (lower L key p x) (lower L key p base) q := by
  induction h with
  | base h =>
    refine .base fun i n b hb => ?_
    obtain ⟨s, o, rfl, _⟩ := lower_field_inv hb
    exact h s o n rfl
  | field _ ih => rw [lower]; exact .field ih

theorem path_selects {p} {n b : Node} {q} (h : Path n b q) : ∀ {x}, n = lower L key p x →
    ∃ base, b = lower L key p base ∧ Selects x base q := by
  induction h with
  | base hb =>
    intro x hx
    subst hx
    refine ⟨x, rfl, .base ?_⟩
    rintro s o n rfl
    rw [lower] at hb
    exact hb _ _ _ rfl
  | field _ ih =>
    intro x hx
    obtain ⟨s, o, rfl, h⟩ := lower_field_inv hx.symm
    obtain ⟨base, h1, h2⟩ := ih h
    exact ⟨base, h1, .field h2⟩

theorem Method.low {p} {c base : Syn} {q} (h : Method c base q) : MethodCall (lower L key p c) (lower L key p base) q := by
  rcases h with ⟨s, r, n, g, as, q, rfl, hs, rfl⟩ | ⟨s, f, as, rfl, hs, hq⟩
  · exact ⟨by simp, _, _, _, _, by rw [lower], .field hs.path⟩
  · refine ⟨hq, _, _, _, _, by rw [lower], ?_⟩
    cases f with
    | ident s' n => cases hs; exact absurd rfl hq
    | _ => exact hs.path

theorem method_low {p} {c : Syn} {b q} (h : MethodCall (lower L key p c) b q) : ∃ base, b = lower L key p base ∧ Method c base q := by
  obtain ⟨hq, i, cn, f, as, h1, h2⟩ := h
  rcases lower_call_inv h1 with ⟨s, g, as', rfl, _, _, rfl, _⟩ | ⟨s, r, n, g, as', rfl, _, _, rfl, _⟩
  · have h2' : Path (lower L key p g) b q := by
      cases g with
      | ident s' n => cases h2; exact absurd rfl hq
      | _ => exact h2
    obtain ⟨base, h3, h4⟩ := path_selects h2' rfl
    exact ⟨base, h3, Or.inr ⟨s, g, as', rfl, h4, hq⟩⟩
  · cases h2 with
    | base h => exact absurd rfl (h _ _ _)
    | field h =>
      obtain ⟨base, h3, h4⟩ := path_selects h rfl
      exact ⟨base, h3, Or.inl ⟨s, r, n, g, as', _, rfl, h4, rfl⟩⟩

/-- What something is selected from. -/
theorem Selects.operand {x base : Syn} {q} (h : Selects x base q) : x = base ∨ ∃ y, Anywhere x y ∧ Operand y base := by
  induction h with
  | base _ => exact Or.inl rfl
  | @field s obj name base p h ih =>
    rcases ih with rfl | ⟨y, h1, h2⟩
    · exact Or.inr ⟨_, .refl _, Or.inl ⟨s, some name, rfl⟩⟩
    · exact Or.inr ⟨y, .step (by simp [Syn.kids]) h1, h2⟩

theorem Method.operand {c base : Syn} {q} (h : Method c base q) : ∃ y, Anywhere c y ∧ Operand y base := by
  rcases h with ⟨s, r, n, g, as, q, rfl, hs, rfl⟩ | ⟨s, f, as, rfl, hs, hq⟩
  · rcases hs.operand with rfl | ⟨y, h1, h2⟩
    · exact ⟨_, .refl _, Or.inr (Or.inr (Or.inr ⟨s, n, g, as, rfl⟩))⟩
    · exact ⟨y, .step (by simp [Syn.kids]) h1, h2⟩
  · rcases hs.operand with rfl | ⟨y, h1, h2⟩
    · exact ⟨_, .refl _, Or.inr (Or.inr (Or.inl ⟨s, as, rfl⟩))⟩
    · exact ⟨y, .step (by simp [Syn.kids]) h1, h2⟩

theorem callName_iff {f : Syn} {n} : callName f = some n ↔ PathOf f n := by
  constructor
  · intro h
    cases f with
    | ident s m => cases h; exact Or.inl ⟨s, rfl⟩
    | path s t ps => cases h; exact Or.inr ⟨s, ps, rfl⟩
    | _ => cases h
  · rintro (⟨s, rfl⟩ | ⟨s, ps, rfl⟩) <;> rfl

theorem PathOf.not_field {f : Syn} {n p} (h : PathOf f n) (i m b) : calleeOf f (lower L key p f) ≠ .field i m b := by
  rcases h with ⟨s, rfl⟩ | ⟨s, ps, rfl⟩
  · rw [calleeOf]; simp
  · rw [calleeOf, lower] <;> simp

theorem IgnoredFunction.low {p} {config} {c : Syn} (h : IgnoredFunction config c) :
    ∃ x, Innermost (lower L key p c) x ∧ Visit.IgnoredFunction config x := by
  induction h with
  | @function s f as name hp hi =>
    refine ⟨_, .here (isCall_lower.mpr (Or.inl (Or.inl ⟨s, f, as, rfl⟩))) ?_, ?_⟩
    · intro base q hm _
      obtain ⟨b, _, h⟩ := method_low hm
      rcases h with ⟨_, _, _, _, _, _, h, _⟩ | ⟨_, _, _, h, hs, hq⟩
      · cases h
      · cases h
        rcases hp with ⟨_, rfl⟩ | ⟨_, _, rfl⟩ <;> cases hs <;> exact hq rfl
    · rw [lower, callName_iff.mpr hp]
      exact .function (fun i m b => hp.not_field i _ b) hi
  | @macro_ s name t hi =>
    refine ⟨_, .here (isCall_lower.mpr (Or.inr ⟨s, name, t, rfl⟩)) ?_, by rw [lower]; exact .macro_ hi⟩
    intro base q hm _
    obtain ⟨b, _, h⟩ := method_low hm
    rcases h with ⟨_, _, _, _, _, _, h, _⟩ | ⟨_, _, _, h, hs, hq⟩ <;> cases h
  | @chain c base q hm hi ih =>
    obtain ⟨x, h3, h4⟩ := ih
    have hc : IsCall (lower L key p base) := by
      cases h3 with
      | here h _ => exact h
      | there h _ _ => obtain ⟨_, _, _, _, _, h, _⟩ := h; exact Or.inl ⟨_, _, _, _, h⟩
    exact ⟨x, .there hm.low hc h3, h4⟩

theorem calleeOf_name {p} {f : Syn} {n} : (calleeOf f (lower L key p f)).info.name = some n ↔ Named f n := by
  constructor
  · intro h
    cases f with
    | ident s m => cases h; exact Or.inl ⟨s, rfl⟩
    | call s g as =>
      rw [calleeOf, lower] at h
      · exact Or.inr (Or.inl ⟨s, g, as, rfl, callName_iff.mp h⟩)
      · simp
    | method s r m g as =>
      rw [calleeOf, lower] at h
      · cases h; exact Or.inr (Or.inr (Or.inl ⟨s, r, g, as, rfl⟩))
      · simp
    | mac s m t =>
      rw [calleeOf, lower] at h
      · cases h; exact Or.inr (Or.inr (Or.inr (Or.inl ⟨s, t, rfl⟩)))
      · simp
    | field s b m =>
      rw [calleeOf, lower] at h
      · have h : m = some n := h
        subst h
        exact Or.inr (Or.inr (Or.inr (Or.inr ⟨s, b, rfl⟩)))
      · simp
    | fn s m at_ sig b =>
      rw [calleeOf, lower] at h
      · split at h
        · split at h <;> cases h
        · cases h
      · simp
    | _ => rw [calleeOf, lower] at h <;> first | (cases h; done) | simp
  · rintro (⟨s, rfl⟩ | ⟨s, g, as, rfl, h⟩ | ⟨s, r, g, as, rfl⟩ | ⟨s, t, rfl⟩ | ⟨s, b, rfl⟩)
    · rfl
    · rw [calleeOf, lower]
      · exact callName_iff.mpr h
      · simp
    all_goals (rw [calleeOf, lower]; first | rfl | simp)
    all_goals simp

/-- Only calls and macros have names. -/
theorem lower_name {p} {x : Syn} {n} (h : (lower L key p x).info.name = some n) : CallOrMacro x ∨ ∃ s b, x = .field s b (some n) := by
  cases x with
  | call s g as => exact Or.inl (Or.inl (Or.inl ⟨_, _, _, rfl⟩))
  | method s r m g as => exact Or.inl (Or.inl (Or.inr ⟨_, _, _, _, _, rfl⟩))
  | mac s m t => exact Or.inl (Or.inr ⟨_, _, _, rfl⟩)
  | field s b m =>
    rw [lower] at h
    have h : m = some n := h
    subst h
    exact Or.inr ⟨s, b, rfl⟩
  | fn s m at_ sig b =>
    rw [lower] at h
    split at h
    · split at h <;> cases h
    · cases h
  | _ => rw [lower] at h; cases h

theorem Selects.base_not_field {x base : Syn} {q} (h : Selects x base q) : ∀ s o n, base ≠ .field s o (some n) := by
  induction h with
  | base h => exact h
  | field _ ih => exact ih

theorem Method.base_not_field {c base : Syn} {q} (h : Method c base q) : ∀ s o n, base ≠ .field s o (some n) := by
  rcases h with ⟨_, _, _, _, _, _, _, hs, _⟩ | ⟨_, _, _, _, hs, _⟩ <;> exact hs.base_not_field

theorem ignoredFunction_low {p} {config n x} (h : Innermost n x) (hi : Visit.IgnoredFunction config x) :
    ∀ {c}, n = lower L key p c → IgnoredFunction config c := by
  induction h with
  | here hc hno =>
    intro c hn
    subst hn
    generalize hn : lower L key p c = n at hi hno
    cases hi with
    | @function i name callee args hnf hi =>
      rcases lower_call_inv hn with ⟨s, g, as, rfl, _, h1, _, _⟩ | ⟨s, r, m, g, as, rfl, _, _, rfl, _⟩
      · exact .function (callName_iff.mp h1.symm) hi
      · exact absurd rfl (hnf _ _ _)
    | macro_ hi =>
      obtain ⟨s, t, rfl, _⟩ := lower_macro_inv hn
      exact .macro_ hi
    | @path _ base q name hm hb hname hi =>
      subst hn
      obtain ⟨base', rfl, h2⟩ := method_low hm
      rcases lower_name hname with h | ⟨s, b, rfl⟩
      · exact absurd (isCall_lower.mpr h) hb
      · exact absurd rfl (h2.base_not_field _ _ _)
  | there hm _ _ ih =>
    intro c hn
    subst hn
    obtain ⟨base', hb, h2⟩ := method_low hm
    exact .chain h2 (ih hi hb)

/-- Ignored calls are the ignored calls. -/
theorem ignored_iff {p} {config} {c : Syn} : IgnoredCall config (lower L key p c) ↔ Ignored config c := by
  constructor
  · rintro (⟨x, h1, h2⟩ | ⟨base, q, h1, h2, h3⟩)
    · exact Or.inl (ignoredFunction_low h1 h2 rfl)
    · obtain ⟨base', rfl, a2⟩ := method_low h1
      refine Or.inr ⟨base', q, a2, fun hc => ?_, h2⟩
      obtain ⟨i, cn, f, as, h⟩ := call_lower (L := L) (key := key) (p := p).mpr hc
      exact h3 _ _ _ _ h
  · rintro (h | ⟨base, q, h1, h2, h3⟩)
    · exact Or.inl h.low
    · exact Or.inr ⟨_, q, h1.low, h3, fun i cn callee args h => h2 (call_lower.mp ⟨_, _, _, _, h⟩)⟩

theorem hidden_iff {p} {config} {c : Syn} : Hidden config c ↔
    config.visitIgnoredArguments = false ∧ Visit.Ignored config (lower L key p c) := by
  unfold Hidden Visit.Ignored
  rw [ignored_iff]
  refine and_congr_right fun _ => or_congr_right ?_
  constructor
  · rintro ⟨base, q, h, hi⟩; exact ⟨_, q, h.low, hi⟩
  · rintro ⟨b, q, h, hi⟩
    obtain ⟨base, _, h⟩ := method_low h
    exact ⟨base, q, h, hi⟩

/-! ## Functions -/

theorem fnsAll_eq (xs : List Syn) : fnsAll xs = xs.flatMap fns := by
  induction xs with
  | nil => rw [fnsAll]; rfl
  | cons x xs ih => rw [fnsAll, ih]; rfl

theorem fns_kids {x : Syn} (h : ¬ Free x) (h' : ∀ s n sig b, x ≠ .implFn s n sig b) : fns x = x.kids.flatMap fns := by
  cases x with
  | fn s n at_ sig b => exact absurd ⟨s, n, at_, sig, b, rfl⟩ h
  | implFn s n sig b => exact absurd rfl (h' s n sig b)
  | macStmt s n t => rw [fns]; simp [Syn.kids, fns]
  | _ => rw [fns]; simp [Syn.kids, fnsAll_eq]

theorem outer_fns {x y : Syn} (h : Outer x y) : ∀ d ∈ fns y, d ∈ fns x := by
  induction h with
  | refl t => exact fun d h => h
  | step hf hi hk _ ih =>
    intro d hd
    rw [fns_kids hf hi]
    exact List.mem_flatMap.mpr ⟨_, hk, ih d hd⟩

theorem function_fns {file : Syn} {name b} (h : Function file name b) : ⟨name, b⟩ ∈ fns file := by
  rcases h with ⟨s, at_, sig, h, ht⟩ | ⟨s, sig, h⟩
  · refine outer_fns h _ ?_
    rw [fns, if_neg (by rw [isTest_iff]; exact ht)]
    simp
  · refine outer_fns h _ ?_
    rw [fns]; simp

theorem sizeOf_kid {x y : Syn} (h : y ∈ x.kids) (h' : ∀ s n t, x ≠ .macStmt s n t) : sizeOf y < sizeOf x := by
  have ml : ∀ {l : List Syn}, y ∈ l → sizeOf y < sizeOf l := fun h => List.sizeOf_lt_of_mem h
  cases x with
  | ident => cases h
  | mac => cases h
  | macStmt s n t => exact absurd rfl (h' s n t)
  | path s t ps => have := ml (show y ∈ ps from h); simp only [Syn.path.sizeOf_spec]; omega
  | other s k t ps => have := ml (show y ∈ ps from h); simp only [Syn.other.sizeOf_spec]; omega
  | local_ s t ps => have := ml (show y ∈ ps from h); simp only [Syn.local_.sizeOf_spec]; omega
  | mod_ s t ps => have := ml (show y ∈ ps from h); simp only [Syn.mod_.sizeOf_spec]; omega
  | field s b n => cases List.mem_singleton.mp h; simp only [Syn.field.sizeOf_spec]; omega
  | await s b => cases List.mem_singleton.mp h; simp only [Syn.await.sizeOf_spec]; omega
  | item s b => cases List.mem_singleton.mp h; simp only [Syn.item.sizeOf_spec]; omega
  | expr s b semi => cases List.mem_singleton.mp h; simp only [Syn.expr.sizeOf_spec]; omega
  | call s f as =>
    simp only [Syn.kids, List.mem_cons] at h
    simp only [Syn.call.sizeOf_spec]
    rcases h with rfl | h
    · omega
    · have := ml h; omega
  | method s r n g as =>
    simp only [Syn.kids, List.mem_cons, List.mem_append] at h
    simp only [Syn.method.sizeOf_spec]
    rcases h with rfl | h | h
    · omega
    · have := ml h; omega
    · have := ml h; omega
  | fn s n at_ sig b =>
    simp only [Syn.kids, List.mem_append] at h
    simp only [Syn.fn.sizeOf_spec]
    rcases h with h | h
    · have := ml h; omega
    · have := ml h; omega
  | implFn s n sig b =>
    simp only [Syn.kids, List.mem_append] at h
    simp only [Syn.implFn.sizeOf_spec]
    rcases h with h | h
    · have := ml h; omega
    · have := ml h; omega

theorem fns_outer (d : Fn) (x : Syn) (h : d ∈ fns x) :
    ∃ y, Outer x y ∧ ((∃ s at_ sig, y = .fn s d.name at_ sig d.body ∧ ¬ TestAttrs at_) ∨ ∃ s sig, y = .implFn s d.name sig d.body) := by
  by_cases hx : Free x
  · obtain ⟨s, n, at_, sig, b, rfl⟩ := hx
    rw [fns] at h
    split at h
    · cases h
    · rename_i ht
      cases List.mem_singleton.mp h
      exact ⟨_, .refl _, Or.inl ⟨s, at_, sig, rfl, fun h => ht (isTest_iff.mpr h)⟩⟩
  · by_cases hi : ∃ s n sig b, x = .implFn s n sig b
    · obtain ⟨s, n, sig, b, rfl⟩ := hi
      rw [fns] at h
      cases List.mem_singleton.mp h
      exact ⟨_, .refl _, Or.inr ⟨s, sig, rfl⟩⟩
    · have hi : ∀ s n sig b, x ≠ .implFn s n sig b := fun s n sig b h => hi ⟨s, n, sig, b, h⟩
      by_cases hm : ∃ s n t, x = .macStmt s n t
      · obtain ⟨s, n, t, rfl⟩ := hm
        rw [fns] at h; cases h
      · rw [fns_kids hx hi] at h
        obtain ⟨y, hy, h⟩ := List.mem_flatMap.mp h
        have := sizeOf_kid hy fun s n t h => hm ⟨s, n, t, h⟩
        obtain ⟨z, h1, h2⟩ := fns_outer d y h
        exact ⟨z, .step hx hi hy h1, h2⟩
termination_by sizeOf x

theorem fns_function {file : Syn} {d : Fn} (h : d ∈ fns file) : Function file d.name d.body := by
  obtain ⟨y, h1, ⟨s, at_, sig, rfl, h2⟩ | ⟨s, sig, rfl⟩⟩ := fns_outer d file h
  · exact Or.inl ⟨s, at_, sig, h1, h2⟩
  · exact Or.inr ⟨s, sig, h1⟩

theorem Function.anywhere {file : Syn} {name b x} (h : Function file name b) (hx : x ∈ b) : Anywhere file x := by
  rcases h with ⟨s, at_, sig, h, _⟩ | ⟨s, sig, h⟩
  · exact h.within.anywhere.trans (.kid (by simp [Syn.kids, hx]))
  · exact h.within.anywhere.trans (.kid (by simp [Syn.kids, hx]))

/-- There is no test in a function. -/
theorem Function.noTest {file : Syn} {bkey name b x} (hr : Regular bkey file) (h : Function file name b) (hx : x ∈ b) : NoTestFn x := by
  intro y hy
  rcases h with ⟨s, at_, sig, h, _⟩ | ⟨s, sig, h⟩
  · exact hr.flat _ _ _ _ _ h.within.anywhere y ⟨x, by simp [hx], hy⟩
  · exact hr.flatImpl _ _ _ _ h.within.anywhere y ⟨x, by simp [hx], hy⟩

/-- Without tests, it does not matter which are listed, nor in which modules we are. -/
theorem lower_free {L' : List Text → Text → Option Text} : ∀ (x : Syn) (p q : List Text), NoTestFn x →
    lower L key p x = lower L' key q x := by
  have ml : ∀ {x : Syn} {l : List Syn}, x ∈ l → sizeOf x < sizeOf l := fun h => List.sizeOf_lt_of_mem h
  intro x
  induction hn : sizeOf x using Nat.strongRecOn generalizing x with
  | _ k ih =>
    subst hn
    intro p q hx
    have kid : ∀ y ∈ x.kids, ¬ Free x → (∀ s n t, x ≠ .macStmt s n t) → ∀ p q, lower L key p y = lower L' key q y :=
      fun y hy hf hm p q => ih (sizeOf y) (sizeOf_kid hy hm) y rfl p q (hx.kid hf hy)
    have all : ∀ l : List Syn, (∀ y ∈ l, y ∈ x.kids) → ¬ Free x → (∀ s n t, x ≠ .macStmt s n t) → ∀ p q,
        lowerAll L key p l = lowerAll L' key q l := by
      intro l hl hf hm p q
      rw [lowerAll_eq, lowerAll_eq]
      exact List.map_congr_left fun y hy => kid y (hl y hy) hf hm p q
    cases x with
    | ident s n => rw [lower, lower]
    | mac s n t => rw [lower, lower]
    | macStmt s n t => rw [lower, lower]
    | path s t ps => rw [lower, lower, all ps (fun _ h => h) (Free.not_of nofun) nofun p q]
    | other s k t ps => rw [lower, lower, all ps (fun _ h => h) (Free.not_of nofun) nofun p q]
    | local_ s t ps => rw [lower, lower, all ps (fun _ h => h) (Free.not_of nofun) nofun p q]
    | mod_ s n ps => rw [lower, lower, all ps (fun _ h => h) (Free.not_of nofun) nofun]
    | field s b n => rw [lower, lower, kid b (by simp [Syn.kids]) (Free.not_of nofun) nofun p q]
    | await s b => rw [lower, lower, kid b (by simp [Syn.kids]) (Free.not_of nofun) nofun p q]
    | item s b => rw [lower, lower, kid b (by simp [Syn.kids]) (Free.not_of nofun) nofun p q]
    | expr s b semi => rw [lower, lower, kid b (by simp [Syn.kids]) (Free.not_of nofun) nofun p q]
    | call s f as =>
      rw [lower, lower, kid f (by simp [Syn.kids]) (Free.not_of nofun) nofun p q,
        all as (fun y h => by simp [Syn.kids, h]) (Free.not_of nofun) nofun p q]
    | method s r n g as =>
      rw [lower, lower, kid r (by simp [Syn.kids]) (Free.not_of nofun) nofun p q,
        all as (fun y h => by simp [Syn.kids, h]) (Free.not_of nofun) nofun p q,
        all g (fun y h => by simp [Syn.kids, h]) (Free.not_of nofun) nofun p q]
    | implFn s n sig b =>
      rw [lower, lower, all sig (fun y h => by simp [Syn.kids, h]) (Free.not_of nofun) nofun p q,
        all b (fun y h => by simp [Syn.kids, h]) (Free.not_of nofun) nofun p q]
    | fn s n at_ sig b =>
      have : isTest at_ ≠ true := fun h => hx _ (.refl _) ⟨s, n, at_, sig, b, rfl, isTest_iff.mp h⟩
      rw [lower, lower, if_neg this, if_neg this]

theorem lowerAll_free {L' : List Text → Text → Option Text} (xs : List Syn) (p q : List Text) (h : ∀ x ∈ xs, NoTestFn x) :
    lowerAll L key p xs = lowerAll L' key q xs := by
  rw [lowerAll_eq, lowerAll_eq]
  exact List.map_congr_left fun y hy => lower_free y p q (h y hy)

end Necessist.Rs
