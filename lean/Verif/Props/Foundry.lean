import Verif.Lemmas.FoundrySpec
import Verif.Props.VisitorDemo
import Verif.Props.Columns
import Verif.Props.Directives
/-!
# Foundry (C55)
-/
namespace Necessist.Foundry
open Visit (Node VCfg VState LocalFn Visited Sub Held Seen IsWalkable KeysFaithful World InTest InFn Calls walkList nextLocalFunction
  localLoop Inv lookup_walkableOf walkableOf_lookup walkableOf filter_lookup byName_lookup)
open Columns

section
variable {c : Ctx} {config : Compiled} {skip : Span → Bool} {trim : Span → Span} {items : List Item}

local notation "VC" => visitorCfg c config skip trim items
local notation "TR" => List.flatMap (lowerItem c) items

/-! ## Local functions -/

theorem fns_mem {name f} (h : (name, f) ∈ fns items) : .fn f ∈ items ∧ f.name = some name ∧ f.pure_ = false := by
  obtain ⟨it, hit, h⟩ := List.mem_filterMap.mp h
  cases it with
  | expr e => cases h
  | fn g =>
    simp only [] at h
    cases hn : g.name with
    | none => rw [hn] at h; cases h
    | some n =>
      rw [hn] at h
      simp only [] at h
      cases hp : g.pure_ with
      | true => rw [hp] at h; cases h
      | false => rw [hp] at h; cases h; exact ⟨hit, hn, hp⟩

theorem fns_cons (it : Item) (is : List Item) :
    (fns (it :: is) = fns is ∧ ∀ f name, it = .fn f → f.name = some name → f.pure_ = true) ∨
    ∃ f name, it = .fn f ∧ f.name = some name ∧ f.pure_ = false ∧ fns (it :: is) = (name, f) :: fns is := by
  cases it with
  | expr e => exact Or.inl ⟨rfl, nofun⟩
  | fn f =>
    cases hn : f.name with
    | none => refine Or.inl ⟨by simp [fns, hn], ?_⟩; intro g name h h'; cases h; rw [hn] at h'; cases h'
    | some name =>
      cases hp : f.pure_ with
      | true => refine Or.inl ⟨by simp [fns, hn, hp], ?_⟩; intro g name h h'; cases h; exact hp
      | false => exact Or.inr ⟨f, name, rfl, hn, hp, by simp [fns, hn, hp]⟩

theorem defines_iff {name f} : Defines items name f ↔ ∃ rest, (fns items).filter (fun d => d.1 == name) = (name, f) :: rest := by
  induction items with
  | nil =>
    constructor
    · rintro ⟨before, after, h, _⟩; cases before <;> cases h
    · rintro ⟨_, h⟩; cases h
  | cons it is ih =>
    rcases fns_cons it is with ⟨h1, h2⟩ | ⟨g, n, rfl, hn, hp, h1⟩
    · rw [h1, ← ih]
      constructor
      · rintro ⟨before, after, h3, h4, h5, h6⟩
        cases before with
        | nil =>
          cases h3
          rw [h2 f name rfl h4] at h5; cases h5
        | cons b before =>
          cases h3
          exact ⟨before, after, rfl, h4, h5, fun g hg => h6 g (by simp [hg])⟩
      · rintro ⟨before, after, rfl, h4, h5, h6⟩
        refine ⟨it :: before, after, rfl, h4, h5, fun g hg hgn => ?_⟩
        rcases List.mem_cons.mp hg with rfl | hg
        · exact h2 g name rfl hgn
        · exact h6 g hg hgn
    · rw [h1, List.filter_cons]
      by_cases hnn : n = name
      · subst hnn
        simp only [beq_self_eq_true, if_true]
        constructor
        · rintro ⟨before, after, h3, h4, h5, h6⟩
          cases before with
          | nil => cases h3; exact ⟨_, rfl⟩
          | cons b before =>
            cases h3
            rw [h6 g (by simp) hn] at hp; cases hp
        · rintro ⟨rest, h⟩
          cases h
          exact ⟨[], is, rfl, hn, hp, fun g hg => by cases hg⟩
      · have : (n == name) = false := by simp [hnn]
        simp only [this, Bool.false_eq_true, if_false]
        rw [← ih]
        constructor
        · rintro ⟨before, after, h3, h4, h5, h6⟩
          cases before with
          | nil => cases h3; rw [hn] at h4; cases h4; exact absurd rfl hnn
          | cons b before =>
            cases h3
            exact ⟨before, after, rfl, h4, h5, fun g hg => h6 g (by simp [hg])⟩
        · rintro ⟨before, after, rfl, h4, h5, h6⟩
          refine ⟨.fn g :: before, after, rfl, h4, h5, fun g' hg hgn => ?_⟩
          rcases List.mem_cons.mp hg with h | hg
          · cases h; rw [hn] at hgn; cases hgn; exact absurd rfl hnn
          · exact h6 g' hg hgn

theorem walkable_lookup {name g gs} (h : (VC).walkable.lookup name = some (g :: gs)) :
    ∃ f, Local config items name f ∧ g = localFn c f := by
  simp only [visitorCfg, walkableOf] at h
  rw [filter_lookup, byName_lookup] at h
  split at h
  · rename_i hw
    rw [localFns, List.filter_map] at h
    have hcomp : ((fun d : Text × LocalFn => d.1 == name) ∘ fun d : Text × Fn => (d.1, localFn c d.2)) = fun d => d.1 == name := rfl
    rw [hcomp] at h
    cases hl : (fns items).filter (fun d => d.1 == name) with
    | nil => rw [hl] at h; cases h
    | cons d ds =>
      rw [hl] at h
      have hd : d.1 = name := by
        have : d ∈ (fns items).filter (fun d => d.1 == name) := by rw [hl]; simp
        simpa using (List.mem_filter.mp this).2
      obtain ⟨n, f⟩ := d
      cases hd
      cases h
      exact ⟨f, ⟨defines_iff.mpr ⟨ds, hl⟩, hw⟩, rfl⟩
  · cases h

theorem Local.lookup {name f} (h : Local config items name f) : ∃ gs, (VC).walkable.lookup name = some (localFn c f :: gs) := by
  obtain ⟨h1, h2⟩ := h
  obtain ⟨rest, h3⟩ := defines_iff.mp h1
  simp only [visitorCfg, walkableOf]
  rw [filter_lookup, if_pos h2, byName_lookup, localFns, List.filter_map]
  have hcomp : ((fun d : Text × LocalFn => d.1 == name) ∘ fun d : Text × Fn => (d.1, localFn c d.2)) = fun d => d.1 == name := rfl
  rw [hcomp, h3]
  exact ⟨_, rfl⟩

theorem Local.mem {name f} (h : Local config items name f) : .fn f ∈ items ∧ f.name = some name ∧ f.pure_ = false := by
  obtain ⟨⟨before, after, rfl, h1, h2, _⟩, _⟩ := h
  exact ⟨by simp, h1, h2⟩

theorem isWalkable_fn {g} (h : IsWalkable VC g) : ∃ name f, Local config items name f ∧ g = localFn c f := by
  obtain ⟨name, gs, h⟩ := h
  obtain ⟨f, h1, h2⟩ := walkable_lookup h
  exact ⟨name, f, h1, h2⟩

section
variable (hfn : FnsApart c items)
include hfn

theorem keysFaithful : KeysFaithful VC := by
  intro f g hf hg hk
  obtain ⟨_, d, hd, rfl⟩ := isWalkable_fn hf
  obtain ⟨_, e, he, rfl⟩ := isWalkable_fn hg
  rw [hfn d e hd.mem.1 he.mem.1 hk]

theorem loop_eq (rounds : Nat) (st : VState) (w : List LocalFn) (hi : Inv VC st) :
    loop c VC (fns items) rounds st w = localLoop VC rounds st w := by
  induction rounds generalizing st w with
  | zero => rw [loop, localLoop]; cases nextLocalFunction st <;> rfl
  | succ rounds ih =>
    rw [loop, localLoop]
    cases hn : nextLocalFunction st with
    | none => rfl
    | some r =>
      obtain ⟨f, st1⟩ := r
      obtain ⟨_, _, _, _, _, hw, _⟩ := hi.round hn
      obtain ⟨name, d, hd, rfl⟩ := isWalkable_fn hw
      obtain ⟨hdm, hdn, hdp⟩ := hd.mem
      have hdf : (name, d) ∈ fns items :=
        List.mem_filterMap.mpr ⟨_, hdm, by simp [hdn, hdp]⟩
      have he : ∃ n, (fns items).find? (fun d' => c.fnKey d'.2 == (localFn c d).key) = some (n, d) := by
        cases hfi : (fns items).find? (fun d' => c.fnKey d'.2 == (localFn c d).key) with
        | none =>
          have := List.find?_eq_none.mp hfi _ hdf
          simp [localFn] at this
        | some e =>
          have h1 := List.find?_some hfi
          have h2 := List.mem_of_find?_eq_some hfi
          obtain ⟨n, e⟩ := e
          have := hfn e d (fns_mem h2).1 hdm (by simpa [localFn] using h1)
          exact ⟨n, by rw [this]⟩
      obtain ⟨n, he⟩ := he
      simp only [he, visitFn_eq (c := c) (cfg := VC) rfl rfl]
      cases hwl : walkList VC (lowerFn c d) st1 with
      | none => simp only [localFn, hwl]
      | some st2 =>
        simp only [localFn, hwl]
        exact ih st2 _ (Visit.round_eff hi hn hwl).2

/-- The whole visit is that of the generic visitor. -/
theorem refines (rounds : Nat) : visit c config skip trim rounds items = Visit.visitFile VC rounds TR := by
  unfold visit Visit.visitFile
  simp only []
  rw [visitItems_eq (c := c) (cfg := VC) rfl rfl]
  cases hw : walkList VC TR {} with
  | none => rfl
  | some st => exact loop_eq hfn rounds st [] (Visit.file_eff hw).2.1

end

/-! ## Back to the file -/

/-- The tests that the visitor sees are the file's tests. -/
theorem world_test {t last cs} (h : World VC TR (.test t last cs)) :
    ∃ f l ss, Test items t f ∧ f.body = some (.block l ss) ∧ last = lastKey c ss ∧ cs = lowerFn c f := by
  rcases h with ⟨r, hr, hs⟩ | ⟨g, hg, r, hr, hs⟩
  · obtain ⟨it, hit, hr⟩ := List.mem_flatMap.mp hr
    cases it with
    | expr e =>
      simp only [lowerItem, List.mem_singleton] at hr
      subst hr
      exact absurd hs expr_noTest
    | fn f =>
      simp only [lowerItem] at hr
      cases ht : testOf f with
      | none => rw [ht] at hr; simp at hr
      | some p =>
        obtain ⟨name, ss⟩ := p
        rw [ht] at hr
        simp only [List.mem_singleton] at hr
        subst hr
        obtain ⟨h1, l, h2⟩ := testOf_iff.1 ht
        cases hs with
        | refl => exact ⟨f, l, ss, ⟨hit, h1⟩, h2, rfl, rfl⟩
        | step hk hs => exact absurd hs (fn_noTest hk)
  · obtain ⟨_, f, hf, rfl⟩ := isWalkable_fn hg
    exact absurd hs (fn_noTest hr)

theorem inTest {t last n} (h : InTest VC TR t last n) :
    config.isIgnoredTest t = false ∧ ∃ f l ss, Test items t f ∧ f.body = some (.block l ss) ∧ last = lastKey c ss ∧
      ∃ m ∈ lowerFn c f, Held VC m n := by
  obtain ⟨h1, cs, h2, h3⟩ := h
  obtain ⟨f, l, ss, h4, h5, h6, rfl⟩ := world_test h2
  exact ⟨h1, f, l, ss, h4, h5, h6, h3⟩

/-- Where what the visitor sees in a test or a walked function comes from. -/
theorem covered {t last n} {walked : List LocalFn}
    (h : InTest VC TR t last n ∨ ∃ f ∈ walked, IsWalkable VC f ∧ InFn VC f n) :
    ∃ f, .fn f ∈ items ∧ f.pure_ = false ∧
      ((IsTest f t ∧ ∃ l ss, f.body = some (.block l ss) ∧ last = lastKey c ss) ∨ localFn c f ∈ walked) ∧
      ∃ m ∈ lowerFn c f, Held VC m n := by
  rcases h with h | ⟨g, hg, hw, hs⟩
  · obtain ⟨_, f, l, ss, h4, h5, h6, h7⟩ := inTest h
    exact ⟨f, h4.1, h4.2.2.2.1, Or.inl ⟨h4.2, l, ss, h5, h6⟩, h7⟩
  · obtain ⟨name, f, hf, rfl⟩ := isWalkable_fn hw
    exact ⟨f, hf.mem.1, hf.mem.2.2, Or.inr hg, hs⟩

/-- **C55.** Every statement candidate is a statement of a test, or of a walked function, that is neither immediately after a use of
`vm.prank` or of `vm.expect…`, nor within such a statement, and that is no `emit` (nor other control statement). Its span extends
over its semicolon. -/
theorem C55_statements {rounds st walked span t} (hfn : FnsApart c items)
    (h : visit c config skip trim rounds items = .done st walked) (hc : (span, t) ∈ st.statements) :
    ∃ f x, .fn f ∈ items ∧ f.pure_ = false ∧ ((IsTest f t ∧ ¬ Last f x) ∨ localFn c f ∈ walked) ∧
      HasStmt f x ∧ ¬ x.IsBlock ∧ ¬ x.IsControl ∧ span = toSpan c (withSemicolon c.contents x.loc) := by
  rw [refines hfn] at h
  obtain ⟨last, n, s, h1, h2, h3, h4⟩ := Visit.C35_sound h hc
  obtain ⟨f, hf, hp, ht, m, hm, hn⟩ := covered (h1.imp id And.right)
  have hctl : s.control = false ∨ ∃ e, n = .exprStmt s e := h4.imp (·.2.1) fun ⟨e, _, h, _⟩ => ⟨e, h⟩
  rcases fn_stmt hm hn h2.1 with ⟨rfl, rfl⟩ | ⟨x, h5, h6, h7, rfl⟩
  · exfalso
    rcases hctl with h | ⟨_, h⟩ <;> cases h
  · refine ⟨f, x, hf, hp, ht.imp (fun ⟨a1, l, ss, a2, a3⟩ => ⟨a1, fun hl => h2.2.2.1 (by rw [a3, hl.key a2]; rfl)⟩) id, h5, h6, ?_, h3.symm⟩
    rintro ⟨l, es, rfl⟩
    rcases hctl with h | ⟨e, rfl⟩
    · cases h
    · rw [lowerStmt] at h7; cases h7

/-- **C55.** Every method call candidate is a call `base.p₁.….pₖ(…)` (or `base.p₁.….pₖ{…}(…)`), in a test or walked function, that is
not in a statement immediately after a use of `vm.prank` or of `vm.expect…`. -/
theorem C55_methods {rounds st walked span t} (hfn : FnsApart c items)
    (h : visit c config skip trim rounds items = .done st walked) (hc : (span, t) ∈ st.methodCalls) :
    ∃ f e x base p, .fn f ∈ items ∧ f.pure_ = false ∧ (IsTest f t ∨ localFn c f ∈ walked) ∧
      HasExpr f e ∧ Evaluated e x ∧ Method x base p ∧
      span = trim ⟨c.file, offsetToLineColumn c.contents base.loc.stop, offsetToLineColumn c.contents x.loc.stop⟩ := by
  rw [refines hfn] at h
  obtain ⟨_, n, i, base, p, cn, callee, args, h1, h2, h3, _, _, h4⟩ := Visit.C37_methods h hc
  have h2 : ∃ last, InTest VC TR t last n ∨ ∃ f ∈ walked, IsWalkable VC f ∧ InFn VC f n := by
    rcases h2 with ⟨last, h2⟩ | ⟨f, hf, hw, h2⟩
    · exact ⟨last, Or.inl h2.inTest⟩
    · exact ⟨none, Or.inr ⟨f, hf, hw, h2.inFn⟩⟩
  obtain ⟨last, h2⟩ := h2
  obtain ⟨f, hf, hp, ht, m, hm, hn⟩ := covered h2
  obtain ⟨e, x, h5, h6, h7⟩ := fn_call rfl hm hn (Or.inl ⟨_, _, _, _, h1⟩)
  rw [h7] at h3
  obtain ⟨b, rfl, h8⟩ := method_low h3
  refine ⟨f, e, x, b, p, hf, hp, ht.imp And.left id, h5, h6, h8, ?_⟩
  obtain ⟨l, g, as, rfl, rfl, _⟩ := lower_isCall (h7.symm.trans h1)
  rw [h4, lower_span]
  rfl

theorem encode_first (c : Char) : ∃ b rest, String.utf8EncodeChar c = b :: rest ∧
    ((b.toNat = c.toNat ∧ c.toNat < 128 ∧ rest = []) ∨ (128 ≤ b.toNat ∧ 128 ≤ c.toNat)) := by
  unfold String.utf8EncodeChar
  have hv : c.val.toNat = c.toNat := rfl
  dsimp only
  split
  · exact ⟨_, _, rfl, Or.inl ⟨by simp; omega, by omega, rfl⟩⟩
  · split
    · refine ⟨_, _, rfl, Or.inr ⟨?_, by omega⟩⟩
      simp; omega
    · split
      · refine ⟨_, _, rfl, Or.inr ⟨?_, by omega⟩⟩
        simp; omega
      · refine ⟨_, _, rfl, Or.inr ⟨?_, by omega⟩⟩
        simp; omega

theorem bytes_append (a b : Text) : bytes (a ++ b) = bytes a ++ bytes b := by simp [bytes]

theorem bytes_length (a : Text) : (bytes a).length = byteLen a := by
  induction a with
  | nil => rfl
  | cons c a ih => rw [byteLen_cons, ← ih]; simp [bytes]

/-- ASCII whitespace characters. -/
def AsciiSpace (c : Char) : Prop := c = ' ' ∨ c = '\t' ∨ c = '\n' ∨ c = '\x0c' ∨ c = '\r'

theorem bytes_space (ws : Text) (h : ∀ c ∈ ws, AsciiSpace c) : ∀ b ∈ bytes ws, isAsciiSpace b = true := by
  intro b hb
  simp only [bytes, List.mem_flatMap] at hb
  obtain ⟨c, hc, hb⟩ := hb
  rcases h c hc with rfl | rfl | rfl | rfl | rfl <;> revert b <;> decide

theorem isAsciiSpace_iff (b : UInt8) : isAsciiSpace b = true ↔
    b.toNat = 9 ∨ b.toNat = 10 ∨ b.toNat = 12 ∨ b.toNat = 13 ∨ b.toNat = 32 := by
  unfold isAsciiSpace
  simp only [Bool.or_eq_true, beq_iff_eq, ← UInt8.toNat_inj]
  simp [or_assoc]

/-- The first byte of a text. -/
theorem bytes_head (t : Text) : (∀ b, (bytes t).head? = some b → isAsciiSpace b = true → ∃ c r, t = c :: r ∧ AsciiSpace c) ∧
    ((bytes t).head? = some 59 → ∃ r, t = ';' :: r) := by
  cases t with
  | nil => simp [bytes]
  | cons c r =>
    obtain ⟨b, rest, he, h⟩ := encode_first c
    have hb : (bytes (c :: r)).head? = some b := by simp [bytes, he]
    rw [hb]
    refine ⟨?_, ?_⟩
    · intro b' h1 h2
      cases h1
      rw [isAsciiSpace_iff] at h2
      refine ⟨c, r, rfl, ?_⟩
      have : ∀ (d : Char), c.toNat = d.toNat → c = d := fun d hd => Char.toNat_inj.1 hd
      have hc : c.toNat = b.toNat := by omega
      rcases h2 with h2 | h2 | h2 | h2 | h2
      · exact Or.inr (Or.inl (this _ (by rw [hc, h2]; rfl)))
      · exact Or.inr (Or.inr (Or.inl (this _ (by rw [hc, h2]; rfl))))
      · exact Or.inr (Or.inr (Or.inr (Or.inl (this _ (by rw [hc, h2]; rfl)))))
      · exact Or.inr (Or.inr (Or.inr (Or.inr (this _ (by rw [hc, h2]; rfl)))))
      · exact Or.inl (this _ (by rw [hc, h2]; rfl))
    · intro h1
      cases h1
      refine ⟨r, ?_⟩
      have : c = ';' := Char.toNat_inj.1 (by
        rcases h with ⟨h, _⟩ | ⟨h, _⟩
        · rw [← h]; rfl
        · exact absurd h (by decide))
      rw [this]

theorem takeWhile_bytes (ws rest : Text) (hws : ∀ c ∈ ws, AsciiSpace c) (hr : ∀ c r, rest = c :: r → ¬ AsciiSpace c) :
    ((bytes (ws ++ rest)).takeWhile isAsciiSpace) = bytes ws ∧ (bytes (ws ++ rest)).dropWhile isAsciiSpace = bytes rest := by
  rw [bytes_append, List.takeWhile_append_of_pos (bytes_space ws hws), List.dropWhile_append_of_pos (bytes_space ws hws)]
  have : (bytes rest).takeWhile isAsciiSpace = [] ∧ (bytes rest).dropWhile isAsciiSpace = bytes rest := by
    cases hb : bytes rest with
    | nil => exact ⟨rfl, rfl⟩
    | cons b bs =>
      have hf : isAsciiSpace b = false := by
        cases hs : isAsciiSpace b with
        | false => rfl
        | true =>
          obtain ⟨c, r, h1, h2⟩ := (bytes_head rest).1 b (by rw [hb]; rfl) hs
          exact absurd h2 (hr c r h1)
      simp [hf]
  rw [this.1, this.2]
  simp

/-- **C55.** A statement that is followed by a semicolon, with nothing but whitespace in between, extends over it. -/
theorem C55_semicolon (before stmt ws after : Text) (hws : ∀ c ∈ ws, AsciiSpace c) :
    withSemicolon (before ++ stmt ++ ws ++ ';' :: after) ⟨byteLen before, byteLen (before ++ stmt)⟩ =
      ⟨byteLen before, byteLen (before ++ stmt ++ ws ++ [';'])⟩ := by
  unfold withSemicolon
  have hd : (bytes (before ++ stmt ++ ws ++ ';' :: after)).drop (byteLen (before ++ stmt)) = bytes (ws ++ ';' :: after) := by
    rw [List.append_assoc, bytes_append, ← bytes_length, List.drop_left]
  dsimp only
  rw [hd]
  obtain ⟨h1, h2⟩ := takeWhile_bytes ws (';' :: after) hws (by
    intro c r h
    cases h
    unfold AsciiSpace
    decide)
  rw [h1, h2, if_pos (by simp [bytes, String.utf8EncodeChar]), bytes_length]
  simp only [byteLen_append, Loc.mk.injEq, true_and]
  have : byteLen [';'] = 1 := by decide
  omega

/-- **C55.** A statement that is not followed by a semicolon is left as it is. -/
theorem C55_no_semicolon (before stmt ws rest : Text) (hws : ∀ c ∈ ws, AsciiSpace c)
    (hr : ∀ c r, rest = c :: r → ¬ AsciiSpace c ∧ c ≠ ';') :
    withSemicolon (before ++ stmt ++ ws ++ rest) ⟨byteLen before, byteLen (before ++ stmt)⟩ =
      ⟨byteLen before, byteLen (before ++ stmt)⟩ := by
  unfold withSemicolon
  have hd : (bytes (before ++ stmt ++ ws ++ rest)).drop (byteLen (before ++ stmt)) = bytes (ws ++ rest) := by
    rw [List.append_assoc, bytes_append, ← bytes_length, List.drop_left]
  dsimp only
  rw [hd]
  obtain ⟨h1, h2⟩ := takeWhile_bytes ws rest hws fun c r h => (hr c r h).1
  rw [h2, if_neg]
  intro h
  obtain ⟨r, hr'⟩ := (bytes_head rest).2 h
  exact (hr _ _ hr').2 rfl

/-- **C55.** So the text that is removed with a statement is the statement, the semicolon and what is in between, if there are only ASCII
characters before its start and its end on their lines (`C53_negation_foundry` shows why this is needed). -/
theorem C55_text (c : Ctx) (before stmt ws after : Text) (hws : ∀ c ∈ ws, AsciiSpace c)
    (hc : c.contents = before ++ stmt ++ ws ++ ';' :: after) (h1 : ∀ c ∈ lastLine before, c.utf8Size = 1)
    (h2 : ∀ c ∈ lastLine (before ++ stmt ++ ws ++ [';']), c.utf8Size = 1) :
    let span := toSpan c (withSemicolon c.contents ⟨byteLen before, byteLen (before ++ stmt)⟩)
    sourceText? c.contents span.start span.stop = some (stmt ++ ws ++ [';']) := by
  dsimp only
  rw [hc, C55_semicolon _ _ _ _ hws]
  have a1 := (C53_foundry_partial before (stmt ++ ws ++ ';' :: after) h1).2
  have a2 := (C53_foundry_partial (before ++ stmt ++ ws ++ [';']) after h2).2
  have e1 : before ++ (stmt ++ ws ++ ';' :: after) = before ++ stmt ++ ws ++ ';' :: after := by simp
  have e2 : before ++ stmt ++ ws ++ [';'] ++ after = before ++ stmt ++ ws ++ ';' :: after := by simp
  rw [e1] at a1
  rw [e2] at a2
  simp only [toSpan, hc]
  refine sourceText?_of_located (pre := before) (suf := after) ((located_iff ..).2 ⟨by simp, a1, ?_⟩)
  rw [a2]
  simp

end

/-! ### Cases -/
namespace Demo

/-- The location of the `n`th ten bytes. -/
def at_ (n : Nat) (a : Nat := 0) : Loc := ⟨10 * n + a, 10 * n + 9⟩
/-- `name(args)` -/
def call (n : Nat) (name : String) (args : List Expr := []) : Expr := .call (at_ n) (.var (at_ n) name.toList) args
/-- `base.name(args)` -/
def method (n : Nat) (base : Expr) (name : String) (args : List Expr := []) : Expr :=
  .call (at_ n) (.member (at_ n) base name.toList) args
/-- A variable, whose location is one byte. -/
def v (n : Nat) (name : String) : Expr := .var ⟨10 * n, 10 * n + 1⟩ name.toList
/-- The expression as a statement. -/
def st (n : Nat) (e : Expr) : Stmt := .expr (at_ n) e

def c : Ctx := { file := default, contents := [], key := fun s => s.loc.start + 1, faux := 0, fnKey := fun f => f.name.elim 0 List.length }

/-- Foundry's ignored functions, abridged. -/
def config : Compiled := ⟨[Visit.Demo.pat "assert*", Visit.Demo.pat "vm.expect*"], [], [], .none_, [], false, [Visit.Demo.pat "h*"]⟩

/-- A test. -/
def test : Fn := ⟨some "testA".toList, false, [], some (.block (at_ 0)
  [st 1 (call 1 "helper"),
   st 2 (method 2 (v 2 "vm") "prank" [v 2 "a"]),
   st 3 (method 3 (v 3 "t") "m"),
   st 4 (method 4 (v 4 "vm") "expectRevert"),
   .compound (at_ 5) [.stmt (.block (at_ 5) [st 6 (call 6 "f")])],
   .control (at_ 7) [call 7 "E"],
   .varDef (at_ 8) [call 8 "g"],
   .compound (at_ 9) [.stmt (.block (at_ 9)
     [st 10 (call 10 "f"), .block (at_ 11) [st 12 (method 12 (v 12 "vm") "prank")], st 13 (call 13 "f")])],
   st 14 (call 14 "f")])⟩

def helper : Fn := ⟨some "helper".toList, false, [], some (.block (at_ 20) [st 21 (call 21 "f")])⟩
/-- `testPure() pure` -/
def pureFn : Fn := ⟨some "testPure".toList, true, [], some (.block (at_ 30) [st 31 (call 31 "f"), st 32 (call 32 "f")])⟩

def items : List Item := [.fn pureFn, .fn test, .fn helper]

/-- The candidates' columns. -/
def Found (r : Visited) : Option (List (Nat × Text) × List (Nat × Text)) :=
  match r with
  | .done st _ => some (st.statements.map (fun p => (p.1.start.column, p.2)), st.methodCalls.map (fun p => (p.1.start.column, p.2)))
  | _ => none

-- What follows `vm.prank` or `vm.expectRevert` is no candidate (3, 5, 6), though it does follow a block that ends in `vm.prank` (13).
-- `vm.prank` itself is a candidate.
example : Found (visit c config (fun _ => false) id 3 items) =
    some ([(20, "testA".toList), (100, "testA".toList), (120, "testA".toList), (130, "testA".toList), (210, "testA".toList)],
      [(21, "testA".toList), (121, "testA".toList)]) := by decide +kernel

example : Exposed (.block (at_ 9) [st 10 (call 10 "f"), .block (at_ 11) [], st 13 (call 13 "f")]) (st 13 (call 13 "f")) := by
  refine .block (before := [st 10 (call 10 "f"), .block (at_ 11) []]) (after := []) ?_ (.refl _)
  rintro a ha ⟨_, _, _, _, _, _, h, _⟩
  simp at ha
  subst ha
  cases h

/-- README.md says that `emit` statements are ignored, but the event of `emit I.E(x);` is taken for a method call. -/
theorem C55_emit_event :
    Found (visit c config (fun _ => false) id 3 [.fn ⟨some "testB".toList, false, [], some (.block (at_ 0)
      [.control (at_ 1) [method 1 (v 1 "I") "E"], st 2 (call 2 "f")])⟩]) = some ([], [(11, "testB".toList)]) := by decide +kernel

/-- A function that is declared, e.g., in an interface hides the definition of the same name that comes later: the latter is not
walked. -/
theorem declaration_hides :
    Found (visit c config (fun _ => false) id 3 (.fn { helper with body := none } :: items)) =
      some ([(20, "testA".toList), (100, "testA".toList), (120, "testA".toList), (130, "testA".toList)],
        [(21, "testA".toList), (121, "testA".toList)]) := by decide +kernel

-- The statement, the blanks and the semicolon.
example : withSemicolon "é; f(x) \n ; g();".toList ⟨4, 8⟩ = ⟨4, 12⟩ ∧ withSemicolon "é; f(x) \n } g();".toList ⟨4, 8⟩ = ⟨4, 8⟩ := by
  decide +kernel

end Demo

end Necessist.Foundry
