import Verif.Lemmas.TypeScript
import Verif.Props.Rust
import Verif.Spec.RustVisitor
/-! # Rust: the visit is a visit of the generic visitor -/
namespace Necessist.Rs
open Visit
open Rust (Cargo Caches St Found Err Segment isTest testNew join cachedFlags Answers Stable Fine isTest_iff cachedFsModulePath_spec
  cachedFsModulePath cachedTestNames cachedFsModulePath_extends cachedTestNames_spec cachedTestNames_extends)
open Cache (Path)
open Js (walkList_append walk_calm)

/-! ## What the queries see -/

/-- Without what the queries do not look at. -/
def strip : Node → Node
  | .call i cn callee _ => .call i cn (strip callee) []
  | .macro_ i n _ => .macro_ i n []
  | .field i n b => .field i n (strip b)
  | .await i b => .await i (strip b)
  | n => .other n.info []

theorem strip_info (n : Node) : (strip n).info = n.info := by cases n <;> rfl

theorem strip_field {n : Node} {i m b} (h : strip n = .field i m b) : ∃ b', n = .field i m b' ∧ b = strip b' := by
  cases n <;> rw [strip] at h <;> first | (cases h; done) | (simp; done) | skip
  cases h; exact ⟨_, rfl, rfl⟩

theorem strip_peel : ∀ (n : Node) (p : List Text), peelFields (strip n) p = (strip (peelFields n p).1, (peelFields n p).2) := by
  intro n
  induction n using Node.rec (motive_2 := fun _ => True) with
  | field i m b ih =>
    intro p
    cases m with
    | some m => rw [strip, peelFields, peelFields]; exact ih _
    | none => rfl
  | nil | cons => trivial
  | _ => intro p; rfl

theorem strip_innermost (cfg : VCfg) : ∀ (n : Node) (s : Span) (p : List Text) (r : Bool),
    innermostInfo cfg (strip n) s p r = innermostInfo cfg n s p r := by
  intro n
  induction hn : sizeOf n using Nat.strongRecOn generalizing n with
  | _ k ih =>
    subst hn
    intro s p r
    cases n with
    | field i m b =>
      cases m with
      | some m => rw [strip, innermostInfo, innermostInfo]; exact ih (sizeOf b) (by simp; omega) b rfl s _ r
      | none => rfl
    | call i cn callee args =>
      rw [strip]
      cases callee with
      | field j m b =>
        cases m with
        | some m => rw [strip, innermostInfo, innermostInfo]; exact ih (sizeOf b) (by simp; omega) b rfl _ _ _
        | none => rfl
      | _ => rfl
    | _ => rfl

theorem strip_callArgs (cfg : VCfg) (i cn) (n : Node) : callArgs cfg i cn (strip n) = callArgs cfg i cn n := by
  cases n with
  | field j m b =>
    cases m with
    | some m =>
      rw [strip, callArgs, callArgs, strip_innermost, callInfo, callInfo, strip_peel]
      simp only [strip_info]
    | none => rfl
  | _ => rfl

theorem strip_visitCall (cfg : VCfg) (i cn) (n : Node) : visitCall cfg i cn (strip n) = visitCall cfg i cn n := by
  funext st
  rw [visitCall, visitCall, walkTarget, walkTarget, strip_info, strip_callArgs]

theorem strip_strips : ∀ n : Node, stripsToCall (strip n) = stripsToCall n := by
  intro n
  induction n using Node.rec (motive_2 := fun _ => True) with
  | field i m b ih => rw [strip, stripsToCall, stripsToCall, ih]
  | await i b ih => rw [strip, stripsToCall, stripsToCall, ih]
  | nil | cons => trivial
  | _ => rfl

/-- Operands are not functions. -/
def Exprs (x : Syn) : Prop := ∀ y z, Anywhere x y → Operand y z → ¬ Free z

theorem Exprs.kid {x m : Syn} (h : Exprs x) (hm : m ∈ x.kids) : Exprs m := fun y z hw => h y z (.step hm hw)

variable {listed : List Text → Text → Option Text} {key : Syn → Nat}

theorem lowerAll_eq (path : List Text) (xs : List Syn) : lowerAll listed key path xs = xs.map (lower listed key path) := by
  induction xs with
  | nil => rw [lowerAll]; rfl
  | cons x xs ih => rw [lowerAll, ih]; rfl

theorem strip_calleeOf (f : Syn) (n : Node) : strip (calleeOf f n) = calleeOf f (strip n) := by
  cases f <;> rfl

/-- What the queries see. -/
theorem view_eq (path : List Text) : ∀ x : Syn, Exprs x → ¬ Free x → view x = strip (lower listed key path x) := by
  intro x
  induction x using Syn.rec (motive_2 := fun _ => True) with
  | field s b n ih =>
    intro he _
    rw [view, lower, strip, ih (he.kid (by simp [Syn.kids])) (he _ b (.refl _) (Or.inl ⟨s, n, rfl⟩))]
  | await s b ih =>
    intro he _
    rw [view, lower, strip, ih (he.kid (by simp [Syn.kids])) (he _ b (.refl _) (Or.inr (Or.inl ⟨s, rfl⟩)))]
  | call s f as ih _ =>
    intro he _
    rw [view, lower, strip, strip_calleeOf,
      ih (he.kid (by simp [Syn.kids])) (he _ f (.refl _) (Or.inr (Or.inr (Or.inl ⟨s, as, rfl⟩))))]
  | method s r n g as ih _ _ =>
    intro he _
    rw [view, lower, strip, strip, ih (he.kid (by simp [Syn.kids])) (he _ r (.refl _) (Or.inr (Or.inr (Or.inr ⟨s, n, g, as, rfl⟩))))]
  | fn s n at_ sig b _ _ => intro _ h; exact absurd ⟨s, n, at_, sig, b, rfl⟩ h
  | nil | cons => trivial
  | mac => intro _ _; rw [view, lower, strip]
  | _ => intro _ _; rw [lower]; rfl

theorem strips_eq (path : List Text) : ∀ x : Syn, stripsToCall (view x) = stripsToCall (lower listed key path x) := by
  intro x
  induction x using Syn.rec (motive_2 := fun _ => True) with
  | field s b n ih => rw [view, lower, stripsToCall, stripsToCall, ih]
  | await s b ih => rw [view, lower, stripsToCall, stripsToCall, ih]
  | call s f as _ _ => rw [view, lower]; rfl
  | method s r n g as _ _ _ => rw [view, lower]; rfl
  | fn s n at_ sig b _ _ =>
    rw [lower]
    split
    · split <;> rfl
    · rfl
  | nil | cons => trivial
  | mac => rw [view, lower]
  | _ => rw [lower]; rfl

/-! ## Tests and what `cargo` says -/

/-- The path of a test, if `cargo` lists it. -/
def listing (a : Answers) (args : List Text) (path : Path) (fl : List Text) (m : List Text) (name : Text) : Option (List Text) :=
  match a.fsModulePath path with
  | .error _ => none
  | .ok fs => match a.testNames fl args with
    | .error _ => none
    | .ok ns => if ns.contains (join (fs ++ m ++ [name])) then some (fs ++ m ++ [name]) else none

/-- … its name. -/
def listedName (a : Answers) (args : List Text) (path : Path) (fl : List Text) (m : List Text) (name : Text) : Option Text :=
  (listing a args path fl m name).map join

theorem listedName_iff {a : Answers} {args path fl m name t} (hf : a.flags path = .ok fl) :
    listedName a args path fl m name = some t ↔ Listed a args path m name t := by
  unfold listedName listing Listed
  cases hfs : a.fsModulePath path with
  | error e => exact ⟨(by simp), (by rintro ⟨_, _, _, h, _⟩; cases h)⟩
  | ok fs =>
    cases hns : a.testNames fl args with
    | error e =>
      refine ⟨(by simp), ?_⟩
      rintro ⟨_, fl', _, _, h1, h2, _⟩
      rw [hf] at h1; cases h1
      rw [hns] at h2; cases h2
    | ok ns =>
      simp only []
      constructor
      · intro h
        split at h
        · rename_i hc
          simp only [Option.map_some, Option.some.injEq] at h
          exact ⟨fs, fl, ns, rfl, hf, hns, h.symm, h ▸ (by simpa using hc)⟩
        · cases h
      · rintro ⟨fs', fl', ns', h0, h1, h2, h3, h4⟩
        cases h0
        rw [hf] at h1; cases h1
        rw [hns] at h2; cases h2
        rw [if_pos (by rw [← h3]; simpa using h4), h3]
        rfl

variable {ω : Type} {cargo : Cargo ω} {a : Answers} {args : List Text} {path : Path} {fl : List Text}

theorem testNew_listing (hs : Stable cargo a) (hnames : ∀ fs, a.fsModulePath path = .ok fs → ∃ ns, a.testNames fl args = .ok ns)
    (m : List Text) (name : Text) (f : Found) (s : St ω) (hc : Fine a path fl s) :
    ∃ f' s', testNew cargo args path m name f s = (.ok (listing a args path fl m name), f', s') ∧ Fine a path fl s' ∧
      f'.error = f.error := by
  unfold testNew listing
  obtain ⟨h1, h2⟩ := cachedFsModulePath_spec hs (file := path) hc.1
  have h3 := (cachedFsModulePath_extends (cargo := cargo) (file := path) (s := s)).flags path fl hc.2
  generalize hx : cachedFsModulePath cargo path s = x at h1 h2 h3
  obtain ⟨r, s1⟩ := x
  dsimp only at h1 h2 h3
  rw [← h1]
  cases r with
  | error e => exact ⟨_, _, rfl, ⟨h2, h3⟩, rfl⟩
  | ok fs =>
    dsimp only
    obtain ⟨k1, k2⟩ := cachedTestNames_spec hs (args := args) h2 h3
    have k3 := (cachedTestNames_extends (cargo := cargo) (args := args) (file := path) (s := s1)).flags path fl h3
    obtain ⟨ns, hns⟩ := hnames fs h1.symm
    generalize hy : cachedTestNames cargo args path s1 = y at k1 k2 k3
    obtain ⟨r, s2⟩ := y
    dsimp only at k1 k2 k3
    rw [k1, hns]
    dsimp only
    by_cases hj : ns.contains (join (fs ++ m ++ [name])) = true
    · rw [if_pos hj, if_pos hj]; exact ⟨_, _, rfl, ⟨k2, k3⟩, rfl⟩
    · rw [if_neg hj, if_neg hj]; exact ⟨_, _, rfl, ⟨k2, k3⟩, rfl⟩

/-! ## The visit -/

/-- The visit `r` from `v` is that of the generic visitor, `w`. -/
def Low (a : Answers) (path : Path) (fl : List Text) (v : Vis ω) (r : Option (Vis ω)) (w : Option VState) : Prop :=
  ∃ f s, Fine a path fl s ∧ f.error = v.found.error ∧ r = w.map fun g => ⟨g, f, s⟩

theorem Low.pure {v : Vis ω} (h : Fine a path fl v.st) : Low a path fl v (some v) (some v.gen) :=
  ⟨v.found, v.st, h, rfl, rfl⟩

theorem Low.bind {v : Vis ω} {r w k k'} (h : Low a path fl v r w)
    (hk : ∀ v' : Vis ω, Fine a path fl v'.st → v'.found.error = v.found.error → Low a path fl v' (k v') (k' v'.gen)) :
    Low a path fl v (r.bind k) (w.bind k') := by
  obtain ⟨f, s, h1, h2, rfl⟩ := h
  cases w with
  | none => exact ⟨f, s, h1, h2, rfl⟩
  | some g =>
    obtain ⟨f', s', h3, h4, h5⟩ := hk ⟨g, f, s⟩ h1 h2
    exact ⟨f', s', h3, h4.trans h2, h5⟩

theorem Low.on {v : Vis ω} (f : VState → Option VState) (h : Fine a path fl v.st) : Low a path fl v (on f v) (f v.gen) :=
  ⟨v.found, v.st, h, rfl, rfl⟩

theorem Low.ask {v : Vis ω} {k : Bool × Vis ω → Option (Vis ω)} {k' : Bool × VState → Option VState} (f : VState → Option (Bool × VState))
    (h : Fine a path fl v.st)
    (hk : ∀ b (v' : Vis ω), Fine a path fl v'.st → v'.found.error = v.found.error → Low a path fl v' (k (b, v')) (k' (b, v'.gen))) :
    Low a path fl v ((Rs.ask f v).bind k) ((f v.gen).bind k') := by
  unfold Rs.ask
  cases hf : f v.gen with
  | none => exact ⟨v.found, v.st, h, rfl, rfl⟩
  | some p => exact hk p.1 { v with gen := p.2 } h rfl

/-- There is no test in `x`. -/
def NoTestFn (x : Syn) : Prop := ∀ y, Within x y → ¬ TestFn y

theorem Free.not_of {x : Syn} (h : ∀ s n at_ sig b, x ≠ .fn s n at_ sig b) : ¬ Free x := by
  rintro ⟨s, n, at_, sig, b, rfl⟩; exact h _ _ _ _ _ rfl

theorem NoTestFn.kid {x m : Syn} (h : NoTestFn x) (hx : ¬ Free x) (hm : m ∈ x.kids) : NoTestFn m := fun y hy => h y (.step hx hm hy)

/-- Where we are: the same modules, or there is no test. -/
def Where (inTest : Bool) (p q : List Text) (x : Syn) : Prop := inTest = false ∧ q = p ∨ NoTestFn x

theorem Where.kid {i p q x m} (h : Where i p q x) (hx : ¬ Free x) (hm : m ∈ x.kids) : Where i p q m := h.imp id fun h => h.kid hx hm

theorem Anywhere.trans {a b c} (h1 : Anywhere a b) (h2 : Anywhere b c) : Anywhere a c := by
  induction h1 with
  | refl => exact h2
  | step hk _ ih => exact .step hk (ih h2)

theorem Anywhere.kid {t m : Syn} (h : m ∈ t.kids) : Anywhere t m := .step h (.refl _)

section
variable {E : Env ω} {file : Syn} {bkey : List Syn → Nat}
  (hr : Regular bkey file) (hs : Stable E.cargo a) (h1 : E.cfg.receiver = true) (h2 : E.cfg.fields = true)
  (hnames : ∀ fs, a.fsModulePath E.file = .ok fs → ∃ ns, a.testNames fl E.args = .ok ns)
include hr hs h1 h2 hnames

omit hs h1 h2 hnames in
theorem exprs {x : Syn} (h : Anywhere file x) : Exprs x := fun y z hy => hr.exprs y z (h.trans hy)

mutual
theorem visit_low : ∀ (x : Syn) (p q : List Text) (i : Bool) (v : Vis ω), Anywhere file x → Where i p q x → Fine a E.file fl v.st →
    Low a E.file fl v (visit E p i x v) (walk E.cfg (lower (listedName a E.args E.file fl) E.key q x) v.gen)
  | .ident s n, p, q, i, v, _, _, hf => by rw [visit, lower, walk, walkList]; exact .pure hf
  | .mac s n t, p, q, i, v, _, _, hf => by
    rw [visit, lower, walk]
    refine Low.ask _ hf fun b v' hf' _ => ?_
    dsimp only
    rw [walkList]
    split <;> exact .pure hf'
  | .path s t ps, p, q, i, v, ha, hw, hf => by
    rw [visit, lower, walk]
    exact visitAll_low ps p q i v (fun x hx => ha.trans (.kid hx)) (fun x hx => hw.kid (Free.not_of nofun) hx) hf
  | .other s k t ps, p, q, i, v, ha, hw, hf => by
    rw [visit, lower, walk]
    exact visitAll_low ps p q i v (fun x hx => ha.trans (.kid hx)) (fun x hx => hw.kid (Free.not_of nofun) hx) hf
  | .field s b n, p, q, i, v, ha, hw, hf => by
    rw [visit, lower, walk, if_pos h2]
    exact visit_low b p q i v (ha.trans (.kid (by simp [Syn.kids]))) (hw.kid (Free.not_of nofun) (by simp [Syn.kids])) hf
  | .await s b, p, q, i, v, ha, hw, hf => by
    rw [visit, lower, walk, if_pos h2]
    exact visit_low b p q i v (ha.trans (.kid (by simp [Syn.kids]))) (hw.kid (Free.not_of nofun) (by simp [Syn.kids])) hf
  | .call s f as, p, q, i, v, ha, hw, hf => by
    have hfa : Anywhere file f := ha.trans (.kid (by simp [Syn.kids]))
    have hfw : Where i p q f := hw.kid (Free.not_of nofun) (by simp [Syn.kids])
    have hno : ¬ Free f := hr.exprs _ f ha (Or.inr (Or.inr (Or.inl ⟨s, as, rfl⟩)))
    have hf' : ∀ v : Vis ω, Fine a E.file fl v.st → Low a E.file fl v (visit E p i f v)
        (walk E.cfg (calleeOf f (lower (listedName a E.args E.file fl) E.key q f)) v.gen) := by
      intro v hf
      have := visit_low f p q i v hfa hfw hf
      cases f with
      | ident s' n =>
        rw [lower, walk, walkList] at this
        rw [calleeOf, walk, walkList]
        exact this
      | _ => exact this
    rw [visit, lower, walk, view_eq (listed := listedName a E.args E.file fl) (key := E.key) q f (exprs hr hfa) hno, ← strip_calleeOf]
    rw [strip_visitCall]
    refine Low.ask (visitCall E.cfg _ _ _) hf fun b v' hv' _ => ?_
    dsimp only
    cases b with
    | true =>
      simp only [if_true]
      refine Low.bind (hf' v' hv') fun v2 hv2 _ => ?_
      exact visitAll_low as p q i v2 (fun x hx => ha.trans (.kid (by simp [Syn.kids, hx])))
        (fun x hx => hw.kid (Free.not_of nofun) (by simp [Syn.kids, hx])) hv2
    | false =>
      simp only [Bool.false_eq_true, if_false, h1, if_true]
      exact hf' v' hv'
  | .method s r n g as, p, q, i, v, ha, hw, hf => by
    have hra : Anywhere file r := ha.trans (.kid (by simp [Syn.kids]))
    have hrw : Where i p q r := hw.kid (Free.not_of nofun) (by simp [Syn.kids])
    have hno : ¬ Free r := hr.exprs _ r ha (Or.inr (Or.inr (Or.inr ⟨s, n, g, as, rfl⟩)))
    have hr' : ∀ v : Vis ω, Fine a E.file fl v.st → Low a E.file fl v (visit E p i r v)
        (walk E.cfg (.field ⟨s, some n⟩ (some n) (lower (listedName a E.args E.file fl) E.key q r)) v.gen) := by
      intro v hf
      rw [walk, if_pos h2]
      exact visit_low r p q i v hra hrw hf
    have hstr : (.field ⟨s, some n⟩ (some n) (view r) : Node) =
        strip (.field ⟨s, some n⟩ (some n) (lower (listedName a E.args E.file fl) E.key q r)) := by
      rw [strip, view_eq (listed := listedName a E.args E.file fl) (key := E.key) q r (exprs hr hra) hno]
    rw [visit, lower, walk, hstr]
    rw [strip_visitCall]
    refine Low.ask (visitCall E.cfg _ _ _) hf fun b v' hv' _ => ?_
    dsimp only
    cases b with
    | true =>
      simp only [if_true]
      refine Low.bind (hr' v' hv') fun v2 hv2 _ => ?_
      rw [walkList_append]
      refine Low.bind (visitAll_low g p q i v2 (fun x hx => ha.trans (.kid (by simp [Syn.kids, hx])))
        (fun x hx => hw.kid (Free.not_of nofun) (by simp [Syn.kids, hx])) hv2) fun v3 hv3 _ => ?_
      exact visitAll_low as p q i v3 (fun x hx => ha.trans (.kid (by simp [Syn.kids, hx])))
        (fun x hx => hw.kid (Free.not_of nofun) (by simp [Syn.kids, hx])) hv3
    | false =>
      simp only [Bool.false_eq_true, if_false, h1, if_true]
      exact hr' v' hv'
  | .expr s e semi, p, q, i, v, ha, hw, hf => by
    rw [visit, lower, walk, strips_eq (listed := listedName a E.args E.file fl) (key := E.key) q e]
    refine Low.bind (.on _ hf) fun v1 hv1 _ => Low.bind (visit_low e p q i v1 (ha.trans (.kid (by simp [Syn.kids])))
      (hw.kid (Free.not_of nofun) (by simp [Syn.kids])) hv1) fun v2 hv2 _ => .on _ hv2
  | .macStmt s n t, p, q, i, v, ha, hw, hf => by
    rw [visit, lower, walk]
    simp only [walk]
    have : stripsToCall (.macro_ ⟨s, some n⟩ n []) = true := rfl
    rw [this]
    refine Low.bind (.on _ hf) fun v1 hv1 _ => ?_
    rw [Option.bind_assoc]
    refine Low.ask _ hv1 fun b v2 hv2 _ => ?_
    simp only [walkList, ite_self, Option.bind_some]
    exact .on _ hv2
  | .local_ s t ps, p, q, i, v, ha, hw, hf => by
    rw [visit, lower, walk]
    exact Low.bind (.on _ hf) fun v1 hv1 _ => Low.bind (visitAll_low ps p q i v1 (fun x hx => ha.trans (.kid hx))
      (fun x hx => hw.kid (Free.not_of nofun) hx) hv1) fun v2 hv2 _ => .on _ hv2
  | .item s x, p, q, i, v, ha, hw, hf => by
    rw [visit, lower, walk]
    refine Low.bind (.on _ hf) fun v1 hv1 _ => Low.bind ?_ fun v2 hv2 _ => .on _ hv2
    have := visit_low x p q i v1 (ha.trans (.kid (by simp [Syn.kids]))) (hw.kid (Free.not_of nofun) (by simp [Syn.kids])) hv1
    rw [walkList]
    have e : ∀ o : Option VState, (o.bind fun st => walkList E.cfg [] st) = o := by
      intro o; cases o <;> simp only [Option.bind_none, Option.bind_some, walkList]
    rw [e]
    exact this
  | .mod_ s n xs, p, q, i, v, ha, hw, hf => by
    rw [visit, lower, walk]
    refine visitAll_low xs _ _ i v (fun x hx => ha.trans (.kid hx)) (fun x hx => ?_) hf
    rcases hw with ⟨rfl, rfl⟩ | hw
    · exact Or.inl ⟨rfl, rfl⟩
    · exact Or.inr (hw.kid (Free.not_of nofun) hx)
  | .implFn s n sig b, p, q, i, v, ha, hw, hf => by
    rw [visit, lower, walk, walkList_append]
    refine Low.bind (visitAll_low sig p q i v (fun x hx => ha.trans (.kid (by simp [Syn.kids, hx])))
      (fun x hx => hw.kid (Free.not_of nofun) (by simp [Syn.kids, hx])) hf) fun v2 hv2 _ => ?_
    exact visitAll_low b p q i v2 (fun x hx => ha.trans (.kid (by simp [Syn.kids, hx])))
      (fun x hx => hw.kid (Free.not_of nofun) (by simp [Syn.kids, hx])) hv2
  | .fn s n at_ sig b, p, q, i, v, ha, hw, hf => by
    rw [visit, lower]
    by_cases ht : isTest at_ = true
    · rw [if_pos ht, if_pos ht]
      rcases hw with ⟨rfl, rfl⟩ | hw
      · obtain ⟨f', s', e1, e2, e3⟩ := testNew_listing hs hnames q n v.found v.st hf
        rw [if_neg (by simp), e1, listedName]
        cases hl : listing a E.args E.file fl q n with
        | none =>
          simp only [Option.map_none]
          rw [walk, walkList]
          exact ⟨f', s', e2, e3, rfl⟩
        | some t =>
          simp only [Option.map_some]
          rw [walk]
          have hno : ∀ x ∈ sig ++ b, NoTestFn x := fun x hx y hy => hr.flat s n at_ sig b ha y ⟨x, hx, hy⟩
          have key := Low.ask (v := (⟨v.gen, { f' with tests := f'.tests ++ [t] }, s'⟩ : Vis ω))
            (k := fun (go, v) => (if go then (visitAll E q true sig v).bind fun v => visitAll E q true b v else some v).bind fun v =>
              on (visitTestPost (join t)) v)
            (k' := fun (go, st) => (if go then walkList E.cfg (lowerAll (listedName a E.args E.file fl) E.key q sig ++
              lowerAll (listedName a E.args E.file fl) E.key q b) st else some st).bind fun st => visitTestPost (join t) st)
            (visitTest E.cfg (join t) (lastKey E.key b)) e2 (by
              intro go v1 hv1 _
              dsimp only
              refine Low.bind ?_ fun v2 hv2 _ => .on _ hv2
              cases go with
              | false => exact .pure hv1
              | true =>
                simp only [if_true]
                rw [walkList_append]
                refine Low.bind (visitAll_low sig q q true v1 (fun x hx => ha.trans (.kid (by simp [Syn.kids, hx])))
                  (fun x hx => Or.inr (hno x (by simp [hx]))) hv1) fun v2 hv2 _ => ?_
                exact visitAll_low b q q true v2 (fun x hx => ha.trans (.kid (by simp [Syn.kids, hx])))
                  (fun x hx => Or.inr (hno x (by simp [hx]))) hv2)
          obtain ⟨f2, s2, k1, k2, k3⟩ := key
          exact ⟨f2, s2, k1, k2.trans e3, k3⟩
      · exact absurd ⟨s, n, at_, sig, b, rfl, isTest_iff.mp ht⟩ (hw _ (.refl _))
    · rw [if_neg ht, if_neg ht, walk, walkList]
      exact .pure hf
theorem visitAll_low : ∀ (xs : List Syn) (p q : List Text) (i : Bool) (v : Vis ω), (∀ x ∈ xs, Anywhere file x) →
    (∀ x ∈ xs, Where i p q x) → Fine a E.file fl v.st →
    Low a E.file fl v (visitAll E p i xs v) (walkList E.cfg (lowerAll (listedName a E.args E.file fl) E.key q xs) v.gen)
  | [], p, q, i, v, _, _, hf => by rw [visitAll, lowerAll, walkList]; exact .pure hf
  | x :: xs, p, q, i, v, ha, hw, hf => by
    rw [visitAll, lowerAll, walkList]
    exact Low.bind (visit_low x p q i v (ha x List.mem_cons_self) (hw x List.mem_cons_self) hf) fun v2 hv2 _ =>
      visitAll_low xs p q i v2 (fun y hy => ha y (List.mem_cons_of_mem _ hy)) (fun y hy => hw y (List.mem_cons_of_mem _ hy)) hv2
end

end

end Necessist.Rs
