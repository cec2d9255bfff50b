import Verif.Lemmas.RustVisitorSpec
import Verif.Props.Visitor
/-!
# Rust: what the candidates are (C74)
-/
namespace Necessist.Rs
open Visit
open Rust (Cargo Caches St Found Err Answers Stable Agrees Fine cachedFlags cachedFlags_spec cachedFlags_stored isTest_iff)
open Cache (Path)
open Js (walkList_calm walk_calm)

variable {ω : Type} {cargo : Cargo ω} {a : Answers} {args : List Text} {path : Path} {s : St ω} {fl : List Text}
variable {key : Syn → Nat} {bkey : List Syn → Nat} {config : Compiled} {skip : Span → Bool} {trim : Span → Span} {file : Syn}

local notation "VC" => visitorCfg key bkey config skip trim (fns file)
local notation "LN" => listedName a args path fl

theorem localFns_mem {fs : List Fn} {name f} (h : (name, f) ∈ localFns key bkey fs) :
    ∃ d ∈ fs, d.name = name ∧ f = localFn key bkey d := by
  obtain ⟨d, hd, h⟩ := List.mem_map.mp h
  cases h
  exact ⟨d, hd, rfl, rfl⟩

theorem walkable_local {name f fs} (h : (VC).walkable.lookup name = some (f :: fs)) :
    ∃ d ∈ fns file, d.name = name ∧ f = localFn key bkey d ∧ Local config file name d.body := by
  obtain ⟨h1, h2⟩ := walkableOf_lookup h
  obtain ⟨d, hd, rfl, rfl⟩ := localFns_mem h2
  exact ⟨d, hd, rfl, rfl, fns_function hd, h1⟩

theorem isWalkable_fn {f} (h : IsWalkable VC f) : ∃ d ∈ fns file, f = localFn key bkey d := by
  obtain ⟨name, fs, h⟩ := h
  obtain ⟨d, hd, _, h, _⟩ := walkable_local h
  exact ⟨d, hd, h⟩

section
variable (hr : Regular bkey file)
include hr

theorem keysFaithful : KeysFaithful VC := by
  intro f g hf hg hk
  obtain ⟨d, hd, rfl⟩ := isWalkable_fn hf
  obtain ⟨e, he, rfl⟩ := isWalkable_fn hg
  have := hr.distinct _ _ _ _ (fns_function hd) (fns_function he) hk
  unfold localFn
  rw [this]

/-- How the result looks for the generic visitor. -/
def Result.low : Result ω → Visited
  | .done st _ _ w => .done st w
  | .err _ _ => .panic
  | .panic => .panic
  | .more => .more

theorem loop_low (hs : Stable cargo a) (hnames : ∀ fs, a.fsModulePath path = .ok fs → ∃ ns, a.testNames fl args = .ok ns)
    (rounds : Nat) (v : Vis ω) (w : List LocalFn) (hf : Fine a path fl v.st) (he : v.found.error = none) (hi : Inv VC v.gen) :
    (loop ⟨cargo, args, path, key, bkey, VC⟩ (fns file) rounds v w).low = localLoop VC rounds v.gen w ∧
    ∀ e s', loop ⟨cargo, args, path, key, bkey, VC⟩ (fns file) rounds v w ≠ .err e s' := by
  induction rounds generalizing v w with
  | zero =>
    rw [loop, localLoop]
    cases nextLocalFunction v.gen with
    | none =>
      simp only [he]
      split <;> exact ⟨rfl, nofun⟩
    | some r => exact ⟨rfl, nofun⟩
  | succ rounds ih =>
    rw [loop, localLoop]
    cases hn : nextLocalFunction v.gen with
    | none =>
      simp only [he]
      split <;> exact ⟨rfl, nofun⟩
    | some r =>
      obtain ⟨f, g⟩ := r
      obtain ⟨_, _, _, _, _, hw, _⟩ := hi.round hn
      obtain ⟨d, hdm, rfl⟩ := isWalkable_fn hw
      have hfi : ∃ e, (fns file).find? (fun d' => bkey d'.body == (localFn key bkey d).key) = some e ∧ e.body = d.body := by
        cases hfi : (fns file).find? (fun d' => bkey d'.body == (localFn key bkey d).key) with
        | none =>
          have := List.find?_eq_none.mp hfi d hdm
          simp [localFn] at this
        | some e =>
          have h1 := List.find?_some hfi
          have h2 := List.mem_of_find?_eq_some hfi
          exact ⟨e, rfl, hr.distinct _ _ _ _ (fns_function h2) (fns_function hdm) (by simpa [localFn] using h1)⟩
      obtain ⟨e, hfe, hbody⟩ := hfi
      simp only [hfe, hbody]
      have hno : ∀ x ∈ d.body, NoTestFn x := fun x hx => (fns_function hdm).noTest hr hx
      obtain ⟨f1, s1, k1, k2, k3⟩ := visitAll_low (E := ⟨cargo, args, path, key, bkey, VC⟩) hr hs rfl rfl hnames d.body [] []
        false ({ v with gen := g } : Vis ω) (fun x hx => (fns_function hdm).anywhere hx) (fun x hx => Or.inr (hno x hx)) hf
      rw [k3]
      have hb : lowerAll LN key [] d.body = (localFn key bkey d).body := lowerAll_free _ _ _ hno
      simp only [hb]
      cases hwl : walkList VC (localFn key bkey d).body g with
      | none => exact ⟨rfl, nofun⟩
      | some g2 =>
        simp only [Option.map_some]
        exact ih ⟨g2, f1, s1⟩ _ k1 (k2.trans he) (round_eff hi hn hwl).2

/-- The whole visit is that of the generic visitor. -/
theorem refines (hs : Stable cargo a) (ha : Agrees s.1 a) (hfl : a.flags path = .ok fl)
    (hnames : ∀ fs, a.fsModulePath path = .ok fs → ∃ ns, a.testNames fl args = .ok ns) (rounds : Nat) :
    (visitFile cargo args path key bkey config skip trim rounds file s).low =
      Visit.visitFile VC rounds [lower LN key [] file] ∧
    ∀ e s', visitFile cargo args path key bkey config skip trim rounds file s ≠ .err e s' := by
  have h1 : walkList VC [lower LN key [] file] {} = walk VC (lower LN key [] file) {} := by
    rw [walkList]
    cases walk VC (lower LN key [] file) {} with
    | none => rfl
    | some st => simp only [Option.bind_some, walkList]
  obtain ⟨e1, e2⟩ := cachedFlags_spec hs (file := path) ha
  have e3 := cachedFlags_stored (cargo := cargo) (file := path) (s := s) (fl := fl) (e1.trans hfl)
  unfold visitFile Visit.visitFile
  rcases hc : cachedFlags cargo path s with ⟨r, s1⟩
  rw [hc] at e1 e2 e3
  rw [hfl] at e1
  cases e1
  simp only []
  obtain ⟨f2, s2, k1, k2, k3⟩ := visit_low (E := ⟨cargo, args, path, key, bkey, VC⟩) hr hs rfl rfl hnames file [] [] false
    (⟨{}, {}, s1⟩ : Vis ω) (.refl _) (Or.inl ⟨rfl, rfl⟩) ⟨e2, e3⟩
  rw [h1, k3]
  cases hw : walk VC (lower LN key [] file) {} with
  | none => exact ⟨rfl, nofun⟩
  | some st =>
    simp only [Option.map_some]
    exact loop_low hr hs hnames rounds ⟨st, f2, s2⟩ [] k1 k2 (file_eff (by rw [h1]; exact hw)).2.1

theorem refines_done (hs : Stable cargo a) (ha : Agrees s.1 a) (hfl : a.flags path = .ok fl)
    (hnames : ∀ fs, a.fsModulePath path = .ok fs → ∃ ns, a.testNames fl args = .ok ns) {rounds st found s' walked}
    (h : visitFile cargo args path key bkey config skip trim rounds file s = .done st found s' walked) :
    Visit.visitFile VC rounds [lower LN key [] file] = .done st walked := by
  rw [← (refines hr hs ha hfl hnames rounds).1, h]
  rfl

/-! ## Back to the file -/

theorem test_noTest {sx n at_ sig b} (h : Anywhere file (.fn sx n at_ sig b)) {x} (hx : x ∈ sig ++ b) : NoTestFn x :=
  fun y hy => hr.flat _ _ _ _ _ h y ⟨x, hx, hy⟩

/-- Where the tests are. -/
theorem world_test {t l cs} (h : World VC [lower LN key [] file] (.test t l cs)) :
    ∃ m sx n at_ sig b, Inside [] file m (.fn sx n at_ sig b) ∧ TestAttrs at_ ∧ LN m n = some t ∧ l = lastKey key b ∧
      cs = (sig ++ b).map (lower LN key m) := by
  have hnf : ¬ Fake (.test t l cs) := by rintro (⟨_, _, _, h⟩ | ⟨_, _, h⟩) <;> cases h
  rcases h with ⟨r, hr', hsub⟩ | ⟨f, hf, r, hr', hsub⟩
  · cases List.mem_singleton.mp hr'
    rcases sub_rep hsub (Or.inl rfl) hnf with ⟨m, y, hy, h⟩ | ⟨m, sx, n, at_, sig, b, t', hi, ht, hl, y, hy, hsub'⟩
    · obtain ⟨sx, n, at_, sig, b, rfl, h1, h2, h3, h4⟩ := lower_test_inv h.symm
      exact ⟨m, sx, n, at_, sig, b, hy, h1, h2, h3, h4⟩
    · have hno := test_noTest hr hi.anywhere hy
      obtain ⟨m', z, hz, h⟩ := sub_within hsub' hno hnf
      obtain ⟨sx', n', at', sig', b', rfl, h1, _⟩ := lower_test_inv h.symm
      exact absurd ⟨sx', n', at', sig', b', rfl, h1⟩ (hno _ hz.within)
  · obtain ⟨d, hd, rfl⟩ := isWalkable_fn hf
    simp only [localFn, lowerAll_eq] at hr'
    obtain ⟨y, hy, rfl⟩ := List.mem_map.mp hr'
    have hno := (fns_function hd).noTest hr hy
    obtain ⟨m', z, hz, h⟩ := sub_within hsub hno hnf
    obtain ⟨sx', n', at', sig', b', rfl, h1, _⟩ := lower_test_inv h.symm
    exact absurd ⟨sx', n', at', sig', b', rfl, h1⟩ (hno _ hz.within)

theorem inTest (hfl : a.flags path = .ok fl) {t l n} (h : InTest VC [lower LN key [] file] t l n) (hn : ¬ Fake n) :
    config.isIgnoredTest t = false ∧ ∃ sig b m y, Test a args path file t sig b ∧ l = lastKey key b ∧ n = lower LN key m y ∧
      In (sig ++ b) y ∧ Anywhere file y := by
  obtain ⟨h1, cs, h2, m, hm, hsub⟩ := h
  obtain ⟨q, sx, nm, at_, sig, b, hi, ht, hl, rfl, rfl⟩ := world_test hr h2
  obtain ⟨y, hy, rfl⟩ := List.mem_map.mp hm
  obtain ⟨q', z, hz, rfl⟩ := sub_within hsub.sub (test_noTest hr hi.anywhere hy) hn
  exact ⟨h1, sig, b, q', z, ⟨q, sx, nm, at_, hi, ht, (listedName_iff hfl).mp hl⟩, rfl, rfl, ⟨y, hy, hz.within⟩,
    hi.anywhere.trans ((Anywhere.kid (by simpa [Syn.kids] using hy)).trans hz.anywhere)⟩

omit hr in
theorem calls_callOf {L m x f} (h : Calls VC (lower L key m x) f) :
    ∃ name, ∃ d ∈ fns file, CallOf x name ∧ Local config file name d.body ∧ f = localFn key bkey d := by
  obtain ⟨i, cn, callee, as, name, fs, h1, h2, h3⟩ := h
  obtain ⟨d, hd, rfl, rfl, hl⟩ := walkable_local h3
  rcases lower_call_inv h1 with ⟨sx, g, as, rfl, _, _, rfl, _⟩ | ⟨sx, r, n, g, as, rfl, _, _, rfl, _⟩
  · exact ⟨d.name, d, hd, Or.inl ⟨_, _, _, rfl, calleeOf_name.mp h2⟩, hl, rfl⟩
  · have h2 : some n = some d.name := h2
    cases h2
    exact ⟨d.name, d, hd, Or.inr ⟨_, _, _, _, rfl⟩, hl, rfl⟩

omit hr in
theorem calls_real {h f} (hc : Calls VC h f) : ¬ Fake h := by
  obtain ⟨i, cn, callee, as, name, fs, rfl, _⟩ := hc
  rintro (⟨_, _, _, h⟩ | ⟨_, _, h⟩) <;> cases h

theorem inFn {d : Fn} (hd : d ∈ fns file) {n} (h : InFn VC (localFn key bkey d) n) (hn : ¬ Fake n) :
    ∃ m y, n = lower LN key m y ∧ In d.body y ∧ Anywhere file y := by
  obtain ⟨r, hm, hsub⟩ := h
  simp only [localFn, lowerAll_eq] at hm
  obtain ⟨x, hx, rfl⟩ := List.mem_map.mp hm
  have hno := (fns_function hd).noTest hr hx
  obtain ⟨q, y, hy, rfl⟩ := sub_within hsub.sub hno hn
  exact ⟨q, y, lower_free y q q fun z hz => hno z (hy.within.trans hz), ⟨x, hx, hy.within⟩,
    ((fns_function hd).anywhere hx).trans hy.anywhere⟩

theorem exercises_uses (hfl : a.flags path = .ok fl) {t f} (h : Exercises VC [lower LN key [] file] t f) :
    ∃ d ∈ fns file, Uses a args path config file t d.body ∧ f = localFn key bkey d := by
  induction h with
  | direct hi hc =>
    obtain ⟨_, sig, b, m, y, h1, _, rfl, h3, _⟩ := inTest hr hfl hi (calls_real hc)
    obtain ⟨name, d, hd, hco, hl, rfl⟩ := calls_callOf hc
    exact ⟨d, hd, .direct h1 h3 hco hl, rfl⟩
  | via _ hi hc ih =>
    obtain ⟨d, hd, h1, rfl⟩ := ih
    obtain ⟨m, y, rfl, hy, _⟩ := inFn (a := a) (args := args) (path := path) (fl := fl) hr hd hi (calls_real hc)
    obtain ⟨name, d', hd', hco, hl, rfl⟩ := calls_callOf hc
    exact ⟨d', hd', .via h1 hy hco hl, rfl⟩

/-- What is covered, in terms of the file. -/
theorem covers (hfl : a.flags path = .ok fl) {t l n} (h : Visit.Covers VC [lower LN key [] file] t l n) (hn : ¬ Fake n) :
    ∃ m x, n = lower LN key m x ∧ Anywhere file x ∧
      ((∃ sig b, Test a args path file t sig b ∧ In (sig ++ b) x ∧ l = lastKey key b) ∨
       ∃ b, Uses a args path config file t b ∧ In b x) := by
  rcases h with h | ⟨rfl, f, he, hi⟩
  · obtain ⟨_, sig, b, m, y, h1, h2, h3, h4, h5⟩ := inTest hr hfl h hn
    exact ⟨m, y, h3, h5, Or.inl ⟨sig, b, h1, h4, h2⟩⟩
  · obtain ⟨d, hd, h1, rfl⟩ := exercises_uses hr hfl he
    obtain ⟨m, y, h2, h3, h4⟩ := inFn (a := a) (args := args) (path := path) (fl := fl) hr hd hi hn
    exact ⟨m, y, h2, h4, Or.inr ⟨_, h1, h3⟩⟩

omit hr in
/-- From a node to its parts, for the generic visitor. -/
theorem kid_step {L m} {x y : Syn} (hf : ¬ Free x) (hy : y ∈ x.kids) :
    lower L key (enter m x) y ∈ (lower L key m x).kids ∨ (∃ sx n, y = .ident sx n) ∨
    ∃ sx n g as, x = .method sx y n g as := by
  cases x with
  | ident s n => cases hy
  | mac s n t => cases hy
  | path s t ps => rw [lower, lowerAll_eq]; exact Or.inl (List.mem_map.mpr ⟨y, hy, rfl⟩)
  | other s k t ps => rw [lower, lowerAll_eq]; exact Or.inl (List.mem_map.mpr ⟨y, hy, rfl⟩)
  | local_ s t ps => rw [lower, lowerAll_eq]; exact Or.inl (List.mem_map.mpr ⟨y, hy, rfl⟩)
  | mod_ s n ps => rw [lower, lowerAll_eq]; exact Or.inl (List.mem_map.mpr ⟨y, hy, rfl⟩)
  | field s b n => cases List.mem_singleton.mp hy; rw [lower]; exact Or.inl (List.mem_singleton.mpr rfl)
  | await s b => cases List.mem_singleton.mp hy; rw [lower]; exact Or.inl (List.mem_singleton.mpr rfl)
  | item s b => cases List.mem_singleton.mp hy; rw [lower]; exact Or.inl (List.mem_singleton.mpr rfl)
  | expr s b semi => cases List.mem_singleton.mp hy; rw [lower]; exact Or.inl (List.mem_singleton.mpr rfl)
  | macStmt s n t => cases List.mem_singleton.mp hy; rw [lower, lower]; exact Or.inl (List.mem_singleton.mpr rfl)
  | call s f as =>
    rw [lower, lowerAll_eq]
    rcases List.mem_cons.mp hy with rfl | hy
    · by_cases hi : ∃ sx n, y = .ident sx n
      · exact Or.inr (Or.inl hi)
      · refine Or.inl (List.mem_cons.mpr (Or.inl ?_))
        cases y with
        | ident sx n => exact absurd ⟨sx, n, rfl⟩ hi
        | _ => rfl
    · exact Or.inl (List.mem_cons_of_mem _ (List.mem_map.mpr ⟨y, hy, rfl⟩))
  | method s r n g as =>
    rw [lower, lowerAll_eq, lowerAll_eq, ← List.map_append]
    rcases List.mem_cons.mp hy with rfl | hy
    · exact Or.inr (Or.inr ⟨s, n, g, as, rfl⟩)
    · exact Or.inl (List.mem_cons_of_mem _ (List.mem_map.mpr ⟨y, hy, rfl⟩))
  | implFn s n sig b =>
    rw [lower, lowerAll_eq, lowerAll_eq, ← List.map_append]
    exact Or.inl (List.mem_map.mpr ⟨y, hy, rfl⟩)
  | fn s n at_ sig b => exact absurd ⟨s, n, at_, sig, b, rfl⟩ hf

omit hr in
theorem not_test {L m} {x : Syn} (hf : ¬ Free x) (t l cs) : lower L key m x ≠ .test t l cs := by
  intro h
  obtain ⟨s, n, at_, sig, b, rfl, _⟩ := lower_test_inv h
  exact hf ⟨s, n, at_, sig, b, rfl⟩

omit hr in
/-- Tests are not within tests. -/
theorem outside {L m m' x y} (h : Inside m x m' y) (hy : Free y) : Outside VC (lower L key m x) (lower L key m' y) := by
  induction h with
  | refl => exact .refl _
  | @step m x k m' y hf hk hin ih =>
    rcases kid_step (key := key) (L := L) (m := m) hf hk with h | ⟨sx, n, rfl⟩ | ⟨sx, n, g, as, rfl⟩
    · exact .step h (not_test hf) (Or.inl rfl) (ih hy)
    · cases hin with
      | refl => obtain ⟨_, _, _, _, _, h⟩ := hy; cases h
      | step _ hk _ => cases hk
    · rw [lower]
      refine .step (List.mem_cons_self ..) (by simp) (Or.inl rfl) ?_
      exact .step (List.mem_singleton.mpr rfl) (by simp) (Or.inl rfl) (ih hy)

omit hr in
/-- What is not hidden is seen. -/
theorem clear_seen {L m p x} (h : Clear config p x) (hx : Stmt x ∨ Call x) :
    ∃ m', Seen VC (lower L key m p) (lower L key m' x) := by
  induction h generalizing m with
  | refl => exact ⟨m, .refl _⟩
  | @step p k x hf hk hhid hcl ih =>
    obtain ⟨m', hseen⟩ := ih (m := enter m p) hx
    refine ⟨m', ?_⟩
    have hcall : ∀ {i cn callee as}, lower L key m p = .call i cn callee as → Operand p k ∨ ¬ Visit.Ignored config (lower L key m p) ∨
        config.visitIgnoredArguments = true := by
      intro i cn callee as h
      rcases hhid (call_lower.mp ⟨_, _, _, _, h⟩) with h | h
      · exact Or.inl h
      · rw [hidden_iff (L := L) (key := key) (p := m)] at h
        cases hv : config.visitIgnoredArguments with
        | true => exact Or.inr (Or.inr rfl)
        | false => exact Or.inr (Or.inl fun hi => h ⟨hv, hi⟩)
    rcases kid_step (key := key) (L := L) (m := m) hf hk with h | ⟨sx, n, rfl⟩ | ⟨sx, n, g, as, rfl⟩
    · by_cases hop : ∃ sx n g as, p = .method sx k n g as
      · obtain ⟨sx, n, g, as, rfl⟩ := hop
        rw [lower]
        refine .step ⟨List.mem_cons_self .., Or.inr (Or.inr ⟨rfl, rfl⟩)⟩ ?_
        exact .step ⟨List.mem_singleton.mpr rfl, rfl⟩ hseen
      · by_cases hid : ∃ sx n, k = .ident sx n
        · obtain ⟨sx, n, rfl⟩ := hid
          cases hcl with
          | refl => rcases hx with (⟨_, _, _, h⟩ | ⟨_, _, _, h⟩ | ⟨_, _, _, h⟩ | ⟨_, _, h⟩) | ⟨_, _, _, h⟩ | ⟨_, _, _, _, _, h⟩ <;> cases h
          | step _ hk _ => cases hk
        · refine .step ⟨h, ?_⟩ hseen
          cases hl : lower L key m p with
          | test t l cs => exact absurd hl (not_test hf _ _ _)
          | call i cn callee as =>
            have h0 := hcall hl
            rw [hl] at h0
            rcases h0 with h1 | h1 | h1
            · refine Or.inr (Or.inr ⟨rfl, ?_⟩)
              rcases h1 with ⟨_, _, rfl⟩ | ⟨_, rfl⟩ | ⟨_, _, rfl⟩ | ⟨_, _, _, _, rfl⟩
              · rw [lower] at hl; cases hl
              · rw [lower] at hl; cases hl
              · rw [lower] at hl
                cases hl
                cases k with
                | ident sx n => exact absurd ⟨sx, n, rfl⟩ hid
                | _ => rfl
              · exact absurd ⟨_, _, _, _, rfl⟩ hop
            · exact Or.inl h1
            · exact Or.inr (Or.inl h1)
          | macro_ i n as =>
            obtain ⟨_, _, rfl, _⟩ := lower_macro_inv hl
            cases hk
          | field _ _ _ => exact rfl
          | await _ _ => exact rfl
          | stmt _ _ => trivial
          | exprStmt _ _ => trivial
          | other _ _ => trivial
    · cases hcl with
      | refl => rcases hx with (⟨_, _, _, h⟩ | ⟨_, _, _, h⟩ | ⟨_, _, _, h⟩ | ⟨_, _, h⟩) | ⟨_, _, _, h⟩ | ⟨_, _, _, _, _, h⟩ <;> cases h
      | step _ hk _ => cases hk
    · rw [lower]
      refine .step ⟨List.mem_cons_self .., Or.inr (Or.inr ⟨rfl, rfl⟩)⟩ ?_
      exact .step ⟨List.mem_singleton.mpr rfl, rfl⟩ hseen

theorem noTestFn_noTest {L m} {x : Syn} (h : NoTestFn x) : NoTest (lower L key m x) := by
  intro t l cs hs
  obtain ⟨m', y, hy, h1⟩ := sub_within hs h (by rintro (⟨_, _, _, h⟩ | ⟨_, _, h⟩) <;> cases h)
  obtain ⟨s, n, at_, sig, b, rfl, h2, _⟩ := lower_test_inv h1.symm
  exact h _ hy.within ⟨s, n, at_, sig, b, rfl, h2⟩

theorem flatTests {config : Compiled} {skip : Span → Bool} {trim : Span → Span} : FlatTests (lower LN key [] file) := by
  intro t l cs h m hm
  obtain ⟨q, sx, n, at_, sig, b, hi, _, _, _, rfl⟩ := world_test (bkey := bkey) (config := config) (skip := skip) (trim := trim) hr
    (Or.inl ⟨_, List.mem_singleton.mpr rfl, h⟩)
  obtain ⟨y, hy, rfl⟩ := List.mem_map.mp hm
  exact noTestFn_noTest hr (test_noTest hr hi.anywhere hy)

omit hr in
/-- What is visible in a test is seen. -/
theorem visible_seen (hfl : a.flags path = .ok fl) {t sig b x} (ht : Test a args path file t sig b) (hi : config.isIgnoredTest t = false)
    (hv : Visible config (sig ++ b) x) (hx : Stmt x ∨ Call x) :
    ∃ m m' p, p ∈ sig ++ b ∧ TestPart VC [lower LN key [] file] t (lastKey key b) (lower LN key m p) ∧
      Seen VC (lower LN key m p) (lower LN key m' x) := by
  obtain ⟨m, s, name, attrs, hin, hta, hl⟩ := ht
  obtain ⟨p, hp, hcl⟩ := hv
  obtain ⟨m', hs⟩ := clear_seen (key := key) (bkey := bkey) (skip := skip) (trim := trim) (file := file) (L := LN) (m := m) hcl hx
  refine ⟨m, m', p, hp, ⟨hi, _, ⟨_, List.mem_singleton.mpr rfl, ?_⟩, List.mem_map.mpr ⟨p, hp, rfl⟩⟩, hs⟩
  rw [← lower_test (s := s) (key := key) hta ((listedName_iff hfl).mpr hl)]
  exact outside hin ⟨s, name, attrs, sig, b, rfl⟩

omit hr in
theorem visible_in {ps x} (h : Visible config ps x) : In ps x := by
  obtain ⟨p, hp, h⟩ := h
  exact ⟨p, hp, h.within⟩

omit hr in
theorem Test.anywhere {t sig b x} (h : Test a args path file t sig b) (hx : In (sig ++ b) x) : Anywhere file x := by
  obtain ⟨m, s, name, attrs, hin, _⟩ := h
  obtain ⟨p, hp, hx⟩ := hx
  exact hin.anywhere.trans ((Anywhere.kid (by simpa [Syn.kids] using hp)).trans hx.anywhere)

theorem Test.noTest {t sig b x} (h : Test a args path file t sig b) (hx : In (sig ++ b) x) : NoTestFn x := by
  obtain ⟨m, s, name, attrs, hin, _⟩ := h
  obtain ⟨p, hp, hx⟩ := hx
  exact fun y hy => test_noTest hr hin.anywhere hp y (hx.trans hy)

theorem plain_low {L m x l} (hx : NoTestFn x) (hpl : Plain config file x) (hl : l ≠ some (key x)) (hskip : skip x.span = false) :
    ∃ i, i.span = x.span ∧ (PlainLeaf VC l (lower L key m x) i ∨ PlainCall VC l (lower L key m x) i) := by
  obtain ⟨hs, hnt, hpl⟩ := hpl
  have hi := stmt_lower (L := L) (key := key) m hs
  obtain ⟨h1, h2, h3, h4⟩ := info_spec (key := key) hs
  have hrem : Removable VC l (lower L key m x) (info key x) := ⟨hi, h3.mpr hnt, by rw [h2]; exact hl, by rw [h1]; exact hskip⟩
  refine ⟨_, h1, ?_⟩
  rcases hpl with ⟨a1, a2, a3⟩ | ⟨e, c, a1, a2, a3, a4⟩
  · obtain ⟨h5, h6⟩ := h4.mpr a2
    refine Or.inl ⟨hrem, ?_, h5, h6, ?_⟩
    · intro s' e' h' hn hh
      obtain ⟨e, h7, rfl, _⟩ := lower_exprStmt_inv hn
      obtain ⟨c, _, hm⟩ := head_makes hh rfl
      exact a3 e c h7 hm
    · intro k hk y i' hy his
      have hnf : ¬ Fake y := by
        rintro (⟨_, _, _, rfl⟩ | ⟨_, _, rfl⟩) <;> rcases his with ⟨_, h⟩ | ⟨_, h⟩ <;> cases h
      rcases lower_kids hk with ⟨hf, z, hz, hrep⟩ | ⟨s, n, at_, sig, b, t, rfl, _⟩
      · rcases sub_rep hy hrep hnf with ⟨m', w, hw, rfl⟩ | ⟨p', s, nm, at_, sig, b, t, hz', h1, _⟩
        · exact a1 w ⟨z, hz, hw.within⟩ (lower_stmt_inv his).1
        · exact hx _ (.step hf hz hz'.within) ⟨s, nm, at_, sig, b, rfl, h1⟩
      · rcases hs with ⟨_, _, _, h⟩ | ⟨_, _, _, h⟩ | ⟨_, _, _, h⟩ | ⟨_, _, h⟩ <;> cases h
  · refine Or.inr ⟨hrem, _, _, exprStmt_lower a1, a2.head, Or.inl rfl, fun h => a3 (ignored_iff.mp h), fun f hc => ?_⟩
    obtain ⟨name, d, _, b1, b2, _⟩ := calls_callOf hc
    exact a4 name _ b1 b2

section
variable (hc : CargoOk cargo a args path s)
include hc

/-! ## What is found -/

/-- **C74.** The tests are the functions with the attribute `#[test]` or `#[tokio::test]` that `cargo` lists, except those that the
configuration ignores. -/
theorem C74_tests {rounds st found s' walked}
    (h : visitFile cargo args path key bkey config skip trim rounds file s = .done st found s' walked) (t : Text) :
    t ∈ st.testSet ↔ (∃ sig b, Test a args path file t sig b) ∧ config.isIgnoredTest t = false := by
  obtain ⟨fl, hfl, hnames⟩ := hc.lists
  have h := refines_done hr hc.stable hc.agrees hfl hnames h
  constructor
  · intro ht
    obtain ⟨h1, l, cs, h2⟩ := C38_tests_sound h ht
    obtain ⟨m, sx, n, at_, sig, b, h3, h4, h5, _⟩ := world_test hr h2
    exact ⟨⟨sig, b, m, sx, n, at_, h3, h4, (listedName_iff hfl).mp h5⟩, h1⟩
  · rintro ⟨⟨sig, b, m, sx, n, at_, hin, hta, hl⟩, hi⟩
    refine C38_tests_complete h (r := lower (listedName a args path fl) key [] file) (List.mem_singleton.mpr rfl) (last := lastKey key b)
      (cs := (sig ++ b).map (lower (listedName a args path fl) key m)) ?_ hi
    rw [← lower_test (s := sx) (key := key) hta ((listedName_iff hfl).mpr hl)]
    exact outside hin ⟨sx, n, at_, sig, b, rfl⟩

/-- **C74.** The visit ends, after at most as many rounds as there are functions, and neither with an error nor with a panic. -/
theorem C74_ends (rounds : Nat) (hrounds : (fns file).length ≤ rounds) :
    ∃ st found s' walked, visitFile cargo args path key bkey config skip trim rounds file s = .done st found s' walked := by
  obtain ⟨fl, hfl, hnames⟩ := hc.lists
  obtain ⟨h1, h2⟩ := refines (key := key) (config := config) (skip := skip) (trim := trim) hr hc.stable hc.agrees hfl hnames rounds
  have hmore : Visit.visitFile VC rounds [lower (listedName a args path fl) key [] file] ≠ .more := by
    refine C39_terminates _ _ _ ?_
    have h1 := walkableOf_length config (localFns key bkey (fns file))
    have h2 : (localFns key bkey (fns file)).length = (fns file).length := List.length_map _
    have h3 : (VC).walkable.length = (walkableOf config (localFns key bkey (fns file))).length := rfl
    omega
  have hno : ∀ f, IsWalkable VC f → ∀ m ∈ f.body, NoTest m := by
    intro f hf m hm
    obtain ⟨d, hd, rfl⟩ := isWalkable_fn hf
    simp only [localFn, lowerAll_eq] at hm
    obtain ⟨y, hy, rfl⟩ := List.mem_map.mp hm
    exact noTestFn_noTest hr ((fns_function hd).noTest hr hy)
  have hpanic : Visit.visitFile VC rounds [lower (listedName a args path fl) key [] file] ≠ .panic := by
    refine C66_no_panic_partial _ _ ?_ (fun n _ => Or.inl rfl) fun f hf m hm => ⟨hno f hf m hm, Or.inl rfl⟩
    intro n hn
    cases List.mem_singleton.mp hn
    exact flatTests (config := config) (skip := skip) (trim := trim) hr
  cases h : visitFile cargo args path key bkey config skip trim rounds file s with
  | done st found s' walked => exact ⟨st, found, s', walked, rfl⟩
  | err e s' => exact absurd h (h2 e s')
  | panic => rw [h] at h1; exact absurd h1.symm hpanic
  | more => rw [h] at h1; exact absurd h1.symm hmore

/-- **C74.** A statement that is to be removed is a statement of a test (which is not the last one, nor looks the same), or of a function
of the file that the test calls, directly or through others into which the configuration allows to go. It is not the value of its block, and
it is not suppressed; and it is either no call, and then no control statement and no declaration, or a call that is not ignored. -/
theorem C74_statements {rounds st found s' walked}
    (h : visitFile cargo args path key bkey config skip trim rounds file s = .done st found s' walked)
    {span t} (hst : (span, t) ∈ st.statements) :
    (∃ sig b, Test a args path file t sig b) ∧ config.isIgnoredTest t = false ∧ skip span = false ∧
    ∃ x, Covers a args path config key file t x ∧ Stmt x ∧ ¬ Tail x ∧ x.span = span ∧
      ((¬ NeverRemoved x ∧ ∀ e c, ExprOf x e → ¬ Makes e c) ∨
       ∃ e c, ExprOf x e ∧ Makes e c ∧ ¬ Ignored config c) := by
  have h0 := h
  obtain ⟨fl, hfl, hnames⟩ := hc.lists
  have h := refines_done hr hc.stable hc.agrees hfl hnames h
  have hk : KeysFaithful VC := keysFaithful hr
  obtain ⟨h1, h2⟩ := (C38_only hk h (Or.inl hst)).1
  obtain ⟨l, n, i, h3, ⟨h4, h5, h6, h7⟩, rfl, h9⟩ := C38_statements hk h hst
  have hnf : ¬ Fake n := by
    rintro (⟨_, _, _, rfl⟩ | ⟨_, _, rfl⟩) <;> rcases h4 with ⟨_, h⟩ | ⟨_, h⟩ <;> cases h
  obtain ⟨m, x, rfl, hx, hcov⟩ := covers hr hfl h3 hnf
  obtain ⟨hs, rfl⟩ := lower_stmt_inv h4
  obtain ⟨hspan, hkey, hrem, hnr⟩ := info_spec (key := key) hs
  refine ⟨((C74_tests hr hc h0 t).mp h1).1, h2, h7, x, ?_, hs, hrem.mp h5, hspan.symm, ?_⟩
  · rcases hcov with ⟨sig, b, ht, hin, rfl⟩ | ⟨b, hu, hin⟩
    · refine .test ht hin fun y hy heq => h6 ?_
      rw [lastKey, hy, hkey, ← heq]; rfl
    · exact .function hu hin
  · rcases h9 with ⟨a1, a2, a3⟩ | ⟨e', h', a1, a2, a3⟩
    · exact Or.inl ⟨hnr.mp ⟨a2, a3⟩, fun e c he hm => a1 _ _ _ (exprStmt_lower he) hm.head⟩
    · obtain ⟨e, he, rfl, _⟩ := lower_exprStmt_inv a1
      obtain ⟨c, rfl, hm⟩ := head_makes a2 rfl
      exact Or.inr ⟨e, c, he, hm, fun hi => a3 (ignored_iff.mpr hi)⟩

/-- **C74.** A method call that is to be removed is the last one, `.p₁.….pₖ(…)`, of a call `base.p₁.….pₖ(…)` of a test or of
such a function; neither the method nor the call is ignored, and it is not suppressed. -/
theorem C74_methods {rounds st found s' walked}
    (h : visitFile cargo args path key bkey config skip trim rounds file s = .done st found s' walked)
    {span t} (hst : (span, t) ∈ st.methodCalls) :
    (∃ sig b, Test a args path file t sig b) ∧ config.isIgnoredTest t = false ∧ skip span = false ∧
    ∃ c base p, ((∃ sig b, Test a args path file t sig b ∧ In (sig ++ b) c) ∨ ∃ b, Uses a args path config file t b ∧ In b c) ∧
      Method c base p ∧ ¬ Ignored config c ∧ config.isIgnoredMethod (dotted p) = false ∧
      span = trim { c.span with start := base.span.stop } := by
  have h0 := h
  obtain ⟨fl, hfl, hnames⟩ := hc.lists
  have h := refines_done hr hc.stable hc.agrees hfl hnames h
  have hk : KeysFaithful VC := keysFaithful hr
  obtain ⟨h1, h2⟩ := (C38_only hk h (Or.inr hst)).1
  obtain ⟨hskip, l, n, i, base, p, cn, callee, as, rfl, h3, h4, h5, h6, h7⟩ := C38_methods hk h hst
  refine ⟨((C74_tests hr hc h0 t).mp h1).1, h2, hskip, ?_⟩
  obtain ⟨m, x, hx, hw, hcov⟩ := covers hr hfl h3 (by rintro (⟨_, _, _, h⟩ | ⟨_, _, h⟩) <;> cases h)
  rw [hx] at h4 h5
  obtain ⟨b, rfl, hm⟩ := method_low h4
  obtain ⟨y, ho, hop⟩ := hm.operand
  have hbs : (lower (listedName a args path fl) key m b).info.span = b.span := lower_span (hr.exprs y b (hw.trans ho) hop)
  refine ⟨x, b, p, hcov.imp (fun ⟨sig, b, h1, h2, _⟩ => ⟨sig, b, h1, h2⟩) id, hm, fun h => h5 (ignored_iff.mpr h), h6, ?_⟩
  have his : i.span = x.span := by
    rcases lower_call_inv hx.symm with ⟨s, g, as', rfl, rfl, _⟩ | ⟨s, r, n, g, as', rfl, rfl, _⟩ <;> rfl
  rw [h7, hbs, his]
  rfl

/-- **C74.** No plain statement of a test is overlooked: neither one that is no call and contains no statements, nor a call that is
not ignored and does not call a function that is gone into; except what looks like the test's last statement, what is the value of a block,
and what is within the arguments of ignored calls. -/
theorem C74_complete {rounds st found s' walked}
    (h : visitFile cargo args path key bkey config skip trim rounds file s = .done st found s' walked) {t sig b x}
    (ht : Test a args path file t sig b) (hi : config.isIgnoredTest t = false) (hv : Visible config (sig ++ b) x)
    (hpl : Plain config file x) (hl : ∀ y, b.getLast? = some y → key y ≠ key x) (hskip : skip x.span = false) :
    (x.span, t) ∈ st.statements := by
  obtain ⟨fl, hfl, hnames⟩ := hc.lists
  have h := refines_done hr hc.stable hc.agrees hfl hnames h
  obtain ⟨m, m', p, _, h1, h2⟩ := visible_seen (key := key) (bkey := bkey) (skip := skip) (trim := trim) hfl ht hi hv (Or.inl hpl.1)
  obtain ⟨i, h3, h4⟩ := plain_low (L := listedName a args path fl) (m := m') (key := key) (skip := skip) (trim := trim) (l := lastKey key b) hr
    (ht.noTest hr (visible_in hv)) hpl (by
      intro hk
      obtain ⟨y, hy, hky⟩ := Option.map_eq_some_iff.mp hk
      exact hl y hy hky) hskip
  rw [← h3]
  exact (C36_test h h1 h2 h4).2

/-- **C74.** … and likewise for a function that the test calls. -/
theorem C74_complete_functions {rounds st found s' walked}
    (h : visitFile cargo args path key bkey config skip trim rounds file s = .done st found s' walked)
    {t sig b c name b' x} (ht : Test a args path file t sig b) (hi : config.isIgnoredTest t = false) (hv : Visible config (sig ++ b) c)
    (hcall : CallOf c name) (hfn : Local config file name b') (huniq : ∀ b₂, Function file name b₂ → b₂ = b')
    (hv' : Visible config b' x) (hpl : Plain config file x) (hskip : skip x.span = false) :
    (x.span, t) ∈ st.statements := by
  obtain ⟨fl, hfl, hnames⟩ := hc.lists
  have h := refines_done hr hc.stable hc.agrees hfl hnames h
  have hco : Call c := by
    rcases hcall with ⟨s, f, as, rfl, _⟩ | ⟨s, r, g, as, rfl⟩
    · exact Or.inl ⟨_, _, _, rfl⟩
    · exact Or.inr ⟨_, _, _, _, _, rfl⟩
  obtain ⟨m, m', p, _, h1, h2⟩ := visible_seen (key := key) (bkey := bkey) (skip := skip) (trim := trim) hfl ht hi hv (Or.inr hco)
  obtain ⟨q, hq, hcl⟩ := id hv'
  have hno : NoTestFn x := fun y hy => hfn.1.noTest hr hq y (hcl.within.trans hy)
  obtain ⟨m'', hseen⟩ := clear_seen (key := key) (bkey := bkey) (skip := skip) (trim := trim) (file := file)
    (L := fun _ _ => none) (m := []) hcl (Or.inl hpl.1)
  obtain ⟨i, h3, h4⟩ := plain_low (L := fun _ _ => none) (m := m'') (key := key) (skip := skip) (trim := trim) (l := none) hr
    hno hpl (by simp) hskip
  have hd := function_fns hfn.1
  obtain ⟨fs, hlook⟩ := lookup_walkableOf (config := config) (l := localFns key bkey (fns file)) (name := name)
    (f := localFn key bkey ⟨name, b'⟩) (List.mem_map.mpr ⟨_, hd, rfl⟩) hfn.2 (by
      intro g hg
      obtain ⟨d, hdm, hdn, rfl⟩ := localFns_mem hg
      have := fns_function hdm
      rw [hdn] at this
      have := huniq _ this
      unfold localFn
      rw [this])
  have hcalls : Calls VC (lower (listedName a args path fl) key m' c) (localFn key bkey ⟨name, b'⟩) := by
    rcases hcall with ⟨s, f, as, rfl, hn⟩ | ⟨s, r, g, as, rfl⟩
    · rw [lower]
      exact ⟨_, _, _, _, name, fs, rfl, calleeOf_name.mpr hn, hlook⟩
    · rw [lower]
      exact ⟨_, _, _, _, name, fs, rfl, rfl, hlook⟩
  rw [← h3]
  refine C36_function (keysFaithful hr) h h1 h2 hcalls (m' := lower (fun _ _ => none) key [] q) ?_ hseen h4
  simp only [localFn, lowerAll_eq]
  exact List.mem_map.mpr ⟨q, hq, rfl⟩

/-- **C74.** No method call of a test is overlooked, unless it is ignored, has the name of a function that is gone into instead, is the
value of a block, or looks like the test's last statement. -/
theorem C74_complete_methods {rounds st found s' walked}
    (h : visitFile cargo args path key bkey config skip trim rounds file s = .done st found s' walked)
    {t sig b c base p} (ht : Test a args path file t sig b) (hi : config.isIgnoredTest t = false) (hv : Visible config (sig ++ b) c)
    (hm : Method c base p) (hig : ¬ Ignored config c) (him : config.isIgnoredMethod (dotted p) = false)
    (hloc : ∀ name b', CallOf c name → ¬ Local config file name b')
    (hskip : skip (trim { c.span with start := base.span.stop }) = false)
    (hl : ∀ x e c', In (sig ++ b) x → ExprOf x e → Makes e c' → c'.span = c.span → ¬ Tail x ∧ ∀ y, b.getLast? = some y → key y ≠ key x) :
    (trim { c.span with start := base.span.stop }, t) ∈ st.methodCalls := by
  obtain ⟨fl, hfl, hnames⟩ := hc.lists
  have h := refines_done hr hc.stable hc.agrees hfl hnames h
  have hco : Call c := by
    rcases hm with ⟨s, r, n, g, as, q, rfl, _⟩ | ⟨s, f, as, rfl, _⟩
    · exact Or.inr ⟨_, _, _, _, _, rfl⟩
    · exact Or.inl ⟨_, _, _, rfl⟩
  have hwc := ht.anywhere (visible_in hv)
  obtain ⟨m, m', q, hq, h1, h2⟩ := visible_seen (key := key) (bkey := bkey) (skip := skip) (trim := trim) hfl ht hi hv (Or.inr hco)
  have hmc := hm.low (L := listedName a args path fl) (key := key) (p := m')
  have hni : ¬ Visit.Ignored config (lower (listedName a args path fl) key m' c) := by
    rintro (hi | ⟨b, p', hm', hi⟩)
    · exact hig (ignored_iff.mp hi)
    · rw [← (hmc.unique hm').2, him] at hi; cases hi
  have hnc : ∀ f, ¬ Calls VC (lower (listedName a args path fl) key m' c) f := by
    intro f hcf
    obtain ⟨name, d, _, h5, h6, _⟩ := calls_callOf hcf
    exact hloc name _ h5 h6
  obtain ⟨y, ho, hop⟩ := hm.operand
  have hbs : (lower (listedName a args path fl) key m' base).info.span = base.span := lower_span (hr.exprs y base (hwc.trans ho) hop)
  obtain ⟨i, cn, f, as, hlow⟩ := call_lower.mpr hco
  have his : i.span = c.span := by
    rcases lower_call_inv hlow with ⟨s, g, as', rfl, rfl, _⟩ | ⟨s, r, n, g, as', rfl, rfl, _⟩ <;> rfl
  rw [hlow] at h2 hmc hni hnc
  have := C36_test_methods h h1 h2 hmc hni hnc (by rw [hbs, his]; exact hskip) ?_
  · rw [hbs, his] at this; exact this
  · intro i' e' hsub hhead
    obtain ⟨q', x, hx, hn⟩ := sub_within hsub (ht.noTest hr ⟨q, hq, .refl _⟩)
      (by rintro (⟨_, _, _, h⟩ | ⟨_, _, h⟩) <;> cases h)
    obtain ⟨ex, hex, rfl, rfl⟩ := lower_exprStmt_inv hn.symm
    obtain ⟨c', hc', hm'⟩ := head_makes hhead rfl
    have hs2 : i.span = c'.span := by
      rcases lower_call_inv hc'.symm with ⟨s, g, as', rfl, rfl, _⟩ | ⟨s, r, n, g, as', rfl, rfl, _⟩ <;> rfl
    obtain ⟨b1, b2⟩ := hl x ex c' ⟨q, hq, hx.within⟩ hex hm' (hs2.symm.trans his)
    have hsx : Stmt x := by
      rcases hex with ⟨s, semi, rfl⟩ | ⟨s, n, tk, rfl, rfl⟩
      · exact Or.inl ⟨_, _, _, rfl⟩
      · exact Or.inr (Or.inl ⟨_, _, _, rfl⟩)
    obtain ⟨_, k2, k3, _⟩ := info_spec (key := key) hsx
    refine ⟨k3.mpr b1, fun hlast => ?_⟩
    rw [k2] at hlast
    obtain ⟨y, hy, hky⟩ := Option.map_eq_some_iff.mp hlast
    exact b2 y hy hky

/-- **C74.** … and likewise for a function that the test calls. -/
theorem C74_complete_functions_methods {rounds st found s' walked}
    (h : visitFile cargo args path key bkey config skip trim rounds file s = .done st found s' walked)
    {t sig b c' name b' c base p} (ht : Test a args path file t sig b) (hi : config.isIgnoredTest t = false)
    (hv : Visible config (sig ++ b) c') (hcall : CallOf c' name) (hfn : Local config file name b')
    (huniq : ∀ b₂, Function file name b₂ → b₂ = b') (hv' : Visible config b' c)
    (hm : Method c base p) (hig : ¬ Ignored config c) (him : config.isIgnoredMethod (dotted p) = false)
    (hloc : ∀ name b', CallOf c name → ¬ Local config file name b')
    (hskip : skip (trim { c.span with start := base.span.stop }) = false)
    (hl : ∀ x e c', In b' x → ExprOf x e → Makes e c' → c'.span = c.span → ¬ Tail x) :
    (trim { c.span with start := base.span.stop }, t) ∈ st.methodCalls := by
  obtain ⟨fl, hfl, hnames⟩ := hc.lists
  have h := refines_done hr hc.stable hc.agrees hfl hnames h
  have hco : Call c' := by
    rcases hcall with ⟨s, f, as, rfl, _⟩ | ⟨s, r, g, as, rfl⟩
    · exact Or.inl ⟨_, _, _, rfl⟩
    · exact Or.inr ⟨_, _, _, _, _, rfl⟩
  obtain ⟨m, m', p', _, h1, h2⟩ := visible_seen (key := key) (bkey := bkey) (skip := skip) (trim := trim) hfl ht hi hv (Or.inr hco)
  have hco' : Call c := by
    rcases hm with ⟨s, r, n, g, as, q, rfl, _⟩ | ⟨s, f, as, rfl, _⟩
    · exact Or.inr ⟨_, _, _, _, _, rfl⟩
    · exact Or.inl ⟨_, _, _, rfl⟩
  obtain ⟨q, hq, hcl⟩ := id hv'
  have hnoq : NoTestFn q := hfn.1.noTest hr hq
  obtain ⟨m'', hseen⟩ := clear_seen (key := key) (bkey := bkey) (skip := skip) (trim := trim) (file := file)
    (L := fun _ _ => none) (m := []) hcl (Or.inr hco')
  have hd := function_fns hfn.1
  obtain ⟨fs, hlook⟩ := lookup_walkableOf (config := config) (l := localFns key bkey (fns file)) (name := name)
    (f := localFn key bkey ⟨name, b'⟩) (List.mem_map.mpr ⟨_, hd, rfl⟩) hfn.2 (by
      intro g hg
      obtain ⟨d, hdm, hdn, rfl⟩ := localFns_mem hg
      have := fns_function hdm
      rw [hdn] at this
      have := huniq _ this
      unfold localFn
      rw [this])
  have hcalls : Calls VC (lower (listedName a args path fl) key m' c') (localFn key bkey ⟨name, b'⟩) := by
    rcases hcall with ⟨s, f, as, rfl, hn⟩ | ⟨s, r, g, as, rfl⟩
    · rw [lower]
      exact ⟨_, _, _, _, name, fs, rfl, calleeOf_name.mpr hn, hlook⟩
    · rw [lower]
      exact ⟨_, _, _, _, name, fs, rfl, rfl, hlook⟩
  have hwc : Anywhere file c := (hfn.1.anywhere hq).trans hcl.within.anywhere
  have hmc := hm.low (L := fun _ _ => none) (key := key) (p := m'')
  have hni : ¬ Visit.Ignored config (lower (fun _ _ => none) key m'' c) := by
    rintro (hi | ⟨b, p', hm', hi⟩)
    · exact hig (ignored_iff.mp hi)
    · rw [← (hmc.unique hm').2, him] at hi; cases hi
  have hnc : ∀ f, ¬ Calls VC (lower (fun _ _ => none) key m'' c) f := by
    intro f hcf
    obtain ⟨name, d, _, h5, h6, _⟩ := calls_callOf hcf
    exact hloc name _ h5 h6
  obtain ⟨y, ho, hop⟩ := hm.operand
  have hbs : (lower (fun _ _ => none) key m'' base).info.span = base.span := lower_span (hr.exprs y base (hwc.trans ho) hop)
  obtain ⟨i, cn, f, as, hlow⟩ := call_lower.mpr hco'
  have his : i.span = c.span := by
    rcases lower_call_inv hlow with ⟨s, g, as', rfl, rfl, _⟩ | ⟨s, r, n, g, as', rfl, rfl, _⟩ <;> rfl
  rw [hlow] at hseen hmc hni hnc
  have := C36_function_methods (keysFaithful hr) h h1 h2 hcalls (m' := lower (fun _ _ => none) key [] q) (by
    simp only [localFn, lowerAll_eq]
    exact List.mem_map.mpr ⟨q, hq, rfl⟩) hseen hmc hni hnc (by rw [hbs, his]; exact hskip) ?_
  · rw [hbs, his] at this; exact this
  · intro i' e' hsub hhead
    obtain ⟨q', x, hx, hn⟩ := sub_within hsub hnoq
      (by rintro (⟨_, _, _, h⟩ | ⟨_, _, h⟩) <;> cases h)
    obtain ⟨ex, hex, rfl, rfl⟩ := lower_exprStmt_inv hn.symm
    obtain ⟨c2, hc2, hm2⟩ := head_makes hhead rfl
    have hs2 : i.span = c2.span := by
      rcases lower_call_inv hc2.symm with ⟨s, g, as', rfl, rfl, _⟩ | ⟨s, r, n, g, as', rfl, rfl, _⟩ <;> rfl
    have b1 := hl x ex c2 ⟨q, hq, hx.within⟩ hex hm2 (hs2.symm.trans his)
    have hsx : Stmt x := by
      rcases hex with ⟨s, semi, rfl⟩ | ⟨s, n, tk, rfl, rfl⟩
      · exact Or.inl ⟨_, _, _, rfl⟩
      · exact Or.inr (Or.inl ⟨_, _, _, rfl⟩)
    obtain ⟨_, _, k3, _⟩ := info_spec (key := key) hsx
    exact k3.mpr b1

end

end

end Necessist.Rs

