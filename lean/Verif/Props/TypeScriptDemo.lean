import Verif.Props.TypeScript
import Verif.Props.VisitorDemo
/-!
# TypeScript: examples, and what goes wrong (C72)
-/
namespace Necessist.Js
open Visit

/-! ## Checking the hypotheses about a concrete file -/

mutual
/-- All nodes. -/
def nodes : Js → List Js
  | .ident s n => [.ident s n]
  | .str s n => [.str s n]
  | .member s o n => .member s o n :: nodes o
  | .index s o p => .index s o p :: (nodes o ++ nodes p)
  | .await s o => .await s o :: nodes o
  | .call s f as => .call s f as :: (nodes f ++ nodesAll as)
  | .fn s ps b => .fn s ps b :: (nodesAll ps ++ nodesAll b)
  | .fnDecl s n ps b => .fnDecl s n ps b :: (nodesAll ps ++ nodesAll b)
  | .other s ps => .other s ps :: nodesAll ps
  | .expr s e => .expr s e :: nodes e
  | .control s ps => .control s ps :: nodesAll ps
  | .decl s ps => .decl s ps :: nodesAll ps
  | .stmt s ps => .stmt s ps :: nodesAll ps
def nodesAll : List Js → List Js
  | [] => []
  | x :: xs => nodes x ++ nodesAll xs
end

theorem nodesAll_eq (xs : List Js) : nodesAll xs = xs.flatMap nodes := by
  induction xs with
  | nil => rw [nodesAll]; rfl
  | cons x xs ih => rw [nodesAll, ih]; rfl

theorem nodes_eq (x : Js) : nodes x = x :: x.kids.flatMap nodes := by
  cases x <;> rw [nodes] <;> simp [Js.kids, nodesAll_eq]

theorem mem_nodes {t x} (h : Within t x) : x ∈ nodes t := by
  induction h with
  | refl => rw [nodes_eq]; simp
  | step hk _ ih => rw [nodes_eq]; exact List.mem_cons_of_mem _ (List.mem_flatMap.mpr ⟨_, hk, ih⟩)

theorem mem_nodesAll {xs x} (h : In xs x) : x ∈ nodesAll xs := by
  obtain ⟨p, hp, h⟩ := h
  rw [nodesAll_eq]
  exact List.mem_flatMap.mpr ⟨p, hp, mem_nodes h⟩

def isStmt : Js → Bool
  | .expr _ _ | .control _ _ | .decl _ _ | .stmt _ _ => true
  | _ => false

theorem isStmt_of {x} (h : Stmt x) : isStmt x = true := by
  rcases h with ⟨_, _, rfl⟩ | ⟨_, _, rfl⟩ | ⟨_, _, rfl⟩ | ⟨_, _, rfl⟩ <;> rfl

def isExpr : Js → Bool
  | .expr _ _ => true
  | _ => false

def exprCalls : Js → Bool
  | .expr _ e => stripsToCall (view e)
  | _ => false

def isTest : Js → Bool
  | .expr _ e => (itOf e).isSome
  | _ => false

theorem isTest_of {x t ps b} (h : IsTest x t ps b) : isTest x = true := by
  obtain ⟨s, e, rfl, he⟩ := h
  rw [isTest, itOf_iff.mpr ⟨ps, he⟩]; rfl

/-- What is on the spine, below `e`. -/
def spine : Js → List Js
  | .await _ e | .member _ e _ | .index _ e _ => e :: spine e
  | _ => []

theorem mem_spine {e c} (h : Spine e c) : e = c ∨ c ∈ spine e := by
  induction h with
  | refl => exact Or.inl rfl
  | await _ ih => right; rw [spine]; rcases ih with rfl | ih <;> simp [*]
  | member _ ih => right; rw [spine]; rcases ih with rfl | ih <;> simp [*]
  | index _ ih => right; rw [spine]; rcases ih with rfl | ih <;> simp [*]

/-- There is no index in which something happens. -/
def noIndex : Js → Bool
  | .index _ _ p => !hasWork p
  | _ => true

/-- The checks. -/
def regularAt : Js → Bool
  | .member _ o _ => !isStmt o
  | .expr _ e => ((e :: spine e).all noIndex) && ((spine e).all fun c => (itOf c).isNone) &&
      ((itOf e).isNone || (nodes e).all fun x => !isTest x)
  | _ => true

theorem nodup_inj {α β} {f : α → β} {l : List α} (h : (l.map f).Nodup) {a b : α} (ha : a ∈ l) (hb : b ∈ l) (he : f a = f b) : a = b := by
  induction l with
  | nil => cases ha
  | cons x l ih =>
    rw [List.map_cons, List.nodup_cons] at h
    rcases List.mem_cons.mp ha with ha | ha <;> rcases List.mem_cons.mp hb with hb | hb
    · rw [ha, hb]
    · exact absurd (List.mem_map.mpr ⟨b, hb, by rw [← he, ha]⟩) h.1
    · exact absurd (List.mem_map.mpr ⟨a, ha, by rw [he, hb]⟩) h.1
    · exact ih h.2 ha hb

theorem regular_of {key : Js → Nat} {file : Js} (h1 : ((nodes file).map key).Nodup) (h2 : ((nodes file).all regularAt) = true) :
    Regular key file where
  keys x y hx hy hk := nodup_inj h1 (mem_nodes hx) (mem_nodes hy) hk
  exprs s o n h hs := by
    have := List.all_eq_true.mp h2 _ (mem_nodes h)
    rw [regularAt, isStmt_of hs] at this
    cases this
  flat t ps b ht x hx t' ps' b' hx' := by
    obtain ⟨y, hy, s, e, rfl, he⟩ := ht
    have := List.all_eq_true.mp h2 _ (mem_nodes hy)
    rw [regularAt, itOf_iff.mpr ⟨ps, he⟩] at this
    simp only [Bool.and_eq_true, Option.isNone_some, Bool.false_or] at this
    have hw : Within e x := by
      obtain ⟨s0, s1, s2, s3, rfl⟩ := he
      obtain ⟨p, hp, hx⟩ := hx
      exact .step (m := .fn s3 ps b) (List.mem_cons_of_mem _ (List.mem_cons_of_mem _ (List.mem_singleton.mpr rfl))) (.step hp hx)
    have := List.all_eq_true.mp this.2 _ (mem_nodes hw)
    rw [isTest_of hx'] at this
    cases this
  it s e c t ps b hw hs hi := by
    have := List.all_eq_true.mp h2 _ (mem_nodes hw)
    rw [regularAt, Bool.and_eq_true, Bool.and_eq_true] at this
    rcases mem_spine hs with h | h
    · exact h
    · have := List.all_eq_true.mp this.1.2 _ h
      rw [itOf_iff.mpr ⟨ps, hi⟩] at this
      cases this
  index s e c f s' o p hw _ _ hi := by
    have := List.all_eq_true.mp h2 _ (mem_nodes hw)
    rw [regularAt, Bool.and_eq_true, Bool.and_eq_true] at this
    have h3 : Js.index s' o p ∈ e :: spine e := by
      rcases mem_spine hi with rfl | h
      · simp
      · exact List.mem_cons_of_mem _ h
    have := List.all_eq_true.mp this.1.1 _ h3
    exact hasWork_idle p (by simpa [noIndex] using this)

namespace Demo
open Visit.Demo (sp pat Found found_done)

def id' (line : Nat) (s : String) : Js := .ident (sp line 0 1) s.toList
def dot (line : Nat) (o : Js) (n : String) : Js := .member (sp line 0 5) o n.toList
def call (line : Nat) (f : Js) (args : List Js := []) : Js := .call (sp line 0 9) f args
def ex (line : Nat) (e : Js) : Js := .expr (sp line 0 10) e
def ret (line : Nat) : Js := .control (sp line 0 10) []
def dcl (line : Nat) (ps : List Js) : Js := .decl (sp line 0 10) ps
/-- `x++;` -/
def inc (line : Nat) : Js := ex line (.other (sp line 0 3) [id' line "x"])
def func (line : Nat) (name : String) (b : List Js) : Js := dcl line [.fnDecl (sp line 0 10) name.toList [] b]
def fun_ (line : Nat) (b : List Js) : Js := .fn (sp line 5 9) [] b
def it (line : Nat) (m : String) (b : List Js) : Js := ex line (call line (id' line "it") [.str (sp line 3 5) m.toList, fun_ line b])

mutual
/-- Giving each node a column of its own. -/
def number (n : Nat) : Js → Nat × Js
  | .ident s m => (n + 1, .ident { s with start := ⟨s.start.line, n⟩ } m)
  | .str s m => (n + 1, .str { s with start := ⟨s.start.line, n⟩ } m)
  | .member s o m => let r := number (n + 1) o; (r.1, .member { s with start := ⟨s.start.line, n⟩ } r.2 m)
  | .index s o p =>
    let r := number (n + 1) o; let r' := number r.1 p; (r'.1, .index { s with start := ⟨s.start.line, n⟩ } r.2 r'.2)
  | .await s o => let r := number (n + 1) o; (r.1, .await { s with start := ⟨s.start.line, n⟩ } r.2)
  | .call s f as =>
    let r := number (n + 1) f; let r' := numberAll r.1 as; (r'.1, .call { s with start := ⟨s.start.line, n⟩ } r.2 r'.2)
  | .fn s ps b =>
    let r := numberAll (n + 1) ps; let r' := numberAll r.1 b; (r'.1, .fn { s with start := ⟨s.start.line, n⟩ } r.2 r'.2)
  | .fnDecl s m ps b =>
    let r := numberAll (n + 1) ps; let r' := numberAll r.1 b; (r'.1, .fnDecl { s with start := ⟨s.start.line, n⟩ } m r.2 r'.2)
  | .other s ps => let r := numberAll (n + 1) ps; (r.1, .other { s with start := ⟨s.start.line, n⟩ } r.2)
  | .expr s o => let r := number (n + 1) o; (r.1, .expr { s with start := ⟨s.start.line, n⟩ } r.2)
  | .control s ps => let r := numberAll (n + 1) ps; (r.1, .control { s with start := ⟨s.start.line, n⟩ } r.2)
  | .decl s ps => let r := numberAll (n + 1) ps; (r.1, .decl { s with start := ⟨s.start.line, n⟩ } r.2)
  | .stmt s ps => let r := numberAll (n + 1) ps; (r.1, .stmt { s with start := ⟨s.start.line, n⟩ } r.2)
def numberAll (n : Nat) : List Js → Nat × List Js
  | [] => (n, [])
  | c :: cs => let r := number n c; let s := numberAll r.1 cs; (s.1, r.2 :: s.2)
end

def key (x : Js) : Nat := x.span.start.column

def config : Compiled := ⟨[pat "assert*"], [], [pat "close" true], .none_, ["skipped".toList], false, [pat "h*"]⟩

/-- ```js
function helper() { y(); x++; }
describe("d", function () {
  it("a", function () {
    let x = 1;
    helper();
    foo().bar();
    assert(x);
    await w.each(function () { inner(); });
    w.close();
    return;
    x++;
    x++;
  });
  it("skipped", function () { foo(); foo(); });
});
it.only("b", function () { foo(); foo(); });
``` -/
def tree : Js := (number 0 (.other (sp 1 0 9)
  [func 10 "helper" [ex 11 (call 11 (id' 11 "y")), inc 12],
   ex 18 (call 18 (id' 18 "describe") [.str (sp 18 3 5) "d".toList, fun_ 18
    [it 20 "a"
      [dcl 21 [id' 21 "x"],
       ex 22 (call 22 (id' 22 "helper")),
       ex 23 (call 23 (dot 23 (call 23 (id' 23 "foo")) "bar")),
       ex 24 (call 24 (id' 24 "assert") [id' 24 "x"]),
       ex 25 (.await (sp 25 0 9) (call 25 (dot 25 (id' 25 "w") "each") [fun_ 25 [ex 26 (call 26 (id' 26 "inner"))]])),
       ex 27 (call 27 (dot 27 (id' 27 "w") "close")),
       ret 28, inc 29, inc 30],
     it 40 "skipped" [ex 41 (call 41 (id' 41 "foo")), ex 42 (call 42 (id' 42 "foo"))]]]),
   ex 50 (call 50 (dot 50 (id' 50 "it") "only") [.str (sp 50 3 5) "b".toList, fun_ 50
     [ex 51 (call 51 (id' 51 "foo")), ex 52 (call 52 (id' 52 "foo"))]])])).2

def a : Text := "a".toList

-- `helper()` is gone into instead of being removed; `assert(x)`, `w.close()`, the declaration, the `return` and the last
-- statement are not candidates; `it.only` is no test
example : Found (visitFile key config (fun _ => false) id 4 tree) =
    some ([(23, a), (25, a), (26, a), (29, a), (11, a), (12, a)], [(23, a), (25, a)]) := by
  decide +kernel

theorem tree_ok : Regular key tree := regular_of (by decide +kernel) (by decide +kernel)

theorem tree_it : ItPlain config tree where
  ignored := by decide +kernel
  walkable ps b h := absurd h.2 (by decide +kernel)

/-- The node at these indices. -/
def at_ (t : Js) : List Nat → Option Js
  | [] => some t
  | i :: is => match t.kids[i]? with
    | some c => at_ c is
    | none => none

theorem at_within {t : Js} {is : List Nat} {x} (h : at_ t is = some x) : Within t x := by
  induction is generalizing t with
  | nil => cases h; exact .refl _
  | cons i is ih =>
    rw [at_] at h
    cases hc : t.kids[i]? with
    | none => simp only [hc] at h; cases h
    | some c => simp only [hc] at h; exact .step (List.mem_of_getElem? hc) (ih h)

def get (t : Js) (is : List Nat) : Js := (at_ t is).getD (.other (sp 0 0 0) [])

theorem get_within {t : Js} {is : List Nat} (h : (at_ t is).isSome = true) : Within t (get t is) := by
  obtain ⟨x, hx⟩ := Option.isSome_iff_exists.mp h
  rw [get, hx]; exact at_within hx

def parts : Js → List Js
  | .expr _ (.call _ _ [_, .fn _ _ b]) => b
  | _ => []
def bodyA : List Js := parts (get tree [1, 0, 2, 0])

theorem test_of {x : Js} {t} (h : Within tree x) (hx : isTest x = true) (ht : (match x with | .expr _ e => (itOf e).map (·.1) | _ => none) = some t)
    (hps : (match x with | .expr _ (.call _ _ [_, .fn _ [] _]) => true | _ => false) = true) : Test tree t [] (parts x) := by
  refine ⟨x, h, ?_⟩
  cases x with
  | expr s e =>
    rw [isTest] at hx
    obtain ⟨⟨m, b⟩, he⟩ := Option.isSome_iff_exists.mp hx
    simp only [he, Option.map_some, Option.some.injEq] at ht
    subst ht
    obtain ⟨ps, s0, s1, s2, s3, rfl⟩ := itOf_iff.mp he
    cases ps with
    | nil => exact ⟨s, _, rfl, s0, s1, s2, s3, rfl⟩
    | cons p ps => cases hps
  | _ => cases hx

theorem testA : Test tree a [] bodyA :=
  test_of (get_within (by decide +kernel)) (by decide +kernel) (by decide +kernel) (by decide +kernel)

-- the hypotheses of `C72_ends`: `helper`, which a test uses, contains no test
example : ∀ t ps b, Uses config tree t ps b → ∀ x, In (ps ++ b) x → ∀ t' ps' b', ¬ IsTest x t' ps' b' := by
  have h0 : ∀ n ps b, Function tree n ps b → ∀ x, In (ps ++ b) x → ∀ t' ps' b', ¬ IsTest x t' ps' b' := by
    intro n ps b ⟨s, h⟩ x hx t' ps' b' ht
    have h1 := outer_decls h s n ps b rfl
    have h2 : ((decls tree).all fun d => (nodesAll (d.params ++ d.body)).all fun x => !isTest x) = true := by decide +kernel
    have := List.all_eq_true.mp (List.all_eq_true.mp h2 _ h1) _ (mem_nodesAll hx)
    rw [isTest_of ht] at this
    cases this
  intro t ps b hu
  cases hu with
  | direct _ _ _ hl => exact h0 _ _ _ hl.1
  | via _ _ _ hl => exact h0 _ _ _ hl.1

-- … of `C72_complete`, for the first `x++`, …
example : Visible config ([] ++ bodyA) (get (.other (sp 0 0 0) bodyA) [7]) ∧ Plain config tree (get (.other (sp 0 0 0) bodyA) [7]) ∧
    bodyA.getLast? ≠ some (get (.other (sp 0 0 0) bodyA) [7]) ∧ (get (.other (sp 0 0 0) bodyA) [7]).span.start.line = 29 := by
  refine ⟨?_, ⟨?_, ?_, Or.inl ⟨?_, ?_, ?_⟩⟩, ?_, by decide +kernel⟩
  · have h : (bodyA[7]?).isSome = true := by decide +kernel
    obtain ⟨x, hx⟩ := Option.isSome_iff_exists.mp h
    refine ⟨x, List.mem_of_getElem? hx, ?_⟩
    have : get (.other (sp 0 0 0) bodyA) [7] = x := by
      rw [get, at_]
      simp only [Js.kids, hx, at_]
      rfl
    rw [this]
    exact .refl _
  · generalize hg : get (.other (sp 0 0 0) bodyA) [7] = g
    have h : isStmt g = true := by rw [← hg]; decide +kernel
    cases g <;> first | (cases h; done) | skip
    · exact Or.inl ⟨_, _, rfl⟩
    · exact Or.inr (Or.inl ⟨_, _, rfl⟩)
    · exact Or.inr (Or.inr (Or.inl ⟨_, _, rfl⟩))
    · exact Or.inr (Or.inr (Or.inr ⟨_, _, rfl⟩))
  · intro t ps b h
    exact absurd (isTest_of h) (by decide +kernel)
  · intro y hy hs
    have h : ((nodesAll (get (.other (sp 0 0 0) bodyA) [7]).kids).all fun x => !isStmt x) = true := by decide +kernel
    have := List.all_eq_true.mp h _ (mem_nodesAll hy)
    rw [isStmt_of hs] at this
    cases this
  · generalize hg : get (.other (sp 0 0 0) bodyA) [7] = g
    have h : isExpr g = true := by rw [← hg]; decide +kernel
    rintro (⟨_, _, rfl⟩ | ⟨_, _, rfl⟩) <;> cases h
  · generalize hg : get (.other (sp 0 0 0) bodyA) [7] = g
    have h : exprCalls g = false := by rw [← hg]; decide +kernel
    rintro s e c rfl hm
    have := (view_makes e).mpr ⟨c, hm⟩
    rw [exprCalls, this] at h
    cases h
  · intro h
    have h2 : (bodyA.getLast?.map key) ≠ some (key (get (.other (sp 0 0 0) bodyA) [7])) := by decide +kernel
    rw [h] at h2
    exact h2 rfl

/-- The `i`-th part of the test. -/
def nth (i : Nat) : Js := bodyA[i]?.getD (.other (sp 0 0 0) [])

theorem nth_mem {i} (h : (bodyA[i]?).isSome = true) : nth i ∈ bodyA := by
  obtain ⟨x, hx⟩ := Option.isSome_iff_exists.mp h
  rw [nth, hx]; exact List.mem_of_getElem? hx

def inner : Js → Js
  | .expr _ e => e
  | x => x

theorem clear_expr {x : Js} (h : isExpr x = true) : Clear config x (inner x) := by
  cases x <;> first | (cases h; done) | skip
  exact .step (List.mem_singleton.mpr rfl) nofun (.refl _)

def calls (n : Text) : Js → Bool
  | .call _ (.ident _ m) _ => m == n
  | _ => false

theorem callOf {n x} (h : calls n x = true) : CallOf x n := by
  unfold calls at h
  split at h
  · cases eq_of_beq h; exact ⟨_, _, _, rfl⟩
  · cases h

def firstBody (l : List Decl) : List Js := match l with | d :: _ => d.body | [] => []
def helperBody : List Js := firstBody (decls tree)

def one (l : List Decl) : Bool := match l with | [d] => d.name == "helper".toList && d.params.isEmpty | _ => false

theorem one_iff {l} (h : one l = true) : ∃ d, l = [d] ∧ d.name = "helper".toList ∧ d.params = [] := by
  unfold one at h
  split at h
  · rw [Bool.and_eq_true] at h
    exact ⟨_, rfl, eq_of_beq h.1, List.isEmpty_iff.mp h.2⟩
  · cases h

-- … of `C72_complete_functions`, for the statement `x++` of `helper`, …
example : Visible config ([] ++ bodyA) (inner (nth 1)) ∧ CallOf (inner (nth 1)) "helper".toList ∧
    Local config tree "helper".toList [] helperBody ∧
    (∀ ps₂ b₂ s s', Outer tree (.fnDecl s "helper".toList [] helperBody) → Outer tree (.fnDecl s' "helper".toList ps₂ b₂) →
      s = s' ∧ ps₂ = [] ∧ b₂ = helperBody) ∧
    (∀ y, In ([] ++ helperBody) y → ∀ t' ps₂ b₂, ¬ IsTest y t' ps₂ b₂) ∧
    (∃ x ∈ helperBody, x.span.start.line = 12) := by
  obtain ⟨d, hd, hn, hps⟩ := one_iff (l := decls tree) (by decide +kernel)
  have hb : helperBody = d.body := by rw [helperBody, hd]; rfl
  have htest : ((nodesAll helperBody).all fun x => !isTest x) = true := by decide +kernel
  have hline : (helperBody.any fun x => x.span.start.line == 12) = true := by decide +kernel
  refine ⟨⟨_, nth_mem (by decide +kernel), clear_expr (by decide +kernel)⟩, callOf (by decide +kernel), ?_, ?_, ?_, ?_⟩
  · refine ⟨?_, by decide +kernel⟩
    obtain ⟨s, h1, h2⟩ := decls_outer d tree (by rw [hd]; exact List.mem_singleton.mpr rfl)
    rw [h1, hn, hps] at h2
    rw [hb]
    exact ⟨s, h2⟩
  · intro ps₂ b₂ s s' h1 h2
    have h1 := outer_decls h1 _ _ _ _ rfl
    have h2 := outer_decls h2 _ _ _ _ rfl
    rw [hd] at h1 h2
    have := (List.mem_singleton.mp h1).trans (List.mem_singleton.mp h2).symm
    simp only [Decl.mk.injEq, Js.fnDecl.injEq] at this
    exact ⟨this.1.1, this.2.2.1.symm, this.2.2.2.symm⟩
  · intro y hy t' ps₂ b₂ ht
    have := List.all_eq_true.mp htest y (mem_nodesAll hy)
    rw [isTest_of ht] at this
    cases this
  · obtain ⟨x, hx, h⟩ := List.any_eq_true.mp hline
    exact ⟨x, hx, eq_of_beq h⟩

-- … and of `C72_complete_methods`, for `foo().bar()`
def isMethod (n : Text) : Js → Bool
  | .call _ (.member _ (.call _ (.ident _ f) _) m) _ => m == n && !config.isIgnoredFunction f
  | _ => false

theorem not_ignored {n c} (h : isMethod n c = true) : (∃ base, Method c base [n]) ∧ ¬ Ignored config c := by
  unfold isMethod at h
  split at h
  case h_2 => cases h
  rename_i s s1 s2 s3 f as m as'
  rw [Bool.and_eq_true] at h
  cases eq_of_beq h.1
  have hno : ∀ base p, ¬ Method (.call s2 (.ident s3 f) as) base p := by
    rintro base p ⟨hp, g, ⟨_, _, h⟩, hsel⟩
    cases h
    cases hsel
    exact hp rfl
  have hm : ∀ base p, Method (.call s (.member s1 (.call s2 (.ident s3 f) as) n) as') base p → base = .call s2 (.ident s3 f) as := by
    rintro base p ⟨hp, g, ⟨_, _, h⟩, hsel⟩
    cases h
    cases hsel with
    | base h => exact absurd rfl (h _ _ _)
    | member h => cases h; rfl
  refine ⟨⟨_, by simp, _, ⟨_, _, rfl⟩, .member (p := []) (.base nofun)⟩, ?_⟩
  rintro (h1 | ⟨base, p, h1, h2, _⟩)
  · generalize hc : Js.call s (.member s1 (.call s2 (.ident s3 f) as) n) as' = c at h1
    cases h1 with
    | function h1 => subst hc; obtain ⟨_, _, _, h1⟩ := h1; cases h1
    | path h1 => subst hc; cases hm _ _ h1
    | chain h1 h2 =>
      subst hc
      cases hm _ _ h1
      generalize hc : Js.call s2 (.ident s3 f) as = c at h2
      cases h2 with
      | function h3 h4 =>
        subst hc
        obtain ⟨_, _, _, h3⟩ := h3
        cases h3
        rw [h4] at h
        exact absurd h.2 (by simp)
      | path h3 => subst hc; exact hno _ _ h3
      | chain h3 => subst hc; exact hno _ _ h3
  · cases hm _ _ h1
    exact h2 _ ⟨_, _, rfl⟩

example : Visible config ([] ++ bodyA) (inner (nth 2)) ∧
    (∃ base, Method (inner (nth 2)) base ["bar".toList]) ∧ ¬ Ignored config (inner (nth 2)) ∧
    config.isIgnoredMethod (dotted ["bar".toList]) = false ∧ bodyA.getLast?.map (key ·) ≠ some (key (nth 2)) := by
  obtain ⟨h1, h2⟩ := not_ignored (n := "bar".toList) (c := inner (nth 2)) (by decide +kernel)
  exact ⟨⟨_, nth_mem (by decide +kernel), clear_expr (by decide +kernel)⟩, h1, h2, by decide +kernel, by decide +kernel⟩

/-! ## What goes wrong when the hypotheses do not hold -/

def run (cs : List Js) : Visited := visitFile key config (fun _ => false) id 4 (number 0 (.other (sp 1 0 9) cs)).2

def isPanic : Visited → Bool
  | .panic => true
  | _ => false

/-- `await it("b", function () { foo(); foo(); });` -/
def awaitIt : Js :=
  ex 50 (.await (sp 50 0 9) (call 50 (id' 50 "it") [.str (sp 50 3 5) "b".toList, fun_ 50
    [ex 51 (call 51 (id' 51 "foo")), ex 52 (call 52 (id' 52 "foo"))]]))

/-- **C72 (negation).** A file with the statement `await it(…);` makes necessist panic. -/
theorem C72_negation_await : isPanic (run [awaitIt]) = true := by decide +kernel

/-- **C72 (negation).** So does a test within a test, … -/
theorem C72_negation_nested : isPanic (run [it 20 "a" [it 21 "b" [inc 22], inc 23]]) = true := by decide +kernel

/-- **C72 (negation).** … and a test within a function that a test calls. -/
theorem C72_negation_function :
    isPanic (run [func 10 "helper" [it 11 "b" [inc 12]], it 20 "a" [ex 21 (call 21 (id' 21 "helper")), inc 23]]) = true := by
  decide +kernel

/-- **C72 (negation).** When a function has several signatures, the first is what is gone into, so nothing is found, although without the
first there is. -/
theorem C72_negation_overload :
    Found (run [func 9 "helper" [], func 10 "helper" [inc 11], it 20 "a" [ex 21 (call 21 (id' 21 "helper")), inc 23]]) = some ([], []) ∧
    Found (run [func 10 "helper" [inc 11], it 20 "a" [ex 21 (call 21 (id' 21 "helper")), inc 23]]) = some ([(11, a)], []) := by
  decide +kernel

end Demo
end Necessist.Js
