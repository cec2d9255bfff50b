import Verif.Props.RustVisitor
import Verif.Props.Rust
import Verif.Props.TypeScriptDemo
/-!
# Rust: examples, and what goes wrong (C74)
-/
namespace Necessist.Rs
open Visit
open Js (nodup_inj)
open Rust (Segment)

/-! ## Checking the hypotheses about a concrete file -/

mutual
/-- All nodes. -/
def nodes : Syn → List Syn
  | .ident s n => [.ident s n]
  | .path s t ps => .path s t ps :: nodesAll ps
  | .field s b n => .field s b n :: nodes b
  | .await s b => .await s b :: nodes b
  | .call s f as => .call s f as :: (nodes f ++ nodesAll as)
  | .method s r n g as => .method s r n g as :: (nodes r ++ (nodesAll g ++ nodesAll as))
  | .mac s n t => [.mac s n t]
  | .other s k t ps => .other s k t ps :: nodesAll ps
  | .expr s e semi => .expr s e semi :: nodes e
  | .macStmt s n t => [.macStmt s n t, .mac s n t]
  | .local_ s t ps => .local_ s t ps :: nodesAll ps
  | .item s i => .item s i :: nodes i
  | .mod_ s n items => .mod_ s n items :: nodesAll items
  | .fn s n at_ sig b => .fn s n at_ sig b :: (nodesAll sig ++ nodesAll b)
  | .implFn s n sig b => .implFn s n sig b :: (nodesAll sig ++ nodesAll b)
def nodesAll : List Syn → List Syn
  | [] => []
  | x :: xs => nodes x ++ nodesAll xs
end

theorem nodesAll_eq (xs : List Syn) : nodesAll xs = xs.flatMap nodes := by
  induction xs with
  | nil => rw [nodesAll]; rfl
  | cons x xs ih => rw [nodesAll, ih]; rfl

theorem nodes_eq (x : Syn) : nodes x = x :: x.kids.flatMap nodes := by
  cases x <;> rw [nodes] <;> simp [Syn.kids, nodesAll_eq, nodes]

theorem mem_nodes {t x} (h : Anywhere t x) : x ∈ nodes t := by
  induction h with
  | refl => rw [nodes_eq]; simp
  | step hk _ ih => rw [nodes_eq]; exact List.mem_cons_of_mem _ (List.mem_flatMap.mpr ⟨_, hk, ih⟩)

theorem mem_nodesAll {xs x} (h : In xs x) : x ∈ nodesAll xs := by
  obtain ⟨p, hp, h⟩ := h
  rw [nodesAll_eq]
  exact List.mem_flatMap.mpr ⟨p, hp, mem_nodes h.anywhere⟩

def isFree : Syn → Bool
  | .fn .. => true
  | _ => false

def isTestFn : Syn → Bool
  | .fn _ _ at_ _ _ => Rust.isTest at_
  | _ => false

theorem isTestFn_of {x} (h : TestFn x) : isTestFn x = true := by
  obtain ⟨s, n, at_, sig, b, rfl, h⟩ := h
  exact Rust.isTest_iff.mpr h

/-- The checks. -/
def regularAt : Syn → Bool
  | .field _ b _ | .await _ b | .call _ b _ | .method _ b _ _ _ => !isFree b
  | .fn _ _ _ sig b | .implFn _ _ sig b => (nodesAll (sig ++ b)).all fun x => !isTestFn x
  | _ => true

theorem regular_of {bkey : List Syn → Nat} {file : Syn} (h1 : ((fns file).map fun d => bkey d.body).Nodup)
    (h2 : ((nodes file).all regularAt) = true) : Regular bkey file where
  exprs x y hx ho := by
    have := List.all_eq_true.mp h2 _ (mem_nodes hx)
    rintro ⟨s, n, at_, sig, b, rfl⟩
    rcases ho with ⟨_, _, rfl⟩ | ⟨_, rfl⟩ | ⟨_, _, rfl⟩ | ⟨_, _, _, _, rfl⟩ <;> cases this
  flat s n at_ sig b h x hx ht := by
    have := List.all_eq_true.mp (List.all_eq_true.mp h2 _ (mem_nodes h)) _ (mem_nodesAll hx)
    rw [isTestFn_of ht] at this
    cases this
  flatImpl s n sig b h x hx ht := by
    have := List.all_eq_true.mp (List.all_eq_true.mp h2 _ (mem_nodes h)) _ (mem_nodesAll hx)
    rw [isTestFn_of ht] at this
    cases this
  distinct n b n' b' h h' hk := by
    have := nodup_inj h1 (function_fns h) (function_fns h') hk
    cases this
    rfl

namespace Demo
open Visit.Demo (sp pat Found found_done)
open Rust.Demo (cargo answers testAttr)

mutual
/-- Texts that are equal for nodes that differ only in their spans. -/
def code : Syn → Text
  | .ident _ n => n
  | .path _ t ps => t ++ ['<'] ++ codes ps
  | .field _ b n => code b ++ ['.'] ++ n.getD []
  | .await _ b => code b ++ ['?']
  | .call _ f as => code f ++ ['('] ++ codes as ++ [')']
  | .method _ r n g as => code r ++ ['!'] ++ n ++ codes g ++ ['('] ++ codes as ++ [')']
  | .mac _ n t => n ++ ['#'] ++ t
  | .other _ _ t ps => ['['] ++ t ++ codes ps ++ [']']
  | .expr _ e semi => code e ++ (if semi then ['$'] else ['_'])
  | .macStmt _ n t => n ++ ['%'] ++ t
  | .local_ _ t ps => ['L'] ++ t ++ codes ps
  | .item _ i => ['I'] ++ code i
  | .mod_ _ n ps => ['M'] ++ n ++ codes ps
  | .fn _ n _ sig b => ['F'] ++ n ++ codes sig ++ ['{'] ++ codes b
  | .implFn _ n sig b => ['G'] ++ n ++ codes sig ++ ['{'] ++ codes b
def codes : List Syn → Text
  | [] => []
  | x :: xs => code x ++ [';'] ++ codes xs
end

def number (t : Text) : Nat := t.foldl (fun n c => n * 2097152 + c.toNat + 1) 0
def key (x : Syn) : Nat := number (code x)
def bkey (b : List Syn) : Nat := number (codes b)

def id' (line : Nat) (s : String) : Syn := .ident (sp line 0 1) s.toList
def call (line : Nat) (f : Syn) (args : List Syn := []) : Syn := .call (sp line 0 9) f args
def meth (line : Nat) (r : Syn) (n : String) (args : List Syn := []) : Syn := .method (sp line 0 9) r n.toList [] args
def ex (line : Nat) (e : Syn) (semi : Bool := true) : Syn := .expr (sp line 0 10) e semi
def ret (line : Nat) : Syn := ex line (.other (sp line 0 6) .return_ [] [])
def let_ (line : Nat) (ps : List Syn) : Syn := .local_ (sp line 0 10) [] ps
/-- `x += y;` -/
def add (line : Nat) (y : String) : Syn := ex line (.other (sp line 0 3) .other "+=".toList [id' line "x", id' line y])
def clo (line : Nat) (b : List Syn) : Syn := .other (sp line 5 9) .other "closure".toList [.other (sp line 6 8) .block [] b]
def func (line : Nat) (name : String) (b : List Syn) : Syn := .fn (sp line 0 10) name.toList [] [] b
def test (line : Nat) (name : String) (b : List Syn) : Syn := .fn (sp line 0 10) name.toList testAttr [] b
def items (xs : List Syn) : Syn := .other (sp 1 0 9) .other "file".toList xs

def config : Compiled := ⟨[pat "skip"], [pat "assert*"], [pat "close" true], .none_, ["a::two".toList], false, [pat "h*"]⟩

/-- ```rust
fn helper() { y(); x += a; }
mod tests {
    #[test]
    fn one() {
        let x = 1;
        helper();
        foo().bar();
        assert!(x);
        w.each(|| { inner(); });
        w.close();
        return;
        x += a;
        x += b;
        x += b;
    }
    #[test]
    fn unlisted() { foo(); foo(); }
}
#[test]
fn two() { foo(); bar(); }
``` -/
def tree : Syn := items
  [func 10 "helper" [ex 11 (call 11 (id' 11 "y")), add 12 "a"],
   .mod_ (sp 18 0 9) "tests".toList
    [test 20 "one"
      [let_ 21 [id' 21 "one"],
       ex 22 (call 22 (id' 22 "helper")),
       ex 23 (meth 23 (call 23 (id' 23 "foo")) "bar"),
       .macStmt (sp 24 0 9) "assert".toList "x".toList,
       ex 25 (meth 25 (id' 25 "w") "each" [clo 25 [ex 26 (call 26 (id' 26 "inner"))]]),
       ex 27 (meth 27 (id' 27 "w") "close"),
       ret 28, add 29 "a", add 30 "b", add 31 "b"],
     test 40 "unlisted" [ex 41 (call 41 (id' 41 "foo")), ex 42 (call 42 (id' 42 "foo"))]],
   test 50 "two" [ex 51 (call 51 (id' 51 "foo")), ex 52 (call 52 (id' 52 "bar"))]]

def one : Text := "a::tests::one".toList

def run (tree : Syn) : Result Unit := visitFile cargo [] Rust.Demo.file key bkey config (fun _ => false) id 4 tree ({}, ())

-- `helper()` is gone into instead of being removed; `assert!(x)`, `w.close()`, the declaration, the `return`, the last statement and the one
-- that looks like it are not candidates; `cargo` does not list `unlisted`; the configuration ignores `two`
example : Found (run tree).low =
    some ([(23, one), (25, one), (26, one), (29, one), (11, one), (12, one)], [(23, one), (25, one)]) := by
  decide +kernel

theorem tree_ok : Regular bkey tree := regular_of (by decide +kernel) (by decide +kernel)

def okOf {α ε : Type} : Except ε α → Option α
  | .ok a => some a
  | .error _ => none

theorem okOf_some {α ε : Type} {e : Except ε α} (h : (okOf e).isSome = true) : ∃ a, e = .ok a := by
  cases e with
  | ok a => exact ⟨a, rfl⟩
  | error _ => cases h

def fl : List Text := ["--manifest-path", "/p/Cargo.toml", "--lib", "--bins"].map String.toList

theorem okOf_eq {α ε : Type} {e : Except ε α} {a} (h : okOf e = some a) : e = .ok a := by
  cases e with
  | ok b => cases h; rfl
  | error _ => cases h

theorem cargo_ok : CargoOk cargo answers [] Rust.Demo.file ({}, ()) where
  stable := ⟨fun _ _ => rfl, fun _ _ => rfl⟩
  agrees := Rust.agrees_empty
  lists := ⟨fl, okOf_eq (by decide +kernel), fun _ _ => okOf_some (by decide +kernel)⟩

def bodyOne : List Syn :=
  [let_ 21 [id' 21 "one"],
   ex 22 (call 22 (id' 22 "helper")),
   ex 23 (meth 23 (call 23 (id' 23 "foo")) "bar"),
   .macStmt (sp 24 0 9) "assert".toList "x".toList,
   ex 25 (meth 25 (id' 25 "w") "each" [clo 25 [ex 26 (call 26 (id' 26 "inner"))]]),
   ex 27 (meth 27 (id' 27 "w") "close"),
   ret 28, add 29 "a", add 30 "b", add 31 "b"]

theorem testOne : Test answers [] Rust.Demo.file tree one [] bodyOne := by
  refine ⟨["tests".toList], sp 20 0 10, "one".toList, testAttr, ?_, Or.inl (List.mem_singleton.mpr rfl), ?_⟩
  · refine .step (by rintro ⟨_, _, _, _, _, h⟩; cases h) (List.mem_cons_of_mem _ (List.mem_cons_self ..)) ?_
    refine .step (by rintro ⟨_, _, _, _, _, h⟩; cases h) (List.mem_cons_self ..) ?_
    exact .refl _ _
  · have h : (match okOf (answers.testNames fl []) with | some ns => decide (one ∈ ns) | none => false) = true := by decide +kernel
    cases hns : okOf (answers.testNames fl []) with
    | none => rw [hns] at h; cases h
    | some ns =>
      rw [hns] at h
      exact ⟨["a".toList], fl, ns, okOf_eq (by decide +kernel), okOf_eq (by decide +kernel), okOf_eq hns, by decide +kernel, of_decide_eq_true h⟩

def isStmt : Syn → Bool
  | .expr .. | .macStmt .. | .local_ .. | .item .. => true
  | _ => false

theorem isStmt_of {x} (h : Stmt x) : isStmt x = true := by
  rcases h with ⟨_, _, _, rfl⟩ | ⟨_, _, _, rfl⟩ | ⟨_, _, _, rfl⟩ | ⟨_, _, rfl⟩ <;> rfl

-- the hypotheses of `C74_complete`, for `x += a`, …
example : Visible config ([] ++ bodyOne) (add 29 "a") ∧ Plain config tree (add 29 "a") ∧
    ∀ y, bodyOne.getLast? = some y → key y ≠ key (add 29 "a") := by
  refine ⟨⟨_, ?_, .refl _⟩, ⟨Or.inl ⟨_, _, _, rfl⟩, ?_, Or.inl ⟨?_, ?_, ?_⟩⟩, ?_⟩
  · simp [bodyOne]
  · rintro ⟨_, _, h, _⟩; cases h
  · intro y hy hs
    have h : ((nodesAll (add 29 "a").kids).all fun x => !isStmt x) = true := by decide +kernel
    have := List.all_eq_true.mp h _ (mem_nodesAll hy)
    rw [isStmt_of hs] at this
    cases this
  · rintro (⟨_, _, _, h⟩ | ⟨_, _, h⟩ | ⟨_, _, _, _, _, _, h, h'⟩)
    · cases h
    · cases h
    · cases h; simp at h'
  · rintro e c (⟨_, _, h⟩ | ⟨_, _, _, h, _⟩) ⟨h1, h2⟩
    · cases h
      cases h1
      rcases h2 with (⟨_, _, _, h⟩ | ⟨_, _, _, _, _, h⟩) | ⟨_, _, _, h⟩ <;> cases h
    · cases h
  · intro y hy
    cases hy
    decide +kernel

-- … of `C74_complete_functions`, for the statement `x += a` of `helper`, …
example : Visible config ([] ++ bodyOne) (call 22 (id' 22 "helper")) ∧ CallOf (call 22 (id' 22 "helper")) "helper".toList ∧
    Local config tree "helper".toList [ex 11 (call 11 (id' 11 "y")), add 12 "a"] ∧
    (∀ b, Function tree "helper".toList b → b = [ex 11 (call 11 (id' 11 "y")), add 12 "a"]) ∧
    Visible config [ex 11 (call 11 (id' 11 "y")), add 12 "a"] (add 12 "a") := by
  have hfns : fns tree = [⟨"helper".toList, [ex 11 (call 11 (id' 11 "y")), add 12 "a"]⟩] := by rfl
  refine ⟨⟨ex 22 (call 22 (id' 22 "helper")), ?_, .step (by rintro ⟨_, _, _, _, _, h⟩; cases h) (List.mem_singleton.mpr rfl) ?_ (.refl _)⟩,
    Or.inl ⟨_, _, _, rfl, Or.inl ⟨_, rfl⟩⟩, ⟨?_, by decide +kernel⟩, ?_, ⟨_, by simp, .refl _⟩⟩
  · simp [bodyOne]
  · rintro (⟨_, _, _, h⟩ | ⟨_, _, _, _, _, h⟩) <;> cases h
  · exact fns_function (d := ⟨"helper".toList, [ex 11 (call 11 (id' 11 "y")), add 12 "a"]⟩) (by rw [hfns]; exact List.mem_singleton.mpr rfl)
  · intro b hb
    have := function_fns hb
    rw [hfns] at this
    cases List.mem_singleton.mp this
    rfl

-- … and of `C74_complete_methods`, for `foo().bar()`
example : Visible config ([] ++ bodyOne) (meth 23 (call 23 (id' 23 "foo")) "bar") ∧
    Method (meth 23 (call 23 (id' 23 "foo")) "bar") (call 23 (id' 23 "foo")) ["bar".toList] ∧
    ¬ Ignored config (meth 23 (call 23 (id' 23 "foo")) "bar") ∧
    config.isIgnoredMethod (dotted ["bar".toList]) = false ∧
    (∀ name b, CallOf (meth 23 (call 23 (id' 23 "foo")) "bar") name → ¬ Local config tree name b) ∧
    ∀ y, bodyOne.getLast? = some y → key y ≠ key (ex 23 (meth 23 (call 23 (id' 23 "foo")) "bar")) := by
  have hno : ∀ base p, ¬ Method (call 23 (id' 23 "foo")) base p := by
    rintro base p (⟨_, _, _, _, _, _, h, _⟩ | ⟨_, _, _, h, hs, hp⟩)
    · cases h
    · cases h
      cases hs
      exact hp rfl
  have hm : ∀ base p, Method (meth 23 (call 23 (id' 23 "foo")) "bar") base p → base = call 23 (id' 23 "foo") := by
    rintro base p (⟨_, _, _, _, _, _, h, hs, _⟩ | ⟨_, _, _, h, _⟩)
    · cases h; cases hs; rfl
    · cases h
  refine ⟨⟨ex 23 (meth 23 (call 23 (id' 23 "foo")) "bar"), ?_,
      .step (by rintro ⟨_, _, _, _, _, h⟩; cases h) (List.mem_singleton.mpr rfl) ?_ (.refl _)⟩,
    Or.inl ⟨_, _, _, _, _, [], rfl, .base nofun, rfl⟩, ?_, by decide +kernel, ?_, ?_⟩
  · simp [bodyOne]
  · rintro (⟨_, _, _, h⟩ | ⟨_, _, _, _, _, h⟩) <;> cases h
  · rintro (h1 | ⟨base, p, h1, h2, _⟩)
    · generalize hc : meth 23 (call 23 (id' 23 "foo")) "bar" = c at h1 hm
      cases h1 with
      | function _ => cases hc
      | macro_ _ => cases hc
      | chain h1 h2 =>
        cases hm _ _ h1
        generalize hc : call 23 (id' 23 "foo") = c at h2 hno
        cases h2 with
        | function h3 h4 =>
          cases hc
          rcases h3 with ⟨_, h3⟩ | ⟨_, _, h3⟩ <;> cases h3
          exact absurd h4 (by decide +kernel)
        | macro_ _ => cases hc
        | chain h3 => exact hno _ _ h3
    · cases hm _ _ h1
      exact h2 (Or.inl ⟨_, _, _, rfl⟩)
  · rintro name b (⟨_, _, _, h, _⟩ | ⟨_, _, _, _, h⟩) ⟨_, hw⟩
    · cases h
    · cases h
      exact absurd hw (by decide +kernel)
  · intro y hy
    cases hy
    decide +kernel

/-! ## What goes wrong when the hypotheses do not hold, and what may be unexpected -/

def isPanic : Visited → Bool
  | .panic => true
  | _ => false

/-- Without ignored tests; and `cargo` lists `one` and `two`. -/
def run' (xs : List Syn) : Option (List (Nat × Text) × List (Nat × Text)) :=
  let lib : Rust.Answers := ⟨answers.metadata, fun _ => .ok "a::one: test\na::two: test\n".toList⟩
  let cargo : Rust.Cargo Unit := ⟨fun d w => (lib.metadata d, w), fun l w => (lib.list l, w)⟩
  Found (visitFile cargo [] Rust.Demo.file key bkey { config with ignoredTests := [] } (fun _ => false) id 4 (items xs) ({}, ())).low

/-- **C74 (negation).** A test within a test that `cargo` lists makes necessist panic. -/
theorem C74_negation_nested :
    isPanic (run (items [.mod_ (sp 18 0 9) "tests".toList
      [test 20 "one" [.item (sp 21 0 9) (test 21 "two" [add 22 "a", add 23 "b"]), add 24 "c"]]])).low = true := by decide +kernel

/-- **C74 (negation).** Functions with equal bodies are taken for one another: the statement of `help2`, which only the test `two` calls, is
not a candidate, and that of `help1`, which it does not call, is attributed to `two`. -/
theorem C74_negation_merge :
    run' [func 10 "help1" [add 11 "a"], func 13 "help2" [add 14 "a"],
      test 20 "one" [ex 21 (call 21 (id' 21 "help1")), add 22 "b"], test 30 "two" [ex 31 (call 31 (id' 31 "help2")), add 32 "b"]] =
    some ([(11, "a::one".toList), (11, "a::two".toList)], []) := by decide +kernel

/-- **C74 (negation).** A statement that is not the last one of its test is no candidate, if it looks the same as the last one. -/
theorem C74_negation_last :
    run' [test 20 "one" [add 21 "a", add 22 "b", add 23 "a"]] = some ([(22, "a::one".toList)], []) := by decide +kernel

/-- **C74 (negation).** A `match` that is a statement without semicolon is no candidate although it is followed by other statements, while an
`if` is. -/
theorem C74_negation_match :
    run' [test 20 "one" [ex 21 (.other (sp 21 0 9) .other "match".toList [id' 21 "x"]) false, ex 22 (.other (sp 22 0 9) .if_ [] [id' 22 "x"]) false,
      add 23 "a"]] = some ([(22, "a::one".toList)], []) := by decide +kernel

/-- **C74 (negation).** The method call `x.help()` is taken for a call of the function `help`: it is no candidate, and the function's
statements are. -/
theorem C74_negation_method :
    run' [func 10 "help" [add 11 "a"], test 20 "one" [ex 21 (meth 21 (id' 21 "x") "help"), add 22 "b"]] =
    some ([(11, "a::one".toList)], []) := by decide +kernel

end Demo
end Necessist.Rs

