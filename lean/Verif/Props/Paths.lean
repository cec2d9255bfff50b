import Verif.Props.Visitor
import Verif.Lemmas.Span
import Verif.Props.Config
/-! The names of a method call, as one text that the patterns of `ignored_methods` are compared with (C24). -/
namespace Necessist.Visit

/-- The names, with dots between them. -/
def dots : List Text → Text
  | [] => []
  | [a] => a
  | a :: b :: r => a ++ '.' :: dots (b :: r)

theorem dotted_eq (p : List Text) : dotted p = dots p := by
  fun_induction dots p with
  | case1 => rfl
  | case2 a => simp [dotted, List.intercalate]
  | case3 a b r ih =>
    rw [← ih]
    simp [dotted, List.intercalate, List.intersperse]

theorem dots_append (q : List Text) {r : List Text} (hr : r ≠ []) : dots (q ++ r) = q.flatMap (· ++ ['.']) ++ dots r := by
  induction q with
  | nil => rfl
  | cons a q ih =>
    obtain ⟨b, s, hs⟩ : ∃ b s, q ++ r = b :: s := by
      cases h : q ++ r with
      | nil => simp at h; exact absurd h.2 hr
      | cons b s => exact ⟨b, s, rfl⟩
    rw [List.cons_append, hs, dots, ← hs, ih]
    simp

theorem dots_suffix {path : List Text} (hp : path ≠ []) (hn : ∀ n ∈ path, n ≠ [] ∧ '.' ∉ n) (s : Text) :
    DotSuffix (dots path) s ↔ ∃ q r, path = q ++ r ∧ r ≠ [] ∧ s = dots r := by
  constructor
  · rintro ⟨comps, hc, e⟩
    induction comps generalizing path with
    | nil => exact ⟨[], path, rfl, hp, by simpa using e.symm⟩
    | cons a comps ih =>
      simp only [List.flatMap_cons, List.append_assoc, List.cons_append] at e
      have ha := (hc a (by simp)).2
      cases path with
      | nil => exact absurd rfl hp
      | cons b path =>
        have hb := (hn b (by simp)).2
        cases path with
        | nil =>
          rw [dots] at e
          exact absurd (by rw [e]; simp) hb
        | cons c path =>
          rw [dots] at e
          have e1 := splitFirst_append '.' b (dots (c :: path)) hb
          rw [e, splitFirst_append '.' a _ ha] at e1
          simp only [Option.some.injEq, Prod.mk.injEq] at e1
          obtain ⟨rfl, e2⟩ := e1
          obtain ⟨q, r, h1, h2, h3⟩ := ih (by simp) (fun n hn' => hn n (List.mem_cons_of_mem _ hn')) (fun x hx => hc x (List.mem_cons_of_mem _ hx)) e2.symm
          exact ⟨a :: q, r, by rw [h1]; rfl, h2, h3⟩
  · rintro ⟨q, r, rfl, hr, rfl⟩
    exact ⟨q, fun c hc => hn c (List.mem_append_left _ hc), dots_append q hr⟩

/-- **C24.** A method call `base.n₁.….nₖ(…)` is ignored as a method iff some pattern describes the last of its names, with dots between them:
`nₖ`, or `nₖ₋₁.nₖ`, and so on. -/
theorem C24_path {b user c} (he : Effective b user c) {path : List Text} (hp : path ≠ []) (hn : ∀ n ∈ path, n ≠ [] ∧ '.' ∉ n) :
    c.isIgnoredMethod (dotted path) = true ↔
      ∃ p ∈ b.methods.getD [] ++ user.ignoredMethods, ∃ q r, path = q ++ r ∧ r ≠ [] ∧ Instance p (dots r) := by
  rw [he.methods, dotted_eq]
  have key : ∀ p, MethodInstance p (dots path) ↔ ∃ q r, path = q ++ r ∧ r ≠ [] ∧ Instance p (dots r) := fun p =>
    ⟨fun ⟨s, h1, h2⟩ => by
      obtain ⟨q, r, h3, h4, rfl⟩ := (dots_suffix hp hn s).1 h1
      exact ⟨q, r, h3, h4, h2⟩,
     fun ⟨q, r, h3, h4, h2⟩ => ⟨_, (dots_suffix hp hn _).2 ⟨q, r, h3, h4, rfl⟩, h2⟩⟩
  simp only [key, List.mem_append]
  constructor
  · rintro (⟨p, h1, h2⟩ | ⟨p, h1, h2⟩)
    · exact ⟨p, Or.inl h1, h2⟩
    · exact ⟨p, Or.inr h1, h2⟩
  · rintro ⟨p, h1 | h1, h2⟩
    · exact Or.inl ⟨p, h1, h2⟩
    · exact Or.inr ⟨p, h1, h2⟩

example : dots ["foo".toList, "bar".toList] = "foo.bar".toList := by decide

end Necessist.Visit
