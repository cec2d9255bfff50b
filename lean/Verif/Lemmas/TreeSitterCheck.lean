import Verif.Lemmas.TreeSitterSpec
/-! # Checking that a concrete tree is as the grammar says (for the examples) -/
namespace Necessist.TS

mutual
/-- All nodes, with their parents' kinds. -/
def nodes (p : Option Text) : Tree → List (Option Text × Tree)
  | .node a cs => (p, .node a cs) :: nodesAll a.kind cs
def nodesAll (kind : Text) : List Tree → List (Option Text × Tree)
  | [] => []
  | c :: cs => nodes (some kind) c ++ nodesAll kind cs
end

theorem nodesAll_eq (kind : Text) (cs : List Tree) : nodesAll kind cs = cs.flatMap (nodes (some kind)) := by
  induction cs with
  | nil => simp [nodesAll]
  | cons c cs ih => rw [nodesAll, ih]; rfl

theorem mem_nodes {p t q x} (h : Within p t q x) : (q, x) ∈ nodes p t := by
  induction h with
  | refl p t => obtain ⟨a, cs⟩ := t; rw [nodes]; simp
  | @step p a cs c q x hc _ ih =>
    rw [nodes, nodesAll_eq]
    exact List.mem_cons_of_mem _ (List.mem_flatMap.mpr ⟨c, hc, ih⟩)

theorem nodes_within {p t q x} (h : (q, x) ∈ nodes p t) : Within p t q x := by
  match t with
  | .node a cs =>
    rw [nodes, nodesAll_eq, List.mem_cons, List.mem_flatMap] at h
    rcases h with h | ⟨c, hc, h⟩
    · cases h; exact .refl _ _
    · exact .step hc (nodes_within h)
termination_by sizeOf t
decreasing_by
  simp only [Tree.node.sizeOf_spec]
  have := List.sizeOf_lt_of_mem hc
  omega

def inert (L : Lang) (p : Option Text) (t : Tree) : Bool :=
  (nodes p t).all fun e => !L.isStmt e.1 e.2.attr && !L.isCall e.2.attr.kind

theorem inert_sound {L p t} (h : inert L p t = true) : Inert L p t := by
  intro q x hw
  have := List.all_eq_true.mp h _ (mem_nodes hw)
  simpa using this

def onlyAt (L : Lang) (kind : Text) (cs : List Tree) (k : Nat) : Bool :=
  decide (k < cs.length) && (cs.take k ++ cs.drop (k + 1)).all (inert L (some kind))

theorem onlyAt_sound {L kind cs k} (h : onlyAt L kind cs k = true) : OnlyAt L kind cs k := by
  simp only [onlyAt, Bool.and_eq_true, decide_eq_true_eq, List.all_eq_true] at h
  refine ⟨h.1, fun i c hi hik => inert_sound (h.2 c ?_)⟩
  rw [List.mem_append]
  rcases Nat.lt_or_gt_of_ne hik with hlt | hgt
  · left
    rw [List.mem_iff_getElem?]
    exact ⟨i, by rw [List.getElem?_take, if_pos hlt, hi]⟩
  · right
    rw [List.mem_iff_getElem?]
    exact ⟨i - (k + 1), by rw [List.getElem?_drop, ← hi]; congr 1; omega⟩

def nodeOk (L : Lang) (q : Option Text) (x : Tree) : Bool :=
  if L.isStmt q x.attr then
    !x.children.isEmpty && (match L.expr x.attr x.children with
      | some k => onlyAt L x.attr.kind x.children k
      | none => true)
  else if L.isCall x.attr.kind then (L.callee x.attr x.children).idx == some 0 && !x.children.isEmpty
  else match L.field x.attr x.children with
    | some (some j, _) => onlyAt L x.attr.kind x.children j
    | some (none, _) => false
    | none => true

theorem nodeOk_sound {L q x} (h : nodeOk L q x = true) : NodeOk L q x := by
  unfold nodeOk at h
  split at h
  · rename_i hs
    simp only [Bool.and_eq_true, Bool.not_eq_eq_eq_not, Bool.not_true, List.isEmpty_eq_false_iff] at h
    refine ⟨fun _ => h.1, fun _ k hk => ?_, (fun hs' => by rw [hs] at hs'; cases hs'), (fun hs' => by rw [hs] at hs'; cases hs')⟩
    rw [hk] at h
    exact onlyAt_sound h.2
  · rename_i hs
    split at h
    · rename_i hc
      simp only [Bool.and_eq_true, Bool.not_eq_eq_eq_not, Bool.not_true, List.isEmpty_eq_false_iff, beq_iff_eq] at h
      exact ⟨(fun hs' => absurd hs' hs), (fun hs' => absurd hs' hs), fun _ _ => h, (fun _ hc' => by rw [hc] at hc'; cases hc')⟩
    · rename_i hc
      refine ⟨(fun hs' => absurd hs' hs), (fun hs' => absurd hs' hs), (fun _ hc' => absurd hc' hc), fun _ _ k name hk => ?_⟩
      rw [hk] at h
      cases k with
      | none => cases h
      | some j => exact ⟨j, rfl, onlyAt_sound h⟩

theorem grammatical_of {L : Lang} {file : Tree} (h : ((nodes none file).all fun e => nodeOk L e.1 e.2) = true) :
    Grammatical L none file := fun q x hw => nodeOk_sound (List.all_eq_true.mp h _ (mem_nodes hw))

theorem nodup_inj {α β} {f : α → β} {l : List α} (h : (l.map f).Nodup) {x y : α} (hx : x ∈ l) (hy : y ∈ l) (he : f x = f y) :
    x = y := by
  induction l with
  | nil => cases hx
  | cons a l ih =>
    rw [List.map_cons, List.nodup_cons] at h
    rcases List.mem_cons.mp hx with hx | hx <;> rcases List.mem_cons.mp hy with hy | hy
    · rw [hx, hy]
    · exact absurd (List.mem_map.mpr ⟨y, hy, by rw [← he, hx]⟩) h.1
    · exact absurd (List.mem_map.mpr ⟨x, hx, by rw [he, hy]⟩) h.1
    · exact ih h.2 hx hy

theorem ids_of {file : Tree} (h : ((nodes none file).map fun e => e.2.attr.id).Nodup) :
    ∀ q x q' x', Within none file q x → Within none file q' x' → x.attr.id = x'.attr.id → x = x' := by
  intro q x q' x' hx hx' he
  have := nodup_inj h (mem_nodes hx) (mem_nodes hx') he
  exact congrArg Prod.snd this

mutual
/-- Numbering the nodes, for examples. -/
def number (n : Nat) : Tree → Nat × Tree
  | .node a cs => let r := numberAll (n + 1) cs; (r.1, .node { a with id := n } r.2)
def numberAll (n : Nat) : List Tree → Nat × List Tree
  | [] => (n, [])
  | c :: cs => let r := number n c; let s := numberAll r.1 cs; (s.1, r.2 :: s.2)
end

end Necessist.TS
