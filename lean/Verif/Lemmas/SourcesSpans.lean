import Verif.Lemmas.Sources
/-!
# The spans of what the visitors see lie in the files
-/
namespace Necessist
open Visit (Node Sub LocalFn)

/-- Everything in `n`, other than tests, has a span in `f`. -/
def InFile (f : SourceFile) (n : Node) : Prop := ∀ x, Sub n x → (∀ t l cs, x ≠ .test t l cs) → x.info.span.file = f

theorem InFile.mk {f : SourceFile} {n : Node} (h : (∀ t l cs, n ≠ .test t l cs) → n.info.span.file = f) (hk : ∀ m ∈ n.kids, InFile f m) :
    InFile f n := by
  intro x hx hn
  cases hx with
  | refl => exact h hn
  | step hm hs => exact hk _ hm _ hs hn

theorem InFile.kid {f : SourceFile} {n m : Node} (h : InFile f n) (hm : m ∈ n.kids) : InFile f m :=
  fun x hx hn => h x (.step hm hx) hn

theorem mem_byName {l : List (Text × LocalFn)} {x} (hx : x ∈ Visit.byName l) {g} (hg : g ∈ x.2) : ∃ d ∈ l, d.2 = g := by
  have add : ∀ (name : Text) (f : LocalFn) (l : List (Text × List LocalFn)) x, x ∈ Visit.addFn name f l → ∀ g ∈ x.2,
      g = f ∨ ∃ y ∈ l, g ∈ y.2 := by
    intro name f l
    induction l with
    | nil =>
      intro x hx g hg
      rw [Visit.addFn, List.mem_singleton] at hx; subst hx
      exact Or.inl (List.mem_singleton.mp hg)
    | cons e l ih =>
      obtain ⟨m, fs⟩ := e
      intro x hx g hg
      rw [Visit.addFn] at hx
      split at hx
      · rcases List.mem_cons.mp hx with rfl | hx
        · rcases List.mem_append.mp hg with h | h
          · exact Or.inr ⟨_, List.mem_cons_self, h⟩
          · exact Or.inl (List.mem_singleton.mp h)
        · exact Or.inr ⟨_, List.mem_cons_of_mem _ hx, hg⟩
      · rcases List.mem_cons.mp hx with rfl | hx
        · exact Or.inr ⟨_, List.mem_cons_self, hg⟩
        · rcases ih x hx g hg with h | ⟨y, hy, h⟩
          · exact Or.inl h
          · exact Or.inr ⟨y, List.mem_cons_of_mem _ hy, h⟩
  have key : ∀ (l : List (Text × LocalFn)) acc x, x ∈ l.foldl (fun acc d => Visit.addFn d.1 d.2 acc) acc → ∀ g ∈ x.2,
      (∃ y ∈ acc, g ∈ y.2) ∨ ∃ d ∈ l, d.2 = g := by
    intro l
    induction l with
    | nil => exact fun acc x hx g hg => Or.inl ⟨x, hx, hg⟩
    | cons d l ih =>
      intro acc x hx g hg
      rcases ih _ x hx g hg with ⟨y, hy, h⟩ | ⟨e, he, h⟩
      · rcases add _ _ _ y hy g h with rfl | h
        · exact Or.inr ⟨d, List.mem_cons_self, rfl⟩
        · exact Or.inl h
      · exact Or.inr ⟨e, List.mem_cons_of_mem _ he, h⟩
  rcases key l [] x hx g hg with ⟨y, hy, _⟩ | h
  · cases hy
  · exact h

namespace TS

theorem mem_localFunctions {L : Lang} {l : List Decl} {x} (hx : x ∈ localFunctions L l) {g} (hg : g ∈ x.2) : ∃ d ∈ l, localFn L d = g := by
  have same : ∀ name f l, addFn name f l = Visit.addFn name f l := by
    intro name f l
    induction l with
    | nil => rfl
    | cons e l ih => obtain ⟨m, fs⟩ := e; rw [addFn, Visit.addFn, ih]
  have : localFunctions L l = Visit.byName (l.map fun d => (d.name, localFn L d)) := by
    rw [localFunctions, Visit.byName, List.foldl_map]
    simp only [same]
  rw [this] at hx
  obtain ⟨d, hd, rfl⟩ := mem_byName hx hg
  obtain ⟨e, he, rfl⟩ := List.mem_map.mp hd
  exact ⟨e, he, rfl⟩

theorem mkNode_inFile {L : Lang} {f : SourceFile} {p a cs kids} (ha : a.span.file = f) (hk : ∀ m ∈ kids, InFile f m) :
    InFile f (mkNode L p a cs kids) := by
  have other : InFile f (.other (exprInfo L a) kids) := .mk (fun _ => ha) hk
  have field : ∀ name b, b ∈ kids → InFile f (.field (exprInfo L a) name b) := fun name b hb =>
    .mk (fun _ => ha) (fun m hm => by rw [List.mem_singleton.mp hm]; exact hk b hb)
  unfold mkNode
  split
  · split
    · rename_i e he
      obtain ⟨k, _, hk'⟩ := Option.bind_eq_some_iff.mp he
      exact .mk (fun _ => ha) (fun m hm => by rw [List.mem_singleton.mp hm]; exact hk _ (List.mem_of_getElem? hk'))
    · exact .mk (fun _ => ha) hk
  · split
    · split
      · rename_i callee k hc _
        refine .mk (fun _ => ha) (fun m hm => ?_)
        rcases List.mem_cons.mp hm with rfl | hm
        · unfold calleeOf at hc
          split at hc
          · obtain ⟨k, _, hk'⟩ := Option.bind_eq_some_iff.mp hc
            exact hk _ (List.mem_of_getElem? hk')
          · obtain ⟨b, hb, rfl⟩ := Option.map_eq_some_iff.mp hc
            obtain ⟨k, _, hk'⟩ := Option.bind_eq_some_iff.mp hb
            exact field _ _ (List.mem_of_getElem? hk')
        · exact hk _ (List.mem_of_mem_eraseIdx hm)
      · exact other
    · split
      · split
        · rename_i b hb
          exact field _ _ (List.mem_of_getElem? hb)
        · exact other
      · exact other

mutual
theorem lower_inFile {L : Lang} {f : SourceFile} : ∀ (p : Option Text) (t : Tree), (∀ q x, Within p t q x → x.attr.span.file = f) →
    InFile f (lower L p t)
  | p, .node a cs, h => by
    rw [lower]
    exact mkNode_inFile (h _ _ (.refl _ _)) (lowerAll_inFile a.kind cs fun c hc q x hw => h q x (.step hc hw))
theorem lowerAll_inFile {L : Lang} {f : SourceFile} : ∀ (kind : Text) (cs : List Tree),
    (∀ c ∈ cs, ∀ q x, Within (some kind) c q x → x.attr.span.file = f) → ∀ m ∈ lowerAll L kind cs, InFile f m
  | _, [], _ => by intro m hm; rw [lowerAll] at hm; cases hm
  | kind, c :: cs, h => by
    intro m hm
    rw [lowerAll] at hm
    rcases List.mem_cons.mp hm with rfl | hm
    · exact lower_inFile _ c (h c List.mem_cons_self)
    · exact lowerAll_inFile kind cs (fun c hc => h c (List.mem_cons_of_mem _ hc)) m hm
end

theorem body_inFile {L : Lang} {f : SourceFile} {file : Tree} (h : ∀ q x, Within none file q x → x.attr.span.file = f)
    {kind nk bk name body} (hd : Declares kind nk bk file name body) : ∀ m ∈ lowerAll L body.attr.kind body.children, InFile f m := by
  obtain ⟨q, x, n, hw, _, _, _, _, ⟨before, after, hb, _⟩, _⟩ := hd
  refine lowerAll_inFile _ _ fun c hc q' y hy => h q' y (hw.trans ?_)
  obtain ⟨a, cs⟩ := x
  obtain ⟨a', cs'⟩ := body
  simp only [Tree.children] at hb hc
  subst hb
  exact .step (List.mem_append_right _ List.mem_cons_self) (.step hc hy)

end TS

namespace Js

theorem lower_info {key : Js → Nat} {x : Js} (h : ∀ t l cs, lower key x ≠ .test t l cs) : (lower key x).info.span = x.span := by
  cases x with
  | index s o p => rw [lower]; split <;> rfl
  | expr s e =>
    rw [lower] at h ⊢
    split
    · rename_i hi; rw [hi] at h; exact absurd rfl (h _ _ _)
    · rfl
  | _ => rw [lower]; rfl

theorem lower_inFile {key : Js → Nat} {f : SourceFile} {x : Js} (h : ∀ y, Within x y → y.span.file = f) : InFile f (lower key x) := by
  intro n hn ht
  obtain ⟨y, hy, rfl⟩ := sub_within hn rfl
  rw [lower_info ht]
  exact h y hy

end Js

namespace Rs

mutual
theorem lower_inFile {L : List Text → Text → Option Text} {key : Syn → Nat} {f : SourceFile} : ∀ (p : List Text) (x : Syn),
    (∀ y, Anywhere x y → y.span.file = f) → InFile f (lower L key p x)
  | p, .mod_ s n items, h => by
    rw [lower]
    exact .mk (fun _ => h _ (.refl _)) (lowerAll_inFile _ items fun c hc y hy => h y (.step hc hy))
  | p, .fn s n a sig b, h => by
    have hs : s.file = f := h _ (.refl _)
    have h1 := lowerAll_inFile (L := L) (key := key) p sig fun c hc y hy => h y (.step (List.mem_append_left _ hc) hy)
    have h2 := lowerAll_inFile (L := L) (key := key) p b fun c hc y hy => h y (.step (List.mem_append_right _ hc) hy)
    rw [lower]
    split
    · split
      · exact .mk (fun hn => absurd rfl (hn _ _ _)) (fun m hm => (List.mem_append.mp hm).elim (h1 m) (h2 m))
      · exact .mk (fun _ => hs) nofun
    · exact .mk (fun _ => hs) nofun
  | p, .implFn s n sig b, h => by
    have h1 := lowerAll_inFile (L := L) (key := key) p sig fun c hc y hy => h y (.step (List.mem_append_left _ hc) hy)
    have h2 := lowerAll_inFile (L := L) (key := key) p b fun c hc y hy => h y (.step (List.mem_append_right _ hc) hy)
    rw [lower]
    exact .mk (fun _ => h _ (.refl _)) (fun m hm => (List.mem_append.mp hm).elim (h1 m) (h2 m))
  | p, .expr s e semi, h => by
    have h1 := lower_inFile (L := L) (key := key) p e fun y hy => h y (.step List.mem_cons_self hy)
    rw [lower]
    exact .mk (fun _ => h _ (.refl _)) (fun m hm => by rw [List.mem_singleton.mp hm]; exact h1)
  | p, .macStmt s n tokens, h => by
    have hs : s.file = f := h _ (.refl _)
    rw [lower]
    exact .mk (fun _ => hs) (fun m hm => by rw [List.mem_singleton.mp hm]; exact .mk (fun _ => hs) nofun)
  | p, .local_ s t parts, h => by
    rw [lower]
    exact .mk (fun _ => h _ (.refl _)) (lowerAll_inFile _ parts fun c hc y hy => h y (.step hc hy))
  | p, .item s i, h => by
    have h1 := lower_inFile (L := L) (key := key) p i fun y hy => h y (.step List.mem_cons_self hy)
    rw [lower]
    exact .mk (fun _ => h _ (.refl _)) (fun m hm => by rw [List.mem_singleton.mp hm]; exact h1)
  | p, .call s func args, h => by
    have h1 := lower_inFile (L := L) (key := key) p func fun y hy => h y (.step List.mem_cons_self hy)
    have h2 := lowerAll_inFile (L := L) (key := key) p args fun c hc y hy => h y (.step (List.mem_cons_of_mem _ hc) hy)
    have hf : func.span.file = f := h _ (.step List.mem_cons_self (.refl _))
    rw [lower]
    refine .mk (fun _ => h _ (.refl _)) (fun m hm => ?_)
    rcases List.mem_cons.mp hm with rfl | hm
    · unfold calleeOf
      split
      · exact .mk (fun _ => hf) nofun
      · exact h1
    · exact h2 m hm
  | p, .method s recv n generics args, h => by
    have hs : s.file = f := h _ (.refl _)
    have h1 := lower_inFile (L := L) (key := key) p recv fun y hy => h y (.step List.mem_cons_self hy)
    have h2 := lowerAll_inFile (L := L) (key := key) p generics fun c hc y hy =>
      h y (.step (List.mem_cons_of_mem _ (List.mem_append_left _ hc)) hy)
    have h3 := lowerAll_inFile (L := L) (key := key) p args fun c hc y hy =>
      h y (.step (List.mem_cons_of_mem _ (List.mem_append_right _ hc)) hy)
    rw [lower]
    refine .mk (fun _ => hs) (fun m hm => ?_)
    rcases List.mem_cons.mp hm with rfl | hm
    · exact .mk (fun _ => hs) (fun m hm => by rw [List.mem_singleton.mp hm]; exact h1)
    · exact (List.mem_append.mp hm).elim (h2 m) (h3 m)
  | p, .mac s n tokens, h => by rw [lower]; exact .mk (fun _ => h _ (.refl _)) nofun
  | p, .ident s n, h => by rw [lower]; exact .mk (fun _ => h _ (.refl _)) nofun
  | p, .path s t parts, h => by
    rw [lower]
    exact .mk (fun _ => h _ (.refl _)) (lowerAll_inFile _ parts fun c hc y hy => h y (.step hc hy))
  | p, .field s base n, h => by
    have h1 := lower_inFile (L := L) (key := key) p base fun y hy => h y (.step List.mem_cons_self hy)
    rw [lower]
    exact .mk (fun _ => h _ (.refl _)) (fun m hm => by rw [List.mem_singleton.mp hm]; exact h1)
  | p, .await s base, h => by
    have h1 := lower_inFile (L := L) (key := key) p base fun y hy => h y (.step List.mem_cons_self hy)
    rw [lower]
    exact .mk (fun _ => h _ (.refl _)) (fun m hm => by rw [List.mem_singleton.mp hm]; exact h1)
  | p, .other s k t parts, h => by
    rw [lower]
    exact .mk (fun _ => h _ (.refl _)) (lowerAll_inFile _ parts fun c hc y hy => h y (.step hc hy))
theorem lowerAll_inFile {L : List Text → Text → Option Text} {key : Syn → Nat} {f : SourceFile} : ∀ (p : List Text) (xs : List Syn),
    (∀ c ∈ xs, ∀ y, Anywhere c y → y.span.file = f) → ∀ m ∈ lowerAll L key p xs, InFile f m
  | _, [], _ => by intro m hm; rw [lowerAll] at hm; cases hm
  | p, c :: cs, h => by
    intro m hm
    rw [lowerAll] at hm
    rcases List.mem_cons.mp hm with rfl | hm
    · exact lower_inFile _ c (h c List.mem_cons_self)
    · exact lowerAll_inFile p cs (fun c hc => h c (List.mem_cons_of_mem _ hc)) m hm
end

end Rs

namespace Foundry

mutual
theorem expr_inFile (c : Ctx) : ∀ (pos : Position) (e : Expr), InFile c.file (lowerExpr c pos e)
  | pos, .var l n => by cases pos <;> (rw [lowerExpr]; exact .mk (fun _ => rfl) nofun)
  | pos, .member l b n => by
    have h1 := expr_inFile c .plain b
    cases pos <;> (rw [lowerExpr]; exact .mk (fun _ => rfl) (fun m hm => by rw [List.mem_singleton.mp hm]; exact h1))
  | .plain, .call l f as => by
    have h1 := expr_inFile c .callee f
    have h2 := exprs_inFile c as
    rw [lowerExpr]
    · exact .mk (fun _ => rfl) (fun m hm => (List.mem_cons.mp hm).elim (fun e => e ▸ h1) (h2 m))
    · nofun
  | .callee, .call l f as => by
    have h1 := expr_inFile c .callee f
    have h2 := exprs_inFile c as
    rw [lowerExpr]
    · exact .mk (fun _ => rfl) (fun m hm => (List.mem_cons.mp hm).elim (fun e => e ▸ h1) (h2 m))
    · nofun
  | .peeled, .call l f as => by rw [lowerExpr]; exact .mk (fun _ => rfl) nofun
  | .plain, .options l f as => by rw [lowerExpr]; exact .mk (fun _ => rfl) nofun
  | .callee, .options l f as => by
    rw [lowerExpr]
    · exact expr_inFile c .peeled f
    · nofun
  | .peeled, .options l f as => by
    rw [lowerExpr]
    · exact expr_inFile c .peeled f
    · nofun
  | pos, .tuple l ns => by cases pos <;> (rw [lowerExpr] <;> first | exact .mk (fun _ => rfl) nofun | nofun)
  | pos, .assign l a b => by cases pos <;> (rw [lowerExpr] <;> first | exact .mk (fun _ => rfl) nofun | nofun)
  | pos, .op l ps => by cases pos <;> (rw [lowerExpr] <;> first | exact .mk (fun _ => rfl) nofun | nofun)
theorem exprs_inFile (c : Ctx) : ∀ (es : List Expr), ∀ m ∈ lowerExprs c es, InFile c.file m
  | [] => by intro m hm; rw [lowerExprs] at hm; cases hm
  | e :: es => by
    intro m hm
    rw [lowerExprs] at hm
    rcases List.mem_cons.mp hm with rfl | hm
    · exact expr_inFile c .plain e
    · exact exprs_inFile c es m hm
end

mutual
theorem stmt_inFile (c : Ctx) : ∀ (s : Stmt), ∀ m ∈ lowerStmt c s, InFile c.file m
  | .block l ss => by rw [lowerStmt]; exact block_inFile c none ss
  | .expr l e => by
    rw [lowerStmt]
    intro m hm
    rw [List.mem_singleton.mp hm]
    exact .mk (fun _ => rfl) (fun m hm => by rw [List.mem_singleton.mp hm]; exact expr_inFile c _ e)
  | .control l es => by
    rw [lowerStmt]
    intro m hm
    rw [List.mem_singleton.mp hm]
    exact .mk (fun _ => rfl) (exprs_inFile c es)
  | .varDef l es => by
    rw [lowerStmt]
    intro m hm
    rw [List.mem_singleton.mp hm]
    exact .mk (fun _ => rfl) (exprs_inFile c es)
  | .compound l ps => by
    have := parts_inFile c ps
    rw [lowerStmt]
    intro m hm
    rw [List.mem_singleton.mp hm]
    exact .mk (fun _ => rfl) this
theorem part_inFile (c : Ctx) : ∀ (p : Part), ∀ m ∈ lowerPart c p, InFile c.file m
  | .expr e => by
    rw [lowerPart]
    intro m hm
    rw [List.mem_singleton.mp hm]
    exact expr_inFile c _ e
  | .stmt s => by rw [lowerPart]; exact stmt_inFile c s
theorem parts_inFile (c : Ctx) : ∀ (ps : List Part), ∀ m ∈ lowerParts c ps, InFile c.file m
  | [] => by intro m hm; rw [lowerParts] at hm; cases hm
  | p :: ps => by
    intro m hm
    rw [lowerParts] at hm
    rcases List.mem_append.mp hm with hm | hm
    · exact part_inFile c p m hm
    · exact parts_inFile c ps m hm
theorem block_inFile (c : Ctx) : ∀ (prev : Option Stmt) (ss : List Stmt), ∀ m ∈ lowerBlock c prev ss, InFile c.file m
  | _, [] => by intro m hm; rw [lowerBlock] at hm; cases hm
  | prev, s :: ss => by
    intro m hm
    rw [lowerBlock] at hm
    rcases List.mem_append.mp hm with hm | hm
    · split at hm
      · rw [List.mem_singleton.mp hm]; exact .mk (fun _ => rfl) nofun
      · exact stmt_inFile c s m hm
    · exact block_inFile c (some s) ss m hm
end

theorem fn_inFile (c : Ctx) (f : Fn) : ∀ m ∈ lowerFn c f, InFile c.file m := by
  intro m hm
  rw [lowerFn] at hm
  rcases List.mem_append.mp hm with hm | hm
  · exact exprs_inFile c _ m hm
  · cases hb : f.body with
    | none => rw [hb] at hm; cases hm
    | some b => rw [hb] at hm; exact stmt_inFile c b m hm

theorem item_inFile (c : Ctx) (i : Item) : ∀ m ∈ lowerItem c i, InFile c.file m := by
  intro m hm
  cases i with
  | expr e => rw [lowerItem, List.mem_singleton] at hm; rw [hm]; exact expr_inFile c _ e
  | fn f =>
    rw [lowerItem] at hm
    split at hm
    · cases hm
    · rw [List.mem_singleton] at hm; rw [hm]
      exact .mk (fun h => absurd rfl (h _ _ _)) (fn_inFile c f)

end Foundry

namespace Sources
open Framework (Identifier)
open Parse Main

/-- Everything that the visitor of a framework sees of a file has a span in that file. -/
theorem ast_inFile {P : Parsers} (hl : Located P) {i : Identifier} {f ast} (h : fileAst P i f = .ok ast) {n} (hn : PartOf ast n)
    (ht : ∀ t last cs, n ≠ .test t last cs) : n.info.span.file = f := by
  have key : ∀ {ast : FileAst}, (∀ r ∈ ast.tree, InFile f r) →
      (∀ fns, ast.localFunctions = .ok fns → ∀ x ∈ fns, ∀ g ∈ x.2, ∀ r ∈ g.body, InFile f r) → PartOf ast n → n.info.span.file = f := by
    rintro ast h1 h2 (⟨r, hr, hs⟩ | ⟨fns, hf, x, hx, g, hg, r, hr, hs⟩)
    · exact h1 r hr n hs ht
    · exact h2 fns hf x hx g hg r hr n hs ht
  have sol : ∀ {items}, P.sol f = .ok items → PartOf (solAst P f items) n → n.info.span.file = f := by
    intro items _ hn
    refine key ?_ ?_ hn
    · intro r hr
      obtain ⟨it, _, hr⟩ := List.mem_flatMap.mp hr
      exact Foundry.item_inFile (P.solCtx f) it r hr
    · rintro fns ⟨⟩ x hx g hg r hr
      obtain ⟨d, hd, rfl⟩ := mem_byName hx hg
      obtain ⟨e, he, rfl⟩ := List.mem_map.mp hd
      exact Foundry.fn_inFile (P.solCtx f) _ r hr
  have go : ∀ {file}, P.go f = .ok file → PartOf (goAst file) n → n.info.span.file = f := by
    intro file hp hn
    have hw := hl.go f file hp
    refine key ?_ ?_ hn
    · intro r hr
      obtain ⟨d, hd, rfl⟩ := List.mem_map.mp hr
      exact .mk (fun h => absurd rfl (h _ _ _)) (TS.body_inFile hw (TS.Go.fns_iff.mp (List.mem_filter.mp hd).1))
    · rintro fns ⟨⟩ x hx g hg r hr
      obtain ⟨d, hd, rfl⟩ := TS.mem_localFunctions hx hg
      exact TS.body_inFile hw (TS.Go.fns_iff.mp (List.mem_filter.mp hd).1) r hr
  have php : ∀ {file}, P.php f = .ok file → PartOf (phpAst file) n → n.info.span.file = f := by
    intro file hp hn
    have hw := hl.php f file hp
    refine key ?_ ?_ hn
    · intro r hr
      obtain ⟨d, hd, rfl⟩ := List.mem_map.mp hr
      exact .mk (fun h => absurd rfl (h _ _ _)) (TS.body_inFile hw (TS.mem_decls_iff.mp (List.mem_filter.mp hd).1))
    · rintro fns ⟨⟩ x hx
      cases hx
  have js : ∀ {file}, P.js f = .ok file → PartOf (jsAst P file) n → n.info.span.file = f := by
    intro file hp hn
    have hw := hl.js f file hp
    refine key ?_ ?_ hn
    · intro r hr
      rw [List.mem_singleton.mp hr]
      exact Js.lower_inFile hw
    · rintro fns ⟨⟩ x hx g hg r hr
      obtain ⟨d, hd, rfl⟩ := mem_byName hx hg
      obtain ⟨e, he, rfl⟩ := List.mem_map.mp hd
      obtain ⟨s, hnode, ho⟩ := Js.decls_outer e file he
      rw [hnode] at ho
      have hr : r ∈ Js.lowerAll P.jsKey e.params ++ Js.lowerAll P.jsKey e.body := hr
      simp only [Js.lowerAll_eq, ← List.map_append] at hr
      obtain ⟨y, hy, rfl⟩ := List.mem_map.mp hr
      exact Js.lower_inFile fun z hz => hw z (ho.within.trans (.step hy hz))
  have rs : ∀ {file}, P.rs f = .ok file → PartOf (rsAst P f file) n → n.info.span.file = f := by
    intro file hp hn
    have hw := hl.rs f file hp
    refine key ?_ ?_ hn
    · intro r hr
      simp only [rsAst] at hr
      split at hr
      · rw [List.mem_singleton.mp hr]
        exact Rs.lower_inFile _ _ hw
      · cases hr
    · rintro fns ⟨⟩ x hx g hg r hr
      obtain ⟨d, hd, rfl⟩ := mem_byName hx hg
      obtain ⟨e, he, rfl⟩ := List.mem_map.mp hd
      exact Rs.lowerAll_inFile _ _ (fun c hc y hy => hw y (((Rs.fns_function he).anywhere hc).trans hy)) r hr
  unfold fileAst at h
  have em : ∀ {α} {e : Except Text α} {F : α → FileAst}, e.map F = .ok ast → ∃ a, e = .ok a ∧ F a = ast := by
    intro α e F he
    cases e with
    | error _ => cases he
    | ok a => exact ⟨a, rfl, by simpa [Except.map] using he⟩
  cases i <;> (obtain ⟨a, ha, rfl⟩ := em h; first | exact sol ha hn | exact go ha hn | exact php ha hn | exact js ha hn | exact rs ha hn)

/-- If the frameworks' parsers locate what they find in the files that they are given, then the hypothesis of the theorems about the whole
program about spans is met. -/
theorem spansInFile {V σ : Type} {h : Host V σ} (hp : Locates h) : SpansInFile h := by
  intro ext i fw hi f ast hf n hn ht
  obtain ⟨P, hl, he⟩ := hp ext i fw hi
  rw [he] at hf
  exact ast_inFile hl hf hn ht

end Sources
end Necessist
