import Verif.Model.Framework
import Verif.Lemmas.Span
/-!
# C42, C43: choosing the framework
-/
namespace Necessist.Framework
open Std

section C42
variable {T I : Type} {all : List T} {display : T → Text} {applicable : T → Except Text Bool} {impl : T → Except Text (Option I)}

theorem applicableOnes_ok {P : T → Bool} (h : ∀ t ∈ all, applicable t = .ok (P t)) :
    applicableOnes applicable all = .ok (all.filter P) := by
  induction all with
  | nil => rfl
  | cons t ts ih =>
    rw [applicableOnes, h t List.mem_cons_self, ih fun t ht => h t (List.mem_cons_of_mem _ ht)]
    simp only [List.filter_cons]

/-- **C42.** With `auto`, if every applicability check gives an answer (`P`): exactly one applicable framework is used (its
constructor may fail), several are an error that names them all, none is the other error. -/
theorem C42_auto {P : T → Bool} (h : ∀ t ∈ all, applicable t = .ok (P t)) :
    (∀ t, all.filter P = [t] →
      backendFor all display applicable impl none = match impl t with
        | .ok (some i) => .ok i
        | .ok none => .error .none
        | .error e => .error (.failed e)) ∧
    (all.filter P = [] → backendFor all display applicable impl none = .error .none) ∧
    (2 ≤ (all.filter P).length → backendFor all display applicable impl none = .error (.multiple ((all.filter P).map display))) := by
  unfold backendFor toImplementation
  rw [applicableOnes_ok h]
  refine ⟨fun t ht => ?_, fun ht => ?_, fun ht => ?_⟩
  · rw [ht]
    simp only [implOf]
    rcases impl t with e | _ | i <;> rfl
  · rw [ht]
  · match hf : all.filter P, ht with
    | a :: b :: l, _ => rfl

/-- **C42.** With `auto`, an implementation is returned iff every check gives an answer, exactly one framework is applicable,
and it is that framework's implementation. -/
theorem C42_auto_iff (hd : all.Nodup) (i : I) : backendFor all display applicable impl none = .ok i ↔
    (∀ t ∈ all, ∃ b, applicable t = .ok b) ∧
    ∃ t ∈ all, applicable t = .ok true ∧ (∀ t' ∈ all, applicable t' = .ok true → t' = t) ∧ impl t = .ok (some i) := by
  by_cases hall : ∀ t ∈ all, ∃ b, applicable t = .ok b
  · let P : T → Bool := fun t => match applicable t with | .ok b => b | .error _ => false
    have hP : ∀ t ∈ all, applicable t = .ok (P t) := by
      intro t ht
      obtain ⟨b, hb⟩ := hall t ht
      simp only [P, hb]
    have hmem : ∀ t, t ∈ all.filter P ↔ t ∈ all ∧ applicable t = .ok true := by
      intro t
      rw [List.mem_filter]
      constructor
      · rintro ⟨h1, h2⟩; rw [hP t h1, h2]; exact ⟨h1, rfl⟩
      · rintro ⟨h1, h2⟩; rw [hP t h1] at h2; exact ⟨h1, Except.ok.inj h2⟩
    obtain ⟨c1, c2, c3⟩ := C42_auto (display := display) (impl := impl) hP
    refine ⟨fun h => ⟨hall, ?_⟩, fun ⟨_, t, ht, ha, hu, hi⟩ => ?_⟩
    · match hf : all.filter P with
      | [] => rw [c2 hf] at h; cases h
      | [t] =>
        rw [c1 t hf] at h
        have ht := (hmem t).1 (by rw [hf]; exact List.mem_singleton_self t)
        refine ⟨t, ht.1, ht.2, fun t' h1 h2 => ?_, ?_⟩
        · have := (hmem t').2 ⟨h1, h2⟩
          rw [hf] at this; exact List.mem_singleton.1 this
        · rcases hi : impl t with e | _ | j
          · rw [hi] at h; cases h
          · rw [hi] at h; cases h
          · rw [hi] at h; cases h; rfl
      | a :: c :: l => rw [c3 (by rw [hf]; simp)] at h; cases h
    · have hf : all.filter P = [t] := by
        have hn : (all.filter P).Nodup := hd.filter _
        have h1 : ∀ x ∈ all.filter P, x = t := fun x hx => hu x ((hmem x).1 hx).1 ((hmem x).1 hx).2
        have h2 : t ∈ all.filter P := (hmem t).2 ⟨ht, ha⟩
        match hf : all.filter P with
        | [] => rw [hf] at h2; cases h2
        | [x] => rw [hf] at h1; rw [h1 x (List.mem_singleton_self x)]
        | x :: y :: l =>
          rw [hf] at h1 hn
          have e1 := h1 x List.mem_cons_self
          have e2 := h1 y (List.mem_cons_of_mem _ List.mem_cons_self)
          rw [e1, e2] at hn
          simp at hn
      rw [c1 t hf, hi]
  · refine ⟨fun h => ?_, fun h => absurd h.1 hall⟩
    exfalso
    apply hall
    unfold backendFor toImplementation at h
    simp only at h
    cases ha : applicableOnes applicable all with
    | error e => rw [ha] at h; cases h
    | ok l =>
      clear h hall hd
      induction all generalizing l with
      | nil => simp
      | cons t ts ih =>
        rw [applicableOnes] at ha
        cases h1 : applicable t with
        | error e => rw [h1] at ha; cases ha
        | ok b =>
          rw [h1] at ha
          cases h2 : applicableOnes applicable ts with
          | error e => simp [h2] at ha
          | ok l' =>
            intro x hx
            rcases List.mem_cons.1 hx with rfl | hx
            · exact ⟨b, h1⟩
            · exact ih l' h2 x hx

/-- **C42.** If a check gives no answer, neither does `auto`, even if another framework is applicable; nothing is guessed. -/
theorem C42_check_fails (t : T) (ht : t ∈ all) (e : Text) (h : applicable t = .error e) :
    ∃ e', backendFor all display applicable impl none = .error (.failed e') := by
  have : ∃ e', applicableOnes applicable all = .error (.failed e') := by
    induction all with
    | nil => cases ht
    | cons x xs ih =>
      rw [applicableOnes]
      cases hx : applicable x with
      | error e => exact ⟨e, rfl⟩
      | ok b =>
        rcases List.mem_cons.1 ht with rfl | ht
        · rw [h] at hx; cases hx
        · obtain ⟨e', he⟩ := ih ht
          exact ⟨e', by simp [he]⟩
  obtain ⟨e', he⟩ := this
  exact ⟨e', by unfold backendFor toImplementation; simp [he]⟩

/-- **C42.** A framework that is asked for is used, applicable or not. -/
theorem C42_explicit (t : T) (i : I) : backendFor all display applicable impl (some t) = .ok i ↔ impl t = .ok (some i) := by
  unfold backendFor toImplementation
  simp only [implOf]
  cases hi : impl t with
  | error e => simp
  | ok o => cases o <;> simp

/-- The frameworks of the project: one is applicable iff one of its files exists. -/
theorem anyExists_ok (ex : Text → Bool) (ms : List Text) : anyExists (fun m => .ok (ex m)) ms = .ok (ms.any ex) := by
  induction ms with
  | nil => rfl
  | cons m ms ih => rw [anyExists, ih]; rfl

/-- **C42.** For the frameworks of the project, when the existence of files can be determined: a framework is chosen iff it is the
only one with one of its files in the root. -/
theorem C42_identifier (ex : Text → Bool) (impl : Identifier → Except Text (Option I)) (i : I) :
    backendFor Identifier.all Identifier.name (Identifier.applicable fun m => .ok (ex m)) impl none = .ok i ↔
      ∃ t : Identifier, (∃ m ∈ t.markers, ex m = true) ∧ (∀ t' : Identifier, (∃ m ∈ t'.markers, ex m = true) → t' = t) ∧
        impl t = .ok (some i) := by
  have ha : ∀ t : Identifier, Identifier.applicable (fun m => .ok (ex m)) t = .ok (t.markers.any ex) := fun t => anyExists_ok ex _
  have hall : ∀ t : Identifier, t ∈ Identifier.all := by intro t; cases t <;> decide
  rw [C42_auto_iff (by decide)]
  simp only [ha, Except.ok.injEq, List.any_eq_true, hall, true_and, true_implies]
  exact ⟨fun h => h.2, fun h => ⟨fun t => ⟨_, rfl⟩, h⟩⟩

/-- **C42.** Which files show which framework. -/
theorem C42_files (ex : Text → Bool) : (∀ i : Identifier, ∃ b, Identifier.applicable (fun m => .ok (ex m)) i = .ok b) ∧
    let applicable (i : Identifier) := Identifier.applicable (fun m => .ok (ex m)) i = .ok true
    (applicable .anchor ↔ ex "Anchor.toml".toList = true) ∧
    (applicable .foundry ↔ ex "foundry.toml".toList = true) ∧
    (applicable .go ↔ ex "go.mod".toList = true) ∧
    (applicable .hardhat ↔ ex "hardhat.config.ts".toList = true) ∧
    (applicable .php ↔ ex "php.xml".toList = true ∨ ex "php.xml.dist".toList = true) ∧
    (applicable .rust ↔ ex "Cargo.toml".toList = true) ∧
    (applicable .vitest ↔ ex "vitest.config.ts".toList = true) := by
  have ha : ∀ t : Identifier, Identifier.applicable (fun m => .ok (ex m)) t = .ok (t.markers.any ex) := fun t => anyExists_ok ex _
  refine ⟨fun i => ⟨_, ha i⟩, ?_⟩
  dsimp only
  simp only [ha, Except.ok.injEq]
  refine ⟨?_, ?_, ?_, ?_, ?_, ?_, ?_⟩ <;> simp only [Identifier.markers, List.any_cons, List.any_nil, Bool.or_false, Bool.or_eq_true]

/-- An Anchor project with a Cargo workspace at its root: `auto` refuses to choose. -/
example : backendFor Identifier.all Identifier.name
    (Identifier.applicable fun m => .ok (m == "Anchor.toml".toList || m == "Cargo.toml".toList)) (fun t => .ok (some t)) none =
      .error (.multiple ["anchor".toList, "rust".toList]) := rfl
example : backendFor Identifier.all Identifier.name
    (Identifier.applicable fun m => .ok (m == "go.mod".toList)) (fun t => .ok (some t)) none = .ok .go := rfl
/-- A PHPUnit project is not recognised by its usual configuration file. -/
example : backendFor Identifier.all Identifier.name
    (Identifier.applicable fun m => .ok (m == "phpunit.xml".toList)) (fun t => .ok (some t)) none = .error .none := rfl
end C42

section C43
variable {L R : Type} {l : ValueEnum L} {r : ValueEnum R} {fold : Text → Text}

theorem find?_first {α} {p : α → Bool} {xs : List α} {a : α} : xs.find? p = some a ↔
    ∃ as bs, xs = as ++ a :: bs ∧ p a = true ∧ ∀ x ∈ as, p x = false := by
  rw [List.find?_eq_some_iff_append]
  constructor
  · rintro ⟨h, as, bs, e, h'⟩; exact ⟨as, bs, e, h, fun x hx => by simpa using h' x hx⟩
  · rintro ⟨as, bs, e, h, h'⟩; exact ⟨h, as, bs, e, fun x hx => by simpa using h' x hx⟩

/-- Whether a name is the one given: exactly, or if case is ignored, up to case. -/
def Same (fold : Text → Text) (ignoreCase : Bool) (name given : Text) : Prop :=
  if ignoreCase then fold name = fold given else name = given

/-- **C43.** A name stands for the first core variant that has it; if there is none, for the first extension variant that has
it; if there is none of these either, it is refused. This is so whether or not case is ignored. -/
theorem C43_resolves_case (n : Text) (ic : Bool) :
    (∀ x, unionFromStr l r fold n ic = some (.left x) ↔
      ∃ as bs, l.variants = as ++ x :: bs ∧ Same fold ic (l.name x) n ∧ ∀ y ∈ as, ¬ Same fold ic (l.name y) n) ∧
    (∀ x, unionFromStr l r fold n ic = some (.right x) ↔ (∀ y ∈ l.variants, ¬ Same fold ic (l.name y) n) ∧
      ∃ as bs, r.variants = as ++ x :: bs ∧ Same fold ic (r.name x) n ∧ ∀ y ∈ as, ¬ Same fold ic (r.name y) n) ∧
    (unionFromStr l r fold n ic = none ↔ (∀ y ∈ l.variants, ¬ Same fold ic (l.name y) n) ∧ ∀ y ∈ r.variants, ¬ Same fold ic (r.name y) n) := by
  have key : ∀ {α} (e : ValueEnum α), (∀ x, e.fromStr fold n ic = some x ↔
      ∃ as bs, e.variants = as ++ x :: bs ∧ Same fold ic (e.name x) n ∧ ∀ y ∈ as, ¬ Same fold ic (e.name y) n) ∧
      (e.fromStr fold n ic = none ↔ ∀ y ∈ e.variants, ¬ Same fold ic (e.name y) n) := by
    intro α e
    unfold ValueEnum.fromStr Same
    refine ⟨fun x => ?_, ?_⟩
    · rw [find?_first]; cases ic <;> simp
    · rw [List.find?_eq_none]; cases ic <;> simp
  obtain ⟨l1, l2⟩ := key l
  obtain ⟨r1, r2⟩ := key r
  unfold unionFromStr
  cases hl : l.fromStr fold n ic with
  | some x =>
    have hx := (l1 x).1 hl
    have hne : ¬ ∀ y ∈ l.variants, ¬ Same fold ic (l.name y) n := by rw [← l2, hl]; simp
    refine ⟨fun y => ?_, fun y => ?_, ?_⟩
    · simp only [Option.some.injEq, Union.left.injEq]
      rw [← l1, hl]; simp
    · exact ⟨nofun, fun h => absurd h.1 hne⟩
    · exact ⟨nofun, fun h => absurd h.1 hne⟩
  | none =>
    have hne := l2.1 hl
    refine ⟨fun y => ?_, fun y => ?_, ?_⟩
    · rw [← l1, hl]; cases r.fromStr fold n ic <;> simp
    · rw [← r1]
      cases r.fromStr fold n ic with
      | none => simp
      | some z => exact ⟨fun h => ⟨hne, by simpa using h⟩, fun h => by simpa using h.2⟩
    · rw [← r2]
      cases r.fromStr fold n ic with
      | none => exact ⟨fun _ => ⟨hne, rfl⟩, fun _ => rfl⟩
      | some z => exact ⟨nofun, fun h => nomatch h.2⟩

/-- **C43.** The same, with the exact name. -/
theorem C43_resolves (n : Text) :
    (∀ x, unionFromStr l r fold n false = some (.left x) ↔
      ∃ as bs, l.variants = as ++ x :: bs ∧ l.name x = n ∧ ∀ y ∈ as, l.name y ≠ n) ∧
    (∀ x, unionFromStr l r fold n false = some (.right x) ↔ (∀ y ∈ l.variants, l.name y ≠ n) ∧
      ∃ as bs, r.variants = as ++ x :: bs ∧ r.name x = n ∧ ∀ y ∈ as, r.name y ≠ n) ∧
    (unionFromStr l r fold n false = none ↔ (∀ y ∈ l.variants, l.name y ≠ n) ∧ ∀ y ∈ r.variants, r.name y ≠ n) := by
  simpa only [Same, Bool.false_eq_true, if_false] using C43_resolves_case (l := l) (r := r) (fold := fold) n false

theorem insertName_perm (n : Text) (xs : List Text) : (insertName n xs).Perm (n :: xs) := by
  induction xs with
  | nil => exact .refl _
  | cons x xs ih =>
    rw [insertName]
    split
    · exact (ih.cons x).trans (.swap n x xs)
    · exact .refl _

theorem sortNames_perm (xs : List Text) : (sortNames xs).Perm xs := by
  induction xs with
  | nil => exact .refl _
  | cons x xs ih => exact (insertName_perm x _).trans (ih.cons x)

/-- Ascending. -/
def Sorted (xs : List Text) : Prop := xs.Pairwise fun a b => compare a b ≠ .gt

theorem insertName_sorted (n : Text) {xs : List Text} (h : Sorted xs) : Sorted (insertName n xs) := by
  induction xs with
  | nil => exact List.pairwise_singleton _ _
  | cons x xs ih =>
    have hx := List.pairwise_cons.1 h
    rw [insertName]
    split
    · rename_i hg
      refine List.pairwise_cons.2 ⟨fun y hy => ?_, ih hx.2⟩
      rcases List.mem_cons.1 ((insertName_perm n xs).mem_iff.1 hy) with rfl | hy
      · intro h'
        rw [OrientedCmp.eq_swap (cmp := compare), hg] at h'
        cases h'
      · exact hx.1 y hy
    · rename_i hg
      refine List.pairwise_cons.2 ⟨fun y hy => ?_, h⟩
      rcases List.mem_cons.1 hy with rfl | hy
      · exact hg
      · have h1 : (compare n x).isLE := by cases h0 : compare n x <;> simp_all
        have h2 : (compare x y).isLE := by have := hx.1 y hy; cases h0 : compare x y <;> simp_all
        have := TransCmp.isLE_trans h1 h2
        intro h'; rw [h'] at this; cases this

theorem sortNames_sorted (xs : List Text) : Sorted (sortNames xs) := by
  induction xs with
  | nil => exact List.Pairwise.nil
  | cons x xs ih => exact insertName_sorted x ih

theorem fromStr_name (n : Text) (v : Union L R) (h : unionFromStr l r fold n false = some v) : unionName l r v = n := by
  obtain ⟨h1, h2, _⟩ := C43_resolves (l := l) (r := r) (fold := fold) n
  cases v with
  | left x => obtain ⟨_, _, _, e, _⟩ := (h1 x).1 h; exact e
  | right x => obtain ⟨_, _, _, _, e, _⟩ := (h2 x).1 h; exact e

theorem filterMap_names (ns : List Text) (h : ∀ n ∈ ns, (unionFromStr l r fold n false).isSome = true) :
    (ns.filterMap fun n => unionFromStr l r fold n false).map (unionName l r) = ns := by
  induction ns with
  | nil => rfl
  | cons n ns ih =>
    obtain ⟨v, hv⟩ := Option.isSome_iff_exists.1 (h n List.mem_cons_self)
    rw [List.filterMap_cons, hv]
    simp only [List.map_cons]
    rw [fromStr_name n v hv, ih fun n hn => h n (List.mem_cons_of_mem _ hn)]

/-- **C43.** The names of the listed values are exactly those of all variants of both sides, sorted. -/
theorem C43_listed : (unionVariants l r fold).map (unionName l r) = sortNames (l.variants.map l.name ++ r.variants.map r.name) ∧
    ((unionVariants l r fold).map (unionName l r)).Perm (l.variants.map l.name ++ r.variants.map r.name) ∧
    Sorted ((unionVariants l r fold).map (unionName l r)) := by
  have e : (unionVariants l r fold).map (unionName l r) = sortNames (l.variants.map l.name ++ r.variants.map r.name) := by
    refine filterMap_names _ fun n hn => ?_
    have hn := (sortNames_perm _).mem_iff.1 hn
    cases h : unionFromStr l r fold n false with
    | some _ => rfl
    | none =>
      obtain ⟨h1, h2⟩ := (C43_resolves n).2.2.1 h
      rcases List.mem_append.1 hn with hn | hn <;> obtain ⟨y, hy, e⟩ := List.mem_map.1 hn
      · exact absurd e (h1 y hy)
      · exact absurd e (h2 y hy)
  exact ⟨e, e ▸ sortNames_perm _, e ▸ sortNames_sorted _⟩

/-- **C43.** Each listed value is what its own name stands for. -/
theorem C43_round_trip (v : Union L R) (h : v ∈ unionVariants l r fold) :
    unionFromStr l r fold (unionName l r v) false = some v := by
  obtain ⟨n, _, hn⟩ := List.mem_filterMap.1 h
  rw [fromStr_name n v hn]
  exact hn

/-- **C43.** If all names are different, every variant of both sides is listed. -/
theorem C43_all_listed (hd : (l.variants.map l.name ++ r.variants.map r.name).Nodup) :
    (∀ x ∈ l.variants, .left x ∈ unionVariants l r fold) ∧ ∀ x ∈ r.variants, .right x ∈ unionVariants l r fold := by
  have hn := List.nodup_append.1 hd
  have first : ∀ {α} (e : ValueEnum α), (e.variants.map e.name).Nodup → ∀ x ∈ e.variants,
      ∃ as bs, e.variants = as ++ x :: bs ∧ e.name x = e.name x ∧ ∀ y ∈ as, e.name y ≠ e.name x := by
    intro α e hd x hx
    obtain ⟨as, bs, h⟩ := List.append_of_mem hx
    refine ⟨as, bs, h, rfl, fun y hy => ?_⟩
    rw [h, List.map_append, List.nodup_append] at hd
    exact hd.2.2 _ (List.mem_map.2 ⟨y, hy, rfl⟩) _ (by simp)
  constructor
  · intro x hx
    refine List.mem_filterMap.2 ⟨l.name x, (sortNames_perm _).mem_iff.2 (List.mem_append.2 (Or.inl (List.mem_map.2 ⟨x, hx, rfl⟩))), ?_⟩
    exact ((C43_resolves _).1 x).2 (first l hn.1 x hx)
  · intro x hx
    refine List.mem_filterMap.2 ⟨r.name x, (sortNames_perm _).mem_iff.2 (List.mem_append.2 (Or.inr (List.mem_map.2 ⟨x, hx, rfl⟩))), ?_⟩
    refine ((C43_resolves _).2.1 x).2 ⟨fun y hy => ?_, first r hn.2.1 x hx⟩
    exact hn.2.2 _ (List.mem_map.2 ⟨y, hy, rfl⟩) _ (List.mem_map.2 ⟨x, hx, rfl⟩)

/-- **C43.** `--framework` of the project: the values, in the order listed. -/
theorem C43_frameworks : frameworkEnum.variants = [.right .anchor, .left (), .right .foundry, .right .go, .right .hardhat,
    .right .php, .right .rust, .right .vitest] := by decide +kernel

/-- **C43.** … and their names. -/
theorem C43_framework_names : frameworkEnum.variants.map frameworkEnum.name = ["anchor".toList, "auto".toList, "foundry".toList, "go".toList,
    "hardhat".toList, "php".toList, "rust".toList, "vitest".toList] := by decide +kernel

/-- Non-trivial: two sides that share a name. The core one wins and is listed twice. -/
example : unionVariants (⟨[1, 2], fun n => if n = 1 then "b".toList else "a".toList⟩ : ValueEnum Nat)
    (⟨[3, 4], fun n => if n = 3 then "c".toList else "b".toList⟩ : ValueEnum Nat) id =
    [.left 2, .left 1, .left 1, .right 3] := by decide +kernel
end C43

end Necessist.Framework
