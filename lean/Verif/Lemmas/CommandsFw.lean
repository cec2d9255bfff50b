import Verif.Lemmas.Commands
/-! The frameworks follow their plans. -/
namespace Necessist.Cmd
open Run
open ItMessage (Table)

variable {σ α : Type}

/-- `m` is what is to be done before `cs` is executed in `T cs`. -/
def Before (T : List Command → Todo) (m : M (St σ) Unit) : Prop :=
  ∀ w, ∃ l, (m w).2.ext.ran = w.ext.ran ++ l ∧ (m w).2.ext.it = w.ext.it ∧
    match (m w).1 with
    | .ok _ => ∀ cs l' r, Follows (.run cs) l' r → Follows (T cs) (l ++ l') r
    | .err _ => ∃ r, r ≠ some true ∧ ∀ cs, Follows (T cs) l r
    | _ => ∀ cs, Follows (T cs) l none

theorem before_ret : Before (σ := σ) Todo.run (ret ()) := fun w => ⟨[], by simp [ret], rfl, fun _ _ _ h => h⟩

theorem before_checked (x : Around σ) (c : Command) : Before (fun cs => .run (c :: cs)) (checked x c) := by
  intro w
  unfold checked Run.bind output
  dsimp only
  refine ⟨[.ran c (valueOf (x.output (forget w) c).res)], ?_⟩
  cases (x.output (forget w) c).res with
  | ok o =>
    dsimp only [valueOf]
    cases ho : o.success with
    | true => exact ⟨rfl, rfl, fun cs l' r h => .ok c cs o l' r ho h⟩
    | false => exact ⟨rfl, rfl, some false, nofun, fun cs => .fails c cs o ho⟩
  | err e => exact ⟨rfl, rfl, none, nofun, fun cs => .broken c cs⟩
  | panic => exact ⟨rfl, rfl, fun cs => .broken c cs⟩
  | hang => exact ⟨rfl, rfl, fun cs => .broken c cs⟩

theorem before_exists (x : Around σ) (name : Text) {A B : List Command → Todo} {a b : M (St σ) Unit} (ha : Before A a) (hb : Before B b) :
    Before (fun cs => .ifExists name (A cs) (B cs)) (Run.bind (exists? x name) fun y => if y then a else b) := by
  intro w
  unfold Run.bind exists?
  dsimp only
  cases hr : (x.exists_ (forget w) name).res with
  | ok y =>
    dsimp only [valueOf]
    cases y with
    | true =>
      obtain ⟨l, h1, h2, h3⟩ := ha { w with
        warns := (x.exists_ (forget w) name).warns,
        out := w.out ++ (x.exists_ (forget w) name).said.map .warning,
        ext := { w.ext with ran := w.ext.ran ++ [.asked name (some true)], rest := (x.exists_ (forget w) name).ext } }
      refine ⟨.asked name (some true) :: l, ?_⟩
      rw [if_pos rfl]
      refine ⟨by rw [h1]; simp, h2, ?_⟩
      generalize (a _).1 = r at *
      cases r with
      | ok _ => exact fun cs l' r h => .yes name _ _ _ r (h3 cs l' r h)
      | err _ => exact h3.imp fun r h => ⟨h.1, fun cs => .yes name _ _ _ r (h.2 cs)⟩
      | panic => exact fun cs => .yes name _ _ _ none (h3 cs)
      | hang => exact fun cs => .yes name _ _ _ none (h3 cs)
    | false =>
      obtain ⟨l, h1, h2, h3⟩ := hb { w with
        warns := (x.exists_ (forget w) name).warns,
        out := w.out ++ (x.exists_ (forget w) name).said.map .warning,
        ext := { w.ext with ran := w.ext.ran ++ [.asked name (some false)], rest := (x.exists_ (forget w) name).ext } }
      refine ⟨.asked name (some false) :: l, ?_⟩
      rw [if_neg nofun]
      refine ⟨by rw [h1]; simp, h2, ?_⟩
      generalize (b _).1 = r at *
      cases r with
      | ok _ => exact fun cs l' r h => .no name _ _ _ r (h3 cs l' r h)
      | err _ => exact h3.imp fun r h => ⟨h.1, fun cs => .no name _ _ _ r (h.2 cs)⟩
      | panic => exact fun cs => .no name _ _ _ none (h3 cs)
      | hang => exact fun cs => .no name _ _ _ none (h3 cs)
  | err e => exact ⟨[.asked name none], rfl, rfl, none, nofun, fun cs => .unknown name _ _⟩
  | panic => exact ⟨[.asked name none], rfl, rfl, fun cs => .unknown name _ _⟩
  | hang => exact ⟨[.asked name none], rfl, rfl, fun cs => .unknown name _ _⟩

theorem before_bind {T : List Command → Todo} {cs' : List Command} {m m' : M (St σ) Unit} (h : Before T m)
    (h' : Before (fun cs => .run (cs' ++ cs)) m') : Before (fun cs => T (cs' ++ cs)) (Run.bind m fun _ => m') := by
  intro w
  obtain ⟨l, h1, h2, h3⟩ := h w
  unfold Run.bind
  rcases hm : m w with ⟨r, w'⟩
  rw [hm] at h1 h2 h3
  cases r with
  | ok _ =>
    obtain ⟨l', h1', h2', h3'⟩ := h' w'
    dsimp only at h1 h2 h3 ⊢
    refine ⟨l ++ l', by rw [h1', h1, List.append_assoc], by rw [h2', h2], ?_⟩
    generalize (m' w').1 = r at *
    cases r with
    | ok _ =>
      intro cs l'' r h
      rw [List.append_assoc]
      exact h3 _ _ _ (h3' cs l'' r h)
    | err _ => exact h3'.imp fun r h => ⟨h.1, fun cs => h3 _ _ _ (h.2 cs)⟩
    | panic => exact fun cs => h3 _ _ _ (h3' cs)
    | hang => exact fun cs => h3 _ _ _ (h3' cs)
  | err e => exact ⟨l, h1, h2, h3.imp fun r h => ⟨h.1, fun cs => h.2 _⟩⟩
  | panic => exact ⟨l, h1, h2, fun cs => h3 _⟩
  | hang => exact ⟨l, h1, h2, fun cs => h3 _⟩

/-- … which may be all. -/
theorem Before.all {T : List Command → Todo} {m : M (St σ) Unit} (h : Before T m) (w : World (St σ)) :
    ∃ l ro, (m w).2.ext.ran = w.ext.ran ++ l ∧ (m w).2.ext.it = w.ext.it ∧ Follows (T []) l ro ∧
      match (m w).1 with
      | .ok _ => ro = some true
      | .err _ => ro ≠ some true
      | _ => ro = none := by
  obtain ⟨l, h1, h2, h3⟩ := h w
  generalize m w = R at *
  obtain ⟨r, w'⟩ := R
  cases r with
  | ok _ => exact ⟨l, some true, h1, h2, by have := h3 [] [] _ .done; rwa [List.append_nil] at this, rfl⟩
  | err _ => obtain ⟨r, hr, h3⟩ := h3; exact ⟨l, r, h1, h2, h3 [], hr⟩
  | panic => exact ⟨l, none, h1, h2, h3 [], rfl⟩
  | hang => exact ⟨l, none, h1, h2, h3 [], rfl⟩

/-! ### The frameworks with `RunAdapter` -/

/-- What is required of `RunLow`. -/
structure Follower (x : Around σ) (low : Low σ) (plan : Plan) (files : SourceFile → Prop) : Prop where
  names : plan.names = none
  dry : ∀ f, files f → ∃ T c, Before T low.install ∧ low.runFile (absolute x f) = some c ∧ plan.dry f = T [c.add x.args]
  build : ∀ f, files f → ∃ c, low.buildFile (absolute x f) = some c ∧ plan.build f = [c.add x.args]
  prepare : ∀ f t, files f → ∃ c, low.buildTest t (absolute x f) = some c ∧ plan.prepare f = [c.add x.args]
  test : ∀ f t, files f → ∃ c final pred, low.runTest t (absolute x f) = some (c, final, pred) ∧ plan.test f t = (c.add x.args).add final ∧
    match plan.shows with
    | none => pred = none
    | some shows => plan.decode = x.decode ∧ ∃ g, pred = some (false, g) ∧ ∀ line, g line = true ↔ shows t line

theorem adapter_implements {x : Around σ} {low : Low σ} {plan : Plan} {files : SourceFile → Prop} (h : Follower x low plan files) :
    Implements x (adapter x low) plan files where
  dry f hf w := by
    obtain ⟨T, c, hT, hc, hp⟩ := h.dry f hf
    have hb := (before_bind hT (cs' := [c.add x.args]) (before_checked x (c.add x.args))).all w
    dsimp only [adapter]
    rw [hc]
    change ∃ l ro, _ at hb
    show DryOk plan f w.ext (Run.bind low.install (fun _ => checked x (c.add x.args)) w).2.ext (Run.bind low.install (fun _ => checked x (c.add x.args)) w).1
    obtain ⟨l, ro, h1, h2, h3, h4⟩ := hb
    refine ⟨l, ro, h1, by rw [hp]; exact h3, ?_⟩
    generalize (Run.bind low.install (fun _ => checked x (c.add x.args)) w).1 = r at *
    cases r with
    | ok _ => exact ⟨h4, fun ns hns => by rw [h.names] at hns; cases hns⟩
    | err _ => exact ⟨.inl h4, fun ns hns => by rw [h.names] at hns; cases hns⟩
    | panic => exact h4
    | hang => exact h4
  build f hf w := by
    obtain ⟨c, hc, hp⟩ := h.build f hf
    dsimp only [adapter]
    rw [hc]
    show BuildOk plan f w.ext (checked x (c.add x.args) w).2.ext (checked x (c.add x.args) w).1
    obtain ⟨l, ro, h1, h2, h3, h4⟩ := (before_checked x (c.add x.args)).all w
    exact ⟨l, ro, h1, by rw [hp]; exact h3, h2, h4⟩
  exec t span hf w := by
    obtain ⟨c, hc, hp⟩ := h.prepare span.file t hf
    obtain ⟨c', final, pred, hc', hp', hs⟩ := h.test span.file t hf
    dsimp only [adapter]
    unfold adapterExec
    rw [hc]
    show ExecOk x plan t span w.ext (Run.bind (output x (c.add x.args)) _ w).2.ext (Run.bind (output x (c.add x.args)) _ w).1
    rw [hc']
    unfold Run.bind output
    dsimp only
    generalize (x.output (forget w) (c.add x.args)) = R
    obtain ⟨res, ws, e⟩ := R
    have hnn : ∀ ns, plan.names ≠ some ns := fun ns hns => by rw [h.names] at hns; cases hns
    cases res with
    | ok o =>
      dsimp only [valueOf]
      cases ho : o.success with
      | false =>
        refine ⟨[.ran (c.add x.args) (some o)], some false, rfl, by rw [hp]; exact .fails _ _ o ho, fun ns hns => absurd hns (hnn ns), .inl rfl⟩
      | true =>
        have hfol : Follows (.run (plan.prepare span.file)) [.ran (c.add x.args) (some o)] (some true) := by
          rw [hp]; exact .ok _ _ o _ _ ho .done
        rw [if_neg (by simp)]
        dsimp only [orPanic, Run.ret]
        cases hsh : plan.shows with
        | none =>
          rw [hsh] at hs
          subst hs
          exact ⟨_, _, rfl, hfol, fun ns hns => absurd hns (hnn ns), rfl, fun ns hns => absurd hns (hnn ns), by rw [hsh, hp']; exact .inl ⟨rfl, rfl⟩⟩
        | some shows =>
          rw [hsh] at hs
          obtain ⟨hd, g, rfl, hg⟩ := hs
          dsimp only [inner]
          cases (x.temp _).res with
          | ok _ =>
            refine ⟨_, _, rfl, hfol, fun ns hns => absurd hns (hnn ns), rfl, fun ns hns => absurd hns (hnn ns), ?_⟩
            rw [hsh, hp']
            exact ⟨rfl, hd, _, rfl, rfl, hg⟩
          | err _ => exact ⟨_, _, rfl, hfol, fun ns hns => absurd hns (hnn ns), nofun⟩
          | panic => exact ⟨_, _, rfl, hfol, fun ns hns => absurd hns (hnn ns), trivial⟩
          | hang => exact ⟨_, _, rfl, hfol, fun ns hns => absurd hns (hnn ns), nofun⟩
    | err er => exact ⟨[.ran (c.add x.args) none], none, rfl, by rw [hp]; exact .broken _ _, fun ns hns => absurd hns (hnn ns), nofun⟩
    | panic => exact ⟨[.ran (c.add x.args) none], none, rfl, by rw [hp]; exact .broken _ _, fun ns hns => absurd hns (hnn ns), trivial⟩
    | hang => exact ⟨[.ran (c.add x.args) none], none, rfl, by rw [hp]; exact .broken _ _, fun ns hns => absurd hns (hnn ns), nofun⟩

/-- The project. -/
abbrev project (x : Around σ) : Project := projectOf x

theorem stripPath_append (root p : Cache.Path) : Rust.stripPath (root ++ p) root = some p := by
  unfold Rust.stripPath
  rw [if_pos (List.isPrefixOf_iff_prefix.2 ⟨p, rfl⟩), List.drop_left]

theorem relative_eq (x : Around σ) (f : SourceFile) : relative x (absolute x f) = some ((project x).rel f) := by
  unfold relative absolute
  rw [stripPath_append]; rfl

theorem goTest_eq (x : Around σ) {f : SourceFile} (h : f.path ≠ []) :
    goTest x (absolute x f) = some ((project x).cmd "go" ["test".toList, "./".toList ++ (project x).relDir f]) := by
  unfold goTest goPackage
  have : Rust.parent (absolute x f) = some (x.root ++ f.path.dropLast) := by
    unfold absolute
    cases hp : x.root ++ f.path with
    | nil => exact absurd (List.append_eq_nil_iff.1 hp).2 h
    | cons a as =>
      show some (a :: as).dropLast = _
      rw [← hp, List.dropLast_append_of_ne_nil h]
  rw [this]
  unfold relative
  rw [Option.bind_some, stripPath_append]
  rfl

theorem go_follows (x : Around σ) : Follower x (go x) (goPlan (project x)) fun f => f.path ≠ [] where
  names := rfl
  dry f hf := ⟨_, _, before_ret, goTest_eq x hf, rfl⟩
  build f hf := ⟨_, by dsimp only [go]; rw [goTest_eq x hf]; rfl, rfl⟩
  prepare f t hf := ⟨_, by dsimp only [go]; rw [goTest_eq x hf]; rfl, rfl⟩
  test f t hf := ⟨((project x).cmd "go" ["test".toList, "./".toList ++ (project x).relDir f]).add ["-run=^".toList ++ t ++ "$".toList, "-v".toList], [],
    some (false, Exec.goRan t), by dsimp only [go]; rw [goTest_eq x hf]; rfl,
    by simp [goPlan, Command.add, Project.cmd, projectOf], rfl, _, rfl, fun line => by simp [Exec.goRan]⟩

theorem php_follows (x : Around σ) : Follower x (php x) (phpPlan (project x)) fun _ => True where
  names := rfl
  dry f _ := ⟨_, _, before_exists x _ before_ret (before_checked x _), by dsimp only [php]; rw [relative_eq]; rfl, rfl⟩
  build f _ := ⟨_, rfl, rfl⟩
  prepare f t _ := ⟨_, rfl, rfl⟩
  test f t _ := ⟨⟨"vendor/bin/phpunit".toList, ["--filter".toList, "^.*::".toList ++ t ++ "$".toList, (project x).rel f], [], some x.root, none⟩, [], none,
    by dsimp only [php]; rw [relative_eq]; rfl, by simp [phpPlan, Command.add, Project.cmd, projectOf], rfl⟩

theorem before_node (x : Around σ) : Before (nodeThen (project x)) (installNode x) := by
  have h2 : ∀ c : Command, Before (fun cs => .run (c :: cs)) (checked x c) := before_checked x
  have := before_exists x "node_modules".toList before_ret
    (before_exists x "pnpm-lock.yaml".toList (h2 ((project x).cmd "pnpm" ["install".toList]))
      (before_exists x "yarn.lock".toList (h2 ((project x).cmd "yarn" [])) (h2 ((project x).cmd "npm" ["install".toList]))))
  refine cast ?_ this
  congr 1
  unfold installNode
  congr 1
  funext b
  split
  · rfl
  congr 1
  funext b
  cases b with
  | true => rfl
  | false =>
    rw [if_neg nofun, if_neg nofun]
    rw [bind_assoc]
    congr 1
    funext b
    cases b <;> rfl

theorem forgeTest_eq (x : Around σ) (f : SourceFile) : forgeTest x (absolute x f) =
    some (((project x).cmd "forge" ["test".toList, "--match-path".toList, (project x).rel f]).withVar "FOUNDRY_FUZZ_RUNS".toList "1".toList) := by
  unfold forgeTest
  rw [relative_eq]; rfl

theorem foundry_follows (x : Around σ) : Follower x (foundry x) (foundryPlan (project x)) fun _ => True where
  names := rfl
  dry f _ := ⟨_, _, before_exists x _ (before_node x) before_ret, forgeTest_eq x f, rfl⟩
  build f _ := ⟨_, rfl, rfl⟩
  prepare f t _ := ⟨_, rfl, rfl⟩
  test f t _ := ⟨(((project x).cmd "forge" ["test".toList, "--match-path".toList, (project x).rel f]).withVar "FOUNDRY_FUZZ_RUNS".toList "1".toList).add
      ["--match-test".toList, t], [], some (false, Exec.foundryRan t),
    by dsimp only [foundry]; rw [forgeTest_eq]; rfl, by simp [foundryPlan, Command.add, Command.withVar, Project.cmd, projectOf],
    rfl, _, rfl, fun line => by
      unfold Exec.foundryRan
      rw [Exec.contains_iff]
      rfl⟩

theorem rust_follows (x : Around σ) (caches : Rust.Caches) (flags : SourceFile → List Text) :
    Follower x (rust caches) (rustPlan (project x) flags) fun f => caches.flags.lookup (absolute x f) = some (flags f) where
  names := rfl
  dry f hf := ⟨_, ⟨"cargo".toList, ["test".toList] ++ flags f, [], none, none⟩, before_ret, by
    dsimp only [rust, Rust.testCommand]; rw [hf]; rfl, by simp [rustPlan, Command.add, projectOf]⟩
  build f hf := ⟨⟨"cargo".toList, ["test".toList] ++ flags f ++ ["--no-run".toList], [], none, none⟩, by
    dsimp only [rust, Rust.commandToBuild, Rust.testCommand]; rw [hf]; rfl, by simp [rustPlan, Command.add, projectOf]⟩
  prepare f t hf := ⟨⟨"cargo".toList, ["test".toList] ++ flags f ++ ["--no-run".toList], [], none, none⟩, by
    dsimp only [rust, Rust.commandToBuild, Rust.testCommand]; rw [hf]; rfl, by simp [rustPlan, Command.add, projectOf]⟩
  test f t hf := ⟨⟨"cargo".toList, ["test".toList] ++ flags f, [], none, none⟩, ["--".toList, "--exact".toList, t], some (false, Exec.rustRan), by
    dsimp only [rust, Rust.commandToRunTest, Rust.testCommand]; rw [hf]; rfl, by simp [rustPlan, Command.add, projectOf],
    rfl, _, rfl, fun line => by simp [Exec.rustRan]⟩

/-! ### Hardhat -/

theorem found_set_found {tb : Table} {f : SourceFile} {ms : List Text} (f' : SourceFile) (t : Text) :
    Found (tb.set f fun m => if m ∈ ms then .found else ((tb f).getD fun _ => .notFound) m) f' t ↔ Found tb f' t ∨ f' = f ∧ t ∈ ms := by
  unfold Found Table.set
  by_cases hf : f' = f
  · subst hf
    simp only [if_pos, true_and, Option.some.injEq, exists_eq_left']
    by_cases hm : t ∈ ms
    · simp [hm]
    · simp only [if_neg hm, hm, or_false]
      cases tb f' with
      | none => simp
      | some m => simp
  · simp [hf]

theorem found_set_same {tb : Table} {f : SourceFile} (f' : SourceFile) (t : Text) :
    Found (tb.set f ((tb f).getD fun _ => .notFound)) f' t ↔ Found tb f' t := by
  unfold Found Table.set
  by_cases hf : f' = f
  · subst hf
    simp only [if_pos, Option.some.injEq, exists_eq_left']
    cases tb f' with
    | none => simp
    | some m => simp
  · simp [hf]

/-- `m` is what is to be done before `c` is executed, which is then all. -/
def BeforeLast (T : Todo) (c : Command) (m : M (St σ) Unit) : Prop :=
  ∀ w, ∃ l, (m w).2.ext.ran = w.ext.ran ++ l ∧ (m w).2.ext.it = w.ext.it ∧
    match (m w).1 with
    | .ok _ => ∀ l' r, Follows (.run [c]) l' r → Follows T (l ++ l') r
    | .err _ => ∃ r, r ≠ some true ∧ Follows T l r
    | _ => Follows T l none

theorem Before.last {T : List Command → Todo} {m : M (St σ) Unit} (h : Before T m) (c : Command) : BeforeLast (T [c]) c m := by
  intro w
  obtain ⟨l, h1, h2, h3⟩ := h w
  refine ⟨l, h1, h2, ?_⟩
  generalize (m w).1 = r at *
  cases r with
  | ok _ => exact fun l' r => h3 [c] l' r
  | err _ => exact h3.imp fun r h => ⟨h.1, h.2 _⟩
  | panic => exact h3 _
  | hang => exact h3 _

/-- A dry run after something else. -/
theorem itDry {x : Around σ} {extract : List UInt8 → Option (List Text)} {plan : Plan} {ns : Names} {T : Todo} {m : M (St σ) Unit}
    {f : SourceFile} {c : Command} (hb : BeforeLast T c m) (hp : plan.dry f = T) (hn : plan.names = some ns)
    (hu : ∀ out, ns.usable out ↔ ∃ ms, extract out = some ms) (hl : ∀ out ms, extract out = some ms → ∀ t, ns.lists out t ↔ t ∈ ms)
    (w : World (St σ)) :
    DryOk plan f w.ext (Run.bind m (fun _ => itDryRun x extract f c) w).2.ext (Run.bind m (fun _ => itDryRun x extract f c) w).1 := by
  obtain ⟨l, h1, h2, h3⟩ := hb w
  unfold Run.bind
  rcases hm : m w with ⟨r, w'⟩
  rw [hm] at h1 h2 h3
  dsimp only at h1 h2 h3 ⊢
  cases r with
  | err e =>
    obtain ⟨r, hr, h3⟩ := h3
    exact ⟨l, r, h1, by rw [hp]; exact h3, .inl hr, fun _ _ f' t => by dsimp only; rw [h2]⟩
  | panic => exact ⟨l, none, h1, by rw [hp]; exact h3, rfl⟩
  | hang => exact ⟨l, none, h1, by rw [hp]; exact h3, rfl⟩
  | ok _ =>
    unfold itDryRun Run.bind output
    dsimp only at h3 ⊢
    generalize (x.output (forget w') c) = R
    obtain ⟨res, ws, e⟩ := R
    have broken : Follows (plan.dry f) (l ++ [.ran c none]) none := by rw [hp]; exact h3 _ _ (.broken c [])
    cases res with
    | err er => exact ⟨l ++ [.ran c none], none, by simp [h1, valueOf], broken, .inl nofun, fun _ _ f' t => by dsimp only; rw [h2]⟩
    | panic => exact ⟨l ++ [.ran c none], none, by simp [h1, valueOf], broken, rfl⟩
    | hang => exact ⟨l ++ [.ran c none], none, by simp [h1, valueOf], broken, rfl⟩
    | ok o =>
      dsimp only [valueOf]
      have hran : w'.ext.ran ++ [.ran c (some o)] = w.ext.ran ++ (l ++ [.ran c (some o)]) := by rw [h1, List.append_assoc]
      cases ho : o.success with
      | false =>
        refine ⟨l ++ [.ran c (some o)], some false, hran, ?_, .inl nofun, fun _ _ f' t => ?_⟩
        · rw [hp]; exact h3 _ _ (.fails c [] o ho)
        · show Found w'.ext.it f' t ↔ _
          rw [h2]
      | true =>
        have hf : Follows (plan.dry f) (l ++ [.ran c (some o)]) (some true) := by rw [hp]; exact h3 _ _ (.ok c [] o [] _ ho .done)
        have hpr : Printed (l ++ [.ran c (some o)]) o.stdout := ⟨l, c, o, rfl, rfl⟩
        rw [if_pos rfl]
        cases he : extract o.stdout with
        | none =>
          refine ⟨l ++ [.ran c (some o)], some true, hran, hf, .inr ⟨ns, o.stdout, hn, hpr, fun h => ?_⟩, fun _ _ f' t => ?_⟩
          · obtain ⟨ms, h⟩ := (hu _).1 h
            rw [he] at h; cases h
          · dsimp only [ItMessage.dryRun]
            rw [h2]
            exact found_set_same f' t
        | some ms =>
          refine ⟨l ++ [.ran c (some o)], some true, hran, hf, rfl, fun ns' hns => ⟨o.stdout, hpr, ?_, fun f' t => ?_⟩⟩
          · rw [hn] at hns; cases hns
            exact (hu _).2 ⟨ms, he⟩
          · rw [hn] at hns; cases hns
            dsimp only [ItMessage.dryRun]
            rw [h2, hl _ _ he]
            exact found_set_found f' t

/-- `exec` after the preparation `l`. -/
theorem itExec_ok {x : Around σ} {plan : Plan} {ns : Names} {t : Text} {span : Span} {w0 w : World (St σ)} {l : List Ran}
    (hr : w.ext.ran = w0.ext.ran ++ l) (hi : w.ext.it = w0.ext.it) (hf : Follows (.run (plan.prepare span.file)) l (some true))
    (hn : plan.names = some ns) (hs : plan.shows = none) :
    ExecOk x plan t span w0.ext (itExec x t span (plan.test span.file t) w).2.ext (itExec x t span (plan.test span.file t) w).1 := by
  unfold itExec ItMessage.exec
  cases hm : w.ext.it span.file with
  | none => exact ⟨l, _, hr, hf, fun _ _ f' t' => by dsimp only; rw [hi], trivial⟩
  | some m =>
    have hm' : w0.ext.it span.file = some m := by rw [← hi]; exact hm
    dsimp only
    cases ht : m t with
    | found =>
      refine ⟨l, _, hr, hf, fun _ _ f' t' => by dsimp only [prepare]; rw [hi], rfl, fun _ _ => ⟨m, hm', ht⟩, ?_⟩
      rw [hs]
      exact .inl ⟨rfl, rfl⟩
    | warningEmitted =>
      refine ⟨l, _, hr, hf, fun _ _ f' t' => by dsimp only; rw [hi], .inr (.inr ⟨rfl, ns, hn, ?_⟩)⟩
      rintro ⟨m', h1, h2⟩
      rw [hm'] at h1; cases h1; rw [ht] at h2; cases h2
    | notFound =>
      have hset : ∀ f' t', Found (w.ext.it.set span.file fun t' => if t' = t then .warningEmitted else m t') f' t' ↔ Found w0.ext.it f' t' := by
        intro f' t'
        rw [hi]
        unfold Found Table.set
        by_cases hf : f' = span.file
        · subst hf
          simp only [if_pos, Option.some.injEq, exists_eq_left', hm']
          by_cases h : t' = t
          · subst h; simp [ht]
          · simp [h]
        · simp [hf]
      have hno : ¬ Found w0.ext.it span.file t := by
        rintro ⟨m', h1, h2⟩
        rw [hm'] at h1; cases h1; rw [ht] at h2; cases h2
      dsimp only
      rcases warnInternal x.warn w.warns ⟨.itMessageNotFound, some span.display, ItMessage.notFoundMsg (x.debug t), false⟩ with ⟨_ | _ | _ | _, ws⟩
      all_goals
        first
        | exact ⟨l, _, hr, hf, fun _ _ f' t' => hset f' t', .inr (.inr ⟨rfl, ns, hn, hno⟩)⟩
        | exact ⟨l, _, hr, hf, fun _ _ f' t' => by dsimp only; rw [hi], nofun⟩

theorem mochaExtract_iff (x : Around σ) (out : List UInt8) :
    (∃ s, x.decode out = some s) ↔ ∃ ms, mochaExtract x out = some ms := by
  unfold mochaExtract
  cases x.decode out <;> simp

theorem hardhat_implements (x : Around σ) :
    Implements x (hardhat x) (hardhatPlan (project x) fun s t => t ∈ ItMessage.mochaMessages s) fun _ => True where
  dry f _ w := by
    have hb := before_bind (before_node x) (cs' := [(project x).cmd "npx" (["hardhat".toList, "compile".toList] ++ x.args)])
      (before_checked x _)
    have := itDry (x := x) (extract := mochaExtract x) (plan := hardhatPlan (project x) fun s t => t ∈ ItMessage.mochaMessages s) (f := f)
      (c := hardhatTest x f) (hb.last _) rfl rfl (mochaExtract_iff x) (fun out ms h t => by
        unfold mochaExtract at h
        constructor
        · rintro ⟨s, hs, ht⟩
          replace hs : x.decode out = some s := hs
          rw [hs] at h; cases h; exact ht
        · intro ht
          cases hs : x.decode out with
          | none => rw [hs] at h; cases h
          | some s => rw [hs] at h; cases h; exact ⟨s, hs, ht⟩) w
    dsimp only [hardhat]
    rw [bind_assoc] at this
    exact this
  build f _ w := by
    obtain ⟨l, ro, h1, h2, h3, h4⟩ := (before_checked x ((project x).cmd "npx" (["hardhat".toList, "compile".toList] ++ x.args))).all w
    exact ⟨l, ro, h1, h3, h2, h4⟩
  exec t span _ w := by
    obtain ⟨l, ro, h1, h2, h3, h4⟩ := (before_checked x ((project x).cmd "npx" (["hardhat".toList, "compile".toList] ++ x.args))).all w
    dsimp only [hardhat]
    have e : hardhatCompile x w = checked x ((project x).cmd "npx" (["hardhat".toList, "compile".toList] ++ x.args)) w := rfl
    rw [e]
    generalize checked x ((project x).cmd "npx" (["hardhat".toList, "compile".toList] ++ x.args)) w = R at *
    obtain ⟨r, w'⟩ := R
    dsimp only at h1 h2 h4 ⊢
    have same : ∀ f' t', Found w'.ext.it f' t' ↔ Found w.ext.it f' t' := fun f' t' => by rw [h2]
    cases r with
    | ok _ =>
      subst h4
      exact itExec_ok (plan := hardhatPlan (project x) fun s t => t ∈ ItMessage.mochaMessages s) h1 h2 h3 rfl rfl
    | err er =>
      refine ⟨l, ro, h1, h3, fun _ _ => same, ?_⟩
      cases ro with
      | none => exact .inr (.inl ⟨rfl, rfl⟩)
      | some b => cases b with
        | false => exact .inl rfl
        | true => exact absurd rfl h4
    | panic => exact ⟨l, ro, h1, h3, fun _ _ => same, trivial⟩
    | hang => exact ⟨l, ro, h1, h3, fun _ _ => same, by rw [h4]; nofun⟩

/-! ### Vitest -/

theorem get_iff (j : Json) (key : String) (v : Json) : j.get key.toList = some v ↔ Field j key v := by
  unfold Field
  cases j <;> simp [Json.get]

theorem asArr_iff (j : Json) (vs : List Json) : j.asArr = some vs ↔ j = .arr vs := by
  cases j <;> simp [Json.asArr]

theorem asStr_iff (j : Json) (t : Text) : j.asStr = some t ↔ j = .str t := by
  cases j <;> simp [Json.asStr]

theorem vitestMessages_iff (j : Json) :
    ((∃ ms, vitestMessages j = some ms) ↔ ∃ rs, Field j "testResults" (.arr rs)) ∧
    ∀ ms, vitestMessages j = some ms → ∀ t, Title j t ↔ t ∈ ms := by
  have hget : ∀ (j : Json) key vs, (j.get key).bind Json.asArr = some vs ↔ j.get key = some (.arr vs) := by
    intro j key vs
    rw [Option.bind_eq_some_iff]
    constructor
    · rintro ⟨a, h1, h2⟩; rw [(asArr_iff _ _).1 h2] at h1; exact h1
    · exact fun h => ⟨_, h, rfl⟩
  have hstr : ∀ (j : Json) key t, (j.get key).bind Json.asStr = some t ↔ j.get key = some (.str t) := by
    intro j key vs
    rw [Option.bind_eq_some_iff]
    constructor
    · rintro ⟨a, h1, h2⟩; rw [(asStr_iff _ _).1 h2] at h1; exact h1
    · exact fun h => ⟨_, h, rfl⟩
  unfold vitestMessages
  constructor
  · constructor
    · rintro ⟨ms, h⟩
      obtain ⟨rs, h, _⟩ := Option.map_eq_some_iff.1 h
      exact ⟨rs, (get_iff _ _ _).1 ((hget _ _ _).1 h)⟩
    · rintro ⟨rs, h⟩
      rw [← get_iff, ← hget] at h
      rw [h]
      exact ⟨_, rfl⟩
  · intro ms h0 t
    obtain ⟨rs, h, rfl⟩ := Option.map_eq_some_iff.1 h0
    rw [hget] at h
    rw [List.mem_filterMap]
    constructor
    · rintro ⟨rs', r, as, a, h1, h2, h3, h4, h5⟩
      rw [← get_iff, h] at h1
      cases h1
      refine ⟨a, ?_, (hstr _ _ _).2 ((get_iff _ _ _).2 h5)⟩
      rw [List.mem_flatten]
      exact ⟨as, List.mem_filterMap.2 ⟨r, h2, (hget _ _ _).2 ((get_iff _ _ _).2 h3)⟩, h4⟩
    · rintro ⟨a, ha, ht⟩
      obtain ⟨as, has, ha⟩ := List.mem_flatten.1 ha
      obtain ⟨r, hr, h3⟩ := List.mem_filterMap.1 has
      exact ⟨rs, r, as, a, (get_iff _ _ _).1 h, hr, (get_iff _ _ _).1 ((hget _ _ _).1 h3), ha, (get_iff _ _ _).1 ((hstr _ _ _).1 ht)⟩

theorem vitest_implements (x : Around σ) (parse : Text → Option Json) :
    Implements x (vitest x parse) (vitestPlan (project x) parse) fun _ => True where
  dry f _ w := by
    have htest : vitestTest x f = (project x).cmd "npx"
        (["vitest".toList, "run".toList, (project x).abs f, "--bail=1".toList, "--reporter=json".toList] ++ x.args) := by
      simp [vitestTest, Command.add, Project.cmd, projectOf, Project.abs, absolute, Rust.showPath]
    refine itDry (x := x) (extract := vitestExtract x parse) (plan := vitestPlan (project x) parse) (f := f) (c := vitestTest x f)
      ((before_node x).last _) (by rw [htest]; rfl) rfl (fun out => ?_) (fun out ms h t => ?_) w
    · unfold vitestExtract
      constructor
      · rintro ⟨s, j, rs, h1, h2, h3⟩
        obtain ⟨ms, h⟩ := (vitestMessages_iff j).1.2 ⟨rs, h3⟩
        replace h1 : x.decode out = some s := h1
        exact ⟨ms, by rw [h1, Option.bind_some, h2, Option.bind_some, h]⟩
      · rintro ⟨ms, h⟩
        obtain ⟨s, h1, h⟩ := Option.bind_eq_some_iff.1 h
        obtain ⟨j, h2, h⟩ := Option.bind_eq_some_iff.1 h
        obtain ⟨rs, h3⟩ := (vitestMessages_iff j).1.1 ⟨ms, h⟩
        exact ⟨s, j, rs, h1, h2, h3⟩
    · unfold vitestExtract at h
      obtain ⟨s, h1, h⟩ := Option.bind_eq_some_iff.1 h
      obtain ⟨j, h2, h⟩ := Option.bind_eq_some_iff.1 h
      rw [← (vitestMessages_iff j).2 ms h]
      constructor
      · rintro ⟨s', j', h1', h2', h3⟩
        replace h1' : x.decode out = some s' := h1'
        rw [h1] at h1'; cases h1'; rw [h2] at h2'; cases h2'
        exact h3
      · exact fun h3 => ⟨s, j, h1, h2, h3⟩
  build f _ w := by
    obtain ⟨l, ro, h1, h2, h3, h4⟩ := (before_checked x (vitestTest x f)).all w
    have htest : vitestTest x f = (project x).cmd "npx"
        (["vitest".toList, "run".toList, (project x).abs f, "--bail=1".toList, "--reporter=json".toList] ++ x.args) := by
      simp [vitestTest, Command.add, Project.cmd, projectOf, Project.abs, absolute, Rust.showPath]
    exact ⟨l, ro, h1, by rw [htest] at h3; exact h3, h2, h4⟩
  exec t span _ w := by
    have htest : vitestTest x span.file = (vitestPlan (project x) parse).test span.file t := by
      simp [vitestPlan, vitestTest, Command.add, Project.cmd, projectOf, Project.abs, absolute, Rust.showPath]
    dsimp only [vitest]
    rw [htest]
    exact itExec_ok (w := w) (w0 := w) (l := []) (by simp) rfl .done rfl rfl

/-! ### Anchor -/

/-- Something that ends with Anchor.toml being restored. -/
theorem finally_letGo (m : M (St σ) α) (w : World (St σ)) :
    ∃ s, finally_ m letGo w = ((m w).1, { (m w).2 with ext := { (m w).2.ext with script := s } }) := by
  unfold finally_
  generalize m w = R
  obtain ⟨r, w'⟩ := R
  cases r with
  | ok a => exact ⟨none, rfl⟩
  | err e => exact ⟨none, rfl⟩
  | panic => exact ⟨none, rfl⟩
  | hang => exact ⟨w'.ext.script, rfl⟩

/-- Which script is put into Anchor.toml. -/
theorem edit_run (x : Around σ) (f : SourceFile) (check : Bool) (w : World (St σ)) :
    (edit x f check w).2.ext.ran = w.ext.ran ∧ (edit x f check w).2.ext.it = w.ext.it ∧
    ((edit x f check w).1 = .ok () → (edit x f check w).2.ext.script = some (x.anchor.pre ++ (project x).abs f ++ x.anchor.suf ++ Anchor.args x.anchor.runner check)) := by
  unfold edit
  have h := inner_ext (fun w => x.edit w (Anchor.script x.anchor (Rust.showPath (absolute x f)) check)) w
  generalize inner (fun w => x.edit w (Anchor.script x.anchor (Rust.showPath (absolute x f)) check)) w = R at *
  obtain ⟨r, w'⟩ := R
  cases r with
  | ok _ => exact ⟨h.1, h.2.1, fun _ => rfl⟩
  | err _ => exact ⟨h.1, h.2.1, nofun⟩
  | panic => exact ⟨h.1, h.2.1, nofun⟩
  | hang => exact ⟨h.1, h.2.1, nofun⟩

/-- The command with the script for a file. -/
theorem anchorTest_eq (x : Around σ) (f : SourceFile) (check : Bool) {extra : String} (he : Anchor.args x.anchor.runner check = extra.toList) :
    anchorTest x (some (x.anchor.pre ++ (project x).abs f ++ x.anchor.suf ++ Anchor.args x.anchor.runner check)) = anchorWith (project x) f extra := by
  rw [he]; rfl

/-- Something done with a command, after the script has been put into Anchor.toml, and until it is restored. -/
theorem before_anchorCheck (x : Around σ) (f : SourceFile) {extra : String} (he : Anchor.args x.anchor.runner true = extra.toList) :
    Before (fun cs => .run (anchorWith (project x) f extra :: cs)) (anchorCheck x f) := by
  intro w
  obtain ⟨h1, h2, h3⟩ := edit_run x f true w
  unfold anchorCheck Run.bind
  generalize edit x f true w = R at *
  obtain ⟨r, w'⟩ := R
  dsimp only at h1 h2 h3 ⊢
  have bad : ∀ cs, Follows (.run (anchorWith (project x) f extra :: cs)) [] none := fun cs => .unedited _ _ nofun
  cases r with
  | err e => exact ⟨[], by simp [h1], h2, none, nofun, bad⟩
  | panic => exact ⟨[], by simp [h1], h2, bad⟩
  | hang => exact ⟨[], by simp [h1], h2, bad⟩
  | ok _ =>
    dsimp only
    obtain ⟨s, hs⟩ := finally_letGo (fun w => checked x (anchorTest x w.ext.script) w) w'
    rw [hs, h3 rfl, anchorTest_eq x f true he]
    obtain ⟨l, k1, k2, k3⟩ := before_checked x (anchorWith (project x) f extra) w'
    exact ⟨l, by rw [← h1]; exact k1, by rw [← h2]; exact k2, k3⟩

theorem skipLines_iff (n : Nat) (s t : Text) : Anchor.skipLines n s = some t ↔
    ∃ ls : List Text, ls.length = n ∧ (∀ l ∈ ls, '\n' ∉ l) ∧ s = ls.flatMap (· ++ ['\n']) ++ t := by
  induction n generalizing s with
  | zero =>
    constructor
    · intro h; cases h; exact ⟨[], rfl, nofun, rfl⟩
    · rintro ⟨ls, h, _, e⟩
      obtain rfl := List.length_eq_zero_iff.1 h
      rw [e]; rfl
  | succ n ih =>
    unfold Anchor.skipLines
    have hsplit : ∀ s : Text, s = s.takeWhile (· != '\n') ++ s.dropWhile (· != '\n') := fun s => List.takeWhile_append_dropWhile.symm
    constructor
    · intro h
      split at h
      · cases h
      · rename_i c r hd
        obtain ⟨ls, h1, h2, h3⟩ := (ih r).1 h
        have hc : c = '\n' := by
          have := List.head?_dropWhile_not (fun c => c != '\n') s
          rw [hd] at this
          simpa using this
        refine ⟨s.takeWhile (· != '\n') :: ls, by simp [h1], ?_, ?_⟩
        · intro l hl
          rcases List.mem_cons.1 hl with rfl | hl
          · intro hm
            have := List.all_takeWhile (p := (· != '\n')) (l := s)
            have := List.all_eq_true.1 this _ hm
            simp at this
          · exact h2 l hl
        · conv => lhs; rw [hsplit s, hd, hc, h3]
          simp
    · rintro ⟨ls, h1, h2, h3⟩
      cases ls with
      | nil => simp at h1
      | cons l ls =>
        have hl := h2 l (by simp)
        have hd : s.dropWhile (· != '\n') = '\n' :: (ls.flatMap (· ++ ['\n']) ++ t) := by
          rw [h3]
          simp only [List.flatMap_cons, List.append_assoc, List.singleton_append]
          rw [List.dropWhile_append_of_pos (fun c hc => by simp; rintro rfl; exact hl hc)]
          rfl
        rw [hd]
        exact (ih _).2 ⟨ls, by simpa using h1, fun l' h => h2 l' (List.mem_cons_of_mem _ h), rfl⟩

theorem jsonExtractor_iff (s t : Text) : Anchor.jsonExtractor s = some t ↔ FromSixth s t := by
  unfold Anchor.jsonExtractor FromSixth
  rw [skipLines_iff]
  constructor
  · rintro ⟨ls, h1, h2, h3⟩
    match ls, h1 with
    | [a, b, c, d, e], _ => exact ⟨a, b, c, d, e, by rw [h3]; simp, h2 a (by simp), h2 b (by simp), h2 c (by simp), h2 d (by simp), h2 e (by simp)⟩
  · rintro ⟨a, b, c, d, e, rfl, h1, h2, h3, h4, h5⟩
    refine ⟨[a, b, c, d, e], rfl, ?_, by simp⟩
    intro l hl
    simp only [List.mem_cons, List.not_mem_nil, or_false] at hl
    rcases hl with rfl | rfl | rfl | rfl | rfl <;> assumption

/-- The plan. -/
abbrev anchorPlanOf (x : Around σ) (parse : Text → Option Json) : Plan :=
  anchorPlan (project x) parse fun s t => t ∈ ItMessage.mochaMessages s

theorem anchor_names (x : Around σ) (parse : Text → Option Json) : ∃ ns, (anchorPlanOf x parse).names = some ns ∧
    (∀ out, ns.usable out ↔ ∃ ms, anchorExtract x parse out = some ms) ∧
    ∀ out ms, anchorExtract x parse out = some ms → ∀ t, ns.lists out t ↔ t ∈ ms := by
  unfold anchorPlanOf anchorPlan anchorExtract
  cases hr : x.anchor.runner with
  | mocha =>
    refine ⟨⟨fun out => ∃ s, x.decode out = some s, fun out t => ∃ s, x.decode out = some s ∧ t ∈ ItMessage.mochaMessages s⟩, ?_, mochaExtract_iff x, ?_⟩
    · have : (project x).anchor.runner = .mocha := hr
      simp only [this]; rfl
    · intro out ms h t
      unfold mochaExtract at h
      cases hs : x.decode out with
      | none => rw [hs] at h; cases h
      | some s => rw [hs] at h; cases h; simp [hs]
  | vitest =>
    refine ⟨⟨fun out => ∃ s r j results, x.decode out = some s ∧ FromSixth s r ∧ parse r = some j ∧ Field j "testResults" (.arr results),
      fun out t => ∃ s r j, x.decode out = some s ∧ FromSixth s r ∧ parse r = some j ∧ Title j t⟩, ?_, fun out => ?_, fun out ms h t => ?_⟩
    · have : (project x).anchor.runner = .vitest := hr
      simp only [this]; rfl
    · constructor
      · rintro ⟨s, r, j, rs, h1, h2, h3, h4⟩
        obtain ⟨ms, h⟩ := (vitestMessages_iff j).1.2 ⟨rs, h4⟩
        exact ⟨ms, by rw [h1, Option.bind_some, (jsonExtractor_iff _ _).2 h2, Option.bind_some, h3, Option.bind_some, h]⟩
      · rintro ⟨ms, h⟩
        obtain ⟨s, h1, h⟩ := Option.bind_eq_some_iff.1 h
        obtain ⟨r, h2, h⟩ := Option.bind_eq_some_iff.1 h
        obtain ⟨j, h3, h⟩ := Option.bind_eq_some_iff.1 h
        obtain ⟨rs, h4⟩ := (vitestMessages_iff j).1.1 ⟨ms, h⟩
        exact ⟨s, r, j, rs, h1, (jsonExtractor_iff _ _).1 h2, h3, h4⟩
    · obtain ⟨s, h1, h⟩ := Option.bind_eq_some_iff.1 h
      obtain ⟨r, h2, h⟩ := Option.bind_eq_some_iff.1 h
      obtain ⟨j, h3, h⟩ := Option.bind_eq_some_iff.1 h
      rw [← (vitestMessages_iff j).2 ms h]
      constructor
      · rintro ⟨s', r', j', h1', h2', h3', h4⟩
        rw [h1] at h1'; cases h1'
        rw [← jsonExtractor_iff, h2] at h2'; cases h2'
        rw [h3] at h3'; cases h3'
        exact h4
      · exact fun h4 => ⟨s, r, j, h1, (jsonExtractor_iff _ _).1 h2, h3, h4⟩

/-- The same, and the script for running tests is put into Anchor.toml. -/
theorem before_edit (x : Around σ) (f : SourceFile) {extra : String} {T : List Command → Todo} {m : M (St σ) Unit} (h : Before T m) :
    BeforeLast (T [anchorWith (project x) f extra]) (anchorWith (project x) f extra) (Run.bind m fun _ => edit x f false) := by
  intro w
  obtain ⟨l, h1, h2, h3⟩ := h w
  unfold Run.bind
  rcases hm : m w with ⟨r, w'⟩
  rw [hm] at h1 h2 h3
  dsimp only at h1 h2 h3 ⊢
  cases r with
  | err e => exact ⟨l, h1, h2, h3.imp fun r h => ⟨h.1, h.2 _⟩⟩
  | panic => exact ⟨l, h1, h2, h3 _⟩
  | hang => exact ⟨l, h1, h2, h3 _⟩
  | ok _ =>
    obtain ⟨k1, k2, _⟩ := edit_run x f false w'
    dsimp only
    have bad : Follows (T [anchorWith (project x) f extra]) l none := by
      have := h3 [anchorWith (project x) f extra] [] none (.unedited _ _ nofun)
      rwa [List.append_nil] at this
    refine ⟨l, k1.trans h1, k2.trans h2, ?_⟩
    generalize (edit x f false w').1 = r
    cases r with
    | ok _ => exact fun l' r => h3 _ l' r
    | err e => exact ⟨none, nofun, bad⟩
    | panic => exact bad
    | hang => exact bad

/-- The dry run with the command written out. -/
theorem anchorDry_run (x : Around σ) (f : SourceFile) (extract : List UInt8 → Option (List Text)) {extra : String}
    (he : Anchor.args x.anchor.runner false = extra.toList) (m : M (St σ) Unit) (w : World (St σ)) :
    ∃ s, Run.bind m (fun _ => Run.bind (edit x f false) fun _ => finally_ (fun w => itDryRun x extract f (anchorTest x w.ext.script) w) letGo) w =
      ((Run.bind (Run.bind m fun _ => edit x f false) (fun _ => itDryRun x extract f (anchorWith (project x) f extra)) w).1,
        { (Run.bind (Run.bind m fun _ => edit x f false) (fun _ => itDryRun x extract f (anchorWith (project x) f extra)) w).2 with
          ext := { (Run.bind (Run.bind m fun _ => edit x f false) (fun _ => itDryRun x extract f (anchorWith (project x) f extra)) w).2.ext with
            script := s } }) := by
  rw [bind_assoc]
  unfold Run.bind
  rcases m w with ⟨r, w'⟩
  cases r with
  | err e => exact ⟨_, rfl⟩
  | panic => exact ⟨_, rfl⟩
  | hang => exact ⟨_, rfl⟩
  | ok _ =>
    dsimp only
    obtain ⟨_, _, h3⟩ := edit_run x f false w'
    generalize edit x f false w' = R at *
    obtain ⟨r, w'⟩ := R
    cases r with
    | err e => exact ⟨_, rfl⟩
    | panic => exact ⟨_, rfl⟩
    | hang => exact ⟨_, rfl⟩
    | ok _ =>
      dsimp only at h3 ⊢
      obtain ⟨s, hs⟩ := finally_letGo (fun w => itDryRun x extract f (anchorTest x w.ext.script) w) w'
      rw [hs, h3 rfl, anchorTest_eq x f false he]
      exact ⟨s, rfl⟩

/-- What is added to the script. -/
theorem anchor_extras (x : Around σ) : (∀ f, (anchorPlanOf x parse).build f = [anchorWith (project x) f (match x.anchor.runner with | .mocha => " --dry-run" | .vitest => " --bail=1 --reporter=json")]) ∧
    Anchor.args x.anchor.runner true = (match x.anchor.runner with | .mocha => " --dry-run" | .vitest => " --bail=1 --reporter=json" : String).toList ∧
    Anchor.args x.anchor.runner false = (match x.anchor.runner with | .mocha => "" | .vitest => " --bail=1 --reporter=json" : String).toList := by
  refine ⟨fun _ => rfl, ?_, ?_⟩ <;> cases x.anchor.runner <;> rfl

theorem itExec_script (x : Around σ) (t : Text) (span : Span) (c : Command) (w : World (St σ)) : (itExec x t span c w).2.ext.script = w.ext.script := by
  unfold itExec
  dsimp only
  split <;> rfl

theorem anchor_implements (x : Around σ) (parse : Text → Option Json) :
    Implements x (anchor x parse) (anchorPlanOf x parse) fun _ => True where
  dry f _ w := by
    obtain ⟨ns, hn, hu, hl⟩ := anchor_names x parse
    obtain ⟨_, e1, e2⟩ := anchor_extras (parse := parse) x
    have hb := before_bind (before_node x) (cs' := [_]) (before_anchorCheck x f e1)
    have := itDry (x := x) (extract := anchorExtract x parse) (plan := anchorPlanOf x parse) (f := f) (before_edit x f hb) rfl hn hu hl w
    obtain ⟨s, hs⟩ := anchorDry_run x f (anchorExtract x parse) e2 (Run.bind (installNode x) fun _ => anchorCheck x f) w
    dsimp only [anchor]
    rw [bind_assoc] at hs
    rw [hs]
    exact this
  build f _ w := by
    obtain ⟨_, e1, e2⟩ := anchor_extras (parse := parse) x
    obtain ⟨l, ro, h1, h2, h3, h4⟩ := (before_anchorCheck x f e1).all w
    exact ⟨l, ro, h1, h3, h2, h4⟩
  exec t span _ w := by
    obtain ⟨ns, hn, _⟩ := anchor_names x parse
    obtain ⟨_, e1, e2⟩ := anchor_extras (parse := parse) x
    obtain ⟨l, ro, h1, h2, h3, h4⟩ := (before_anchorCheck x span.file e1).all w
    dsimp only [anchor]
    generalize anchorCheck x span.file w = R at *
    obtain ⟨r, w'⟩ := R
    dsimp only at h1 h2 h4 ⊢
    have same : ∀ f' t', Found w'.ext.it f' t' ↔ Found w.ext.it f' t' := fun f' t' => by rw [h2]
    cases r with
    | err er =>
      refine ⟨l, ro, h1, h3, fun _ _ => same, ?_⟩
      cases ro with
      | none => exact .inr (.inl ⟨rfl, rfl⟩)
      | some b => cases b with
        | false => exact .inl rfl
        | true => exact absurd rfl h4
    | panic => exact ⟨l, ro, h1, h3, fun _ _ => same, trivial⟩
    | hang => exact ⟨l, ro, h1, h3, fun _ _ => same, by rw [h4]; nofun⟩
    | ok _ =>
      subst h4
      obtain ⟨k1, k2, k3⟩ := edit_run x span.file false w'
      unfold Run.bind
      dsimp only
      rcases hE : edit x span.file false w' with ⟨r, w2⟩
      rw [hE] at k1 k2 k3
      dsimp only at k1 k2 k3 ⊢
      have same : ∀ f' t', Found w2.ext.it f' t' ↔ Found w.ext.it f' t' := fun f' t' => by rw [k2, h2]
      cases r with
      | err er => exact ⟨l, _, k1.trans h1, h3, fun _ _ => same, nofun⟩
      | panic => exact ⟨l, _, k1.trans h1, h3, fun _ _ => same, trivial⟩
      | hang => exact ⟨l, _, k1.trans h1, h3, fun _ _ => same, nofun⟩
      | ok _ =>
        dsimp only
        -- the plan, as if the script were not a part of the command
        have key := itExec_ok (x := x) (plan := { anchorPlanOf x parse with test := fun _ _ => anchorTest x none }) (t := t) (span := span) (w0 := w) (w := w2)
          (l := l) (k1.trans h1) (k2.trans h2) h3 hn rfl
        have hsc := itExec_script x t span (anchorTest x none) w2
        rw [k3 rfl] at hsc
        dsimp only at key
        generalize itExec x t span (anchorTest x none) w2 = R at *
        obtain ⟨r, w3⟩ := R
        obtain ⟨l', ro', g1, g2, g3, g4⟩ := key
        cases r with
        | ok o =>
          cases o with
          | none => exact ⟨l', ro', g1, g2, g3, g4⟩
          | some b =>
            obtain ⟨g4, g5, _⟩ := g4
            refine ⟨l', ro', g1, g2, g3, g4, g5, .inr ⟨rfl, _, rfl, ?_⟩⟩
            dsimp only at hsc ⊢
            rw [hsc]
            exact anchorTest_eq x span.file false e2
        | err e => exact ⟨l', ro', g1, g2, g3, g4⟩
        | panic => exact ⟨l', ro', g1, g2, g3, trivial⟩
        | hang => exact ⟨l', ro', g1, g2, g3, g4⟩

end Necessist.Cmd
