import Verif.Lemmas.RunVerbose
import Verif.Lemmas.CommandsFw
import Verif.Model.Results
/-!
# What the frameworks do does not depend on what has been printed
-/
namespace Necessist.Cmd
open Run
variable {σ α β : Type}

/-- What is executed does not depend on what has been printed. -/
structure Around.Deaf (x : Around σ) : Prop where
  base : Run.Deaf x.base
  exists_ : ∀ w out n, x.exists_ { w with out } n = x.exists_ w n
  output : ∀ w out c, x.output { w with out } c = x.output w c
  spawn : ∀ w out c, x.spawn { w with out } c = x.spawn w c
  temp : ∀ w out, x.temp { w with out } = x.temp w
  captured : ∀ w out, x.captured { w with out } = x.captured w
  edit : ∀ w out t, x.edit { w with out } t = x.edit w t

/-- Whatever has been printed, the same is done, and the same is printed in addition. -/
def Blind (m : M (St σ) α) : Prop := ∀ w out, ∃ k, (m w).2.out = w.out ++ k ∧ m { w with out } = ((m w).1, { (m w).2 with out := out ++ k })

theorem Blind.reply {m : M (St σ) α} (h : Blind m) (w : World (St σ)) (out : List Line) : reply m { w with out } = reply m w := by
  obtain ⟨k, h1, h2⟩ := h w out
  unfold Run.reply saidSince
  rw [h2, h1]
  simp

theorem Blind.bind {m : M (St σ) α} {f : α → M (St σ) β} (h : Blind m) (h' : ∀ a, Blind (f a)) : Blind (Run.bind m f) := by
  intro w out
  obtain ⟨k, h1, h2⟩ := h w out
  unfold Run.bind
  rw [h2]
  generalize m w = mw at h1 ⊢
  obtain ⟨r, w'⟩ := mw
  dsimp only at h1
  cases r with
  | ok a =>
    obtain ⟨l, h3, h4⟩ := h' a w' (out ++ k)
    refine ⟨k ++ l, ?_, ?_⟩
    · show (f a w').2.out = _
      rw [h3, h1, List.append_assoc]
    · show f a { w' with out := out ++ k } = _
      rw [h4, List.append_assoc]
  | err e => exact ⟨k, h1, rfl⟩
  | panic => exact ⟨k, h1, rfl⟩
  | hang => exact ⟨k, h1, rfl⟩

/-- A step that prints nothing and looks only at what is not printed. -/
theorem blind_quiet {m : M (St σ) α} (h : ∀ w out, (m w).2.out = w.out ∧ m { w with out } = ((m w).1, { (m w).2 with out := out })) : Blind m :=
  fun w out => ⟨[], by rw [(h w out).1]; simp, by rw [(h w out).2]; simp⟩

theorem blind_ret (a : α) : Blind (ret a : M (St σ) α) := blind_quiet fun _ _ => ⟨rfl, rfl⟩
theorem blind_fail (e : Err) : Blind (fail e : M (St σ) α) := blind_quiet fun _ _ => ⟨rfl, rfl⟩
theorem blind_orPanic (a : Option α) : Blind (Run.orPanic a : M (St σ) α) := by
  cases a <;> exact blind_quiet fun _ _ => ⟨rfl, rfl⟩
theorem blind_prepare (c : Command) (p : Option Closure) : Blind (prepare c p : M (St σ) (Option Bool)) := blind_quiet fun _ _ => ⟨rfl, rfl⟩

theorem blind_inner {f : World σ → Reply σ α} (h : ∀ w out, f { w with out } = f w) : Blind (inner f) := fun w out =>
  ⟨(f (forget w)).said.map .warning, rfl, by
    have : f (forget { w with out }) = f (forget w) := h (forget w) out
    simp only [inner, this]⟩

theorem blind_thenLetGo {keep : α → Bool} {m : M (St σ) α} (h : Blind m) : Blind (thenLetGo keep m) := by
  intro w out
  obtain ⟨k, h1, h2⟩ := h w out
  unfold thenLetGo
  rw [h2]
  generalize m w = mw at h1 ⊢
  obtain ⟨r, w'⟩ := mw
  dsimp only at h1
  cases r with
  | ok a =>
    dsimp only
    cases keep a
    · exact ⟨k, h1, rfl⟩
    · exact ⟨k, h1, rfl⟩
  | err e => exact ⟨k, h1, rfl⟩
  | panic => exact ⟨k, h1, rfl⟩
  | hang => exact ⟨k, h1, rfl⟩

theorem blind_letGo {m : M (St σ) α} (h : Blind m) : Blind (finally_ m letGo) := by
  intro w out
  obtain ⟨k, h1, h2⟩ := h w out
  unfold finally_
  rw [h2]
  generalize m w = mw at h1 ⊢
  obtain ⟨r, w'⟩ := mw
  dsimp only at h1
  cases r <;> exact ⟨k, h1, rfl⟩

theorem blind_itExec (x : Around σ) (t : Text) (span : Span) (c : Command) : Blind (itExec x t span c) := by
  intro w out
  unfold itExec
  dsimp only
  generalize ItMessage.exec x.warn x.debug t span w.ext.it w.warns = r
  obtain ⟨a, b, l, st, ws⟩ := r
  cases a <;> exact ⟨l.map .warning, rfl, rfl⟩

variable {x : Around σ} (hx : x.Deaf)
include hx

theorem blind_exists (n : Text) : Blind (exists? x n) := fun w out =>
  ⟨(x.exists_ (forget w) n).said.map .warning, rfl, by
    have : x.exists_ (forget { w with out }) n = x.exists_ (forget w) n := hx.exists_ (forget w) out n
    simp only [exists?, this]⟩

theorem blind_output (c : Command) : Blind (output x c) := fun w out =>
  ⟨(x.output (forget w) c).said.map .warning, rfl, by
    have : x.output (forget { w with out }) c = x.output (forget w) c := hx.output (forget w) out c
    simp only [output, this]⟩

theorem blind_checked (c : Command) : Blind (checked x c) :=
  (blind_output hx c).bind fun o => by
    split
    · exact blind_ret _
    · exact blind_fail _

theorem blind_edit (f : SourceFile) (check : Bool) : Blind (edit x f check) := by
  intro w out
  obtain ⟨k, h1, h2⟩ := blind_inner (f := fun w => x.edit w (Anchor.script x.anchor (Rust.showPath (absolute x f)) check))
    (fun w out => hx.edit w out _) w out
  unfold edit
  rw [h2]
  generalize inner _ w = R at h1 ⊢
  obtain ⟨r, w'⟩ := R
  dsimp only at h1
  cases r <;> exact ⟨k, h1, rfl⟩

theorem blind_anchorCheck (f : SourceFile) : Blind (anchorCheck x f) :=
  (blind_edit hx f true).bind fun _ => blind_letGo fun w out => blind_checked hx (anchorTest x w.ext.script) w out

theorem blind_installNode : Blind (installNode x) := by
  refine (blind_exists hx _).bind fun b => ?_
  split
  · exact blind_ret _
  · refine (blind_exists hx _).bind fun p => ?_
    refine Blind.bind ?_ fun c => blind_checked hx _
    split
    · exact blind_ret _
    · exact (blind_exists hx _).bind fun y => blind_ret _

theorem blind_start (i : Text) : Blind (start x i) := by
  intro w out
  unfold start
  dsimp only
  cases hn : w.ext.next with
  | none => exact ⟨[], by simp, by simp⟩
  | some n =>
    dsimp only
    have : ∀ c, x.spawn (forget { w with out }) c = x.spawn (forget w) c := hx.spawn (forget w) out
    rw [this]
    exact ⟨_, rfl, rfl⟩

theorem blind_post : Blind (post x) := by
  intro w out
  unfold post
  dsimp only
  split
  · rename_i c _ hc
    refine (blind_inner hx.captured).bind (fun p => ?_) w out
    obtain ⟨stdout, status⟩ := p
    intro w out
    exact ⟨_, rfl, rfl⟩
  · exact ⟨[], by simp, by simp⟩
  · exact ⟨[], by simp, by simp⟩

theorem blind_itDryRun (e : List UInt8 → Option (List Text)) (f : SourceFile) (c : Command) : Blind (itDryRun x e f c) :=
  (blind_output hx c).bind fun _ => blind_quiet fun _ _ => ⟨rfl, rfl⟩

theorem blind_adapterExec (low : Low σ) (t : Text) (span : Span) : Blind (adapterExec x low t span) := by
  refine (blind_orPanic _).bind fun c => (blind_output hx _).bind fun o => ?_
  split
  · exact blind_ret _
  · refine (blind_orPanic _).bind fun p => ?_
    obtain ⟨c, final, pred⟩ := p
    cases pred with
    | none => exact blind_prepare _ _
    | some q => exact (blind_inner hx.temp).bind fun _ => blind_prepare _ _

theorem blind_install : Blind (go x).install ∧ Blind (php x).install ∧ Blind (foundry x).install ∧ ∀ caches, Blind (rust (σ := σ) caches).install := by
  refine ⟨blind_ret _, (blind_exists hx _).bind fun b => ?_, (blind_exists hx _).bind fun b => ?_, fun _ => blind_ret _⟩
  · split
    · exact blind_ret _
    · exact blind_checked hx _
  · split
    · exact blind_installNode hx
    · exact blind_ret _

omit hx in
/-- A framework that does not look at what has been printed. -/
structure High.Blind (high : High σ) : Prop where
  dryRun : ∀ f, Cmd.Blind (high.dryRun f)
  build : ∀ f, Cmd.Blind (high.build f)
  exec : ∀ t s, Cmd.Blind (high.exec t s)

theorem adapter_blind {low : Low σ} (h : Blind low.install) : (adapter x low).Blind where
  dryRun f := h.bind fun _ => (blind_orPanic _).bind fun c => blind_checked hx _
  build f := (blind_orPanic _).bind fun c => blind_checked hx _
  exec t s := blind_adapterExec hx low t s

omit hx in
/-- What Hardhat's and Anchor's `exec` do with a failed build. -/
theorem blind_built {m : M (St σ) Unit} {f : M (St σ) (Option Bool)} (h : Blind m) (h' : Blind f) :
    Blind (fun w => match m w with
      | (.ok _, w) => f w
      | (.err _, w) => (.ok none, w)
      | (.panic, w) => (.panic, w)
      | (.hang, w) => (.hang, w)) := by
  intro w out
  obtain ⟨k, h1, h2⟩ := h w out
  dsimp only
  rw [h2]
  generalize m w = mw at h1 ⊢
  obtain ⟨r, w'⟩ := mw
  dsimp only at h1
  cases r with
  | ok a =>
    obtain ⟨l, h3, h4⟩ := h' w' (out ++ k)
    exact ⟨k ++ l, by dsimp only; rw [h3, h1, List.append_assoc], by dsimp only; rw [h4, List.append_assoc]⟩
  | err e => exact ⟨k, h1, rfl⟩
  | panic => exact ⟨k, h1, rfl⟩
  | hang => exact ⟨k, h1, rfl⟩

theorem hardhat_blind : (hardhat x).Blind where
  dryRun f := (blind_installNode hx).bind fun _ => (blind_checked hx _).bind fun _ => blind_itDryRun hx _ _ _
  build f := blind_checked hx _
  exec t s := blind_built (blind_checked hx _) (blind_itExec x t s _)

theorem vitest_blind (parse : Text → Option Json) : (vitest x parse).Blind where
  dryRun f := (blind_installNode hx).bind fun _ => blind_itDryRun hx _ _ _
  build f := blind_checked hx _
  exec t s := blind_itExec x t s _

theorem anchor_blind (parse : Text → Option Json) : (anchor x parse).Blind where
  dryRun f := (blind_installNode hx).bind fun _ => (blind_anchorCheck hx f).bind fun _ =>
    (blind_edit hx f false).bind fun _ => blind_letGo fun w out => blind_itDryRun hx _ _ _ w out
  build f := blind_anchorCheck hx f
  exec t s := blind_built (blind_anchorCheck hx _) <| (blind_edit hx s.file false).bind fun _ => by
    intro w out
    obtain ⟨k, h1, h2⟩ := blind_itExec x t s (anchorTest x none) w out
    dsimp only
    rw [h2]
    generalize itExec x t s (anchorTest x none) w = R at h1 ⊢
    obtain ⟨r, w'⟩ := R
    dsimp only at h1
    cases r with
    | ok a => cases a <;> exact ⟨k, h1, rfl⟩
    | err e => exact ⟨k, h1, rfl⟩
    | panic => exact ⟨k, h1, rfl⟩
    | hang => exact ⟨k, h1, rfl⟩

theorem highOf_blind (caches : Rust.Caches) (parse : Text → Option Json) (i : Framework.Identifier) : (highOf x caches parse i).Blind := by
  obtain ⟨h1, h2, h3, h4⟩ := blind_install hx
  cases i
  · exact anchor_blind hx parse
  · exact adapter_blind hx h3
  · exact adapter_blind hx h1
  · exact hardhat_blind hx
  · exact adapter_blind hx h2
  · exact adapter_blind hx (h4 caches)
  · exact vitest_blind hx parse

/-- A framework in the run loop does not depend on what has been printed. -/
theorem deaf_inRun {high : High σ} (h : high.Blind) : Run.Deaf (inRun x high) where
  ctrlc w out := by
    have : x.base.ctrlc (forget { w with out }) = x.base.ctrlc (forget w) := hx.base.ctrlc (forget w) out
    simp only [inRun, this]
  dryRun w out f := (h.dryRun f).reply w out
  backup w out f := (blind_inner fun w out => hx.base.backup w out f).reply w out
  write w out f t := by
    have : x.base.write (forget { w with out }) f t = x.base.write (forget w) f t := hx.base.write (forget w) out f t
    simp only [inRun, this]
  instrFile w out f n := (blind_inner fun w out => hx.base.instrFile w out f n).reply w out
  wrap w out s := (blind_inner fun w out => hx.base.wrap w out s).reply w out
  build w out f := (h.build f).reply w out
  exec w out t s := (h.exec t s).reply w out
  start w out _ _ i := (blind_thenLetGo (blind_start hx i)).reply w out
  post w out := (blind_thenLetGo (blind_post hx)).reply w out
  kill w out := (blind_thenLetGo (blind_inner hx.base.kill)).reply w out
  reap w out := (blind_thenLetGo (blind_inner hx.base.reap)).reply w out
  insert w out s := (blind_inner fun w out => hx.base.insert w out s).reply w out

end Necessist.Cmd
