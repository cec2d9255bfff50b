import Verif.Model.Run
import Verif.Lemmas.Text
/-! A small program logic for `M`: triples with separate postconditions for success, for error or panic, and for
not finishing. -/
namespace Necessist.Run

variable {σ α β : Type}

/-- The postconditions, by the way of finishing. -/
def Post (Q : α → World σ → Prop) (E : Option Err → World σ → Prop) (H : World σ → Prop) :
    Res Err α × World σ → Prop
  | (.ok a, w) => Q a w
  | (.err e, w) => E (some e) w
  | (.panic, w) => E none w
  | (.hang, w) => H w

/-- `Tri P m Q E H`: started in a world satisfying `P`, `m` ends in `Q a` if it returns `a`, in `E (some e)` if it
returns the error `e`, in `E none` if it panics, and reaches `H` if it does not finish. -/
def Tri (P : World σ → Prop) (m : M σ α) (Q : α → World σ → Prop) (E : Option Err → World σ → Prop)
    (H : World σ → Prop) : Prop :=
  ∀ w, P w → Post Q E H (m w)

theorem Tri.bind {P : World σ → Prop} {m : M σ α} {k : α → M σ β} {R : α → World σ → Prop}
    {Q : β → World σ → Prop} {E : Option Err → World σ → Prop} {H : World σ → Prop}
    (h1 : Tri P m R E H) (h2 : ∀ a, Tri (R a) (k a) Q E H) : Tri P (Run.bind m k) Q E H := by
  intro w hw
  have := h1 w hw
  unfold Run.bind
  rcases hm : m w with ⟨r, w'⟩
  rw [hm] at this
  cases r with
  | ok a => exact h2 a w' this
  | err e => exact this
  | panic => exact this
  | hang => exact this

theorem Tri.weaken {P P' : World σ → Prop} {m : M σ α} {Q Q' : α → World σ → Prop}
    {E E' : Option Err → World σ → Prop} {H H' : World σ → Prop} (h : Tri P m Q E H)
    (hP : ∀ w, P' w → P w) (hQ : ∀ a w, Q a w → Q' a w) (hE : ∀ e w, E e w → E' e w) (hH : ∀ w, H w → H' w) :
    Tri P' m Q' E' H' := by
  intro w hw
  have := h w (hP w hw)
  rcases hm : m w with ⟨r, w'⟩
  rw [hm] at this
  cases r with
  | ok a => exact hQ _ _ this
  | err e => exact hE _ _ this
  | panic => exact hE _ _ this
  | hang => exact hH _ this

/-- Weakening for the exceptional exits. -/
theorem Tri.exits {P : World σ → Prop} {m : M σ α} {Q : α → World σ → Prop}
    {E E' : Option Err → World σ → Prop} {H H' : World σ → Prop} (h : Tri P m Q E H)
    (hE : ∀ e w, E e w → E' e w) (hH : ∀ w, H w → H' w) : Tri P m Q E' H' :=
  h.weaken (fun _ h => h) (fun _ _ h => h) hE hH

theorem Tri.pre {P P' : World σ → Prop} {m : M σ α} {Q : α → World σ → Prop}
    {E : Option Err → World σ → Prop} {H : World σ → Prop} (h : Tri P m Q E H) (hP : ∀ w, P' w → P w) :
    Tri P' m Q E H := fun w hw => h w (hP w hw)

theorem Tri.ret {P : World σ → Prop} {Q : α → World σ → Prop} {E : Option Err → World σ → Prop}
    {H : World σ → Prop} (a : α) (h : ∀ w, P w → Q a w) : Tri P (Run.ret a) Q E H := fun w hw => h w hw

theorem Tri.panics {P : World σ → Prop} {Q : α → World σ → Prop} {E : Option Err → World σ → Prop}
    {H : World σ → Prop} (h : ∀ w, P w → E none w) : Tri P (Run.panics : M σ α) Q E H := fun w hw => h w hw

theorem Tri.fail {P : World σ → Prop} {Q : α → World σ → Prop} {E : Option Err → World σ → Prop}
    {H : World σ → Prop} (e : Err) (h : ∀ w, P w → E (some e) w) : Tri P (Run.fail e : M σ α) Q E H :=
  fun w hw => h w hw

theorem Tri.finally {P : World σ → Prop} {m : M σ α} {c : World σ → World σ} {Q Q' : α → World σ → Prop}
    {E E' : Option Err → World σ → Prop} {H : World σ → Prop} (h : Tri P m Q E H)
    (hQ : ∀ a w, Q a w → Q' a (c w)) (hE : ∀ e w, E e w → E' e (c w)) : Tri P (finally_ m c) Q' E' H := by
  intro w hw
  have := h w hw
  unfold finally_
  rcases hm : m w with ⟨r, w'⟩
  rw [hm] at this
  cases r with
  | ok a => exact hQ _ _ this
  | err e => exact hE _ _ this
  | panic => exact hE _ _ this
  | hang => exact this

/-- A predicate that does not look at the fields changed by calls to the outside. -/
def ExtFree (I : World σ → Prop) : Prop :=
  ∀ w warns out ext, I w → I { w with warns := warns, out := out, ext := ext }

theorem Tri.ask {I : World σ → Prop} (hI : ExtFree I) (f : World σ → Reply σ α) :
    Tri I (Run.ask f) (fun _ => I) (fun _ => I) I := by
  intro w hw
  have := hI w (f w).warns (w.out ++ (f w).said.map .warning) (f w).ext hw
  unfold Run.ask
  dsimp only
  cases (f w).res <;> exact this

theorem Tri.askTry {I : World σ → Prop} (hI : ExtFree I) (f : World σ → Reply σ α) :
    Tri I (Run.askTry f) (fun _ => I) (fun _ => I) I := by
  intro w hw
  have := hI w (f w).warns (w.out ++ (f w).said.map .warning) (f w).ext hw
  unfold Run.askTry
  dsimp only
  cases (f w).res <;> exact this

/-- Induction for the candidate loop: `P cs` holds whenever the candidates `cs` remain. -/
theorem Tri.candidateLoop {cfg : Cfg} {env : Env σ} {P : List Candidate → World σ → Prop}
    {Q : Unit → World σ → Prop} {E : Option Err → World σ → Prop} {H : World σ → Prop}
    (hskip : ∀ cs w, P cs w → Post (fun _ w' => P (skipPast none cs w.past).rest w') E H
      (skipPastM cfg (skipPast none cs w.past) w))
    (hdone : ∀ w, P [] w → Q () w)
    (hone : ∀ c rest, Tri (P (c :: rest)) (oneCandidate cfg env c) (fun _ => P rest) E H) (cs : List Candidate) :
    Tri (P cs) (Run.candidateLoop cfg env cs) Q E H := by
  suffices ∀ n cs, cs.length ≤ n → Tri (P cs) (Run.candidateLoop cfg env cs) Q E H from this _ cs (Nat.le_refl _)
  intro n
  induction n with
  | zero =>
    intro cs hn w hw
    have : cs = [] := List.eq_nil_of_length_eq_zero (by omega)
    subst this
    unfold Run.candidateLoop
    have h1 := hskip [] w hw
    refine Tri.bind (P := fun w' => w' = w) (R := fun _ w' => P [] w') ?_ (fun _ => ?_) w rfl
    · rintro w' rfl
      have hr : (skipPast none ([] : List Candidate) w'.past).rest = [] := by simp [skipPast]
      rw [hr] at h1
      exact h1
    · split
      · exact Tri.ret _ hdone
      · rename_i h
        simp [skipPast] at h
  | succ n ih =>
    intro cs hn w hw
    unfold Run.candidateLoop
    have h1 := hskip cs w hw
    refine Tri.bind (P := fun w' => w' = w) (R := fun _ w' => P (skipPast none cs w.past).rest w') ?_ (fun _ => ?_) w rfl
    · rintro w' rfl; exact h1
    · have hl := skipPast_length none cs w.past
      split
      · rename_i h
        rw [h]
        exact Tri.ret _ hdone
      · rename_i c rest h
        rw [h] at hl
        have hl' : rest.length + 1 ≤ cs.length := hl
        exact Tri.bind ((hone c rest).pre fun w hw => by rw [h] at hw; exact hw) fun _ => ih rest (by omega)

end Necessist.Run
