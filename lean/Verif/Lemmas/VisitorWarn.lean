import Verif.Lemmas.VisitorLoop
/-! Which functions are found to be ambiguous. -/
namespace Necessist.Visit

theorem rounds_warns {cfg st rs st'} (h : Rounds cfg st rs st') : Inv cfg st →
    (∀ n, n ∈ st'.warnings ↔ n ∈ st.warnings ∨ ∃ r ∈ rs, ∃ y fs f, r.Visits cfg y ∧ CallsFn cfg y n fs f ∧ 2 ≤ fs.length) ∧
    ∀ r ∈ rs, (∃ e ∈ st.pending, e.1 = r.f) ∨ ∃ r' ∈ rs, ∃ y n fs, r'.Visits cfg y ∧ CallsFn cfg y n fs r.f := by
  induction h with
  | nil _ => intro _; simp
  | @cons st f st1 st2 rs st' h1 h2 h3 ih =>
    intro hi
    obtain ⟨e, hi2⟩ := round_eff hi h1 h2
    obtain ⟨k1, k2⟩ := ih hi2
    obtain ⟨p, ns, hp, hst⟩ := next_spec h1
    have hw : st1.warnings = st.warnings := by rw [hst]
    have hpe : st1.pending = p := by rw [hst]
    constructor
    · intro n
      rw [k1, e.warns, hw]
      simp only [List.mem_cons, exists_eq_or_imp]
      grind
    · intro r hr
      rcases List.mem_cons.1 hr with rfl | hr
      · exact Or.inl ⟨(f, ns), by rw [hp]; simp, rfl⟩
      · rcases k2 r hr with ⟨x, hx, hxe⟩ | ⟨r', hr', hv⟩
        · rcases e.fns x hx with ⟨e0, h0, h0'⟩ | ⟨y, n, fs, hy, hc⟩
          · refine Or.inl ⟨e0, ?_, h0'.trans hxe⟩
            rw [hp]; rw [hpe] at h0; exact List.mem_append_left _ h0
          · exact Or.inr ⟨_, List.mem_cons_self, y, n, fs, hy, hxe ▸ hc⟩
        · exact Or.inr ⟨r', List.mem_cons_of_mem _ hr', hv⟩

/-- What is visited. -/
def VisitedAt (cfg : VCfg) (tree : List Node) (rs : List Round) (y : Item) : Prop := FileVisits cfg tree y ∨ ∃ r ∈ rs, r.Visits cfg y

theorem visitFile_warns {cfg n tree st walked} (h : visitFile cfg n tree = .done st walked) :
    ∃ rs, Whole cfg tree st walked rs ∧
      (∀ n, n ∈ st.warnings ↔ ∃ y fs f, VisitedAt cfg tree rs y ∧ CallsFn cfg y n fs f ∧ 2 ≤ fs.length) ∧
      ∀ r ∈ rs, ∃ y n fs, VisitedAt cfg tree rs y ∧ CallsFn cfg y n fs r.f := by
  obtain ⟨st0, rs, h0, hr, _, W⟩ := visitFile_rounds h
  obtain ⟨e, hi, _⟩ := file_eff h0
  obtain ⟨k1, k2⟩ := rounds_warns hr hi
  refine ⟨rs, W, ?_, ?_⟩
  · intro n
    rw [k1, e.warns]
    simp only [List.not_mem_nil, false_or, VisitedAt]
    grind
  · intro r hr
    rcases k2 r hr with ⟨x, hx, hxe⟩ | ⟨r', hr', y, n, fs, hv, hc⟩
    · rcases e.fns x hx with ⟨_, h0, _⟩ | ⟨y, n, fs, hy, hc⟩
      · cases h0
      · exact ⟨y, n, fs, Or.inl hy, hxe ▸ hc⟩
    · exact ⟨y, n, fs, Or.inr ⟨r', hr', hv⟩, hc⟩

end Necessist.Visit
