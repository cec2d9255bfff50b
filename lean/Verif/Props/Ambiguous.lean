import Verif.Lemmas.VisitorWarn
import Verif.Props.Visitor
/-!
# C83: functions whose definition is ambiguous
-/
namespace Necessist.Visit

theorem CallsFn.named {cfg x name fs f} (h : CallsFn cfg x name fs f) : CallsName cfg x.node name fs ∧ fs.head? = some f := by
  obtain ⟨i, cn, callee, args, h1, h2⟩ := h
  obtain ⟨a1, a2, a3, a4⟩ := walkTarget_some h2
  exact ⟨⟨i, cn, callee, args, h1, a1, a2⟩, a3⟩

/-- **C83.** Each function that is named in the warning is called by its name in the file, in a test or in a function that was gone into, and has at
least two definitions. -/
theorem C83_sound {cfg rounds tree st walked} (h : visitFile cfg rounds tree = .done st walked) {name} (hn : name ∈ st.warnings) :
    ∃ call fs, CallsName cfg call name fs ∧ 2 ≤ fs.length ∧ ((∃ r ∈ tree, Sub r call) ∨ ∃ f ∈ walked, ∃ m ∈ f.body, Sub m call) := by
  obtain ⟨rs, W, k1, _⟩ := visitFile_warns h
  obtain ⟨y, fs, f, hv, hc, hl⟩ := (k1 name).1 hn
  refine ⟨y.node, fs, hc.named.1, hl, ?_⟩
  rcases hv with ⟨m, hm, hr⟩ | ⟨r, hr, m, hm, hre⟩
  · exact Or.inl ⟨m, hm, hr.sub⟩
  · exact Or.inr ⟨r.f, by rw [W.walked]; exact List.mem_map.2 ⟨r, hr, rfl⟩, m, hm, hre.sub⟩

/-- The function was gone into, so its name was noticed. -/
theorem warned_of_walked {cfg rounds tree st walked} (hon : OneName cfg) (h : visitFile cfg rounds tree = .done st walked) {f name fs}
    (hf : f ∈ walked) (hl : cfg.walkable.lookup name = some (f :: fs)) (h2 : fs ≠ []) : name ∈ st.warnings := by
  obtain ⟨rs, W, k1, k2⟩ := visitFile_warns h
  rw [W.walked] at hf
  obtain ⟨r, hr, rfl⟩ := List.mem_map.1 hf
  obtain ⟨y, n', fs', hv, hc⟩ := k2 r hr
  obtain ⟨⟨i, cn, callee, args, e1, e2, e3⟩, e4⟩ := hc.named
  cases fs' with
  | nil => cases e4
  | cons g gs =>
    cases e4
    obtain rfl := hon _ _ _ _ _ hl e3
    rw [hl] at e3
    cases e3
    exact (k1 name).2 ⟨y, _, _, hv, hc, by
      have := List.length_pos_iff.2 h2
      simp only [List.length_cons]; omega⟩

/-- **C83.** Each function with two or more definitions that a test calls by its name, not within an ignored call, is named in the warning; the
first definition is the one that is gone into. -/
theorem C83_test_partial {cfg rounds tree st walked} (hkf : KeysFaithful cfg) (hon : OneName cfg) (h : visitFile cfg rounds tree = .done st walked)
    {t last m call name f fs} (ht : TestPart cfg tree t last m) (hs : Seen cfg m call) (hc : CallsName cfg call name (f :: fs)) (h2 : fs ≠ []) :
    name ∈ st.warnings ∧ f ∈ walked := by
  obtain ⟨i, cn, callee, args, e1, e2, e3⟩ := hc
  have hw : f ∈ walked := C36_walked hkf h (.direct ht hs ⟨i, cn, callee, args, name, fs, e1, e2, e3⟩)
  exact ⟨warned_of_walked hon h hw e3 h2, hw⟩

/-- **C83.** … likewise in functions that tests call, directly or not. -/
theorem C83_function_partial {cfg rounds tree st walked} (hkf : KeysFaithful cfg) (hon : OneName cfg) (h : visitFile cfg rounds tree = .done st walked)
    {g m call name f fs} (hg : Reached cfg tree g) (hm : m ∈ g.body) (hs : Seen cfg m call) (hc : CallsName cfg call name (f :: fs)) (h2 : fs ≠ []) :
    name ∈ st.warnings ∧ f ∈ walked := by
  obtain ⟨i, cn, callee, args, e1, e2, e3⟩ := hc
  have hw : f ∈ walked := C36_walked hkf h (.via hg hm hs ⟨i, cn, callee, args, name, fs, e1, e2, e3⟩)
  exact ⟨warned_of_walked hon h hw e3 h2, hw⟩

end Necessist.Visit
