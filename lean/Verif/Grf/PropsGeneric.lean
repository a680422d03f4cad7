import Verif.Grf.PropsMulti

/-!
# C72 for relations of any kind: proved sequents hold up to a set without interior points
-/

set_option linter.unusedSectionVars false

namespace Verif.Grf

open Topology

/-- What holds of **C72** for relations of any kind (no hypothesis being an equation), with the other assumptions of
C72_partial: if the sequent is reported as proved, then the points at which the promoted hypotheses are true and the goal is
false have no interior; each of them is a zero of one of the polynomials, and not of the zero polynomial. -/
theorem C72_generic_partial (S : Sage ℚ) (E : CadEnv) (hE : RootsOK ℝ E) (hu : UniformOK E) (hel : ElimOK E) (n numSps : ℕ)
    (hn : 1 ≤ numSps) (extra : ℕ → State → List MPoly) (more) (solve) (hyps : List Atom) (main : Atom)
    (hops : ∀ a ∈ hyps, a.op ≠ .eq) (hfresh : ∀ a ∈ main :: hyps, Fresh a)
    (hpoly : ∀ a ∈ main :: hyps, Normal a.poly ∧ ∀ w ∈ a.poly.vars, w < n)
    (hextra : ∀ k st, ∀ p ∈ extra k st, Normal p ∧ ∀ w ∈ p.vars, w < n)
    (hlev : ∀ k (st : State), st.goal.main = main → (st.goal.hyps ++ st.hyps).Perm hyps →
      LevelsOK E n (extra k st ++ main.poly :: st.goal.hyps.map Atom.poly) numSps st.hyps)
    (fuel : ℕ) (ids : List ℕ) (ret : List (List ℕ)) (st' : State)
    (h : check (cadCore S E n numSps extra more solve) fuel 0 ⟨hyps, ⟨main, [], []⟩, ids⟩ = .ok (ret, st')) :
    ∃ ps : List Atom, (ps ++ st'.hyps).Perm hyps ∧ ps = st'.goal.hyps ∧
      interior {ρ : ℕ → ℝ | (∀ a ∈ ps, a.holds ρ) ∧ ¬ main.holds ρ} = ∅ ∧
      ∀ ρ : ℕ → ℝ, (∀ a ∈ ps, a.holds ρ) → ¬ main.holds ρ →
        ∃ a ∈ main :: ps, a.poly.eval ρ = 0 ∧ ∃ σ : ℕ → ℝ, a.poly.eval σ ≠ 0 := by
  obtain ⟨k, ret', hr, hlast⟩ := check_rounds _ fuel 0 _ st' ret h
  obtain ⟨ds, hds, htrue⟩ := round_none hlast
  obtain ⟨e1, e2, ps, e3, e4⟩ := rounds_noeq _ 0 k _ st' hr rfl hops
  simp only [List.nil_append] at e3
  have hps : ∀ a ∈ ps, a ∈ hyps := fun a ha => e4.subset (by simp [ha])
  have hmem : ∀ a ∈ st'.goal.main :: st'.goal.hyps, a ∈ main :: hyps := by
    intro a ha
    rw [e2, e3] at ha
    rcases List.mem_cons.1 ha with rfl | ha
    · simp
    · exact List.mem_cons_of_mem _ (hps a ha)
  have hvalid := multi_core_generic S E hE hu hel n st'.goal (fun a ha => hfresh a (hmem a ha)) (fun a ha => hpoly a (hmem a ha))
    (extra (0 + k) st' ++ st'.goal.main.poly :: st'.goal.hyps.map Atom.poly) (by
      intro a ha
      apply List.mem_append.2 (Or.inr _)
      rcases List.mem_cons.1 ha with rfl | ha
      · simp
      · exact List.mem_cons_of_mem _ (List.mem_map.2 ⟨a, ha, rfl⟩)) (by
      intro p hp
      rcases List.mem_append.1 hp with hp | hp
      · exact hextra _ _ p hp
      · have : ∃ a ∈ st'.goal.main :: st'.goal.hyps, p = a.poly := by
          rcases List.mem_cons.1 hp with rfl | hp
          · exact ⟨_, by simp, rfl⟩
          · obtain ⟨a, ha, rfl⟩ := List.mem_map.1 hp
            exact ⟨a, by simp [ha], rfl⟩
        obtain ⟨a, ha, rfl⟩ := this
        exact hpoly a (hmem a ha)) numSps hn st'.hyps (by
      have := hlev (0 + k) st' e2 (by rw [e3]; exact e4)
      rw [e2]
      exact this) ds hds htrue
  rw [e2, e3] at hvalid hmem
  have hzero : ∀ ρ : ℕ → ℝ, (∀ a ∈ ps, a.holds ρ) → ¬ main.holds ρ → ∃ a ∈ main :: ps, a.poly ≠ [] ∧ a.poly.eval ρ = 0 := by
    intro ρ h1 h2
    by_contra hcon
    push Not at hcon
    exact h2 (hvalid ρ (fun a ha => by
      by_cases h0 : a.poly = []
      · exact Or.inl h0
      · exact Or.inr (hcon a ha h0)) h1)
  have hP : ∀ q ∈ ((main :: ps).map Atom.poly).filter (· ≠ []), Normal q ∧ q ≠ [] := by
    intro q hq
    obtain ⟨hq, hne⟩ := List.mem_filter.1 hq
    obtain ⟨a, ha, rfl⟩ := List.mem_map.1 hq
    exact ⟨(hpoly a (hmem a ha)).1, by simpa using hne⟩
  refine ⟨ps, e4, e3.symm, ?_, fun ρ h1 h2 => ?_⟩
  · rw [Set.eq_empty_iff_forall_notMem]
    intro ρ hρ
    obtain ⟨σ, hσ, hne⟩ := exists_near_ne hP (mem_interior_iff_mem_nhds.1 hρ)
    obtain ⟨a, ha, h0, hz⟩ := hzero σ hσ.1 hσ.2
    exact hne a.poly (List.mem_filter.2 ⟨List.mem_map.2 ⟨a, ha, rfl⟩, by simpa using h0⟩) hz
  · obtain ⟨a, ha, h0, hz⟩ := hzero ρ h1 h2
    obtain ⟨σ, -, hne⟩ := exists_near_ne hP (Filter.univ_mem (f := 𝓝 ρ))
    exact ⟨a, ha, hz, σ, hne a.poly (List.mem_filter.2 ⟨List.mem_map.2 ⟨a, ha, rfl⟩, by simpa using h0⟩)⟩

/-- One polynomial, `x0^2 - 2`, which has no rational root. -/
theorem levels_two (E : CadEnv) (ambient : List Atom) : LevelsOK E 1 ([] ++ [([], -2), ([2], 1)] :: []) 1 ambient := by
  refine ⟨trivial, ?_⟩
  intro base sets hb
  have hb' : [filterProjSet ([] ++ [([], -2), ([2], 1)] :: [])] = base :: sets := hb
  cases hb'
  refine ⟨Or.inl ?_, fun x _ => trivial⟩
  intro p hp' _ a
  have : p = [([], -2), ([2], 1)] := by
    have h : filterProjSet ([] ++ [([], -2), ([2], 1)] :: []) = [[([], -2), ([2], 1)]] := by decide +kernel
    rw [h] at hp'
    simpa using hp'
  have hv : val p a = a ^ 2 - 2 := by
    rw [this]; simp [val, MPoly.eval, Mono.evalFrom]; ring
  rw [hv]
  exact sqrt_two_rat a

/-- The assumptions are met by the sequent of C57_violated, `⊢ x0^2 != 2`, which is proved and false at a point. -/
example : ∃ (E : CadEnv) (main : Atom), RootsOK ℝ E ∧ UniformOK E ∧ ElimOK E ∧
    mkAtom ((MPoly.var 0).mul (MPoly.var 0)) "!=" (MPoly.const 2) = .ok main ∧ Fresh main ∧
    (Normal main.poly ∧ ∀ w ∈ main.poly.vars, w < 1) ∧
    (∀ st : State, st.goal.main = main → (st.goal.hyps ++ st.hyps).Perm [] →
      LevelsOK E 1 ([] ++ main.poly :: st.goal.hyps.map Atom.poly) 1 st.hyps) ∧
    (∃ out, check (cadCore testSage E 1 1 (fun _ _ => []) (fun _ _ _ => .ok []) fun _ _ _ => none) 1 0
      ⟨[], ⟨main, [], []⟩, []⟩ = .ok out) ∧ ∃ ρ : ℕ → ℝ, ¬ main.holds ρ := by
  obtain ⟨E, h1, h2, h3⟩ := C72_assumptions_met
  obtain ⟨main, hm, hc, hf⟩ := C57_violated testSage E 1 (fun _ _ _ => .ok []) (fun _ _ _ => none) 0
  have hm' : main = ⟨[([], -2), ([2], 1)], .ne, [0]⟩ := by
    have : mkAtom ((MPoly.var 0).mul (MPoly.var 0)) "!=" (MPoly.const 2) = .ok ⟨[([], -2), ([2], 1)], .ne, [0]⟩ := by
      decide +kernel
    rw [this] at hm
    exact (Except.ok.inj hm).symm
  refine ⟨E, main, h1, h2, h3.elimOK, hm, ?_, ?_, ?_, ⟨_, hc⟩, hf⟩
  · rw [hm']; unfold Fresh; decide +kernel
  · rw [hm']
    refine ⟨⟨?_, ?_, by decide +kernel⟩, by decide +kernel⟩
    · unfold NoZeroTerms; decide +kernel
    · unfold Mono.Stripped; decide +kernel
  · intro st _ hp
    have h0 := hp.eq_nil
    rw [List.append_eq_nil_iff] at h0
    rw [h0.1, hm']
    exact levels_two E st.hyps

end Verif.Grf
