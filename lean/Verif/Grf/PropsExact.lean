import Verif.Grf.PropsLoop

/-!
# C37: the meaning of a goal together with its Gröbner basis
-/

set_option linter.unusedSectionVars false

namespace Verif.Grf

variable {K : Type} [Field K] [LinearOrder K] [IsStrictOrderedRing K]

/-- What holds instead of **C37**, with the recorded Gröbner basis: the points that satisfy the new hypotheses and at
which the new basis vanishes are exactly the points that satisfy the old hypotheses and the new one and at which the old
basis vanishes. So whatever `add_goal_hyp` drops from the hypotheses is still in the basis. -/
theorem C37_basis_partial (S : Sage K) (hS : SageOK S) (g : Goal) (gh : Atom) :
    ∃ g', g.addHyp S gh = .ok g' ∧ ∀ ρ : ℕ → K,
      ((∀ h ∈ g'.hyps, h.holds ρ) ∧ ∀ b ∈ g'.gb, b.eval ρ = 0) ↔
        (((∀ h ∈ g.hyps, h.holds ρ) ∧ ∀ b ∈ g.gb, b.eval ρ = 0) ∧ gh.holds ρ) := by
  refine ⟨_, addHyp_ok hS g gh, fun ρ => ?_⟩
  have hnew : (∀ b ∈ g.gb, b.eval ρ = 0) →
      ((if g.gb ≠ [] then { gh with poly := S.reduce gh.poly g.gb } else gh : Atom).holds ρ ↔ gh.holds ρ) := by
    intro hb
    split
    · exact holds_inject hS hb gh
    · rfl
  by_cases he : gh.op = .eq
  · have hgh : gh.holds ρ ↔ gh.poly.eval ρ = 0 := by unfold Atom.holds; rw [he]; exact Iff.rfl
    simp only [he, if_true, hS.gbasis, List.mem_append, List.mem_singleton, or_imp, forall_and, forall_eq]
    have hold : gh.poly.eval ρ = 0 →
        ∀ h : Atom, ({ h with poly := S.reduce h.poly (S.gbasis [gh.poly]) } : Atom).holds ρ ↔ h.holds ρ := by
      intro h0 h
      apply holds_inject hS
      rw [hS.gbasis]
      simpa using h0
    constructor
    · rintro ⟨⟨h1, _⟩, hb, h0⟩
      refine ⟨⟨fun a ha => (hold h0 a).1 (h1 _ (List.mem_map.2 ⟨a, ha, rfl⟩)), hb⟩, hgh.2 h0⟩
    · rintro ⟨⟨h1, hb⟩, h0⟩
      refine ⟨⟨fun a ha => ?_, by have := (hnew hb).2 h0; simp only [he] at this; exact this⟩, hb, hgh.1 h0⟩
      obtain ⟨c, hc, rfl⟩ := List.mem_map.1 ha
      exact (hold (hgh.1 h0) c).2 (h1 c hc)
  · simp only [he, if_false, List.mem_append, List.mem_singleton, or_imp, forall_and, forall_eq]
    constructor
    · rintro ⟨⟨h1, h2⟩, hb⟩
      exact ⟨⟨h1, hb⟩, (hnew hb).1 h2⟩
    · rintro ⟨⟨h1, hb⟩, h2⟩
      exact ⟨⟨h1, (hnew hb).2 h2⟩, hb⟩

/-- The same for the loop of the check: after any number of rounds the points that satisfy the hypotheses of the goal and
at which the recorded basis vanishes are exactly the points that satisfy the promoted hypotheses, in the form in which they
were given. -/
theorem C37_rounds_partial (C : Core K) (hS : SageOK C.toSage) (n k : ℕ) (st st' : State) (h : Rounds C n st k st') :
    ∃ ps : List Atom, ps.length = k ∧ (ps ++ st'.hyps).Perm st.hyps ∧ ∀ ρ : ℕ → K,
      ((∀ a ∈ st'.goal.hyps, a.holds ρ) ∧ ∀ b ∈ st'.goal.gb, b.eval ρ = 0) ↔
        (((∀ a ∈ st.goal.hyps, a.holds ρ) ∧ ∀ b ∈ st.goal.gb, b.eval ρ = 0) ∧ ∀ a ∈ ps, a.holds ρ) := by
  induction h with
  | refl n st => exact ⟨[], rfl, List.Perm.refl _, fun ρ => by simp⟩
  | step n k st st₁ st' bads h hs ih =>
    obtain ⟨ps, h1, h2, h3⟩ := ih
    obtain ⟨i, hi⟩ := round_some h
    obtain ⟨a, g, ha, hg, rfl⟩ := promote_ok hi
    obtain ⟨g', hg', hex⟩ := C37_basis_partial C.toSage hS st.goal a
    rw [hg] at hg'
    cases hg'
    refine ⟨a :: ps, by simp [h1], (List.Perm.cons a h2).trans (take_drop_perm ha), fun ρ => ?_⟩
    rw [h3 ρ]
    show (((∀ a ∈ g.hyps, a.holds ρ) ∧ ∀ b ∈ g.gb, b.eval ρ = 0) ∧ _) ↔ _
    rw [hex ρ]
    simp only [List.mem_cons, or_imp, forall_and, forall_eq, and_assoc]

/-- The whole check: when it returns, the hypotheses of the final goal and the recorded basis say exactly what the
promoted hypotheses say; at the sample points of the last round the goal is true. -/
theorem C37_check_partial (C : Core K) (hS : SageOK C.toSage) (fuel : ℕ) (hyps : List Atom) (main : Atom) (ids : List ℕ)
    (ret : List (List ℕ)) (st' : State) (h : check C fuel 0 ⟨hyps, ⟨main, [], []⟩, ids⟩ = .ok (ret, st')) :
    ∃ ps : List Atom, (ps ++ st'.hyps).Perm hyps ∧ ∀ ρ : ℕ → K,
      ((∀ a ∈ st'.goal.hyps, a.holds ρ) ∧ ∀ b ∈ st'.goal.gb, b.eval ρ = 0) ↔ ∀ a ∈ ps, a.holds ρ := by
  obtain ⟨k, ret', hr, -⟩ := check_rounds C fuel 0 _ _ _ h
  obtain ⟨ps, -, h2, h3⟩ := C37_rounds_partial C hS 0 k _ _ hr
  exact ⟨ps, h2, fun ρ => by simpa using h3 ρ⟩

/-- The equation `x0 = 0` promoted twice: the hypotheses have become `0 = 0`, but the basis still says `x0 = 0`. -/
example : ∃ g₁ g₂ : Goal, SageOK (testSage (K := ℚ)) ∧
    (⟨⟨MPoly.var 1, .gt, [1]⟩, [], []⟩ : Goal).addHyp (testSage (K := ℚ)) ⟨MPoly.var 0, .eq, [0]⟩ = .ok g₁ ∧
    g₁.addHyp (testSage (K := ℚ)) ⟨MPoly.var 0, .eq, [0]⟩ = .ok g₂ ∧
    g₂.hyps.map Atom.poly = [[], []] ∧ g₂.gb = [MPoly.var 0, MPoly.var 0] :=
  ⟨_, _, testSage_ok, addHyp_ok testSage_ok _ _, addHyp_ok testSage_ok _ _, by decide +kernel, by decide +kernel⟩

end Verif.Grf
