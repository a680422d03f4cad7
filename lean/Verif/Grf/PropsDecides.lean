import Verif.Grf.PropsWeaken
import Verif.Grf.PropsGeneric

/-!
# C122: with a hypothesis that is true wherever the goal is false, the check decides
-/

set_option linter.unusedSectionVars false

namespace Verif.Grf

/-- A hypothesis that is true at all visited points at which the goal is false is not promoted. -/
theorem round_keeps {K : Type} [Field K] [LinearOrder K] [IsStrictOrderedRing K] {C : Core K} (hC : SolverOpt C) {n : ℕ}
    {st st' : State} {bads : List (List ℕ)} (h : round C n st = .ok (bads, some st')) {a₀ : Atom} (ha : a₀ ∈ st.hyps)
    (htrue : ∀ ds, C.samples n st = .ok ds → ∀ d ∈ ds, ∀ near, C.more n st d = .ok near → ∀ e ∈ d :: near,
      st.goal.evalOnDict C.toSage e = .ok false → a₀.evalOnDict C.toSage e = .ok (some true)) :
    a₀ ∈ st'.hyps := by
  obtain ⟨ds, cand, i, hds, hr, hcand, hi, hp⟩ := round_cand h
  obtain ⟨-, hirr⟩ := C73_irredundant C hC n st ds bads false cand hr hcand
  obtain ⟨d₀, hd₀, near, hnear, d, hd, hg, ⟨a, hai, hat⟩, -⟩ := hirr i hi
  obtain ⟨h', g, hh, -, rfl⟩ := promote_ok hp
  obtain rfl : a = h' := by rw [hai] at hh; exact Option.some.inj hh
  have hne : a₀ ≠ a := by
    rintro rfl
    exact hat (htrue ds hds d₀ hd₀ near hnear d hd hg)
  obtain ⟨j, hj, hja⟩ := List.mem_iff_getElem.1 ha
  obtain ⟨hil, hia⟩ := List.getElem?_eq_some_iff.1 hai
  have hij : j ≠ i := by
    rintro rfl
    exact hne (hja.symm.trans hia)
  show a₀ ∈ st.hyps.take i ++ st.hyps.drop (i + 1)
  rw [List.mem_append]
  rcases lt_or_gt_of_ne hij with hlt | hgt
  · left
    rw [List.mem_take_iff_getElem]
    exact ⟨j, by omega, hja⟩
  · right
    rw [List.mem_drop_iff_getElem]
    refine ⟨j - (i + 1), by omega, ?_⟩
    rw [← hja]
    congr 1
    omega

/-- The loop, for any sampling: if some hypothesis is true at every visited point at which the conclusion is false, the
loop ends with a report or with a counterexample, and this hypothesis is left over. -/
theorem C122_core (C : Core ℚ) (hS : SageOK C.toSage) (hC : SolverOpt C) (hC' : SolverComplete C) (main a₀ : Atom)
    (hsam : ∀ k st, ∃ ds, C.samples k st = .ok ds ∧ ∀ d ∈ ds, ∃ near, C.more k st d = .ok near ∧ ∀ e ∈ d :: near, e ≠ [] ∧
      (main.evalOnDict C.toSage e = .ok (some true) ∨ a₀.evalOnDict C.toSage e = .ok (some true))) :
    ∀ (fuel k : ℕ) (st : State), st.hyps.length + 1 ≤ fuel → st.goal.main = main → a₀ ∈ st.hyps →
      (∃ ret st', check C fuel k st = .ok (ret, st') ∧ a₀ ∈ st'.hyps) ∨ check C fuel k st = .error .counterexample := by
  have hgoal : ∀ (st : State), st.goal.main = main → ∀ e : Dict ℚ,
      (main.evalOnDict C.toSage e = .ok (some true) ∨ a₀.evalOnDict C.toSage e = .ok (some true)) →
      st.goal.evalOnDict C.toSage e = .ok false → a₀.evalOnDict C.toSage e = .ok (some true) := by
    intro st hm e he hg
    refine he.resolve_left fun h => ?_
    unfold Goal.evalOnDict at hg
    rw [hm, h] at hg
    simp [bind, Except.bind] at hg
  have hround : ∀ k (st : State), st.goal.main = main → a₀ ∈ st.hyps →
      (∃ out, round C k st = .ok out) ∨ round C k st = .error .counterexample := by
    intro k st hm ha
    obtain ⟨ds, hds, hd⟩ := hsam k st
    let g : Dict ℚ → Bool := fun d => match st.goal.evalOnDict C.toSage d with | .ok b => b | .error _ => false
    let f : Dict ℚ → Atom → Option Bool := fun d a => match a.evalOnDict C.toSage d with | .ok b => b | .error _ => none
    have hg : ∀ d : Dict ℚ, d ≠ [] → st.goal.evalOnDict C.toSage d = .ok (g d) := by
      intro d hne
      obtain ⟨b, hb⟩ := goal_noerr C.toSage hne st.goal
      simp only [g, hb]
    have hf : ∀ (d : Dict ℚ) (a : Atom), d ≠ [] → a.evalOnDict C.toSage d = .ok (f d a) := by
      intro d a hne
      obtain ⟨b, hb⟩ := atom_noerr C.toSage hne a
      simp only [f, hb]
    let near : Dict ℚ → List (Dict ℚ) := fun d => match C.more k st d with | .ok l => l | .error _ => []
    have hnear : ∀ d ∈ ds, C.more k st d = .ok (near d) := by
      intro d h
      obtain ⟨l, hl, _⟩ := hd d h
      simp only [near, hl]
    have hpt : ∀ d₀ ∈ ds, ∀ d ∈ d₀ :: near d₀, d ≠ [] ∧
        (main.evalOnDict C.toSage d = .ok (some true) ∨ a₀.evalOnDict C.toSage d = .ok (some true)) := by
      intro d₀ h d hd'
      obtain ⟨l, hl, hl'⟩ := hd d₀ h
      have := hnear d₀ h
      rw [hl] at this
      obtain rfl := Except.ok.inj this
      exact hl' d hd'
    obtain ⟨h1, h2, h3⟩ := C36_exact C hS hC hC' k st (List.ne_nil_of_mem ha) ds hds near hnear g f
      (fun d₀ h d h' => hg d (hpt d₀ h d h').1) (fun d₀ h d h' a _ => hf d a (hpt d₀ h d h').1)
      (fun e => ∃ d₀ ∈ ds, g d₀ = false ∧ e ∈ d₀ :: near d₀) fun _ => Iff.rfl
    by_cases hall : ∀ d ∈ ds, g d = true
    · exact Or.inl ⟨_, h1 hall⟩
    by_cases hcex : ∃ e, (∃ d₀ ∈ ds, g d₀ = false ∧ e ∈ d₀ :: near d₀) ∧ g e = false ∧ ∀ a ∈ st.hyps, f e a = some true
    · exact Or.inr (h2 hcex)
    obtain ⟨h4, -⟩ := h3 (by
      intro e he
      by_contra hh
      push Not at hh
      exact hcex ⟨e, he, by simpa using hh.1, hh.2⟩)
    push Not at hall
    obtain ⟨d, hdm, hgd⟩ := hall
    have hgd' : g d = false := by simpa using hgd
    obtain ⟨hne, hor⟩ := hpt d hdm d (by simp)
    have ht := hgoal st hm d hor (by rw [hg d hne, hgd'])
    obtain ⟨_, _, h, _⟩ := h4 ⟨d, ⟨d, hdm, hgd', by simp⟩, hgd', a₀, ha, by
      have := hf d a₀ hne
      rw [ht] at this
      exact (Except.ok.inj this).symm⟩
    exact Or.inl ⟨_, h⟩
  intro fuel
  induction fuel with
  | zero => intro k st h; omega
  | succ fuel ih =>
    intro k st hlen hm ha
    unfold check
    simp only [bind, Except.bind]
    rcases hround k st hm ha with ⟨⟨bads, o⟩, h⟩ | h
    · rw [h]
      cases o with
      | none => exact Or.inl ⟨_, _, rfl, ha⟩
      | some st₁ =>
        simp only
        obtain ⟨i, hi⟩ := round_some h
        have hlen' := promote_hyps hi
        have hm' : st₁.goal.main = main := by
          obtain ⟨h', g, -, hg, rfl⟩ := promote_ok hi
          unfold Goal.addHyp at hg
          simp only [bind, Except.bind] at hg
          split at hg
          · cases hg
          · split at hg
            · cases hg
            · cases hg; exact hm
        have ha' : a₀ ∈ st₁.hyps := by
          refine round_keeps hC h ha fun ds hds d hd near hnear e he => hgoal st hm e ?_
          obtain ⟨ds', hds', hh⟩ := hsam k st
          rw [hds] at hds'
          obtain rfl := Except.ok.inj hds'
          obtain ⟨near', hnear', hh'⟩ := hh d hd
          rw [hnear] at hnear'
          obtain rfl := Except.ok.inj hnear'
          exact (hh' e he).2
        rcases ih (k + 1) st₁ (by omega) hm' ha' with ⟨ret, st', h', h''⟩ | h'
        · rw [h']; exact Or.inl ⟨_, _, rfl, h''⟩
        · rw [h']; exact Or.inr rfl
    · rw [h]; exact Or.inr rfl

/-- The points of the sampling core of the program meet the assumption of `C122_core`. -/
theorem cad_points (S : Sage ℚ) (E : CadEnv) (n numSps : ℕ) (hnpos : 0 < n) (extra : ℕ → State → List MPoly)
    (near : ℕ → State → Dict ℚ → List (Dict ℚ)) (solve)
    (hnear : ∀ k st d, (∀ v < n, (d.lookup v).isSome) → ∀ e ∈ near k st d, ∀ v < n, (e.lookup v).isSome)
    (main a₀ : Atom) (hv : ∀ a ∈ [main, a₀], ∀ v ∈ a.vars ++ a.poly.vars, v < n)
    (htrue : ∀ ρ : ℕ → ℚ, ¬ main.holds ρ → a₀.holds ρ) (k : ℕ) (st : State) :
    ∃ ds, (cadCore S E n numSps extra (fun k st d => .ok (near k st d)) solve).samples k st = .ok ds ∧ ∀ d ∈ ds,
      ∃ l, (cadCore S E n numSps extra (fun k st d => .ok (near k st d)) solve).more k st d = .ok l ∧
      ∀ e ∈ d :: l, e ≠ [] ∧ (main.evalOnDict S e = .ok (some true) ∨ a₀.evalOnDict S e = .ok (some true)) := by
  obtain ⟨ds, hds⟩ := (C59_partial S E (extra k st ++ st.goal.main.poly :: st.goal.hyps.map Atom.poly) numSps
    st.hyps).2 n st.goal hnpos
  have htot : ∀ d ∈ ds, ∀ v < n, (d.lookup v).isSome := fun d hd v hvn =>
    ((C58_assignments S E n _ _ _ _ ds hds d hd).2.2 v).2 hvn
  have key : ∀ d : Dict ℚ, (∀ v < n, (d.lookup v).isSome) → d ≠ [] ∧
      (main.evalOnDict S d = .ok (some true) ∨ a₀.evalOnDict S d = .ok (some true)) := by
    intro d h
    have hne : d ≠ [] := by
      rintro rfl
      simpa using h 0 hnpos
    refine ⟨hne, ?_⟩
    have hcov : ∀ a ∈ [main, a₀], Covers d a := fun a ha =>
      ⟨hne, fun v hva => h v (hv a ha v (by simp [hva])), fun v hva => h v (hv a ha v (by simp [hva]))⟩
    rw [evalOnDict_covered S (hcov main (by simp)), evalOnDict_covered S (hcov a₀ (by simp))]
    simp only [Except.ok.injEq, Option.some.injEq, test_iff]
    by_contra hh
    push Not at hh
    exact hh.2 (htrue (ptOf d) hh.1)
  refine ⟨ds, hds, fun d hd => ⟨near k st d, rfl, fun e he => key e ?_⟩⟩
  rcases List.mem_cons.1 he with rfl | he
  · exact htot _ hd
  · exact hnear k st d (htot d hd) e he

/-- **C122**: under the assumptions of C117_partial, if some hypothesis is true wherever the conclusion is false (for
instance a hypothesis that is always true), the check decides: a sequent with hypotheses `<`, `>`, `!=` and conclusion
`<=`, `>=`, `=` that is valid over the reals is reported as proved, and for one that is not valid a counterexample is
reported. -/
theorem C122_decides (S : Sage ℚ) (E : CadEnv) (hE : RootsOK ℝ E) (hu : UniformOK E) (hel : ElimOK E) (n numSps : ℕ)
    (hnpos : 0 < n) (hn : 1 ≤ numSps) (hS : SageOK S) (hR : RingOK S n) (extra : ℕ → State → List MPoly)
    (near : ℕ → State → Dict ℚ → List (Dict ℚ)) (solve)
    (hnear : ∀ k st d, (∀ v < n, (d.lookup v).isSome) → ∀ e ∈ near k st d, ∀ v < n, (e.lookup v).isSome)
    (C : Core ℚ) (hCC : C = cadCore S E n numSps extra (fun k st d => .ok (near k st d)) solve)
    (hC : SolverOpt C) (hC' : SolverComplete C) (hyps : List Atom) (main : Atom)
    (hseq : StrictSequentN n hyps main) (hv : ∀ a ∈ main :: hyps, ∀ v ∈ a.vars, v < n)
    (hextra : ∀ k st, ∀ p ∈ extra k st, Normal p ∧ ∀ w ∈ p.vars, w < n)
    (hlev : ∀ k (st : State), st.goal.main = main → (st.goal.hyps ++ st.hyps).Perm hyps →
      LevelsOK E n (extra k st ++ main.poly :: st.goal.hyps.map Atom.poly) numSps st.hyps)
    (a₀ : Atom) (ha₀ : a₀ ∈ hyps) (htrue : ∀ ρ : ℕ → ℚ, ¬ main.holds ρ → a₀.holds ρ)
    (fuel : ℕ) (hfuel : hyps.length + 1 ≤ fuel) (ids : List ℕ) :
    ((∀ ρ : ℕ → ℝ, (∀ a ∈ hyps, a.holds ρ) → main.holds ρ) ↔
      ∃ ret st', check C fuel 0 ⟨hyps, ⟨main, [], []⟩, ids⟩ = .ok (ret, st')) ∧
    ((∃ ρ : ℕ → ℝ, (∀ a ∈ hyps, a.holds ρ) ∧ ¬ main.holds ρ) ↔
      check C fuel 0 ⟨hyps, ⟨main, [], []⟩, ids⟩ = .error .counterexample) := by
  have hv' : ∀ a ∈ main :: hyps, ∀ v ∈ a.vars ++ a.poly.vars, v < n := by
    intro a ha v hva
    rcases List.mem_append.1 hva with hva | hva
    · exact hv a ha v hva
    · exact (hseq.poly a ha).2 v hva
  have hcast : ∀ (ρ : ℕ → ℚ) (a : Atom), a.holds (fun i => (ρ i : ℝ)) ↔ a.holds ρ := by
    intro ρ a
    unfold Atom.holds
    rw [eval_ratCast, rel_ratCast]
  have hdich : (∃ ret st', check C fuel 0 ⟨hyps, ⟨main, [], []⟩, ids⟩ = .ok (ret, st')) ∨
      check C fuel 0 ⟨hyps, ⟨main, [], []⟩, ids⟩ = .error .counterexample := by
    have := C122_core C (by subst hCC; exact hS) hC hC' main a₀ (by
      subst hCC
      exact cad_points S E n numSps hnpos extra near solve hnear main a₀ (by
        intro a ha
        simp only [List.mem_cons, List.not_mem_nil, or_false] at ha
        rcases ha with rfl | rfl
        · exact hv' _ (by simp)
        · exact hv' _ (by simp [ha₀])) htrue) fuel 0 ⟨hyps, ⟨main, [], []⟩, ids⟩ hfuel rfl ha₀
    rcases this with ⟨ret, st', h, -⟩ | h
    · exact Or.inl ⟨ret, st', h⟩
    · exact Or.inr h
  have hsound : ∀ ret st', check C fuel 0 ⟨hyps, ⟨main, [], []⟩, ids⟩ = .ok (ret, st') →
      ∀ ρ : ℕ → ℝ, (∀ a ∈ hyps, a.holds ρ) → main.holds ρ := by
    intro ret st' h ρ hρ
    subst hCC
    obtain ⟨ps, h1, -, h2⟩ := C72_partial S E hE hu hel n numSps hn extra _ solve hyps main hseq hextra hlev fuel ids ret st' h
    exact h2 ρ fun a ha => hρ a (h1.subset (by simp [ha]))
  have hcex : check C fuel 0 ⟨hyps, ⟨main, [], []⟩, ids⟩ = .error .counterexample →
      ∃ ρ : ℕ → ℝ, (∀ a ∈ hyps, a.holds ρ) ∧ ¬ main.holds ρ := by
    intro h
    subst hCC
    obtain ⟨ρ, h1, h2⟩ := C105_cad_partial S E n numSps hnpos hS hR extra _ solve (by
      intro k st d ds hd hds e he
      cases hds
      exact hnear k st d hd e he) (by simp) hyps main hv' (by
      rw [List.countP_eq_zero.2]
      · exact Nat.zero_le _
      · intro a ha
        rcases hseq.hypOps a ha with h | h | h <;> rw [h] <;> decide) fuel ids h
    exact ⟨fun i => (ρ i : ℝ), fun a ha => (hcast ρ a).2 (h1 a ha), fun hm => h2 ((hcast ρ main).1 hm)⟩
  refine ⟨⟨fun hval => hdich.resolve_right fun h => ?_, fun ⟨ret, st', h⟩ => hsound ret st' h⟩,
    ⟨fun ⟨ρ, h1, h2⟩ => hdich.resolve_left fun ⟨ret, st', h⟩ => h2 (hsound ret st' h ρ h1), hcex⟩⟩
  obtain ⟨ρ, h1, h2⟩ := hcex h
  exact h2 (hval ρ h1)

/-- **C122** for relations of any kind (no equations as hypotheses): with a hypothesis that is true wherever the conclusion is
false, a sequent that is valid over the reals is reported as proved, a counterexample is reported if the points at which
the sequent is false have an interior, and nothing else can happen. -/
theorem C122_generic (S : Sage ℚ) (E : CadEnv) (hE : RootsOK ℝ E) (hu : UniformOK E) (hel : ElimOK E) (n numSps : ℕ)
    (hnpos : 0 < n) (hn : 1 ≤ numSps) (hS : SageOK S) (hR : RingOK S n) (extra : ℕ → State → List MPoly)
    (near : ℕ → State → Dict ℚ → List (Dict ℚ)) (solve)
    (hnear : ∀ k st d, (∀ v < n, (d.lookup v).isSome) → ∀ e ∈ near k st d, ∀ v < n, (e.lookup v).isSome)
    (C : Core ℚ) (hCC : C = cadCore S E n numSps extra (fun k st d => .ok (near k st d)) solve)
    (hC : SolverOpt C) (hC' : SolverComplete C) (hyps : List Atom) (main : Atom)
    (hops : ∀ a ∈ hyps, a.op ≠ .eq) (hfresh : ∀ a ∈ main :: hyps, Fresh a)
    (hpoly : ∀ a ∈ main :: hyps, Normal a.poly ∧ ∀ w ∈ a.poly.vars, w < n) (hv : ∀ a ∈ main :: hyps, ∀ v ∈ a.vars, v < n)
    (hextra : ∀ k st, ∀ p ∈ extra k st, Normal p ∧ ∀ w ∈ p.vars, w < n)
    (hlev : ∀ k (st : State), st.goal.main = main → (st.goal.hyps ++ st.hyps).Perm hyps →
      LevelsOK E n (extra k st ++ main.poly :: st.goal.hyps.map Atom.poly) numSps st.hyps)
    (a₀ : Atom) (ha₀ : a₀ ∈ hyps) (htrue : ∀ ρ : ℕ → ℚ, ¬ main.holds ρ → a₀.holds ρ)
    (fuel : ℕ) (hfuel : hyps.length + 1 ≤ fuel) (ids : List ℕ) :
    ((∃ ret st', check C fuel 0 ⟨hyps, ⟨main, [], []⟩, ids⟩ = .ok (ret, st')) ∨
      check C fuel 0 ⟨hyps, ⟨main, [], []⟩, ids⟩ = .error .counterexample) ∧
    ((∀ ρ : ℕ → ℝ, (∀ a ∈ hyps, a.holds ρ) → main.holds ρ) →
      ∃ ret st', check C fuel 0 ⟨hyps, ⟨main, [], []⟩, ids⟩ = .ok (ret, st')) ∧
    ((interior {ρ : ℕ → ℝ | (∀ a ∈ hyps, a.holds ρ) ∧ ¬ main.holds ρ}).Nonempty →
      check C fuel 0 ⟨hyps, ⟨main, [], []⟩, ids⟩ = .error .counterexample) := by
  have hv' : ∀ a ∈ main :: hyps, ∀ v ∈ a.vars ++ a.poly.vars, v < n := by
    intro a ha v hva
    rcases List.mem_append.1 hva with hva | hva
    · exact hv a ha v hva
    · exact (hpoly a ha).2 v hva
  have hdich : (∃ ret st', check C fuel 0 ⟨hyps, ⟨main, [], []⟩, ids⟩ = .ok (ret, st')) ∨
      check C fuel 0 ⟨hyps, ⟨main, [], []⟩, ids⟩ = .error .counterexample := by
    have := C122_core C (by subst hCC; exact hS) hC hC' main a₀ (by
      subst hCC
      exact cad_points S E n numSps hnpos extra near solve hnear main a₀ (by
        intro a ha
        simp only [List.mem_cons, List.not_mem_nil, or_false] at ha
        rcases ha with rfl | rfl
        · exact hv' _ (by simp)
        · exact hv' _ (by simp [ha₀])) htrue) fuel 0 ⟨hyps, ⟨main, [], []⟩, ids⟩ hfuel rfl ha₀
    rcases this with ⟨ret, st', h, -⟩ | h
    · exact Or.inl ⟨ret, st', h⟩
    · exact Or.inr h
  refine ⟨hdich, fun hval => hdich.resolve_right fun h => ?_, fun ⟨ρ, hρ⟩ => hdich.resolve_left fun ⟨ret, st', h⟩ => ?_⟩
  · subst hCC
    obtain ⟨ρ, h1, h2⟩ := C105_cad_partial S E n numSps hnpos hS hR extra _ solve (by
      intro k st d ds hd hds e he
      cases hds
      exact hnear k st d hd e he) (by simp) hyps main hv' (by
      rw [List.countP_eq_zero.2]
      · exact Nat.zero_le _
      · intro a ha
        simpa using hops a ha) fuel ids h
    have hcast : ∀ a : Atom, a.holds (fun i => (ρ i : ℝ)) ↔ a.holds ρ := by
      intro a
      unfold Atom.holds
      rw [eval_ratCast, rel_ratCast]
    exact h2 ((hcast main).1 (hval _ fun a ha => (hcast a).2 (h1 a ha)))
  · subst hCC
    obtain ⟨ps, h1, -, h2, -⟩ := C72_generic_partial S E hE hu hel n numSps hn extra _ solve hyps main hops hfresh hpoly hextra
      hlev fuel ids ret st' h
    have hsub : {ρ : ℕ → ℝ | (∀ a ∈ hyps, a.holds ρ) ∧ ¬ main.holds ρ} ⊆ {ρ : ℕ → ℝ | (∀ a ∈ ps, a.holds ρ) ∧ ¬ main.holds ρ} :=
      fun σ hσ => ⟨fun a ha => hσ.1 a (h1.subset (by simp [ha])), hσ.2⟩
    have := interior_mono hsub hρ
    rw [h2] at this
    exact this

/-- The sequent `x0 > 0, x0^2 + 1 > 0 ⊢ x0 + 1 >= 0` meets the assumptions of C122_decides on the sequent. -/
example : ∃ h₁ a₀ main : Atom, mkAtom (MPoly.var 0) ">" (MPoly.const 0) = .ok h₁ ∧
    mkAtom [([2], 1), ([], 1)] ">" (MPoly.const 0) = .ok a₀ ∧ mkAtom [([1], 1), ([], 1)] ">=" (MPoly.const 0) = .ok main ∧
    StrictSequentN 1 [h₁, a₀] main ∧ (∀ a ∈ [main, h₁, a₀], ∀ v ∈ a.vars, v < 1) ∧
    ∀ ρ : ℕ → ℚ, ¬ main.holds ρ → a₀.holds ρ := by
  refine ⟨⟨[([1], 1)], .gt, [0]⟩, ⟨[([], 1), ([2], 1)], .gt, [0]⟩, ⟨[([], 1), ([1], 1)], .ge, [0]⟩, by decide +kernel,
    by decide +kernel, by decide +kernel, ⟨by decide, by decide, ?_, ?_⟩, by decide, ?_⟩
  · unfold Fresh; decide +kernel
  · have h : ∀ p ∈ [[([], (1 : ℚ)), ([1], 1)], [([1], 1)], [([], 1), ([2], 1)]], Normal p := by
      intro p hp
      simp only [List.mem_cons, List.not_mem_nil, or_false] at hp
      refine ⟨?_, ?_, ?_⟩
      · unfold NoZeroTerms; rcases hp with rfl | rfl | rfl <;> decide +kernel
      · unfold Mono.Stripped; rcases hp with rfl | rfl | rfl <;> decide +kernel
      · rcases hp with rfl | rfl | rfl <;> decide +kernel
    intro a ha
    simp only [List.mem_cons, List.not_mem_nil, or_false] at ha
    rcases ha with rfl | rfl | rfl
    · exact ⟨h _ (by simp), by decide +kernel⟩
    · exact ⟨h _ (by simp), by decide +kernel⟩
    · exact ⟨h _ (by simp), by decide +kernel⟩
  · intro ρ _
    simp only [Atom.holds, rel, MPoly.eval, Mono.evalFrom, List.map_cons, List.map_nil, List.sum_cons, List.sum_nil]
    simp
    nlinarith [sq_nonneg (ρ 0)]

end Verif.Grf
