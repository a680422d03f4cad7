import Verif.Grf.PropsReturned
import Verif.Grf.PropsLoopExact
import Verif.Grf.PropsCex
import Verif.Grf.PropsMulti

/-!
# C117: valid sequents that need all their hypotheses

The loop of `check` never promotes the last remaining hypothesis: a set of true hypotheses is only recorded if it is
not empty (`grf.sage:876`), and if it contains all hypotheses a counterexample is reported (`grf.sage:874`).
-/

set_option linter.unusedSectionVars false

namespace Verif.Grf

variable {K : Type} [Field K] [LinearOrder K] [IsStrictOrderedRing K]

theorem round_last {C : Core K} (hC : SolverOpt C) {n : ℕ} {st st' : State} {bads : List (List ℕ)}
    (h : round C n st = .ok (bads, some st')) : st'.hyps ≠ [] := by
  obtain ⟨j, hj⟩ := round_some h
  have hlen := promote_hyps hj
  suffices 2 ≤ st.hyps.length by
    intro h0; rw [h0] at hlen; simp at hlen; omega
  unfold round at h
  simp only [bind, Except.bind] at h
  split at h
  · cases h
  · next ds hds =>
    split at h
    · cases h
    · next r hr =>
      split at h
      · cases h
      · split at h
        · cases h
        · next cand hcand =>
          split at h
          · cases h
          · next i rest hsort =>
            split at h
            · cases h
            · cases h
              obtain ⟨hnd, hlt, hhit, hmin⟩ := hC _ _ _ _ (goodHyps_solve hcand)
              have hi : i ∈ cand := by
                have : i ∈ sortCand st cand := by rw [hsort]; simp
                exact List.mem_mergeSort.1 this
              have hr2 : r.2 ≠ [] := by
                intro h0
                have h1 := hmin [] (by simp) (by simp) (by rw [h0]; simp)
                have h2 : (weightHyps st).getD i 0 ≤ (cand.map fun i => (weightHyps st).getD i 0).sum :=
                  List.single_le_sum (by simp) _ (List.mem_map.2 ⟨i, hi, rfl⟩)
                have h3 : 0 < (weightHyps st).getD i 0 := by
                  rw [weight_getD st (hlt i hi)]; exact hypWeight_pos _ _
                rw [List.map_nil, List.sum_nil] at h1
                omega
              obtain ⟨b, hb⟩ := List.exists_mem_of_ne_nil _ hr2
              obtain ⟨x, hx⟩ := List.exists_mem_of_ne_nil _ (allBads_nonempty C n st ds r.1 r.2 hr b hb)
              obtain ⟨d₀, _, near, _, d, _, _, htrue⟩ := allBads_from C n st ds r.1 r.2 hr b hb
              obtain ⟨m, a, h1, h2, _⟩ := (trueHyps_spec C.toSage d st.hyps 0 b htrue x).1 hx
              obtain ⟨hm, _⟩ := List.getElem?_eq_some_iff.1 h2
              obtain ⟨y, hy, hyb⟩ := hhit b hb
              have hy' := hlt y hy
              have : y ≠ m := by rintro rfl; apply hyb; rw [← Nat.zero_add y, ← h1]; exact hx
              omega

/-- The last hypothesis is never promoted: if there are hypotheses at the start, one is left at the end. -/
theorem C117_last (C : Core K) (hC : SolverOpt C) (fuel n : ℕ) (st st' : State) (ret : List (List ℕ))
    (hst : st.hyps ≠ []) (h : check C fuel n st = .ok (ret, st')) : st'.hyps ≠ [] := by
  obtain ⟨k, _, hk, -⟩ := check_rounds C fuel n st st' ret h
  clear h
  induction hk with
  | refl => exact hst
  | step n k st st₁ st' bads h hs ih => exact ih (round_last hC h)

/-- **C117** is violated: with hypotheses that are all needed, a sequent is never reported as proved, whatever the
sample points, the local search, the order of the variables and the number of rounds. It is assumed that the functions
of Sage are right, that the solver returns optimal solutions, and that the core is sound. -/
theorem C117_violated (C : Core K) (hS : SageOK C.toSage) (hC : SolverOpt C)
    (hcore : ∀ n (st : State) ds, C.samples n st = .ok ds → (∀ d ∈ ds, st.goal.evalOnDict C.toSage d = .ok true) →
      ∀ ρ : ℕ → K, (∀ a ∈ st.goal.hyps, a.holds ρ) → st.goal.main.holds ρ)
    (hyps : List Atom) (main : Atom) (hne : hyps ≠ [])
    (hneed : ∀ i < hyps.length, ∃ ρ : ℕ → K, (∀ a ∈ hyps.eraseIdx i, a.holds ρ) ∧ ¬ main.holds ρ)
    (fuel : ℕ) (ids : List ℕ) (out : List (List ℕ) × State) :
    check C fuel 0 ⟨hyps, ⟨main, [], []⟩, ids⟩ ≠ .ok out := by
  intro h
  obtain ⟨ret, st'⟩ := out
  obtain ⟨a, ha⟩ := List.exists_mem_of_ne_nil _ (C117_last C hC fuel 0 _ st' ret hne h)
  obtain ⟨ps, hp, hps, _⟩ := C34_sound C hS hyps main fuel ret st' ids h fun n ds => hcore n st' ds
  have ham : a ∈ hyps := hp.subset (by simp [ha])
  obtain ⟨i, hi, rfl⟩ := List.mem_iff_getElem.1 ham
  obtain ⟨ρ, h1, h2⟩ := hneed i hi
  refine h2 (hps ρ fun b hb => h1 b ?_)
  have e1 : (hyps[i] :: hyps.eraseIdx i).Perm hyps := List.getElem_cons_eraseIdx_perm hi
  have e2 : (hyps[i] :: (ps ++ st'.hyps.erase hyps[i])).Perm hyps := by
    refine List.Perm.trans ?_ hp
    refine (List.perm_middle.symm).trans ?_
    exact List.Perm.append_left ps (List.perm_cons_erase ha).symm
  have e3 := (List.Perm.cons_inv (e2.trans e1.symm))
  exact e3.subset (by simp [hb])

/-- How the loop can end if the sampling and the local search do not raise and their points give values to some variable. -/
theorem check_outcomes (C : Core ℚ) (hS : SageOK C.toSage) (hC : SolverOpt C) (hC' : SolverComplete C)
    (hsam : ∀ k st, ∃ ds, C.samples k st = .ok ds ∧ ∀ d ∈ ds, d ≠ [] ∧ ∃ near, C.more k st d = .ok near ∧ ∀ e ∈ near, e ≠ []) :
    ∀ (fuel k : ℕ) (st : State), st.hyps.length + 1 ≤ fuel →
      (∃ out, check C fuel k st = .ok out) ∨ check C fuel k st = .error .counterexample ∨
        check C fuel k st = .error .indexError := by
  have hround : ∀ k st, (∃ out, round C k st = .ok out) ∨ round C k st = .error .counterexample ∨
      round C k st = .error .indexError := by
    intro k st
    obtain ⟨ds, hds, hd⟩ := hsam k st
    let g : Dict ℚ → Bool := fun d => match st.goal.evalOnDict C.toSage d with | .ok b => b | .error _ => false
    let f : Dict ℚ → Atom → Option Bool := fun d a => match a.evalOnDict C.toSage d with | .ok b => b | .error _ => none
    have hg : ∀ d : Dict ℚ, d ≠ [] → st.goal.evalOnDict C.toSage d = .ok (g d) := by
      intro d hne
      obtain ⟨b, hb⟩ := goal_noerr C.toSage hne st.goal
      simp only [g, hb]
    have hf : ∀ (d : Dict ℚ) (a : Atom), d ≠ [] → a.evalOnDict C.toSage d = .ok (f d a) := by
      intro d a hne
      obtain ⟨b, hb⟩ := atom_noerr C.toSage hne a
      simp only [f, hb]
    by_cases h0 : st.hyps = []
    · obtain ⟨h1, h2⟩ := C36_none C k st h0 ds hds g fun d h => hg d (hd d h).1
      by_cases hall : ∀ d ∈ ds, g d = true
      · exact Or.inl ⟨_, h1 hall⟩
      · push Not at hall
        obtain ⟨d, hd, hgd⟩ := hall
        exact Or.inr (Or.inr (h2 ⟨d, hd, by simpa using hgd⟩))
    · let near : Dict ℚ → List (Dict ℚ) := fun d => match C.more k st d with | .ok l => l | .error _ => []
      have hnear : ∀ d ∈ ds, C.more k st d = .ok (near d) := by
        intro d h
        obtain ⟨l, hl, _⟩ := (hd d h).2
        simp only [near, hl]
      have hpt : ∀ d₀ ∈ ds, ∀ d ∈ d₀ :: near d₀, d ≠ [] := by
        intro d₀ h d hd'
        rcases List.mem_cons.1 hd' with rfl | hd'
        · exact (hd _ h).1
        · obtain ⟨l, hl, hl'⟩ := (hd d₀ h).2
          have := hnear d₀ h
          rw [hl] at this
          cases this
          exact hl' d hd'
      obtain ⟨h1, h2, h3⟩ := C36_exact C hS hC hC' k st h0 ds hds near hnear g f
        (fun d₀ h d h' => hg d (hpt d₀ h d h')) (fun d₀ h d h' a _ => hf d a (hpt d₀ h d h'))
        (fun e => ∃ d₀ ∈ ds, g d₀ = false ∧ e ∈ d₀ :: near d₀) fun _ => Iff.rfl
      by_cases hall : ∀ d ∈ ds, g d = true
      · exact Or.inl ⟨_, h1 hall⟩
      by_cases hcex : ∃ e, (∃ d₀ ∈ ds, g d₀ = false ∧ e ∈ d₀ :: near d₀) ∧ g e = false ∧ ∀ a ∈ st.hyps, f e a = some true
      · exact Or.inr (Or.inl (h2 hcex))
      obtain ⟨h4, h5⟩ := h3 (by
        intro e he
        by_contra hh
        push Not at hh
        exact hcex ⟨e, he, by simpa using hh.1, hh.2⟩)
      by_cases hsome : ∃ e, (∃ d₀ ∈ ds, g d₀ = false ∧ e ∈ d₀ :: near d₀) ∧ g e = false ∧ ∃ a ∈ st.hyps, f e a = some true
      · obtain ⟨_, _, h, _⟩ := h4 hsome
        exact Or.inl ⟨_, h⟩
      · refine Or.inr (Or.inr (h5 ?_ ?_))
        · push Not at hall
          obtain ⟨d, hd, hgd⟩ := hall
          exact ⟨d, hd, by simpa using hgd⟩
        · intro e he
          by_contra hh
          push Not at hh
          exact hsome ⟨e, he, by simpa using hh.1, hh.2⟩
  intro fuel
  induction fuel with
  | zero => intro k st h; omega
  | succ fuel ih =>
    intro k st hlen
    unfold check
    simp only [bind, Except.bind]
    rcases hround k st with ⟨⟨bads, o⟩, h⟩ | h | h
    · rw [h]
      cases o with
      | none => exact Or.inl ⟨_, rfl⟩
      | some st₁ =>
        simp only
        obtain ⟨i, hi⟩ := round_some h
        have := promote_hyps hi
        rcases ih (k + 1) st₁ (by omega) with ⟨out, h'⟩ | h' | h'
        · rw [h']; exact Or.inl ⟨_, rfl⟩
        · rw [h']; exact Or.inr (Or.inl rfl)
        · rw [h']; exact Or.inr (Or.inr rfl)
    · rw [h]; exact Or.inr (Or.inl rfl)
    · rw [h]; exact Or.inr (Or.inr rfl)

/-- What holds of **C117**, for hypotheses `<`, `>`, `!=` and a goal `<=`, `>=`, `=` in any number of variables, with the
assumptions of C72_partial, right functions of Sage, a solver that finds optimal solutions, and a local search that does
not raise: the sequent is reported as proved and is valid over the reals, or a counterexample is reported and the sequent
is false at a rational point, or `IndexError` is raised. In the first case a hypothesis is left over, if there was one. -/
theorem C117_partial (S : Sage ℚ) (E : CadEnv) (hE : RootsOK ℝ E) (hu : UniformOK E) (hel : ElimOK E) (n numSps : ℕ)
    (hnpos : 0 < n) (hn : 1 ≤ numSps) (hS : SageOK S) (hR : RingOK S n) (extra : ℕ → State → List MPoly)
    (near : ℕ → State → Dict ℚ → List (Dict ℚ)) (solve)
    (hnear : ∀ k st d, (∀ v < n, (d.lookup v).isSome) → ∀ e ∈ near k st d, ∀ v < n, (e.lookup v).isSome)
    (C : Core ℚ) (hCC : C = cadCore S E n numSps extra (fun k st d => .ok (near k st d)) solve)
    (hC : SolverOpt C) (hC' : SolverComplete C) (hyps : List Atom) (main : Atom)
    (hseq : StrictSequentN n hyps main) (hv : ∀ a ∈ main :: hyps, ∀ v ∈ a.vars, v < n)
    (hextra : ∀ k st, ∀ p ∈ extra k st, Normal p ∧ ∀ w ∈ p.vars, w < n)
    (hlev : ∀ k (st : State), st.goal.main = main → (st.goal.hyps ++ st.hyps).Perm hyps →
      LevelsOK E n (extra k st ++ main.poly :: st.goal.hyps.map Atom.poly) numSps st.hyps)
    (fuel : ℕ) (hfuel : hyps.length + 1 ≤ fuel) (ids : List ℕ) :
    (∃ ret st', check C fuel 0 ⟨hyps, ⟨main, [], []⟩, ids⟩ = .ok (ret, st') ∧ (hyps ≠ [] → st'.hyps ≠ []) ∧
      (st'.goal.hyps ++ st'.hyps).Perm hyps ∧ ∀ ρ : ℕ → ℝ, (∀ a ∈ st'.goal.hyps, a.holds ρ) → main.holds ρ) ∨
    (check C fuel 0 ⟨hyps, ⟨main, [], []⟩, ids⟩ = .error .counterexample ∧
      ∃ ρ : ℕ → ℚ, (∀ a ∈ hyps, a.holds ρ) ∧ ¬ main.holds ρ) ∨
    check C fuel 0 ⟨hyps, ⟨main, [], []⟩, ids⟩ = .error .indexError := by
  have hsam : ∀ k st, ∃ ds, C.samples k st = .ok ds ∧
      ∀ d ∈ ds, d ≠ [] ∧ ∃ near, C.more k st d = .ok near ∧ ∀ e ∈ near, e ≠ [] := by
    intro k st
    subst hCC
    obtain ⟨ds, hds⟩ := (C59_partial S E (extra k st ++ st.goal.main.poly :: st.goal.hyps.map Atom.poly) numSps
      st.hyps).2 n st.goal hnpos
    have htot : ∀ d ∈ ds, ∀ v < n, (d.lookup v).isSome := fun d hd v hvn =>
      ((C58_assignments S E n _ _ _ _ ds hds d hd).2.2 v).2 hvn
    have hnn : ∀ d : Dict ℚ, (∀ v < n, (d.lookup v).isSome) → d ≠ [] := by
      rintro d h rfl
      simpa using h 0 hnpos
    exact ⟨ds, hds, fun d hd => ⟨hnn d (htot d hd), near k st d, rfl, fun e he => hnn e (hnear k st d (htot d hd) e he)⟩⟩
  have hS' : SageOK C.toSage := by subst hCC; exact hS
  rcases check_outcomes C hS' hC hC' hsam fuel 0 ⟨hyps, ⟨main, [], []⟩, ids⟩ hfuel with ⟨⟨ret, st'⟩, h⟩ | h | h
  · have hlast := fun hne => C117_last C hC fuel 0 _ st' ret hne h
    refine Or.inl ⟨ret, st', h, hlast, ?_⟩
    subst hCC
    obtain ⟨ps, h1, rfl, h2⟩ := C72_partial S E hE hu hel n numSps hn extra _ solve hyps main hseq hextra hlev fuel ids ret st' h
    exact ⟨h1, h2⟩
  · refine Or.inr (Or.inl ⟨h, ?_⟩)
    subst hCC
    refine C105_cad_partial S E n numSps hnpos hS hR extra _ solve ?_ (by simp) hyps main ?_ ?_ fuel ids h
    · intro k st d ds hd hds e he
      cases hds
      exact hnear k st d hd e he
    · intro a ha v hva
      rcases List.mem_append.1 hva with hva | hva
      · exact hv a ha v hva
      · exact (hseq.poly a ha).2 v hva
    · rw [List.countP_eq_zero.2]
      · exact Nat.zero_le _
      · intro a ha
        rcases hseq.hypOps a ha with h | h | h <;> rw [h] <;> decide
  · exact Or.inr (Or.inr h)

/-- **C117** is violated by the program: under the assumptions of C117_partial, a valid sequent with hypotheses that are all
needed always ends with `IndexError`. -/
theorem C117_cad_violated (S : Sage ℚ) (E : CadEnv) (hE : RootsOK ℝ E) (hu : UniformOK E) (hel : ElimOK E) (n numSps : ℕ)
    (hnpos : 0 < n) (hn : 1 ≤ numSps) (hS : SageOK S) (hR : RingOK S n) (extra : ℕ → State → List MPoly)
    (near : ℕ → State → Dict ℚ → List (Dict ℚ)) (solve)
    (hnear : ∀ k st d, (∀ v < n, (d.lookup v).isSome) → ∀ e ∈ near k st d, ∀ v < n, (e.lookup v).isSome)
    (C : Core ℚ) (hCC : C = cadCore S E n numSps extra (fun k st d => .ok (near k st d)) solve)
    (hC : SolverOpt C) (hC' : SolverComplete C) (hyps : List Atom) (main : Atom)
    (hseq : StrictSequentN n hyps main) (hv : ∀ a ∈ main :: hyps, ∀ v ∈ a.vars, v < n)
    (hextra : ∀ k st, ∀ p ∈ extra k st, Normal p ∧ ∀ w ∈ p.vars, w < n)
    (hlev : ∀ k (st : State), st.goal.main = main → (st.goal.hyps ++ st.hyps).Perm hyps →
      LevelsOK E n (extra k st ++ main.poly :: st.goal.hyps.map Atom.poly) numSps st.hyps)
    (hne : hyps ≠ []) (hvalid : ∀ ρ : ℕ → ℝ, (∀ a ∈ hyps, a.holds ρ) → main.holds ρ)
    (hneed : ∀ i < hyps.length, ∃ ρ : ℕ → ℝ, (∀ a ∈ hyps.eraseIdx i, a.holds ρ) ∧ ¬ main.holds ρ)
    (fuel : ℕ) (hfuel : hyps.length + 1 ≤ fuel) (ids : List ℕ) :
    check C fuel 0 ⟨hyps, ⟨main, [], []⟩, ids⟩ = .error .indexError := by
  rcases C117_partial S E hE hu hel n numSps hnpos hn hS hR extra near solve hnear C hCC hC hC' hyps main hseq hv hextra hlev
    fuel hfuel ids with ⟨ret, st', _, h1, h2, h3⟩ | ⟨_, ρ, h1, h2⟩ | h
  · exfalso
    obtain ⟨a, ha⟩ := List.exists_mem_of_ne_nil _ (h1 hne)
    have ham : a ∈ hyps := h2.subset (by simp [ha])
    obtain ⟨i, hi, rfl⟩ := List.mem_iff_getElem.1 ham
    obtain ⟨ρ, h4, h5⟩ := hneed i hi
    refine h5 (h3 ρ fun b hb => h4 b ?_)
    have e1 : (hyps[i] :: hyps.eraseIdx i).Perm hyps := List.getElem_cons_eraseIdx_perm hi
    have e2 : (hyps[i] :: (st'.goal.hyps ++ st'.hyps.erase hyps[i])).Perm hyps := by
      refine List.Perm.trans ?_ h2
      refine (List.perm_middle.symm).trans ?_
      exact List.Perm.append_left _ (List.perm_cons_erase ha).symm
    exact (List.Perm.cons_inv (e2.trans e1.symm)).subset (by simp [hb])
  · exfalso
    have hcast : ∀ a : Atom, a.holds (fun i => (ρ i : ℝ)) ↔ a.holds ρ := by
      intro a
      unfold Atom.holds
      rw [eval_ratCast, rel_ratCast]
    exact h2 ((hcast _).1 (hvalid _ fun a ha => (hcast a).2 (h1 a ha)))
  · exact h

/-- Such a sequent is `x0 > 0 ⊢ x0 + 1 >= 0`: it is not proved, whatever the right functions of Sage, the optimal solver, the
random choices and the number of sample points. -/
theorem C117_example (S : Sage ℚ) (E : CadEnv) (hE : RootsOK ℝ E) (hu : UniformOK E) (hel : ElimOK E) (numSps : ℕ)
    (hn : 1 ≤ numSps) (hS : SageOK S) (hR : RingOK S 1) (near : ℕ → State → Dict ℚ → List (Dict ℚ)) (solve)
    (hnear : ∀ k st d, (d.lookup 0).isSome → ∀ e ∈ near k st d, (e.lookup 0).isSome)
    (hC : SolverOpt (cadCore S E 1 numSps (fun _ _ => []) (fun k st d => .ok (near k st d)) solve))
    (hC' : SolverComplete (cadCore S E 1 numSps (fun _ _ => []) (fun k st d => .ok (near k st d)) solve)) :
    ∃ hyp main : Atom, mkAtom (MPoly.var 0) ">" (MPoly.const 0) = .ok hyp ∧
      mkAtom [([1], 1), ([], 1)] ">=" (MPoly.const 0) = .ok main ∧
      (∀ ρ : ℕ → ℝ, hyp.holds ρ → main.holds ρ) ∧
      ∀ fuel ≥ 2, check (cadCore S E 1 numSps (fun _ _ => []) (fun k st d => .ok (near k st d)) solve) fuel 0
        ⟨[hyp], ⟨main, [], []⟩, [0]⟩ = .error .indexError := by
  have hval : ∀ {K : Type} [Field K] [LinearOrder K] (z : K), val [([], 1), ([1], 1)] z = z + 1 := by
    intro K _ _ z; simp [val, MPoly.eval, Mono.evalFrom]; ring
  have hval' : ∀ {K : Type} [Field K] [LinearOrder K] (z : K), val [([1], 1)] z = z := by
    intro K _ _ z; simp [val, MPoly.eval, Mono.evalFrom]
  have hvalid : ∀ ρ : ℕ → ℝ, (⟨[([1], 1)], .gt, [0]⟩ : Atom).holds ρ → (⟨[([], 1), ([1], 1)], .ge, [0]⟩ : Atom).holds ρ := by
    intro ρ h
    simp [Atom.holds, rel, MPoly.eval, Mono.evalFrom] at h ⊢
    linarith
  refine ⟨⟨[([1], 1)], .gt, [0]⟩, ⟨[([], 1), ([1], 1)], .ge, [0]⟩, by decide +kernel, by decide +kernel, hvalid, ?_⟩
  intro fuel hfuel
  refine C117_cad_violated S E hE hu hel 1 numSps (by decide) hn hS hR (fun _ _ => []) near solve ?_ _ rfl hC hC' _ _ ?_ ?_ ?_
    ?_ (by simp) (by simpa using hvalid) ?_ fuel (by simpa using hfuel) [0]
  · intro k st d hd e he v hv
    obtain rfl : v = 0 := by omega
    exact hnear k st d (hd 0 (by decide)) e he
  · refine ⟨by decide, by simp, ?_, ?_⟩
    · unfold Fresh; decide +kernel
    · have h1 : Normal [([1], 1)] := by
        refine ⟨?_, ?_, by decide +kernel⟩
        · unfold NoZeroTerms; decide +kernel
        · unfold Mono.Stripped; decide +kernel
      have h2 : Normal [([], 1), ([1], 1)] := by
        refine ⟨?_, ?_, by decide +kernel⟩
        · unfold NoZeroTerms; decide +kernel
        · unfold Mono.Stripped; decide +kernel
      intro h hh
      simp only [List.mem_cons, List.not_mem_nil, or_false] at hh
      rcases hh with rfl | rfl
      · exact ⟨h2, by decide +kernel⟩
      · exact ⟨h1, by decide +kernel⟩
  · decide
  · simp
  · intro k st _ hp
    refine ⟨trivial, ?_⟩
    intro base sets hb
    have hb' : [filterProjSet ([] ++ [([], 1), ([1], 1)] :: st.goal.hyps.map Atom.poly)] = base :: sets := hb
    cases hb'
    refine ⟨Or.inr ?_, fun x _ => trivial⟩
    intro p hp' _ z hz
    obtain ⟨r, hr, _, rfl⟩ := mem_filterProjSet hp'
    have hr' : r = [([], 1), ([1], 1)] ∨ r = [([1], 1)] := by
      simp only [List.nil_append, List.mem_cons, List.mem_map] at hr
      rcases hr with rfl | ⟨a, ha, rfl⟩
      · exact Or.inl rfl
      · have := hp.subset (List.mem_append.2 (Or.inl ha))
        rw [List.mem_singleton] at this
        subst this
        exact Or.inr rfl
    rcases hr' with rfl | rfl
    · rw [show purePolyBase [([], 1), ([1], 1)] = [([], 1), ([1], 1)] by decide +kernel, hval] at hz
      exact ⟨-1, by push_cast; linarith⟩
    · rw [show purePolyBase [([1], 1)] = [([1], 1)] by decide +kernel, hval'] at hz
      exact ⟨0, by push_cast; linarith⟩
  · intro i hi
    obtain rfl : i = 0 := by simpa using hi
    refine ⟨fun _ => -2, by simp, ?_⟩
    simp [Atom.holds, rel, MPoly.eval, Mono.evalFrom]

/-- The assumptions can be met. -/
example : ∃ (S : Sage ℚ) (E : CadEnv) (near : ℕ → State → Dict ℚ → List (Dict ℚ))
    (solve : ℕ → List (List ℕ) → List ℕ → Option (List ℕ)),
    SageOK S ∧ RingOK S 1 ∧ RootsOK ℝ E ∧ UniformOK E ∧ ElimOK E ∧
    (∀ k st d, (d.lookup 0).isSome → ∀ e ∈ near k st d, (e.lookup 0).isSome) ∧
    SolverOpt (cadCore S E 1 1 (fun _ _ => []) (fun k st d => .ok (near k st d)) solve) ∧
    SolverComplete (cadCore S E 1 1 (fun _ _ => []) (fun k st d => .ok (near k st d)) solve) := by
  obtain ⟨E, h1, h2, h3⟩ := C72_assumptions_met
  refine ⟨testSage, E, fun _ _ d => [d], bruteSolve, testSage_ok, ⟨?_, ?_⟩, h1, h2, h3.elimOK, ?_,
    fun _ _ _ _ h => bruteSolve_opt h, (bruteSolve_ok [] []).2⟩
  · intro p B hp _ v hv
    change v ∈ MPoly.vars (if p ∈ B then [] else p) at hv
    split at hv
    · simp [MPoly.vars] at hv
    · exact hp v hv
  · intro ps h b hb
    exact h b hb
  · intro k st d hd e he
    rw [List.mem_singleton] at he
    subst he
    exact hd

open Classical in
/-- A core that finds a point at which the goal is false whenever there is one, and raises when it cannot tell. -/
noncomputable def oracleCore : Core ℚ :=
  { testSage with
    samples := fun _ st =>
      if h : ∃ d, st.goal.evalOnDict testSage d = .ok false then .ok [h.choose]
      else if ∀ ρ : ℕ → ℚ, (∀ a ∈ st.goal.hyps, a.holds ρ) → st.goal.main.holds ρ then .ok [] else .error .indexError
    more := fun _ _ _ => .ok [], solve := bruteSolve }

/-- The hypotheses of `C117_violated` are met by the sequent `x0 > 0, x1 > 0 ⊢ x0 + x1 > 0`. -/
example : let hyps : List Atom := [⟨MPoly.var 0, .gt, [0]⟩, ⟨MPoly.var 1, .gt, [1]⟩]
    let main : Atom := ⟨(MPoly.var 0).add (MPoly.var 1), .gt, [0, 1]⟩
    SageOK oracleCore.toSage ∧ SolverOpt oracleCore ∧
    (∀ n (st : State) ds, oracleCore.samples n st = .ok ds →
      (∀ d ∈ ds, st.goal.evalOnDict oracleCore.toSage d = .ok true) →
      ∀ ρ : ℕ → ℚ, (∀ a ∈ st.goal.hyps, a.holds ρ) → st.goal.main.holds ρ) ∧
    (∀ ρ : ℕ → ℚ, (∀ a ∈ hyps, a.holds ρ) → main.holds ρ) ∧
    ∀ i < hyps.length, ∃ ρ : ℕ → ℚ, (∀ a ∈ hyps.eraseIdx i, a.holds ρ) ∧ ¬ main.holds ρ := by
  refine ⟨testSage_ok, fun _ _ _ _ h => bruteSolve_opt h, ?_, ?_, ?_⟩
  · intro n st ds hds ht
    simp only [oracleCore] at hds
    split at hds
    · next h =>
      cases hds
      have := ht _ (List.mem_singleton.2 rfl)
      rw [show oracleCore.toSage = testSage from rfl, h.choose_spec] at this
      cases this
    · split at hds
      · next h => exact h
      · cases hds
  · intro ρ h
    have h0 := h _ (List.mem_cons_self)
    have h1 := h ⟨MPoly.var 1, .gt, [1]⟩ (by simp)
    simp only [Atom.holds, rel, MPoly.eval_add] at h0 h1 ⊢
    exact add_pos h0 h1
  · intro i hi
    have : i = 0 ∨ i = 1 := by simp at hi; omega
    rcases this with rfl | rfl
    · refine ⟨fun i => if i = 0 then -2 else 1, ?_, ?_⟩
      · simp [Atom.holds, rel, MPoly.eval, MPoly.var, Mono.evalFrom]
      · simp only [Atom.holds, rel, MPoly.eval_add]
        simp [MPoly.eval, MPoly.var, Mono.evalFrom]
    · refine ⟨fun i => if i = 0 then 1 else -2, ?_, ?_⟩
      · simp [Atom.holds, rel, MPoly.eval, MPoly.var, Mono.evalFrom]
      · simp only [Atom.holds, rel, MPoly.eval_add]
        simp [MPoly.eval, MPoly.var, Mono.evalFrom]

end Verif.Grf
