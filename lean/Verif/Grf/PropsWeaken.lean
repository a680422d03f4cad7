import Verif.Grf.PropsNames

/-!
# C119: further hypotheses

A hypothesis that is not needed can have a smaller weight than one that is; it is then promoted first, and after that
no set of true hypotheses is recorded any more (`grf.sage:876`, `grf.sage:1024-1027`).
-/

set_option linter.unusedSectionVars false

namespace Verif.Grf

theorem round_cand {K : Type} [Field K] [LinearOrder K] [IsStrictOrderedRing K] {C : Core K} {n : ℕ} {st st' : State}
    {bads : List (List ℕ)} (h : round C n st = .ok (bads, some st')) :
    ∃ ds cand i, C.samples n st = .ok ds ∧ allBads C n st ds = .ok (false, bads) ∧ goodHyps C st bads = .ok cand ∧ i ∈ cand ∧
      st.promote C.toSage i = .ok st' := by
  unfold round at h
  simp only [bind, Except.bind] at h
  split at h
  · cases h
  · next ds hds =>
    split at h
    · cases h
    · next r hr =>
      split at h
      · cases h
      · next hr1 =>
        split at h
        · cases h
        · next cand hcand =>
          split at h
          · cases h
          · next i rest hsort =>
            split at h
            · cases h
            · next st₁ hst =>
              cases h
              refine ⟨ds, cand, i, hds, ?_, hcand, ?_, hst⟩
              · rw [hr]
                obtain ⟨r1, r2⟩ := r
                simp only [Bool.not_eq_true] at hr1
                simp only [hr1]
              · have : i ∈ sortCand st cand := by rw [hsort]; simp
                exact List.mem_mergeSort.1 this

/-- A round that promotes a hypothesis has met a point at which the goal is false and a hypothesis is true. -/
theorem round_some_true {K : Type} [Field K] [LinearOrder K] [IsStrictOrderedRing K] {C : Core K} (hC : SolverOpt C) {n : ℕ}
    {st st' : State} {bads : List (List ℕ)} (h : round C n st = .ok (bads, some st')) :
    ∃ ds d₀ near d, C.samples n st = .ok ds ∧ d₀ ∈ ds ∧ C.more n st d₀ = .ok near ∧ d ∈ d₀ :: near ∧
      st.goal.evalOnDict C.toSage d = .ok false ∧ ∃ a ∈ st.hyps, a.evalOnDict C.toSage d = .ok (some true) := by
  obtain ⟨ds, cand, i, hds, hr, hcand, hi, -⟩ := round_cand h
  obtain ⟨hnd, hlt, hhit, hmin⟩ := hC _ _ _ _ (goodHyps_solve hcand)
  have hr2 : bads ≠ [] := by
    intro h0
    have h1 := hmin [] (by simp) (by simp) (by rw [h0]; simp)
    have h2 : (weightHyps st).getD i 0 ≤ (cand.map fun i => (weightHyps st).getD i 0).sum :=
      List.single_le_sum (by simp) _ (List.mem_map.2 ⟨i, hi, rfl⟩)
    have h3 : 0 < (weightHyps st).getD i 0 := by
      rw [weight_getD st (hlt i hi)]; exact hypWeight_pos _ _
    rw [List.map_nil, List.sum_nil] at h1
    omega
  obtain ⟨b, hb⟩ := List.exists_mem_of_ne_nil _ hr2
  obtain ⟨x, hx⟩ := List.exists_mem_of_ne_nil _ (allBads_nonempty C n st ds _ _ hr b hb)
  obtain ⟨d₀, h1, near, h2, d, h3, h4, htrue⟩ := allBads_from C n st ds _ _ hr b hb
  obtain ⟨m, a, -, h5, h6⟩ := (trueHyps_spec C.toSage d st.hyps 0 b htrue x).1 hx
  exact ⟨ds, d₀, near, d, hds, h1, h2, h3, h4, a, List.mem_of_getElem? h5, h6⟩

/-- `x0 + 1 >= 0` -/
def wkMain : Atom := ⟨[([], 1), ([1], 1)], .ge, [0]⟩
/-- `x0^3 > 0` -/
def wk1 : Atom := ⟨[([3], 1)], .gt, [0]⟩
/-- `x0 + 3 > 0` -/
def wk2 : Atom := ⟨[([], 3), ([1], 1)], .gt, [0]⟩
/-- `x0^2 - 9 > 0` -/
def wk3 : Atom := ⟨[([], -9), ([2], 1)], .gt, [0]⟩

/-- The truth values at a point. -/
theorem wk_eval (S : Sage ℚ) {d : Dict ℚ} (hd : (d.lookup 0).isSome) :
    ∃ x : ℚ, d.lookup 0 = some x ∧ wkMain.evalOnDict S d = .ok (some (decide (-1 ≤ x))) ∧
      wk1.evalOnDict S d = .ok (some (decide (0 < x))) ∧ wk2.evalOnDict S d = .ok (some (decide (-3 < x))) ∧
      wk3.evalOnDict S d = .ok (some (decide (9 < x ^ 2))) := by
  obtain ⟨x, hx⟩ := Option.isSome_iff_exists.1 hd
  have hne : d ≠ [] := by rintro rfl; simp at hd
  have hpt : ptOf d 0 = x := by simp [ptOf, hx]
  have hcov : ∀ a : Atom, (∀ v ∈ a.vars ++ a.poly.vars, v = 0) → Covers d a := by
    intro a ha
    refine ⟨hne, fun v hv => ?_, fun v hv => ?_⟩
    · rw [ha v (by simp [hv])]; exact hd
    · rw [ha v (by simp [hv])]; exact hd
  refine ⟨x, hx, ?_, ?_, ?_, ?_⟩
  · rw [evalOnDict_covered S (hcov wkMain (by decide +kernel))]
    congr 2
    rw [Bool.eq_iff_iff, test_iff, decide_eq_true_iff]
    simp [rel, wkMain, MPoly.eval, Mono.evalFrom, hpt]
    constructor <;> intro h <;> linarith
  · rw [evalOnDict_covered S (hcov wk1 (by decide +kernel))]
    congr 2
    rw [Bool.eq_iff_iff, test_iff, decide_eq_true_iff]
    simp [rel, wk1, MPoly.eval, Mono.evalFrom, hpt]
    exact Odd.pow_pos_iff (by decide)
  · rw [evalOnDict_covered S (hcov wk2 (by decide +kernel))]
    congr 2
    rw [Bool.eq_iff_iff, test_iff, decide_eq_true_iff]
    simp [rel, wk2, MPoly.eval, Mono.evalFrom, hpt]
    constructor <;> intro h <;> linarith
  · rw [evalOnDict_covered S (hcov wk3 (by decide +kernel))]
    congr 2
    rw [Bool.eq_iff_iff, test_iff, decide_eq_true_iff]
    simp [rel, wk3, MPoly.eval, Mono.evalFrom, hpt]

/-- A sample point of the first round: the only root of `x0 + 1` is `-1`. -/
theorem wk_sample (E : CadEnv) (hE : RootsOK ℝ E) (ambient : List Atom) :
    (-2 : ℚ) ∈ sectorSps E [] (isoRootIntvls E (filterProjSet [wkMain.poly])) 1 ambient 0 := by
  have hU : Univ wkMain.poly := by
    refine ⟨⟨0, by decide +kernel⟩, ⟨0, ?_⟩⟩
    simp [val, wkMain, MPoly.eval, Mono.evalFrom]
  have hval : ∀ a : ℚ, val wkMain.poly a = 0 ↔ a = -1 := by
    intro a
    simp [val, wkMain, MPoly.eval, Mono.evalFrom]
    constructor <;> intro h <;> linarith
  have hr : ∀ a : ℚ, (∃ m, (a, m) ∈ E.roots wkMain.poly) ↔ a = -1 := fun a => (hE.roots _ hU a).trans (hval a)
  have hne : E.roots wkMain.poly ≠ [] := by
    intro h
    obtain ⟨m, hm⟩ := (hr (-1)).2 rfl
    rw [h] at hm
    simp at hm
  rw [show filterProjSet [wkMain.poly] = [wkMain.poly] by decide +kernel]
  have hiso : isoRootIntvls E [wkMain.poly] = (E.roots wkMain.poly).map fun r => ((r.1, r.1), r.2) := by
    unfold isoRootIntvls
    simp [hne]
  rw [hiso]
  unfold sectorSps
  rw [if_neg (by simpa using hne)]
  obtain ⟨l, hl⟩ : ∃ l, (((E.roots wkMain.poly).map fun r => ((r.1, r.1), r.2)).map Prod.fst).insertionSort
    (fun a b => ivlLe a b = true) = l := ⟨_, rfl⟩
  have hmem : ∀ I ∈ l, I = (-1, -1) := by
    intro I hI
    rw [← hl, List.mem_insertionSort] at hI
    simp only [List.map_map, List.mem_map, Function.comp_apply] at hI
    obtain ⟨r, hr', rfl⟩ := hI
    rw [(hr r.1).1 ⟨r.2, hr'⟩]
  have hlne : l ≠ [] := by
    intro h
    have h2 := congrArg List.length hl
    rw [h, List.length_insertionSort] at h2
    simp at h2
    exact hne h2
  rw [hl]
  cases l with
  | nil => simp at hlne
  | cons I l =>
    have h1 := hmem I (by simp)
    unfold sectorRoots
    rw [List.getLast?_cons]
    simp only [List.mem_insertionSort, List.mem_append, List.mem_cons]
    left; left; left
    rw [h1]
    norm_num

theorem wk_goal_false {S : Sage ℚ} {d : Dict ℚ} (hd : (d.lookup 0).isSome) (hs : List Atom) (gb : List MPoly)
    (h : (⟨wkMain, hs, gb⟩ : Goal).evalOnDict S d = .ok false) :
    ∃ x : ℚ, d.lookup 0 = some x ∧ x < -1 ∧ wk1.evalOnDict S d = .ok (some false) ∧
      wk2.evalOnDict S d = .ok (some (decide (-3 < x))) ∧ wk3.evalOnDict S d = .ok (some (decide (9 < x ^ 2))) := by
  obtain ⟨x, hx, h0, h1, h2, h3⟩ := wk_eval S hd
  have hlt : x < -1 := by
    by_contra hc
    unfold Goal.evalOnDict at h
    simp only [bind, Except.bind] at h
    rw [h0, decide_eq_true (not_lt.1 hc)] at h
    simp at h
  refine ⟨x, hx, hlt, ?_, h2, h3⟩
  rw [h1, decide_eq_false (by linarith)]

/-- `x0^3 > 0, x0 + 3 > 0 ⊢ x0 + 1 >= 0` is reported as proved. -/
theorem wk_proved (S : Sage ℚ) (E : CadEnv) (hE : RootsOK ℝ E) (numSps : ℕ) (hS : SageOK S)
    (near : ℕ → State → Dict ℚ → List (Dict ℚ)) (solve)
    (hnear : ∀ k st d, (d.lookup 0).isSome → ∀ e ∈ near k st d, (e.lookup 0).isSome)
    (C : Core ℚ) (hCC : C = cadCore S E 1 numSps (fun _ _ => []) (fun k st d => .ok (near k st d)) solve)
    (hC : SolverOpt C) (hC' : SolverComplete C) (fuel : ℕ) :
    ∃ ret, check C (fuel + 2) 0 ⟨[wk1, wk2], ⟨wkMain, [], []⟩, [0, 1]⟩ = .ok (ret, ⟨[wk2], ⟨wkMain, [wk1], []⟩, [1]⟩) := by
  have hS' : C.toSage = S := by rw [hCC]; rfl
  have hmore : ∀ k st d, C.more k st d = .ok (near k st d) := by intro k st d; rw [hCC]; rfl
  have hsam : ∀ k st, ∃ ds, C.samples k st = .ok ds ∧ ∀ d ∈ ds, (d.lookup 0).isSome := by
    intro k st
    obtain ⟨ds, hds⟩ := (C59_partial S E ([] ++ st.goal.main.poly :: st.goal.hyps.map Atom.poly) numSps st.hyps).2 1 st.goal
      le_rfl
    refine ⟨ds, by rw [hCC]; exact hds, fun d hd => ((C58_assignments S E 1 _ _ _ _ ds hds d hd).2.2 0).2 (by decide)⟩
  have hnn : ∀ d : Dict ℚ, (d.lookup 0).isSome → d ≠ [] := by rintro d h rfl; simp at h
  obtain ⟨st, hst⟩ : ∃ st : State, (⟨[wk1, wk2], ⟨wkMain, [], []⟩, [0, 1]⟩ : State) = st := ⟨_, rfl⟩
  have hgoal : st.goal = ⟨wkMain, [], []⟩ := by rw [← hst]
  have hhyps : st.hyps = [wk1, wk2] := by rw [← hst]
  obtain ⟨ds, hds, hdv⟩ := hsam 0 st
  have h2 : [(0, -2)] ∈ ds := by
    have h : C.samples 0 st = .ok (((sectorSps E [] (isoRootIntvls E (filterProjSet [wkMain.poly])) 1 [wk1, wk2] 0).map
        fun x => [x]).map (spDict [0])) := by
      rw [hCC, ← hst]; rfl
    rw [hds] at h
    rw [Except.ok.inj h, List.map_map, List.mem_map]
    exact ⟨-2, wk_sample E hE _, rfl⟩
  let g : Dict ℚ → Bool := fun d => match st.goal.evalOnDict C.toSage d with | .ok b => b | .error _ => false
  let f : Dict ℚ → Atom → Option Bool := fun d a => match a.evalOnDict C.toSage d with | .ok b => b | .error _ => none
  have hg : ∀ d : Dict ℚ, d ≠ [] → st.goal.evalOnDict C.toSage d = .ok (g d) := by
    intro d hne
    obtain ⟨b, hb⟩ := goal_noerr C.toSage hne st.goal
    simp only [g, hb]
  have hf : ∀ (d : Dict ℚ) (a : Atom), d ≠ [] → a.evalOnDict C.toSage d = .ok (f d a) := by
    intro d a hne
    obtain ⟨b, hb⟩ := atom_noerr C.toSage hne a
    simp only [f, hb]
  have hpt : ∀ d₀ ∈ ds, ∀ d ∈ d₀ :: near 0 st d₀, (d.lookup 0).isSome := by
    intro d₀ h d hd'
    rcases List.mem_cons.1 hd' with rfl | hd'
    · exact hdv _ h
    · exact hnear _ _ _ (hdv d₀ h) d hd'
  have hg2 : g [(0, -2)] = false := by
    have h := hg [(0, -2)] (by simp)
    obtain ⟨x, hx, h0, -⟩ := wk_eval C.toSage (d := [(0, -2)]) (by simp)
    have hx' : x = -2 := by simpa using hx.symm
    subst hx'
    rw [hgoal] at h
    unfold Goal.evalOnDict at h
    simp only [bind, Except.bind] at h
    rw [h0] at h
    have h' : (Except.ok false : Except GErr Bool) = .ok (g [(0, -2)]) := h
    exact (Except.ok.inj h').symm
  obtain ⟨-, -, h3⟩ := C36_exact C (by rw [hS']; exact hS) hC hC' 0 st (by rw [hhyps]; simp) ds hds (near 0 st)
    (fun d _ => hmore 0 st d) g f
    (fun d₀ h d h' => hg d (hnn d (hpt d₀ h d h'))) (fun d₀ h d h' a _ => hf d a (hnn d (hpt d₀ h d h')))
    (fun e => ∃ d₀ ∈ ds, g d₀ = false ∧ e ∈ d₀ :: near 0 st d₀) fun _ => Iff.rfl
  have hfalse1 : ∀ e, (∃ d₀ ∈ ds, g d₀ = false ∧ e ∈ d₀ :: near 0 st d₀) → g e = false → f e wk1 = some false := by
    rintro e ⟨d₀, hd₀, -, he⟩ hge
    have hsome := hpt d₀ hd₀ e he
    have h := hg e (hnn e hsome)
    rw [hgoal, hge] at h
    obtain ⟨x, -, -, h1, -⟩ := wk_goal_false hsome [] [] h
    rw [hf e wk1 (hnn e hsome)] at h1
    exact Except.ok.inj h1
  have htrue2 : f [(0, -2)] wk2 = some true := by
    obtain ⟨x, hx, -, -, h2', -⟩ := wk_eval C.toSage (d := [(0, -2)]) (by simp)
    have hx' : x = -2 := by simpa using hx.symm
    subst hx'
    rw [hf _ wk2 (by simp)] at h2'
    rw [Except.ok.inj h2']
    norm_num
  obtain ⟨bads, st', hround, -⟩ := (h3 (by
    intro e he
    cases hge : g e with
    | true => exact Or.inl rfl
    | false => exact Or.inr ⟨wk1, by rw [hhyps]; simp, by rw [hfalse1 e he hge]; simp⟩)).1
    ⟨[(0, -2)], ⟨_, h2, hg2, by simp⟩, hg2, wk2, by rw [hhyps]; simp, htrue2⟩
  obtain ⟨ds', cand, i, hds', hbads, hcand, hi, hprom⟩ := round_cand hround
  rw [hds] at hds'
  obtain rfl := Except.ok.inj hds'
  obtain ⟨hnd, hlt, hhit, hmin⟩ := hC _ _ _ _ (goodHyps_solve hcand)
  have hlen : st.hyps.length = 2 := by rw [hhyps]; rfl
  have hw : weightHyps st = [20, 1] := by rw [← hst]; decide +kernel
  have hcov : ∀ b ∈ bads, 0 ∉ b := by
    intro b hb h0
    obtain ⟨d₀, h1, nr, h2, d, h3, h4, htrue⟩ := allBads_from C 0 st ds _ _ hbads b hb
    rw [hmore] at h2
    obtain rfl := Except.ok.inj h2
    obtain ⟨m, a, h5, h6, h7⟩ := (trueHyps_spec C.toSage d st.hyps 0 b htrue 0).1 h0
    obtain rfl : m = 0 := by omega
    rw [hhyps] at h6
    obtain rfl : wk1 = a := by simpa using h6
    rw [hgoal] at h4
    obtain ⟨x, -, -, h8, -⟩ := wk_goal_false (hpt d₀ h1 d h3) [] [] h4
    rw [h8] at h7
    cases h7
  have hone : (cand.map fun i => (weightHyps st).getD i 0).sum ≤ 20 := by
    have := hmin [0] (by simp) (by simp [hlen]) fun b hb => ⟨0, by simp, hcov b hb⟩
    simpa [hw] using this
  have h0 : 0 ∈ cand := by
    obtain ⟨j, hj, a, ha, hna⟩ := C35_hits C (fun n b w s h => ⟨(hC n b w s h).2.1, (hC n b w s h).2.2.1⟩) 0 st ds bads _ cand
      hbads hcand (List.ne_nil_of_mem hi) [(0, -2)] h2 (by rw [hg _ (by simp), hg2]) _ (hmore 0 st _) [(0, -2)] (by simp)
      (by rw [hg _ (by simp), hg2])
    have hj' := hlt j hj
    rw [hlen] at hj'
    interval_cases j
    · exact hj
    · rw [hhyps] at ha
      obtain rfl : wk2 = a := by simpa using ha
      exact absurd (by rw [hf _ wk2 (by simp), htrue2]) hna
  have hi0 : i = 0 := by
    have hi' := hlt i hi
    rw [hlen] at hi'
    interval_cases i
    · rfl
    · exfalso
      have hsub : List.Subperm [0, 1] cand := List.subperm_of_subset (by decide) (by
        intro j hj
        simp only [List.mem_cons, List.not_mem_nil, or_false] at hj
        rcases hj with rfl | rfl
        · exact h0
        · exact hi)
      obtain ⟨l, hl, hsl⟩ := hsub
      have h1 := (hsl.map fun i => (weightHyps st).getD i 0).sum_le_sum (by simp)
      rw [(hl.map fun i => (weightHyps st).getD i 0).sum_eq] at h1
      rw [hw] at h1 hone
      simp at h1 hone
      omega
  subst hi0
  have hst' : st' = ⟨[wk2], ⟨wkMain, [wk1], []⟩, [1]⟩ := by
    obtain ⟨a, gl, h4, h5, rfl⟩ := promote_ok hprom
    rw [← hst] at h4 h5 ⊢
    obtain rfl : wk1 = a := by simpa using h4
    have h6 : Goal.addHyp C.toSage ⟨wkMain, [], []⟩ wk1 = .ok ⟨wkMain, [wk1], []⟩ := rfl
    rw [h6] at h5
    obtain rfl := Except.ok.inj h5
    rfl
  subst hst'
  refine ⟨bads, ?_⟩
  rw [hst]
  unfold check
  simp only [bind, Except.bind]
  rw [hround]
  obtain ⟨ds₂, hds₂, hdv₂⟩ := hsam 1 ⟨[wk2], ⟨wkMain, [wk1], []⟩, [1]⟩
  have := check_true C 1 fuel ⟨[wk2], ⟨wkMain, [wk1], []⟩, [1]⟩ ds₂ hds₂ (by
    intro d hd
    obtain ⟨x, -, h4, h5, -⟩ := wk_eval C.toSage (hdv₂ d hd)
    unfold Goal.evalOnDict evalHyps
    simp only [bind, Except.bind]
    rw [h4, h5]
    simp only
    by_cases hx : -1 ≤ x
    · simp [hx]
    · have : ¬ 0 < x := by linarith
      simp [this])
  simp only [Nat.zero_add]
  rw [this]

theorem wk_normal : ∀ a ∈ [wkMain, wk1, wk2, wk3], Normal a.poly ∧ ∀ v ∈ a.vars ++ a.poly.vars, v < 1 := by
  intro a ha
  have h1 : ∀ a ∈ [wkMain, wk1, wk2, wk3], NoZeroTerms a.poly := by unfold NoZeroTerms; decide +kernel
  have h2 : ∀ a ∈ [wkMain, wk1, wk2, wk3], ∀ t ∈ a.poly, Mono.Stripped t.1 := by unfold Mono.Stripped; decide +kernel
  have h3 : ∀ a ∈ [wkMain, wk1, wk2, wk3], (a.poly.map Prod.fst).Nodup := by decide +kernel
  have h4 : ∀ a ∈ [wkMain, wk1, wk2, wk3], ∀ v ∈ a.vars ++ a.poly.vars, v < 1 := by decide +kernel
  exact ⟨⟨h1 a ha, h2 a ha, h3 a ha⟩, h4 a ha⟩

/-- `x0^3 > 0, x0 + 3 > 0, x0^2 - 9 > 0 ⊢ x0 + 1 >= 0` is not proved. -/
theorem wk_unproved (S : Sage ℚ) (E : CadEnv) (hE : RootsOK ℝ E) (hu : UniformOK E) (hel : ElimOK E) (numSps : ℕ)
    (hn : 1 ≤ numSps) (hS : SageOK S) (hR : RingOK S 1)
    (near : ℕ → State → Dict ℚ → List (Dict ℚ)) (solve)
    (hnear : ∀ k st d, (d.lookup 0).isSome → ∀ e ∈ near k st d, (e.lookup 0).isSome)
    (C : Core ℚ) (hCC : C = cadCore S E 1 numSps (fun _ _ => []) (fun k st d => .ok (near k st d)) solve)
    (hC : SolverOpt C) (hC' : SolverComplete C) (fuel : ℕ) :
    check C (fuel + 4) 0 ⟨[wk1, wk2, wk3], ⟨wkMain, [], []⟩, [0, 1, 2]⟩ = .error .indexError := by
  have hreal : ∀ ρ : ℕ → ℝ, (wkMain.holds ρ ↔ -1 ≤ ρ 0) ∧ (wk1.holds ρ ↔ 0 < ρ 0) ∧ (wk2.holds ρ ↔ -3 < ρ 0) ∧
      (wk3.holds ρ ↔ 9 < ρ 0 ^ 2) := by
    intro ρ
    refine ⟨?_, ?_, ?_, ?_⟩
    · simp [Atom.holds, rel, wkMain, MPoly.eval, Mono.evalFrom]
      constructor <;> intro h <;> linarith
    · simp [Atom.holds, rel, wk1, MPoly.eval, Mono.evalFrom]
      exact Odd.pow_pos_iff (by decide)
    · simp [Atom.holds, rel, wk2, MPoly.eval, Mono.evalFrom]
      constructor <;> intro h <;> linarith
    · simp [Atom.holds, rel, wk3, MPoly.eval, Mono.evalFrom]
  have hmore : ∀ k st d, C.more k st d = .ok (near k st d) := by intro k st d; rw [hCC]; rfl
  have hpts : ∀ k st ds, C.samples k st = .ok ds → ∀ d₀ ∈ ds, ∀ nr, C.more k st d₀ = .ok nr → ∀ d ∈ d₀ :: nr,
      (d.lookup 0).isSome := by
    intro k st ds hds d₀ hd₀ nr hnr d hd
    have h0 : (d₀.lookup 0).isSome := by
      rw [hCC] at hds
      exact ((C58_assignments S E 1 _ _ _ _ ds hds d₀ hd₀).2.2 0).2 (by decide)
    rw [hmore] at hnr
    obtain rfl := Except.ok.inj hnr
    rcases List.mem_cons.1 hd with rfl | hd
    · exact h0
    · exact hnear _ _ _ h0 d hd
  rcases C117_partial S E hE hu hel 1 numSps one_pos hn hS hR (fun _ _ => []) near solve (by
      intro k st d hd e he v hv
      obtain rfl : v = 0 := by omega
      exact hnear k st d (hd 0 one_pos) e he) C hCC hC hC' [wk1, wk2, wk3] wkMain (by
      refine ⟨by decide, by decide, ?_, ?_⟩
      · unfold Fresh; decide +kernel
      · intro a ha
        obtain ⟨h1, h2⟩ := wk_normal a ha
        exact ⟨h1, fun v hv => h2 v (by simp [hv])⟩) (by
      intro a ha v hv
      exact (wk_normal a ha).2 v (by simp [hv])) (by simp) (by
      intro k st _ hp
      refine ⟨trivial, ?_⟩
      intro base sets hb
      have hb' : [filterProjSet ([] ++ wkMain.poly :: st.goal.hyps.map Atom.poly)] = base :: sets := hb
      cases hb'
      refine ⟨Or.inr ?_, fun x _ => trivial⟩
      intro p hp' _ z hz
      obtain ⟨r, hr, _, rfl⟩ := mem_filterProjSet hp'
      have hr' : r ∈ [wkMain, wk1, wk2, wk3].map Atom.poly := by
        simp only [List.nil_append, List.mem_cons] at hr
        rcases hr with rfl | hr
        · simp
        · obtain ⟨a, ha, rfl⟩ := List.mem_map.1 hr
          exact List.mem_map.2 ⟨a, List.mem_cons_of_mem _ (hp.subset (by simp [ha])), rfl⟩
      have hq : purePolyBase r ∈ [wkMain.poly, MPoly.var 0, wk2.poly, wk3.poly] :=
        (by decide +kernel : ∀ r ∈ [wkMain, wk1, wk2, wk3].map Atom.poly,
          purePolyBase r ∈ [wkMain.poly, MPoly.var 0, wk2.poly, wk3.poly]) r hr'
      obtain ⟨q, hq'⟩ : ∃ q, purePolyBase r = q := ⟨_, rfl⟩
      rw [hq'] at hq hz
      simp only [List.mem_cons, List.not_mem_nil, or_false] at hq
      rcases hq with rfl | rfl | rfl | rfl
      · simp [val, wkMain, MPoly.eval, Mono.evalFrom] at hz
        exact ⟨-1, by push_cast; linarith⟩
      · simp [val, MPoly.var, MPoly.eval, Mono.evalFrom] at hz
        exact ⟨0, by push_cast; linarith⟩
      · simp [val, wk2, MPoly.eval, Mono.evalFrom] at hz
        exact ⟨-3, by push_cast; linarith⟩
      · simp [val, wk3, MPoly.eval, Mono.evalFrom] at hz
        have : (z - 3) * (z + 3) = 0 := by linarith
        rcases mul_eq_zero.1 this with h | h
        · exact ⟨3, by push_cast; linarith⟩
        · exact ⟨-3, by push_cast; linarith⟩) (fuel + 4) (by simp) [0, 1, 2] with
    ⟨ret, st', h, -, -, hval⟩ | ⟨-, ρ, h1, h2⟩ | h
  · exfalso
    obtain ⟨k, ret', hr, -⟩ := check_rounds C _ 0 _ st' ret h
    have hneg : ∀ {S : Sage ℚ} {d : Dict ℚ} {a : Atom} (_ : (d.lookup 0).isSome)
        (_ : (⟨wkMain, [a], []⟩ : Goal).evalOnDict S d = .ok false), a.evalOnDict S d ≠ .ok (some false) := by
      intro S d a hd h ha
      unfold Goal.evalOnDict evalHyps at h
      simp only [bind, Except.bind] at h
      rw [ha] at h
      obtain ⟨x, -, h0, -⟩ := wk_eval S hd
      rw [h0] at h
      simp only at h
      split at h <;> simp at h
    cases hr with
    | refl =>
      have := hval (fun _ => -2) (by simp)
      rw [(hreal _).1] at this
      norm_num at this
    | step _ k _ st₁ _ bads hround hs =>
      obtain ⟨st, hst⟩ : ∃ st : State, (⟨[wk1, wk2, wk3], ⟨wkMain, [], []⟩, [0, 1, 2]⟩ : State) = st := ⟨_, rfl⟩
      rw [hst] at hround
      have hgoal : st.goal = ⟨wkMain, [], []⟩ := by rw [← hst]
      have hhyps : st.hyps = [wk1, wk2, wk3] := by rw [← hst]
      obtain ⟨ds, cand, i, hds, hbads, hcand, hi, hprom⟩ := round_cand hround
      obtain ⟨hnd, hlt, hhit, hmin⟩ := hC _ _ _ _ (goodHyps_solve hcand)
      have hlen : st.hyps.length = 3 := by rw [hhyps]; rfl
      have hw : weightHyps st = [20, 1, 10] := by rw [← hst]; decide +kernel
      have hcov : ∀ b ∈ bads, 1 ∉ b ∨ 2 ∉ b := by
        intro b hb
        by_contra hcon
        push Not at hcon
        obtain ⟨d₀, h1, nr, h2, d, h3, h4, htrue⟩ := allBads_from C 0 st ds _ _ hbads b hb
        rw [hgoal] at h4
        obtain ⟨x, -, hx, -, h8, h9⟩ := wk_goal_false (hpts 0 st ds hds d₀ h1 nr h2 d h3) [] [] h4
        obtain ⟨m, a, h5, h6, h7⟩ := (trueHyps_spec C.toSage d st.hyps 0 b htrue 1).1 hcon.1
        obtain ⟨m', a', h5', h6', h7'⟩ := (trueHyps_spec C.toSage d st.hyps 0 b htrue 2).1 hcon.2
        obtain rfl : m = 1 := by omega
        obtain rfl : m' = 2 := by omega
        rw [hhyps] at h6 h6'
        obtain rfl : wk2 = a := by simpa using h6
        obtain rfl : wk3 = a' := by simpa using h6'
        rw [h8] at h7
        rw [h9] at h7'
        have e1 : -3 < x := by simpa using Except.ok.inj h7
        have e2 : 9 < x ^ 2 := by simpa using Except.ok.inj h7'
        nlinarith
      have hbound : (cand.map fun i => (weightHyps st).getD i 0).sum ≤ 11 := by
        have := hmin [1, 2] (by simp) (by simp [hlen]) fun b hb => by
          rcases hcov b hb with h | h
          · exact ⟨1, by simp, h⟩
          · exact ⟨2, by simp, h⟩
        simpa [hw] using this
      have hi0 : i ≠ 0 := by
        rintro rfl
        have h2 : (weightHyps st).getD 0 0 ≤ (cand.map fun i => (weightHyps st).getD i 0).sum :=
          List.single_le_sum (by simp) _ (List.mem_map.2 ⟨0, hi, rfl⟩)
        rw [hw] at h2 hbound
        simp at h2 hbound
        omega
      have hi' := hlt i hi
      rw [hlen] at hi'
      obtain ⟨a, gl, h4, h5, rfl⟩ := promote_ok hprom
      rw [← hst] at h4 h5 hs
      interval_cases i
      · exact hi0 rfl
      · obtain rfl : wk2 = a := by simpa using h4
        have h6 : Goal.addHyp C.toSage ⟨wkMain, [], []⟩ wk2 = .ok ⟨wkMain, [wk2], []⟩ := rfl
        rw [h6] at h5
        obtain rfl := Except.ok.inj h5
        cases hs with
        | refl =>
          have := hval (fun _ => -2) (by
            intro b hb
            rw [List.mem_singleton] at hb
            subst hb
            rw [(hreal _).2.2.1]
            norm_num)
          rw [(hreal _).1] at this
          norm_num at this
        | step _ k _ st₂ _ bads₂ hround₂ hs₂ =>
          obtain ⟨ds₂, d₀, nr, d, e1, e2, e3, e4, e5, a, ha, e6⟩ := round_some_true hC hround₂
          have hd := hpts _ _ _ e1 _ e2 _ e3 _ e4
          obtain ⟨x, -, hx, f1, f2, f3⟩ := wk_goal_false hd _ _ e5
          have f4 := hneg hd e5
          rw [f2] at f4
          have f5 : -3 < x := by
            by_contra hc
            exact f4 (by rw [decide_eq_false hc])
          have ha' : a = wk1 ∨ a = wk3 := by simpa using ha
          rcases ha' with rfl | rfl
          · rw [f1] at e6; cases e6
          · rw [f3] at e6
            have e2 : 9 < x ^ 2 := by simpa using Except.ok.inj e6
            nlinarith
      · obtain rfl : wk3 = a := by simpa using h4
        have h6 : Goal.addHyp C.toSage ⟨wkMain, [], []⟩ wk3 = .ok ⟨wkMain, [wk3], []⟩ := rfl
        rw [h6] at h5
        obtain rfl := Except.ok.inj h5
        cases hs with
        | refl =>
          have := hval (fun _ => -4) (by
            intro b hb
            rw [List.mem_singleton] at hb
            subst hb
            rw [(hreal _).2.2.2]
            norm_num)
          rw [(hreal _).1] at this
          norm_num at this
        | step _ k _ st₂ _ bads₂ hround₂ hs₂ =>
          obtain ⟨ds₂, d₀, nr, d, e1, e2, e3, e4, e5, a, ha, e6⟩ := round_some_true hC hround₂
          have hd := hpts _ _ _ e1 _ e2 _ e3 _ e4
          obtain ⟨x, -, hx, f1, f2, f3⟩ := wk_goal_false hd _ _ e5
          have f4 := hneg hd e5
          rw [f3] at f4
          have f5 : 9 < x ^ 2 := by
            by_contra hc
            exact f4 (by rw [decide_eq_false hc])
          have ha' : a = wk1 ∨ a = wk2 := by simpa using ha
          rcases ha' with rfl | rfl
          · rw [f1] at e6; cases e6
          · rw [f2] at e6
            have e2 : -3 < x := by simpa using Except.ok.inj e6
            nlinarith
  · exfalso
    have := h1 wk1 (by simp)
    apply h2
    simp [Atom.holds, rel, wk1, wkMain, MPoly.eval, Mono.evalFrom] at this ⊢
    have := (Odd.pow_pos_iff (n := 3) (by decide)).1 this
    linarith
  · exact h

/-- **C119** is violated: `x0^3 > 0, x0 + 3 > 0 ⊢ x0 + 1 >= 0` is reported as proved, and with the further hypothesis
`x0^2 - 9 > 0` the check ends with `IndexError`, whatever the right functions of Sage, the optimal solver, the local
search, the random choices and the number of sample points. -/
theorem C119_violated (S : Sage ℚ) (E : CadEnv) (hE : RootsOK ℝ E) (hu : UniformOK E) (hel : ElimOK E) (numSps : ℕ)
    (hn : 1 ≤ numSps) (hS : SageOK S) (hR : RingOK S 1) (near : ℕ → State → Dict ℚ → List (Dict ℚ)) (solve)
    (hnear : ∀ k st d, (d.lookup 0).isSome → ∀ e ∈ near k st d, (e.lookup 0).isSome)
    (hC : SolverOpt (cadCore S E 1 numSps (fun _ _ => []) (fun k st d => .ok (near k st d)) solve))
    (hC' : SolverComplete (cadCore S E 1 numSps (fun _ _ => []) (fun k st d => .ok (near k st d)) solve)) (fuel : ℕ) :
    ∃ h₁ h₂ h₃ main : Atom, mkAtom [([3], 1)] ">" (MPoly.const 0) = .ok h₁ ∧
      mkAtom [([1], 1), ([], 3)] ">" (MPoly.const 0) = .ok h₂ ∧
      mkAtom [([2], 1), ([], -9)] ">" (MPoly.const 0) = .ok h₃ ∧
      mkAtom [([1], 1), ([], 1)] ">=" (MPoly.const 0) = .ok main ∧
      (∃ ret st', check (cadCore S E 1 numSps (fun _ _ => []) (fun k st d => .ok (near k st d)) solve) (fuel + 4) 0
        ⟨[h₁, h₂], ⟨main, [], []⟩, [0, 1]⟩ = .ok (ret, st')) ∧
      check (cadCore S E 1 numSps (fun _ _ => []) (fun k st d => .ok (near k st d)) solve) (fuel + 4) 0
        ⟨[h₁, h₂, h₃], ⟨main, [], []⟩, [0, 1, 2]⟩ = .error .indexError := by
  refine ⟨wk1, wk2, wk3, wkMain, by decide +kernel, by decide +kernel, by decide +kernel, by decide +kernel, ?_,
    wk_unproved S E hE hu hel numSps hn hS hR near solve hnear _ rfl hC hC' fuel⟩
  obtain ⟨ret, h⟩ := wk_proved S E hE numSps hS near solve hnear _ rfl hC hC' (fuel + 2)
  exact ⟨ret, _, h⟩

/-- What holds of **C119**: under the assumptions of C72_partial and with right functions of Sage, if a sequent with
hypotheses `<`, `>`, `!=` and a goal `<=`, `>=`, `=` is reported as proved, then no counterexample is reported for the
sequent with further hypotheses (of any kind, with at most one equation), in any order. -/
theorem C119_partial (S : Sage ℚ) (E : CadEnv) (hE : RootsOK ℝ E) (hu : UniformOK E) (hel : ElimOK E) (n numSps : ℕ)
    (hnpos : 0 < n) (hn : 1 ≤ numSps) (hS : SageOK S) (hR : RingOK S n) (extra : ℕ → State → List MPoly)
    (more : ℕ → State → Dict ℚ → Except GErr (List (Dict ℚ))) (solve)
    (hmore : ∀ k st d ds, (∀ v < n, (d.lookup v).isSome) → more k st d = .ok ds → ∀ e ∈ ds, ∀ v < n, (e.lookup v).isSome)
    (hraise : ∀ k st d, more k st d ≠ .error .counterexample)
    (hyps hyps' : List Atom) (main : Atom) (hseq : StrictSequentN n hyps main)
    (hextra : ∀ k st, ∀ p ∈ extra k st, Normal p ∧ ∀ w ∈ p.vars, w < n)
    (hlev : ∀ k (st : State), st.goal.main = main → (st.goal.hyps ++ st.hyps).Perm hyps →
      LevelsOK E n (extra k st ++ main.poly :: st.goal.hyps.map Atom.poly) numSps st.hyps)
    (hv : ∀ a ∈ main :: hyps', ∀ v ∈ a.vars ++ a.poly.vars, v < n)
    (heq : hyps'.countP (fun a => decide (a.op = .eq)) ≤ 1) (hsub : hyps ⊆ hyps')
    (fuel fuel' : ℕ) (ids ids' : List ℕ) (ret : List (List ℕ)) (st' : State)
    (h : check (cadCore S E n numSps extra more solve) fuel 0 ⟨hyps, ⟨main, [], []⟩, ids⟩ = .ok (ret, st')) :
    check (cadCore S E n numSps extra more solve) fuel' 0 ⟨hyps', ⟨main, [], []⟩, ids'⟩ ≠ .error .counterexample :=
  C118_partial S E hE hu hel n numSps hnpos hn hS hR extra more solve hmore hraise hyps hyps' main main hseq hextra hlev hv
    heq id (fun _ => Iff.rfl) (fun a ha => ⟨a, hsub ha, fun _ => Iff.rfl⟩) fuel fuel' ids ids' ret st' h

/-- The assumptions of C119_violated are met by Sage functions, a solver and a local search. -/
example : ∃ (S : Sage ℚ) (E : CadEnv) (near : ℕ → State → Dict ℚ → List (Dict ℚ))
    (solve : ℕ → List (List ℕ) → List ℕ → Option (List ℕ)),
    SageOK S ∧ RingOK S 1 ∧ RootsOK ℝ E ∧ UniformOK E ∧ ElimOK E ∧
    (∀ k st d, (d.lookup 0).isSome → ∀ e ∈ near k st d, (e.lookup 0).isSome) ∧
    SolverOpt (cadCore S E 1 1 (fun _ _ => []) (fun k st d => .ok (near k st d)) solve) ∧
    SolverComplete (cadCore S E 1 1 (fun _ _ => []) (fun k st d => .ok (near k st d)) solve) := by
  obtain ⟨E, h1, h2, h3⟩ := C72_assumptions_met
  refine ⟨testSage, E, fun _ _ _ => [[(0, -5)]], bruteSolve, testSage_ok, testSage_ring 1, h1, h2, h3.elimOK, ?_,
    fun _ _ _ _ h => bruteSolve_opt h, (bruteSolve_ok [] []).2⟩
  intro k st d _ e he
  rw [List.mem_singleton] at he
  subst he
  rfl

/-- The assumptions of C119_partial are met: `x0 > x1^2 ⊢ x0 >= 0` is reported as proved, and then no counterexample to
`x1 = 0, x0 > x1^2 ⊢ x0 >= 0` is. -/
example (fuel : ℕ) : check (cadCore testSage ex2Env 2 1 (fun _ _ => []) (fun _ _ _ => .ok []) fun _ _ _ => some [0]) fuel 0
    ⟨[⟨[([0, 1], 1)], .eq, [1]⟩, ex2Hyp], ⟨ex2Main, [], []⟩, [0, 1]⟩ ≠ .error .counterexample := by
  obtain ⟨h1, h2, -, h3, h4, h5, ret, st', h6, -⟩ := C72_example
  refine C119_partial testSage ex2Env h1 h2 h3 2 1 (by norm_num) le_rfl testSage_ok (testSage_ring 2) _ _ _ ?_ (by simp)
    [ex2Hyp] _ ex2Main h4 (by simp) h5 (by decide +kernel) (by decide +kernel) (by simp) 2 fuel [0] _ ret st' h6
  intro k st d ds _ h
  cases h
  simp

end Verif.Grf
