import Verif.Grf.PropsSelect

/-!
# C115: what `check` returns

`RCF_GD_Decide.check` returns the sets of hypotheses that have to be ruled out (`grf.sage:977`, `grf.sage:1035`).
-/

set_option linter.unusedSectionVars false

namespace Verif.Grf

variable {K : Type} [Field K] [LinearOrder K] [IsStrictOrderedRing K]

theorem badLoop_nonempty (S : Sage K) (st : State) : ∀ (ds : List (Dict K)) (bads out : List (List ℕ)),
    badLoop S st ds bads = .ok out → (∀ b ∈ bads, b ≠ []) → ∀ b ∈ out, b ≠ []
  | [], bads, out, h, hb => by cases h; exact hb
  | d :: ds, bads, out, h, hb => by
    unfold badLoop at h
    simp only [bind, Except.bind] at h
    split at h
    · cases h
    · next g hg =>
      cases g with
      | true => exact badLoop_nonempty S st ds bads out h hb
      | false =>
        simp only [Bool.false_eq_true, if_false] at h
        split at h
        · cases h
        · next b' hb' =>
          split at h
          · cases h
          · refine badLoop_nonempty S st ds _ out h fun b h' => ?_
            unfold addBad at h'
            split at h'
            · next hne =>
              rcases List.mem_append.1 h' with h' | h'
              · exact hb b (List.mem_dedup.1 (List.mem_filter.1 h').1)
              · rw [List.mem_singleton] at h'
                subst h'
                exact hne.2
            · exact hb b h'

theorem allBads_nonempty (C : Core K) (n : ℕ) (st : State) : ∀ (ds : List (Dict K)) (tr : Bool) (bads : List (List ℕ)),
    allBads C n st ds = .ok (tr, bads) → ∀ b ∈ bads, b ≠ []
  | [], tr, bads, h, b, hb => by cases h; simp at hb
  | e :: ds, tr, bads, h, b, hb => by
    unfold allBads at h
    simp only [bind, Except.bind] at h
    split at h
    · cases h
    · next x hx =>
      split at h
      · cases h
      · next r hr =>
        have ih := allBads_nonempty C n st ds r.1 r.2 hr b
        cases x with
        | none => cases h; exact ih hb
        | some bs =>
          cases h
          rcases List.mem_append.1 hb with hb' | hb'
          · unfold badSubsets at hx
            simp only [bind, Except.bind] at hx
            split at hx
            · cases hx
            · split at hx
              · cases hx
              · split at hx
                · cases hx
                · split at hx
                  · cases hx
                  · split at hx
                    · cases hx
                    · next out hout =>
                      cases hx
                      exact badLoop_nonempty C.toSage st _ _ _ hout (by simp) b hb'
          · exact ih hb'

/-- **C115**: `check` returns the empty list exactly if the goal was true at all sample points at once, without any
promotion. Otherwise it returns sets of hypotheses, as they were numbered when it was called; each is the set of the
hypotheses that are true at some point of the first round at which the goal is false; it is not empty, and it does not
contain all hypotheses. (Missing: that none is contained in another, see C115_violated.) -/
theorem C115_partial (C : Core K) (hC : SolverOpt C) (fuel n : ℕ) (st st' : State) (ret : List (List ℕ))
    (h : check C fuel n st = .ok (ret, st')) :
    (ret = [] ↔ st' = st) ∧ ∃ ds, C.samples n st = .ok ds ∧
      (ret = [] → ∀ d ∈ ds, st.goal.evalOnDict C.toSage d = .ok true) ∧
      ∀ b ∈ ret, b ≠ [] ∧ (∃ i < st.hyps.length, i ∉ b) ∧
        ∃ d₀ ∈ ds, ∃ near, C.more n st d₀ = .ok near ∧ ∃ d ∈ d₀ :: near, st.goal.evalOnDict C.toSage d = .ok false ∧
          ∀ i, i ∈ b ↔ ∃ a, st.hyps[i]? = some a ∧ a.evalOnDict C.toSage d = .ok (some true) := by
  cases fuel with
  | zero => cases h
  | succ fuel =>
    unfold check at h
    simp only [bind, Except.bind] at h
    cases hr : round C n st with
    | error e => rw [hr] at h; cases h
    | ok r =>
      obtain ⟨bads, o⟩ := r
      rw [hr] at h
      cases o with
      | none =>
        cases h
        obtain ⟨ds, hds, ht⟩ := round_none hr
        have hret : bads = [] := by
          unfold round at hr
          simp only [bind, Except.bind] at hr
          split at hr
          · cases hr
          · split at hr
            · cases hr
            · split at hr
              · cases hr; rfl
              · split at hr
                · cases hr
                · split at hr
                  · cases hr
                  · split at hr <;> cases hr
        subst hret
        exact ⟨by simp, ds, hds, fun _ => ht, by simp⟩
      | some st₁ =>
        simp only at h
        cases hc : check C fuel (n + 1) st₁ with
        | error e => rw [hc] at h; cases h
        | ok out =>
          rw [hc] at h
          cases h
          -- the hypotheses become fewer
          have hlen : out.2.hyps.length < st.hyps.length := by
            obtain ⟨i, hi⟩ := round_some hr
            obtain ⟨k, _, hk, _⟩ := check_rounds C fuel (n + 1) st₁ out.2 out.1 hc
            obtain ⟨ps, _, h2, _⟩ := C41_promotion C (n + 1) k st₁ out.2 hk
            have h3 := h2.length_eq
            have h4 := promote_hyps hi
            rw [List.length_append] at h3
            omega
          have hne : out.2 ≠ st := fun he => by rw [he] at hlen; exact lt_irrefl _ hlen
          unfold round at hr
          simp only [bind, Except.bind] at hr
          split at hr
          · cases hr
          · next ds hds =>
            split at hr
            · cases hr
            · next r hr' =>
              split at hr
              · cases hr
              · split at hr
                · cases hr
                · next cand hcand =>
                  split at hr
                  · cases hr
                  · next i rest hsort =>
                    split at hr
                    · cases hr
                    · cases hr
                      obtain ⟨hnd, hlt, hhit, hmin⟩ := hC _ _ _ _ (goodHyps_solve hcand)
                      have hi : i ∈ cand := by
                        have : i ∈ sortCand st cand := by rw [hsort]; simp
                        exact List.mem_mergeSort.1 this
                      have hr2 : r.2 ≠ [] := by
                        intro h0
                        have h1 := hmin [] (by simp) (by simp) (by rw [h0]; simp)
                        have h2 : (weightHyps st).getD i 0 ≤ (cand.map fun i => (weightHyps st).getD i 0).sum :=
                          List.single_le_sum (by simp) _ (List.mem_map.2 ⟨i, hi, rfl⟩)
                        have h3 : 0 < (weightHyps st).getD i 0 := by
                          rw [weight_getD st (hlt i hi)]; exact hypWeight_pos _ _
                        rw [List.map_nil, List.sum_nil] at h1
                        omega
                      refine ⟨⟨fun h => absurd h hr2, fun h => absurd h hne⟩, ds, hds, fun h => absurd h hr2, fun b hb => ?_⟩
                      refine ⟨allBads_nonempty C n st ds r.1 r.2 hr' b hb, ?_, ?_⟩
                      · obtain ⟨i, hi, hib⟩ := hhit b hb
                        exact ⟨i, hlt i hi, hib⟩
                      · obtain ⟨d₀, hd₀, near, hnear, d, hd, hg, htrue⟩ := allBads_from C n st ds r.1 r.2 hr' b hb
                        refine ⟨d₀, hd₀, near, hnear, d, hd, hg, fun i => ?_⟩
                        rw [trueHyps_spec C.toSage d st.hyps 0 b htrue i]
                        constructor
                        · rintro ⟨m, a, h1, h2⟩
                          rw [Nat.zero_add] at h1
                          subst h1
                          exact ⟨a, h2⟩
                        · rintro ⟨a, h2⟩
                          exact ⟨i, a, by simp, h2⟩

theorem ret_ok {α : Type} {r : Except GErr α} {a : α} (h : r.toOption = some a) : r = .ok a := by
  cases r with
  | error e => cases h
  | ok b => exact congrArg _ (Option.some.inj h)

/-- `x0 > 0, x1 > 0, x2 > 0 ⊢ x2 + 1 > 0` -/
def retState : State :=
  ⟨[⟨MPoly.var 0, .gt, [0]⟩, ⟨MPoly.var 1, .gt, [1]⟩, ⟨MPoly.var 2, .gt, [2]⟩],
    ⟨⟨(MPoly.var 2).add (MPoly.const 1), .gt, [2]⟩, [], []⟩, [0, 1, 2]⟩

/-- **C115** is violated in that a returned set can be contained in another one, although such sets are filtered out
(comment at `grf.sage:877`): only the earlier ones are compared with the new one. For the valid sequent
`x0 > 0, x1 > 0, x2 > 0 ⊢ x2 + 1 > 0` with a sample point where the first two hypotheses are true and a point near it where
only the first one is, both sets are returned. -/
theorem C115_violated : ∃ (C : Core ℚ) (st' : State), SageOK C.toSage ∧ SolverOpt C ∧
    check C 2 0 retState = .ok ([[0, 1], [0]], st') ∧
    ∀ ρ : ℕ → ℚ, (∀ h ∈ retState.hyps, h.holds ρ) → retState.goal.main.holds ρ := by
  refine ⟨testCore [[(0, 1), (1, 1), (2, -2)]] [[(0, 1), (1, -1), (2, -2)]],
    ⟨[⟨MPoly.var 0, .gt, [0]⟩, ⟨MPoly.var 1, .gt, [1]⟩],
      ⟨⟨(MPoly.var 2).add (MPoly.const 1), .gt, [2]⟩, [⟨MPoly.var 2, .gt, [2]⟩], []⟩, [0, 1]⟩, testSage_ok,
    fun _ _ _ _ h => bruteSolve_opt h, ret_ok (by decide +kernel), ?_⟩
  intro ρ h
  have h2 : (0 : ℚ) < ρ 2 := by
    have := h ⟨MPoly.var 2, .gt, [2]⟩ (by simp [retState])
    simpa [Atom.holds, rel, MPoly.eval, MPoly.var, Mono.evalFrom] using this
  show rel .gt (((MPoly.var 2).add (MPoly.const 1)).eval ρ) 0
  simp only [rel, MPoly.eval_add]
  simp [MPoly.eval, MPoly.var, MPoly.const, Mono.evalFrom]
  linarith

/-- The hypotheses of C115_partial are met by this run. -/
example : ∃ (C : Core ℚ) (st' : State), SolverOpt C ∧ check C 2 0 retState = .ok ([[0, 1], [0]], st') := by
  obtain ⟨C, st', _, h2, h3, _⟩ := C115_violated
  exact ⟨C, st', h2, h3⟩

end Verif.Grf
