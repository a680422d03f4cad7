import Verif.Grf.PropsStale

/-!
# C105: reported counterexamples

`check` raises `Counterexample!` at a point where the goal, with the promoted hypotheses as they are after the
reductions, is false and the remaining hypotheses are true.
-/

set_option linter.unusedSectionVars false

namespace Verif.Grf

variable {K : Type} [Field K] [LinearOrder K] [IsStrictOrderedRing K]

/-- Sage computes in the ring with the variables `x0, ..., x(n-1)`. -/
structure RingOK (S : Sage K) (n : ℕ) : Prop where
  reduce : ∀ (p : MPoly) (B : List MPoly), (∀ v ∈ p.vars, v < n) → (∀ b ∈ B, ∀ v ∈ b.vars, v < n) →
    ∀ v ∈ (S.reduce p B).vars, v < n
  gbasis : ∀ ps : List MPoly, (∀ p ∈ ps, ∀ v ∈ p.vars, v < n) → ∀ b ∈ S.gbasis ps, ∀ v ∈ b.vars, v < n

/-- The sample points, and the points that local search finds from them, give values to all variables; their
computation may raise, but not the exception that reports a counterexample. -/
structure PointsOK (C : Core K) (n : ℕ) : Prop where
  samples : ∀ k st ds, C.samples k st = .ok ds → ∀ d ∈ ds, ∀ v < n, (d.lookup v).isSome
  more : ∀ k st d ds, (∀ v < n, (d.lookup v).isSome) → C.more k st d = .ok ds → ∀ e ∈ ds, ∀ v < n, (e.lookup v).isSome
  raises : ∀ k st, C.samples k st ≠ .error .counterexample ∧ ∀ d, C.more k st d ≠ .error .counterexample

theorem err_of_match {α : Type} {r : Except GErr α}
    (h : (match r with | .error .counterexample => true | _ => false) = true) : r = .error .counterexample := by
  split at h
  · rfl
  · cases h

theorem evalOnDict_ne_cex (S : Sage K) (a : Atom) (d : Dict K) : a.evalOnDict S d ≠ .error .counterexample := by
  unfold Atom.evalOnDict
  split
  · split
    · simp
    · split <;> simp
  · simp

theorem evalHyps_ne_cex (S : Sage K) (d : Dict K) : ∀ hs : List Atom, evalHyps S d hs ≠ .error .counterexample
  | [] => by simp [evalHyps]
  | a :: hs => by
    unfold evalHyps
    simp only [bind, Except.bind]
    have := evalOnDict_ne_cex S a d
    cases h : a.evalOnDict S d with
    | error e => rw [h] at this; simpa using this
    | ok r =>
      simp only
      split
      · simp
      · exact evalHyps_ne_cex S d hs

theorem goal_ne_cex (S : Sage K) (g : Goal) (d : Dict K) : g.evalOnDict S d ≠ .error .counterexample := by
  unfold Goal.evalOnDict
  simp only [bind, Except.bind]
  have := evalOnDict_ne_cex S g.main d
  cases h : g.main.evalOnDict S d with
  | error e => rw [h] at this; simpa using this
  | ok r =>
    simp only
    split
    · simp
    · exact evalHyps_ne_cex S d _

theorem trueHyps_ne_cex (S : Sage K) (d : Dict K) : ∀ (hs : List Atom) (j : ℕ),
    trueHyps S d j hs ≠ .error .counterexample
  | [], j => by simp [trueHyps]
  | a :: hs, j => by
    unfold trueHyps
    simp only [bind, Except.bind]
    have := evalOnDict_ne_cex S a d
    cases h : a.evalOnDict S d with
    | error e => rw [h] at this; simpa using this
    | ok r =>
      simp only
      have := trueHyps_ne_cex S d hs (j + 1)
      cases h2 : trueHyps S d (j + 1) hs with
      | error e => rw [h2] at this; simpa using this
      | ok r => simp

/-- If all indices are listed, all hypotheses are true. -/
theorem trueHyps_all (S : Sage K) (d : Dict K) : ∀ (hs : List Atom) (j : ℕ) (l : List ℕ),
    trueHyps S d j hs = .ok l → l.length ≤ hs.length ∧
      (l.length = hs.length → ∀ a ∈ hs, a.evalOnDict S d = .ok (some true))
  | [], j, l, h => by cases h; simp
  | b :: hs, j, l, h => by
    unfold trueHyps at h
    simp only [bind, Except.bind] at h
    cases h1 : b.evalOnDict S d with
    | error e => rw [h1] at h; cases h
    | ok r =>
      rw [h1] at h
      simp only at h
      cases h2 : trueHyps S d (j + 1) hs with
      | error e => rw [h2] at h; cases h
      | ok rest =>
        rw [h2] at h
        obtain ⟨i1, i2⟩ := trueHyps_all S d hs (j + 1) rest h2
        cases h
        split
        · next hr =>
          refine ⟨by simpa using i1, fun hl a ha => ?_⟩
          rcases List.mem_cons.1 ha with rfl | ha
          · rw [h1, hr]
          · exact i2 (by simpa using hl) a ha
        · exact ⟨by simp; omega, fun hl => by simp at hl; omega⟩

/-- Where the exception comes from. -/
theorem badLoop_cex (S : Sage K) (st : State) : ∀ (ds : List (Dict K)) (bads : List (List ℕ)),
    badLoop S st ds bads = .error .counterexample →
    ∃ d ∈ ds, st.goal.evalOnDict S d = .ok false ∧ ∀ a ∈ st.hyps, a.evalOnDict S d = .ok (some true)
  | [], bads, h => by cases h
  | d :: ds, bads, h => by
    unfold badLoop at h
    simp only [bind, Except.bind] at h
    have hg := goal_ne_cex S st.goal d
    cases h1 : st.goal.evalOnDict S d with
    | error e => rw [h1] at h hg; simp at h hg; exact absurd h hg
    | ok b =>
      rw [h1] at h
      cases b with
      | true =>
        obtain ⟨e, he, h'⟩ := badLoop_cex S st ds bads (by simpa using h)
        exact ⟨e, List.mem_cons_of_mem _ he, h'⟩
      | false =>
        simp only [Bool.false_eq_true, if_false] at h
        have ht := trueHyps_ne_cex S d st.hyps 0
        cases h2 : trueHyps S d 0 st.hyps with
        | error e => rw [h2] at h ht; simp at h ht; exact absurd h ht
        | ok bad =>
          rw [h2] at h
          simp only at h
          split at h
          · next hl => exact ⟨d, by simp, h1, (trueHyps_all S d st.hyps 0 bad h2).2 hl⟩
          · obtain ⟨e, he, h'⟩ := badLoop_cex S st ds _ h
            exact ⟨e, List.mem_cons_of_mem _ he, h'⟩

theorem allBads_cex (C : Core K) (hC : ∀ k st d, C.more k st d ≠ .error .counterexample) (k : ℕ) (st : State) :
    ∀ ds : List (Dict K), allBads C k st ds = .error .counterexample →
    ∃ d₀ ∈ ds, ∃ d, (d = d₀ ∨ ∃ near, C.more k st d₀ = .ok near ∧ d ∈ near) ∧
      st.goal.evalOnDict C.toSage d = .ok false ∧ ∀ a ∈ st.hyps, a.evalOnDict C.toSage d = .ok (some true)
  | [], h => by cases h
  | d₀ :: ds, h => by
    unfold allBads at h
    simp only [bind, Except.bind] at h
    cases h1 : badSubsets C k st d₀ with
    | error e =>
      rw [h1] at h
      simp only [Except.error.injEq] at h
      subst h
      unfold badSubsets at h1
      simp only [bind, Except.bind] at h1
      have hg := goal_ne_cex C.toSage st.goal d₀
      cases h2 : st.goal.evalOnDict C.toSage d₀ with
      | error e => rw [h2] at h1 hg; simp at h1 hg; exact absurd h1 hg
      | ok b =>
        rw [h2] at h1
        cases b with
        | true => cases h1
        | false =>
          simp only [Bool.false_eq_true, if_false] at h1
          split at h1
          · cases h1
          · cases h3 : C.more k st d₀ with
            | error e =>
              rw [h3] at h1
              simp only [Except.error.injEq] at h1
              subst h1
              exact absurd h3 (hC k st d₀)
            | ok near =>
              rw [h3] at h1
              simp only at h1
              cases h4 : badLoop C.toSage st (d₀ :: near) [] with
              | error e =>
                rw [h4] at h1
                simp only [Except.error.injEq] at h1
                subst h1
                obtain ⟨d, hd, h'⟩ := badLoop_cex C.toSage st _ _ h4
                refine ⟨d₀, by simp, d, ?_, h'⟩
                rcases List.mem_cons.1 hd with rfl | hd
                · exact Or.inl rfl
                · exact Or.inr ⟨near, h3, hd⟩
              | ok bads => rw [h4] at h1; cases h1
    | ok b =>
      rw [h1] at h
      simp only at h
      cases h2 : allBads C k st ds with
      | error e =>
        rw [h2] at h
        simp only [Except.error.injEq] at h
        subst h
        obtain ⟨e, he, h'⟩ := allBads_cex C hC k st ds h2
        exact ⟨e, List.mem_cons_of_mem _ he, h'⟩
      | ok r =>
        rw [h2] at h
        simp only at h
        split at h <;> cases h

/-- The last round of a run that reports a counterexample. -/
theorem check_cex (C : Core K) (hS : SageOK C.toSage) {n : ℕ} (hC : PointsOK C n) : ∀ (fuel k : ℕ) (st : State),
    check C fuel k st = .error .counterexample →
    ∃ j st' ds d₀ d, Rounds C k st j st' ∧ C.samples (k + j) st' = .ok ds ∧ d₀ ∈ ds ∧
      (d = d₀ ∨ ∃ near, C.more (k + j) st' d₀ = .ok near ∧ d ∈ near) ∧
      st'.goal.evalOnDict C.toSage d = .ok false ∧ ∀ a ∈ st'.hyps, a.evalOnDict C.toSage d = .ok (some true)
  | 0, k, st, h => by cases h
  | fuel + 1, k, st, h => by
    unfold check at h
    simp only [bind, Except.bind] at h
    cases hr : round C k st with
    | error e =>
      rw [hr] at h
      simp only [Except.error.injEq] at h
      subst h
      unfold round at hr
      simp only [bind, Except.bind] at hr
      cases h1 : C.samples k st with
      | error e =>
        rw [h1] at hr
        simp only [Except.error.injEq] at hr
        subst hr
        exact absurd h1 (hC.raises k st).1
      | ok ds =>
        rw [h1] at hr
        simp only at hr
        cases h2 : allBads C k st ds with
        | error e =>
          rw [h2] at hr
          simp only [Except.error.injEq] at hr
          subst hr
          obtain ⟨d₀, hd₀, d, hd, h'⟩ := allBads_cex C (fun k st => (hC.raises k st).2) k st ds h2
          exact ⟨0, st, ds, d₀, d, .refl _ _, h1, hd₀, hd, h'⟩
        | ok r =>
          rw [h2] at hr
          simp only at hr
          split at hr
          · cases hr
          · unfold goodHyps at hr
            cases hs : C.solve st.hyps.length r.2 (weightHyps st) with
            | none => rw [hs] at hr; cases hr
            | some cand =>
              rw [hs] at hr
              simp only at hr
              split at hr
              · cases hr
              · next i _ _ =>
                unfold State.promote at hr
                cases hi : st.hyps[i]? with
                | none => rw [hi] at hr; cases hr
                | some a =>
                  rw [hi] at hr
                  simp only [bind, Except.bind] at hr
                  rw [addHyp_ok hS] at hr
                  cases hr
    | ok r =>
      rw [hr] at h
      obtain ⟨bads, o⟩ := r
      cases o with
      | none => cases h
      | some st₁ =>
        simp only at h
        cases hc : check C fuel (k + 1) st₁ with
        | ok out => rw [hc] at h; cases h
        | error e =>
          rw [hc] at h
          simp only [Except.error.injEq] at h
          subst h
          obtain ⟨j, st', ds, d₀, d, h1, h2⟩ := check_cex C hS hC fuel (k + 1) st₁ hc
          refine ⟨j + 1, st', ds, d₀, d, .step k j st st₁ st' bads hr h1, ?_⟩
          rw [show k + (j + 1) = k + 1 + j by ring]
          exact h2

/-- What is kept by the rounds when there is at most one equation. -/
structure PInv (n : ℕ) (hyps : List Atom) (main : Atom) (st : State) (ps : List Atom) : Prop where
  perm : (ps ++ st.hyps).Perm hyps
  main : st.goal.main = main
  sem : ∀ ρ : ℕ → K, (∀ a ∈ st.goal.hyps, a.holds ρ) ↔ ∀ a ∈ ps, a.holds ρ
  gb : ∀ ρ : ℕ → K, (∀ a ∈ st.goal.hyps, a.holds ρ) → ∀ b ∈ st.goal.gb, b.eval ρ = 0
  noeq : (∀ a ∈ ps, a.op ≠ .eq) → st.goal.gb = []
  vars : ∀ a ∈ st.goal.hyps, ∀ v ∈ a.vars ++ a.poly.vars, v < n
  gbvars : ∀ b ∈ st.goal.gb, ∀ v ∈ b.vars, v < n

/-- One promotion, of any hypothesis. -/
theorem pinv_promote (S : Sage K) (hS : SageOK S) {n : ℕ} (hR : RingOK S n) {hyps : List Atom}
    {main : Atom} (hv : ∀ a ∈ hyps, ∀ v ∈ a.vars ++ a.poly.vars, v < n)
    (heq : hyps.countP (fun a => decide (a.op = .eq)) ≤ 1) {st st' : State} {i : ℕ} (hi : st.promote S i = .ok st')
    {ps : List Atom} (hp : PInv (K := K) n hyps main st ps) : ∃ ps', PInv (K := K) n hyps main st' ps' := by
  obtain ⟨a, g, ha, hg, rfl⟩ := promote_ok hi
  refine ⟨ps ++ [a], ?_⟩
  obtain ⟨g', hg', hm, hsem⟩ := (C37_partial S hS st.goal a).1
  rw [hg] at hg'
  cases hg'
  have hperm : ((ps ++ [a]) ++ (st.hyps.take i ++ st.hyps.drop (i + 1))).Perm hyps := by
    rw [List.append_assoc]
    exact (List.Perm.append_left ps (take_drop_perm ha)).trans hp.perm
  have hav : ∀ v ∈ a.vars ++ a.poly.vars, v < n := hv a (hperm.subset (by simp))
  have hone : a.op ≠ .eq ∨ st.goal.gb = [] := by
    by_cases he : a.op = .eq
    · refine Or.inr (hp.noeq fun b hb hbe => ?_)
      have := hperm.countP_eq (fun a => decide (a.op = .eq))
      rw [List.countP_append, List.countP_append] at this
      have h1 : 0 < ps.countP (fun a => decide (a.op = .eq)) := List.countP_pos_iff.2 ⟨b, hb, by simpa using hbe⟩
      have h2 : [a].countP (fun a => decide (a.op = .eq)) = 1 := by simp [he]
      omega
    · exact Or.inl he
  have hs := fun ρ : ℕ → K => (hsem ρ).2 hone (hp.gb ρ)
  have hform := addHyp_ok hS st.goal a
  rw [hg] at hform
  simp only [Except.ok.injEq] at hform
  refine ⟨hperm, hm.trans hp.main, ?_, fun ρ => (hs ρ).2, ?_, ?_, ?_⟩
  · intro ρ
    rw [(hs ρ).1, hp.sem]
    simp [or_imp, forall_and]
  · intro hno
    show g.gb = []
    rw [hform]
    have : a.op ≠ .eq := hno a (by simp)
    simp only [if_neg this]
    exact hp.noeq fun b hb => hno b (by simp [hb])
  · show ∀ b ∈ g.hyps, _
    rw [hform]
    intro b hb
    simp only [List.mem_append, List.mem_singleton] at hb
    rcases hb with hb | rfl
    · split at hb
      · obtain ⟨c, hc, rfl⟩ := List.mem_map.1 hb
        intro v hvv
        rcases List.mem_append.1 hvv with hvv | hvv
        · exact hp.vars c hc v (by simp [hvv])
        · refine hR.reduce c.poly _ (fun w hw => hp.vars c hc w (by simp [hw])) ?_ v hvv
          refine hR.gbasis _ fun p hpm w hw => ?_
          rw [List.mem_singleton] at hpm
          subst hpm
          exact hav w (by simp [hw])
      · exact hp.vars b hb
    · split
      · intro v hvv
        rcases List.mem_append.1 hvv with hvv | hvv
        · exact hav v (by simp [hvv])
        · exact hR.reduce a.poly _ (fun w hw => hav w (by simp [hw])) hp.gbvars v hvv
      · exact hav
  · show ∀ b ∈ g.gb, _
    rw [hform]
    intro b hb
    simp only at hb
    split at hb
    · refine hR.gbasis _ (fun p hpm w hw => ?_) b hb
      rcases List.mem_append.1 hpm with hpm | hpm
      · exact hp.gbvars p hpm w hw
      · rw [List.mem_singleton] at hpm
        subst hpm
        exact hav w (by simp [hw])
    · exact hp.gbvars b hb

theorem pinv_rounds (C : Core K) (hS : SageOK C.toSage) {n : ℕ} (hR : RingOK C.toSage n) {hyps : List Atom}
    {main : Atom} (hv : ∀ a ∈ hyps, ∀ v ∈ a.vars ++ a.poly.vars, v < n)
    (heq : hyps.countP (fun a => decide (a.op = .eq)) ≤ 1) (k j : ℕ) (st st' : State) (h : Rounds C k st j st') :
    ∀ ps, PInv (K := K) n hyps main st ps → ∃ ps', PInv (K := K) n hyps main st' ps' := by
  induction h with
  | refl => exact fun ps hp => ⟨ps, hp⟩
  | step k j st st₁ st' bads h hs ih =>
    intro ps hp
    obtain ⟨i, hi⟩ := round_some h
    obtain ⟨ps', hp'⟩ := pinv_promote C.toSage hS hR hv heq hi hp
    exact ih ps' hp'

/-- The sequent fails at a point where the goal is false and the remaining hypotheses are true. -/
theorem pinv_point (S : Sage K) {n : ℕ} (hn : 0 < n) {hyps : List Atom} {main : Atom}
    (hv : ∀ a ∈ main :: hyps, ∀ v ∈ a.vars ++ a.poly.vars, v < n) {st : State} {ps : List Atom}
    (hp : PInv (K := K) n hyps main st ps) {d : Dict K} (htot : ∀ v < n, (d.lookup v).isSome)
    (hg : st.goal.evalOnDict S d = .ok false) (hh : ∀ a ∈ st.hyps, a.evalOnDict S d = .ok (some true))
    (ρ : ℕ → K) (hρ : ∀ i x, d.lookup i = some x → ρ i = x) : (∀ a ∈ hyps, a.holds ρ) ∧ ¬ main.holds ρ := by
  have hne : d ≠ [] := by
    rintro rfl
    have := htot 0 hn
    simp at this
  have hcov : ∀ a : Atom, (∀ v ∈ a.vars ++ a.poly.vars, v < n) → Covers d a := fun a ha =>
    ⟨hne, fun v hv => htot v (ha v (by simp [hv])), fun v hv => htot v (ha v (by simp [hv]))⟩
  obtain ⟨b, hb, hb'⟩ := C32_goal S st.goal d ρ hρ (hcov _ (by rw [hp.main]; exact hv main (by simp)))
    fun a ha => hcov a (hp.vars a ha)
  rw [hg] at hb
  cases hb
  have hfalse : ¬ ((∀ h ∈ st.goal.hyps, h.holds ρ) → st.goal.main.holds ρ) := fun hh => absurd (hb'.2 hh) (by decide)
  push Not at hfalse
  refine ⟨fun a ha => ?_, hp.main ▸ hfalse.2⟩
  rcases List.mem_append.1 (hp.perm.symm.subset ha) with ha' | ha'
  · exact (hp.sem ρ).1 hfalse.1 a ha'
  · have hc := hcov a (hv a (by simp [ha]))
    have := hh a ha'
    rw [evalOnDict_covered _ hc] at this
    simp only [Except.ok.injEq, Option.some.injEq] at this
    rw [test_iff, eval_ptOf hρ hc.2.2] at this
    exact this

/-- **C105, partial** (missing: sequents with two or more equations, see `C105_violated`). If `check` reports a
counterexample, then one of the points that it has looked at (a sample point or a point found from one by local search)
is a counterexample to the sequent: there the hypotheses are true and the goal is false. -/
theorem C105_partial (C : Core K) (hS : SageOK C.toSage) (n : ℕ) (hn : 0 < n) (hR : RingOK C.toSage n)
    (hC : PointsOK C n) (hyps : List Atom) (main : Atom) (hv : ∀ a ∈ main :: hyps, ∀ v ∈ a.vars ++ a.poly.vars, v < n)
    (heq : hyps.countP (fun a => decide (a.op = .eq)) ≤ 1) (fuel : ℕ) (ids : List ℕ)
    (h : check C fuel 0 ⟨hyps, ⟨main, [], []⟩, ids⟩ = .error .counterexample) :
    ∃ k st ds, C.samples k st = .ok ds ∧ ∃ d₀ ∈ ds, ∃ d, (d = d₀ ∨ ∃ near, C.more k st d₀ = .ok near ∧ d ∈ near) ∧
      ∀ ρ : ℕ → K, (∀ i x, d.lookup i = some x → ρ i = x) → (∀ a ∈ hyps, a.holds ρ) ∧ ¬ main.holds ρ := by
  obtain ⟨j, st', ds, d₀, d, hr, hds, hd₀, hd, hg, hh⟩ := check_cex C hS hC fuel 0 _ h
  obtain ⟨ps, hp⟩ := pinv_rounds C hS hR (hyps := hyps) (main := main) (fun a ha => hv a (by simp [ha])) heq 0 j _ _ hr []
    ⟨List.Perm.refl _, rfl, fun ρ => Iff.rfl, fun ρ _ b hb => by simp at hb, fun _ => rfl, by simp, by simp⟩
  have htot : ∀ v < n, (d.lookup v).isSome := by
    have h0 := hC.samples _ _ _ hds d₀ hd₀
    rcases hd with rfl | ⟨near, h1, h2⟩
    · exact h0
    · exact hC.more _ _ _ _ h0 h1 d h2
  exact ⟨_, st', ds, hds, d₀, hd₀, d, hd, fun ρ hρ => pinv_point C.toSage hn hv hp htot hg hh ρ hρ⟩

/-- The same for the sampling core of the program, where only the points of local search need an assumption. -/
theorem C105_cad_partial (S : Sage ℚ) (E : CadEnv) (n numSps : ℕ) (hn : 0 < n) (hS : SageOK S) (hR : RingOK S n)
    (extra : ℕ → State → List MPoly) (more : ℕ → State → Dict ℚ → Except GErr (List (Dict ℚ))) (solve)
    (hmore : ∀ k st d ds, (∀ v < n, (d.lookup v).isSome) → more k st d = .ok ds → ∀ e ∈ ds, ∀ v < n, (e.lookup v).isSome)
    (hraise : ∀ k st d, more k st d ≠ .error .counterexample) (hyps : List Atom) (main : Atom)
    (hv : ∀ a ∈ main :: hyps, ∀ v ∈ a.vars ++ a.poly.vars, v < n)
    (heq : hyps.countP (fun a => decide (a.op = .eq)) ≤ 1) (fuel : ℕ) (ids : List ℕ)
    (h : check (cadCore S E n numSps extra more solve) fuel 0 ⟨hyps, ⟨main, [], []⟩, ids⟩ = .error .counterexample) :
    ∃ ρ : ℕ → ℚ, (∀ a ∈ hyps, a.holds ρ) ∧ ¬ main.holds ρ := by
  have hP : PointsOK (cadCore S E n numSps extra more solve) n := by
    refine ⟨fun k st ds hds d hd v hvn => ((C58_assignments S E n _ _ _ _ ds hds d hd).2.2 v).2 hvn, hmore,
      fun k st => ⟨?_, hraise k st⟩⟩
    show samplePtDicts S E n _ _ _ _ ≠ _
    have hstack : ∀ (ord : List ℕ) (next : List MPoly) (cs : List (List ℚ)),
        stackUnion S E (some st.goal) ord next numSps st.hyps cs ≠ .error .counterexample := by
      intro ord next cs
      induction cs with
      | nil => simp [stackUnion]
      | cons c cs ih =>
        unfold stackUnion stackOverCell
        simp only [bind, Except.bind]
        have := goal_ne_cex S st.goal (spDict ord c)
        cases h1 : st.goal.evalOnDict S (spDict ord c) with
        | error e => rw [h1] at this; simpa using this
        | ok b =>
          simp only
          cases h2 : stackUnion S E (some st.goal) ord next numSps st.hyps cs with
          | error e => rw [h2] at ih; cases b <;> simpa using ih
          | ok r => cases b <;> simp
    have hlift : ∀ (ord : List ℕ) (sets : List (List MPoly)) (cs : List (List ℚ)),
        liftAll S E (some st.goal) ord numSps st.hyps sets cs ≠ .error .counterexample := by
      intro ord sets
      induction sets with
      | nil => simp [liftAll]
      | cons next sets ih =>
        intro cs
        unfold liftAll liftLevel
        simp only [bind, Except.bind]
        have := hstack ord next cs
        cases h1 : stackUnion S E (some st.goal) ord next numSps st.hyps cs with
        | error e => rw [h1] at this; simpa using this
        | ok r => exact ih _
    unfold samplePtDicts
    simp only [bind, Except.bind]
    split
    · next v rest base sets h1 h2 =>
      have := hlift (projOrd (filterProjSet (extra k st ++ st.goal.main.poly :: st.goal.hyps.map Atom.poly))
        (List.range n)) sets ((sectorSps E [] (isoRootIntvls E base) 1 st.hyps v).map fun x => [x])
      split
      · next e he => rw [he] at this; simpa using this
      · simp
    · simp
  obtain ⟨_, _, _, _, d₀, _, d, _, hd⟩ := C105_partial (cadCore S E n numSps extra more solve) hS n hn hR hP hyps main hv
    heq fuel ids h
  refine ⟨ptOf d, hd _ fun i x hx => ?_⟩
  rw [ptOf, hx]; rfl

/-- A core with the sample point `x0 = 1, x1 = 0` in the first round and `x0 = x1 = 1` in the later ones. -/
def cexCore : Core ℚ :=
  { testSage with samples := fun k _ => .ok (if k = 0 then [[(0, 1), (1, 0)]] else [[(0, 1), (1, 1)]]),
                  more := fun _ _ _ => .ok [], solve := bruteSolve }

/-- The false sequent `x0 > 0, x1 - x0 = 0 ⊢ x1 - 1 > 0` meets the hypotheses of `C105_partial`: the first round promotes
the equation, the second one reports the counterexample. -/
example : let hyps : List Atom := [⟨MPoly.var 0, .gt, [0]⟩, ⟨[([0, 1], 1), ([1], -1)], .eq, [0, 1]⟩]
    let main : Atom := ⟨[([0, 1], 1), ([], -1)], .gt, [1]⟩
    SageOK cexCore.toSage ∧ RingOK cexCore.toSage 2 ∧ PointsOK cexCore 2 ∧
    (∀ a ∈ main :: hyps, ∀ v ∈ a.vars ++ a.poly.vars, v < 2) ∧ hyps.countP (fun a => decide (a.op = .eq)) ≤ 1 ∧
    check cexCore 2 0 ⟨hyps, ⟨main, [], []⟩, [0, 1]⟩ = .error .counterexample := by
  intro hyps main
  refine ⟨testSage_ok, ⟨?_, fun ps h => h⟩, ⟨?_, ?_, ?_⟩, by decide +kernel, by decide +kernel, ?_⟩
  · intro p B hp _ v hv
    simp only [cexCore, testSage] at hv
    split at hv
    · simp [MPoly.vars] at hv
    · exact hp v hv
  · intro k st ds h d hd v hv
    simp only [cexCore, Except.ok.injEq] at h
    subst h
    have hv' : v = 0 ∨ v = 1 := by omega
    split at hd <;> simp only [List.mem_singleton] at hd <;> subst hd <;> rcases hv' with rfl | rfl <;> decide
  · intro k st d ds _ h
    simp only [cexCore, Except.ok.injEq] at h
    subst h
    simp
  · intro k st
    simp [cexCore]
  · have p1 : State.promote cexCore.toSage ⟨hyps, ⟨main, [], []⟩, [0, 1]⟩ 1 =
        .ok ⟨[⟨MPoly.var 0, .gt, [0]⟩], ⟨main, [⟨[([0, 1], 1), ([1], -1)], .eq, [0, 1]⟩], [[([0, 1], 1), ([1], -1)]]⟩, [0]⟩ :=
      ok_of_toOption (by decide +kernel)
    have a1 : allBads cexCore 0 ⟨hyps, ⟨main, [], []⟩, [0, 1]⟩ [[(0, 1), (1, 0)]] = .ok (false, [[0]]) :=
      ok_of_toOption (by decide +kernel)
    have g1 : goodHyps cexCore ⟨hyps, ⟨main, [], []⟩, [0, 1]⟩ [[0]] = .ok [1] := ok_of_toOption (by decide +kernel)
    have r2 : round cexCore 1 ⟨[⟨MPoly.var 0, .gt, [0]⟩], ⟨main, [⟨[([0, 1], 1), ([1], -1)], .eq, [0, 1]⟩],
        [[([0, 1], 1), ([1], -1)]]⟩, [0]⟩ = .error .counterexample := by
      have a2 : allBads cexCore 1 ⟨[⟨MPoly.var 0, .gt, [0]⟩], ⟨main, [⟨[([0, 1], 1), ([1], -1)], .eq, [0, 1]⟩],
        [[([0, 1], 1), ([1], -1)]]⟩, [0]⟩ [[(0, 1), (1, 1)]] = .error .counterexample := err_of_match (by decide +kernel)
      unfold round
      rw [show cexCore.samples 1 _ = .ok [[(0, 1), (1, 1)]] from rfl]
      simp only [bind, Except.bind]
      rw [a2]
    have r1 : round cexCore 0 ⟨hyps, ⟨main, [], []⟩, [0, 1]⟩ = .ok ([[0]], some
        ⟨[⟨MPoly.var 0, .gt, [0]⟩], ⟨main, [⟨[([0, 1], 1), ([1], -1)], .eq, [0, 1]⟩], [[([0, 1], 1), ([1], -1)]]⟩, [0]⟩) := by
      unfold round
      rw [show cexCore.samples 0 _ = .ok [[(0, 1), (1, 0)]] from rfl]
      simp only [bind, Except.bind]
      rw [a1]
      have hs : sortCand ⟨hyps, ⟨main, [], []⟩, [0, 1]⟩ [1] = [1] := List.mergeSort_singleton _
      simp only [g1, hs, p1]
      rfl
    unfold check
    rw [r1]
    simp only [bind, Except.bind]
    unfold check
    rw [r2]
    rfl

/-! ### The violation -/

/-- `x1 - x0^2` -/
def ceM : MPoly := [([2], -1), ([0, 1], 1)]
/-- `x1 + x0` -/
def ceF : MPoly := [([0, 1], 1), ([1], 1)]
/-- `2*x1` -/
def ceT : MPoly := [([0, 1], 2)]

/-- Sage functions for the example: the generators as a basis; `x1 + x0` and `x1 - x0` reduced by each other are `2*x1`
(in the order with `x0 > x1`). -/
def ceSage : Sage ℚ :=
  ⟨fun p B => if p = ceF ∧ B = [stE] then ceT else if p = stE ∧ B = [ceF] then ceT else p, fun ps => ps, fun _ _ => 1⟩

theorem ceSage_ok : SageOK ceSage := by
  refine ⟨?_, fun ps ρ => Iff.rfl, fun ps h => h⟩
  intro p B ρ h
  simp only [ceSage]
  split
  · next hp =>
    obtain ⟨rfl, rfl⟩ := hp
    have := h stE (by simp)
    simp [stE, ceF, ceT, MPoly.eval, Mono.evalFrom] at this ⊢
    linarith
  · split
    · next hp =>
      obtain ⟨rfl, rfl⟩ := hp
      have := h ceF (by simp)
      simp [stE, ceF, ceT, MPoly.eval, Mono.evalFrom] at this ⊢
      linarith
    · rfl

theorem ceSage_ring : RingOK ceSage 2 := by
  refine ⟨?_, fun ps h => h⟩
  intro p B hp _
  simp only [ceSage]
  have hT : ∀ v ∈ ceT.vars, v < 2 := by decide +kernel
  split
  · exact hT
  · split
    · exact hT
    · exact hp

/-- The polynomials of the example that are monic and linear in `x1`, with their constant coefficients. -/
def ceLin : List (MPoly × MPoly) := [(ceM, [([2], -1)]), (MPoly.var 1, []), (stE, [([1], -1)])]

/-- The root of a polynomial `x1 + b`. -/
def ceRoot : MPoly → Option ℚ
  | [t, u] => if t = ([0, 1], 1) ∧ u.1 = [] then some (-u.2) else if u = ([0, 1], 1) ∧ t.1 = [] then some (-t.2) else none
  | _ => none

/-- Right functions; for the polynomials of the example they are given explicitly. -/
noncomputable def ceEnv : CadEnv where
  roots := fun p =>
    if p = [([0, 1], 1)] ∨ p = [([1], 1)] then [(0, 1)]
    else if p = [([2], 1), ([1], -1)] ∨ p = [([1], 1), ([2], -1)] then [(0, 1), (1, 1)]
    else match ceRoot p with
      | some r => [(r, 1)]
      | none => (Classical.choose rootsOK_count).roots p
  rri := (Classical.choose rootsOK_count).rri
  uniform := fun _ _ _ _ l r => (l + r) / 2
  res := fun p q v =>
    if p.degreeIn v = 0 ∧ q.degreeIn v = 0 then [([], 1)]
    else match ceLin.lookup p, ceLin.lookup q with
      | some r, some s => if v = 1 then s.sub r else
        ofMv (Polynomial.resultant (inVar v (toMv p)) (inVar v (toMv q)))
      | _, _ => ofMv (Polynomial.resultant (inVar v (toMv p)) (inVar v (toMv q)))
  disc := fun p v =>
    if p.degreeIn v = 0 ∨ v = 1 ∧ (ceLin.lookup p).isSome then [([], 1)] else ofMv (inVar v (toMv p)).discr

theorem ceRoot_spec {p : MPoly} {r : ℚ} (h : ceRoot p = some r) (a : ℚ) : val p a = 0 ↔ a = r := by
  unfold ceRoot at h
  split at h
  · next t u =>
    obtain ⟨t1, t2⟩ := t
    obtain ⟨u1, u2⟩ := u
    split at h
    · next ht =>
      obtain ⟨h1, h2⟩ := ht
      cases h1
      cases h2
      cases h
      simp [val, MPoly.eval, Mono.evalFrom]
      constructor <;> intro h <;> linarith
    · split at h
      · next ht =>
        obtain ⟨h1, h2⟩ := ht
        cases h1
        cases h2
        cases h
        simp [val, MPoly.eval, Mono.evalFrom]
        constructor <;> intro h <;> linarith
      · cases h
  · cases h

theorem ceEnv_roots : RootsOK ℝ ceEnv := by
  have hE := (Classical.choose_spec rootsOK_count).1
  refine ⟨?_, hE.cover, hE.has, hE.uniq, hE.sep⟩
  intro p hp a
  simp only [ceEnv]
  split
  · next h =>
    rcases h with rfl | rfl <;> simp [val, MPoly.eval, Mono.evalFrom]
  split
  · next h =>
    rcases h with rfl | rfl <;> simp [val, MPoly.eval, Mono.evalFrom]
    · have : a ^ 2 + -a = a * (a - 1) := by ring
      rw [this, mul_eq_zero, sub_eq_zero]
      aesop
    · have : a + -a ^ 2 = -(a * (a - 1)) := by ring
      rw [this, neg_eq_zero, mul_eq_zero, sub_eq_zero]
      aesop
  split
  · next r hr =>
    rw [ceRoot_spec hr]
    simp
  · exact hE.roots p hp a

theorem toMv_ceLin {p r : MPoly} (h : ceLin.lookup p = some r) :
    inVar 1 (toMv p) = Polynomial.X + Polynomial.C (toMv r) ∧ (p, r) ∈ ceLin := by
  have hm : (p, r) ∈ ceLin := by
    unfold ceLin at h ⊢
    simp only [List.lookup_cons, List.lookup_nil] at h
    split at h
    · next h1 => cases h; rw [eq_of_beq h1]; simp
    · split at h
      · next h1 => cases h; rw [eq_of_beq h1]; simp
      · split at h
        · next h1 => cases h; rw [eq_of_beq h1]; simp
        · cases h
  refine ⟨?_, hm⟩
  have h2 : toMv p = MvPolynomial.X 1 + toMv r ∧ ∃ c k, toMv r = MvPolynomial.C c * MvPolynomial.X 0 ^ k := by
    simp only [ceLin, List.mem_cons, Prod.mk.injEq, List.not_mem_nil, or_false] at hm
    rcases hm with ⟨rfl, rfl⟩ | ⟨rfl, rfl⟩ | ⟨rfl, rfl⟩
    · refine ⟨?_, -1, 2, ?_⟩ <;> apply eq_of_aeval <;> intro ρ <;>
        simp [aeval_toMv, ceM, MPoly.eval, Mono.evalFrom, add_comm]
    · refine ⟨?_, 0, 0, ?_⟩ <;> apply eq_of_aeval <;> intro ρ <;>
        simp [aeval_toMv, MPoly.var, MPoly.eval, Mono.evalFrom]
    · refine ⟨?_, -1, 1, ?_⟩ <;> apply eq_of_aeval <;> intro ρ <;>
        simp [aeval_toMv, stE, MPoly.eval, Mono.evalFrom, add_comm]
  obtain ⟨h3, c, k, h4⟩ := h2
  rw [h3, h4]
  simp [inVar]

theorem normal_ceLin {p q r s : MPoly} (hp : (p, r) ∈ ceLin) (hq : (q, s) ∈ ceLin) : Normal (s.sub r) := by
  have h : ∀ a ∈ ceLin, ∀ b ∈ ceLin, (∀ t ∈ b.2.sub a.2, t.2 ≠ 0) ∧
      (∀ t ∈ b.2.sub a.2, t.1.getLast? ≠ some 0) ∧ ((b.2.sub a.2).map Prod.fst).Nodup := by decide +kernel
  obtain ⟨h1, h2, h3⟩ := h _ hp _ hq
  exact ⟨h1, h2, h3⟩

/-- The functions of the example are right. -/
theorem ceEnv_true : TrueElim ceEnv where
  res := by
    intro p q v _ _ hd
    simp only [ceEnv]
    rw [if_neg (by omega)]
    split
    · next r s hr hs =>
      split
      · next hv =>
        subst hv
        rw [(toMv_ceLin hr).1, (toMv_ceLin hs).1, toMv_sub, Polynomial.natDegree_X_add_C, Polynomial.natDegree_X_add_C,
          Polynomial.resultant_X_add_C_left _ _ _ (by simp)]
        simp
        ring
      · rw [toMv_ofMv]
    · rw [toMv_ofMv]
  disc := by
    intro p v _ hd
    simp only [ceEnv]
    split
    · next h =>
      rcases h with h | ⟨rfl, h⟩
      · omega
      · obtain ⟨r, hr⟩ := Option.isSome_iff_exists.1 h
        rw [(toMv_ceLin hr).1, toMv_const_one, Polynomial.discr_of_degree_eq_one (Polynomial.degree_X_add_C _)]
    · rw [toMv_ofMv]
  resConst := by
    intro p q v _ _ h1 h2
    simp only [ceEnv]
    rw [if_pos ⟨h1, h2⟩]; rfl
  discConst := by
    intro p v _ h
    simp only [ceEnv]
    rw [if_pos (Or.inl h)]; rfl
  resNormal := by
    intro p q v _ _
    simp only [ceEnv]
    split
    · exact normal_single _ (by decide) (by unfold Mono.Stripped; decide)
    · split
      · next r s hr hs =>
        split
        · exact normal_ceLin (toMv_ceLin hr).2 (toMv_ceLin hs).2
        · exact normal_ofMv _
      · exact normal_ofMv _
  discNormal := by
    intro p v _
    simp only [ceEnv]
    split
    · exact normal_single _ (by decide) (by unfold Mono.Stripped; decide)
    · exact normal_ofMv _

theorem ceEnv_uniform : UniformOK ceEnv := by
  intro tag b i j l r h
  constructor <;> simp only [ceEnv] <;> linarith

/-- `x1 = x0` -/
def ce1 : Atom := ⟨stE, .eq, [0, 1]⟩
/-- `x1 + x0 = 0` -/
def ce2 : Atom := ⟨ceF, .eq, [0, 1]⟩
/-- `x0 <= 1` -/
def ce3 : Atom := ⟨stL, .le, [0]⟩
/-- `x1 >= x0^2` -/
def ceMain : Atom := ⟨ceM, .ge, [0, 1]⟩

/-- The polynomials installed in the earlier rounds of the example. -/
def ceExtra (k : ℕ) : List MPoly := if k = 0 then [] else if k = 1 then [ceM] else [ceM, stE]

/-- The core of the example. -/
noncomputable def ceCore : Core ℚ :=
  cadCore ceSage ceEnv 2 1 (fun k _ => ceExtra k) (fun _ _ _ => .ok []) bruteSolve

/-- The states before the second and the third round. -/
def ceSt₁ : State := ⟨[ce2, ce3], ⟨ceMain, [ce1], [stE]⟩, [1, 2]⟩
/-- The state before the third round: both equations have become `2*x1 = 0`. -/
def ceSt₂ : State := ⟨[ce3], ⟨ceMain, [⟨ceT, .eq, [0, 1]⟩, ⟨ceT, .eq, [0, 1]⟩], [stE, ceF]⟩, [2]⟩

theorem ceCore_rounds :
    check ceCore 3 0 ⟨[ce1, ce2, ce3], ⟨ceMain, [], []⟩, [0, 1, 2]⟩ = .error .counterexample := by
  have s1 : ceCore.samples 0 ⟨[ce1, ce2, ce3], ⟨ceMain, [], []⟩, [0, 1, 2]⟩ =
      .ok [[(0, 0), (1, -1)], [(0, 0), (1, 0)], [(0, 0), (1, 1)]] := ok_of_toOption (by decide +kernel)
  have a1 : allBads ceCore 0 ⟨[ce1, ce2, ce3], ⟨ceMain, [], []⟩, [0, 1, 2]⟩
      [[(0, 0), (1, -1)], [(0, 0), (1, 0)], [(0, 0), (1, 1)]] = .ok (false, [[2]]) :=
    ok_of_toOption (by decide +kernel)
  have g1 : goodHyps ceCore ⟨[ce1, ce2, ce3], ⟨ceMain, [], []⟩, [0, 1, 2]⟩ [[2]] = .ok [0] :=
    ok_of_toOption (by decide +kernel)
  have p1 : State.promote ceCore.toSage ⟨[ce1, ce2, ce3], ⟨ceMain, [], []⟩, [0, 1, 2]⟩ 0 = .ok ceSt₁ :=
    ok_of_toOption (by decide +kernel)
  have r1 : round ceCore 0 ⟨[ce1, ce2, ce3], ⟨ceMain, [], []⟩, [0, 1, 2]⟩ = .ok ([[2]], some ceSt₁) := by
    unfold round
    rw [s1]
    simp only [bind, Except.bind]
    rw [a1]
    have hs : sortCand ⟨[ce1, ce2, ce3], ⟨ceMain, [], []⟩, [0, 1, 2]⟩ [0] = [0] := List.mergeSort_singleton _
    simp only [g1, hs, p1]
    rfl
  have s2 : ∃ ds, ceCore.samples 1 ceSt₁ = .ok ds ∧ (allBads ceCore 1 ceSt₁ ds).toOption = some (false, [[1]]) := by
    refine ⟨_, ok_of_toOption (a := ((ceCore.samples 1 ceSt₁).toOption.getD [])) (by decide +kernel), by decide +kernel⟩
  have g2 : goodHyps ceCore ceSt₁ [[1]] = .ok [0] := ok_of_toOption (by decide +kernel)
  have p2 : State.promote ceCore.toSage ceSt₁ 0 = .ok ceSt₂ := ok_of_toOption (by decide +kernel)
  have r2 : round ceCore 1 ceSt₁ = .ok ([[1]], some ceSt₂) := by
    obtain ⟨ds, s2, a2⟩ := s2
    unfold round
    rw [s2]
    simp only [bind, Except.bind]
    rw [ok_of_toOption a2]
    have hs : sortCand ceSt₁ [0] = [0] := List.mergeSort_singleton _
    simp only [g2, hs, p2]
    rfl
  have s3 : ∃ ds, ceCore.samples 2 ceSt₂ = .ok ds ∧ allBads ceCore 2 ceSt₂ ds = .error .counterexample := by
    refine ⟨_, ok_of_toOption (a := ((ceCore.samples 2 ceSt₂).toOption.getD [])) (by decide +kernel),
      err_of_match (by decide +kernel)⟩
  have r3 : round ceCore 2 ceSt₂ = .error .counterexample := by
    obtain ⟨ds, s3, a3⟩ := s3
    unfold round
    rw [s3]
    simp only [bind, Except.bind]
    rw [a3]
  unfold check
  rw [r1]
  simp only [bind, Except.bind]
  unfold check
  rw [r2]
  simp only [bind, Except.bind]
  unfold check
  rw [r3]
  rfl

/-- **C105** is violated: for the valid sequent `x1 = x0, x1 + x0 = 0, x0 <= 1 ⊢ x1 >= x0^2` the program reports a
counterexample, with right functions of Sage and an optimal solver. After the first two hypotheses have been promoted,
each has been reduced by the other one, and both have become `2*x1 = 0`; the point reported is `x0 = -1, x1 = 0`. -/
theorem C105_violated : ∃ (S : Sage ℚ) (E : CadEnv) (extra : ℕ → State → List MPoly)
    (solve : ℕ → List (List ℕ) → List ℕ → Option (List ℕ)),
    SageOK S ∧ RingOK S 2 ∧ RootsOK ℝ E ∧ TrueElim E ∧ UniformOK E ∧
    SolverOpt (cadCore S E 2 1 extra (fun _ _ _ => .ok []) solve) ∧
    ∃ h₁ h₂ h₃ main : Atom, mkAtom (MPoly.var 1) "=" (MPoly.var 0) = .ok h₁ ∧
      mkAtom ((MPoly.var 1).add (MPoly.var 0)) "=" (MPoly.const 0) = .ok h₂ ∧
      mkAtom (MPoly.var 0) "<=" (MPoly.const 1) = .ok h₃ ∧
      mkAtom (MPoly.var 1) ">=" ((MPoly.var 0).mul (MPoly.var 0)) = .ok main ∧
      check (cadCore S E 2 1 extra (fun _ _ _ => .ok []) solve) 3 0
        ⟨[h₁, h₂, h₃], ⟨main, [], []⟩, [0, 1, 2]⟩ = .error .counterexample ∧
      ∀ ρ : ℕ → ℝ, h₁.holds ρ → h₂.holds ρ → h₃.holds ρ → main.holds ρ := by
  refine ⟨ceSage, ceEnv, fun k _ => ceExtra k, bruteSolve, ceSage_ok, ceSage_ring, ceEnv_roots, ceEnv_true, ceEnv_uniform,
    fun _ _ _ _ h => bruteSolve_opt h, ce1, ce2, ce3, ceMain, by decide +kernel, by decide +kernel, by decide +kernel,
    by decide +kernel, ceCore_rounds, fun ρ h1 h2 _ => ?_⟩
  simp [Atom.holds, rel, ce1, ce2, ceMain, stE, ceF, ceM, MPoly.eval, Mono.evalFrom] at h1 h2 ⊢
  have h0 : ρ 0 = 0 := by linarith
  have h0' : ρ 1 = 0 := by linarith
  rw [h0, h0']
  norm_num

end Verif.Grf
