import Verif.Grf.PropsAtom

/-!
# C33, C34, C35, C36, C41: the goal-directed decision loop
-/

set_option linter.unusedSectionVars false

namespace Verif.Grf

variable {K : Type} [Field K] [LinearOrder K] [IsStrictOrderedRing K]

/-- `k` consecutive rounds, from round `n` in state `st`, each promoting a hypothesis, lead to `st'`. -/
inductive Rounds (C : Core K) : ℕ → State → ℕ → State → Prop
  | refl (n : ℕ) (st : State) : Rounds C n st 0 st
  | step (n k : ℕ) (st st₁ st' : State) (bads : List (List ℕ)) (h : round C n st = .ok (bads, some st₁))
      (hs : Rounds C (n + 1) st₁ k st') : Rounds C n st (k + 1) st'

theorem round_some {C : Core K} {n : ℕ} {st st' : State} {bads : List (List ℕ)}
    (h : round C n st = .ok (bads, some st')) : ∃ i, st.promote C.toSage i = .ok st' := by
  unfold round at h
  simp only [bind, Except.bind] at h
  split at h
  · cases h
  · split at h
    · cases h
    · split at h
      · cases h
      · split at h
        · cases h
        · split at h
          · cases h
          · next i _ _ =>
            split at h
            · cases h
            · next _ st₁ h1 => cases h; exact ⟨i, h1⟩

theorem promote_ok {S : Sage K} {st st' : State} {i : ℕ} (h : st.promote S i = .ok st') :
    ∃ (h' : Atom) (g : Goal), st.hyps[i]? = some h' ∧ st.goal.addHyp S h' = .ok g ∧
      st' = ⟨st.hyps.take i ++ st.hyps.drop (i + 1), g, st.ids.take i ++ st.ids.drop (i + 1)⟩ := by
  unfold State.promote at h
  split at h
  · cases h
  · next h' hh =>
    simp only [bind, Except.bind] at h
    split at h
    · cases h
    · next g hg => cases h; exact ⟨h', g, hh, hg, rfl⟩

theorem promote_hyps {S : Sage K} {st st' : State} {i : ℕ} (h : st.promote S i = .ok st') :
    st'.hyps.length + 1 = st.hyps.length := by
  obtain ⟨h', g, hh, _, rfl⟩ := promote_ok h
  obtain ⟨hi, _⟩ := List.getElem?_eq_some_iff.1 hh
  simp only [List.length_append, List.length_take, List.length_drop]
  omega

/-! ### C33 -/

/-- **C33**: whatever the sample points, the solutions of the optimisation problems and the results of the
algebra, there are at most as many promoting rounds as hypotheses, so that with the last one (which reports or raises)
the loop has at most (number of hypotheses + 1) rounds: its result does not change when more are allowed. -/
theorem C33_terminates (C : Core K) (st : State) :
    (∀ n k st', Rounds C n st k st' → k ≤ st.hyps.length ∧ st'.hyps.length + k = st.hyps.length) ∧
    ∀ n fuel, fuel ≥ st.hyps.length + 1 → check C fuel n st = check C (st.hyps.length + 1) n st := by
  constructor
  · intro n k st' h
    have : st'.hyps.length + k = st.hyps.length := by
      induction h with
      | refl => rfl
      | step n k st st₁ st' bads h hs ih =>
        obtain ⟨i, hi⟩ := round_some h
        have := promote_hyps hi
        omega
    exact ⟨by omega, this⟩
  · have main : ∀ (m : ℕ) (st : State), st.hyps.length = m → ∀ n fuel, fuel ≥ m + 1 →
        check C fuel n st = check C (m + 1) n st := by
      intro m
      induction m with
      | zero =>
        intro st hm n fuel hf
        obtain ⟨f, rfl⟩ : ∃ f, fuel = f + 1 := ⟨fuel - 1, by omega⟩
        unfold check
        cases hr : round C n st with
        | error e => rfl
        | ok r =>
          obtain ⟨bads, o⟩ := r
          cases o with
          | none => rfl
          | some st' =>
            obtain ⟨i, hi⟩ := round_some hr
            have := promote_hyps hi
            omega
      | succ m ih =>
        intro st hm n fuel hf
        obtain ⟨f, rfl⟩ : ∃ f, fuel = f + 1 := ⟨fuel - 1, by omega⟩
        unfold check
        cases hr : round C n st with
        | error e => rfl
        | ok r =>
          obtain ⟨bads, o⟩ := r
          cases o with
          | none => rfl
          | some st' =>
            obtain ⟨i, hi⟩ := round_some hr
            have := promote_hyps hi
            simp only [bind, Except.bind]
            rw [ih st' (by omega) (n + 1) f (by omega)]
    exact fun n fuel hf => main _ st rfl n fuel hf

/-! ### C41 -/

theorem addHyp_shape {S : Sage K} {g g' : Goal} {h : Atom} (hg : g.addHyp S h = .ok g') :
    g'.main = g.main ∧ (g'.hyps.map fun a => (a.op, a.vars)) = (g.hyps.map fun a => (a.op, a.vars)) ++ [(h.op, h.vars)] := by
  unfold Goal.addHyp at hg
  simp only [bind, Except.bind] at hg
  have hinj : ∀ (B : List MPoly) (a b : Atom), a.inject S B = .ok b → (b.op, b.vars) = (a.op, a.vars) := by
    intro B a b hab
    unfold Atom.inject at hab
    split at hab
    · cases hab
    · cases hab; rfl
  have hmap : ∀ (B : List MPoly) (l l' : List Atom), l.mapM (Atom.inject S B) = .ok l' →
      (l'.map fun a => (a.op, a.vars)) = l.map fun a => (a.op, a.vars) := by
    intro B l
    induction l with
    | nil => intro l' hl; cases hl; rfl
    | cons a l ih =>
      intro l' hl
      rw [List.mapM_cons] at hl
      simp only [bind, Except.bind] at hl
      split at hl
      · cases hl
      · next b hb =>
        split at hl
        · cases hl
        · next l'' hl'' =>
          cases hl
          rw [List.map_cons, List.map_cons, ih l'' hl'', hinj B a b hb]
  split at hg
  · cases hg
  · next r hr =>
    split at hg
    · cases hg
    · next gh' hgh =>
      cases hg
      refine ⟨rfl, ?_⟩
      show (r.1 ++ [gh']).map _ = _
      rw [List.map_append, List.map_singleton]
      congr 1
      · unfold Goal.simplify at hr
        split at hr
        · simp only [bind, Except.bind] at hr
          split at hr
          · cases hr
          · next hs hhs => cases hr; exact hmap _ _ _ hhs
        · cases hr; rfl
      · unfold Goal.simplifyNew at hgh
        split at hgh
        · rw [hinj _ _ _ hgh]
        · cases hgh; rfl

theorem take_drop_perm {α : Type} {l : List α} {i : ℕ} {a : α} (h : l[i]? = some a) :
    (a :: (l.take i ++ l.drop (i + 1))).Perm l := by
  obtain ⟨hi, rfl⟩ := List.getElem?_eq_some_iff.1 h
  have h1 : l = l.take i ++ l[i] :: l.drop (i + 1) := by
    rw [List.getElem_cons_drop, List.take_append_drop]
  exact List.perm_middle.symm.trans (List.Perm.of_eq h1.symm)

/-- **C41**: after any number of rounds, the promoted hypotheses (a list `ps`, in the order of their promotion)
and the remaining ones together are the original ones, the remaining ones are in their original order, and the hypotheses
of the goal are those present before followed by the promoted ones, with the relations and variables they had (their
polynomials are rewritten by the equations). The main goal stays the same. -/
theorem C41_promotion (C : Core K) (n k : ℕ) (st st' : State) (h : Rounds C n st k st') :
    ∃ ps : List Atom, ps.length = k ∧ (ps ++ st'.hyps).Perm st.hyps ∧ st'.hyps.Sublist st.hyps ∧
      (st'.goal.hyps.map fun a => (a.op, a.vars)) =
        (st.goal.hyps.map fun a => (a.op, a.vars)) ++ (ps.map fun a => (a.op, a.vars)) ∧
      st'.goal.main = st.goal.main := by
  induction h with
  | refl n st => exact ⟨[], rfl, List.Perm.refl _, List.Sublist.refl _, by simp, rfl⟩
  | step n k st st₁ st' bads h hs ih =>
    obtain ⟨ps, h1, h2, h3, h4, h5⟩ := ih
    obtain ⟨i, hi⟩ := round_some h
    obtain ⟨a, g, ha, hg, rfl⟩ := promote_ok hi
    obtain ⟨e1, e2⟩ := addHyp_shape hg
    refine ⟨a :: ps, by simp [h1], ?_, ?_, ?_, ?_⟩
    · exact (List.Perm.cons a h2).trans (take_drop_perm ha)
    · refine h3.trans ?_
      show (st.hyps.take i ++ st.hyps.drop (i + 1)).Sublist st.hyps
      rw [← List.eraseIdx_eq_take_drop_succ]
      exact List.eraseIdx_sublist ..
    · rw [h4]
      show (g.hyps.map _) ++ _ = _
      rw [e2]; simp
    · rw [h5]; exact e1

/-! ### C34 -/

theorem check_rounds (C : Core K) : ∀ (fuel n : ℕ) (st st' : State) (ret : List (List ℕ)),
    check C fuel n st = .ok (ret, st') →
    ∃ k ret', Rounds C n st k st' ∧ round C (n + k) st' = .ok (ret', none) := by
  intro fuel
  induction fuel with
  | zero => intro n st st' ret h; cases h
  | succ fuel ih =>
    intro n st st' ret h
    unfold check at h
    simp only [bind, Except.bind] at h
    cases hr : round C n st with
    | error e => rw [hr] at h; cases h
    | ok r =>
      rw [hr] at h
      obtain ⟨bads, o⟩ := r
      cases o with
      | none => cases h; exact ⟨0, _, .refl _ _, hr⟩
      | some st₁ =>
        simp only at h
        cases hc : check C fuel (n + 1) st₁ with
        | error e => rw [hc] at h; cases h
        | ok out =>
          rw [hc] at h
          cases h
          obtain ⟨k, ret', h1, h2⟩ := ih (n + 1) st₁ out.2 out.1 hc
          refine ⟨k + 1, ret', .step n k st st₁ _ _ hr h1, ?_⟩
          rw [show n + (k + 1) = n + 1 + k by ring]
          exact h2

theorem round_none {C : Core K} {n : ℕ} {st : State} {ret : List (List ℕ)} (h : round C n st = .ok (ret, none)) :
    ∃ ds, C.samples n st = .ok ds ∧ ∀ d ∈ ds, st.goal.evalOnDict C.toSage d = .ok true := by
  unfold round at h
  simp only [bind, Except.bind] at h
  split at h
  · cases h
  · next ds hds =>
    refine ⟨ds, hds, ?_⟩
    split at h
    · cases h
    · next r hr =>
      have hr1 : r.1 = true := by
        by_contra hn
        rw [if_neg hn] at h
        split at h
        · cases h
        · split at h
          · cases h
          · split at h <;> cases h
      have : ∀ (ds : List (Dict K)) (r : Bool × List (List ℕ)), allBads C n st ds = .ok r → r.1 = true →
          ∀ d ∈ ds, st.goal.evalOnDict C.toSage d = .ok true := by
        intro ds
        induction ds with
        | nil => intro r _ _ d hd; simp at hd
        | cons e ds ih =>
          intro r h hr d hd
          unfold allBads at h
          simp only [bind, Except.bind] at h
          split at h
          · cases h
          · next b hb =>
            split at h
            · cases h
            · next r' hr' =>
              cases b with
              | some bs => cases h; cases hr
              | none =>
                cases h
                rcases List.mem_cons.1 hd with rfl | hd
                · unfold badSubsets at hb
                  simp only [bind, Except.bind] at hb
                  split at hb
                  · cases hb
                  · next g hg =>
                    cases g with
                    | true => exact hg
                    | false =>
                      simp only [Bool.false_eq_true, if_false] at hb
                      split at hb
                      · cases hb
                      · split at hb
                        · cases hb
                        · split at hb <;> cases hb
                · exact ih _ hr' hr d hd
      exact this ds r hr hr1

/-- **C34**: if the loop ends without an exception (that is when it reports the goal to be proved), then the
implication from the promoted hypotheses alone, hence from all the original hypotheses, to the goal is valid. It is
assumed that Sage's functions are right, and that the decision core is sound for the last state: a goal that is true
at all of its sample points is valid. -/
theorem C34_sound (C : Core K) (hS : SageOK C.toSage) (hyps : List Atom) (main : Atom) (fuel : ℕ)
    (ret : List (List ℕ)) (st' : State)
    (ids : List ℕ) (h : check C fuel 0 ⟨hyps, ⟨main, [], []⟩, ids⟩ = .ok (ret, st'))
    (hcore : ∀ n ds, C.samples n st' = .ok ds → (∀ d ∈ ds, st'.goal.evalOnDict C.toSage d = .ok true) →
      ∀ ρ : ℕ → K, (∀ a ∈ st'.goal.hyps, a.holds ρ) → st'.goal.main.holds ρ) :
    ∃ ps : List Atom, (ps ++ st'.hyps).Perm hyps ∧
      (∀ ρ : ℕ → K, (∀ a ∈ ps, a.holds ρ) → main.holds ρ) ∧
      ∀ ρ : ℕ → K, (∀ a ∈ hyps, a.holds ρ) → main.holds ρ := by
  obtain ⟨k, ret', hr, hlast⟩ := check_rounds C fuel 0 _ st' ret h
  obtain ⟨ds, hds, htrue⟩ := round_none hlast
  have hvalid := hcore _ ds hds htrue
  have inv : ∀ (n k : ℕ) (st st' : State), Rounds C n st k st' →
      ∃ ps : List Atom, (ps ++ st'.hyps).Perm st.hyps ∧ st'.goal.main = st.goal.main ∧
        ∀ ρ : ℕ → K, (∀ b ∈ st.goal.gb, b.eval ρ = 0) → (∀ a ∈ st.goal.hyps, a.holds ρ) → (∀ a ∈ ps, a.holds ρ) →
          ∀ a ∈ st'.goal.hyps, a.holds ρ := by
    intro n k st st' h
    induction h with
    | refl n st => exact ⟨[], List.Perm.refl _, rfl, fun ρ _ h _ => h⟩
    | step n k st st₁ st' bads h hs ih =>
      obtain ⟨ps, h1, h2, h3⟩ := ih
      obtain ⟨i, hi⟩ := round_some h
      obtain ⟨a, g, ha, hg, rfl⟩ := promote_ok hi
      obtain ⟨g', hg', hm, hsem⟩ := (C37_partial C.toSage hS st.goal a).1
      rw [hg] at hg'
      cases hg'
      refine ⟨a :: ps, (List.Perm.cons a h1).trans (take_drop_perm ha), h2.trans hm, ?_⟩
      intro ρ hb hh hp
      have := (hsem ρ).1 hb hh (hp a (by simp))
      exact h3 ρ this.1 this.2 fun x hx => hp x (by simp [hx])
  obtain ⟨ps, h1, h2, h3⟩ := inv 0 k _ st' hr
  have hps : ∀ ρ : ℕ → K, (∀ a ∈ ps, a.holds ρ) → main.holds ρ := by
    intro ρ hp
    have := hvalid ρ (h3 ρ (by simp) (by simp) hp)
    rwa [h2] at this
  refine ⟨ps, h1, hps, ?_⟩
  intro ρ hh
  exact hps ρ fun a ha => hh a (h1.subset (by simp [ha]))

/-! ### C35 -/

/-- The solver returns indices of hypotheses that meet the constraints: every bad set misses one of them. -/
def SolverOK (C : Core K) : Prop := ∀ n bads w s, C.solve n bads w = some s →
  (∀ i ∈ s, i < n) ∧ ∀ b ∈ bads, ∃ i ∈ s, i ∉ b

theorem trueHyps_spec (S : Sage K) (d : Dict K) : ∀ (hs : List Atom) (j : ℕ) (l : List ℕ),
    trueHyps S d j hs = .ok l → ∀ i, i ∈ l ↔ ∃ m a, i = j + m ∧ hs[m]? = some a ∧ a.evalOnDict S d = .ok (some true)
  | [], j, l, h, i => by cases h; simp
  | b :: hs, j, l, h, i => by
    unfold trueHyps at h
    simp only [bind, Except.bind] at h
    split at h
    · cases h
    · next r hr =>
      split at h
      · cases h
      · next rest hrest =>
        have ih := trueHyps_spec S d hs (j + 1) rest hrest i
        have hrest' : i ∈ rest ↔ ∃ m a, i = j + (m + 1) ∧ (b :: hs)[m + 1]? = some a ∧
            a.evalOnDict S d = .ok (some true) := by
          rw [ih]
          constructor
          · rintro ⟨m, a, rfl, h1, h2⟩; exact ⟨m, a, by ring, by simpa using h1, h2⟩
          · rintro ⟨m, a, rfl, h1, h2⟩; exact ⟨m, a, by ring, by simpa using h1, h2⟩
        have hsplit : (∃ m a, i = j + m ∧ (b :: hs)[m]? = some a ∧ a.evalOnDict S d = .ok (some true)) ↔
            (i = j ∧ r = some true) ∨ i ∈ rest := by
          rw [hrest']
          constructor
          · rintro ⟨m, a, h1, h2, h3⟩
            cases m with
            | zero =>
              left
              simp only [List.getElem?_cons_zero, Option.some.injEq] at h2
              subst h2
              rw [hr] at h3
              cases h3
              exact ⟨h1, rfl⟩
            | succ m => exact Or.inr ⟨m, a, h1, h2, h3⟩
          · rintro (⟨rfl, rfl⟩ | ⟨m, a, h1, h2, h3⟩)
            · exact ⟨0, b, rfl, rfl, hr⟩
            · exact ⟨m + 1, a, h1, h2, h3⟩
        rw [hsplit]
        cases h
        split
        · next hr' => rw [List.mem_cons]; simp [hr']
        · next hr' => simp [hr']

theorem addBad_spec {bads : List (List ℕ)} {bad s : List ℕ} (h : s ∈ bads ∨ s = bad ∧ s ≠ []) :
    ∃ s' ∈ addBad bads bad, ∀ i ∈ s, i ∈ s' := by
  unfold addBad
  split
  · next hc =>
    rcases h with h | ⟨rfl, _⟩
    · by_cases hs : s.all (fun i => decide (i ∈ bad)) = true
      · refine ⟨bad, by simp, fun i hi => ?_⟩
        have := List.all_eq_true.1 hs i hi
        simpa using this
      · refine ⟨s, List.mem_append.2 (Or.inl (List.mem_filter.2 ⟨List.mem_dedup.2 h, ?_⟩)), fun i hi => hi⟩
        simpa using hs
    · exact ⟨s, by simp, fun i hi => hi⟩
  · next hc =>
    rcases h with h | ⟨rfl, h⟩
    · exact ⟨s, h, fun i hi => hi⟩
    · refine ⟨s, ?_, fun i hi => hi⟩
      by_contra hn
      exact hc ⟨hn, h⟩

theorem badLoop_spec (S : Sage K) (st : State) : ∀ (ds : List (Dict K)) (bads out : List (List ℕ)),
    badLoop S st ds bads = .ok out →
    (∀ s ∈ bads, ∃ s' ∈ out, ∀ i ∈ s, i ∈ s') ∧
    ∀ d ∈ ds, st.goal.evalOnDict S d = .ok true ∨ ∃ b, trueHyps S d 0 st.hyps = .ok b ∧
      b.length ≠ st.hyps.length ∧ (b = [] ∨ ∃ s' ∈ out, ∀ i ∈ b, i ∈ s') := by
  intro ds
  induction ds with
  | nil => intro bads out h; cases h; exact ⟨fun s hs => ⟨s, hs, fun _ h => h⟩, by simp⟩
  | cons d ds ih =>
    intro bads out h
    unfold badLoop at h
    simp only [bind, Except.bind] at h
    split at h
    · cases h
    · next g hg =>
      cases g with
      | true =>
        simp only [if_true] at h
        obtain ⟨h1, h2⟩ := ih bads out h
        refine ⟨h1, fun e he => ?_⟩
        rcases List.mem_cons.1 he with rfl | he
        · exact Or.inl hg
        · exact h2 e he
      | false =>
        simp only [Bool.false_eq_true, if_false] at h
        split at h
        · cases h
        · next b hb =>
          split at h
          · cases h
          · next hlen =>
            obtain ⟨h1, h2⟩ := ih _ out h
            have trans : ∀ s : List ℕ, (∃ s' ∈ addBad bads b, ∀ i ∈ s, i ∈ s') → ∃ s' ∈ out, ∀ i ∈ s, i ∈ s' := by
              rintro s ⟨s', hs', hi⟩
              obtain ⟨s'', hs'', hi'⟩ := h1 s' hs'
              exact ⟨s'', hs'', fun i h => hi' i (hi i h)⟩
            refine ⟨fun s hs => trans s (addBad_spec (Or.inl hs)), fun e he => ?_⟩
            rcases List.mem_cons.1 he with rfl | he
            · refine Or.inr ⟨b, hb, hlen, ?_⟩
              by_cases hb0 : b = []
              · exact Or.inl hb0
              · exact Or.inr (trans b (addBad_spec (Or.inr ⟨rfl, hb0⟩)))
            · exact h2 e he

/-- **C35**: when the selection step of a round returns a nonempty set of hypotheses, then every sample point that
was considered in the round (a point `d₀` of the decision core at which the goal is false, or a further point near it)
and at which the goal is false is falsified by one of the selected hypotheses: that hypothesis is not true there. -/
theorem C35_hits (C : Core K) (hC : SolverOK C) (n : ℕ) (st : State) (ds : List (Dict K)) (bads : List (List ℕ))
    (tr : Bool) (cand : List ℕ)
    (hb : allBads C n st ds = .ok (tr, bads)) (hc : goodHyps C st bads = .ok cand) (hne : cand ≠ [])
    (d₀ : Dict K) (hd₀ : d₀ ∈ ds) (hg₀ : st.goal.evalOnDict C.toSage d₀ = .ok false)
    (near : List (Dict K)) (hnear : C.more n st d₀ = .ok near)
    (d : Dict K) (hd : d ∈ d₀ :: near) (hg : st.goal.evalOnDict C.toSage d = .ok false) :
    ∃ i ∈ cand, ∃ a, st.hyps[i]? = some a ∧ a.evalOnDict C.toSage d ≠ .ok (some true) := by
  have hsolve : C.solve st.hyps.length bads (weightHyps st) = some cand := by
    unfold goodHyps at hc
    split at hc
    · cases hc
    · next s hs => cases hc; exact hs
  obtain ⟨hlt, hhit⟩ := hC _ _ _ _ hsolve
  have hmem : ∀ (ds : List (Dict K)) (tr : Bool) (bads : List (List ℕ)), allBads C n st ds = .ok (tr, bads) →
      d₀ ∈ ds → ∃ bs, badSubsets C n st d₀ = .ok (some bs) ∧ ∀ b ∈ bs, b ∈ bads := by
    intro ds
    induction ds with
    | nil => intro tr bads _ h; simp at h
    | cons e ds ih =>
      intro tr bads h hd
      unfold allBads at h
      simp only [bind, Except.bind] at h
      split at h
      · cases h
      · next b hb =>
        split at h
        · cases h
        · next r hr =>
          rcases List.mem_cons.1 hd with rfl | hd
          · cases b with
            | none =>
              exfalso
              unfold badSubsets at hb
              simp only [bind, Except.bind] at hb
              rw [hg₀] at hb
              simp only [Bool.false_eq_true, if_false] at hb
              split at hb
              · cases hb
              · split at hb
                · cases hb
                · split at hb <;> cases hb
            | some bs =>
              cases h
              exact ⟨bs, hb, fun b hb => by simp [hb]⟩
          · obtain ⟨bs, h1, h2⟩ := ih r.1 r.2 hr hd
            refine ⟨bs, h1, ?_⟩
            cases b with
            | none => cases h; exact h2
            | some cs => cases h; exact fun b hb => by simp [h2 b hb]
  obtain ⟨bs, hbs, hsub⟩ := hmem ds tr bads hb hd₀
  have hloop : badLoop C.toSage st (d₀ :: near) [] = .ok bs := by
    unfold badSubsets at hbs
    simp only [bind, Except.bind] at hbs
    rw [hg₀] at hbs
    simp only [Bool.false_eq_true, if_false] at hbs
    split at hbs
    · cases hbs
    · rw [hnear] at hbs
      simp only at hbs
      split at hbs
      · cases hbs
      · next x hx => cases hbs; exact hx
  rcases (badLoop_spec C.toSage st _ _ _ hloop).2 d hd with h | ⟨b, hb1, _, hb2⟩
  · rw [hg] at h; cases h
  · have hsel : ∃ i ∈ cand, i ∉ b := by
      rcases hb2 with rfl | ⟨s', hs', hi⟩
      · obtain ⟨i, hi⟩ := List.exists_mem_of_ne_nil _ hne
        exact ⟨i, hi, by simp⟩
      · obtain ⟨i, hi1, hi2⟩ := hhit s' (hsub s' hs')
        exact ⟨i, hi1, fun h => hi2 (hi i h)⟩
    obtain ⟨i, hi, hib⟩ := hsel
    refine ⟨i, hi, st.hyps[i]'(hlt i hi), List.getElem?_eq_getElem _, fun hev => hib ?_⟩
    exact (trueHyps_spec C.toSage d st.hyps 0 b hb1 i).2 ⟨i, _, by simp, List.getElem?_eq_getElem _, hev⟩

/-! ### C36 -/

/-- A core with fixed sample points, for the examples. -/
def testCore (ds more : List (Dict ℚ)) : Core ℚ :=
  { testSage with samples := fun _ _ => .ok ds, more := fun _ _ _ => .ok more, solve := bruteSolve }

/-- The hypothesis `x0 > 0` and the goal `x0 + 1 > 0`. -/
def testState : State :=
  ⟨[⟨MPoly.var 0, .gt, [0]⟩], ⟨⟨(MPoly.var 0).add (MPoly.const 1), .gt, [0]⟩, [], []⟩, [0]⟩

/-- **C36** is violated: for `x0 > 0 ⊢ x0 + 1 > 0` (a valid sequent) with the sample point `x0 = -2`, at which the
goal and the hypothesis are false, no set of hypotheses is recorded, none is selected, and the access to the first
selected hypothesis raises. -/
theorem C36_violated :
    check (testCore [[(0, -2)]] []) 2 0 testState = .error .indexError ∧
    ∀ ρ : ℕ → ℚ, (∀ h ∈ testState.hyps, h.holds ρ) → testState.goal.main.holds ρ := by
  constructor
  · have h : (match check (testCore [[(0, -2)]] []) 2 0 testState with
      | .error .indexError => true
      | _ => false) = true := by decide +kernel
    split at h
    · next h' => exact h'
    · exact absurd h (by decide)
  · intro ρ h
    have h1 : MPoly.eval ρ (MPoly.var 0) > 0 := h _ (List.mem_singleton_self _)
    show MPoly.eval ρ ((MPoly.var 0).add (MPoly.const 1)) > 0
    rw [MPoly.eval_var] at h1
    rw [MPoly.eval_add, MPoly.eval_var, MPoly.eval_const]
    push_cast
    linarith

/-- The solver finds a solution when there is one. -/
def SolverComplete (C : Core K) : Prop := ∀ n bads w, (∀ b ∈ bads, ∃ i < n, i ∉ b) → ∃ s, C.solve n bads w = some s

theorem addBad_ne {bads : List (List ℕ)} {bad : List ℕ} (h : bads ≠ [] ∨ bad ≠ []) : addBad bads bad ≠ [] := by
  unfold addBad
  split
  · simp
  · next hc =>
    rcases h with h | h
    · exact h
    · intro hb
      subst hb
      exact hc ⟨by simp, h⟩

theorem trueHyps_ok (S : Sage K) (d : Dict K) (f : Atom → Option Bool) : ∀ (hs : List Atom) (j : ℕ),
    (∀ a ∈ hs, a.evalOnDict S d = .ok (f a)) → ∃ l, trueHyps S d j hs = .ok l ∧
      (l.length = hs.length ↔ ∀ a ∈ hs, f a = some true) ∧ l.length ≤ hs.length ∧
      (∀ i ∈ l, j ≤ i ∧ i < j + hs.length) ∧ l.Pairwise (· < ·)
  | [], j, _ => ⟨[], rfl, by simp, by simp, by simp, by simp⟩
  | a :: hs, j, h => by
    obtain ⟨l, h1, h2, h3, h4, h5⟩ := trueHyps_ok S d f hs (j + 1) fun x hx => h x (by simp [hx])
    unfold trueHyps
    simp only [bind, Except.bind]
    rw [h a (by simp), h1]
    by_cases hf : f a = some true
    · refine ⟨j :: l, by simp [hf], ?_, by simp [h3], ?_, ?_⟩
      · simp [h2, hf]
      · intro i hi
        rcases List.mem_cons.1 hi with rfl | hi
        · simp
        · have := h4 i hi
          simp only [List.length_cons]
          omega
      · exact List.pairwise_cons.2 ⟨fun i hi => by have := h4 i hi; omega, h5⟩
    · refine ⟨l, by simp [hf], ?_, by simp only [List.length_cons]; omega, ?_, h5⟩
      · constructor
        · intro hl
          simp only [List.length_cons] at hl
          omega
        · intro hall; exact absurd (hall a (by simp)) hf
      · intro i hi
        have := h4 i hi
        simp only [List.length_cons]
        omega

/-- What holds instead of **C36**: if no sample point is a counterexample (at every sample point the goal is true
or some hypothesis is not true), no evaluation raises, and at one of the sample points the goal is false and some
hypothesis is true, then the round promotes a hypothesis. -/
theorem C36_partial (C : Core K) (hS : SageOK C.toSage) (hC : SolverOK C) (hC' : SolverComplete C) (n : ℕ) (st : State)
    (ds : List (Dict K)) (hds : C.samples n st = .ok ds)
    (near : Dict K → List (Dict K)) (hnear : ∀ d ∈ ds, C.more n st d = .ok (near d))
    (g : Dict K → Bool) (f : Dict K → Atom → Option Bool)
    (hg : ∀ d₀ ∈ ds, ∀ d ∈ d₀ :: near d₀, st.goal.evalOnDict C.toSage d = .ok (g d))
    (hf : ∀ d₀ ∈ ds, ∀ d ∈ d₀ :: near d₀, ∀ a ∈ st.hyps, a.evalOnDict C.toSage d = .ok (f d a))
    (hno : ∀ d₀ ∈ ds, ∀ d ∈ d₀ :: near d₀, g d = true ∨ ∃ a ∈ st.hyps, f d a ≠ some true)
    (hsome : ∃ d₀ ∈ ds, g d₀ = false ∧ ∃ a ∈ st.hyps, f d₀ a = some true) :
    ∃ bads st', round C n st = .ok (bads, some st') := by
  have hsets : ∀ b : List ℕ, (∀ i ∈ b, i < st.hyps.length) → b.Pairwise (· < ·) → b.length ≠ st.hyps.length →
      ∃ i < st.hyps.length, i ∉ b := by
    intro b hb hp hlen
    by_contra hcon
    push Not at hcon
    apply hlen
    apply le_antisymm
    · have h1 : b.Sublist (List.range st.hyps.length) := by
        apply List.sublist_of_subperm_of_pairwise ?_ hp List.pairwise_lt_range
        exact List.subperm_of_subset (hp.imp fun h => h.ne) fun i hi => List.mem_range.2 (hb i hi)
      simpa using h1.length_le
    · have h1 : (List.range st.hyps.length).Subperm b :=
        List.subperm_of_subset List.nodup_range fun i hi => hcon i (List.mem_range.1 hi)
      simpa using h1.length_le
  -- the sets recorded in one inner loop
  have hloop : ∀ (d₀ : Dict K), d₀ ∈ ds → ∀ (es : List (Dict K)), (∀ e ∈ es, e ∈ d₀ :: near d₀) → ∀ acc : List (List ℕ),
      (∀ b ∈ acc, ∃ i < st.hyps.length, i ∉ b) →
      ∃ out, badLoop C.toSage st es acc = .ok out ∧ (∀ b ∈ out, ∃ i < st.hyps.length, i ∉ b) ∧
        ((acc ≠ [] ∨ ∃ e ∈ es, g e = false ∧ ∃ a ∈ st.hyps, f e a = some true) → out ≠ []) := by
    intro d₀ hd₀ es
    induction es with
    | nil => intro _ acc h; exact ⟨acc, rfl, h, by simp⟩
    | cons e es ih =>
      intro he acc hacc
      have hes : ∀ x ∈ es, x ∈ d₀ :: near d₀ := fun x hx => he x (by simp [hx])
      unfold badLoop
      simp only [bind, Except.bind]
      rw [hg d₀ hd₀ e (he e (by simp))]
      simp only
      cases hge : g e with
      | true =>
        obtain ⟨out, h1, h2, h3⟩ := ih hes acc hacc
        refine ⟨out, by simpa using h1, h2, ?_⟩
        rintro (h | ⟨x, hx, hgx, hax⟩)
        · exact h3 (Or.inl h)
        · rcases List.mem_cons.1 hx with rfl | hx
          · rw [hge] at hgx; cases hgx
          · exact h3 (Or.inr ⟨x, hx, hgx, hax⟩)
      | false =>
        simp only [Bool.false_eq_true, if_false]
        obtain ⟨b, hb1, hb2, hb3, hb4, hb5⟩ := trueHyps_ok C.toSage e (f e) st.hyps 0
          (hf d₀ hd₀ e (he e (by simp)))
        rw [hb1]
        simp only
        have hlen : b.length ≠ st.hyps.length := by
          rw [Ne, hb2]
          intro hall
          rcases hno d₀ hd₀ e (he e (by simp)) with h | ⟨a, ha, h⟩
          · rw [hge] at h; cases h
          · exact h (hall a ha)
        rw [if_neg hlen]
        have hbset := hsets b (fun i hi => by have := hb4 i hi; omega) hb5 hlen
        obtain ⟨out, h1, h2, h3⟩ := ih hes (addBad acc b) (by
          intro s hs
          unfold addBad at hs
          split at hs
          · rcases List.mem_append.1 hs with hs | hs
            · exact hacc s (List.mem_dedup.1 (List.mem_filter.1 hs).1)
            · rw [List.mem_singleton] at hs; subst hs; exact hbset
          · exact hacc s hs)
        refine ⟨out, h1, h2, ?_⟩
        rintro (h | ⟨x, hx, hgx, a, ha, hax⟩)
        · exact h3 (Or.inl (addBad_ne (Or.inl h)))
        · rcases List.mem_cons.1 hx with rfl | hx
          · apply h3
            left
            apply addBad_ne
            right
            intro hb0
            subst hb0
            obtain ⟨m, hm⟩ := List.getElem?_of_mem ha
            have := (trueHyps_spec C.toSage x st.hyps 0 [] hb1 m).2 ⟨m, a, by simp, hm, by
              rw [hf d₀ hd₀ x (he x (by simp)) a ha, hax]⟩
            simp at this
          · exact h3 (Or.inr ⟨x, hx, hgx, a, ha, hax⟩)
  have hhyps : st.hyps ≠ [] := by
    obtain ⟨d, _, _, a, ha, _⟩ := hsome
    exact List.ne_nil_of_mem ha
  have hall : ∀ es : List (Dict K), (∀ e ∈ es, e ∈ ds) → ∃ tr bads, allBads C n st es = .ok (tr, bads) ∧
      (∀ b ∈ bads, ∃ i < st.hyps.length, i ∉ b) ∧
      ((∃ e ∈ es, g e = false ∧ ∃ a ∈ st.hyps, f e a = some true) → tr = false ∧ bads ≠ []) := by
    intro es
    induction es with
    | nil => intro _; exact ⟨true, [], rfl, by simp, by simp⟩
    | cons e es ih =>
      intro he
      obtain ⟨tr, bads, h1, h2, h3⟩ := ih fun x hx => he x (by simp [hx])
      have hed := he e (by simp)
      unfold allBads
      simp only [bind, Except.bind]
      have hbs : badSubsets C n st e = if g e then .ok none else
          (badLoop C.toSage st (e :: near e) []).map some := by
        unfold badSubsets
        simp only [bind, Except.bind]
        rw [hg e hed e (by simp)]
        simp only
        rw [if_neg hhyps, hnear e hed]
        cases g e
        · simp only [Bool.false_eq_true, if_false]
          cases badLoop C.toSage st (e :: near e) [] <;> rfl
        · rfl
      rw [hbs]
      cases hge : g e with
      | true =>
        simp only [if_true]
        rw [h1]
        refine ⟨tr, bads, rfl, h2, ?_⟩
        rintro ⟨x, hx, hgx, hax⟩
        rcases List.mem_cons.1 hx with rfl | hx
        · rw [hge] at hgx; cases hgx
        · exact h3 ⟨x, hx, hgx, hax⟩
      | false =>
        simp only [Bool.false_eq_true, if_false]
        obtain ⟨out, ho1, ho2, ho3⟩ := hloop e hed (e :: near e) (fun x hx => hx) [] (by simp)
        rw [ho1, h1]
        refine ⟨false, out ++ bads, rfl, ?_, ?_⟩
        · intro b hb
          rcases List.mem_append.1 hb with hb | hb
          · exact ho2 b hb
          · exact h2 b hb
        · rintro ⟨x, hx, hgx, hax⟩
          refine ⟨rfl, ?_⟩
          rcases List.mem_cons.1 hx with rfl | hx
          · have := ho3 (Or.inr ⟨x, by simp, hgx, hax⟩)
            simp [this]
          · have := (h3 ⟨x, hx, hgx, hax⟩).2
            simp [this]
  obtain ⟨tr, bads, h1, h2, h3⟩ := hall ds fun e he => he
  obtain ⟨d, hd, hgd, a, ha, had⟩ := hsome
  obtain ⟨rfl, hbne⟩ := h3 ⟨d, hd, hgd, a, ha, had⟩
  obtain ⟨s, hs⟩ := hC' st.hyps.length bads (weightHyps st) h2
  obtain ⟨hlt, hhit⟩ := hC _ _ _ _ hs
  have hsne : s ≠ [] := by
    obtain ⟨b, hb⟩ := List.exists_mem_of_ne_nil _ hbne
    obtain ⟨i, hi, _⟩ := hhit b hb
    exact List.ne_nil_of_mem hi
  have hgood : goodHyps C st bads = .ok s := by unfold goodHyps; rw [hs]
  obtain ⟨i, rest, hsort⟩ : ∃ i rest, sortCand st s = i :: rest := by
    cases hso : sortCand st s with
    | nil =>
      exfalso
      have := congrArg List.length hso
      rw [sortCand, List.length_mergeSort] at this
      exact hsne (List.length_eq_zero_iff.1 this)
    | cons i rest => exact ⟨i, rest, rfl⟩
  have his : i ∈ s := by
    have : i ∈ sortCand st s := by rw [hsort]; simp
    exact List.mem_mergeSort.1 this
  have hprom : ∃ st', st.promote C.toSage i = .ok st' := by
    unfold State.promote
    rw [List.getElem?_eq_getElem (hlt i his)]
    simp only [bind, Except.bind]
    rw [addHyp_ok hS]
    exact ⟨_, rfl⟩
  obtain ⟨st', hst'⟩ := hprom
  refine ⟨bads, st', ?_⟩
  unfold round
  simp only [bind, Except.bind]
  rw [hds]
  simp only
  rw [h1]
  simp only [Bool.false_eq_true, if_false]
  rw [hgood]
  simp only
  rw [hsort]
  simp only
  rw [hst']

/-! ### A concrete run -/

theorem testSage_ok : SageOK (testSage (K := ℚ)) := by
  refine ⟨?_, ?_, ?_⟩
  · intro p B ρ h
    show MPoly.eval ρ (if p ∈ B then [] else p) = _
    split
    · next hp => rw [h p hp, MPoly.eval_nil]
    · rfl
  · intro ps ρ; rfl
  · intro ps h; exact h

/-- The enumerating solver meets the assumptions made on GLPK. -/
theorem bruteSolve_ok (ds more : List (Dict ℚ)) :
    SolverOK (testCore ds more) ∧ SolverComplete (testCore ds more) := by
  constructor
  · intro n bads w s h
    have h1 : s ∈ (List.range n).sublists.filter (hits bads) := List.argmin_mem h
    obtain ⟨h2, h3⟩ := List.mem_filter.1 h1
    rw [List.mem_sublists] at h2
    refine ⟨fun i hi => List.mem_range.1 (h2.subset hi), fun b hb => ?_⟩
    have := List.all_eq_true.1 h3 b hb
    obtain ⟨i, hi, hib⟩ := List.any_eq_true.1 this
    exact ⟨i, hi, by simpa using hib⟩
  · intro n bads w h
    show ∃ s, ((List.range n).sublists.filter (hits bads)).argmin (weightOf w) = some s
    cases hm : ((List.range n).sublists.filter (hits bads)).argmin (weightOf w) with
    | some s => exact ⟨s, rfl⟩
    | none =>
      exfalso
      rw [List.argmin_eq_none] at hm
      have : List.range n ∈ (List.range n).sublists.filter (hits bads) := by
        refine List.mem_filter.2 ⟨List.mem_sublists.2 (List.Sublist.refl _), List.all_eq_true.2 fun b hb => ?_⟩
        obtain ⟨i, hi, hib⟩ := h b hb
        exact List.any_eq_true.2 ⟨i, List.mem_range.2 hi, by simpa using hib⟩
      rw [hm] at this
      simp at this

/-- `x0 > 0, x1 > 0 ⊢ x0 + 1 > 0` -/
def testState₂ : State :=
  ⟨[⟨MPoly.var 1, .gt, [1]⟩, ⟨MPoly.var 0, .gt, [0]⟩],
    ⟨⟨(MPoly.var 0).add (MPoly.const 1), .gt, [0]⟩, [], []⟩, [0, 1]⟩

/-- The run on this problem with two sample points: at `(-2, 1)` the goal and the second hypothesis are false, which
is promoted; then the goal is true at both points. All hypotheses of `C33`–`C36` and `C41` are met: the solver and
the algebra are right, the first round promotes, and the core is sound for the last state. -/
example : let C := testCore [[(0, -2), (1, 1)], [(0, 1), (1, 1)]] []
    ((check C 3 0 testState₂).toOption.map fun r => (r.1, r.2.hyps, r.2.goal.hyps)) =
      some ([[0]], [⟨MPoly.var 1, .gt, [1]⟩], [⟨MPoly.var 0, .gt, [0]⟩]) ∧
    SageOK C.toSage ∧ SolverOK C ∧ SolverComplete C ∧
    (∃ st', Rounds C 0 testState₂ 1 st') ∧
    ∀ ρ : ℕ → ℚ, (∀ a ∈ [(⟨MPoly.var 0, .gt, [0]⟩ : Atom)], a.holds ρ) → testState₂.goal.main.holds ρ := by
  intro C
  refine ⟨by decide +kernel, testSage_ok, (bruteSolve_ok _ _).1, (bruteSolve_ok _ _).2, ?_, ?_⟩
  · have h : ∃ bads st', round C 0 testState₂ = .ok (bads, some st') := by
      have h : (match round C 0 testState₂ with
        | .ok (_, some _) => true
        | _ => false) = true := by decide +kernel
      split at h
      · next bads st' h' => exact ⟨bads, st', h'⟩
      · exact absurd h (by decide)
    obtain ⟨bads, st', h⟩ := h
    exact ⟨st', .step 0 0 _ st' _ bads h (.refl _ _)⟩
  · intro ρ h
    have h1 : MPoly.eval ρ (MPoly.var 0) > 0 := h _ (List.mem_singleton_self _)
    show MPoly.eval ρ ((MPoly.var 0).add (MPoly.const 1)) > 0
    rw [MPoly.eval_var] at h1
    rw [MPoly.eval_add, MPoly.eval_var, MPoly.eval_const]
    push_cast
    linarith

end Verif.Grf
