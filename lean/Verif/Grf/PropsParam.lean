import Verif.Grf.ParamModel
import Verif.Grf.PropsSearch
import Verif.Grf.PropsLoop

/-!
# C125: the parameters `k` and `epsilon`
-/

set_option linter.unusedSectionVars false

namespace Verif.Grf

variable {K : Type} [Field K] [LinearOrder K] [IsStrictOrderedRing K]

/-- An announcement without the parameters. -/
abbrev Announce.rest (a : Announce K) : Dict K × Except GErr (List (Dict K)) := (a.at_, a.got)

/-- The points of an announcement come from a local search of the run. -/
def FromSearch (S : Sage K) (f : Calls K) (t : Dict K × Except GErr (List (Dict K))) : Prop :=
  ∀ pts, t.2 = .ok pts → ∃ n st order o, localSearch S (f n st t.1) order st.hyps st.goal.main t.1 = .ok (pts, o)

/-- `X` does the same as `W`, and what it prints depends on the parameters in their places only. -/
def Prints {α : Type} (S : Sage K) (f : Calls K) (X : ℕ → K → PState K → Except GErr α × PState K)
    (W : VOrder → Except GErr α × VOrder) : Prop :=
  ∀ o, ∃ T : List (Dict K × Except GErr (List (Dict K))), (∀ t ∈ T, FromSearch S f t) ∧ ∀ k eps l,
    X k eps (o, l) = ((W o).1, ((W o).2, l ++ T.map fun t => ⟨k, eps, t.1, t.2⟩))

theorem Prints.const {α : Type} (S : Sage K) (f : Calls K) (r : Except GErr α) :
    Prints S f (fun _ _ s => (r, s)) fun o => (r, o) :=
  fun o => ⟨[], by simp, by simp⟩

theorem Prints.then {α β : Type} {S : Sage K} {f : Calls K} {X : ℕ → K → PState K → Except GErr α × PState K}
    {W : VOrder → Except GErr α × VOrder} {F : ℕ → K → α → PState K → Except GErr β × PState K}
    {G : α → VOrder → Except GErr β × VOrder} (hX : Prints S f X W)
    (hF : ∀ a, Prints S f (fun k eps => F k eps a) (G a)) :
    Prints S f (fun k eps s => pThen (X k eps s) (F k eps)) fun o => wThen (W o) G := by
  intro o
  obtain ⟨T, hT, h⟩ := hX o
  cases hW : W o with
  | mk r o' =>
    rw [hW] at h
    cases r with
    | error e =>
      refine ⟨T, hT, fun k eps l => ?_⟩
      beta_reduce
      rw [h, hW]
      rfl
    | ok a =>
      obtain ⟨T', hT', h'⟩ := hF a o'
      refine ⟨T ++ T', fun t ht => (List.mem_append.1 ht).elim (hT t) (hT' t), fun k eps l => ?_⟩
      beta_reduce
      rw [h, hW]
      show F k eps a (o', _) = _
      have h'' := h' k eps (l ++ T.map fun t => ⟨k, eps, t.1, t.2⟩)
      beta_reduce at h''
      rw [h'', List.map_append, List.append_assoc]
      rfl

theorem prints_badSubsets (C : Core K) (f : Calls K) (n : ℕ) (st : State) (d : Dict K) :
    Prints C.toSage f (fun k eps s => pBadSubsets C f k eps n st d s) fun o => wBadSubsets C f n st d o := by
  intro o
  unfold pBadSubsets wBadSubsets
  cases hg : st.goal.evalOnDict C.toSage d with
  | error e => exact ⟨[], by simp, by simp⟩
  | ok b =>
    cases b with
    | true => exact ⟨[], by simp, by simp⟩
    | false =>
      refine ⟨[(d, (pSamplePoints C.toSage (f n st d) st d o).1)], ?_, fun k eps l => ?_⟩
      · intro t ht pts hp
        rw [List.mem_singleton] at ht
        subst ht
        unfold pSamplePoints wSearch at hp
        by_cases hh : st.hyps = []
        · simp [hh] at hp
        · simp only [hh, if_false] at hp
          cases hl : localSearch C.toSage (f n st d) o st.hyps st.goal.main d with
          | error e => rw [hl] at hp; cases hp
          | ok r =>
            rw [hl] at hp
            cases hp
            exact ⟨n, st, o, r.2, hl⟩
      · simp only
        unfold pSamplePoints
        by_cases hh : st.hyps = []
        · simp [hh, pThen]
        · simp only [hh, if_false]
          cases hw : wSearch C.toSage (f n st d) st.hyps st.goal.main d o with
          | mk r o' => cases r <;> rfl

theorem prints_allBads (C : Core K) (f : Calls K) (n : ℕ) (st : State) : ∀ ds : List (Dict K),
    Prints C.toSage f (fun k eps s => pAllBads C f k eps n st ds s) fun o => wAllBads C f n st ds o
  | [] => Prints.const _ _ _
  | d :: ds => by
    unfold pAllBads wAllBads
    refine (prints_badSubsets C f n st d).then fun b => (prints_allBads C f n st ds).then fun r => ?_
    cases b with
    | none => exact Prints.const _ _ _
    | some bs => exact Prints.const _ _ _

theorem prints_round (C : Core K) (f : Calls K) (n : ℕ) (st : State) :
    Prints C.toSage f (fun k eps s => pRound C f k eps n st s) fun o => wRound C f n st o := by
  unfold pRound wRound
  refine (Prints.const _ _ (C.samples n st)).then fun ds => (prints_allBads C f n st ds).then fun r => ?_
  by_cases h : r.1
  · simp only [h, if_true]; exact Prints.const _ _ _
  · simp only [h]; exact Prints.const _ _ _

theorem prints_check (C : Core K) (f : Calls K) : ∀ (fuel n : ℕ) (st : State),
    Prints C.toSage f (fun k eps s => pCheck C f k eps fuel n st s) fun o => wCheck C f fuel n st o
  | 0, _, _ => Prints.const _ _ _
  | fuel + 1, n, st => by
    unfold pCheck wCheck
    refine (prints_round C f n st).then fun r => ?_
    cases hr : r.2 with
    | none => exact Prints.const _ _ _
    | some st' => exact (prints_check C f fuel (n + 1) st').then fun out => Prints.const _ _ _

/-- **C125** is violated: the parameters have no effect. For any two choices of them the outcome (returned value, final
state or exception) is the same, the same sample points are announced, and the same points are computed for them. -/
theorem C125_violated (C : Core K) (f : Calls K) (fuel n : ℕ) (st : State) (order : VOrder) (k k' : ℕ) (eps eps' : K) :
    (pCheck C f k eps fuel n st (order, [])).1 = (pCheck C f k' eps' fuel n st (order, [])).1 ∧
      (pCheck C f k eps fuel n st (order, [])).2.2.map (fun a => (a.at_, a.got)) =
        (pCheck C f k' eps' fuel n st (order, [])).2.2.map fun a => (a.at_, a.got) := by
  obtain ⟨T, -, h⟩ := prints_check C f fuel n st order
  beta_reduce at h
  rw [h k eps, h k' eps']
  simp

/-- **C125** is violated for files: which formulas can be hidden does not depend on the parameters given to
`grf_on_file`. -/
theorem C125_file_violated (C : Core K) (f : Calls K) (ante succ : List Atom) (order : VOrder) (k k' : ℕ) (eps eps' : K) :
    (pPerformGrf C f k eps ante succ (order, [])).1 = (pPerformGrf C f k' eps' ante succ (order, [])).1 := by
  unfold pPerformGrf
  cases hs : seqState ante succ with
  | error e => rfl
  | ok st =>
    simp only [pThen]
    obtain ⟨T, -, h⟩ := prints_check C f (st.hyps.length + 1) 0 st order
    beta_reduce at h
    rw [h k eps, h k' eps']
    cases (wCheck C f (st.hyps.length + 1) 0 st order).1 <;> rfl

/-- The number of points of a local search, whatever the random choices. -/
theorem localSearch_number (S : Sage K) (O : Search K) (order : Option (List ℕ)) (hyps : List Atom) (main : Atom) (d : Dict K)
    (pts : List (Dict K)) (o : List ℕ) (h : localSearch S O order hyps main d = .ok (pts, o)) :
    ∃ near found, pts = d :: near ++ found ∧ near.length = 25 ∧ found.length ≤ 52 := by
  unfold localSearch at h
  simp only [bind, Except.bind] at h
  cases h1 : dict2vect order d with
  | error e => rw [h1] at h; cases h
  | ok x =>
    rw [h1] at h
    simp only at h
    cases h2 : chain S O 0 (some x.2) hyps main 2 0 x.1 with
    | error e => rw [h2] at h; cases h
    | ok found =>
      rw [h2] at h
      cases h
      exact ⟨_, found, rfl, by simp, (chain_spec S O 0 x.2 hyps main 2 0 x.1 found h2).1⟩

/-- **C125** is violated: never fewer than 25 and never more than 77 additional points are computed, so that the announced
number is wrong whenever `k` is smaller or larger (as with the default 100 of `check`). -/
theorem C125_number_violated (C : Core K) (f : Calls K) (fuel n : ℕ) (st : State) (order : VOrder) (k : ℕ) (eps : K) :
    ∀ a ∈ (pCheck C f k eps fuel n st (order, [])).2.2, ∀ pts, a.got = .ok pts →
      ∃ more, pts = a.at_ :: more ∧ 25 ≤ more.length ∧ more.length ≤ 77 ∧ (k < 25 ∨ 77 < k → more.length ≠ a.k) := by
  obtain ⟨T, hT, h⟩ := prints_check C f fuel n st order
  beta_reduce at h
  rw [h k eps]
  intro a ha pts hp
  rw [List.nil_append] at ha
  obtain ⟨t, ht, rfl⟩ := List.mem_map.1 ha
  obtain ⟨n', st', o', o, hl⟩ := hT t ht pts hp
  obtain ⟨near, found, rfl, h1, h2⟩ := localSearch_number _ _ _ _ _ _ _ _ hl
  refine ⟨near ++ found, rfl, ?_, ?_, ?_⟩ <;> simp only [List.length_append] <;> omega

/-- **C125**, partial: what is announced are the parameters that have been given, in every round; the first 25 of the
additional points differ from the sample point by at most 1/100 in each coordinate, so that they are in the announced
neighborhood if `eps` is at least 1/100. Missing: any effect of the parameters, see `C125_violated`. -/
theorem C125_partial (C : Core K) (f : Calls K) (fuel n : ℕ) (st : State) (order : VOrder) (k : ℕ) (eps : K)
    (hf : ∀ n st d i v, |(f n st d).noise₀ i v| ≤ 1 / 100) (heps : 1 / 100 ≤ eps) :
    ∀ a ∈ (pCheck C f k eps fuel n st (order, [])).2.2, a.k = k ∧ a.eps = eps ∧ ∀ pts, a.got = .ok pts →
      ∃ near found, pts = a.at_ :: near ++ found ∧ near.length = 25 ∧
        ∀ e ∈ near, e.map Prod.fst = a.at_.map Prod.fst ∧
          List.Forall₂ (fun x y => |x - y| ≤ eps) (e.map Prod.snd) (a.at_.map Prod.snd) := by
  obtain ⟨T, hT, h⟩ := prints_check C f fuel n st order
  beta_reduce at h
  rw [h k eps]
  intro a ha
  rw [List.nil_append] at ha
  obtain ⟨t, ht, rfl⟩ := List.mem_map.1 ha
  refine ⟨rfl, rfl, fun pts hp => ?_⟩
  obtain ⟨n', st', o', o, hl⟩ := hT t ht pts hp
  obtain ⟨near, found, rfl, h1, h2, -⟩ := C46_partial _ _ (hf n' st' t.1) _ _ _ _ _ _ hl
  exact ⟨near, found, rfl, h1, fun e he => ⟨(h2 e he).1, (h2 e he).2.imp fun _ _ h => h.trans heps⟩⟩

theorem file_announces (C : Core K) (f : Calls K) (k : ℕ) (eps : K) (ante succ : List Atom) (order : VOrder) (a : Announce K)
    (ha : a ∈ (pPerformGrf C f k eps ante succ (order, [])).2.2) :
    ∃ st, a ∈ (pCheck C f k eps (st.hyps.length + 1) 0 st (order, [])).2.2 := by
  unfold pPerformGrf at ha
  cases hs : seqState ante succ with
  | error e => rw [hs] at ha; simp [pThen] at ha
  | ok st =>
    rw [hs] at ha
    simp only [pThen] at ha
    refine ⟨st, ?_⟩
    generalize pCheck C f k eps (st.hyps.length + 1) 0 st (order, []) = x at ha ⊢
    obtain ⟨r, s⟩ := x
    cases r <;> exact ha

/-- **C125**, partial, for files without parameters: 25 points in a neighborhood of 1/10 are announced, and the first 25
additional points are in it. -/
theorem C125_file_defaults (C : Core K) (f : Calls K) (ante succ : List Atom) (order : VOrder)
    (hf : ∀ n st d i v, |(f n st d).noise₀ i v| ≤ 1 / 100) :
    ∀ a ∈ (pPerformGrf C f (fileDefaults (K := K)).1 (fileDefaults (K := K)).2 ante succ (order, [])).2.2,
      a.k = 25 ∧ a.eps = 1 / 10 ∧ ∀ pts, a.got = .ok pts →
        ∃ near found, pts = a.at_ :: near ++ found ∧ near.length = a.k ∧
          ∀ e ∈ near, e.map Prod.fst = a.at_.map Prod.fst ∧
            List.Forall₂ (fun x y => |x - y| ≤ a.eps) (e.map Prod.snd) (a.at_.map Prod.snd) := by
  intro a ha
  obtain ⟨st, hst⟩ := file_announces C f _ _ ante succ order a ha
  have heps : (1 / 100 : K) ≤ fileDefaults.2 := by norm_num [fileDefaults]
  obtain ⟨h1, h2, h3⟩ := C125_partial C f _ 0 st order _ _ hf heps a hst
  have h1' : a.k = 25 := h1
  have h2' : a.eps = 1 / 10 := h2
  refine ⟨h1', h2', fun pts hp => ?_⟩
  obtain ⟨near, found, e1, e2, e3⟩ := h3 pts hp
  exact ⟨near, found, e1, by rw [h1', e2], by rw [h2]; exact e3⟩

/-- **C125** is violated by every call of `check` without parameters that gets to a sample point where the goal is false:
100 points are announced, and at most 77 are computed. -/
theorem C125_check_defaults_violated (C : Core K) (f : Calls K) (fuel n : ℕ) (st : State) (order : VOrder) :
    ∀ a ∈ (pCheck C f (checkDefaults (K := K)).1 (checkDefaults (K := K)).2 fuel n st (order, [])).2.2,
      a.k = 100 ∧ a.eps = 2 ∧ ∀ pts, a.got = .ok pts → pts.length ≤ 78 := by
  intro a ha
  obtain ⟨h1, h2⟩ : a.k = (checkDefaults (K := K)).1 ∧ a.eps = checkDefaults.2 := by
    obtain ⟨T, -, h⟩ := prints_check C f fuel n st order
    beta_reduce at h
    rw [h, List.nil_append] at ha
    obtain ⟨t, -, rfl⟩ := List.mem_map.1 ha
    exact ⟨rfl, rfl⟩
  refine ⟨h1, h2, fun pts hp => ?_⟩
  obtain ⟨more, rfl, -, h3, -⟩ := C125_number_violated C f fuel n st order _ _ a ha pts hp
  simpa using h3

/-- A core for the examples: one sample point in the first round, and none later. -/
def parCore : Core ℚ :=
  { testSage with samples := fun k _ => .ok (if k = 0 then [[(0, 5)]] else []),
                  more := fun _ _ _ => .ok [], solve := bruteSolve }

/-- The sequent `x0 - 1 < 0, x0 > 0 ⊢ x0 - 2 < 0`. -/
def parState : State :=
  ⟨[⟨(MPoly.var 0).sub (MPoly.const 1), .lt, [0]⟩, ⟨MPoly.var 0, .gt, [0]⟩],
    ⟨⟨(MPoly.var 0).sub (MPoly.const 2), .lt, [0]⟩, [], []⟩, [0, 1]⟩

/-- **C125** is violated for the neighborhood: at the sample point 5, with the parameters 25 and 1/10, the point 3 is
computed. The check returns, with the first hypothesis promoted. -/
theorem C125_far_violated :
    ((pCheck parCore (fun _ _ _ => testSearch) 25 (1 / 10) 3 0 parState (none, [])).1.toOption.map fun r => r.2.ids) =
      some [1] ∧
    ∃ a ∈ (pCheck parCore (fun _ _ _ => testSearch) 25 (1 / 10) 3 0 parState (none, [])).2.2,
      a.k = 25 ∧ a.eps = 1 / 10 ∧ a.at_ = [(0, 5)] ∧ ∃ pts, a.got = .ok pts ∧ pts.length = 78 ∧ [(0, 3)] ∈ pts := by
  refine ⟨by decide +kernel, ?_⟩
  have h : ((pCheck parCore (fun _ _ _ => testSearch) 25 (1 / 10) 3 0 parState (none, [])).2.2.any fun a =>
      decide (a.k = 25 ∧ a.eps = 1 / 10 ∧ a.at_ = [(0, 5)]) &&
        a.got.toOption.any fun pts => decide (pts.length = 78 ∧ [(0, 3)] ∈ pts)) = true := by decide +kernel
  obtain ⟨a, ha, h⟩ := List.any_eq_true.1 h
  rw [Bool.and_eq_true, decide_eq_true_iff] at h
  refine ⟨a, ha, h.1.1, h.1.2.1, h.1.2.2, ?_⟩
  cases hg : a.got with
  | error e => rw [hg] at h; exact absurd h.2 (by simp [Except.toOption])
  | ok pts => rw [hg] at h; exact ⟨pts, rfl, by simpa [Except.toOption] using h.2⟩

/-- The hypotheses of `C125_number_violated`, `C125_partial` and the theorems on default parameters hold for this run, with
the default parameters of `check` and of files; there is one announcement. -/
example : (∀ (n : ℕ) (st : State) (d : Dict ℚ) (i v : ℕ), |((fun _ _ _ => testSearch : Calls ℚ) n st d).noise₀ i v| ≤ 1 / 100) ∧
    (1 / 100 : ℚ) ≤ (checkDefaults (K := ℚ)).2 ∧ (1 / 100 : ℚ) ≤ (fileDefaults (K := ℚ)).2 ∧
    77 < (checkDefaults (K := ℚ)).1 ∧
    ((pPerformGrf parCore (fun _ _ _ => testSearch) (fileDefaults (K := ℚ)).1 fileDefaults.2 parState.hyps [parState.goal.main]
      (none, [])).2.2.map fun a => (a.k, a.eps)) = [(25, 1 / 10)] ∧
    ((pCheck parCore (fun _ _ _ => testSearch) (checkDefaults (K := ℚ)).1 checkDefaults.2 3 0 parState (none, [])).2.2.map
      fun a => (a.k, a.eps)) = [(100, 2)] :=
  ⟨fun _ _ _ _ _ => by simp [testSearch], by decide +kernel, by decide +kernel, by decide +kernel, by decide +kernel,
    by decide +kernel⟩

/-- For `C125_file_violated`: the second formula of the antecedent can be hidden, with the parameters of any file. -/
example (k : ℕ) (eps : ℚ) : (pPerformGrf parCore (fun _ _ _ => testSearch) k eps parState.hyps [parState.goal.main]
    (none, [])).1.toOption = some ([1], []) := by
  rw [C125_file_violated _ _ _ _ _ k 25 eps (1 / 10)]
  decide +kernel

end Verif.Grf
