import Verif.Grf.Search
import Verif.Grf.PropsAtom

/-!
# C45, C46, C62: local search
-/

set_option linter.unusedSectionVars false

namespace Verif.Grf

variable {K : Type} [Field K] [LinearOrder K] [IsStrictOrderedRing K]

/-! ### C45 -/

theorem lookupAll_ok (d : Dict K) : ∀ vs : List ℕ, (∀ v ∈ vs, (d.lookup v).isSome) →
    lookupAll d vs = .ok (vs.map (ptOf d))
  | [], _ => rfl
  | v :: vs, h => by
    obtain ⟨x, hx⟩ := Option.isSome_iff_exists.1 (h v (by simp))
    unfold lookupAll
    rw [hx, lookupAll_ok d vs fun w hw => h w (by simp [hw])]
    simp only [bind, Except.bind, List.map_cons, ptOf, hx, Option.getD_some]

theorem lookup_isSome_iff : ∀ (d : Dict K) (w : ℕ), (d.lookup w).isSome ↔ w ∈ d.map Prod.fst
  | [], w => by simp
  | e :: d, w => by
    rw [List.lookup_cons]
    by_cases he : w = e.1
    · subst he; simp
    · have : (w == e.1) = false := by simpa using he
      rw [this, List.map_cons, List.mem_cons]
      simp only [he, false_or]
      exact lookup_isSome_iff d w

theorem lookup_zip_map (f : ℕ → K) : ∀ (o : List ℕ) (i : ℕ), (o.zip (o.map f)).lookup i = if i ∈ o then some (f i) else none
  | [], i => by simp
  | v :: o, i => by
    rw [List.map_cons, List.zip_cons_cons, List.lookup_cons]
    by_cases h : i = v
    · subst h; simp
    · have : (i == v) = false := by simpa using h
      rw [this]
      simp only [lookup_zip_map f o i, List.mem_cons, h, false_or]

theorem map_ptOf_zip : ∀ (o : List ℕ) (v : List K), o.Nodup → v.length = o.length → o.map (ptOf (o.zip v)) = v
  | [], [], _, _ => rfl
  | a :: o, x :: v, ho, hl => by
    rw [List.zip_cons_cons, List.map_cons]
    have h1 : ptOf ((a, x) :: o.zip v) a = x := by simp [ptOf]
    have h2 : o.map (ptOf ((a, x) :: o.zip v)) = o.map (ptOf (o.zip v)) := by
      apply List.map_congr_left
      intro i hi
      have : (i == a) = false := by
        have := (List.nodup_cons.1 ho).1
        simp only [beq_eq_false_iff_ne, ne_eq]
        rintro rfl
        exact this hi
      simp only [ptOf, List.lookup_cons, this]
    rw [h1, h2, map_ptOf_zip o v (List.nodup_cons.1 ho).2 (by simpa using hl)]
  | [], x :: v, _, hl => by simp at hl
  | a :: o, [], _, hl => by simp at hl

/-- **C45**, partial: once the variable order is set, and for assignments to the same variables, the two conversions are
inverse to each other; the first conversion sets the order to that of the assignment. The part about the problem in force
fails, see `C45_violated`. -/
theorem C45_partial (o : List ℕ) (ho : o.Nodup) (hne : o ≠ []) :
    (∀ v : List K, v.length = o.length → ∃ d, vect2dict (some o) v = .ok d ∧ dict2vect (some o) d = .ok (v, o)) ∧
    (∀ d : Dict K, (∀ v ∈ o, v ∈ d.map Prod.fst) → ∃ v d', dict2vect (some o) d = .ok (v, o) ∧
      vect2dict (some o) v = .ok d' ∧ ∀ i ∈ o, d'.lookup i = d.lookup i) ∧
    ∀ d : Dict K, d.map Prod.fst = o → ∃ v, dict2vect none d = .ok (v, o) ∧ v = d.map Prod.snd ∧
      vect2dict (some o) v = .ok d := by
  obtain ⟨a, o', rfl⟩ := List.exists_cons_of_ne_nil hne
  refine ⟨fun v hv => ?_, fun d hd => ?_, fun d hd => ?_⟩
  · have h1 : vect2dict (some (a :: o')) v = .ok ((a :: o').zip v) := by
      unfold vect2dict
      simp only
      rw [if_neg]
      rintro (h | h)
      · cases h
      · exact h hv
    refine ⟨_, h1, ?_⟩
    unfold dict2vect
    simp only [bind, Except.bind, varOrder]
    rw [lookupAll_ok, map_ptOf_zip _ v ho hv]
    intro w hw
    rw [lookup_isSome_iff, List.map_fst_zip (by omega)]
    exact hw
  · have h1 : dict2vect (some (a :: o')) d = .ok ((a :: o').map (ptOf d), a :: o') := by
      unfold dict2vect
      simp only [bind, Except.bind, varOrder]
      rw [lookupAll_ok]
      intro w hw
      rw [lookup_isSome_iff]
      exact hd w hw
    refine ⟨_, (a :: o').zip ((a :: o').map (ptOf d)), h1, ?_, fun i hi => ?_⟩
    · unfold vect2dict
      simp
    · rw [lookup_zip_map, if_pos hi]
      obtain ⟨x, hx⟩ := Option.isSome_iff_exists.1 ((lookup_isSome_iff d i).2 (hd i hi))
      rw [hx, ptOf, hx]
      rfl
  · have hlen : (a :: o').length = (d.map Prod.snd).length := by rw [← hd]; simp
    have hz : (a :: o').zip (d.map Prod.snd) = d := by
      rw [← hd]
      rw [List.zip_map']; simp
    have h1 : dict2vect none d = .ok (d.map Prod.snd, a :: o') := by
      unfold dict2vect
      simp only [bind, Except.bind, varOrder]
      rw [hd, lookupAll_ok]
      · have := map_ptOf_zip (a :: o') (d.map Prod.snd) ho hlen.symm
        rw [hz] at this
        rw [this]
      · intro w hw
        rw [lookup_isSome_iff, hd]
        exact hw
    refine ⟨_, h1, rfl, ?_⟩
    unfold vect2dict
    simp only
    rw [if_neg, hz]
    rintro (h | h)
    · cases h
    · exact h hlen.symm

/-- **C45** is violated: the order stays that of the first assignment ever converted. An assignment for a later problem
with one more variable loses the value of this variable, without an error; one without the variable of the first problem
raises `KeyError`. -/
theorem C45_violated :
    (do
      let r₁ ← dict2vect (K := ℚ) none [(0, 5)]
      let r₂ ← dict2vect (some r₁.2) [(0, 1), (1, 2)]
      let d ← vect2dict (some r₂.2) r₂.1
      .ok (r₂.1, d)).toOption = some ([(1 : ℚ)], [(0, (1 : ℚ))]) ∧
    (do
      let r₁ ← dict2vect (K := ℚ) none [(0, 5)]
      dict2vect (some r₁.2) [(1, 2)]) = .error .keyError :=
  ⟨by decide +kernel, rfl⟩

/-- The first conversion and the way back. -/
example : (do
      let r ← dict2vect (K := ℚ) none [(1, 5), (0, 7)]
      let d ← vect2dict (some r.2) r.1
      .ok (r, d)).toOption = some (([5, 7], [1, 0]), [(1, 5), (0, 7)]) := by decide +kernel

/-! ### C46 -/

theorem filterGoal_mem (S : Sage K) (main : Atom) : ∀ (ds good : List (Dict K)), filterGoal S main ds = .ok good →
    good.Sublist ds ∧ ∀ d, d ∈ good ↔ d ∈ ds ∧ ∃ b, main.evalOnDict S d = .ok b ∧ b ≠ some true
  | [], good, h => by cases h; simp
  | d :: ds, good, h => by
    unfold filterGoal at h
    simp only [bind, Except.bind] at h
    cases hb : main.evalOnDict S d with
    | error e => rw [hb] at h; cases h
    | ok b =>
      rw [hb] at h
      simp only at h
      cases hr : filterGoal S main ds with
      | error e => rw [hr] at h; cases h
      | ok r =>
        rw [hr] at h
        obtain ⟨ih1, ih2⟩ := filterGoal_mem S main ds r hr
        injection h with h
        split at h
        · next hbt =>
          subst h
          refine ⟨ih1.cons d, fun e => ?_⟩
          rw [ih2, List.mem_cons]
          constructor
          · rintro ⟨h1, h2⟩; exact ⟨Or.inr h1, h2⟩
          · rintro ⟨h1 | h1, h2⟩
            · obtain ⟨b', h2, h3⟩ := h2
              rw [h1, hb] at h2
              cases h2
              exact absurd hbt h3
            · exact ⟨h1, h2⟩
        · next hbt =>
          subst h
          refine ⟨ih1.cons_cons d, fun e => ?_⟩
          rw [List.mem_cons, List.mem_cons, ih2]
          constructor
          · rintro (h1 | ⟨h1, h2⟩)
            · exact ⟨Or.inl h1, b, by rw [h1]; exact hb, hbt⟩
            · exact ⟨Or.inr h1, h2⟩
          · rintro ⟨h1 | h1, h2⟩
            · exact Or.inl h1
            · exact Or.inr ⟨h1, h2⟩

theorem toDicts_spec (o : List ℕ) : ∀ (xs : List (List K)) (ds : List (Dict K)), toDicts (some o) xs = .ok ds →
    ds.length = xs.length ∧ ∀ d ∈ ds, d.map Prod.fst = o
  | [], ds, h => by cases h; simp
  | x :: xs, ds, h => by
    unfold toDicts at h
    simp only [bind, Except.bind] at h
    cases hx : vect2dict (some o) x with
    | error e => rw [hx] at h; cases h
    | ok d =>
      rw [hx] at h
      simp only at h
      cases hr : toDicts (some o) xs with
      | error e => rw [hr] at h; cases h
      | ok r =>
        rw [hr] at h
        cases h
        obtain ⟨ih1, ih2⟩ := toDicts_spec o xs r hr
        refine ⟨by simp [ih1], ?_⟩
        intro e he
        rcases List.mem_cons.1 he with rfl | he
        · unfold vect2dict at hx
          simp only at hx
          split at hx
          · cases hx
          · next hn =>
            cases hx
            rw [List.map_fst_zip]
            push Not at hn
            omega
        · exact ih2 e he

/-- A point that is kept by the chain: a total assignment that does not make the main goal true. -/
def SearchKept (S : Sage K) (main : Atom) (o : List ℕ) (d : Dict K) : Prop :=
  d.map Prod.fst = o ∧ ∃ b, main.evalOnDict S d = .ok b ∧ b ≠ some true

theorem chain_spec (S : Sage K) (O : Search K) (i : ℕ) (o : List ℕ) (hyps : List Atom) (main : Atom) :
    ∀ (n k : ℕ) (x : List K) (ds : List (Dict K)), chain S O i (some o) hyps main n k x = .ok ds →
    ds.length ≤ 26 * n ∧ ∀ d ∈ ds, SearchKept S main o d
  | 0, k, x, ds, h => by cases h; simp
  | n + 1, k, x, ds, h => by
    unfold chain at h
    simp only [bind, Except.bind] at h
    cases h1 : chainStep S O i k (some o) hyps main x with
    | error e => rw [h1] at h; cases h
    | ok r =>
      rw [h1] at h
      simp only at h
      cases h2 : chain S O i (some o) hyps main n (k + 1) r.1 with
      | error e => rw [h2] at h; cases h
      | ok rest =>
        rw [h2] at h
        cases h
        obtain ⟨ih1, ih2⟩ := chain_spec S O i o hyps main n (k + 1) r.1 rest h2
        have hr : r.2.length ≤ 26 ∧ ∀ d ∈ r.2, SearchKept S main o d := by
          unfold chainStep at h1
          simp only [bind, Except.bind] at h1
          split at h1
          · cases h1
          · split at h1
            · cases h1
            · split at h1
              · cases h1
              · split at h1
                · cases h1
                · next ds' hds =>
                  split at h1
                  · cases h1
                  · next good hg =>
                    cases h1
                    obtain ⟨g1, g2⟩ := filterGoal_mem S main ds' good hg
                    obtain ⟨t1, t2⟩ := toDicts_spec o _ ds' hds
                    refine ⟨?_, fun d hd => ⟨t2 d ((g2 d).1 hd).1, ((g2 d).1 hd).2⟩⟩
                    have := g1.length_le
                    rw [t1] at this
                    simpa using this
        refine ⟨by rw [List.length_append]; omega, ?_⟩
        intro d hd
        rcases List.mem_append.1 hd with hd | hd
        · exact hr.2 d hd
        · exact ih2 d hd

/-- **C46**, partial: if local search returns, its result consists of the given point, 25 points around it (in each
coordinate at most 1/100 away), and at most 2 * 26 further points, none of which makes the main goal true. Missing: the
repetitions and the test of the first points, see `C46_violated` and `C46_violated_start`. -/
theorem C46_partial (S : Sage K) (O : Search K) (hO : ∀ n v, |O.noise₀ n v| ≤ 1 / 100) (order : Option (List ℕ))
    (hyps : List Atom) (main : Atom) (d : Dict K) (pts : List (Dict K)) (o : List ℕ)
    (h : localSearch S O order hyps main d = .ok (pts, o)) :
    ∃ near found, pts = d :: near ++ found ∧ near.length = 25 ∧
      (∀ e ∈ near, e.map Prod.fst = d.map Prod.fst ∧
        List.Forall₂ (fun a b => |a - b| ≤ 1 / 100) (e.map Prod.snd) (d.map Prod.snd)) ∧
      found.length ≤ 52 ∧ ∀ e ∈ found, e.map Prod.fst = o ∧ main.evalOnDict S e ≠ .ok (some true) := by
  unfold localSearch at h
  simp only [bind, Except.bind] at h
  cases h1 : dict2vect order d with
  | error e => rw [h1] at h; cases h
  | ok x =>
    rw [h1] at h
    simp only at h
    cases h2 : chain S O 0 (some x.2) hyps main 2 0 x.1 with
    | error e => rw [h2] at h; cases h
    | ok found =>
      rw [h2] at h
      cases h
      obtain ⟨c1, c2⟩ := chain_spec S O 0 x.2 hyps main 2 0 x.1 found h2
      refine ⟨_, found, rfl, by simp, ?_, c1, fun e he => ⟨(c2 e he).1, ?_⟩⟩
      · intro e he
        obtain ⟨n, _, rfl⟩ := List.mem_map.1 he
        refine ⟨by simp [perturbDict], ?_⟩
        unfold perturbDict
        rw [List.map_map]
        induction d with
        | nil => exact .nil
        | cons a d ih =>
          clear h1 ih
          induction (a :: d) with
          | nil => exact .nil
          | cons b d ih =>
            refine .cons ?_ ih
            simp only [Function.comp]
            rw [add_sub_cancel_left]
            exact hO n b.1
      · obtain ⟨b, hb, hbt⟩ := (c2 e he).2
        rw [hb]
        intro h
        cases h
        exact hbt rfl

/-- **C46** is violated: of the ten repetitions only the first takes place. Whatever the solver and the random choices
would give in the other nine, the result is the same. -/
theorem C46_violated (S : Sage K) (O O' : Search K) (h₀ : O.noise₀ = O'.noise₀) (h₁ : O.noise 0 = O'.noise 0)
    (h₂ : O.pick 0 = O'.pick 0) (h₃ : O.side 0 = O'.side 0) (h₄ : O.fsolve 0 = O'.fsolve 0)
    (order : Option (List ℕ)) (hyps : List Atom) (main : Atom) (d : Dict K) :
    localSearch S O order hyps main d = localSearch S O' order hyps main d := by
  have hstep : ∀ k o x, chainStep S O 0 k o hyps main x = chainStep S O' 0 k o hyps main x := by
    intro k o x
    unfold chainStep chooseAtom
    rw [h₁, h₂, h₃, h₄]
  have hchain : ∀ n k o x, chain S O 0 o hyps main n k x = chain S O' 0 o hyps main n k x := by
    intro n
    induction n with
    | zero => intros; rfl
    | succ n ih =>
      intro k o x
      unfold chain
      rw [hstep]
      simp only [ih]
  unfold localSearch
  simp only [h₀, hchain]

/-- A search without noise whose solver moves to 3. -/
def testSearch : Search ℚ where
  noise₀ _ _ := 0
  noise _ _ _ _ := 0
  pick _ _ _ := 0
  side _ _ := true
  fsolve _ _ _ _ := .ok [3]

/-- With the hypothesis `x0 > 0` and the main goal `x0 - 2 < 0`, which is false at 3: all 78 points are returned. -/
example : ((localSearch testSage testSearch none [⟨MPoly.var 0, .gt, [0]⟩]
    ⟨(MPoly.var 0).sub (MPoly.const 2), .lt, [0]⟩ [(0, 1)]).toOption.map fun r => (r.1.length, r.1.drop 26, r.2)) =
    some (78, List.replicate 52 [(0, 3)], [0]) := by decide +kernel

/-- **C46** is violated also for the points around the given one: they are not tested, and may make the main goal true
(here `x0 - 2 < 0`, at 1). -/
theorem C46_violated_start : ∃ pts o, localSearch testSage testSearch none [⟨MPoly.var 0, .gt, [0]⟩]
      ⟨(MPoly.var 0).sub (MPoly.const 2), .lt, [0]⟩ [(0, 1)] = .ok (pts, o) ∧
    ∃ e ∈ pts.drop 1, Atom.evalOnDict testSage ⟨(MPoly.var 0).sub (MPoly.const 2), .lt, [0]⟩ e = .ok (some true) := by
  have h : ((localSearch testSage testSearch none [⟨MPoly.var 0, .gt, [0]⟩]
      ⟨(MPoly.var 0).sub (MPoly.const 2), .lt, [0]⟩ [(0, 1)]).toOption.any fun r => decide ([(0, 1)] ∈ r.1.drop 1)) =
      true := by decide +kernel
  revert h
  cases localSearch testSage testSearch none [⟨MPoly.var 0, .gt, [0]⟩]
      ⟨(MPoly.var 0).sub (MPoly.const 2), .lt, [0]⟩ [(0, 1)] with
  | error e => intro h; cases h
  | ok r =>
    intro h
    refine ⟨r.1, r.2, rfl, [(0, 1)], by simpa [Except.toOption] using h, ?_⟩
    rw [evalOnDict_covered]
    · congr 2
      decide +kernel
    · exact ⟨by simp, by decide +kernel, by decide +kernel⟩

/-! ### C62 -/

/-- **C62**: a solution of the equation given to the solver flips the sign of the polynomial of the chosen atom; if the
polynomial is 0 at the given vector it is not 0 at a solution. -/
theorem C62_flip (o : List ℕ) (a : Atom) (side : Bool) (margin v : K) (hm : 0 < margin) (n : ℕ) (x x' : List K)
    (_hx : evalPoly (some o) a.poly x = .ok v) (hroot : ∃ z, flipFunc (some o) a n (flipEps margin side v) x' = .ok z ∧ ∀ y ∈ z, y = 0) :
    ∃ v', evalPoly (some o) a.poly x' = .ok v' ∧ v' ≠ 0 ∧ (0 < v → v' < 0) ∧ (v < 0 → 0 < v') := by
  obtain ⟨z, hz, h0⟩ := hroot
  unfold flipFunc at hz
  simp only [bind, Except.bind] at hz
  cases h' : evalPoly (some o) a.poly x' with
  | error e => rw [h'] at hz; cases hz
  | ok v' =>
    rw [h'] at hz
    cases hz
    have e : v' + flipEps margin side v = 0 := h0 _ (by simp)
    refine ⟨v', rfl, ?_, ?_, ?_⟩
    · rintro rfl
      unfold flipEps at e
      split at e
      · split at e <;> linarith
      · split at e <;> linarith
    · intro hv
      unfold flipEps at e
      rw [if_pos hv.ne', if_neg hv.le.not_gt] at e
      linarith
    · intro hv
      unfold flipEps at e
      rw [if_pos hv.ne, if_pos hv] at e
      linarith

/-- The polynomial `x0 - 1` at 3, with margin 1: the solver is asked for a zero of `x0 - 1 + 1`; 0 is one. -/
example : (evalPoly (K := ℚ) (some [0]) ((MPoly.var 0).sub (MPoly.const 1)) [3]).toOption = some 2 ∧
    (flipFunc (K := ℚ) (some [0]) ⟨(MPoly.var 0).sub (MPoly.const 1), .gt, [0]⟩ 1 (flipEps 1 true 2) [0]).toOption =
      some [0] := by decide +kernel

end Verif.Grf
