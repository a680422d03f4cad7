import Verif.Grf.PropsWholeOrder
import Verif.Grf.PropsSmt2

/-!
# C113: the verdict on a sequent after other sequents
-/

set_option linter.unusedSectionVars false

namespace Verif.Grf

variable {K : Type} [Field K] [LinearOrder K] [IsStrictOrderedRing K]

/-- A problem with the variables `x0, ..., x(n-1)`: the sample points give values to these variables, in some order. -/
def HasVars (C : Core K) (n : ℕ) : Prop := ∀ k st ds, C.samples k st = .ok ds → ∀ d ∈ ds,
  (d.map Prod.fst).Nodup ∧ ∀ v, v ∈ d.map Prod.fst ↔ v < n

/-- The state of a new object. -/
abbrev Task.start (j : Task K) : State := ⟨j.hyps, ⟨j.main, [], []⟩, List.range j.hyps.length⟩

theorem orderAfter_spec {Key : List ℕ → Prop} : ∀ (before : List (Task K)) (order : VOrder),
    (∀ i ∈ before, KeysOK i.core Key) → (order = none ∨ ∃ o, o ≠ [] ∧ Key o ∧ order = some o) →
    orderAfter before order = none ∨ ∃ o, o ≠ [] ∧ Key o ∧ orderAfter before order = some o
  | [], order, _, h => h
  | j :: js, order, hb, h => by
    have hs := sim_check j.core (hb j (by simp)) j.fuel 0 j.start
    apply orderAfter_spec js _ fun i hi => hb i (by simp [hi])
    rcases h with rfl | ⟨o, ho, hk, rfl⟩
    · rcases hs.2 with ⟨r, hr⟩ | ⟨o, ho, hk, h⟩
      · left
        exact congrArg Prod.snd (hr j.calls).1
      · right
        refine ⟨o, ho, hk, ?_⟩
        exact congrArg Prod.snd (h j.calls)
    · right
      refine ⟨o, ho, hk, ?_⟩
      exact congrArg Prod.snd (hs.1 j.calls o ho)

theorem outcome_fixed {Key Key' : List ℕ → Prop} {before : List (Task K)} {j : Task K}
    (hb : ∀ i ∈ before, KeysOK i.core Key) (hj : KeysOK j.core Key') {o₀ : List ℕ} (h₀ : o₀ ≠ []) (hk : Key' o₀) :
    ∃ o, o ≠ [] ∧ (Key o ∨ Key' o) ∧ outcomeAfter before j = check (j.core.withSearch j.calls o) j.fuel 0 j.start := by
  have hs := sim_check j.core hj j.fuel 0 j.start
  unfold outcomeAfter Task.run
  rcases orderAfter_spec before none hb (Or.inl rfl) with h | ⟨o, ho, hko, h⟩
  · rw [h]
    rcases hs.2 with ⟨r, hr⟩ | ⟨o, ho, hko, h'⟩
    · refine ⟨o₀, h₀, Or.inr hk, ?_⟩
      exact (congrArg Prod.fst (hr j.calls).1).trans ((hr j.calls).2 o₀).symm
    · refine ⟨o, ho, Or.inr hko, ?_⟩
      exact congrArg Prod.fst (h' j.calls)
  · rw [h]
    refine ⟨o, ho, Or.inl hko, ?_⟩
    exact congrArg Prod.fst (hs.1 j.calls o ho)

/-- **C113** (soundness): whatever has been checked before in the process, if the check of a sequent ends without an
exception, then the sequent is valid; already the hypotheses that are not left over imply the goal. -/
theorem C113_sound (before : List (Task K)) (j : Task K) (hS : SageOK j.core.toSage) (hC : CoreSound j.core)
    (hb : ∀ i ∈ j :: before, KeysOK i.core fun _ => True) (ret : List (List ℕ)) (st' : State)
    (h : outcomeAfter before j = .ok (ret, st')) :
    ∃ ps : List Atom, (ps ++ st'.hyps).Perm j.hyps ∧ (∀ ρ : ℕ → K, (∀ a ∈ ps, a.holds ρ) → j.main.holds ρ) ∧
      ∀ ρ : ℕ → K, (∀ a ∈ j.hyps, a.holds ρ) → j.main.holds ρ := by
  obtain ⟨o, _, _, he⟩ := outcome_fixed (before := before) (fun i hi => hb i (by simp [hi])) (hb j (by simp))
    (o₀ := [0]) (by simp) trivial
  rw [he] at h
  exact C34_sound (j.core.withSearch j.calls o) hS j.hyps j.main j.fuel ret st' _ h fun n ds h1 h2 => hC n st' ds h1 h2

/-- **C113, partial** (missing: earlier sequents with other variables, see `C113_violated`). After sequents with the same
variables, the check of a sequent ends as it would in a new process in which the random numbers and the coordinates of the
numerical solver are arranged for another order of the variables. -/
theorem C113_partial (n : ℕ) (hn : 0 < n) (before : List (Task K)) (j : Task K) (hS : CmpOK j.core.toSage)
    (hb : ∀ i ∈ j :: before, HasVars i.core n) :
    ∃ o₁ o₂ : List ℕ, o₁.Perm (List.range n) ∧ o₂.Perm (List.range n) ∧
      outcomeAfter before j = outcomeAfter [] { j with calls := fun k st d => (j.calls k st d).rearrange o₁ o₂ } := by
  have hperm : ∀ o : List ℕ, (o.Nodup ∧ ∀ v, v ∈ o ↔ v < n) → o.Perm (List.range n) := fun o ho =>
    (List.perm_ext_iff_of_nodup ho.1 List.nodup_range).2 fun v => by rw [ho.2, List.mem_range]
  have hne : ∀ o : List ℕ, (o.Nodup ∧ ∀ v, v ∈ o ↔ v < n) → o ≠ [] := by
    rintro o ho rfl
    have := (ho.2 0).2 hn
    simp at this
  have hkeys : ∀ i ∈ j :: before, KeysOK i.core fun o => o.Nodup ∧ ∀ v, v ∈ o ↔ v < n := fun i hi k st ds h d hd =>
    ⟨fun h0 => hne _ (hb i hi k st ds h d hd) (by rw [h0]; rfl), hb i hi k st ds h d hd⟩
  have hrange : (List.range n).Nodup ∧ ∀ v, v ∈ List.range n ↔ v < n := ⟨List.nodup_range, fun v => List.mem_range⟩
  obtain ⟨o₂, _, h2, he⟩ := outcome_fixed (before := before) (fun i hi => hkeys i (by simp [hi])) (hkeys j (by simp))
    (hne _ hrange) hrange
  have h2' : o₂.Nodup ∧ ∀ v, v ∈ o₂ ↔ v < n := h2.elim id id
  have hsame : ∀ o₁ : List ℕ, (o₁.Nodup ∧ ∀ v, v ∈ o₁ ↔ v < n) → SameVars o₁ o₂ := fun o₁ h1 =>
    ⟨h1.1, h2'.1, fun v => by rw [h1.2, h2'.2]⟩
  have key : ∃ o₁ : List ℕ, (o₁.Nodup ∧ ∀ v, v ∈ o₁ ↔ v < n) ∧ ∀ f : Calls K,
      (wCheck j.core f j.fuel 0 j.start none).1 = check (j.core.withSearch f o₁) j.fuel 0 j.start := by
    rcases (sim_check j.core (hkeys j (by simp)) j.fuel 0 j.start).2 with ⟨r, hr⟩ | ⟨o, ho, hko, h'⟩
    · refine ⟨_, hrange, fun f => ?_⟩
      exact (congrArg Prod.fst (hr f).1).trans ((hr f).2 _).symm
    · refine ⟨o, hko, fun f => ?_⟩
      exact congrArg Prod.fst (h' f)
  obtain ⟨o₁, h1, hrun⟩ := key
  refine ⟨o₁, o₂, hperm _ h1, hperm _ h2', ?_⟩
  rw [he, ← check_reorder j.core hS (hsame o₁ h1) (hne _ h1) j.calls]
  exact (hrun _).symm

/-- If moreover the sample points of all sequents list the variables in the same order (as with one variable), the check
ends exactly as in a new process. -/
theorem C113_same_partial (o : List ℕ) (ho : o ≠ []) (before : List (Task K)) (j : Task K)
    (hb : ∀ i ∈ j :: before, ∀ k st ds, i.core.samples k st = .ok ds → ∀ d ∈ ds, d.map Prod.fst = o) :
    outcomeAfter before j = outcomeAfter [] j := by
  have hkeys : ∀ i ∈ j :: before, KeysOK i.core fun o' => o' = o := fun i hi k st ds h d hd =>
    ⟨fun h0 => ho (by rw [← hb i hi k st ds h d hd, h0]; rfl), hb i hi k st ds h d hd⟩
  obtain ⟨o₁, _, h1, e1⟩ := outcome_fixed (before := before) (fun i hi => hkeys i (by simp [hi])) (hkeys j (by simp))
    ho rfl
  obtain ⟨o₂, _, h2, e2⟩ := outcome_fixed (before := []) (Key := fun o' => o' = o) (by simp) (hkeys j (by simp)) ho rfl
  rw [e1, e2, h1.elim id id, h2.elim id id]

/-! ### Counterexamples -/

theorem vect2dict_ne_cex (o : VOrder) (x : List K) : vect2dict o x ≠ .error .counterexample := by
  unfold vect2dict
  split
  · simp
  · split <;> simp

theorem lookupAll_ne_cex (d : Dict K) : ∀ vs : List ℕ, lookupAll d vs ≠ .error .counterexample
  | [] => by simp [lookupAll]
  | v :: vs => by
    unfold lookupAll
    cases d.lookup v with
    | none => simp
    | some x =>
      simp only [bind, Except.bind]
      have := lookupAll_ne_cex d vs
      cases h : lookupAll d vs with
      | error e => rw [h] at this; simpa using this
      | ok r => simp

theorem filterTrue_ne_cex (S : Sage K) (d : Dict K) : ∀ hs : List Atom, filterTrue S d hs ≠ .error .counterexample
  | [] => by simp [filterTrue]
  | a :: hs => by
    unfold filterTrue
    simp only [bind, Except.bind]
    have h1 := evalOnDict_ne_cex S a d
    have h2 := filterTrue_ne_cex S d hs
    cases h : a.evalOnDict S d with
    | error e => rw [h] at h1; simpa using h1
    | ok r =>
      cases h' : filterTrue S d hs with
      | error e => rw [h'] at h2; simpa using h2
      | ok r => simp

theorem filterGoal_ne_cex (S : Sage K) (main : Atom) : ∀ ds : List (Dict K),
    filterGoal S main ds ≠ .error .counterexample
  | [] => by simp [filterGoal]
  | d :: ds => by
    unfold filterGoal
    simp only [bind, Except.bind]
    have h1 := evalOnDict_ne_cex S main d
    have h2 := filterGoal_ne_cex S main ds
    cases h : main.evalOnDict S d with
    | error e => rw [h] at h1; simpa using h1
    | ok r =>
      cases h' : filterGoal S main ds with
      | error e => rw [h'] at h2; simpa using h2
      | ok r => simp

theorem toDicts_ne_cex (o : VOrder) : ∀ xs : List (List K), toDicts o xs ≠ .error .counterexample
  | [] => by simp [toDicts]
  | x :: xs => by
    unfold toDicts
    simp only [bind, Except.bind]
    have h1 := vect2dict_ne_cex o x
    have h2 := toDicts_ne_cex o xs
    cases h : vect2dict o x with
    | error e => rw [h] at h1; simpa using h1
    | ok r =>
      cases h' : toDicts o xs with
      | error e => rw [h'] at h2; simpa using h2
      | ok r => simp

/-- The numerical solver does not raise the exception that reports a counterexample. -/
def SolverQuiet (O : Search K) : Prop := ∀ i k F x, O.fsolve i k F x ≠ .error .counterexample

theorem chainStep_ne_cex (S : Sage K) {O : Search K} (hO : SolverQuiet O) (i k : ℕ) (o : VOrder) (hyps : List Atom)
    (main : Atom) (x : List K) : chainStep S O i k o hyps main x ≠ .error .counterexample := by
  unfold chainStep
  simp only [bind, Except.bind]
  have h1 : chooseAtom S O i k o hyps x ≠ .error .counterexample := by
    unfold chooseAtom
    simp only [bind, Except.bind]
    have h1 := vect2dict_ne_cex o x
    cases h : vect2dict o x with
    | error e => rw [h] at h1; simpa using h1
    | ok d =>
      have h2 := filterTrue_ne_cex S d hyps
      simp only
      cases h' : filterTrue S d hyps with
      | error e => rw [h'] at h2; simpa using h2
      | ok need =>
        simp only
        split <;> simp
  cases h : chooseAtom S O i k o hyps x with
  | error e => rw [h] at h1; simpa using h1
  | ok a =>
    have h2 : evalPoly o a.poly x ≠ .error .counterexample := by
      unfold evalPoly
      simp only [bind, Except.bind]
      have h1 := vect2dict_ne_cex o x
      cases h : vect2dict o x with
      | error e => rw [h] at h1; simpa using h1
      | ok d =>
        simp only
        split <;> simp
    simp only
    cases h : evalPoly o a.poly x with
    | error e => rw [h] at h2; simpa using h2
    | ok v =>
      simp only
      have h3 := hO i k (flipFunc o a x.length (flipEps (1 / 1000000) (O.side i k) v)) x
      cases h : O.fsolve i k (flipFunc o a x.length (flipEps (1 / 1000000) (O.side i k) v)) x with
      | error e => rw [h] at h3; simpa using h3
      | ok y =>
        simp only
        generalize hl : (y :: (List.range 25).map fun n => perturb (O.noise i k n) y) = l
        have h4 := toDicts_ne_cex o l
        cases h : toDicts o l with
        | error e => rw [h] at h4; simpa using h4
        | ok ds =>
          simp only
          have h5 := filterGoal_ne_cex S main ds
          cases h : filterGoal S main ds with
          | error e => rw [h] at h5; simpa using h5
          | ok r => simp

theorem chain_ne_cex (S : Sage K) {O : Search K} (hO : SolverQuiet O) (i : ℕ) (o : VOrder) (hyps : List Atom)
    (main : Atom) : ∀ (n k : ℕ) (x : List K), chain S O i o hyps main n k x ≠ .error .counterexample
  | 0, _, _ => by simp [chain]
  | n + 1, k, x => by
    unfold chain
    simp only [bind, Except.bind]
    have h1 := chainStep_ne_cex S hO i k o hyps main x
    cases h : chainStep S O i k o hyps main x with
    | error e => rw [h] at h1; simpa using h1
    | ok r =>
      simp only
      have h2 := chain_ne_cex S hO i o hyps main n (k + 1) r.1
      cases h : chain S O i o hyps main n (k + 1) r.1 with
      | error e => rw [h] at h2; simpa using h2
      | ok r => simp

theorem localSearch_ne_cex (S : Sage K) {O : Search K} (hO : SolverQuiet O) (o : VOrder) (hyps : List Atom)
    (main : Atom) (d : Dict K) : (localSearch S O o hyps main d).map Prod.fst ≠ .error .counterexample := by
  unfold localSearch dict2vect
  simp only [bind, Except.bind]
  have h1 := lookupAll_ne_cex d (varOrder o d)
  cases h : lookupAll d (varOrder o d) with
  | error e => rw [h] at h1; simpa [Except.map] using h1
  | ok x =>
    simp only
    have h2 := chain_ne_cex S hO 0 (some (varOrder o d)) hyps main 2 0 x
    cases h : chain S O 0 (some (varOrder o d)) hyps main 2 0 x with
    | error e => rw [h] at h2; simpa [Except.map] using h2
    | ok r => simp [Except.map]

theorem localSearch_points {S : Sage K} {O : Search K} {o : List ℕ} (ho : o ≠ []) {hyps : List Atom} {main : Atom}
    {d : Dict K} {ds : List (Dict K)} (h : (localSearch S O (some o) hyps main d).map Prod.fst = .ok ds) :
    ∀ e ∈ ds, e.map Prod.fst = d.map Prod.fst ∨ e.map Prod.fst = o := by
  unfold localSearch dict2vect at h
  simp only [bind, Except.bind] at h
  have hv : varOrder (some o) d = o := by
    obtain ⟨v, vs, rfl⟩ := List.exists_cons_of_ne_nil ho
    rfl
  rw [hv] at h
  cases h1 : lookupAll d o with
  | error e => rw [h1] at h; cases h
  | ok x =>
    rw [h1] at h
    simp only at h
    cases h2 : chain S O 0 (some o) hyps main 2 0 x with
    | error e => rw [h2] at h; cases h
    | ok r =>
      rw [h2] at h
      simp only [Except.map, Except.ok.injEq] at h
      subst h
      intro e he
      rcases List.mem_append.1 he with he | he
      · left
        rcases List.mem_cons.1 he with rfl | he
        · rfl
        · obtain ⟨n, _, rfl⟩ := List.mem_map.1 he
          simp [perturbDict]
      · right
        exact ((chain_spec S O 0 o hyps main 2 0 x r h2).2 e he).1

/-- **C113, partial** (counterexamples; missing: earlier sequents with fewer variables, see `C113_violated`, and sequents
with two or more equations, see `C105_violated`). If the sequents checked before had at least the variables of this one,
then a counterexample that is reported is one. -/
theorem C113_counterexample_partial (n : ℕ) (hn : 0 < n) (before : List (Task K)) (j : Task K)
    (hS : SageOK j.core.toSage) (hR : RingOK j.core.toSage n) (hj : HasVars j.core n)
    (hb : ∀ i ∈ before, ∃ m, n ≤ m ∧ HasVars i.core m) (hq : ∀ k st d, SolverQuiet (j.calls k st d))
    (hs : ∀ k st, j.core.samples k st ≠ .error .counterexample)
    (hv : ∀ a ∈ j.main :: j.hyps, ∀ v ∈ a.vars ++ a.poly.vars, v < n)
    (heq : j.hyps.countP (fun a => decide (a.op = .eq)) ≤ 1)
    (h : outcomeAfter before j = .error .counterexample) :
    ∃ ρ : ℕ → K, (∀ a ∈ j.hyps, a.holds ρ) ∧ ¬ j.main.holds ρ := by
  have hkeys : ∀ i ∈ j :: before, KeysOK i.core fun o => ∀ v < n, v ∈ o := by
    have : ∀ i ∈ j :: before, ∃ m, n ≤ m ∧ HasVars i.core m := by
      intro i hi
      rcases List.mem_cons.1 hi with rfl | hi
      · exact ⟨n, le_rfl, hj⟩
      · exact hb i hi
    intro i hi k st ds hds d hd
    obtain ⟨m, hm, hi⟩ := this i hi
    have h1 := hi k st ds hds d hd
    refine ⟨?_, fun v hv => (h1.2 v).2 (by omega)⟩
    rintro rfl
    have := (h1.2 0).2 (by omega)
    simp at this
  obtain ⟨o, ho, hk, he⟩ := outcome_fixed (before := before) (fun i hi => hkeys i (by simp [hi])) (hkeys j (by simp))
    (o₀ := List.range n) (by simp; omega) (fun v hv => List.mem_range.2 hv)
  rw [he] at h
  have hk' : ∀ v < n, v ∈ o := hk.elim id id
  have hP : PointsOK (j.core.withSearch j.calls o) n := by
    refine ⟨fun k st ds hds d hd v hvn => ?_, fun k st d ds hd hds e he v hvn => ?_, fun k st => ⟨hs k st, fun d => ?_⟩⟩
    · rw [lookup_isSome_iff]
      exact ((hj k st ds hds d hd).2 v).2 hvn
    · rw [lookup_isSome_iff]
      rcases localSearch_points ho hds e he with h1 | h1
      · rw [h1, ← lookup_isSome_iff]
        exact hd v hvn
      · rw [h1]
        exact hk' v hvn
    · exact localSearch_ne_cex _ (hq k st d) _ _ _ _
  obtain ⟨_, _, _, _, d₀, _, d, _, hd⟩ := C105_partial (j.core.withSearch j.calls o) hS n hn hR hP j.hyps j.main hv heq
    j.fuel _ h
  refine ⟨ptOf d, hd _ fun i x hx => ?_⟩
  rw [ptOf, hx]; rfl

/-! ### The violation -/

/-- A search without noise and with an exact solver, which looks for a solution on the lines parallel to the axes. The
first choice is the first hypothesis, the second choice the last one. -/
def lineSearch : Search ℚ where
  noise₀ _ _ := 0
  noise _ _ _ _ := 0
  pick _ k n := if k = 0 then 0 else n - 1
  side _ _ := true
  fsolve _ _ F x :=
    let try1 (i : ℕ) : Option (List ℚ) :=
      match F (x.set i 0), F (x.set i 1) with
      | .ok (a :: _), .ok (b :: _) =>
        match F (x.set i (a / (a - b))) with
        | .ok z => if ∀ y ∈ z, y = 0 then some (x.set i (a / (a - b))) else none
        | .error _ => none
      | _, _ => none
    match (List.range x.length).findSome? try1 with
    | some y => .ok y
    | none => .error .infeasible

theorem lineSearch_exact : ExactSolver lineSearch := by
  intro i k F x x' h
  simp only [lineSearch] at h
  split at h
  · next y hy =>
    cases h
    obtain ⟨j, _, hj⟩ := List.exists_of_findSome?_eq_some hy
    split at hj
    · split at hj
      · next z hz =>
        split at hj
        · next h0 => cases hj; exact ⟨z, hz, h0⟩
        · cases hj
      · cases hj
    · cases hj
  · cases h

/-- A sound core for the goal `g` and the point `d`: no sample point when `x0 > 0` is among the hypotheses of the goal,
the given point if it falsifies the goal, and otherwise an exception. -/
def pointCore (g : Atom) (d : Dict ℚ) : Core ℚ :=
  { testSage with
    samples := fun _ st =>
      if (⟨MPoly.var 0, .gt, [0]⟩ : Atom) ∈ st.goal.hyps ∧ st.goal.main = g then .ok []
      else if (st.goal.evalOnDict (testSage (K := ℚ)) d).toOption = some false then .ok [d]
      else .error .assertion
    more := fun _ _ _ => .ok []
    solve := bruteSolve }

theorem pointCore_sound {g : Atom} (hg : ∀ ρ : ℕ → ℚ, 0 < ρ 0 → g.holds ρ) (d : Dict ℚ) : CoreSound (pointCore g d) := by
  intro n st ds h ht ρ hh
  change (if (⟨MPoly.var 0, .gt, [0]⟩ : Atom) ∈ st.goal.hyps ∧ st.goal.main = g then .ok []
      else if (st.goal.evalOnDict (testSage (K := ℚ)) d).toOption = some false then .ok [d]
      else .error .assertion : Except GErr (List (Dict ℚ))) = .ok ds at h
  split at h
  · next h' =>
    rw [h'.2]
    have h1 : MPoly.eval ρ (MPoly.var 0) > 0 := hh _ h'.1
    rw [MPoly.eval_var] at h1
    exact hg ρ h1
  · split at h
    · next hf =>
      cases h
      have h2 : st.goal.evalOnDict (testSage (K := ℚ)) d = .ok true := ht _ (List.mem_singleton_self _)
      rw [h2] at hf
      cases hf
    · cases h

theorem pointCore_vars {g : Atom} {d : Dict ℚ} {n : ℕ} (hd : (d.map Prod.fst).Nodup ∧ ∀ v, v ∈ d.map Prod.fst ↔ v < n) :
    HasVars (pointCore g d) n := by
  intro k st ds h e he
  change (if (⟨MPoly.var 0, .gt, [0]⟩ : Atom) ∈ st.goal.hyps ∧ st.goal.main = g then .ok []
      else if (st.goal.evalOnDict (testSage (K := ℚ)) d).toOption = some false then .ok [d]
      else .error .assertion : Except GErr (List (Dict ℚ))) = .ok ds at h
  split at h
  · cases h; simp at he
  · split at h
    · cases h
      rw [List.mem_singleton] at he
      rw [he]
      exact hd
    · cases h

/-- `x0 + 1 > 0` -/
def histMain₁ : Atom := ⟨(MPoly.var 0).add (MPoly.const 1), .gt, [0]⟩
/-- `x0 + x1^2 > 0` -/
def histMain₂ : Atom := ⟨[([1], 1), ([0, 2], 1)], .gt, [0, 1]⟩
/-- `x0 + 5 > 0` and `x0 > 0` -/
def histHyps : List Atom := [⟨(MPoly.var 0).add (MPoly.const 5), .gt, [0]⟩, ⟨MPoly.var 0, .gt, [0]⟩]

/-- `x0 + 5 > 0, x0 > 0 ⊢ x0 + 1 > 0` -/
def histTask₁ : Task ℚ := ⟨pointCore histMain₁ [(0, -2)], fun _ _ _ => lineSearch, 3, histHyps, histMain₁⟩
/-- `x0 + 5 > 0, x0 > 0 ⊢ x0 + x1^2 > 0` -/
def histTask₂ : Task ℚ := ⟨pointCore histMain₂ [(0, -2), (1, 0)], fun _ _ _ => lineSearch, 3, histHyps, histMain₂⟩

/-- **C113** is violated. Each of the valid sequents `x0 + 5 > 0, x0 > 0 ⊢ x0 + 1 > 0` and
`x0 + 5 > 0, x0 > 0 ⊢ x0 + x1^2 > 0` is proved in a new process, with right functions of Sage, sound cores, an optimal
solver, and a local search with exact solutions. If the second one is checked after the first one, the program reports a
counterexample: the points of local search have no value for `x1`, and the goal, which is not true there, counts as
false. If the first one is checked after the second one, `KeyError` is raised. -/
theorem C113_violated : ∃ i j : Task ℚ,
    (SageOK i.core.toSage ∧ CoreSound i.core ∧ SolverOpt i.core ∧ HasVars i.core 1 ∧ ∀ k st d, ExactSolver (i.calls k st d)) ∧
    (SageOK j.core.toSage ∧ CoreSound j.core ∧ SolverOpt j.core ∧ HasVars j.core 2 ∧ ∀ k st d, ExactSolver (j.calls k st d)) ∧
    (∃ r, outcomeAfter [] i = .ok r) ∧ (∃ r, outcomeAfter [] j = .ok r) ∧
    (∀ ρ : ℕ → ℚ, (∀ a ∈ j.hyps, a.holds ρ) → j.main.holds ρ) ∧
    outcomeAfter [i] j = .error .counterexample ∧ outcomeAfter [j] i = .error .keyError := by
  have g1 : ∀ ρ : ℕ → ℚ, 0 < ρ 0 → histMain₁.holds ρ := by
    intro ρ h
    show MPoly.eval ρ ((MPoly.var 0).add (MPoly.const 1)) > 0
    rw [MPoly.eval_add, MPoly.eval_var, MPoly.eval_const]
    push_cast
    linarith
  have g2 : ∀ ρ : ℕ → ℚ, 0 < ρ 0 → histMain₂.holds ρ := by
    intro ρ h
    show MPoly.eval ρ [([1], 1), ([0, 2], 1)] > 0
    simp only [MPoly.eval, Mono.evalFrom, List.map_cons, List.map_nil, List.sum_cons, List.sum_nil]
    have := sq_nonneg (ρ 1)
    simp
    positivity
  refine ⟨histTask₁, histTask₂, ⟨testSage_ok, pointCore_sound g1 _, fun _ _ _ _ h => bruteSolve_opt h, pointCore_vars ?_,
    fun _ _ _ => lineSearch_exact⟩, ⟨testSage_ok, pointCore_sound g2 _, fun _ _ _ _ h => bruteSolve_opt h,
    pointCore_vars ?_, fun _ _ _ => lineSearch_exact⟩, ?_, ?_, ?_, ?_, ?_⟩
  · refine ⟨by decide, fun v => ?_⟩
    simp
  · refine ⟨by decide, fun v => ?_⟩
    simp
    omega
  · have : (outcomeAfter [] histTask₁).toOption.isSome = true := by decide +kernel
    cases h : outcomeAfter [] histTask₁ with
    | error e => rw [h] at this; cases this
    | ok r => exact ⟨r, rfl⟩
  · have : (outcomeAfter [] histTask₂).toOption.isSome = true := by decide +kernel
    cases h : outcomeAfter [] histTask₂ with
    | error e => rw [h] at this; cases this
    | ok r => exact ⟨r, rfl⟩
  · intro ρ h
    apply g2
    have : MPoly.eval ρ (MPoly.var 0) > 0 := h ⟨MPoly.var 0, .gt, [0]⟩ (by simp [histTask₂, histHyps])
    rwa [MPoly.eval_var] at this
  · exact err_of_match (by decide +kernel)
  · have : (match outcomeAfter [histTask₂] histTask₁ with | .error .keyError => true | _ => false) = true := by
      decide +kernel
    split at this
    · assumption
    · cases this

theorem lineSearch_quiet : SolverQuiet lineSearch := by
  intro i k F x h
  simp only [lineSearch] at h
  split at h
  · cases h
  · cases h

/-- `x0 + 5 > 0, x0 > 0 ⊢ x0 + x1^2 - 1 > 0`, which is false -/
def histTask₃ : Task ℚ := ⟨pointCore ⟨[([1], 1), ([0, 2], 1), ([], -1)], .gt, [0, 1]⟩ [(0, -2), (1, 0)],
  fun _ _ _ => lineSearch, 3, histHyps, ⟨[([1], 1), ([0, 2], 1), ([], -1)], .gt, [0, 1]⟩⟩

/-- The hypotheses of `C113_counterexample_partial` are met: local search finds the counterexample `x0 = 1/1000000, x1 = 0`. -/
example : SageOK histTask₃.core.toSage ∧ RingOK histTask₃.core.toSage 2 ∧ HasVars histTask₃.core 2 ∧
    HasVars histTask₂.core 2 ∧ (∀ k st d, SolverQuiet (histTask₃.calls k st d)) ∧
    (∀ k st, histTask₃.core.samples k st ≠ .error .counterexample) ∧
    (∀ a ∈ histTask₃.main :: histTask₃.hyps, ∀ v ∈ a.vars ++ a.poly.vars, v < 2) ∧
    histTask₃.hyps.countP (fun a => decide (a.op = .eq)) ≤ 1 ∧
    outcomeAfter [histTask₂] histTask₃ = .error .counterexample := by
  have hv : ∀ g, HasVars (pointCore g [(0, -2), (1, 0)]) 2 := by
    intro g
    refine pointCore_vars ⟨by decide, fun v => ?_⟩
    simp
    omega
  refine ⟨testSage_ok, ⟨?_, fun ps h => h⟩, hv _, hv _, fun _ _ _ => lineSearch_quiet, fun k st => ?_, by decide +kernel,
    by decide +kernel, err_of_match (by decide +kernel)⟩
  · intro p B hp _ v hv
    simp only [histTask₃, pointCore, testSage] at hv
    split at hv
    · simp [MPoly.vars] at hv
    · exact hp v hv
  · simp only [histTask₃, pointCore]
    split
    · simp
    · split <;> simp

/-- The hypotheses of `C113_same_partial` are met by the first task, checked twice. -/
example : (∀ i ∈ [histTask₁, histTask₁], ∀ k st ds, i.core.samples k st = .ok ds → ∀ d ∈ ds, d.map Prod.fst = [0]) ∧
    (outcomeAfter [histTask₁] histTask₁).toOption.isSome := by
  refine ⟨fun i hi k st ds h d hd => ?_, by decide +kernel⟩
  have : i = histTask₁ := by simpa using hi
  subst this
  simp only [histTask₁, pointCore] at h
  split at h
  · cases h; simp at hd
  · split at h
    · cases h
      rw [List.mem_singleton] at hd
      rw [hd]; rfl
    · cases h

/-- The hypotheses of `C113_partial` and of `C113_sound` are met by the second task, checked twice. -/
example : CmpOK histTask₂.core.toSage ∧ (∀ i ∈ [histTask₂, histTask₂], HasVars i.core 2) ∧
    (outcomeAfter [histTask₂] histTask₂).toOption.isSome := by
  refine ⟨fun p d d' _ => rfl, fun i hi => ?_, by decide +kernel⟩
  have : i = histTask₂ := by simpa using hi
  subst this
  refine pointCore_vars ⟨by decide, fun v => ?_⟩
  simp
  omega

end Verif.Grf
