import Verif.Vts.Props
import Mathlib.Tactic.IntervalCases

/-!
# C02: refusals do occur

`C02_vts_answers` says that `internal_vts` answers if no polynomial has more than five distinct roots.  Here is the
converse: a polynomial with six roots of multiplicities 1, ..., 5 and at least 6 makes it refuse.
-/

set_option linter.unusedSectionVars false

open Polynomial Verif.Alg

namespace Verif.Vts

variable {R : Type} [CommRing R] [LinearOrder R] {K : Type} [Field K] [LinearOrder K]
  [IsStrictOrderedRing K]

theorem mapM_add_cons {der : List R} {s : ℤ} {d : DDS R K} {l ds : List (DDS R K)}
    (h : (d :: l).mapM (fun d => d.add der s) = .ok ds) :
    ∃ d' l', ds = d' :: l' ∧ d'.recorded.length = d.recorded.length + 1 := by
  rw [List.mapM_cons] at h
  cases ha : d.add der s with
  | error e => rw [ha] at h; cases h
  | ok d' =>
    cases hl : l.mapM (fun d => d.add der s) with
    | error e => rw [ha, hl] at h; cases h
    | ok l' =>
      rw [ha, hl] at h
      cases h
      refine ⟨d', l', rfl, ?_⟩
      unfold DDS.add at ha
      split at ha
      · cases ha
      · cases ha; simp

/-- The parts of a call with at least two roots. -/
theorem discri_cases {φ : R → K} {roots : List K} {f : List R} {ds : List (DDS R K)} (h2 : 2 ≤ roots.length)
    (h : getDiscriDerSigns φ roots f = .ok ds) :
    ∃ zs ps ns, ds = zs ++ ps ++ ns ∧
      ∀ (sel : K → Bool) (part : List (DDS R K)) (s : ℤ),
        ((sel = (fun r => !(decide (evaluatePoly φ (derivative f) r > 0)) &&
            !(decide (evaluatePoly φ (derivative f) r < 0))) ∧ part = zs ∧ s = 0) ∨
          (sel = (fun r => decide (evaluatePoly φ (derivative f) r > 0)) ∧ part = ps ∧ s = 1) ∨
          (sel = (fun r => !(decide (evaluatePoly φ (derivative f) r > 0)) &&
            decide (evaluatePoly φ (derivative f) r < 0)) ∧ part = ns ∧ s = -1)) →
        (roots.filter sel ≠ [] → ∃ ds', getDiscriDerSigns φ (roots.filter sel) (derivative f) = .ok ds' ∧
          (if (roots.filter sel).length = roots.length then part = ds'
            else ds'.mapM (fun d => d.add (derivative f) s) = .ok part)) := by
  match roots, h2 with
  | r1 :: r2 :: rs, _ =>
    rw [getDiscriDerSigns] at h
    split at h
    · cases h
    · simp only [bind, Except.bind] at h
      split at h
      · cases h
      · next zs hz =>
        split at h
        · cases h
        · next ps hp =>
          split at h
          · cases h
          · next ns hns =>
            cases h
            refine ⟨zs, ps, ns, rfl, ?_⟩
            have key : ∀ (sub : List K) (s : ℤ) (part : List (DDS R K)),
                (if sub.length = 0 then (Except.ok [] : Except Err (List (DDS R K)))
                  else Except.bind (getDiscriDerSigns φ sub (derivative f)) fun ds =>
                    if sub.length = (r1 :: r2 :: rs).length then pure ds
                    else ds.mapM fun d => d.add (derivative f) s) = .ok part →
                sub ≠ [] → ∃ ds', getDiscriDerSigns φ sub (derivative f) = .ok ds' ∧
                  (if sub.length = (r1 :: r2 :: rs).length then part = ds'
                    else ds'.mapM (fun d => d.add (derivative f) s) = .ok part) := by
              intro sub s part hpart hne
              rw [if_neg (by simpa using hne)] at hpart
              cases hd : getDiscriDerSigns φ sub (derivative f) with
              | error e => rw [hd] at hpart; cases hpart
              | ok ds' =>
                rw [hd] at hpart
                simp only [Except.bind] at hpart
                refine ⟨ds', rfl, ?_⟩
                split
                · next he => rw [if_pos he] at hpart; cases hpart; rfl
                · next he => rw [if_neg he] at hpart; exact hpart
            intro sel part s hs
            rcases hs with ⟨rfl, rfl, rfl⟩ | ⟨rfl, rfl, rfl⟩ | ⟨rfl, rfl, rfl⟩
            · exact key _ 0 _ hz
            · exact key _ 1 _ hp
            · exact key _ (-1) _ hns

theorem discri_ne_nil {φ : R → K} : ∀ (n : ℕ) (roots : List K) (f : List R) (ds : List (DDS R K)), f.length = n → roots ≠ [] →
    getDiscriDerSigns φ roots f = .ok ds → ds ≠ [] := by
  intro n
  induction n using Nat.strong_induction_on with
  | _ n ih =>
    intro roots f ds hn hr h
    match roots, hr with
    | [r], _ => rw [getDiscriDerSigns] at h; cases h; simp
    | r1 :: r2 :: rs, _ =>
      have hf : f ≠ [] := by
        rintro rfl
        rw [getDiscriDerSigns] at h
        simp at h
      have hlt : (derivative f).length < n := by
        rw [length_derivative]; have := List.length_pos_iff.2 hf; omega
      obtain ⟨zs, ps, ns, rfl, hp⟩ := discri_cases (by simp) h
      have fin : ∀ (sel : K → Bool) (part : List (DDS R K)) (s : ℤ), sel r1 = true →
          ((r1 :: r2 :: rs).filter sel ≠ [] → ∃ ds', getDiscriDerSigns φ ((r1 :: r2 :: rs).filter sel) (derivative f) = .ok ds' ∧
          (if ((r1 :: r2 :: rs).filter sel).length = (r1 :: r2 :: rs).length then part = ds'
            else ds'.mapM (fun d => d.add (derivative f) s) = .ok part)) → part ≠ [] := by
        intro sel part s hsel hh
        have hne : (r1 :: r2 :: rs).filter sel ≠ [] := by simp [List.filter_cons, hsel]
        obtain ⟨ds', h1, h2⟩ := hh hne
        have := ih _ hlt _ _ ds' rfl hne h1
        split at h2
        · rw [h2]; exact this
        · obtain ⟨d, l, rfl⟩ := List.exists_cons_of_ne_nil this
          obtain ⟨d', l', rfl, -⟩ := mapM_add_cons h2
          simp
      rcases lt_trichotomy (evaluatePoly φ (derivative f) r1) 0 with hc | hc | hc
      · have := fin _ _ _ (by simp [hc, hc.le]) (hp _ ns (-1) (Or.inr (Or.inr ⟨rfl, rfl, rfl⟩)))
        simp [this]
      · have := fin _ _ _ (by simp [hc]) (hp _ zs 0 (Or.inl ⟨rfl, rfl, rfl⟩))
        simp [this]
      · have := fin _ _ _ (by simp [hc]) (hp _ ps 1 (Or.inr (Or.inl ⟨rfl, rfl, rfl⟩)))
        simp [this]

/-- Levels at which some root is left behind are recorded. -/
theorem recorded_ge {φ : R →+* K} : ∀ (n : ℕ) (f : List R) (roots : List K) (x : K) (ds : List (DDS R K)),
    getDiscriDerSigns φ roots f = .ok ds → x ∈ roots →
    (∀ i, 1 ≤ i → i ≤ n → (Polynomial.derivative^[i] (denote φ f)).eval x = 0) →
    (∀ j, 1 ≤ j → j ≤ n → ∃ y ∈ roots, (∀ i, 1 ≤ i → i < j → (Polynomial.derivative^[i] (denote φ f)).eval y = 0) ∧
      (Polynomial.derivative^[j] (denote φ f)).eval y ≠ 0) →
    ∃ d ds', ds = d :: ds' ∧ n ≤ d.recorded.length := by
  intro n
  induction n with
  | zero =>
    intro f roots x ds h hx _ _
    obtain ⟨d, ds', rfl⟩ := List.exists_cons_of_ne_nil (discri_ne_nil _ _ _ _ rfl (List.ne_nil_of_mem hx) h)
    exact ⟨d, ds', rfl, Nat.zero_le _⟩
  | succ n ih =>
    intro f roots x ds h hx hx0 hy
    have hev : ∀ z, evaluatePoly φ (derivative f) z = (Polynomial.derivative^[1] (denote φ f)).eval z := fun z => by
      rw [evaluatePoly_eq, denote_derivative]; rfl
    obtain ⟨y1, hy1, -, hy1n⟩ := hy 1 le_rfl (by omega)
    have hxy : x ≠ y1 := by rintro rfl; exact hy1n (hx0 1 le_rfl (by omega))
    have h2 : 2 ≤ roots.length := by
      match roots, hx, hy1 with
      | [r], hx, hy1 => exact absurd ((List.mem_singleton.1 hx).trans (List.mem_singleton.1 hy1).symm) hxy
      | r :: s :: t, _, _ => simp
    obtain ⟨zs, ps, ns, rfl, hp⟩ := discri_cases h2 h
    set sel : K → Bool := fun r => !(decide (evaluatePoly φ (derivative f) r > 0)) &&
      !(decide (evaluatePoly φ (derivative f) r < 0)) with hsel
    have hmem : ∀ z ∈ roots, (Polynomial.derivative^[1] (denote φ f)).eval z = 0 → z ∈ roots.filter sel := by
      intro z hz h0
      rw [List.mem_filter]
      refine ⟨hz, ?_⟩
      rw [hsel]
      simp only [hev, h0]
      simp
    have hxm := hmem x hx (hx0 1 le_rfl (by omega))
    obtain ⟨ds', h1, h3⟩ := hp sel zs 0 (Or.inl ⟨rfl, rfl, rfl⟩) (List.ne_nil_of_mem hxm)
    have hlt : (roots.filter sel).length ≠ roots.length := by
      intro he
      have := List.filter_eq_self.1 (List.Sublist.eq_of_length (List.filter_sublist (l := roots)) he) y1 hy1
      rw [hsel] at this
      simp only [hev, Bool.and_eq_true, Bool.not_eq_true', decide_eq_false_iff_not] at this
      exact hy1n (le_antisymm (not_lt.1 this.1) (not_lt.1 this.2))
    rw [if_neg hlt] at h3
    have hshift : ∀ i, Polynomial.derivative^[i] (denote φ (derivative f)) = Polynomial.derivative^[i + 1] (denote φ f) := by
      intro i
      rw [denote_derivative, Function.iterate_succ_apply]
    obtain ⟨d, l, rfl, hd⟩ := ih (derivative f) (roots.filter sel) x ds' h1 hxm
      (fun i hi hin => by rw [hshift]; exact hx0 (i + 1) (by omega) (by omega))
      (fun j hj hjn => by
        obtain ⟨y, hyr, h4, h5⟩ := hy (j + 1) (by omega) (by omega)
        refine ⟨y, hmem y hyr (h4 1 le_rfl (by omega)), fun i hi hij => ?_, ?_⟩
        · rw [hshift]; exact h4 (i + 1) (by omega) (by omega)
        · rw [hshift]; exact h5)
    obtain ⟨d', l', rfl, hd'⟩ := mapM_add_cons h3
    exact ⟨d', l' ++ ps ++ ns, by simp, by omega⟩

/-- **C02**, the bound on the number of roots is needed: if `p` has roots of the multiplicities 1, 2, 3, 4, 5 and one
of multiplicity at least 6, then `p = 0, goal = 0` is refused, for every other polynomial `goal`. -/
theorem C02_refuses [PolyIVT K] {E : Env R K} {φ : R →+* K} (hE : EnvOK E φ) (p goal : List R)
    (hp : Normalized p) (hne : goal ≠ p) (x : K) (hx : 6 ≤ (denote φ p).rootMultiplicity x)
    (hy : ∀ j, 1 ≤ j → j ≤ 5 → ∃ y, (denote φ p).rootMultiplicity y = j) :
    internalVts E [] [] [p, goal] [] = .error .moreThan5 := by
  have hp0 := denote_ne_zero hE.mono.injective hp
  obtain ⟨rs, h1, h2, h3⟩ := hE.roots p hp0
  obtain ⟨ds, hds, -, -⟩ := getDiscriDerSigns_top hE.mono p hp rs h2 h3
  have hφ : E.φ = φ := funext hE.φ_eq
  have hroot : ∀ z n, n < (denote φ p).rootMultiplicity z ↔
      ∀ m ≤ n, (Polynomial.derivative^[m] (denote φ p)).eval z = 0 := fun z n => by
    exact lt_rootMultiplicity_iff_isRoot_iterate_derivative hp0
  obtain ⟨d, ds', rfl, hd⟩ := recorded_ge 5 p rs x ds hds
    ((h3 x).2 (by simpa using (hroot x 0).1 (by omega) 0 le_rfl))
    (fun i _ hi => (hroot x 5).1 (by omega) i hi)
    (fun j hj1 hj5 => by
      obtain ⟨y, hyj⟩ := hy j hj1 hj5
      have hlow := (hroot y (j - 1)).1 (by omega)
      refine ⟨y, (h3 y).2 (by simpa using hlow 0 (by omega)), fun i _ hij => hlow i (by omega), fun h0 => ?_⟩
      have := (hroot y j).2 fun m hm => by
        rcases Nat.lt_or_ge m j with h | h
        · exact hlow m (by omega)
        · rw [le_antisymm hm h]; exact h0
      omega)
  have hlook : signAllowed (signConditionsLookup [] [] [p, goal] []) p 0 = .ok true := by
    obtain ⟨b, hb, hb'⟩ := signAllowed_spec [] [] [p, goal] [] p (by simp) 0 (Or.inl rfl)
    rw [hb, hb'.2 (by simp [Allowed])]
  have hs1 : evaluateSingle E p d p = .ok 0 := by unfold evaluateSingle; rw [if_pos rfl]
  have hs2 : evaluateSingle E p d goal = .error .moreThan5 := by
    unfold evaluateSingle
    rw [if_neg hne]
    have hl : (5 : ℤ) < ((d.allPolies ++ [goal]).length : ℕ) := by
      simp [DDS.allPolies]; omega
    have hm : getMatrixInverse E.inv ((d.allPolies ++ [goal]).length : ℕ) = .error .moreThan5 := by
      unfold getMatrixInverse
      rw [if_neg (by omega), if_neg (by omega), if_pos hl]
    simp only [bind, Except.bind]
    rw [hm]
  have htry : tryRoots E (evaluateSingle E) (signConditionsLookup [] [] [p, goal] []) ([] ++ [] ++ [p, goal] ++ []) p =
      .error .moreThan5 := by
    unfold tryRoots
    rw [h1]
    simp only [bind, Except.bind]
    rw [hφ, hds]
    simp only [List.nil_append, List.append_nil]
    rw [firstTrue, evaluateAll]
    simp only [bind, Except.bind]
    rw [hs1]
    simp only
    rw [hlook]
    simp only [Bool.not_true, Bool.false_eq_true, if_false]
    rw [evaluateAll]
    simp only [bind, Except.bind]
    rw [hs2]
  unfold internalVts
  simp only [bind, Except.bind]
  rw [show ([] ++ [p, goal] : List (List R)) = [p, goal] from rfl, firstTrue]
  simp only [bind, Except.bind]
  rw [htry]

local notation "ιℝ" => Int.castRingHom ℝ

/-- Powers by `multiply`. -/
def powerList (l : List ℤ) : ℕ → List ℤ
  | 0 => [1]
  | n + 1 => multiply (powerList l n) l

theorem denote_powerList (l : List ℤ) (n : ℕ) : denote ιℝ (powerList l n) = denote ιℝ l ^ n := by
  induction n with
  | zero => simp [powerList, denote]
  | succ n ih => rw [powerList, denote_multiply, ih, pow_succ]

/-- The coefficients of `x^6 (x - 1) (x - 2)^2 (x - 3)^3 (x - 4)^4 (x - 5)^5`. -/
def ladder : List ℤ :=
  multiply (multiply (multiply (multiply (multiply (powerList [0, 1] 6) (powerList [-1, 1] 1)) (powerList [-2, 1] 2))
    (powerList [-3, 1] 3)) (powerList [-4, 1] 4)) (powerList [-5, 1] 5)

theorem ladder_denote : denote ιℝ ladder =
    (((((X - C 0) ^ 6 * (X - C 1) ^ 1) * (X - C 2) ^ 2) * (X - C 3) ^ 3) * (X - C 4) ^ 4) * (X - C 5) ^ 5 := by
  unfold ladder
  simp only [denote_multiply, denote_powerList]
  have h : ∀ a : ℤ, denote ιℝ [a, 1] = X - C (-a : ℝ) := by
    intro a
    simp [denote]
    ring
  simp only [h]
  norm_num

theorem ladder_roots : (denote ιℝ ladder).roots =
    6 • {0} + 1 • {1} + 2 • {2} + 3 • {3} + 4 • {4} + 5 • {(5 : ℝ)} := by
  rw [ladder_denote]
  have h : ∀ (a : ℝ) (n : ℕ), (X - C a) ^ n ≠ 0 := fun a n => pow_ne_zero _ (X_sub_C_ne_zero a)
  rw [roots_mul, roots_mul, roots_mul, roots_mul, roots_mul]
  · simp only [roots_pow, roots_X_sub_C]
  all_goals simp only [ne_eq, mul_eq_zero, h, or_self, not_false_eq_true]

theorem ladder_normalized : Normalized ladder := ⟨1, by decide +kernel, by decide⟩

/-- The refusal is real: `p = 0, x = 0` is satisfiable, with `p` as above. -/
theorem C02_refuses_example {E : Env ℤ ℝ} (hE : EnvOK E ιℝ) :
    internalVts E [] [] [ladder, [0, 1]] [] = .error .moreThan5 ∧ Satisfiable ιℝ [] [] [ladder, [0, 1]] [] := by
  constructor
  · refine C02_refuses hE ladder [0, 1] ladder_normalized (by decide +kernel) 0 ?_ ?_
    · rw [← count_roots, ladder_roots]
      simp [Multiset.count_singleton]
    · intro j h1 h5
      refine ⟨j, ?_⟩
      rw [← count_roots, ladder_roots]
      interval_cases j <;> simp [Multiset.count_singleton]
  · refine ⟨0, by simp, by simp, ?_, by simp⟩
    intro p hp
    simp only [List.mem_cons, List.not_mem_nil, or_false] at hp
    rcases hp with rfl | rfl
    · rw [ladder_denote]; simp
    · simp [denote]

example : EnvOK stdEnv ιℝ := stdEnv_ok

end Verif.Vts
