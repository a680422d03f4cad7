import Verif.Vts.DirectModel
import Verif.Vts.Props

/-!
# C92: the direct calculation of a sign agrees with the Tarski queries
-/

set_option linter.unusedSectionVars false

open Polynomial Verif.Alg

namespace Verif.Vts

variable {R : Type} [CommRing R] [LinearOrder R] {K : Type} [Field K] [LinearOrder K] [IsStrictOrderedRing K]

theorem signFunc_eval (φ : R →+* K) (q : List R) (x : K) : IsSign ((denote φ q).eval x) (signFunc (evaluatePoly φ q x)) := by
  rw [evaluatePoly_eq]
  unfold signFunc IsSign
  rcases lt_trichotomy ((denote φ q).eval x) 0 with h | h | h
  · rw [if_pos h]; exact Or.inr (Or.inr ⟨h, rfl⟩)
  · rw [h]; simp
  · rw [if_neg (not_lt.2 h.le), if_pos h]; exact Or.inl ⟨h, rfl⟩

theorem IsSign.unique {v : K} {s t : ℤ} (h1 : IsSign v s) (h2 : IsSign v t) : s = t :=
  ((isSign_iff v s).1 h1).trans ((isSign_iff v t).1 h2).symm

theorem agreesAt_eq {φ : R →+* K} {d : DDS R K} (hnd : (d.recorded.map Prod.fst).Nodup) (r : K) :
    ∀ l : List (Poly R × ℤ), (∀ e ∈ l, e ∈ d.recorded) →
    ∃ b, agreesAt φ d r (l.map Prod.fst) = .ok b ∧ (b = true ↔ ∀ e ∈ l, IsSign ((denote φ e.1).eval r) e.2) := by
  intro l
  induction l with
  | nil => intro _; exact ⟨true, rfl, by simp⟩
  | cons e l ih =>
    intro h
    obtain ⟨b, h1, h2⟩ := ih fun x hx => h x (List.mem_cons_of_mem _ hx)
    rw [List.map_cons, agreesAt, getSign_of_mem hnd (h e List.mem_cons_self)]
    simp only [bind, Except.bind]
    by_cases hs : signFunc (evaluatePoly φ e.1 r) = e.2
    · rw [if_neg (not_not.2 hs)]
      refine ⟨b, h1, h2.trans ⟨fun h x hx => ?_, fun h x hx => h x (List.mem_cons_of_mem _ hx)⟩⟩
      rcases List.mem_cons.1 hx with rfl | hx
      · rw [← hs]; exact signFunc_eval φ _ r
      · exact h x hx
    · rw [if_pos hs]
      refine ⟨false, rfl, by simp, fun h => ?_⟩
      exact absurd ((signFunc_eval φ e.1 r).unique (h e List.mem_cons_self)) hs

/-- **C92**. For a description of a root made by `get_discri_der_signs`, the direct calculation never raises, whatever
the number of recorded derivatives, and gives the sign of the goal at that root; the Tarski queries give the same sign
whenever they give one. -/
theorem C92_direct [PolyIVT K] {E : Env R K} {φ : R →+* K} (hE : EnvOK E φ) (p : List R) (hp : Normalized p)
    (roots : List K) (hr : E.mkRoots p = .ok roots) (ds : List (DDS R K))
    (hds : getDiscriDerSigns φ roots p = .ok ds) (d : DDS R K) (hd : d ∈ ds) (goal : List R) :
    ∃ s, getSignByDirectCalc E (d.allPolies ++ [goal]) p d = .ok s ∧ IsSign ((denote φ goal).eval d.point) s ∧
      (Normalized goal → ∀ s', evaluateSingle E p d goal = .ok s' → s' = s) := by
  obtain ⟨rs, e1, hn, hroot⟩ := hE.roots p (denote_ne_zero hE.mono.injective hp)
  rw [hr] at e1
  cases e1
  have hφ : E.φ = φ := funext hE.φ_eq
  obtain ⟨ds', h1, h2, h3⟩ := getDiscriDerSigns_top hE.mono p hp roots hn hroot
  rw [hds] at h1
  cases h1
  obtain ⟨hok, -, -⟩ := h3 d hd
  have hsigns : ∀ e ∈ d.recorded, IsSign ((denote φ e.1).eval d.point) e.2 := fun e he =>
    (isSign_iff _ _).2 (hok.sign e he)
  have hval : ∀ l : List K, l.Nodup → (∀ x ∈ l, x ∈ roots) →
      goodValues φ (d.allPolies ++ [goal]) d l = .ok (if d.point ∈ l then [signFunc (evaluatePoly φ goal d.point)] else []) := by
    intro l
    induction l with
    | nil => intro _ _; rfl
    | cons r l ih =>
      intro hnd hsub
      obtain ⟨hr0, hnd'⟩ := List.nodup_cons.1 hnd
      have ih' := ih hnd' fun x hx => hsub x (List.mem_cons_of_mem _ hx)
      obtain ⟨b, h4, h5⟩ := agreesAt_eq (φ := φ) hok.nodup r d.recorded fun e he => he
      rw [goodValues, List.dropLast_concat, List.getLast?_concat]
      simp only [DDS.allPolies] at h4 ih' ⊢
      rw [h4]
      simp only [bind, Except.bind]
      by_cases hrp : r = d.point
      · subst hrp
        have hb : b = true := h5.2 hsigns
        rw [hb, if_pos rfl, ih', if_neg hr0, if_pos List.mem_cons_self]
        rfl
      · have hb : b = false := by
          cases b with
          | false => rfl
          | true =>
            exact absurd (hok.unique r (hsub r List.mem_cons_self) fun e he =>
              ((isSign_iff _ _).1 (h5.1 rfl e he)).symm) hrp
        rw [hb, if_neg (by simp), ih']
        have : (d.point ∈ r :: l) ↔ d.point ∈ l := by
          rw [List.mem_cons]
          exact ⟨fun h => h.resolve_left fun h => hrp h.symm, Or.inr⟩
        simp only [this]
  refine ⟨signFunc (evaluatePoly φ goal d.point), ?_, signFunc_eval φ goal d.point, fun hg s' hs' => ?_⟩
  · unfold getSignByDirectCalc
    rw [hr, hφ]
    simp only
    rw [hval roots hn fun x hx => hx, if_pos hok.mem]
  · exact ((C07_sign_determination hE p hp roots hn hroot ds hds d hd goal hg).1 s' hs').unique
      (signFunc_eval φ goal d.point)

-- `x² - 1` has two roots, which are described
example : ∃ rs ds, stdEnv.mkRoots [-1, 0, 1] = .ok rs ∧ getDiscriDerSigns (Int.castRingHom ℝ) rs [-1, 0, 1] = .ok ds ∧
    ds.length = rs.length := by
  have hp : Normalized ([-1, 0, 1] : List ℤ) := normalized_int [-1, 0] 1 (by decide)
  obtain ⟨rs, h1, h2, h3⟩ := stdEnv_ok.roots _ (denote_ne_zero stdEnv_ok.mono.injective hp)
  obtain ⟨ds, h4, h5, -⟩ := C06_root_descriptions stdEnv_ok.mono _ hp rs h2 h3
  exact ⟨rs, ds, h1, h4, by rw [← h5.length_eq, List.length_map]⟩

/-- Roots for the example below. -/
def directEnv : Env ℤ ℚ := ⟨fun p => .ok (if p = [0, -1, 0, 1] then [-1, 0, 1] else []), fun m => .ok m, fun c => c⟩

-- a run, a description that fits no root, and one that fits two
example : getSignByDirectCalc directEnv [[-1, 0, 3], [0, 6], [1, 2]] [0, -1, 0, 1] ⟨-1, [([-1, 0, 3], 1), ([0, 6], -1)]⟩ =
      .ok (-1) ∧
    getSignByDirectCalc directEnv [[-1, 0, 3], [1, 2]] [0, -1, 0, 1] ⟨0, [([-1, 0, 3], 0)]⟩ = .error .noGoodValue ∧
    getSignByDirectCalc directEnv [[-1, 0, 3], [1, 2]] [0, -1, 0, 1] ⟨1, [([-1, 0, 3], 1)]⟩ = .error .noGoodValue ∧
    getSignByDirectCalc directEnv [[0, 6], [1, 2]] [0, -1, 0, 1] ⟨1, [([-1, 0, 3], 1)]⟩ = .error (.py .keyError) ∧
    getSignByDirectCalc directEnv [] [0, -1, 0, 1] ⟨1, []⟩ = .error (.py .indexError) := by decide +kernel

end Verif.Vts
