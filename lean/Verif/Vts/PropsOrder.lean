import Verif.Vts.PropsRefusal

/-! C104: the answer of `internal_vts` and the order, repetition and form of its constraints. -/

set_option linter.unusedSectionVars false

open Polynomial Verif.Alg

namespace Verif.Vts

variable {R : Type} [CommRing R] [LinearOrder R] {K : Type} [Field K] [LinearOrder K]
  [IsStrictOrderedRing K]

local notation "ιℝ" => Int.castRingHom ℝ

/-- **C104, answers**. Two systems with the same solutions never receive different answers. -/
theorem C104_same_answer [PolyIVT K] {E : Env R K} {φ : R →+* K} (hE : EnvOK E φ)
    (le lt eq ne le' lt' eq' ne' : List (List R))
    (hn : ∀ p ∈ le ++ lt ++ eq ++ ne, Normalized p) (hn' : ∀ p ∈ le' ++ lt' ++ eq' ++ ne', Normalized p)
    (hsame : Satisfiable φ le lt eq ne ↔ Satisfiable φ le' lt' eq' ne') (b b' : Bool)
    (h : internalVts E le lt eq ne = .ok b) (h' : internalVts E le' lt' eq' ne' = .ok b') : b = b' := by
  have h1 := C01_vts_decides hE le lt eq ne hn b h
  have h2 := C01_vts_decides hE le' lt' eq' ne' hn' b' h'
  rw [Bool.eq_iff_iff, h1, h2, hsame]

/-- **C104, partial** (missing: systems with a polynomial of more than five distinct roots, see
`C104_violated`). Lists with the same members, in any order and with any repetitions, receive the
same result. -/
theorem C104_partial [PolyIVT K] {E : Env R K} {φ : R →+* K} (hE : EnvOK E φ)
    (le lt eq ne le' lt' eq' ne' : List (List R))
    (hn : ∀ p ∈ le ++ lt ++ eq ++ ne, Normalized p)
    (h5 : ∀ p ∈ le ++ lt ++ eq ++ ne, (denote φ p).roots.toFinset.card ≤ 5)
    (hle : ∀ p, p ∈ le ↔ p ∈ le') (hlt : ∀ p, p ∈ lt ↔ p ∈ lt') (heq : ∀ p, p ∈ eq ↔ p ∈ eq')
    (hne : ∀ p, p ∈ ne ↔ p ∈ ne') :
    ∃ b, internalVts E le lt eq ne = .ok b ∧ internalVts E le' lt' eq' ne' = .ok b := by
  have hmem : ∀ p, p ∈ le' ++ lt' ++ eq' ++ ne' ↔ p ∈ le ++ lt ++ eq ++ ne := fun p => by
    simp only [List.mem_append, hle, hlt, heq, hne]
  have hn' : ∀ p ∈ le' ++ lt' ++ eq' ++ ne', Normalized p := fun p hp => hn p ((hmem p).1 hp)
  obtain ⟨b, hb⟩ := (C02_vts_answers hE le lt eq ne hn).1 h5
  obtain ⟨b', hb'⟩ := (C02_vts_answers hE le' lt' eq' ne' hn').1 fun p hp => h5 p ((hmem p).1 hp)
  have hsame : Satisfiable φ le lt eq ne ↔ Satisfiable φ le' lt' eq' ne' := by
    unfold Satisfiable
    simp only [hle, hlt, heq, hne]
  exact ⟨b, hb, by rw [C104_same_answer hE le lt eq ne le' lt' eq' ne' hn hn' hsame b b' hb hb', hb']⟩

/-- **C104, which order is safe**. `internal_vts` answers `True` as soon as one of the weak
constraints has a solution of the system among its roots and neither it nor a weak constraint before
it has more than five distinct roots; what comes later does not matter. -/
theorem C104_early [PolyIVT K] {E : Env R K} {φ : R →+* K} (hE : EnvOK E φ)
    (le lt eq ne : List (List R)) (hn : ∀ p ∈ le ++ lt ++ eq ++ ne, Normalized p)
    (pre post : List (List R)) (p : List R) (hsplit : le ++ eq = pre ++ p :: post)
    (h5 : ∀ q ∈ pre ++ [p], (denote φ q).roots.toFinset.card ≤ 5) (x : K)
    (hx : (denote φ p).eval x = 0) (hle : ∀ q ∈ le, (denote φ q).eval x ≤ 0)
    (hlt : ∀ q ∈ lt, (denote φ q).eval x < 0) (heq : ∀ q ∈ eq, (denote φ q).eval x = 0)
    (hne : ∀ q ∈ ne, (denote φ q).eval x ≠ 0) :
    internalVts E le lt eq ne = .ok true := by
  have hsol : SolvesAt φ le lt eq ne x := fun q _ =>
    ⟨fun h => (sg_nonpos_iff _).2 (hle q h), fun h => (sg_lt_zero_iff _).2 (hlt q h),
      fun h => sg_eq_zero_iff.2 (heq q h), fun h h0 => hne q h (sg_eq_zero_iff.1 h0)⟩
  have hL : ∀ q ∈ pre ++ p :: post, Normalized q := fun q hq => by
    rw [← hsplit] at hq
    exact hn q (by simp only [List.mem_append] at hq ⊢; tauto)
  have hone := fun q (hq : q ∈ pre ++ p :: post) => tryRoots_exact hE le lt eq ne hn q (hL q hq)
  have hp : tryRoots E (evaluateSingle E) (signConditionsLookup le lt eq ne) (le ++ lt ++ eq ++ ne) p = .ok true := by
    cases h : tryRoots E (evaluateSingle E) (signConditionsLookup le lt eq ne) (le ++ lt ++ eq ++ ne) p with
    | error e =>
      have := ((hone p (by simp)).2.2 e h).2
      have := h5 p (by simp)
      omega
    | ok b =>
      cases b with
      | true => rfl
      | false => exact absurd hsol ((hone p (by simp)).2.1 h x hx)
  have hfirst : firstTrue (tryRoots E (evaluateSingle E) (signConditionsLookup le lt eq ne)
      (le ++ lt ++ eq ++ ne)) (pre ++ p :: post) = .ok true := by
    clear hsplit hL
    induction pre with
    | nil =>
      rw [List.nil_append, firstTrue]
      simp only [bind, Except.bind, hp]
      rfl
    | cons a pre ih =>
      rw [List.cons_append, firstTrue]
      simp only [bind, Except.bind]
      cases h : tryRoots E (evaluateSingle E) (signConditionsLookup le lt eq ne) (le ++ lt ++ eq ++ ne) a with
      | error e =>
        have := ((hone a (by simp)).2.2 e h).2
        have := h5 a (by simp)
        omega
      | ok b =>
        cases b with
        | true => rfl
        | false =>
          exact ih (fun q hq => h5 q (List.mem_cons_of_mem _ hq)) (fun q hq => hone q (List.mem_cons_of_mem _ hq))
  unfold internalVts
  simp only [bind, Except.bind]
  rw [hsplit, hfirst]
  rfl

/-- **C104, violated**. The same two equations in the two orders: one call raises, the other answers
`True`. -/
theorem C104_violated {E : Env ℤ ℝ} (hE : EnvOK E ιℝ) :
    internalVts E [] [] [ladder, [0, 1]] [] = .error .moreThan5 ∧
    internalVts E [] [] [[0, 1], ladder] [] = .ok true := by
  refine ⟨(C02_refuses_example hE).1, ?_⟩
  have hX : denote ιℝ [0, 1] = X := by simp [denote]
  refine C104_early hE [] [] [[0, 1], ladder] [] ?_ [] [ladder] [0, 1] rfl ?_ 0 ?_ (by simp) (by simp) ?_ (by simp)
  · intro p hp
    simp only [List.nil_append, List.append_nil, List.mem_cons, List.not_mem_nil, or_false] at hp
    rcases hp with rfl | rfl
    · exact ⟨1, rfl, by decide⟩
    · exact ladder_normalized
  · intro q hq
    simp only [List.nil_append, List.mem_singleton] at hq
    subst hq
    rw [hX]; simp
  · rw [hX]; simp
  · intro q hq
    simp only [List.mem_cons, List.not_mem_nil, or_false] at hq
    rcases hq with rfl | rfl
    · rw [hX]; simp
    · rw [ladder_denote]; simp

-- the hypotheses of the partial statement are met: `x² - 2 ≤ 0`, `x - 1 < 0` twice, `2x + 1 ≠ 0`
example : ∃ b, internalVts stdEnv [[-2, 0, 1], [0, 1]] [[-1, 1]] [] [[1, 2]] = .ok b ∧
    internalVts stdEnv [[0, 1], [-2, 0, 1], [0, 1]] [[-1, 1], [-1, 1]] [] [[1, 2]] = .ok b := by
  have hn : ∀ p ∈ [[-2, 0, 1], [0, 1]] ++ [[-1, 1]] ++ [] ++ [[1, (2 : ℤ)]], Normalized p := by
    simp only [List.append_nil, List.cons_append, List.nil_append, List.forall_mem_cons]
    exact ⟨⟨1, rfl, by decide⟩, ⟨1, rfl, by decide⟩, ⟨1, rfl, by decide⟩, ⟨2, rfl, by decide⟩, by simp⟩
  refine C104_partial stdEnv_ok _ _ _ _ _ _ _ _ hn ?_ ?_ ?_ ?_ ?_
  · intro p hp
    have h1 := natDegree_denote stdEnv_ok.mono.injective (hn p hp)
    have h2 := (denote ιℝ p).roots.toFinset_card_le
    have h3 := (denote ιℝ p).card_roots'
    have h4 : p.length ≤ 6 := by
      revert p
      simp
    omega
  all_goals intro p; simp; try tauto

end Verif.Vts
