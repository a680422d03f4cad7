import Verif.Vts.TsModel
import Verif.Vts.PropsAux

/-!
# Properties of `internal_ts` (C14)
-/

set_option linter.unusedSectionVars false

open Polynomial Verif.Alg

namespace Verif.Vts

variable {R : Type} [CommRing R] [LinearOrder R] {K : Type} [Field K] [LinearOrder K]
  [IsStrictOrderedRing K]

theorem tsEvaluate_eq (pt : TsPoint K) (le lt eq ne : List (List R)) :
    tsEvaluate pt le lt eq ne = true ↔ le = [] ∧ lt = [] ∧ eq = [] := by
  simp only [tsEvaluate, List.all_append, Bool.and_eq_true, List.all_eq_true, List.mem_map,
    forall_exists_index, and_imp, forall_apply_eq_imp_iff₂, Strategy.condition]
  constructor
  · rintro ⟨⟨⟨h1, h2⟩, h3⟩, _⟩
    refine ⟨?_, ?_, ?_⟩ <;> rw [List.eq_nil_iff_forall_not_mem] <;> intro a ha
    · exact absurd (h1 a ha) (by simp)
    · exact absurd (h2 a ha) (by simp)
    · exact absurd (h3 a ha) (by simp)
  · rintro ⟨rfl, rfl, rfl⟩; simp

theorem tsLoop_ok {E : Env R K} {φ : R →+* K} (hE : EnvOK E φ) (mk : K → TsPoint K)
    (le lt eq ne l : List (List R)) (hl : ∀ p ∈ l, Normalized p) :
    ∃ b, tsLoop E mk le lt eq ne l = .ok b ∧ (b = true → le = [] ∧ lt = [] ∧ eq = []) := by
  induction l with
  | nil => exact ⟨false, rfl, by simp⟩
  | cons p l ih =>
    obtain ⟨b, h1, h2⟩ := ih fun q hq => hl q (List.mem_cons_of_mem _ hq)
    obtain ⟨rs, hr, _⟩ := hE.roots p (denote_ne_zero hE.mono.injective (hl p (by simp)))
    unfold tsLoop at h1 ⊢
    rw [firstTrue, hr]
    simp only [bind, Except.bind, pure, Except.pure]
    by_cases ha : (rs.any fun root => tsEvaluate (mk root) le lt eq ne) = true
    · rw [if_pos ha]
      refine ⟨true, rfl, fun _ => ?_⟩
      obtain ⟨r, _, h⟩ := List.any_eq_true.1 ha
      exact (tsEvaluate_eq _ _ _ _ _).1 h
    · rw [if_neg ha]
      exact ⟨b, h1, h2⟩

/-- What `internal_ts` computes: it answers `True` exactly when there are only `!=` constraints. -/
theorem C14_what_it_computes {E : Env R K} {φ : R →+* K} (hE : EnvOK E φ)
    (le lt eq ne : List (List R)) (hn : ∀ p ∈ le ++ lt ++ eq ++ ne, Normalized p) :
    ∃ b, internalTs E le lt eq ne = .ok b ∧ (b = true ↔ le = [] ∧ lt = [] ∧ eq = []) := by
  obtain ⟨b1, h1, h1'⟩ := tsLoop_ok hE .exact le lt eq ne (eq ++ le) fun p hp =>
    hn p (by simp at hp ⊢; tauto)
  obtain ⟨b2, h2, h2'⟩ := tsLoop_ok hE .plusEps le lt eq ne (lt ++ ne) fun p hp =>
    hn p (by simp at hp ⊢; tauto)
  unfold internalTs
  rw [h1]
  simp only [bind, Except.bind, pure, Except.pure]
  cases b1 with
  | true => exact ⟨true, rfl, by simpa using h1' rfl⟩
  | false =>
    simp only [Bool.false_eq_true, if_false, h2]
    cases b2 with
    | true => exact ⟨true, rfl, by simpa using h2' rfl⟩
    | false => exact ⟨_, rfl, by simp [tsEvaluate_eq]⟩

/-- The tests themselves are right: on numbers they test the four relations, so that the answers are wrong because of the
object they are applied to. -/
theorem C14_tests (v : K) :
    (Strategy.condition .le (.number v) = true ↔ v ≤ 0) ∧ (Strategy.condition .lt (.number v) = true ↔ v < 0) ∧
    (Strategy.condition .eq (.number v) = true ↔ v = 0) ∧ (Strategy.condition .ne (.number v) = true ↔ v ≠ 0) := by
  simp [Strategy.condition]

example : Strategy.condition .le (.number (0 : ℚ)) = true ∧ Strategy.condition .lt (.number (0 : ℚ)) = false := by
  decide +kernel

/-- **C14 is violated**: `x = 0` is satisfiable and `internal_ts` answers `False`. -/
theorem C14_ts_violated {E : Env ℤ ℝ} (hE : EnvOK E (Int.castRingHom ℝ)) :
    internalTs E [] [] [[0, 1]] [] = .ok false ∧
      Satisfiable (Int.castRingHom ℝ) [] [] [[0, 1]] [] := by
  constructor
  · obtain ⟨b, h1, h2⟩ := C14_what_it_computes hE [] [] [[0, 1]] [] (by
      intro p hp; simp at hp; subst hp; exact ⟨1, rfl, by decide⟩)
    rw [h1]
    cases b
    · rfl
    · simp at h2
  · exact ⟨0, by simp, by simp, by simp [denote], by simp⟩

/-- What remains of **C14**: an answer `True` is right. Missing: the converse (violated above). -/
theorem C14_ts_sound_partial {E : Env R K} {φ : R →+* K} (hE : EnvOK E φ)
    (le lt eq ne : List (List R)) (hn : ∀ p ∈ le ++ lt ++ eq ++ ne, Normalized p)
    (h : internalTs E le lt eq ne = .ok true) : Satisfiable φ le lt eq ne := by
  classical
  obtain ⟨b, h1, h2⟩ := C14_what_it_computes hE le lt eq ne hn
  rw [h] at h1
  simp only [Except.ok.injEq] at h1
  obtain ⟨rfl, rfl, rfl⟩ := h2.1 h1.symm
  let s : Finset K := ne.toFinset.biUnion fun p => (denote φ p).roots.toFinset
  obtain ⟨x, hx⟩ := Infinite.exists_notMem_finset s
  refine ⟨x, by simp, by simp, by simp, fun p hp h0 => hx ?_⟩
  simp only [s, Finset.mem_biUnion, List.mem_toFinset, Multiset.mem_toFinset]
  exact ⟨p, hp, (mem_roots (denote_ne_zero hE.mono.injective (hn p (by simp [hp])))).2 h0⟩

-- the hypotheses are met: `x² - 1 ≠ 0`
example : internalTs stdEnv [] [] [] [[-1, 0, 1]] = .ok true := by
  obtain ⟨b, h1, h2⟩ := C14_what_it_computes stdEnv_ok [] [] [] [[-1, 0, 1]] (by
      intro p hp; simp at hp; subst hp; exact ⟨1, rfl, by decide⟩)
  rw [h1]
  simp at h2
  rw [h2]

end Verif.Vts
