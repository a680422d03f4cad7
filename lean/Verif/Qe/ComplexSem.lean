import Verif.Qe.ComplexLemmas
import Mathlib.FieldTheory.IsAlgClosed.Basic
import Mathlib.Algebra.Polynomial.FieldDivision

/-!
# `complex_extend`: meaning of the diagrams over an algebraically closed field
-/

set_option linter.unusedSectionVars false

open Polynomial

namespace Verif.Qe

variable {R : Type} [CommRing R] [DecidableEq R] {K : Type*} [Field K] [CharZero K]

/-- The polynomial at the parameter values `φ`. -/
noncomputable def P (φ : R →+* K) (q : List R) : K[X] := (toPoly q).map φ

theorem P_nil (φ : R →+* K) : P φ [] = 0 := by simp [P]

theorem P_lcRow (φ : R →+* K) (p : List R) : P φ (lcRow p) = C (φ (lc p) * (fac (deg p) : K)) := by
  unfold P
  rw [toPoly_lcRow]
  simp

theorem fac_ne_zero (n : ℕ) : (fac n : K) ≠ 0 := by
  rw [fac_eq]
  exact_mod_cast Nat.factorial_ne_zero n

theorem P_lcRow_eq_zero (φ : R →+* K) (p : List R) : P φ (lcRow p) = 0 ↔ φ (lc p) = 0 := by
  rw [P_lcRow, C_eq_zero, mul_eq_zero]
  constructor
  · rintro (h | h)
    · exact h
    · exact absurd h (fac_ne_zero _)
  · exact Or.inl

theorem P_tail (φ : R →+* K) {p : List R} (hp : p ≠ []) (h : φ (lc p) = 0) :
    P φ p = P φ (pTail p) := by
  unfold P
  rw [toPoly_pTail p hp]
  simp [h]

theorem P_derivative (φ : R →+* K) (p : List R) :
    P φ (derivative p) = Polynomial.derivative (P φ p) := by
  unfold P
  rw [toPoly_derivative, derivative_map]

theorem P_iterate (φ : R →+* K) (p : List R) (k : ℕ) :
    P φ (derivative^[k] p) = Polynomial.derivative^[k] (P φ p) := by
  induction k with
  | zero => rfl
  | succ k ih => rw [Function.iterate_succ_apply', Function.iterate_succ_apply', P_derivative, ih]

theorem P_natDegree (φ : R →+* K) {p : List R} (hp : Canon p) (h : φ (lc p) ≠ 0) :
    (P φ p).natDegree = deg p := by
  unfold P
  rw [natDegree_map_of_leadingCoeff_ne_zero, natDegree_toPoly hp]
  rwa [leadingCoeff_toPoly hp]

theorem P_leadingCoeff (φ : R →+* K) {p : List R} (hp : Canon p) (h : φ (lc p) ≠ 0) :
    (P φ p).leadingCoeff = φ (lc p) := by
  unfold P
  rw [leadingCoeff_map_of_leadingCoeff_ne_zero, leadingCoeff_toPoly hp]
  rwa [leadingCoeff_toPoly hp]

theorem P_ne_zero (φ : R →+* K) {p : List R} (hp : Canon p) (h : φ (lc p) ≠ 0) : P φ p ≠ 0 := by
  intro h0
  have := P_leadingCoeff φ hp h
  rw [h0, leadingCoeff_zero] at this
  exact h this.symm

theorem P_const (φ : R →+* K) {p : List R} (h : deg p = 0) : P φ p = C (φ (p.headD 0)) := by
  unfold deg at h
  cases p with
  | nil => simp [P]
  | cons c l =>
    have : l = [] := by simpa using h
    subst this
    simp [P]

/-- evaluation of a pseudo-remainder -/
theorem P_rem [IsDomain R] (φ : R →+* K) {p q r : List R} (hp : Canon p) (hq : Canon q)
    (hpos : 0 < deg q) (hle : deg q ≤ deg p) (h : pseudoRem p q = .ok r) {x : K}
    (hx : (P φ q).eval x = 0) :
    (P φ r).eval x = φ (lc q) ^ (deg p - deg q + 1) * (P φ p).eval x := by
  obtain ⟨s, h1, _, _, Q, h2⟩ := pseudoRem_ge (ne_nil_of_deg hpos) hq hp (length_le_of_deg hpos hle)
  rw [h] at h1
  cases h1
  have h3 := congrArg (fun f => (f.map φ).eval x) h2
  unfold P at hx ⊢
  simp only [Polynomial.map_mul, Polynomial.map_add, map_C, eval_mul, eval_add, eval_C, hx,
    mul_zero, zero_add, _root_.map_pow, Polynomial.map_pow, eval_pow] at h3
  exact h3.symm

/-- The diagram shows the zero patterns at the parameter values `φ`; column `i ≥ 1` is the point
`r i`. -/
structure CSem (φ : R →+* K) (D : Diagram R ℕ) (n : ℕ) (r : ℕ → K) : Prop where
  inj : ∀ i j, 1 ≤ i → i < n → 1 ≤ j → j < n → r i = r j → i = j
  val01 : ∀ q ∈ keys D, ∀ i < n, cv D q i = 0 ∨ cv D q i = 1
  col0 : ∀ q ∈ keys D, cv D q 0 = 0 ↔ P φ q = 0
  col : ∀ q ∈ keys D, ∀ i, 1 ≤ i → i < n → (cv D q i = 0 ↔ (P φ q).eval (r i) = 0)
  roots : ∀ q ∈ keys D, P φ q ≠ 0 → ∀ x, (P φ q).eval x = 0 → ∃ i, 1 ≤ i ∧ i < n ∧ r i = x

theorem colOut_value [IsDomain R] {φ : R →+* K} {D : Diagram R ℕ} {n : ℕ} {p : List R} {r : ℕ → K}
    (hs : CShape D n) (hp : StepHyp D p) (hsem : CSem φ D n r) {i : ℕ} (hi1 : 1 ≤ i) (hin : i < n)
    {v : ℤ} {c : ℕ} (h : ColOut D p i v c) :
    (v = 0 ∨ v = 1) ∧ (v = 0 ↔ (P φ p).eval (r i) = 0) := by
  obtain ⟨q, hq, hqi, hq0, hmin, s, hsk, hrem, rfl⟩ := h.value
  have hqpos : 0 < deg q := by
    rcases Nat.eq_zero_or_pos (deg q) with h | h
    · exact absurd hqi (hs.const q hq h hq0 i hin)
    · exact h
  obtain ⟨hqc, hqle, _⟩ := hp.rem q hq hqpos
  have hx : (P φ q).eval (r i) = 0 := (hsem.col q hq i hi1 hin).1 hqi
  have hlc : φ (lc q) ≠ 0 := by
    intro h0
    have ht := P_tail φ (ne_nil_of_deg hqpos) h0
    have htk := hp.tails q hq
    have h1 : cv D (pTail q) i = 0 := (hsem.col _ htk i hi1 hin).2 (by rw [← ht]; exact hx)
    have h2 : cv D (pTail q) 0 ≠ 0 := by
      intro h
      exact hq0 ((hsem.col0 q hq).2 (by rw [ht]; exact (hsem.col0 _ htk).1 h))
    have h3 := hmin _ htk h1 h2
    have h4 := pTail_length q
    unfold deg at h3 hqpos
    omega
  refine ⟨hsem.val01 s hsk i hin, ?_⟩
  rw [hsem.col s hsk i hi1 hin, P_rem φ hp.canon hqc hqpos hqle hrem hx, mul_eq_zero]
  constructor
  · rintro (h | h)
    · exact absurd h (pow_ne_zero _ hlc)
    · exact h
  · exact Or.inr

theorem colOut_count [IsDomain R] {φ : R →+* K} {D : Diagram R ℕ} {n : ℕ} {p : List R} {r : ℕ → K}
    (hs : CShape D n) (hp : StepHyp D p) (hsem : CSem φ D n r) (hlc : φ (lc p) ≠ 0)
    {i : ℕ} (hi1 : 1 ≤ i) (hin : i < n)
    {v : ℤ} {c : ℕ} (h : ColOut D p i v c) :
    c = (P φ p).rootMultiplicity (r i) := by
  have hP := P_ne_zero φ hp.canon hlc
  obtain ⟨_, h1⟩ := colOut_value hs hp hsem hi1 hin h
  by_cases hv : v = 0
  · obtain ⟨m, rfl, hm, h2, h3⟩ := h.count hv
    have h4 : m < (P φ p).rootMultiplicity (r i) := by
      rw [lt_rootMultiplicity_iff_isRoot_iterate_derivative hP]
      intro k hk
      rw [← P_iterate, IsRoot.def]
      by_cases hk0 : k = 0
      · subst hk0; exact h1.1 hv
      · exact (hsem.col _ (hp.der k (by omega)) i hi1 hin).1 (h2 k (by omega) hk)
    have h5 : ¬ m + 1 < (P φ p).rootMultiplicity (r i) := by
      by_cases hmd : m < deg p
      · rw [lt_rootMultiplicity_iff_isRoot_iterate_derivative hP]
        intro h6
        have := h6 (m + 1) le_rfl
        rw [← P_iterate, IsRoot.def] at this
        exact h3 hmd ((hsem.col _ (hp.der (m + 1) (by omega)) i hi1 hin).2 this)
      · classical
        have h6 : (P φ p).rootMultiplicity (r i) ≤ deg p := by
          rw [← P_natDegree φ hp.canon hlc, ← count_roots]
          exact (Multiset.count_le_card _ _).trans (card_roots' _)
        omega
    omega
  · rw [h.count0 hv]
    symm
    rw [rootMultiplicity_eq_zero_iff]
    intro h'
    exact absurd (h1.2 h') hv

theorem csem_step [IsDomain R] [IsAlgClosed K] {φ : R →+* K} {D D' : Diagram R ℕ} {n n' : ℕ}
    {p : List R} {r : ℕ → K}
    (hs : CShape D n) (hp : StepHyp D p) (hsem : CSem φ D n r) (h : CStep D n p D' n') :
    ∃ r', CSem φ D' n' r' ∧ ∀ i < n, r' i = r i := by
  classical
  have hn := hs.n_pos
  rcases h.cases with ⟨h0, rfl, hval⟩ | ⟨h0, val, cnt, hcol, hp0, hval, hn', hnew⟩
  · have hlc : φ (lc p) = 0 := (P_lcRow_eq_zero φ p).1 ((hsem.col0 _ hp.lcRow).1 h0)
    have ht := P_tail φ (ne_nil_of_deg hp.pos) hlc
    refine ⟨r, ⟨hsem.inj, ?_, ?_, ?_, ?_⟩, fun _ _ => rfl⟩
    · intro q hq i hi
      rcases (h.keys q).1 hq with rfl | hq
      · rw [hval i hi]; exact hsem.val01 _ hp.tail i hi
      · rw [h.old q hq i hi]; exact hsem.val01 _ hq i hi
    · intro q hq
      rcases (h.keys q).1 hq with rfl | hq
      · rw [hval 0 hn, ht]; exact hsem.col0 _ hp.tail
      · rw [h.old q hq 0 hn]; exact hsem.col0 _ hq
    · intro q hq i hi1 hi
      rcases (h.keys q).1 hq with rfl | hq
      · rw [hval i hi, ht]; exact hsem.col _ hp.tail i hi1 hi
      · rw [h.old q hq i hi]; exact hsem.col _ hq i hi1 hi
    · intro q hq
      rcases (h.keys q).1 hq with rfl | hq
      · rw [ht]; exact hsem.roots _ hp.tail
      · exact hsem.roots _ hq
  · have hlc : φ (lc p) ≠ 0 := fun hc =>
      h0 ((hsem.col0 _ hp.lcRow).2 ((P_lcRow_eq_zero φ p).2 hc))
    have hP := P_ne_zero φ hp.canon hlc
    have hdeg := P_natDegree φ hp.canon hlc
    set M := (P φ p).roots with hM
    have hMcard : M.card = deg p := by
      rw [hM, IsAlgClosed.card_roots_eq_natDegree, hdeg]
    set cols := (Finset.Ico 1 n).image r with hcols
    have hcolsmem : ∀ x, x ∈ cols ↔ ∃ i, 1 ≤ i ∧ i < n ∧ r i = x := by
      intro x
      rw [hcols, Finset.mem_image]
      simp only [Finset.mem_Ico]
      constructor
      · rintro ⟨i, ⟨h1, h2⟩, h3⟩; exact ⟨i, h1, h2, h3⟩
      · rintro ⟨i, h1, h2, h3⟩; exact ⟨i, ⟨h1, h2⟩, h3⟩
    have hcount : (M.filter (· ∈ cols)).card = ((List.range' 1 (n - 1)).map cnt).sum := by
      rw [← Multiset.sum_count_eq_card (s := cols) (by
        intro a ha; exact (Multiset.mem_filter.1 ha).2)]
      rw [hcols, Finset.sum_image (by
        intro i hi j hj hij
        rw [Finset.mem_coe, Finset.mem_Ico] at hi hj
        exact hsem.inj i j hi.1 hi.2 hj.1 hj.2 hij)]
      have h1 : ∀ i ∈ Finset.Ico 1 n,
          Multiset.count (r i) (M.filter (· ∈ (Finset.Ico 1 n).image r)) = cnt i := by
        intro i hi
        rw [Finset.mem_Ico] at hi
        rw [Multiset.count_filter_of_pos (by
          rw [Finset.mem_image]; exact ⟨i, Finset.mem_Ico.2 hi, rfl⟩), hM, count_roots]
        exact (colOut_count hs hp hsem hlc hi.1 hi.2 (hcol i hi.1 hi.2)).symm
      rw [Finset.sum_congr rfl h1]
      rfl
    set N := M.filter fun x => ¬ x ∈ cols with hN
    have hNcard : N.card = deg p - ((List.range' 1 (n - 1)).map cnt).sum := by
      have h1 := congrArg Multiset.card (Multiset.filter_add_not (· ∈ cols) M)
      rw [Multiset.card_add, hcount, hMcard] at h1
      rw [hN]
      omega
    have hNnodup : N.Nodup := by
      rw [Multiset.nodup_iff_count_le_one]
      intro x
      by_cases hx : x ∈ cols
      · rw [Multiset.count_eq_zero_of_notMem (by
          intro h'; exact (Multiset.mem_filter.1 h').2 hx)]
        exact Nat.zero_le _
      · rw [hN, Multiset.count_filter_of_pos (p := fun x => x ∉ cols) hx, hM, count_roots]
        by_contra hcon
        push Not at hcon
        rw [lt_rootMultiplicity_iff_isRoot_iterate_derivative hP] at hcon
        have h1 := hcon 1 le_rfl
        rw [← P_iterate, IsRoot.def] at h1
        have h2 : P φ (derivative^[1] p) ≠ 0 := by
          rw [P_iterate, Function.iterate_one]
          intro h3
          have := Polynomial.derivative_eq_zero.1 h3
          rw [hdeg] at this
          exact hp.pos.ne' this
        obtain ⟨i, h3, h4, h5⟩ := hsem.roots _ (hp.der 1 le_rfl) h2 x h1
        exact hx ((hcolsmem x).2 ⟨i, h3, h4, h5⟩)
    set L := N.toList with hL
    have hLlen : L.length = n' - n := by
      rw [hL, Multiset.length_toList, hNcard, hn']; omega
    have hLnodup : L.Nodup := by
      rw [← Multiset.coe_nodup, hL, Multiset.coe_toList]; exact hNnodup
    have hLmem : ∀ x, x ∈ L ↔ (P φ p).eval x = 0 ∧ x ∉ cols := by
      intro x
      rw [hL, Multiset.mem_toList, hN, Multiset.mem_filter, hM, mem_roots hP, IsRoot.def]
    set r' : ℕ → K := fun i => if i < n then r i else L.getD (i - n) 0 with hr'
    have hr'old : ∀ i < n, r' i = r i := by intro i hi; simp [hr', hi]
    have hr'new : ∀ i, (hi0 : n ≤ i) → (hi : i < n') → r' i = L[i - n]'(by omega) := by
      intro i h1 h2
      have h3 : ¬ i < n := by omega
      simp only [hr', h3, if_false]
      rw [List.getD_eq_getElem?_getD, List.getElem?_eq_getElem (by omega)]
      rfl
    have hr'newmem : ∀ i, n ≤ i → i < n' → r' i ∈ L := by
      intro i h1 h2
      rw [hr'new i h1 h2]; exact List.getElem_mem _
    have hnewroot : ∀ i, n ≤ i → i < n' → (P φ p).eval (r' i) = 0 ∧ ∀ q ∈ keys D, P φ q ≠ 0 →
        (P φ q).eval (r' i) ≠ 0 := by
      intro i h1 h2
      have h3 := (hLmem _).1 (hr'newmem i h1 h2)
      refine ⟨h3.1, fun q hq hq0 hx => h3.2 ?_⟩
      exact (hcolsmem _).2 (hsem.roots q hq hq0 _ hx)
    refine ⟨r', ⟨?_, ?_, ?_, ?_, ?_⟩, hr'old⟩
    · intro i j hi1 hi2 hj1 hj2 hij
      by_cases hi : i < n
      · by_cases hj : j < n
        · rw [hr'old i hi, hr'old j hj] at hij
          exact hsem.inj i j hi1 hi hj1 hj hij
        · have h3 := (hLmem _).1 (hr'newmem j (by omega) hj2)
          rw [← hij, hr'old i hi] at h3
          exact absurd ((hcolsmem _).2 ⟨i, hi1, hi, rfl⟩) h3.2
      · by_cases hj : j < n
        · have h3 := (hLmem _).1 (hr'newmem i (by omega) hi2)
          rw [hij, hr'old j hj] at h3
          exact absurd ((hcolsmem _).2 ⟨j, hj1, hj, rfl⟩) h3.2
        · rw [hr'new i (by omega) hi2, hr'new j (by omega) hj2] at hij
          have := (List.Nodup.getElem_inj_iff hLnodup).1 hij
          omega
    · intro q hq i hi
      rcases (h.keys q).1 hq with rfl | hq
      · by_cases hi0 : i = 0
        · subst hi0; right; exact hp0
        · by_cases hin : i < n
          · rw [hval i (by omega) hin]
            exact (colOut_value hs hp hsem (by omega) hin (hcol i (by omega) hin)).1
          · left; exact (hnew i (by omega) hi).1
      · by_cases hin : i < n
        · rw [h.old q hq i hin]; exact hsem.val01 q hq i hin
        · rw [(hnew i (by omega) hi).2 q hq]
          split <;> simp
    · intro q hq
      rcases (h.keys q).1 hq with rfl | hq
      · rw [hp0]
        constructor
        · intro h; exact absurd h (by decide)
        · intro h; exact absurd h hP
      · rw [h.old q hq 0 hn]; exact hsem.col0 q hq
    · intro q hq i hi1 hi
      rcases (h.keys q).1 hq with rfl | hq
      · by_cases hin : i < n
        · rw [hval i (by omega) hin, hr'old i hin]
          exact (colOut_value hs hp hsem hi1 hin (hcol i (by omega) hin)).2
        · rw [(hnew i (by omega) hi).1]
          simp [(hnewroot i (by omega) hi).1]
      · by_cases hin : i < n
        · rw [h.old q hq i hin, hr'old i hin]; exact hsem.col q hq i hi1 hin
        · rw [(hnew i (by omega) hi).2 q hq]
          by_cases hq0 : P φ q = 0
          · rw [if_pos ((hsem.col0 q hq).2 hq0), hq0]; simp
          · rw [if_neg fun h' => hq0 ((hsem.col0 q hq).1 h')]
            constructor
            · intro h; exact absurd h (by decide)
            · intro h'; exact absurd h' ((hnewroot i (by omega) hi).2 q hq hq0)
    · intro q hq hq0 x hx
      have hle := h.le
      rcases (h.keys q).1 hq with rfl | hq
      · by_cases hxc : x ∈ cols
        · obtain ⟨i, h1, h2, h3⟩ := (hcolsmem x).1 hxc
          exact ⟨i, h1, by omega, by rw [hr'old i h2, h3]⟩
        · obtain ⟨j, hj, hjx⟩ := List.getElem_of_mem ((hLmem x).2 ⟨hx, hxc⟩)
          refine ⟨n + j, by omega, by omega, ?_⟩
          rw [hr'new (n + j) (by omega) (by omega), ← hjx]
          congr 1; omega
      · obtain ⟨i, h1, h2, h3⟩ := hsem.roots q hq hq0 x hx
        exact ⟨i, h1, by omega, by rw [hr'old i h2, h3]⟩

end Verif.Qe
