import Verif.Qe.PolyModel
import Mathlib.Algebra.Polynomial.Derivative
import Mathlib.Algebra.Polynomial.EraseLead
import Mathlib.Algebra.Polynomial.RingDivision
import Mathlib.Tactic.Ring
import Mathlib.Tactic.LinearCombination

/-!
# The polynomial operations of the model and Mathlib's polynomials
-/

set_option linter.unusedSectionVars false

open Polynomial

namespace Verif.Qe

variable {R : Type} [CommRing R] [DecidableEq R]

/-- The polynomial with the given coefficients (index = power). -/
noncomputable def toPoly : List R → R[X]
  | [] => 0
  | c :: l => C c + X * toPoly l

@[simp] theorem toPoly_nil : toPoly ([] : List R) = 0 := rfl
@[simp] theorem toPoly_cons (c : R) (l : List R) : toPoly (c :: l) = C c + X * toPoly l := rfl

theorem toPoly_strip (l : List R) : toPoly (strip l) = toPoly l := by
  induction l with
  | nil => rfl
  | cons c l ih =>
    unfold strip
    split
    · rename_i h
      rw [h] at ih
      split
      · rename_i hc; simp [← ih, hc]
      · simp [← ih]
    · rename_i a l' h
      rw [h] at ih
      rw [toPoly_cons, ih, toPoly_cons]

theorem coeff_toPoly (l : List R) (i : ℕ) : (toPoly l).coeff i = l.getD i 0 := by
  induction l generalizing i with
  | nil => simp
  | cons c l ih =>
    cases i with
    | zero => simp
    | succ i => simp [coeff_C_succ, coeff_X_mul, ih]

/-- canonical: no trailing zero -/
def Canon (p : List R) : Prop := strip p = p

theorem strip_canon (l : List R) : Canon (strip l) := by
  unfold Canon
  induction l with
  | nil => rfl
  | cons c l ih =>
    cases h : strip l with
    | nil =>
      by_cases hc : c = 0
      · simp [strip, h, hc]
      · simp [strip, h, hc]
    | cons a l' =>
      rw [h] at ih
      have h2 : strip (c :: l) = c :: a :: l' := by simp [strip, h]
      rw [h2, strip, ih]

theorem canon_nil : Canon ([] : List R) := rfl

theorem canon_cons {c : R} {l : List R} (h : Canon (c :: l)) : Canon l := by
  unfold Canon at h ⊢
  unfold strip at h
  split at h
  · rename_i h'
    split at h
    · simp at h
    · simp at h; subst h; rfl
  · rename_i a l' h'
    simp at h
    rw [h'] at *
    exact h

theorem canon_singleton (c : R) (h : c ≠ 0) : Canon [c] := by simp [Canon, strip, h]

theorem canon_lc {p : List R} (h : Canon p) (hp : p ≠ []) : lc p ≠ 0 := by
  induction p with
  | nil => simp at hp
  | cons c l ih =>
    cases l with
    | nil =>
      simp only [lc, List.getLastD_cons, List.getLastD_nil]
      rintro rfl
      simp [Canon, strip] at h
    | cons a l =>
      have := ih (canon_cons h) (by simp)
      simpa [lc, List.getLastD_cons] using this

theorem strip_length_le (l : List R) : (strip l).length ≤ l.length := by
  induction l with
  | nil => simp [strip]
  | cons c l ih =>
    unfold strip
    split
    · split <;> simp
    · rename_i a l' h
      rw [h] at ih
      simpa using ih

theorem canon_inj {p q : List R} (hp : Canon p) (hq : Canon q) (h : toPoly p = toPoly q) : p = q := by
  have h1 : ∀ l : List R, toPoly l = 0 → strip l = [] := by
    intro l
    induction l with
    | nil => intro _; rfl
    | cons c l ih =>
      intro h0
      have hc : c = 0 := by
        have := congrArg (fun p => p.coeff 0) h0
        simpa using this
      have hl : toPoly l = 0 := by
        ext i
        have := congrArg (fun p => p.coeff (i + 1)) h0
        simpa [coeff_C_succ, coeff_X_mul] using this
      unfold strip
      rw [ih hl]
      simp [hc]
  induction p generalizing q with
  | nil =>
    have := h1 q h.symm
    rw [hq] at this
    exact this.symm
  | cons c p ih =>
    cases q with
    | nil =>
      have := h1 (c :: p) h
      rw [hp] at this
      exact this
    | cons d q =>
      have hc : c = d := by
        have := congrArg (fun p => p.coeff 0) h
        simpa using this
      have hl : toPoly p = toPoly q := by
        ext i
        have := congrArg (fun p => p.coeff (i + 1)) h
        simpa [coeff_C_succ, coeff_X_mul] using this
      rw [hc, ih (canon_cons hp) (canon_cons hq) hl]

theorem toPoly_eq_zero {p : List R} (hp : Canon p) : toPoly p = 0 ↔ p = [] :=
  ⟨fun h => canon_inj hp canon_nil h, fun h => by rw [h]; rfl⟩

theorem lc_eq_coeff (p : List R) : lc p = (toPoly p).coeff (p.length - 1) := by
  rw [coeff_toPoly]
  induction p with
  | nil => rfl
  | cons c l ih =>
    cases l with
    | nil => rfl
    | cons a l =>
      simpa [lc, List.getLastD_cons] using ih

theorem natDegree_le_length (p : List R) : (toPoly p).natDegree ≤ p.length - 1 := by
  rw [natDegree_le_iff_coeff_eq_zero]
  intro N hN
  rw [coeff_toPoly]
  have : p.length ≤ N := by omega
  simp [List.getD, this]

theorem natDegree_toPoly {p : List R} (h : Canon p) : (toPoly p).natDegree = deg p := by
  by_cases hp : p = []
  · subst hp; simp [deg]
  · apply le_antisymm (natDegree_le_length p)
    apply le_natDegree_of_ne_zero
    have := canon_lc h hp
    rw [lc_eq_coeff] at this
    exact this

theorem leadingCoeff_toPoly {p : List R} (h : Canon p) : (toPoly p).leadingCoeff = lc p := by
  rw [leadingCoeff, natDegree_toPoly h, lc_eq_coeff]; rfl

theorem toPoly_derAux (n : ℕ) (l : List R) :
    toPoly (derAux n l) = X * Polynomial.derivative (toPoly l) + C (n : R) * toPoly l := by
  induction l generalizing n with
  | nil => simp [derAux]
  | cons c l ih =>
    simp only [derAux, toPoly_cons, ih, derivative_add, derivative_C, derivative_mul, derivative_X, C_mul]
    push_cast
    simp only [C_add, C_1]
    ring

theorem toPoly_derivative (p : List R) : toPoly (derivative p) = Polynomial.derivative (toPoly p) := by
  unfold derivative
  rw [toPoly_strip]
  cases p with
  | nil => simp [derAux]
  | cons c l =>
    rw [List.tail_cons, toPoly_derAux]
    simp
    ring

theorem derivative_canon (p : List R) : Canon (derivative p) := strip_canon _

theorem derAux_length (n : ℕ) (l : List R) : (derAux n l).length = l.length := by
  induction l generalizing n with
  | nil => rfl
  | cons c l ih => simp [derAux, ih]

theorem derivative_length (p : List R) : (derivative p).length ≤ p.length - 1 := by
  unfold derivative
  refine (strip_length_le _).trans ?_
  rw [derAux_length]; simp

theorem pTail_canon (p : List R) : Canon (pTail p) := strip_canon _

theorem pTail_length (p : List R) : (pTail p).length ≤ p.length - 1 := by
  unfold pTail
  refine (strip_length_le _).trans ?_
  simp

theorem toPoly_append (l m : List R) : toPoly (l ++ m) = toPoly l + X ^ l.length * toPoly m := by
  induction l with
  | nil => simp
  | cons c l ih =>
    simp only [List.cons_append, toPoly_cons, ih, List.length_cons]
    ring

/-- a polynomial is its tail plus its leading term -/
theorem toPoly_pTail (p : List R) (hp : p ≠ []) :
    toPoly p = toPoly (pTail p) + C (lc p) * X ^ deg p := by
  unfold pTail
  rw [toPoly_strip]
  conv_lhs => rw [← List.dropLast_append_getLast hp]
  rw [toPoly_append]
  have : lc p = p.getLast hp := by
    unfold lc
    rw [List.getLastD_eq_getLast?, List.getLast?_eq_some_getLast hp]; rfl
  simp [this, deg]

theorem toPoly_map_mul (c : R) (l : List R) : toPoly (l.map (c * ·)) = C c * toPoly l := by
  induction l with
  | nil => simp
  | cons a l ih =>
    simp only [List.map_cons, toPoly_cons, ih, C_mul]
    ring

theorem toPoly_neg (l : List R) : toPoly (l.map fun c => -c) = - toPoly l := by
  induction l with
  | nil => simp
  | cons a l ih =>
    simp only [List.map_cons, toPoly_cons, ih, C_neg]
    ring

theorem toPoly_lsub (l m : List R) : toPoly (lsub l m) = toPoly l - toPoly m := by
  induction l generalizing m with
  | nil =>
    cases m with
    | nil => simp [lsub]
    | cons b m => simp only [lsub, toPoly_neg]; simp
  | cons a l ih =>
    cases m with
    | nil => simp [lsub]
    | cons b m =>
      simp only [lsub, toPoly_cons, ih, C_sub]
      ring

theorem toPoly_replicate (j : ℕ) (l : List R) : toPoly (List.replicate j 0 ++ l) = X ^ j * toPoly l := by
  rw [toPoly_append]
  have : toPoly (List.replicate j (0 : R)) = 0 := by
    induction j with
    | zero => rfl
    | succ j ih => rw [List.replicate_succ, toPoly_cons, ih]; simp
  rw [this]; simp

theorem map_mul_canon [IsDomain R] (c : R) (hc : c ≠ 0) {l : List R} (h : Canon l) :
    Canon (l.map (c * ·)) := by
  induction l with
  | nil => rfl
  | cons a l ih =>
    have ih := ih (canon_cons h)
    unfold Canon at ih ⊢
    rw [List.map_cons]
    unfold strip
    rw [ih]
    cases l with
    | nil =>
      have : a ≠ 0 := by rintro rfl; simp [Canon, strip] at h
      simp [hc, this]
    | cons b l => simp

/-- one step of pseudo-division -/
theorem pdiv_step_length [IsDomain R] {g r : List R} (hg : g ≠ [])
    (hlen : g.length ≤ r.length) :
    (strip (lsub (r.map (lc g * ·))
      (List.replicate (r.length - g.length) 0 ++ g.map (lc r * ·)))).length < r.length := by
  set s := strip (lsub (r.map (lc g * ·))
      (List.replicate (r.length - g.length) 0 ++ g.map (lc r * ·))) with hs
  have hglen : 0 < g.length := List.length_pos_iff.2 hg
  have hp : toPoly s = C (lc g) * toPoly r - X ^ (r.length - g.length) * (C (lc r) * toPoly g) := by
    rw [hs, toPoly_strip, toPoly_lsub, toPoly_replicate, toPoly_map_mul, toPoly_map_mul]
  by_contra hcon
  push Not at hcon
  have hsc : Canon s := strip_canon _
  have hsne : s ≠ [] := by
    intro h; rw [h] at hcon; simp at hcon; subst hcon; simp at hlen; exact hg hlen
  have hlc := canon_lc hsc hsne
  rw [lc_eq_coeff, hp, coeff_sub, coeff_C_mul, coeff_X_pow_mul', coeff_C_mul] at hlc
  apply hlc
  have h1 : (toPoly r).coeff (s.length - 1) = if s.length = r.length then lc r else 0 := by
    split
    · rename_i h; rw [h, ← lc_eq_coeff]
    · rw [coeff_toPoly]
      have : r.length ≤ s.length - 1 := by omega
      simp [List.getD, this]
  have h2 : (toPoly g).coeff (s.length - 1 - (r.length - g.length)) =
      if s.length = r.length then lc g else 0 := by
    split
    · rename_i h
      rw [h, lc_eq_coeff]
      congr 1; omega
    · rw [coeff_toPoly]
      have : g.length ≤ s.length - 1 - (r.length - g.length) := by omega
      simp [List.getD, this]
  rw [h1, h2]
  by_cases hsr : s.length = r.length
  · rw [if_pos hsr, if_pos hsr, if_pos (by omega)]
    ring
  · rw [if_neg hsr, if_neg hsr]
    simp

theorem pdivLoop_spec [IsDomain R] {g : List R} (hg : g ≠ []) (hgc : Canon g) :
    ∀ (n : ℕ) (r : List R), g.length ≤ r.length → r.length < n + g.length →
    ∃ s, pdivLoop g n r = .ok s ∧ Canon s ∧ s.length < g.length ∧
      ∃ Q, C (lc g ^ n) * toPoly r = Q * toPoly g + toPoly s := by
  intro n
  induction n with
  | zero => intro r h1 h2; omega
  | succ n ih =>
    intro r h1 h2
    unfold pdivLoop
    simp only
    set s := strip (lsub (r.map (lc g * ·))
      (List.replicate (r.length - g.length) 0 ++ g.map (lc r * ·))) with hs
    have hp : toPoly s = C (lc g) * toPoly r - X ^ (r.length - g.length) * (C (lc r) * toPoly g) := by
      rw [hs, toPoly_strip, toPoly_lsub, toPoly_replicate, toPoly_map_mul, toPoly_map_mul]
    have hslen : s.length < r.length := pdiv_step_length hg h1
    have hlcg := canon_lc hgc hg
    by_cases hlt : s.length < g.length
    · rw [if_pos hlt]
      refine ⟨_, rfl, map_mul_canon _ (pow_ne_zero _ hlcg) (strip_canon _), by simpa using hlt, ?_⟩
      refine ⟨C (lc g ^ n) * (X ^ (r.length - g.length) * C (lc r)), ?_⟩
      rw [toPoly_map_mul, hp, pow_succ, C_mul]
      ring
    · rw [if_neg hlt, if_pos hslen]
      obtain ⟨t, h3, h4, h5, Q, h6⟩ := ih s (by omega) (by omega)
      refine ⟨t, h3, h4, h5, Q + C (lc g ^ n) * (X ^ (r.length - g.length) * C (lc r)), ?_⟩
      rw [hp] at h6
      rw [pow_succ, C_mul]
      linear_combination h6

/-- Pseudo-remainder. -/
theorem pseudoRem_spec [IsDomain R] {f g : List R} (hg : g ≠ []) (hgc : Canon g)
    (hfc : Canon f) : ∃ s, pseudoRem f g = .ok s ∧ Canon s ∧ s.length < g.length ∧
      ∃ Q, C (lc g ^ (f.length - g.length + 1)) * toPoly f = Q * toPoly g + toPoly s ∨
        (f.length < g.length ∧ s = f) := by
  unfold pseudoRem
  rw [if_neg hg]
  by_cases hlt : f.length < g.length
  · rw [if_pos hlt]
    exact ⟨f, rfl, hfc, hlt, 0, Or.inr ⟨hlt, rfl⟩⟩
  · rw [if_neg hlt]
    obtain ⟨s, h1, h2, h3, Q, h4⟩ := pdivLoop_spec hg hgc (f.length - g.length + 1) f (by omega)
      (by omega)
    exact ⟨s, h1, h2, h3, Q, Or.inl h4⟩

theorem pseudoRem_ge [IsDomain R] {f g : List R} (hg : g ≠ []) (hgc : Canon g)
    (hfc : Canon f) (hlen : g.length ≤ f.length) : ∃ s, pseudoRem f g = .ok s ∧ Canon s ∧
      s.length < g.length ∧
      ∃ Q, C (lc g ^ (deg f - deg g + 1)) * toPoly f = Q * toPoly g + toPoly s := by
  obtain ⟨s, h1, h2, h3, Q, h4⟩ := pseudoRem_spec hg hgc hfc
  rcases h4 with h4 | h4
  · refine ⟨s, h1, h2, h3, Q, ?_⟩
    have : deg f - deg g + 1 = f.length - g.length + 1 := by
      have := List.length_pos_iff.2 hg
      unfold deg; omega
    rw [this]; exact h4
  · omega

theorem lcRow_canon (p : List R) : Canon (lcRow p) := strip_canon _

theorem toPoly_lcRow (p : List R) : toPoly (lcRow p) = C (lc p * (fac (deg p) : R)) := by
  unfold lcRow
  rw [toPoly_strip]; simp

theorem fac_eq (n : ℕ) : fac n = n.factorial := by
  induction n with
  | zero => rfl
  | succ n ih => rw [fac, ih, Nat.factorial_succ]

/-- The last derivative is the row of the leading coefficient. -/
theorem iterate_derivative_lcRow {p : List R} (hp : Canon p) :
    derivative^[deg p] p = lcRow p := by
  by_cases h : deg p = 0
  · rw [h]
    cases p with
    | nil => rw [Function.iterate_zero, id]; simp [lcRow, lc, strip]
    | cons c l =>
      have : l = [] := by
        unfold deg at h; simpa using h
      subst this
      have hc : c ≠ 0 := by rintro rfl; simp [Canon, strip] at hp
      simp [lcRow, lc, deg, fac, strip, hc]
  · have hcanon : ∀ n, Canon (derivative^[n] p) := by
      intro n
      cases n with
      | zero => exact hp
      | succ n => rw [Function.iterate_succ_apply']; exact derivative_canon _
    refine canon_inj (hcanon _) (lcRow_canon p) ?_
    have hiter : ∀ n, toPoly (derivative^[n] p) = Polynomial.derivative^[n] (toPoly p) := by
      intro n
      induction n with
      | zero => rfl
      | succ n ih =>
        rw [Function.iterate_succ_apply', Function.iterate_succ_apply', toPoly_derivative, ih]
    rw [hiter, toPoly_lcRow]
    have hnat := natDegree_toPoly hp
    have h0 : (Polynomial.derivative^[deg p] (toPoly p)).natDegree ≤ 0 := by
      have := natDegree_iterate_derivative (toPoly p) (deg p)
      rw [hnat] at this
      simpa using this
    rw [eq_C_of_natDegree_le_zero h0]
    congr 1
    rw [coeff_iterate_derivative]
    simp only [zero_add]
    rw [Nat.descFactorial_self, ← leadingCoeff_toPoly hp, leadingCoeff, hnat, fac_eq, nsmul_eq_mul,
      mul_comm]

end Verif.Qe
