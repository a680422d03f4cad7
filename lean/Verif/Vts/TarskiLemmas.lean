import Verif.Vts.PolyLemmas
import Verif.Alg.Sturm

/-! Helper lemmas: pseudo-remainders, remainder sequences, Tarski queries. -/

set_option linter.unusedSectionVars false

open Polynomial Verif.Alg

namespace Verif.Vts

variable {R : Type} [CommRing R] [LinearOrder R] {K : Type} [Field K] [LinearOrder K]
  [IsStrictOrderedRing K] {φ : R →+* K}

theorem getD_dropLast (l : List R) (i : ℕ) :
    l.dropLast.getD i 0 = if i < l.length - 1 then l.getD i 0 else 0 := by
  split
  · rename_i h
    have h2 : i < l.length := by omega
    simp [List.getD, h, List.getElem?_eq_getElem h2]
  · rename_i h
    exact getD_eq_zero_of_le (by simp; omega)

theorem denote_dropLast {l : List R} (h : l.getD (l.length - 1) 0 = 0) :
    denote φ l.dropLast = denote φ l := by
  rw [denote_eq_iff]
  intro i
  rw [coeff_denote, getD_dropLast]
  split
  · rfl
  · rename_i hi
    by_cases h2 : i = l.length - 1
    · rw [h2, h]
    · rw [getD_eq_zero_of_le (l := l) (by omega)]

theorem getD_pad (k : ℕ) (g : List R) (i : ℕ) :
    (List.replicate k (0 : R) ++ g).getD i 0 = if k ≤ i then g.getD (i - k) 0 else 0 := by
  simp only [List.getD, List.getElem?_append, List.length_replicate]
  by_cases h : i < k
  · rw [if_pos h, if_neg (by omega)]; simp [h]
  · rw [if_neg h, if_pos (by omega)]

/-- `subtracted` in the pseudo-remainder. -/
theorem denote_subtracted (f g : List R) (a b : R) (hlen : g.length ≤ f.length) :
    denote φ (List.zipWith (fun c1 c2 => c1 * a - c2 * b) f
      (List.replicate (f.length - g.length) (0 : R) ++ g))
    = C (φ a) * denote φ f - C (φ b) * X ^ (f.length - g.length) * denote φ g := by
  rw [denote_eq_iff]
  intro i
  rw [mul_assoc, coeff_sub, coeff_C_mul, coeff_C_mul, coeff_X_pow_mul', coeff_denote, coeff_denote]
  have hpad := getD_pad (f.length - g.length) g i
  by_cases hi : i < f.length
  · have h2 : i < (List.replicate (f.length - g.length) (0 : R) ++ g).length := by simp; omega
    have e : (List.zipWith (fun c1 c2 => c1 * a - c2 * b) f
      (List.replicate (f.length - g.length) (0 : R) ++ g)).getD i 0
      = f.getD i 0 * a - (List.replicate (f.length - g.length) (0 : R) ++ g).getD i 0 * b := by
      simp [List.getD, List.getElem?_zipWith, List.getElem?_eq_getElem hi,
        List.getElem?_eq_getElem h2]
    rw [e, hpad]
    split <;> simp [mul_comm]
  · rw [getD_eq_zero_of_le (by simp; omega), getD_eq_zero_of_le (l := f) (by omega)]
    split
    · rw [getD_eq_zero_of_le (l := g) (by omega)]; simp
    · simp

/-- Specification of `signed_pseudo_remainder`. -/
theorem signedPseudoRemainder_spec (hφ : StrictMono φ) (f g : List R) (hg : Normalized g) :
    ∃ r, signedPseudoRemainder f g = .ok r ∧ (r = [] ∨ Normalized r) ∧
      ∃ (c : R) (a : K[X]), 0 < c ∧ C (φ c) * denote φ f = a * denote φ g + denote φ r := by
  have hone : (0 : R) < 1 := by
    apply hφ.lt_iff_lt.1; simp
  have hmul : ∀ a b : R, 0 < a → 0 < b → 0 < a * b := by
    intro a b ha hb
    apply hφ.lt_iff_lt.1
    rw [map_mul, map_zero]
    have h1 := hφ ha; have h2 := hφ hb
    rw [map_zero] at h1 h2
    positivity
  have hneg : ∀ a : R, a < 0 → 0 < -a := by
    intro a ha
    apply hφ.lt_iff_lt.1
    have := hφ ha
    rw [map_zero] at this
    rw [map_neg, map_zero]; linarith
  induction hn : f.length using Nat.strong_induction_on generalizing f with
  | _ n ih =>
    rw [signedPseudoRemainder]
    split
    · rename_i hf
      rw [List.getLast?_eq_none_iff] at hf
      subst hf
      exact ⟨[], rfl, Or.inl rfl, 1, 0, hone, by simp⟩
    · rename_i lcf hf
      have hne : f ≠ [] := by rintro rfl; simp at hf
      have hpos := List.length_pos_iff.2 hne
      have hlcf : f.getD (f.length - 1) 0 = lcf := by
        rw [getLast?_eq_getD hne] at hf; simpa using hf
      obtain ⟨lcg, hlg, hlg0⟩ := hg
      have hgne : g ≠ [] := by rintro rfl; simp at hlg
      have hlcg : g.getD (g.length - 1) 0 = lcg := by
        rw [getLast?_eq_getD hgne] at hlg; simpa using hlg
      rw [hlg]
      simp only
      split
      · rename_i h0
        obtain ⟨r, h1, h2, c, a, h3, h4⟩ := ih _ (by simp; omega) f.dropLast rfl
        refine ⟨r, h1, h2, c, a, h3, ?_⟩
        rwa [denote_dropLast (by rw [hlcf, h0])] at h4
      · rename_i h0
        split
        · rename_i hlt
          exact ⟨f, rfl, Or.inr ⟨lcf, hf, h0⟩, 1, 0, hone, by simp⟩
        · rename_i hlt
          set lcg' := if lcg < 0 then -lcg else lcg with hlcg'
          set lcf' := if lcg < 0 then -lcf else lcf with hlcf'
          have hlg'pos : 0 < lcg' := by
            rw [hlcg']; split
            · rename_i h; exact hneg _ h
            · rename_i h; exact lt_of_le_of_ne (not_lt.1 h) (Ne.symm hlg0)
          have hcross : lcf * lcg' - lcg * lcf' = 0 := by
            rw [hlcg', hlcf']; split <;> ring
          clear_value lcg' lcf'
          set s := List.zipWith (fun c1 c2 => c1 * lcg' - c2 * lcf') f
            (List.replicate (f.length - g.length) (0 : R) ++ g) with hs
          have hslen : s.length = f.length := by simp [hs]; omega
          have hden : denote φ s = _ := denote_subtracted f g lcg' lcf' (by omega)
          have hlast : s.getD (s.length - 1) 0 = 0 := by
            have h1 : (f.length - 1) < f.length := by omega
            have h2 : f.length - 1 < (List.replicate (f.length - g.length) (0 : R) ++ g).length := by
              simp; omega
            have e : s.getD (f.length - 1) 0
              = f.getD (f.length - 1) 0 * lcg' -
                (List.replicate (f.length - g.length) (0 : R) ++ g).getD (f.length - 1) 0 * lcf' := by
              rw [hs]
              simp [List.getD, List.getElem?_zipWith, List.getElem?_eq_getElem h1,
                List.getElem?_eq_getElem h2]
            have hgpos := List.length_pos_iff.2 hgne
            rw [hslen, e, getD_pad, if_pos (by omega), hlcf,
              show f.length - 1 - (f.length - g.length) = g.length - 1 by omega, hlcg, hcross]
          obtain ⟨r, h1, h2, c, a, h3, h4⟩ := ih _ (by simp [hslen]; omega) s.dropLast rfl
          refine ⟨r, h1, h2, c * lcg', a + C (φ c) * C (φ lcf') * X ^ (f.length - g.length),
            hmul _ _ h3 hlg'pos, ?_⟩
          rw [denote_dropLast hlast, hden] at h4
          rw [map_mul, C_mul]
          linear_combination h4

/-- `signed_remainder_sequence` of nonzero polynomials is a signed remainder sequence. -/
theorem signedRemainderSequence_spec (hφ : StrictMono φ) (p q : List R) (hp : Normalized p)
    (hq : Normalized q) :
    ∃ l, signedRemainderSequence p q = .ok (p :: q :: l) ∧ (∀ f ∈ p :: q :: l, Normalized f) ∧
      SRS ((p :: q :: l).map (denote φ)) := by
  have hpos : ∀ c : R, 0 < c → 0 < φ c := fun c hc => by simpa using hφ hc
  induction hn : q.length using Nat.strong_induction_on generalizing p q with
  | _ n ih =>
    obtain ⟨r, h1, h2, c, a, h3, h4⟩ := signedPseudoRemainder_spec (φ := φ) hφ p q hq
    have hlen := signedPseudoRemainder_length p q r h1
    rw [signedRemainderSequence]
    split
    · rename_i e he; rw [h1] at he; simp at he
    · rename_i rem he
      rw [h1] at he
      simp only [Except.ok.injEq] at he
      subst he
      split
      · rename_i hr
        refine ⟨[], rfl, ?_, ?_⟩
        · intro f hf; simp at hf; rcases hf with rfl | rfl <;> assumption
        · refine SRS.last _ _ a (φ c) (hpos c h3) (denote_ne_zero hφ.injective hp)
            (denote_ne_zero hφ.injective hq) ?_
          rw [h4, hr]; simp
      · rename_i hr
        have hrn : Normalized r := h2.resolve_left hr
        have hneg : Normalized (r.map fun c => -c) := by
          obtain ⟨c, hc1, hc2⟩ := hrn
          exact ⟨-c, by rw [List.getLast?_map, hc1]; rfl, by simpa using hc2⟩
        have hnd : denote φ (r.map fun c => -c) = - denote φ r := by
          rw [denote_eq_iff]; intro i
          rw [coeff_neg, coeff_denote, ← map_neg]
          congr 1
          simp only [List.getD, List.getElem?_map]
          cases r[i]? <;> simp
        obtain ⟨l, e1, e2, e3⟩ := ih (r.length) (by have := hlen.resolve_left hr; omega) q _ hq hneg
          (by simp)
        rw [e1]
        refine ⟨_, rfl, ?_, ?_⟩
        · intro f hf
          rcases List.mem_cons.1 hf with rfl | hf
          · exact hp
          · exact e2 f hf
        · simp only [List.map_cons] at e3 ⊢
          refine SRS.step _ _ _ a _ (φ c) (hpos c h3) (denote_ne_zero hφ.injective hp) ?_ e3
          rw [h4, hnd]; ring

theorem sg_map (hφ : StrictMono φ) (c : R) :
    sg (φ c) = if c < 0 then -1 else if c > 0 then 1 else 0 := by
  rw [sg_eq_ite]
  have h0 : φ 0 = 0 := map_zero φ
  simp only [← h0, hφ.lt_iff_lt, gt_iff_lt]

theorem countChanges_cons_cons (a b : R) (l : List R) :
    countChanges (a :: b :: l) = (if a * b < 0 then 1 else 0) + countChanges (b :: l) := by
  simp only [countChanges, List.dropLast_cons_cons, List.tail_cons, List.zipWith_cons_cons,
    List.filter_cons]
  cases l with
  | nil => simp; split <;> rfl
  | cons c l =>
    simp only [decide_eq_true_eq]
    split
    · simp only [List.length_cons]; omega
    · omega

/-- The list function of `countChanges` counts twice the variation. -/
theorem two_mul_countChanges (hφ : StrictMono φ) (v : List R → R)
    (l : List (List R)) (hv : ∀ f ∈ l, v f ≠ 0) :
    (2 * (countChanges (l.map v) : ℤ)) =
      (List.zipWith (fun f g => 1 - sg (φ (v f)) * sg (φ (v g))) l l.tail).sum := by
  induction l with
  | nil => simp [countChanges]
  | cons f l ih =>
    cases l with
    | nil => simp [countChanges]
    | cons g l =>
      have ih := ih (fun f hf => hv f (List.mem_cons_of_mem _ hf))
      simp only [List.map_cons] at ih ⊢
      rw [countChanges_cons_cons]
      simp only [List.tail_cons, List.zipWith_cons_cons, List.sum_cons] at ih ⊢
      rw [← ih, ← sg_mul, ← map_mul, sg_map hφ]
      have h1 : v f ≠ 0 := hv f (by simp)
      have h2 : v g ≠ 0 := hv g (by simp)
      have hne : v f * v g ≠ 0 := by
        intro h0
        have := congrArg φ h0
        rw [map_mul, map_zero, mul_eq_zero] at this
        rcases this with h | h
        · exact h1 (hφ.injective (by rw [h, map_zero]))
        · exact h2 (hφ.injective (by rw [h, map_zero]))
      push_cast
      by_cases h : v f * v g < 0
      · rw [if_pos h, if_pos h]; ring
      · rw [if_neg h, if_neg h, if_pos (lt_of_le_of_ne (not_lt.1 h) (Ne.symm hne))]; ring

theorem var2_eq_sum (l : List K[X]) : var2 l =
    (List.zipWith (fun f g => sgTop f * sgTop g - sgBot f * sgBot g) l l.tail).sum := by
  induction l with
  | nil => simp [var2]
  | cons f l ih =>
    cases l with
    | nil => simp [var2]
    | cons g l =>
      rw [var2, ih]
      simp [sgTop_mul, sgBot_mul]

theorem mapM_ok {α β : Type} {f : α → Except Err β} {g : α → β} (l : List α)
    (h : ∀ a ∈ l, f a = .ok (g a)) : l.mapM f = .ok (l.map g) := by
  induction l with
  | nil => rfl
  | cons a l ih =>
    rw [List.mapM_cons, h a (by simp), ih (fun b hb => h b (List.mem_cons_of_mem _ hb))]
    rfl

/-- `signed_remainder_cauchy_index` computes the variation difference. -/
theorem cauchyIndex_spec (hφ : StrictMono φ) (p q : List R) (hp : Normalized p)
    (hq : Normalized q) :
    ∃ n, cauchyIndex p q = .ok n ∧ ∃ l, SRS (denote φ p :: denote φ q :: l) ∧
      2 * n = var2 (denote φ p :: denote φ q :: l) := by
  obtain ⟨l, h1, h2, h3⟩ := signedRemainderSequence_spec (φ := φ) hφ p q hp hq
  have hlast : ∀ f ∈ p :: q :: l, lastE f = .ok (f.getD (f.length - 1) 0) := by
    intro f hf
    rw [lastE, getLast?_eq_getD (normalized_ne_nil (h2 f hf))]
  set L := p :: q :: l with hL
  have hn0 : ∀ f ∈ L, f.getD (f.length - 1) 0 * (-1) ^ ((f.length - 1) % 2) ≠ 0 := by
    intro f hf h0
    have h4 := (normalized_iff.1 (h2 f hf)).2
    rcases Nat.mod_two_eq_zero_or_one (f.length - 1) with h | h <;> rw [h] at h0 <;> simp at h0 <;>
      exact h4 (by simpa [List.getD] using h0)
  have hp0 : ∀ f ∈ L, f.getD (f.length - 1) 0 ≠ 0 := fun f hf => (normalized_iff.1 (h2 f hf)).2
  have hneg : L.mapM (fun p => do
      let c ← lastE p
      pure (c * (-1) ^ ((p.length - 1) % 2)))
      = .ok (L.map fun f => f.getD (f.length - 1) 0 * (-1) ^ ((f.length - 1) % 2)) := by
    apply mapM_ok
    intro f hf
    rw [hlast f hf]; rfl
  have hposm : L.mapM lastE = .ok (L.map fun f => f.getD (f.length - 1) 0) := mapM_ok _ hlast
  have hf1 : (L.map fun f => f.getD (f.length - 1) 0 * (-1) ^ ((f.length - 1) % 2)).filter
      (fun c => decide (c ≠ 0)) =
      L.map fun f => f.getD (f.length - 1) 0 * (-1) ^ ((f.length - 1) % 2) := by
    rw [List.filter_eq_self]
    intro a ha
    obtain ⟨f, hf, rfl⟩ := List.mem_map.1 ha
    simpa only [decide_eq_true_eq] using hn0 f hf
  have hf2 : (L.map fun f => f.getD (f.length - 1) 0).filter
      (fun c => decide (c ≠ 0)) = L.map fun f => f.getD (f.length - 1) 0 := by
    rw [List.filter_eq_self]
    intro a ha
    obtain ⟨f, hf, rfl⟩ := List.mem_map.1 ha
    simpa only [decide_eq_true_eq] using hp0 f hf
  refine ⟨((countChanges (L.map fun f => f.getD (f.length - 1) 0 * (-1) ^ ((f.length - 1) % 2)) : ℕ) : ℤ)
    - (countChanges (L.map fun f => f.getD (f.length - 1) 0) : ℕ), ?_, l.map (denote φ), ?_, ?_⟩
  · rw [cauchyIndex, if_neg (normalized_ne_nil hq), h1]
    change (L.mapM _ >>= fun negInf => L.mapM lastE >>= fun posInf => _) = _
    rw [hneg, hposm]
    change Except.ok _ = _
    rw [hf1, hf2]
  · simpa [hL] using h3
  · have e1 := two_mul_countChanges (K := K) hφ
      (fun f => f.getD (f.length - 1) 0 * (-1) ^ ((f.length - 1) % 2)) L hn0
    have e2 := two_mul_countChanges (K := K) hφ
      (fun f => f.getD (f.length - 1) 0) L hp0
    rw [mul_sub, e1, e2]
    have e3 : denote φ p :: denote φ q :: l.map (denote φ) = L.map (denote φ) := by simp [hL]
    rw [e3, var2_eq_sum]
    have hb : ∀ f ∈ L, sgBot (denote φ f)
        = sg (φ (f.getD (f.length - 1) 0 * (-1) ^ ((f.length - 1) % 2))) := by
      intro f hf
      rw [sgBot, leadingCoeff_denote hφ.injective (h2 f hf), natDegree_denote hφ.injective (h2 f hf),
        map_mul, sg_mul, map_pow, map_neg, map_one, sg_pow, sg_neg, sg_one]
      congr 1
      conv_lhs => rw [← Nat.div_add_mod (f.length - 1) 2, pow_add, pow_mul]
      simp
    have ht : ∀ f ∈ L, sgTop (denote φ f) = sg (φ (f.getD (f.length - 1) 0)) := by
      intro f hf
      rw [sgTop, leadingCoeff_denote hφ.injective (h2 f hf)]
    clear_value L
    clear h1 h3 hn0 hp0 hneg hposm hf1 hf2 e1 e2 e3 hlast hL
    induction L with
    | nil => simp
    | cons f L ih =>
      cases L with
      | nil => simp
      | cons g L =>
        have ih := ih (fun f hf => h2 f (List.mem_cons_of_mem _ hf))
          (fun f hf => hb f (List.mem_cons_of_mem _ hf))
          (fun f hf => ht f (List.mem_cons_of_mem _ hf))
        simp only [List.map_cons, List.tail_cons, List.zipWith_cons_cons, List.sum_cons] at ih ⊢
        rw [← ih, hb f (by simp), hb g (by simp), ht f (by simp), ht g (by simp)]
        ring

/-- Stripping zeros. -/
theorem signedPseudoRemainder_zeros (f g : List R) (hf : ∀ c ∈ f, c = 0) (hg : g ≠ []) :
    signedPseudoRemainder f g = .ok [] := by
  induction hn : f.length using Nat.strong_induction_on generalizing f with
  | _ n ih =>
    rw [signedPseudoRemainder]
    split
    · rfl
    · rename_i lcf hlf
      have hne : f ≠ [] := by rintro rfl; simp at hlf
      have hpos := List.length_pos_iff.2 hne
      rw [List.getLast?_eq_some_getLast hg]
      simp only
      rw [if_pos (hf lcf (List.mem_of_getLast? hlf))]
      exact ih _ (by simp; omega) _ (fun c hc => hf c (List.mem_of_mem_dropLast hc)) rfl

/-- Division by a list of zeros that is not longer than the dividend. -/
theorem signedPseudoRemainder_by_zeros (f g : List R) (hg : ∀ c ∈ g, c = 0) (hgne : g ≠ [])
    (hlen : g.length ≤ f.length) (hf : Normalized f) : signedPseudoRemainder f g = .ok [] := by
  rw [signedPseudoRemainder]
  split
  · rfl
  · rename_i lcf hlf
    have hl0 : lcf ≠ 0 := by
      obtain ⟨c, h1, h2⟩ := hf; rw [hlf] at h1; simp at h1; rw [h1]; exact h2
    rw [List.getLast?_eq_some_getLast hgne]
    have h0 : g.getLast hgne = 0 := hg _ (List.getLast_mem hgne)
    simp only [h0]
    rw [if_neg hl0, if_neg (by omega)]
    apply signedPseudoRemainder_zeros _ _ _ hgne
    intro c hc
    have hc := List.mem_of_mem_dropLast hc
    obtain ⟨i, hi, rfl⟩ := List.mem_iff_getElem.1 hc
    rw [List.getElem_zipWith]
    have : ∀ x ∈ List.replicate (f.length - g.length) (0 : R) ++ g, x = 0 := by
      intro x hx
      rcases List.mem_append.1 hx with hx | hx
      · exact List.eq_of_mem_replicate hx
      · exact hg x hx
    rw [this _ (List.getElem_mem _)]; simp

theorem cauchyIndex_zeros (hφ : StrictMono φ) (p q : List R) (hp : Normalized p)
    (hq : ∀ c ∈ q, c = 0) : cauchyIndex p q = .ok 0 := by
  unfold cauchyIndex
  split
  · rfl
  rename_i hne
  have hlastp : lastE p = .ok (p.getD (p.length - 1) 0) := by
    rw [lastE, getLast?_eq_getD (normalized_ne_nil hp)]
  have hlastq : lastE q = .ok 0 := by
    rw [lastE, List.getLast?_eq_some_getLast hne, hq _ (List.getLast_mem hne)]
  have hpn : (p.map fun c => -c) ≠ [] := by simpa using normalized_ne_nil hp
  have hlastn : lastE (p.map fun c => -c) = .ok (-(p.getD (p.length - 1) 0)) := by
    rw [lastE, List.getLast?_map, getLast?_eq_getD (normalized_ne_nil hp)]; rfl
  have h4 := (normalized_iff.1 hp).2
  by_cases hlen : q.length ≤ p.length
  · have hseq : signedRemainderSequence p q = .ok [p, q] := by
      rw [signedRemainderSequence]
      have := signedPseudoRemainder_by_zeros p q hq hne hlen hp
      split
      · rename_i e he; rw [this] at he; simp at he
      · rename_i rem he
        rw [this] at he; simp only [Except.ok.injEq] at he
        rw [dif_pos he.symm]
    rw [hseq]
    simp only [bind, Except.bind, List.mapM_cons, List.mapM_nil, hlastp, hlastq, pure, Except.pure]
    simp only [zero_mul, List.filter_cons, ne_eq, not_true_eq_false, decide_false, List.filter_nil,
      Bool.false_eq_true, if_false]
    congr 1
    split <;> split <;> simp [countChanges]
  · have hseq : signedRemainderSequence p q = .ok [p, q, p.map fun c => -c] := by
      rw [signedRemainderSequence]
      have : signedPseudoRemainder p q = .ok p := by
        rw [signedPseudoRemainder]
        split
        · rename_i hl; rw [List.getLast?_eq_none_iff] at hl
          exact absurd hl (normalized_ne_nil hp)
        · rename_i lcf hlf
          rw [List.getLast?_eq_some_getLast hne]
          have hl0 : lcf ≠ 0 := by
            obtain ⟨c, h1, h2⟩ := hp; rw [hlf] at h1; simp at h1; rw [h1]; exact h2
          simp only
          rw [if_neg hl0, if_pos (by omega)]
      split
      · rename_i e he; rw [this] at he; simp at he
      · rename_i rem he
        rw [this] at he; simp only [Except.ok.injEq] at he
        subst he
        rw [dif_neg (normalized_ne_nil hp)]
        have h2 : signedRemainderSequence q (p.map fun c => -c) = .ok [q, p.map fun c => -c] := by
          rw [signedRemainderSequence]
          have := signedPseudoRemainder_zeros q (p.map fun c => -c) hq hpn
          split
          · rename_i e he; rw [this] at he; simp at he
          · rename_i rem he
            rw [this] at he; simp only [Except.ok.injEq] at he
            rw [dif_pos he.symm]
        rw [h2]
    rw [hseq]
    simp only [bind, Except.bind, List.mapM_cons, List.mapM_nil, hlastp, hlastq, hlastn, pure,
      Except.pure, List.length_map]
    generalize p.getD (p.length - 1) 0 = c at *
    have hneg : -c ≠ 0 := neg_ne_zero.2 h4
    have key : ∀ d : R, d ≠ 0 → countChanges [d, -d] = 1 := by
      intro d hd
      have : d * -d < 0 := by
        apply hφ.lt_iff_lt.1
        have : φ d ≠ 0 := fun h => hd (hφ.injective (by rw [h, map_zero]))
        rw [map_mul, map_neg, map_zero]
        have := mul_self_pos.2 this
        linarith
      simp only [countChanges, List.dropLast_cons_cons, List.dropLast_singleton, List.tail_cons,
        List.zipWith_cons_cons, List.zipWith_nil_right, List.filter_cons, this, decide_true, if_true]
      rfl
    have hk : ∀ n : ℕ, c * (-1) ^ n ≠ 0 ∧ -c * (-1) ^ n = -(c * (-1) ^ n) := by
      intro n
      refine ⟨?_, by ring⟩
      rcases neg_one_pow_eq_or R n with h | h <;> rw [h] <;> simpa using h4
    obtain ⟨k1, k2⟩ := hk ((p.length - 1) % 2)
    rw [k2]
    generalize c * (-1) ^ ((p.length - 1) % 2) = d at *
    have hd : -d ≠ 0 := neg_ne_zero.2 k1
    have f1 : List.filter (fun c => decide (c ≠ 0)) [d, 0 * (-1) ^ ((q.length - 1) % 2), -d] = [d, -d] := by
      simp [k1]
    have f2 : List.filter (fun c => decide (c ≠ 0)) [c, 0, -c] = [c, -c] := by
      simp [h4]
    rw [f1, f2, key d k1, key c h4]; simp

theorem tarskiQuery_spec [PolyIVT K] (hφ : StrictMono φ) (p q : List R) (hp : Normalized p)
    (hp2 : 2 ≤ p.length) (hq : Normalized q) :
    tarskiQuery p q = .ok (∑ x ∈ (denote φ p).roots.toFinset, sg ((denote φ q).eval x)) := by
  have hd : Normalized (derivative p) := by
    refine (normalized_derivative hφ.injective hp).resolve_left ?_
    intro h
    have := length_derivative p
    rw [h] at this; simp at this; omega
  obtain ⟨n, h1, l, h2, h3⟩ := cauchyIndex_spec (φ := φ) hφ p (multiply (derivative p) q) hp
    (normalized_multiply hφ.injective hd hq)
  rw [tarskiQuery, h1]
  rw [denote_multiply, denote_derivative] at h2 h3
  rw [sturm_tarski h2] at h3
  congr 1
  omega

theorem denote_eq_zero_iff (hφ : StrictMono φ) {q : List R} :
    denote φ q = 0 ↔ ∀ c ∈ q, c = 0 := by
  rw [denote_eq_iff]
  constructor
  · intro h c hc
    obtain ⟨i, hi, rfl⟩ := List.mem_iff_getElem.1 hc
    have := h i
    rw [List.getD, List.getElem?_eq_getElem hi] at this
    exact hφ.injective (by simpa using this)
  · intro h i
    by_cases hi : i < q.length
    · rw [List.getD, List.getElem?_eq_getElem hi]
      simp [h _ (List.getElem_mem hi)]
    · rw [getD_eq_zero_of_le (by omega)]; simp

theorem tarskiQuery_zero (hφ : StrictMono φ) (p q : List R) (hp : Normalized p)
    (hq : ∀ c ∈ q, c = 0) : tarskiQuery p q = .ok 0 := by
  apply cauchyIndex_zeros hφ _ _ hp
  rw [← denote_eq_zero_iff hφ, denote_multiply, (denote_eq_zero_iff hφ).2 hq, mul_zero]

end Verif.Vts
