import Verif.Vts.PropsAux
import Mathlib.Data.Nat.Fib.Basic

/-!
# Sizes of the numbers in remainder sequences
-/

set_option linter.unusedSectionVars false

open Polynomial Verif.Alg

namespace Verif.Vts

/-! ### A lower bound by divisibility -/

theorem subtracted_dvd {f g : List ℤ} {a b c d x y : ℤ} (hx : c ∣ x) (hy : d ∣ y) (k : ℕ)
    (hf : ∀ e ∈ f, a ∣ e) (hg : ∀ e ∈ g, b ∣ e) :
    ∀ e ∈ List.zipWith (fun c1 c2 => c1 * x - c2 * y) f (List.replicate k (0 : ℤ) ++ g),
      (∀ m, m ∣ a * c → m ∣ b * d → m ∣ e) := by
  intro e he m h1 h2
  obtain ⟨i, hi, rfl⟩ := List.getElem_of_mem he
  rw [List.getElem_zipWith]
  refine dvd_sub ?_ ?_
  · exact h1.trans (mul_dvd_mul (hf _ (List.getElem_mem _)) hx)
  · refine h2.trans ?_
    have : (List.replicate k (0 : ℤ) ++ g)[i]'(by simp at hi ⊢; omega) ∈ List.replicate k (0 : ℤ) ++ g :=
      List.getElem_mem _
    rcases List.mem_append.1 this with h | h
    · rw [(List.mem_replicate.1 h).2, zero_mul]; exact dvd_zero _
    · exact mul_dvd_mul (hg _ h) hy

theorem getLast?_mem' {α : Type*} {l : List α} {x : α} (h : l.getLast? = some x) : x ∈ l := by
  exact List.mem_of_getLast? h

/-- The remainder keeps common divisors of the dividend. -/
theorem spr_dvd {a : ℤ} (g : List ℤ) : ∀ (n : ℕ) (f r : List ℤ), f.length = n → (∀ c ∈ f, a ∣ c) →
    signedPseudoRemainder f g = .ok r → ∀ c ∈ r, a ∣ c := by
  intro n
  induction n using Nat.strong_induction_on with
  | _ n ih =>
    intro f r hn hf h
    rw [signedPseudoRemainder] at h
    split at h
    · cases h; simp
    · next lcf hl =>
      have hne : f ≠ [] := by rintro rfl; simp at hl
      have hpos := List.length_pos_iff.2 hne
      split at h
      · cases h
      · next lcg hg =>
        split at h
        · exact ih _ (by rw [List.length_dropLast]; omega) _ _ rfl
            (fun c hc => hf c (List.dropLast_subset _ hc)) h
        · simp only at h
          split at h
          · cases h; exact hf
          · refine ih _ (by simp; omega) _ _ rfl ?_ h
            intro c hc
            have ha : a ∣ (if lcg < 0 then -lcf else lcf) := by
              have := hf _ (getLast?_mem' hl)
              split
              · exact this.neg_right
              · exact this
            exact subtracted_dvd (one_dvd _) ha _ hf (fun e _ => one_dvd e) c (List.dropLast_subset _ hc)
              a (by simp) (by simp)

/-- At least one step of the division multiplies by the divisor's leading coefficient. -/
theorem spr_mul_dvd {a b : ℤ} {f g r : List ℤ} (hf : ∀ c ∈ f, a ∣ c) (hg : ∀ c ∈ g, b ∣ c)
    (hn : Normalized f) (hlen : g.length ≤ f.length) (h : signedPseudoRemainder f g = .ok r) :
    ∀ c ∈ r, a * b ∣ c := by
  rw [signedPseudoRemainder] at h
  obtain ⟨x, hx, hx0⟩ := hn
  split at h
  · cases h; simp
  · next lcf hl =>
    rw [hl] at hx
    cases hx
    split at h
    · cases h
    · next lcg hlg =>
      rw [if_neg hx0] at h
      simp only at h
      rw [if_neg (by omega)] at h
      refine spr_dvd g _ _ _ rfl ?_ h
      intro c hc
      have ha : a ∣ (if lcg < 0 then -x else x) := by
        have := hf _ (getLast?_mem' hl)
        split
        · exact this.neg_right
        · exact this
      have hb : b ∣ (if lcg < 0 then -lcg else lcg) := by
        have := hg _ (getLast?_mem' hlg)
        split
        · exact this.neg_right
        · exact this
      exact subtracted_dvd hb ha _ hf hg c (List.dropLast_subset _ hc) _ dvd_rfl (by rw [mul_comm])

theorem spr_normalized {R : Type} [CommRing R] [LinearOrder R] (g : List R) : ∀ (n : ℕ) (f r : List R), f.length = n →
    signedPseudoRemainder f g = .ok r → r = [] ∨ Normalized r := by
  intro n
  induction n using Nat.strong_induction_on with
  | _ n ih =>
    intro f r hn h
    rw [signedPseudoRemainder] at h
    split at h
    · cases h; exact Or.inl rfl
    · next lcf hl =>
      have hne : f ≠ [] := by rintro rfl; simp at hl
      have hpos := List.length_pos_iff.2 hne
      split at h
      · cases h
      · split at h
        · exact ih _ (by rw [List.length_dropLast]; omega) _ _ rfl h
        · next h0 =>
          simp only at h
          split at h
          · cases h; exact Or.inr ⟨lcf, hl, h0⟩
          · exact ih _ (by simp; omega) _ _ rfl h

theorem srs_cases {R : Type} [CommRing R] [LinearOrder R] {p q : List R} {S : List (List R)}
    (h : signedRemainderSequence p q = .ok S) :
    ∃ r, signedPseudoRemainder p q = .ok r ∧ ((r = [] ∧ S = [p, q]) ∨
      (r ≠ [] ∧ ∃ S', signedRemainderSequence q (r.map fun c => -c) = .ok S' ∧ S = p :: S')) := by
  rw [signedRemainderSequence] at h
  split at h
  · cases h
  · next rem hr =>
    refine ⟨rem, hr, ?_⟩
    split at h
    · next h0 => cases h; exact Or.inl ⟨h0, rfl⟩
    · next h0 =>
      split at h
      · cases h
      · next S' hS => cases h; exact Or.inr ⟨h0, S', hS, rfl⟩

/-- The exponents grow like the Fibonacci numbers. -/
theorem srs_dvd : ∀ (n : ℕ) (p q : List ℤ) (S : List (List ℤ)) (k : ℕ), q.length = n →
    signedRemainderSequence p q = .ok S → Normalized p → Normalized q → q.length ≤ p.length →
    (∀ c ∈ p, (2 : ℤ) ^ Nat.fib k ∣ c) → (∀ c ∈ q, (2 : ℤ) ^ Nat.fib (k + 1) ∣ c) →
    ∀ i f, S[i]? = some f → Normalized f ∧ ∀ c ∈ f, (2 : ℤ) ^ Nat.fib (k + i) ∣ c := by
  intro n
  induction n using Nat.strong_induction_on with
  | _ n ih =>
    intro p q S k hn h hp hq hl hp2 hq2 i f hi
    obtain ⟨r, hr, ⟨h0, rfl⟩ | ⟨h0, S', hS', rfl⟩⟩ := srs_cases h
    · match i, hi with
      | 0, hi => cases hi; exact ⟨hp, hp2⟩
      | 1, hi => cases hi; exact ⟨hq, hq2⟩
    · match i, hi with
      | 0, hi => cases hi; exact ⟨hp, hp2⟩
      | i + 1, hi =>
        have hlen := (signedPseudoRemainder_length _ _ _ hr).resolve_left h0
        have hrn := (spr_normalized q _ _ _ rfl hr).resolve_left h0
        have hdiv : ∀ c ∈ r.map (fun c => -c), (2 : ℤ) ^ Nat.fib (k + 1 + 1) ∣ c := by
          intro c hc
          obtain ⟨d, hd, rfl⟩ := List.mem_map.1 hc
          rw [show k + 1 + 1 = k + 2 from rfl, Nat.fib_add_two, pow_add]
          exact (spr_mul_dvd hp2 hq2 hp hl hr d hd).neg_right
        have := ih _ (by rw [List.length_map]; omega) q (r.map fun c => -c) S' (k + 1) rfl hS' hq
          (normalized_neg hrn) (by rw [List.length_map]; omega) hq2 hdiv i f (by simpa using hi)
        rw [show k + (i + 1) = k + 1 + i by omega]
        exact this

/-! ### The length of the sequence -/

theorem mapM_length {α β : Type} {f : α → Except Err β} : ∀ {l : List α} {m : List β}, l.mapM f = .ok m →
    m.length = l.length
  | [], m, h => by cases h; rfl
  | a :: l, m, h => by
    rw [List.mapM_cons] at h
    cases ha : f a with
    | error e => rw [ha] at h; cases h
    | ok b =>
      cases hl : l.mapM f with
      | error e => rw [ha, hl] at h; cases h
      | ok m' =>
        rw [ha, hl] at h
        cases h
        simp [mapM_length hl]

theorem countChanges_le {R : Type} [CommRing R] [LinearOrder R] (l : List R) : countChanges l ≤ l.length - 1 := by
  unfold countChanges
  refine (List.length_filter_le _ _).trans ?_
  simp

/-- The index is smaller than the length of the sequence. -/
theorem cauchyIndex_lt {R : Type} [CommRing R] [LinearOrder R] {p q : List R} {n : ℤ} (h : cauchyIndex p q = .ok n)
    (hn : 0 < n) : ∃ S, signedRemainderSequence p q = .ok S ∧ n < S.length := by
  unfold cauchyIndex at h
  split at h
  · cases h; exact absurd hn (lt_irrefl _)
  · cases hS : signedRemainderSequence p q with
    | error e => rw [hS] at h; cases h
    | ok S =>
      refine ⟨S, rfl, ?_⟩
      rw [hS] at h
      simp only [bind, Except.bind] at h
      split at h
      · cases h
      · next m hm =>
        split at h
        · cases h
        · next m' hm' =>
          cases h
          have h1 := countChanges_le (m.filter fun c => decide (c ≠ 0))
          have h2 := List.length_filter_le (fun c => decide (c ≠ 0)) m
          have h3 := mapM_length hm
          omega

/-! ### An upper bound -/

theorem subtracted_le {f g : List ℤ} {A B x y : ℤ} (hx : |x| ≤ B) (hy : |y| ≤ A) (k : ℕ)
    (hf : ∀ e ∈ f, |e| ≤ A) (hg : ∀ e ∈ g, |e| ≤ B) :
    ∀ e ∈ List.zipWith (fun c1 c2 => c1 * x - c2 * y) f (List.replicate k (0 : ℤ) ++ g), |e| ≤ A * (2 * B) := by
  have hA : 0 ≤ A := (abs_nonneg _).trans hy
  have hB : 0 ≤ B := (abs_nonneg _).trans hx
  intro e he
  obtain ⟨i, hi, rfl⟩ := List.getElem_of_mem he
  rw [List.getElem_zipWith]
  refine (abs_sub _ _).trans ?_
  rw [abs_mul, abs_mul]
  have h1 : |f[i]'(by simp at hi; omega)| * |x| ≤ A * B :=
    mul_le_mul (hf _ (List.getElem_mem _)) hx (abs_nonneg _) hA
  have h2 : |(List.replicate k (0 : ℤ) ++ g)[i]'(by simp at hi ⊢; omega)| * |y| ≤ B * A := by
    refine mul_le_mul ?_ hy (abs_nonneg _) hB
    have : (List.replicate k (0 : ℤ) ++ g)[i]'(by simp at hi ⊢; omega) ∈ List.replicate k (0 : ℤ) ++ g :=
      List.getElem_mem _
    rcases List.mem_append.1 this with h | h
    · rw [(List.mem_replicate.1 h).2, abs_zero]; exact hB
    · exact hg _ h
  linarith

theorem spr_le {B : ℤ} (hB : 1 ≤ B) {g : List ℤ} (hg : ∀ c ∈ g, |c| ≤ B) : ∀ (n : ℕ) (f r : List ℤ) (A : ℤ), f.length = n →
    0 ≤ A → (∀ c ∈ f, |c| ≤ A) → signedPseudoRemainder f g = .ok r →
    ∀ c ∈ r, |c| ≤ A * (2 * B) ^ (n + 1 - g.length) := by
  intro n
  induction n using Nat.strong_induction_on with
  | _ n ih =>
    intro f r A hn hA hf h
    rw [signedPseudoRemainder] at h
    split at h
    · cases h; simp
    · next lcf hl =>
      have hne : f ≠ [] := by rintro rfl; simp at hl
      have hpos := List.length_pos_iff.2 hne
      split at h
      · cases h
      · next lcg hlg =>
        split at h
        · intro c hc
          have := ih (n - 1) (by omega) f.dropLast r A (by rw [List.length_dropLast]; omega) hA
            (fun c hc => hf c (List.dropLast_subset _ hc)) h c hc
          refine this.trans (mul_le_mul_of_nonneg_left ?_ hA)
          exact pow_le_pow_right₀ (by linarith) (by omega)
        · simp only at h
          split at h
          · next hlt =>
            cases h
            intro c hc
            rw [show n + 1 - g.length = 0 by omega, pow_zero, mul_one]
            exact hf c hc
          · next hlt =>
            intro c hc
            have hx : |(if lcg < 0 then -lcg else lcg)| ≤ B := by
              have := hg _ (getLast?_mem' hlg)
              split
              · rw [abs_neg]; exact this
              · exact this
            have hy : |(if lcg < 0 then -lcf else lcf)| ≤ A := by
              have := hf _ (getLast?_mem' hl)
              split
              · rw [abs_neg]; exact this
              · exact this
            have := ih (n - 1) (by omega) _ r (A * (2 * B)) (by simp; omega) (by positivity)
              (fun c hc => subtracted_le hx hy _ hf hg c (List.dropLast_subset _ hc)) h c hc
            refine this.trans (le_of_eq ?_)
            rw [mul_assoc, ← pow_succ']
            congr 2
            omega

theorem add_two_le_pow (d : ℕ) (hd : 1 ≤ d) : d + 2 ≤ 3 ^ d := by
  induction d with
  | zero => omega
  | succ d ih =>
    rcases Nat.eq_zero_or_pos d with rfl | h
    · norm_num
    · have := ih h
      rw [pow_succ]; omega

/-- A step in terms of digits. -/
theorem spr_bits {p q r : List ℤ} {m : ℕ} (hp : ∀ c ∈ p, |c| ≤ 2 ^ m) (hq : ∀ c ∈ q, |c| ≤ 2 ^ m)
    (h : signedPseudoRemainder p q = .ok r) : ∀ c ∈ r, |c| ≤ 2 ^ ((p.length + 1 - q.length + 1) * (m + 1) - 1) := by
  intro c hc
  refine (spr_le (B := 2 ^ m) (one_le_pow₀ (by norm_num)) hq _ p r (2 ^ m) rfl (by positivity) hp h c hc).trans ?_
  rw [← pow_succ', ← pow_mul, ← pow_add]
  refine pow_le_pow_right₀ (by norm_num) ?_
  have : (p.length + 1 - q.length + 1) * (m + 1) = (m + 1) * (p.length + 1 - q.length) + m + 1 := by ring
  omega

theorem srs_le : ∀ (n : ℕ) (p q : List ℤ) (S : List (List ℤ)) (m : ℕ), q.length = n →
    signedRemainderSequence p q = .ok S → q.length < p.length →
    (∀ c ∈ p, |c| ≤ 2 ^ m) → (∀ c ∈ q, |c| ≤ 2 ^ m) →
    S.length ≤ q.length + 2 ∧ ∀ f ∈ S, f.length ≤ p.length ∧ ∀ c ∈ f, |c| ≤ 2 ^ (3 ^ p.length * (m + 1)) := by
  intro n
  induction n using Nat.strong_induction_on with
  | _ n ih =>
    intro p q S m hn h hl hp hq
    have hm : m ≤ 3 ^ p.length * (m + 1) := by nlinarith [Nat.one_le_pow p.length 3 (by norm_num)]
    have hmono : ∀ c : ℤ, |c| ≤ 2 ^ m → |c| ≤ 2 ^ (3 ^ p.length * (m + 1)) :=
      fun c hc => hc.trans (pow_le_pow_right₀ (by norm_num) hm)
    obtain ⟨r, hr, ⟨h0, rfl⟩ | ⟨h0, S', hS', rfl⟩⟩ := srs_cases h
    · refine ⟨by simp, ?_⟩
      intro f hf
      simp only [List.mem_cons, List.not_mem_nil, or_false] at hf
      rcases hf with rfl | rfl
      · exact ⟨le_rfl, fun c hc => hmono c (hp c hc)⟩
      · exact ⟨hl.le, fun c hc => hmono c (hq c hc)⟩
    · have hlen := (signedPseudoRemainder_length _ _ _ hr).resolve_left h0
      set k := p.length + 1 - q.length + 1 with hk
      have hk1 : 1 ≤ k * (m + 1) := Nat.one_le_iff_ne_zero.2 (by positivity)
      have hkm : m + 1 ≤ k * (m + 1) := Nat.le_mul_of_pos_left _ (by omega)
      have hrb := spr_bits hp hq hr
      obtain ⟨i1, i2⟩ := ih r.length (by omega) q (r.map fun c => -c) S' (k * (m + 1) - 1) (by simp) hS'
        (by rw [List.length_map]; exact hlen)
        (fun c hc => (hq c hc).trans (pow_le_pow_right₀ (by norm_num) (by omega)))
        (fun c hc => by
          obtain ⟨d, hd, rfl⟩ := List.mem_map.1 hc
          rw [abs_neg]; exact hrb d hd)
      rw [List.length_map] at i1
      refine ⟨by simp; omega, ?_⟩
      intro f hf
      rcases List.mem_cons.1 hf with rfl | hf
      · exact ⟨le_rfl, fun c hc => hmono c (hp c hc)⟩
      · obtain ⟨j1, j2⟩ := i2 f hf
        refine ⟨by omega, fun c hc => (j2 c hc).trans (pow_le_pow_right₀ (by norm_num) ?_)⟩
        rw [Nat.sub_add_cancel hk1, ← mul_assoc]
        refine Nat.mul_le_mul_right _ ?_
        have e : p.length = q.length + (p.length - q.length) := by omega
        have := add_two_le_pow (p.length - q.length) (by omega)
        calc 3 ^ q.length * k ≤ 3 ^ q.length * 3 ^ (p.length - q.length) := Nat.mul_le_mul_left _ (by omega)
          _ = 3 ^ p.length := by rw [← pow_add, ← e]

theorem srs_le_all (p q : List ℤ) (S : List (List ℤ)) (m : ℕ)
    (h : signedRemainderSequence p q = .ok S) (hp : ∀ c ∈ p, |c| ≤ 2 ^ m) (hq : ∀ c ∈ q, |c| ≤ 2 ^ m) :
    S.length ≤ min p.length q.length + 3 ∧ ∀ f ∈ S, f.length ≤ max p.length q.length ∧
      ∀ c ∈ f, |c| ≤ 2 ^ (2 * 3 ^ max p.length q.length * (m + 1)) := by
  have h3 : ∀ l : ℕ, 1 ≤ 3 ^ l := fun l => Nat.one_le_pow l 3 (by norm_num)
  by_cases hlt : q.length < p.length
  · obtain ⟨i1, i2⟩ := srs_le _ p q S m rfl h hlt hp hq
    rw [max_eq_left hlt.le, min_eq_right hlt.le]
    refine ⟨by omega, fun f hf => ⟨(i2 f hf).1, fun c hc => ((i2 f hf).2 c hc).trans ?_⟩⟩
    refine pow_le_pow_right₀ (by norm_num) (Nat.mul_le_mul_right _ (by omega))
  · push Not at hlt
    rw [max_eq_right hlt, min_eq_left hlt]
    have hm : m ≤ 2 * 3 ^ q.length * (m + 1) := by nlinarith [h3 q.length]
    have hmono : ∀ c : ℤ, |c| ≤ 2 ^ m → |c| ≤ 2 ^ (2 * 3 ^ q.length * (m + 1)) :=
      fun c hc => hc.trans (pow_le_pow_right₀ (by norm_num) hm)
    obtain ⟨r, hr, ⟨h0, rfl⟩ | ⟨h0, S', hS', rfl⟩⟩ := srs_cases h
    · refine ⟨by simp, ?_⟩
      intro f hf
      simp only [List.mem_cons, List.not_mem_nil, or_false] at hf
      rcases hf with rfl | rfl
      · exact ⟨hlt, fun c hc => hmono c (hp c hc)⟩
      · exact ⟨le_rfl, fun c hc => hmono c (hq c hc)⟩
    · have hlen := (signedPseudoRemainder_length _ _ _ hr).resolve_left h0
      have hrb := spr_bits hp hq hr
      have hrl : r.length ≤ p.length := by
        have : ∀ (n : ℕ) (f r : List ℤ), f.length = n → signedPseudoRemainder f q = .ok r → r.length ≤ n := by
          intro n
          induction n using Nat.strong_induction_on with
          | _ n ih =>
            intro f r hn h
            rw [signedPseudoRemainder] at h
            split at h
            · cases h; simp
            · next lcf hl =>
              have hne : f ≠ [] := by rintro rfl; simp at hl
              have hpos := List.length_pos_iff.2 hne
              split at h
              · cases h
              · split at h
                · have := ih (n - 1) (by omega) _ _ (by rw [List.length_dropLast]; omega) h
                  omega
                · simp only at h
                  split at h
                  · cases h; omega
                  · have := ih (n - 1) (by omega) _ _ (by simp; omega) h
                    omega
        exact this _ _ _ rfl hr
      have hk : p.length + 1 - q.length + 1 ≤ 2 := by omega
      obtain ⟨i1, i2⟩ := srs_le _ q (r.map fun c => -c) S' (2 * (m + 1) - 1) rfl hS'
        (by rw [List.length_map]; exact hlen)
        (fun c hc => (hq c hc).trans (pow_le_pow_right₀ (by norm_num) (by omega)))
        (fun c hc => by
          obtain ⟨d, hd, rfl⟩ := List.mem_map.1 hc
          rw [abs_neg]
          exact (hrb d hd).trans (pow_le_pow_right₀ (by norm_num) (Nat.sub_le_sub_right (Nat.mul_le_mul_right _ hk) 1)))
      rw [List.length_map] at i1
      refine ⟨by simp; omega, ?_⟩
      intro f hf
      rcases List.mem_cons.1 hf with rfl | hf
      · exact ⟨hlt, fun c hc => hmono c (hp c hc)⟩
      · obtain ⟨j1, j2⟩ := i2 f hf
        refine ⟨j1, fun c hc => (j2 c hc).trans (pow_le_pow_right₀ (by norm_num) ?_)⟩
        rw [Nat.sub_add_cancel (by omega)]
        exact le_of_eq (by ring)

end Verif.Vts
