import Mathlib.Algebra.Polynomial.Roots
import Mathlib.Algebra.Polynomial.FieldDivision
import Mathlib.Algebra.Order.Field.Basic
import Mathlib.Data.Sign.Basic
import Mathlib.Data.Sign.Defs
import Mathlib.Topology.Algebra.Polynomial
import Mathlib.Topology.Order.IntermediateValue
import Mathlib.Topology.Instances.Real.Lemmas
import Mathlib.Tactic.Linarith
import Mathlib.Tactic.Ring
import Mathlib.Tactic.LinearCombination
import Mathlib.Tactic.FieldSimp
import Mathlib.Tactic.Positivity

/-!
# Polynomials over an ordered field with the intermediate value property

Mathematical background used by the proofs about `vts/uni_vts.py`, `highschool_qe/muchnik.py`
and `highschool_qe/cohenhorm.py` (numbers of the `z3rcf` library are elements of a real closed
field).  Nothing in this file models code of the repository.
-/

set_option linter.unusedSectionVars false

open Polynomial

namespace Verif.Alg

/-- The intermediate value property for polynomials (true in `ℝ` and in every real closed
field). -/
class PolyIVT (K : Type*) [Field K] [LinearOrder K] [IsStrictOrderedRing K] : Prop where
  ivt : ∀ (p : K[X]) (a b : K), a < b → p.eval a < 0 → 0 < p.eval b →
    ∃ c, a < c ∧ c < b ∧ p.eval c = 0

instance : PolyIVT ℝ where
  ivt p a b hab ha hb := by
    have h : Set.Icc (p.eval a) (p.eval b) ⊆ (fun x => p.eval x) '' Set.Icc a b :=
      intermediate_value_Icc hab.le p.continuous.continuousOn
    obtain ⟨c, hc, hc0⟩ := h ⟨ha.le, hb.le⟩
    refine ⟨c, lt_of_le_of_ne hc.1 ?_, lt_of_le_of_ne hc.2 ?_, hc0⟩
    · rintro rfl; simp only at hc0; linarith
    · rintro rfl; simp only at hc0; linarith

section Sign
variable {K : Type*} [Field K] [LinearOrder K] [IsStrictOrderedRing K]

/-- Integer valued sign. -/
def sg (x : K) : ℤ := ((SignType.sign x : SignType) : ℤ)

theorem sg_pos {x : K} (h : 0 < x) : sg x = 1 := by simp [sg, sign_pos h]
theorem sg_neg' {x : K} (h : x < 0) : sg x = -1 := by simp [sg, sign_neg h]
@[simp] theorem sg_zero : sg (0 : K) = 0 := by simp [sg]
@[simp] theorem sg_one : sg (1 : K) = 1 := sg_pos one_pos

theorem sg_cases (x : K) : (x < 0 ∧ sg x = -1) ∨ (x = 0 ∧ sg x = 0) ∨ (0 < x ∧ sg x = 1) := by
  rcases lt_trichotomy x 0 with h | h | h
  · exact Or.inl ⟨h, sg_neg' h⟩
  · exact Or.inr (Or.inl ⟨h, by rw [h, sg_zero]⟩)
  · exact Or.inr (Or.inr ⟨h, sg_pos h⟩)

theorem sg_eq_ite (x : K) : sg x = if x < 0 then -1 else if 0 < x then 1 else 0 := by
  rcases sg_cases x with ⟨h, e⟩ | ⟨h, e⟩ | ⟨h, e⟩
  · rw [e, if_pos h]
  · subst h; simp
  · rw [e, if_neg (not_lt.2 h.le), if_pos h]

theorem sg_mul (x y : K) : sg (x * y) = sg x * sg y := by
  simp only [sg, sign_mul]; exact (SignType.castHom (α := ℤ)).map_mul _ _

theorem sg_pow (x : K) (n : ℕ) : sg (x ^ n) = sg x ^ n := by
  induction n with
  | zero => simp
  | succ n ih => rw [pow_succ, sg_mul, ih, pow_succ]

@[simp] theorem sg_neg (x : K) : sg (-x) = - sg x := by
  rcases lt_trichotomy x 0 with h | h | h
  · rw [sg_neg' h, sg_pos (by linarith)]; norm_num
  · subst h; simp
  · rw [sg_pos h, sg_neg' (by linarith)]

theorem sg_eq_one_iff {x : K} : sg x = 1 ↔ 0 < x := by
  rcases sg_cases x with ⟨h, e⟩ | ⟨h, e⟩ | ⟨h, e⟩ <;> rw [e] <;>
    (constructor <;> intro h' <;> first | omega | linarith)

theorem sg_eq_neg_one_iff {x : K} : sg x = -1 ↔ x < 0 := by
  rcases sg_cases x with ⟨h, e⟩ | ⟨h, e⟩ | ⟨h, e⟩ <;> rw [e]
  · simp [h]
  · subst h; simp
  · constructor
    · intro h'; omega
    · intro h'; linarith

@[simp] theorem sg_eq_zero_iff {x : K} : sg x = 0 ↔ x = 0 := by
  rcases sg_cases x with ⟨h, e⟩ | ⟨h, e⟩ | ⟨h, e⟩ <;> rw [e]
  · simp [h.ne]
  · simp [h]
  · simp [h.ne']

theorem sg_mul_pos {c : K} (hc : 0 < c) (x : K) : sg (c * x) = sg x := by
  rw [sg_mul, sg_pos hc, one_mul]

theorem sg_mul_self {x : K} (hx : x ≠ 0) : sg x * sg x = 1 := by
  rw [← sg_mul, sg_pos (mul_self_pos.2 hx)]

theorem sg_sq_cases (x : K) : sg x = 0 ∨ sg x = 1 ∨ sg x = -1 := by
  rcases sg_cases x with ⟨_, e⟩ | ⟨_, e⟩ | ⟨_, e⟩ <;> simp [e]

theorem sg_eq_sg_iff {x y : K} : sg x = sg y ↔ ((x < 0 ↔ y < 0) ∧ (0 < x ↔ 0 < y)) := by
  constructor
  · intro h
    refine ⟨?_, ?_⟩
    · rw [← sg_eq_neg_one_iff, h, sg_eq_neg_one_iff]
    · rw [← sg_eq_one_iff, h, sg_eq_one_iff]
  · rintro ⟨h1, h2⟩
    simp only [sg_eq_ite, h1, h2]

end Sign

section Gap
variable {K : Type*} [Field K] [LinearOrder K] [IsStrictOrderedRing K]

theorem exists_gap_right (s : Finset K) (a : K) : ∃ b, a < b ∧ ∀ y ∈ s, a < y → b < y := by
  induction s using Finset.induction_on with
  | empty => exact ⟨a + 1, by linarith, by simp⟩
  | insert z s _ ih =>
    obtain ⟨b, hab, hb⟩ := ih
    by_cases hz : a < z
    · refine ⟨min b ((a + z) / 2), lt_min hab (by linarith), ?_⟩
      intro y hy hay
      rcases Finset.mem_insert.1 hy with rfl | hy
      · exact lt_of_le_of_lt (min_le_right _ _) (by linarith)
      · exact lt_of_le_of_lt (min_le_left _ _) (hb y hy hay)
    · refine ⟨b, hab, ?_⟩
      intro y hy hay
      rcases Finset.mem_insert.1 hy with rfl | hy
      · exact absurd hay hz
      · exact hb y hy hay

theorem exists_gap_left (s : Finset K) (a : K) : ∃ b, b < a ∧ ∀ y ∈ s, y < a → y < b := by
  obtain ⟨b, hb, h⟩ := exists_gap_right (s.image Neg.neg) (-a)
  refine ⟨-b, by linarith, fun y hy hya => ?_⟩
  have := h (-y) (Finset.mem_image_of_mem _ hy) (by linarith)
  linarith

theorem exists_above (s : Finset K) : ∃ b, ∀ y ∈ s, y < b := by
  induction s using Finset.induction_on with
  | empty => exact ⟨0, by simp⟩
  | insert z s _ ih =>
    obtain ⟨b, hb⟩ := ih
    refine ⟨max b (z + 1), fun y hy => ?_⟩
    rcases Finset.mem_insert.1 hy with rfl | hy
    · exact lt_of_lt_of_le (by linarith) (le_max_right _ _)
    · exact lt_of_lt_of_le (hb y hy) (le_max_left _ _)

end Gap

section IVT
variable {K : Type*} [Field K] [LinearOrder K] [IsStrictOrderedRing K]

theorem sg_eval_eventually (p : K[X]) : ∃ M : K, ∀ x, M < x → sg (p.eval x) = sg p.leadingCoeff := by
  -- positive leading coefficient: eventually bounded below by a positive constant
  have key : ∀ (n : ℕ) (p : K[X]), p.natDegree = n → 0 < p.leadingCoeff →
      ∃ M d : K, 0 < d ∧ ∀ x, M < x → d ≤ p.eval x := by
    intro n
    induction n with
    | zero =>
      intro p hp hl
      rw [Polynomial.eq_C_of_natDegree_eq_zero hp] at hl ⊢
      simp only [leadingCoeff_C] at hl
      exact ⟨0, _, hl, fun x _ => by simp⟩
    | succ n ih =>
      intro p hp hl
      have hq : p.divX.natDegree = n := by rw [natDegree_divX_eq_natDegree_tsub_one, hp]; rfl
      have hql : 0 < p.divX.leadingCoeff := by
        have h1 : p.divX.leadingCoeff = p.leadingCoeff := by
          rw [leadingCoeff, leadingCoeff, hq, hp, coeff_divX]
        rw [h1]; exact hl
      obtain ⟨M, d, hd, hM⟩ := ih _ hq hql
      refine ⟨max (max M 0) ((1 - p.coeff 0) / d), 1, one_pos, fun x hx => ?_⟩
      have hx1 : M < x := lt_of_le_of_lt ((le_max_left _ _).trans (le_max_left _ _)) hx
      have hx0 : 0 < x := lt_of_le_of_lt ((le_max_right _ _).trans (le_max_left _ _)) hx
      have hx2 : (1 - p.coeff 0) / d < x := lt_of_le_of_lt (le_max_right _ _) hx
      rw [div_lt_iff₀ hd] at hx2
      have e : p.eval x = p.divX.eval x * x + p.coeff 0 := by
        conv_lhs => rw [← divX_mul_X_add p]
        simp
      rw [e]
      have := mul_le_mul_of_nonneg_right (hM x hx1) hx0.le
      nlinarith
  rcases lt_trichotomy p.leadingCoeff 0 with h | h | h
  · obtain ⟨M, d, hd, hM⟩ := key _ (-p) rfl (by rw [leadingCoeff_neg]; linarith)
    refine ⟨M, fun x hx => ?_⟩
    have := hM x hx
    rw [eval_neg] at this
    rw [sg_neg' h, sg_neg' (by linarith)]
  · rw [leadingCoeff_eq_zero] at h
    subst h; exact ⟨0, fun x _ => by simp⟩
  · obtain ⟨M, d, hd, hM⟩ := key _ p rfl h
    exact ⟨M, fun x hx => by rw [sg_pos h, sg_pos (lt_of_lt_of_le hd (hM x hx))]⟩

theorem natDegree_comp_neg_X (p : K[X]) : (p.comp (-X)).natDegree = p.natDegree := by
  rw [natDegree_comp, natDegree_neg, natDegree_X, mul_one]

theorem leadingCoeff_comp_neg_X (p : K[X]) :
    (p.comp (-X)).leadingCoeff = p.leadingCoeff * (-1) ^ p.natDegree := by
  rw [leadingCoeff_comp (by simp)]; simp

/-- sign at `-∞` -/
def sgBot (p : K[X]) : ℤ := sg p.leadingCoeff * (-1) ^ p.natDegree
/-- sign at `+∞` -/
def sgTop (p : K[X]) : ℤ := sg p.leadingCoeff

theorem sgTop_spec (p : K[X]) : ∃ M : K, ∀ x, M < x → sg (p.eval x) = sgTop p :=
  sg_eval_eventually p

theorem sgBot_spec (p : K[X]) : ∃ M : K, ∀ x, x < M → sg (p.eval x) = sgBot p := by
  obtain ⟨M, hM⟩ := sg_eval_eventually (p.comp (-X))
  refine ⟨-M, fun x hx => ?_⟩
  have h := hM (-x) (by linarith)
  rw [eval_comp, leadingCoeff_comp_neg_X, sg_mul, sg_pow] at h
  simpa [sgBot] using h

theorem sgTop_mul (p q : K[X]) : sgTop (p * q) = sgTop p * sgTop q := by
  simp [sgTop, leadingCoeff_mul, sg_mul]

theorem sgBot_mul (p q : K[X]) : sgBot (p * q) = sgBot p * sgBot q := by
  by_cases hp : p = 0
  · simp [sgBot, hp]
  by_cases hq : q = 0
  · simp [sgBot, hq]
  simp only [sgBot, leadingCoeff_mul, sg_mul, natDegree_mul hp hq, pow_add]; ring

variable [PolyIVT K]

theorem exists_root_of_sg_ne {p : K[X]} {a b : K} (hab : a ≤ b)
    (h : sg (p.eval a) ≠ sg (p.eval b)) : ∃ c, a ≤ c ∧ c ≤ b ∧ p.eval c = 0 := by
  rcases sg_cases (p.eval a) with ⟨ha, ea⟩ | ⟨ha, ea⟩ | ⟨ha, ea⟩
  · rcases sg_cases (p.eval b) with ⟨hb, eb⟩ | ⟨hb, eb⟩ | ⟨hb, eb⟩
    · exact absurd (ea.trans eb.symm) h
    · exact ⟨b, hab, le_rfl, hb⟩
    · have hlt : a < b := lt_of_le_of_ne hab (by rintro rfl; exact h rfl)
      obtain ⟨c, h1, h2, h3⟩ := PolyIVT.ivt p a b hlt ha hb
      exact ⟨c, h1.le, h2.le, h3⟩
  · exact ⟨a, le_rfl, hab, ha⟩
  · rcases sg_cases (p.eval b) with ⟨hb, eb⟩ | ⟨hb, eb⟩ | ⟨hb, eb⟩
    · have hlt : a < b := lt_of_le_of_ne hab (by rintro rfl; exact h rfl)
      obtain ⟨c, h1, h2, h3⟩ := PolyIVT.ivt (-p) a b hlt (by simpa using ha) (by simpa using hb)
      exact ⟨c, h1.le, h2.le, by simpa using h3⟩
    · exact ⟨b, hab, le_rfl, hb⟩
    · exact absurd (ea.trans eb.symm) h

/-- No root on a closed interval: constant sign. -/
theorem sg_eq_of_no_root {p : K[X]} {a b : K} (hab : a ≤ b)
    (h : ∀ c, a ≤ c → c ≤ b → p.eval c ≠ 0) : sg (p.eval a) = sg (p.eval b) := by
  by_contra hne
  obtain ⟨c, h1, h2, h3⟩ := exists_root_of_sg_ne hab hne
  exact h c h1 h2 h3

theorem sg_eq_sgTop {p : K[X]} {a : K} (h : ∀ c, a ≤ c → p.eval c ≠ 0) :
    sg (p.eval a) = sgTop p := by
  obtain ⟨M, hM⟩ := sgTop_spec p
  have h1 : a ≤ max a (M + 1) := le_max_left _ _
  rw [← hM (max a (M + 1)) (lt_of_lt_of_le (by linarith) (le_max_right _ _))]
  exact sg_eq_of_no_root h1 fun c hc _ => h c hc

theorem sg_eq_sgBot {p : K[X]} {a : K} (h : ∀ c, c ≤ a → p.eval c ≠ 0) :
    sg (p.eval a) = sgBot p := by
  obtain ⟨M, hM⟩ := sgBot_spec p
  have h1 : min a (M - 1) ≤ a := min_le_left _ _
  rw [← hM (min a (M - 1)) (lt_of_le_of_lt (min_le_right _ _) (by linarith))]
  exact (sg_eq_of_no_root h1 fun c _ hc => h c hc).symm

/-- Rolle's theorem for polynomials. -/
theorem rolle {p : K[X]} (hp : p ≠ 0) {a b : K} (hab : a < b) (ha : p.eval a = 0)
    (hb : p.eval b = 0) : ∃ c, a < c ∧ c < b ∧ p.derivative.eval c = 0 := by
  classical
  -- replace `b` by the next root after `a`
  obtain ⟨b', hab', hb'b, hb', hnext⟩ : ∃ b', a < b' ∧ b' ≤ b ∧ p.eval b' = 0 ∧
      ∀ c, a < c → c < b' → p.eval c ≠ 0 := by
    let s : Finset K := p.roots.toFinset.filter (fun y => a < y)
    have hs : s.Nonempty := ⟨b, by simp [s, hp, hb, hab]⟩
    refine ⟨s.min' hs, ?_, ?_, ?_, ?_⟩
    · have := s.min'_mem hs
      simp only [s, Finset.mem_filter] at this; exact this.2
    · exact s.min'_le _ (by simp [s, hp, hb, hab])
    · have := s.min'_mem hs
      simp only [s, Finset.mem_filter, Multiset.mem_toFinset, mem_roots hp, IsRoot.def] at this
      exact this.1
    · intro c hac hcb hc
      have : s.min' hs ≤ c := s.min'_le _ (by simp [s, hp, hc, hac])
      linarith
  clear hb
  obtain ⟨f, hf⟩ := pow_rootMultiplicity_dvd p a
  set m := rootMultiplicity a p with hm
  have hm0 : 0 < m := (rootMultiplicity_pos hp).2 ha
  have hf0 : f ≠ 0 := by rintro rfl; simp at hf; exact hp hf
  have hfa : f.eval a ≠ 0 := by
    intro h0
    obtain ⟨g, hg⟩ := dvd_iff_isRoot.2 h0
    have : (X - C a) ^ (m + 1) ∣ p := ⟨g, by rw [hf, hg]; ring⟩
    have := (le_rootMultiplicity_iff hp).2 this
    omega
  obtain ⟨q, hq⟩ := pow_rootMultiplicity_dvd f b'
  set n := rootMultiplicity b' f with hn
  have hfb : f.eval b' = 0 := by
    have := hb'
    rw [hf] at this
    simp only [eval_mul, eval_pow, eval_sub, eval_X, eval_C, mul_eq_zero] at this
    rcases this with h | h
    · exact absurd (pow_eq_zero_iff hm0.ne' |>.1 h) (by intro h; linarith)
    · exact h
  have hn0 : 0 < n := (rootMultiplicity_pos hf0).2 hfb
  have hqb : q.eval b' ≠ 0 := by
    intro h0
    obtain ⟨g, hg⟩ := dvd_iff_isRoot.2 h0
    have : (X - C b') ^ (n + 1) ∣ f := ⟨g, by rw [hq, hg]; ring⟩
    have := (le_rootMultiplicity_iff hf0).2 this
    omega
  have hqa : q.eval a ≠ 0 := by
    intro h0; apply hfa; rw [hq]; simp [h0]
  have hqc : ∀ c, a ≤ c → c ≤ b' → q.eval c ≠ 0 := by
    intro c h1 h2 h0
    rcases h1.eq_or_lt with rfl | h1
    · exact hqa h0
    rcases h2.eq_or_lt with rfl | h2
    · exact hqb h0
    exact hnext c h1 h2 (by rw [hf, hq]; simp [h0])
  have hsg := sg_eq_of_no_root hab'.le hqc
  clear_value m n
  obtain ⟨m', rfl⟩ : ∃ m', m = m' + 1 := ⟨m - 1, by omega⟩
  obtain ⟨n', rfl⟩ : ∃ n', n = n' + 1 := ⟨n - 1, by omega⟩
  -- the cofactor of the derivative
  let h : K[X] := C ((m' + 1 : ℕ) : K) * (X - C b') * q + C ((n' + 1 : ℕ) : K) * (X - C a) * q
    + (X - C a) * (X - C b') * derivative q
  have hder : derivative p = (X - C a) ^ m' * (X - C b') ^ n' * h := by
    rw [hf, hq]
    simp only [derivative_mul, derivative_pow, derivative_sub, derivative_X, derivative_C, h]
    simp only [map_natCast, Nat.add_sub_cancel]
    ring
  have hha : h.eval a = ((m' + 1 : ℕ) : K) * (a - b') * q.eval a := by simp [h]
  have hhb : h.eval b' = ((n' + 1 : ℕ) : K) * (b' - a) * q.eval b' := by simp [h]
  have hmp : (0 : K) < ((m' + 1 : ℕ) : K) := by positivity
  have hnp : (0 : K) < ((n' + 1 : ℕ) : K) := by positivity
  have s1 : sg (h.eval a) = - sg (q.eval b') := by
    rw [hha, sg_mul, sg_mul, sg_pos hmp, sg_neg' (show a - b' < 0 by linarith), hsg]; ring
  have s2 : sg (h.eval b') = sg (q.eval b') := by
    rw [hhb, sg_mul, sg_mul, sg_pos hnp, sg_pos (show 0 < b' - a by linarith)]; ring
  have hne : sg (q.eval b') ≠ 0 := by simpa using hqb
  obtain ⟨c, h1, h2, h3⟩ := exists_root_of_sg_ne (p := h) hab'.le (by rw [s1, s2]; omega)
  refine ⟨c, lt_of_le_of_ne h1 ?_, lt_of_lt_of_le (lt_of_le_of_ne h2 ?_) hb'b, ?_⟩
  · rintro rfl; rw [h3] at s1; simp at s1; exact hqb s1
  · rintro rfl; rw [h3] at s2; simp at s2; exact hne s2.symm
  · rw [hder]; simp [h3]

/-- Mean value theorem for polynomials. -/
theorem mvt (p : K[X]) {a b : K} (hab : a < b) :
    ∃ c, a < c ∧ c < b ∧ p.eval b - p.eval a = p.derivative.eval c * (b - a) := by
  let g : K[X] := C (b - a) * (p - C (p.eval a)) - C (p.eval b - p.eval a) * (X - C a)
  have hgd : derivative g = C (b - a) * derivative p - C (p.eval b - p.eval a) := by
    simp [g]
  by_cases hg : g = 0
  · refine ⟨(a + b) / 2, by linarith, by linarith, ?_⟩
    have : (derivative g).eval ((a + b) / 2) = 0 := by rw [hg]; simp
    rw [hgd] at this
    simp at this; linarith
  · obtain ⟨c, h1, h2, h3⟩ := rolle hg hab (by simp [g]) (by simp [g]; ring)
    refine ⟨c, h1, h2, ?_⟩
    rw [hgd] at h3; simp at h3; linarith

/-- Thom's lemma, one-point form: if a nonzero polynomial and all its derivatives have equal
signs at `a < b` then the sign is constant on `[a, b]` and not `0`. -/
theorem thom {p : K[X]} (hp : p ≠ 0) {a b : K} (hab : a < b)
    (h : ∀ i, sg ((derivative^[i] p).eval a) = sg ((derivative^[i] p).eval b)) :
    sg (p.eval a) ≠ 0 ∧ ∀ x, a ≤ x → x ≤ b → sg (p.eval x) = sg (p.eval a) := by
  induction hn : p.natDegree using Nat.strong_induction_on generalizing p with
  | _ n ih =>
    by_cases hd : p.natDegree = 0
    · rw [Polynomial.eq_C_of_natDegree_eq_zero hd] at hp ⊢
      have : p.coeff 0 ≠ 0 := by intro h0; rw [h0] at hp; simp at hp
      simp [this]
    have hd' : derivative p ≠ 0 := by
      intro h0
      exact hd (derivative_eq_zero.1 h0)
    have hlt : (derivative p).natDegree < n := by
      rw [← hn]; exact natDegree_derivative_lt hd
    obtain ⟨h1, h2⟩ := ih _ hlt hd' (fun i => by
      have := h (i + 1); simpa [Function.iterate_succ_apply] using this) rfl
    -- strict monotonicity
    have mono : ∀ x y, a ≤ x → x < y → y ≤ b →
        sg (p.eval y - p.eval x) = sg ((derivative p).eval a) := by
      intro x y hx hxy hy
      obtain ⟨c, c1, c2, c3⟩ := mvt p hxy
      rw [c3, sg_mul, sg_pos (show 0 < y - x by linarith), mul_one]
      exact h2 c (by linarith) (by linarith)
    have h0 := h 0
    simp only [Function.iterate_zero, id] at h0
    have hm := mono a b le_rfl hab le_rfl
    refine ⟨?_, ?_⟩
    · intro hz
      rw [hz] at h0
      have ha : p.eval a = 0 := by simpa using hz
      have hb : p.eval b = 0 := by simpa using h0.symm
      rw [ha, hb] at hm; simp at hm; simp [← hm] at h1
    · intro x hx1 hx2
      rcases hx1.eq_or_lt with rfl | hx1
      · rfl
      rcases hx2.eq_or_lt with rfl | hx2
      · exact h0.symm
      have ma := mono a x le_rfl hx1 hx2.le
      have mb := mono x b hx1.le hx2 le_rfl
      rcases sg_cases ((derivative p).eval a) with ⟨_, e⟩ | ⟨_, e⟩ | ⟨_, e⟩
      · rw [e, sg_eq_neg_one_iff] at ma mb
        rw [sg_eq_sg_iff] at h0 ⊢
        refine ⟨⟨fun hh => ?_, fun hh => by linarith⟩, ⟨fun hh => by linarith, fun hh => ?_⟩⟩
        · exact h0.1.2 (by linarith)
        · have := h0.2.1 hh; linarith
      · exact absurd e h1
      · rw [e, sg_eq_one_iff] at ma mb
        rw [sg_eq_sg_iff] at h0 ⊢
        refine ⟨⟨fun hh => by linarith, fun hh => ?_⟩, ⟨fun hh => ?_, fun hh => by linarith⟩⟩
        · have := h0.1.1 hh; linarith
        · exact h0.2.2 (by linarith)

end IVT

end Verif.Alg
