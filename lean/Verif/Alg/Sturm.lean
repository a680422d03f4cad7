import Verif.Alg.Basic
import Mathlib.Algebra.BigOperators.Group.Finset.Basic

/-!
# Cauchy index and the Sturm–Tarski theorem

For a polynomial `f ≠ 0` and a point `x` write `f = (X - x)^m * g` with `g(x) ≠ 0`.  The signs of
`f` immediately right and left of `x` are `sg (g x)` and `(-1)^m * sg (g x)`.
-/

set_option linter.unusedSectionVars false

open Polynomial

namespace Verif.Alg

variable {K : Type*} [Field K] [LinearOrder K] [IsStrictOrderedRing K]

/-- Local leading coefficient of `f` at `x`. -/
noncomputable def loc (f : K[X]) (x : K) : K :=
  (f /ₘ (X - C x) ^ rootMultiplicity x f).eval x

theorem loc_ne_zero {f : K[X]} (hf : f ≠ 0) (x : K) : loc f x ≠ 0 :=
  eval_divByMonic_pow_rootMultiplicity_ne_zero x hf

theorem loc_zero (x : K) : loc (0 : K[X]) x = 0 := by simp [loc]

theorem loc_eq {f g : K[X]} {x : K} {m : ℕ} (h : f = (X - C x) ^ m * g) (hg : g.eval x ≠ 0) :
    rootMultiplicity x f = m ∧ loc f x = g.eval x := by
  have hg0 : g ≠ 0 := by rintro rfl; simp at hg
  have hm : rootMultiplicity x f = m := by
    rw [h, mul_comm, rootMultiplicity_mul_X_sub_C_pow hg0, rootMultiplicity_eq_zero (by simpa using hg)]
    simp
  refine ⟨hm, ?_⟩
  rw [loc, hm]
  have : f /ₘ (X - C x) ^ m = g := by
    rw [h]; exact mul_divByMonic_cancel_left g ((monic_X_sub_C x).pow m)
  rw [this]

theorem loc_spec (f : K[X]) (x : K) : f = (X - C x) ^ rootMultiplicity x f *
    (f /ₘ (X - C x) ^ rootMultiplicity x f) := (pow_mul_divByMonic_rootMultiplicity_eq f x).symm

theorem loc_mul {f g : K[X]} (hf : f ≠ 0) (hg : g ≠ 0) (x : K) :
    loc (f * g) x = loc f x * loc g x := by
  have h1 := loc_spec f x
  have h2 := loc_spec g x
  have h3 : f * g = (X - C x) ^ (rootMultiplicity x f + rootMultiplicity x g) *
      ((f /ₘ (X - C x) ^ rootMultiplicity x f) * (g /ₘ (X - C x) ^ rootMultiplicity x g)) := by
    conv_lhs => rw [h1, h2]
    ring
  have := (loc_eq h3 (by
    rw [eval_mul]; exact mul_ne_zero (loc_ne_zero hf x) (loc_ne_zero hg x))).2
  rw [this, eval_mul]; rfl

theorem loc_of_not_root {f : K[X]} {x : K} (h : f.eval x ≠ 0) : loc f x = f.eval x :=
  (loc_eq (m := 0) (g := f) (by simp) h).2

/-- sign immediately right of `x` -/
noncomputable def sgR (f : K[X]) (x : K) : ℤ := sg (loc f x)
/-- sign immediately left of `x` -/
noncomputable def sgL (f : K[X]) (x : K) : ℤ := (-1) ^ rootMultiplicity x f * sg (loc f x)

theorem sgR_mul {f g : K[X]} (hf : f ≠ 0) (hg : g ≠ 0) (x : K) :
    sgR (f * g) x = sgR f x * sgR g x := by rw [sgR, loc_mul hf hg, sg_mul]; rfl

theorem sgL_mul {f g : K[X]} (hf : f ≠ 0) (hg : g ≠ 0) (x : K) :
    sgL (f * g) x = sgL f x * sgL g x := by
  rw [sgL, loc_mul hf hg, sg_mul, rootMultiplicity_mul (mul_ne_zero hf hg), pow_add, sgL, sgL]; ring

theorem sgR_of_not_root {f : K[X]} {x : K} (h : f.eval x ≠ 0) : sgR f x = sg (f.eval x) := by
  rw [sgR, loc_of_not_root h]

theorem sgL_of_not_root {f : K[X]} {x : K} (h : f.eval x ≠ 0) : sgL f x = sg (f.eval x) := by
  rw [sgL, loc_of_not_root h, rootMultiplicity_eq_zero (by simpa using h)]; simp

section IVT
variable [PolyIVT K]

/-- Sign changes of a polynomial over all its roots telescope. -/
theorem sum_sgR_sub_sgL {f : K[X]} (hf : f ≠ 0) (s : Finset K) (hs : ∀ x, f.eval x = 0 → x ∈ s) :
    ∑ x ∈ s, (sgR f x - sgL f x) = sgTop f - sgBot f := by
  classical
  -- reduce to the exact root set
  have red : ∀ {f : K[X]}, f ≠ 0 → ∀ s : Finset K, (∀ x, f.eval x = 0 → x ∈ s) →
      ∑ x ∈ s, (sgR f x - sgL f x) = ∑ x ∈ f.roots.toFinset, (sgR f x - sgL f x) := by
    intro f hf s hs
    symm
    apply Finset.sum_subset
    · intro x hx
      simp [hf] at hx
      exact hs x hx
    · intro x _ hx
      simp [hf] at hx
      rw [sgR_of_not_root hx, sgL_of_not_root hx, sub_self]
  rw [red hf s hs]
  clear hs s
  induction hn : f.roots.toFinset.card using Nat.strong_induction_on generalizing f with
  | _ n ih =>
    by_cases hne : f.roots.toFinset.Nonempty
    · -- split off the largest root
      set a := f.roots.toFinset.max' hne with ha
      have hamem : a ∈ f.roots.toFinset := Finset.max'_mem _ hne
      have haroot : f.eval a = 0 := by simpa [hf] using hamem
      have hmax : ∀ y, f.eval y = 0 → y ≤ a := fun y hy =>
        Finset.le_max' _ _ (by simpa [hf] using hy)
      clear_value a
      set m := rootMultiplicity a f with hm
      set g := f /ₘ (X - C a) ^ m with hg
      have hfg : f = (X - C a) ^ m * g := loc_spec f a
      have hg0 : g ≠ 0 := by
        intro h0; rw [h0] at hfg; simp at hfg; exact hf hfg
      have hga : g.eval a ≠ 0 := loc_ne_zero hf a
      have hP0 : (X - C a) ^ m ≠ (0 : K[X]) := pow_ne_zero _ (X_sub_C_ne_zero a)
      clear_value g
      have hgr : ∀ y, g.eval y = 0 → f.eval y = 0 := fun y hy => by rw [hfg]; simp [hy]
      have hroots : f.roots.toFinset = insert a g.roots.toFinset := by
        ext y
        simp only [Multiset.mem_toFinset, mem_roots hf, IsRoot.def, Finset.mem_insert, mem_roots hg0]
        constructor
        · intro h
          rw [hfg] at h
          simp only [eval_mul, eval_pow, eval_sub, eval_X, eval_C, mul_eq_zero] at h
          rcases h with h | h
          · left
            have := (pow_eq_zero_iff ((rootMultiplicity_pos hf).2 haroot).ne').1 h
            linarith
          · exact Or.inr h
        · rintro (rfl | h)
          · exact haroot
          · exact hgr y h
      have hnotmem : a ∉ g.roots.toFinset := by simpa [hg0] using hga
      have hcard : g.roots.toFinset.card < n := by
        rw [← hn, hroots, Finset.card_insert_of_notMem hnotmem]; omega
      have IH := ih _ hcard hg0 rfl
      rw [hroots, Finset.sum_insert hnotmem]
      have hlow : ∀ x ∈ g.roots.toFinset, sgR f x - sgL f x = (-1) ^ m * (sgR g x - sgL g x) := by
        intro x hx
        have hxa : x < a := by
          have h1 : g.eval x = 0 := by simpa [hg0] using hx
          refine lt_of_le_of_ne (hmax x (hgr x h1)) ?_
          rintro rfl; exact hga h1
        have hv : ((X - C a) ^ m : K[X]).eval x ≠ 0 := by
          simp only [eval_pow, eval_sub, eval_X, eval_C]
          exact pow_ne_zero _ (by linarith [hxa] : x - a ≠ 0)
        have hs : sg (((X - C a) ^ m : K[X]).eval x) = (-1) ^ m := by
          simp only [eval_pow, eval_sub, eval_X, eval_C]
          rw [sg_pow, sg_neg' (by linarith)]
        rw [hfg, sgR_mul hP0 hg0, sgL_mul hP0 hg0, sgR_of_not_root hv, sgL_of_not_root hv, hs]; ring
      rw [Finset.sum_congr rfl hlow, ← Finset.mul_sum, IH]
      have hl := loc_eq hfg hga
      have hgtop : sg (g.eval a) = sgTop g := sg_eq_sgTop fun c hc h0 => by
        have := hmax c (hgr c h0)
        have : c = a := le_antisymm this hc
        subst this; exact hga h0
      have htop : sgTop f = sgTop g := by
        rw [hfg, sgTop_mul]; simp [sgTop]
      have hbot : sgBot f = (-1) ^ m * sgBot g := by
        rw [hfg, sgBot_mul]; congr 1; simp [sgBot]
      rw [sgR, sgL, hl.1, hl.2, hgtop, htop, hbot]; ring
    · have h0 : ∀ x, f.eval x ≠ 0 := fun x hx => hne ⟨x, by simpa [hf] using hx⟩
      rw [Finset.not_nonempty_iff_eq_empty.1 hne, Finset.sum_empty,
        ← sg_eq_sgTop (p := f) (a := 0) fun c _ => h0 c, ← sg_eq_sgBot (p := f) (a := 0) fun c _ => h0 c,
        sub_self]

end IVT

/-- Twice the jump of `q / p` at `x` (from `-∞` to `+∞`: `2`). -/
noncomputable def jump2 (p q : K[X]) (x : K) : ℤ :=
  if rootMultiplicity x q < rootMultiplicity x p then sgR (p * q) x - sgL (p * q) x else 0

theorem jump2_not_root {p q : K[X]} {x : K} (h : p.eval x ≠ 0) : jump2 p q x = 0 := by
  rw [jump2, rootMultiplicity_eq_zero (x := x) (p := p) (by simpa using h)]; simp

theorem sg_change_even {f : K[X]} {x : K} (h : Even (rootMultiplicity x f)) :
    sgR f x - sgL f x = 0 := by
  rw [sgR, sgL, h.neg_one_pow]; ring

theorem jump2_add {p q : K[X]} (hp : p ≠ 0) (hq : q ≠ 0) (x : K) :
    jump2 p q x + jump2 q p x = sgR (p * q) x - sgL (p * q) x := by
  unfold jump2
  rw [mul_comm q p]
  rcases lt_trichotomy (rootMultiplicity x q) (rootMultiplicity x p) with h | h | h
  · rw [if_pos h, if_neg (by omega)]; ring
  · rw [if_neg (by omega), if_neg (by omega), sg_change_even]
    · ring
    · rw [rootMultiplicity_mul (mul_ne_zero hp hq), h]; exact ⟨_, rfl⟩
  · rw [if_neg (by omega), if_pos h]; ring

/-- if `c p = a q + r`, then at points where `q` vanishes to higher order than `p` (or `r`) the
polynomials `p` and `r` have the same local behaviour. -/
theorem loc_of_rem {p q a r : K[X]} {c : K} (hc : 0 < c) (h : C c * p = a * q + r)
    {x : K} (hp : p ≠ 0) (_hq : q ≠ 0) (hlt : rootMultiplicity x p < rootMultiplicity x q) :
    r ≠ 0 ∧ rootMultiplicity x r = rootMultiplicity x p ∧ loc r x = c * loc p x := by
  obtain ⟨k, hk⟩ : ∃ k, rootMultiplicity x q = rootMultiplicity x p + (k + 1) :=
    ⟨rootMultiplicity x q - rootMultiplicity x p - 1, by omega⟩
  have h1 := loc_spec p x
  have h2 := loc_spec q x
  rw [hk] at h2
  have hr : r = (X - C x) ^ rootMultiplicity x p * (C c * (p /ₘ (X - C x) ^ rootMultiplicity x p)
      - a * ((X - C x) ^ (k + 1) *
        (q /ₘ (X - C x) ^ (rootMultiplicity x p + (k + 1))))) := by
    have : r = C c * p - a * q := by rw [h]; ring
    rw [this]
    conv_lhs => rw [h1, h2]
    ring
  have hev : (C c * (p /ₘ (X - C x) ^ rootMultiplicity x p) - a * ((X - C x) ^ (k + 1) *
        (q /ₘ (X - C x) ^ (rootMultiplicity x p + (k + 1))))).eval x = c * loc p x := by
    simp [loc]
  have hne : c * loc p x ≠ 0 := mul_ne_zero hc.ne' (loc_ne_zero hp x)
  obtain ⟨e1, e2⟩ := loc_eq hr (by rw [hev]; exact hne)
  refine ⟨?_, e1, by rw [e2, hev]⟩
  rintro rfl
  rw [loc_zero, hev] at e2; exact hne e2.symm

theorem jump2_rem {p q a r : K[X]} {c : K} (hc : 0 < c) (h : C c * p = a * q + r)
    (hp : p ≠ 0) (hq : q ≠ 0) (hr : r ≠ 0) (x : K) : jump2 q p x = jump2 q r x := by
  unfold jump2
  by_cases h1 : rootMultiplicity x p < rootMultiplicity x q
  · obtain ⟨_, e1, e2⟩ := loc_of_rem hc h hp hq h1
    rw [if_pos h1, if_pos (by omega), sgR, sgL, sgR, sgL, loc_mul hq hr, loc_mul hq hp, e2,
      rootMultiplicity_mul (mul_ne_zero hq hr), rootMultiplicity_mul (mul_ne_zero hq hp), e1]
    have : loc q x * (c * loc p x) = c * (loc q x * loc p x) := by ring
    rw [this, sg_mul_pos hc]
  · by_cases h2 : rootMultiplicity x r < rootMultiplicity x q
    · have h' : C (1 : K) * r = (-a) * q + C c * p := by rw [h, C_1]; ring
      have hcp : C c * p ≠ 0 := mul_ne_zero (by simpa using hc.ne') hp
      obtain ⟨_, e1, _⟩ := loc_of_rem one_pos h' hr hq h2
      rw [rootMultiplicity_mul hcp, rootMultiplicity_C] at e1
      omega
    · rw [if_neg h1, if_neg h2]

theorem jump2_dvd {p q a : K[X]} {c : K} (hc : 0 < c) (h : C c * p = a * q)
    (hp : p ≠ 0) (hq : q ≠ 0) (x : K) : jump2 q p x = 0 := by
  unfold jump2
  rw [if_neg]
  intro h1
  obtain ⟨h0, _⟩ := loc_of_rem (r := 0) hc (by rw [h, add_zero]) hp hq h1
  exact h0 rfl

theorem jump2_neg {p q : K[X]} (x : K) (hp : p ≠ 0) (hq : q ≠ 0) :
    jump2 p (-q) x = - jump2 p q x := by
  unfold jump2
  have hl : ∀ f : K[X], f ≠ 0 → loc (-f) x = - loc f x ∧
      rootMultiplicity x (-f) = rootMultiplicity x f := by
    intro f hf
    have h1 : -f = (X - C x) ^ rootMultiplicity x f * (-(f /ₘ (X - C x) ^ rootMultiplicity x f)) := by
      conv_lhs => rw [loc_spec f x]
      ring
    have := loc_eq h1 (by rw [eval_neg]; exact neg_ne_zero.2 (loc_ne_zero hf x))
    refine ⟨by rw [this.2, eval_neg]; rfl, this.1⟩
  have e1 := hl q hq
  have e2 := hl (p * q) (mul_ne_zero hp hq)
  rw [e1.2, mul_neg, sgR, sgL, sgR, sgL, e2.1, e2.2, sg_neg]
  split
  · ring
  · simp

/-- A signed remainder sequence: `c p = a q - r` with `c > 0`, until the remainder is zero. -/
inductive SRS : List K[X] → Prop
  | last (p q a : K[X]) (c : K) (hc : 0 < c) (hp : p ≠ 0) (hq : q ≠ 0) (h : C c * p = a * q) :
      SRS [p, q]
  | step (p q r a : K[X]) (l : List K[X]) (c : K) (hc : 0 < c) (hp : p ≠ 0)
      (h : C c * p = a * q - r) (hl : SRS (q :: r :: l)) : SRS (p :: q :: r :: l)

theorem SRS.ne_zero {l : List K[X]} (h : SRS l) : ∀ p ∈ l, p ≠ 0 := by
  induction h with
  | last p q a c hc hp hq h => intro f hf; simp at hf; rcases hf with rfl | rfl <;> assumption
  | step p q r a l c hc hp h hl ih =>
    intro f hf
    rcases List.mem_cons.1 hf with rfl | hf
    · exact hp
    · exact ih f hf

/-- Twice the difference of sign variations at both ends, as a sum over neighbours. -/
noncomputable def var2 : List K[X] → ℤ
  | p :: q :: l => (sgTop (p * q) - sgBot (p * q)) + var2 (q :: l)
  | _ => 0

variable [PolyIVT K]

theorem SRS.sum_jump2 {l : List K[X]} (h : SRS l) : ∀ p q l', l = p :: q :: l' →
    ∀ s : Finset K, (∀ f ∈ l, ∀ x, f.eval x = 0 → x ∈ s) →
    ∑ x ∈ s, jump2 p q x = var2 l := by
  induction h with
  | last p q a c hc hp hq h =>
    rintro p' q' l' e s hs
    simp only [List.cons.injEq] at e
    obtain ⟨rfl, rfl, rfl⟩ := e
    have h1 := sum_sgR_sub_sgL (mul_ne_zero hp hq) s (fun x hx => by
      rw [eval_mul, mul_eq_zero] at hx
      rcases hx with hx | hx
      · exact hs p (by simp) x hx
      · exact hs q (by simp) x hx)
    simp only [var2, add_zero, ← h1]
    apply Finset.sum_congr rfl
    intro x _
    rw [← jump2_add hp hq, jump2_dvd hc h hp hq, add_zero]
  | step p q r a l c hc hp h hl ih =>
    rintro p' q' l' e s hs
    simp only [List.cons.injEq] at e
    obtain ⟨rfl, rfl, rfl⟩ := e
    have hq : q ≠ 0 := hl.ne_zero q (by simp)
    have hr : r ≠ 0 := hl.ne_zero r (by simp)
    have h1 := sum_sgR_sub_sgL (mul_ne_zero hp hq) s (fun x hx => by
      rw [eval_mul, mul_eq_zero] at hx
      rcases hx with hx | hx
      · exact hs p (by simp) x hx
      · exact hs q (by simp) x hx)
    have h2 := ih q r l rfl s (fun f hf => hs f (List.mem_cons_of_mem _ hf))
    rw [var2, ← h1, ← h2, ← Finset.sum_add_distrib]
    apply Finset.sum_congr rfl
    intro x _
    have h3 : jump2 q p x = - jump2 q r x := by
      rw [jump2_rem (r := -r) hc (by rw [h]; ring) hp hq (neg_ne_zero.2 hr), jump2_neg _ hq hr]
    rw [← jump2_add hp hq, h3]; ring

/-- Jumps of `p' q / p` are the signs of `q` at the roots of `p`. -/
theorem jump2_derivative {p q : K[X]} (hp : p ≠ 0) (hq : q ≠ 0) (hd : derivative p ≠ 0) {x : K}
    (hx : p.eval x = 0) : jump2 p (derivative p * q) x = 2 * sg (q.eval x) := by
  have hmul := mul_ne_zero hd hq
  have hm : 0 < rootMultiplicity x p := (rootMultiplicity_pos hp).2 hx
  have hdm := derivative_rootMultiplicity_of_root (p := p) (t := x) hx
  obtain ⟨m, hm'⟩ : ∃ m, rootMultiplicity x p = m + 1 := ⟨_, (Nat.succ_pred_eq_of_pos hm).symm⟩
  -- local coefficient of the derivative
  have hl : loc (derivative p) x = ((m + 1 : ℕ) : K) * loc p x := by
    have h1 := loc_spec p x
    rw [hm'] at h1
    set g := p /ₘ (X - C x) ^ (m + 1) with hg
    have hge : g.eval x = loc p x := by rw [loc, hm', ← hg]
    clear_value g
    have h2 : derivative p = (X - C x) ^ m * (C ((m + 1 : ℕ) : K) * g + (X - C x) * derivative g) := by
      rw [h1]
      simp only [derivative_mul, derivative_pow, derivative_sub, derivative_X, derivative_C]
      simp only [map_natCast, Nat.add_sub_cancel]
      ring
    have h3 : (C ((m + 1 : ℕ) : K) * g + (X - C x) * derivative g).eval x = ((m + 1 : ℕ) : K) * loc p x := by
      simp [hge]
    have h4 : ((m + 1 : ℕ) : K) * loc p x ≠ 0 :=
      mul_ne_zero (by positivity) (loc_ne_zero hp x)
    rw [(loc_eq h2 (by rw [h3]; exact h4)).2, h3]
  unfold jump2
  rw [rootMultiplicity_mul hmul, hdm]
  by_cases hqx : q.eval x = 0
  · have : 0 < rootMultiplicity x q := (rootMultiplicity_pos hq).2 hqx
    rw [if_neg (by omega), hqx]; simp
  · have h0 : rootMultiplicity x q = 0 := rootMultiplicity_eq_zero (by simpa using hqx)
    rw [if_pos (by omega), sgR, sgL, loc_mul hp hmul, loc_mul hd hq,
      rootMultiplicity_mul (mul_ne_zero hp hmul), rootMultiplicity_mul hmul, hdm, h0, hl,
      loc_of_not_root hqx, hm']
    have hpl : sg (loc p x) * sg (loc p x) = 1 := sg_mul_self (loc_ne_zero hp x)
    have hpos : (0 : K) < ((m + 1 : ℕ) : K) := by positivity
    have : sg (loc p x * (((m + 1 : ℕ) : K) * loc p x * q.eval x)) = sg (q.eval x) := by
      rw [sg_mul, sg_mul, sg_mul, sg_pos hpos]; linear_combination sg (q.eval x) * hpl
    rw [this]
    have hodd : Odd (m + 1 + (m + 1 - 1 + 0)) := ⟨m, by omega⟩
    rw [hodd.neg_one_pow]; ring

/-- **Sturm–Tarski**: the variation difference of a signed remainder sequence starting with
`p, p' q` is the sum of the signs of `q` over the distinct roots of `p`. -/
theorem sturm_tarski {p q : K[X]} {l : List K[X]} (h : SRS (p :: (derivative p * q) :: l)) :
    var2 (p :: (derivative p * q) :: l) = 2 * ∑ x ∈ p.roots.toFinset, sg (q.eval x) := by
  classical
  set L := p :: (derivative p * q) :: l with hL
  have hne := h.ne_zero
  have hp : p ≠ 0 := hne p (by simp [hL])
  have hm : derivative p * q ≠ 0 := hne _ (by simp [hL])
  have hd : derivative p ≠ 0 := left_ne_zero_of_mul hm
  have hq : q ≠ 0 := right_ne_zero_of_mul hm
  let s : Finset K := L.toFinset.biUnion fun f => f.roots.toFinset
  have hs : ∀ f ∈ L, ∀ x, f.eval x = 0 → x ∈ s := by
    intro f hf x hx
    simp only [s, Finset.mem_biUnion, List.mem_toFinset, Multiset.mem_toFinset]
    exact ⟨f, hf, by rw [mem_roots (hne f hf)]; exact hx⟩
  rw [← h.sum_jump2 p (derivative p * q) l rfl s hs, Finset.mul_sum]
  symm
  rw [← Finset.sum_subset (s₁ := p.roots.toFinset) (s₂ := s)]
  · apply Finset.sum_congr rfl
    intro x hx
    rw [jump2_derivative hp hq hd]
    simpa [hp] using hx
  · intro x hx
    exact hs p (by simp [hL]) x (by simpa [hp] using hx)
  · intro x _ hx
    exact jump2_not_root (by simpa [hp] using hx)

end Verif.Alg
