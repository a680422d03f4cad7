import Verif.Vts.IsymModel
import Verif.Vts.Props

/-!
# Properties of `vts/isym.py` (C15, C16)
-/

set_option linter.unusedSectionVars false

open Polynomial Verif.Alg

namespace Verif.Vts

/-- The rational polynomial an argument of `convert` stands for. -/
noncomputable def SPoly.toPoly : SPoly → ℚ[X]
  | .int z => C (z : ℚ)
  | .number (.int z) => C (z : ℚ)
  | .number (.rat q) => C q
  | .number .other => 0
  | .expr terms => (terms.map fun t => match t.1 with
      | .int z => C (z : ℚ) * X ^ t.2
      | .rat q => C q * X ^ t.2
      | .other => 0).sum
  | .multi => 0

/-- Rational univariate arguments in sympy's expanded form: powers strictly decrease; coefficients
are rational numbers. -/
def SPoly.Rational : SPoly → Prop
  | .int _ => True
  | .number c => ∃ q, c = .rat q
  | .expr terms => terms ≠ [] ∧ (terms.map Prod.snd).Pairwise (· > ·) ∧
      ∀ t ∈ terms, ∃ q, t.1 = .rat q
  | .multi => False

/-- Terms of an expanded nonzero expression have nonzero coefficients. -/
def SPoly.NonzeroTerms : SPoly → Prop
  | .int z => z ≠ 0
  | .number c => c ≠ .rat 0
  | .expr terms => ∀ t ∈ terms, t.1 ≠ .rat 0
  | .multi => False

/-! ### helpers -/

/-- value of a coefficient -/
def PyCoef.val : PyCoef → ℚ
  | .int z => z
  | .rat q => q
  | .other => 0

theorem dvd_foldl_lcm (l : List ℚ) (a : ℕ) : a ∣ l.foldl (fun x y => Nat.lcm x y.den) a ∧
    ∀ q ∈ l, q.den ∣ l.foldl (fun x y => Nat.lcm x y.den) a := by
  induction l generalizing a with
  | nil => simp
  | cons q l ih =>
    obtain ⟨h1, h2⟩ := ih (Nat.lcm a q.den)
    refine ⟨(Nat.dvd_lcm_left _ _).trans h1, ?_⟩
    intro r hr
    rcases List.mem_cons.1 hr with rfl | hr
    · exact (Nat.dvd_lcm_right _ _).trans h1
    · exact h2 r hr

theorem foldl_lcm_pos (l : List ℚ) (a : ℕ) (ha : 0 < a) :
    0 < l.foldl (fun x y => Nat.lcm x y.den) a := by
  induction l generalizing a with
  | nil => exact ha
  | cons q l ih => exact ih _ (Nat.lcm_pos ha q.pos)

theorem denLcm_pos (l : List PyCoef) : 0 < denLcm l := foldl_lcm_pos _ _ one_pos

theorem rat_mul_den {q : ℚ} {n : ℕ} (h : q.den ∣ n) : ((q * n).num : ℚ) = q * n := by
  obtain ⟨k, rfl⟩ := h
  have : q * ((q.den * k : ℕ) : ℚ) = ((q.num * k : ℤ) : ℚ) := by
    push_cast
    rw [← mul_assoc, Rat.mul_den_eq_num]
  rw [this, Rat.num_intCast]

theorem convertRationals_ok (l : List PyCoef) (h : ∀ c ∈ l, c ≠ .other) :
    ∃ r, convertRationalsToInts l = .ok r ∧ r.length = l.length ∧
      ∀ i, ((r.getD i 0 : ℤ) : ℚ) = (denLcm l : ℚ) * ((l.map PyCoef.val).getD i 0) := by
  refine ⟨l.map (scaleCoef (denLcm l)), ?_, ?_, ?_⟩
  · unfold convertRationalsToInts
    rw [if_neg]
    simp only [List.any_eq_true, decide_eq_true_eq, not_exists, not_and]
    exact h
  · simp
  · intro i
    simp only [List.getD, List.getElem?_map]
    cases hi : l[i]? with
    | none => simp
    | some c =>
      have hc := List.mem_of_getElem? hi
      cases c with
      | int z => simp [PyCoef.val, mul_comm, scaleCoef]
      | rat q =>
        simp only [Option.map_some, Option.getD_some, PyCoef.val, scaleCoef]
        rw [rat_mul_den, mul_comm]
        apply (dvd_foldl_lcm (rationals l) 1).2
        simp only [rationals, List.mem_filterMap]
        exact ⟨_, hc, rfl⟩
      | other => exact absurd rfl (h _ hc)

theorem denote_of_getD (r : List ℤ) (p : ℚ[X]) (a : ℚ)
    (h : ∀ i, ((r.getD i 0 : ℤ) : ℚ) = a * p.coeff i) :
    denote (Int.castRingHom ℚ) r = C a * p := by
  rw [denote_eq_iff]
  intro i
  rw [coeff_C_mul]
  exact h i

/-- sum of the coefficients recorded for power `i` -/
theorem coeff_toPoly (terms : List (PyCoef × ℕ)) (hrat : ∀ t ∈ terms, ∃ q, t.1 = .rat q)
    (i : ℕ) : ((SPoly.expr terms).toPoly).coeff i =
      (terms.map fun t => if t.2 = i then t.1.val else 0).sum := by
  simp only [SPoly.toPoly]
  induction terms with
  | nil => simp
  | cons t l ih =>
    simp only [List.map_cons, List.sum_cons, coeff_add]
    rw [ih fun t ht => hrat t (List.mem_cons_of_mem _ ht)]
    congr 1
    obtain ⟨q, hq⟩ := hrat t (by simp)
    rw [hq]
    simp only [PyCoef.val, coeff_C_mul, coeff_X_pow]
    by_cases h : t.2 = i
    · simp [h]
    · rw [if_neg h, if_neg (fun h' => h h'.symm), mul_zero]

theorem powLookup_val (terms : List (PyCoef × ℕ)) (hp : (terms.map Prod.snd).Nodup) (i : ℕ) :
    (powLookup terms i).val = (terms.map fun t => if t.2 = i then t.1.val else 0).sum := by
  unfold powLookup
  have hkey : ∀ (l : List (PyCoef × ℕ)), (l.map Prod.snd).Nodup →
      (((l.find? (fun t : PyCoef × ℕ => decide (t.2 = i))).map Prod.fst).getD (.int 0)).val = (l.map fun t => if t.2 = i then t.1.val else 0).sum := by
    intro l
    induction l with
    | nil => intro _; simp [PyCoef.val]
    | cons t l ih =>
      intro hnd
      simp only [List.map_cons, List.nodup_cons] at hnd
      rw [List.find?_cons]
      by_cases h : t.2 = i
      · simp only [h, decide_true, List.map_cons, if_true, List.sum_cons]
        have : (l.map fun t => if t.2 = i then t.1.val else 0).sum = 0 := by
          apply List.sum_eq_zero
          intro x hx
          obtain ⟨u, hu, rfl⟩ := List.mem_map.1 hx
          rw [if_neg]
          intro hui
          exact hnd.1 (List.mem_map.2 ⟨u, hu, by rw [hui, h]⟩)
        rw [this, add_zero]
        rfl
      · simp only [h, decide_false, List.map_cons, if_false, List.sum_cons, zero_add]
        exact ih hnd.2
  have := hkey terms.reverse (by rw [List.map_reverse]; exact List.nodup_reverse.2 hp)
  rw [this, List.map_reverse, List.sum_reverse]

theorem powLookup_ne_other (terms : List (PyCoef × ℕ)) (h : ∀ t ∈ terms, ∃ q, t.1 = .rat q)
    (i : ℕ) : powLookup terms i ≠ .other := by
  unfold powLookup
  cases ht : terms.reverse.find? (fun t => decide (t.2 = i)) with
  | some t =>
    have := List.mem_of_find?_eq_some ht
    obtain ⟨q, hq⟩ := h t (by simpa using this)
    simp [hq]
  | none => simp

/-! ## C15 -/

/-- **C15**. A nonzero rational univariate polynomial is converted to an integer coefficient list,
with nonzero leading coefficient and one entry per power, denoting a positive multiple of it. -/
theorem C15_convert (p : SPoly) (hr : p.Rational) (hnz : p.NonzeroTerms) :
    ∃ l, convert p = .ok l ∧ Normalized l ∧ l.length = p.toPoly.natDegree + 1 ∧
      ∃ c : ℚ, 0 < c ∧ denote (Int.castRingHom ℚ) l = C c * p.toPoly := by
  have main : ∀ (l : List ℤ) (c : ℚ), 0 < c → l ≠ [] →
      denote (Int.castRingHom ℚ) l = C c * p.toPoly → p.toPoly.coeff (l.length - 1) ≠ 0 →
      Normalized l ∧ l.length = p.toPoly.natDegree + 1 := by
    intro l c hc hl hd hlead
    have hcoef : ((l.getD (l.length - 1) 0 : ℤ) : ℚ) = c * p.toPoly.coeff (l.length - 1) := by
      have := congrArg (fun q => q.coeff (l.length - 1)) hd
      simpa [coeff_denote] using this
    have hn : Normalized l := by
      rw [normalized_iff]
      refine ⟨hl, fun h0 => ?_⟩
      rw [h0] at hcoef
      have : c * p.toPoly.coeff (l.length - 1) ≠ 0 := mul_ne_zero hc.ne' hlead
      exact this (by simpa using hcoef.symm)
    refine ⟨hn, ?_⟩
    have h1 := natDegree_denote (φ := Int.castRingHom ℚ) Int.cast_injective hn
    rw [hd, natDegree_C_mul hc.ne'] at h1
    have := List.length_pos_iff.2 hl
    omega
  cases p with
  | int z =>
    have hz : z ≠ 0 := hnz
    refine ⟨[z], by simp [convert, hz], ⟨z, rfl, hz⟩, by simp [SPoly.toPoly], 1, one_pos, ?_⟩
    simp [denote, SPoly.toPoly]
  | number c =>
    obtain ⟨q, rfl⟩ := hr
    have hq : q ≠ 0 := by
      intro h; subst h; exact hnz rfl
    obtain ⟨r, h1, h2, h3⟩ := convertRationals_ok [.rat q] (by simp)
    have hd : denote (Int.castRingHom ℚ) r = C (denLcm [.rat q] : ℚ) * (SPoly.number (.rat q)).toPoly := by
      apply denote_of_getD
      intro i
      rw [h3 i]
      congr 1
      cases i <;> simp [SPoly.toPoly, PyCoef.val, coeff_C]
    have hrl : r ≠ [] := by rintro rfl; simp at h2
    have hpos : (0 : ℚ) < denLcm [.rat q] := by exact_mod_cast denLcm_pos _
    have := main r _ hpos hrl hd (by rw [h2]; simpa [SPoly.toPoly] using hq)
    exact ⟨r, h1, this.1, this.2, _, hpos, hd⟩
  | multi => exact hr.elim
  | expr terms =>
    obtain ⟨hne, hpw, hrat⟩ := hr
    cases hterms : terms with
    | nil => exact absurd hterms hne
    | cons t ts =>
      rw [← hterms]
      set cl := (List.range (t.2 + 1)).map (powLookup terms) with hcl
      have hconv : convert (.expr terms) = convertRationalsToInts cl := by
        rw [hcl]
        simp only [convert]
        rw [hterms]
      have hno : ∀ c ∈ cl, c ≠ .other := by
        intro c hc
        obtain ⟨i, _, rfl⟩ := List.mem_map.1 hc
        exact powLookup_ne_other terms hrat i
      obtain ⟨r, h1, h2, h3⟩ := convertRationals_ok cl hno
      have hnd : (terms.map Prod.snd).Nodup := hpw.imp (fun h => (ne_of_gt h))
      have hcoeff : ∀ i, (cl.map PyCoef.val).getD i 0 = (SPoly.expr terms).toPoly.coeff i := by
        intro i
        rw [coeff_toPoly terms hrat, ← powLookup_val terms hnd]
        by_cases hi : i < t.2 + 1
        · simp [hcl, List.getD, hi]
        · have hnone : powLookup terms i = .int 0 := by
            unfold powLookup
            have : terms.reverse.find? (fun t => decide (t.2 = i)) = none := by
              rw [List.find?_eq_none]
              intro u hu
              simp only [List.mem_reverse] at hu
              have hle : u.2 ≤ t.2 := by
                rw [hterms] at hu hpw
                rcases List.mem_cons.1 hu with rfl | hu
                · exact le_rfl
                · simp only [List.map_cons, List.pairwise_cons] at hpw
                  exact (hpw.1 u.2 (List.mem_map.2 ⟨u, hu, rfl⟩)).le
              simp; omega
            rw [this]; rfl
          rw [hnone]
          simp [hcl, List.getD, hi, PyCoef.val]
      have hd : denote (Int.castRingHom ℚ) r = C (denLcm cl : ℚ) * (SPoly.expr terms).toPoly := by
        apply denote_of_getD
        intro i
        rw [h3 i, hcoeff]
      have hlen : r.length = t.2 + 1 := by rw [h2, hcl]; simp
      have hrl : r ≠ [] := by rintro rfl; simp at hlen
      have hpos : (0 : ℚ) < denLcm cl := by exact_mod_cast denLcm_pos _
      have hlead : (SPoly.expr terms).toPoly.coeff (r.length - 1) ≠ 0 := by
        rw [hlen, coeff_toPoly terms hrat, ← powLookup_val terms hnd]
        have : powLookup terms (t.2 + 1 - 1) = t.1 := by
          unfold powLookup
          have hnd' : (terms.map Prod.snd).Nodup := hnd
          have : terms.reverse.find? (fun u => decide (u.2 = t.2 + 1 - 1)) = some t := by
            rw [hterms, List.reverse_cons, List.find?_append]
            have : ts.reverse.find? (fun u => decide (u.2 = t.2 + 1 - 1)) = none := by
              rw [List.find?_eq_none]
              intro u hu
              simp only [List.mem_reverse] at hu
              rw [hterms] at hnd'
              simp only [List.map_cons, List.nodup_cons] at hnd'
              simp
              intro h
              exact hnd'.1 (List.mem_map.2 ⟨u, hu, h⟩)
            rw [this]; simp
          rw [this]; rfl
        rw [this]
        obtain ⟨q, hq⟩ := hrat t (by rw [hterms]; simp)
        have hq0 := hnz t (by rw [hterms]; simp)
        rw [hq] at hq0 ⊢
        simp only [PyCoef.val]
        intro h0; exact hq0 (by rw [h0])
      have := main r _ hpos hrl hd hlead
      exact ⟨r, hconv.trans h1, this.1, this.2, _, hpos, hd⟩

-- `1 + x/3 - x²/5`
example : (SPoly.expr [(.rat (-1/5), 2), (.rat (1/3), 1), (.rat 1, 0)]).Rational ∧
    (SPoly.expr [(.rat (-1/5), 2), (.rat (1/3), 1), (.rat 1, 0)]).NonzeroTerms ∧
    convert (.expr [(.rat (-1/5), 2), (.rat (1/3), 1), (.rat 1, 0)]) = .ok [15, 5, -3] := by
  refine ⟨⟨by simp, by simp, ?_⟩, ?_, by decide +kernel⟩
  · intro t ht; simp at ht; rcases ht with rfl | rfl | rfl <;> exact ⟨_, rfl⟩
  · intro t ht; simp at ht; rcases ht with rfl | rfl | rfl <;> simp

/-- **C15**, the zero Python integer. -/
theorem C15_zero_int : convert (.int 0) = .ok [] := rfl

/-- **C15 is violated** for the zero polynomial given as a sympy number, or as an expression that
expands to zero: the result is `[0]`, not `[]`. -/
theorem C15_zero_violated : convert (.number (.rat 0)) = .ok [0] ∧
    convert (.expr [(.rat 0, 0)]) = .ok [0] := by decide +kernel

/-- **C15**, exceptions: a term with a coefficient that is not rational makes `convert` raise, and so
do several symbols. -/
theorem C15_raises (terms : List (PyCoef × ℕ)) (hp : (terms.map Prod.snd).Pairwise (· > ·))
    (h : ∃ t ∈ terms, t.1 = .other) :
    convert (.expr terms) = .error .notRational ∧
    convert (.number .other) = .error .notRational ∧
    convert .multi = .error .moreThanOneSymbol := by
  refine ⟨?_, rfl, rfl⟩
  obtain ⟨u, hu, huo⟩ := h
  cases hterms : terms with
  | nil => rw [hterms] at hu; simp at hu
  | cons t ts =>
    simp only [convert, convertRationalsToInts]
    rw [if_pos]
    rw [← hterms]
    simp only [List.any_eq_true, decide_eq_true_eq, List.mem_map, List.mem_range]
    refine ⟨.other, ⟨u.2, ?_, ?_⟩, rfl⟩
    · rw [hterms] at hu hp
      rcases List.mem_cons.1 hu with rfl | hu
      · omega
      · simp only [List.map_cons, List.pairwise_cons] at hp
        have := hp.1 u.2 (List.mem_map.2 ⟨u, hu, rfl⟩)
        omega
    · unfold powLookup
      have hnd : (terms.map Prod.snd).Nodup := hp.imp (fun h => (ne_of_gt h))
      have : terms.reverse.find? (fun t => decide (t.2 = u.2)) = some u := by
        have hnd' : (terms.reverse.map Prod.snd).Nodup := by
          rw [List.map_reverse]; exact List.nodup_reverse.2 hnd
        have hu' : u ∈ terms.reverse := by simpa using hu
        generalize terms.reverse = l at hnd' hu'
        induction l with
        | nil => simp at hu'
        | cons a l ih =>
          rw [List.find?_cons]
          simp only [List.map_cons, List.nodup_cons] at hnd'
          rcases List.mem_cons.1 hu' with rfl | hu''
          · simp
          · have : a.2 ≠ u.2 := fun h => hnd'.1 (List.mem_map.2 ⟨u, hu'', h.symm⟩)
            simp only [this, decide_false]
            exact ih hnd'.2 hu''
      rw [this]; exact huo

example : ∃ t ∈ [(PyCoef.other, 2), (.rat 1, 0)], t.1 = .other := ⟨(.other, 2), by simp, rfl⟩

/-- terms of `convert_back` -/
def backTerms (l : List ℤ) : List (ℤ × ℕ) :=
  ((List.range l.length).reverse.map fun p => (l.getD p 0, p)).filter fun t => t.1 ≠ 0

theorem mem_backTerms {l : List ℤ} {t : ℤ × ℕ} :
    t ∈ backTerms l ↔ t.2 < l.length ∧ t.1 = l.getD t.2 0 ∧ t.1 ≠ 0 := by
  unfold backTerms
  rw [List.mem_filter, List.mem_map]
  constructor
  · rintro ⟨⟨p, hp, rfl⟩, h⟩
    simp only [List.mem_reverse, List.mem_range] at hp
    exact ⟨hp, rfl, by simpa using h⟩
  · rintro ⟨h1, h2, h3⟩
    exact ⟨⟨t.2, by simpa using h1, by rw [← h2]⟩, by simpa using h3⟩

theorem backTerms_pairwise (l : List ℤ) : ((backTerms l).map Prod.snd).Pairwise (· > ·) := by
  have h : ((List.range l.length).reverse.map fun p => (l.getD p 0, p)).Pairwise
      (fun a b => a.2 > b.2) := by
    rw [List.pairwise_map, List.pairwise_reverse]
    exact List.pairwise_lt_range
  rw [List.pairwise_map]
  exact h.filter _

theorem backTerms_cons {l : List ℤ} (hn : Normalized l) :
    ∃ ts, backTerms l = (l.getD (l.length - 1) 0, l.length - 1) :: ts := by
  rw [normalized_iff] at hn
  have hpos := List.length_pos_iff.2 hn.1
  cases h : backTerms l with
  | nil =>
    have : (l.getD (l.length - 1) 0, l.length - 1) ∈ backTerms l :=
      mem_backTerms.2 ⟨by simp; omega, rfl, hn.2⟩
    rw [h] at this; simp at this
  | cons t ts =>
    refine ⟨ts, ?_⟩
    have hm : (l.getD (l.length - 1) 0, l.length - 1) ∈ backTerms l :=
      mem_backTerms.2 ⟨by simp; omega, rfl, hn.2⟩
    have ht : t ∈ backTerms l := by rw [h]; simp
    have h1 := mem_backTerms.1 ht
    have hp := backTerms_pairwise l
    rw [h] at hm hp
    rcases List.mem_cons.1 hm with h2 | h2
    · rw [h2]
    · simp only [List.map_cons, List.pairwise_cons] at hp
      have := hp.1 _ (List.mem_map.2 ⟨_, h2, rfl⟩)
      simp only at this
      omega

theorem denLcm_ints (l : List PyCoef) (h : ∀ q, PyCoef.rat q ∈ l → q.den = 1) : denLcm l = 1 := by
  unfold denLcm
  have h' : ∀ q ∈ rationals l, q.den = 1 := by
    intro q hq
    simp only [rationals, List.mem_filterMap] at hq
    obtain ⟨c, hc, hcq⟩ := hq
    cases c with
    | rat r => simp at hcq; subst hcq; exact h _ hc
    | int z => simp at hcq
    | other => simp at hcq
  generalize rationals l = m at h'
  induction m with
  | nil => rfl
  | cons q m ih =>
    rw [List.foldl_cons, h' q (by simp)]
    exact ih fun r hr => h' r (List.mem_cons_of_mem _ hr)

/-- **C15**, round trip: converting a coefficient list with nonzero leading entry (or the empty list)
to a sympy expression and back gives the list. -/
theorem C15_roundtrip (l : List ℤ) (hn : l = [] ∨ Normalized l) :
    convert (convertBack l) = .ok l := by
  rcases hn with rfl | hn
  · rfl
  obtain ⟨ts, hts⟩ := backTerms_cons hn
  have hpos : 0 < l.length := List.length_pos_iff.2 (normalized_iff.1 hn).1
  have hb : convertBack l = match backTerms l with
      | [] => .number (.rat 0)
      | [(c, 0)] => .number (.rat c)
      | _ => .expr ((backTerms l).map fun t => (.rat t.1, t.2)) := by
    cases l with
    | nil => simp at hpos
    | cons a l => rfl
  set cl := (List.range l.length).map
    (powLookup ((backTerms l).map fun t => (PyCoef.rat t.1, t.2))) with hcl
  by_cases hsingle : ts = [] ∧ l.length = 1
  · obtain ⟨a, rfl⟩ := List.length_eq_one_iff.1 hsingle.2
    rw [hb, hts, hsingle.1]
    simp only [List.length_singleton, Nat.sub_self]
    simp [convert, convertRationalsToInts, scaleCoef, denLcm, rationals]
  · have hc : convert (convertBack l) = convertRationalsToInts cl := by
      have : convertBack l = .expr ((backTerms l).map fun t => (.rat t.1, t.2)) := by
        rw [hb]
        split
        · rename_i h; rw [hts] at h; simp at h
        · rename_i h; rw [hts] at h; simp at h
          exact absurd ⟨h.2, by omega⟩ hsingle
        · rfl
      rw [this, hcl]
      rw [hts]
      simp only [List.map_cons, convert]
      rw [Nat.sub_add_cancel hpos]
    have hrat : ∀ t ∈ (backTerms l).map fun t => (PyCoef.rat t.1, t.2), ∃ q, t.1 = .rat q := by
      intro t ht
      obtain ⟨u, _, rfl⟩ := List.mem_map.1 ht
      exact ⟨_, rfl⟩
    have hmem : ∀ c ∈ cl, c = .int 0 ∨ ∃ z : ℤ, c = .rat z := by
      intro c hc
      obtain ⟨i, _, rfl⟩ := List.mem_map.1 hc
      unfold powLookup
      cases ht : (((backTerms l).map fun t => (PyCoef.rat t.1, t.2)).reverse.find?
          (fun t => decide (t.2 = i))) with
      | none => left; rfl
      | some t =>
        right
        have := List.mem_of_find?_eq_some ht
        simp only [List.mem_reverse, List.mem_map] at this
        obtain ⟨u, _, rfl⟩ := this
        exact ⟨u.1, rfl⟩
    obtain ⟨r, h1, h2, h3⟩ := convertRationals_ok cl (by
      intro c hc; rcases hmem c hc with rfl | ⟨z, rfl⟩ <;> simp)
    have hd : denLcm cl = 1 := denLcm_ints _ (by
      intro q hq
      rcases hmem _ hq with h | ⟨z, h⟩
      · simp at h
      · simp at h; rw [h]; simp)
    rw [hc, h1]
    congr 1
    have hnd : (((backTerms l).map fun t => (PyCoef.rat t.1, t.2)).map Prod.snd).Nodup := by
      rw [List.map_map]
      exact (backTerms_pairwise l).imp (fun h => ne_of_gt h)
    have hlen : r.length = l.length := by rw [h2, hcl]; simp
    apply List.ext_getElem hlen
    intro i hi hi'
    have := h3 i
    rw [hd] at this
    have hcli : (cl.map PyCoef.val).getD i 0 = (l.getD i 0 : ℤ) := by
      have : (cl.map PyCoef.val).getD i 0 =
          (powLookup ((backTerms l).map fun t => (PyCoef.rat t.1, t.2)) i).val := by
        simp [hcl, List.getD, hi']
      rw [this, powLookup_val _ hnd, List.map_map]
      by_cases h0 : l.getD i 0 = 0
      · rw [h0]
        push_cast
        apply List.sum_eq_zero
        intro x hx
        obtain ⟨u, hu, rfl⟩ := List.mem_map.1 hx
        have hu := mem_backTerms.1 hu
        simp only [Function.comp]
        rw [if_neg]
        intro h; exact hu.2.2 (by rw [hu.2.1, h, h0])
      · have hu : (l.getD i 0, i) ∈ backTerms l := mem_backTerms.2 ⟨hi', rfl, h0⟩
        have hnd2 : ((backTerms l).map Prod.snd).Nodup :=
          (backTerms_pairwise l).imp (fun h => ne_of_gt h)
        revert hu hnd2
        generalize backTerms l = bt
        intro hu hnd2
        induction bt with
        | nil => simp at hu
        | cons b bt ih =>
          simp only [List.map_cons, List.nodup_cons] at hnd2
          rw [List.map_cons, List.sum_cons]
          rcases List.mem_cons.1 hu with rfl | hu'
          · have : (bt.map ((fun t : PyCoef × ℕ => if t.2 = i then t.1.val else 0) ∘
                fun t : ℤ × ℕ => (PyCoef.rat t.1, t.2))).sum = 0 := by
              apply List.sum_eq_zero
              intro x hx
              obtain ⟨u, hu, rfl⟩ := List.mem_map.1 hx
              simp only [Function.comp]
              rw [if_neg]
              intro h
              exact hnd2.1 (List.mem_map.2 ⟨u, hu, h⟩)
            rw [this, add_zero]
            simp [PyCoef.val]
          · rw [ih hu' hnd2.2]
            have : b.2 ≠ i := fun h => hnd2.1 (List.mem_map.2 ⟨_, hu', h.symm⟩)
            simp [this]
    rw [hcli] at this
    have h4 : r.getD i 0 = l.getD i 0 := by
      have : ((r.getD i 0 : ℤ) : ℚ) = (l.getD i 0 : ℤ) := by rw [this]; simp
      exact_mod_cast this
    simpa [List.getD, hi, hi'] using h4

example : Normalized [3, 0, -2, 5] ∧ convert (convertBack [3, 0, -2, 5]) = .ok [3, 0, -2, 5] :=
  ⟨⟨5, rfl, by decide⟩, by decide +kernel⟩

/-! ## C16 -/

/-- `q` is the converted form of `p` -/
def Conv (p : SPoly) (q : List ℤ) : Prop := Normalized q ∧ q.length = p.toPoly.natDegree + 1 ∧
  ∃ c : ℝ, 0 < c ∧ ∀ x : ℝ, (denote (Int.castRingHom ℝ) q).eval x = c * aeval x p.toPoly

theorem mapM_convert (l : List SPoly) (h : ∀ p ∈ l, p.Rational ∧ p.NonzeroTerms) :
    ∃ l', l.mapM convert = .ok l' ∧ List.Forall₂ Conv l l' := by
  induction l with
  | nil => exact ⟨[], rfl, .nil⟩
  | cons p l ih =>
    obtain ⟨l', h1, h2⟩ := ih fun q hq => h q (List.mem_cons_of_mem _ hq)
    obtain ⟨q, h3, h4, h4', c, h5, h6⟩ := C15_convert p (h p (by simp)).1 (h p (by simp)).2
    refine ⟨q :: l', by rw [List.mapM_cons, h3, h1]; rfl, .cons ⟨h4, h4', (c : ℝ), by exact_mod_cast h5, ?_⟩ h2⟩
    intro x
    have h7 : denote (Int.castRingHom ℝ) q = (denote (Int.castRingHom ℚ) q).map (algebraMap ℚ ℝ) := by
      rw [denote_eq_iff]
      intro i
      rw [coeff_map, coeff_denote]; simp
    rw [h7, h6, eval_map_algebraMap, map_mul, aeval_C]
    simp

theorem Conv.forall_mem {l : List SPoly} {l' : List (List ℤ)} (h : List.Forall₂ Conv l l') :
    ∀ q ∈ l', ∃ p ∈ l, Conv p q := by
  induction h with
  | nil => simp
  | cons h1 _ ih =>
    intro q hq
    rcases List.mem_cons.1 hq with rfl | hq
    · exact ⟨_, by simp, h1⟩
    · obtain ⟨p, hp, h⟩ := ih q hq
      exact ⟨p, List.mem_cons_of_mem _ hp, h⟩

theorem Conv.transfer (P : ℝ → Prop) (hP : ∀ c v : ℝ, 0 < c → (P (c * v) ↔ P v)) (x : ℝ)
    {l : List SPoly} {l' : List (List ℤ)} (h : List.Forall₂ Conv l l') :
    (∀ q ∈ l', P ((denote (Int.castRingHom ℝ) q).eval x)) ↔ ∀ p ∈ l, P (aeval x p.toPoly) := by
  induction h with
  | nil => simp
  | cons h1 _ ih =>
    simp only [List.mem_cons, forall_eq_or_imp, ih]
    obtain ⟨_, _, c, hc, hx⟩ := h1
    rw [hx x, hP c _ hc]

/-- **C16**. The public entry point: on nonzero rational polynomials, whenever it returns, the answer
is `True` exactly when the system has a real solution; the only exception is the refusal of more than
five polynomials, and it does not occur if all degrees are at most five. -/
theorem C16_isym_vts {E : Env ℤ ℝ} (hE : EnvOK E (Int.castRingHom ℝ)) (le lt eq ne : List SPoly)
    (hr : ∀ p ∈ le ++ lt ++ eq ++ ne, p.Rational ∧ p.NonzeroTerms) :
    (∀ b, isymVts E le lt eq ne = .ok b → (b = true ↔ ∃ x : ℝ,
      (∀ p ∈ le, aeval x p.toPoly ≤ 0) ∧ (∀ p ∈ lt, aeval x p.toPoly < 0) ∧
      (∀ p ∈ eq, aeval x p.toPoly = 0) ∧ (∀ p ∈ ne, aeval x p.toPoly ≠ 0))) ∧
    (∀ e, isymVts E le lt eq ne = .error e → e = .moreThan5) ∧
    ((∀ p ∈ le ++ lt ++ eq ++ ne, p.toPoly.natDegree ≤ 5) → ∃ b, isymVts E le lt eq ne = .ok b) := by
  obtain ⟨le', a1, a2⟩ := mapM_convert le fun p hp => hr p (by simp [hp])
  obtain ⟨lt', b1, b2⟩ := mapM_convert lt fun p hp => hr p (by simp [hp])
  obtain ⟨eq', c1, c2⟩ := mapM_convert eq fun p hp => hr p (by simp [hp])
  obtain ⟨ne', d1, d2⟩ := mapM_convert ne fun p hp => hr p (by simp [hp])
  have hv : isymVts E le lt eq ne = internalVts E le' lt' eq' ne' := by
    simp [isymVts, a1, b1, c1, d1, bind, Except.bind]
  have hall : ∀ q ∈ le' ++ lt' ++ eq' ++ ne', ∃ p ∈ le ++ lt ++ eq ++ ne, Conv p q := by
    intro q hq
    simp only [List.mem_append] at hq
    rcases hq with ((hq | hq) | hq) | hq
    · obtain ⟨p, hp, h⟩ := Conv.forall_mem a2 q hq; exact ⟨p, by simp [hp], h⟩
    · obtain ⟨p, hp, h⟩ := Conv.forall_mem b2 q hq; exact ⟨p, by simp [hp], h⟩
    · obtain ⟨p, hp, h⟩ := Conv.forall_mem c2 q hq; exact ⟨p, by simp [hp], h⟩
    · obtain ⟨p, hp, h⟩ := Conv.forall_mem d2 q hq; exact ⟨p, by simp [hp], h⟩
  have hn : ∀ p ∈ le' ++ lt' ++ eq' ++ ne', Normalized p := by
    intro q hq
    obtain ⟨p, _, h⟩ := hall q hq
    exact h.1
  have hs := internalVts_spec hE le' lt' eq' ne' hn
  rw [hv]
  refine ⟨fun b hb => ?_, fun e he => (hs.2 e he).1, fun hdeg => ?_⟩
  · rw [hs.1 b hb]
    unfold Satisfiable
    refine exists_congr fun x => ?_
    rw [Conv.transfer (· ≤ 0) (fun c v hc => ⟨fun h => by by_contra h'; push Not at h'; exact absurd h (not_le.2 (mul_pos hc h')),
        fun h => mul_nonpos_of_nonneg_of_nonpos hc.le h⟩) x a2,
      Conv.transfer (· < 0) (fun c v hc => ⟨fun h => by by_contra h'; push Not at h'; exact absurd h (not_lt.2 (mul_nonneg hc.le h')),
        fun h => mul_neg_of_pos_of_neg hc h⟩) x b2,
      Conv.transfer (· = 0) (fun c v hc => by simp [hc.ne']) x c2,
      Conv.transfer (· ≠ 0) (fun c v hc => by simp [hc.ne']) x d2]
  · refine C02_degree hE _ _ _ _ hn fun q hq => ?_
    obtain ⟨p, hp, h⟩ := hall q hq
    have := hdeg p hp
    rw [h.2.1]; omega

-- `x²/2 - 1 ≤ 0` and `3 x ≠ 0`
example : ∀ p ∈ [SPoly.expr [(.rat (1/2), 2), (.rat (-1), 0)]] ++ [] ++ [] ++
    [SPoly.expr [(.rat 3, 1)]], p.Rational ∧ p.NonzeroTerms := by
  intro p hp
  simp at hp
  rcases hp with rfl | rfl
  · refine ⟨⟨by simp, by simp, ?_⟩, ?_⟩ <;> intro t ht <;> simp at ht <;>
      rcases ht with rfl | rfl <;> simp
  · refine ⟨⟨by simp, by simp, ?_⟩, ?_⟩ <;> intro t ht <;> simp at ht <;> subst ht <;> simp

end Verif.Vts
