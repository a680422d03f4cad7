import Verif.Qe.ChExt
import Verif.Qe.ChCopySem

/-!
# `extend_single_table`: what the table means
-/

set_option linter.unusedSectionVars false

namespace Verif.Qe

open Polynomial Verif.Alg

variable {R : Type} [CommRing R] [DecidableEq R]
variable {K : Type*} [Field K] [LinearOrder K] [IsStrictOrderedRing K] [PolyIVT K]

/-- The parameter values `φ` have the signs of the context. -/
structure Realises (A : MAlg R) (φ : R →+* K) (c : Ctx R) : Prop where
  ok : RValOK A φ
  ctx : ∀ k s, dGet c k = some s → s = sg (φ k)

theorem Realises.signCtx {A : MAlg R} {φ : R →+* K} {c : Ctx R} (h : Realises A φ c) {k : R} {s : ℤ}
    (hs : signCtx A c k = .ok s) : s = sg (φ k) := by
  unfold Verif.Qe.signCtx at hs
  split at hs
  · next h' => cases hs; exact h.ok.sign k h'
  · cases hd : dGet c k with
    | none => rw [hd] at hs; cases hs
    | some v => rw [hd] at hs; cases hs; exact h.ctx k _ hd

theorem Realises.cval {A : MAlg R} {φ : R →+* K} {c : Ctx R} (h : Realises A φ c) {p : List R} {v : ℤ}
    (hd : deg p = 0) (hv : cval A c p = some v) : v = sg (φ (p.headD 0)) := by
  unfold Verif.Qe.cval at hv
  split at hv
  · next h' =>
    cases hv
    cases p with
    | nil => simp [h.ok.zero, sg_zero]
    | cons a p =>
      apply h.ok.sign
      exact h'
  · exact h.ctx _ _ hv

theorem SegSem.transfer {φ : R →+* K} {D D' : Diagram R ℚ} {rows rows' : List (List R)} {L : K → Prop}
    {gs : List (ℚ × ℚ)} {xs : List K} (h : SegSem φ D rows L gs xs) :
    (∀ q ∈ rows', ∀ i ∈ segCols gs, ∀ x, (∀ r ∈ rows, sg ((P φ r).eval x) = cv D r i) →
      sg ((P φ q).eval x) = cv D' q i) →
    (∀ q ∈ rows', ∀ i ∈ segCols gs, (∀ r ∈ rows, sgTop (P φ r) = cv D r i) →
      sgTop (P φ q) = cv D' q i) → SegSem φ D' rows' L gs xs := by
  induction h with
  | last L g e hg he =>
    intro h1 h2
    exact .last L g e (fun q hq y hy => h1 q hq g (by simp [segCols]) y fun r hr => hg r hr y hy)
      fun q hq => h2 q hq e (by simp [segCols]) he
  | cons L g e gs x xs hx hg he _ ih =>
    intro h1 h2
    refine .cons L g e gs x xs hx
      (fun q hq y hy hyx => h1 q hq g (by simp [segCols]) y fun r hr => hg r hr y hy hyx)
      (fun q hq => h1 q hq e (by simp [segCols]) x he)
      (ih (fun q hq i hi => h1 q hq i (by simp [segCols, hi]))
        fun q hq i hi => h2 q hq i (by simp [segCols, hi]))

theorem chRootVal_sem [IsDomain R] {A : MAlg R} {c : Ctx R} {T E0 : Table R} {rows : List (List R)}
    {gs : List (ℚ × ℚ)} {p : List R} {pols : List (List R)} {s : ℤ} {φ : R →+* K}
    (h : ExtHyp A c T rows gs p pols s) (hR : Realises A φ c) (hcp : Canon p)
    (hcq : ∀ q ∈ pols, Canon q) (hdq : ∀ q ∈ pols, deg q ≤ deg p)
    (hlcq : ∀ q ∈ pols, 0 < deg q → φ (lc q) ≠ 0) {e : ℚ} {v : ℤ}
    (hv : ChRootVal A c T E0 p pols e v) {x : K}
    (hx : ∀ r ∈ rows, sg ((P φ r).eval x) = cv T r e)
    (hx0 : ∀ q ∈ pols, sg ((P φ q).eval x) = cv E0 q e) : sg ((P φ p).eval x) = v := by
  obtain ⟨q, hq, hz, _, hpos, r, s', hr, hs', rfl⟩ := hv
  have hev : (P φ q).eval x = 0 := by
    rw [← sg_eq_zero_iff, hx0 q hq, hz]
  have hrem := P_rem φ hcp (hcq q hq) hpos (hdq q hq) hr hev
  have hlc := hlcq q hq hpos
  have hs2 := hR.signCtx hs'
  have htv : tv A c T r e = sg ((P φ r).eval x) := by
    obtain ⟨r', hr', h1, h2⟩ := h.rem q hq hpos
    rw [hr] at hr'
    cases hr'
    unfold tv
    by_cases hd : 0 < deg r
    · rw [if_pos hd, hx r (h1 hd)]
    · have hd : deg r = 0 := by omega
      obtain ⟨v, _, hv⟩ := h2 hd
      rw [if_neg (by omega), hv, P_const φ hd, eval_C, ← hR.cval hd hv]
      rfl
  rw [htv, hrem, sg_mul, sg_pow]
  rw [hs2]
  rcases sg_cases (φ (lc q)) with ⟨_, hs⟩ | ⟨hs, _⟩ | ⟨_, hs⟩
  · rw [hs]
    by_cases hodd : (deg p - deg q + 1) % 2 = 1
    · rw [if_pos ⟨by decide, hodd⟩, Odd.neg_one_pow (Nat.odd_iff.2 hodd)]; ring
    · rw [if_neg (fun h => hodd h.2), Even.neg_one_pow (Nat.even_iff.2 (by omega)), one_mul]
  · exact absurd hs hlc
  · rw [hs, if_neg (by rintro ⟨h, _⟩; exact absurd h (by decide))]; simp

/-- Hypotheses about the meaning of the tables. -/
structure ExtSemHyp (A : MAlg R) (φ : R →+* K) (c : Ctx R) (p : List R) (pols : List (List R)) : Prop where
  real : Realises A φ c
  canon : Canon p
  canons : ∀ q ∈ pols, Canon q
  le : ∀ q ∈ pols, deg q ≤ deg p
  lc0 : ∀ q ∈ pols, 0 < deg q → φ (lc q) ≠ 0
  der : 0 < deg p → derivative p ∈ pols

theorem chPhyp [IsDomain R] {A : MAlg R} {c : Ctx R} {T E0 D2 : Table R} {rows : List (List R)}
    {gs gs1 : List (ℚ × ℚ)} {p : List R} {pols : List (List R)} {s : ℤ} {φ : R →+* K}
    (h : ExtHyp A c T rows gs p pols s) (hS : ExtSemHyp A φ c p pols)
    {xs : List K} (hxs : SegSem φ T rows (fun _ => True) gs xs)
    (hs0 : TShape A c E0 pols gs1) (hb0 : ∀ q ∈ pols, sgBot (P φ q) = cv E0 q 0) {xs1 : List K}
    (hxs1 : SegSem φ E0 pols (fun _ => True) gs1 xs1)
    (hpair : ∀ y ∈ (segEnds gs1).zip xs1, y ∈ (segEnds gs).zip xs)
    (hpos : 0 < deg p) (hmid : CMid A c T E0 gs1 p pols s D2) :
    PHyp φ D2 p pols 0 gs1 xs1 ∧ cv D2 p 0 = sgBot (P φ p) := by
  have hd1 := hS.der hpos
  have hsl : s = sg (φ (lc p)) := hS.real.signCtx h.lc
  have hlc : φ (lc p) ≠ 0 := by
    intro h'; rw [h', sg_zero] at hsl; exact h.s0 hpos hsl
  have hdeg := P_natDegree φ hS.canon hlc
  have hlead := P_leadingCoeff φ hS.canon hlc
  have hder0 : P φ (derivative p) ≠ 0 := by
    rw [P_derivative]
    intro h
    have := Polynomial.derivative_eq_zero.1 h
    omega
  refine ⟨⟨hd1, ?_, ?_, ?_⟩, ?_⟩
  · intro g hg
    rw [hmid.old _ hd1]
    apply hs0.seg.gap g hg _ hd1
    rw [← hb0 _ hd1]
    exact fun h => hder0 (sgBot_eq_zero.1 h)
  · intro y hy
    obtain ⟨h1, h2⟩ := hxs1.pair y hy
    exact chRootVal_sem h hS.real hS.canon hS.canons hS.le hS.lc0 (hmid.root y.1 h1)
      (hxs.pair y (hpair y hy)).2 h2
  · rw [hs0.last, hmid.top, hsl, sgTop, hlead]
  · rw [hmid.bot, hsl, sgBot, hlead, hdeg, mul_comm]

theorem extendSingle_sem [IsDomain R] {A : MAlg R} {c : Ctx R} {T E0 : Table R} {rows : List (List R)}
    {gs : List (ℚ × ℚ)} {b : ℚ} {p : List R} {pols : List (List R)} {s : ℤ} {φ : R →+* K}
    (h : ExtHyp A c T rows gs p pols s) (hS : ExtSemHyp A φ c p pols)
    (hT : TSem φ T rows gs) (hs0 : TShape A c E0 pols (condSeg (selOf T rows pols) b gs))
    (hv0 : ∀ q ∈ pols, cv E0 q b = tv A c T q 0 ∧
        ∀ i, i = 0 ∨ i ∈ (segCols (condSeg (selOf T rows pols) b gs)).tail →
          cv E0 q i = tv A c T q i) :
    (∀ D2, 0 < deg p → CMid A c T E0 (condSeg (selOf T rows pols) b gs) p pols s D2 →
      ¬ SegBad D2 p 0 (condSeg (selOf T rows pols) b gs)) ∧
    ∀ E gs', ExtOut A c T E0 (condSeg (selOf T rows pols) b gs) p pols s E gs' →
      TSem φ E (p :: pols) gs' := by
  obtain ⟨xs, hxs⟩ := hT.seg
  obtain ⟨hb0, xs1, hxs1, hpair⟩ := copyTable_sem' h.shape hT.bot hxs h.pos (fun q hq hd => by
    obtain ⟨v, _, hv⟩ := h.const q hq hd
    rw [hv, hS.real.cval hd hv]) hv0
  constructor
  · intro D2 hpos hmid
    obtain ⟨h1, h2⟩ := chPhyp h hS hxs hs0 hb0 hxs1 hpair hpos hmid
    exact segSem_not_bad (hxs1.congr hmid.old) 0 lowerCut_univ (by rw [h2]; exact endL_bot _) h1
  · rintro E gs' (⟨hd, rfl, hold, hnew⟩ | ⟨hpos, D2, hmid, hext, hcol0⟩)
    · have hsc : s = sg (φ (p.headD 0)) := hS.real.cval hd (h.maxc hd)
      refine ⟨?_, xs1, hxs1.transfer ?_ ?_⟩
      · intro q hq
        rcases List.mem_cons.1 hq with rfl | hq
        · rw [hnew 0 (Or.inl rfl), P_const φ hd, sgBot_C, hsc]
        · rw [hold q hq, hb0 q hq]
      · intro q hq i hi x hx
        rcases List.mem_cons.1 hq with rfl | hq
        · rw [hnew i (Or.inr hi), P_const φ hd, eval_C, hsc]
        · rw [hold q hq, hx q hq]
      · intro q hq i hi hx
        rcases List.mem_cons.1 hq with rfl | hq
        · rw [hnew i (Or.inr hi), P_const φ hd, sgTop_C, hsc]
        · rw [hold q hq, hx q hq]
    · obtain ⟨h1, h2⟩ := chPhyp h hS hxs hs0 hb0 hxs1 hpair hpos hmid
      refine ⟨?_, ?_⟩
      · intro q hq
        rw [hcol0]
        rcases List.mem_cons.1 hq with rfl | hq
        · exact h2.symm
        · rw [hmid.old q hq, hb0 q hq]
      · exact segSem_ext (fun q => List.mem_cons) (hxs1.congr hmid.old) 0 gs' lowerCut_univ
          (by rw [h2]; exact endL_bot _) h1 hext

end Verif.Qe
