import Verif.Qe.FloatRun
import Mathlib.Tactic.IntervalCases

/-!
# The polynomials `1 - x`, ..., `(n+1) - x`
-/

set_option linter.unusedSectionVars false

open Polynomial Verif.Alg

namespace Verif.Qe

/-- The polynomial `i - x`. -/
def lin (i : ℕ) : List ℤ := [(i : ℤ), -1]

/-- The polynomials `1 - x`, ..., `n - x`. -/
def lins (n : ℕ) : List (List ℤ) := (List.range n).map fun i => lin (i + 1)

theorem mem_lins {n : ℕ} {q : List ℤ} : q ∈ lins n ↔ ∃ i, 1 ≤ i ∧ i ≤ n ∧ q = lin i := by
  unfold lins
  rw [List.mem_map]
  constructor
  · rintro ⟨i, hi, rfl⟩
    exact ⟨i + 1, by omega, by have := List.mem_range.1 hi; omega, rfl⟩
  · rintro ⟨i, h1, h2, rfl⟩
    exact ⟨i - 1, List.mem_range.2 (by omega), by rw [show i - 1 + 1 = i by omega]⟩

theorem lins_succ (n : ℕ) : lins (n + 1) = lins n ++ [lin (n + 1)] := by
  unfold lins; rw [List.range_succ, List.map_append]; rfl

theorem lin_inj {i j : ℕ} (h : lin i = lin j) : i = j := by
  unfold lin at h
  simpa using h

theorem lin_normal (i : ℕ) : Normal (lin i) := by
  intro h; simp [lin]

theorem isConst_lin (i : ℕ) : isConst (lin i) = false := by simp [isConst, lin]

theorem natDegree_lin (i : ℕ) : (poly (lin i)).natDegree ≤ 1 := by
  rw [poly_eq]
  have := natDegree_toPoly (canon_of_normal (lin_normal i))
  rw [this]; simp [deg, lin]

theorem lins_closed (n : ℕ) :
    Closed {p : ℤ[X] | p.natDegree = 0 ∨ ∃ q ∈ lins n, p = poly q} := by
  have hle : ∀ p ∈ {p : ℤ[X] | p.natDegree = 0 ∨ ∃ q ∈ lins n, p = poly q}, p.natDegree ≤ 1 := by
    rintro p (h | ⟨q, hq, rfl⟩)
    · omega
    · obtain ⟨i, _, _, rfl⟩ := mem_lins.1 hq
      exact natDegree_lin i
  refine ⟨Or.inl (by simp), ?_, ?_, ?_⟩
  · intro p hp
    left
    have h1 := hle p hp
    have h2 := natDegree_derivative_le p
    omega
  · intro p hp
    left
    have h1 := hle p hp
    have h2 := p.eraseLead_natDegree_le
    omega
  · intro p hp q hq hpos hdeg r Q hr _
    left
    have h1 := hle q hq
    omega

theorem lins_key {i j : ℕ} (hi : 1 ≤ i) (hij : i ≤ j) : orderKey intAlg (lin i) ≤ orderKey intAlg (lin j) := by
  have key : ∀ k : ℕ, 1 ≤ k → orderKey intAlg (lin k) = [1, 0, -1, (k : ℚ)] := by
    intro k hk
    have h1 : exponents (lin k) = [1] := by
      unfold exponents lin
      rw [show (List.range [(k : ℤ), -1].length) = [0, 1] from rfl]
      simp
    have h2 : (k : ℤ) ≠ 0 := by omega
    unfold orderKey
    rw [h1]
    have h3 : (lin k).getD 0 0 = (k : ℤ) := rfl
    rw [h3, if_neg h2]
    simp [lin, intAlg, lc]
  rw [key i hi, key j (by omega)]
  have : (i : ℚ) ≤ j := by exact_mod_cast hij
  rcases eq_or_lt_of_le this with h | h
  · rw [h]
  · apply le_of_lt
    simp [List.cons_lt_cons_iff, h]

/-- The sequence of the polynomials `1 - x`, ..., `n - x` in whatever order: they come in this order. -/
theorem lins_seq {n fuel : ℕ} {ps S : List (List ℤ)} (hps : ∀ p, p ∈ ps ↔ p ∈ lins n)
    (hS : muchnikSeq intAlg fuel [[]] ps = .ok S) : (S.filter fun p => !isConst p) = lins n := by
  have hnorm : ∀ p ∈ ps, Normal p := by
    intro p hp
    obtain ⟨i, _, _, rfl⟩ := mem_lins.1 ((hps p).1 hp)
    exact lin_normal i
  obtain ⟨hinv, hin⟩ := seq_closed intAlg ps hnorm fuel S hS
  have hT := C21_least intAlg ps hnorm fuel S hS _ (lins_closed n)
    (fun p hp => Or.inr ⟨p, (hps p).1 hp, rfl⟩)
  have hmem : ∀ q, q ∈ (S.filter fun p => !isConst p) ↔ q ∈ lins n := by
    intro q
    rw [List.mem_filter]
    constructor
    · rintro ⟨hq, hc⟩
      rcases hT q hq with h | ⟨q', hq', h⟩
      · rw [poly_eq, natDegree_toPoly (hinv.canon q hq)] at h
        rw [(isConst_iff q).2 h] at hc
        simp at hc
      · obtain ⟨i, _, _, rfl⟩ := mem_lins.1 hq'
        rw [poly_eq, poly_eq] at h
        rw [canon_inj (hinv.canon q hq) (canon_of_normal (lin_normal i)) h]
        exact hq'
    · intro hq
      refine ⟨hin q ((hps q).2 hq), ?_⟩
      obtain ⟨i, _, _, rfl⟩ := mem_lins.1 hq
      rw [isConst_lin]; rfl
  have hnd : (lins n).Nodup := by
    unfold lins
    refine (List.nodup_range).map ?_
    intro i j h
    have := lin_inj h
    omega
  have hperm : (S.filter fun p => !isConst p).Perm (lins n) :=
    (List.perm_ext_iff_of_nodup (hinv.nodup.filter _) hnd).2 hmem
  refine List.Perm.eq_of_pairwise (le := fun a b => orderKey intAlg a ≤ orderKey intAlg b) ?_
    ((C83_order intAlg ps hnorm fuel S hS).filter _) ?_ hperm
  · intro a b ha hb h1 h2
    refine orderKey_inj (fun n : ℤ => (n : ℚ)) (fun a b h => Int.cast_injective h) (fun l => rfl) ?_ ?_
      (le_antisymm h1 h2)
    · exact hinv.canon a (List.mem_filter.1 ha).1
    · obtain ⟨i, _, _, rfl⟩ := mem_lins.1 hb
      exact canon_of_normal (lin_normal i)
  · unfold lins
    rw [List.pairwise_map]
    refine List.pairwise_lt_range.imp ?_
    intro i j hij
    exact lins_key (by omega) (by omega)

/-! ### The exact run -/

/-- The columns of the roots. -/
def cc (k : ℕ) : ℚ := 1 - (1 / 2) ^ k

theorem cc_mid (k : ℕ) : (cc (k + 1) + 1) / 2 = cc (k + 2) := by
  unfold cc; rw [pow_succ, pow_succ, pow_succ]; ring

theorem cc_lt (k : ℕ) : cc k < cc (k + 1) := by
  unfold cc
  have : (0 : ℚ) < (1 / 2) ^ k := by positivity
  rw [pow_succ]; linarith

theorem cc_lt_one (k : ℕ) : cc k < 1 := by
  unfold cc
  have : (0 : ℚ) < (1 / 2) ^ k := by positivity
  linarith

/-- The columns up to the last root. -/
def runInit (k : ℕ) : List (ℚ × ℚ) := (List.range k).map fun i => ((cc (i + 1) + cc i) / 2, cc (i + 1))

/-- All columns after `k` polynomials. -/
def runSegs (k : ℕ) : List (ℚ × ℚ) := runInit k ++ [(cc (k + 1), 1)]

theorem segLast_append (l : ℚ) (gs : List (ℚ × ℚ)) (g e : ℚ) : segLast l (gs ++ [(g, e)]) = e := by
  induction gs generalizing l with
  | nil => rfl
  | cons x gs ih => obtain ⟨a, b⟩ := x; exact ih b

theorem runInit_last (k : ℕ) : segLast 0 (runInit k) = cc k := by
  cases k with
  | zero => simp [runInit, segLast, cc]
  | succ k => unfold runInit; rw [List.range_succ, List.map_append]; exact segLast_append _ _ _ _

theorem runInit_succ (k : ℕ) :
    runInit (k + 1) = runInit k ++ [((cc (k + 1) + cc k) / 2, cc (k + 1))] := by
  unfold runInit; rw [List.range_succ, List.map_append]; rfl

theorem segInner_append (gs : List (ℚ × ℚ)) (x : ℚ × ℚ) : segInner (gs ++ [x]) = segEnds gs := by
  induction gs with
  | nil => rfl
  | cons y gs ih =>
    obtain ⟨a, b⟩ := y
    rw [List.cons_append]
    obtain ⟨z, zs, hz⟩ : ∃ z zs, gs ++ [x] = z :: zs := by
      cases gs with
      | nil => exact ⟨_, _, rfl⟩
      | cons y ys => exact ⟨_, _, rfl⟩
    rw [hz] at ih ⊢
    show b :: segInner (z :: zs) = b :: segEnds gs
    rw [ih]

/-- The point of an inner column. -/
theorem segSem_point {R K : Type} [CommRing R] [DecidableEq R] [Field K] [LinearOrder K]
    [IsStrictOrderedRing K] [PolyIVT K] {φ : R →+* K} {D : Diagram R ℚ} {rows : List (List R)} {L : K → Prop} {gs : List (ℚ × ℚ)}
    {xs : List K} (h : SegSem φ D rows L gs xs) :
    ∀ e ∈ segInner gs, ∃ x, ∀ q ∈ rows, sg ((P φ q).eval x) = cv D q e := by
  induction h with
  | last => intro e he; simp [segInner] at he
  | cons L g e gs x xs hx hg he h ih =>
    intro e' he'
    obtain ⟨z, zs, rfl⟩ := h.ne_nil
    rcases List.mem_cons.1 he' with rfl | he'
    · exact ⟨x, he⟩
    · exact ih e' he'

theorem value_lin (i : ℕ) (x : ℝ) : value (Int.castRingHom ℝ) (lin i) x = i - x := by
  simp [value, lin]; ring

/-- The signs of the next polynomial: positive up to the last root, negative at infinity. -/
theorem run_signs {D D2 : Diagram ℤ ℚ} {S : List (List ℤ)} {k : ℕ} (hs : RShape D (runSegs k))
    (hk : ∀ q, q ∈ keys D ↔ (q ∈ S ∧ isConst q = true) ∨ q ∈ lins k)
    (hsem : RSem (Int.castRingHom ℝ) D (runSegs k)) (hp : StepHyp D (lin (k + 1)))
    (hmid : RMid D (runSegs k) (lin (k + 1)) D2) :
    cv D (lcRow (lin (k + 1))) 0 ≠ 0 ∧ cv D2 (lin (k + 1)) 0 = 1 ∧ cv D2 (lin (k + 1)) 1 = -1 ∧
      ∀ e ∈ segEnds (runInit k), cv D2 (lin (k + 1)) e = 1 := by
  have hlc : sg ((Int.castRingHom ℝ) (lc (lin (k + 1)))) = -1 := by
    rw [sg_neg']; simp [lin, lc]
  have h0 : cv D (lcRow (lin (k + 1))) 0 = -1 := by
    rw [← hsem.bot _ hp.lcRow, P_lcRow, sgBot_C, sg_lcRow, hlc]
  obtain ⟨xs, hxs⟩ := hsem.seg
  have h1 : cv D (lcRow (lin (k + 1))) 1 = -1 := by
    have := hxs.top 0 _ hp.lcRow
    rw [hs.last] at this
    rw [← this, P_lcRow, sgTop_C, sg_lcRow, hlc]
  refine ⟨by rw [h0]; decide, ?_, ?_, ?_⟩
  · rw [hmid.bot, h0]; simp [deg, lin]
  · rw [hmid.top, h1]
  · intro e he
    have he' : e ∈ segInner (runSegs k) := by unfold runSegs; rw [segInner_append]; exact he
    obtain ⟨x, hx⟩ := segSem_point hxs e he'
    rw [← rootVal_sem hp hsem.bot (hmid.root e he') hx, eval_P, value_lin]
    obtain ⟨q, hq, hqe, hq0⟩ := hs.seg.inner e he'
    have hqx := hx q hq
    rw [hqe, sg_eq_zero_iff, eval_P] at hqx
    rcases (hk q).1 hq with ⟨_, hc⟩ | hl
    · exact absurd hqe (hs.const q hq ((isConst_iff q).1 hc) hq0 e
        (Or.inr (segEnds_sub _ (segInner_sub _ he'))))
    · obtain ⟨i, _, hi, rfl⟩ := mem_lins.1 hl
      rw [value_lin] at hqx
      apply sg_pos
      have : (i : ℝ) ≤ k := by exact_mod_cast hi
      push_cast
      linarith

theorem lcs_of_seq {S pre : List (List ℤ)} (hS : SeqInv S []) {D : Diagram ℤ ℚ}
    (hpre : ∀ q ∈ pre, q ∈ S) (hk : ∀ q, q ∈ keys D ↔ (q ∈ S ∧ isConst q = true) ∨ q ∈ pre) :
    ∀ q ∈ keys D, 0 < deg q → lcRow q ∈ keys D := by
  intro q hq _
  have hqS : q ∈ S := by
    rcases (hk q).1 hq with h | h
    · exact h.1
    · exact hpre q h
  have h1 : ∀ k, derivative^[k] q ∈ S := by
    intro k
    induction k with
    | zero => exact hqS
    | succ k ih =>
      rw [Function.iterate_succ_apply']
      rcases hS.der _ ih with h | h
      · exact h
      · simp at h
  have h2 : lcRow q ∈ S := by
    rw [← iterate_derivative_lcRow (hS.canon q hqS)]; exact h1 _
  rw [hk]
  left
  refine ⟨h2, ?_⟩
  unfold isConst lcRow
  simp only [decide_eq_true_eq]
  have := strip_length_le [lc q * (fac (deg q) : ℤ)]
  simpa using this

theorem realExtend_append (A : MAlg ℤ) : ∀ (pre post : List (List ℤ)) (D : Diagram ℤ ℚ),
    realExtend A D (pre ++ post) = realExtend A D pre >>= fun D1 => realExtend A D1 post := by
  intro pre
  induction pre with
  | nil => intro post D; rfl
  | cons p pre ih =>
    intro post D
    rw [List.cons_append, realExtend_cons, realExtend_cons]
    cases realOne realGapCol A D p with
    | error e => rfl
    | ok D1 => exact ih post D1

/-- The diagram after the polynomials `1 - x`, ..., `k - x`. -/
structure Run (S : List (List ℤ)) (k : ℕ) (D : Diagram ℤ ℚ) : Prop where
  shape : RShape D (runSegs k)
  keys : ∀ q, q ∈ keys D ↔ (q ∈ S ∧ isConst q = true) ∨ q ∈ lins k
  sem : RSem (Int.castRingHom ℝ) D (runSegs k)
  zero : 1 ≤ k → ∀ i, i = 0 ∨ i ∈ segCols (runSegs k) → cv D (lin k) i = 0 → i = cc k

theorem run_step {S : List (List ℤ)} {n k : ℕ} (hS : SeqInv S [])
    (hseq : (S.filter fun p => !isConst p) = lins n) (hk : k < n) {D : Diagram ℤ ℚ} (h : Run S k D) :
    StepHyp D (lin (k + 1)) ∧ (∀ q ∈ keys D, 0 < deg q → lcRow q ∈ keys D) ∧
      ∃ D', realExtend intAlg D [lin (k + 1)] = .ok D' ∧ Run S (k + 1) D' := by
  obtain ⟨post, hpost⟩ : ∃ post, lins n = lins k ++ lin (k + 1) :: post := by
    refine ⟨(lins n).drop (k + 1), ?_⟩
    have : lins (k + 1) = (lins n).take (k + 1) := by
      unfold lins
      rw [← List.map_take, List.take_range, min_eq_left (by omega)]
    conv_lhs => rw [← List.take_append_drop (k + 1) (lins n), ← this, lins_succ]
    simp
  have hp := stepHyp_of_seq hS (by rw [hseq]; exact hpost) h.keys
  have hlS : ∀ q ∈ lins k, q ∈ S := by
    intro q hq
    have : q ∈ S.filter fun p => !isConst p := by rw [hseq, hpost]; simp [hq]
    exact (List.mem_filter.1 this).1
  have hlcs := lcs_of_seq hS hlS h.keys
  refine ⟨hp, hlcs, ?_⟩
  rcases realStep intAlg h.shape hp hlcs [] with ⟨_, h0, D2, hmid, hbad⟩ | ⟨D', gs', h1, hstep⟩
  · exact absurd hbad (rsem_not_bad h.shape hp h.sem h0 hmid)
  refine ⟨D', by rw [h1]; rfl, ?_⟩
  have hgs : gs' = runSegs (k + 1) ∧
      ∀ i, i = 0 ∨ i ∈ segCols gs' → cv D' (lin (k + 1)) i = 0 → i = cc (k + 1) := by
    rcases hstep.cases with ⟨h0, _⟩ | ⟨_, D2, hmid, hext, hcol0⟩
    · exfalso
      have := h.sem.bot _ hp.lcRow
      rw [P_lcRow, sgBot_C, sg_lcRow, h0, sg_eq_zero_iff] at this
      simp [lin, lc] at this
    · obtain ⟨_, s0, s1, s2⟩ := run_signs h.shape h.keys h.sem hp hmid
      obtain ⟨e1, e2⟩ := segExt_last (a := 1) (b := -1) (by decide) (by decide) (by decide)
        (runInit k) 0 gs' hext s0 s2 s1
      refine ⟨?_, ?_⟩
      · rw [e1, runInit_last, cc_mid]
        unfold runSegs
        rw [runInit_succ]; simp
      · rintro i (rfl | hi) h0
        · rw [hcol0, s0] at h0; exact absurd h0 (by decide)
        · exact e2 i hi h0
  obtain ⟨rfl, hzero⟩ := hgs
  refine ⟨rstep_shape h.shape hp hstep, ?_, rsem_step h.shape hp h.sem hstep, fun _ => hzero⟩
  intro q
  rw [hstep.keys, h.keys, lins_succ, List.mem_append, List.mem_singleton]
  tauto

theorem run_all {S : List (List ℤ)} {n : ℕ} (hS : SeqInv S [])
    (hseq : (S.filter fun p => !isConst p) = lins n) {d : Diagram ℤ ℚ} (h0 : Run S 0 d) :
    ∀ k ≤ n, ∃ D, realExtend intAlg d (lins k) = .ok D ∧ Run S k D := by
  intro k
  induction k with
  | zero => intro _; exact ⟨d, rfl, h0⟩
  | succ k ih =>
    intro hk
    obtain ⟨D, h1, h2⟩ := ih (by omega)
    obtain ⟨_, _, D', h3, h4⟩ := run_step hS hseq hk h2
    refine ⟨D', ?_, h4⟩
    rw [lins_succ, realExtend_append, h1]
    exact h3

/-! ### The last polynomial -/

theorem segCols_append_sub (gs : List (ℚ × ℚ)) (x : ℚ × ℚ) : ∀ i ∈ segCols gs, i ∈ segCols (gs ++ [x]) := by
  induction gs with
  | nil => simp [segCols]
  | cons y gs ih =>
    obtain ⟨a, b⟩ := y
    intro i hi
    rw [List.cons_append]
    simp only [segCols, List.mem_cons] at hi ⊢
    rcases hi with h | h | h
    · exact Or.inl h
    · exact Or.inr (Or.inl h)
    · exact Or.inr (Or.inr (ih i h))

theorem mem_segCols_last (gs : List (ℚ × ℚ)) (g e : ℚ) :
    g ∈ segCols (gs ++ [(g, e)]) ∧ e ∈ segCols (gs ++ [(g, e)]) ∧ g ∈ segGaps (gs ++ [(g, e)]) ∧
      e ∈ segEnds (gs ++ [(g, e)]) := by
  induction gs with
  | nil => simp [segCols, segGaps, segEnds]
  | cons y gs ih =>
    obtain ⟨a, b⟩ := y
    rw [List.cons_append]
    simp only [segCols, segGaps, segEnds, List.mem_cons]
    exact ⟨Or.inr (Or.inr ih.1), Or.inr (Or.inr ih.2.1), Or.inr ih.2.2.1, Or.inr ih.2.2.2⟩

theorem segLast_mem_cols (l : ℚ) (gs : List (ℚ × ℚ)) : segLast l gs = l ∨ segLast l gs ∈ segEnds gs := by
  cases gs with
  | nil => exact Or.inl rfl
  | cons x gs => exact Or.inr (segLast_mem (by simp))

theorem segGaps_lt_last : ∀ {gs : List (ℚ × ℚ)} {l : ℚ}, SegChain l gs → ∀ i ∈ segGaps gs,
    i < segLast l gs := by
  intro gs
  induction gs with
  | nil => simp [segGaps]
  | cons x gs ih =>
    obtain ⟨g, e⟩ := x
    rintro l ⟨c1, c2, c3⟩ i hi
    show i < segLast e gs
    rcases List.mem_cons.1 hi with rfl | h
    · cases gs with
      | nil => exact c2
      | cons y gs =>
        exact c2.trans (segChain_lt c3 _ (segEnds_sub _ (segLast_mem (by simp))))
    · exact ih c3 i h

/-- One more polynomial, with midpoints that fall on the neighbours: the column of the last root is
overwritten. -/
theorem run_collide {mid : ℚ → ℚ → ℚ} {S : List (List ℤ)} {n : ℕ} (hn : 1 ≤ n) (hS : SeqInv S [])
    (hseq : (S.filter fun p => !isConst p) = lins (n + 1)) {D : Diagram ℤ ℚ} (h : Run S n D)
    (hml : mid (cc (n + 1)) (cc n) = cc n) (hme : mid (cc (n + 1)) 1 = 1) :
    ∃ D', realExtendM mid intAlg D [lin (n + 1)] = .ok D' ∧
      ∀ i ∈ ck D' [], i ∈ ck D' (lin n) ∧ cv D' (lin n) i ≠ 0 := by
  obtain ⟨hp, hlcs, -⟩ := run_step hS hseq (Nat.lt_succ_self n) h
  have hs := h.shape
  obtain ⟨D1, D2, hD1, hsort, hfold1, hmid, hkeys2, hck2, hckp2, hnd2⟩ := realMid intAlg hs hp hlcs
  obtain ⟨s00, s0, s1, s2⟩ := run_signs hs h.keys h.sem hp hmid
  have hread : ∀ q ∈ keys D, ∀ i, i = 0 ∨ i ∈ segCols (runSegs n) → dRead D q i = .ok (cv D q i) :=
    fun q hq i hi => dRead_ok ((hs.ck q hq i).2 hi)
  obtain ⟨m1, m2, m3, m4⟩ := mem_segCols_last (runInit n) (cc (n + 1)) 1
  have hlc0 := hread _ hp.lcRow 0 (Or.inl rfl)
  have hlc1 := hread _ hp.lcRow 1 (Or.inr m2)
  have hseg2 : SegOK D2 (keys D) (runSegs n) :=
    hs.seg.congr hs.chain (fun q hq => hmid.old q hq 0) fun q hq i _ => hmid.old q hq i
  obtain ⟨D3, hf, hW⟩ := gapFoldM_last mid hp.new (a := 1) (by decide) (g := cc (n + 1)) (e := 1)
    (runInit n) 0 D2 le_rfl hs.chain
    (fun q hq => ⟨(hck2 q hq 0).2 (Or.inl rfl), fun i hi => (hck2 q hq i).2 (Or.inr hi)⟩)
    (fun i hi => (hckp2 i).2 hi) hseg2 s0 s2
  rw [runInit_last] at hf
  have hqp : ∀ q ∈ keys D, q ≠ lin (n + 1) := fun q hq h => hp.new (h ▸ hq)
  have hcv3 : ∀ q ∈ keys D, ∀ i, cv D3 q i = cv D q i := by
    intro q hq i
    rw [hW.old q i fun h => hqp q hq h.1, hmid.old q hq]
  have hck3 : ∀ q ∈ keys D, ∀ i, i ∈ ck D3 q ↔ i = 0 ∨ i ∈ segCols (runSegs n) := by
    intro q hq i
    rw [hW.ck, hck2 q hq]
    constructor
    · rintro (h | h)
      · exact h
      · exact absurd h.1 (hqp q hq)
    · exact Or.inl
  have hn0 : cc n ∈ segEnds (runInit n) := by
    rw [← runInit_last n]
    rcases segLast_mem_cols 0 (runInit n) with h | h
    · rw [runInit_last] at h
      obtain ⟨m, rfl⟩ : ∃ m, n = m + 1 := ⟨n - 1, by omega⟩
      have h1 : cc 0 ≤ cc m := by
        unfold cc
        have : ((1 : ℚ) / 2) ^ m ≤ 1 := pow_le_one₀ (by norm_num) (by norm_num)
        rw [pow_zero]; linarith
      have h2 := cc_lt m
      have h3 : cc 0 = 0 := by simp [cc]
      rw [h3] at h1
      rw [h] at h2
      linarith
    · exact h
  have hln : cc n ∈ segCols (runSegs n) := segCols_append_sub _ _ _ (segEnds_sub _ hn0)
  have hchain0 : ∀ {gs : List (ℚ × ℚ)} {l : ℚ} {x : ℚ × ℚ}, SegChain l (gs ++ [x]) → SegChain l gs := by
    intro gs
    induction gs with
    | nil => intro _ _ _; trivial
    | cons y gs ih =>
      obtain ⟨a, b⟩ := y
      rintro l x ⟨c1, c2, c3⟩
      exact ⟨c1, c2, ih c3⟩
  have hgapn : ∀ i ∈ segGaps (runInit n), i < cc n := by
    intro i hi
    have := segGaps_lt_last (hchain0 hs.chain) i hi
    rwa [runInit_last] at this
  have hpl : cv D3 (lin (n + 1)) (cc n) = 1 := by
    rw [hW.old _ _ fun h => lt_irrefl _ (hgapn _ h.2), s2 _ hn0]
  have hpe : cv D3 (lin (n + 1)) 1 = -1 := by
    rw [hW.old _ _ fun h => absurd (hgapn _ h.2) (not_lt.2 (cc_lt_one n).le), s1]
  have hgap3 : ∀ q ∈ keys D, cv D3 q 0 ≠ 0 → cv D3 q (cc (n + 1)) ≠ 0 := by
    intro q hq h0
    rw [hcv3 q hq] at h0 ⊢
    exact hs.seg.gap _ m3 q hq h0
  obtain ⟨D', e1, e2, e3⟩ := gapM_collide (rest := keys D) hp.new (cc_lt n) (cc_lt_one (n + 1)) hml hme
    (fun q hq => ⟨(hck3 q hq 0).2 (Or.inl rfl), (hck3 q hq _).2 (Or.inr m1)⟩)
    ((hW.ck _ _).2 (Or.inl ((hckp2 _).2 (Or.inr (by
      unfold runSegs
      have : ∀ (gs : List (ℚ × ℚ)) (x : ℚ × ℚ), ∀ i ∈ segEnds gs, i ∈ segEnds (gs ++ [x]) := by
        intro gs x
        induction gs with
        | nil => simp [segEnds]
        | cons y gs ih =>
          obtain ⟨a, b⟩ := y
          intro i hi
          rw [List.cons_append]
          simp only [segEnds, List.mem_cons] at hi ⊢
          rcases hi with h | h
          · exact Or.inl h
          · exact Or.inr (ih i h)
      exact this _ _ _ hn0)))))
    ((hW.ck _ _).2 (Or.inl ((hckp2 _).2 (Or.inr m4)))) hgap3 (by rw [hpl, hpe]; decide)
    (by rw [hpl, hpe]; decide)
  have hrun : realExtendM mid intAlg D [lin (n + 1)] = .ok D' := by
    rw [realExtendM_cons]
    have : realOne (realGapColM mid) intAlg D (lin (n + 1)) = .ok D' := by
      unfold realOne
      simp only [hlc0]
      show (if cv D (lcRow (lin (n + 1))) 0 = 0 then _ else _) = _
      rw [if_neg s00]
      simp only [hlc1]
      show (do
        let D2 ← ((triples (((dRow (dWrite (dWrite D (lin (n + 1)) 0 (cv D (lcRow (lin (n + 1))) 0 *
          (-1) ^ deg (lin (n + 1)))) (lin (n + 1)) 1 (cv D (lcRow (lin (n + 1))) 1)) []).map
          Prod.fst).insertionSort (· ≤ ·))).map
          fun c : ℚ × ℚ × ℚ => c.2.1).foldlM (realRootCol intAlg (lin (n + 1)) (keys D))
          (dWrite (dWrite D (lin (n + 1)) 0 (cv D (lcRow (lin (n + 1))) 0 * (-1) ^ deg (lin (n + 1))))
            (lin (n + 1)) 1 (cv D (lcRow (lin (n + 1))) 1))
        (triples (((dRow (dWrite (dWrite D (lin (n + 1)) 0 (cv D (lcRow (lin (n + 1))) 0 *
          (-1) ^ deg (lin (n + 1)))) (lin (n + 1)) 1 (cv D (lcRow (lin (n + 1))) 1)) []).map
          Prod.fst).insertionSort (· ≤ ·))).foldlM
          (realGapColM mid (lin (n + 1)) (keys D)) D2) = _
      rw [← hD1, hsort, hfold1]
      show (triples (0 :: segCols (runSegs n))).foldlM (realGapColM mid (lin (n + 1)) (keys D)) D2 = _
      rw [show runSegs n = runInit n ++ [(cc (n + 1), 1)] from rfl, hf, e1]
    rw [this]; rfl
  refine ⟨D', hrun, ?_⟩
  have hkn : lin n ∈ keys D := (h.keys _).2 (Or.inr (mem_lins.2 ⟨n, hn, le_rfl, rfl⟩))
  have hsub : ∀ q ∈ keys D, ∀ i, i ∈ ck D' q ↔ i = 0 ∨ i ∈ segCols (runSegs n) := by
    intro q hq i
    rw [e3 q hq, hck3 q hq]
    constructor
    · rintro (h | rfl | rfl)
      · exact h
      · exact Or.inr hln
      · exact Or.inr m2
    · exact Or.inl
  intro i hi
  have hi' := (hsub [] hs.zero i).1 hi
  refine ⟨(hsub _ hkn i).2 hi', ?_⟩
  rw [e2 _ hkn]
  split
  · rw [hcv3 _ hkn]
    intro h0
    have := h.zero hn _ (Or.inr m1) h0
    have hlt := cc_lt n
    rw [this] at hlt
    exact lt_irrefl _ hlt
  · next hne =>
    rw [hcv3 _ hkn]
    intro h0
    exact hne (Or.inl (h.zero hn i hi' h0))

theorem filterCols_nil {κ : Type} [DecidableEq κ] (D : Diagram ℤ κ) (v : ℤ) (qs : List (List ℤ)) :
    filterCols D v qs [] = .ok [] := by
  cases qs with
  | nil => rfl
  | cons q qs => rfl

/-- The answer for `1 < x`, ..., `n - 1 < x`, `x = n`, `x < n + 1`. -/
theorem full_collide {mid : ℚ → ℚ → ℚ} {n : ℕ} (hn : 1 ≤ n)
    (hmid : ∀ k ≤ n, ∀ a b, Dy k a → Dy k b → mid a b = (a + b) / 2)
    (hml : mid (cc (n + 1)) (cc n) = cc n) (hme : mid (cc (n + 1)) 1 = 1) :
    ∃ N, ∀ fuel ≥ N, realFullM mid intAlg fuel (lins (n - 1)) [lin n] [lin (n + 1)] =
      .ok ⟨[], false⟩ := by
  set ps := lins (n - 1) ++ [lin n] ++ [lin (n + 1)] with hps
  have hpl : ps = lins (n + 1) := by
    rw [hps, lins_succ]
    obtain ⟨m, rfl⟩ : ∃ m, n = m + 1 := ⟨n - 1, by omega⟩
    rw [lins_succ]; simp
  have hcanon : ∀ p ∈ ps, Canon p := by
    intro p hp
    rw [hpl] at hp
    obtain ⟨i, _, _, rfl⟩ := mem_lins.1 hp
    exact canon_of_normal (lin_normal i)
  obtain ⟨N, S, hseq, hS, hin⟩ := muchnikSeq_total intAlg ps hcanon
  refine ⟨N, ?_⟩
  intro fuel hfuel
  have hSeq := hseq fuel hfuel
  have hnc := lins_seq (n := n + 1) (fun p => by rw [hpl]) hSeq
  have hvar : ∀ q : List ℤ, hasVariable intAlg q = false := by
    intro q; cases q <;> rfl
  have hvf : ((S.filter fun p => isConst p).filter fun p => hasVariable intAlg p) = [] := by
    rw [List.filter_eq_nil_iff]
    intro q _
    rw [hvar]; simp
  set d := rAssignmentAllZero intAlg ((S.filter fun p => isConst p).filter fun p => !hasVariable intAlg p)
    with hd
  have hvf' : varFragOf intAlg S = [] := by
    rw [List.eq_nil_iff_forall_not_mem]
    intro q hq
    have := ((mem_varFragOf intAlg S q).1 hq).2.2
    rw [hvar] at this; cases this
  have hsign : ∀ c, Sign3 (intAlg.sign c) := by
    intro c
    show Sign3 (Int.sign c)
    rcases Int.sign_trichotomy c with h | h | h <;> simp [h, Sign3]
  have hbase : RBase intAlg S d := by
    refine (rBase_of_mem intAlg hsign (f := fun _ => 0) (by rw [hvf']; simp) ?_).1
    exact (Written.refl d _).congr (by rw [hvf']; simp) (fun _ _ _ => rfl)
  have hsem : RSem (Int.castRingHom ℝ) d [(1/2, 1)] := by
    refine hbase.sem hS _ ⟨rfl, ?_⟩ ?_
    · intro c _
      show Int.sign c = sg ((c : ℤ) : ℝ)
      rcases lt_trichotomy c 0 with h | h | h
      · rw [Int.sign_eq_neg_one_of_neg h, sg_neg' (by exact_mod_cast h)]
      · subst h; simp
      · rw [Int.sign_eq_one_of_pos h, sg_pos (by exact_mod_cast h)]
    · intro q _ _ hv
      rw [hvar] at hv; cases hv
  have hseg0 : runSegs 0 = [(1/2, 1)] := by
    norm_num [runSegs, runInit, cc]
  have hrun0 : Run S 0 d := by
    refine ⟨?_, ?_, ?_, fun h => absurd h (by decide)⟩
    · rw [hseg0]; exact hbase.shape hS.zero
    · intro q
      rw [hbase.keys]; simp [lins]
    · rw [hseg0]; exact hsem
  obtain ⟨D, hD, hrun⟩ := run_all hS hnc hrun0 n (by omega)
  obtain ⟨D', hD', hbad⟩ := run_collide hn hS hnc hrun hml hme
  have hlen : (lins n).length = n := by simp [lins]
  have hext : realExtendM mid intAlg d (lins (n + 1)) = .ok D' := by
    rw [lins_succ, ((realExtendM_eq hmid intAlg (lins n) [lin (n + 1)] d 1 (allZero_cols _ _)
      (by rw [hlen]; omega)).1 D hD).1, hD']
  have hcols : filterCols D' 0 [lin n] ((dRow D' []).map Prod.fst) = .ok [] := by
    have := filterCols_ok D' 0 [lin n] (ck D' []) (by
      intro q hq c hc
      rw [List.mem_singleton] at hq
      subst hq
      exact (hbad c hc).1)
    refine this.trans ?_
    congr 1
    rw [List.filter_eq_nil_iff]
    intro c hc
    simp only [List.mem_singleton, forall_eq, decide_eq_true_eq]
    exact (hbad c hc).2
  have hall : realExtendAllM mid intAlg (lins (n + 1)) [d] = .ok [D'] := by
    unfold realExtendAllM; rw [hext]; rfl
  unfold realFullM
  rw [hSeq]
  simp only [bind, Except.bind]
  rw [hvf, hnc]
  have hra : rFullAssignment [rAssignmentAllZero intAlg
      ((S.filter fun p => isConst p).filter fun p => !hasVariable intAlg p)] [] = [d] := rfl
  rw [hra, hall]
  simp only [List.filterM, List.filterAuxM, hcols, filterCols_nil, bind, Except.bind]
  rfl

end Verif.Qe
