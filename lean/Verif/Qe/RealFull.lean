import Verif.Qe.RealSem
import Verif.Qe.ComplexMain

/-!
# `real_full`: all diagrams, and their columns as points
-/

set_option linter.unusedSectionVars false

open Polynomial Verif.Alg

namespace Verif.Qe

universe u

variable {R : Type} [CommRing R] [DecidableEq R]

/-- Extension by all polynomials of the sequence: only assignments that no parameters realise fail. -/
theorem realExtend_spec [IsDomain R] (A : MAlg R) {S : List (List R)} (hS : SeqInv S []) :
    ∀ (post pre : List (List R)), (S.filter fun p => !isConst p) = pre ++ post →
    ∀ (D : Diagram R ℚ) (gs : List (ℚ × ℚ)), RShape D gs →
    (∀ q, q ∈ keys D ↔ (q ∈ S ∧ isConst q = true) ∨ q ∈ pre) →
    (realExtend A D post = .error .diagramExc ∧
      ∀ {K : Type u} [Field K] [LinearOrder K] [IsStrictOrderedRing K] [PolyIVT K] (φ : R →+* K),
        ¬ RSem φ D gs) ∨
    ∃ D' gs', realExtend A D post = .ok D' ∧ RShape D' gs' ∧ (∀ q, q ∈ keys D' ↔ q ∈ S) ∧
      (∀ q ∈ keys D, cv D' q 0 = cv D q 0) ∧
      ∀ {K : Type u} [Field K] [LinearOrder K] [IsStrictOrderedRing K] [PolyIVT K] (φ : R →+* K),
        RSem φ D gs → RSem φ D' gs' := by
  intro post
  induction post with
  | nil =>
    intro pre hpre D gs hs hk
    refine Or.inr ⟨D, gs, rfl, hs, ?_, fun _ _ => rfl, fun φ h => h⟩
    intro q
    rw [hk]
    rw [List.append_nil] at hpre
    rw [← hpre, List.mem_filter]
    cases isConst q <;> simp
  | cons p post ih =>
    intro pre hpre D gs hs hk
    have hp := stepHyp_of_seq hS hpre hk
    have hkS : ∀ q ∈ keys D, q ∈ S := by
      intro q hq
      rcases (hk q).1 hq with h | h
      · exact h.1
      · have : q ∈ S.filter fun p => !isConst p := by rw [hpre]; simp [h]
        exact (List.mem_filter.1 this).1
    have hnone : ∀ {q : List R}, q ∈ S ∨ q ∈ ([] : List (List R)) → q ∈ S := by
      rintro q (h | h)
      · exact h
      · simp at h
    have hlcs : ∀ q ∈ keys D, 0 < deg q → lcRow q ∈ keys D := by
      intro q hq _
      have h1 : ∀ k, derivative^[k] q ∈ S := by
        intro k
        induction k with
        | zero => exact hkS q hq
        | succ k ih => rw [Function.iterate_succ_apply']; exact hnone (hS.der _ ih)
      have h2 : lcRow q ∈ S := by
        rw [← iterate_derivative_lcRow (hS.canon q (hkS q hq))]; exact h1 _
      rw [hk]
      left
      refine ⟨h2, ?_⟩
      unfold isConst lcRow
      simp only [decide_eq_true_eq]
      have := strip_length_le [lc q * (fac (deg q) : R)]
      simpa using this
    rcases realStep A hs hp hlcs post with ⟨h1, h2, D2, hmid, hbad⟩ | ⟨D1, gs1, h1, h2⟩
    · left
      refine ⟨h1, ?_⟩
      intro K _ _ _ _ φ hsem
      exact rsem_not_bad hs hp hsem h2 hmid hbad
    · have hs1 := rstep_shape hs hp h2
      have hold : ∀ q ∈ keys D, cv D1 q 0 = cv D q 0 := by
        intro q hq
        rcases h2.cases with ⟨_, _, hold, _⟩ | ⟨_, D2, hmid, _, hcol0⟩
        · exact hold q hq 0
        · rw [hcol0, hmid.old q hq]
      rcases ih (pre ++ [p]) (by rw [hpre]; simp) D1 gs1 hs1 (by
        intro q
        rw [h2.keys, hk, List.mem_append, List.mem_singleton]; tauto) with
        ⟨h3, h4⟩ | ⟨D2, gs2, h3, h4, h5, h6, h7⟩
      · left
        refine ⟨by rw [h1, h3], ?_⟩
        intro K _ _ _ _ φ hsem
        exact h4 φ (rsem_step hs hp hsem h2)
      · right
        refine ⟨D2, gs2, by rw [h1, h3], h4, h5, ?_, ?_⟩
        · intro q hq
          rw [h6 q ((h2.keys q).2 (Or.inr hq)), hold q hq]
        · intro K _ _ _ _ φ hsem
          exact h7 φ (rsem_step hs hp hsem h2)

/-! ### Assignments -/

/-- the columns of the initial diagrams -/
def Is3 (i : ℚ) : Prop := i = 0 ∨ i = 1 / 2 ∨ i = 1

theorem write3_written {D D' : Diagram R ℚ} {W : List R → ℚ → Prop} {f : List R → ℚ → ℤ}
    (h : Written D D' W f) (c : List R) (s : ℤ) (hs : ∀ i, s = f c i) :
    Written D (write3 D' c s) (fun q i => W q i ∨ (q = c ∧ Is3 i)) f := by
  have h1 := (((h.write c 0 s (hs _)).write c (1/2) s (hs _)).write c 1 s (hs _))
  refine h1.congr ?_ (fun _ _ _ => rfl)
  intro q i
  unfold Is3
  tauto

theorem foldl_write3 (v : List R → ℤ) (cs : List (List R)) (D : Diagram R ℚ) :
    Written D (cs.foldl (fun D c => write3 D c (v c)) D) (fun q i => q ∈ cs ∧ Is3 i)
      (fun q _ => v q) := by
  have : ∀ (cs done : List (List R)) (D' : Diagram R ℚ),
      Written D D' (fun q i => q ∈ done ∧ Is3 i) (fun q _ => v q) →
      Written D (cs.foldl (fun D c => write3 D c (v c)) D') (fun q i => q ∈ done ++ cs ∧ Is3 i)
      (fun q _ => v q) := by
    intro cs
    induction cs with
    | nil => intro done D' h; simpa using h
    | cons c cs ih =>
      intro done D' h
      rw [List.foldl_cons, show done ++ c :: cs = (done ++ [c]) ++ cs by simp]
      apply ih
      refine (write3_written h c _ fun _ => rfl).congr ?_ (fun _ _ _ => rfl)
      intro q i
      simp only [List.mem_append, List.mem_singleton]
      tauto
  have h := this cs [] D ((Written.refl D fun q _ => v q).congr (by simp) (by simp))
  simpa using h

/-- value given to a row without parameters -/
def rScaVal (A : MAlg R) (c : List R) : ℤ := if hasVariable A c then 0 else A.sign (c.headD 0)

theorem rAssignmentAllZero_spec (A : MAlg R) (cs : List (List R)) :
    Written [] (rAssignmentAllZero A cs) (fun q i => q ∈ cs ∧ Is3 i) (fun q _ => rScaVal A q) :=
  foldl_write3 (rScaVal A) cs []

/-- Writing on top of an earlier write. -/
theorem Written.after {D D1 D2 : Diagram R ℚ} {c : List R} {vs : List (List R)} {f : List R → ℤ}
    (h1 : D1 = write3 D c (f c)) (h2 : Written D1 D2 (fun q i => q ∈ vs ∧ Is3 i) (fun q _ => f q)) :
    Written D D2 (fun q i => q ∈ c :: vs ∧ Is3 i) (fun q _ => f q) := by
  have h0 : Written D D1 (fun q i => q = c ∧ Is3 i) (fun q _ => f q) := by
    rw [h1]
    exact (write3_written (Written.refl D fun q _ => f q) c _ fun _ => rfl).congr (by simp)
      (fun _ _ _ => rfl)
  refine ⟨?_, ?_, ?_, ?_, fun hn => h2.nodup (h0.nodup hn)⟩
  · rintro q i ⟨hq, hi⟩
    by_cases hqv : q ∈ vs
    · exact h2.val q i ⟨hqv, hi⟩
    · rw [h2.old q i fun h => hqv h.1]
      rcases List.mem_cons.1 hq with h | h
      · exact h0.val q i ⟨h, hi⟩
      · exact absurd h hqv
  · intro q i hq
    rw [h2.old q i fun h => hq ⟨by simp [h.1], h.2⟩, h0.old q i fun h => hq ⟨by simp [h.1], h.2⟩]
  · intro q i
    rw [h2.ck, h0.ck, List.mem_cons]; tauto
  · intro q
    rw [h2.keys, h0.keys]
    constructor
    · rintro ((h | ⟨i, h, hi⟩) | ⟨i, h, hi⟩)
      · exact Or.inl h
      · exact Or.inr ⟨i, by simp [h], hi⟩
      · exact Or.inr ⟨i, by simp [h], hi⟩
    · rintro (h | ⟨i, h, hi⟩)
      · exact Or.inl (Or.inl h)
      · rcases List.mem_cons.1 h with h | h
        · exact Or.inl (Or.inr ⟨i, h, hi⟩)
        · exact Or.inr ⟨i, h, hi⟩

theorem rFull_sound : ∀ (vs : List (List R)) (ds : List (Diagram R ℚ)) (d : Diagram R ℚ),
    d ∈ rFullAssignment ds vs → ∃ d0 ∈ ds, ∃ f : List R → ℤ, (∀ c ∈ vs, Sign3 (f c)) ∧
      Written d0 d (fun q i => q ∈ vs ∧ Is3 i) (fun q _ => f q) := by
  intro vs
  induction vs with
  | nil =>
    intro ds d h
    exact ⟨d, h, fun _ => 0, by simp, (Written.refl d fun _ _ => 0).congr (by simp) (by simp)⟩
  | cons c vs ih =>
    intro ds d h
    unfold rFullAssignment at h
    obtain ⟨d1, hd1, f, hf, hW⟩ := ih _ d h
    rw [List.mem_flatMap] at hd1
    obtain ⟨d0, hd0, hd1⟩ := hd1
    obtain ⟨b, hb, hd1⟩ : ∃ b : ℤ, Sign3 b ∧ d1 = write3 d0 c b := by
      simp only [List.mem_cons, List.not_mem_nil, or_false] at hd1
      rcases hd1 with h | h | h
      · exact ⟨-1, Or.inl rfl, h⟩
      · exact ⟨0, Or.inr (Or.inl rfl), h⟩
      · exact ⟨1, Or.inr (Or.inr rfl), h⟩
    by_cases hcv : c ∈ vs
    · -- written again later
      refine ⟨d0, hd0, f, ?_, ?_⟩
      · intro x hx
        rcases List.mem_cons.1 hx with rfl | hx
        · exact hf _ hcv
        · exact hf x hx
      · have h0 : Written d0 d1 (fun q i => q = c ∧ Is3 i) (fun _ _ => b) := by
          rw [hd1]
          exact (write3_written (Written.refl d0 fun _ _ => b) c _ fun _ => rfl).congr (by simp)
            (fun _ _ _ => rfl)
        have hmem : ∀ q, q ∈ c :: vs ↔ q ∈ vs := by
          intro q
          rw [List.mem_cons]
          exact ⟨fun h => h.elim (fun h => h ▸ hcv) id, Or.inr⟩
        refine ⟨?_, ?_, ?_, ?_, fun hn => hW.nodup (h0.nodup hn)⟩
        · rintro q i ⟨hq, hi⟩
          exact hW.val q i ⟨(hmem q).1 hq, hi⟩
        · intro q i hq
          rw [hmem] at hq
          rw [hW.old q i hq, h0.old q i]
          rintro ⟨rfl, h'⟩; exact hq ⟨hcv, h'⟩
        · intro q i
          rw [hW.ck, h0.ck, hmem]
          constructor
          · rintro ((h | ⟨rfl, h'⟩) | h)
            · exact Or.inl h
            · exact Or.inr ⟨hcv, h'⟩
            · exact Or.inr h
          · rintro (h | h)
            · exact Or.inl (Or.inl h)
            · exact Or.inr h
        · intro q
          rw [hW.keys, h0.keys]
          simp only [hmem]
          constructor
          · rintro ((h | ⟨i, rfl, h'⟩) | h)
            · exact Or.inl h
            · exact Or.inr ⟨i, hcv, h'⟩
            · exact Or.inr h
          · rintro (h | h)
            · exact Or.inl (Or.inl h)
            · exact Or.inr h
    · refine ⟨d0, hd0, fun q => if q = c then b else f q, ?_, ?_⟩
      · intro x hx
        by_cases h : x = c
        · simp only [h, if_true]; exact hb
        · simp only [h, if_false]
          rcases List.mem_cons.1 hx with h' | h'
          · exact absurd h' h
          · exact hf x h'
      · refine Written.after (D1 := d1) (by simp [hd1]) ?_
        refine ⟨?_, hW.old, hW.ck, hW.keys, hW.nodup⟩
        rintro q i ⟨hq, hi⟩
        rw [hW.val q i ⟨hq, hi⟩]
        have : q ≠ c := by rintro rfl; exact hcv hq
        simp only [this, if_false]

theorem rFull_complete (f : List R → ℤ) : ∀ (vs : List (List R)) (ds : List (Diagram R ℚ))
    (d0 : Diagram R ℚ), d0 ∈ ds → (∀ c ∈ vs, Sign3 (f c)) → ∃ d ∈ rFullAssignment ds vs,
      Written d0 d (fun q i => q ∈ vs ∧ Is3 i) (fun q _ => f q) := by
  intro vs
  induction vs with
  | nil =>
    intro ds d0 h _
    exact ⟨d0, h, (Written.refl d0 fun q _ => f q).congr (by simp) (by simp)⟩
  | cons c vs ih =>
    intro ds d0 h hf
    obtain ⟨d, hd, hW⟩ := ih (ds.flatMap fun d => [write3 d c (-1), write3 d c 0, write3 d c 1])
      (write3 d0 c (f c)) (by
        rw [List.mem_flatMap]
        refine ⟨d0, h, ?_⟩
        rcases hf c (by simp) with h | h | h <;> simp [h]) (fun x hx => hf x (by simp [hx]))
    exact ⟨d, hd, Written.after rfl hW⟩

/-- The initial diagram for an assignment `d`. -/
structure RBase (A : MAlg R) (S : List (List R)) (d : Diagram R ℚ) : Prop where
  keys : ∀ q, q ∈ keys d ↔ q ∈ S ∧ isConst q = true
  ck : ∀ q ∈ Verif.Qe.keys d, ∀ i, i ∈ ck d q ↔ Is3 i
  nodup : ∀ q, (Verif.Qe.ck d q).Nodup
  same : ∀ q ∈ Verif.Qe.keys d, ∀ i, Is3 i → cv d q i = cv d q 0
  sca : ∀ q ∈ S, isConst q = true → hasVariable A q = false → cv d q 0 = A.sign (q.headD 0)
  val : ∀ q ∈ Verif.Qe.keys d, Sign3 (cv d q 0)

theorem RBase.shape {A : MAlg R} {S : List (List R)} {d : Diagram R ℚ} (h : RBase A S d)
    (hS : [] ∈ S) : RShape d [(1/2, 1)] := by
  have h3 : ∀ i : ℚ, (i = 0 ∨ i ∈ segCols [((1:ℚ)/2, (1:ℚ))]) ↔ Is3 i := by
    intro i; simp [segCols, Is3]
  refine ⟨by simp, ⟨by norm_num, by norm_num, trivial⟩, rfl, ?_, h.nodup, (h.keys []).2 ⟨hS, rfl⟩, ?_, ?_, ?_⟩
  · intro q hq i
    rw [h3]; exact h.ck q hq i
  · refine ⟨?_, by simp, trivial⟩
    intro q hq h0
    rw [h.same q hq _ (Or.inr (Or.inl rfl))]; exact h0
  · intro q hq i hi
    rw [h.same q hq i ((h3 i).1 hi)]; exact h.val q hq
  · intro q hq _ h0 i hi
    rw [h.same q hq i ((h3 i).1 hi)]; exact h0

/-- Parameter values at which the signs of the expressions without parameters are as computed. -/
structure RValOK {K : Type*} [Field K] [LinearOrder K] (A : MAlg R) (φ : R →+* K) : Prop where
  zero : A.sign 0 = 0
  sign : ∀ c : R, A.hasVar c = false → A.sign c = sg (φ c)

variable {K : Type u} [Field K] [LinearOrder K] [IsStrictOrderedRing K] [PolyIVT K]

theorem sign3_sg (x : K) : Sign3 (sg x) := by
  rcases sg_cases x with ⟨_, e⟩ | ⟨_, e⟩ | ⟨_, e⟩ <;> rw [e] <;> simp [Sign3]

theorem RBase.sem {A : MAlg R} {S : List (List R)} {d : Diagram R ℚ} (h : RBase A S d)
    (hS : SeqInv S []) (φ : R →+* K) (hφ : RValOK A φ)
    (hmatch : ∀ q ∈ S, isConst q = true → hasVariable A q = true →
      cv d q 0 = sg (φ (q.headD 0))) : RSem φ d [(1/2, 1)] := by
  have hP : ∀ q ∈ Verif.Qe.keys d, P φ q = C (φ (q.headD 0)) ∧ sg (φ (q.headD 0)) = cv d q 0 := by
    intro q hq
    obtain ⟨h1, h2⟩ := (h.keys q).1 hq
    refine ⟨P_const φ ((isConst_iff q).1 h2), ?_⟩
    by_cases hv : hasVariable A q = true
    · exact (hmatch q h1 h2 hv).symm
    · rw [h.sca q h1 h2 (by simpa using hv)]
      by_cases hq0 : q = []
      · subst hq0; simp [hφ.zero, sg_zero]
      · obtain ⟨c, hc, rfl⟩ := canon_const (hS.canon q h1) h2 hq0
        have := hφ.sign c (by simpa [hasVariable] using hv)
        simp [this]
  refine ⟨?_, [], .last _ _ _ ?_ ?_⟩
  · intro q hq
    rw [(hP q hq).1, sgBot_C, (hP q hq).2]
  · intro q hq y _
    rw [(hP q hq).1, eval_C, (hP q hq).2, h.same q hq _ (Or.inr (Or.inl rfl))]
  · intro q hq
    rw [(hP q hq).1, sgTop_C, (hP q hq).2, h.same q hq _ (Or.inr (Or.inr rfl))]

/-! ### Columns and points -/

theorem exists_top (φ : R →+* K) (rows : List (List R)) :
    ∃ M, ∀ q ∈ rows, ∀ x, M < x → sg ((P φ q).eval x) = sgTop (P φ q) := by
  induction rows with
  | nil => exact ⟨0, by simp⟩
  | cons q rows ih =>
    obtain ⟨M, hM⟩ := ih
    obtain ⟨N, hN⟩ := sgTop_spec (P φ q)
    refine ⟨max M N, ?_⟩
    intro q' hq' x hx
    rcases List.mem_cons.1 hq' with rfl | h
    · exact hN x ((le_max_right M N).trans_lt hx)
    · exact hM q' h x ((le_max_left M N).trans_lt hx)

theorem exists_bot (φ : R →+* K) (rows : List (List R)) :
    ∃ M, ∀ q ∈ rows, ∀ x, x < M → sg ((P φ q).eval x) = sgBot (P φ q) := by
  induction rows with
  | nil => exact ⟨0, by simp⟩
  | cons q rows ih =>
    obtain ⟨M, hM⟩ := ih
    obtain ⟨N, hN⟩ := sgBot_spec (P φ q)
    refine ⟨min M N, ?_⟩
    intro q' hq' x hx
    rcases List.mem_cons.1 hq' with rfl | h
    · exact hN x (hx.trans_le (min_le_right M N))
    · exact hM q' h x (hx.trans_le (min_le_left M N))

theorem SegSem.pt_of_col {φ : R →+* K} {D : Diagram R ℚ} {rows : List (List R)} {L : K → Prop}
    {gs : List (ℚ × ℚ)} {xs : List K} (h : SegSem φ D rows L gs xs) : LowerCut L →
    ∀ i ∈ segCols gs, ∃ x, L x ∧ ∀ q ∈ rows, sg ((P φ q).eval x) = cv D q i := by
  induction h with
  | last L g e hg he =>
    intro hL i hi
    obtain ⟨z, hz⟩ := hL.ne
    simp only [segCols, List.mem_cons, List.not_mem_nil, or_false] at hi
    rcases hi with rfl | rfl
    · exact ⟨z, hz, fun q hq => hg q hq z hz⟩
    · obtain ⟨M, hM⟩ := exists_top φ rows
      refine ⟨max z M + 1, hL.up z _ hz (by have := le_max_left z M; linarith), ?_⟩
      intro q hq
      rw [hM q hq _ (by have := le_max_right z M; linarith), he q hq]
  | cons L g e gs x xs hx hg he h ih =>
    intro hL i hi
    simp only [segCols, List.mem_cons] at hi
    rcases hi with rfl | rfl | hi
    · obtain ⟨z, hz, hzx⟩ := hL.low x hx
      exact ⟨z, hz, fun q hq => hg q hq z hz hzx⟩
    · exact ⟨x, hx, he⟩
    · obtain ⟨y, hy, h⟩ := ih (lowerCut_gt x) i hi
      exact ⟨y, hL.up x y hx hy, h⟩

theorem SegSem.col_of_pt {φ : R →+* K} {D : Diagram R ℚ} {rows : List (List R)} {L : K → Prop}
    {gs : List (ℚ × ℚ)} {xs : List K} (h : SegSem φ D rows L gs xs) :
    ∀ x, L x → ∃ i ∈ segCols gs, ∀ q ∈ rows, sg ((P φ q).eval x) = cv D q i := by
  induction h with
  | last L g e hg he =>
    intro x hx
    exact ⟨g, by simp [segCols], fun q hq => hg q hq x hx⟩
  | cons L g e gs y xs hy hg he h ih =>
    intro x hx
    rcases lt_trichotomy x y with hxy | rfl | hxy
    · exact ⟨g, by simp [segCols], fun q hq => hg q hq x hx hxy⟩
    · exact ⟨e, by simp [segCols], he⟩
    · obtain ⟨i, hi, h⟩ := ih x hxy
      exact ⟨i, by simp [segCols, hi], h⟩

/-- The columns are the sign vectors of the points. -/
theorem RSem.cols {φ : R →+* K} {D : Diagram R ℚ} {gs : List (ℚ × ℚ)} (h : RSem φ D gs)
    (hs : RShape D gs) (s : List R → ℤ → Prop) :
    (∃ i ∈ ck D [], ∀ q ∈ keys D, s q (cv D q i)) ↔
      ∃ x, ∀ q ∈ keys D, s q (sg ((P φ q).eval x)) := by
  obtain ⟨xs, hxs⟩ := h.seg
  constructor
  · rintro ⟨i, hi, hq⟩
    rcases (hs.ck [] hs.zero i).1 hi with rfl | hi
    · obtain ⟨M, hM⟩ := exists_bot φ (keys D)
      refine ⟨M - 1, ?_⟩
      intro q hqk
      rw [hM q hqk _ (by linarith), h.bot q hqk]
      exact hq q hqk
    · obtain ⟨x, _, hx⟩ := hxs.pt_of_col lowerCut_univ i hi
      refine ⟨x, fun q hqk => ?_⟩
      rw [hx q hqk]; exact hq q hqk
  · rintro ⟨x, hx⟩
    obtain ⟨i, hi, h⟩ := hxs.col_of_pt x trivial
    refine ⟨i, (hs.ck [] hs.zero i).2 (Or.inr hi), fun q hqk => ?_⟩
    rw [← h q hqk]; exact hx q hqk

end Verif.Qe
