import Verif.Qe.ComplexSem

/-!
# `complex_full`: putting the parts together
-/

set_option linter.unusedSectionVars false

open Polynomial

namespace Verif.Qe

variable {R : Type} [CommRing R] [DecidableEq R]

theorem isConst_iff (p : List R) : isConst p = true ↔ deg p = 0 := by
  unfold isConst deg
  simp only [decide_eq_true_eq]
  omega

/-- The rows present when `p` is processed suffice. -/
theorem stepHyp_of_seq [IsDomain R] {κ : Type} [DecidableEq κ] {S pre post : List (List R)} {p : List R}
    (hS : SeqInv S []) (hsplit : (S.filter fun p => !isConst p) = pre ++ p :: post)
    {D : Diagram R κ} (hk : ∀ q, q ∈ keys D ↔ (q ∈ S ∧ isConst q = true) ∨ q ∈ pre) :
    StepHyp D p := by
  have hmemS : ∀ q, q ∈ pre ++ p :: post ↔ q ∈ S ∧ isConst q = false := by
    intro q; rw [← hsplit, List.mem_filter]; simp
  have hsorted : (pre ++ p :: post).Pairwise fun a b => deg a ≤ deg b := by
    rw [← hsplit]; exact hS.sorted.filter _
  have hnodup : (pre ++ p :: post).Nodup := by
    rw [← hsplit]; exact hS.nodup.filter _
  have hpS := (hmemS p).1 (by simp)
  have hpos : 0 < deg p := by
    rcases Nat.eq_zero_or_pos (deg p) with h | h
    · rw [(isConst_iff p).2 h] at hpS; simp at hpS
    · exact h
  rw [List.pairwise_append] at hsorted
  have hlt : ∀ q ∈ S, deg q < deg p → q ∈ keys D := by
    intro q hq hd
    rw [hk]
    by_cases hc : isConst q = true
    · exact Or.inl ⟨hq, hc⟩
    · right
      have hq' := (hmemS q).2 ⟨hq, by simpa using hc⟩
      rcases List.mem_append.1 hq' with h | h
      · exact h
      · rcases List.mem_cons.1 h with rfl | h
        · omega
        · have := (List.pairwise_cons.1 hsorted.2.1).1 q h
          omega
  have hpre : ∀ q ∈ pre, deg q ≤ deg p := fun q hq => hsorted.2.2 q hq p (by simp)
  have hkS : ∀ q ∈ keys D, q ∈ S := by
    intro q hq
    rcases (hk q).1 hq with h | h
    · exact h.1
    · exact ((hmemS q).1 (by simp [h])).1
  have hnp : p ∉ keys D := by
    intro h
    rcases (hk p).1 h with h | h
    · rw [h.2] at hpS; simp at hpS
    · rw [List.nodup_append] at hnodup
      exact hnodup.2.2 p h p (by simp) rfl
  have hnone : ∀ {q : List R}, q ∈ S ∨ q ∈ ([] : List (List R)) → q ∈ S := by
    rintro q (h | h)
    · exact h
    · simp at h
  refine ⟨hpos, hS.canon p hpS.1, hnp, ?_, ?_, ?_, ?_⟩
  · apply hlt _ (hnone (hS.tail p hpS.1))
    have := pTail_length p
    unfold deg at hpos ⊢; omega
  · intro k hk1
    have h1 : ∀ k, derivative^[k] p ∈ S ∧ deg (derivative^[k] p) ≤ deg p - k := by
      intro k
      induction k with
      | zero => exact ⟨hpS.1, by simp⟩
      | succ k ih =>
        rw [Function.iterate_succ_apply']
        refine ⟨hnone (hS.der _ ih.1), ?_⟩
        have := derivative_length (derivative^[k] p)
        have h2 := ih.2
        unfold deg at h2 ⊢; omega
    exact hlt _ (h1 k).1 (by have := (h1 k).2; omega)
  · intro q hq hqpos
    have hqS := hkS q hq
    have hqpre : q ∈ pre := by
      rcases (hk q).1 hq with h | h
      · rw [isConst_iff] at h; omega
      · exact h
    refine ⟨hS.canon q hqS, hpre q hqpre, ?_⟩
    have hne : p ≠ q := by rintro rfl; exact hnp hq
    obtain ⟨r, h1, h2⟩ := hS.rem p hpS.1 q hqS hne hqpos (hpre q hqpre)
    refine ⟨r, hlt r (hnone h2) ?_, h1⟩
    obtain ⟨s, h3, _, h4, _⟩ := pseudoRem_spec (ne_nil_of_deg hqpos) (hS.canon q hqS)
      (hS.canon p hpS.1)
    rw [h1] at h3
    cases h3
    have := hpre q hqpre
    unfold deg at hqpos this ⊢; omega
  · intro q hq
    have ht := hnone (hS.tail q (hkS q hq))
    have hlen := pTail_length q
    rcases (hk q).1 hq with h | h
    · rw [hk]
      left
      refine ⟨ht, ?_⟩
      have := (isConst_iff q).1 h.2
      rw [isConst_iff]
      unfold deg at this ⊢; omega
    · apply hlt _ ht
      have h1 := hpre q h
      have h2 : 0 < deg q := by
        rcases Nat.eq_zero_or_pos (deg q) with h' | h'
        · have := ((hmemS q).1 (by simp [h])).2
          rw [(isConst_iff q).2 h'] at this; simp at this
        · exact h'
      unfold deg at h1 h2 ⊢; omega

/-- Extension by all polynomials of the sequence. -/
theorem complexExtend_spec [IsDomain R] (A : MAlg R) {S : List (List R)} (hS : SeqInv S []) :
    ∀ (post pre : List (List R)), (S.filter fun p => !isConst p) = pre ++ post →
    ∀ (D : Diagram R ℕ) (n : ℕ), CShape D n →
    (∀ q, q ∈ keys D ↔ (q ∈ S ∧ isConst q = true) ∨ q ∈ pre) →
    ∃ D' n', complexExtend A D post = .ok D' ∧ CShape D' n' ∧ (∀ q, q ∈ keys D' ↔ q ∈ S) ∧
      (∀ q ∈ keys D, cv D' q 0 = cv D q 0) ∧
      ∀ {K : Type u} [Field K] [CharZero K] [IsAlgClosed K] (φ : R →+* K) (r : ℕ → K),
        CSem φ D n r → ∃ r', CSem φ D' n' r' := by
  intro post
  induction post with
  | nil =>
    intro pre hpre D n hs hk
    refine ⟨D, n, rfl, hs, ?_, fun _ _ => rfl, fun φ r h => ⟨r, h⟩⟩
    intro q
    rw [hk]
    rw [List.append_nil] at hpre
    rw [← hpre, List.mem_filter]
    cases isConst q <;> simp
  | cons p post ih =>
    intro pre hpre D n hs hk
    have hp := stepHyp_of_seq hS hpre hk
    obtain ⟨D1, n1, h1, h2⟩ := complexStep A hs hp post
    have hs1 := cstep_shape hs hp h2
    obtain ⟨D2, n2, h3, h4, h5, h6, h7⟩ := ih (pre ++ [p]) (by rw [hpre]; simp) D1 n1 hs1 (by
      intro q
      rw [h2.keys, hk, List.mem_append, List.mem_singleton]; tauto)
    refine ⟨D2, n2, by rw [h1, h3], h4, h5, ?_, ?_⟩
    · intro q hq
      rw [h6 q ((h2.keys q).2 (Or.inr hq)), h2.old q hq 0 hs.n_pos]
    · intro K _ _ _ φ r hsem
      obtain ⟨r', hr', _⟩ := csem_step hs hp hsem h2
      exact h7 φ r' hr'

/-! ### Assignments -/

theorem foldl_write_zero (v : List R → ℤ) (cs : List (List R)) (D : Diagram R ℕ) :
    Written D (cs.foldl (fun D c => dWrite D c 0 (v c)) D) (fun q i => q ∈ cs ∧ i = 0)
      (fun q _ => v q) := by
  have : ∀ (cs done : List (List R)) (D' : Diagram R ℕ),
      Written D D' (fun q i => q ∈ done ∧ i = 0) (fun q _ => v q) →
      Written D (cs.foldl (fun D c => dWrite D c 0 (v c)) D') (fun q i => q ∈ done ++ cs ∧ i = 0)
      (fun q _ => v q) := by
    intro cs
    induction cs with
    | nil => intro done D' h; simpa using h
    | cons c cs ih =>
      intro done D' h
      rw [List.foldl_cons, show done ++ c :: cs = (done ++ [c]) ++ cs by simp]
      apply ih
      refine (h.write c 0 _ rfl).congr ?_ (fun _ _ _ => rfl)
      intro q i
      simp only [List.mem_append, List.mem_singleton]
      tauto
  have h := this cs [] D ((Written.refl D fun q _ => v q).congr (by simp) (by simp))
  simpa using h

/-- value given to a row without parameters -/
def scaVal (A : MAlg R) (c : List R) : ℤ := if c = [] then 0 else if hasVariable A c then 0 else 1

theorem cAssignmentAllZero_spec (A : MAlg R) (cs : List (List R)) :
    Written [] (cAssignmentAllZero A cs) (fun q i => q ∈ cs ∧ i = 0) (fun q _ => scaVal A q) := by
  have : cAssignmentAllZero A cs = cs.foldl (fun D c => dWrite D c 0 (scaVal A c)) [] := by
    unfold cAssignmentAllZero scaVal
    congr 1
    funext D c
    split
    · rfl
    · split <;> rfl
  rw [this]
  exact foldl_write_zero _ _ _

theorem cFull_sound : ∀ (vs : List (List R)) (ds : List (Diagram R ℕ)) (d : Diagram R ℕ),
    d ∈ cFullAssignment ds vs → ∃ d0 ∈ ds,
      Written d0 d (fun q i => q ∈ vs ∧ i = 0) (cv d) ∧ ∀ c ∈ vs, cv d c 0 = 0 ∨ cv d c 0 = 1 := by
  intro vs
  induction vs with
  | nil =>
    intro ds d h
    exact ⟨d, h, (Written.refl d (cv d)).congr (by simp) (by simp), by simp⟩
  | cons c vs ih =>
    intro ds d h
    unfold cFullAssignment at h
    obtain ⟨d1, hd1, hW, hv⟩ := ih _ d h
    rw [List.mem_flatMap] at hd1
    obtain ⟨d0, hd0, hd1⟩ := hd1
    obtain ⟨b, hb, rfl⟩ : ∃ b : ℤ, (b = 0 ∨ b = 1) ∧ d1 = dWrite d0 c 0 b := by
      simp only [List.mem_cons, List.not_mem_nil, or_false] at hd1
      rcases hd1 with h | h
      · exact ⟨0, Or.inl rfl, h⟩
      · exact ⟨1, Or.inr rfl, h⟩
    refine ⟨d0, hd0, ⟨fun _ _ _ => rfl, ?_, ?_, ?_, ?_⟩, ?_⟩
    · intro q i hq
      rw [hW.old q i (by rintro ⟨h1, h2⟩; exact hq ⟨by simp [h1], h2⟩), cv_dWrite, if_neg]
      rintro ⟨rfl, rfl⟩; exact hq ⟨by simp, rfl⟩
    · intro q i
      rw [hW.ck, mem_ck_dWrite, List.mem_cons]; tauto
    · intro q
      rw [hW.keys, mem_keys_dWrite]
      constructor
      · rintro ((h | h) | ⟨i, h, hi⟩)
        · exact Or.inr ⟨0, by simp [h], rfl⟩
        · exact Or.inl h
        · exact Or.inr ⟨i, by simp [h], hi⟩
      · rintro (h | ⟨i, h, hi⟩)
        · exact Or.inl (Or.inr h)
        · rcases List.mem_cons.1 h with h | h
          · exact Or.inl (Or.inl h)
          · exact Or.inr ⟨i, h, hi⟩
    · intro hn
      exact hW.nodup (nodup_ck_dWrite d0 c 0 b hn)
    · intro x hx
      by_cases hxv : x ∈ vs
      · exact hv x hxv
      · rcases List.mem_cons.1 hx with rfl | h
        · rw [hW.old x 0 (fun h => hxv h.1), cv_dWrite, if_pos ⟨rfl, rfl⟩]; exact hb
        · exact absurd h hxv

theorem cFull_complete (f : List R → ℤ) : ∀ (vs : List (List R)) (ds : List (Diagram R ℕ))
    (d0 : Diagram R ℕ), d0 ∈ ds → (∀ c ∈ vs, f c = 0 ∨ f c = 1) → ∃ d ∈ cFullAssignment ds vs,
      Written d0 d (fun q i => q ∈ vs ∧ i = 0) (fun q _ => f q) := by
  intro vs
  induction vs with
  | nil =>
    intro ds d0 h _
    exact ⟨d0, h, (Written.refl d0 fun q _ => f q).congr (by simp) (by simp)⟩
  | cons c vs ih =>
    intro ds d0 h hf
    obtain ⟨d, hd, hW⟩ := ih (ds.flatMap fun d => [dWrite d c 0 0, dWrite d c 0 1])
      (dWrite d0 c 0 (f c)) (by
        rw [List.mem_flatMap]
        refine ⟨d0, h, ?_⟩
        rcases hf c (by simp) with h | h <;> simp [h]) (fun x hx => hf x (by simp [hx]))
    refine ⟨d, hd, ⟨?_, ?_, ?_, ?_, ?_⟩⟩
    · rintro q i ⟨hq, rfl⟩
      by_cases hqv : q ∈ vs
      · exact hW.val q 0 ⟨hqv, rfl⟩
      · rw [hW.old q 0 fun h => hqv h.1, cv_dWrite]
        rcases List.mem_cons.1 hq with rfl | h
        · rw [if_pos ⟨rfl, rfl⟩]
        · exact absurd h hqv
    · intro q i hq
      rw [hW.old q i (by rintro ⟨h1, h2⟩; exact hq ⟨by simp [h1], h2⟩), cv_dWrite, if_neg]
      rintro ⟨rfl, rfl⟩; exact hq ⟨by simp, rfl⟩
    · intro q i
      rw [hW.ck, mem_ck_dWrite, List.mem_cons]; tauto
    · intro q
      rw [hW.keys, mem_keys_dWrite]
      constructor
      · rintro ((h | h) | ⟨i, h, hi⟩)
        · exact Or.inr ⟨0, by simp [h], rfl⟩
        · exact Or.inl h
        · exact Or.inr ⟨i, by simp [h], hi⟩
      · rintro (h | ⟨i, h, hi⟩)
        · exact Or.inl (Or.inr h)
        · rcases List.mem_cons.1 h with h | h
          · exact Or.inl (Or.inl h)
          · exact Or.inr ⟨i, h, hi⟩
    · intro hn
      exact hW.nodup (nodup_ck_dWrite d0 c 0 _ hn)

/-- The initial diagram for an assignment `d`. -/
structure CBase (A : MAlg R) (S : List (List R)) (d : Diagram R ℕ) : Prop where
  keys : ∀ q, q ∈ keys d ↔ q ∈ S ∧ isConst q = true
  ck : ∀ q ∈ Verif.Qe.keys d, ∀ i, i ∈ ck d q ↔ i < 1
  nodup : ∀ q, (Verif.Qe.ck d q).Nodup
  sca : ∀ q ∈ S, isConst q = true → hasVariable A q = false → cv d q 0 = if q = [] then 0 else 1
  var : ∀ q ∈ S, isConst q = true → hasVariable A q = true → cv d q 0 = 0 ∨ cv d q 0 = 1

theorem CBase.shape {A : MAlg R} {S : List (List R)} {d : Diagram R ℕ} (h : CBase A S d)
    (hS : [] ∈ S) : CShape d 1 := by
  refine ⟨le_rfl, h.ck, h.nodup, (h.keys []).2 ⟨hS, rfl⟩, by intro i; omega, ?_⟩
  intro q _ _ h0 i hi
  have : i = 0 := by omega
  subst this; exact h0

/-- Parameter values for which expressions without parameters keep being nonzero. -/
def ValOK {K : Type*} [Field K] (A : MAlg R) (φ : R →+* K) : Prop :=
  ∀ c : R, c ≠ 0 → A.hasVar c = false → φ c ≠ 0

theorem canon_const {q : List R} (hq : Canon q) (hc : isConst q = true) (hne : q ≠ []) :
    ∃ c, c ≠ 0 ∧ q = [c] := by
  cases q with
  | nil => exact absurd rfl hne
  | cons c l =>
    have : l = [] := by
      unfold isConst at hc
      simpa using hc
    subst this
    exact ⟨c, by rintro rfl; simp [Canon, strip] at hq, rfl⟩

theorem CBase.sem {A : MAlg R} {S : List (List R)} {d : Diagram R ℕ} (h : CBase A S d)
    (hS : SeqInv S []) {K : Type*} [Field K] [CharZero K] (φ : R →+* K) (hφ : ValOK A φ)
    (hmatch : ∀ q ∈ S, isConst q = true → hasVariable A q = true →
      (cv d q 0 = 0 ↔ φ (q.headD 0) = 0)) : CSem φ d 1 (fun _ => 0) := by
  have hP : ∀ q ∈ Verif.Qe.keys d, P φ q = C (φ (q.headD 0)) := by
    intro q hq
    exact P_const φ ((isConst_iff q).1 ((h.keys q).1 hq).2)
  refine ⟨by intro i j; omega, ?_, ?_, by intro q _ i; omega, ?_⟩
  · intro q hq i hi
    have : i = 0 := by omega
    subst this
    obtain ⟨h1, h2⟩ := (h.keys q).1 hq
    by_cases hv : hasVariable A q = true
    · exact h.var q h1 h2 hv
    · rw [h.sca q h1 h2 (by simpa using hv)]
      split <;> simp
  · intro q hq
    rw [hP q hq, C_eq_zero]
    obtain ⟨h1, h2⟩ := (h.keys q).1 hq
    by_cases hv : hasVariable A q = true
    · exact hmatch q h1 h2 hv
    · rw [h.sca q h1 h2 (by simpa using hv)]
      by_cases hq0 : q = []
      · subst hq0; simp
      · rw [if_neg hq0]
        obtain ⟨c, hc, rfl⟩ := canon_const (hS.canon q h1) h2 hq0
        have := hφ c hc (by simpa [hasVariable] using hv)
        simp [this]
  · intro q hq h0 x hx
    rw [hP q hq, eval_C] at hx
    rw [hP q hq, hx, C_0] at h0
    exact absurd rfl h0

/-! ### Selection of columns -/

theorem filterCols_ok {κ : Type} [DecidableEq κ] (D : Diagram R κ) (v : ℤ) :
    ∀ (qs : List (List R)) (cols : List κ), (∀ q ∈ qs, ∀ c ∈ cols, c ∈ ck D q) →
    filterCols D v qs cols = .ok (cols.filter fun c => decide (∀ q ∈ qs, cv D q c = v)) := by
  intro qs
  induction qs with
  | nil => intro cols _; simp [filterCols]
  | cons q qs ih =>
    intro cols h
    unfold filterCols
    rw [filterM_ok _ (fun c => decide (cv D q c = v)) cols (by
      intro c hc
      rw [dRead_ok (h q (by simp) c hc)]; rfl)]
    show (if (cols.filter fun c => decide (cv D q c = v)).length = 0 then
      Except.ok (cols.filter fun c => decide (cv D q c = v))
      else filterCols D v qs (cols.filter fun c => decide (cv D q c = v))) = _
    have hcomb : cols.filter (fun c => decide (∀ q' ∈ q :: qs, cv D q' c = v)) =
        (cols.filter fun c => decide (cv D q c = v)).filter
          fun c => decide (∀ q' ∈ qs, cv D q' c = v) := by
      rw [List.filter_filter]
      apply List.filter_congr
      intro c _
      simp [Bool.and_comm]
    split
    · rename_i h0
      rw [List.length_eq_zero_iff] at h0
      rw [hcomb, h0]; rfl
    · rw [hcomb, ih]
      intro q' hq' c hc
      exact h q' (by simp [hq']) c (List.mem_filter.1 hc).1

end Verif.Qe
