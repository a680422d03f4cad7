import Verif.Qe.ChGap

/-!
# `extend_single_table`: the table that is built
-/

set_option linter.unusedSectionVars false

namespace Verif.Qe

variable {R : Type} [CommRing R] [DecidableEq R]

theorem segGaps_not_ends : ∀ {gs : List (ℚ × ℚ)} {l : ℚ}, SegChain l gs → ∀ g ∈ segGaps gs,
    g ∉ segEnds gs := by
  intro gs
  induction gs with
  | nil => simp [segGaps]
  | cons x gs ih =>
    obtain ⟨g1, e1⟩ := x
    rintro l ⟨c1, c2, c3⟩ g hg he
    rcases List.mem_cons.1 hg with rfl | hg
    · rcases List.mem_cons.1 he with rfl | he
      · exact lt_irrefl _ c2
      · have := segChain_lt c3 g (segEnds_sub g he); linarith
    · have h1 := segChain_lt c3 g (segGaps_sub g hg)
      rcases List.mem_cons.1 he with rfl | he
      · exact lt_irrefl _ h1
      · exact ih c3 g hg he

theorem signCtx_key {A : MAlg R} {c : Ctx R} {k : R} {s : ℤ} (h : signCtx A c k = .ok s) :
    ¬ (A.hasVar k = true ∧ dGet c k = none) := by
  rintro ⟨h1, h2⟩
  unfold signCtx at h
  rw [if_neg (by rw [h1]; simp), h2] at h
  cases h

/-- What is needed for an extension to be computed. -/
structure ExtRun (A : MAlg R) (c : Ctx R) (T : Table R) (rows : List (List R)) (gs : List (ℚ × ℚ))
    (p : List R) (pols : List (List R)) (s : ℤ) : Prop where
  shape : TShape A c T rows gs
  rne : rows ≠ []
  pne : pols ≠ []
  new : p ∉ pols
  pos : ∀ q ∈ pols, 0 < deg q → q ∈ rows
  const : ∀ q ∈ pols, deg q = 0 → ∃ v, Sign3 v ∧ cval A c q = some v
  rem : ∀ q ∈ pols, 0 < deg q → ∃ r, pseudoRem p q = .ok r ∧ (0 < deg r → r ∈ rows) ∧
    (deg r = 0 → ∃ v, Sign3 v ∧ cval A c r = some v)
  plc : ∀ q ∈ pols, 0 < deg q → ∃ s, signCtx A c (lc q) = .ok s
  lc : signCtx A c (lc p) = .ok s
  s3 : Sign3 s
  maxc : deg p = 0 → cval A c p = some s

/-- What is needed for an extension to be right. -/
structure ExtHyp (A : MAlg R) (c : Ctx R) (T : Table R) (rows : List (List R)) (gs : List (ℚ × ℚ))
    (p : List R) (pols : List (List R)) (s : ℤ) : Prop extends ExtRun A c T rows gs p pols s where
  s0 : 0 < deg p → s ≠ 0

/-- A value at a column of a root. -/
def ChRootVal (A : MAlg R) (c : Ctx R) (T E : Table R) (p : List R) (pols : List (List R)) (e : ℚ)
    (v : ℤ) : Prop :=
  ∃ q ∈ pols, cv E q e = 0 ∧ cv E q 0 ≠ 0 ∧ 0 < deg q ∧ ∃ r s, pseudoRem p q = .ok r ∧
    signCtx A c (lc q) = .ok s ∧
    v = if s < 0 ∧ (deg p - deg q + 1) % 2 = 1 then -tv A c T r e else tv A c T r e

/-- Only the row `p` has been changed, in the columns `S`. -/
structure RootInv (E E' : Table R) (p : List R) (RV : ℚ → ℤ → Prop) (S : ℚ → Prop) : Prop where
  old : ∀ q, q ≠ p → ∀ i, cv E' q i = cv E q i
  ckold : ∀ q, q ≠ p → ∀ i, i ∈ ck E' q ↔ i ∈ ck E q
  keys : ∀ q, q ∈ keys E' ↔ q ∈ keys E
  nodup : ∀ q, (Verif.Qe.ck E' q).Nodup
  ck : ∀ i, i ∈ ck E' p ↔ i ∈ ck E p ∨ S i
  val : ∀ i, S i → RV i (cv E' p i)
  oldp : ∀ i, ¬ S i → cv E' p i = cv E p i

theorem RootInv.congr {E E' : Table R} {p : List R} {RV : ℚ → ℤ → Prop} {S S' : ℚ → Prop}
    (h : RootInv E E' p RV S) (hS : ∀ i, S i ↔ S' i) : RootInv E E' p RV S' := by
  have : S = S' := funext fun i => propext (hS i)
  rwa [← this]

theorem RootInv.write {E E' : Table R} {p : List R} {RV : ℚ → ℤ → Prop} {S : ℚ → Prop}
    (h : RootInv E E' p RV S) (hp : p ∈ Verif.Qe.keys E) (i : ℚ) (v : ℤ) (hv : RV i v) :
    RootInv E (dWrite E' p i v) p RV (fun j => S j ∨ j = i) := by
  refine ⟨?_, ?_, ?_, nodup_ck_dWrite _ _ _ _ h.nodup, ?_, ?_, ?_⟩
  · intro q hq j
    rw [cv_dWrite, if_neg fun h => hq h.1, h.old q hq]
  · intro q hq j
    rw [mem_ck_dWrite, h.ckold q hq]
    exact ⟨fun h' => h'.elim id fun h' => absurd h'.1 hq, Or.inl⟩
  · intro q
    rw [mem_keys_dWrite, h.keys]
    exact ⟨fun h' => h'.elim (fun h' => h' ▸ hp) id, Or.inr⟩
  · intro j
    rw [mem_ck_dWrite, h.ck, or_assoc]
    simp
  · intro j hj
    rw [cv_dWrite]
    by_cases hji : j = i
    · rw [if_pos ⟨rfl, hji⟩, hji]; exact hv
    · rw [if_neg fun h => hji h.2]
      exact h.val j (hj.resolve_right hji)
  · intro j hj
    push Not at hj
    rw [cv_dWrite, if_neg fun h => hj.2 h.2, h.oldp j hj.1]

/-- The table before the loop over the intervals. -/
structure CMid (A : MAlg R) (c : Ctx R) (T E0 : Table R) (gs : List (ℚ × ℚ)) (p : List R)
    (pols : List (List R)) (s : ℤ) (D2 : Table R) : Prop where
  bot : cv D2 p 0 = (-1) ^ deg p * s
  top : cv D2 p 1 = s
  root : ∀ e ∈ segInner gs, ChRootVal A c T E0 p pols e (cv D2 p e)
  old : ∀ q ∈ pols, ∀ i, cv D2 q i = cv E0 q i

/-- The result of an extension of `E0` (with columns `gs`). -/
def ExtOut (A : MAlg R) (c : Ctx R) (T E0 : Table R) (gs : List (ℚ × ℚ)) (p : List R)
    (pols : List (List R)) (s : ℤ) (E : Table R) (gs' : List (ℚ × ℚ)) : Prop :=
  (deg p = 0 ∧ gs' = gs ∧ (∀ q ∈ pols, ∀ i, cv E q i = cv E0 q i) ∧
    ∀ i, i = 0 ∨ i ∈ segCols gs → cv E p i = s) ∨
  (0 < deg p ∧ ∃ D2, CMid A c T E0 gs p pols s D2 ∧ SegExt D2 E p pols 0 gs gs' ∧
    ∀ q, cv E q 0 = cv D2 q 0)

theorem ExtRun.rootVal_sign {A : MAlg R} {c : Ctx R} {T E0 : Table R} {rows : List (List R)}
    {gs gs1 : List (ℚ × ℚ)} {p : List R} {pols : List (List R)} {s : ℤ}
    (h : ExtRun A c T rows gs p pols s) (hin : ∀ e ∈ segInner gs1, e ∈ segInner gs) {e : ℚ}
    (he : e ∈ segInner gs1) {v : ℤ} (hv : ChRootVal A c T E0 p pols e v) : Sign3 v := by
  obtain ⟨q, hq, _, _, hpos, r, s', hr, _, rfl⟩ := hv
  obtain ⟨r', hr', h1, h2⟩ := h.rem q hq hpos
  rw [hr] at hr'
  cases hr'
  have h3 : Sign3 (tv A c T r e) := by
    unfold tv
    by_cases hd : 0 < deg r
    · rw [if_pos hd]
      exact h.shape.val r (h1 hd) e (Or.inr (segEnds_sub _ (segInner_sub _ (hin e he))))
    · rw [if_neg hd]
      obtain ⟨v, hv, hv'⟩ := h2 (by omega)
      rw [hv']; exact hv
  split
  · exact h3.neg
  · exact h3

/-- `extend_single_table` when the sign of the leading coefficient may be 0. -/
theorem extendSingle_run {A : MAlg R} {c : Ctx R} {T : Table R} {rows : List (List R)}
    {gs : List (ℚ × ℚ)} {p : List R} {pols : List (List R)} {s : ℤ}
    (h : ExtRun A c T rows gs p pols s) :
    ∃ E0 b, TShape A c E0 pols (condSeg (selOf T rows pols) b gs) ∧
      (∀ q ∈ pols, cv E0 q b = tv A c T q 0 ∧
        ∀ i, i = 0 ∨ i ∈ (segCols (condSeg (selOf T rows pols) b gs)).tail →
          cv E0 q i = tv A c T q i) ∧
      ((0 < deg p ∧ extendSingle A T c p pols = .ok none ∧
          ∃ D2, CMid A c T E0 (condSeg (selOf T rows pols) b gs) p pols s D2 ∧
            SegBad D2 p 0 (condSeg (selOf T rows pols) b gs)) ∨
        ∃ E gs', extendSingle A T c p pols = .ok (some E) ∧ (∀ q, q ∈ keys E ↔ q ∈ p :: pols) ∧
          (∀ q ∈ p :: pols, ∀ i, i ∈ ck E q ↔ i = 0 ∨ i ∈ segCols gs') ∧ (1 : ℚ) ∈ segCols gs' ∧
          ((0 < deg p → s ≠ 0) → TShape A c E (p :: pols) gs') ∧
          ExtOut A c T E0 (condSeg (selOf T rows pols) b gs) p pols s E gs') := by
  obtain ⟨E0, b, hcopy, hb, hs0, hv0⟩ := copyTable_ok h.shape h.rne h.pne h.pos h.const
  refine ⟨E0, b, hs0, hv0, ?_⟩
  have hinn : ∀ e ∈ segInner (condSeg (selOf T rows pols) b gs), e ∈ segInner gs := fun e he =>
    (condSeg_inner _ gs b e he).1
  set gs1 := condSeg (selOf T rows pols) b gs with hgs1
  clear_value gs1
  have hqp : ∀ q ∈ pols, q ≠ p := by rintro q hq rfl; exact h.new hq
  set a : ℤ := (-1) ^ deg p * s with ha
  have ha3 : Sign3 a := by rw [ha, mul_comm]; exact h.s3.mul_pow _
  -- the table with the new row
  set E1 := dWrite (dWrite (dSet E0 p []) p 0 a) p 1 s with hE1
  have hrow0 : ∀ q, q ≠ p → dRow (dSet E0 p []) q = dRow E0 q := by
    intro q hq
    unfold dRow
    rw [dGet_dSet, if_neg fun h => hq h.symm]
  have hrowp : dRow (dSet E0 p []) p = [] := by
    unfold dRow
    rw [dGet_dSet, if_pos rfl]; rfl
  have hcv1 : ∀ q, q ≠ p → ∀ i, cv E1 q i = cv E0 q i := by
    intro q hq i
    rw [hE1, cv_dWrite, if_neg fun h => hq h.1, cv_dWrite, if_neg fun h => hq h.1, cv_eq_dRow, hrow0 q hq,
      ← cv_eq_dRow]
  have hck1 : ∀ q, q ≠ p → ∀ i, i ∈ ck E1 q ↔ i ∈ ck E0 q := by
    intro q hq i
    rw [hE1, mem_ck_dWrite, mem_ck_dWrite]
    unfold ck
    rw [hrow0 q hq]
    constructor
    · rintro ((h | ⟨h, _⟩) | ⟨h, _⟩)
      · exact h
      · exact absurd h hq
      · exact absurd h hq
    · exact fun h => Or.inl (Or.inl h)
  have hckp : ∀ i, i ∈ ck E1 p ↔ i = 0 ∨ i = 1 := by
    intro i
    rw [hE1, mem_ck_dWrite, mem_ck_dWrite]
    unfold ck
    rw [hrowp]
    simp
  have hkeys1 : ∀ q, q ∈ keys E1 ↔ q = p ∨ q ∈ pols := by
    intro q
    rw [hE1, mem_keys_dWrite, mem_keys_dWrite]
    unfold keys
    rw [mem_keys_dSet, ← hs0.keys]
    unfold keys
    tauto
  have hnd1 : ∀ q, (ck E1 q).Nodup := by
    apply nodup_ck_dWrite
    apply nodup_ck_dWrite
    intro q
    unfold ck
    by_cases hq : q = p
    · rw [hq, hrowp]; simp
    · rw [hrow0 q hq]; exact hs0.nodup q
  have hcvp0 : cv E1 p 0 = a := by
    rw [hE1, cv_dWrite, if_neg (by rintro ⟨_, h⟩; exact zero_ne_one h), cv_dWrite, if_pos ⟨rfl, rfl⟩]
  have hcvp1 : cv E1 p 1 = s := by rw [hE1, cv_dWrite, if_pos ⟨rfl, rfl⟩]
  have hpk1 : p ∈ keys E1 := (hkeys1 p).2 (Or.inl rfl)
  -- unfolding
  obtain ⟨p0, pols', hpols⟩ : ∃ p0 pols', pols = p0 :: pols' := by
    cases hp : pols with
    | nil => exact absurd hp h.pne
    | cons p0 pols' => exact ⟨p0, pols', rfl⟩
  have hp0 : p0 ∈ pols := by rw [hpols]; simp
  obtain ⟨row, hrow⟩ := (dGet_isSome E1 p0).1 ((hkeys1 p0).2 (Or.inr hp0))
  have hsort : sortedCols row = 0 :: segCols gs1 := by
    have h1 : row.map Prod.fst = ck E1 p0 := by
      unfold ck dRow
      rw [hrow]; rfl
    unfold sortedCols
    rw [h1]
    refine sorted_of_ck hs0.chain (hnd1 p0) ?_
    intro i
    rw [hck1 p0 (hqp p0 hp0), hs0.ck p0 hp0]
  set tr := triples (0 :: segCols gs1) with htr
  have hunf : extendSingle A T c p pols =
      if deg p = 0 then
        .ok (some ((tr.map fun t => t.2.1).foldl (fun E col => dWrite E p col s) E1))
      else ((pols.foldlM (chRoots A T c p (tr.map fun t => t.2.1)) E1) >>= fun E =>
        chGaps p pols tr E) := by
    unfold extendSingle
    rw [h.lc]
    show (do
      let E ← copyTable A T pols c
      _) = _
    rw [hcopy]
    simp only [bind, Except.bind, hpols]
    rw [← ha, ← hE1, hrow]
    simp only [hsort, htr]
  rw [hunf]
  have hinner : ∀ i, i ∈ tr.map (fun t => t.2.1) ↔ i ∈ segGaps gs1 ∨ i ∈ segInner gs1 :=
    fun i => mem_triples gs1 0 i
  have h1col : (1 : ℚ) ∈ segCols gs1 := hs0.one_mem
  by_cases hd : deg p = 0
  · -- a constant
    right
    rw [if_pos hd]
    have hW : ∀ (cols done : List ℚ) (E : Table R), RootInv E1 E p (fun _ v => v = s) (fun i => i ∈ done) →
        RootInv E1 (cols.foldl (fun E col => dWrite E p col s) E) p (fun _ v => v = s)
          (fun i => i ∈ done ++ cols) := by
      intro cols
      induction cols with
      | nil => intro done E hI; simpa using hI
      | cons x cols ih =>
        intro done E hI
        rw [List.foldl_cons]
        have := ih (done ++ [x]) _ ((hI.write hpk1 x s rfl).congr (by simp))
        simpa using this
    have hI := hW (tr.map fun t => t.2.1) [] E1 ⟨fun _ _ _ => rfl, fun _ _ _ => Iff.rfl, fun _ => Iff.rfl,
      hnd1, by simp, by simp, by simp⟩
    rw [List.nil_append] at hI
    set E := (tr.map fun t => t.2.1).foldl (fun E col => dWrite E p col s) E1
    have hsplit : ∀ i, i = 0 ∨ i ∈ segCols gs1 → i = 0 ∨ i = 1 ∨ i ∈ tr.map (fun t => t.2.1) := by
      intro i hi
      rcases hi with hi | hi
      · exact Or.inl hi
      · right
        have hge : i ∈ segGaps gs1 ∨ i ∈ segEnds gs1 := by
          clear * - hi
          induction gs1 with
          | nil => simp [segCols] at hi
          | cons x gs1 ih =>
            obtain ⟨g, e⟩ := x
            simp only [segCols, segGaps, segEnds, List.mem_cons] at hi ⊢
            rcases hi with hi | hi | hi
            · exact Or.inl (Or.inl hi)
            · exact Or.inr (Or.inl hi)
            · rcases ih hi with hi | hi
              · exact Or.inl (Or.inr hi)
              · exact Or.inr (Or.inr hi)
        rw [hinner]
        rcases hge with hi | hi
        · exact Or.inr (Or.inl hi)
        · rcases segEnds_eq (l := 0) i hi with hi | hi
          · exact Or.inr (Or.inr hi)
          · rw [hs0.last] at hi; exact Or.inl hi
    have hpv : ∀ i, i = 0 ∨ i ∈ segCols gs1 → cv E p i = s := by
      intro i hi
      by_cases him : i ∈ tr.map (fun t => t.2.1)
      · exact hI.val i him
      · rw [hI.oldp i him]
        rcases hsplit i hi with rfl | rfl | hi
        · rw [hcvp0, ha, hd]; simp
        · exact hcvp1
        · exact absurd hi him
    have hold : ∀ q ∈ pols, ∀ i, cv E q i = cv E0 q i := by
      intro q hq i
      rw [hI.old q (hqp q hq), hcv1 q (hqp q hq)]
    have hkE : ∀ q, q ∈ keys E ↔ q ∈ p :: pols := by
      intro q
      rw [hI.keys, hkeys1, List.mem_cons]
    have hcE : ∀ q ∈ p :: pols, ∀ i, i ∈ ck E q ↔ i = 0 ∨ i ∈ segCols gs1 := by
      intro q hq i
      rcases List.mem_cons.1 hq with rfl | hq
      · rw [hI.ck, hckp]
        constructor
        · rintro ((h | h) | h)
          · exact Or.inl h
          · rw [h]; exact Or.inr h1col
          · rcases (hinner i).1 h with h | h
            · exact Or.inr (segGaps_sub _ h)
            · exact Or.inr (segEnds_sub _ (segInner_sub _ h))
        · intro hi
          rcases hsplit i hi with h | h | h
          · exact Or.inl (Or.inl h)
          · exact Or.inl (Or.inr h)
          · exact Or.inr h
      · rw [hI.ckold q (hqp q hq), hck1 q (hqp q hq), hs0.ck q hq]
    refine ⟨E, gs1, rfl, hkE, hcE, h1col, fun _ => ?_, Or.inl ⟨hd, rfl, hold, hpv⟩⟩
    refine ⟨hs0.ne, hs0.chain, hs0.last, hkE, hcE, hI.nodup, ?_, ?_, ?_⟩
    · apply segOK_of
      · intro g hg q hq h0
        rcases List.mem_cons.1 hq with rfl | hq
        · rw [hpv 0 (Or.inl rfl)] at h0
          rw [hpv g (Or.inr (segGaps_sub _ hg))]; exact h0
        · rw [hold q hq] at h0 ⊢
          exact hs0.seg.gap g hg q hq h0
      · intro e he
        obtain ⟨q, hq, h1, h2⟩ := hs0.seg.inner e he
        exact ⟨q, List.mem_cons_of_mem _ hq, by rw [hold q hq, h1], by rw [hold q hq]; exact h2⟩
    · intro q hq i hi
      rcases List.mem_cons.1 hq with rfl | hq
      · rw [hpv i hi]; exact h.s3
      · rw [hold q hq]; exact hs0.val q hq i hi
    · intro q hq hd' i hi
      rcases List.mem_cons.1 hq with rfl | hq
      · rw [hpv i hi]; exact h.maxc hd
      · rw [hold q hq]; exact hs0.const q hq hd' i hi
  · -- positive degree
    have hdpos : 0 < deg p := Nat.pos_of_ne_zero hd
    rw [if_neg hd]
    set Z : List R → ℚ → Prop := fun q i => i ∈ tr.map (fun t => t.2.1) ∧ cv E0 q 0 ≠ 0 ∧ cv E0 q i = 0
      with hZ
    have hZin : ∀ q ∈ pols, ∀ i, Z q i → i ∈ segInner gs1 := by
      rintro q hq i ⟨h1, h2, h3⟩
      rcases (hinner i).1 h1 with h' | h'
      · exact absurd h3 (hs0.seg.gap i h' q hq h2)
      · exact h'
    have hstep : ∀ q ∈ pols, ∀ (S : ℚ → Prop) (E : Table R),
        RootInv E1 E p (ChRootVal A c T E0 p pols) S →
        ∃ E', chRoots A T c p (tr.map fun t => t.2.1) E q = .ok E' ∧
          RootInv E1 E' p (ChRootVal A c T E0 p pols) (fun i => S i ∨ Z q i) := by
      intro q hq S E hI
      have hcv : ∀ {E : Table R} {S : ℚ → Prop}, RootInv E1 E p (ChRootVal A c T E0 p pols) S →
          ∀ i, i = 0 ∨ i ∈ segCols gs1 → dRead E q i = .ok (cv E0 q i) := by
        intro E S hI i hi
        rw [dRead_ok ((hI.ckold q (hqp q hq) i).2 ((hck1 q (hqp q hq) i).2 ((hs0.ck q hq i).2 hi))),
          hI.old q (hqp q hq), hcv1 q (hqp q hq)]
      unfold chRoots
      rw [hcv hI 0 (Or.inl rfl)]
      show ∃ E', (if cv E0 q 0 = 0 then _ else _) = _ ∧ _
      by_cases h0 : cv E0 q 0 = 0
      · rw [if_pos h0]
        exact ⟨E, rfl, hI.congr fun i => ⟨Or.inl, fun h' => h'.elim id fun h' => absurd h0 h'.2.1⟩⟩
      · rw [if_neg h0]
        obtain ⟨E', e1, e2⟩ := foldlM_inv (fun (E : Table R) (col : ℚ) => do
            let v ← dRead E q col
            if v ≠ 0 then .ok E
            else do
              let rem ← pseudoRem p q
              let value ← tableLookup A T rem col c
              if A.hasVar (lc q) = true ∧ dGet c (lc q) = none then .error .noKey
              else do
                let s ← signCtx A c (lc q)
                let value := if s < 0 ∧ (deg p - deg q + 1) % 2 = 1 then -value else value
                (.ok (dWrite E p col value) : Except QErr (Table R)))
          (fun done E => RootInv E1 E p (ChRootVal A c T E0 p pols)
            (fun i => S i ∨ (i ∈ done ∧ cv E0 q i = 0))) (tr.map fun t => t.2.1) [] E
          (hI.congr (by simp)) (by
            intro done col E' hI' hcol
            have hcolc : col ∈ segCols gs1 := by
              rcases (hinner col).1 hcol with h' | h'
              · exact segGaps_sub _ h'
              · exact segEnds_sub _ (segInner_sub _ h')
            simp only [hcv hI' col (Or.inr hcolc)]
            show ∃ s', (if cv E0 q col ≠ 0 then _ else _) = _ ∧ _
            by_cases hz : cv E0 q col = 0
            · rw [if_neg (by rw [hz]; simp)]
              have hin : col ∈ segInner gs1 := hZin q hq col ⟨hcol, h0, hz⟩
              have hdq : 0 < deg q := by
                rcases Nat.eq_zero_or_pos (deg q) with h' | h'
                · have k1 := hs0.const q hq h' 0 (Or.inl rfl)
                  have k2 := hs0.const q hq h' col (Or.inr hcolc)
                  rw [k1, hz] at k2
                  exact absurd (Option.some.inj k2) h0
                · exact h'
              obtain ⟨r, hr, hr1, hr2⟩ := h.rem q hq hdq
              obtain ⟨s', hs'⟩ := h.plc q hq hdq
              have hlook : tableLookup A T r col c = .ok (tv A c T r col) :=
                tableLookup_ok h.shape hr1 (fun h' => by
                  obtain ⟨v, _, hv⟩ := hr2 h'
                  exact ⟨v, hv⟩) (Or.inr (segEnds_sub _ (segInner_sub _ (hinn col hin))))
              refine ⟨dWrite E' p col (if s' < 0 ∧ (deg p - deg q + 1) % 2 = 1 then -tv A c T r col
                else tv A c T r col), ?_, ?_⟩
              · rw [hr]
                show (do
                  let value ← tableLookup A T r col c
                  _ : Except QErr (Table R)) = _
                rw [hlook]
                show (if A.hasVar (lc q) = true ∧ dGet c (lc q) = none then _ else _) = _
                rw [if_neg (signCtx_key hs'), hs']
                rfl
              · refine (hI'.write hpk1 col _ ⟨q, hq, hz, h0, hdq, r, s', hr, hs', rfl⟩).congr ?_
                intro i
                simp only [List.mem_append, List.mem_singleton]
                constructor
                · rintro ((h' | h') | h')
                  · exact Or.inl h'
                  · exact Or.inr ⟨Or.inl h'.1, h'.2⟩
                  · exact Or.inr ⟨Or.inr h', by rw [h', hz]⟩
                · rintro (h' | ⟨h' | h', h''⟩)
                  · exact Or.inl (Or.inl h')
                  · exact Or.inl (Or.inr ⟨h', h''⟩)
                  · exact Or.inr h'
            · rw [if_pos hz]
              refine ⟨E', rfl, hI'.congr ?_⟩
              intro i
              simp only [List.mem_append, List.mem_singleton]
              constructor
              · rintro (h' | h')
                · exact Or.inl h'
                · exact Or.inr ⟨Or.inl h'.1, h'.2⟩
              · rintro (h' | ⟨h' | h', h''⟩)
                · exact Or.inl h'
                · exact Or.inr ⟨h', h''⟩
                · rw [h'] at h''; exact absurd h'' hz)
        refine ⟨E', e1, e2.congr ?_⟩
        intro i
        rw [List.nil_append]
        refine or_congr Iff.rfl ?_
        exact ⟨fun h' => ⟨h'.1, h0, h'.2⟩, fun h' => ⟨h'.1, h'.2.2⟩⟩
    obtain ⟨D2, hf2, hI⟩ := foldlM_inv (chRoots A T c p (tr.map fun t => t.2.1))
      (fun done E => RootInv E1 E p (ChRootVal A c T E0 p pols) (fun i => ∃ q ∈ done, Z q i)) pols [] E1
      ⟨fun _ _ _ => rfl, fun _ _ _ => Iff.rfl, fun _ => Iff.rfl, hnd1, by simp, by simp, by simp⟩ (by
        intro done q E hI hq
        obtain ⟨E', h1, h2⟩ := hstep q hq _ E hI
        refine ⟨E', h1, h2.congr ?_⟩
        intro i
        constructor
        · rintro (⟨r, hr, h'⟩ | h')
          · exact ⟨r, by simp [hr], h'⟩
          · exact ⟨q, by simp, h'⟩
        · rintro ⟨r, hr, h'⟩
          rcases List.mem_append.1 hr with hr | hr
          · exact Or.inl ⟨r, hr, h'⟩
          · rw [List.mem_singleton] at hr
            subst hr
            exact Or.inr h')
    rw [List.nil_append] at hI
    replace hI := hI.congr (S' := fun i => i ∈ segInner gs1) (by
      intro i
      constructor
      · rintro ⟨q, hq, h'⟩; exact hZin q hq i h'
      · intro hi
        obtain ⟨q, hq, h1, h2⟩ := hs0.seg.inner i hi
        exact ⟨q, hq, (hinner i).2 (Or.inr hi), h2, h1⟩)
    rw [hf2]
    show (0 < deg p ∧ chGaps p pols tr D2 = .ok none ∧ _) ∨
      ∃ E gs', chGaps p pols tr D2 = .ok (some E) ∧ _
    have h10 : (1 : ℚ) ∉ segInner gs1 := fun h' => by
      have := segInner_lt_last hs0.chain 1 h'
      rw [hs0.last] at this
      exact lt_irrefl _ this
    have h00 : (0 : ℚ) ∉ segInner gs1 := fun h' =>
      lt_irrefl _ (segChain_lt hs0.chain 0 (segEnds_sub _ (segInner_sub _ h')))
    have hmid : CMid A c T E0 gs1 p pols s D2 := by
      refine ⟨?_, ?_, hI.val, ?_⟩
      · rw [hI.oldp 0 h00, hcvp0]
      · rw [hI.oldp 1 h10, hcvp1]
      · intro q hq i
        rw [hI.old q (hqp q hq), hcv1 q (hqp q hq)]
    have hckp2 : ∀ i, i ∈ ck D2 p ↔ i = 0 ∨ i ∈ segEnds gs1 := by
      intro i
      rw [hI.ck, hckp]
      constructor
      · rintro ((h | h) | h)
        · exact Or.inl h
        · right; rw [h, ← hs0.last]; exact segLast_mem hs0.ne
        · exact Or.inr (segInner_sub _ h)
      · rintro (h | h)
        · exact Or.inl (Or.inl h)
        · rcases segEnds_eq (l := 0) i h with h | h
          · exact Or.inr h
          · rw [hs0.last] at h; exact Or.inl (Or.inr h)
    have hval2 : ∀ i, i = 0 ∨ i ∈ segEnds gs1 → Sign3 (cv D2 p i) := by
      intro i hi
      rcases hi with rfl | hi
      · rw [hmid.bot]; exact ha3
      · rcases segEnds_eq (l := 0) i hi with h' | h'
        · exact h.rootVal_sign hinn h' (hmid.root i h')
        · rw [hs0.last] at h'
          subst h'
          rw [hmid.top]; exact h.s3
    have hck2 : ∀ q ∈ pols, ∀ i, i ∈ ck D2 q ↔ i = 0 ∨ i ∈ segCols gs1 := by
      intro q hq i
      rw [hI.ckold q (hqp q hq), hck1 q (hqp q hq), hs0.ck q hq]
    rcases chGapFold h.new gs1 0 D2 le_rfl hs0.chain
      (fun q hq => ⟨(hck2 q hq 0).2 (Or.inl rfl), fun i hi => (hck2 q hq i).2 (Or.inr hi)⟩)
      (fun i hi => ⟨(hckp2 i).2 hi, hval2 i hi⟩)
      (fun g hg hc => by
        rcases (hckp2 g).1 hc with h' | h'
        · have := segChain_lt hs0.chain g (segGaps_sub _ hg); linarith
        · exact segGaps_not_ends hs0.chain g hg h') with
      ⟨hbad, hnone⟩ | ⟨E, gs', r1, r2, r3, r4, r5, r6, r7⟩
    · exact Or.inl ⟨hdpos, hnone, D2, hmid, hbad⟩
    · right
      have hfacts := r7.facts hs0.chain
      have hcol0 : ∀ q, cv E q 0 = cv D2 q 0 := fun q => r2 q 0 le_rfl
      have hrows : ∀ q, q ∈ p :: pols ↔ q = p ∨ q ∈ pols := fun q => List.mem_cons
      have hseg2 : SegOK D2 pols gs1 :=
        hs0.seg.congr hs0.chain (fun q hq => hmid.old q hq 0) fun q hq i _ => hmid.old q hq i
      have hkE : ∀ q, q ∈ keys E ↔ q ∈ p :: pols := by
        intro q
        rw [r5, hI.keys, hkeys1, hrows]
      have hcE : ∀ q ∈ p :: pols, ∀ i, i ∈ ck E q ↔ i = 0 ∨ i ∈ segCols gs' := by
        intro q hq i
        have hq' := (hrows q).1 hq
        rw [r4 q hq'.symm]
        rcases hq' with rfl | hq'
        · rw [hckp2]
          constructor
          · rintro ((h | h) | h)
            · exact Or.inl h
            · exact Or.inr (hfacts.2.2.2 i (segEnds_sub i h))
            · exact Or.inr h
          · rintro (h | h)
            · exact Or.inl (Or.inl h)
            · exact Or.inr h
        · rw [hck2 q hq']
          constructor
          · rintro ((h | h) | h)
            · exact Or.inl h
            · exact Or.inr (hfacts.2.2.2 i h)
            · exact Or.inr h
          · rintro (h | h)
            · exact Or.inl (Or.inl h)
            · exact Or.inr h
      refine ⟨E, gs', r1, hkE, hcE, hfacts.2.2.2 1 h1col, fun hs => ?_, Or.inr ⟨hdpos, D2, hmid, r7, hcol0⟩⟩
      have ha0 : a ≠ 0 := mul_ne_zero (pow_ne_zero _ (by decide)) (hs hdpos)
      obtain ⟨k1, k2, k3⟩ := segExt_ok hrows hcol0 (by rw [hmid.bot]; exact ha0) r7 hseg2 hval2
      have hcol : ∀ i, i = 0 ∨ i ∈ segCols gs' → ∃ j, (j = 0 ∨ j ∈ segCols gs1) ∧
          ∀ q ∈ pols, cv E q i = cv E0 q j := by
        intro i hi
        rcases hi with rfl | hi
        · exact ⟨0, Or.inl rfl, fun q hq => by rw [hcol0, hmid.old q hq]⟩
        · obtain ⟨j, hj, h'⟩ := k3 i hi
          exact ⟨j, Or.inr hj, fun q hq => by rw [h' q hq, hmid.old q hq]⟩
      refine ⟨fun h' => hs0.ne (hfacts.2.2.1.1 h'), hfacts.1, hfacts.2.1.trans hs0.last, hkE, hcE,
        r6 hI.nodup, k1, ?_, ?_⟩
      · intro q hq i hi
        rcases (hrows q).1 hq with rfl | hq
        · rcases hi with rfl | hi
          · rw [hcol0]; exact hval2 0 (Or.inl rfl)
          · exact k2 i hi
        · obtain ⟨j, hj, h'⟩ := hcol i hi
          rw [h' q hq]
          exact hs0.val q hq j hj
      · intro q hq hd' i hi
        rcases (hrows q).1 hq with rfl | hq
        · exact absurd hd' hd
        · obtain ⟨j, hj, h'⟩ := hcol i hi
          rw [h' q hq]
          exact hs0.const q hq hd' j hj

theorem extendSingle_ok {A : MAlg R} {c : Ctx R} {T : Table R} {rows : List (List R)}
    {gs : List (ℚ × ℚ)} {p : List R} {pols : List (List R)} {s : ℤ}
    (h : ExtHyp A c T rows gs p pols s) :
    ∃ E0 b, TShape A c E0 pols (condSeg (selOf T rows pols) b gs) ∧
      (∀ q ∈ pols, cv E0 q b = tv A c T q 0 ∧
        ∀ i, i = 0 ∨ i ∈ (segCols (condSeg (selOf T rows pols) b gs)).tail →
          cv E0 q i = tv A c T q i) ∧
      ((0 < deg p ∧ extendSingle A T c p pols = .ok none ∧
          ∃ D2, CMid A c T E0 (condSeg (selOf T rows pols) b gs) p pols s D2 ∧
            SegBad D2 p 0 (condSeg (selOf T rows pols) b gs)) ∨
        ∃ E gs', extendSingle A T c p pols = .ok (some E) ∧ TShape A c E (p :: pols) gs' ∧
          ExtOut A c T E0 (condSeg (selOf T rows pols) b gs) p pols s E gs') := by
  obtain ⟨E0, b, h1, h2, h3 | ⟨E, gs', h3, _, _, _, h4, h5⟩⟩ := extendSingle_run h.toExtRun
  · exact ⟨E0, b, h1, h2, Or.inl h3⟩
  · exact ⟨E0, b, h1, h2, Or.inr ⟨E, gs', h3, h4 h.s0, h5⟩⟩

end Verif.Qe
