import Verif.Qe.DiagLemmas

/-!
# `complex_extend`: what it computes, for every assignment
-/

set_option linter.unusedSectionVars false

namespace Verif.Qe

variable {R : Type} [CommRing R] [DecidableEq R]

/-- Shape of a complex diagram with `n` columns. -/
structure CShape (D : Diagram R ℕ) (n : ℕ) : Prop where
  n_pos : 1 ≤ n
  ck : ∀ q ∈ keys D, ∀ i, i ∈ ck D q ↔ i < n
  nodup : ∀ q, (Verif.Qe.ck D q).Nodup
  zero : [] ∈ keys D
  witness : ∀ i, 1 ≤ i → i < n → ∃ q ∈ keys D, cv D q i = 0 ∧ cv D q 0 ≠ 0
  const : ∀ q ∈ keys D, deg q = 0 → cv D q 0 ≠ 0 → ∀ i < n, cv D q i ≠ 0

/-- What is needed to extend a diagram by `p`. -/
structure StepHyp {κ : Type} [DecidableEq κ] (D : Diagram R κ) (p : List R) : Prop where
  pos : 0 < deg p
  canon : Canon p
  new : p ∉ keys D
  tail : pTail p ∈ keys D
  der : ∀ k, 1 ≤ k → derivative^[k] p ∈ keys D
  rem : ∀ q ∈ keys D, 0 < deg q → Canon q ∧ deg q ≤ deg p ∧ ∃ r ∈ keys D, pseudoRem p q = .ok r
  tails : ∀ q ∈ keys D, pTail q ∈ keys D

theorem StepHyp.lcRow {κ : Type} [DecidableEq κ] {D : Diagram R κ} {p : List R} (h : StepHyp D p) :
    lcRow p ∈ keys D := by
  rw [← iterate_derivative_lcRow h.canon]
  exact h.der _ h.pos

theorem pTail_ne {p : List R} (h : 0 < deg p) : pTail p ≠ p := by
  intro h'
  have h1 := pTail_length p
  rw [h'] at h1
  unfold deg at h
  omega

theorem CShape.row_length {D : Diagram R ℕ} {n : ℕ} (h : CShape D n) {q : List R} (hq : q ∈ keys D) :
    (dRow D q).length = n := by
  have h1 : (Verif.Qe.ck D q).Perm (List.range n) := by
    rw [List.perm_ext_iff_of_nodup (h.nodup q) List.nodup_range]
    intro a; rw [h.ck q hq, List.mem_range]
  have := h1.length_eq
  rw [List.length_range] at this
  unfold Verif.Qe.ck at this
  rwa [List.length_map] at this

/-- Result of the multiplicity loop: the initial derivatives that are zero. -/
theorem multLoop_ok (D : Diagram R ℕ) (col : ℕ) : ∀ (n : ℕ) (r : List R) (done : ℕ),
    (∀ k, 1 ≤ k → col ∈ ck D (derivative^[k] r)) →
    ∃ m, multLoop D col n r done = .ok (done + m) ∧ m ≤ n ∧
      (∀ k, 1 ≤ k → k ≤ m → cv D (derivative^[k] r) col = 0) ∧
      (m < n → cv D (derivative^[m + 1] r) col ≠ 0) := by
  intro n
  induction n with
  | zero => intro r done _; exact ⟨0, rfl, le_rfl, by intro k; omega, by omega⟩
  | succ n ih =>
    intro r done h
    have h1 := h 1 le_rfl
    rw [Function.iterate_one] at h1
    unfold multLoop
    simp only [dRead_ok h1]
    by_cases hv : cv D (derivative r) col = 0
    · obtain ⟨m, h2, h3, h4, h5⟩ := ih (derivative r) (done + 1) (by
        intro k _
        have := h (k + 1) (by omega)
        rwa [Function.iterate_succ_apply] at this)
      refine ⟨m + 1, ?_, by omega, ?_, ?_⟩
      · show (if cv D (derivative r) col ≠ 0 then _ else _) = _
        rw [if_neg (by simpa using hv), h2]
        congr 1; omega
      · intro k hk hkm
        obtain ⟨j, rfl⟩ : ∃ j, k = j + 1 := ⟨k - 1, by omega⟩
        rw [Function.iterate_succ_apply]
        by_cases hj : j = 0
        · subst hj; exact hv
        · exact h4 j (by omega) (by omega)
      · intro hm
        rw [Function.iterate_succ_apply]
        exact h5 (by omega)
    · refine ⟨0, ?_, by omega, by intro k; omega, ?_⟩
      · show (if cv D (derivative r) col ≠ 0 then _ else _) = _
        rw [if_pos hv]; rfl
      · intro _; rw [zero_add, Function.iterate_one]; exact hv

/-- What is computed for an old column: value `v` and number of roots `c`. -/
structure ColOut (D : Diagram R ℕ) (p : List R) (i : ℕ) (v : ℤ) (c : ℕ) : Prop where
  value : ∃ q ∈ keys D, cv D q i = 0 ∧ cv D q 0 ≠ 0 ∧
    (∀ q' ∈ keys D, cv D q' i = 0 → cv D q' 0 ≠ 0 → deg q ≤ deg q') ∧
    ∃ r ∈ keys D, pseudoRem p q = .ok r ∧ v = cv D r i
  count0 : v ≠ 0 → c = 0
  count : v = 0 → ∃ m, c = m + 1 ∧ m ≤ deg p ∧
    (∀ k, 1 ≤ k → k ≤ m → cv D (derivative^[k] p) i = 0) ∧
    (m < deg p → cv D (derivative^[m + 1] p) i ≠ 0)

theorem multLoop_congr {D D' : Diagram R ℕ} {col : ℕ} : ∀ (n : ℕ) (r : List R) (done : ℕ),
    (∀ k, 1 ≤ k → dRead D' (derivative^[k] r) col = dRead D (derivative^[k] r) col) →
    multLoop D' col n r done = multLoop D col n r done := by
  intro n
  induction n with
  | zero => intro r done _; rfl
  | succ n ih =>
    intro r done h
    have h1 := h 1 le_rfl
    rw [Function.iterate_one] at h1
    have h2 := ih (derivative r) (done + 1) (by
      intro k _
      have := h (k + 1) (by omega)
      rwa [Function.iterate_succ_apply] at this)
    unfold multLoop
    simp only [h1, h2]

theorem multLoop_shift {D : Diagram R ℕ} {i : ℕ} : ∀ (k : ℕ) (r : List R) (a b : ℕ),
    multLoop D i k r a = .ok b → ∀ c, multLoop D i k r (a + c) = .ok (b + c) := by
  intro k
  induction k with
  | zero =>
    intro r a b h c
    simp only [multLoop, Except.ok.injEq] at h
    subst h; rfl
  | succ k ih =>
    intro r a b h c
    unfold multLoop at h ⊢
    simp only at h ⊢
    cases hd : dRead D (derivative r) i with
    | error e =>
      rw [hd] at h
      exact absurd h (by intro h; cases h)
    | ok w =>
      rw [hd] at h
      have h' : (if w ≠ 0 then Except.ok a else multLoop D i k (derivative r) (a + 1)) =
        Except.ok b := h
      show (if w ≠ 0 then Except.ok (a + c) else multLoop D i k (derivative r) (a + c + 1)) = _
      split at h'
      · rename_i hw
        cases h'
        rw [if_pos hw]
      · rename_i hw
        rw [if_neg hw]
        have := ih _ _ _ h' c
        rw [← this]; congr 1; omega

/-- The column computation, in diagrams that agree with `D` on its rows. -/
theorem complexCol_ok (A : MAlg R) {D : Diagram R ℕ} {n : ℕ} {p : List R} (hs : CShape D n)
    (hp : StepHyp D p) (rest : List (List R)) (hrest : ∀ q, q ∈ rest ↔ q ∈ keys D)
    (i : ℕ) (hi1 : 1 ≤ i) (hin : i < n) :
    ∃ v c, ColOut D p i v c ∧ ∀ D' : Diagram R ℕ, (∀ q ∈ keys D, ∀ i < n, i ∈ ck D' q) →
      (∀ q ∈ keys D, ∀ i < n, cv D' q i = cv D q i) →
      ∀ a, complexCol A p rest (D', a) i = .ok (dWrite D' p i v, a + c) := by
  set zs := rest.filter fun q => decide (cv D q i = 0) && decide (cv D q 0 ≠ 0) with hzs
  have hmem : ∀ q, q ∈ zs ↔ q ∈ keys D ∧ cv D q i = 0 ∧ cv D q 0 ≠ 0 := by
    intro q
    rw [hzs, List.mem_filter, hrest]
    simp only [Bool.and_eq_true, decide_eq_true_eq]
  obtain ⟨q0, hq0, hq01, hq02⟩ := hs.witness i hi1 hin
  have hne : zs ≠ [] := by
    intro h
    have := (hmem q0).2 ⟨hq0, hq01, hq02⟩
    rw [h] at this
    simp at this
  obtain ⟨q, hmin, hqz, hqmin⟩ := minPoly_spec A zs hne
  obtain ⟨hqk, hqi, hq0'⟩ := (hmem q).1 hqz
  have hqpos : 0 < deg q := by
    rcases Nat.eq_zero_or_pos (deg q) with h | h
    · exact absurd hqi (hs.const q hqk h hq0' i hin)
    · exact h
  obtain ⟨hqc, hqle, r, hr, hrem⟩ := hp.rem q hqk hqpos
  obtain ⟨m, hm1, hm2, hm3, hm4⟩ := multLoop_ok D i (deg p) p 0 (fun k hk =>
    (hs.ck _ (hp.der k hk) i).2 hin)
  have hval : ∃ q ∈ keys D, cv D q i = 0 ∧ cv D q 0 ≠ 0 ∧
    (∀ q' ∈ keys D, cv D q' i = 0 → cv D q' 0 ≠ 0 → deg q ≤ deg q') ∧
    ∃ r' ∈ keys D, pseudoRem p q = .ok r' ∧ cv D r i = cv D r' i :=
    ⟨q, hqk, hqi, hq0', fun q' h1 h2 h3 => hqmin q' ((hmem q').2 ⟨h1, h2, h3⟩), r, hr, hrem, rfl⟩
  have hcol : ∀ D' : Diagram R ℕ, (∀ q ∈ keys D, ∀ i < n, i ∈ ck D' q) →
      (∀ q ∈ keys D, ∀ i < n, cv D' q i = cv D q i) → ∀ a, complexCol A p rest (D', a) i =
      if cv D r i = 0 then (do
        let rootsDone ← multLoop D i (deg p) p (a + 1)
        .ok (dWrite D' p i (cv D r i), rootsDone))
      else .ok (dWrite D' p i (cv D r i), a) := by
    intro D' hck hcv a
    have hz := colZeros_ok D' 0 i rest (by
      intro q hq
      have hq := (hrest q).1 hq
      exact ⟨hck q hq i hin, hck q hq 0 hs.n_pos⟩)
    have hzs' : rest.filter (fun q => decide (cv D' q i = 0) && decide (cv D' q 0 ≠ 0)) = zs := by
      rw [hzs]
      apply List.filter_congr
      intro q hq
      have hq := (hrest q).1 hq
      rw [hcv q hq i hin, hcv q hq 0 hs.n_pos]
    rw [hzs'] at hz
    have hrv : dRead D' r i = .ok (cv D r i) := by
      rw [dRead_ok (hck r hr i hin), hcv r hr i hin]
    have hml : multLoop D' i (deg p) p (a + 1) = multLoop D i (deg p) p (a + 1) := by
      apply multLoop_congr
      intro k hk
      have hk' := hp.der k hk
      rw [dRead_ok (hck _ hk' i hin), hcv _ hk' i hin, dRead_ok ((hs.ck _ hk' i).2 hin)]
    unfold complexCol
    simp only [hz]
    show (match minPoly A zs with
      | none => .error .indexError
      | some q => _ : Except QErr (Diagram R ℕ × ℕ)) = _
    rw [hmin]
    simp only [hrem]
    show ((do
      let value ← dRead D' r i
      if value = 0 then do
        let rootsDone ← multLoop D' i (deg p) p (a + 1)
        .ok (dWrite D' p i value, rootsDone)
      else .ok (dWrite D' p i value, a)) : Except QErr (Diagram R ℕ × ℕ)) = _
    rw [hrv, ← hml]
    rfl
  by_cases hv : cv D r i = 0
  · refine ⟨cv D r i, m + 1, ⟨hval, fun h => absurd hv h, fun _ => ⟨m, rfl, hm2, hm3, hm4⟩⟩, ?_⟩
    intro D' hck hcv a
    rw [hcol D' hck hcv, if_pos hv]
    have := multLoop_shift _ _ _ _ hm1 (a + 1)
    rw [zero_add] at this
    rw [this]
    show Except.ok (dWrite D' p i (cv D r i), 0 + m + (a + 1)) = _
    congr 2; omega
  · refine ⟨cv D r i, 0, ⟨hval, fun _ => rfl, fun h => absurd h hv⟩, ?_⟩
    intro D' hck hcv a
    rw [hcol D' hck hcv, if_neg hv]; rfl

/-- The result of one step of `complex_extend`. -/
structure CStep (D : Diagram R ℕ) (n : ℕ) (p : List R) (D' : Diagram R ℕ) (n' : ℕ) : Prop where
  keys : ∀ q, q ∈ keys D' ↔ q = p ∨ q ∈ keys D
  ck : ∀ q, q ∈ Verif.Qe.keys D' → ∀ i, i ∈ ck D' q ↔ i < n'
  nodup : ∀ q, (Verif.Qe.ck D' q).Nodup
  le : n ≤ n'
  old : ∀ q ∈ Verif.Qe.keys D, ∀ i < n, cv D' q i = cv D q i
  cases : (cv D (lcRow p) 0 = 0 ∧ n' = n ∧ ∀ i < n, cv D' p i = cv D (pTail p) i) ∨
    (cv D (lcRow p) 0 ≠ 0 ∧ ∃ (val : ℕ → ℤ) (cnt : ℕ → ℕ),
      (∀ i, 1 ≤ i → i < n → ColOut D p i (val i) (cnt i)) ∧ cv D' p 0 = 1 ∧
      (∀ i, 1 ≤ i → i < n → cv D' p i = val i) ∧
      n' = n + (deg p - ((List.range' 1 (n - 1)).map cnt).sum) ∧
      (∀ i, n ≤ i → i < n' → cv D' p i = 0 ∧
        ∀ q ∈ Verif.Qe.keys D, cv D' q i = if cv D q 0 = 0 then 0 else 1))

theorem complexNew_ok (p : List R) (rest : List (List R)) (column : ℕ) (D : Diagram R ℕ)
    (hcol : column ≠ 0) (hp : p ∉ rest) (hck : ∀ q ∈ rest, 0 ∈ ck D q) :
    ∃ D', complexNew p rest column D = .ok D' ∧
      Written D D' (fun q i => (q = p ∨ q ∈ rest) ∧ i = column)
        (fun q _ => if q = p then 0 else if cv D q 0 = 0 then 0 else 1) := by
  unfold complexNew
  obtain ⟨D1, h1, h2⟩ := foldlM_written (κ := ℕ)
    (fun D q => do
      let v ← dRead D q 0
      if v = 0 then .ok (dWrite D q column 0) else .ok (dWrite D q column 1))
    (fun b q i => q = b ∧ i = column)
    (fun q _ => if q = p then 0 else if cv D q 0 = 0 then 0 else 1) D rest (by
      intro done D' a ha hW _
      have h0 : dRead D' a 0 = .ok (cv D a 0) := by
        rw [dRead_ok ((hW.ck _ _).2 (Or.inl (hck a ha))), hW.old]
        rintro ⟨b, _, _, h⟩
        exact hcol h.symm
      have hap : a ≠ p := fun h => hp (h ▸ ha)
      have hW' : ∀ D'', Written D D'' (fun q' j => (∃ b ∈ done, q' = b ∧ j = column) ∨
          (q' = a ∧ j = column)) (fun q _ => if q = p then 0 else if cv D q 0 = 0 then 0 else 1) →
          Written D D'' (fun q i => ∃ b ∈ done ++ [a], q = b ∧ i = column)
            (fun q _ => if q = p then 0 else if cv D q 0 = 0 then 0 else 1) := by
        intro D'' h
        refine h.congr ?_ (fun _ _ _ => rfl)
        intro q i
        simp only [List.mem_append, List.mem_singleton]
        constructor
        · rintro (⟨b, hb, h⟩ | h)
          · exact ⟨b, Or.inl hb, h⟩
          · exact ⟨a, Or.inr rfl, h⟩
        · rintro ⟨b, hb | hb, h3⟩
          · exact Or.inl ⟨b, hb, h3⟩
          · exact Or.inr (hb ▸ h3)
      by_cases hv : cv D a 0 = 0
      · refine ⟨dWrite D' a column 0, ?_, hW' _ (hW.write a column 0 ?_)⟩
        · simp only [h0]
          show (if cv D a 0 = 0 then _ else _) = _
          rw [if_pos hv]
        · simp [hap, hv]
      · refine ⟨dWrite D' a column 1, ?_, hW' _ (hW.write a column 1 ?_)⟩
        · simp only [h0]
          show (if cv D a 0 = 0 then _ else _) = _
          rw [if_neg hv]
        · simp [hap, hv])
  refine ⟨dWrite D1 p column 0, ?_, ?_⟩
  · rw [h1]; rfl
  · refine (h2.write p column 0 (by simp)).congr ?_ (fun _ _ _ => rfl)
    intro q i
    constructor
    · rintro (⟨b, hb, rfl, rfl⟩ | ⟨rfl, rfl⟩)
      · exact ⟨Or.inr hb, rfl⟩
      · exact ⟨Or.inl rfl, rfl⟩
    · rintro ⟨rfl | h, rfl⟩
      · exact Or.inr ⟨rfl, rfl⟩
      · exact Or.inl ⟨q, h, rfl, rfl⟩

theorem complexStep (A : MAlg R) {D : Diagram R ℕ} {n : ℕ} {p : List R} (hs : CShape D n)
    (hp : StepHyp D p) (todo : List (List R)) :
    ∃ D' n', complexExtend A D (p :: todo) = complexExtend A D' todo ∧ CStep D n p D' n' := by
  have hn := hs.n_pos
  set D1 := dWrite D p 0 1 with hD1
  have hpk : ∀ q ∈ keys D, q ≠ p := fun q hq h => hp.new (h ▸ hq)
  have hpck : ∀ i, i ∉ ck D p := fun i h => hp.new (mem_keys_of_ck h)
  have hcv1 : ∀ q ∈ keys D, ∀ i, cv D1 q i = cv D q i := by
    intro q hq i
    rw [hD1, cv_dWrite, if_neg fun h => hpk q hq h.1]
  have hck1 : ∀ q ∈ keys D, ∀ i, i ∈ ck D1 q ↔ i < n := by
    intro q hq i
    rw [hD1, mem_ck_dWrite, hs.ck q hq]
    constructor
    · rintro (h | ⟨h, _⟩)
      · exact h
      · exact absurd h (hpk q hq)
    · exact Or.inl
  have hkeys1 : ∀ q, q ∈ keys D1 ↔ q = p ∨ q ∈ keys D := fun q => mem_keys_dWrite D p q 0 1
  have hnd1 : ∀ q, (ck D1 q).Nodup := nodup_ck_dWrite D p 0 1 hs.nodup
  have hlc : dRead D1 (lcRow p) 0 = .ok (cv D (lcRow p) 0) := by
    rw [dRead_ok ((hck1 _ hp.lcRow 0).2 hn), hcv1 _ hp.lcRow]
  by_cases h0 : cv D (lcRow p) 0 = 0
  · obtain ⟨D2, h1, h2⟩ := copyTail_ok D1 p ((hkeys1 _).2 (Or.inr hp.tail)) (pTail_ne hp.pos)
    have hW : ∀ q i, (q = p ∧ i ∈ ck D1 (pTail p)) ↔ (q = p ∧ i < n) := by
      intro q i; rw [hck1 _ hp.tail]
    refine ⟨D2, n, ?_, ?_, ?_, h2.nodup hnd1, le_rfl, ?_, Or.inl ⟨h0, rfl, ?_⟩⟩
    · conv_lhs => unfold complexExtend
      simp only [← hD1, hlc]
      show (if cv D (lcRow p) 0 = 0 then _ else _) = _
      rw [if_pos h0, h1]; rfl
    · intro q
      rw [h2.keys, hkeys1]
      constructor
      · rintro (h | ⟨i, rfl, _⟩)
        · exact h
        · exact Or.inl rfl
      · exact Or.inl
    · intro q hq i
      rw [h2.ck, hW]
      rw [h2.keys, hkeys1] at hq
      by_cases hqp : q = p
      · subst hqp
        rw [hD1, mem_ck_dWrite]
        constructor
        · rintro ((h | ⟨_, rfl⟩) | ⟨_, h⟩)
          · exact absurd h (hpck i)
          · exact hn
          · exact h
        · exact fun h => Or.inr ⟨rfl, h⟩
      · have hq' : q ∈ keys D := by
          rcases hq with (h | h) | ⟨i, h, _⟩
          · exact absurd h hqp
          · exact h
          · exact absurd h hqp
        rw [hck1 q hq']
        constructor
        · rintro (h | ⟨h, _⟩)
          · exact h
          · exact absurd h hqp
        · exact Or.inl
    · intro q hq i _
      rw [h2.old _ _ fun h => hpk q hq h.1, hcv1 q hq]
    · intro i hi
      rw [h2.val p i ((hW p i).2 ⟨rfl, hi⟩), hcv1 _ hp.tail]
  · -- the leading coefficient is not zero
    set rest := (D1.map Prod.fst).filter fun q => q ≠ p with hrest
    have hrestmem : ∀ q, q ∈ rest ↔ q ∈ keys D := by
      intro q
      have : q ∈ D1.map Prod.fst ↔ q = p ∨ q ∈ keys D := hkeys1 q
      rw [hrest, List.mem_filter, this]
      simp only [decide_eq_true_eq]
      constructor
      · rintro ⟨h | h, h'⟩
        · exact absurd h h'
        · exact h
      · exact fun h => ⟨Or.inr h, hpk q h⟩
    have hsize : (dRow D1 []).length = n := by
      have h : dRow D1 [] = dRow D [] := by
        rw [hD1, dRow_dWrite, if_neg (fun h => hpk [] hs.zero h.symm)]
      rw [h, hs.row_length hs.zero]
    have hcols : ∀ i, ∃ vc : ℤ × ℕ, 1 ≤ i → i < n → ColOut D p i vc.1 vc.2 ∧
        ∀ D' : Diagram R ℕ, (∀ q ∈ keys D, ∀ i < n, i ∈ ck D' q) →
          (∀ q ∈ keys D, ∀ i < n, cv D' q i = cv D q i) →
          ∀ a, complexCol A p rest (D', a) i = .ok (dWrite D' p i vc.1, a + vc.2) := by
      intro i
      by_cases hi : 1 ≤ i ∧ i < n
      · obtain ⟨v, c, h⟩ := complexCol_ok A hs hp rest hrestmem i hi.1 hi.2
        exact ⟨(v, c), fun _ _ => h⟩
      · exact ⟨(0, 0), fun h1 h2 => absurd ⟨h1, h2⟩ hi⟩
    choose vc hvc using hcols
    set val : ℕ → ℤ := fun i => (vc i).1 with hval
    set cnt : ℕ → ℕ := fun i => (vc i).2 with hcnt
    have hrange : ∀ i, i ∈ List.range' 1 (n - 1) ↔ 1 ≤ i ∧ i < n := by
      intro i; rw [List.mem_range'_1]; omega
    -- first loop
    obtain ⟨⟨D2, total⟩, hl1, hW2, htot⟩ := foldlM_inv (complexCol A p rest)
      (fun done s => Written D1 s.1 (fun q i => q = p ∧ i ∈ done) (fun _ i => val i) ∧
        s.2 = (done.map cnt).sum) (List.range' 1 (n - 1)) [] (D1, 0)
      ⟨(Written.refl D1 fun _ i => val i).congr (by simp) (by simp), by simp⟩ (by
        rintro done i ⟨D', t⟩ ⟨hW, ht⟩ hi
        rw [hrange] at hi
        refine ⟨(dWrite D' p i (val i), t + cnt i), ?_, ?_, ?_⟩
        · refine (hvc i hi.1 hi.2).2 D' ?_ ?_ t
          · intro q hq j hj
            exact (hW.ck q j).2 (Or.inl ((hck1 q hq j).2 hj))
          · intro q hq j hj
            rw [hW.old q j fun h => hpk q hq h.1, hcv1 q hq]
        · refine (hW.write p i (val i) rfl).congr ?_ (fun _ _ _ => rfl)
          intro q j
          simp only [List.mem_append, List.mem_singleton]
          tauto
        · simp only at ht
          simp [ht])
    rw [List.nil_append] at hW2 htot
    simp only at hW2 htot
    have hcv2 : ∀ q ∈ keys D, ∀ i, cv D2 q i = cv D q i := by
      intro q hq i
      rw [hW2.old q i fun h => hpk q hq h.1, hcv1 q hq]
    have hck2 : ∀ q ∈ keys D, ∀ i, i ∈ ck D2 q ↔ i < n := by
      intro q hq i
      rw [hW2.ck, hck1 q hq]
      constructor
      · rintro (h | h)
        · exact h
        · exact absurd h.1 (hpk q hq)
      · exact Or.inl
    -- second loop
    obtain ⟨D3, hl2, hW3⟩ := foldlM_written (κ := ℕ)
      (fun D i => complexNew p rest (n + i) D)
      (fun i q j => (q = p ∨ q ∈ rest) ∧ j = n + i)
      (fun q _ => if q = p then 0 else if cv D q 0 = 0 then 0 else 1) D2
      (List.range (deg p - total)) (by
        intro done D' i hi hW _
        obtain ⟨D'', h1, h2⟩ := complexNew_ok p rest (n + i) D' (by omega)
          (fun h => hp.new ((hrestmem p).1 h)) (by
            intro q hq
            have hq := (hrestmem q).1 hq
            exact (hW.ck q 0).2 (Or.inl ((hck2 q hq 0).2 hn)))
        refine ⟨D'', h1, ?_⟩
        have h0old : ∀ q ∈ keys D, cv D' q 0 = cv D q 0 := by
          intro q hq
          rw [hW.old q 0 (by rintro ⟨b, _, _, h⟩; omega), hcv2 q hq]
        refine ⟨?_, ?_, ?_, ?_, fun h => h2.nodup (hW.nodup h)⟩
        · rintro q j ⟨b, hb, hq, rfl⟩
          by_cases hbi : n + b = n + i
          · rw [h2.val q _ ⟨hq, hbi⟩]
            rcases hq with rfl | hq
            · simp
            · rw [h0old q ((hrestmem q).1 hq)]
          · rw [h2.old q _ fun h => hbi h.2]
            rcases List.mem_append.1 hb with hb | hb
            · exact hW.val q _ ⟨b, hb, hq, rfl⟩
            · rw [List.mem_singleton] at hb; subst hb; exact absurd rfl hbi
        · intro q j h
          rw [h2.old q j fun h' => h ⟨i, by simp, h'⟩, hW.old q j]
          rintro ⟨b, hb, h'⟩
          exact h ⟨b, by simp [hb], h'⟩
        · intro q j
          rw [h2.ck, hW.ck]
          simp only [List.mem_append, List.mem_singleton]
          constructor
          · rintro ((h | ⟨b, hb, h⟩) | h)
            · exact Or.inl h
            · exact Or.inr ⟨b, Or.inl hb, h⟩
            · exact Or.inr ⟨i, Or.inr rfl, h⟩
          · rintro (h | ⟨b, hb | rfl, h⟩)
            · exact Or.inl (Or.inl h)
            · exact Or.inl (Or.inr ⟨b, hb, h⟩)
            · exact Or.inr h
        · intro q
          rw [h2.keys, hW.keys]
          simp only [List.mem_append, List.mem_singleton]
          constructor
          · rintro ((h | ⟨j, b, hb, h⟩) | ⟨j, h⟩)
            · exact Or.inl h
            · exact Or.inr ⟨j, b, Or.inl hb, h⟩
            · exact Or.inr ⟨j, i, Or.inr rfl, h⟩
          · rintro (h | ⟨j, b, hb | rfl, h⟩)
            · exact Or.inl (Or.inl h)
            · exact Or.inl (Or.inr ⟨j, b, hb, h⟩)
            · exact Or.inr ⟨j, h⟩)
    have hWiff : ∀ q j, (∃ i ∈ List.range (deg p - total), (q = p ∨ q ∈ rest) ∧ j = n + i) ↔
        ((q = p ∨ q ∈ keys D) ∧ n ≤ j ∧ j < n + (deg p - total)) := by
      intro q j
      rw [← hrestmem]
      constructor
      · rintro ⟨i, hi, h, rfl⟩
        rw [List.mem_range] at hi
        exact ⟨h, by omega, by omega⟩
      · rintro ⟨h, h1, h2⟩
        exact ⟨j - n, by rw [List.mem_range]; omega, h, by omega⟩
    have hW3 := hW3.congr hWiff (fun _ _ _ => rfl)
    refine ⟨D3, n + (deg p - total), ?_, ?_, ?_, hW3.nodup (hW2.nodup hnd1), by omega, ?_,
      Or.inr ⟨h0, val, cnt, fun i h1 h2 => (hvc i h1 h2).1, ?_, ?_, by rw [htot], ?_⟩⟩
    · conv_lhs => unfold complexExtend
      simp only [← hD1, hlc]
      show (if cv D (lcRow p) 0 = 0 then _ else _) = _
      rw [if_neg h0]
      simp only [hsize, ← hrest, hl1]
      show (do
        let D' ← (List.range (deg p - total)).foldlM (fun D i => complexNew p rest (n + i) D) D2
        complexExtend A D' todo) = _
      rw [hl2]; rfl
    · intro q
      rw [hW3.keys, hW2.keys, hkeys1]
      constructor
      · rintro ((h | ⟨i, h, _⟩) | ⟨i, h, _⟩)
        · exact h
        · exact Or.inl h
        · exact h
      · exact fun h => Or.inl (Or.inl h)
    · intro q hq j
      have hq' : q = p ∨ q ∈ keys D := by
        rw [hW3.keys, hW2.keys, hkeys1] at hq
        rcases hq with (h | ⟨i, h, _⟩) | ⟨i, h, _⟩
        · exact h
        · exact Or.inl h
        · exact h
      rw [hW3.ck]
      rcases hq' with rfl | hq'
      · rw [hW2.ck, hD1, mem_ck_dWrite]
        constructor
        · rintro (((h | ⟨_, rfl⟩) | ⟨_, h⟩) | ⟨_, _, h⟩)
          · exact absurd h (hpck j)
          · omega
          · rw [hrange] at h; omega
          · exact h
        · intro h
          by_cases hj : j < n
          · left
            by_cases hj0 : j = 0
            · exact Or.inl (Or.inr ⟨rfl, hj0⟩)
            · exact Or.inr ⟨rfl, (hrange j).2 ⟨by omega, hj⟩⟩
          · exact Or.inr ⟨Or.inl rfl, by omega, h⟩
      · rw [hck2 q hq']
        constructor
        · rintro (h | ⟨_, _, h⟩) <;> omega
        · intro h
          by_cases hj : j < n
          · exact Or.inl hj
          · exact Or.inr ⟨Or.inr hq', by omega, h⟩
    · intro q hq i hi
      rw [hW3.old q i (by rintro ⟨_, h, _⟩; omega), hcv2 q hq]
    · rw [hW3.old p 0 (by rintro ⟨_, h, _⟩; omega), hW2.old p 0 (by
        rintro ⟨_, h⟩; rw [hrange] at h; omega), hD1, cv_dWrite, if_pos ⟨rfl, rfl⟩]
    · intro i h1 h2
      rw [hW3.old p i (by rintro ⟨_, h, _⟩; omega), hW2.val p i ⟨rfl, (hrange i).2 ⟨h1, h2⟩⟩]
    · intro i h1 h2
      refine ⟨?_, ?_⟩
      · rw [hW3.val p i ⟨Or.inl rfl, h1, h2⟩]; simp
      · intro q hq
        rw [hW3.val q i ⟨Or.inr hq, h1, h2⟩, if_neg (hpk q hq)]

/-- The shape is preserved. -/
theorem cstep_shape {D D' : Diagram R ℕ} {n n' : ℕ} {p : List R} (hs : CShape D n)
    (hp : StepHyp D p) (h : CStep D n p D' n') : CShape D' n' := by
  have hkeys : ∀ q ∈ keys D, q ∈ keys D' := fun q hq => (h.keys q).2 (Or.inr hq)
  have h00 : ∀ q ∈ keys D, cv D' q 0 = cv D q 0 := fun q hq => h.old q hq 0 hs.n_pos
  have hn := hs.n_pos
  have hle := h.le
  refine ⟨hn.trans hle, h.ck, h.nodup, hkeys _ hs.zero, ?_, ?_⟩
  · intro i hi1 hin
    by_cases hi : i < n
    · obtain ⟨q, hq, h1, h2⟩ := hs.witness i hi1 hi
      exact ⟨q, hkeys q hq, by rw [h.old q hq i hi, h1], by rw [h00 q hq]; exact h2⟩
    · rcases h.cases with ⟨_, rfl, _⟩ | ⟨_, val, cnt, _, hp0, _, _, hnew⟩
      · exact absurd hin hi
      · exact ⟨p, (h.keys p).2 (Or.inl rfl), (hnew i (by omega) hin).1, by rw [hp0]; decide⟩
  · intro q hq hdeg hq0 i hin
    rcases (h.keys q).1 hq with rfl | hq
    · exact absurd hdeg hp.pos.ne'
    · rw [h00 q hq] at hq0
      by_cases hi : i < n
      · rw [h.old q hq i hi]; exact hs.const q hq hdeg hq0 i hi
      · rcases h.cases with ⟨_, rfl, _⟩ | ⟨_, val, cnt, _, hp0, _, _, hnew⟩
        · exact absurd hin hi
        · rw [(hnew i (by omega) hin).2 q hq, if_neg hq0]; decide

end Verif.Qe
