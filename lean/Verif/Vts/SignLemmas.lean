import Verif.Vts.MatrixLemmas
import Verif.Vts.TarskiLemmas

/-! Helper lemmas: sign determination from Tarski queries. -/

set_option linter.unusedSectionVars false

open Polynomial Verif.Alg

namespace Verif.Vts

variable {R : Type} [CommRing R] [LinearOrder R] {K : Type} [Field K] [LinearOrder K]
  [IsStrictOrderedRing K]

/-- sign of the polynomial `q` at `x` -/
noncomputable def sgAt (φ : R →+* K) (q : List R) (x : K) : ℤ := sg ((denote φ q).eval x)

theorem sgAt_multiply (φ : R →+* K) (p q : List R) (x : K) :
    sgAt φ (multiply p q) x = sgAt φ p x * sgAt φ q x := by
  rw [sgAt, denote_multiply, eval_mul, sg_mul]; rfl

/-- number of points realising each sign vector (0, +, - ; first polynomial most significant) -/
noncomputable def counts (φ : R →+* K) : List (List R) → List K → List ℚ
  | [], rs => [(rs.length : ℚ)]
  | p :: ps, rs =>
    counts φ ps (rs.filter fun r => decide (sgAt φ p r = 0)) ++
      (counts φ ps (rs.filter fun r => decide (sgAt φ p r = 1)) ++
        counts φ ps (rs.filter fun r => decide (sgAt φ p r = -1)))

/-- sum of signs -/
noncomputable def taqSum (φ : R →+* K) (rs : List K) (q : List R) : ℤ :=
  (rs.map fun r => sgAt φ q r).sum

theorem length_counts (φ : R →+* K) (ps : List (List R)) (rs : List K) :
    (counts φ ps rs).length = 3 ^ ps.length := by
  induction ps generalizing rs with
  | nil => simp [counts]
  | cons p ps ih => simp [counts, ih]; omega

theorem taqSum_split (φ : R →+* K) (rs : List K) (p q : List R) :
    taqSum φ rs q = taqSum φ (rs.filter fun r => decide (sgAt φ p r = 0)) q +
      (taqSum φ (rs.filter fun r => decide (sgAt φ p r = 1)) q +
       taqSum φ (rs.filter fun r => decide (sgAt φ p r = -1)) q) ∧
    taqSum φ rs (multiply q p) = taqSum φ (rs.filter fun r => decide (sgAt φ p r = 1)) q -
       taqSum φ (rs.filter fun r => decide (sgAt φ p r = -1)) q ∧
    taqSum φ rs (multiply q (multiply p p)) = taqSum φ (rs.filter fun r => decide (sgAt φ p r = 1)) q +
       taqSum φ (rs.filter fun r => decide (sgAt φ p r = -1)) q := by
  simp only [taqSum, sgAt_multiply]
  induction rs with
  | nil => simp
  | cons r rs ih =>
    obtain ⟨h1, h2, h3⟩ := ih
    have hc : sgAt φ p r = 0 ∨ sgAt φ p r = 1 ∨ sgAt φ p r = -1 := sg_sq_cases _
    simp only [List.map_cons, List.sum_cons, h1, h2, h3]
    rcases hc with hc | hc | hc <;> simp [hc] <;> ring_nf <;> simp

theorem length_makeProductList (ps : List (List R)) :
    (makeProductList ps).length = 3 ^ ps.length := by
  induction ps with
  | nil => simp [makeProductList]
  | cons p ps ih => simp [makeProductList, ih]; omega

theorem zipWith_map_map {α : Type*} (L : List α) (f g : α → ℚ) (h : ℚ → ℚ → ℚ) :
    List.zipWith h (L.map f) (L.map g) = L.map fun a => h (f a) (g a) := by
  rw [List.zipWith_map_left, List.zipWith_map_right, List.zipWith_self]

theorem mulV_counts (φ : R →+* K) (ps : List (List R)) (rs : List K) :
    mulV (signMatrix ps.length) (counts φ ps rs) =
      (makeProductList ps).map fun q => ((taqSum φ rs q : ℤ) : ℚ) := by
  induction ps generalizing rs with
  | nil =>
    have h1 : (denote φ ([1] : List R)) = 1 := by simp [denote]
    simp [mulV, signMatrix, counts, dot, makeProductList, taqSum, sgAt, h1, Function.comp_def]
  | cons p ps ih =>
    rw [List.length_cons, signMatrix_succ', counts,
      mulV_kron_base (isSquare_signMatrix _) (length_counts φ ps _) (length_counts φ ps _),
      ih, ih, ih]
    simp only [makeProductList, List.map_append, List.append_assoc, List.map_map, zipWith_map_map]
    congr 1
    · apply List.map_congr_left
      intro q _
      rw [(taqSum_split φ rs p q).1]; push_cast; ring
    congr 1
    · apply List.map_congr_left
      intro q _
      simp only [Function.comp]
      rw [(taqSum_split φ rs p q).2.1]; push_cast; ring
    · apply List.map_congr_left
      intro q _
      simp only [Function.comp]
      rw [(taqSum_split φ rs p q).2.2]; push_cast; ring

/-- offset of a sign -/
def offN (s : ℤ) : ℕ := if s = 0 then 0 else if s = 1 then 1 else 2

/-- position of a sign vector -/
def posOf : List ℤ → ℕ
  | [] => 0
  | s :: ss => offN s * 3 ^ ss.length + posOf ss

theorem posOf_lt (ss : List ℤ) : posOf ss < 3 ^ ss.length := by
  induction ss with
  | nil => simp [posOf]
  | cons s ss ih =>
    rw [posOf, List.length_cons, pow_succ]
    have : offN s ≤ 2 := by unfold offN; split <;> [omega; split <;> omega]
    nlinarith

theorem posOf_snoc (ss : List ℤ) (s : ℤ) : posOf (ss ++ [s]) = 3 * posOf ss + offN s := by
  induction ss with
  | nil => simp [posOf]
  | cons t ss ih =>
    simp only [List.cons_append, posOf, ih, List.length_append, List.length_singleton, pow_succ]
    ring

/-- points at which the polynomials have the given signs -/
noncomputable def matching (φ : R →+* K) : List (List R) → List ℤ → List K → List K
  | p :: ps, s :: ss, rs => matching φ ps ss (rs.filter fun r => decide (sgAt φ p r = s))
  | _, _, rs => rs

theorem counts_posOf (φ : R →+* K) (ps : List (List R)) (ss : List ℤ) (rs : List K)
    (hl : ps.length = ss.length) (hs : ∀ s ∈ ss, s = 0 ∨ s = 1 ∨ s = -1) :
    (counts φ ps rs)[posOf ss]? = some ((matching φ ps ss rs).length : ℚ) := by
  induction ps generalizing ss rs with
  | nil =>
    cases ss with
    | nil => simp [counts, posOf, matching]
    | cons s ss => simp at hl
  | cons p ps ih =>
    cases ss with
    | nil => simp at hl
    | cons s ss =>
      have hl' : ps.length = ss.length := by simpa using hl
      have hs' : ∀ s ∈ ss, s = 0 ∨ s = 1 ∨ s = -1 := fun t ht => hs t (List.mem_cons_of_mem _ ht)
      have hlt := posOf_lt ss
      rw [counts, posOf, matching]
      have hlen := fun rs => length_counts φ ps rs
      rw [← hl'] at hlt ⊢
      rcases hs s (by simp) with rfl | rfl | rfl
      · rw [List.getElem?_append_left (by rw [hlen]; simp [offN]; omega)]
        simpa [offN] using ih ss _ hl' hs'
      · rw [List.getElem?_append_right (by rw [hlen]; simp [offN]),
          List.getElem?_append_left (by rw [hlen, hlen]; simp [offN]; omega)]
        rw [← ih ss _ hl' hs', hlen]
        congr 1; simp [offN]
      · rw [List.getElem?_append_right (by rw [hlen]; simp [offN]; omega),
          List.getElem?_append_right (by rw [hlen, hlen]; simp [offN]; omega)]
        rw [← ih ss _ hl' hs', hlen, hlen]
        congr 1; simp [offN]; omega

theorem mem_matching (φ : R →+* K) (l : List (List R × ℤ)) (rs : List K) (x : K) :
    x ∈ matching φ (l.map Prod.fst) (l.map Prod.snd) rs ↔ x ∈ rs ∧ ∀ e ∈ l, sgAt φ e.1 x = e.2 := by
  induction l generalizing rs with
  | nil => simp [matching]
  | cons e l ih =>
    simp only [List.map_cons, matching, ih, List.mem_filter, decide_eq_true_eq, List.mem_cons,
      forall_eq_or_imp, and_assoc]

theorem nodup_matching (φ : R →+* K) (ps : List (List R)) (ss : List ℤ) (rs : List K) (h : rs.Nodup) :
    (matching φ ps ss rs).Nodup := by
  induction ps generalizing ss rs with
  | nil => simpa [matching]
  | cons p ps ih =>
    cases ss with
    | nil => simpa [matching]
    | cons s ss => exact ih ss _ (h.filter _)

theorem matching_snoc (φ : R →+* K) (ps : List (List R)) (ss : List ℤ) (rs : List K) (g : List R)
    (s : ℤ) (hl : ps.length = ss.length) : matching φ (ps ++ [g]) (ss ++ [s]) rs =
      (matching φ ps ss rs).filter fun r => decide (sgAt φ g r = s) := by
  induction ps generalizing ss rs with
  | nil =>
    cases ss with
    | nil => simp [matching]
    | cons s ss => simp at hl
  | cons p ps ih =>
    cases ss with
    | nil => simp at hl
    | cons t ss => simp only [List.cons_append, matching]; exact ih ss _ (by simpa using hl)

/-- What a correct root description is: `rs` lists the roots of the origin. -/
structure DDSOK (φ : R →+* K) (rs : List K) (d : DDS R K) : Prop where
  mem : d.point ∈ rs
  nodup : (d.recorded.map Prod.fst).Nodup
  norm : ∀ e ∈ d.recorded, Normalized e.1
  sign : ∀ e ∈ d.recorded, e.2 = sgAt φ e.1 d.point
  unique : ∀ x ∈ rs, (∀ e ∈ d.recorded, sgAt φ e.1 x = e.2) → x = d.point

theorem getSign_of_mem {d : DDS R K} (hn : (d.recorded.map Prod.fst).Nodup) {e : List R × ℤ}
    (he : e ∈ d.recorded) : d.getSign e.1 = .ok e.2 := by
  have : d.recorded.find? (fun e' => decide (e'.1 = e.1)) = some e := by
    generalize d.recorded = l at *
    induction l with
    | nil => simp at he
    | cons a l ih =>
      rw [List.find?_cons]
      by_cases h : a.1 = e.1
      · rcases List.mem_cons.1 he with rfl | he'
        · simp
        · simp only [List.map_cons, List.nodup_cons] at hn
          exact absurd (List.mem_map_of_mem (f := Prod.fst) he') (by rw [← h]; exact hn.1)
      · simp only [h, decide_false]
        rcases List.mem_cons.1 he with rfl | he'
        · exact absurd rfl h
        · simp only [List.map_cons, List.nodup_cons] at hn
          exact ih hn.2 he'
  rw [DDS.getSign, this]

theorem offValue_ok {s : ℤ} (h : s = 0 ∨ s = 1 ∨ s = -1) : offValue s = .ok (offN s) := by
  rcases h with rfl | rfl | rfl <;> rfl

theorem totalShift_ok {d : DDS R K} (goal : List R) (rest pre : List (List R × ℤ))
    (hd : d.recorded = pre ++ rest) (hn : (d.recorded.map Prod.fst).Nodup)
    (hs : ∀ e ∈ d.recorded, e.2 = 0 ∨ e.2 = 1 ∨ e.2 = -1) :
    totalShift (d.allPolies ++ [goal]) d (rest.map Prod.fst) = .ok (3 * posOf (rest.map Prod.snd)) := by
  induction rest generalizing pre with
  | nil => rfl
  | cons e rest ih =>
    have he : e ∈ d.recorded := by rw [hd]; simp
    have ih := ih (pre ++ [e]) (by rw [hd]; simp)
    have hidx : (d.allPolies ++ [goal]).idxOf e.1 = pre.length := by
      have h1 : d.allPolies ++ [goal] = pre.map Prod.fst ++ (e.1 :: (rest.map Prod.fst ++ [goal])) := by
        simp [DDS.allPolies, hd]
      have h2 : e.1 ∉ pre.map Prod.fst := by
        rw [hd, List.map_append, List.nodup_append] at hn
        intro hm
        exact hn.2.2 _ hm e.1 (by simp) rfl
      rw [h1, List.idxOf_append_of_notMem h2]
      simp
    simp only [List.map_cons, totalShift]
    rw [getSign_of_mem hn he, hidx]
    simp only [bind, Except.bind]
    rw [offValue_ok (hs e he)]
    simp only []
    rw [ih]
    simp only [pure, Except.pure, posOf]
    congr 1
    have hlen : (d.allPolies ++ [goal]).length = pre.length + 1 + (rest.length + 1) := by
      simp [DDS.allPolies, hd]; omega
    rw [hlen, pow_add, Nat.mul_div_cancel_left _ (by positivity)]
    simp only [List.length_map, pow_succ]
    ring

theorem sgAt_cases (φ : R →+* K) (q : List R) (x : K) :
    sgAt φ q x = 0 ∨ sgAt φ q x = 1 ∨ sgAt φ q x = -1 := sg_sq_cases _

theorem pickSignOfGoal_ok (φ : R →+* K) {rs : List K} (hrs : rs.Nodup) {d : DDS R K}
    (hd : DDSOK φ rs d) (goal : List R) :
    pickSignOfGoal (d.allPolies ++ [goal]) d (counts φ (d.allPolies ++ [goal]) rs)
      = .ok (sgAt φ goal d.point) := by
  have hsc : ∀ e ∈ d.recorded, e.2 = 0 ∨ e.2 = 1 ∨ e.2 = -1 := fun e he => by
    rw [hd.sign e he]; exact sgAt_cases φ _ _
  have hshift := totalShift_ok (d := d) goal d.recorded [] (by simp) hd.nodup hsc
  have hm : matching φ (d.recorded.map Prod.fst) (d.recorded.map Prod.snd) rs = [d.point] := by
    have h1 := nodup_matching φ (d.recorded.map Prod.fst) (d.recorded.map Prod.snd) rs hrs
    have h2 : ∀ x, x ∈ matching φ (d.recorded.map Prod.fst) (d.recorded.map Prod.snd) rs ↔
        x = d.point := by
      intro x
      rw [mem_matching]
      constructor
      · rintro ⟨h3, h4⟩; exact hd.unique x h3 h4
      · rintro rfl; exact ⟨hd.mem, fun e he => (hd.sign e he).symm⟩
    have h3 := (List.perm_ext_iff_of_nodup h1 (List.nodup_singleton d.point)).2 (by simpa using h2)
    exact List.perm_singleton.1 h3
  have hget : ∀ s : ℤ, s = 0 ∨ s = 1 ∨ s = -1 →
      (counts φ (d.allPolies ++ [goal]) rs)[3 * posOf (d.recorded.map Prod.snd) + offN s]?
        = some (if sgAt φ goal d.point = s then 1 else 0) := by
    intro s hs
    have := counts_posOf φ (d.allPolies ++ [goal]) (d.recorded.map Prod.snd ++ [s]) rs
      (by simp [DDS.allPolies]) (by
        intro t ht
        rcases List.mem_append.1 ht with ht | ht
        · obtain ⟨e, he, rfl⟩ := List.mem_map.1 ht; exact hsc e he
        · simp at ht; rw [ht]; exact hs)
    rw [posOf_snoc] at this
    rw [this, DDS.allPolies, matching_snoc _ _ _ _ _ _ (by simp), hm]
    by_cases h : sgAt φ goal d.point = s <;> simp [h]
  have hg0 := hget 0 (by simp)
  have hg1 := hget 1 (by simp)
  have hg2 := hget (-1) (by simp)
  unfold pickSignOfGoal
  rw [List.dropLast_concat]
  rw [show d.allPolies = d.recorded.map Prod.fst from rfl] at *
  rw [hshift]
  simp only [bind, Except.bind, pickLoop]
  rw [offValue_ok (by simp), offValue_ok (by simp), offValue_ok (by simp)]
  simp only [hg0, hg1, hg2]
  rcases sgAt_cases φ goal d.point with h | h | h <;> simp [h]

theorem normalized_makeProductList {φ : R →+* K} (hφ : StrictMono φ) (ps : List (List R))
    (h : ∀ p ∈ ps, Normalized p) : ∀ q ∈ makeProductList ps, Normalized q := by
  have h1 : Normalized ([1] : List R) := ⟨1, rfl, fun h0 => by
    have := congrArg φ h0; simp at this⟩
  induction ps with
  | nil => intro q hq; simp [makeProductList] at hq; rw [hq]; exact h1
  | cons p ps ih =>
    have ih := ih fun q hq => h q (List.mem_cons_of_mem _ hq)
    have hp := h p (by simp)
    intro q hq
    simp only [makeProductList, List.mem_append, List.mem_map] at hq
    rcases hq with (hq | ⟨a, ha, rfl⟩) | ⟨a, ha, rfl⟩
    · exact ih q hq
    · exact normalized_multiply hφ.injective (ih a ha) hp
    · exact normalized_multiply hφ.injective (ih a ha) (normalized_multiply hφ.injective hp hp)

theorem taqSum_eq_sum {φ : R →+* K} (hφ : StrictMono φ) {origin : List R} (ho : Normalized origin)
    {rs : List K} (hrs : rs.Nodup) (hmem : ∀ x, x ∈ rs ↔ (denote φ origin).eval x = 0) (q : List R) :
    ∑ x ∈ (denote φ origin).roots.toFinset, sg ((denote φ q).eval x) = taqSum φ rs q := by
  classical
  have : (denote φ origin).roots.toFinset = rs.toFinset := by
    ext x
    simp [hmem, denote_ne_zero hφ.injective ho]
  rw [this, List.sum_toFinset _ hrs]; rfl

theorem two_le_length_of_root {φ : R →+* K} (hφ : StrictMono φ) {p : List R} (hp : Normalized p)
    {x : K} (hx : (denote φ p).eval x = 0) : 2 ≤ p.length := by
  by_contra h
  have h1 : p.length = 1 := by
    have := List.length_pos_iff.2 (normalized_ne_nil hp); omega
  obtain ⟨c, rfl⟩ := List.length_eq_one_iff.1 h1
  obtain ⟨c', h2, h3⟩ := hp
  simp at h2; subst h2
  simp [denote] at hx
  exact h3 (hφ.injective (by rw [hx, map_zero]))

/-- Specification of `evaluate_single_on_sign_assignment`. -/
theorem evaluateSingle_spec [PolyIVT K] {E : Env R K} {φ : R →+* K} (hE : EnvOK E φ)
    {origin : List R} (ho : Normalized origin) {rs : List K} (hrs : rs.Nodup)
    (hmem : ∀ x, x ∈ rs ↔ (denote φ origin).eval x = 0) {d : DDS R K} (hd : DDSOK φ rs d)
    (goal : List R) (hg : Normalized goal) :
    evaluateSingle E origin d goal =
      if goal = origin ∨ d.recorded.length ≤ 4 then .ok (sgAt φ goal d.point)
      else .error .moreThan5 := by
  have hφ := hE.mono
  have hroot := (hmem _).1 hd.mem
  unfold evaluateSingle
  by_cases hgo : goal = origin
  · rw [if_pos hgo, if_pos (Or.inl hgo), hgo, sgAt, hroot, sg_zero]
  rw [if_neg hgo]
  have hlen : (d.allPolies ++ [goal]).length = d.recorded.length + 1 := by simp [DDS.allPolies]
  by_cases h4 : d.recorded.length ≤ 4
  · rw [if_pos (Or.inr h4)]
    have hS := isSquare_signMatrix (d.recorded.length + 1)
    have hdet := isUnit_det_signMatrix (d.recorded.length + 1)
    obtain ⟨B, hB1, hB2, hB3⟩ := hE.inv _ _ hS hdet
    have hgm : getMatrixInverse E.inv ((d.recorded.length + 1 : ℕ) : ℤ) = .ok B := by
      unfold getMatrixInverse
      rw [if_neg (by omega)]
      by_cases h1 : ((d.recorded.length + 1 : ℕ) : ℤ) = 1
      · rw [if_pos h1]
        have : d.recorded.length + 1 = 1 := by exact_mod_cast h1
        rw [this] at hB1; exact hB1
      · rw [if_neg h1, if_neg (by omega)]; exact hB1
    have htaq : (makeProductList (d.allPolies ++ [goal])).mapM (fun poly => tarskiQuery origin poly)
        = .ok ((makeProductList (d.allPolies ++ [goal])).map fun q => taqSum φ rs q) := by
      apply mapM_ok
      intro q hq
      have hqn : Normalized q := normalized_makeProductList hφ _ (by
        intro p hp
        rcases List.mem_append.1 hp with hp | hp
        · obtain ⟨e, he, rfl⟩ := List.mem_map.1 hp; exact hd.norm e he
        · simp at hp; rw [hp]; exact hg) q hq
      rw [tarskiQuery_spec hφ origin q ho (two_le_length_of_root hφ ho hroot) hqn,
        taqSum_eq_sum hφ ho hrs hmem]
    have hmv := mulV_counts φ (d.allPolies ++ [goal]) rs
    simp only [hlen, hgm, htaq, bind, Except.bind, List.map_map]
    rw [show (fun (z : ℤ) => (z : ℚ)) ∘ (fun q => taqSum φ rs q) = fun q => ((taqSum φ rs q : ℤ) : ℚ)
      from rfl, ← hmv, matVec_ok hB2 (by rw [hlen]; exact length_mulV hS _), hlen]
    simp only
    rw [mulV_inv hS hB2 hdet hB3 (by rw [length_counts, hlen])]
    exact pickSignOfGoal_ok φ hrs hd goal
  · rw [if_neg (by tauto)]
    simp only [hlen]
    have : getMatrixInverse E.inv ((d.recorded.length + 1 : ℕ) : ℤ) = .error .moreThan5 := by
      unfold getMatrixInverse
      rw [if_neg (by omega), if_neg (by omega), if_pos (by omega)]
    rw [this]; rfl

end Verif.Vts
