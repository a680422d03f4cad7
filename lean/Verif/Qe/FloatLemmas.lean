import Verif.Qe.FloatModel
import Verif.Qe.RealFull
import Mathlib.Tactic.NormNum
import Mathlib.Tactic.Ring
import Mathlib.Tactic.Positivity
import Mathlib.Tactic.FieldSimp

/-!
# Midpoints in double precision, and runs on which they are exact
-/

set_option linter.unusedSectionVars false

namespace Verif.Qe

/-! ### Rounding -/

theorem roundEven_int (n : ℤ) : roundEven (n : ℚ) = n := by
  simp [roundEven]

theorem roundDouble_of_int {x : ℚ} {n : ℤ} (h : x = n * 2 ^ ulpExp x) : roundDouble x = x := by
  have h2 : (2 : ℚ) ^ ulpExp x ≠ 0 := zpow_ne_zero _ (by norm_num)
  have h3 : x / 2 ^ ulpExp x = n := by
    rw [div_eq_iff h2]; exact h
  unfold roundDouble
  rw [h3, roundEven_int]
  exact h.symm

theorem roundDouble_zero : roundDouble 0 = 0 :=
  roundDouble_of_int (n := 0) (by simp)

/-- At most 53 binary digits, the last of them not beyond `2^-1074`: nothing is rounded. -/
theorem roundDouble_exact {x : ℚ} {n : ℤ} {m : ℕ} (hx : x = n / 2 ^ m) (hn : |n| < 2 ^ 53)
    (hm : m ≤ 1074) : roundDouble x = x := by
  by_cases h0 : x = 0
  · rw [h0]; exact roundDouble_zero
  have habs : 0 < |x| := abs_pos.2 h0
  have hlt : |x| < (2 : ℚ) ^ ((53 : ℤ) - m) := by
    rw [hx, abs_div, zpow_sub₀ (by norm_num), abs_of_pos (show (0:ℚ) < 2 ^ m by positivity)]
    have : (|(n : ℚ)|) < 2 ^ (53 : ℤ) := by
      rw [← Int.cast_abs]; exact_mod_cast hn
    rw [zpow_natCast]
    exact div_lt_div_of_pos_right this (by positivity)
  have hlog : Int.log 2 |x| < 53 - m := (Int.lt_zpow_iff_log_lt (by norm_num) habs).1 (by exact_mod_cast hlt)
  have hu : ulpExp x ≤ -(m : ℤ) := by
    unfold ulpExp
    rw [max_le_iff]
    constructor <;> omega
  obtain ⟨d, hd⟩ := Int.eq_ofNat_of_zero_le (show 0 ≤ -(m : ℤ) - ulpExp x by omega)
  refine roundDouble_of_int (n := n * 2 ^ d) ?_
  have : (2 : ℚ) ^ ulpExp x = (2 ^ d)⁻¹ * (2 ^ m)⁻¹ := by
    have : ulpExp x = -(d : ℤ) + -(m : ℤ) := by
      have : (d : ℤ) = -(m : ℤ) - ulpExp x := hd.symm
      omega
    rw [this, zpow_add₀ (by norm_num), zpow_neg, zpow_neg, zpow_natCast, zpow_natCast]
  rw [this, hx]
  push_cast
  field_simp

/-- Columns after `k` extensions. -/
def Dy (k : ℕ) (c : ℚ) : Prop := 0 ≤ c ∧ c ≤ 1 ∧ ∃ j : ℤ, c = j / 2 ^ k

theorem Dy.succ {k : ℕ} {c : ℚ} (h : Dy k c) : Dy (k + 1) c := by
  obtain ⟨h1, h2, j, h3⟩ := h
  refine ⟨h1, h2, 2 * j, ?_⟩
  rw [h3, pow_succ]; push_cast; field_simp

theorem Dy.mid {k : ℕ} {a b : ℚ} (ha : Dy k a) (hb : Dy k b) : Dy (k + 1) ((a + b) / 2) := by
  obtain ⟨h1, h2, i, h3⟩ := ha
  obtain ⟨h4, h5, j, h6⟩ := hb
  refine ⟨by linarith, by linarith, i + j, ?_⟩
  rw [h3, h6, pow_succ]; push_cast; field_simp

theorem Dy.double {k : ℕ} (hk : k ≤ 52) {a b : ℚ} (ha : Dy k a) (hb : Dy k b) :
    doubleMid a b = (a + b) / 2 := by
  have hm := ha.mid hb
  obtain ⟨h1, h2, i, h3⟩ := ha
  obtain ⟨h4, h5, j, h6⟩ := hb
  have e1 : roundDouble (a + b) = a + b := by
    by_cases h : a + b = 2
    · rw [h]
      exact roundDouble_exact (n := 2) (m := 0) (by norm_num) (by norm_num) (by norm_num)
    · refine roundDouble_exact (n := i + j) (m := k) ?_ ?_ (by omega)
      · rw [h3, h6]; push_cast; ring
      · have hlt : a + b < 2 := lt_of_le_of_ne (by linarith) h
        have h0 : (0 : ℚ) ≤ a + b := by linarith
        have hp : (0 : ℚ) < 2 ^ k := by positivity
        have hs : a + b = ((i + j : ℤ) : ℚ) / 2 ^ k := by rw [h3, h6]; push_cast; ring
        rw [hs] at hlt h0
        have hnn : (0 : ℚ) ≤ ((i + j : ℤ) : ℚ) := by
          by_contra hc
          push Not at hc
          exact absurd h0 (not_le.2 (div_neg_of_neg_of_pos hc hp))
        have h7 : ((i + j : ℤ) : ℚ) < 2 ^ (k + 1) := by
          rw [div_lt_iff₀ hp] at hlt
          rw [pow_succ]; linarith
        have h8 : (i + j : ℤ) < 2 ^ (k + 1) := by exact_mod_cast h7
        have h9 : (2 : ℤ) ^ (k + 1) ≤ 2 ^ 53 := pow_le_pow_right₀ (by norm_num) (by omega)
        have h10 : (0 : ℤ) ≤ i + j := by exact_mod_cast hnn
        rw [abs_of_nonneg h10]
        omega
  unfold doubleMid
  rw [e1]
  obtain ⟨g1, g2, l, g3⟩ := hm
  by_cases h : (a + b) / 2 = 1
  · rw [h]
    exact roundDouble_exact (n := 1) (m := 0) (by norm_num) (by norm_num) (by norm_num)
  · refine roundDouble_exact (n := l) (m := k + 1) g3 ?_ (by omega)
    have hp : (0 : ℚ) < 2 ^ (k + 1) := by positivity
    have hlt : (a + b) / 2 < 1 := lt_of_le_of_ne g2 h
    rw [g3] at hlt g1
    have hnn : (0 : ℚ) ≤ (l : ℚ) := by
      by_contra hc
      push Not at hc
      exact absurd g1 (not_le.2 (div_neg_of_neg_of_pos hc hp))
    rw [div_lt_one hp] at hlt
    have h8 : (l : ℤ) < 2 ^ (k + 1) := by exact_mod_cast hlt
    have h9 : (2 : ℤ) ^ (k + 1) ≤ 2 ^ 53 := pow_le_pow_right₀ (by norm_num) (by omega)
    have h10 : (0 : ℤ) ≤ l := by exact_mod_cast hnn
    rw [abs_of_nonneg h10]
    omega

/-! ### Runs with exact midpoints -/

variable {R : Type} [CommRing R] [DecidableEq R]

theorem foldlM_congr' {α β : Type} {l : List α} {f g : β → α → Except QErr β}
    (h : ∀ a ∈ l, ∀ b, f b a = g b a) : ∀ b, l.foldlM f b = l.foldlM g b := by
  induction l with
  | nil => intro b; rfl
  | cons a l ih =>
    intro b
    rw [List.foldlM_cons, List.foldlM_cons, h a (by simp)]
    congr 1
    funext b'
    exact ih (fun a ha => h a (by simp [ha])) b'

theorem foldlM_keeps {α β : Type} (I : β → Prop) {l : List α} {f : β → α → Except QErr β}
    (h : ∀ a ∈ l, ∀ b b', I b → f b a = .ok b' → I b') : ∀ b b', I b → l.foldlM f b = .ok b' → I b' := by
  induction l with
  | nil => intro b b' hb h'; cases h'; exact hb
  | cons a l ih =>
    intro b b' hb h'
    rw [List.foldlM_cons] at h'
    cases hf : f b a with
    | error e => rw [hf] at h'; cases h'
    | ok c =>
      rw [hf] at h'
      exact ih (fun a ha => h a (by simp [ha])) c b' (h a (by simp) b c hb hf) h'

/-- All columns satisfy a predicate. -/
def ColsIn (I : ℚ → Prop) (D : Diagram R ℚ) : Prop := ∀ q i, i ∈ ck D q → I i

theorem ColsIn.write {I : ℚ → Prop} {D : Diagram R ℚ} (h : ColsIn I D) (q : List R) {i : ℚ} (hi : I i)
    (v : ℤ) : ColsIn I (dWrite D q i v) := by
  intro q' j hj
  rcases (mem_ck_dWrite _ _ _ _ _ _).1 hj with hj | ⟨_, rfl⟩
  · exact h q' j hj
  · exact hi

theorem ColsIn.mono {I J : ℚ → Prop} {D : Diagram R ℚ} (h : ColsIn I D) (hIJ : ∀ i, I i → J i) :
    ColsIn J D := fun q i hi => hIJ i (h q i hi)

theorem bindE_ok {α β : Type} {x : Except QErr α} {f : α → Except QErr β} {b : β}
    (h : (x >>= f) = .ok b) : ∃ a, x = .ok a ∧ f a = .ok b := by
  cases x with
  | error e => cases h
  | ok a => exact ⟨a, rfl, h⟩

theorem ColsIn.touch {I : ℚ → Prop} {D : Diagram R ℚ} (h : ColsIn I D) (q : List R) :
    ColsIn I (dTouch D q) := by
  unfold dTouch
  split
  · rename_i hq
    intro q' i hi
    unfold ck dRow at hi
    by_cases hqq : q' = q
    · subst hqq
      rw [dGet_dSet, if_pos rfl] at hi
      simp at hi
    · rw [dGet_dSet, if_neg (by simpa [eq_comm] using hqq)] at hi
      exact h q' i hi
  · exact h

theorem copyTail_cols {I : ℚ → Prop} {D D' : Diagram R ℚ} {p : List R} (h : ColsIn I D)
    (hD : copyTail D p = .ok D') : ColsIn I D' := by
  unfold copyTail at hD
  refine foldlM_keeps (ColsIn I) ?_ _ _ (h.touch _) hD
  intro i hi b b' hb hb'
  obtain ⟨v, _, hv⟩ := bindE_ok hb'
  cases hv
  exact hb.write p (h.touch _ _ _ hi) v

theorem rootCol_cols {I : ℚ → Prop} (A : MAlg R) {D D' : Diagram R ℚ} {p : List R}
    {rest : List (List R)} {c : ℚ} (hc : I c) (h : ColsIn I D) (hD : realRootCol A p rest D c = .ok D') :
    ColsIn I D' := by
  unfold realRootCol at hD
  obtain ⟨zs, _, h1⟩ := bindE_ok hD
  cases hm : minPoly A zs with
  | none => rw [hm] at h1; cases h1; exact h
  | some q =>
    rw [hm] at h1
    obtain ⟨r, _, h2⟩ := bindE_ok h1
    obtain ⟨lcv, _, h3⟩ := bindE_ok h2
    obtain ⟨v, _, h4⟩ := bindE_ok h3
    cases h4
    exact h.write p hc _

theorem gapCol_cols {I : ℚ → Prop} {D D' : Diagram R ℚ} {p : List R}
    {rest : List (List R)} {c : ℚ × ℚ × ℚ} (hc : I c.2.1) (hl : I ((c.2.1 + c.1) / 2))
    (hr : I ((c.2.1 + c.2.2) / 2)) (h : ColsIn I D) (hD : realGapCol p rest D c = .ok D') :
    ColsIn I D' := by
  unfold realGapCol at hD
  obtain ⟨zs, _, h1⟩ := bindE_ok hD
  by_cases hz : zs.length ≠ 0
  · rw [if_pos hz] at h1; cases h1; exact h
  rw [if_neg hz] at h1
  obtain ⟨l, _, h2⟩ := bindE_ok h1
  obtain ⟨r, _, h3⟩ := bindE_ok h2
  by_cases hlr : l = 0 ∧ r = 0
  · rw [if_pos hlr] at h3; cases h3
  rw [if_neg hlr] at h3
  by_cases hlr2 : l = r ∨ l * r = 0
  · rw [if_pos hlr2] at h3; cases h3; exact h.write p hc _
  rw [if_neg hlr2] at h3
  refine foldlM_keeps (ColsIn I) ?_ _ _ (((h.write p hl _).write p hc _).write p hr _) h3
  intro q _ b b' hb hb'
  obtain ⟨v, _, hv⟩ := bindE_ok hb'
  obtain ⟨w, _, hw⟩ := bindE_ok hv
  cases hw
  exact (hb.write q hl v).write q hr w

theorem triples_mem : ∀ (l : List ℚ), ∀ c ∈ triples l, c.1 ∈ l ∧ c.2.1 ∈ l ∧ c.2.2 ∈ l
  | [], c, h => by simp [triples] at h
  | [_], c, h => by simp [triples] at h
  | [_, _], c, h => by simp [triples] at h
  | x :: y :: z :: l, c, h => by
    rw [triples, List.mem_cons] at h
    rcases h with rfl | h
    · simp
    · obtain ⟨h1, h2, h3⟩ := triples_mem (y :: z :: l) c h
      exact ⟨List.mem_cons_of_mem _ h1, List.mem_cons_of_mem _ h2, List.mem_cons_of_mem _ h3⟩

theorem gapColM_eq {mid : ℚ → ℚ → ℚ} {c : ℚ × ℚ × ℚ} (hl : mid c.2.1 c.1 = (c.2.1 + c.1) / 2)
    (hr : mid c.2.1 c.2.2 = (c.2.1 + c.2.2) / 2) (p : List R) (rest : List (List R))
    (D : Diagram R ℚ) : realGapColM mid p rest D c = realGapCol p rest D c := by
  unfold realGapColM realGapCol
  simp only [hl, hr]

/-- The work on one polynomial, with the loop over the intervals as a parameter. -/
def realOne (gap : List R → List (List R) → Diagram R ℚ → ℚ × ℚ × ℚ → Except QErr (Diagram R ℚ))
    (A : MAlg R) (D : Diagram R ℚ) (p : List R) : Except QErr (Diagram R ℚ) := do
  let rest := D.map Prod.fst
  let lcv ← dRead D (lcRow p) 0
  if lcv = 0 then copyTail D p
  else do
    let lcInf ← dRead D (lcRow p) 1
    let D := dWrite D p 0 (lcv * (-1) ^ deg p)
    let D := dWrite D p 1 lcInf
    let cols := ((dRow D []).map Prod.fst).insertionSort (· ≤ ·)
    let inner := triples cols
    let D ← (inner.map fun c => c.2.1).foldlM (realRootCol A p rest) D
    inner.foldlM (gap p rest) D

theorem realExtend_cons (A : MAlg R) (D : Diagram R ℚ) (p : List R) (todo : List (List R)) :
    realExtend A D (p :: todo) = realOne realGapCol A D p >>= fun D1 => realExtend A D1 todo := by
  conv_lhs => unfold realExtend
  unfold realOne
  cases dRead D (lcRow p) 0 with
  | error e => rfl
  | ok lcv =>
    simp only [bind, Except.bind]
    by_cases h : lcv = 0
    · rw [if_pos h, if_pos h]
    · rw [if_neg h, if_neg h]
      cases dRead D (lcRow p) 1 with
      | error e => rfl
      | ok lcInf =>
        simp only []
        cases ((triples (((dRow (dWrite (dWrite D p 0 (lcv * (-1) ^ deg p)) p 1 lcInf) []).map
          Prod.fst).insertionSort (· ≤ ·))).map fun c => c.2.1).foldlM (realRootCol A p (D.map Prod.fst))
          (dWrite (dWrite D p 0 (lcv * (-1) ^ deg p)) p 1 lcInf) with
        | error e => rfl
        | ok D2 => rfl

theorem realExtendM_cons (mid : ℚ → ℚ → ℚ) (A : MAlg R) (D : Diagram R ℚ) (p : List R)
    (todo : List (List R)) : realExtendM mid A D (p :: todo) =
      realOne (realGapColM mid) A D p >>= fun D1 => realExtendM mid A D1 todo := by
  conv_lhs => unfold realExtendM
  unfold realOne
  cases dRead D (lcRow p) 0 with
  | error e => rfl
  | ok lcv =>
    simp only [bind, Except.bind]
    by_cases h : lcv = 0
    · rw [if_pos h, if_pos h]
    · rw [if_neg h, if_neg h]
      cases dRead D (lcRow p) 1 with
      | error e => rfl
      | ok lcInf =>
        simp only []
        cases ((triples (((dRow (dWrite (dWrite D p 0 (lcv * (-1) ^ deg p)) p 1 lcInf) []).map
          Prod.fst).insertionSort (· ≤ ·))).map fun c => c.2.1).foldlM (realRootCol A p (D.map Prod.fst))
          (dWrite (dWrite D p 0 (lcv * (-1) ^ deg p)) p 1 lcInf) with
        | error e => rfl
        | ok D2 => rfl

theorem dy_zero (k : ℕ) : Dy k 0 := ⟨le_rfl, by norm_num, 0, by simp⟩

theorem dy_one (k : ℕ) : Dy k 1 := ⟨by norm_num, le_rfl, 2 ^ k, by push_cast; field_simp⟩

/-- One polynomial: the two models agree if the midpoints do, and columns get one digit longer. -/
theorem realOne_eq {mid : ℚ → ℚ → ℚ} {k : ℕ} (hmid : ∀ a b, Dy k a → Dy k b → mid a b = (a + b) / 2)
    (A : MAlg R) (D : Diagram R ℚ) (p : List R) (hD : ColsIn (Dy k) D) :
    realOne (realGapColM mid) A D p = realOne realGapCol A D p ∧
      ∀ D1, realOne realGapCol A D p = .ok D1 → ColsIn (Dy (k + 1)) D1 := by
  unfold realOne
  cases dRead D (lcRow p) 0 with
  | error e => exact ⟨rfl, fun D1 h => by cases h⟩
  | ok lcv =>
    simp only [bind, Except.bind]
    by_cases h : lcv = 0
    · rw [if_pos h, if_pos h]
      exact ⟨rfl, fun D1 h1 => (copyTail_cols hD h1).mono fun _ => Dy.succ⟩
    · rw [if_neg h, if_neg h]
      cases dRead D (lcRow p) 1 with
      | error e => exact ⟨rfl, fun D1 h => by cases h⟩
      | ok lcInf =>
        simp only []
        have hD2 : ColsIn (Dy k) (dWrite (dWrite D p 0 (lcv * (-1) ^ deg p)) p 1 lcInf) :=
          (hD.write p (dy_zero k) _).write p (dy_one k) _
        set Dw := dWrite (dWrite D p 0 (lcv * (-1) ^ deg p)) p 1 lcInf
        set inner := triples (((dRow Dw []).map Prod.fst).insertionSort (· ≤ ·)) with hinner
        have hin : ∀ c ∈ inner, Dy k c.1 ∧ Dy k c.2.1 ∧ Dy k c.2.2 := by
          intro c hc
          obtain ⟨h1, h2, h3⟩ := triples_mem _ c hc
          rw [List.mem_insertionSort] at h1 h2 h3
          exact ⟨hD2 [] _ h1, hD2 [] _ h2, hD2 [] _ h3⟩
        cases hf : (inner.map fun c => c.2.1).foldlM (realRootCol A p (D.map Prod.fst)) Dw with
        | error e => exact ⟨rfl, fun D1 h => by cases h⟩
        | ok D3 =>
          have hD3 : ColsIn (Dy k) D3 := by
            refine foldlM_keeps (ColsIn (Dy k)) ?_ _ _ hD2 hf
            intro c hc b b' hb hb'
            obtain ⟨t, ht, rfl⟩ := List.mem_map.1 hc
            exact rootCol_cols A (hin t ht).2.1 hb hb'
          refine ⟨?_, ?_⟩
          · refine foldlM_congr' ?_ D3
            intro c hc D4
            obtain ⟨h1, h2, h3⟩ := hin c hc
            exact gapColM_eq (hmid _ _ h2 h1) (hmid _ _ h2 h3) p _ D4
          · intro D1 h1
            refine foldlM_keeps (ColsIn (Dy (k + 1))) ?_ _ _ (hD3.mono fun _ => Dy.succ) h1
            intro c hc b b' hb hb'
            obtain ⟨h1, h2, h3⟩ := hin c hc
            exact gapCol_cols h2.succ (h2.mid h1) (h2.mid h3) hb hb'

/-- The two models agree as long as midpoints are exact. -/
theorem realExtendM_eq {mid : ℚ → ℚ → ℚ} {n : ℕ}
    (hmid : ∀ k ≤ n, ∀ a b, Dy k a → Dy k b → mid a b = (a + b) / 2) (A : MAlg R) :
    ∀ (pre post : List (List R)) (D : Diagram R ℚ) (k : ℕ), ColsIn (Dy k) D → k + pre.length ≤ n + 1 →
      (∀ D', realExtend A D pre = .ok D' → realExtendM mid A D (pre ++ post) = realExtendM mid A D' post ∧
        ColsIn (Dy (k + pre.length)) D') ∧
      ∀ e, realExtend A D pre = .error e → realExtendM mid A D (pre ++ post) = .error e := by
  intro pre post
  induction pre with
  | nil =>
    intro D k hD _
    refine ⟨?_, ?_⟩
    · intro D' h; cases h; exact ⟨rfl, hD⟩
    · intro e h; cases h
  | cons p pre ih =>
    intro D k hD hk
    rw [List.length_cons] at hk
    obtain ⟨h1, h2⟩ := realOne_eq (hmid k (by omega)) A D p hD
    rw [List.cons_append, List.length_cons, realExtend_cons, realExtendM_cons, h1]
    cases hX : realOne realGapCol A D p with
    | error e =>
      refine ⟨?_, ?_⟩
      · intro D' h; cases h
      · intro e' h; cases h; rfl
    | ok D1 =>
      have := ih D1 (k + 1) (h2 D1 hX) (by omega)
      rw [show k + 1 + pre.length = k + (pre.length + 1) by omega] at this
      exact this

theorem realExtendM_eq_all {mid : ℚ → ℚ → ℚ} {n : ℕ}
    (hmid : ∀ k ≤ n, ∀ a b, Dy k a → Dy k b → mid a b = (a + b) / 2) (A : MAlg R)
    {ps : List (List R)} {D : Diagram R ℚ} {k : ℕ} (hD : ColsIn (Dy k) D) (hk : k + ps.length ≤ n + 1) :
    realExtendM mid A D ps = realExtend A D ps := by
  have h := realExtendM_eq hmid A ps [] D k hD hk
  rw [List.append_nil] at h
  cases hX : realExtend A D ps with
  | error e => exact h.2 e hX
  | ok D' => rw [(h.1 D' hX).1]; rfl

theorem dy_half : Dy 1 (1 / 2) := ⟨by norm_num, by norm_num, 1, by norm_num⟩

theorem ColsIn.write3 {D : Diagram R ℚ} (h : ColsIn (Dy 1) D) (c : List R) (s : ℤ) :
    ColsIn (Dy 1) (write3 D c s) :=
  ((h.write c (dy_zero 1) s).write c dy_half s).write c (dy_one 1) s

theorem colsIn_nil (I : ℚ → Prop) : ColsIn I ([] : Diagram R ℚ) := by
  intro q i hi; simp [ck, dRow, dGet] at hi

theorem allZero_cols (A : MAlg R) (cs : List (List R)) : ColsIn (Dy 1) (rAssignmentAllZero A cs) := by
  unfold rAssignmentAllZero
  have : ∀ (cs : List (List R)) (D : Diagram R ℚ), ColsIn (Dy 1) D → ColsIn (Dy 1) (cs.foldl (fun D c =>
    let s := if hasVariable A c then 0 else A.sign (c.headD 0)
    dWrite (dWrite (dWrite D c 0 s) c (1/2) s) c 1 s) D) := by
    intro cs
    induction cs with
    | nil => intro D h; exact h
    | cons c cs ih => intro D h; exact ih _ (h.write3 c _)
  exact this cs [] (colsIn_nil _)

theorem rFull_cols : ∀ (cs : List (List R)) (ds : List (Diagram R ℚ)), (∀ d ∈ ds, ColsIn (Dy 1) d) →
    ∀ d ∈ rFullAssignment ds cs, ColsIn (Dy 1) d := by
  intro cs
  induction cs with
  | nil => intro ds h; exact h
  | cons c cs ih =>
    intro ds h
    refine ih _ ?_
    intro d hd
    obtain ⟨d', hd', hd⟩ := List.mem_flatMap.1 hd
    simp only [List.mem_cons, List.not_mem_nil, or_false] at hd
    rcases hd with rfl | rfl | rfl <;> exact (h d' hd').write3 c _

theorem realExtendAllM_eq {mid : ℚ → ℚ → ℚ} (A : MAlg R) (frag : List (List R)) :
    ∀ ds : List (Diagram R ℚ), (∀ d ∈ ds, realExtendM mid A d frag = realExtend A d frag) →
    realExtendAllM mid A frag ds = realExtendAll A frag ds := by
  intro ds
  induction ds with
  | nil => intro _; rfl
  | cons d ds ih =>
    intro h
    unfold realExtendAllM realExtendAll
    rw [h d (by simp), ih fun x hx => h x (by simp [hx])]
    cases realExtend A d frag with
    | ok D => rfl
    | error e => cases e <;> rfl

theorem realFullM_eq {mid : ℚ → ℚ → ℚ} {n : ℕ}
    (hmid : ∀ k ≤ n, ∀ a b, Dy k a → Dy k b → mid a b = (a + b) / 2) (A : MAlg R) {fuel : ℕ}
    {ls es gs S : List (List R)} (hS : muchnikSeq A fuel [[]] (ls ++ es ++ gs) = .ok S)
    (hn : (S.filter fun p => !isConst p).length ≤ n) :
    realFullM mid A fuel ls es gs = realFull A fuel ls es gs := by
  unfold realFullM realFull
  rw [hS]
  simp only [bind, Except.bind]
  rw [realExtendAllM_eq]
  intro d hd
  refine realExtendM_eq_all hmid A (k := 1) (rFull_cols _ _ ?_ d hd) (by omega)
  intro d hd
  rw [List.mem_singleton] at hd
  subst hd
  exact allZero_cols A _

/-- With the exact midpoint nothing changes. -/
theorem realFullM_exact (A : MAlg R) (fuel : ℕ) (ls es gs : List (List R)) :
    realFullM (fun a b => (a + b) / 2) A fuel ls es gs = realFull A fuel ls es gs := by
  cases h : muchnikSeq A fuel [[]] (ls ++ es ++ gs) with
  | error e => unfold realFullM realFull; rw [h]; rfl
  | ok S => exact realFullM_eq (n := (S.filter fun p => !isConst p).length) (fun _ _ _ _ _ _ => rfl) A h le_rfl

end Verif.Qe
