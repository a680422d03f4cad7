import Verif.Qe.RealStep
import Verif.Qe.ComplexSem
import Verif.Alg.Basic

/-!
# `real_extend`: meaning of the diagrams over an ordered field with the intermediate value property
-/

set_option linter.unusedSectionVars false

open Polynomial Verif.Alg

namespace Verif.Qe

variable {R : Type} [CommRing R] [DecidableEq R]
variable {K : Type*} [Field K] [LinearOrder K] [IsStrictOrderedRing K] [PolyIVT K]

/-! ### One interval -/

/-- the sign of `p` at the left end of the interval -/
def EndL (L : K → Prop) (a : ℤ) (p : K[X]) : Prop :=
  ∀ z, L z → ∃ y, y < z ∧ sg (p.eval y) = a ∧ ∀ w, y < w → L w

/-- the sign of `p` at the right end of the interval -/
def EndR (H : K → Prop) (b : ℤ) (p : K[X]) : Prop :=
  ∀ z, H z → ∃ y, z < y ∧ sg (p.eval y) = b ∧ ∀ w, w < y → H w

theorem sg_sub_of_derivative {L H : K → Prop} {p : K[X]} {s : ℤ}
    (hs : ∀ y, L y → H y → sg (p.derivative.eval y) = s) {y z : K} (hyz : y < z)
    (hL : ∀ w, y < w → L w) (hH : ∀ w, w < z → H w) : sg (p.eval z - p.eval y) = s := by
  obtain ⟨c, h1, h2, h3⟩ := mvt p hyz
  rw [h3, sg_mul, sg_pos (sub_pos.2 hyz), mul_one]
  exact hs c (hL c h1) (hH c h2)

theorem interval_signs {L H : K → Prop} {p : K[X]} {s a b : ℤ} (hs0 : s ≠ 0)
    (hs : ∀ y, L y → H y → sg (p.derivative.eval y) = s) (hl : EndL L a p) (hr : EndR H b p)
    {z : K} (hLz : L z) (hHz : H z) (hu : ∀ y w, L y → y < w → L w) (hd : ∀ y w, H y → w < y → H w) :
    ¬ (a = 0 ∧ b = 0) ∧ (a = b ∨ a * b = 0 → sg (p.eval z) = sgnInt (a + b)) := by
  obtain ⟨y1, hy1, e1, hL1⟩ := hl z hLz
  obtain ⟨y2, hy2, e2, hH2⟩ := hr z hHz
  have h1 := sg_sub_of_derivative hs hy1 hL1 fun w hw => hd z w hHz hw
  have h2 := sg_sub_of_derivative hs hy2 (fun w hw => hu z w hLz hw) hH2
  subst e1 e2
  rcases sg_cases (p.eval y1) with ⟨a1, a2⟩ | ⟨a1, a2⟩ | ⟨a1, a2⟩ <;>
  rcases sg_cases (p.eval y2) with ⟨b1, b2⟩ | ⟨b1, b2⟩ | ⟨b1, b2⟩ <;>
  rcases sg_cases (p.eval z) with ⟨z1, z2⟩ | ⟨z1, z2⟩ | ⟨z1, z2⟩ <;>
  rcases sg_cases (p.eval z - p.eval y1) with ⟨c1, c2⟩ | ⟨c1, c2⟩ | ⟨c1, c2⟩ <;>
  rcases sg_cases (p.eval y2 - p.eval z) with ⟨d1, d2⟩ | ⟨d1, d2⟩ | ⟨d1, d2⟩ <;>
  rw [a2, b2, z2] <;> rw [c2] at h1 <;> rw [d2] at h2 <;>
  first
    | (exfalso; omega)
    | (exfalso; linarith)
    | simp [sgnInt]

theorem interval_root {L H : K → Prop} {p : K[X]} {s a b : ℤ} (hs0 : s ≠ 0)
    (hs : ∀ y, L y → H y → sg (p.derivative.eval y) = s) (hl : EndL L a p) (hr : EndR H b p)
    {z : K} (hLz : L z) (hHz : H z) (hu : ∀ y w, L y → y < w → L w) (hd : ∀ y w, H y → w < y → H w)
    (hab : a ≠ b) (hab0 : a * b ≠ 0) :
    ∃ c, L c ∧ H c ∧ p.eval c = 0 ∧ (∀ y, L y → y < c → sg (p.eval y) = a) ∧
      ∀ y, c < y → H y → sg (p.eval y) = b := by
  have ha0 : a ≠ 0 := fun h => hab0 (by rw [h, zero_mul])
  have hb0 : b ≠ 0 := fun h => hab0 (by rw [h, mul_zero])
  obtain ⟨y1, hy1, e1, hL1⟩ := hl z hLz
  obtain ⟨y2, hy2, e2, hH2⟩ := hr z hHz
  obtain ⟨c, c1, c2, hc⟩ := exists_root_of_sg_ne (p := p) (hy1.trans hy2).le (by rw [e1, e2]; exact hab)
  have c1' : y1 < c := lt_of_le_of_ne c1 (by
    rintro rfl; rw [hc, sg_zero] at e1; exact ha0 e1.symm)
  have c2' : c < y2 := lt_of_le_of_ne c2 (by
    rintro rfl; rw [hc, sg_zero] at e2; exact hb0 e2.symm)
  have hLc := hL1 c c1'
  have hHc := hH2 c c2'
  have sgn_id : ∀ v : ℤ, Sign3 v → sgnInt v = v := by
    rintro v (rfl | rfl | rfl) <;> rfl
  have s3 : ∀ x : K, Sign3 (sg x) := by
    intro x
    rcases sg_cases x with ⟨_, e⟩ | ⟨_, e⟩ | ⟨_, e⟩ <;> rw [e] <;> simp [Sign3]
  refine ⟨c, hLc, hHc, hc, ?_, ?_⟩
  · intro y hy hyc
    have := (interval_signs (H := fun w => w < c) hs0 (fun w h1 h2 => hs w h1 (hd c w hHc h2)) hl
      (b := 0) (fun w hw => ⟨c, hw, by rw [hc, sg_zero], fun _ h => h⟩) hy hyc hu
      (fun y w h1 h2 => h2.trans h1)).2 (Or.inr (mul_zero a))
    rw [this, add_zero, sgn_id]
    rw [← e1]; exact s3 _
  · intro y hy hyH
    have := (interval_signs (L := fun w => c < w) hs0 (fun w h1 h2 => hs w (hu c w hLc h1) h2)
      (a := 0) (fun w hw => ⟨c, hw, by rw [hc, sg_zero], fun _ h => h⟩) hr hy hyH
      (fun y w h1 h2 => h1.trans h2) hd).2 (Or.inr (zero_mul b))
    rw [this, zero_add, sgn_id]
    rw [← e2]; exact s3 _

/-! ### The whole diagram -/

/-- The columns after a point (`L` is the set of the numbers after that point): signs on open intervals,
at the points `xs`, and at `+∞`. -/
inductive SegSem (φ : R →+* K) (D : Diagram R ℚ) (rows : List (List R)) :
    (K → Prop) → List (ℚ × ℚ) → List K → Prop
  | last (L : K → Prop) (g e : ℚ) (hg : ∀ q ∈ rows, ∀ y, L y → sg ((P φ q).eval y) = cv D q g)
      (he : ∀ q ∈ rows, sgTop (P φ q) = cv D q e) : SegSem φ D rows L [(g, e)] []
  | cons (L : K → Prop) (g e : ℚ) (gs : List (ℚ × ℚ)) (x : K) (xs : List K) (hx : L x)
      (hg : ∀ q ∈ rows, ∀ y, L y → y < x → sg ((P φ q).eval y) = cv D q g)
      (he : ∀ q ∈ rows, sg ((P φ q).eval x) = cv D q e)
      (h : SegSem φ D rows (fun y => x < y) gs xs) : SegSem φ D rows L ((g, e) :: gs) (x :: xs)

/-- upward closed, nonempty, without least element -/
structure LowerCut (L : K → Prop) : Prop where
  up : ∀ y w, L y → y < w → L w
  low : ∀ y, L y → ∃ z, L z ∧ z < y
  ne : ∃ y, L y

theorem lowerCut_gt (x : K) : LowerCut fun y => x < y :=
  ⟨fun _ _ h1 h2 => h1.trans h2, fun y hy => ⟨(x + y) / 2, by linarith, by linarith⟩,
    ⟨x + 1, by linarith⟩⟩

theorem lowerCut_univ : LowerCut fun _ : K => True :=
  ⟨fun _ _ _ _ => trivial, fun y _ => ⟨y - 1, trivial, by linarith⟩, ⟨0, trivial⟩⟩

theorem endR_top (p : K[X]) : EndR (fun _ : K => True) (sgTop p) p := by
  intro z _
  obtain ⟨M, hM⟩ := sgTop_spec p
  exact ⟨max z M + 1, by have := le_max_left z M; linarith,
    hM _ (by have := le_max_right z M; linarith), fun _ _ => trivial⟩

theorem endL_bot (p : K[X]) : EndL (fun _ : K => True) (sgBot p) p := by
  intro z _
  obtain ⟨M, hM⟩ := sgBot_spec p
  exact ⟨min z M - 1, by have := min_le_left z M; linarith,
    hM _ (by have := min_le_right z M; linarith), fun _ _ => trivial⟩

theorem endR_point (p : K[X]) (x : K) : EndR (fun y => y < x) (sg (p.eval x)) p :=
  fun _ hz => ⟨x, hz, rfl, fun _ h => h⟩

theorem endL_point (p : K[X]) (x : K) : EndL (fun y => x < y) (sg (p.eval x)) p :=
  fun _ hz => ⟨x, hz, rfl, fun _ h => h⟩

/-- What the step needs to know about `p`. -/
structure PHyp (φ : R →+* K) (D : Diagram R ℚ) (p : List R) (rest : List (List R)) (l : ℚ)
    (gs : List (ℚ × ℚ)) (xs : List K) : Prop where
  der : derivative p ∈ rest
  gap : ∀ g ∈ segGaps gs, cv D (derivative p) g ≠ 0
  root : ∀ y ∈ (segEnds gs).zip xs, sg ((P φ p).eval y.2) = cv D p y.1
  top : sgTop (P φ p) = cv D p (segLast l gs)

theorem SegSem.ne_nil {φ : R →+* K} {D : Diagram R ℚ} {rows : List (List R)} {L : K → Prop}
    {gs : List (ℚ × ℚ)} {xs : List K} (h : SegSem φ D rows L gs xs) : ∃ y ys, gs = y :: ys := by
  cases h with
  | last => exact ⟨_, _, rfl⟩
  | cons => exact ⟨_, _, rfl⟩

theorem PHyp.tail {φ : R →+* K} {D : Diagram R ℚ} {p : List R} {rest : List (List R)} {l g e : ℚ}
    {gs : List (ℚ × ℚ)} {x : K} {xs : List K} (h : PHyp φ D p rest l ((g, e) :: gs) (x :: xs)) :
    PHyp φ D p rest e gs xs :=
  ⟨h.der, fun g' hg' => h.gap g' (List.mem_cons_of_mem _ hg'),
    fun y hy => h.root y (List.mem_cons_of_mem _ hy), h.top⟩

/-- The points and their columns. -/
theorem SegSem.pair {φ : R →+* K} {D : Diagram R ℚ} {rows : List (List R)} {L : K → Prop}
    {gs : List (ℚ × ℚ)} {xs : List K} (h : SegSem φ D rows L gs xs) :
    ∀ y ∈ (segEnds gs).zip xs, y.1 ∈ segInner gs ∧
      ∀ q ∈ rows, sg ((P φ q).eval y.2) = cv D q y.1 := by
  induction h with
  | last => intro y hy; simp at hy
  | cons L g e gs x xs hx hg he h ih =>
    intro y hy
    obtain ⟨z, zs, rfl⟩ := h.ne_nil
    rcases List.mem_cons.1 hy with rfl | hy
    · exact ⟨by simp [segInner], he⟩
    · exact ⟨List.mem_cons_of_mem _ (ih y hy).1, (ih y hy).2⟩

theorem segSem_not_bad {φ : R →+* K} {D : Diagram R ℚ} {rest : List (List R)} {p : List R}
    {L : K → Prop} {gs : List (ℚ × ℚ)} {xs : List K} (h : SegSem φ D rest L gs xs) :
    ∀ l, LowerCut L → EndL L (cv D p l) (P φ p) → PHyp φ D p rest l gs xs → ¬ SegBad D p l gs := by
  induction h with
  | last L g e hg he =>
    intro l hL hl hp hbad
    obtain ⟨z, hz⟩ := hL.ne
    have hder := fun y (hy : L y) (_ : True) => hg _ hp.der y hy
    simp only [P_derivative] at hder
    have htop : sgTop (P φ p) = cv D p e := hp.top
    rcases hbad with hbad | hbad
    · refine (interval_signs (hp.gap g (by simp [segGaps])) hder hl ?_ hz trivial hL.up
        (fun _ _ _ _ => trivial)).1 hbad
      rw [← htop]; exact endR_top _
    · exact hbad
  | cons L g e gs x xs hx hg he h ih =>
    intro l hL hl hp hbad
    obtain ⟨z, hz, hzx⟩ := hL.low x hx
    have hder := fun y (hy : L y) (hyx : y < x) => hg _ hp.der y hy hyx
    simp only [P_derivative] at hder
    obtain ⟨y, ys, rfl⟩ := h.ne_nil
    have hpe : sg ((P φ p).eval x) = cv D p e := hp.root (e, x) (by simp [segEnds])
    rcases hbad with hbad | hbad
    · refine (interval_signs (hp.gap g (by simp [segGaps])) hder hl ?_ hz hzx hL.up
        (fun _ _ h1 h2 => h2.trans h1)).1 hbad
      rw [← hpe]; exact endR_point _ _
    · refine ih e (lowerCut_gt x) ?_ hp.tail hbad
      rw [← hpe]; exact endL_point _ _

theorem segSem_ext {φ : R →+* K} {D D' : Diagram R ℚ} {rest rows : List (List R)} {p : List R}
    (hrows : ∀ q, q ∈ rows ↔ q = p ∨ q ∈ rest)
    {L : K → Prop} {gs : List (ℚ × ℚ)} {xs : List K} (h : SegSem φ D rest L gs xs) :
    ∀ l gs', LowerCut L → EndL L (cv D p l) (P φ p) → PHyp φ D p rest l gs xs →
      SegExt D D' p rest l gs gs' → ∃ xs', SegSem φ D' rows L gs' xs' := by
  induction h with
  | last L g e hg he =>
    intro l gs' hL hl hp hext
    obtain ⟨z, hz⟩ := hL.ne
    have hder := fun y (hy : L y) (_ : True) => hg _ hp.der y hy
    simp only [P_derivative] at hder
    have htop : sgTop (P φ p) = cv D p e := hp.top
    have hr : EndR (fun _ : K => True) (cv D p e) (P φ p) := by rw [← htop]; exact endR_top _
    have hs0 := hp.gap g (by simp [segGaps])
    cases hext with
    | keep _ _ _ _ gs'' hbad heq hpg hpe hqg hqe hx =>
      cases hx
      refine ⟨[], .last L g e ?_ ?_⟩
      · intro q hq y hy
        rcases (hrows q).1 hq with rfl | hq
        · rw [hpg]
          exact (interval_signs hs0 hder hl hr hy trivial hL.up (fun _ _ _ _ => trivial)).2 heq
        · rw [hqg q hq]; exact hg q hq y hy
      · intro q hq
        rcases (hrows q).1 hq with rfl | hq
        · rw [hpe, htop]
        · rw [hqe q hq]; exact he q hq
    | split _ _ _ _ gs'' hne hne0 hp1 hpg hp2 hpe hq1 hqg hq2 hqe hx =>
      cases hx
      obtain ⟨c, hLc, _, hc, hc1, hc2⟩ := interval_root hs0 hder hl hr hz trivial hL.up
        (fun _ _ _ _ => trivial) hne hne0
      refine ⟨[c], .cons L _ _ _ c [] hLc ?_ ?_ (.last _ _ _ ?_ ?_)⟩
      · intro q hq y hy hyc
        rcases (hrows q).1 hq with rfl | hq
        · rw [hp1]; exact hc1 y hy hyc
        · rw [hq1 q hq]; exact hg q hq y hy
      · intro q hq
        rcases (hrows q).1 hq with rfl | hq
        · rw [hpg, hc, sg_zero]
        · rw [hqg q hq]; exact hg q hq c hLc
      · intro q hq y hy
        rcases (hrows q).1 hq with rfl | hq
        · rw [hp2]; exact hc2 y hy trivial
        · rw [hq2 q hq]; exact hg q hq y (hL.up c y hLc hy)
      · intro q hq
        rcases (hrows q).1 hq with rfl | hq
        · rw [hpe, htop]
        · rw [hqe q hq]; exact he q hq
  | cons L g e gs x xs hx hg he h ih =>
    intro l gs' hL hl hp hext
    obtain ⟨z, hz, hzx⟩ := hL.low x hx
    have hder := fun y (hy : L y) (hyx : y < x) => hg _ hp.der y hy hyx
    simp only [P_derivative] at hder
    have hpe' : sg ((P φ p).eval x) = cv D p e := hp.root (e, x) (by simp [segEnds])
    have hr : EndR (fun y : K => y < x) (cv D p e) (P φ p) := by rw [← hpe']; exact endR_point _ _
    have hs0 := hp.gap g (by simp [segGaps])
    have hlnext : EndL (fun y => x < y) (cv D p e) (P φ p) := by rw [← hpe']; exact endL_point _ _
    cases hext with
    | keep _ _ _ _ gs'' hbad heq hpg hpe hqg hqe hxt =>
      obtain ⟨xs', hxs'⟩ := ih e gs'' (lowerCut_gt x) hlnext hp.tail hxt
      refine ⟨x :: xs', .cons L g e gs'' x xs' hx ?_ ?_ hxs'⟩
      · intro q hq y hy hyx
        rcases (hrows q).1 hq with rfl | hq
        · rw [hpg]
          exact (interval_signs hs0 hder hl hr hy hyx hL.up (fun _ _ h1 h2 => h2.trans h1)).2 heq
        · rw [hqg q hq]; exact hg q hq y hy hyx
      · intro q hq
        rcases (hrows q).1 hq with rfl | hq
        · rw [hpe, hpe']
        · rw [hqe q hq]; exact he q hq
    | split _ _ _ _ gs'' hne hne0 hp1 hpg hp2 hpe hq1 hqg hq2 hqe hxt =>
      obtain ⟨xs', hxs'⟩ := ih e gs'' (lowerCut_gt x) hlnext hp.tail hxt
      obtain ⟨c, hLc, hcx, hc, hc1, hc2⟩ := interval_root hs0 hder hl hr hz hzx hL.up
        (fun _ _ h1 h2 => h2.trans h1) hne hne0
      refine ⟨c :: x :: xs', .cons L _ _ _ c _ hLc ?_ ?_ (.cons _ _ _ _ x xs' hcx ?_ ?_ hxs')⟩
      · intro q hq y hy hyc
        rcases (hrows q).1 hq with rfl | hq
        · rw [hp1]; exact hc1 y hy hyc
        · rw [hq1 q hq]; exact hg q hq y hy (hyc.trans hcx)
      · intro q hq
        rcases (hrows q).1 hq with rfl | hq
        · rw [hpg, hc, sg_zero]
        · rw [hqg q hq]; exact hg q hq c hLc hcx
      · intro q hq y hy hyx
        rcases (hrows q).1 hq with rfl | hq
        · rw [hp2]; exact hc2 y hy hyx
        · rw [hq2 q hq]; exact hg q hq y (hL.up c y hLc hy) hyx
      · intro q hq
        rcases (hrows q).1 hq with rfl | hq
        · rw [hpe, hpe']
        · rw [hqe q hq]; exact he q hq

/-- The diagram shows the signs at the parameter values `φ`. -/
structure RSem (φ : R →+* K) (D : Diagram R ℚ) (gs : List (ℚ × ℚ)) : Prop where
  bot : ∀ q ∈ keys D, sgBot (P φ q) = cv D q 0
  seg : ∃ xs, SegSem φ D (keys D) (fun _ => True) gs xs

theorem SegSem.congr {φ : R →+* K} {D D' : Diagram R ℚ} {rows : List (List R)} {L : K → Prop}
    {gs : List (ℚ × ℚ)} {xs : List K} (h : SegSem φ D rows L gs xs)
    (hv : ∀ q ∈ rows, ∀ i, cv D' q i = cv D q i) : SegSem φ D' rows L gs xs := by
  induction h with
  | last L g e hg he =>
    exact .last L g e (fun q hq y hy => by rw [hv q hq]; exact hg q hq y hy)
      (fun q hq => by rw [hv q hq]; exact he q hq)
  | cons L g e gs x xs hx hg he h ih =>
    exact .cons L g e gs x xs hx (fun q hq y hy hyx => by rw [hv q hq]; exact hg q hq y hy hyx)
      (fun q hq => by rw [hv q hq]; exact he q hq) ih

/-- The last column is the sign at `+∞`. -/
theorem SegSem.top {φ : R →+* K} {D : Diagram R ℚ} {rows : List (List R)} {L : K → Prop}
    {gs : List (ℚ × ℚ)} {xs : List K} (h : SegSem φ D rows L gs xs) :
    ∀ l, ∀ q ∈ rows, sgTop (P φ q) = cv D q (segLast l gs) := by
  induction h with
  | last L g e hg he => intro l; exact he
  | cons L g e gs x xs hx hg he h ih => intro l; exact ih e

theorem sgTop_C (c : K) : sgTop (C c) = sg c := by simp [sgTop]
theorem sgBot_C (c : K) : sgBot (C c) = sg c := by simp [sgBot]

theorem sgBot_eq_zero {p : K[X]} : sgBot p = 0 ↔ p = 0 := by
  unfold sgBot
  rw [mul_eq_zero, sg_eq_zero_iff, leadingCoeff_eq_zero]
  simp

theorem sg_lcRow (φ : R →+* K) (p : List R) :
    sg (φ (lc p) * (fac (deg p) : K)) = sg (φ (lc p)) := by
  have : (0 : K) < (fac (deg p) : K) := by
    rw [fac_eq]
    exact_mod_cast Nat.factorial_pos _
  rw [sg_mul, sg_pos this, mul_one]

/-- The value computed in a column of a root is right. -/
theorem rootVal_sem [IsDomain R] {φ : R →+* K} {D : Diagram R ℚ} {p : List R} {e : ℚ} {v : ℤ}
    (hp : StepHyp D p) (hbot : ∀ q ∈ keys D, sgBot (P φ q) = cv D q 0) (hv : RootVal D p e v) {x : K}
    (hx : ∀ q ∈ keys D, sg ((P φ q).eval x) = cv D q e) : sg ((P φ p).eval x) = v := by
  obtain ⟨q, hq, hqe, hq0, hmin, hpos, r, hr, hrem, hlck, rfl⟩ := hv
  obtain ⟨hqc, hqle, _⟩ := hp.rem q hq hpos
  have hqx : (P φ q).eval x = 0 := by rw [← sg_eq_zero_iff, hx q hq, hqe]
  have hlc : φ (lc q) ≠ 0 := by
    intro h0
    have ht := P_tail φ (ne_nil_of_deg hpos) h0
    have htk := hp.tails q hq
    have h1 : cv D (pTail q) e = 0 := by rw [← hx _ htk, ← ht, hqx, sg_zero]
    have h2 : cv D (pTail q) 0 ≠ 0 := by rw [← hbot _ htk, ← ht, hbot q hq]; exact hq0
    have := hmin _ htk h1 h2
    have h3 := pTail_length q
    unfold deg at hpos this
    omega
  have hsgl : cv D (lcRow q) e = sg (φ (lc q)) := by
    rw [← hx _ hlck, P_lcRow, eval_C, sg_lcRow]
  have hrv := P_rem φ hp.canon hqc hpos hqle hrem hqx
  have h1 : cv D r e = sg (φ (lc q)) ^ (deg p - deg q + 1) * sg ((P φ p).eval x) := by
    rw [← hx r hr, hrv, sg_mul, sg_pow]
  rw [hsgl, h1]
  rcases sg_cases (φ (lc q)) with ⟨_, hs⟩ | ⟨h, _⟩ | ⟨_, hs⟩
  · rw [hs]
    by_cases hodd : (deg p - deg q + 1) % 2 = 1
    · rw [if_pos ⟨by decide, hodd⟩, Odd.neg_one_pow (Nat.odd_iff.2 hodd)]; ring
    · rw [if_neg fun h => hodd h.2, Even.neg_one_pow (Nat.even_iff.2 (by omega))]; ring
  · exact absurd h hlc
  · rw [hs, if_neg (by rintro ⟨h, _⟩; exact absurd h (by decide))]; simp

theorem phyp_of_mid [IsDomain R] {φ : R →+* K} {D D2 : Diagram R ℚ} {gs : List (ℚ × ℚ)} {p : List R}
    (hs : RShape D gs) (hp : StepHyp D p) (hsem : RSem φ D gs) (h0 : cv D (lcRow p) 0 ≠ 0)
    (hmid : RMid D gs p D2) {xs : List K} (hxs : SegSem φ D (keys D) (fun _ => True) gs xs) :
    PHyp φ D2 p (keys D) 0 gs xs ∧ cv D2 p 0 = sgBot (P φ p) := by
  have hd1 : derivative p ∈ keys D := hp.der 1 le_rfl
  have hlcv : cv D (lcRow p) 0 = sg (φ (lc p)) := by
    rw [← hsem.bot _ hp.lcRow, P_lcRow, sgBot_C, sg_lcRow]
  have hlc : φ (lc p) ≠ 0 := by
    intro h; rw [h, sg_zero] at hlcv; exact h0 hlcv
  have hdeg := P_natDegree φ hp.canon hlc
  have hlead := P_leadingCoeff φ hp.canon hlc
  have hder0 : P φ (derivative p) ≠ 0 := by
    rw [P_derivative]
    intro h
    have := Polynomial.derivative_eq_zero.1 h
    have h2 := hp.pos
    omega
  refine ⟨⟨hd1, ?_, ?_, ?_⟩, ?_⟩
  · intro g hg
    rw [hmid.old _ hd1]
    apply hs.seg.gap g hg _ hd1
    rw [← hsem.bot _ hd1]
    exact fun h => hder0 (sgBot_eq_zero.1 h)
  · intro y hy
    obtain ⟨h1, h2⟩ := hxs.pair y hy
    exact rootVal_sem hp hsem.bot (hmid.root y.1 h1) h2
  · rw [hs.last, hmid.top]
    have := hxs.top 0 _ hp.lcRow
    rw [hs.last] at this
    rw [← this, P_lcRow, sgTop_C, sg_lcRow, sgTop, hlead]
  · rw [hmid.bot, hlcv, sgBot, hlead, hdeg]

theorem rsem_not_bad [IsDomain R] {φ : R →+* K} {D D2 : Diagram R ℚ} {gs : List (ℚ × ℚ)} {p : List R}
    (hs : RShape D gs) (hp : StepHyp D p) (hsem : RSem φ D gs) (h0 : cv D (lcRow p) 0 ≠ 0)
    (hmid : RMid D gs p D2) : ¬ SegBad D2 p 0 gs := by
  obtain ⟨xs, hxs⟩ := hsem.seg
  obtain ⟨h1, h2⟩ := phyp_of_mid hs hp hsem h0 hmid hxs
  exact segSem_not_bad (hxs.congr hmid.old) 0 lowerCut_univ (by rw [h2]; exact endL_bot _) h1

theorem rsem_step [IsDomain R] {φ : R →+* K} {D D' : Diagram R ℚ} {gs gs' : List (ℚ × ℚ)} {p : List R}
    (hs : RShape D gs) (hp : StepHyp D p) (hsem : RSem φ D gs) (h : RStep D gs p D' gs') :
    RSem φ D' gs' := by
  have hlcv : cv D (lcRow p) 0 = sg (φ (lc p)) := by
    rw [← hsem.bot _ hp.lcRow, P_lcRow, sgBot_C, sg_lcRow]
  rcases h.cases with ⟨h0, rfl, hold, hnew⟩ | ⟨h0, D2, hmid, hext, hcol0⟩
  · rw [h0] at hlcv
    have ht := P_tail φ (ne_nil_of_deg hp.pos) (sg_eq_zero_iff.1 hlcv.symm)
    refine ⟨?_, ?_⟩
    · intro q hq
      rcases (h.keys q).1 hq with rfl | hq
      · rw [hnew 0 (Or.inl rfl), ht, hsem.bot _ hp.tail]
      · rw [hold q hq, hsem.bot q hq]
    · obtain ⟨xs, hxs⟩ := hsem.seg
      have key : ∀ {L : K → Prop} {gs'' : List (ℚ × ℚ)} {xs : List K},
          SegSem φ D (keys D) L gs'' xs → (∀ i ∈ segCols gs'', i ∈ segCols gs') →
          SegSem φ D' (keys D') L gs'' xs := by
        intro L gs'' xs hx
        induction hx with
        | last L g e hg he =>
          intro hsub
          have hg' := hsub g (by simp [segCols])
          have he' := hsub e (by simp [segCols])
          refine .last L g e ?_ ?_
          · intro q hq y hy
            rcases (h.keys q).1 hq with rfl | hq
            · rw [hnew g (Or.inr hg'), ht]; exact hg _ hp.tail y hy
            · rw [hold q hq]; exact hg q hq y hy
          · intro q hq
            rcases (h.keys q).1 hq with rfl | hq
            · rw [hnew e (Or.inr he'), ht]; exact he _ hp.tail
            · rw [hold q hq]; exact he q hq
        | cons L g e gs x xs hx hg he _ ih =>
          intro hsub
          have hg' := hsub g (by simp [segCols])
          have he' := hsub e (by simp [segCols])
          refine .cons L g e gs x xs hx ?_ ?_ (ih fun i hi => hsub i (by simp [segCols, hi]))
          · intro q hq y hy hyx
            rcases (h.keys q).1 hq with rfl | hq
            · rw [hnew g (Or.inr hg'), ht]; exact hg _ hp.tail y hy hyx
            · rw [hold q hq]; exact hg q hq y hy hyx
          · intro q hq
            rcases (h.keys q).1 hq with rfl | hq
            · rw [hnew e (Or.inr he'), ht]; exact he _ hp.tail
            · rw [hold q hq]; exact he q hq
      exact ⟨xs, key hxs fun _ h => h⟩
  · obtain ⟨xs, hxs⟩ := hsem.seg
    obtain ⟨h1, h2⟩ := phyp_of_mid hs hp hsem h0 hmid hxs
    refine ⟨?_, ?_⟩
    · intro q hq
      rw [hcol0]
      rcases (h.keys q).1 hq with rfl | hq
      · exact h2.symm
      · rw [hmid.old q hq, hsem.bot q hq]
    · exact segSem_ext h.keys (hxs.congr hmid.old) 0 gs' lowerCut_univ
        (by rw [h2]; exact endL_bot _) h1 hext

end Verif.Qe
