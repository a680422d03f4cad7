import Verif.Grf.Fiber
import Verif.Grf.PropsLift

/-!
# One projection step: sectors over the points where the projection does not vanish
-/

set_option linter.unusedSectionVars false

namespace Verif.Grf

open Topology Filter

/-! ### Normal forms of the polynomials of the projection -/

theorem mem_foldr_max {l : List ℕ} (h : l ≠ []) : l.foldr max 0 ∈ l := by
  induction l with
  | nil => simp at h
  | cons a l ih =>
    rw [List.foldr_cons]
    by_cases hl : l = []
    · subst hl; simp
    · rcases max_choice a (l.foldr max 0) with h | h
      · rw [h]; simp
      · rw [h]; exact List.mem_cons_of_mem _ (ih hl)

theorem normal_coefIn {p : MPoly} (hp : Normal p) (v i : ℕ) : Normal (coefIn p v i) := by
  refine ⟨?_, ?_, ?_⟩
  · intro t ht
    obtain ⟨u, hu, rfl⟩ := List.mem_map.1 ht
    exact hp.coef u (List.mem_filter.1 hu).1
  · intro t ht
    obtain ⟨u, hu, rfl⟩ := List.mem_map.1 ht
    exact stripped_strip _
  · unfold coefIn
    rw [List.map_map]
    have hnd : (p.filter fun t => t.1.exp v == i).map Prod.fst |>.Nodup :=
      hp.nodup.sublist (List.filter_sublist.map _)
    rw [List.nodup_map_iff_inj_on (List.Nodup.of_map _ hnd)]
    intro t ht u hu h
    obtain ⟨h1, h2⟩ := List.mem_filter.1 ht
    obtain ⟨k1, k2⟩ := List.mem_filter.1 hu
    have hm : t.1 = u.1 := by
      apply stripped_ext (hp.strip t h1) (hp.strip u k1)
      intro j
      have := congrArg (fun m => Mono.exp m j) h
      simp only [Function.comp, exp_strip, exp_set] at this
      split at this
      · next hj => subst hj; rw [beq_iff_eq] at h2 k2; rw [h2, k2]
      · exact this
    have hnd' := (List.nodup_map_iff_inj_on (List.Nodup.of_map _ hp.nodup)).1 hp.nodup
    exact hnd' t h1 u k1 hm

theorem lcIn_ne_nil {p : MPoly} (h : p ≠ []) (v : ℕ) : lcIn p v ≠ [] := by
  have : p.degreeIn v ∈ p.map fun t => t.1.exp v := mem_foldr_max (by simpa using h)
  obtain ⟨t, ht, hd⟩ := List.mem_map.1 this
  rw [lcIn_eq]
  apply List.ne_nil_of_mem (a := (Mono.strip (t.1.set v 0), t.2))
  exact List.mem_map.2 ⟨t, List.mem_filter.2 ⟨ht, by simpa using hd⟩, rfl⟩

theorem stripped_var (v : ℕ) : Mono.Stripped (List.replicate v 0 ++ [1]) := by
  unfold Mono.Stripped
  rw [List.getLast?_append]
  simp

theorem normal_var (v : ℕ) : Normal (MPoly.var v) := by
  refine ⟨?_, ?_, by simp [MPoly.var]⟩
  · intro t ht
    rw [MPoly.var, List.mem_singleton] at ht
    subst ht
    norm_num
  · intro t ht
    rw [MPoly.var, List.mem_singleton] at ht
    subst ht
    exact stripped_var v

theorem normal_base {p : MPoly} (hp : Normal p) : Normal (purePolyBase p) := by
  unfold purePolyBase
  split
  · split
    · exact normal_var _
    · exact hp
  · exact hp

theorem vars_var (v w : ℕ) : w ∈ (MPoly.var v).vars ↔ w = v := by
  rw [MPoly.mem_vars]
  have : ∀ v w, 0 < Mono.exp (List.replicate v 0 ++ [1]) w ↔ w = v := by
    intro v w
    unfold Mono.exp
    rw [List.getD_eq_getElem?_getD, List.getElem?_append]
    rw [List.length_replicate]
    split
    · next h => rw [List.getElem?_replicate, if_pos h]; simp; omega
    · next h =>
      rw [List.getElem?_singleton]
      split <;> simp <;> omega
  simp [MPoly.var, this]

theorem vars_base {p : MPoly} {w : ℕ} (h : w ∈ (purePolyBase p).vars) : w ∈ p.vars := by
  unfold purePolyBase at h
  split at h
  · split at h
    · next v hv =>
      rw [vars_var] at h
      rw [hv]; simp [h]
    · exact h
  · exact h

theorem deg_zero_stripped {m : Mono} (h : m.Stripped) (h0 : m.deg = 0) : m = [] := by
  apply stripped_ext h (by simp [Mono.Stripped])
  intro i
  rw [exp_nil]
  by_contra hi
  have hlt := Mono.exp_pos_lt (Nat.pos_of_ne_zero hi)
  have : m.exp i ≤ m.sum := by
    have he : m.exp i = m[i] := by
      unfold Mono.exp
      rw [List.getD_eq_getElem?_getD, List.getElem?_eq_getElem hlt]; rfl
    rw [he]
    exact List.le_sum_of_mem (List.getElem_mem hlt)
  rw [Mono.deg] at h0
  omega

section
variable {K : Type} [Field K] [LinearOrder K] [IsStrictOrderedRing K]

theorem normal_constant {p : MPoly} (hp : Normal p) (hc : p.isConstant = true) (hne : p ≠ []) (ρ : ℕ → K) :
    p.eval ρ ≠ 0 := by
  have hall : ∀ t ∈ p, t.1 = [] := by
    intro t ht
    have := List.all_eq_true.1 hc t ht
    exact deg_zero_stripped (hp.strip t ht) (by simpa using this)
  match p, hne with
  | [t], _ =>
    rw [MPoly.eval_cons, MPoly.eval_nil, hall t (by simp)]
    have : (t.2 : K) ≠ 0 := by exact_mod_cast hp.coef t (by simp)
    simpa [Mono.evalFrom] using this
  | t :: u :: p, _ =>
    exfalso
    have := hp.nodup
    rw [List.map_cons, List.map_cons, List.nodup_cons, hall t (by simp), hall u (by simp)] at this
    simp at this

/-- Where the filtered set does not vanish, no polynomial of the given set but 0 does. -/
theorem filter_ne {ps : List MPoly} {ρ : ℕ → K} (h : ∀ q ∈ filterProjSet ps, q.eval ρ ≠ 0) {p : MPoly} (hp : p ∈ ps)
    (hn : Normal p) (hne : p ≠ []) : p.eval ρ ≠ 0 := by
  cases hc : p.isConstant with
  | true => exact normal_constant hn hc hne ρ
  | false =>
    rw [ne_eq, ← purePolyBase_zero hn.coef hc]
    apply h
    rw [filterProjSet, List.mem_dedup, List.mem_map]
    exact ⟨p, List.mem_filter.2 ⟨hp, by simp [hc]⟩, rfl⟩

end

theorem mem_filterProjSet {ps : List MPoly} {q : MPoly} (h : q ∈ filterProjSet ps) :
    ∃ p ∈ ps, p.isConstant = false ∧ q = purePolyBase p := by
  rw [filterProjSet, List.mem_dedup, List.mem_map] at h
  obtain ⟨p, hp, rfl⟩ := h
  obtain ⟨h1, h2⟩ := List.mem_filter.1 hp
  exact ⟨p, h1, by simpa using h2, rfl⟩

/-! ### Perturbation -/

theorem eval_ratCast (p : MPoly) (ρ : ℕ → ℚ) : p.eval (fun i => (ρ i : ℝ)) = ((p.eval ρ : ℚ) : ℝ) := by
  have key : ∀ (m : Mono) (i : ℕ), Mono.evalFrom (fun i => (ρ i : ℝ)) i m = ((Mono.evalFrom ρ i m : ℚ) : ℝ) := by
    intro m
    induction m with
    | nil => intro i; simp [Mono.evalFrom]
    | cons e m ih => intro i; simp only [Mono.evalFrom, ih]; push_cast; ring
  induction p with
  | nil => simp [MPoly.eval_nil]
  | cons t p ih => rw [MPoly.eval_cons, MPoly.eval_cons, ih, key]; push_cast; ring

/-- Along a line a polynomial is a polynomial. -/
theorem exists_line (p : MPoly) (ρ δ : ℕ → ℝ) : ∃ q : Polynomial ℝ, ∀ t, q.eval t = p.eval fun i => ρ i + t * δ i := by
  have key : ∀ (m : Mono) (i : ℕ), ∃ q : Polynomial ℝ, ∀ t, q.eval t = Mono.evalFrom (fun i => ρ i + t * δ i) i m := by
    intro m
    induction m with
    | nil => intro i; exact ⟨1, by simp [Mono.evalFrom]⟩
    | cons e m ih =>
      intro i
      obtain ⟨q, hq⟩ := ih (i + 1)
      refine ⟨(Polynomial.C (ρ i) + Polynomial.X * Polynomial.C (δ i)) ^ e * q, fun t => ?_⟩
      rw [Polynomial.eval_mul, hq, Mono.evalFrom, Polynomial.eval_pow, Polynomial.eval_add, Polynomial.eval_C,
        Polynomial.eval_mul, Polynomial.eval_X, Polynomial.eval_C]
  induction p with
  | nil => exact ⟨0, by simp [MPoly.eval_nil]⟩
  | cons u p ih =>
    obtain ⟨q, hq⟩ := ih
    obtain ⟨r, hr⟩ := key u.1 0
    refine ⟨Polynomial.C (u.2 : ℝ) * r + q, fun t => ?_⟩
    rw [Polynomial.eval_add, Polynomial.eval_mul, hq, hr, MPoly.eval_cons]
    simp

/-- Near every point there is one where a polynomial that is not 0 does not vanish. -/
theorem exists_near_ne_one {p : MPoly} (hp : Normal p) (hne : p ≠ []) {ρ : ℕ → ℝ} {N : Set (ℕ → ℝ)} (hN : N ∈ 𝓝 ρ) :
    ∃ σ ∈ N, p.eval σ ≠ 0 := by
  obtain ⟨τ, hτ⟩ := hp.exists_ne hne
  obtain ⟨q, hq⟩ := exists_line p ρ fun i => (τ i : ℝ) - ρ i
  have hq0 : q ≠ 0 := by
    rintro rfl
    have := hq 1
    simp only [Polynomial.eval_zero, one_mul, add_sub_cancel] at this
    rw [eval_ratCast] at this
    exact hτ (by exact_mod_cast this.symm)
  have hcont : Continuous fun t : ℝ => (fun i => ρ i + t * ((τ i : ℝ) - ρ i) : ℕ → ℝ) := by fun_prop
  have hN' : (fun t : ℝ => (fun i => ρ i + t * ((τ i : ℝ) - ρ i) : ℕ → ℝ)) ⁻¹' N ∈ 𝓝 (0 : ℝ) := by
    apply hcont.continuousAt.preimage_mem_nhds
    simpa using hN
  have hinf : ((fun t : ℝ => (fun i => ρ i + t * ((τ i : ℝ) - ρ i) : ℕ → ℝ)) ⁻¹' N).Infinite :=
    infinite_of_mem_nhds 0 hN'
  obtain ⟨t, ht, hroot⟩ := hinf.exists_notMem_finset q.roots.toFinset
  refine ⟨_, ht, ?_⟩
  rw [← hq]
  intro h0
  exact hroot (by simp [hq0, h0])

theorem exists_near_ne {ps : List MPoly} (hp : ∀ p ∈ ps, Normal p ∧ p ≠ []) {ρ : ℕ → ℝ} : ∀ {N : Set (ℕ → ℝ)}, N ∈ 𝓝 ρ →
    ∃ σ ∈ N, ∀ p ∈ ps, p.eval σ ≠ 0 := by
  induction ps generalizing ρ with
  | nil => intro N hN; exact ⟨ρ, mem_of_mem_nhds hN, by simp⟩
  | cons p ps ih =>
    intro N hN
    obtain ⟨N', hN', ho, hρ⟩ := mem_nhds_iff.1 hN
    obtain ⟨σ, hσ, h1⟩ := exists_near_ne_one (hp p (by simp)).1 (hp p (by simp)).2 (ho.mem_nhds hρ)
    have hM : N' ∩ {τ | p.eval τ ≠ 0} ∈ 𝓝 σ :=
      (ho.inter (isOpen_ne_fun (continuous_eval p) continuous_const)).mem_nhds ⟨hσ, h1⟩
    obtain ⟨τ, hτ, h2⟩ := ih (fun q hq => hp q (by simp [hq])) hM
    refine ⟨τ, hN' hτ.1, ?_⟩
    intro q hq
    rcases List.mem_cons.1 hq with rfl | hq
    · exact hτ.2
    · exact h2 q hq

/-! ### The step -/

/-- The points where no polynomial of the list vanishes. -/
def NonVan (ps : List MPoly) : Set (ℕ → ℝ) := {ρ | ∀ p ∈ ps, p.eval ρ ≠ 0}

theorem isOpen_nonVan (ps : List MPoly) : IsOpen (NonVan ps) := by
  induction ps with
  | nil => simp [NonVan]
  | cons p ps ih =>
    have : NonVan (p :: ps) = {ρ | p.eval ρ ≠ 0} ∩ NonVan ps := by
      ext ρ; simp [NonVan]
    rw [this]
    exact (isOpen_ne_fun (continuous_eval p) continuous_const).inter ih

/-- The product of the values and its derivative in the variable `v`. -/
noncomputable def prodVal (v : ℕ) : List MPoly → ((ℕ → ℝ) × ℝ → ℝ) × ((ℕ → ℝ) × ℝ → ℝ)
  | [] => (fun _ => 1, fun _ => 0)
  | p :: ps =>
    (fun z => p.eval (Function.update z.1 v z.2) * (prodVal v ps).1 z,
     fun z => (fib v z.1 p).derivative.eval z.2 * (prodVal v ps).1 z +
       p.eval (Function.update z.1 v z.2) * (prodVal v ps).2 z)

theorem prodVal_ne (v : ℕ) (ps : List MPoly) (z : (ℕ → ℝ) × ℝ) :
    (prodVal v ps).1 z ≠ 0 ↔ Function.update z.1 v z.2 ∈ NonVan ps := by
  induction ps with
  | nil => simp [prodVal, NonVan]
  | cons p ps ih =>
    rw [prodVal, mul_ne_zero_iff, ih]
    simp [NonVan]

theorem prodVal_continuous (v : ℕ) (ps : List MPoly) : Continuous (prodVal v ps).1 ∧ Continuous (prodVal v ps).2 := by
  induction ps with
  | nil => exact ⟨continuous_const, continuous_const⟩
  | cons p ps ih =>
    obtain ⟨h1, h2⟩ := ih
    have h3 := continuous_eval_update p v
    have h4 := continuous_deriv_fib p v
    exact ⟨h3.mul h1, (h4.mul h1).add (h3.mul h2)⟩

theorem prodVal_deriv (v : ℕ) (ps : List MPoly) (ρ : ℕ → ℝ) (x : ℝ) :
    HasDerivAt (fun y => (prodVal v ps).1 (ρ, y)) ((prodVal v ps).2 (ρ, x)) x := by
  induction ps with
  | nil => exact hasDerivAt_const x 1
  | cons p ps ih => exact (hasDerivAt_fib v ρ p x).mul ih

theorem prodVal_simple (v : ℕ) (ρ : ℕ → ℝ) (x : ℝ) : ∀ ps : List MPoly,
    (∀ p ∈ ps, p.eval (Function.update ρ v x) = 0 → (fib v ρ p).derivative.eval x ≠ 0) →
    (ps.Pairwise fun p q => ¬ (p.eval (Function.update ρ v x) = 0 ∧ q.eval (Function.update ρ v x) = 0)) →
    (prodVal v ps).1 (ρ, x) = 0 → (prodVal v ps).2 (ρ, x) ≠ 0
  | [], _, _, h => by simp [prodVal] at h
  | p :: ps, h1, h2, h => by
    rw [List.pairwise_cons] at h2
    show (fib v ρ p).derivative.eval x * (prodVal v ps).1 (ρ, x) +
       p.eval (Function.update ρ v x) * (prodVal v ps).2 (ρ, x) ≠ 0
    have h : p.eval (Function.update ρ v x) * (prodVal v ps).1 (ρ, x) = 0 := h
    by_cases hp : p.eval (Function.update ρ v x) = 0
    · have hq : (prodVal v ps).1 (ρ, x) ≠ 0 := by
        rw [prodVal_ne]
        exact fun q hq h0 => h2.1 q hq ⟨hp, h0⟩
      rw [hp, zero_mul, add_zero]
      exact mul_ne_zero (h1 p (by simp) hp) hq
    · have hq : (prodVal v ps).1 (ρ, x) = 0 := (mul_eq_zero.1 h).resolve_left hp
      rw [hq, mul_zero, zero_add]
      exact mul_ne_zero hp (prodVal_simple v ρ x ps (fun q hq => h1 q (by simp [hq])) h2.2 hq)

theorem prodVal_bounded (v : ℕ) (ρ : ℕ → ℝ) : ∀ ps : List MPoly, (∀ p ∈ ps, (lcIn p v).eval ρ ≠ 0) →
    ∃ M : ℝ, 0 ≤ M ∧ ∀ᶠ σ in 𝓝 ρ, ∀ y, M ≤ |y| → (prodVal v ps).1 (σ, y) ≠ 0
  | [], _ => ⟨0, le_rfl, by simp [prodVal]⟩
  | p :: ps, h => by
    obtain ⟨M, hM, h1⟩ := roots_bounded (h p (by simp))
    obtain ⟨M', hM', h2⟩ := prodVal_bounded v ρ ps fun q hq => h q (by simp [hq])
    refine ⟨max M M', le_max_of_le_left hM, ?_⟩
    filter_upwards [h1, h2] with σ e1 e2 y hy
    exact mul_ne_zero (e1 y ((le_max_left _ _).trans hy)) (e2 y ((le_max_right _ _).trans hy))

theorem update_nonVan {P : List MPoly} {v : ℕ} (hv : ∀ q ∈ P, v ∉ q.vars) {ρ : ℕ → ℝ} (h : ρ ∈ NonVan P) (x : ℝ) :
    Function.update ρ v x ∈ NonVan P := by
  intro q hq
  have : q.eval (Function.update ρ v x) = q.eval ρ := by
    apply MPoly.eval_congr
    intro i hi
    exact Function.update_of_ne (show i ≠ v from fun h => hv q hq (h ▸ hi)) _ _
  rw [this]
  exact h q hq

/-- Sectors of `F` over the points where the projection `P` does not vanish can be followed. -/
theorem lift_step {F P : List MPoly} {v : ℕ} (hv : ∀ q ∈ P, v ∉ q.vars)
    (hlc : ∀ p ∈ F, ∀ ρ ∈ NonVan P, (lcIn p v).eval ρ ≠ 0)
    (hsq : ∀ p ∈ F, ∀ ρ ∈ NonVan P, p.eval ρ = 0 → ¬ HasDerivAt (fun x => p.eval (Function.update ρ v x)) 0 (ρ v))
    (hres : F.Pairwise fun p q => ∀ ρ ∈ NonVan P, ¬ (p.eval ρ = 0 ∧ q.eval ρ = 0))
    {ρ σ : ℕ → ℝ} (hlink : Linked (NonVan P) ρ σ) (hρ : ρ ∈ NonVan F) :
    ∃ y, Linked (NonVan F) ρ (Function.update σ v y) := by
  obtain ⟨A, hA, hA', hρA, hσA⟩ := hlink
  obtain ⟨y, hy⟩ := follow_sector (prodVal_continuous v F).1 (prodVal_continuous v F).2 (prodVal_deriv v F) hA'
    (by
      intro α hα x
      have hα' := fun x => update_nonVan hv (hA hα) x
      apply prodVal_simple v α x F
      · intro p hp h0 h1
        apply hsq p hp _ (hα' x) h0
        rw [Function.update_self]
        simp only [Function.update_idem]
        have := hasDerivAt_fib v α p x
        rwa [h1] at this
      · exact hres.imp fun h => h _ (hα' x))
    (fun α hα => prodVal_bounded v α F fun p hp => hlc p hp α (hA hα)) hρA hσA (ρ v)
    (by rw [prodVal_ne]; simpa using hρ)
  refine ⟨y, ?_⟩
  have := hy.map (f := fun z : (ℕ → ℝ) × ℝ => Function.update z.1 v z.2) (V := NonVan F)
    (continuous_fst.update v continuous_snd) (fun z hz => (prodVal_ne v F z).1 hz)
  simpa using this

end Verif.Grf
