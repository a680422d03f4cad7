import Verif.Grf.CadStep
import Verif.Grf.PropsCore

/-!
# The complete tree of sample points meets every cell where no polynomial vanishes
-/

set_option linter.unusedSectionVars false

namespace Verif.Grf

open Topology Filter Verif.Alg

variable {K : Type} [Field K] [LinearOrder K] [IsStrictOrderedRing K]

/-! ### Substitution -/

theorem addTerm_coef {m : Mono} {c : ℚ} : ∀ {p : MPoly}, NoZeroTerms p → NoZeroTerms (addTerm m c p)
  | [], _ => by
    unfold addTerm
    intro t ht
    split at ht
    · simp at ht
    · next h => rw [List.mem_singleton] at ht; subst ht; exact h
  | (m', c') :: p, hp => by
    unfold addTerm
    intro t ht
    split at ht
    · split at ht
      · exact hp t (by simp [ht])
      · next h =>
        rcases List.mem_cons.1 ht with rfl | ht
        · exact h
        · exact hp t (by simp [ht])
    · rcases List.mem_cons.1 ht with rfl | ht
      · exact hp _ (by simp)
      · exact addTerm_coef (fun t ht => hp t (by simp [ht])) t ht

theorem coef_subst (d : List (ℕ × ℚ)) (p : MPoly) : NoZeroTerms (p.subst d) := by
  unfold MPoly.subst
  induction p with
  | nil => intro t ht; simp at ht
  | cons t p ih => exact addTerm_coef ih

theorem exp_substFrom (d : List (ℕ × ℚ)) : ∀ (m : Mono) (i j : ℕ), 0 < Mono.exp (Mono.substFrom d i m).2 j →
    d.lookup (i + j) = none ∧ 0 < m.exp j
  | [], i, j, h => by simp [Mono.substFrom, Mono.exp] at h
  | e :: m, i, j, h => by
    have ih := exp_substFrom d m (i + 1)
    cases hd : d.lookup i with
    | some x =>
      have hs : Mono.substFrom d i (e :: m) = (x ^ e * (Mono.substFrom d (i + 1) m).1,
          if (Mono.substFrom d (i + 1) m).2 = [] then [] else 0 :: (Mono.substFrom d (i + 1) m).2) := by
        rw [Mono.substFrom, hd]
      rw [hs] at h
      simp only at h
      split at h
      · simp [Mono.exp] at h
      · cases j with
        | zero => simp [Mono.exp] at h
        | succ j =>
          obtain ⟨h1, h2⟩ := ih j (by simpa [Mono.exp] using h)
          exact ⟨by rw [← h1]; congr 1; omega, by simpa [Mono.exp] using h2⟩
    | none =>
      have hs : Mono.substFrom d i (e :: m) = ((Mono.substFrom d (i + 1) m).1,
          if e = 0 ∧ (Mono.substFrom d (i + 1) m).2 = [] then [] else e :: (Mono.substFrom d (i + 1) m).2) := by
        rw [Mono.substFrom, hd]
      rw [hs] at h
      simp only at h
      split at h
      · simp [Mono.exp] at h
      · cases j with
        | zero => exact ⟨hd, by simpa [Mono.exp] using h⟩
        | succ j =>
          obtain ⟨h1, h2⟩ := ih j (by simpa [Mono.exp] using h)
          exact ⟨by rw [← h1]; congr 1; omega, by simpa [Mono.exp] using h2⟩

theorem vars_subst {d : List (ℕ × ℚ)} {p : MPoly} {w : ℕ} (h : w ∈ (p.subst d).vars) : d.lookup w = none ∧ w ∈ p.vars := by
  obtain ⟨t, ht, hw⟩ := MPoly.mem_vars.1 h
  clear h
  suffices ∃ u ∈ p, t.1 = (Mono.substFrom d 0 u.1).2 by
    obtain ⟨u, hu, he⟩ := this
    rw [he] at hw
    have := exp_substFrom d u.1 0 w hw
    rw [Nat.zero_add] at this
    exact ⟨this.1, MPoly.mem_vars.2 ⟨u, hu, this.2⟩⟩
  clear hw
  unfold MPoly.subst at ht
  induction p generalizing t with
  | nil => simp at ht
  | cons u p ih =>
    rw [List.foldr_cons] at ht
    rcases mem_addTerm ht with h | ⟨t', h1, h2⟩
    · exact ⟨u, by simp, h⟩
    · obtain ⟨u', hu', he⟩ := ih t' h1
      exact ⟨u', by simp [hu'], h2.trans he⟩

/-! ### Dictionaries of sample points -/

theorem lookup_spDict_isSome : ∀ (ord : List ℕ) (s : List ℚ) (w : ℕ),
    ((spDict ord s).lookup w).isSome ↔ w ∈ ord.take s.length
  | [], s, w => by simp [spDict]
  | v :: ord, [], w => by simp [spDict]
  | v :: ord, a :: s, w => by
    have ih := lookup_spDict_isSome ord s w
    unfold spDict at ih ⊢
    rw [List.zip_cons_cons, List.lookup_cons, List.length_cons, List.take_succ_cons, List.mem_cons]
    by_cases h : w = v
    · subst h; simp
    · have : (w == v) = false := by simpa using h
      rw [this]
      simpa [h] using ih

theorem lookup_spDict_snoc : ∀ (ord : List ℕ) (s : List ℚ) (c : ℚ) (w : ℕ) (y : ℚ),
    (spDict ord (s ++ [c])).lookup w = some y → (spDict ord s).lookup w = some y ∨ w = ord.getD s.length 0 ∧ y = c
  | [], s, c, w, y, h => by simp [spDict] at h
  | v :: ord, [], c, w, y, h => by
    simp [spDict, List.lookup_cons] at h
    split at h
    · next hw => right; simp_all
    · simp at h
  | v :: ord, a :: s, c, w, y, h => by
    have ih := lookup_spDict_snoc ord s c w y
    unfold spDict at ih h ⊢
    rw [List.cons_append, List.zip_cons_cons, List.lookup_cons] at h
    rw [List.zip_cons_cons, List.lookup_cons]
    split at h
    · left; exact h
    · simpa using ih h

/-- The point has the values of the sample point. -/
def Agrees (ord : List ℕ) (s : List ℚ) (σ : ℕ → ℝ) : Prop := ∀ w y, (spDict ord s).lookup w = some y → σ w = (y : ℝ)

theorem getD_notMem_take {ord : List ℕ} (h : ord.Nodup) {k : ℕ} (hk : k < ord.length) : ord.getD k 0 ∉ ord.take k := by
  intro hm
  obtain ⟨i, hi, he⟩ := List.mem_take_iff_getElem.1 hm
  rw [List.getD_eq_getElem?_getD, List.getElem?_eq_getElem hk, Option.getD_some] at he
  have := (List.Nodup.getElem_inj_iff h).1 he
  omega

theorem mem_take_succ_iff {ord : List ℕ} {k : ℕ} (hk : k < ord.length) {w : ℕ} :
    w ∈ ord.take (k + 1) ↔ w ∈ ord.take k ∨ w = ord.getD k 0 := by
  rw [List.take_add_one, List.mem_append, List.getElem?_eq_getElem hk, List.getD_eq_getElem?_getD,
    List.getElem?_eq_getElem hk]
  simp

/-- Over a sample point, the substituted polynomial is the polynomial in the next variable. -/
theorem val_subst {ord : List ℕ} (hord : ord.Nodup) {s : List ℚ} (hs : s.length < ord.length) {σ : ℕ → ℝ}
    (ha : Agrees ord s σ) {p : MPoly} (hp : ∀ w ∈ p.vars, w ∈ ord.take (s.length + 1)) (x : ℝ) :
    val (p.subst (spDict ord s)) x = p.eval (Function.update σ (ord.getD s.length 0) x) := by
  rw [val, eval_subst]
  apply MPoly.eval_congr
  intro w hw
  unfold over
  have hmem := hp w hw
  rw [mem_take_succ_iff hs] at hmem
  cases hl : (spDict ord s).lookup w with
  | some y =>
    have h1 : w ∈ ord.take s.length := by rw [← lookup_spDict_isSome, hl]; rfl
    have h2 : w ≠ ord.getD s.length 0 := fun h => getD_notMem_take hord hs (h ▸ h1)
    rw [Function.update_of_ne h2]
    exact (ha w y hl).symm
  | none =>
    have h1 : w ∉ ord.take s.length := by rw [← lookup_spDict_isSome, hl]; simp
    rw [hmem.resolve_left h1, Function.update_self]

theorem agrees_snoc {ord : List ℕ} (hord : ord.Nodup) {s : List ℚ} (hs : s.length < ord.length) {σ : ℕ → ℝ}
    (ha : Agrees ord s σ) (c : ℚ) : Agrees ord (s ++ [c]) (Function.update σ (ord.getD s.length 0) c) := by
  intro w y hw
  rcases lookup_spDict_snoc ord s c w y hw with h | ⟨rfl, rfl⟩
  · have h1 : w ∈ ord.take s.length := by rw [← lookup_spDict_isSome, h]; rfl
    have h2 : w ≠ ord.getD s.length 0 := fun h => getD_notMem_take hord hs (h ▸ h1)
    rw [Function.update_of_ne h2]
    exact ha w y h
  · rw [Function.update_self]

/-! ### Assumptions -/

/-- What is assumed of resultants and discriminants: they vanish where they have to, and have no other variables. -/
structure ElimOK (E : CadEnv) : Prop where
  res : ∀ (p q : MPoly) (v : ℕ) (ρ : ℕ → ℝ), Normal p → Normal q → 0 < p.degreeIn v ∨ 0 < q.degreeIn v →
    p.eval ρ = 0 → q.eval ρ = 0 → (E.res p q v).eval ρ = 0
  disc : ∀ (p : MPoly) (v : ℕ) (ρ : ℕ → ℝ), Normal p → 2 ≤ p.degreeIn v → (lcIn p v).eval ρ ≠ 0 → p.eval ρ = 0 →
    HasDerivAt (fun x => p.eval (Function.update ρ v x)) 0 (ρ v) → (E.disc p v).eval ρ = 0
  resVars : ∀ (p q : MPoly) (v w : ℕ), Normal p → Normal q → w ∈ (E.res p q v).vars →
    w ≠ v ∧ (w ∈ p.vars ∨ w ∈ q.vars)
  discVars : ∀ (p : MPoly) (v w : ℕ), Normal p → w ∈ (E.disc p v).vars → w ≠ v ∧ w ∈ p.vars
  resNormal : ∀ (p q : MPoly) (v : ℕ), Normal p → Normal q → Normal (E.res p q v)
  discNormal : ∀ (p : MPoly) (v : ℕ), Normal p → Normal (E.disc p v)

/-- No resultant and no discriminant of the projection is 0: at each level the polynomials are square-free and have no
common factors, as far as the variable to eliminate is concerned. -/
def GoodProj (E : CadEnv) (ord : List ℕ) : ℕ → List MPoly → Prop
  | 0, _ => True
  | k + 1, ps =>
    let v := ord.getD (k + 1) 0
    (∀ p ∈ ps, 2 ≤ p.degreeIn v → E.disc p v ≠ []) ∧
    (∀ p ∈ ps, ∀ q ∈ ps, p ≠ q → 0 < p.degreeIn v ∨ 0 < q.degreeIn v → E.res p q v ≠ []) ∧
    GoodProj E ord k (bmProj E v ps)

/-- In no stack there is a polynomial with a rational root together with an irrational root of some polynomial
(see C38). -/
def StacksOK (E : CadEnv) (ord : List ℕ) (numSps : ℕ) (ambient : List Atom) : List (List MPoly) → List ℚ → Prop
  | [], _ => True
  | next :: sets, c =>
    NotMixed ℝ (fun p => p ∈ next.map (MPoly.subst (spDict ord c))) ∧
    ∀ c' ∈ stackExt E ord next numSps ambient c, StacksOK E ord numSps ambient sets c'

theorem StacksOK.init {E : CadEnv} {ord : List ℕ} {numSps : ℕ} {ambient : List Atom} {ps : List MPoly} :
    ∀ {sets : List (List MPoly)} {c : List ℚ}, StacksOK E ord numSps ambient (sets ++ [ps]) c →
      StacksOK E ord numSps ambient sets c
  | [], _, _ => trivial
  | _ :: _, _, h => ⟨h.1, fun c' hc' => (h.2 c' hc').init⟩

theorem StacksOK.last {E : CadEnv} {ord : List ℕ} {numSps : ℕ} {ambient : List Atom} {ps : List MPoly}
    {sets : List (List MPoly)} {c s : List ℚ} (ht : FullTree E ord numSps ambient sets c s)
    (h : StacksOK E ord numSps ambient (sets ++ [ps]) c) :
    NotMixed ℝ (fun p => p ∈ ps.map (MPoly.subst (spDict ord s))) := by
  induction ht with
  | nil c => exact h.1
  | cons next sets c c' s hc _ ih => exact ih (h.2 c' hc)

theorem FullTree.snoc {E : CadEnv} {ord : List ℕ} {numSps : ℕ} {ambient : List Atom} {ps : List MPoly}
    {sets : List (List MPoly)} {c s s' : List ℚ} (ht : FullTree E ord numSps ambient sets c s)
    (h : s' ∈ stackExt E ord ps numSps ambient s) : FullTree E ord numSps ambient (sets ++ [ps]) c s' := by
  induction ht with
  | nil c => exact .cons _ _ _ _ _ h (.nil _)
  | cons next sets c c' s hc _ ih => exact .cons _ _ _ _ _ hc (ih h)

/-! ### The projection -/

theorem mem_bmProj {E : CadEnv} (hel : ElimOK E) {v : ℕ} {ps : List MPoly} (hps : ∀ p ∈ ps, Normal p ∧ p.isConstant = false)
    {q : MPoly} (hq : q ∈ bmProj E v ps) :
    Normal q ∧ q.isConstant = false ∧ ∀ w ∈ q.vars, w ≠ v ∧ ∃ p ∈ ps, w ∈ p.vars := by
  unfold bmProj at hq
  obtain ⟨r, hr, hc, rfl⟩ := mem_filterProjSet hq
  rw [List.mem_dedup, List.mem_append, List.mem_append] at hr
  have hrr : Normal r ∧ ∀ w ∈ r.vars, w ≠ v ∧ ∃ p ∈ ps, w ∈ p.vars := by
    rcases hr with (hr | hr) | hr
    · obtain ⟨p, hp, hr⟩ := List.mem_flatMap.1 hr
      obtain ⟨q', hq', rfl⟩ := List.mem_map.1 hr
      have hn1 := (hps p (List.mem_dedup.1 hp)).1
      have hn2 := (hps q' (List.mem_dedup.1 (List.mem_filter.1 hq').1)).1
      refine ⟨hel.resNormal p q' v hn1 hn2, fun w hw => ?_⟩
      obtain ⟨h1, h2⟩ := hel.resVars p q' v w hn1 hn2 hw
      refine ⟨h1, ?_⟩
      rcases h2 with h2 | h2
      · exact ⟨p, List.mem_dedup.1 hp, h2⟩
      · exact ⟨q', List.mem_dedup.1 (List.mem_filter.1 hq').1, h2⟩
    · obtain ⟨p, hp, rfl⟩ := List.mem_map.1 hr
      have hn1 := (hps p (List.mem_dedup.1 hp)).1
      refine ⟨hel.discNormal p v hn1, fun w hw => ?_⟩
      obtain ⟨h1, h2⟩ := hel.discVars p v w hn1 hw
      exact ⟨h1, p, List.mem_dedup.1 hp, h2⟩
    · obtain ⟨p, hp, rfl⟩ := List.mem_map.1 hr
      refine ⟨normal_coefIn (hps p (List.mem_dedup.1 hp)).1 v _, fun w hw => ?_⟩
      obtain ⟨h1, h2⟩ := vars_coefIn hw
      exact ⟨h1, p, List.mem_dedup.1 hp, h2⟩
  refine ⟨normal_base hrr.1, ?_, fun w hw => hrr.2 w (vars_base hw)⟩
  unfold purePolyBase
  split
  · split
    · next u hu => simp [MPoly.isConstant, MPoly.var, Mono.deg]
    · exact hc
  · exact hc

theorem nonconstant_ne {p : MPoly} (h : p.isConstant = false) : p ≠ [] := by
  rintro rfl
  simp [MPoly.isConstant] at h

theorem nodup_filterProjSet (ps : List MPoly) : (filterProjSet ps).Nodup := List.nodup_dedup _

theorem bm_lc {E : CadEnv} {v : ℕ} {ps : List MPoly} {p : MPoly} (hp : p ∈ ps) (hn : Normal p) (hne : p ≠ [])
    {ρ : ℕ → ℝ} (hρ : ρ ∈ NonVan (bmProj E v ps)) : (lcIn p v).eval ρ ≠ 0 := by
  refine filter_ne hρ ?_ (normal_coefIn hn v _) (lcIn_ne_nil hne v)
  rw [List.mem_dedup, List.mem_append]
  exact Or.inr (List.mem_map.2 ⟨p, List.mem_dedup.2 hp, rfl⟩)

theorem bm_disc {E : CadEnv} (hel : ElimOK E) {v : ℕ} {ps : List MPoly} {p : MPoly} (hp : p ∈ ps)
    (hn : Normal p) (hne : E.disc p v ≠ []) {ρ : ℕ → ℝ} (hρ : ρ ∈ NonVan (bmProj E v ps)) : (E.disc p v).eval ρ ≠ 0 := by
  refine filter_ne hρ ?_ (hel.discNormal p v hn) hne
  rw [List.mem_dedup, List.mem_append, List.mem_append]
  exact Or.inl (Or.inr (List.mem_map.2 ⟨p, List.mem_dedup.2 hp, rfl⟩))

theorem bm_res {E : CadEnv} (hel : ElimOK E) {v : ℕ} {ps : List MPoly} {p q : MPoly} (hp : p ∈ ps) (hq : q ∈ ps)
    (hpq : p ≠ q) (hn1 : Normal p) (hn2 : Normal q) (hne : E.res p q v ≠ []) {ρ : ℕ → ℝ} (hρ : ρ ∈ NonVan (bmProj E v ps)) :
    (E.res p q v).eval ρ ≠ 0 := by
  refine filter_ne hρ ?_ (hel.resNormal p q v hn1 hn2) hne
  rw [List.mem_dedup, List.mem_append, List.mem_append]
  refine Or.inl (Or.inl (List.mem_flatMap.2 ⟨p, List.mem_dedup.2 hp, List.mem_map.2 ⟨q, ?_, rfl⟩⟩))
  exact List.mem_filter.2 ⟨List.mem_dedup.2 hq, by simpa using hpq⟩

theorem eval_degree_zero {p : MPoly} {v : ℕ} (h : p.degreeIn v = 0) (ρ : ℕ → ℝ) : p.eval ρ = (lcIn p v).eval ρ := by
  rw [eval_coefs ρ v (p.degreeIn v) p fun t ht => exp_le_degreeIn ht, lcIn_eq, h]
  simp

theorem deriv_degree_one {p : MPoly} {v : ℕ} (h : p.degreeIn v = 1) (ρ : ℕ → ℝ) (x : ℝ) :
    (fib v ρ p).derivative.eval x = (lcIn p v).eval ρ := by
  rw [lcIn_eq, h]
  unfold fib
  rw [h]
  simp [Finset.sum_range_succ]

theorem nonVan_component {ps : List MPoly} {ρ : ℕ → ℝ} (hρ : ρ ∈ NonVan ps) {P : List MPoly}
    (hP : ∀ q ∈ P, Normal q ∧ q ≠ []) : ∃ σ ∈ NonVan P, Linked (NonVan ps) ρ σ := by
  have hN : connectedComponentIn (NonVan ps) ρ ∈ 𝓝 ρ :=
    ((isOpen_nonVan ps).connectedComponentIn).mem_nhds (mem_connectedComponentIn hρ)
  obtain ⟨σ, hσ, h⟩ := exists_near_ne hP hN
  exact ⟨σ, h, _, connectedComponentIn_subset _ _, isPreconnected_connectedComponentIn,
    mem_connectedComponentIn hρ, hσ⟩

/-- Moving the coordinate of a variable between two points without passing a root. -/
theorem update_link {ps : List MPoly} {σ : ℕ → ℝ} {v : ℕ} {y c : ℝ} (hy : Function.update σ v y ∈ NonVan ps)
    (h : ∀ z : ℝ, (∃ p ∈ ps, p.eval (Function.update σ v z) = 0) → z ≠ c ∧ (z < y ↔ z < c)) :
    Linked (NonVan ps) (Function.update σ v y) (Function.update σ v c) := by
  refine ⟨Function.update σ v '' Set.uIcc y c, ?_, ?_, ⟨y, Set.left_mem_uIcc, rfl⟩, ⟨c, Set.right_mem_uIcc, rfl⟩⟩
  · rintro _ ⟨z, hz, rfl⟩ p hp h0
    obtain ⟨h1, h2⟩ := h z ⟨p, hp, h0⟩
    have hzy : z ≠ y := by
      rintro rfl
      exact hy p hp h0
    rcases Set.mem_uIcc.1 hz with ⟨a, b⟩ | ⟨a, b⟩
    · have := h2.2 (lt_of_le_of_ne b h1)
      linarith
    · have := h2.1 (lt_of_le_of_ne b hzy)
      linarith
  · have hc : Continuous fun x : ℝ => Function.update σ v x :=
      (continuous_const (y := σ)).update v continuous_id
    exact isPreconnected_uIcc.image _ hc.continuousOn

/-- Polynomials in one variable over a point: the sample points meet every sector. -/
theorem stack_meets {E : CadEnv} (hE : RootsOK ℝ E) (hu : UniformOK E) {ps : List MPoly} {σ : ℕ → ℝ} {v : ℕ}
    {qs : List MPoly} (hqs : ∀ q ∈ qs, NoZeroTerms q ∧ ∀ w ∈ q.vars, w = v)
    (hpq : ∀ p ∈ ps, ∃ q ∈ qs, ∀ x : ℝ, val q x = p.eval (Function.update σ v x))
    (hqp : ∀ q ∈ qs, ∃ p ∈ ps, ∀ x : ℝ, val q x = p.eval (Function.update σ v x))
    (hconst : ∀ q ∈ qs, q.isConstant = true → ∀ x : ℝ, val q x ≠ 0)
    (hmix : NotMixed ℝ (fun p => p ∈ qs)) (tag : List ℚ) (numSps : ℕ) (hn : 1 ≤ numSps) (ambient : List Atom) (w : ℕ)
    {y : ℝ} (hy : Function.update σ v y ∈ NonVan ps) :
    ∃ c ∈ sectorSps E tag (isoRootIntvls E (filterProjSet qs)) numSps ambient w,
      Linked (NonVan ps) (Function.update σ v y) (Function.update σ v (c : ℝ)) := by
  have hval : ∀ q ∈ qs, ∀ x : ℝ, q.eval (fun _ => x) = val q x := fun q _ x => rfl
  have hin : ∀ q ∈ filterProjSet qs, InVar v q := by
    intro q hq
    obtain ⟨r, hr, hc, rfl⟩ := mem_filterProjSet hq
    apply purePolyBase_var
    refine ⟨(hqs r hr).2, ?_⟩
    by_contra hcon
    push Not at hcon
    obtain ⟨p, hp, hpe⟩ := hqp r hr
    have h0 : toPoly ℝ r = 0 := by
      apply Polynomial.eq_zero_of_infinite_isRoot
      apply Set.Infinite.mono (s := Set.range fun a : ℚ => (a : ℝ))
      · rintro _ ⟨a, rfl⟩
        show Polynomial.IsRoot _ _
        rw [Polynomial.IsRoot.def, eval_toPoly, val_cast, hcon a, Rat.cast_zero]
      · exact Set.infinite_range_of_injective Rat.cast_injective
    apply hy p hp
    rw [← hpe, ← eval_toPoly, h0, Polynomial.eval_zero]
  have hz : ∀ r ∈ qs, r.isConstant = false → ∀ x : ℝ, val (purePolyBase r) x = 0 ↔ val r x = 0 := fun r hr hc x =>
    purePolyBase_zero (hqs r hr).1 hc _
  obtain ⟨c, hc, hsep⟩ := sectors_met (K := ℝ) E hE hu v (filterProjSet qs) hin (by
    rcases hmix with h | h
    · left
      intro q hq a
      obtain ⟨r, hr, hc, rfl⟩ := mem_filterProjSet hq
      have := h r hr hc a
      have h2 := hz r hr hc (a : ℝ)
      rw [val_cast, val_cast, Rat.cast_eq_zero, Rat.cast_eq_zero] at h2
      rw [ne_eq, h2]
      exact this
    · right
      intro q hq z hqz
      obtain ⟨r, hr, hc, rfl⟩ := mem_filterProjSet hq
      exact h r hr hc z ((hz r hr hc z).1 hqz)) tag numSps hn ambient w (x := y) (by
    intro q hq h0
    obtain ⟨r, hr, hc, rfl⟩ := mem_filterProjSet hq
    obtain ⟨p, hp, hpe⟩ := hqp r hr
    exact hy p hp (by rw [← hpe]; exact (hz r hr hc y).1 h0))
  refine ⟨c, hc, update_link hy ?_⟩
  rintro z ⟨p, hp, h0⟩
  obtain ⟨r, hr, hre⟩ := hpq p hp
  apply hsep
  rw [← hre] at h0
  cases hcr : r.isConstant with
  | true => exact absurd h0 (hconst r hr hcr z)
  | false =>
    refine ⟨purePolyBase r, ?_, (hz r hr hcr z).2 h0⟩
    rw [filterProjSet, List.mem_dedup, List.mem_map]
    exact ⟨r, List.mem_filter.2 ⟨hr, by simp [hcr]⟩, rfl⟩

/-- The base phase meets every cell. -/
theorem base_meets {E : CadEnv} (hE : RootsOK ℝ E) (hu : UniformOK E) {ps : List MPoly} {v : ℕ}
    (hps : ∀ p ∈ ps, Normal p ∧ p.isConstant = false ∧ ∀ w ∈ p.vars, w = v) (hmix : NotMixed ℝ (fun p => p ∈ ps))
    (ambient : List Atom) {ρ : ℕ → ℝ} (hρ : ρ ∈ NonVan ps) :
    ∃ c ∈ sectorSps E [] (isoRootIntvls E ps) 1 ambient v, Linked (NonVan ps) ρ (Function.update ρ v (c : ℝ)) := by
  have hval : ∀ p ∈ ps, ∀ x : ℝ, p.eval (Function.update ρ v x) = val p x := by
    intro p hp x
    rw [val_eq (hps p hp).2.2, Function.update_self]
  have hself : Function.update ρ v (ρ v) = ρ := Function.update_eq_self v ρ
  obtain ⟨c, hc, hsep⟩ := sectors_met (K := ℝ) E hE hu v ps (by
      intro p hp
      refine ⟨(hps p hp).2.2, ?_⟩
      obtain ⟨τ, hτ⟩ := (hps p hp).1.exists_ne (nonconstant_ne (hps p hp).2.1)
      exact ⟨τ v, by rwa [val_eq (hps p hp).2.2] at hτ⟩)
    (hmix.imp (fun h p hp => h p hp (hps p hp).2.1) fun h p hp => h p hp (hps p hp).2.1) [] 1 le_rfl ambient v
    (x := ρ v) (fun p hp => by rw [← hval p hp, hself]; exact hρ p hp)
  refine ⟨c, hc, ?_⟩
  have := update_link (ps := ps) (σ := ρ) (v := v) (y := ρ v) (c := (c : ℝ)) (by rwa [hself]) (by
    rintro z ⟨p, hp, h0⟩
    exact hsep z ⟨p, hp, by rw [← hval p hp]; exact h0⟩)
  rwa [hself] at this

/-- The complete tree of sample points meets every cell where none of the polynomials vanishes. -/
theorem tree_meets {E : CadEnv} (hE : RootsOK ℝ E) (hu : UniformOK E) (hel : ElimOK E) {ord : List ℕ}
    (hord : ord.Nodup) {numSps : ℕ} (hn : 1 ≤ numSps) (ambient : List Atom) : ∀ (k : ℕ), k < ord.length →
    ∀ ps : List MPoly, (∀ p ∈ ps, Normal p ∧ p.isConstant = false ∧ ∀ w ∈ p.vars, w ∈ ord.take (k + 1)) → ps.Nodup →
    GoodProj E ord k ps → ∀ (base : List MPoly) (sets : List (List MPoly)), projSets E ord k ps = base :: sets →
    NotMixed ℝ (fun p => p ∈ base) →
    (∀ x ∈ sectorSps E [] (isoRootIntvls E base) 1 ambient (ord.getD 0 0), StacksOK E ord numSps ambient sets [x]) →
    ∀ ρ ∈ NonVan ps, ∃ x ∈ sectorSps E [] (isoRootIntvls E base) 1 ambient (ord.getD 0 0), ∃ s,
      FullTree E ord numSps ambient sets [x] s ∧ s.length = k + 1 ∧ ∃ σ, Linked (NonVan ps) ρ σ ∧ Agrees ord s σ := by
  intro k
  induction k with
  | zero =>
    intro hk ps hps hnd _ base sets hsets hmix hst ρ hρ
    rw [projSets, List.cons.injEq] at hsets
    obtain ⟨rfl, rfl⟩ := hsets
    obtain ⟨c, hc, hl⟩ := base_meets hE hu (v := ord.getD 0 0) (fun p hp => ⟨(hps p hp).1, (hps p hp).2.1, fun w hw => by
      have := (hps p hp).2.2 w hw
      rw [mem_take_succ_iff hk] at this
      simpa using this⟩) hmix ambient hρ
    refine ⟨c, hc, [c], .nil _, rfl, _, hl, ?_⟩
    have := agrees_snoc hord (s := []) hk (σ := ρ) (by intro w y h; simp [spDict] at h) c
    exact this
  | succ k ih =>
    intro hk ps hps hnd hgood base sets hsets hmix hst ρ hρ
    obtain ⟨g1, g2, g3⟩ := hgood
    set v := ord.getD (k + 1) 0 with hv
    have hPm := fun q (hq : q ∈ bmProj E v ps) =>
      mem_bmProj hel (fun p hp => ⟨(hps p hp).1, (hps p hp).2.1⟩) hq
    obtain ⟨sets', hs', rfl⟩ : ∃ sets', projSets E ord k (bmProj E v ps) = base :: sets' ∧ sets = sets' ++ [ps] := by
      rw [projSets] at hsets
      have hlen := length_projSets E ord k (bmProj E v ps)
      cases hp : projSets E ord k (bmProj E v ps) with
      | nil => rw [hp] at hlen; simp at hlen
      | cons b l =>
        rw [← hv, hp, List.cons_append, List.cons.injEq] at hsets
        exact ⟨l, by rw [hsets.1], hsets.2.symm⟩
    obtain ⟨ρ', hρ', hl1⟩ := nonVan_component hρ (P := bmProj E v ps)
      fun q hq => ⟨(hPm q hq).1, nonconstant_ne (hPm q hq).2.1⟩
    obtain ⟨x, hx, s, ht, hlen, σ, hl2, hag⟩ := ih (by omega) (bmProj E v ps) (by
        intro q hq
        refine ⟨(hPm q hq).1, (hPm q hq).2.1, fun w hw => ?_⟩
        obtain ⟨h1, p, hp, h2⟩ := (hPm q hq).2.2 w hw
        have := (hps p hp).2.2 w h2
        rw [mem_take_succ_iff hk] at this
        exact this.resolve_right h1) (nodup_filterProjSet _) g3 base sets' hs' hmix (fun x hx => (hst x hx).init) ρ' hρ'
    have hlc : ∀ p ∈ ps, ∀ τ ∈ NonVan (bmProj E v ps), (lcIn p v).eval τ ≠ 0 := fun p hp τ hτ =>
      bm_lc hp (hps p hp).1 (nonconstant_ne (hps p hp).2.1) hτ
    obtain ⟨y, hl3⟩ := lift_step (F := ps) (P := bmProj E v ps) (v := v) (fun q hq hvq => ((hPm q hq).2.2 v hvq).1 rfl)
      hlc (by
        intro p hp τ hτ h0 hd
        rcases Nat.lt_or_ge (p.degreeIn v) 2 with h2 | h2
        · rcases Nat.lt_or_ge (p.degreeIn v) 1 with h1 | h1
          · rw [eval_degree_zero (v := v) (by omega)] at h0
            exact hlc p hp τ hτ h0
          · have := (hasDerivAt_fib v τ p (τ v)).unique hd
            rw [deriv_degree_one (by omega)] at this
            exact hlc p hp τ hτ this
        · exact bm_disc hel hp (hps p hp).1 (g1 p hp h2) hτ (hel.disc p v τ (hps p hp).1 h2 (hlc p hp τ hτ) h0 hd)) (by
        refine List.Pairwise.imp_of_mem ?_ hnd
        intro p q hp hq hpq τ hτ h0
        by_cases hdeg : 0 < p.degreeIn v ∨ 0 < q.degreeIn v
        · exact bm_res hel hp hq hpq (hps p hp).1 (hps q hq).1 (g2 p hp q hq hpq hdeg) hτ
            (hel.res p q v τ (hps p hp).1 (hps q hq).1 hdeg h0.1 h0.2)
        · push Not at hdeg
          have h1 := h0.1
          rw [eval_degree_zero (v := v) (by omega)] at h1
          exact hlc p hp τ hτ h1) hl2 hl1.right
    have hval : ∀ p ∈ ps, ∀ z : ℝ, val (p.subst (spDict ord s)) z = p.eval (Function.update σ v z) := by
      intro p hp z
      rw [val_subst hord (by omega) hag (by rw [hlen]; exact (hps p hp).2.2), hlen]
    obtain ⟨c, hc, hl4⟩ := stack_meets hE hu (ps := ps) (σ := σ) (v := v)
      (qs := ps.map (MPoly.subst (spDict ord s))) (by
        intro q hq
        obtain ⟨p, hp, rfl⟩ := List.mem_map.1 hq
        refine ⟨coef_subst _ _, fun w hw => ?_⟩
        obtain ⟨h1, h2⟩ := vars_subst hw
        have h3 := (hps p hp).2.2 w h2
        rw [mem_take_succ_iff hk] at h3
        refine h3.resolve_left fun h4 => ?_
        rw [← hlen, ← lookup_spDict_isSome, h1] at h4
        simp at h4)
      (fun p hp => ⟨_, List.mem_map.2 ⟨p, hp, rfl⟩, hval p hp⟩) (by
        intro q hq
        obtain ⟨p, hp, rfl⟩ := List.mem_map.1 hq
        exact ⟨p, hp, hval p hp⟩) (by
        intro q hq hcq z
        obtain ⟨p, hp, rfl⟩ := List.mem_map.1 hq
        rw [val_constant hcq z y, hval p hp]
        exact hl3.right p hp) (StacksOK.last ht (hst x hx)) s numSps hn ambient v (y := y) hl3.right
    refine ⟨x, hx, s ++ [c], ht.snoc ?_, by simp [hlen], _, hl1.trans (hl3.trans hl4), ?_⟩
    · unfold stackExt
      rw [hlen]
      exact List.mem_map.2 ⟨c, hc, rfl⟩
    · have := agrees_snoc hord (by omega) hag c
      rwa [hlen] at this

/-- Along a linked pair the sign of a polynomial that does not vanish is the same. -/
theorem linked_sg {ps : List MPoly} {ρ σ : ℕ → ℝ} (h : Linked (NonVan ps) ρ σ) {p : MPoly}
    (hp : ∀ τ ∈ NonVan ps, p.eval τ ≠ 0) : sg (p.eval ρ) = sg (p.eval σ) := by
  obtain ⟨A, hA, hA', h1, h2⟩ := h
  have hno : ∀ a ∈ A, ∀ b ∈ A, p.eval a < 0 → ¬ 0 < p.eval b := by
    intro a ha b hb h3 h4
    obtain ⟨c, hc, h0⟩ := hA'.intermediate_value ha hb (continuous_eval p).continuousOn ⟨h3.le, h4.le⟩
    exact hp c (hA hc) h0
  have n1 := hp _ (hA h1)
  have n2 := hp _ (hA h2)
  rcases lt_or_gt_of_ne n1 with e1 | e1 <;> rcases lt_or_gt_of_ne n2 with e2 | e2
  · rw [sg_neg' e1, sg_neg' e2]
  · exact absurd e2 (hno _ h1 _ h2 e1)
  · exact absurd e1 (hno _ h2 _ h1 e2)
  · rw [sg_pos e1, sg_pos e2]

end Verif.Grf
