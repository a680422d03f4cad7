import Verif.Grf.DegLemmas
import Verif.Grf.PropsMulti

/-!
# C97: the number of projection polynomials and of sample points
-/

set_option linter.unusedSectionVars false

namespace Verif.Grf

/-! ### Numbers of projection polynomials -/

theorem length_dedup_le {α : Type} [DecidableEq α] (l : List α) : l.dedup.length ≤ l.length :=
  (List.dedup_sublist l).length_le

theorem length_filterProjSet (ps : List MPoly) : (filterProjSet ps).length ≤ ps.length := by
  unfold filterProjSet
  refine (length_dedup_le _).trans ?_
  rw [List.length_map]
  exact List.length_filter_le _ _

theorem length_map_dedup {α β : Type} [DecidableEq α] [DecidableEq β] (f : α → β) (l : List α) :
    (l.map f).dedup.length ≤ l.dedup.length := by
  have h1 : (l.map f).dedup.length = (l.map f).toFinset.card := by rw [List.card_toFinset]
  have h2 : l.dedup.length = l.toFinset.card := by rw [List.card_toFinset]
  have h3 : (l.map f).toFinset = l.toFinset.image f := by ext; simp
  rw [h1, h2, h3]
  exact Finset.card_image_le

theorem length_filterProjSet_dedup (ps : List MPoly) : (filterProjSet ps).length ≤ ps.dedup.length := by
  unfold filterProjSet
  refine (length_map_dedup _ _).trans ?_
  have h1 : (ps.filter fun p => !p.isConstant).dedup.length = (ps.filter fun p => !p.isConstant).toFinset.card := by
    rw [List.card_toFinset]
  have h2 : ps.dedup.length = ps.toFinset.card := by rw [List.card_toFinset]
  rw [h1, h2]
  apply Finset.card_le_card
  intro x hx
  rw [List.mem_toFinset] at *
  exact (List.mem_filter.1 hx).1

theorem sum_map_le {α : Type} {f : α → ℕ} {c : ℕ} : ∀ {l : List α}, (∀ a ∈ l, f a ≤ c) → (l.map f).sum ≤ l.length * c
  | [], _ => by simp
  | a :: l, h => by
    have h1 := h a (by simp)
    have h2 := sum_map_le (l := l) fun b hb => h b (by simp [hb])
    rw [List.map_cons, List.sum_cons, List.length_cons, add_mul]
    omega

/-- One projection step: from `m` polynomials to at most `m^2 + m`. -/
theorem length_bmProj (E : CadEnv) (v : ℕ) (ps : List MPoly) :
    (bmProj E v ps).length + 1 ≤ (ps.length + 1) ^ 2 := by
  unfold bmProj
  simp only
  set qs := ps.dedup with hqs
  have hm : qs.length ≤ ps.length := length_dedup_le ps
  have hflat : (qs.flatMap fun p => (qs.filter fun q => decide (p ≠ q)).map fun q => E.res p q v).length ≤
      qs.length * (qs.length - 1) := by
    rw [List.length_flatMap]
    apply sum_map_le
    intro p hp
    rw [List.length_map]
    have : (qs.filter fun q => decide (p ≠ q)).length < qs.length := by
      rw [List.length_filter_lt_length_iff_exists]
      exact ⟨p, hp, by simp⟩
    omega
  refine (Nat.add_le_add_right ((length_filterProjSet _).trans (length_dedup_le _)) 1).trans ?_
  rw [List.length_append, List.length_append, List.length_map, List.length_map]
  have h1 : qs.length * (qs.length - 1) + qs.length = qs.length * qs.length := by
    cases qs.length with
    | zero => rfl
    | succ k => simp only [Nat.add_sub_cancel]; ring
  have h2 : qs.length * qs.length ≤ ps.length * ps.length := Nat.mul_le_mul hm hm
  have h3 : (ps.length + 1) ^ 2 = ps.length * ps.length + 2 * ps.length + 1 := by ring
  omega

/-- **C97**, the projection sets: whatever the resultants and discriminants are, if there are `m` polynomials in the
last projection set, then there are at most `(m + 1)^(2^i) - 1` in the set `i` levels below. -/
theorem C97_projection (E : CadEnv) (ord : List ℕ) : ∀ (k : ℕ) (ps : List MPoly) (i : ℕ) (l : List MPoly), i ≤ k →
    (projSets E ord k ps)[k - i]? = some l → l.length + 1 ≤ (ps.length + 1) ^ 2 ^ i := by
  intro k
  induction k with
  | zero =>
    intro ps i l hi h
    obtain rfl : i = 0 := by omega
    simp only [projSets, Nat.sub_self, List.getElem?_cons_zero, Option.some.injEq] at h
    subst h
    simp
  | succ k ih =>
    intro ps i l hi h
    rw [projSets] at h
    have hlen := length_projSets E ord k (bmProj E (ord.getD (k + 1) 0) ps)
    cases i with
    | zero =>
      rw [Nat.sub_zero, List.getElem?_append_right (by omega), hlen, Nat.sub_self, List.getElem?_cons_zero,
        Option.some.injEq] at h
      subst h
      simp
    | succ i =>
      rw [show k + 1 - (i + 1) = k - i by omega, List.getElem?_append_left (by omega)] at h
      refine (ih _ i l (by omega) h).trans ?_
      calc ((bmProj E (ord.getD (k + 1) 0) ps).length + 1) ^ 2 ^ i ≤ ((ps.length + 1) ^ 2) ^ 2 ^ i :=
            Nat.pow_le_pow_left (length_bmProj E _ ps) _
        _ = (ps.length + 1) ^ 2 ^ (i + 1) := by rw [← pow_mul, pow_succ' 2 i]

/-! ### Numbers of roots -/

theorem natDegree_toPoly (K : Type) [Field K] (p : MPoly) : (toPoly K p).natDegree ≤ p.totalDegree := by
  suffices ∀ d, p.totalDegree ≤ d → (toPoly K p).natDegree ≤ d from this _ le_rfl
  intro d hp
  unfold toPoly
  induction p with
  | nil => simp
  | cons t p ih =>
    rw [totalDegree_le_iff] at hp
    rw [List.map_cons, List.sum_cons]
    refine Polynomial.natDegree_add_le_of_degree_le ?_ (ih (totalDegree_le_iff.2 fun u hu => hp u (by simp [hu])))
    exact (Polynomial.natDegree_C_mul_X_pow_le _ _).trans (hp t (by simp))

theorem zeros_finite {p : MPoly} (hp : Univ p) : {z : ℝ | val p z = 0}.Finite ∧ {z : ℝ | val p z = 0}.ncard ≤ p.totalDegree := by
  classical
  have h0 : toPoly ℝ p ≠ 0 := by
    obtain ⟨_, a, ha⟩ := hp
    intro h
    apply ha
    have : val p ((a : ℚ) : ℝ) = 0 := by rw [← eval_toPoly, h]; simp
    rw [val_cast] at this
    exact_mod_cast this
  have he : {z : ℝ | val p z = 0} = ((toPoly ℝ p).roots.toFinset : Set ℝ) := by
    ext z
    rw [Finset.mem_coe, Multiset.mem_toFinset, Polynomial.mem_roots h0, Polynomial.IsRoot.def, eval_toPoly]
    rfl
  rw [he]
  refine ⟨Finset.finite_toSet _, ?_⟩
  rw [Set.ncard_coe_finset]
  exact (Multiset.toFinset_card_le _).trans ((Polynomial.card_roots' _).trans (natDegree_toPoly ℝ p))

theorem length_roots {E : CadEnv} (hE : RootsOK ℝ E) (hc : CountOK E) {p : MPoly} (hp : Univ p) :
    (E.roots p).length ≤ p.totalDegree := by
  classical
  obtain ⟨hf, hn⟩ := zeros_finite hp
  refine le_trans ?_ hn
  have h1 : (E.roots p).length = ((E.roots p).map Prod.fst).toFinset.card := by
    rw [List.toFinset_card_of_nodup (hc.roots p hp), List.length_map]
  rw [h1, ← Finset.card_image_of_injective _ (Rat.cast_injective (α := ℝ)), ← Set.ncard_coe_finset]
  apply Set.ncard_le_ncard _ hf
  intro z hz
  rw [Finset.mem_coe, Finset.mem_image] at hz
  obtain ⟨a, ha, rfl⟩ := hz
  rw [List.mem_toFinset, List.mem_map] at ha
  obtain ⟨r, hr, rfl⟩ := ha
  have := (hE.roots p hp r.1).1 ⟨r.2, hr⟩
  show val p _ = 0
  rw [val_cast, this, Rat.cast_zero]

theorem length_rri {E : CadEnv} (hc : CountOK E) {p : MPoly} (hp : Univ p) : (E.rri p).length ≤ p.totalDegree :=
  (hc.rri p hp).trans (zeros_finite hp).2

/-- The number of intervals of the root isolation is at most the sum of the degrees. -/
theorem length_iso {E : CadEnv} (hE : RootsOK ℝ E) (hc : CountOK E) {v : ℕ} {ps : List MPoly}
    (hps : ∀ p ∈ ps, InVar v p) : (isoRootIntvls E ps).length ≤ (ps.map MPoly.totalDegree).sum := by
  unfold isoRootIntvls
  split
  · simp
  · simp only
    rw [List.length_append, List.length_flatMap]
    have h1 : (if (ps.filter fun p => decide (E.roots p = [])).foldl MPoly.mul (MPoly.const 1) ≠ MPoly.const 1 then
        E.rri ((ps.filter fun p => decide (E.roots p = [])).foldl MPoly.mul (MPoly.const 1)) else []).length ≤
        ((ps.filter fun p => decide (E.roots p = [])).map MPoly.totalDegree).sum := by
      split
      · refine (length_rri hc (InVar.foldl (fun q hq => hps q (List.mem_filter.1 hq).1) (InVar.one v)).univ).trans ?_
        refine (totalDegree_foldl _ _).trans ?_
        have : (MPoly.const 1).totalDegree = 0 := by decide +kernel
        omega
      · simp
    refine (Nat.add_le_add_right h1 _).trans ?_
    clear h1
    rename_i hne
    clear hne
    induction ps with
    | nil => simp
    | cons p ps ih =>
      have ih := ih (fun q hq => hps q (by simp [hq]))
      have hr := length_roots hE hc (hps p (by simp)).univ
      rw [List.filter_cons]
      by_cases h : E.roots p = []
      · simp only [h, decide_true, if_true, List.map_cons, List.sum_cons, List.map_nil, List.length_nil] at *
        omega
      · simp only [h, decide_false, Bool.false_eq_true, if_false, List.map_cons, List.sum_cons, List.length_map] at *
        omega

/-! ### Numbers of sample points -/

theorem length_kRandomSps (u : ℕ → ℚ → ℚ → ℚ) (l r : ℚ) (k : ℕ) : (kRandomSps u l r k).length ≤ max 1 k := by
  unfold kRandomSps
  split
  · simp
  · simp

theorem length_gaps : ∀ (i : ℕ) (l : List (ℚ × ℚ)), (gaps i l).length = l.length - 1
  | _, [] => rfl
  | _, [_] => rfl
  | i, a :: b :: l => by
    rw [gaps, List.length_cons, length_gaps (i + 1) (b :: l)]
    simp

theorem length_sectorRoots (u : Bool → ℕ → ℕ → ℚ → ℚ → ℚ) (numSps : ℕ) (ivls : List (ℚ × ℚ)) :
    (sectorRoots u numSps ivls).length ≤ (max 1 numSps + 1) * (ivls.length + 1) := by
  have h1 : ((gaps 0 ivls).map fun g => (kRandomSps (u true g.1) g.2.1 g.2.2 numSps).length).sum ≤
      (ivls.length - 1) * max 1 numSps := by
    rw [← length_gaps 0 ivls]
    exact sum_map_le fun g _ => length_kRandomSps _ _ _ _
  have h2 : (ivls.zipIdx.map fun a => (kRandomSps (u false a.2) a.1.1 a.1.2 1).length).sum ≤ ivls.length * 1 := by
    have := sum_map_le (l := ivls.zipIdx) (c := 1)
      (f := fun a => (kRandomSps (u false a.2) a.1.1 a.1.2 1).length) fun a _ => by
        simpa using length_kRandomSps (u false a.2) a.1.1 a.1.2 1
    rwa [List.length_zipIdx] at this
  cases hl : ivls.getLast? with
  | none =>
    have : sectorRoots u numSps ivls = [] := by
      unfold sectorRoots
      rw [hl]
      cases ivls <;> rfl
    rw [this]
    simp
  | some l =>
    cases ivls with
    | nil => simp at hl
    | cons f fs =>
      unfold sectorRoots
      rw [hl]
      simp only
      rw [List.length_insertionSort, List.length_append, List.length_append, List.length_flatMap, List.length_flatMap]
      simp only [List.length_cons, List.length_nil, Nat.add_sub_cancel] at h1 h2 ⊢
      have h3 : (max 1 numSps + 1) * (fs.length + 1 + 1) =
          fs.length * max 1 numSps + fs.length + 2 * max 1 numSps + 2 := by ring
      have h4 : 1 ≤ max 1 numSps := le_max_left _ _
      rw [h3]
      omega

theorem length_sectorSps (E : CadEnv) (tag : List ℚ) (roots : List ((ℚ × ℚ) × ℕ)) (numSps : ℕ) (ambient : List Atom)
    (v : ℕ) : (sectorSps E tag roots numSps ambient v).length ≤ (max 1 numSps + 1) * (roots.length + 1) := by
  unfold sectorSps
  split
  · next h =>
    have : (sectorNoRoots ambient v).length = 1 := by
      unfold sectorNoRoots
      split
      · rfl
      · split
        · rfl
        · split <;> rfl
    rw [this, h]
    simp
  · next h =>
    have hlen : ((roots.map Prod.fst).insertionSort fun a b => ivlLe a b = true).length = roots.length := by
      rw [List.length_insertionSort, List.length_map]
    generalize ((roots.map Prod.fst).insertionSort fun a b => ivlLe a b = true) = ivls at hlen
    have hpos : 0 < roots.length := List.length_pos_of_ne_nil h
    refine (length_sectorRoots _ _ _).trans ?_
    rw [hlen]

/-- The polynomials have normal forms, are not constant, and have only the first variables. -/
def LevelPolys (ord : List ℕ) (j : ℕ) (ps : List MPoly) : Prop :=
  ∀ p ∈ ps, Normal p ∧ p.isConstant = false ∧ ∀ w ∈ p.vars, w ∈ ord.take (j + 1)

theorem length_samples {E : CadEnv} (hE : RootsOK ℝ E) (hc : CountOK E) {v M D : ℕ} {ps : List MPoly}
    (hps : ∀ p ∈ ps, InVar v p) (hD : ∀ p ∈ ps, p.totalDegree ≤ D) (hM : ps.length + 1 ≤ M) (hD1 : 1 ≤ D) (tag : List ℚ)
    (numSps : ℕ) (ambient : List Atom) (w : ℕ) :
    (sectorSps E tag (isoRootIntvls E ps) numSps ambient w).length ≤ (max 1 numSps + 1) * (M * D) := by
  refine (length_sectorSps E tag _ numSps ambient w).trans (Nat.mul_le_mul_left _ ?_)
  have h1 := (length_iso hE hc hps).trans (sum_map_le hD)
  have h2 : (ps.length + 1) * D ≤ M * D := Nat.mul_le_mul_right _ hM
  rw [add_mul, one_mul] at h2
  omega

theorem length_stackExt {E : CadEnv} (hE : RootsOK ℝ E) (hc : CountOK E) {ord : List ℕ} {M D : ℕ} {ps : List MPoly}
    {cell : List ℚ} (hlen : cell.length < ord.length) (hps : LevelPolys ord cell.length ps)
    (hD : ∀ p ∈ ps, p.totalDegree ≤ D) (hM : ps.length + 1 ≤ M) (hD1 : 1 ≤ D) (numSps : ℕ) (ambient : List Atom) :
    (stackExt E ord ps numSps ambient cell).length ≤ (max 1 numSps + 1) * (M * D) := by
  unfold stackExt
  rw [List.length_map]
  refine length_samples (v := ord.getD cell.length 0) hE hc ?_ ?_ ?_ hD1 _ _ _ _
  · intro q hq
    obtain ⟨r, hr, hcr, rfl⟩ := mem_filterProjSet hq
    obtain ⟨p, hp, rfl⟩ := List.mem_map.1 hr
    have hv : ∀ w ∈ (p.subst (spDict ord cell)).vars, w = ord.getD cell.length 0 := by
      intro w hw
      obtain ⟨h1, h2⟩ := vars_subst hw
      have h3 := (hps p hp).2.2 w h2
      rw [mem_take_succ_iff hlen] at h3
      refine h3.resolve_left fun h4 => ?_
      rw [← lookup_spDict_isSome, h1] at h4
      simp at h4
    apply purePolyBase_var
    refine ⟨hv, ?_⟩
    obtain ⟨τ, hτ⟩ := (normal_subst (spDict ord cell) p).exists_ne (nonconstant_ne hcr)
    exact ⟨τ (ord.getD cell.length 0), by rwa [val_eq hv] at hτ⟩
  · intro q hq
    refine totalDegree_filter (fun r hr _ => ?_) hq
    obtain ⟨p, hp, rfl⟩ := List.mem_map.1 hr
    exact (totalDegree_subst _ _).trans (hD p hp)
  · have := length_filterProjSet (ps.map (MPoly.subst (spDict ord cell)))
    rw [List.length_map] at this
    omega

theorem length_stackUnion {S : Sage ℚ} {E : CadEnv} {goal : Option Goal} {ord : List ℕ} {next : List MPoly} {numSps : ℕ}
    {ambient : List Atom} {b : ℕ} : ∀ {cells out : List (List ℚ)},
    (∀ c ∈ cells, (stackExt E ord next numSps ambient c).length ≤ b) →
    stackUnion S E goal ord next numSps ambient cells = .ok out → out.length ≤ cells.length * b
  | [], out, _, h => by cases h; simp
  | c :: cells, out, hb, h => by
    unfold stackUnion at h
    simp only [bind, Except.bind] at h
    cases h1 : stackOverCell S E goal ord next numSps ambient c with
    | error e => rw [h1] at h; cases h
    | ok a =>
      rw [h1] at h
      simp only at h
      cases h2 : stackUnion S E goal ord next numSps ambient cells with
      | error e => rw [h2] at h; cases h
      | ok r =>
        rw [h2] at h
        cases h
        have hr := length_stackUnion (fun c hc => hb c (by simp [hc])) h2
        have ha : a.length ≤ b := by
          unfold stackOverCell at h1
          cases goal with
          | none => cases h1
          | some g =>
            simp only [bind, Except.bind] at h1
            cases hb' : g.evalOnDict S (spDict ord c) with
            | error e => rw [hb'] at h1; cases h1
            | ok t =>
              rw [hb'] at h1
              cases t with
              | true => cases h1; simp
              | false => cases h1; exact hb c (by simp)
        rw [List.length_append, List.length_cons, add_mul, one_mul]
        omega

theorem liftAll_snoc {S : Sage ℚ} {E : CadEnv} {goal : Option Goal} {ord : List ℕ} {numSps : ℕ} {ambient : List Atom}
    {ps : List MPoly} : ∀ {sets : List (List MPoly)} {cells out : List (List ℚ)},
    liftAll S E goal ord numSps ambient (sets ++ [ps]) cells = .ok out →
      ∃ mid, liftAll S E goal ord numSps ambient sets cells = .ok mid ∧
        liftLevel S E goal ord ps numSps ambient mid = .ok out
  | [], cells, out, h => by
    refine ⟨cells, rfl, ?_⟩
    rw [List.nil_append] at h
    unfold liftAll at h
    simp only [bind, Except.bind] at h
    cases h1 : liftLevel S E goal ord ps numSps ambient cells with
    | error e => rw [h1] at h; cases h
    | ok a => rw [h1] at h; exact h
  | s :: sets, cells, out, h => by
    rw [List.cons_append] at h
    unfold liftAll at h
    simp only [bind, Except.bind] at h
    cases h1 : liftLevel S E goal ord s numSps ambient cells with
    | error e => rw [h1] at h; cases h
    | ok a =>
      rw [h1] at h
      obtain ⟨mid, hm, hl⟩ := liftAll_snoc h
      refine ⟨mid, ?_, hl⟩
      unfold liftAll
      simp only [bind, Except.bind]
      rw [h1]
      exact hm

theorem bmProj_degree {E : CadEnv} (hel : TrueElim E) {v D : ℕ} {ps : List MPoly} (hps : ∀ p ∈ ps, Normal p)
    (hD : ∀ p ∈ ps, p.totalDegree ≤ D) (hD1 : 1 ≤ D) : ∀ q ∈ bmProj E v ps, q.totalDegree ≤ 2 * D ^ 2 := by
  intro q hq
  unfold bmProj at hq
  refine totalDegree_filter (fun r hr hcr => ?_) hq
  rw [List.mem_dedup, List.mem_append, List.mem_append] at hr
  rcases hr with (hr | hr) | hr
  · obtain ⟨p, hp, hr⟩ := List.mem_flatMap.1 hr
    obtain ⟨q', hq', rfl⟩ := List.mem_map.1 hr
    have hp' := List.mem_dedup.1 hp
    have hq'' := List.mem_dedup.1 (List.mem_filter.1 hq').1
    exact totalDegree_res hel (hps p hp') (hps q' hq'') (hD p hp') (hD q' hq'') hcr
  · obtain ⟨p, hp, rfl⟩ := List.mem_map.1 hr
    have hp' := List.mem_dedup.1 hp
    exact totalDegree_disc hel (hps p hp') (hD p hp') hcr
  · obtain ⟨p, hp, rfl⟩ := List.mem_map.1 hr
    refine (totalDegree_lcIn p v).trans ((hD p (List.mem_dedup.1 hp)).trans ?_)
    nlinarith

theorem length_tree {S : Sage ℚ} {E : CadEnv} (hE : RootsOK ℝ E) (hc : CountOK E) (hel : TrueElim E) {goal : Option Goal}
    {ord : List ℕ} {numSps : ℕ} {ambient : List Atom} : ∀ (k : ℕ), k < ord.length →
    ∀ (ps : List MPoly) (M D : ℕ), LevelPolys ord k ps → (∀ p ∈ ps, p.totalDegree ≤ D) → ps.length + 1 ≤ M → 1 ≤ D →
    ∀ (base : List MPoly) (sets : List (List MPoly)) (out : List (List ℚ)), projSets E ord k ps = base :: sets →
    liftAll S E goal ord numSps ambient sets
      ((sectorSps E [] (isoRootIntvls E base) 1 ambient (ord.getD 0 0)).map fun x => [x]) = .ok out →
    out.length ≤ (max 1 numSps + 1) ^ (k + 1) * (2 * (M * D)) ^ (2 ^ (k + 1) - 1) := by
  intro k
  induction k with
  | zero =>
    intro hk ps M D hps hD hM hD1 base sets out hsets hout
    rw [projSets, List.cons.injEq] at hsets
    obtain ⟨rfl, rfl⟩ := hsets
    cases hout
    rw [List.length_map]
    have h1 := length_samples (v := ord.getD 0 0) hE hc (fun p hp => by
      have hv : ∀ w ∈ p.vars, w = ord.getD 0 0 := by
        intro w hw
        have := (hps p hp).2.2 w hw
        rw [mem_take_succ_iff hk] at this
        simpa using this
      obtain ⟨τ, hτ⟩ := (hps p hp).1.exists_ne (nonconstant_ne (hps p hp).2.1)
      exact ⟨hv, τ (ord.getD 0 0), by rwa [val_eq hv] at hτ⟩) hD hM hD1 [] 1 ambient (ord.getD 0 0)
    refine h1.trans ?_
    have h2 : 1 ≤ max 1 numSps := le_max_left _ _
    calc (max 1 1 + 1) * (M * D) ≤ (max 1 numSps + 1) * (2 * (M * D)) := by
          apply Nat.mul_le_mul
          · simp
          · omega
      _ = _ := by simp
  | succ k ih =>
    intro hk ps M D hps hD hM hD1 base sets out hsets hout
    set v := ord.getD (k + 1) 0 with hv
    have hPm := fun q (hq : q ∈ bmProj E v ps) =>
      mem_bmProj hel.elimOK (fun p hp => ⟨(hps p hp).1, (hps p hp).2.1⟩) hq
    obtain ⟨sets', hs', rfl⟩ : ∃ sets', projSets E ord k (bmProj E v ps) = base :: sets' ∧ sets = sets' ++ [ps] := by
      rw [projSets] at hsets
      have hlen := length_projSets E ord k (bmProj E v ps)
      cases hp : projSets E ord k (bmProj E v ps) with
      | nil => rw [hp] at hlen; simp at hlen
      | cons b l =>
        rw [← hv, hp, List.cons_append, List.cons.injEq] at hsets
        exact ⟨l, by rw [hsets.1], hsets.2.symm⟩
    obtain ⟨mid, hmid, hlift⟩ := liftAll_snoc hout
    have h1 := ih (by omega) (bmProj E v ps) (M ^ 2) (2 * D ^ 2) (by
        intro q hq
        refine ⟨(hPm q hq).1, (hPm q hq).2.1, fun w hw => ?_⟩
        obtain ⟨h1, p, hp, h2⟩ := (hPm q hq).2.2 w hw
        have := (hps p hp).2.2 w h2
        rw [mem_take_succ_iff hk] at this
        exact this.resolve_right h1) (bmProj_degree hel (fun p hp => (hps p hp).1) hD hD1)
      ((length_bmProj E v ps).trans (Nat.pow_le_pow_left hM 2)) (by nlinarith) base sets' mid hs' hmid
    have hcell : ∀ c ∈ mid, c.length = k + 1 := by
      intro c hcm
      have := liftAll_length (m := 1) hmid (by
        intro c hc
        obtain ⟨x, _, rfl⟩ := List.mem_map.1 hc
        rfl) c hcm
      have hl := length_projSets E ord k (bmProj E v ps)
      rw [hs', List.length_cons] at hl
      omega
    have h2 : out.length ≤ mid.length * ((max 1 numSps + 1) * (M * D)) := by
      unfold liftLevel at hlift
      simp only [bind, Except.bind] at hlift
      cases hu : stackUnion S E goal ord ps numSps ambient mid with
      | error e => rw [hu] at hlift; cases hlift
      | ok r =>
        rw [hu] at hlift
        cases hlift
        rw [List.length_insertionSort]
        refine length_stackUnion (fun c hcm => ?_) hu
        have hl := hcell c hcm
        exact length_stackExt hE hc (by omega) (by rw [hl]; exact hps) hD hM hD1 numSps ambient
    refine h2.trans ((Nat.mul_le_mul_right _ h1).trans ?_)
    have hB : 2 * (M ^ 2 * (2 * D ^ 2)) = (2 * (M * D)) ^ 2 := by ring
    rw [hB]
    have he : 2 ^ (k + 1 + 1) - 1 = 2 * (2 ^ (k + 1) - 1) + 1 := by
      have : 1 ≤ 2 ^ (k + 1) := Nat.one_le_two_pow
      rw [pow_succ 2 (k + 1)]
      omega
    rw [he, ← pow_mul, pow_succ (2 * (M * D)) (2 * (2 ^ (k + 1) - 1)), pow_succ (max 1 numSps + 1) (k + 1)]
    calc (max 1 numSps + 1) ^ (k + 1) * (2 * (M * D)) ^ (2 * (2 ^ (k + 1) - 1)) * ((max 1 numSps + 1) * (M * D))
        ≤ (max 1 numSps + 1) ^ (k + 1) * (2 * (M * D)) ^ (2 * (2 ^ (k + 1) - 1)) *
            ((max 1 numSps + 1) * (2 * (M * D))) := by
          apply Nat.mul_le_mul_left
          apply Nat.mul_le_mul_left
          omega
      _ = _ := by ring

/-- **C97**: the number of sample points. In `n` variables, for `m` different polynomials of total degree at most `D`,
with `s` points in each gap between roots (at least one), there are at most `(s + 1)^n (2 (m + 1) D)^(2^n - 1)` sample
points. Assumed are right functions for roots, resultants and discriminants. -/
theorem C97_samples (S : Sage ℚ) (E : CadEnv) (hE : RootsOK ℝ E) (hc : CountOK E) (hel : TrueElim E) (n numSps : ℕ)
    (top : List MPoly) (m D : ℕ) (hn : ∀ p ∈ top, Normal p ∧ ∀ w ∈ p.vars, w < n) (hm : top.dedup.length ≤ m)
    (hD : ∀ p ∈ top, p.totalDegree ≤ D) (hD1 : 1 ≤ D) (goal : Option Goal) (ambient : List Atom)
    (ds : List (List (ℕ × ℚ))) (h : samplePtDicts S E n top goal numSps ambient = .ok ds) :
    ds.length ≤ (max 1 numSps + 1) ^ n * (2 * ((m + 1) * D)) ^ (2 ^ n - 1) := by
  obtain ⟨v, rest, base, sets, cells, h1, h2, h3, rfl⟩ := samplePtDicts_ok h
  have hperm : (v :: rest).Perm (List.range n) := h1 ▸ (C40_projection_order (filterProjSet top) (List.range n)).1
  have hlen : (v :: rest).length = n := by rw [hperm.length_eq, List.length_range]
  have hpos : 1 ≤ n := by rw [← hlen]; simp
  rw [List.length_map]
  have := length_tree (S := S) (goal := goal) (numSps := numSps) (ambient := ambient) hE hc hel (n - 1) (by omega)
    (filterProjSet top) (m + 1) D (by
      intro q hq
      obtain ⟨p, hp, hcp, rfl⟩ := mem_filterProjSet hq
      refine ⟨normal_base (hn p hp).1, ?_, fun w hw => ?_⟩
      · unfold purePolyBase
        split
        · split
          · simp [MPoly.isConstant, MPoly.var, Mono.deg]
          · exact hcp
        · exact hcp
      · rw [show n - 1 + 1 = (v :: rest).length by omega, List.take_length, hperm.mem_iff, List.mem_range]
        exact (hn p hp).2 w (vars_base hw))
    (fun q hq => totalDegree_filter (fun p hp _ => hD p hp) hq)
    (Nat.add_le_add_right ((length_filterProjSet_dedup top).trans hm) 1) hD1 base sets cells h2 h3
  rwa [show n - 1 + 1 = n by omega] at this

theorem ex2_count : CountOK ex2Env := by
  have hE := (Classical.choose_spec rootsOK_count).2
  refine ⟨?_, hE.rri⟩
  intro p hp
  simp only [ex2Env]
  split
  · simp
  · split
    · simp
    · split
      · simp
      · exact hE.roots p hp

/-- The second round of the example of C72: 13 sample points, and the bound is `2^2 * 12^3 = 6912`. -/
example : RootsOK ℝ ex2Env ∧ CountOK ex2Env ∧ TrueElim ex2Env ∧
    (∀ p ∈ [ex2Main.poly, ex2Hyp.poly], Normal p ∧ ∀ w ∈ p.vars, w < 2) ∧ [ex2Main.poly, ex2Hyp.poly].dedup.length ≤ 2 ∧
    (∀ p ∈ [ex2Main.poly, ex2Hyp.poly], p.totalDegree ≤ 2) ∧
    ∃ ds, samplePtDicts testSage ex2Env 2 [ex2Main.poly, ex2Hyp.poly] (some ⟨ex2Main, [ex2Hyp], []⟩) 1 [] = .ok ds ∧
      ds.length = 13 ∧ (max 1 1 + 1) ^ 2 * (2 * ((2 + 1) * 2)) ^ (2 ^ 2 - 1) = 6912 := by
  refine ⟨ex2_roots, ex2_count, ex2_true, ?_, by decide +kernel, by decide +kernel,
    [[(1, -1), (0, -1)], [(1, -1), (0, 0)], [(1, -1), (0, 1 / 2)], [(1, -1), (0, 1)], [(1, -1), (0, 2)],
     [(1, 0), (0, -1)], [(1, 0), (0, 0)], [(1, 0), (0, 1)], [(1, 1), (0, -1)], [(1, 1), (0, 0)],
     [(1, 1), (0, 1 / 2)], [(1, 1), (0, 1)], [(1, 1), (0, 2)]], ok_of_toOption (by decide +kernel), rfl, by norm_num⟩
  intro p hp
  obtain ⟨a, ha, rfl⟩ : ∃ a ∈ [ex2Main, ex2Hyp], p = a.poly := by
    rcases List.mem_cons.1 hp with rfl | hp
    · exact ⟨ex2Main, by simp, rfl⟩
    · rw [List.mem_singleton] at hp
      exact ⟨ex2Hyp, by simp, hp⟩
  refine ex2_sequent.poly a ?_
  simpa using ha

/-- Three polynomials in the last projection set, at most 15 in the one below. -/
example (E : CadEnv) (l : List MPoly) (h : (projSets E [0, 1] 1 [ex2Main.poly, ex2Hyp.poly, cubic])[0]? = some l) :
    l.length ≤ 15 := by
  have := C97_projection E [0, 1] 1 _ 1 l le_rfl h
  simp at this
  omega

end Verif.Grf
