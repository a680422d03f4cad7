import Verif.Qe.PropsMuchnik
import Verif.Qe.ZPoly
import Mathlib.Data.List.Lex

/-!
# C21, C83: the rows of the tables are determined by the set of the input polynomials

The closure of C21 is the least one. Its order is the lexicographic one of a key made of the exponents and the leading
scalars. Without parameters different polynomials have different keys; with parameters this is not so, and then the order
of the input shows.
-/

set_option linter.unusedSectionVars false

open Polynomial

namespace Verif.Qe

variable {R : Type} [CommRing R] [DecidableEq R]

/-! ### the least closed set -/

/-- The set contains 0 and is closed under derivative, dropping the leading term and pseudo-remainder. -/
structure Closed (T : Set R[X]) : Prop where
  zero : 0 ∈ T
  der : ∀ p ∈ T, Polynomial.derivative p ∈ T
  tail : ∀ p ∈ T, p.eraseLead ∈ T
  rem : ∀ p ∈ T, ∀ q ∈ T, 0 < q.natDegree → q.natDegree ≤ p.natDegree → ∀ r Q : R[X], r.natDegree < q.natDegree →
    C (q.leadingCoeff ^ (p.natDegree - q.natDegree + 1)) * p = Q * q + r → r ∈ T

theorem toPoly_pTail_eraseLead {p : List R} (hp : Canon p) : toPoly (pTail p) = (toPoly p).eraseLead := by
  by_cases hp0 : p = []
  · subst hp0; simp [pTail, strip]
  · have := toPoly_pTail p hp0
    rw [← leadingCoeff_toPoly hp, ← natDegree_toPoly hp] at this
    have h3 := eraseLead_add_C_mul_X_pow (toPoly p)
    conv at this => lhs; rw [← h3]
    exact (add_right_cancel this).symm

theorem mapM_mem {f : List R → Except QErr (List R)} : ∀ (l bs : List (List R)), l.mapM f = .ok bs →
    ∀ b ∈ bs, ∃ a ∈ l, f a = .ok b := by
  intro l
  induction l with
  | nil =>
    intro bs h b hb
    rw [List.mapM_nil] at h
    cases h
    simp at hb
  | cons a l ih =>
    intro bs h b hb
    rw [List.mapM_cons] at h
    simp only [bind, Except.bind] at h
    split at h
    · cases h
    · next v hv =>
      split at h
      · cases h
      · next w hw =>
        cases h
        rcases List.mem_cons.1 hb with rfl | hb
        · exact ⟨a, by simp, hv⟩
        · obtain ⟨c, hc, e⟩ := ih w hw b hb
          exact ⟨c, by simp [hc], e⟩

theorem rem_mem [IsDomain R] {T : Set R[X]} (hT : Closed T) {f g r : List R} (hf : Canon f) (hg : Canon g)
    (hg0 : g ≠ []) (hfT : toPoly f ∈ T) (hgT : toPoly g ∈ T) (hd : deg g ≤ deg f) (hf0 : 0 < deg f)
    (hr : pseudoRem f g = .ok r) : Canon r ∧ toPoly r ∈ T := by
  obtain ⟨s, e1, e2, e3, Q, e4⟩ := pseudoRem_ge hg0 hg hf (by unfold deg at hd hf0; omega)
  rw [hr] at e1; cases e1
  refine ⟨e2, ?_⟩
  by_cases h0 : 0 < deg g
  · refine hT.rem _ hfT _ hgT (by rwa [natDegree_toPoly hg]) (by rwa [natDegree_toPoly hg, natDegree_toPoly hf]) _ Q ?_ ?_
    · rw [natDegree_toPoly hg, natDegree_toPoly e2]
      unfold deg at h0 ⊢; omega
    · rw [natDegree_toPoly hg, natDegree_toPoly hf, leadingCoeff_toPoly hg]; exact e4
  · have : r = [] := by
      apply List.length_eq_zero_iff.1
      unfold deg at h0; omega
    subst this
    simpa using hT.zero

theorem muchnikSeq_least [IsDomain R] (A : MAlg R) {T : Set R[X]} (hT : Closed T) :
    ∀ (fuel : ℕ) (done todo S : List (List R)), (∀ p ∈ done, Canon p ∧ toPoly p ∈ T) → [] ∈ done →
      (∀ p ∈ todo, Canon p ∧ toPoly p ∈ T) → muchnikSeq A fuel done todo = .ok S → ∀ p ∈ S, Canon p ∧ toPoly p ∈ T := by
  intro fuel
  induction fuel with
  | zero =>
    intro done todo S hd _ ht h
    cases todo with
    | nil => unfold muchnikSeq at h; cases h; exact hd
    | cons a l => unfold muchnikSeq at h; cases h
  | succ fuel ih =>
    intro done todo S hd h0 ht h
    cases todo with
    | nil => unfold muchnikSeq at h; cases h; exact hd
    | cons head rest =>
      unfold muchnikSeq at h
      have hrest : ∀ p ∈ rest, Canon p ∧ toPoly p ∈ T := fun p hp => ht p (by simp [hp])
      have hhead := ht head (by simp)
      split at h
      · exact ih done rest S hd h0 hrest h
      · next hnew =>
        have hne : head ≠ [] := by rintro rfl; exact hnew h0
        simp only [bind, Except.bind] at h
        split at h
        · cases h
        · next remLe hle =>
          split at h
          · cases h
          · next remGe hge =>
            refine ih _ _ S ?_ ?_ ?_ h
            · intro p hp
              rcases (mem_sortedAdd A head p done).1 hp with rfl | hp
              · exact hhead
              · exact hd p hp
            · exact (mem_sortedAdd A head [] done).2 (Or.inr h0)
            · have h1 : Canon (pTail head) ∧ toPoly (pTail head) ∈ T :=
                ⟨pTail_canon _, by rw [toPoly_pTail_eraseLead hhead.1]; exact hT.tail _ hhead.2⟩
              have h2 : Canon (derivative head) ∧ toPoly (derivative head) ∈ T :=
                ⟨derivative_canon _, by rw [toPoly_derivative]; exact hT.der _ hhead.2⟩
              intro p hp
              rcases List.mem_append.1 hp with hp | hp
              · split at hp
                · rcases List.mem_append.1 hp with hp | hp
                  · split at hp
                    · rcases List.mem_append.1 hp with hp | hp
                      · exact hrest p hp
                      · rw [List.mem_singleton] at hp; subst hp; exact h1
                    · exact hrest p hp
                  · rw [List.mem_singleton] at hp; subst hp; exact h2
                · split at hp
                  · rcases List.mem_append.1 hp with hp | hp
                    · exact hrest p hp
                    · rw [List.mem_singleton] at hp; subst hp; exact h1
                  · exact hrest p hp
              · rw [List.mem_filter, List.mem_append] at hp
                rcases hp.1 with hp | hp
                · obtain ⟨q, hq, e⟩ := mapM_mem _ _ hle p hp
                  simp only [List.mem_filter, decide_eq_true_eq] at hq
                  exact rem_mem hT hhead.1 (hd q hq.1).1 (ne_nil_of_deg hq.2.2) hhead.2 (hd q hq.1).2 hq.2.1
                    (lt_of_lt_of_le hq.2.2 hq.2.1) e
                · obtain ⟨q, hq, e⟩ := mapM_mem _ _ hge p hp
                  simp only [List.mem_filter, decide_eq_true_eq] at hq
                  exact rem_mem hT (hd q hq.1).1 hhead.1 hne (hd q hq.1).2 hhead.2 hq.2.1 hq.2.2 e

/-- **C21**, nothing superfluous: the polynomials of the result belong to every set that contains the input and 0 and is
closed under derivative, dropping the leading term and pseudo-remainder. -/
theorem C21_least [IsDomain R] (A : MAlg R) (ps : List (List R)) (hps : ∀ p ∈ ps, Normal p) (fuel : ℕ)
    (S : List (List R)) (h : muchnikSeq A fuel [[]] ps = .ok S) (T : Set R[X]) (hT : Closed T)
    (hin : ∀ p ∈ ps, poly p ∈ T) : ∀ p ∈ S, poly p ∈ T := by
  intro p hp
  rw [poly_eq]
  refine (muchnikSeq_least A hT fuel [[]] ps S ?_ (by simp) ?_ h p hp).2
  · intro q hq
    rw [List.mem_singleton] at hq; subst hq
    exact ⟨canon_nil, by simpa using hT.zero⟩
  · intro q hq
    exact ⟨canon_of_normal (hps q hq), by rw [← poly_eq]; exact hin q hq⟩

/-! ### the order -/

/-- The exponents of the terms that contain the variable, from the highest one on. -/
def exponents (p : List R) : List ℕ := ((List.range p.length).filter fun i => 0 < i ∧ p.getD i 0 ≠ 0).reverse

/-- The key: the exponents and 0, then the leading scalars of the parts of the polynomial up to these exponents. -/
def orderKey (A : MAlg R) (p : List R) : List ℚ :=
  (exponents p).map (fun i : ℕ => (i : ℚ)) ++ [0] ++
    ((exponents p).map (fun i => A.LS (p.take (i + 1))) ++ [A.LS (if p.getD 0 0 = 0 then [] else [p.getD 0 0])])

theorem strip_zeros (l : List R) : ∃ k, l = strip l ++ List.replicate k 0 := by
  induction l with
  | nil => exact ⟨0, rfl⟩
  | cons c l ih =>
    obtain ⟨k, hk⟩ := ih
    unfold strip
    split
    · next h =>
      rw [h] at hk
      split
      · next hc => exact ⟨k + 1, by rw [hk, hc]; simp [List.replicate_succ]⟩
      · exact ⟨k, by rw [hk]; simp⟩
    · next a l' h =>
      rw [h] at hk
      exact ⟨k, by rw [hk]; simp⟩

theorem getD_zeros (l : List R) (k i : ℕ) : (l ++ List.replicate k (0 : R)).getD i 0 = l.getD i 0 := by
  rw [List.getD_eq_getElem?_getD, List.getD_eq_getElem?_getD]
  by_cases h : i < l.length
  · rw [List.getElem?_append_left h]
  · rw [List.getElem?_append_right (by omega), List.getElem?_replicate, List.getElem?_eq_none (by omega)]
    split <;> rfl

theorem exponents_zeros (l : List R) (k : ℕ) : exponents (l ++ List.replicate k (0 : R)) = exponents l := by
  unfold exponents
  rw [List.length_append, List.length_replicate, List.range_add, List.filter_append]
  have h1 : ((List.map (l.length + ·) (List.range k)).filter fun i => decide (0 < i ∧ (l ++ List.replicate k (0 : R)).getD i 0 ≠ 0)) = [] := by
    rw [List.filter_eq_nil_iff]
    intro i hi
    rw [List.mem_map] at hi
    obtain ⟨j, -, rfl⟩ := hi
    rw [getD_zeros, List.getD_eq_getElem?_getD, List.getElem?_eq_none (by omega)]
    simp
  rw [h1, List.append_nil]
  congr 1
  apply List.filter_congr
  intro i _
  rw [getD_zeros]

theorem exponents_concat (l : List R) (c : R) (hl : l ≠ []) (hc : c ≠ 0) :
    exponents (l ++ [c]) = l.length :: exponents l := by
  unfold exponents
  rw [List.length_append, List.length_singleton, List.range_succ, List.filter_append, List.reverse_append]
  have h1 : ([l.length].filter fun i => decide (0 < i ∧ (l ++ [c]).getD i 0 ≠ 0)) = [l.length] := by
    rw [List.filter_eq_self]
    intro i hi
    rw [List.mem_singleton] at hi; subst hi
    have := List.length_pos_iff.2 hl
    simp [this, hc]
  rw [h1]
  rw [List.reverse_singleton, List.singleton_append]
  congr 2
  apply List.filter_congr
  intro i hi
  rw [List.mem_range] at hi
  rw [List.getD_eq_getElem?_getD, List.getElem?_append_left hi, List.getD_eq_getElem?_getD]

theorem mem_exponents {l : List R} {i : ℕ} : i ∈ exponents l ↔ 0 < i ∧ l.getD i 0 ≠ 0 := by
  unfold exponents
  simp only [List.mem_reverse, List.mem_filter, List.mem_range, decide_eq_true_eq]
  constructor
  · rintro ⟨_, h⟩; exact h
  · rintro ⟨h, h'⟩
    refine ⟨?_, h, h'⟩
    by_contra hlt
    rw [List.getD_eq_getElem?_getD, List.getElem?_eq_none (by omega)] at h'
    exact h' rfl

theorem exponents_lt {l : List R} {i : ℕ} (h : i ∈ exponents l) : i < l.length := by
  by_contra hlt
  have h' := (mem_exponents.1 h).2
  rw [List.getD_eq_getElem?_getD, List.getElem?_eq_none (by omega)] at h'
  exact h' rfl

theorem polyKeyAux_eq (A : MAlg R) : ∀ (n : ℕ) (p : List R), Canon p → p.length ≤ n →
    polyKeyAux A n p = ((exponents p).map (fun i : ℕ => (i : ℚ)) ++ [0],
      (exponents p).map (fun i => A.LS (p.take (i + 1))) ++ [A.LS (if p.getD 0 0 = 0 then [] else [p.getD 0 0])]) := by
  have hsmall : ∀ p : List R, Canon p → deg p = 0 → ([0], [A.LS p]) = ((exponents p).map (fun i : ℕ => (i : ℚ)) ++ [0],
      (exponents p).map (fun i => A.LS (p.take (i + 1))) ++ [A.LS (if p.getD 0 0 = 0 then [] else [p.getD 0 0])]) := by
    intro p hp h0
    match p, hp, h0 with
    | [], _, _ => simp [exponents]
    | [c], hp, _ =>
      have hc : c ≠ 0 := canon_lc hp (by simp)
      simp [exponents, hc]
    | a :: b :: l, _, h0 => simp [deg] at h0
  intro n
  induction n with
  | zero =>
    intro p hp hn
    have : p = [] := List.length_eq_zero_iff.1 (by omega)
    subst this
    exact hsmall [] hp rfl
  | succ n ih =>
    intro p hp hn
    unfold polyKeyAux
    split
    · next h => exact hsmall p hp h
    · next h =>
      have hp0 : p ≠ [] := by rintro rfl; exact h rfl
      rw [ih (pTail p) (pTail_canon p) (by have := pTail_length p; omega)]
      obtain ⟨k, hk⟩ := strip_zeros p.dropLast
      have hlen : p.dropLast.length = deg p := by simp [deg]
      have hd0 : p.dropLast ≠ [] := by
        intro e; rw [e] at hlen; exact h hlen.symm
      have hpe : p.dropLast ++ [lc p] = p := by
        unfold lc
        rw [List.getLastD_eq_getLast?, List.getLast?_eq_some_getLast hp0]
        exact List.dropLast_append_getLast hp0
      have he : exponents p = deg p :: exponents (pTail p) := by
        conv_lhs => rw [← hpe]
        rw [exponents_concat _ _ hd0 (canon_lc hp hp0), hlen]
        congr 1
        rw [hk, exponents_zeros]; rfl
      have hg : p.getD 0 0 = (pTail p).getD 0 0 := by
        have e1 : p.getD 0 0 = p.dropLast.getD 0 0 := by
          conv_lhs => rw [← hpe]
          rw [List.getD_eq_getElem?_getD, List.getElem?_append_left (List.length_pos_iff.2 hd0), List.getD_eq_getElem?_getD]
        rw [e1, hk, getD_zeros]; rfl
      have ht : p.take (deg p + 1) = p := List.take_of_length_le (by unfold deg; omega)
      have hm : (exponents (pTail p)).map (fun i => A.LS ((pTail p).take (i + 1))) =
          (exponents (pTail p)).map (fun i => A.LS (p.take (i + 1))) := by
        apply List.map_congr_left
        intro i hi
        have hi' := exponents_lt hi
        have e1 : p.take (i + 1) = p.dropLast.take (i + 1) := by
          have : i + 1 ≤ p.dropLast.length := by
            have := pTail_length p
            simp; omega
          conv_lhs => rw [← hpe]
          rw [List.take_append_of_le_length this]
        rw [e1, hk, List.take_append_of_le_length (by exact hi')]; rfl
      rw [he, hm, hg]
      simp [ht]

theorem polyKey_eq (A : MAlg R) {p : List R} (hp : Canon p) : polyKey A p = orderKey A p := by
  unfold polyKey orderKey
  rw [polyKeyAux_eq A _ p hp le_rfl]

theorem listLt_iff (a b : List ℚ) : listLt a b = true ↔ a < b := by
  induction a generalizing b with
  | nil => cases b <;> simp [listLt]
  | cons x l ih =>
    cases b with
    | nil => simp [listLt]
    | cons y m =>
      unfold listLt
      rw [List.cons_lt_cons_iff]
      split
      · next h => simp [h]
      · next h =>
        split
        · next h' => simp [h, ne_of_gt h']
        · next h' =>
          have : x = y := le_antisymm (le_of_not_gt h') (le_of_not_gt h)
          simp [this, ih]

theorem sortedAdd_key (A : MAlg R) (p : List R) (l : List (List R)) (hp : Canon p) (hl : ∀ q ∈ l, Canon q)
    (h : l.Pairwise fun a b => orderKey A a ≤ orderKey A b) :
    (sortedAdd A p l).Pairwise fun a b => orderKey A a ≤ orderKey A b := by
  induction l with
  | nil => simp [sortedAdd]
  | cons q l ih =>
    unfold sortedAdd
    have hk := listLt_iff (polyKey A p) (polyKey A q)
    rw [polyKey_eq A hp, polyKey_eq A (hl q (by simp))] at hk
    rw [polyKey_eq A hp, polyKey_eq A (hl q (by simp))]
    rw [List.pairwise_cons] at h
    split
    · next hlt' =>
      have hlt := hk.1 hlt'
      rw [List.pairwise_cons, List.pairwise_cons]
      refine ⟨?_, h⟩
      intro b hb
      rcases List.mem_cons.1 hb with rfl | hb
      · exact le_of_lt hlt
      · exact (le_of_lt hlt).trans (h.1 b hb)
    · next hlt' =>
      have hlt := fun h => hlt' (hk.2 h)
      rw [List.pairwise_cons]
      refine ⟨?_, ih (fun r hr => hl r (by simp [hr])) h.2⟩
      intro b hb
      rcases (mem_sortedAdd A p b l).1 hb with rfl | hb
      · exact le_of_not_gt hlt
      · exact h.1 b hb

theorem sortedAdd_sublist (A : MAlg R) (p : List R) (l : List (List R)) : l.Sublist (sortedAdd A p l) := by
  induction l with
  | nil => simp
  | cons q l ih =>
    unfold sortedAdd
    split
    · exact List.sublist_cons_self _ _
    · exact ih.cons_cons q

theorem muchnikSeq_sublist (A : MAlg R) : ∀ (fuel : ℕ) (done todo S : List (List R)),
    muchnikSeq A fuel done todo = .ok S → done.Sublist S := by
  intro fuel
  induction fuel with
  | zero =>
    intro done todo S h
    cases todo with
    | nil => unfold muchnikSeq at h; cases h; exact List.Sublist.refl _
    | cons a l => unfold muchnikSeq at h; cases h
  | succ fuel ih =>
    intro done todo S h
    cases todo with
    | nil => unfold muchnikSeq at h; cases h; exact List.Sublist.refl _
    | cons head rest =>
      unfold muchnikSeq at h
      split at h
      · exact ih done rest S h
      · simp only [bind, Except.bind] at h
        split at h
        · cases h
        · split at h
          · cases h
          · exact (sortedAdd_sublist A head done).trans (ih _ _ S h)

theorem muchnikSeq_key (A : MAlg R) : ∀ (fuel : ℕ) (done todo S : List (List R)),
    (done.Pairwise fun a b => orderKey A a ≤ orderKey A b) → muchnikSeq A fuel done todo = .ok S →
    (∀ p ∈ S, Canon p) → S.Pairwise fun a b => orderKey A a ≤ orderKey A b := by
  intro fuel
  induction fuel with
  | zero =>
    intro done todo S hd h _
    cases todo with
    | nil => unfold muchnikSeq at h; cases h; exact hd
    | cons a l => unfold muchnikSeq at h; cases h
  | succ fuel ih =>
    intro done todo S hd h hS
    cases todo with
    | nil => unfold muchnikSeq at h; cases h; exact hd
    | cons head rest =>
      unfold muchnikSeq at h
      split at h
      · exact ih done rest S hd h hS
      · simp only [bind, Except.bind] at h
        split at h
        · cases h
        · split at h
          · cases h
          · have hsub := muchnikSeq_sublist A fuel _ _ S h
            have hc : ∀ q ∈ sortedAdd A head done, Canon q := fun q hq => hS q (hsub.subset hq)
            exact ih _ _ S (sortedAdd_key A head done (hc _ ((mem_sortedAdd A head head done).2 (Or.inl rfl)))
              (fun q hq => hc _ ((mem_sortedAdd A head q done).2 (Or.inr hq))) hd) h hS

theorem orderKey_inj {A : MAlg R} (ι : R → ℚ) (hι : Function.Injective ι)
    (hLS : ∀ l : List R, A.LS l = ι (l.getLastD 0)) {p q : List R} (hp : Canon p) (hq : Canon q)
    (h : orderKey A p = orderKey A q) : p = q := by
  have hlen := congrArg List.length h
  simp only [orderKey, List.length_append, List.length_map, List.length_singleton] at hlen
  unfold orderKey at h
  obtain ⟨h1, h2⟩ := List.append_inj h (by simp; omega)
  have h3 : exponents p = exponents q := by
    have := (List.append_inj' h1 rfl).1
    exact List.map_injective_iff.2 Nat.cast_injective this
  obtain ⟨h4, h5⟩ := List.append_inj' h2 rfl
  have hlast : ∀ (l : List R) (i : ℕ), i ∈ exponents l → (l.take (i + 1)).getLastD 0 = l.getD i 0 := by
    intro l i hi
    have hi' := exponents_lt hi
    rw [List.getLastD_eq_getLast?, List.getLast?_take, if_neg (by omega), List.getD_eq_getElem?_getD]
    simp [hi']
  apply canon_inj hp hq
  ext i
  rw [coeff_toPoly, coeff_toPoly]
  by_cases hi : i ∈ exponents p
  · rw [h3] at h4
    have h6 := List.map_inj_left.1 h4 i (h3 ▸ hi)
    rw [hLS, hLS, hlast p i hi, hlast q i (h3 ▸ hi)] at h6
    exact hι h6
  · have hi2 : i ∉ exponents q := h3 ▸ hi
    rw [mem_exponents] at hi hi2
    by_cases hi0 : i = 0
    · subst hi0
      have h6 := (List.cons.inj h5).1
      rw [hLS, hLS] at h6
      have h7 := hι h6
      have hc : ∀ c : R, (if c = 0 then [] else [c]).getLastD 0 = c := by
        intro c
        split
        · next e => rw [e]; rfl
        · rfl
      rwa [hc, hc] at h7
    · have e1 : p.getD i 0 = 0 := by by_contra hh; exact hi ⟨by omega, hh⟩
      have e2 : q.getD i 0 = 0 := by by_contra hh; exact hi2 ⟨by omega, hh⟩
      rw [e1, e2]

/-! ### C83 -/

theorem muchnikSeq_mono (A : MAlg R) : ∀ (fuel fuel' : ℕ), fuel ≤ fuel' → ∀ (done todo S : List (List R)),
    muchnikSeq A fuel done todo = .ok S → muchnikSeq A fuel' done todo = .ok S := by
  intro fuel
  induction fuel with
  | zero =>
    intro fuel' _ done todo S h
    cases todo with
    | nil => unfold muchnikSeq at h; cases fuel' <;> exact h
    | cons a l => unfold muchnikSeq at h; cases h
  | succ fuel ih =>
    intro fuel' hf done todo S h
    obtain ⟨f, rfl⟩ : ∃ f, fuel' = f + 1 := ⟨fuel' - 1, by omega⟩
    cases todo with
    | nil => unfold muchnikSeq at h ⊢; exact h
    | cons head rest =>
      unfold muchnikSeq at h ⊢
      split at h
      · next hm => rw [if_pos hm]; exact ih f (by omega) _ _ _ h
      · next hm =>
        rw [if_neg hm]
        simp only [bind, Except.bind] at h ⊢
        split at h
        · cases h
        · split at h
          · cases h
          · exact ih f (by omega) _ _ _ h

theorem seq_closed [IsDomain R] (A : MAlg R) (ps : List (List R)) (hps : ∀ p ∈ ps, Normal p) (fuel : ℕ)
    (S : List (List R)) (h : muchnikSeq A fuel [[]] ps = .ok S) : SeqInv S [] ∧ ∀ p ∈ ps, p ∈ S := by
  obtain ⟨N, S', h1, h2, h3⟩ := muchnikSeq_total A ps fun p hp => canon_of_normal (hps p hp)
  have := h1 (max N fuel) (le_max_left _ _)
  rw [muchnikSeq_mono A fuel (max N fuel) (le_max_right _ _) _ _ _ h] at this
  cases this
  exact ⟨h2, h3⟩

/-- **C83**, the rows: from input lists with the same polynomials, in whatever order and with whatever repetitions, the
same polynomials are obtained, each of them once. -/
theorem C83_rows [IsDomain R] (A : MAlg R) (ps ps' : List (List R)) (hps : ∀ p ∈ ps, Normal p)
    (hsame : ∀ p, p ∈ ps ↔ p ∈ ps') (fuel fuel' : ℕ) (S S' : List (List R))
    (h : muchnikSeq A fuel [[]] ps = .ok S) (h' : muchnikSeq A fuel' [[]] ps' = .ok S') : S.Perm S' := by
  have hps' : ∀ p ∈ ps', Normal p := fun p hp => hps p ((hsame p).2 hp)
  have key : ∀ (qs qs' : List (List R)) (f f' : ℕ) (T T' : List (List R)), (∀ p ∈ qs, Normal p) → (∀ p ∈ qs', Normal p) →
      (∀ p, p ∈ qs → p ∈ qs') → muchnikSeq A f [[]] qs = .ok T → muchnikSeq A f' [[]] qs' = .ok T' → T ⊆ T' := by
    intro qs qs' f f' T T' hq hq' hs e e' p hp
    obtain ⟨i1, i2⟩ := seq_closed A qs' hq' f' T' e'
    obtain ⟨N, S0, h1, h2, h3, h4, h5, h6, h7⟩ := C21_sequence_closed A qs' hq'
    have e0 := h1 (max N f') (le_max_left _ _)
    rw [muchnikSeq_mono A f' (max N f') (le_max_right _ _) _ _ _ e'] at e0
    cases e0
    have hT : Closed {x : R[X] | ∃ q ∈ T', poly q = x} := by
      refine ⟨⟨[], h3, by simp [poly]⟩, ?_, ?_, ?_⟩
      · rintro x ⟨q, hq, rfl⟩; exact h5 q hq
      · rintro x ⟨q, hq, rfl⟩; exact h6 q hq
      · rintro x ⟨a, ha, rfl⟩ y ⟨b, hb, rfl⟩ hpos hle r Q hr he
        obtain ⟨r', hr', Q', hd', he'⟩ := h7 a ha b hb hpos hle
        refine ⟨r', hr', ?_⟩
        have hz : (Q - Q') * poly b = poly r' - r := by
          linear_combination he' - he
        have hdeg : (poly r' - r).natDegree < (poly b).natDegree :=
          lt_of_le_of_lt (natDegree_sub_le _ _) (max_lt hd' hr)
        by_cases hQ : Q - Q' = 0
        · rw [hQ, zero_mul] at hz
          exact sub_eq_zero.1 hz.symm
        · exfalso
          rw [← hz, natDegree_mul hQ (by rintro e; rw [e] at hpos; simp at hpos)] at hdeg
          omega
    obtain ⟨q, hq1, hq2⟩ := C21_least A qs hq f T e _ hT (fun x hx => ⟨x, h4 x (hs x hx), rfl⟩) p hp
    rw [poly_eq, poly_eq] at hq2
    have hc := (seq_closed A qs hq f T e).1.canon p hp
    rwa [← canon_inj (i1.canon q hq1) hc hq2]
  exact (List.perm_ext_iff_of_nodup (seq_closed A ps hps fuel S h).1.nodup (seq_closed A ps' hps' fuel' S' h').1.nodup).2
    fun p => ⟨fun hp => key ps ps' fuel fuel' S S' hps hps' (fun p => (hsame p).1) h h' hp,
      fun hp => key ps' ps fuel' fuel S' S hps' hps (fun p => (hsame p).2) h' h hp⟩

/-- **C83**, the order: the rows come in the order of their keys, which begin with the exponents. -/
theorem C83_order [IsDomain R] (A : MAlg R) (ps : List (List R)) (hps : ∀ p ∈ ps, Normal p) (fuel : ℕ)
    (S : List (List R)) (h : muchnikSeq A fuel [[]] ps = .ok S) :
    S.Pairwise fun a b => orderKey A a ≤ orderKey A b :=
  muchnikSeq_key A fuel [[]] ps S (by simp) h (seq_closed A ps hps fuel S h).1.canon

/-- **C83** without parameters: if the leading scalar is the leading coefficient, also the order of the rows is the same. -/
theorem C83_scalars [IsDomain R] (A : MAlg R) (ι : R → ℚ) (hι : Function.Injective ι)
    (hLS : ∀ l : List R, A.LS l = ι (l.getLastD 0)) (ps ps' : List (List R)) (hps : ∀ p ∈ ps, Normal p)
    (hsame : ∀ p, p ∈ ps ↔ p ∈ ps') (fuel fuel' : ℕ) (S S' : List (List R))
    (h : muchnikSeq A fuel [[]] ps = .ok S) (h' : muchnikSeq A fuel' [[]] ps' = .ok S') : S = S' := by
  have hps' : ∀ p ∈ ps', Normal p := fun p hp => hps p ((hsame p).2 hp)
  refine List.Perm.eq_of_pairwise ?_ (C83_order A ps hps fuel S h) (C83_order A ps' hps' fuel' S' h')
    (C83_rows A ps ps' hps hsame fuel fuel' S S' h h')
  intro a b ha hb h1 h2
  exact orderKey_inj ι hι hLS ((seq_closed A ps hps fuel S h).1.canon a ha)
    ((seq_closed A ps' hps' fuel' S' h').1.canon b hb) (le_antisymm h1 h2)

theorem muchnikSeq_next (A : MAlg R) {fuel : ℕ} {done rest S : List (List R)} {head : List R} (hnew : head ∉ done)
    (h : muchnikSeq A fuel done (head :: rest) = .ok S) :
    ∃ f rest', muchnikSeq A f (sortedAdd A head done) (rest ++ rest') = .ok S := by
  cases fuel with
  | zero => unfold muchnikSeq at h; cases h
  | succ fuel =>
    unfold muchnikSeq at h
    rw [if_neg hnew] at h
    simp only [bind, Except.bind] at h
    split at h
    · cases h
    · split at h
      · cases h
      · refine ⟨fuel, ?_⟩
        split at h <;> split at h
        all_goals
          first
          | exact ⟨_, by simpa only [List.append_assoc] using h⟩

/-- **C83** with parameters: the leading scalar of `a * x` and `b * x` may be the same although `a` and `b` differ. Then
the order of the rows is that of the input. -/
theorem C83_parameters (A : MAlg R) (a b : R) (ha : a ≠ 0) (hb : b ≠ 0) (hab : a ≠ b) (hLS : A.LS [0, a] = A.LS [0, b])
    (fuel : ℕ) (S : List (List R)) (h : muchnikSeq A fuel [[]] [[0, a], [0, b]] = .ok S) :
    [[0, a], [0, b]].Sublist S := by
  have hk : ∀ c : R, c ≠ 0 → polyKey A [0, c] = [1, 0, A.LS [0, c], A.LS []] := by
    intro c hc
    rw [polyKey_eq A (by simp [Canon, strip, hc])]
    simp [orderKey, exponents, List.range_succ, hc]
  have hk0 : polyKey A ([] : List R) = [0, A.LS []] := by
    rw [polyKey_eq A canon_nil]; simp [orderKey, exponents]
  have e1 : sortedAdd A [0, a] [[]] = [[], [0, a]] := by
    simp [sortedAdd, hk a ha, hk0, listLt]
  have e2 : sortedAdd A [0, b] [[], [0, a]] = [[], [0, a], [0, b]] := by
    simp [sortedAdd, hk a ha, hk b hb, hk0, listLt, hLS]
  obtain ⟨f, r, h1⟩ := muchnikSeq_next A (by simp) h
  rw [e1] at h1
  obtain ⟨f', r', h2⟩ := muchnikSeq_next A (by simp [Ne.symm hab]) h1
  rw [e2] at h2
  exact (List.sublist_cons_self _ _).trans (muchnikSeq_sublist A _ _ _ S h2)

/-! ### Concrete cases -/

-- C21_least: the set of all polynomials of degree at most 2 contains the result for `x² - 2`
example : Closed {p : ℤ[X] | p.natDegree ≤ 2} ∧ poly [(-2 : ℤ), 0, 1] ∈ {p : ℤ[X] | p.natDegree ≤ 2} ∧
    ∃ S, muchnikSeq intAlg 40 [[]] [[(-2 : ℤ), 0, 1]] = .ok S := by
  refine ⟨⟨by simp, ?_, ?_, ?_⟩, ?_, _, rfl⟩
  · intro p hp
    exact (natDegree_derivative_le p).trans (le_trans (Nat.sub_le _ _) hp)
  · intro p hp
    exact (eraseLead_natDegree_le_aux).trans hp
  · intro p _ q hq _ _ r Q hr _
    exact (le_of_lt hr).trans hq
  · rw [poly_eq]
    exact natDegree_le_length _

-- C83: two orders of the same input, and a repetition
example : (muchnikSeq intAlg 40 [[]] [[(-2 : ℤ), 0, 1], [1, 3]]).toOption =
      (muchnikSeq intAlg 40 [[]] [[(1 : ℤ), 3], [-2, 0, 1], [1, 3]]).toOption ∧
    (muchnikSeq intAlg 40 [[]] [[(-2 : ℤ), 0, 1], [1, 3]]).toOption.isSome = true ∧
    Function.Injective (fun n : ℤ => (n : ℚ)) ∧ ∀ l : List ℤ, intAlg.LS l = ((l.getLastD 0 : ℤ) : ℚ) :=
  ⟨by decide +kernel, by decide +kernel, Int.cast_injective, fun _ => rfl⟩

/-- Coefficients with a parameter `y`; the leading scalar is that of the highest power of `y`. -/
def zyAlg : MAlg ZY := ⟨fun c => 1 < c.coeffs.length, fun c => Int.sign (c.coeffs.headD 0), fun p => ((lc p).coeffs.getLastD 0 : ℤ)⟩

-- C83_parameters: `y * x` and `(y + 1) * x`
example : (ZY.mk' [0, 1] ≠ 0 ∧ ZY.mk' [1, 1] ≠ 0 ∧ ZY.mk' [0, 1] ≠ ZY.mk' [1, 1]) ∧
    zyAlg.LS [0, ZY.mk' [0, 1]] = zyAlg.LS [0, ZY.mk' [1, 1]] ∧
    (muchnikSeq zyAlg 40 [[]] [[0, ZY.mk' [0, 1]], [0, ZY.mk' [1, 1]]]).toOption.isSome = true ∧
    (muchnikSeq zyAlg 40 [[]] [[0, ZY.mk' [0, 1]], [0, ZY.mk' [1, 1]]]).toOption ≠
      (muchnikSeq zyAlg 40 [[]] [[0, ZY.mk' [1, 1]], [0, ZY.mk' [0, 1]]]).toOption := by
  refine ⟨⟨?_, ?_, ?_⟩, ?_, ?_, ?_⟩ <;> decide +kernel

end Verif.Qe
