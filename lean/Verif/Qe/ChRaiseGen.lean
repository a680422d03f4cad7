import Verif.Qe.ChRaise

/-!
# `real_full` of `cohenhorm.py` raises on polynomials whose coefficients above the linear one have parameters
-/

set_option linter.unusedSectionVars false

namespace Verif.Qe

variable {R : Type} [CommRing R] [DecidableEq R]

theorem expandTail_mem {tail head : List R} {ps : List (List R)} {st st' : List (Expanded R) × Mapping R}
    (X : Except QErr (List (Expanded R) × Mapping R))
    (h : (do
      let r ← X
      let es ← r.1.mapM fun e : Expanded R =>
        match dGet e.2.2 tail with
        | none => .error .keyError
        | some t => .ok (e.1, ps ++ e.2.1, dSet e.2.2 head t)
      .ok (st.1 ++ es, r.2) : Except QErr (List (Expanded R) × Mapping R)) = .ok st') :
    ∃ q, X = .ok q ∧ ∃ es, st'.1 = st.1 ++ es ∧ ∀ e ∈ q.1, ∃ mp, (e.1, ps ++ e.2.1, mp) ∈ es := by
  simp only [bind, Except.bind] at h
  split at h
  · cases h
  · next q =>
    split at h
    · cases h
    · next es hes =>
      cases h
      refine ⟨q, rfl, es, rfl, ?_⟩
      intro e he
      obtain ⟨b, hb, hb'⟩ := mapM_at hes e he
      split at hb'
      · cases hb'
      · cases hb'
        exact ⟨_, hb⟩

theorem expandVar_mem {A : MAlg R} {n : ℕ} {c : Ctx R} {ps : List (List R)} {head : List R} {m : Mapping R}
    {out : List (Expanded R) × Mapping R} (h : expandVar A (n + 1) c ps head m = .ok out) (s : ℤ)
    (hs : dGet c (lc head) = some s ∨ (dGet c (lc head) = none ∧ s ∈ [(-1 : ℤ), 0, 1])) :
    (s ≠ 0 → ∃ mp, (dSet c (lc head) s, ps ++ [head], mp) ∈ out.1) ∧
    (s = 0 → ∃ m0 q, (if A.hasVar (lc (pTail head)) = false then expandScalar (dSet c (lc head) 0) (pTail head) m0
        else expandVar A n (dSet c (lc head) 0) [] (pTail head) m0) = .ok q ∧
      ∀ e ∈ q.1, ∃ mp, (e.1, ps ++ e.2.1, mp) ∈ out.1) := by
  rw [expandVar] at h
  have key : ∀ (signs : List ℤ) (st r : List (Expanded R) × Mapping R),
      (signs.foldlM (fun st sign =>
        let c' := dSet c (lc head) sign
        if sign ≠ 0 then .ok (st.1 ++ [(c', ps ++ [head], dSet st.2 head head)], st.2)
        else do
          let tail := pTail head
          let r ← if A.hasVar (lc tail) = false then expandScalar c' tail st.2
            else expandVar A n c' [] tail st.2
          let es ← r.1.mapM fun e =>
            match dGet e.2.2 tail with
            | none => .error .keyError
            | some t => .ok (e.1, ps ++ e.2.1, dSet e.2.2 head t)
          .ok (st.1 ++ es, r.2)) st : Except QErr _) = .ok r →
      (∀ e ∈ st.1, e ∈ r.1) ∧ ∀ s ∈ signs,
        (s ≠ 0 → ∃ mp, (dSet c (lc head) s, ps ++ [head], mp) ∈ r.1) ∧
        (s = 0 → ∃ m0 q, (if A.hasVar (lc (pTail head)) = false then expandScalar (dSet c (lc head) 0) (pTail head) m0
            else expandVar A n (dSet c (lc head) 0) [] (pTail head) m0) = .ok q ∧
          ∀ e ∈ q.1, ∃ mp, (e.1, ps ++ e.2.1, mp) ∈ r.1) := by
    intro signs
    induction signs with
    | nil => intro st r h; cases h; exact ⟨fun _ h => h, by simp⟩
    | cons s signs ihs =>
      intro st r h
      rw [List.foldlM_cons] at h
      by_cases h0 : s = 0
      · subst h0
        simp only [ne_eq, not_true_eq_false, if_false, bind, Except.bind] at h
        split at h
        · cases h
        · next st' hst =>
          obtain ⟨q, hq, es, e1, e2⟩ : ∃ q, (if A.hasVar (lc (pTail head)) = false then
                expandScalar (dSet c (lc head) 0) (pTail head) st.2
                else expandVar A n (dSet c (lc head) 0) [] (pTail head) st.2) = .ok q ∧
              ∃ es, st'.1 = st.1 ++ es ∧ ∀ e ∈ q.1, ∃ mp, (e.1, ps ++ e.2.1, mp) ∈ es := by
            split at hst
            · next hv => rw [if_pos hv]; exact expandTail_mem _ hst
            · next hv => rw [if_neg hv]; exact expandTail_mem _ hst
          obtain ⟨h1, h2⟩ := ihs _ _ h
          rw [e1] at h1
          refine ⟨fun e he => h1 e (List.mem_append_left _ he), ?_⟩
          intro s hs
          rcases List.mem_cons.1 hs with rfl | hs
          · refine ⟨fun h => absurd rfl h, fun _ => ⟨st.2, q, hq, ?_⟩⟩
            intro e he
            obtain ⟨mp, hmp⟩ := e2 e he
            exact ⟨mp, h1 _ (List.mem_append_right _ hmp)⟩
          · exact h2 s hs
      · simp only [ne_eq, h0, not_false_eq_true, if_true, bind, Except.bind] at h
        obtain ⟨h1, h2⟩ := ihs _ _ h
        refine ⟨fun e he => h1 e (List.mem_append_left _ he), ?_⟩
        intro s' hs
        rcases List.mem_cons.1 hs with rfl | hs
        · exact ⟨fun _ => ⟨_, h1 _ (List.mem_append_right _ (List.mem_singleton_self _))⟩, fun h => absurd h h0⟩
        · exact h2 s' hs
  rcases hs with hs | ⟨hn, hs⟩
  · rw [hs] at h
    exact (key _ _ _ h).2 s (List.mem_singleton_self _)
  · rw [hn] at h
    exact (key _ _ _ h).2 s hs

theorem strip_cons_ne {b : R} (hb : b ≠ 0) (l : List R) : strip (b :: l) = b :: strip l := by
  rw [strip]
  split
  · next h => rw [if_neg hb, h]
  · next h => rw [h]

theorem mem_strip {x : R} : ∀ {l : List R}, x ∈ strip l → x ∈ l
  | [], h => h
  | c :: l, h => by
    rw [strip] at h
    split at h
    · split at h
      · simp at h
      · rw [List.mem_singleton.1 h]; simp
    · next a l' hs =>
      rcases List.mem_cons.1 h with rfl | h
      · simp
      · exact List.mem_cons_of_mem _ (mem_strip (by rw [hs]; exact h))

theorem lc_mem {l : List R} (h : l ≠ []) : lc l ∈ l := by
  unfold lc
  rw [List.getLastD_eq_getLast?, List.getLast?_eq_some_getLast h]
  exact List.getLast_mem h

theorem lc_strip_ne {l : List R} (h : strip l ≠ []) : lc (strip l) ≠ 0 := canon_lc (strip_canon l) h

/-- The branch in which all coefficients of `head` but the constant one are 0. -/
theorem expandVar_down {A : MAlg R} {a b : R} (hb : b ≠ 0) (hab : a ≠ b) : ∀ (n : ℕ) (c : Ctx R)
    (ps : List (List R)) (t : List R) (m : Mapping R) (out : List (Expanded R) × Mapping R),
    expandVar A n c ps (b :: t) m = .ok out → t ≠ [] → Canon t → (∀ x ∈ t, x = 0 ∨ A.hasVar x = true) →
    (∀ x ∈ t, ∀ s, dGet c x = some s → s = 0) → b ∉ t → a ∉ t → dGet c a = none → (dGet c b = none) →
    ∃ e ∈ out.1, e.2.1 = ps ++ [[b]] ∧ dGet e.1 a = none ∧ (A.hasVar b = true → ∃ s, dGet e.1 b = some s) := by
  intro n
  induction n with
  | zero => intro c ps t m out h; rw [expandVar] at h; cases h
  | succ n ih =>
    intro c ps t m out h ht hcan hvar hctx hbt hat hca hcb
    have hlc : lc (b :: t) = lc t := by
      unfold lc
      cases t with
      | nil => exact absurd rfl ht
      | cons x t => rfl
    have hmem := lc_mem ht
    have hal : lc t ≠ a := fun h => hat (h ▸ hmem)
    have hbl : lc t ≠ b := fun h => hbt (h ▸ hmem)
    have htail : pTail (b :: t) = b :: strip t.dropLast := by
      unfold pTail
      rw [List.dropLast_cons_of_ne_nil ht, strip_cons_ne hb]
    have hs0 : dGet c (lc (b :: t)) = some 0 ∨ (dGet c (lc (b :: t)) = none ∧ (0 : ℤ) ∈ [(-1 : ℤ), 0, 1]) := by
      rw [hlc]
      cases hg : dGet c (lc t) with
      | none => exact .inr ⟨rfl, by simp⟩
      | some s => rw [hctx _ hmem s hg]; exact .inl rfl
    obtain ⟨m0, q, hq, hmemq⟩ := (expandVar_mem h 0 hs0).2 rfl
    rw [hlc, htail] at hq
    have hca' : dGet (dSet c (lc t) 0) a = none := by rw [dGet_dSet, if_neg hal, hca]
    have hcb' : dGet (dSet c (lc t) 0) b = none := by rw [dGet_dSet, if_neg hbl, hcb]
    have fin : ∀ e ∈ q.1, e.2.1 = [[b]] → dGet e.1 a = none → (A.hasVar b = true → ∃ s, dGet e.1 b = some s) →
        ∃ e ∈ out.1, e.2.1 = ps ++ [[b]] ∧ dGet e.1 a = none ∧ (A.hasVar b = true → ∃ s, dGet e.1 b = some s) := by
      intro e he h1 h2 h3
      obtain ⟨mp, hmp⟩ := hmemq e he
      exact ⟨_, hmp, by simp [h1], h2, h3⟩
    by_cases hnil : strip t.dropLast = []
    · rw [hnil] at hq
      have hl1 : lc [b] = b := rfl
      by_cases hvb : A.hasVar b = true
      · rw [hl1, if_neg (by simp [hvb])] at hq
        cases n with
        | zero => rw [expandVar] at hq; cases hq
        | succ n =>
          obtain ⟨mp, hmp⟩ := (expandVar_mem hq (-1) (.inr ⟨by rw [hl1]; exact hcb', by simp⟩)).1 (by decide)
          refine fin _ hmp rfl ?_ fun _ => ⟨-1, ?_⟩
          · show dGet (dSet _ (lc [b]) (-1)) a = none
            rw [hl1, dGet_dSet, if_neg (Ne.symm hab), hca']
          · show dGet (dSet _ (lc [b]) (-1)) b = _
            rw [hl1, dGet_dSet, if_pos rfl]
      · have hvb : A.hasVar b = false := eq_false_of_ne_true hvb
        rw [hl1, if_pos hvb] at hq
        unfold expandScalar at hq
        rw [if_neg (by rw [hl1]; exact fun h => hb h.2)] at hq
        cases hq
        exact fin _ (List.mem_singleton_self _) rfl hca' fun h => by rw [hvb] at h; cases h
    · have hl2 : lc (b :: strip t.dropLast) = lc (strip t.dropLast) := by
        unfold lc
        cases hst : strip t.dropLast with
        | nil => exact absurd hst hnil
        | cons x t => rfl
      have hsub : ∀ x ∈ strip t.dropLast, x ∈ t := fun x hx => List.dropLast_subset _ (mem_strip hx)
      have hv : A.hasVar (lc (strip t.dropLast)) = true :=
        (hvar _ (hsub _ (lc_mem hnil))).resolve_left (lc_strip_ne hnil)
      rw [hl2, if_neg (by simp [hv])] at hq
      obtain ⟨e, he, h1, h2, h3⟩ := ih _ [] _ _ _ hq hnil (strip_canon _) (fun x hx => hvar x (hsub x hx)) (by
        intro x hx s hs
        rw [dGet_dSet] at hs
        split at hs
        · exact (Option.some.inj hs).symm
        · exact hctx x (hsub x hx) s hs) (fun h => hbt (hsub b h)) (fun h => hat (hsub a h)) hca' hcb'
      exact fin e he (by simpa using h1) h2 h3

theorem derAux_mem {x : R} : ∀ (l : List R) (k : ℕ), x ∈ derAux k l ↔ ∃ i, ∃ h : i < l.length, x = ((k + i : ℕ) : R) * l[i]
  | [], k => by simp [derAux]
  | c :: l, k => by
    rw [derAux, List.mem_cons, derAux_mem l (k + 1)]
    constructor
    · rintro (rfl | ⟨i, h, rfl⟩)
      · exact ⟨0, by simp, by simp⟩
      · exact ⟨i + 1, by simpa using h, by rw [List.getElem_cons_succ, show k + 1 + i = k + (i + 1) by omega]⟩
    · rintro ⟨i, h, rfl⟩
      cases i with
      | zero => left; simp
      | succ i => right; exact ⟨i, by simpa using h, by rw [List.getElem_cons_succ, show k + 1 + i = k + (i + 1) by omega]⟩

theorem strip_of_lc {l : List R} (h : l ≠ []) (hl : lc l ≠ 0) : strip l = l := by
  rw [← List.dropLast_append_getLast h]
  refine strip_snoc ?_ _
  unfold lc at hl
  rwa [List.getLastD_eq_getLast?, List.getLast?_eq_some_getLast h] at hl

theorem lc_derAux : ∀ (l : List R) (k : ℕ), l ≠ [] → lc (derAux k l) = ((k + l.length - 1 : ℕ) : R) * lc l
  | [c], k, _ => by simp [derAux, lc]
  | c :: d :: l, k, _ => by
    have := lc_derAux (d :: l) (k + 1) (by simp)
    rw [derAux]
    have e1 : lc ((k : R) * c :: derAux (k + 1) (d :: l)) = lc (derAux (k + 1) (d :: l)) := by simp [derAux, lc]
    have e2 : lc (c :: d :: l) = lc (d :: l) := by simp [lc]
    rw [e1, e2, this]
    congr 2
    simp only [List.length_cons]
    omega

/-- A polynomial of degree at least 2 whose coefficients above the linear one are 0 or have parameters. -/
theorem generic_raises [IsDomain R] [CharZero R] {A : MAlg R} (hA : AlgOK A) (fuel : ℕ) {b c : R} {l : List R}
    (hl : l ≠ []) (ha : A.hasVar (lc l) = true) (hb : b ≠ 0) (hba : lc l ≠ b)
    (hvar : ∀ i (h : i < l.length), l[i] = 0 ∨ A.hasVar (((i + 2 : ℕ) : R) * l[i]) = true)
    (hbl : ∀ i (h : i < l.length), b ≠ ((i + 2 : ℕ) : R) * l[i])
    (hal : ∀ i (h : i < l.length), lc l ≠ ((i + 2 : ℕ) : R) * l[i]) (r) :
    realTable A (fuel + 2) [c :: b :: l] [] ≠ .ok r := by
  have ha0 : lc l ≠ 0 := by intro h; rw [h, hA.zero] at ha; cases ha
  have hlen : 0 < l.length := List.length_pos_iff.2 hl
  have hdne : derAux 2 l ≠ [] := by
    cases l with
    | nil => exact absurd rfl hl
    | cons x l => simp [derAux]
  have hlcd : lc (derAux 2 l) ≠ 0 := by
    rw [lc_derAux l 2 hl]
    exact mul_ne_zero (by exact_mod_cast (by omega)) ha0
  have hd : derivative (c :: b :: l) = b :: derAux 2 l := by
    unfold derivative
    rw [List.tail_cons, derAux, Nat.cast_one, one_mul, strip_cons_ne hb, strip_of_lc hdne hlcd]
  have hmem : ∀ x ∈ derAux 2 l, (x = 0 ∨ A.hasVar x = true) ∧ b ≠ x ∧ lc l ≠ x := by
    intro x hx
    obtain ⟨i, hi, rfl⟩ := (derAux_mem l 2).1 hx
    rw [show 2 + i = i + 2 by omega]
    refine ⟨?_, hbl i hi, hal i hi⟩
    rcases hvar i hi with h | h
    · left; rw [h, mul_zero]
    · exact .inr h
  have hlq : lc (b :: derAux 2 l) = lc (derAux 2 l) := by
    unfold lc
    cases h : derAux 2 l with
    | nil => exact absurd h hdne
    | cons x t => rfl
  have hvq : A.hasVar (lc (b :: derAux 2 l)) = true := by
    rw [hlq]
    exact ((hmem _ (lc_mem hdne)).1).resolve_left hlcd
  have hlp : lc (c :: b :: l) = lc l := by
    unfold lc
    cases l with
    | nil => exact absurd rfl hl
    | cons x t => rfl
  have hcan : Canon (b :: derAux 2 l) := by
    unfold Canon
    rw [strip_cons_ne hb, strip_of_lc hdne hlcd]
  intro hr
  obtain ⟨exp, hexp, -, -⟩ := expandContext_ok (K := ℝ) hA (ctxOK_nil A) [b :: derAux 2 l] (by simpa using hcan)
  have hent : ∃ e ∈ exp, e.2.1 = [[b]] ∧ dGet e.1 (lc l) = none ∧ (A.hasVar b = true → ∃ s, dGet e.1 b = some s) := by
    unfold expandContext at hexp
    simp only [expandContext, bind, Except.bind, hvq, Bool.true_eq_false, if_false] at hexp
    split at hexp
    · cases hexp
    · next rs hrs =>
      cases hexp
      obtain ⟨bs, hbs, hbs'⟩ := mapM_at hrs _ (List.mem_singleton_self _)
      split at hbs'
      · cases hbs'
      · next out hout =>
        cases hbs'
        obtain ⟨e, he, h1, h2, h3⟩ := expandVar_down hb hba _ _ _ _ _ _ hout hdne
          (strip_of_lc hdne hlcd) (fun x hx => (hmem x hx).1) (by simp [dGet]) (fun h => (hmem _ h).2.1 rfl)
          (fun h => (hmem _ h).2.2 rfl) (by simp [dGet]) (by simp [dGet])
        exact ⟨e, List.mem_flatten.2 ⟨_, hbs, he⟩, by simpa using h1, h2, h3⟩
  obtain ⟨⟨c', ps, mp⟩, hmem', rfl, hca, hcb⟩ := hent
  have hrec : ∃ tables, realTable A (fuel + 1) [[b]] c' = .ok tables ∧ ∃ t ∈ tables, dGet t.2 (lc l) = none := by
    have hdb : derivative [b] = [] := rfl
    have hdeg : degSet [[b]] = [[b]] := rfl
    have hlb : lc [b] = b := rfl
    by_cases hvb : A.hasVar b = true
    · obtain ⟨s, hs⟩ := hcb hvb
      have hs : dGet c' b = some s := hs
      refine ⟨_, by simp [realTable, hdeg, neededOf, hdb, initialTable, deg, hlb, hvb, hs]; rfl, ?_⟩
      simpa using hca
    · refine ⟨_, by simp [realTable, hdeg, neededOf, hdb, initialTable, deg, hlb, hvb]; rfl, ?_⟩
      simpa using hca
  obtain ⟨tables, hrec, ht⟩ := hrec
  refine realTable_raises (exp := exp) (by rw [hd]; simp) (by rw [hd]; exact hexp) ⟨_, hmem', ?_⟩ r hr
  refine chContext_raises (rems := []) (by simp) (by rw [hlp]; exact ha) ?_ ?_
  · simp [deg, pure, Except.pure]
  · intro tables' h
    have h' : realTable A (fuel + 1) [[b]] c' = .ok tables' := by simpa using h
    rw [hrec] at h'
    cases h'
    rw [hlp]
    exact ht

end Verif.Qe
