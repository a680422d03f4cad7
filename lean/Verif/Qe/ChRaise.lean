import Verif.Qe.ChEnds
import Verif.Qe.ChGeneric

/-!
# Inputs on which `real_full` of `cohenhorm.py` raises its exception
-/

set_option linter.unusedSectionVars false

namespace Verif.Qe

variable {R : Type} [CommRing R] [DecidableEq R]

theorem mapM_at {α β : Type} {f : α → Except QErr β} : ∀ {l : List α} {bs : List β}, l.mapM f = .ok bs →
    ∀ a ∈ l, ∃ b ∈ bs, f a = .ok b := by
  intro l bs h
  have h := mapM_inv h
  clear * - h
  induction h with
  | nil => simp
  | cons hab _ ih =>
    intro x hx
    rcases List.mem_cons.1 hx with rfl | hx
    · exact ⟨_, by simp, hab⟩
    · obtain ⟨b, hb, h⟩ := ih x hx
      exact ⟨b, by simp [hb], h⟩

/-- If a table of the recursive call for one expanded context does not have the sign of the leading coefficient
(which has parameters), the call for this context does not return. -/
theorem chContext_raises {A : MAlg R} {rec : List (List R) → Ctx R → Except QErr (List (Table R × Ctx R))}
    {polys : List (List R)} {p : List R} {needed : List (List R)} {e : Expanded R} {rems : List (List R)}
    (hlen : p.length ≠ 1) (hvar : A.hasVar (lc p) = true)
    (hrems : (e.2.1.filter fun g => decide (0 < deg g)).mapM (fun g => pseudoRem p g) = .ok rems)
    (hrec : ∀ tables, rec ((e.2.1 ++ rems).filter fun p => decide (p ≠ [])) e.1 = .ok tables →
      ∃ t ∈ tables, dGet t.2 (lc p) = none) (r) : chContext A rec polys p needed e ≠ .ok r := by
  intro h
  unfold chContext at h
  rw [hrems] at h
  simp only [bind, Except.bind] at h
  split at h
  · cases h
  next tables hrec' =>
  obtain ⟨t, htm, htn⟩ := hrec tables hrec'
  have hs : splitUnknown A p tables = tables := by
    unfold splitUnknown
    rw [if_neg fun h => hlen h.1]
  rw [hs] at h
  split at h
  · cases h
  · next rs hrs =>
    obtain ⟨b, -, hb⟩ := mapM_at hrs t htm
    unfold chTable at hb
    split at hb
    · cases hb
    · unfold extendSingle signCtx at hb
      simp [hvar, htn, bind, Except.bind] at hb

theorem realTable_raises {A : MAlg R} {fuel : ℕ} {p : List R} {c : Ctx R} {exp : List (Expanded R)}
    (hd : derivative p ≠ [])
    (hexp : expandContext A c [derivative p] = .ok exp)
    (hraise : ∃ e ∈ exp, ∀ r, chContext A (realTable A fuel) [p] p [derivative p] e ≠ .ok r) (r) :
    realTable A (fuel + 1) [p] c ≠ .ok r := by
  intro h
  have hdeg : degSet [p] = [p] := rfl
  have hn : neededOf p [] = [derivative p] := by simp [neededOf, hd, degAdd]
  unfold realTable at h
  rw [hdeg] at h
  simp only [hn, bind, Except.bind] at h
  rw [if_neg (by simp), hexp] at h
  simp only at h
  split at h
  · cases h
  · next rs hrs =>
    obtain ⟨e, he, hr⟩ := hraise
    obtain ⟨b, -, hb⟩ := mapM_at hrs e he
    exact hr _ hb

theorem realTable_branch {A : MAlg R} {fuel : ℕ} {polys rest nd : List (List R)} {q : List R} {c : Ctx R}
    {tables l : List (Table R × Ctx R)} {exp : List (Expanded R)} {e : Expanded R} (hds : degSet polys = q :: rest)
    (hnd : neededOf q rest = nd) (hne : nd ≠ []) (hexp : expandContext A c nd = .ok exp) (he : e ∈ exp)
    (hch : chContext A (realTable A fuel) polys q nd e = .ok l) (h : realTable A (fuel + 1) polys c = .ok tables) :
    ∀ t ∈ l, t ∈ tables := by
  cases polys with
  | nil => cases hds
  | cons p ps =>
    unfold realTable at h
    rw [hds] at h
    simp only [hnd, bind, Except.bind] at h
    rw [if_neg hne, hexp] at h
    simp only at h
    split at h
    · cases h
    · next rs hrs =>
      cases h
      obtain ⟨b, hb, hb'⟩ := mapM_at hrs e he
      rw [hch] at hb'
      cases hb'
      intro t ht
      exact List.mem_flatten.2 ⟨_, hb, ht⟩

theorem copyTable_cons (A : MAlg R) (x : List R × List (ℚ × ℤ)) (T : Table R) (p : List R) (ps : List (List R)) (c : Ctx R) :
    copyTable A (x :: T) (p :: ps) c = (do
      let copyCols ← (p :: ps).foldlM (copyRoots (x :: T) (triples (sortedCols x.2))) [0, 1]
      let first := copyCols.getD 0 0
      let pointBeforeFirst := (copyCols.getD 1 0 + first) / 2
      (p :: ps).foldlM (fun ret p => do
        let cells ← copyCols.mapM fun col => do
          let v ← tableLookup A (x :: T) p col c
          .ok (col, v)
        let v ← tableLookup A (x :: T) p first c
        .ok (dSet ret p (dSet cells pointBeforeFirst v))) []) := by
  unfold copyTable
  rw [if_neg (by simp)]

theorem strip_replicate (n : ℕ) : strip (List.replicate n (0 : R)) = [] := by
  induction n with
  | zero => rfl
  | succ n ih => simp [List.replicate_succ, strip, ih]

theorem derAux_zeros (n k : ℕ) (l : List R) :
    derAux k (List.replicate n (0 : R) ++ l) = List.replicate n 0 ++ derAux (k + n) l := by
  induction n generalizing k with
  | zero => rfl
  | succ n ih =>
    rw [List.replicate_succ, List.cons_append, derAux, ih, mul_zero, List.cons_append]
    congr 3; omega

theorem strip_snoc {x : R} (hx : x ≠ 0) : ∀ l : List R, strip (l ++ [x]) = l ++ [x]
  | [] => by simp [strip, hx]
  | a :: l => by
    rw [List.cons_append, strip, strip_snoc hx l]
    cases l <;> rfl

/-- `c + b*x + a*x^(n+2)` -/
def trinomial (n : ℕ) (a b c : R) : List R := c :: b :: (List.replicate n 0 ++ [a])

theorem derivative_trinomial [IsDomain R] [CharZero R] (n : ℕ) {a : R} (ha : a ≠ 0) (b c : R) :
    derivative (trinomial n a b c) = b :: (List.replicate n 0 ++ [((n + 2 : ℕ) : R) * a]) := by
  have h : ((n + 2 : ℕ) : R) * a ≠ 0 := mul_ne_zero (by exact_mod_cast (by omega : n + 2 ≠ 0)) ha
  unfold derivative trinomial
  rw [List.tail_cons, derAux, derAux_zeros]
  rw [show 1 + 1 + n = n + 2 by omega]
  simp only [derAux, Nat.cast_one, one_mul]
  exact strip_snoc h (b :: List.replicate n 0)

theorem lc_snoc (l : List R) (a : R) : lc (l ++ [a]) = a := by
  unfold lc
  rw [List.getLastD_eq_getLast?, List.getLast?_concat]
  rfl

theorem lc_trinomial (n : ℕ) (a b c : R) : lc (trinomial n a b c) = a := lc_snoc (c :: b :: List.replicate n 0) a

/-- The branch in which the leading coefficient of the derivative is 0 and `b` is not. -/
theorem trinomial_raises [IsDomain R] [CharZero R] {A : MAlg R} (h0 : A.hasVar 0 = false) (n fuel : ℕ) {a b c : R}
    (ha : A.hasVar a = true) (hna : A.hasVar (((n + 2 : ℕ) : R) * a) = true) (hb : b ≠ 0) (hba : b ≠ a)
    (hbn : b ≠ ((n + 2 : ℕ) : R) * a) (r) : realTable A (fuel + 2) [trinomial n a b c] [] ≠ .ok r := by
  have ha0 : a ≠ 0 := by rintro rfl; rw [h0] at ha; cases ha
  have hne : a ≠ ((n + 2 : ℕ) : R) * a := by
    intro h
    have h1 : ((n + 1 : ℕ) : R) * a = 0 := by push_cast at h ⊢; linear_combination -h
    rcases mul_eq_zero.1 h1 with h1 | h1
    · exact absurd (Nat.cast_eq_zero.1 h1) (by omega)
    · exact ha0 h1
  have hd := derivative_trinomial n ha0 b c
  set m := ((n + 2 : ℕ) : R) * a with hm
  have hlc : lc (b :: (List.replicate n 0 ++ [m])) = m := lc_snoc (b :: List.replicate n 0) m
  have htail : pTail (b :: (List.replicate n 0 ++ [m])) = [b] := by
    unfold pTail
    rw [← List.cons_append, List.dropLast_concat, strip, strip_replicate]
    simp [hb]
  have hlb : lc [b] = b := rfl
  have hln : lc ([] : List R) = 0 := rfl
  have htb : pTail [b] = [] := rfl
  have hqne : derivative (trinomial n a b c) ≠ [] := by rw [hd]; simp
  rw [← hd] at hlc htail
  have hp1 : (trinomial n a b c).length ≠ 1 := by simp [trinomial]
  have hlp := lc_trinomial n a b c
  have hqne' := hqne
  generalize hq : derivative (trinomial n a b c) = q at hlc htail hqne
  have key : ∃ exp, expandContext A [] [q] = .ok exp ∧ ∃ c' mp, (c', [[b]], mp) ∈ exp ∧ dGet c' a = none ∧
      (A.hasVar b = true → ∃ s, dGet c' b = some s) := by
    by_cases hvb : A.hasVar b = true
    · obtain ⟨k, hk⟩ : ∃ k, q.length = k + 1 := Nat.exists_eq_succ_of_ne_zero (by simpa using hqne)
      simp [expandContext, hlc, hna, expandVar, dGet, dSet, htail, hlb, hvb, hbn.symm, bind, Except.bind, pure, Except.pure,
        htb, hln, h0, expandScalar, hk, hqne]
      refine ⟨[(m, 0), (b, -1)], ⟨_, Or.inr (Or.inl ⟨rfl, rfl⟩)⟩, ?_, -1, b, by simp [hbn.symm]⟩
      intro x y hxy
      simp only [List.mem_cons, Prod.mk.injEq, List.not_mem_nil, or_false] at hxy
      rcases hxy with ⟨rfl, -⟩ | ⟨rfl, -⟩
      · exact hne.symm
      · exact hba
    · simp [expandContext, hlc, hna, expandVar, dGet, dSet, htail, hlb, hvb, bind, Except.bind, pure, Except.pure,
        hb, expandScalar]
      refine ⟨[(m, 0)], ⟨_, Or.inr (Or.inl ⟨rfl, rfl⟩)⟩, ?_⟩
      intro x y hxy
      simp only [List.mem_cons, Prod.mk.injEq, List.not_mem_nil, or_false] at hxy
      rw [hxy.1]
      exact hne.symm
  obtain ⟨exp, hexp, c', mp, hmem, hca, hcb⟩ := key
  have hrec : ∃ tables, realTable A (fuel + 1) [[b]] c' = .ok tables ∧ ∃ t ∈ tables, dGet t.2 a = none := by
    have hdb : derivative [b] = [] := rfl
    have hdeg : degSet [[b]] = [[b]] := rfl
    by_cases hvb : A.hasVar b = true
    · obtain ⟨s, hs⟩ := hcb hvb
      refine ⟨_, by simp [realTable, hdeg, neededOf, hdb, initialTable, deg, hlb, hvb, hs]; rfl, ?_⟩
      simp [hca]
    · refine ⟨_, by simp [realTable, hdeg, neededOf, hdb, initialTable, deg, hlb, hvb]; rfl, ?_⟩
      simp [hca]
  obtain ⟨tables, hrec, ht⟩ := hrec
  refine realTable_raises (exp := exp) hqne' ?_ ⟨_, hmem, ?_⟩ r
  · rw [hq]; exact hexp
  · refine chContext_raises (rems := []) hp1 (by rw [hlp]; exact ha) ?_ ?_
    · simp [deg, pure, Except.pure]
    · intro tables' h
      have h' : realTable A (fuel + 1) [[b]] c' = .ok tables' := by simpa using h
      rw [hrec] at h'
      cases h'
      rw [hlp]
      exact ht

/-- The branch in which the leading coefficient of the derivative of a quadratic polynomial is not 0. -/
theorem quadratic_raises [IsDomain R] [CharZero R] {A : MAlg R} (h0 : A.hasVar 0 = false)
    (hsign : ∀ k, A.hasVar k = false → k ≠ 0 → A.sign k ≠ 0) (fuel : ℕ) {a b c : R}
    (ha : A.hasVar a = true) (hna : A.hasVar (2 * a) = true) (hr : 4 * a * c - b ^ 2 ≠ 1) (r) :
    realTable A (fuel + 5) [[c, b, a]] [] ≠ .ok r := by
  have ha0 : a ≠ 0 := by rintro rfl; rw [h0] at ha; cases ha
  have hne : 2 * a ≠ a := by
    intro h
    exact ha0 (by linear_combination h)
  have h2a : 2 * a ≠ 0 := mul_ne_zero two_ne_zero ha0
  have hd : derivative [c, b, a] = [b, 2 * a] := by
    have := derivative_trinomial 0 ha0 b c
    simpa [trinomial] using this
  have hrem : pseudoRem [c, b, a] [b, 2 * a] = .ok (strip [a * (4 * a * c - b ^ 2)]) := by
    have e1 : 2 * a * a - a * (2 * a) = 0 := by ring
    have e2 : 2 * a * b - a * b = a * b := by ring
    by_cases hb : b = 0
    · subst hb
      by_cases hc : c = 0
      · simp [pseudoRem, pdivLoop, lc, lsub, strip, e1, hc]
      · simp [pseudoRem, pdivLoop, lc, lsub, strip, e1, hc, ha0]
        ring
    · have e3 : 2 * a * (a * b) - a * b * (2 * a) = 0 := by ring
      have e4 : 2 * a * (2 * a * c) - a * b * b = a * (4 * a * c - b ^ 2) := by ring
      by_cases h4 : 4 * a * c - b ^ 2 = 0
      · simp [pseudoRem, pdivLoop, lc, lsub, strip, e1, e2, e3, e4, hb, ha0, h4]
      · simp [pseudoRem, pdivLoop, lc, lsub, strip, e1, e2, e3, e4, hb, ha0, h4]
  have hra : a * (4 * a * c - b ^ 2) ≠ a := by
    intro h
    exact hr (mul_left_cancel₀ ha0 (by rw [h, mul_one]))
  generalize a * (4 * a * c - b ^ 2) = ρ at hrem hra
  generalize hm : 2 * a = m at *
  have hrec : ∀ tables, realTable A (fuel + 4) ([[b, m], strip [ρ]].filter fun p => decide (p ≠ [])) [(m, -1)] = .ok tables →
      ∃ t ∈ tables, dGet t.2 a = none := by
    intro tables
    have h1 : realTable A (fuel + 3) [[m]] [(m, -1)] = .ok [([([m], row3 (-1))], [(m, -1)])] := by
      simp [realTable, degSet, degAdd, neededOf, derivative, derAux, strip, initialTable, deg, lc, hna, dGet]
    have h2 : expandContext A [(m, -1)] [[m]] = .ok [([(m, -1)], [[m]], [([m], [m])])] := by
      simp [expandContext, lc, hna, expandVar, dGet, dSet, bind, Except.bind, pure, Except.pure]
    by_cases hρ : ρ = 0
    · have : ([[b, m], strip [ρ]].filter fun p => decide (p ≠ [])) = [[b, m]] := by simp [strip, hρ]
      rw [this]
      intro h
      have h3 : chContext A (realTable A (fuel + 3)) [[b, m]] [b, m] [[m]] ([(m, -1)], [[m]], [([m], [m])]) = .ok
        [([([b, m], [(0, 1), (1/2, 0), (3/4, -1), (1, -1), (1/4, 1)])], [(m, -1)])] := by
        norm_num [chContext, deg, pure, Except.pure, bind, Except.bind, h1, splitUnknown, chTable, extendSingle, signCtx, lc,
        hna, dGet, copyTable_cons, row3, sortedCols, triples, copyRoots, dRead, dSet, dWrite, tableLookup, dRow, hasVariable, chRoots,
        chGaps, chGap, tableMapBack, mapBackRow, colAdd]
      exact ⟨_, realTable_branch (nd := [[m]]) rfl (by simp [neededOf, degAdd, derivative, derAux, strip, h2a]) (by simp) h2
        (by simp) h3 h _ List.mem_cons_self, by simp [dGet, hne]⟩
    have hf : ([[b, m], strip [ρ]].filter fun p => decide (p ≠ [])) = [[b, m], [ρ]] := by simp [strip, hρ]
    rw [hf]
    have hds : degSet [[b, m], [ρ]] = [[b, m], [ρ]] := by simp [degSet, degAdd]
    intro h
    by_cases hρm : ρ = m
    · subst hρm
      have h3 : chContext A (realTable A (fuel + 3)) [[b, ρ], [ρ]] [b, ρ] [[ρ]] ([(ρ, -1)], [[ρ]], [([ρ], [ρ])]) = .ok
        [([([b, ρ], [(0, 1), (1/2, 0), (3/4, -1), (1, -1), (1/4, 1)]), ([ρ], [(0, -1), (1/2, -1), (3/4, -1), (1, -1), (1/4, -1)])],
          [(ρ, -1)])] := by
        norm_num [chContext, deg, pure, Except.pure, bind, Except.bind, h1, splitUnknown, chTable, extendSingle, signCtx, lc,
        hna, dGet, copyTable_cons, row3, sortedCols, triples, copyRoots, dRead, dSet, dWrite, tableLookup, dRow, hasVariable, chRoots,
        chGaps, chGap, tableMapBack, mapBackRow, colAdd]
      exact ⟨_, realTable_branch (nd := [[ρ]]) hds (by simp [neededOf, derivative, derAux, strip, h2a]) (by simp) h2
        (by simp) h3 h _ List.mem_cons_self, by simp [dGet, hne]⟩
    have hnd : neededOf [b, m] [[ρ]] = [[ρ], [m]] := by
      simp [neededOf, degAdd, derivative, derAux, strip, h2a, Ne.symm hρm]
    by_cases hv : A.hasVar ρ = true
    · have h4 : realTable A (fuel + 2) [[ρ]] [(m, -1), (ρ, -1)] = .ok [([([ρ], row3 (-1))], [(m, -1), (ρ, -1)])] := by
        simp [realTable, degSet, degAdd, neededOf, derivative, derAux, strip, initialTable, deg, lc, hv, dGet, Ne.symm hρm]
      have h5 : realTable A (fuel + 3) [[m], [ρ]] [(m, -1), (ρ, -1)] =
          .ok [([([m], [(0, -1), (1, -1), (1/2, -1)]), ([ρ], [(0, -1), (1, -1), (1/2, -1)])], [(m, -1), (ρ, -1)])] := by
        have hds : degSet [[m], [ρ]] = [[m], [ρ]] := by simp [degSet, degAdd, hρm]
        have hnd : neededOf [m] [[ρ]] = [[ρ]] := by simp [neededOf, derivative, derAux, strip]
        have hexp : expandContext A [(m, -1), (ρ, -1)] [[ρ]] = .ok [([(m, -1), (ρ, -1)], [[ρ]], [([ρ], [ρ])])] := by
          simp [expandContext, lc, hv, expandVar, dGet, dSet, bind, Except.bind, pure, Except.pure, Ne.symm hρm]
        have hch : chContext A (realTable A (fuel + 2)) [[m], [ρ]] [m] [[ρ]] ([(m, -1), (ρ, -1)], [[ρ]], [([ρ], [ρ])]) =
            .ok [([([m], [(0, -1), (1, -1), (1/2, -1)]), ([ρ], [(0, -1), (1, -1), (1/2, -1)])], [(m, -1), (ρ, -1)])] := by
          norm_num [chContext, deg, pure, Except.pure, bind, Except.bind, h4, splitUnknown, chTable, extendSingle, signCtx, lc,
        hna, dGet, copyTable_cons, row3, sortedCols, triples, copyRoots, dRead, dSet, dWrite, tableLookup, dRow, hasVariable, chRoots,
        chGaps, chGap, tableMapBack, mapBackRow, colAdd, hv, hρm, Ne.symm hρm]
        unfold realTable
        rw [hds]
        simp only [hnd, bind, Except.bind]
        rw [if_neg (by simp), hexp]
        simp [hch, pure, Except.pure, bind, Except.bind]
      have h6 : chContext A (realTable A (fuel + 3)) [[b, m], [ρ]] [b, m] [[ρ], [m]]
          ([(m, -1), (ρ, -1)], [[m], [ρ]], [([m], [m]), ([ρ], [ρ])]) = .ok
          [([([b, m], [(0, 1), (1/2, 0), (3/4, -1), (1, -1), (1/4, 1)]), ([ρ], [(0, -1), (1/2, -1), (3/4, -1), (1, -1), (1/4, -1)])],
          [(m, -1), (ρ, -1)])] := by
        norm_num [chContext, deg, pure, Except.pure, bind, Except.bind, h5, splitUnknown, chTable, extendSingle, signCtx, lc,
        hna, dGet, copyTable_cons, row3, sortedCols, triples, copyRoots, dRead, dSet, dWrite, tableLookup, dRow, hasVariable, chRoots,
        chGaps, chGap, tableMapBack, mapBackRow, colAdd, hv, hρm, Ne.symm hρm]
      have h7 : ∃ l, expandContext A [(m, -1)] [[ρ], [m]] =
          .ok (([(m, -1), (ρ, -1)], [[m], [ρ]], [([m], [m]), ([ρ], [ρ])]) :: l) := by
        unfold expandContext
        rw [h2]
        simp [lc, hv, expandVar, dGet, dSet, bind, Except.bind, pure, Except.pure, Ne.symm hρm, pTail, strip, h0, expandScalar]
      obtain ⟨l, h7⟩ := h7
      exact ⟨_, realTable_branch hds hnd (by simp) h7 List.mem_cons_self h6 h _ List.mem_cons_self,
        by simp [dGet, hne, hra]⟩
    · have hv : A.hasVar ρ = false := eq_false_of_ne_true hv
      have hs0 := hsign ρ hv hρ
      have h4 : realTable A (fuel + 2) [[m]] [(m, -1)] = .ok [([([m], row3 (-1))], [(m, -1)])] := by
        simp [realTable, degSet, degAdd, neededOf, derivative, derAux, strip, initialTable, deg, lc, hna, dGet]
      have h5 : realTable A (fuel + 3) [[ρ], [m]] [(m, -1)] =
          .ok [([([ρ], [(0, A.sign ρ), (1, A.sign ρ), (1/2, A.sign ρ)]), ([m], [(0, -1), (1, -1), (1/2, -1)])], [(m, -1)])] := by
        have hds : degSet [[ρ], [m]] = [[ρ], [m]] := by simp [degSet, degAdd, Ne.symm hρm]
        have hnd : neededOf [ρ] [[m]] = [[m]] := by simp [neededOf, derivative, derAux, strip]
        have hch : chContext A (realTable A (fuel + 2)) [[ρ], [m]] [ρ] [[m]] ([(m, -1)], [[m]], [([m], [m])]) =
            .ok [([([ρ], [(0, A.sign ρ), (1, A.sign ρ), (1/2, A.sign ρ)]), ([m], [(0, -1), (1, -1), (1/2, -1)])], [(m, -1)])] := by
          norm_num [chContext, deg, pure, Except.pure, bind, Except.bind, h4, splitUnknown, chTable, extendSingle, signCtx, lc,
        hna, dGet, copyTable_cons, row3, sortedCols, triples, copyRoots, dRead, dSet, dWrite, tableLookup, dRow, hasVariable, chRoots,
        chGaps, chGap, tableMapBack, mapBackRow, colAdd, hv, hρm, Ne.symm hρm, hs0]
        unfold realTable
        rw [hds]
        simp only [hnd, bind, Except.bind]
        rw [if_neg (by simp), h2]
        simp [hch, pure, Except.pure, bind, Except.bind]
      have h6 : ∃ T, chContext A (realTable A (fuel + 3)) [[b, m], [ρ]] [b, m] [[ρ], [m]]
          ([(m, -1)], [[ρ], [m]], [([m], [m]), ([ρ], [ρ])]) = .ok [(T, [(m, -1)])] := by
        norm_num [chContext, deg, pure, Except.pure, bind, Except.bind, h5, splitUnknown, chTable, extendSingle, signCtx, lc,
        hna, dGet, copyTable_cons, row3, sortedCols, triples, copyRoots, dRead, dSet, dWrite, tableLookup, dRow, hasVariable, chRoots,
        chGaps, chGap, tableMapBack, mapBackRow, colAdd, hv, hρm, Ne.symm hρm, hs0]
      obtain ⟨T, h6⟩ := h6
      have h7 : expandContext A [(m, -1)] [[ρ], [m]] = .ok [([(m, -1)], [[ρ], [m]], [([m], [m]), ([ρ], [ρ])])] := by
        unfold expandContext
        rw [h2]
        simp [lc, hv, hρ, Ne.symm hρm, dSet, bind, Except.bind]
      exact ⟨_, realTable_branch hds hnd (by simp) h7 List.mem_cons_self h6 h _ List.mem_cons_self, by simp [dGet, hne]⟩
  have hexp : ∃ l, expandContext A [] [derivative [c, b, a]] = .ok (([(m, -1)], [[b, m]], [([b, m], [b, m])]) :: l) := by
    rw [hd]
    by_cases hb : b = 0
    · simp [expandContext, lc, hna, expandVar, dGet, dSet, bind, Except.bind, pure, Except.pure, h0, expandScalar, pTail, strip, hb]
    · by_cases hvb : A.hasVar b = true
      · by_cases hbm : b = m
        · simp [expandContext, lc, hna, expandVar, dGet, dSet, bind, Except.bind, pure, Except.pure, h0, expandScalar, pTail, strip,
            hbm, h2a]
        · simp [expandContext, lc, hna, expandVar, dGet, dSet, bind, Except.bind, pure, Except.pure, h0, expandScalar, pTail, strip,
            hb, hvb, Ne.symm hbm]
      · simp [expandContext, lc, hna, expandVar, dGet, dSet, bind, Except.bind, pure, Except.pure, expandScalar, pTail, strip,
          hb, hvb]
  obtain ⟨l, hexp⟩ := hexp
  refine realTable_raises (by rw [hd]; simp) hexp ⟨_, List.mem_cons_self, ?_⟩ r
  refine chContext_raises (rems := [strip [ρ]]) (by simp) (by simpa [lc] using ha) ?_ ?_
  · simp [deg, pure, Except.pure, hrem, bind, Except.bind]
  · simpa [lc] using hrec

end Verif.Qe
