import Verif.Qe.ChDepth
import Verif.Qe.PropsCohenHormander
import Verif.Qe.ZPoly

/-!
# C98, C99: termination and depth of the Cohen-Hörmander procedure

`R`, the lists of coefficients, `poly` and `Normal` are as in `PropsMuchnik`; `fuel` is the permitted depth of the
recursion of `_real_table`.
-/

set_option linter.unusedSectionVars false

open Polynomial

namespace Verif.Qe

variable {R : Type} [CommRing R] [DecidableEq R]

theorem nf_filterM {α : Type} {f : α → Except QErr Bool} (l : List α) (h : ∀ a ∈ l, NF (f a)) : NF (l.filterM f) := by
  have aux : ∀ (l acc : List α), (∀ a ∈ l, NF (f a)) → NF (l.filterAuxM f acc) := by
    intro l
    induction l with
    | nil => intro acc _; exact nf_ok _
    | cons a l ih =>
      intro acc h
      show NF (do let b ← f a; List.filterAuxM f l (cond b (a :: acc) acc))
      exact nf_bind (h a (by simp)) fun b _ => ih _ fun x hx => h x (by simp [hx])
  show NF (do let as ← List.filterAuxM f l []; pure as.reverse)
  exact nf_bind (aux l [] h) fun _ _ => nf_ok _

theorem nf_filterCols {κ : Type} [DecidableEq κ] (D : Diagram R κ) (v : ℤ) : ∀ (qs : List (List R)) (cols : List κ),
    NF (filterCols D v qs cols) := by
  intro qs
  induction qs with
  | nil => intro cols; exact nf_ok _
  | cons q qs ih =>
    intro cols
    unfold filterCols
    refine nf_bind (nf_filterM _ fun a _ => nf_bind (nf_dRead _ _ _) fun w _ => nf_ok _) fun c _ => ?_
    split
    · exact nf_ok _
    · exact ih c

theorem nf_chGood (ls es gs : List (List R)) (T : Table R) : NF (chGood ls es gs T) := by
  unfold chGood
  split
  · exact nf_err (by decide)
  · exact nf_bind (nf_filterCols _ _ _ _) fun _ _ => nf_bind (nf_filterCols _ _ _ _) fun _ _ =>
      nf_bind (nf_filterCols _ _ _ _) fun _ _ => nf_ok _

theorem length_le_of_natDegree {p : List R} (hn : Normal p) {d : ℕ} (h : (poly p).natDegree ≤ d) : p.length ≤ d + 1 := by
  rw [poly_eq, natDegree_toPoly (canon_of_normal hn)] at h
  unfold deg at h
  omega

/-! ### C98 -/

/-- The depth of the recursion: `n` polynomials of degree `d` are taken one after the other, and each may double the
number of the polynomials that have smaller degree. -/
def depthBound : ℕ → ℕ → ℕ
  | 0, n => n + 1
  | d + 1, n => n + depthBound d (2 ^ n * n)

theorem depthBound_eq : ∀ d n : ℕ, depthBound d n = chDepth (d + 1) n := by
  intro d
  induction d with
  | zero => intro n; rfl
  | succ d ih => intro n; rw [depthBound, ih]; rfl

/-- **C98**: on every input `real_full` ends, with an answer or with an exception, and the depth of the recursion is at
most `depthBound d n` for `n` polynomials of degree at most `d`: nothing changes when a greater depth is permitted. -/
theorem C98_depth (A : MAlg R) (h0 : A.hasVar 0 = false) (lesser eqs greater : List (List R))
    (hn : ∀ p ∈ lesser ++ eqs ++ greater, Normal p) (d : ℕ)
    (hd : ∀ p ∈ lesser ++ eqs ++ greater, (poly p).natDegree ≤ d) :
    ∃ out : Except QErr (List (List R × List R × List R)), out ≠ .error .outOfFuel ∧
      ∀ fuel ≥ depthBound d (lesser.length + eqs.length + greater.length), chFull A fuel lesser eqs greater = out := by
  rw [depthBound_eq]
  have hlen : (lesser ++ eqs ++ greater).length = lesser.length + eqs.length + greater.length := by
    rw [List.length_append, List.length_append]
  have hT : NF (realTable A (chDepth (d + 1) (lesser.length + eqs.length + greater.length)) (lesser ++ eqs ++ greater) []) :=
    nf_realTable h0 (d + 1) _ _ _ _ (fun p hp => length_le_of_natDegree (hn p hp) (hd p hp)) hlen.le le_rfl
  refine ⟨chFull A (chDepth (d + 1) (lesser.length + eqs.length + greater.length)) lesser eqs greater, ?_, ?_⟩
  · unfold chFull
    refine nf_bind hT fun ts _ => nf_bind (nf_filterM _ fun t _ => nf_chGood _ _ _ _) fun _ _ => nf_ok _
  · intro fuel hf
    unfold chFull
    rw [realTable_stable A _ _ _ hT fuel hf]

/-- **C98** for `real_table`: the same bound for the tables. -/
theorem C98_tables (A : MAlg R) (h0 : A.hasVar 0 = false) (polys : List (List R)) (hn : ∀ p ∈ polys, Normal p) (d : ℕ)
    (hd : ∀ p ∈ polys, (poly p).natDegree ≤ d) (c : Ctx R) :
    ∃ out : Except QErr (List (Table R × Ctx R)), out ≠ .error .outOfFuel ∧
      ∀ fuel ≥ depthBound d polys.length, realTable A fuel polys c = out := by
  rw [depthBound_eq]
  have hT : NF (realTable A (chDepth (d + 1) polys.length) polys c) :=
    nf_realTable h0 (d + 1) _ _ _ _ (fun p hp => length_le_of_natDegree (hn p hp) (hd p hp)) le_rfl le_rfl
  exact ⟨_, hT, fun fuel hf => realTable_stable A _ _ _ hT fuel hf⟩

theorem natDegree_le_len {l : List R} {d : ℕ} (h : l.length ≤ d + 1) : (poly l).natDegree ≤ d := by
  rw [poly_eq]
  exact (natDegree_le_length _).trans (by omega)

-- C98: `y x > 0 ∧ x - 1 < 0`, with coefficients in `ℤ[y]`
example : ZY.alg.hasVar 0 = false ∧ ∀ p ∈ [[-1, 1]] ++ [] ++ [[0, ZY.y]], (poly p).natDegree ≤ 1 := by
  refine ⟨rfl, fun p hp => ?_⟩
  simp only [List.append_nil, List.singleton_append, List.mem_cons, List.not_mem_nil, or_false] at hp
  rcases hp with rfl | rfl <;> exact natDegree_le_len (by decide)

example : depthBound 1 2 = 11 := by decide

/-! ### C99 -/

/-- **C99** is violated: whatever depth of recursion is permitted, `real_full` does not answer when the polynomials have
no parameters and some nonzero one has at least that degree. (In Python the default is 1000, from which the frames of
the callers have to be subtracted.) -/
theorem C99_violated [IsDomain R] [CharZero R] (A : MAlg R) (hpar : ∀ c, A.hasVar c = false) (limit : ℕ)
    (lesser eqs greater : List (List R)) (hn : ∀ q ∈ lesser ++ eqs ++ greater, Normal q) (p : List R)
    (hp : p ∈ lesser ++ eqs ++ greater) (h0 : p ≠ []) (hdeg : limit ≤ (poly p).natDegree) :
    chFull A limit lesser eqs greater = .error .outOfFuel := by
  unfold chFull
  rw [realTable_deep hpar limit _ _ (fun q hq => canon_of_normal (hn q hq)) ⟨p, hp, h0, by
    rwa [poly_eq, natDegree_toPoly (canon_of_normal (hn p hp))] at hdeg⟩]
  rfl

-- C99: `x¹⁰⁰⁰`
example : Normal (List.replicate 1000 (0 : ℤ) ++ [1]) ∧ (List.replicate 1000 (0 : ℤ) ++ [1]) ≠ [] ∧
    1000 ≤ (poly (List.replicate 1000 (0 : ℤ) ++ [1])).natDegree := by
  have h : Normal (List.replicate 1000 (0 : ℤ) ++ [1]) := by
    intro h
    rw [List.getLast_append_of_ne_nil _ (by simp)]
    simp
  refine ⟨h, List.append_ne_nil_of_right_ne_nil _ (List.cons_ne_nil _ _), ?_⟩
  rw [poly_eq, natDegree_toPoly (canon_of_normal h), deg, List.length_append, List.length_replicate]
  simp

example : ∀ c : ℤ, intAlg.hasVar c = false := fun _ => rfl

/-- What holds instead of **C99**: the limit is not exceeded when it is at least `depthBound d n` (missing: that grows
like a tower of `d` exponents, and is not 1000). -/
theorem C99_partial (A : MAlg R) (h0 : A.hasVar 0 = false) (lesser eqs greater : List (List R))
    (hn : ∀ p ∈ lesser ++ eqs ++ greater, Normal p) (d limit : ℕ)
    (hd : ∀ p ∈ lesser ++ eqs ++ greater, (poly p).natDegree ≤ d)
    (hl : depthBound d (lesser.length + eqs.length + greater.length) ≤ limit) :
    chFull A limit lesser eqs greater ≠ .error .outOfFuel := by
  obtain ⟨out, h1, h2⟩ := C98_depth A h0 lesser eqs greater hn d hd
  rw [h2 limit hl]
  exact h1

-- C99_partial: seven linear polynomials, one of degree 2; for one of degree 3 the bound is greater than 1000
example : depthBound 1 7 = 904 ∧ depthBound 2 1 = 12 ∧ depthBound 3 1 = 2060 := by decide +kernel

end Verif.Qe
