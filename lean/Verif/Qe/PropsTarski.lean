import Verif.Qe.PropsBlocks

/-!
# C110: quantifier elimination for all formulas, and decisions of all sentences

`Muchniker.real_full` and `Muchniker.complex_full` (`muchnik.py:392-504, 661-790`) take one quantifier and one
conjunction. Here they are used for formulas with any nesting of quantifiers and connectives, in the way that their
results (disjunctions of conjunctions of polynomial conditions) are meant to be used: `and`, `or` and `not` are
calculated on disjunctions of conjunctions, and every quantifier is one call of the procedure for every conjunction
(`elimVar` of `Qe/PropsBlocks.lean`). These loops are the user's; the procedures are those of the model.
-/

set_option linter.unusedSectionVars false

open Polynomial Verif.Alg

namespace Verif.Qe

noncomputable local instance : DecidableEq MvP := Classical.decEq _

/-- First-order formulas about the real numbers. -/
inductive Fm where
  /-- `p < 0` -/
  | lt (p : MvP)
  /-- `p = 0` -/
  | eq (p : MvP)
  /-- `p > 0` -/
  | gt (p : MvP)
  | not (f : Fm)
  | and (f g : Fm)
  | or (f g : Fm)
  | ex (i : ℕ) (f : Fm)
  | all (i : ℕ) (f : Fm)

/-- Truth in an ordered field. -/
def Fm.holds {K : Type} [Field K] [LinearOrder K] [IsStrictOrderedRing K] : Fm → (ℕ → K) → Prop
  | .lt p, ρ => valueAt ρ p < 0
  | .eq p, ρ => valueAt ρ p = 0
  | .gt p, ρ => 0 < valueAt ρ p
  | .not f, ρ => ¬ f.holds ρ
  | .and f g, ρ => f.holds ρ ∧ g.holds ρ
  | .or f g, ρ => f.holds ρ ∨ g.holds ρ
  | .ex i f, ρ => ∃ x, f.holds (Function.update ρ i x)
  | .all i f, ρ => ∀ x, f.holds (Function.update ρ i x)

/-- The free variables. -/
def Fm.free : Fm → Set ℕ
  | .lt p => {i | i ∈ p.vars}
  | .eq p => {i | i ∈ p.vars}
  | .gt p => {i | i ∈ p.vars}
  | .not f => f.free
  | .and f g => f.free ∪ g.free
  | .or f g => f.free ∪ g.free
  | .ex i f => f.free \ {i}
  | .all i f => f.free \ {i}

/-- The conjunction of two disjunctions of conjunctions. -/
def andDnf (F G : List Conj) : List Conj :=
  F.flatMap fun a => G.map fun b => (a.1 ++ b.1, a.2.1 ++ b.2.1, a.2.2 ++ b.2.2)

/-- The negation of a conjunction. -/
def negConj (z : Conj) : List Conj :=
  (z.1.flatMap fun p => [([], [p], []), ([], [], [p])]) ++ (z.2.1.flatMap fun p => [([p], [], []), ([], [], [p])]) ++
    z.2.2.flatMap fun p => [([p], [], []), ([], [p], [])]

/-- The negation of a disjunction of conjunctions. -/
def negDnf : List Conj → List Conj
  | [] => [([], [], [])]
  | z :: F => andDnf (negConj z) (negDnf F)

/-- Elimination of all quantifiers, from the inside to the outside, with a call of `real_full` (`muchnik.py:661-790`) for
every quantifier and every conjunction. -/
noncomputable def qeAll (A : MAlg MvP) (fuel : ℕ) : Fm → Except QErr (List Conj)
  | .lt p => .ok [([p], [], [])]
  | .eq p => .ok [([], [p], [])]
  | .gt p => .ok [([], [], [p])]
  | .not f => do
    let F ← qeAll A fuel f
    .ok (negDnf F)
  | .and f g => do
    let F ← qeAll A fuel f
    let G ← qeAll A fuel g
    .ok (andDnf F G)
  | .or f g => do
    let F ← qeAll A fuel f
    let G ← qeAll A fuel g
    .ok (F ++ G)
  | .ex i f => do
    let F ← qeAll A fuel f
    elimVar A fuel i F
  | .all i f => do
    let F ← qeAll A fuel f
    let G ← elimVar A fuel i (negDnf F)
    .ok (negDnf G)

/-- The verdict on a sentence: the signs of the constants that are left (`sympywrapper.py:47-62`). -/
noncomputable def decideFm (A : MAlg MvP) (fuel : ℕ) (f : Fm) : Except QErr Bool := do
  let F ← qeAll A fuel f
  .ok (F.any fun z => z.1.all (fun p => decide (A.sign p = -1)) && z.2.1.all (fun p => decide (A.sign p = 0)) &&
    z.2.2.all fun p => decide (A.sign p = 1))

section
variable {K : Type} [Field K] [LinearOrder K] [IsStrictOrderedRing K]

theorem andDnf_holds (F G : List Conj) (ρ : ℕ → K) :
    (∃ y ∈ andDnf F G, y.holds ρ) ↔ (∃ y ∈ F, y.holds ρ) ∧ ∃ y ∈ G, y.holds ρ := by
  constructor
  · rintro ⟨y, hy, h⟩
    obtain ⟨a, ha, hy⟩ := List.mem_flatMap.1 hy
    obtain ⟨b, hb, rfl⟩ := List.mem_map.1 hy
    obtain ⟨h1, h2, h3⟩ := h
    simp only [List.mem_append] at h1 h2 h3
    exact ⟨⟨a, ha, fun p hp => h1 p (.inl hp), fun p hp => h2 p (.inl hp), fun p hp => h3 p (.inl hp)⟩,
      ⟨b, hb, fun p hp => h1 p (.inr hp), fun p hp => h2 p (.inr hp), fun p hp => h3 p (.inr hp)⟩⟩
  · rintro ⟨⟨a, ha, a1, a2, a3⟩, b, hb, b1, b2, b3⟩
    refine ⟨_, List.mem_flatMap.2 ⟨a, ha, List.mem_map.2 ⟨b, hb, rfl⟩⟩, ?_, ?_, ?_⟩
    · intro p hp; rcases List.mem_append.1 hp with h | h; exacts [a1 p h, b1 p h]
    · intro p hp; rcases List.mem_append.1 hp with h | h; exacts [a2 p h, b2 p h]
    · intro p hp; rcases List.mem_append.1 hp with h | h; exacts [a3 p h, b3 p h]

theorem negConj_holds (z : Conj) (ρ : ℕ → K) : (∃ y ∈ negConj z, y.holds ρ) ↔ ¬ z.holds ρ := by
  simp only [negConj, List.mem_append, List.mem_flatMap, List.mem_cons, List.not_mem_nil, or_false]
  constructor
  · rintro ⟨y, ((⟨p, hp, rfl | rfl⟩ | ⟨p, hp, rfl | rfl⟩) | ⟨p, hp, rfl | rfl⟩), h⟩ ⟨h1, h2, h3⟩ <;>
      simp only [Conj.holds, List.mem_singleton, forall_eq, List.not_mem_nil, false_implies, implies_true, true_and, and_true] at h
    · exact (h1 p hp).ne h
    · exact (h1 p hp).not_gt h
    · exact h.ne (h2 p hp)
    · exact h.ne' (h2 p hp)
    · exact (h3 p hp).not_gt h
    · exact (h3 p hp).ne' h
  · intro h
    by_contra hno
    refine h ⟨fun p hp => ?_, fun p hp => ?_, fun p hp => ?_⟩ <;> by_contra hh <;> apply hno
    · rcases (not_lt.1 hh).eq_or_lt with e | e
      · exact ⟨_, .inl (.inl ⟨p, hp, .inl rfl⟩), by simp [Conj.holds, e.symm]⟩
      · exact ⟨_, .inl (.inl ⟨p, hp, .inr rfl⟩), by simp [Conj.holds, e]⟩
    · rcases lt_or_gt_of_ne hh with e | e
      · exact ⟨_, .inl (.inr ⟨p, hp, .inl rfl⟩), by simp [Conj.holds, e]⟩
      · exact ⟨_, .inl (.inr ⟨p, hp, .inr rfl⟩), by simp [Conj.holds, e]⟩
    · rcases (not_lt.1 hh).eq_or_lt with e | e
      · exact ⟨_, .inr ⟨p, hp, .inr rfl⟩, by simp [Conj.holds, e]⟩
      · exact ⟨_, .inr ⟨p, hp, .inl rfl⟩, by simp [Conj.holds, e]⟩

theorem negDnf_holds (F : List Conj) (ρ : ℕ → K) : (∃ y ∈ negDnf F, y.holds ρ) ↔ ¬ ∃ y ∈ F, y.holds ρ := by
  induction F with
  | nil => simp [negDnf, Conj.holds]
  | cons z F ih =>
    rw [negDnf, andDnf_holds, negConj_holds, ih]
    simp

end

/-- All variables are in `W`. -/
def VarsIn (W : Set ℕ) (F : List Conj) : Prop := ∀ y ∈ F, ∀ p ∈ y.1 ++ y.2.1 ++ y.2.2, ∀ i ∈ p.vars, i ∈ W

theorem VarsIn.mono {W W' : Set ℕ} {F : List Conj} (h : VarsIn W F) (hW : W ⊆ W') : VarsIn W' F :=
  fun y hy p hp i hi => hW (h y hy p hp i hi)

theorem VarsIn.append {W : Set ℕ} {F G : List Conj} (hF : VarsIn W F) (hG : VarsIn W G) : VarsIn W (F ++ G) := by
  intro y hy
  rcases List.mem_append.1 hy with h | h
  exacts [hF y h, hG y h]

theorem VarsIn.andDnf {W : Set ℕ} {F G : List Conj} (hF : VarsIn W F) (hG : VarsIn W G) : VarsIn W (andDnf F G) := by
  intro y hy p hp
  obtain ⟨a, ha, hy⟩ := List.mem_flatMap.1 hy
  obtain ⟨b, hb, rfl⟩ := List.mem_map.1 hy
  have := hF a ha p
  have := hG b hb p
  simp only [List.mem_append] at *
  tauto

theorem VarsIn.negDnf {W : Set ℕ} {F : List Conj} (hF : VarsIn W F) : VarsIn W (negDnf F) := by
  induction F with
  | nil => intro y hy; simp only [Verif.Qe.negDnf, List.mem_singleton] at hy; subst hy; simp
  | cons z F ih =>
    refine VarsIn.andDnf ?_ (ih fun y hy => hF y (List.mem_cons_of_mem _ hy))
    have hz := hF z (List.mem_cons_self ..)
    intro y hy p hp
    refine hz p ?_
    simp only [negConj, List.mem_append, List.mem_flatMap, List.mem_cons, List.not_mem_nil, or_false] at hy
    rcases hy with ((⟨q, hq, rfl | rfl⟩ | ⟨q, hq, rfl | rfl⟩) | ⟨q, hq, rfl | rfl⟩) <;> simp at hp <;> subst hp <;>
      simp [hq]

/-- **C110** for the real numbers: for every formula the elimination ends without an exception; the result is a
disjunction of conjunctions that holds, in every real closed field, at the same points as the formula, and has only
variables that are free in the formula. -/
theorem C110_real (A : MAlg MvP) (hA : SympyOK A) (f : Fm) :
    ∃ N G, (∀ fuel ≥ N, qeAll A fuel f = .ok G) ∧
      (∀ {K : Type} [Field K] [LinearOrder K] [IsStrictOrderedRing K] [PolyIVT K] (ρ : ℕ → K),
        (∃ y ∈ G, y.holds ρ) ↔ f.holds ρ) ∧
      ∀ y ∈ G, ∀ p ∈ y.1 ++ y.2.1 ++ y.2.2, ∀ i ∈ p.vars, i ∈ f.free := by
  induction f with
  | lt p => exact ⟨0, _, fun _ _ => rfl, fun ρ => by simp [Conj.holds, Fm.holds], by simp [Fm.free]⟩
  | eq p => exact ⟨0, _, fun _ _ => rfl, fun ρ => by simp [Conj.holds, Fm.holds], by simp [Fm.free]⟩
  | gt p => exact ⟨0, _, fun _ _ => rfl, fun ρ => by simp [Conj.holds, Fm.holds], by simp [Fm.free]⟩
  | not f ih =>
    obtain ⟨N, G, h1, h2, h3⟩ := ih
    refine ⟨N, negDnf G, fun fuel hf => ?_, fun ρ => ?_, VarsIn.negDnf h3⟩
    · simp only [qeAll, h1 fuel hf, bind, Except.bind]
    · rw [negDnf_holds, h2, Fm.holds]
  | and f g ih ih' =>
    obtain ⟨N, F, h1, h2, h3⟩ := ih
    obtain ⟨N', G, k1, k2, k3⟩ := ih'
    refine ⟨max N N', andDnf F G, fun fuel hf => ?_, fun ρ => ?_,
      VarsIn.andDnf (VarsIn.mono h3 Set.subset_union_left) (VarsIn.mono k3 Set.subset_union_right)⟩
    · simp only [qeAll, h1 fuel (le_of_max_le_left hf), k1 fuel (le_of_max_le_right hf), bind, Except.bind]
    · rw [andDnf_holds, h2, k2, Fm.holds]
  | or f g ih ih' =>
    obtain ⟨N, F, h1, h2, h3⟩ := ih
    obtain ⟨N', G, k1, k2, k3⟩ := ih'
    refine ⟨max N N', F ++ G, fun fuel hf => ?_, fun ρ => ?_,
      VarsIn.append (VarsIn.mono h3 Set.subset_union_left) (VarsIn.mono k3 Set.subset_union_right)⟩
    · simp only [qeAll, h1 fuel (le_of_max_le_left hf), k1 fuel (le_of_max_le_right hf), bind, Except.bind]
    · rw [Fm.holds, ← h2, ← k2]
      simp only [List.mem_append, or_and_right, exists_or]
  | ex i f ih =>
    obtain ⟨N, F, h1, h2, h3⟩ := ih
    obtain ⟨N', G, k1, k2, k3⟩ := elimVar_spec hA i F
    refine ⟨max N N', G, fun fuel hf => ?_, fun ρ => ?_, ?_⟩
    · simp only [qeAll, h1 fuel (le_of_max_le_left hf), k1 fuel (le_of_max_le_right hf), bind, Except.bind]
    · rw [k2, Fm.holds]
      exact exists_congr fun x => h2 _
    · intro y hy p hp j hj
      obtain ⟨hne, z, hz, q, hq, hjq⟩ := (k3 y hy p hp).2 j hj
      exact ⟨h3 z hz q hq j hjq, hne⟩
  | all i f ih =>
    obtain ⟨N, F, h1, h2, h3⟩ := ih
    obtain ⟨N', G, k1, k2, k3⟩ := elimVar_spec hA i (negDnf F)
    refine ⟨max N N', negDnf G, fun fuel hf => ?_, fun ρ => ?_, VarsIn.negDnf ?_⟩
    · simp only [qeAll, h1 fuel (le_of_max_le_left hf), k1 fuel (le_of_max_le_right hf), bind, Except.bind]
    · rw [negDnf_holds, k2, Fm.holds, not_exists]
      refine forall_congr' fun x => ?_
      rw [negDnf_holds, not_not, h2]
    · intro y hy p hp j hj
      obtain ⟨hne, z, hz, q, hq, hjq⟩ := (k3 y hy p hp).2 j hj
      exact ⟨VarsIn.negDnf h3 z hz q hq j hjq, hne⟩

theorem signConst {A : MAlg MvP} (hA : SympyOK A) {K : Type} [Field K] [LinearOrder K] [IsStrictOrderedRing K] (ρ : ℕ → K)
    {p : MvP} (hp : ∀ i, i ∉ p.vars) :
    (A.sign p = -1 ↔ valueAt ρ p < 0) ∧ (A.sign p = 0 ↔ valueAt ρ p = 0) ∧ (A.sign p = 1 ↔ 0 < valueAt ρ p) := by
  have hv : p.vars = ∅ := Finset.eq_empty_of_forall_notMem hp
  rw [MvPolynomial.vars_eq_empty_iff_eq_C] at hv
  rw [hv, hA.sign, valueAt, MvPolynomial.eval₂_C]
  generalize MvPolynomial.coeff 0 p = r
  simp only [signZ, eq_ratCast, Rat.cast_lt_zero, Rat.cast_eq_zero, Rat.cast_pos]
  rcases lt_trichotomy r 0 with h | h | h
  · simp [h, h.ne, h.not_gt]
  · simp [h]
  · simp [h, h.ne', h.not_gt]

/-- **C110**, sentences: every sentence is decided, and the verdict is right in all real closed fields (in particular
all real closed fields satisfy the same sentences). -/
theorem C110_decides (A : MAlg MvP) (hA : SympyOK A) (f : Fm) (hf : f.free = ∅) :
    ∃ N b, (∀ fuel ≥ N, decideFm A fuel f = .ok b) ∧
      ∀ {K : Type} [Field K] [LinearOrder K] [IsStrictOrderedRing K] [PolyIVT K] (ρ : ℕ → K), f.holds ρ ↔ b = true := by
  obtain ⟨N, G, h1, h2, h3⟩ := C110_real A hA f
  refine ⟨N, _, fun fuel hfu => by simp only [decideFm, h1 fuel hfu, bind, Except.bind]; rfl, fun {K} _ _ _ _ ρ => ?_⟩
  rw [← h2 ρ]
  simp only [List.any_eq_true, Bool.and_eq_true, List.all_eq_true, decide_eq_true_eq]
  refine exists_congr fun y => and_congr_right fun hy => ?_
  have key : ∀ p ∈ y.1 ++ y.2.1 ++ y.2.2, ∀ i, i ∉ p.vars := fun p hp i hi => by
    have := h3 y hy p hp i hi
    rw [hf] at this
    exact this
  rw [Conj.holds, and_assoc]
  refine and_congr (forall₂_congr fun p hp => ?_) (and_congr (forall₂_congr fun p hp => ?_) (forall₂_congr fun p hp => ?_))
  · exact (signConst hA ρ (key p (by simp [hp]))).1.symm
  · exact (signConst hA ρ (key p (by simp [hp]))).2.1.symm
  · exact (signConst hA ρ (key p (by simp [hp]))).2.2.symm

/-- `∀ x0, ∃ x1, x1 - x0^2 > 0` is decided as true, and `∃ x1, ∀ x0, x1 - x0^2 > 0` as false. -/
example : ∃ N, ∀ fuel ≥ N,
    decideFm (mvAlg fun _ => 1) fuel (.all 0 (.ex 1 (.gt (MvPolynomial.X 1 - MvPolynomial.X 0 ^ 2)))) = .ok true ∧
    decideFm (mvAlg fun _ => 1) fuel (.ex 1 (.all 0 (.gt (MvPolynomial.X 1 - MvPolynomial.X 0 ^ 2)))) = .ok false := by
  classical
  have hv : ∀ i, i ∈ (MvPolynomial.X 1 - MvPolynomial.X 0 ^ 2 : MvP).vars → i = 1 ∨ i = 0 := by
    intro i hi
    rcases Finset.mem_union.1 (MvPolynomial.vars_sub_subset _ hi) with hi | hi
    · simp [MvPolynomial.vars_X] at hi
      exact .inl hi
    · have := MvPolynomial.vars_pow _ _ hi
      simp [MvPolynomial.vars_X] at this
      exact .inr this
  have he : ∀ ρ : ℕ → ℝ, valueAt ρ (MvPolynomial.X 1 - MvPolynomial.X 0 ^ 2 : MvP) = ρ 1 - ρ 0 ^ 2 := by
    intro ρ
    simp [valueAt, MvPolynomial.eval₂_sub]
  obtain ⟨N, b, h1, h2⟩ := C110_decides (mvAlg fun _ => 1) (mvAlg_ok _)
    (.all 0 (.ex 1 (.gt (MvPolynomial.X 1 - MvPolynomial.X 0 ^ 2)))) (by
      ext i
      simp only [Fm.free, Set.mem_sdiff, Set.mem_ofPred_eq, Set.mem_singleton_iff, Set.mem_empty_iff_false, iff_false]
      rintro ⟨⟨hi, h1⟩, h0⟩
      rcases hv i hi with h | h <;> contradiction)
  obtain ⟨N', b', k1, k2⟩ := C110_decides (mvAlg fun _ => 1) (mvAlg_ok _)
    (.ex 1 (.all 0 (.gt (MvPolynomial.X 1 - MvPolynomial.X 0 ^ 2)))) (by
      ext i
      simp only [Fm.free, Set.mem_sdiff, Set.mem_ofPred_eq, Set.mem_singleton_iff, Set.mem_empty_iff_false, iff_false]
      rintro ⟨⟨hi, h0⟩, h1⟩
      rcases hv i hi with h | h <;> contradiction)
  have hb : b = true := by
    refine (h2 (fun _ => (0 : ℝ))).1 ?_
    intro x
    refine ⟨x ^ 2 + 1, ?_⟩
    rw [Fm.holds, he]
    simp
  have hb' : b' = false := by
    rw [← Bool.not_eq_true, ← k2 (fun _ => (0 : ℝ))]
    rintro ⟨y, h⟩
    have := h (|y| + 1)
    rw [Fm.holds, he] at this
    simp only [Function.update_self, ne_eq, one_ne_zero, not_false_eq_true, Function.update_of_ne] at this
    nlinarith [abs_nonneg y, le_abs_self y]
  subst hb hb'
  exact ⟨max N N', fun fuel hf => ⟨h1 fuel (le_of_max_le_left hf), k1 fuel (le_of_max_le_right hf)⟩⟩

/-! ### The complex numbers -/

/-- First-order formulas about the complex numbers. -/
inductive CFm where
  /-- `p = 0` -/
  | eq (p : MvP)
  | not (f : CFm)
  | and (f g : CFm)
  | or (f g : CFm)
  | ex (i : ℕ) (f : CFm)
  | all (i : ℕ) (f : CFm)

/-- Truth in a field. -/
def CFm.holds {K : Type} [Field K] [CharZero K] : CFm → (ℕ → K) → Prop
  | .eq p, ρ => valueAt ρ p = 0
  | .not f, ρ => ¬ f.holds ρ
  | .and f g, ρ => f.holds ρ ∧ g.holds ρ
  | .or f g, ρ => f.holds ρ ∨ g.holds ρ
  | .ex i f, ρ => ∃ x, f.holds (Function.update ρ i x)
  | .all i f, ρ => ∀ x, f.holds (Function.update ρ i x)

/-- The free variables. -/
def CFm.free : CFm → Set ℕ
  | .eq p => {i | i ∈ p.vars}
  | .not f => f.free
  | .and f g => f.free ∪ g.free
  | .or f g => f.free ∪ g.free
  | .ex i f => f.free \ {i}
  | .all i f => f.free \ {i}

/-- The conjunction of two disjunctions of conjunctions. -/
def cAndDnf (F G : List CConj) : List CConj := F.flatMap fun a => G.map fun b => (a.1 ++ b.1, a.2 ++ b.2)

/-- The negation of a conjunction. -/
def cNegConj (z : CConj) : List CConj := (z.1.map fun p => ([], [p])) ++ z.2.map fun p => ([p], [])

/-- The negation of a disjunction of conjunctions. -/
def cNegDnf : List CConj → List CConj
  | [] => [([], [])]
  | z :: F => cAndDnf (cNegConj z) (cNegDnf F)

/-- Elimination of all quantifiers, with a call of `complex_full` (`muchnik.py:392-504`) for every quantifier and every
conjunction. -/
noncomputable def cQeAll (A : MAlg MvP) (fuel : ℕ) : CFm → Except QErr (List CConj)
  | .eq p => .ok [([p], [])]
  | .not f => do
    let F ← cQeAll A fuel f
    .ok (cNegDnf F)
  | .and f g => do
    let F ← cQeAll A fuel f
    let G ← cQeAll A fuel g
    .ok (cAndDnf F G)
  | .or f g => do
    let F ← cQeAll A fuel f
    let G ← cQeAll A fuel g
    .ok (F ++ G)
  | .ex i f => do
    let F ← cQeAll A fuel f
    cElimVar A fuel i F
  | .all i f => do
    let F ← cQeAll A fuel f
    let G ← cElimVar A fuel i (cNegDnf F)
    .ok (cNegDnf G)

/-- The verdict on a sentence. -/
noncomputable def cDecideFm (A : MAlg MvP) (fuel : ℕ) (f : CFm) : Except QErr Bool := do
  let F ← cQeAll A fuel f
  .ok (F.any fun z => z.1.all (fun p => decide (A.sign p = 0)) && z.2.all fun p => !decide (A.sign p = 0))

section
variable {K : Type} [Field K] [CharZero K]

theorem cAndDnf_holds (F G : List CConj) (ρ : ℕ → K) :
    (∃ y ∈ cAndDnf F G, y.holds ρ) ↔ (∃ y ∈ F, y.holds ρ) ∧ ∃ y ∈ G, y.holds ρ := by
  constructor
  · rintro ⟨y, hy, h⟩
    obtain ⟨a, ha, hy⟩ := List.mem_flatMap.1 hy
    obtain ⟨b, hb, rfl⟩ := List.mem_map.1 hy
    obtain ⟨h1, h2⟩ := h
    simp only [List.mem_append] at h1 h2
    exact ⟨⟨a, ha, fun p hp => h1 p (.inl hp), fun p hp => h2 p (.inl hp)⟩,
      ⟨b, hb, fun p hp => h1 p (.inr hp), fun p hp => h2 p (.inr hp)⟩⟩
  · rintro ⟨⟨a, ha, a1, a2⟩, b, hb, b1, b2⟩
    refine ⟨_, List.mem_flatMap.2 ⟨a, ha, List.mem_map.2 ⟨b, hb, rfl⟩⟩, ?_, ?_⟩
    · intro p hp; rcases List.mem_append.1 hp with h | h; exacts [a1 p h, b1 p h]
    · intro p hp; rcases List.mem_append.1 hp with h | h; exacts [a2 p h, b2 p h]

theorem cNegConj_holds (z : CConj) (ρ : ℕ → K) : (∃ y ∈ cNegConj z, y.holds ρ) ↔ ¬ z.holds ρ := by
  simp only [cNegConj, List.mem_append, List.mem_map]
  constructor
  · rintro ⟨y, (⟨p, hp, rfl⟩ | ⟨p, hp, rfl⟩), h⟩ ⟨h1, h2⟩ <;>
      simp only [CConj.holds, List.mem_singleton, forall_eq, List.not_mem_nil, false_implies, implies_true, true_and, and_true] at h
    · exact h (h1 p hp)
    · exact h2 p hp h
  · intro h
    by_contra hno
    refine h ⟨fun p hp => ?_, fun p hp => ?_⟩
    · by_contra hh
      exact hno ⟨_, .inl ⟨p, hp, rfl⟩, by simp [CConj.holds, hh]⟩
    · intro hh
      exact hno ⟨_, .inr ⟨p, hp, rfl⟩, by simp [CConj.holds, hh]⟩

theorem cNegDnf_holds (F : List CConj) (ρ : ℕ → K) : (∃ y ∈ cNegDnf F, y.holds ρ) ↔ ¬ ∃ y ∈ F, y.holds ρ := by
  induction F with
  | nil => simp [cNegDnf, CConj.holds]
  | cons z F ih =>
    rw [cNegDnf, cAndDnf_holds, cNegConj_holds, ih]
    simp

end

/-- All variables are in `W`. -/
def CVarsIn (W : Set ℕ) (F : List CConj) : Prop := ∀ y ∈ F, ∀ p ∈ y.1 ++ y.2, ∀ i ∈ p.vars, i ∈ W

theorem CVarsIn.mono {W W' : Set ℕ} {F : List CConj} (h : CVarsIn W F) (hW : W ⊆ W') : CVarsIn W' F :=
  fun y hy p hp i hi => hW (h y hy p hp i hi)

theorem CVarsIn.append {W : Set ℕ} {F G : List CConj} (hF : CVarsIn W F) (hG : CVarsIn W G) : CVarsIn W (F ++ G) := by
  intro y hy
  rcases List.mem_append.1 hy with h | h
  exacts [hF y h, hG y h]

theorem CVarsIn.and {W : Set ℕ} {F G : List CConj} (hF : CVarsIn W F) (hG : CVarsIn W G) : CVarsIn W (cAndDnf F G) := by
  intro y hy p hp
  obtain ⟨a, ha, hy⟩ := List.mem_flatMap.1 hy
  obtain ⟨b, hb, rfl⟩ := List.mem_map.1 hy
  have := hF a ha p
  have := hG b hb p
  simp only [List.mem_append] at *
  tauto

theorem CVarsIn.neg {W : Set ℕ} {F : List CConj} (hF : CVarsIn W F) : CVarsIn W (cNegDnf F) := by
  induction F with
  | nil => intro y hy; simp only [cNegDnf, List.mem_singleton] at hy; subst hy; simp
  | cons z F ih =>
    refine CVarsIn.and ?_ (ih fun y hy => hF y (List.mem_cons_of_mem _ hy))
    have hz := hF z (List.mem_cons_self ..)
    intro y hy p hp
    refine hz p ?_
    simp only [cNegConj, List.mem_append, List.mem_map] at hy
    rcases hy with ⟨q, hq, rfl⟩ | ⟨q, hq, rfl⟩ <;> simp at hp <;> subst hp <;> simp [hq]

/-- **C110** for the complex numbers (all algebraically closed fields of characteristic 0): as `C110_real`. -/
theorem C110_complex (A : MAlg MvP) (hA : SympyOK A) (f : CFm) :
    ∃ N G, (∀ fuel ≥ N, cQeAll A fuel f = .ok G) ∧
      (∀ {K : Type} [Field K] [CharZero K] [IsAlgClosed K] (ρ : ℕ → K), (∃ y ∈ G, y.holds ρ) ↔ f.holds ρ) ∧
      ∀ y ∈ G, ∀ p ∈ y.1 ++ y.2, ∀ i ∈ p.vars, i ∈ f.free := by
  induction f with
  | eq p => exact ⟨0, _, fun _ _ => rfl, fun ρ => by simp [CConj.holds, CFm.holds], by simp [CFm.free]⟩
  | not f ih =>
    obtain ⟨N, G, h1, h2, h3⟩ := ih
    refine ⟨N, cNegDnf G, fun fuel hf => ?_, fun ρ => ?_, CVarsIn.neg h3⟩
    · simp only [cQeAll, h1 fuel hf, bind, Except.bind]
    · rw [cNegDnf_holds, h2, CFm.holds]
  | and f g ih ih' =>
    obtain ⟨N, F, h1, h2, h3⟩ := ih
    obtain ⟨N', G, k1, k2, k3⟩ := ih'
    refine ⟨max N N', cAndDnf F G, fun fuel hf => ?_, fun ρ => ?_,
      CVarsIn.and (CVarsIn.mono h3 Set.subset_union_left) (CVarsIn.mono k3 Set.subset_union_right)⟩
    · simp only [cQeAll, h1 fuel (le_of_max_le_left hf), k1 fuel (le_of_max_le_right hf), bind, Except.bind]
    · rw [cAndDnf_holds, h2, k2, CFm.holds]
  | or f g ih ih' =>
    obtain ⟨N, F, h1, h2, h3⟩ := ih
    obtain ⟨N', G, k1, k2, k3⟩ := ih'
    refine ⟨max N N', F ++ G, fun fuel hf => ?_, fun ρ => ?_,
      CVarsIn.append (CVarsIn.mono h3 Set.subset_union_left) (CVarsIn.mono k3 Set.subset_union_right)⟩
    · simp only [cQeAll, h1 fuel (le_of_max_le_left hf), k1 fuel (le_of_max_le_right hf), bind, Except.bind]
    · rw [CFm.holds, ← h2, ← k2]
      simp only [List.mem_append, or_and_right, exists_or]
  | ex i f ih =>
    obtain ⟨N, F, h1, h2, h3⟩ := ih
    obtain ⟨N', G, k1, k2, k3⟩ := cElimVar_spec hA i F
    refine ⟨max N N', G, fun fuel hf => ?_, fun ρ => ?_, ?_⟩
    · simp only [cQeAll, h1 fuel (le_of_max_le_left hf), k1 fuel (le_of_max_le_right hf), bind, Except.bind]
    · rw [k2, CFm.holds]
      exact exists_congr fun x => h2 _
    · intro y hy p hp j hj
      obtain ⟨hne, z, hz, q, hq, hjq⟩ := (k3 y hy p hp).2 j hj
      exact ⟨h3 z hz q hq j hjq, hne⟩
  | all i f ih =>
    obtain ⟨N, F, h1, h2, h3⟩ := ih
    obtain ⟨N', G, k1, k2, k3⟩ := cElimVar_spec hA i (cNegDnf F)
    refine ⟨max N N', cNegDnf G, fun fuel hf => ?_, fun ρ => ?_, CVarsIn.neg ?_⟩
    · simp only [cQeAll, h1 fuel (le_of_max_le_left hf), k1 fuel (le_of_max_le_right hf), bind, Except.bind]
    · rw [cNegDnf_holds, k2, CFm.holds, not_exists]
      refine forall_congr' fun x => ?_
      rw [cNegDnf_holds, not_not, h2]
    · intro y hy p hp j hj
      obtain ⟨hne, z, hz, q, hq, hjq⟩ := (k3 y hy p hp).2 j hj
      exact ⟨CVarsIn.neg h3 z hz q hq j hjq, hne⟩

/-- **C110**, sentences over the complex numbers: as `C110_decides`. -/
theorem C110_complex_decides (A : MAlg MvP) (hA : SympyOK A) (f : CFm) (hf : f.free = ∅) :
    ∃ N b, (∀ fuel ≥ N, cDecideFm A fuel f = .ok b) ∧
      ∀ {K : Type} [Field K] [CharZero K] [IsAlgClosed K] (ρ : ℕ → K), f.holds ρ ↔ b = true := by
  obtain ⟨N, G, h1, h2, h3⟩ := C110_complex A hA f
  refine ⟨N, _, fun fuel hfu => by simp only [cDecideFm, h1 fuel hfu, bind, Except.bind]; rfl, fun {K} _ _ _ ρ => ?_⟩
  rw [← h2 ρ]
  simp only [List.any_eq_true, Bool.and_eq_true, List.all_eq_true, decide_eq_true_eq, Bool.not_eq_true', decide_eq_false_iff_not]
  refine exists_congr fun y => and_congr_right fun hy => ?_
  have key : ∀ p ∈ y.1 ++ y.2, (A.sign p = 0 ↔ valueAt ρ p = 0) := fun p hp => by
    have hv : p.vars = ∅ := Finset.eq_empty_of_forall_notMem fun i hi => by
      have := h3 y hy p hp i hi
      rw [hf] at this
      exact this
    rw [MvPolynomial.vars_eq_empty_iff_eq_C] at hv
    rw [hv, hA.sign, valueAt, MvPolynomial.eval₂_C]
    generalize MvPolynomial.coeff 0 p = r
    simp only [signZ, eq_ratCast, Rat.cast_eq_zero]
    rcases lt_trichotomy r 0 with h | h | h
    · simp [h.ne, h]
    · simp [h]
    · simp [h.ne', h.not_gt]
  rw [CConj.holds]
  refine and_congr (forall₂_congr fun p hp => ?_) (forall₂_congr fun p hp => ?_)
  · exact (key p (by simp [hp])).symm
  · exact not_congr (key p (by simp [hp])).symm

/-- `∀ x0, ∃ x1, x1^2 - x0 = 0` is decided as true over the complex numbers. -/
example : ∃ N, ∀ fuel ≥ N,
    cDecideFm (mvAlg fun _ => 1) fuel (.all 0 (.ex 1 (.eq (MvPolynomial.X 1 ^ 2 - MvPolynomial.X 0)))) = .ok true := by
  classical
  obtain ⟨N, b, h1, h2⟩ := C110_complex_decides (mvAlg fun _ => 1) (mvAlg_ok _)
    (.all 0 (.ex 1 (.eq (MvPolynomial.X 1 ^ 2 - MvPolynomial.X 0)))) (by
      ext i
      simp only [CFm.free, Set.mem_sdiff, Set.mem_ofPred_eq, Set.mem_singleton_iff, Set.mem_empty_iff_false, iff_false]
      rintro ⟨⟨hi, h1⟩, h0⟩
      rcases Finset.mem_union.1 (MvPolynomial.vars_sub_subset _ hi) with hi | hi
      · have := MvPolynomial.vars_pow _ _ hi
        simp [MvPolynomial.vars_X] at this
        exact h1 this
      · simp [MvPolynomial.vars_X] at hi
        exact h0 hi)
  have hb : b = true := by
    refine (h2 (fun _ => (0 : AlgebraicClosure ℚ))).1 ?_
    intro x
    obtain ⟨y, hy⟩ := IsAlgClosed.exists_pow_nat_eq x (n := 2) (by norm_num)
    refine ⟨y, ?_⟩
    rw [CFm.holds]
    simp [valueAt, MvPolynomial.eval₂_sub, hy]
  subst hb
  exact ⟨N, h1⟩

end Verif.Qe
