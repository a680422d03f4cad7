import Verif.Grf.PropsSearch
import Mathlib.Data.Sign.Basic

/-!
# C62, C85: what the steps of local search do
-/

set_option linter.unusedSectionVars false

namespace Verif.Grf

variable {K : Type} [Field K] [LinearOrder K] [IsStrictOrderedRing K]

/-- The point with the coordinates `x` of the variables `o`. -/
def vecPoint (o : List ℕ) (x : List K) (i : ℕ) : K := (x[o.idxOf i]?).getD 0

/-- The atom has only the given variables. -/
def InVars (o : List ℕ) (a : Atom) : Prop := (∀ v ∈ a.vars, v ∈ o) ∧ ∀ v ∈ a.poly.vars, v ∈ o

theorem lookup_zip : ∀ (o : List ℕ) (x : List K) (i : ℕ), x.length = o.length → (o.zip x).lookup i = x[o.idxOf i]?
  | [], [], _, _ => by simp
  | v :: o, y :: x, i, h => by
    rw [List.zip_cons_cons, List.lookup_cons, List.idxOf_cons]
    by_cases hi : i = v
    · subst hi; simp
    · have h1 : (i == v) = false := by simpa using hi
      have h2 : (v == i) = false := by simpa using fun e : v = i => hi e.symm
      rw [h1, h2]
      simpa using lookup_zip o x i (by simpa using h)

theorem ptOf_zip (o : List ℕ) (x : List K) (h : x.length = o.length) : ptOf (o.zip x) = vecPoint o x := by
  funext i
  rw [ptOf, lookup_zip o x i h, vecPoint]

theorem lookup_zip_isSome (o : List ℕ) (x : List K) (h : x.length = o.length) {i : ℕ} (hi : i ∈ o) :
    ((o.zip x).lookup i).isSome := by
  rw [lookup_zip o x i h, List.getElem?_eq_getElem (by rw [h]; exact List.idxOf_lt_length_iff.2 hi)]
  rfl

theorem zip_ne_nil {o : List ℕ} {x : List K} (ho : o ≠ []) (h : x.length = o.length) : o.zip x ≠ [] := by
  intro h0
  have := congrArg List.length h0
  rw [List.length_zip, h, Nat.min_self] at this
  exact ho (List.length_eq_zero_iff.1 this)

theorem vect2dict_ok {o : List ℕ} {x : List K} (ho : o ≠ []) (h : x.length = o.length) :
    vect2dict (some o) x = .ok (o.zip x) := by
  unfold vect2dict
  simp only
  rw [if_neg]
  push Not
  exact ⟨ho, h⟩

open scoped Classical in
theorem evalOnDict_vec (S : Sage K) {o : List ℕ} {x : List K} (ho : o ≠ []) (h : x.length = o.length) {a : Atom}
    (ha : InVars o a) : a.evalOnDict S (o.zip x) = .ok (some (decide (a.holds (vecPoint o x)))) := by
  rw [evalOnDict_covered S ⟨zip_ne_nil ho h, fun v hv => lookup_zip_isSome o x h (ha.1 v hv),
    fun v hv => lookup_zip_isSome o x h (ha.2 v hv)⟩, ptOf_zip o x h]
  congr 2
  rw [Bool.eq_iff_iff, test_iff, decide_eq_true_iff]
  rfl

open scoped Classical in
theorem filterTrue_vec (S : Sage K) {o : List ℕ} {x : List K} (ho : o ≠ []) (h : x.length = o.length) :
    ∀ hs : List Atom, (∀ a ∈ hs, InVars o a) →
      filterTrue S (o.zip x) hs = .ok (hs.filter fun a => decide (a.holds (vecPoint o x)))
  | [], _ => rfl
  | a :: hs, ha => by
    unfold filterTrue
    simp only [bind, Except.bind]
    rw [evalOnDict_vec S ho h (ha a (by simp)), filterTrue_vec S ho h hs fun b hb => ha b (by simp [hb])]
    simp only [Option.some.injEq, decide_eq_true_eq, List.filter_cons]

open scoped Classical in
theorem filterGoal_vec (S : Sage K) {o : List ℕ} (ho : o ≠ []) {main : Atom} (hm : InVars o main) :
    ∀ xs : List (List K), (∀ x ∈ xs, x.length = o.length) →
      filterGoal S main (xs.map fun x => o.zip x) =
        .ok ((xs.filter fun x => decide (¬ main.holds (vecPoint o x))).map fun x => o.zip x)
  | [], _ => rfl
  | x :: xs, hx => by
    rw [List.map_cons]
    unfold filterGoal
    simp only [bind, Except.bind]
    rw [evalOnDict_vec S ho (hx x (by simp)) hm, filterGoal_vec S ho hm xs fun y hy => hx y (by simp [hy])]
    simp only [Option.some.injEq, decide_eq_true_eq, List.filter_cons]
    by_cases h : main.holds (vecPoint o x) <;> simp [h]

theorem toDicts_vec {o : List ℕ} (ho : o ≠ []) : ∀ xs : List (List K), (∀ x ∈ xs, x.length = o.length) →
    toDicts (some o) xs = .ok (xs.map fun x => o.zip x)
  | [], _ => rfl
  | x :: xs, hx => by
    unfold toDicts
    simp only [bind, Except.bind]
    rw [vect2dict_ok ho (hx x (by simp)), toDicts_vec ho xs fun y hy => hx y (by simp [hy])]
    rfl

theorem evalPoly_vec {o : List ℕ} {x : List K} (ho : o ≠ []) (h : x.length = o.length) {p : MPoly}
    (hp : ∀ v ∈ p.vars, v ∈ o) : evalPoly (some o) p x = .ok (p.eval (vecPoint o x)) := by
  unfold evalPoly
  simp only [bind, Except.bind]
  rw [vect2dict_ok ho h]
  simp only
  rw [if_pos (all_inDict.2 fun v hv => lookup_zip_isSome o x h (hp v hv)), ptOf_zip o x h]

theorem flipFunc_vec {o : List ℕ} (ho : o ≠ []) {a : Atom} (ha : InVars o a) (n : ℕ) (eps : K) {y : List K}
    (h : y.length = o.length) :
    flipFunc (some o) a n eps y = .ok ((a.poly.eval (vecPoint o y) + eps) :: List.replicate (n - 1) 0) := by
  unfold flipFunc
  simp only [bind, Except.bind]
  rw [evalPoly_vec ho h ha.2]

theorem flipEps_spec {margin : K} (hm : 0 < margin) (side : Bool) (v : K) :
    |flipEps margin side v| = margin ∧ (0 < v → 0 < flipEps margin side v) ∧ (v < 0 → flipEps margin side v < 0) := by
  unfold flipEps
  split
  · split
    · next h => exact ⟨by rw [abs_neg, abs_of_pos hm], fun h' => absurd h' (not_lt.2 h.le), fun _ => by linarith⟩
    · next h => exact ⟨abs_of_pos hm, fun _ => hm, fun h' => absurd h' h⟩
  · next h =>
    push Not at h
    subst h
    refine ⟨?_, fun h => absurd h (lt_irrefl _), fun h => absurd h (lt_irrefl _)⟩
    split
    · exact abs_of_pos hm
    · rw [abs_neg, abs_of_pos hm]

open scoped Classical in
/-- What one step of the chain does that goes from `x` to `x'`: a hypothesis `a` is chosen, one that is true at `x` if
there is one; the solver is asked for a zero of the function `F` which adds a number of size 1/1000000, with the sign that
the polynomial of `a` has at `x`, to the value of this polynomial (and has the constant 0 as its other coordinates); the
solution and 25 points around it are kept if the main goal is false at them. -/
def StepSpec (O : Search K) (k : ℕ) (o : List ℕ) (hyps : List Atom) (main : Atom) (x x' : List K)
    (kept : List (Dict K)) : Prop :=
  ∃ a ∈ hyps, ((∃ h ∈ hyps, h.holds (vecPoint o x)) → a.holds (vecPoint o x)) ∧
    (∃ (eps : K) (F : List K → Except GErr (List K)), |eps| = 1 / 1000000 ∧
      (0 < a.poly.eval (vecPoint o x) → 0 < eps) ∧ (a.poly.eval (vecPoint o x) < 0 → eps < 0) ∧
      (∀ y : List K, y.length = o.length →
        F y = .ok ((a.poly.eval (vecPoint o y) + eps) :: List.replicate (o.length - 1) 0)) ∧
      O.fsolve 0 k F x = .ok x') ∧
    x'.length = o.length ∧
    kept = ((x' :: (List.range 25).map fun n => x'.mapIdx fun j c => c + O.noise 0 k n j).filter
      fun y => decide (¬ main.holds (vecPoint o y))).map fun y => o.zip y

theorem chooseAtom_spec (S : Sage K) (O : Search K) (i k : ℕ) {o : List ℕ} (ho : o ≠ []) {hyps : List Atom}
    (hh : ∀ a ∈ hyps, InVars o a) {x : List K} (hx : x.length = o.length) {a : Atom}
    (h : chooseAtom S O i k (some o) hyps x = .ok a) :
    a ∈ hyps ∧ ((∃ h ∈ hyps, h.holds (vecPoint o x)) → a.holds (vecPoint o x)) := by
  classical
  unfold chooseAtom at h
  simp only [bind, Except.bind] at h
  rw [vect2dict_ok ho hx] at h
  simp only at h
  rw [filterTrue_vec S ho hx hyps hh] at h
  simp only at h
  split at h
  · cases h
  · next b hb =>
    cases h
    have hmem := List.mem_of_getElem? hb
    split at hmem
    · next he =>
      refine ⟨hmem, ?_⟩
      rintro ⟨c, hc, hct⟩
      have : c ∈ hyps.filter fun a => decide (a.holds (vecPoint o x)) := List.mem_filter.2 ⟨hc, decide_eq_true hct⟩
      rw [he] at this
      cases this
    · obtain ⟨h1, h2⟩ := List.mem_filter.1 hmem
      exact ⟨h1, fun _ => of_decide_eq_true h2⟩

theorem chainStep_spec (S : Sage K) (O : Search K) (k : ℕ) {o : List ℕ} (ho : o ≠ []) {hyps : List Atom} {main : Atom}
    (hh : ∀ a ∈ hyps, InVars o a) (hm : InVars o main) {x : List K} (hx : x.length = o.length) {r : List K × List (Dict K)}
    (h : chainStep S O 0 k (some o) hyps main x = .ok r) : StepSpec O k o hyps main x r.1 r.2 := by
  classical
  unfold chainStep at h
  simp only [bind, Except.bind] at h
  cases ha : chooseAtom S O 0 k (some o) hyps x with
  | error e => rw [ha] at h; cases h
  | ok a =>
    rw [ha] at h
    simp only at h
    obtain ⟨h1, h2⟩ := chooseAtom_spec S O 0 k ho hh hx ha
    rw [evalPoly_vec ho hx (hh a h1).2] at h
    simp only at h
    split at h
    · cases h
    · next x' hx' =>
      have hlen : x'.length = o.length := by
        by_contra hne
        have : toDicts (some o) (x' :: (List.range 25).map fun n => perturb (O.noise 0 k n) x') = .error .assertion := by
          conv_lhs => unfold toDicts
          simp only [bind, Except.bind]
          have : vect2dict (some o) x' = .error .assertion := by
            unfold vect2dict
            simp only
            rw [if_pos (Or.inr hne)]
          rw [this]
        rw [this] at h
        cases h
      have hall : ∀ y ∈ (x' :: (List.range 25).map fun n => perturb (O.noise 0 k n) x'), y.length = o.length := by
        intro y hy
        rcases List.mem_cons.1 hy with rfl | hy
        · exact hlen
        · obtain ⟨n, -, rfl⟩ := List.mem_map.1 hy
          unfold perturb
          rw [List.length_mapIdx]
          exact hlen
      rw [toDicts_vec ho _ hall] at h
      simp only at h
      rw [filterGoal_vec S ho hm _ hall] at h
      cases h
      obtain ⟨e1, e2, e3⟩ := flipEps_spec (K := K) (margin := 1 / 1000000) (by norm_num) (O.side 0 k) (a.poly.eval (vecPoint o x))
      refine ⟨a, h1, h2, ⟨_, _, e1, e2, e3, ?_, hx'⟩, hlen, rfl⟩
      intro y hy
      rw [flipFunc_vec ho (hh a h1) _ _ hy, hx]

theorem dict2vect_spec {order : Option (List ℕ)} {d : Dict K} {x : List K} {o : List ℕ}
    (h : dict2vect order d = .ok (x, o)) : (o = d.map Prod.fst ∨ order = some o) ∧ x.length = o.length ∧
      o.map (fun v => d.lookup v) = x.map some := by
  have key : ∀ (vs : List ℕ) (r : List K), lookupAll d vs = .ok r → vs.map (fun v => d.lookup v) = r.map some := by
    intro vs
    induction vs with
    | nil => intro r h; cases h; rfl
    | cons v vs ih =>
      intro r h
      unfold lookupAll at h
      cases hv : d.lookup v with
      | none => rw [hv] at h; cases h
      | some y =>
        rw [hv] at h
        simp only [bind, Except.bind] at h
        split at h
        · cases h
        · next r' hr' =>
          cases h
          rw [List.map_cons, List.map_cons, ih r' hr', hv]
  unfold dict2vect at h
  simp only [bind, Except.bind] at h
  split at h
  · cases h
  · next r hr =>
    cases h
    have h1 := key _ _ hr
    refine ⟨?_, ?_, h1⟩
    · unfold varOrder
      split
      · exact Or.inl rfl
      · exact Or.inl rfl
      · exact Or.inr rfl
    · have := congrArg List.length h1
      simpa using this.symm

/-- **C85** (the steps): if local search returns, and all atoms have only variables of the variable order, then the result
consists of the given point, 25 points around it, and the points kept by two steps, of which the first begins at the
given point and the second at the solution found in the first. -/
theorem C85_steps (S : Sage K) (O : Search K) (order : Option (List ℕ)) (hyps : List Atom) (main : Atom) (d : Dict K)
    (pts : List (Dict K)) (o : List ℕ) (h : localSearch S O order hyps main d = .ok (pts, o)) (ho : o ≠ [])
    (hh : ∀ a ∈ hyps, InVars o a) (hm : InVars o main) :
    (o = d.map Prod.fst ∨ order = some o) ∧ ∃ x₀ x₁ x₂ kept₁ kept₂,
      o.map (fun v => d.lookup v) = x₀.map some ∧
      StepSpec O 0 o hyps main x₀ x₁ kept₁ ∧ StepSpec O 1 o hyps main x₁ x₂ kept₂ ∧
      pts = d :: ((List.range 25).map fun n => d.map fun e => (e.1, e.2 + O.noise₀ n e.1)) ++ kept₁ ++ kept₂ := by
  unfold localSearch at h
  simp only [bind, Except.bind] at h
  cases hx : dict2vect order d with
  | error e => rw [hx] at h; cases h
  | ok x =>
    obtain ⟨x, o'⟩ := x
    rw [hx] at h
    simp only at h
    cases hf : chain S O 0 (some o') hyps main 2 0 x with
    | error e => rw [hf] at h; cases h
    | ok found =>
      rw [hf] at h
      cases h
      obtain ⟨h1, h2, h3⟩ := dict2vect_spec hx
      refine ⟨h1, ?_⟩
      unfold chain at hf
      simp only [bind, Except.bind] at hf
      cases hs : chainStep S O 0 0 (some o) hyps main x with
      | error e => rw [hs] at hf; cases hf
      | ok r =>
        rw [hs] at hf
        simp only at hf
        have s1 := chainStep_spec S O 0 ho hh hm h2 hs
        obtain ⟨_, _, _, _, hl, _⟩ := id s1
        unfold chain at hf
        simp only [bind, Except.bind] at hf
        cases hs' : chainStep S O 0 (0 + 1) (some o) hyps main r.1 with
        | error e => rw [hs'] at hf; cases hf
        | ok r' =>
          rw [hs'] at hf
          simp only at hf
          have s2 := chainStep_spec S O 1 ho hh hm hl hs'
          unfold chain at hf
          cases hf
          refine ⟨x, r.1, r'.1, r.2, r'.2, h3, s1, s2, ?_⟩
          rw [List.append_nil]
          simp [perturbDict]

/-- The numerical solver returns exact solutions only. -/
def ExactSolver (O : Search K) : Prop :=
  ∀ i k F x x', O.fsolve i k F x = .ok x' → ∃ z, F x' = .ok z ∧ ∀ y ∈ z, y = 0

/-- The step from `x` to `x'` with an exact solution: the chosen hypothesis is one that is true at `x`, if there is
one; the sign of its polynomial is changed. -/
theorem step_exact {O : Search K} (hO : ExactSolver O) {k : ℕ} {o : List ℕ} {hyps : List Atom} {main : Atom} {x x' : List K}
    {kept : List (Dict K)} (h : StepSpec O k o hyps main x x' kept) :
    ∃ a ∈ hyps, ((∃ h ∈ hyps, h.holds (vecPoint o x)) → a.holds (vecPoint o x)) ∧
      |a.poly.eval (vecPoint o x')| = 1 / 1000000 ∧
      (0 < a.poly.eval (vecPoint o x) → a.poly.eval (vecPoint o x') < 0) ∧
      (a.poly.eval (vecPoint o x) < 0 → 0 < a.poly.eval (vecPoint o x')) := by
  obtain ⟨a, h1, h2, ⟨eps, F, e1, e2, e3, hF, hs⟩, hl, -⟩ := h
  obtain ⟨z, hz, h0⟩ := hO _ _ _ _ _ hs
  rw [hF x' hl] at hz
  cases hz
  have hv : a.poly.eval (vecPoint o x') = -eps := by
    have := h0 _ (List.mem_cons_self ..)
    linarith
  refine ⟨a, h1, h2, by rw [hv, abs_neg, e1], fun h => ?_, fun h => ?_⟩
  · rw [hv]; linarith [e2 h]
  · rw [hv]; linarith [e3 h]

/-- **C62** (in the search): with exact solutions, in both steps of local search a hypothesis is chosen whose polynomial
has another sign after the step, and is not 0 then. -/
theorem C62_search (S : Sage K) (O : Search K) (hO : ExactSolver O) (order : Option (List ℕ)) (hyps : List Atom) (main : Atom)
    (d : Dict K) (pts : List (Dict K)) (o : List ℕ) (h : localSearch S O order hyps main d = .ok (pts, o)) (ho : o ≠ [])
    (hh : ∀ a ∈ hyps, InVars o a) (hm : InVars o main) :
    ∃ x₀ x₁ x₂ : List K, o.map (fun v => d.lookup v) = x₀.map some ∧
      ∀ p ∈ [(x₀, x₁), (x₁, x₂)], (¬ main.holds (vecPoint o p.2) → o.zip p.2 ∈ pts) ∧
        ∃ a ∈ hyps, SignType.sign (a.poly.eval (vecPoint o p.2)) ≠ SignType.sign (a.poly.eval (vecPoint o p.1)) ∧
          a.poly.eval (vecPoint o p.2) ≠ 0 := by
  classical
  obtain ⟨-, x₀, x₁, x₂, k₁, k₂, hx, s1, s2, hp⟩ := C85_steps S O order hyps main d pts o h ho hh hm
  have key : ∀ {k x x' kept}, StepSpec O k o hyps main x x' kept →
      (¬ main.holds (vecPoint o x') → o.zip x' ∈ kept) ∧
      ∃ a ∈ hyps, SignType.sign (a.poly.eval (vecPoint o x')) ≠ SignType.sign (a.poly.eval (vecPoint o x)) ∧
        a.poly.eval (vecPoint o x') ≠ 0 := by
    intro k x x' kept s
    constructor
    · intro hg
      obtain ⟨a, _, _, _, _, rfl⟩ := s
      exact List.mem_map.2 ⟨x', List.mem_filter.2 ⟨List.mem_cons_self .., by simpa using hg⟩, rfl⟩
    · obtain ⟨a, h1, -, h3, h4, h5⟩ := step_exact hO s
      have hne : a.poly.eval (vecPoint o x') ≠ 0 := by
        intro h0
        rw [h0, abs_zero] at h3
        norm_num at h3
      refine ⟨a, h1, ?_, hne⟩
      rcases lt_trichotomy (a.poly.eval (vecPoint o x)) 0 with hv | hv | hv
      · rw [sign_neg hv, sign_pos (h5 hv)]; decide
      · rw [hv, sign_zero]; exact fun hs => hne (sign_eq_zero_iff.1 hs)
      · rw [sign_pos hv, sign_neg (h4 hv)]; decide
  refine ⟨x₀, x₁, x₂, hx, ?_⟩
  intro p hpm
  simp only [List.mem_cons, List.not_mem_nil, or_false] at hpm
  rcases hpm with rfl | rfl
  · obtain ⟨k1, k2⟩ := key s1
    exact ⟨fun hg => by rw [hp]; simp [k1 hg], k2⟩
  · obtain ⟨k1, k2⟩ := key s2
    exact ⟨fun hg => by rw [hp]; simp [k1 hg], k2⟩

/-- **C85**, partial: with exact solutions, if some hypothesis is true at the point where a step begins, then a hypothesis
that was true there is false after the step, provided that no hypothesis that is true there is an inequation `p ≠ 0`, or
`p ≥ 0` or `p ≤ 0` with `p = 0` at this point. Without this proviso it fails, see `C85_violated`. -/
theorem C85_falsifies_partial (S : Sage K) (O : Search K) (hO : ExactSolver O) (order : Option (List ℕ)) (hyps : List Atom)
    (main : Atom) (d : Dict K) (pts : List (Dict K)) (o : List ℕ) (h : localSearch S O order hyps main d = .ok (pts, o))
    (ho : o ≠ []) (hh : ∀ a ∈ hyps, InVars o a) (hm : InVars o main) :
    ∃ x₀ x₁ x₂ : List K, o.map (fun v => d.lookup v) = x₀.map some ∧
      ∀ p ∈ [(x₀, x₁), (x₁, x₂)],
        (∃ a ∈ hyps, a.holds (vecPoint o p.1)) →
        (∀ a ∈ hyps, a.holds (vecPoint o p.1) → a.op ≠ .ne ∧
          (a.poly.eval (vecPoint o p.1) = 0 → a.op ≠ .ge ∧ a.op ≠ .le)) →
        ∃ a ∈ hyps, a.holds (vecPoint o p.1) ∧ ¬ a.holds (vecPoint o p.2) := by
  obtain ⟨-, x₀, x₁, x₂, k₁, k₂, hx, s1, s2, -⟩ := C85_steps S O order hyps main d pts o h ho hh hm
  have key : ∀ {k x x' kept}, StepSpec O k o hyps main x x' kept → (∃ a ∈ hyps, a.holds (vecPoint o x)) →
      (∀ a ∈ hyps, a.holds (vecPoint o x) → a.op ≠ .ne ∧ (a.poly.eval (vecPoint o x) = 0 → a.op ≠ .ge ∧ a.op ≠ .le)) →
      ∃ a ∈ hyps, a.holds (vecPoint o x) ∧ ¬ a.holds (vecPoint o x') := by
    intro k x x' kept s hex hall
    obtain ⟨a, h1, h2, h3, h4, h5⟩ := step_exact hO s
    have ha := h2 hex
    obtain ⟨n1, n2⟩ := hall a h1 ha
    refine ⟨a, h1, ha, ?_⟩
    have hne : a.poly.eval (vecPoint o x') ≠ 0 := by
      intro h0
      rw [h0, abs_zero] at h3
      norm_num at h3
    unfold Atom.holds rel at ha ⊢
    cases hop : a.op with
    | gt => rw [hop] at ha; have := h4 ha; simp only; linarith
    | lt => rw [hop] at ha; have := h5 ha; simp only; linarith
    | eq => simp only; exact hne
    | ne => exact absurd hop n1
    | ge =>
      rw [hop] at ha
      rcases (show 0 ≤ a.poly.eval (vecPoint o x) from ha).lt_or_eq with hv | hv
      · have := h4 hv; simp only; linarith
      · exact absurd hop (n2 hv.symm).1
    | le =>
      rw [hop] at ha
      rcases (show a.poly.eval (vecPoint o x) ≤ 0 from ha).lt_or_eq with hv | hv
      · have := h5 hv; simp only; linarith
      · exact absurd hop (n2 hv).2
  refine ⟨x₀, x₁, x₂, hx, ?_⟩
  intro p hpm
  simp only [List.mem_cons, List.not_mem_nil, or_false] at hpm
  rcases hpm with rfl | rfl
  · exact key s1
  · exact key s2

theorem chainStep_runs (S : Sage K) (O : Search K) (k : ℕ) {o : List ℕ} (ho : o ≠ []) {hyps : List Atom} {main : Atom}
    (hne : hyps ≠ []) (hpick : ∀ n, 0 < n → O.pick 0 k n < n)
    (hsolve : ∀ F x, x.length = o.length → (∀ y : List K, y.length = o.length → ∃ z, F y = .ok z ∧ z.length = o.length) →
      ∃ x', O.fsolve 0 k F x = .ok x' ∧ x'.length = o.length)
    (hh : ∀ a ∈ hyps, InVars o a) (hm : InVars o main) {x : List K} (hx : x.length = o.length) :
    ∃ r, chainStep S O 0 k (some o) hyps main x = .ok r := by
  classical
  have hpos : 0 < o.length := List.length_pos_iff.2 ho
  have hchoose : ∃ a, chooseAtom S O 0 k (some o) hyps x = .ok a := by
    unfold chooseAtom
    simp only [bind, Except.bind]
    rw [vect2dict_ok ho hx]
    simp only
    rw [filterTrue_vec S ho hx hyps hh]
    simp only
    have : ∀ l : List Atom, l ≠ [] → ∃ a, l[O.pick 0 k l.length]? = some a := by
      intro l hl
      have := hpick l.length (List.length_pos_iff.2 hl)
      exact ⟨_, List.getElem?_eq_getElem this⟩
    split
    · next hnone =>
      exfalso
      split at hnone
      · obtain ⟨a, ha⟩ := this _ hne
        rw [ha] at hnone; cases hnone
      · next h0 =>
        obtain ⟨a, ha⟩ := this _ h0
        rw [ha] at hnone; cases hnone
    · exact ⟨_, rfl⟩
  obtain ⟨a, ha⟩ := hchoose
  have h1 := (chooseAtom_spec S O 0 k ho hh hx ha).1
  obtain ⟨x', hx', hl⟩ := hsolve
    (flipFunc (some o) a x.length (flipEps (1 / 1000000) (O.side 0 k) (a.poly.eval (vecPoint o x)))) x hx (by
      intro y hy
      refine ⟨_, flipFunc_vec ho (hh a h1) _ _ hy, ?_⟩
      rw [List.length_cons, List.length_replicate, hx]
      omega)
  have hall : ∀ y ∈ (x' :: (List.range 25).map fun n => perturb (O.noise 0 k n) x'), y.length = o.length := by
    intro y hy
    rcases List.mem_cons.1 hy with rfl | hy
    · exact hl
    · obtain ⟨n, -, rfl⟩ := List.mem_map.1 hy
      unfold perturb
      rw [List.length_mapIdx]
      exact hl
  unfold chainStep
  simp only [bind, Except.bind]
  rw [ha]
  simp only
  rw [evalPoly_vec ho hx (hh a h1).2]
  simp only
  rw [hx']
  simp only
  rw [toDicts_vec ho _ hall]
  simp only
  rw [filterGoal_vec S ho hm _ hall]
  exact ⟨_, rfl⟩

/-- **C85** (no exception): if there is a hypothesis, the point gives values to the variables of the variable order, and the
numerical solver returns a vector of the same length for every function on vectors of this length, then local search
returns. -/
theorem C85_returns (S : Sage K) (O : Search K) (order : Option (List ℕ)) (hyps : List Atom) (main : Atom) (d : Dict K)
    (o : List ℕ) (ho : o ≠ []) (horder : order = some o ∨ (order = none ∧ o = d.map Prod.fst))
    (hd : ∀ v ∈ o, v ∈ d.map Prod.fst) (hne : hyps ≠ []) (hpick : ∀ k n, 0 < n → O.pick 0 k n < n)
    (hsolve : ∀ k F x, x.length = o.length → (∀ y : List K, y.length = o.length → ∃ z, F y = .ok z ∧ z.length = o.length) →
      ∃ x', O.fsolve 0 k F x = .ok x' ∧ x'.length = o.length)
    (hh : ∀ a ∈ hyps, InVars o a) (hm : InVars o main) :
    ∃ pts, localSearch S O order hyps main d = .ok (pts, o) := by
  have hvo : varOrder order d = o := by
    rcases horder with rfl | ⟨rfl, h⟩
    · cases o with
      | nil => exact absurd rfl ho
      | cons v o => rfl
    · rw [h]; rfl
  have hv : dict2vect order d = .ok (o.map (ptOf d), o) := by
    unfold dict2vect
    simp only [bind, Except.bind]
    rw [hvo, lookupAll_ok d o fun v hv => (lookup_isSome_iff d v).2 (hd v hv)]
  obtain ⟨r, hr⟩ := chainStep_runs S O 0 ho hne (hpick 0) (hsolve 0) hh hm (x := o.map (ptOf d)) (by simp)
  obtain ⟨_, _, _, _, hl, _⟩ := chainStep_spec S O 0 ho hh hm (by simp) hr
  obtain ⟨r', hr'⟩ := chainStep_runs S O 1 ho hne (hpick 1) (hsolve 1) hh hm (x := r.1) hl
  unfold localSearch
  simp only [bind, Except.bind]
  rw [hv]
  simp only
  have : chain S O 0 (some o) hyps main 2 0 (o.map (ptOf d)) = .ok (r.2 ++ (r'.2 ++ [])) := by
    unfold chain
    simp only [bind, Except.bind]
    rw [hr]
    simp only
    unfold chain
    simp only [bind, Except.bind]
    rw [hr']
    rfl
  rw [this]
  exact ⟨_, rfl⟩

/-- A hypothesis with a variable that is not in the variable order cannot be used: if a step chooses it, it raises
`TypeError`. -/
theorem C85_unknown_variable (S : Sage K) (O : Search K) (i k : ℕ) (o : List ℕ) (ho : o ≠ []) (hyps : List Atom)
    (main : Atom) (x : List K) (hx : x.length = o.length) (a : Atom)
    (ha : chooseAtom S O i k (some o) hyps x = .ok a) (v : ℕ) (hv : v ∈ a.poly.vars) (hvo : v ∉ o) :
    chainStep S O i k (some o) hyps main x = .error .typeError := by
  unfold chainStep evalPoly
  simp only [bind, Except.bind]
  rw [ha, vect2dict_ok ho hx]
  simp only
  rw [if_neg]
  intro h
  have := all_inDict.1 h v hv
  rw [lookup_isSome_iff] at this
  obtain ⟨e, he, rfl⟩ := List.mem_map.1 this
  exact hvo (List.of_mem_zip he).1

/-- Without a hypothesis local search raises (`random.choice` of an empty list). -/
theorem C85_no_hypothesis (S : Sage K) (O : Search K) (o : List ℕ) (ho : o ≠ []) (main : Atom) (d : Dict K)
    (hd : ∀ v ∈ o, v ∈ d.map Prod.fst) : localSearch S O (some o) [] main d = .error .indexError := by
  obtain ⟨v, o', rfl⟩ := List.exists_cons_of_ne_nil ho
  have hv : dict2vect (some (v :: o')) d = .ok ((v :: o').map (ptOf d), v :: o') := by
    unfold dict2vect
    simp only [bind, Except.bind]
    rw [show varOrder (some (v :: o')) d = v :: o' from rfl,
      lookupAll_ok d (v :: o') fun v hv => (lookup_isSome_iff d v).2 (hd v hv)]
  unfold localSearch
  simp only [bind, Except.bind]
  rw [hv]
  simp only
  unfold chain chainStep chooseAtom
  simp only [bind, Except.bind]
  rw [vect2dict_ok ho (by simp)]
  rfl

/-- A search without noise with an exact solver: it returns `-1/1000000` in the first and `1/1000000` in the second
step, if this is a solution, and fails otherwise. -/
def exactSearch (c₀ c₁ : ℚ) : Search ℚ where
  noise₀ _ _ := 0
  noise _ _ _ _ := 0
  pick _ _ _ := 0
  side _ _ := true
  fsolve _ k F _ :=
    let c := if k = 0 then [c₀] else [c₁]
    match F c with
    | .ok z => if ∀ y ∈ z, y = 0 then .ok c else .error .infeasible
    | .error e => .error e

theorem exactSearch_exact (c₀ c₁ : ℚ) : ExactSolver (exactSearch c₀ c₁) := by
  intro i k F x x' h
  simp only [exactSearch] at h
  split at h
  · next z hz =>
    split at h
    · next h0 => cases h; exact ⟨z, hz, h0⟩
    · cases h
  · cases h

/-- **C85** is violated: with the hypothesis `x0 ≠ 0`, the main goal `x0 - 2 > 0` and the point `x0 = 1`, an exact solver
gives solutions in both steps, and all 78 points returned satisfy the hypothesis. -/
theorem C85_violated : let O := exactSearch (-1 / 1000000) (1 / 1000000)
    let hyp : Atom := ⟨MPoly.var 0, .ne, [0]⟩
    ExactSolver O ∧ ∃ pts, localSearch testSage O none [hyp] ⟨(MPoly.var 0).sub (MPoly.const 2), .gt, [0]⟩ [(0, 1)] =
      .ok (pts, [0]) ∧ pts.length = 78 ∧ ∀ d ∈ pts, hyp.evalOnDict testSage d = .ok (some true) := by
  intro O hyp
  refine ⟨exactSearch_exact _ _, ?_⟩
  have h : ((localSearch testSage O none [hyp] ⟨(MPoly.var 0).sub (MPoly.const 2), .gt, [0]⟩ [(0, 1)]).toOption.any
      fun r => decide (r.2 = [0] ∧ r.1.length = 78 ∧ ∀ d ∈ r.1, (hyp.evalOnDict testSage d).toOption = some (some true))) =
      true := by decide +kernel
  cases hr : localSearch testSage O none [hyp] ⟨(MPoly.var 0).sub (MPoly.const 2), .gt, [0]⟩ [(0, 1)] with
  | error e => rw [hr] at h; cases h
  | ok r =>
    rw [hr] at h
    obtain ⟨h1, h2, h3⟩ := of_decide_eq_true h
    refine ⟨r.1, by rw [← h1], h2, fun d hd => ?_⟩
    have := h3 d hd
    cases he : hyp.evalOnDict testSage d with
    | error e => rw [he] at this; cases this
    | ok b => rw [he] at this; exact congrArg Except.ok (Option.some.inj this)

/-- With the hypotheses `x0 > 0` and `x0 + 5 < 0`, of which only the first is true at 1, a search that finds solutions.
The hypotheses of the theorems are met. -/
example : let O := exactSearch (-1 / 1000000) (1 / 1000000)
    let hyps : List Atom := [⟨(MPoly.var 0).add (MPoly.const 5), .lt, [0]⟩, ⟨MPoly.var 0, .gt, [0]⟩]
    let main : Atom := ⟨(MPoly.var 0).sub (MPoly.const 2), .gt, [0]⟩
    ExactSolver O ∧ (∀ a ∈ hyps, InVars [0] a) ∧ InVars [0] main ∧
    ((chainStep testSage O 0 0 (some [0]) hyps main [1]).toOption.map fun r => r.1) = some [-1 / 1000000] := by
  intro O hyps main
  refine ⟨exactSearch_exact _ _, ?_, ?_, by decide +kernel⟩
  · unfold InVars; decide +kernel
  · unfold InVars; decide +kernel

/-- The hypotheses of `C85_returns` are met by a solver that always returns 3. -/
example : (∀ k n, 0 < n → testSearch.pick 0 k n < n) ∧
    (∀ k F x, x.length = [0].length → (∀ y : List ℚ, y.length = [0].length → ∃ z, F y = .ok z ∧ z.length = [0].length) →
      ∃ x', testSearch.fsolve 0 k F x = .ok x' ∧ x'.length = [0].length) :=
  ⟨fun _ _ h => h, fun _ _ _ _ _ => ⟨[3], rfl, rfl⟩⟩

-- C85_unknown_variable: the only hypothesis is `x1 > 0`, and the variable order is `[0]`
example : let O : Search ℚ := exactSearch (-1 / 1000000) (1 / 1000000)
    (chooseAtom testSage O 0 0 (some [0]) [⟨MPoly.var 1, .gt, [1]⟩] [1]).toOption = some ⟨MPoly.var 1, .gt, [1]⟩ ∧
    1 ∈ (MPoly.var 1).vars ∧ 1 ∉ [0] := by decide +kernel

end Verif.Grf
