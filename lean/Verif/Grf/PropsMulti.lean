import Verif.Grf.TrueElim

/-!
# C72: soundness of the sampling core in any number of variables
-/

set_option linter.unusedSectionVars false

namespace Verif.Grf

open Topology Verif.Alg

/-- What is assumed of the polynomials of one call of the core: at each level of the projection no resultant and no
discriminant is 0, and in no stack rational and irrational roots are mixed. -/
def LevelsOK (E : CadEnv) (n : ℕ) (top : List MPoly) (numSps : ℕ) (ambient : List Atom) : Prop :=
  GoodProj E (projOrd (filterProjSet top) (List.range n)) (n - 1) (filterProjSet top) ∧
  ∀ base sets, projSets E (projOrd (filterProjSet top) (List.range n)) (n - 1) (filterProjSet top) = base :: sets →
    NotMixed ℝ (fun p => p ∈ base) ∧
    ∀ x ∈ sectorSps E [] (isoRootIntvls E base) 1 ambient ((projOrd (filterProjSet top) (List.range n)).getD 0 0),
      StacksOK E (projOrd (filterProjSet top) (List.range n)) numSps ambient sets [x]

/-- Sequents in the variables `x0, ..., x(n-1)` that only have strict relations to falsify. -/
structure StrictSequentN (n : ℕ) (hyps : List Atom) (main : Atom) : Prop where
  mainOp : main.op = .le ∨ main.op = .ge ∨ main.op = .eq
  hypOps : ∀ h ∈ hyps, h.op = .lt ∨ h.op = .gt ∨ h.op = .ne
  fresh : ∀ h ∈ main :: hyps, Fresh h
  poly : ∀ h ∈ main :: hyps, Normal h.poly ∧ ∀ w ∈ h.poly.vars, w < n

theorem rel_ratCast (op : Op) (a : ℚ) : rel op (a : ℝ) 0 ↔ rel op a 0 := by
  cases op <;> simp [rel]

/-- A goal that is true at all sample points holds at all points at which no polynomial vanishes (but the zero
polynomial). -/
theorem multi_core_generic (S : Sage ℚ) (E : CadEnv) (hE : RootsOK ℝ E) (hu : UniformOK E) (hel : ElimOK E) (n : ℕ)
    (g : Goal) (hfresh : ∀ h ∈ g.main :: g.hyps, Fresh h)
    (hpoly : ∀ h ∈ g.main :: g.hyps, Normal h.poly ∧ ∀ w ∈ h.poly.vars, w < n) (top : List MPoly)
    (hsub : ∀ h ∈ g.main :: g.hyps, h.poly ∈ top) (htop : ∀ p ∈ top, Normal p ∧ ∀ w ∈ p.vars, w < n)
    (numSps : ℕ) (hn : 1 ≤ numSps) (ambient : List Atom) (hlev : LevelsOK E n top numSps ambient)
    (ds : List (Dict ℚ)) (hds : samplePtDicts S E n top (some g) numSps ambient = .ok ds)
    (htrue : ∀ d ∈ ds, g.evalOnDict S d = .ok true) (ρ : ℕ → ℝ)
    (hnz : ∀ h ∈ g.main :: g.hyps, h.poly = [] ∨ h.poly.eval ρ ≠ 0) (hρ : ∀ h ∈ g.hyps, h.holds ρ) : g.main.holds ρ := by
  by_contra hmain
  -- a nearby point where no polynomial is zero
  obtain ⟨ρ', hρ', hl1⟩ := nonVan_component (ps := ((g.main :: g.hyps).map Atom.poly).filter (· ≠ [])) (ρ := ρ) (by
    intro p hp
    obtain ⟨hp, hne⟩ := List.mem_filter.1 hp
    obtain ⟨h, hh, rfl⟩ := List.mem_map.1 hp
    exact (hnz h hh).resolve_left (by simpa using hne)) (P := filterProjSet top) (by
    intro q hq
    obtain ⟨p, hp, hc, rfl⟩ := mem_filterProjSet hq
    refine ⟨normal_base (htop p hp).1, ?_⟩
    unfold purePolyBase
    split
    · split
      · simp [MPoly.var]
      · exact nonconstant_ne hc
    · exact nonconstant_ne hc)
  obtain ⟨v, rest, base, sets, h1, h2, h3, -⟩ := C60_partial S E n top g numSps ambient ds
    (hfresh _ (by simp)) (fun h hh => hfresh h (by simp [hh])) hds
  obtain ⟨hgood, hmix⟩ := hlev
  rw [h1] at hgood hmix
  obtain ⟨m1, m2⟩ := hmix base sets h2
  have hperm : (v :: rest).Perm (List.range n) := h1 ▸ (C40_projection_order (filterProjSet top) (List.range n)).1
  have hlen : (v :: rest).length = n := by rw [hperm.length_eq, List.length_range]
  have hnpos : 0 < n := by rw [← hlen]; simp
  have htake : (v :: rest).take (n - 1 + 1) = v :: rest := by
    apply List.take_of_length_le
    omega
  obtain ⟨x, hx, s, ht, hslen, σ, hl2, hag⟩ := tree_meets hE hu hel (hperm.nodup_iff.2 List.nodup_range) hn ambient
    (n - 1) (by omega) (filterProjSet top) (by
      intro q hq
      obtain ⟨p, hp, hc, rfl⟩ := mem_filterProjSet hq
      refine ⟨normal_base (htop p hp).1, ?_, fun w hw => ?_⟩
      · unfold purePolyBase
        split
        · split
          · simp [MPoly.isConstant, MPoly.var, Mono.deg]
          · exact hc
        · exact hc
      · rw [htake, hperm.mem_iff, List.mem_range]
        exact (htop p hp).2 w (vars_base hw)) (nodup_filterProjSet _) hgood base sets h2 m1 m2 ρ' hρ'
  have hsg : ∀ h ∈ g.main :: g.hyps, sg (h.poly.eval ρ) = sg (h.poly.eval σ) := by
    intro h hh
    by_cases h0 : h.poly = []
    · rw [h0, MPoly.eval_nil, MPoly.eval_nil]
    rw [linked_sg hl1 (p := h.poly) fun τ hτ => hτ _ (List.mem_filter.2 ⟨List.mem_map.2 ⟨h, hh, rfl⟩, by simpa using h0⟩)]
    exact linked_sg hl2 fun τ hτ => filter_ne hτ (hsub h hh) (hpoly h hh).1 h0
  -- the rational point
  let τ : ℕ → ℚ := fun i => (((v :: rest).zip s).lookup i).getD 0
  have hτ : Extends τ ((v :: rest).zip s) := by
    intro i y hy
    simp [τ, hy]
  have hlook : ∀ w < n, ∃ y, ((v :: rest).zip s).lookup w = some y := by
    intro w hw
    rw [← Option.isSome_iff_exists]
    have := lookup_spDict_isSome (v :: rest) s w
    rw [spDict] at this
    rw [this, hslen, htake, hperm.mem_iff, List.mem_range]
    exact hw
  have heval : ∀ h ∈ g.main :: g.hyps, h.poly.eval σ = ((h.poly.eval τ : ℚ) : ℝ) := by
    intro h hh
    rw [← eval_ratCast]
    apply MPoly.eval_congr
    intro w hw
    obtain ⟨y, hy⟩ := hlook w ((hpoly h hh).2 w hw)
    rw [hag w y hy]
    simp [τ, hy]
  have hiff : ∀ h ∈ g.main :: g.hyps, (h.holds τ ↔ h.holds ρ) := by
    intro h hh
    unfold Atom.holds
    rw [rel_of_sg (hsg h hh), heval h hh, rel_ratCast]
  have hne : (v :: rest).zip s ≠ [] := by
    intro h0
    obtain ⟨y, hy⟩ := hlook 0 hnpos
    rw [h0] at hy
    simp at hy
  obtain ⟨b, hb⟩ := goal_noerr S hne g
  have hbad : g.evalOnDict S ((v :: rest).zip s) ≠ .ok true := by
    intro hb
    apply hmain
    rw [← hiff _ (by simp)]
    exact (C51_partial S).2.2 g _ (hfresh _ (by simp)) (fun h hh => hfresh h (by simp [hh])) hb τ hτ
      fun h hh => (hiff h (by simp [hh])).2 (hρ h hh)
  cases b with
  | true => exact hbad hb
  | false => exact hbad (htrue _ (h3 x hx s ht hb))

/-- The core is sound for strict sequents. -/
theorem multi_core_sound (S : Sage ℚ) (E : CadEnv) (hE : RootsOK ℝ E) (hu : UniformOK E) (hel : ElimOK E) (n : ℕ)
    (g : Goal) (hg : StrictSequentN n g.hyps g.main) (top : List MPoly)
    (hsub : ∀ h ∈ g.main :: g.hyps, h.poly ∈ top) (htop : ∀ p ∈ top, Normal p ∧ ∀ w ∈ p.vars, w < n)
    (numSps : ℕ) (hn : 1 ≤ numSps) (ambient : List Atom) (hlev : LevelsOK E n top numSps ambient)
    (ds : List (Dict ℚ)) (hds : samplePtDicts S E n top (some g) numSps ambient = .ok ds)
    (htrue : ∀ d ∈ ds, g.evalOnDict S d = .ok true) :
    ∀ ρ : ℕ → ℝ, (∀ h ∈ g.hyps, h.holds ρ) → g.main.holds ρ := by
  intro ρ hρ
  by_contra hmain
  refine hmain (multi_core_generic S E hE hu hel n g hg.fresh hg.poly top hsub htop numSps hn ambient hlev ds hds htrue ρ ?_ hρ)
  intro h hh
  right
  intro h0
  rcases List.mem_cons.1 hh with rfl | hh'
  · apply hmain
    unfold Atom.holds
    rw [h0]
    rcases hg.mainOp with h | h | h <;> rw [h] <;> simp [rel]
  · have := hρ h hh'
    unfold Atom.holds at this
    rw [h0] at this
    rcases hg.hypOps h hh' with h | h | h <;> rw [h] at this <;> simp [rel] at this

/-- The rounds of the loop when no hypothesis is an equation. -/
theorem rounds_noeq {K : Type} [Field K] [LinearOrder K] [IsStrictOrderedRing K] (C : Core K) :
    ∀ (i k : ℕ) (st st' : State), Rounds C i st k st' →
      st.goal.gb = [] → (∀ a ∈ st.hyps, a.op ≠ .eq) → st'.goal.gb = [] ∧ st'.goal.main = st.goal.main ∧
      ∃ ps, st'.goal.hyps = st.goal.hyps ++ ps ∧ (ps ++ st'.hyps).Perm st.hyps := by
  intro i k st st' h
  induction h with
  | refl i st => exact fun h1 _ => ⟨h1, rfl, [], by simp⟩
  | step i k st st₁ st' bads h hs ih =>
    intro h1 h2
    obtain ⟨i, hi⟩ := round_some h
    obtain ⟨a, g, ha, hg, rfl⟩ := promote_ok hi
    have hop : a.op ≠ .eq := h2 a (List.mem_of_getElem? ha)
    have hg' : g = { st.goal with hyps := st.goal.hyps ++ [a] } := by
      unfold Goal.addHyp Goal.simplify Goal.simplifyNew at hg
      rw [if_neg hop, if_neg (by simp [h1])] at hg
      cases hg
      rfl
    subst hg'
    obtain ⟨e1, e2, ps, e3, e4⟩ := ih h1 (by
      intro b hb
      apply h2
      rcases List.mem_append.1 hb with hb | hb
      · exact List.mem_of_mem_take hb
      · exact List.mem_of_mem_drop hb)
    refine ⟨e1, e2, a :: ps, by rw [e3]; simp, ?_⟩
    exact (List.Perm.cons a e4).trans (take_drop_perm ha)

/-- What holds of **C72**: in any number of variables, if the hypotheses are relations `<`, `>`, `!=` and the goal is a
relation `<=`, `>=`, `=`, then a sequent reported as proved is valid over the reals: the promoted hypotheses imply the
goal. It is assumed that no resultant and no discriminant of a projection is 0 (square-free polynomials without common
factors) and that in no stack a rational root of a polynomial comes with irrational roots (C38_violated). Sage's root
isolation, resultants and discriminants are assumed to be right, and random numbers to be strictly between the end
points. Nothing is assumed of the solver, the local search and Gröbner bases. -/
theorem C72_partial (S : Sage ℚ) (E : CadEnv) (hE : RootsOK ℝ E) (hu : UniformOK E) (hel : ElimOK E) (n numSps : ℕ)
    (hn : 1 ≤ numSps) (extra : ℕ → State → List MPoly) (more) (solve) (hyps : List Atom) (main : Atom)
    (hseq : StrictSequentN n hyps main)
    (hextra : ∀ k st, ∀ p ∈ extra k st, Normal p ∧ ∀ w ∈ p.vars, w < n)
    (hlev : ∀ k (st : State), st.goal.main = main → (st.goal.hyps ++ st.hyps).Perm hyps →
      LevelsOK E n (extra k st ++ main.poly :: st.goal.hyps.map Atom.poly) numSps st.hyps)
    (fuel : ℕ) (ids : List ℕ) (ret : List (List ℕ)) (st' : State)
    (h : check (cadCore S E n numSps extra more solve) fuel 0 ⟨hyps, ⟨main, [], []⟩, ids⟩ = .ok (ret, st')) :
    ∃ ps : List Atom, (ps ++ st'.hyps).Perm hyps ∧ ps = st'.goal.hyps ∧
      ∀ ρ : ℕ → ℝ, (∀ a ∈ ps, a.holds ρ) → main.holds ρ := by
  obtain ⟨k, ret', hr, hlast⟩ := check_rounds _ fuel 0 _ st' ret h
  obtain ⟨ds, hds, htrue⟩ := round_none hlast
  obtain ⟨e1, e2, ps, e3, e4⟩ := rounds_noeq _ 0 k _ st' hr rfl (by
    intro a ha
    rcases hseq.hypOps a ha with h | h | h <;> rw [h] <;> decide)
  simp only [List.nil_append] at e3
  have hps : ∀ a ∈ ps, a ∈ hyps := fun a ha => e4.subset (by simp [ha])
  refine ⟨ps, e4, e3.symm, ?_⟩
  have hmem : ∀ a ∈ st'.goal.main :: st'.goal.hyps, a ∈ main :: hyps := by
    intro a ha
    rw [e2, e3] at ha
    rcases List.mem_cons.1 ha with rfl | ha
    · simp
    · exact List.mem_cons_of_mem _ (hps a ha)
  have hg : StrictSequentN n st'.goal.hyps st'.goal.main := by
    refine ⟨by rw [e2]; exact hseq.mainOp, ?_, fun a ha => hseq.fresh a (hmem a ha), fun a ha => hseq.poly a (hmem a ha)⟩
    intro a ha
    rw [e3] at ha
    exact hseq.hypOps a (hps a ha)
  have hvalid := multi_core_sound S E hE hu hel n st'.goal hg
    (extra (0 + k) st' ++ st'.goal.main.poly :: st'.goal.hyps.map Atom.poly) (by
      intro a ha
      apply List.mem_append.2 (Or.inr _)
      rcases List.mem_cons.1 ha with rfl | ha
      · simp
      · exact List.mem_cons_of_mem _ (List.mem_map.2 ⟨a, ha, rfl⟩)) (by
      intro p hp
      rcases List.mem_append.1 hp with hp | hp
      · exact hextra _ _ p hp
      · have : ∃ a ∈ st'.goal.main :: st'.goal.hyps, p = a.poly := by
          rcases List.mem_cons.1 hp with rfl | hp
          · exact ⟨_, by simp, rfl⟩
          · obtain ⟨a, ha, rfl⟩ := List.mem_map.1 hp
            exact ⟨a, by simp [ha], rfl⟩
        obtain ⟨a, ha, rfl⟩ := this
        exact hseq.poly a (hmem a ha)) numSps hn st'.hyps (by
      have := hlev (0 + k) st' e2 (by rw [e3]; exact e4)
      rw [e2]
      exact this) ds hds htrue
  intro ρ hρ
  have := hvalid ρ (by rw [e3]; exact hρ)
  rwa [e2] at this

/-- The polynomials that are projected are square-free and pairwise coprime, as polynomials in the variable to eliminate
over the field of rational functions in the other variables. -/
def SquarefreeProj (E : CadEnv) (ord : List ℕ) : ℕ → List MPoly → Prop
  | 0, _ => True
  | k + 1, ps =>
    let v := ord.getD (k + 1) 0
    (∀ p ∈ ps, 2 ≤ p.degreeIn v → Squarefree (overField v p)) ∧
    (∀ p ∈ ps, ∀ q ∈ ps, p ≠ q → 0 < p.degreeIn v ∨ 0 < q.degreeIn v → IsCoprime (overField v p) (overField v q)) ∧
    SquarefreeProj E ord k (bmProj E v ps)

theorem goodProj_iff {E : CadEnv} (h : TrueElim E) (ord : List ℕ) : ∀ (k : ℕ) (ps : List MPoly),
    (∀ p ∈ ps, Normal p ∧ p.isConstant = false) → (GoodProj E ord k ps ↔ SquarefreeProj E ord k ps)
  | 0, _, _ => Iff.rfl
  | k + 1, ps, hps => by
    have ih := goodProj_iff h ord k (bmProj E (ord.getD (k + 1) 0) ps) fun q hq =>
      ⟨(mem_bmProj h.elimOK hps hq).1, (mem_bmProj h.elimOK hps hq).2.1⟩
    refine and_congr ?_ (and_congr ?_ ih)
    · refine forall₃_congr fun p hp hd => ?_
      exact h.disc_ne_nil (hps p hp).1 (by omega)
    · refine forall₂_congr fun p hp => forall₄_congr fun q hq _ hd => ?_
      exact h.res_ne_nil (hps p hp).1 (hps q hq).1 hd

/-- What holds of **C72**, in terms of the mathematical notions: Sage's resultants and discriminants are those of the
books (determinants of Sylvester matrices), and at each level of the projection the polynomials are square-free and
pairwise coprime. -/
theorem C72_squarefree_partial (S : Sage ℚ) (E : CadEnv) (hE : RootsOK ℝ E) (hu : UniformOK E) (hel : TrueElim E)
    (n numSps : ℕ) (hn : 1 ≤ numSps) (extra : ℕ → State → List MPoly) (more) (solve) (hyps : List Atom) (main : Atom)
    (hseq : StrictSequentN n hyps main)
    (hextra : ∀ k st, ∀ p ∈ extra k st, Normal p ∧ ∀ w ∈ p.vars, w < n)
    (hlev : ∀ k (st : State), st.goal.main = main → (st.goal.hyps ++ st.hyps).Perm hyps →
      let top := filterProjSet (extra k st ++ main.poly :: st.goal.hyps.map Atom.poly)
      let ord := projOrd top (List.range n)
      SquarefreeProj E ord (n - 1) top ∧ ∀ base sets, projSets E ord (n - 1) top = base :: sets →
        NotMixed ℝ (fun p => p ∈ base) ∧
        ∀ x ∈ sectorSps E [] (isoRootIntvls E base) 1 st.hyps (ord.getD 0 0), StacksOK E ord numSps st.hyps sets [x])
    (fuel : ℕ) (ids : List ℕ) (ret : List (List ℕ)) (st' : State)
    (h : check (cadCore S E n numSps extra more solve) fuel 0 ⟨hyps, ⟨main, [], []⟩, ids⟩ = .ok (ret, st')) :
    ∃ ps : List Atom, (ps ++ st'.hyps).Perm hyps ∧ ps = st'.goal.hyps ∧
      ∀ ρ : ℕ → ℝ, (∀ a ∈ ps, a.holds ρ) → main.holds ρ := by
  refine C72_partial S E hE hu hel.elimOK n numSps hn extra more solve hyps main hseq hextra ?_ fuel ids ret st' h
  intro k st h1 h2
  obtain ⟨h3, h4⟩ := hlev k st h1 h2
  refine ⟨(goodProj_iff hel _ _ _ ?_).2 h3, h4⟩
  intro p hp
  obtain ⟨r, hr, hc, rfl⟩ := mem_filterProjSet hp
  have hrn : Normal r := by
    rcases List.mem_append.1 hr with hr | hr
    · exact (hextra k st r hr).1
    · rcases List.mem_cons.1 hr with rfl | hr
      · exact (hseq.poly main (by simp)).1
      · obtain ⟨a, ha, rfl⟩ := List.mem_map.1 hr
        exact (hseq.poly a (List.mem_cons_of_mem _ (h2.subset (by simp [ha])))).1
  refine ⟨normal_base hrn, ?_⟩
  unfold purePolyBase
  split
  · split
    · next u hu => simp [MPoly.isConstant, MPoly.var, Mono.deg]
    · exact hc
  · exact hc

/-- There are right resultants, discriminants and root isolations, so the assumptions can be met. -/
theorem C72_assumptions_met : ∃ E : CadEnv, RootsOK ℝ E ∧ UniformOK E ∧ TrueElim E := by
  obtain ⟨E, hE, hu, -⟩ := rootsOK_uniform
  refine ⟨{ E with
    res := fun p q v => if p.degreeIn v = 0 ∧ q.degreeIn v = 0 then []
      else ofMv (Polynomial.resultant (inVar v (toMv p)) (inVar v (toMv q)))
    disc := fun p v => if p.degreeIn v = 0 then [] else ofMv (inVar v (toMv p)).discr }, ?_, hu, ?_⟩
  · exact ⟨hE.roots, hE.cover, hE.has, hE.uniq, hE.sep⟩
  have hnil : Normal [] := ⟨by simp [NoZeroTerms], by simp, by simp⟩
  refine ⟨?_, ?_, ?_, ?_, ?_, ?_⟩
  · intro p q v _ _ hd
    simp only
    rw [if_neg (by omega), toMv_ofMv]
  · intro p v _ hd
    simp only
    rw [if_neg (by omega), toMv_ofMv]
  · intro p q v _ _ h1 h2
    simp only
    rw [if_pos ⟨h1, h2⟩]
    rfl
  · intro p v _ h1
    simp only
    rw [if_pos h1]
    rfl
  · intro p q v _ _
    simp only
    split
    · exact hnil
    · exact normal_ofMv _
  · intro p v _
    simp only
    split
    · exact hnil
    · exact normal_ofMv _

/-- `x0^4 + x0^2 - x0^2*x1^5` -/
def squarePoly : MPoly := [([2, 5], -1), ([2], 1), ([4], 1)]

theorem eval_squarePoly {K : Type} [Field K] (ρ : ℕ → K) :
    squarePoly.eval ρ = ρ 0 ^ 4 + ρ 0 ^ 2 - ρ 0 ^ 2 * ρ 1 ^ 5 := by
  simp [squarePoly, MPoly.eval, Mono.evalFrom]; ring

theorem normal_squarePoly : Normal squarePoly := by
  refine ⟨?_, ?_, by decide +kernel⟩
  · unfold NoZeroTerms; decide +kernel
  · unfold Mono.Stripped; decide +kernel

/-- The discriminant of a polynomial with the square factor `x0^2` is 0. -/
theorem disc_squarePoly {E : CadEnv} (hel : ElimOK E) : E.disc squarePoly 0 = [] := by
  by_contra hne
  obtain ⟨τ, hτ⟩ := (hel.discNormal squarePoly 0 normal_squarePoly).exists_ne hne
  have h0 := hel.disc squarePoly 0 (Function.update (fun i => (τ i : ℝ)) 0 0) normal_squarePoly (by decide +kernel) (by
      have : lcIn squarePoly 0 = [([], 1)] := by decide +kernel
      rw [this]
      simp [MPoly.eval, Mono.evalFrom]) (by
      rw [eval_squarePoly]; simp) (by
      have hf : (fun x : ℝ => squarePoly.eval (Function.update (Function.update (fun i => (τ i : ℝ)) 0 0) 0 x)) =
          fun x => x ^ 4 + x ^ 2 - x ^ 2 * (τ 1 : ℝ) ^ 5 := by
        funext x
        rw [eval_squarePoly]
        simp
      rw [hf]
      have h := ((hasDerivAt_pow 4 (0 : ℝ)).fun_add (hasDerivAt_pow 2 (0 : ℝ))).fun_sub
        ((hasDerivAt_pow 2 (0 : ℝ)).mul_const ((τ 1 : ℝ) ^ 5))
      simpa using h)
  have h1 : (E.disc squarePoly 0).eval (Function.update (fun i => (τ i : ℝ)) 0 0) =
      (E.disc squarePoly 0).eval fun i => (τ i : ℝ) := by
    apply MPoly.eval_congr
    intro w hw
    exact Function.update_of_ne (hel.discVars _ _ w normal_squarePoly hw).1 _ _
  rw [h1, eval_ratCast] at h0
  exact hτ (by exact_mod_cast h0)

theorem main_true (S : Sage ℚ) (a : Atom) (d : Dict ℚ) (hc : Covers d a) (h : rel a.op (a.poly.eval (ptOf d)) 0) :
    (⟨a, [], []⟩ : Goal).evalOnDict S d = .ok true := by
  unfold Goal.evalOnDict
  simp only [bind, Except.bind]
  rw [evalOnDict_covered S hc]
  have : Op.test a.op (MPoly.eval (ptOf d) a.poly) = true := by
    rw [test_iff]
    exact h
  simp only [this]
  rfl

/-- The sample points when the only root is 0. -/
theorem zero_root_samples {E : CadEnv} {ivls : List ((ℚ × ℚ) × ℕ)} (hI : ∀ I ∈ ivls, I.1 = (0, 0)) {tag : List ℚ}
    {numSps v : ℕ} {s : ℚ} (hs : s ∈ sectorSps E tag ivls numSps [] v) : s = -1 ∨ s = 1 ∨ s = 0 := by
  unfold sectorSps at hs
  split at hs
  · simp [sectorNoRoots] at hs; tauto
  have hI' : ∀ I ∈ (ivls.map Prod.fst).insertionSort (fun a b => ivlLe a b = true), I = (0, 0) := by
    intro I hI'
    rw [List.mem_insertionSort] at hI'
    obtain ⟨J, hJ, rfl⟩ := List.mem_map.1 hI'
    exact hI J hJ
  generalize (ivls.map Prod.fst).insertionSort (fun a b => ivlLe a b = true) = l at hs hI'
  unfold sectorRoots at hs
  split at hs
  · next f l e he =>
    rw [List.mem_insertionSort] at hs
    have hf0 := hI' f (by simp)
    have he0 := hI' e (List.mem_of_getLast? he)
    rcases List.mem_append.1 hs with hs | hs
    · rcases List.mem_append.1 hs with hs | hs
      · rw [hf0, he0] at hs
        norm_num at hs
        tauto
      · obtain ⟨g, hg, hs⟩ := List.mem_flatMap.1 hs
        obtain ⟨I, hI1, J, hJ1, he⟩ := mem_gaps hg
        rw [hI' I hI1, hI' J hJ1] at he
        rw [show g.2.1 = 0 by rw [he], show g.2.2 = 0 by rw [he]] at hs
        simp [kRandomSps] at hs
        tauto
    · obtain ⟨a, ha, hs⟩ := List.mem_flatMap.1 hs
      have := hI' a.1 (List.fst_mem_of_mem_zipIdx ha)
      rw [this] at hs
      simp [kRandomSps] at hs
      tauto
  · simp at hs

/-- **C72** is violated: the comment at `bm_proj` says that not computing square-free factors affects neither soundness
nor completeness, but the discriminant of a polynomial with a square factor is 0, and is left out as a constant. The
program reports `⊢ x0^4 + x0^2 - x0^2*x1^5 >= 0` as proved, whatever Sage's (right) functions are and the random
choices: nothing is left to project to, the only value of `x1` is 0, and there the values of `x0` are -1, 0 and 1. The
sequent is false at `x0 = 1`, `x1 = 2`. -/
theorem C72_violated (S : Sage ℚ) (E : CadEnv) (hE : RootsOK ℝ E) (hel : ElimOK E) (numSps : ℕ) (more) (solve)
    (fuel : ℕ) :
    ∃ main : Atom, mkAtom [([4], 1), ([2], 1), ([2, 5], -1)] ">=" (MPoly.const 0) = .ok main ∧
      StrictSequentN 2 [] main ∧
      check (cadCore S E 2 numSps (fun _ _ => []) more solve) (fuel + 1) 0 ⟨[], ⟨main, [], []⟩, []⟩ =
        .ok ([], ⟨[], ⟨main, [], []⟩, []⟩) ∧
      ∃ ρ : ℕ → ℝ, ¬ main.holds ρ := by
  refine ⟨⟨squarePoly, .ge, [0, 1]⟩, by decide +kernel, ?_, ?_, fun i => if i = 0 then 1 else 2, ?_⟩
  · refine ⟨by decide, by simp, ?_, ?_⟩
    · intro h hh
      rw [List.mem_singleton] at hh
      subst hh
      unfold Fresh
      decide +kernel
    · intro h hh
      rw [List.mem_singleton] at hh
      subst hh
      refine ⟨⟨?_, ?_, ?_⟩, by decide +kernel⟩
      · unfold NoZeroTerms; decide +kernel
      · unfold Mono.Stripped; decide +kernel
      · decide +kernel
  · have hbm : bmProj E 0 [squarePoly] = [] := by
      have hl : lcIn squarePoly 0 = [([], 1)] := by decide +kernel
      unfold bmProj
      simp only [List.dedup_cons_of_notMem (List.not_mem_nil (a := squarePoly)), List.dedup_nil, List.map_cons,
        List.map_nil, disc_squarePoly hel, hl, List.flatMap_cons, List.flatMap_nil]
      have hfl : [squarePoly].filter (fun q => decide (squarePoly ≠ q)) = [] := by decide +kernel
      rw [hfl, List.map_nil]
      decide +kernel
    have hf : filterProjSet [squarePoly] = [squarePoly] := by decide +kernel
    have ho : projOrd [squarePoly] (List.range 2) = [1, 0] := by decide +kernel
    have hps : projSets E [1, 0] 1 [squarePoly] = [[], [squarePoly]] := by
      show projSets E [1, 0] 0 (bmProj E 0 [squarePoly]) ++ [[squarePoly]] = _
      rw [hbm]; rfl
    have hsam : ∃ ds, (cadCore S E 2 numSps (fun _ _ => []) more solve).samples 0
        ⟨[], ⟨⟨squarePoly, .ge, [0, 1]⟩, [], []⟩, []⟩ = .ok ds ∧ ∀ d ∈ ds, ∃ s ∈ sectorSps E [0] (isoRootIntvls E
          [[([4], 1), ([2], 1)]]) numSps [] 0, d = [(1, 0), (0, s)] := by
      refine ⟨(((stackExt E [1, 0] [squarePoly] numSps [] [0]) ++ []).insertionSort fun a b => ptLe a b = true).map
        (spDict [1, 0]), ?_, ?_⟩
      · show samplePtDicts S E 2 [squarePoly] _ numSps [] = _
        unfold samplePtDicts
        simp only [hf, ho, hps]
        rfl
      · intro d hd
        obtain ⟨c, hc, rfl⟩ := List.mem_map.1 hd
        rw [List.mem_insertionSort, List.append_nil] at hc
        unfold stackExt at hc
        have he : filterProjSet ([squarePoly].map (MPoly.subst (spDict [1, 0] [0]))) = [[([4], 1), ([2], 1)]] := by
          decide +kernel
        rw [he] at hc
        obtain ⟨s, hs, rfl⟩ := List.mem_map.1 hc
        exact ⟨s, hs, rfl⟩
    obtain ⟨ds, hds, hmem⟩ := hsam
    refine check_true _ _ _ _ _ hds ?_
    intro d hd
    obtain ⟨s, hs, rfl⟩ := hmem d hd
    have hval : ∀ a : ℚ, val [([4], 1), ([2], 1)] a = a ^ 4 + a ^ 2 := by
      intro a; simp [val, MPoly.eval, Mono.evalFrom]
    have hU : Univ [([4], 1), ([2], 1)] := ⟨⟨0, by decide +kernel⟩, 1, by rw [hval]; norm_num⟩
    have hroots : ∀ a : ℚ, (∃ m, (a, m) ∈ E.roots [([4], 1), ([2], 1)]) ↔ a = 0 := by
      intro a
      rw [hE.roots _ hU a, hval]
      constructor
      · intro h
        have h2 : a ^ 2 * (a ^ 2 + 1) = 0 := by linear_combination h
        rcases mul_eq_zero.1 h2 with h | h
        · exact pow_eq_zero_iff two_ne_zero |>.1 h
        · nlinarith [sq_nonneg a]
      · rintro rfl; norm_num
    have hne : E.roots [([4], 1), ([2], 1)] ≠ [] := by
      obtain ⟨m, hm⟩ := (hroots 0).2 rfl
      exact List.ne_nil_of_mem hm
    have hs3 := zero_root_samples (by
      intro I hI
      have hiso : isoRootIntvls E [[([4], 1), ([2], 1)]] =
          (E.roots [([4], 1), ([2], 1)]).map fun r => ((r.1, r.1), r.2) := by
        unfold isoRootIntvls
        simp [hne]
      rw [hiso] at hI
      obtain ⟨r, hr, rfl⟩ := List.mem_map.1 hI
      have := (hroots r.1).1 ⟨r.2, hr⟩
      simp [this]) hs
    change Goal.evalOnDict S ⟨⟨squarePoly, .ge, [0, 1]⟩, [], []⟩ _ = _
    apply main_true
    · refine ⟨by simp, by simp, fun v hv => ?_⟩
      have : v = 0 ∨ v = 1 := by
        revert v
        decide +kernel
      rcases this with rfl | rfl <;> simp
    · show rel .ge (squarePoly.eval _) 0
      rw [eval_squarePoly]
      have e0 : ptOf [(1, 0), (0, s)] 0 = s := by simp [ptOf, List.lookup_cons]
      have e1 : ptOf [((1 : ℕ), (0 : ℚ)), (0, s)] 1 = 0 := by simp [ptOf]
      rw [e0, e1]
      rcases hs3 with rfl | rfl | rfl <;> norm_num [rel]
  · show ¬ (squarePoly.eval (fun i : ℕ => if i = 0 then (1 : ℝ) else 2) ≥ 0)
    rw [eval_squarePoly]
    norm_num

/-! ### An example -/

/-- `x0 >= 0` -/
def ex2Main : Atom := ⟨[([1], 1)], .ge, [0]⟩
/-- `x0 - x1^2 > 0` -/
def ex2Hyp : Atom := ⟨[([0, 2], -1), ([1], 1)], .gt, [0, 1]⟩

/-- Right functions; for the polynomials of the example they are given explicitly. -/
noncomputable def ex2Env : CadEnv where
  roots := fun p =>
    if p = [([1], 1)] then [(0, 1)] else if p = [([0, 1], 1)] then [(0, 1)]
    else if p = [([1], 1), ([], -1)] then [(1, 1)] else (Classical.choose rootsOK_count).roots p
  rri := (Classical.choose rootsOK_count).rri
  uniform := fun _ _ _ _ l r => (l + r) / 2
  res := fun p q v =>
    if v = 0 ∧ p = ex2Main.poly ∧ q = ex2Hyp.poly then [([0, 2], -1)]
    else if v = 0 ∧ p = ex2Hyp.poly ∧ q = ex2Main.poly then [([0, 2], 1)]
    else if p.degreeIn v = 0 ∧ q.degreeIn v = 0 then [([], 1)]
    else ofMv (Polynomial.resultant (inVar v (toMv p)) (inVar v (toMv q)))
  disc := fun p v =>
    if p.degreeIn v = 0 ∨ v = 0 ∧ (p = ex2Main.poly ∨ p = ex2Hyp.poly) then [([], 1)]
    else ofMv (inVar v (toMv p)).discr

theorem ex2_roots : RootsOK ℝ ex2Env := by
  have hE := (Classical.choose_spec rootsOK_count).1
  refine ⟨?_, hE.cover, hE.has, hE.uniq, hE.sep⟩
  intro p hp a
  simp only [ex2Env]
  split
  · next h =>
    subst h
    have : val [([1], 1)] a = a := by simp [val, MPoly.eval, Mono.evalFrom]
    rw [this]; simp
  · split
    · next h =>
      subst h
      have : val [([0, 1], 1)] a = a := by simp [val, MPoly.eval, Mono.evalFrom]
      rw [this]; simp
    · split
      · next h =>
        subst h
        have : val [([1], 1), ([], -1)] a = a - 1 := by simp [val, MPoly.eval, Mono.evalFrom]; ring
        rw [this, sub_eq_zero]; simp
      · exact hE.roots p hp a

theorem normal_single (m : Mono) {c : ℚ} (hc : c ≠ 0) (hm : m.Stripped) : Normal [(m, c)] :=
  ⟨by intro t ht; rw [List.mem_singleton] at ht; rw [ht]; exact hc, by simpa using hm, by simp⟩

theorem toMv_ex2Main : inVar 0 (toMv ex2Main.poly) = Polynomial.X := by
  have : toMv ex2Main.poly = MvPolynomial.X 0 := by
    apply eq_of_aeval
    intro ρ
    rw [aeval_toMv, MvPolynomial.aeval_X]
    simp [ex2Main, MPoly.eval, Mono.evalFrom]
  rw [this]
  simp [inVar]

theorem toMv_ex2Hyp : inVar 0 (toMv ex2Hyp.poly) = Polynomial.X - Polynomial.C (MvPolynomial.X 1 ^ 2) := by
  have : toMv ex2Hyp.poly = MvPolynomial.X 0 - MvPolynomial.X 1 ^ 2 := by
    apply eq_of_aeval
    intro ρ
    rw [aeval_toMv, map_sub, map_pow, MvPolynomial.aeval_X, MvPolynomial.aeval_X]
    simp [ex2Hyp, MPoly.eval, Mono.evalFrom]
    ring
  rw [this]
  simp [inVar]

theorem toMv_square (c : ℚ) : toMv [([0, 2], c)] = MvPolynomial.C c * MvPolynomial.X 1 ^ 2 := by
  apply eq_of_aeval
  intro ρ
  rw [aeval_toMv]
  simp [MPoly.eval, Mono.evalFrom]

theorem toMv_const_one : toMv [([], 1)] = 1 := by
  apply eq_of_aeval
  intro ρ
  rw [aeval_toMv]
  simp [MPoly.eval, Mono.evalFrom]

/-- The functions of the example are right. -/
theorem ex2_true : TrueElim ex2Env where
  res := by
    intro p q v _ _ hd
    simp only [ex2Env]
    split
    · next h =>
      obtain ⟨rfl, rfl, rfl⟩ := h
      rw [toMv_ex2Main, toMv_ex2Hyp, toMv_square]
      rw [Polynomial.natDegree_X, Polynomial.natDegree_X_sub_C, Polynomial.resultant_X_sub_C_right _ _ _ (by simp)]
      simp
    · split
      · next h =>
        obtain ⟨rfl, rfl, rfl⟩ := h
        rw [toMv_ex2Main, toMv_ex2Hyp, toMv_square]
        rw [Polynomial.natDegree_X, Polynomial.natDegree_X_sub_C, Polynomial.resultant_X_sub_C_left _ _ _ (by simp)]
        simp
      · rw [if_neg (by omega), toMv_ofMv]
  disc := by
    intro p v _ hd
    simp only [ex2Env]
    split
    · next h =>
      rcases h with h | ⟨rfl, rfl | rfl⟩
      · omega
      · rw [toMv_ex2Main, toMv_const_one, Polynomial.discr_of_degree_eq_one Polynomial.degree_X]
      · rw [toMv_ex2Hyp, toMv_const_one, Polynomial.discr_of_degree_eq_one (Polynomial.degree_X_sub_C _)]
    · rw [toMv_ofMv]
  resConst := by
    intro p q v _ _ h1 h2
    simp only [ex2Env]
    split
    · next h =>
      obtain ⟨rfl, rfl, rfl⟩ := h
      revert h1
      decide +kernel
    · split
      · next h =>
        obtain ⟨rfl, rfl, rfl⟩ := h
        revert h1
        decide +kernel
      · rw [if_pos ⟨h1, h2⟩]; rfl
  discConst := by
    intro p v _ h
    simp only [ex2Env]
    rw [if_pos (Or.inl h)]; rfl
  resNormal := by
    intro p q v _ _
    simp only [ex2Env]
    split
    · exact normal_single _ (by decide) (by unfold Mono.Stripped; decide)
    · split
      · exact normal_single _ (by decide) (by unfold Mono.Stripped; decide)
      · split
        · exact normal_single _ (by decide) (by unfold Mono.Stripped; decide)
        · exact normal_ofMv _
  discNormal := by
    intro p v _
    simp only [ex2Env]
    split
    · exact normal_single _ (by decide) (by unfold Mono.Stripped; decide)
    · exact normal_ofMv _

theorem ex2_elim : ElimOK ex2Env := ex2_true.elimOK

theorem ex2_sequent : StrictSequentN 2 [ex2Hyp] ex2Main := by
  refine ⟨by decide, by decide, ?_, ?_⟩
  · intro h hh
    rcases List.mem_cons.1 hh with rfl | hh
    · unfold Fresh; decide +kernel
    · rw [List.mem_singleton] at hh; subst hh; unfold Fresh; decide +kernel
  · intro h hh
    rcases List.mem_cons.1 hh with rfl | hh
    · refine ⟨⟨?_, ?_, by decide +kernel⟩, by decide +kernel⟩
      · unfold NoZeroTerms; decide +kernel
      · unfold Mono.Stripped; decide +kernel
    · rw [List.mem_singleton] at hh; subst hh
      refine ⟨⟨?_, ?_, by decide +kernel⟩, by decide +kernel⟩
      · unfold NoZeroTerms; decide +kernel
      · unfold Mono.Stripped; decide +kernel

theorem ex2_levels (top : List MPoly) (ambient : List Atom)
    (h : top = [ex2Main.poly] ∨ top = [ex2Main.poly, ex2Hyp.poly]) : LevelsOK ex2Env 2 top 1 ambient := by
  rcases h with rfl | rfl
  · have hf : filterProjSet [ex2Main.poly] = [ex2Main.poly] := by decide +kernel
    have ho : projOrd [ex2Main.poly] (List.range 2) = [0, 1] := by decide +kernel
    have hp : projSets ex2Env [0, 1] (2 - 1) [ex2Main.poly] = [[ex2Main.poly], [ex2Main.poly]] := by decide +kernel
    unfold LevelsOK
    rw [hf, ho]
    refine ⟨⟨by decide +kernel, by decide +kernel, trivial⟩, fun base sets hb => ?_⟩
    rw [hp, List.cons.injEq] at hb
    obtain ⟨rfl, rfl⟩ := hb
    refine ⟨Or.inr ?_, fun x _ => ⟨Or.inr ?_, fun _ _ => trivial⟩⟩
    · intro p hp _ z hz
      rw [List.mem_singleton] at hp
      subst hp
      refine ⟨0, ?_⟩
      simp [val, ex2Main, MPoly.eval, Mono.evalFrom] at hz
      simpa using hz
    · intro p hp hc
      rw [List.map_singleton, List.mem_singleton] at hp
      subst hp
      exfalso
      have : ((ex2Main.poly.subst (spDict [0, 1] [x])).isConstant) = true := by
        rw [MPoly.isConstant, List.all_eq_true]
        intro t ht
        have h1 : t ∈ addTerm [] (1 * (x ^ 1 * 1)) [] := ht
        rcases mem_addTerm h1 with h | ⟨_, h, _⟩
        · rw [h]; rfl
        · simp at h
      rw [this] at hc
      cases hc
  · have hf : filterProjSet [ex2Main.poly, ex2Hyp.poly] = [ex2Main.poly, ex2Hyp.poly] := by decide +kernel
    have ho : projOrd [ex2Main.poly, ex2Hyp.poly] (List.range 2) = [1, 0] := by decide +kernel
    have hp : projSets ex2Env [1, 0] (2 - 1) [ex2Main.poly, ex2Hyp.poly] =
      [[[([0, 1], 1)]], [ex2Main.poly, ex2Hyp.poly]] := by decide +kernel
    unfold LevelsOK
    rw [hf, ho]
    refine ⟨⟨by decide +kernel, by decide +kernel, trivial⟩, fun base sets hb => ?_⟩
    rw [hp, List.cons.injEq] at hb
    obtain ⟨rfl, rfl⟩ := hb
    refine ⟨Or.inr ?_, fun x _ => ⟨Or.inr ?_, fun _ _ => trivial⟩⟩
    · intro p hp _ z hz
      rw [List.mem_singleton] at hp
      subst hp
      refine ⟨0, ?_⟩
      simp [val, MPoly.eval, Mono.evalFrom] at hz
      simpa using hz
    · intro p hp _ z hz
      obtain ⟨q, hq, rfl⟩ := List.mem_map.1 hp
      rw [val, eval_subst] at hz
      have e0 : over (spDict [1, 0] [x]) (fun _ : ℕ => z) 0 = z := rfl
      have e1 : over (spDict [1, 0] [x]) (fun _ : ℕ => z) 1 = (x : ℝ) := by simp [over, spDict]
      rcases List.mem_cons.1 hq with rfl | hq
      · refine ⟨0, ?_⟩
        simp [ex2Main, MPoly.eval, Mono.evalFrom, e0] at hz
        simpa using hz
      · rw [List.mem_singleton] at hq
        subst hq
        refine ⟨x ^ 2, ?_⟩
        simp [ex2Hyp, MPoly.eval, Mono.evalFrom, e0, e1] at hz
        push_cast
        linarith

theorem ok_of_toOption {ε α : Type} {r : Except ε α} {a : α} (h : r.toOption = some a) : r = .ok a := by
  cases r with
  | error e => cases h
  | ok b => cases h; rfl

/-- The core of the example. -/
noncomputable def ex2Core : Core ℚ :=
  cadCore testSage ex2Env 2 1 (fun _ _ => []) (fun _ _ _ => .ok []) fun _ _ _ => some [0]

/-- A sequent in two variables that is proved after one promotion, with the assumptions of C72_partial:
`x0 > x1^2 ⊢ x0 >= 0`. -/
theorem C72_example : RootsOK ℝ ex2Env ∧ UniformOK ex2Env ∧ TrueElim ex2Env ∧ ElimOK ex2Env ∧ StrictSequentN 2 [ex2Hyp] ex2Main ∧
    (∀ (_ : ℕ) (st : State), st.goal.main = ex2Main → (st.goal.hyps ++ st.hyps).Perm [ex2Hyp] →
      LevelsOK ex2Env 2 ([] ++ ex2Main.poly :: st.goal.hyps.map Atom.poly) 1 st.hyps) ∧
    ∃ ret st', check (cadCore testSage ex2Env 2 1 (fun _ _ => []) (fun _ _ _ => .ok []) fun _ _ _ => some [0]) 2 0
      ⟨[ex2Hyp], ⟨ex2Main, [], []⟩, [0]⟩ = .ok (ret, st') ∧ st'.goal.hyps = [ex2Hyp] := by
  refine ⟨ex2_roots, ?_, ex2_true, ex2_elim, ex2_sequent, ?_, ?_⟩
  · intro tag b i j l r h
    constructor <;> simp only [ex2Env] <;> linarith
  · intro k st _ hp
    apply ex2_levels
    rw [List.perm_singleton] at hp
    cases hg : st.goal.hyps with
    | nil => left; rfl
    | cons a l =>
      rw [hg, List.cons_append, List.cons.injEq] at hp
      obtain ⟨rfl, h2⟩ := hp
      rw [List.append_eq_nil_iff] at h2
      right
      rw [h2.1]
      rfl
  · have s1 : ex2Core.samples 0 ⟨[ex2Hyp], ⟨ex2Main, [], []⟩, [0]⟩ = .ok [[(0, -1), (1, 0)]] :=
      ok_of_toOption (by decide +kernel)
    have s2 : ex2Core.samples 1 ⟨[], ⟨ex2Main, [ex2Hyp], []⟩, []⟩ = .ok
        [[(1, -1), (0, -1)], [(1, -1), (0, 0)], [(1, -1), (0, 1 / 2)], [(1, -1), (0, 1)], [(1, -1), (0, 2)],
         [(1, 0), (0, -1)], [(1, 0), (0, 0)], [(1, 0), (0, 1)], [(1, 1), (0, -1)], [(1, 1), (0, 0)],
         [(1, 1), (0, 1 / 2)], [(1, 1), (0, 1)], [(1, 1), (0, 2)]] := ok_of_toOption (by decide +kernel)
    refine ⟨[], ⟨[], ⟨ex2Main, [ex2Hyp], []⟩, []⟩, ?_, rfl⟩
    have a1 : allBads ex2Core 0 ⟨[ex2Hyp], ⟨ex2Main, [], []⟩, [0]⟩ [[(0, -1), (1, 0)]] = .ok (false, []) :=
      ok_of_toOption (by decide +kernel)
    have r1 : round ex2Core 0 ⟨[ex2Hyp], ⟨ex2Main, [], []⟩, [0]⟩ =
        .ok ([], some ⟨[], ⟨ex2Main, [ex2Hyp], []⟩, []⟩) := by
      unfold round
      rw [s1]
      simp only [bind, Except.bind]
      rw [a1]
      have hs : sortCand ⟨[ex2Hyp], ⟨ex2Main, [], []⟩, [0]⟩ [0] = [0] := List.mergeSort_singleton _
      have hg : goodHyps ex2Core ⟨[ex2Hyp], ⟨ex2Main, [], []⟩, [0]⟩ [] = .ok [0] :=
        ok_of_toOption (by decide +kernel)
      simp only [hg, hs]
      rfl
    show check ex2Core 2 0 _ = _
    unfold check
    rw [r1]
    simp only [bind, Except.bind]
    rw [check_true _ 1 0 _ _ s2]
    intro d hd
    apply ok_of_toOption
    revert d
    decide +kernel

end Verif.Grf
