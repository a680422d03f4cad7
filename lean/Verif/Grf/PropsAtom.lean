import Verif.Grf.Model

/-!
# C31, C32, C37, C51: atoms and goals of geometric relevance filtering

`K` is any linearly ordered field; a point is a function from variables to `K`.
-/

set_option linter.unusedSectionVars false

namespace Verif.Grf

variable {K : Type} [Field K] [LinearOrder K] [IsStrictOrderedRing K]

/-- The meaning of a relation symbol. -/
def rel (op : Op) (l r : K) : Prop :=
  match op with
  | .gt => l > r
  | .lt => l < r
  | .le => l ≤ r
  | .ge => l ≥ r
  | .eq => l = r
  | .ne => l ≠ r

/-- The meaning of an atom. -/
def Atom.holds (a : Atom) (ρ : ℕ → K) : Prop := rel a.op (a.poly.eval ρ) 0

/-- The meaning of a goal: the hypotheses imply the main goal. -/
def Goal.holds (g : Goal) (ρ : ℕ → K) : Prop := (∀ h ∈ g.hyps, h.holds ρ) → g.main.holds ρ

/-- The point agrees with the assignment. -/
def Extends (ρ : ℕ → K) (d : Dict K) : Prop := ∀ i x, d.lookup i = some x → ρ i = x

/-- All variables of the atom have values. -/
def Covers (d : Dict K) (a : Atom) : Prop :=
  d ≠ [] ∧ (∀ v ∈ a.vars, (d.lookup v).isSome) ∧ ∀ v ∈ a.poly.vars, (d.lookup v).isSome

/-- Sage functions for the examples: the generators as a basis, reduction to 0 of the elements of the basis. -/
def testSage {K : Type} [Zero K] : Sage K :=
  ⟨fun p B => if p ∈ B then [] else p, fun ps => ps, fun _ _ => 0⟩

theorem test_iff (op : Op) (x : K) : op.test x = true ↔ rel op x 0 := by
  cases op <;> simp [Op.test, rel]

theorem test_negate (op : Op) (x : K) : op.negate.test x = !op.test x := by
  have : ∀ a b : Bool, (a = true ↔ b = false) → a = !b := by decide
  apply this
  cases op <;> simp [Op.test, Op.negate]

theorem rel_sub (op : Op) (l r : K) : rel op (l - r) 0 ↔ rel op l r := by
  cases op <;> simp [rel, sub_eq_zero]

theorem all_inDict {d : Dict K} {vs : List ℕ} : vs.all (inDict d) = true ↔ ∀ v ∈ vs, (d.lookup v).isSome := by
  rw [List.all_eq_true]; rfl

theorem eval_ptOf {ρ : ℕ → K} {d : Dict K} (h : Extends ρ d) {p : MPoly}
    (hp : ∀ v ∈ p.vars, (d.lookup v).isSome) : p.eval (ptOf d) = p.eval ρ := by
  apply MPoly.eval_congr
  intro i hi
  obtain ⟨x, hx⟩ := Option.isSome_iff_exists.1 (hp i hi)
  rw [ptOf, hx, h i x hx]; rfl

theorem evalOnDict_covered (S : Sage K) {a : Atom} {d : Dict K} (h : Covers d a) :
    a.evalOnDict S d = .ok (some (a.op.test (a.poly.eval (ptOf d)))) := by
  obtain ⟨h1, h2, h3⟩ := h
  unfold Atom.evalOnDict
  rw [if_pos (all_inDict.2 h2)]
  cases d with
  | nil => simp at h1
  | cons _ _ => simp only; rw [if_pos (all_inDict.2 h3)]

/-! ### C31 -/

/-- **C31**: the negated atom evaluates to the opposite truth value, or to `None` or the same exception if the
atom does; negating twice gives back the atom. An atom created from `l op r` is true at an assignment of all its
variables exactly when `l op r` holds there. -/
theorem C31_atoms (S : Sage K) :
    (∀ (a : Atom) (d : Dict K),
      a.negate.evalOnDict S d = (a.evalOnDict S d).map (Option.map not)) ∧
    (∀ a : Atom, a.negate.negate = a) ∧
    (∀ (a : Atom) (ρ : ℕ → K), a.negate.holds ρ ↔ ¬ a.holds ρ) ∧
    ∀ (l r : MPoly) (op : String) (a : Atom), mkAtom l op r = .ok a →
      ∃ o, Op.ofString op = some o ∧ ∀ (d : Dict K) (ρ : ℕ → K), d ≠ [] →
        (∀ v ∈ a.vars, (d.lookup v).isSome) → Extends ρ d →
        ∃ b, a.evalOnDict S d = .ok (some b) ∧ (b = true ↔ rel o (l.eval ρ) (r.eval ρ)) := by
  refine ⟨?_, ?_, ?_, ?_⟩
  · rintro ⟨p, op, vs⟩ d
    unfold Atom.evalOnDict
    show (if vs.all (inDict d) then _ else _) = _
    split
    · cases d with
      | nil => rfl
      | cons e d =>
        show (if p.vars.all (inDict (e :: d)) = true then
          Except.ok (some (op.negate.test (p.eval (ptOf (e :: d)))))
          else Except.ok (some (op.negate.test (S.cmp p (e :: d))))) =
          (if p.vars.all (inDict (e :: d)) = true then Except.ok (some (op.test (p.eval (ptOf (e :: d)))))
          else Except.ok (some (op.test (S.cmp p (e :: d))))).map (Option.map not)
        rw [test_negate, test_negate]
        by_cases h : p.vars.all (inDict (e :: d)) = true
        · rw [if_pos h, if_pos h]; rfl
        · rw [if_neg h, if_neg h]; rfl
    · rfl
  · rintro ⟨p, op, vs⟩
    cases op <;> rfl
  · intro a ρ
    show rel a.op.negate (a.poly.eval ρ) 0 ↔ ¬ rel a.op (a.poly.eval ρ) 0
    cases a.op <;> simp [rel, Op.negate]
  · intro l r op a ha
    unfold mkAtom at ha
    cases ho : Op.ofString op with
    | none => rw [ho] at ha; cases ha
    | some o =>
      rw [ho] at ha
      cases ha
      refine ⟨o, rfl, ?_⟩
      intro d ρ hd hv hρ
      refine ⟨_, evalOnDict_covered S ⟨hd, hv, hv⟩, ?_⟩
      rw [test_iff, eval_ptOf hρ hv, MPoly.eval_sub, rel_sub]

/-- The atom `x0*x1 > x0 + 1` at `x0 = 2, x1 = 3`, and without a value for `x1`. -/
example : (do
      let a ← mkAtom ((MPoly.var 0).mul (MPoly.var 1)) ">" ((MPoly.var 0).add (MPoly.const 1))
      let b₁ ← a.evalOnDict (testSage (K := ℚ)) [(0, 2), (1, 3)]
      let b₂ ← a.negate.evalOnDict (testSage (K := ℚ)) [(0, 2), (1, 3)]
      let b₃ ← a.evalOnDict (testSage (K := ℚ)) [(0, 2)]
      .ok (b₁, b₂, b₃) : Except GErr _).toOption = some (some true, some false, none) := by
  decide +kernel

/-! ### C32 -/

/-- **C32**: at an assignment that covers all variables the goal evaluates to true exactly when the main goal
follows from the hypotheses there. -/
theorem C32_goal (S : Sage K) (g : Goal) (d : Dict K) (ρ : ℕ → K) (hρ : Extends ρ d)
    (hm : Covers d g.main) (hh : ∀ h ∈ g.hyps, Covers d h) :
    ∃ b, g.evalOnDict S d = .ok b ∧ (b = true ↔ ((∀ h ∈ g.hyps, h.holds ρ) → g.main.holds ρ)) := by
  have key : ∀ a, Covers d a → ∃ b, a.evalOnDict S d = .ok (some b) ∧ (b = true ↔ a.holds ρ) := by
    intro a ha
    refine ⟨_, evalOnDict_covered S ha, ?_⟩
    rw [test_iff, eval_ptOf hρ ha.2.2]; rfl
  have hyps : ∀ hs : List Atom, (∀ h ∈ hs, Covers d h) → ∃ b, evalHyps S d hs = .ok b ∧
      (b = true ↔ ¬ ∀ h ∈ hs, h.holds ρ) := by
    intro hs
    induction hs with
    | nil => intro _; exact ⟨false, rfl, by simp⟩
    | cons a hs ih =>
      intro h
      obtain ⟨b, hb, hb'⟩ := key a (h a (by simp))
      obtain ⟨c, hc, hc'⟩ := ih fun x hx => h x (by simp [hx])
      unfold evalHyps
      simp only [bind, Except.bind]
      rw [hb]
      cases b with
      | false => exact ⟨true, rfl, by simpa using fun h => absurd (hb'.2 h) (by decide)⟩
      | true =>
        refine ⟨c, hc, ?_⟩
        rw [hc']
        simp [hb'.1 rfl]
  obtain ⟨b, hb, hb'⟩ := key g.main hm
  obtain ⟨c, hc, hc'⟩ := hyps g.hyps hh
  unfold Goal.evalOnDict
  simp only [bind, Except.bind]
  rw [hb]
  cases b with
  | true => exact ⟨true, rfl, by simp [hb'.1 rfl]⟩
  | false =>
    refine ⟨c, hc, ?_⟩
    have : ¬ g.main.holds ρ := fun h => absurd (hb'.2 h) (by decide)
    rw [hc']
    tauto

/-- `x0 > 0 → x0 > 1` is false at `1/2`, true at `2` and at `-1`. -/
example : (do
      let h ← mkAtom (MPoly.var 0) ">" (MPoly.const 0)
      let a ← mkAtom (MPoly.var 0) ">" (MPoly.const 1)
      let b₁ ← (⟨a, [h], []⟩ : Goal).evalOnDict (testSage (K := ℚ)) [(0, 1/2)]
      let b₂ ← (⟨a, [h], []⟩ : Goal).evalOnDict (testSage (K := ℚ)) [(0, 2)]
      let b₃ ← (⟨a, [h], []⟩ : Goal).evalOnDict (testSage (K := ℚ)) [(0, -1)]
      .ok (b₁, b₂, b₃) : Except GErr _).toOption = some (false, true, true) := by
  decide +kernel

/-! ### C51 -/

/-- The recorded variables include those of the polynomial. -/
def Fresh (a : Atom) : Prop := ∀ v ∈ a.poly.vars, v ∈ a.vars

/-- **C51** is violated after `quotient_ring_inject`: the atom `x0 > 0` becomes `x1 > 0` when it is reduced by
the equation `x0 - x1 = 0`; its recorded variables are still `x0`, so that at the assignment `x0 = 1` it is given
a truth value, which is wrong for some value of `x1`. (The Gröbner basis is the polynomial itself, and `x0` reduces to
`x1`.) -/
theorem C51_violated (S : Sage K) (hr : S.reduce (MPoly.var 0) [(MPoly.var 0).sub (MPoly.var 1)] = MPoly.var 1) :
    ∃ a b : Atom, mkAtom (MPoly.var 0) ">" (MPoly.const 0) = .ok a ∧
      a.inject S [(MPoly.var 0).sub (MPoly.var 1)] = .ok b ∧
      ∃ v, b.evalOnDict S [(0, 1)] = .ok (some v) ∧
        ∃ ρ : ℕ → K, Extends ρ [(0, 1)] ∧ ¬ (v = true ↔ b.holds ρ) := by
  refine ⟨⟨MPoly.var 0, .gt, [0]⟩, ⟨MPoly.var 1, .gt, [0]⟩, rfl, ?_, ?_⟩
  · show Except.ok _ = _
    rw [hr]
  · refine ⟨Op.test .gt (S.cmp (MPoly.var 1) [(0, 1)]), rfl, ?_⟩
    have hext : ∀ x : K, Extends (fun i => if i = 0 then 1 else x) [(0, 1)] := by
      intro x i y h
      rw [List.lookup_cons] at h
      by_cases h0 : i = 0
      · subst h0; simp at h; simp [h]
      · have : (i == 0) = false := by simpa using h0
        rw [this] at h
        cases h
    have hval : ∀ x : K, (⟨MPoly.var 1, .gt, [0]⟩ : Atom).holds (fun i => if i = 0 then 1 else x) ↔ x > 0 := by
      intro x
      show MPoly.eval _ (MPoly.var 1) > 0 ↔ _
      rw [MPoly.eval_var]; simp
    cases Op.test .gt (S.cmp (MPoly.var 1) [(0, 1)]) with
    | true =>
      refine ⟨_, hext (-1), ?_⟩
      rw [hval]
      simp
    | false =>
      refine ⟨_, hext 1, ?_⟩
      rw [hval]
      simp

/-- What holds instead of **C51**: for atoms that have not been reduced (`Fresh`; all atoms are when they are
created), a truth value at a partial assignment is the truth value at all its extensions, and a goal that evaluates to
true at a partial assignment holds at all its extensions. -/
theorem C51_partial (S : Sage K) :
    (∀ l op r a, mkAtom l op r = .ok a → Fresh a) ∧
    (∀ (a : Atom) (d : Dict K) (v : Bool), Fresh a → a.evalOnDict S d = .ok (some v) →
      ∀ ρ, Extends ρ d → (v = true ↔ a.holds ρ)) ∧
    ∀ (g : Goal) (d : Dict K), Fresh g.main → (∀ h ∈ g.hyps, Fresh h) → g.evalOnDict S d = .ok true →
      ∀ ρ, Extends ρ d → ((∀ h ∈ g.hyps, h.holds ρ) → g.main.holds ρ) := by
  have key : ∀ (a : Atom) (d : Dict K) (v : Bool), Fresh a → a.evalOnDict S d = .ok (some v) →
      ∀ ρ, Extends ρ d → (v = true ↔ a.holds ρ) := by
    intro a d v hf h ρ hρ
    by_cases hv : a.vars.all (inDict d) = true
    · have hv' := all_inDict.1 hv
      have hd : d ≠ [] := by
        rintro rfl
        unfold Atom.evalOnDict at h
        rw [if_pos hv] at h
        cases h
      rw [evalOnDict_covered S ⟨hd, hv', fun v h => hv' v (hf v h)⟩] at h
      cases h
      rw [test_iff, eval_ptOf hρ fun v h => hv' v (hf v h)]; rfl
    · unfold Atom.evalOnDict at h
      rw [if_neg hv] at h
      cases h
  refine ⟨?_, key, ?_⟩
  · intro l op r a h
    unfold mkAtom at h
    split at h
    · cases h
    · cases h; exact fun v hv => hv
  · intro g d hm hh h ρ hρ
    have hyps : ∀ hs : List Atom, (∀ h ∈ hs, Fresh h) → evalHyps S d hs = .ok true →
        ¬ ∀ h ∈ hs, h.holds ρ := by
      intro hs
      induction hs with
      | nil => intro _ h; cases h
      | cons a hs ih =>
        intro hf h hall
        unfold evalHyps at h
        simp only [bind, Except.bind] at h
        cases hb : a.evalOnDict S d with
        | error e => rw [hb] at h; cases h
        | ok o =>
          rw [hb] at h
          simp only at h
          by_cases ho : o = some false
          · subst ho
            have := (key a d false (hf a (by simp)) hb ρ hρ).2 (hall a (by simp))
            exact absurd this (by decide)
          · rw [if_neg ho] at h
            exact ih (fun x hx => hf x (by simp [hx])) h fun x hx => hall x (by simp [hx])
    unfold Goal.evalOnDict at h
    simp only [bind, Except.bind] at h
    cases hb : g.main.evalOnDict S d with
    | error e => rw [hb] at h; cases h
    | ok o =>
      rw [hb] at h
      simp only at h
      by_cases ho : o = some true
      · subst ho
        intro _
        exact (key g.main d true hm hb ρ hρ).1 rfl
      · rw [if_neg ho] at h
        intro hall
        exact absurd hall (hyps g.hyps hh h)

/-- With `x0 > 0` as main goal and `x1 = 0` as hypothesis, the goal is already true at `x1 = 1`. -/
example : (do
      let a ← mkAtom (MPoly.var 0) ">" (MPoly.const 0)
      let h ← mkAtom (MPoly.var 1) "=" (MPoly.const 0)
      (⟨a, [h], []⟩ : Goal).evalOnDict (testSage (K := ℚ)) [(1, 1)] : Except GErr _).toOption = some true := by
  decide +kernel

/-! ### C37 -/

/-- Sage's functions are right at the points of `K`: reduction by polynomials does not change the value at their
common zeros, and a Gröbner basis has the same common zeros. -/
structure SageOK (S : Sage K) : Prop where
  reduce : ∀ (p : MPoly) (B : List MPoly) (ρ : ℕ → K), (∀ b ∈ B, b.eval ρ = 0) →
    (S.reduce p B).eval ρ = p.eval ρ
  gbasis : ∀ (ps : List MPoly) (ρ : ℕ → K), (∀ b ∈ S.gbasis ps, b.eval ρ = 0) ↔ ∀ p ∈ ps, p.eval ρ = 0
  /-- the basis is not the empty list (Sage returns `[0]` for the zero ideal) -/
  ne : ∀ ps, ps ≠ [] → S.gbasis ps ≠ []

theorem inject_ok (S : Sage K) {B : List MPoly} (hB : B ≠ []) (a : Atom) :
    a.inject S B = .ok { a with poly := S.reduce a.poly B } := by
  cases B with
  | nil => simp at hB
  | cons _ _ => rfl

theorem holds_inject {S : Sage K} (hS : SageOK S) {B : List MPoly} {ρ : ℕ → K} (h : ∀ b ∈ B, b.eval ρ = 0)
    (a : Atom) : ({ a with poly := S.reduce a.poly B } : Atom).holds ρ ↔ a.holds ρ := by
  show rel a.op _ 0 ↔ rel a.op _ 0
  rw [hS.reduce _ _ _ h]

theorem mapM_ok' {α β ε : Type} (f : α → Except ε β) (g : α → β) : ∀ l : List α, (∀ a ∈ l, f a = .ok (g a)) →
    l.mapM f = .ok (l.map g)
  | [], _ => rfl
  | a :: l, h => by
    rw [List.mapM_cons, h a (by simp), mapM_ok' f g l fun x hx => h x (by simp [hx])]; rfl

theorem addHyp_ok {S : Sage K} (hS : SageOK S) (g : Goal) (gh : Atom) :
    g.addHyp S gh = .ok { g with
      hyps := (if gh.op = .eq then g.hyps.map fun h => { h with poly := S.reduce h.poly (S.gbasis [gh.poly]) }
        else g.hyps) ++ [if g.gb ≠ [] then { gh with poly := S.reduce gh.poly g.gb } else gh]
      gb := if gh.op = .eq then S.gbasis (g.gb ++ [gh.poly]) else g.gb } := by
  unfold Goal.addHyp
  have h1 : g.simplify S gh = .ok (if gh.op = .eq then
      (g.hyps.map fun h => { h with poly := S.reduce h.poly (S.gbasis [gh.poly]) },
        S.gbasis (g.gb ++ [gh.poly])) else (g.hyps, g.gb)) := by
    unfold Goal.simplify
    split
    · rw [mapM_ok' _ _ g.hyps fun a _ => inject_ok S (hS.ne [gh.poly] (by simp)) a]; rfl
    · rfl
  have h2 : g.simplifyNew S gh = .ok (if g.gb ≠ [] then { gh with poly := S.reduce gh.poly g.gb } else gh) := by
    unfold Goal.simplifyNew
    split
    · next h => exact inject_ok S h gh
    · rfl
  rw [h1, h2]
  simp only [bind, Except.bind]
  congr 1
  split <;> rfl

/-- **C37** is violated: adding the equation `x0 = 0` twice replaces both hypotheses by `0 = 0` (provided that a
polynomial is reduced to 0 by a Gröbner basis of the ideal that it generates, as it must be), and then all points satisfy
the hypotheses. -/
theorem C37_violated (S : Sage K) (hS : SageOK S) (h0 : ∀ p, S.reduce p (S.gbasis [p]) = []) (m : Atom) :
    ∃ g₁ g₂, (⟨m, [], []⟩ : Goal).addHyp S ⟨MPoly.var 0, .eq, [0]⟩ = .ok g₁ ∧
      g₁.addHyp S ⟨MPoly.var 0, .eq, [0]⟩ = .ok g₂ ∧
      ∀ ρ : ℕ → K, ∀ h ∈ g₂.hyps, h.holds ρ := by
  refine ⟨_, _, addHyp_ok hS _ _, addHyp_ok hS _ _, ?_⟩
  intro ρ h hh
  have hne : S.gbasis [MPoly.var 0] ≠ [] := hS.ne _ (by simp)
  simp only [if_true, List.nil_append, List.map_nil, ne_eq, not_true_eq_false, if_false, List.map_cons,
    List.mem_append, List.mem_singleton, h0] at hh
  have : h.poly = [] ∧ h.op = .eq := by
    rcases hh with rfl | rfl
    · exact ⟨rfl, rfl⟩
    · rw [if_pos hne]; exact ⟨rfl, rfl⟩
  show rel h.op (h.poly.eval ρ) 0
  rw [this.1, this.2]
  rfl

/-- What holds instead of **C37**: `add_goal_hyp` does not raise; a point that satisfies the old hypotheses and
the new one, and at which the recorded Gröbner basis vanishes, satisfies the new hypotheses, and the new Gröbner basis
vanishes there. If the new hypothesis is not an equation, or if there is no Gröbner basis yet, then the converse holds as
well for all points at which the recorded basis vanishes whenever the old hypotheses hold. With `use_gbs=False` the
meaning is always preserved. -/
theorem C37_partial (S : Sage K) (hS : SageOK S) (g : Goal) (gh : Atom) :
    (∃ g', g.addHyp S gh = .ok g' ∧ g'.main = g.main ∧
      ∀ ρ : ℕ → K,
        ((∀ b ∈ g.gb, b.eval ρ = 0) → (∀ h ∈ g.hyps, h.holds ρ) → gh.holds ρ →
          (∀ b ∈ g'.gb, b.eval ρ = 0) ∧ ∀ h ∈ g'.hyps, h.holds ρ) ∧
        (gh.op ≠ .eq ∨ g.gb = [] → ((∀ h ∈ g.hyps, h.holds ρ) → ∀ b ∈ g.gb, b.eval ρ = 0) →
          ((∀ h ∈ g'.hyps, h.holds ρ) ↔ (∀ h ∈ g.hyps, h.holds ρ) ∧ gh.holds ρ) ∧
          ((∀ h ∈ g'.hyps, h.holds ρ) → ∀ b ∈ g'.gb, b.eval ρ = 0))) ∧
    ∀ ρ : ℕ → K, (∀ h ∈ (g.addHypPlain gh).hyps, h.holds ρ) ↔ (∀ h ∈ g.hyps, h.holds ρ) ∧ gh.holds ρ := by
  refine ⟨⟨_, addHyp_ok hS g gh, rfl, ?_⟩, ?_⟩
  · intro ρ
    have hnew : (∀ b ∈ g.gb, b.eval ρ = 0) →
        ((if g.gb ≠ [] then { gh with poly := S.reduce gh.poly g.gb } else gh : Atom).holds ρ ↔ gh.holds ρ) := by
      intro hb
      split
      · exact holds_inject hS hb gh
      · rfl
    have hold : gh.op = .eq → gh.holds ρ →
        ∀ h : Atom, ({ h with poly := S.reduce h.poly (S.gbasis [gh.poly]) } : Atom).holds ρ ↔ h.holds ρ := by
      intro he hh h
      apply holds_inject hS
      rw [hS.gbasis]
      intro p hp
      rw [List.mem_singleton] at hp
      subst hp
      unfold Atom.holds at hh
      rw [he] at hh
      exact hh
    constructor
    · intro hb hh hg
      constructor
      · show ∀ b ∈ (if gh.op = .eq then _ else _), _
        split
        · next he =>
          rw [hS.gbasis]
          intro p hp
          rcases List.mem_append.1 hp with hp | hp
          · exact hb p hp
          · rw [List.mem_singleton] at hp
            subst hp
            unfold Atom.holds at hg
            rw [he] at hg
            exact hg
        · exact hb
      · intro h hm
        rcases List.mem_append.1 hm with hm | hm
        · split at hm
          · next he =>
            obtain ⟨a, ha, rfl⟩ := List.mem_map.1 hm
            exact (hold he hg a).2 (hh a ha)
          · exact hh h hm
        · rw [List.mem_singleton] at hm
          subst hm
          exact (hnew hb).2 hg
    · intro hcase hinv
      by_cases he : gh.op = .eq
      · have hgb : g.gb = [] := hcase.resolve_left (fun h => h he)
        simp only [he, if_true, hgb, ne_eq, not_true_eq_false, if_false, List.nil_append]
        have hiff : (∀ h ∈ g.hyps.map (fun h => ({ h with poly := S.reduce h.poly (S.gbasis [gh.poly]) } : Atom))
            ++ [gh], h.holds ρ) ↔ (∀ h ∈ g.hyps, h.holds ρ) ∧ gh.holds ρ := by
          constructor
          · intro h
            have hg : gh.holds ρ := h gh (by simp)
            exact ⟨fun a ha => (hold he hg a).1 (h _ (List.mem_append.2 (Or.inl (List.mem_map.2 ⟨a, ha, rfl⟩)))), hg⟩
          · rintro ⟨h, hg⟩ a ha
            rcases List.mem_append.1 ha with ha | ha
            · obtain ⟨b, hb, rfl⟩ := List.mem_map.1 ha
              exact (hold he hg b).2 (h b hb)
            · rw [List.mem_singleton] at ha; subst ha; exact hg
        refine ⟨hiff, fun h => ?_⟩
        rw [hS.gbasis]
        intro p hp
        rw [List.mem_singleton] at hp
        subst hp
        have hg := (hiff.1 h).2
        unfold Atom.holds at hg
        rw [he] at hg
        exact hg
      · simp only [he, if_false]
        have hiff : (∀ h ∈ g.hyps ++ [if g.gb ≠ [] then { gh with poly := S.reduce gh.poly g.gb } else gh],
            h.holds ρ) ↔ (∀ h ∈ g.hyps, h.holds ρ) ∧ gh.holds ρ := by
          constructor
          · intro h
            have h1 : ∀ a ∈ g.hyps, a.holds ρ := fun a ha => h a (List.mem_append.2 (Or.inl ha))
            exact ⟨h1, (hnew (hinv h1)).1 (h _ (List.mem_append.2 (Or.inr (List.mem_singleton_self _))))⟩
          · rintro ⟨h, hg⟩ a ha
            rcases List.mem_append.1 ha with ha | ha
            · exact h a ha
            · rw [List.mem_singleton] at ha; subst ha; exact (hnew (hinv h)).2 hg
        exact ⟨hiff, fun h => hinv (hiff.1 h).1⟩
  · intro ρ
    show (∀ h ∈ g.hyps ++ [gh], h.holds ρ) ↔ _
    constructor
    · intro h
      exact ⟨fun a ha => h a (by simp [ha]), h gh (by simp)⟩
    · rintro ⟨h, hg⟩ a ha
      rcases List.mem_append.1 ha with ha | ha
      · exact h a ha
      · rw [List.mem_singleton] at ha; subst ha; exact hg

/-- There are functions that meet the hypotheses of C37_violated and C37_partial: the generators as a basis, and
reduction to 0 of the elements of the basis. -/
example : ∃ S : Sage K, SageOK S ∧ ∀ p, S.reduce p (S.gbasis [p]) = [] := by
  refine ⟨testSage, ⟨?_, ?_, ?_⟩, ?_⟩
  · intro p B ρ h
    show MPoly.eval ρ (if p ∈ B then [] else p) = _
    split
    · next hp => rw [h p hp, MPoly.eval_nil]
    · rfl
  · intro ps ρ; rfl
  · intro ps h; exact h
  · intro p; simp [testSage]

end Verif.Grf
