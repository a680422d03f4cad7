import Verif.Vts.CheckerModel
import Verif.Vts.PropsIsym

/-!
# Properties of `vts/checker.py` (C17-C20)
-/

set_option linter.unusedSectionVars false

open Polynomial Verif.Alg

namespace Verif.Vts

/-! ## Specification -/

variable {T : Type} {P : Type} {K : Type}

/-- Truth of a relation between two numbers. -/
def RelKind.holds [LinearOrder K] : RelKind → K → K → Prop
  | .le, a, b => a ≤ b
  | .lt, a, b => a < b
  | .eq, a, b => a = b
  | .ne, a, b => a ≠ b
  | .ge, a, b => a ≥ b
  | .gt, a, b => a > b

/-- Truth of a formula at a point, when `ev t x` is the value of the term `t` at `x`. -/
def PyRel.holds [LinearOrder K] (ev : T → P → K) : PyRel T → P → Prop
  | .tt, _ => True
  | .ff, _ => False
  | .rel r, x => r.kind.holds (ev r.lhs x) (ev r.rhs x)

/-- The sequent with the conjunctive reading of the succedent. -/
def ValidConj [LinearOrder K] (ev : T → P → K) (ante succ : List (PyRel T)) : Prop :=
  ∀ x, (∀ a ∈ ante, a.holds ev x) → ∀ s ∈ succ, s.holds ev x

/-- The sequent with the disjunctive reading of the succedent. -/
def ValidDisj [LinearOrder K] (ev : T → P → K) (ante succ : List (PyRel T)) : Prop :=
  ∀ x, (∀ a ∈ ante, a.holds ev x) → ∃ s ∈ succ, s.holds ev x

variable [DecidableEq T] [Neg T] [AddCommGroup K] [LinearOrder K] [IsOrderedAddMonoid K]
variable {ev : T → P → K}

/-! ## C19 -/

/-- **C19**, rewriting: the result is true exactly where the input is, and uses `≤, <, =, ≠` only. -/
theorem C19_rewrite (hneg : ∀ t x, ev (-t) x = -ev t x) (r : PyRel T) :
    (∀ x, (rewriteToLess1 r).holds ev x ↔ r.holds ev x) ∧
    (∀ r', rewriteToLess1 r = .rel r' → r'.kind = .le ∨ r'.kind = .lt ∨ r'.kind = .eq ∨ r'.kind = .ne) ∧
    (∀ r₀ r', r = .rel r₀ → (∀ x, ev r₀.rhs x = 0) → rewriteToLess1 r = .rel r' →
      ∀ x, ev r'.rhs x = 0) := by
  cases r with
  | tt => simp [rewriteToLess1]
  | ff => simp [rewriteToLess1]
  | rel r =>
    obtain ⟨k, l, s⟩ := r
    cases k <;> simp [rewriteToLess1, rewriteClass, PyRel.holds, RelKind.holds, hneg]

/-- **C19**, negation: the result is true exactly where the input is false. -/
theorem C19_negate (r : Rel T) : ∃ r', negateRelation1 (.rel r) = .ok r' ∧
    (∀ x, r'.holds ev x ↔ ¬ (PyRel.rel r).holds ev x) ∧
    (∃ k, r' = .rel ⟨k, r.lhs, r.rhs⟩) := by
  refine ⟨_, rfl, ?_, _, rfl⟩
  intro x
  obtain ⟨k, l, s⟩ := r
  cases k <;> simp [negationClass, PyRel.holds, RelKind.holds]

/-- **C19**, the remaining inputs of `negate_relations`: booleans raise. -/
theorem C19_negate_bool : negateRelation1 (.tt : PyRel T) = .error .keyError ∧
    negateRelation1 (.ff : PyRel T) = .error .keyError := ⟨rfl, rfl⟩

-- terms are integers, their own value
example : (∀ (t : ℤ) (x : Unit), (fun (t : ℤ) (_ : Unit) => t) (-t) x = -(fun (t : ℤ) (_ : Unit) => t) t x) ∧
    rewriteToLess1 (.rel ⟨.ge, (3 : ℤ), 0⟩) = .rel ⟨.le, -3, 0⟩ := ⟨fun _ _ => rfl, rfl⟩

/-! ## C17 -/

theorem mapM_negate_ok (l : List (PyRel T)) (h : ∀ r ∈ l, r ≠ .ff ∧ r ≠ .tt) :
    ∃ l', l.mapM negateRelation1 = .ok l' ∧
      (∀ r' ∈ l', ∃ r ∈ l, ∀ x, r'.holds ev x ↔ ¬ r.holds ev x) ∧
      (∀ r ∈ l, ∃ r' ∈ l', ∀ x, r'.holds ev x ↔ ¬ r.holds ev x) := by
  induction l with
  | nil => exact ⟨[], rfl, by simp, by simp⟩
  | cons a l ih =>
    obtain ⟨l', h1, h2, h3⟩ := ih fun r hr => h r (List.mem_cons_of_mem _ hr)
    cases a with
    | tt => exact absurd rfl (h .tt (by simp)).2
    | ff => exact absurd rfl (h .ff (by simp)).1
    | rel r =>
      obtain ⟨r', h4, h5, _⟩ := C19_negate (ev := ev) r
      refine ⟨r' :: l', by rw [List.mapM_cons, h4, h1]; rfl, ?_, ?_⟩
      · intro q hq
        rcases List.mem_cons.1 hq with rfl | hq
        · exact ⟨_, by simp, h5⟩
        · obtain ⟨r, hr, h⟩ := h2 q hq
          exact ⟨r, List.mem_cons_of_mem _ hr, h⟩
      · intro q hq
        rcases List.mem_cons.1 hq with rfl | hq
        · exact ⟨r', by simp, h5⟩
        · obtain ⟨r, hr, h⟩ := h3 q hq
          exact ⟨r, List.mem_cons_of_mem _ hr, h⟩

theorem mapM_negate_error (l : List (PyRel T)) (h : ∃ r ∈ l, r = .ff ∨ r = .tt) :
    l.mapM negateRelation1 = .error .keyError := by
  induction l with
  | nil => simp at h
  | cons a l ih =>
    cases a with
    | tt => rw [List.mapM_cons]; rfl
    | ff => rw [List.mapM_cons]; rfl
    | rel r =>
      have : ∃ r ∈ l, r = PyRel.ff ∨ r = .tt := by
        obtain ⟨q, hq, h'⟩ := h
        rcases List.mem_cons.1 hq with rfl | hq
        · rcases h' with h' | h' <;> simp at h'
        · exact ⟨q, hq, h'⟩
      rw [List.mapM_cons, ih this]
      rfl

/-- the parts of `vts_preformat` -/
theorem vtsPreformat_eq (ante succ : List (PyRel T)) :
    vtsPreformat ante succ =
      if (ante.filter fun p => p ≠ .tt) = [] ∨ (succ.filter fun p => p ≠ .tt) = [] then
        .error .emptySide
      else ((succ.filter fun p => p ≠ .tt).dedup.mapM negateRelation1).map fun l =>
        (l.map rewriteToLess1).map fun s =>
          ((ante.filter fun p => p ≠ .tt).dedup.map rewriteToLess1) ++ [s] := by
  unfold vtsPreformat
  simp only [List.length_eq_zero_iff, List.dedup_eq_nil]
  split
  · rfl
  · cases List.mapM negateRelation1 (List.filter (fun p => decide (p ≠ PyRel.tt)) succ).dedup <;> rfl

/-- **C17**. When `vts_preformat` answers, one of the systems it returns has a solution exactly when
the sequent (conjunctive succedent) fails somewhere. -/
theorem C17_preformat (hneg : ∀ t x, ev (-t) x = -ev t x) (ante succ : List (PyRel T))
    (systems : List (List (PyRel T))) (h : vtsPreformat ante succ = .ok systems) :
    (∃ s ∈ systems, ∃ x, ∀ r ∈ s, r.holds ev x) ↔ ¬ ValidConj ev ante succ := by
  rw [vtsPreformat_eq] at h
  split at h
  · simp at h
  rename_i hne
  have hbool : ∀ r ∈ (succ.filter fun p => decide (p ≠ PyRel.tt)).dedup, r ≠ .ff ∧ r ≠ .tt := by
    intro r hr
    have hr' := List.mem_dedup.1 hr
    refine ⟨fun hff => ?_, by simpa using (List.mem_filter.1 hr').2⟩
    rw [mapM_negate_error _ ⟨r, hr, Or.inl hff⟩] at h
    simp [Except.map] at h
  obtain ⟨l', h1, h2, h3⟩ := mapM_negate_ok (ev := ev) _ hbool
  rw [h1] at h
  simp only [Except.map, Except.ok.injEq] at h
  subst h
  have hante : ∀ x, (∀ r ∈ (ante.filter fun p => decide (p ≠ PyRel.tt)).dedup.map rewriteToLess1,
      r.holds ev x) ↔ ∀ a ∈ ante, a.holds ev x := by
    intro x
    constructor
    · intro hh a ha
      by_cases hat : a = .tt
      · subst hat; trivial
      · rw [← (C19_rewrite hneg a).1]
        exact hh _ (List.mem_map.2 ⟨a, List.mem_dedup.2 (List.mem_filter.2 ⟨ha, by simpa using hat⟩), rfl⟩)
    · intro hh r hr
      obtain ⟨a, ha, rfl⟩ := List.mem_map.1 hr
      rw [(C19_rewrite hneg a).1]
      exact hh a (List.mem_filter.1 (List.mem_dedup.1 ha)).1
  constructor
  · rintro ⟨s, hs, x, hx⟩ hv
    simp only [List.map_map, List.mem_map, Function.comp] at hs
    obtain ⟨r', hr', rfl⟩ := hs
    obtain ⟨r, hr, hiff⟩ := h2 r' hr'
    have h4 := hx (rewriteToLess1 r') (by simp)
    rw [(C19_rewrite hneg r').1, hiff] at h4
    refine h4 (hv x ?_ r (List.mem_filter.1 (List.mem_dedup.1 hr)).1)
    rw [← hante]
    intro q hq
    exact hx q (List.mem_append_left _ hq)
  · intro hv
    unfold ValidConj at hv
    push Not at hv
    obtain ⟨x, ha, s, hs, hsx⟩ := hv
    have hst : s ≠ .tt := by rintro rfl; exact hsx trivial
    obtain ⟨r', hr', hiff⟩ := h3 s (List.mem_dedup.2 (List.mem_filter.2 ⟨hs, by simpa using hst⟩))
    refine ⟨_, List.mem_map.2 ⟨_, List.mem_map.2 ⟨r', hr', rfl⟩, rfl⟩, x, ?_⟩
    intro r hr
    rcases List.mem_append.1 hr with hr | hr
    · exact (hante x).2 ha r hr
    · rw [List.mem_singleton.1 hr, (C19_rewrite hneg r').1, hiff]
      exact hsx

/-- **C17**, exceptions: `vts_preformat` raises exactly when one side has no formula other than `True`,
or the succedent contains `False`. -/
theorem C17_raises (ante succ : List (PyRel T)) :
    (∃ e, vtsPreformat ante succ = .error e) ↔
      (∀ a ∈ ante, a = .tt) ∨ (∀ s ∈ succ, s = .tt) ∨ .ff ∈ succ := by
  rw [vtsPreformat_eq]
  have hnil : ∀ l : List (PyRel T), (l.filter fun p => decide (p ≠ .tt)) = [] ↔ ∀ a ∈ l, a = .tt := by
    intro l; rw [List.filter_eq_nil_iff]; simp
  simp only [hnil]
  by_cases h : (∀ a ∈ ante, a = .tt) ∨ (∀ s ∈ succ, s = .tt)
  · rw [if_pos h]
    exact ⟨fun _ => by tauto, fun _ => ⟨_, rfl⟩⟩
  · rw [if_neg h]
    by_cases hf : PyRel.ff ∈ succ
    · rw [mapM_negate_error _ ⟨.ff, by simp [hf], Or.inl rfl⟩]
      exact ⟨fun _ => Or.inr (Or.inr hf), fun _ => ⟨_, rfl⟩⟩
    · obtain ⟨l', h1, _⟩ := mapM_negate_ok (ev := fun (_ : T) (_ : Unit) => (0 : ℤ))
        (succ.filter fun p => decide (p ≠ PyRel.tt)).dedup (by
          intro r hr
          have hr := List.mem_filter.1 (List.mem_dedup.1 hr)
          exact ⟨fun h => hf (h ▸ hr.1), by simpa using hr.2⟩)
      rw [h1]
      constructor
      · rintro ⟨e, he⟩; simp [Except.map] at he
      · tauto

-- `1 ≥ 0, 2 = 0 ⊢ 3 < 0` over constant terms
example : vtsPreformat [.rel ⟨.ge, (1 : ℤ), 0⟩, .tt, .rel ⟨.eq, 2, 0⟩] [.rel ⟨.lt, 3, 0⟩] =
    .ok [[.rel ⟨.le, -1, 0⟩, .rel ⟨.eq, 2, 0⟩, .rel ⟨.le, -3, 0⟩]] := by decide +kernel

/-! ## From sequents to verdicts -/

theorem makeRelationMap_spec (sys : List (PyRel T))
    (m : RMap T) (h : makeRelationMap sys = .ok m)
    (hz : ∀ r, PyRel.rel r ∈ sys → ∀ x, ev r.rhs x = 0) (x : P) :
    (∀ r ∈ sys, r.holds ev x) ↔ (∀ t ∈ m.le, ev t x ≤ 0) ∧ (∀ t ∈ m.lt, ev t x < 0) ∧
      (∀ t ∈ m.eq, ev t x = 0) ∧ (∀ t ∈ m.ne, ev t x ≠ 0) := by
  unfold makeRelationMap at h
  have key : ∀ (sys : List (PyRel T)) (m₀ m : RMap T), sys.foldlM addRelation m₀ = .ok m →
      (∀ r, PyRel.rel r ∈ sys → ∀ x, ev r.rhs x = 0) →
      ((((∀ t ∈ m₀.le, ev t x ≤ 0) ∧ (∀ t ∈ m₀.lt, ev t x < 0) ∧
        (∀ t ∈ m₀.eq, ev t x = 0) ∧ (∀ t ∈ m₀.ne, ev t x ≠ 0)) ∧ ∀ r ∈ sys, r.holds ev x) ↔
      (∀ t ∈ m.le, ev t x ≤ 0) ∧ (∀ t ∈ m.lt, ev t x < 0) ∧
      (∀ t ∈ m.eq, ev t x = 0) ∧ (∀ t ∈ m.ne, ev t x ≠ 0)) := by
    intro sys
    induction sys with
    | nil =>
      intro m₀ m h _
      simp only [List.foldlM_nil, pure, Except.pure, Except.ok.injEq] at h
      subst h; simp
    | cons a sys ih =>
      intro m₀ m h hz
      rw [List.foldlM_cons] at h
      have hz' : ∀ r, PyRel.rel r ∈ sys → ∀ x, ev r.rhs x = 0 :=
        fun r hr => hz r (List.mem_cons_of_mem _ hr)
      cases a with
      | tt => simp [bind, Except.bind, addRelation] at h
      | ff => simp [bind, Except.bind, addRelation] at h
      | rel r =>
        have hr := hz r (by simp) x
        obtain ⟨k, l, s⟩ := r
        simp only at hr
        cases k with
        | le =>
          rw [← ih _ _ h hz']
          simp only [List.forall_mem_cons, List.forall_mem_append, PyRel.holds, RelKind.holds, hr]
          tauto
        | lt =>
          rw [← ih _ _ h hz']
          simp only [List.forall_mem_cons, List.forall_mem_append, PyRel.holds, RelKind.holds, hr]
          tauto
        | eq =>
          rw [← ih _ _ h hz']
          simp only [List.forall_mem_cons, List.forall_mem_append, PyRel.holds, RelKind.holds, hr]
          tauto
        | ne =>
          rw [← ih _ _ h hz']
          simp only [List.forall_mem_cons, List.forall_mem_append, PyRel.holds, RelKind.holds, hr]
          tauto
        | ge => simp [bind, Except.bind, addRelation] at h
        | gt => simp [bind, Except.bind, addRelation] at h
  have := key sys ⟨[], [], [], []⟩ m h hz
  simpa using this

theorem makeRelationMap_mem (sys : List (PyRel T)) (m : RMap T) (h : makeRelationMap sys = .ok m) :
    ∀ t ∈ m.le ++ m.lt ++ m.eq ++ m.ne, ∃ r, PyRel.rel r ∈ sys ∧ t = r.lhs := by
  unfold makeRelationMap at h
  have key : ∀ (sys : List (PyRel T)) (m₀ m : RMap T), sys.foldlM addRelation m₀ = .ok m →
      ∀ t ∈ m.le ++ m.lt ++ m.eq ++ m.ne,
        t ∈ m₀.le ++ m₀.lt ++ m₀.eq ++ m₀.ne ∨ ∃ r, PyRel.rel r ∈ sys ∧ t = r.lhs := by
    intro sys
    induction sys with
    | nil =>
      intro m₀ m h
      simp only [List.foldlM_nil, pure, Except.pure, Except.ok.injEq] at h
      subst h
      intro t ht; exact Or.inl ht
    | cons a sys ih =>
      intro m₀ m h t ht
      rw [List.foldlM_cons] at h
      cases a with
      | tt => simp [bind, Except.bind, addRelation] at h
      | ff => simp [bind, Except.bind, addRelation] at h
      | rel r =>
        have fin : ∀ m₁ : RMap T, sys.foldlM addRelation m₁ = .ok m →
            (∀ t ∈ m₁.le ++ m₁.lt ++ m₁.eq ++ m₁.ne,
              t ∈ m₀.le ++ m₀.lt ++ m₀.eq ++ m₀.ne ∨ t = r.lhs) →
            t ∈ m₀.le ++ m₀.lt ++ m₀.eq ++ m₀.ne ∨ ∃ q, PyRel.rel q ∈ PyRel.rel r :: sys ∧ t = q.lhs := by
          intro m₁ h1 h2
          rcases ih m₁ m h1 t ht with h3 | ⟨q, hq, h3⟩
          · rcases h2 t h3 with h4 | h4
            · exact Or.inl h4
            · exact Or.inr ⟨r, by simp, h4⟩
          · exact Or.inr ⟨q, List.mem_cons_of_mem _ hq, h3⟩
        obtain ⟨k, l, s⟩ := r
        cases k with
        | le => exact fin _ h (by intro t ht; simp only [List.mem_append, List.mem_singleton] at ht ⊢; tauto)
        | lt => exact fin _ h (by intro t ht; simp only [List.mem_append, List.mem_singleton] at ht ⊢; tauto)
        | eq => exact fin _ h (by intro t ht; simp only [List.mem_append, List.mem_singleton] at ht ⊢; tauto)
        | ne => exact fin _ h (by intro t ht; simp only [List.mem_append, List.mem_singleton] at ht ⊢; tauto)
        | ge => simp [bind, Except.bind, addRelation] at h
        | gt => simp [bind, Except.bind, addRelation] at h
  intro t ht
  rcases key sys _ m h t ht with h | h
  · simp at h
  · exact h

/-- relations in the systems: their sides are those of the sequent up to sign -/
theorem preformat_mem (ante succ : List (PyRel T)) (systems : List (List (PyRel T)))
    (h : vtsPreformat ante succ = .ok systems) :
    ∀ s ∈ systems, ∀ r, PyRel.rel r ∈ s → ∃ q, PyRel.rel q ∈ ante ++ succ ∧
      ((r.lhs = q.lhs ∧ r.rhs = q.rhs) ∨ (r.lhs = -q.lhs ∧ r.rhs = -q.rhs)) := by
  rw [vtsPreformat_eq] at h
  split at h
  · simp at h
  have hrw : ∀ (q : PyRel T) (r : Rel T), rewriteToLess1 q = .rel r → ∃ q', q = .rel q' ∧
      ((r.lhs = q'.lhs ∧ r.rhs = q'.rhs) ∨ (r.lhs = -q'.lhs ∧ r.rhs = -q'.rhs)) := by
    intro q r hqr
    cases q with
    | tt => simp [rewriteToLess1] at hqr
    | ff => simp [rewriteToLess1] at hqr
    | rel q =>
      refine ⟨q, rfl, ?_⟩
      unfold rewriteToLess1 at hqr
      simp only at hqr
      split at hqr <;> (simp only [PyRel.rel.injEq] at hqr; subst hqr; simp)
  cases hm : (succ.filter fun p => decide (p ≠ PyRel.tt)).dedup.mapM negateRelation1 with
  | error e => rw [hm] at h; simp [Except.map] at h
  | ok l =>
    rw [hm] at h
    simp only [Except.map, Except.ok.injEq] at h
    subst h
    have hneg : ∀ r, PyRel.rel r ∈ l → ∃ q, PyRel.rel q ∈ succ ∧ r.lhs = q.lhs ∧ r.rhs = q.rhs := by
      have hsub : ∀ q ∈ (succ.filter fun p => decide (p ≠ PyRel.tt)).dedup, q ∈ succ := fun q hq =>
        (List.mem_filter.1 (List.mem_dedup.1 hq)).1
      revert hm hsub
      generalize (succ.filter fun p => decide (p ≠ PyRel.tt)).dedup = sl
      intro hm hsub
      induction sl generalizing l with
      | nil => simp only [List.mapM_nil, pure, Except.pure, Except.ok.injEq] at hm; subst hm; simp
      | cons a sl ih =>
        rw [List.mapM_cons] at hm
        cases a with
        | tt => simp [negateRelation1, bind, Except.bind] at hm
        | ff => simp [negateRelation1, bind, Except.bind] at hm
        | rel a =>
          cases hm2 : sl.mapM negateRelation1 with
          | error e => rw [hm2] at hm; simp [negateRelation1, bind, Except.bind] at hm
          | ok l2 =>
            rw [hm2] at hm
            simp only [negateRelation1, bind, Except.bind, pure, Except.pure, Except.ok.injEq] at hm
            subst hm
            intro r hr
            rcases List.mem_cons.1 hr with hr | hr
            · simp only [PyRel.rel.injEq] at hr
              subst hr
              exact ⟨a, hsub _ (by simp), rfl, rfl⟩
            · exact ih l2 hm2 (fun q hq => hsub q (List.mem_cons_of_mem _ hq)) r hr
    intro s hs r hr
    simp only [List.map_map, List.mem_map, Function.comp] at hs
    obtain ⟨a, ha, rfl⟩ := hs
    rcases List.mem_append.1 hr with hr | hr
    · obtain ⟨q, hq, hqr⟩ := List.mem_map.1 hr
      obtain ⟨q', rfl, h⟩ := hrw q r hqr
      exact ⟨q', List.mem_append_left _ (List.mem_filter.1 (List.mem_dedup.1 hq)).1, h⟩
    · obtain ⟨q', rfl, h⟩ := hrw a r (by simpa using (List.mem_singleton.1 hr).symm)
      obtain ⟨q, hq, h1, h2⟩ := hneg q' ha
      exact ⟨q, List.mem_append_right _ hq, by rw [← h1, ← h2]; exact h⟩

/-- the verdict of one example, for any solver that decides systems of terms in `Good` -/
theorem checkExample_spec (hneg : ∀ t x, ev (-t) x = -ev t x) (Good : T → Prop)
    (hgood : ∀ t, Good t → Good (-t))
    (solver : List T → List T → List T → List T → Except Err Bool)
    (hs : ∀ le lt eq ne, (∀ t ∈ le ++ lt ++ eq ++ ne, Good t) → ∀ b, solver le lt eq ne = .ok b →
      (b = true ↔ ∃ x, (∀ t ∈ le, ev t x ≤ 0) ∧ (∀ t ∈ lt, ev t x < 0) ∧
        (∀ t ∈ eq, ev t x = 0) ∧ (∀ t ∈ ne, ev t x ≠ 0)))
    (ante succ : List (PyRel T))
    (hg : ∀ r, PyRel.rel r ∈ ante ++ succ → Good r.lhs ∧ ∀ x, ev r.rhs x = 0)
    (v : Bool) (hv : checkExample solver ante succ = .ok v) :
    v = true ↔ ValidConj ev ante succ := by
  unfold checkExample at hv
  cases hp : vtsPreformat ante succ with
  | error e => rw [hp] at hv; simp [bind, Except.bind] at hv
  | ok systems =>
    rw [hp] at hv
    have hpre := C17_preformat hneg ante succ systems hp
    have hmem := preformat_mem ante succ systems hp
    have hgs : ∀ s ∈ systems, ∀ r, PyRel.rel r ∈ s → Good r.lhs ∧ ∀ x, ev r.rhs x = 0 := by
      intro s hs' r hr
      obtain ⟨q, hq, h⟩ := hmem s hs' r hr
      obtain ⟨h1, h2⟩ := hg q hq
      rcases h with ⟨h3, h4⟩ | ⟨h3, h4⟩
      · rw [h3, h4]; exact ⟨h1, h2⟩
      · rw [h3, h4]; exact ⟨hgood _ h1, fun x => by rw [hneg, h2, neg_zero]⟩
    have key : ∀ (systems : List (List (PyRel T))) (v₀ v : Bool),
        (∀ s ∈ systems, ∀ r, PyRel.rel r ∈ s → Good r.lhs ∧ ∀ x, ev r.rhs x = 0) →
        systems.foldlM (fun v formula => do
          let m ← makeRelationMap formula
          let d ← solver m.le m.lt m.eq m.ne
          .ok (if d then false else v)) v₀ = .ok v →
        (v = true ↔ v₀ = true ∧ ¬ ∃ s ∈ systems, ∃ x, ∀ r ∈ s, r.holds ev x) := by
      intro systems
      induction systems with
      | nil =>
        intro v₀ v _ h
        simp only [List.foldlM_nil, pure, Except.pure, Except.ok.injEq] at h
        subst h; simp
      | cons s systems ih =>
        intro v₀ v hgs h
        rw [List.foldlM_cons] at h
        cases hm : makeRelationMap s with
        | error e => rw [hm] at h; simp [bind, Except.bind] at h
        | ok m =>
          rw [hm] at h
          cases hd : solver m.le m.lt m.eq m.ne with
          | error e => simp [bind, Except.bind, hd] at h
          | ok d =>
            have h' := ih (if d then false else v₀) v (fun s hs => hgs s (List.mem_cons_of_mem _ hs)) (by
              simpa [bind, Except.bind, hd] using h)
            rw [h']
            have hdec := hs _ _ _ _ (fun t ht => by
              obtain ⟨r, hr, rfl⟩ := makeRelationMap_mem s m hm t ht
              exact (hgs s (by simp) r hr).1) d hd
            have hsem : (∃ x, ∀ r ∈ s, r.holds ev x) ↔ d = true := by
              rw [hdec]
              exact exists_congr fun x => makeRelationMap_spec s m hm
                (fun r hr => (hgs s (by simp) r hr).2) x
            simp only [List.mem_cons, exists_eq_or_imp, hsem]
            cases d <;> simp
    have := key systems true v hgs hv
    rw [this, hpre]
    simp

/-- value of a converted polynomial at a real point -/
noncomputable def SPoly.value (p : SPoly) (x : ℝ) : ℝ := aeval x p.toPoly

theorem SPoly.toPoly_neg (p : SPoly) : (-p).toPoly = -p.toPoly := by
  cases p with
  | int z =>
    show C (((-z : ℤ)) : ℚ) = -C (z : ℚ)
    simp
  | number c =>
    cases c with
    | int z =>
      show C (((-z : ℤ)) : ℚ) = -C (z : ℚ)
      simp
    | rat q =>
      show C (-q) = -C q
      simp
    | other =>
      show (0 : ℚ[X]) = -0
      simp
  | multi => show (0 : ℚ[X]) = -0; simp
  | expr ts =>
    show (SPoly.expr (ts.map fun t => (t.1.neg, t.2))).toPoly = -(SPoly.expr ts).toPoly
    simp only [SPoly.toPoly, List.map_map]
    induction ts with
    | nil => simp
    | cons t ts ih =>
      simp only [List.map_cons, List.sum_cons, neg_add, ih, Function.comp]
      congr 1
      cases t.1 <;> simp [PyCoef.neg]

theorem SPoly.value_neg (p : SPoly) (x : ℝ) : (-p).value x = -p.value x := by
  unfold SPoly.value
  rw [SPoly.toPoly_neg, map_neg]

theorem SPoly.good_neg (p : SPoly) (h : p.Rational ∧ p.NonzeroTerms) :
    (-p).Rational ∧ (-p).NonzeroTerms := by
  cases p with
  | int z =>
    refine ⟨trivial, ?_⟩
    show -z ≠ 0
    exact neg_ne_zero.2 h.2
  | number c =>
    obtain ⟨⟨q, rfl⟩, h2⟩ := h
    refine ⟨⟨-q, rfl⟩, ?_⟩
    show PyCoef.rat (-q) ≠ .rat 0
    simp only [ne_eq, PyCoef.rat.injEq, neg_eq_zero]
    rintro rfl; exact h2 rfl
  | multi => exact h.1.elim
  | expr ts =>
    obtain ⟨⟨h1, h2, h3⟩, h4⟩ := h
    refine ⟨⟨?_, ?_, ?_⟩, ?_⟩
    · show ts.map _ ≠ []
      simpa using h1
    · show ((ts.map _).map Prod.snd).Pairwise _
      rw [List.map_map]; exact h2
    · intro t ht
      obtain ⟨u, hu, rfl⟩ := List.mem_map.1 ht
      obtain ⟨q, hq⟩ := h3 u hu
      exact ⟨-q, by simp only [hq]; rfl⟩
    · intro t ht
      obtain ⟨u, hu, rfl⟩ := List.mem_map.1 ht
      obtain ⟨q, hq⟩ := h3 u hu
      have := h4 u hu
      simp only [hq] at this ⊢
      show PyCoef.rat (-q) ≠ .rat 0
      simp only [ne_eq, PyCoef.rat.injEq, neg_eq_zero]
      rintro rfl; exact this rfl

/-- A relation `p R 0` with a nonzero rational univariate `p`. -/
def GoodRel (r : Rel SPoly) : Prop := (r.lhs.Rational ∧ r.lhs.NonzeroTerms) ∧ r.rhs.toPoly = 0

/-- **C17**, end to end: whenever the checker reaches a verdict on a sequent of relations `p R 0`
over nonzero rational polynomials, the verdict is whether the antecedent implies every succedent
formula at every real point. -/
theorem C17_verdict {E : Env ℤ ℝ} (hE : EnvOK E (Int.castRingHom ℝ))
    (ante succ : List (PyRel SPoly)) (hg : ∀ r, PyRel.rel r ∈ ante ++ succ → GoodRel r)
    (v : Bool) (hv : checkExample (isymVts E) ante succ = .ok v) :
    v = true ↔ ValidConj SPoly.value ante succ :=
  checkExample_spec SPoly.value_neg (fun p => p.Rational ∧ p.NonzeroTerms) SPoly.good_neg _
    (fun le lt eq ne hall b hb => (C16_isym_vts hE le lt eq ne hall).1 b hb) ante succ
    (fun r hr => ⟨(hg r hr).1, fun x => by simp [SPoly.value, (hg r hr).2]⟩) v hv

/-! ## C18 -/

/-- `x` -/
def polyX : SPoly := .expr [(.rat 1, 1)]
/-- `0` -/
def poly0 : SPoly := .number (.rat 0)

theorem polyX_good (k : RelKind) : GoodRel ⟨k, polyX, poly0⟩ :=
  ⟨⟨⟨by simp, by simp, by intro t ht; simp at ht; subst ht; exact ⟨_, rfl⟩⟩,
    by intro t ht; simp at ht; subst ht; simp⟩, by simp [poly0, SPoly.toPoly]⟩

theorem polyX_ev (x : ℝ) : polyX.value x = x := by simp [SPoly.value, polyX, SPoly.toPoly]

theorem poly0_ev (x : ℝ) : poly0.value x = 0 := by simp [SPoly.value, poly0, SPoly.toPoly]

/-- **C18 is violated**: `x ≠ 0 ⊢ x < 0, x > 0` is valid in the disjunctive reading, but no run of
the checker reports it as valid. -/
theorem C18_disjunctive_violated {E : Env ℤ ℝ} (hE : EnvOK E (Int.castRingHom ℝ)) :
    ValidDisj SPoly.value [.rel ⟨.ne, polyX, poly0⟩] [.rel ⟨.lt, polyX, poly0⟩, .rel ⟨.gt, polyX, poly0⟩] ∧
    checkExample (isymVts E) [.rel ⟨.ne, polyX, poly0⟩]
      [.rel ⟨.lt, polyX, poly0⟩, .rel ⟨.gt, polyX, poly0⟩] = .ok false := by
  constructor
  · intro x hx
    have := hx _ (List.mem_singleton.2 rfl)
    simp only [PyRel.holds, RelKind.holds, polyX_ev, poly0_ev] at this
    rcases lt_or_gt_of_ne this with h | h
    · exact ⟨_, List.mem_cons_self .., by simpa only [PyRel.holds, RelKind.holds, polyX_ev, poly0_ev] using h⟩
    · exact ⟨_, List.mem_cons_of_mem _ (List.mem_singleton.2 rfl),
        by simpa only [PyRel.holds, RelKind.holds, polyX_ev, poly0_ev] using h⟩
  · have hgX : polyX.Rational ∧ polyX.NonzeroTerms := (polyX_good .le).1
    have hdX : polyX.toPoly.natDegree ≤ 5 := by
      have : polyX.toPoly = X := by simp [polyX, SPoly.toPoly]
      rw [this, natDegree_X]; omega
    have hgN := SPoly.good_neg _ hgX
    have hdN : (-polyX).toPoly.natDegree ≤ 5 := by rw [SPoly.toPoly_neg, natDegree_neg]; exact hdX
    obtain ⟨b1, hb1⟩ := (C16_isym_vts hE [-polyX] [] [] [polyX] (by
      intro p hp; simp at hp; rcases hp with rfl | rfl <;> assumption)).2.2 (by
      intro p hp; simp at hp; rcases hp with rfl | rfl <;> assumption)
    obtain ⟨b2, hb2⟩ := (C16_isym_vts hE [polyX] [] [] [polyX] (by
      intro p hp; simp at hp; rcases hp with rfl | rfl <;> assumption)).2.2 (by
      intro p hp; simp at hp; rcases hp with rfl | rfl <;> assumption)
    have hpre : vtsPreformat [.rel ⟨.ne, polyX, poly0⟩]
        [.rel ⟨.lt, polyX, poly0⟩, .rel ⟨.gt, polyX, poly0⟩] =
        .ok [[.rel ⟨.ne, polyX, poly0⟩, .rel ⟨.le, -polyX, -poly0⟩],
          [.rel ⟨.ne, polyX, poly0⟩, .rel ⟨.le, polyX, poly0⟩]] := by decide +kernel
    have hex : ∃ v, checkExample (isymVts E) [.rel ⟨.ne, polyX, poly0⟩]
        [.rel ⟨.lt, polyX, poly0⟩, .rel ⟨.gt, polyX, poly0⟩] = .ok v := by
      refine ⟨if b2 then false else if b1 then false else true, ?_⟩
      unfold checkExample
      rw [hpre]
      simp [bind, Except.bind, makeRelationMap, addRelation, hb1, hb2, pure, Except.pure]
    obtain ⟨v, hv⟩ := hex
    rw [hv]
    cases v with
    | false => rfl
    | true =>
      exfalso
      have := (C17_verdict hE _ _ (by
        intro r hr
        simp at hr
        rcases hr with rfl | rfl | rfl <;> exact polyX_good _) true hv).1 rfl
      have := this 1 (by
        intro a ha
        rw [List.mem_singleton.1 ha]
        simp [PyRel.holds, RelKind.holds, polyX_ev, poly0_ev]) _ (List.mem_cons_self ..)
      simp [PyRel.holds, RelKind.holds, polyX_ev, poly0_ev] at this
      exact absurd this (by norm_num)

/-- **C18**, what holds: a sequent reported valid is valid in the disjunctive reading too, and for
one succedent formula the verdict is exact. Missing: exactness for several succedent formulas. -/
theorem C18_disjunctive_partial {E : Env ℤ ℝ} (hE : EnvOK E (Int.castRingHom ℝ))
    (ante succ : List (PyRel SPoly)) (hg : ∀ r, PyRel.rel r ∈ ante ++ succ → GoodRel r)
    (v : Bool) (hv : checkExample (isymVts E) ante succ = .ok v) :
    (v = true → ValidDisj SPoly.value ante succ) ∧
    (succ.length = 1 → (v = true ↔ ValidDisj SPoly.value ante succ)) := by
  have hc := C17_verdict hE ante succ hg v hv
  refine ⟨fun h x hx => ?_, fun h1 => ?_⟩
  · cases succ with
    | nil =>
      have : ∃ e, vtsPreformat ante ([] : List (PyRel SPoly)) = .error e :=
        (C17_raises ante []).2 (Or.inr (Or.inl (by simp)))
      obtain ⟨e, he⟩ := this
      unfold checkExample at hv
      rw [he] at hv
      simp [bind, Except.bind] at hv
    | cons s succ => exact ⟨s, by simp, hc.1 h x hx s (by simp)⟩
  · rw [hc]
    obtain ⟨s, rfl⟩ := List.length_eq_one_iff.1 h1
    simp [ValidConj, ValidDisj]

-- the hypotheses are met and both verdicts occur: `x ≠ 0 ⊢ x < 0, x > 0` above
example : ∀ r, PyRel.rel r ∈ [PyRel.rel ⟨.ne, polyX, poly0⟩] ++ [.rel ⟨.lt, polyX, poly0⟩] → GoodRel r := by
  intro r hr
  simp at hr
  rcases hr with rfl | rfl <;> exact polyX_good _

/-! ## C20 -/

/-- the dictionary after the loops -/
theorem results_spec (solver : List T → List T → List T → List T → Except Err Bool)
    (files : List (String × List (List (PyRel T) × List (PyRel T))))
    (hdec : ∀ f ∈ files.take 3, ∀ ex ∈ f.2, ∃ v, checkExample solver ex.1 ex.2 = .ok v) :
    ∃ res : List (ResultKey × Bool), checkExamples solver files = (res.mapM fun kv => do
        let s ← dropSuffix kv.1
        .ok (s, kv.2)) ∧
      ((res = [] ∧ ∀ f ∈ files.take 3, ∀ ex ∈ f.2, checkExample solver ex.1 ex.2 = .ok true) ∨
       (res = [(.builtinFile, false)] ∧
        ∃ f ∈ files.take 3, ∃ ex ∈ f.2, checkExample solver ex.1 ex.2 = .ok false)) := by
  have inner : ∀ (exs : List (List (PyRel T) × List (PyRel T)))
      (_ : ∀ ex ∈ exs, ∃ v, checkExample solver ex.1 ex.2 = .ok v) (res : List (ResultKey × Bool))
      (_ : res = [] ∨ res = [(.builtinFile, false)]),
      ∃ res', exs.foldlM (fun res ex => do
        let v ← checkExample solver ex.1 ex.2
        .ok (if v then res else dictSet res .builtinFile v)) res = (.ok res' : Except Err _) ∧
      ((res' = [] ∧ res = [] ∧ ∀ ex ∈ exs, checkExample solver ex.1 ex.2 = .ok true) ∨
       (res' = [(.builtinFile, false)] ∧ (res = [(.builtinFile, false)] ∨
        ∃ ex ∈ exs, checkExample solver ex.1 ex.2 = .ok false))) := by
    intro exs
    induction exs with
    | nil =>
      intro _ res hres
      refine ⟨res, rfl, ?_⟩
      rcases hres with rfl | rfl <;> simp
    | cons ex exs ih =>
      intro hd res hres
      obtain ⟨v, hv⟩ := hd ex (by simp)
      have hd' := fun e he => hd e (List.mem_cons_of_mem _ he)
      cases v with
      | true =>
        obtain ⟨res', h1, h2⟩ := ih hd' res hres
        refine ⟨res', by rw [List.foldlM_cons, hv]; exact h1, ?_⟩
        rcases h2 with ⟨h2, h3, h4⟩ | ⟨h2, h3 | ⟨e, he, h3⟩⟩
        · refine Or.inl ⟨h2, h3, ?_⟩
          intro e he
          rcases List.mem_cons.1 he with rfl | he
          · exact hv
          · exact h4 e he
        · exact Or.inr ⟨h2, Or.inl h3⟩
        · exact Or.inr ⟨h2, Or.inr ⟨e, List.mem_cons_of_mem _ he, h3⟩⟩
      | false =>
        have hset : dictSet res .builtinFile false = [(.builtinFile, false)] := by
          rcases hres with rfl | rfl <;> rfl
        obtain ⟨res', h1, h2⟩ := ih hd' [(.builtinFile, false)] (Or.inr rfl)
        refine ⟨res', ?_, ?_⟩
        · rw [List.foldlM_cons, hv]
          simp only [bind, Except.bind, Bool.false_eq_true, if_false]
          rw [hset]; exact h1
        · rcases h2 with ⟨_, h3, _⟩ | ⟨h2, _⟩
          · simp at h3
          · exact Or.inr ⟨h2, Or.inr ⟨ex, by simp, hv⟩⟩
  have outer : ∀ (fs : List (String × List (List (PyRel T) × List (PyRel T))))
      (_ : ∀ f ∈ fs, ∀ ex ∈ f.2, ∃ v, checkExample solver ex.1 ex.2 = .ok v)
      (res : List (ResultKey × Bool)) (_ : res = [] ∨ res = [(.builtinFile, false)]),
      ∃ res', fs.foldlM (fun res f =>
        f.2.foldlM (fun res ex => do
          let v ← checkExample solver ex.1 ex.2
          .ok (if v then res else dictSet res .builtinFile v)) res) res = (.ok res' : Except Err _) ∧
      ((res' = [] ∧ res = [] ∧ ∀ f ∈ fs, ∀ ex ∈ f.2, checkExample solver ex.1 ex.2 = .ok true) ∨
       (res' = [(.builtinFile, false)] ∧ (res = [(.builtinFile, false)] ∨
        ∃ f ∈ fs, ∃ ex ∈ f.2, checkExample solver ex.1 ex.2 = .ok false))) := by
    intro fs
    induction fs with
    | nil =>
      intro _ res hres
      refine ⟨res, rfl, ?_⟩
      rcases hres with rfl | rfl <;> simp
    | cons f fs ih =>
      intro hd res hres
      obtain ⟨r1, h1, h2⟩ := inner f.2 (hd f (by simp)) res hres
      have hr1 : r1 = [] ∨ r1 = [(.builtinFile, false)] := by
        rcases h2 with ⟨h, _⟩ | ⟨h, _⟩
        · exact Or.inl h
        · exact Or.inr h
      obtain ⟨res', h3, h4⟩ := ih (fun g hg => hd g (List.mem_cons_of_mem _ hg)) r1 hr1
      refine ⟨res', ?_, ?_⟩
      · rw [List.foldlM_cons, h1]; exact h3
      · rcases h4 with ⟨h4, h5, h6⟩ | ⟨h4, h5 | ⟨g, hg, h5⟩⟩
        · rcases h2 with ⟨_, h7, h8⟩ | ⟨h7, _⟩
          · refine Or.inl ⟨h4, h7, ?_⟩
            intro g hg
            rcases List.mem_cons.1 hg with rfl | hg
            · exact h8
            · exact h6 g hg
          · rw [h7] at h5; simp at h5
        · rcases h2 with ⟨h7, _⟩ | ⟨_, h7 | ⟨ex, hex, h7⟩⟩
          · rw [h7] at h5; simp at h5
          · exact Or.inr ⟨h4, Or.inl h7⟩
          · exact Or.inr ⟨h4, Or.inr ⟨f, by simp, ex, hex, h7⟩⟩
        · exact Or.inr ⟨h4, Or.inr ⟨g, List.mem_cons_of_mem _ hg, h5⟩⟩
  obtain ⟨res, h1, h2⟩ := outer (files.take 3) hdec [] (Or.inl rfl)
  refine ⟨res, ?_, ?_⟩
  · unfold checkExamples
    rw [h1]; rfl
  · rcases h2 with ⟨h2, _, h3⟩ | ⟨h2, h3 | h3⟩
    · exact Or.inl ⟨h2, h3⟩
    · simp at h3
    · exact Or.inr ⟨h2, h3⟩

/-- **C20 is violated**: with any solver, if the examples of the first three files are all decided
and one of them is not valid, `check_examples` ends with a `TypeError` instead of a report. -/
theorem C20_report_violated (solver : List T → List T → List T → List T → Except Err Bool)
    (files : List (String × List (List (PyRel T) × List (PyRel T))))
    (hdec : ∀ f ∈ files.take 3, ∀ ex ∈ f.2, ∃ v, checkExample solver ex.1 ex.2 = .ok v)
    (hbad : ∃ f ∈ files.take 3, ∃ ex ∈ f.2, checkExample solver ex.1 ex.2 = .ok false) :
    checkExamples solver files = .error .typeError := by
  obtain ⟨res, h1, h2⟩ := results_spec solver files hdec
  rw [h1]
  obtain ⟨f, hf, ex, hex, hv⟩ := hbad
  rcases h2 with ⟨_, h2⟩ | ⟨h2, _⟩
  · have := h2 f hf ex hex
    rw [hv] at this; simp at this
  · subst h2
    rfl

/-- **C20**, what holds: when all examples of the first three files are decided and valid,
`check_examples` ends normally; it reports nothing, and later files are never looked at.
Missing: a result for every file. -/
theorem C20_report_partial (solver : List T → List T → List T → List T → Except Err Bool)
    (files : List (String × List (List (PyRel T) × List (PyRel T)))) :
    ((∀ f ∈ files.take 3, ∀ ex ∈ f.2, checkExample solver ex.1 ex.2 = .ok true) →
      checkExamples solver files = .ok []) ∧
    checkExamples solver files = checkExamples solver (files.take 3) := by
  constructor
  · intro h
    obtain ⟨res, h1, h2⟩ := results_spec solver files fun f hf ex hex => ⟨_, h f hf ex hex⟩
    rw [h1]
    rcases h2 with ⟨h2, _⟩ | ⟨_, f, hf, ex, hex, hv⟩
    · subst h2; rfl
    · rw [h f hf ex hex] at hv; simp at hv
  · unfold checkExamples
    rw [List.take_take]; rfl

theorem foldlM_flatMap {α β ε γ : Type} (f : γ → β → Except ε γ) (g : α → List β) : ∀ (l : List α) (c : γ),
    l.foldlM (fun c a => (g a).foldlM f c) c = (l.flatMap g).foldlM f c
  | [], c => rfl
  | a :: l, c => by
    rw [List.flatMap_cons, List.foldlM_append, List.foldlM_cons]
    congr 1
    funext c'
    exact foldlM_flatMap f g l c'

/-- The loop over the examples stops at the first one that raises. -/
theorem results_error (solver : List T → List T → List T → List T → Except Err Bool) :
    ∀ (exs : List (List (PyRel T) × List (PyRel T))) (res : List (ResultKey × Bool)) (e : Err),
      (exs.foldlM (fun res ex => do
        let v ← checkExample solver ex.1 ex.2
        .ok (if v then res else dictSet res .builtinFile v)) res : Except Err _) = .error e ↔
      ∃ pre ex post, exs = pre ++ ex :: post ∧ (∀ p ∈ pre, ∃ v, checkExample solver p.1 p.2 = .ok v) ∧
        checkExample solver ex.1 ex.2 = .error e
  | [], res, e => by
    constructor
    · intro h; cases h
    · rintro ⟨pre, ex, post, h, _⟩
      simp at h
  | a :: exs, res, e => by
    rw [List.foldlM_cons]
    cases hv : checkExample solver a.1 a.2 with
    | error e' =>
      constructor
      · intro h
        cases h
        exact ⟨[], a, exs, rfl, by simp, hv⟩
      · rintro ⟨pre, ex, post, h1, h2, h3⟩
        cases pre with
        | nil =>
          cases h1
          rw [hv] at h3
          cases h3
          rfl
        | cons b pre =>
          cases h1
          obtain ⟨v, h⟩ := h2 a (by simp)
          rw [hv] at h
          cases h
    | ok v =>
      show (exs.foldlM _ _ : Except Err _) = _ ↔ _
      rw [results_error solver exs]
      constructor
      · rintro ⟨pre, ex, post, rfl, h2, h3⟩
        refine ⟨a :: pre, ex, post, rfl, ?_, h3⟩
        intro p hp
        rcases List.mem_cons.1 hp with rfl | hp
        · exact ⟨v, hv⟩
        · exact h2 p hp
      · rintro ⟨pre, ex, post, h1, h2, h3⟩
        cases pre with
        | nil =>
          cases h1
          rw [hv] at h3
          cases h3
        | cons b pre =>
          cases h1
          exact ⟨pre, ex, post, rfl, fun p hp => h2 p (by simp [hp]), h3⟩

/-- **C20**, all that happens: `check_examples` never reports a result. It returns (an empty report) exactly when all
examples of the first three files are decided and valid; it raises the exception of the first example that raises; and
otherwise, when some example is invalid, a `TypeError`. -/
theorem C20_exact (solver : List T → List T → List T → List T → Except Err Bool)
    (files : List (String × List (List (PyRel T) × List (PyRel T)))) :
    (∀ r, checkExamples solver files = .ok r ↔
      r = [] ∧ ∀ ex ∈ (files.take 3).flatMap Prod.snd, checkExample solver ex.1 ex.2 = .ok true) ∧
    ∀ e, checkExamples solver files = .error e ↔
      (∃ pre ex post, (files.take 3).flatMap Prod.snd = pre ++ ex :: post ∧
        (∀ p ∈ pre, ∃ v, checkExample solver p.1 p.2 = .ok v) ∧ checkExample solver ex.1 ex.2 = .error e) ∨
      (e = .typeError ∧ (∀ ex ∈ (files.take 3).flatMap Prod.snd, ∃ v, checkExample solver ex.1 ex.2 = .ok v) ∧
        ∃ ex ∈ (files.take 3).flatMap Prod.snd, checkExample solver ex.1 ex.2 = .ok false) := by
  have hflat := foldlM_flatMap (fun (res : List (ResultKey × Bool)) (ex : List (PyRel T) × List (PyRel T)) => do
      let v ← checkExample solver ex.1 ex.2
      (.ok (if v then res else dictSet res .builtinFile v) : Except Err _)) Prod.snd (files.take 3) []
  by_cases hdec : ∀ ex ∈ (files.take 3).flatMap Prod.snd, ∃ v, checkExample solver ex.1 ex.2 = .ok v
  · have hno : ∀ e, ¬ ∃ pre ex post, (files.take 3).flatMap Prod.snd = pre ++ ex :: post ∧
        (∀ p ∈ pre, ∃ v, checkExample solver p.1 p.2 = .ok v) ∧ checkExample solver ex.1 ex.2 = .error e := by
      rintro e ⟨pre, ex, post, h1, _, h3⟩
      obtain ⟨v, hv⟩ := hdec ex (by rw [h1]; simp)
      rw [h3] at hv
      cases hv
    have hdec' : ∀ f ∈ files.take 3, ∀ ex ∈ f.2, ∃ v, checkExample solver ex.1 ex.2 = .ok v :=
      fun f hf ex hex => hdec ex (List.mem_flatMap.2 ⟨f, hf, hex⟩)
    by_cases hall : ∀ ex ∈ (files.take 3).flatMap Prod.snd, checkExample solver ex.1 ex.2 = .ok true
    · have h := (C20_report_partial solver files).1 fun f hf ex hex => hall ex (List.mem_flatMap.2 ⟨f, hf, hex⟩)
      rw [h]
      refine ⟨fun r => ⟨fun h => ?_, fun h => ?_⟩, fun e => ⟨fun h => ?_, fun h => ?_⟩⟩
      · cases h; exact ⟨rfl, hall⟩
      · rw [h.1]
      · cases h
      · rcases h with h | ⟨_, _, ex, hex, hf⟩
        · exact absurd h (hno e)
        · rw [hall ex hex] at hf
          cases hf
    · have hbad : ∃ ex ∈ (files.take 3).flatMap Prod.snd, checkExample solver ex.1 ex.2 = .ok false := by
        by_contra hn
        apply hall
        intro ex hex
        obtain ⟨v, hv⟩ := hdec ex hex
        cases v with
        | true => exact hv
        | false => exact absurd ⟨ex, hex, hv⟩ hn
      have h := C20_report_violated solver files hdec' (by
        obtain ⟨ex, hex, hv⟩ := hbad
        obtain ⟨f, hf, hex⟩ := List.mem_flatMap.1 hex
        exact ⟨f, hf, ex, hex, hv⟩)
      rw [h]
      refine ⟨fun r => ⟨fun h => ?_, fun h => ?_⟩, fun e => ⟨fun h => ?_, fun h => ?_⟩⟩
      · cases h
      · exact absurd h.2 hall
      · cases h
        exact Or.inr ⟨rfl, hdec, hbad⟩
      · rcases h with h | ⟨rfl, _⟩
        · exact absurd h (hno e)
        · rfl
  · have hex : ∃ e, (files.take 3).foldlM (fun (res : List (ResultKey × Bool)) f =>
        f.2.foldlM (fun (res : List (ResultKey × Bool)) (ex : List (PyRel T) × List (PyRel T)) => do
          let v ← checkExample solver ex.1 ex.2
          (.ok (if v then res else dictSet res .builtinFile v) : Except Err _)) res) [] = .error e := by
      have key : ∀ (exs : List (List (PyRel T) × List (PyRel T))),
          (¬ ∀ ex ∈ exs, ∃ v, checkExample solver ex.1 ex.2 = .ok v) →
          ∃ e pre ex post, exs = pre ++ ex :: post ∧ (∀ p ∈ pre, ∃ v, checkExample solver p.1 p.2 = .ok v) ∧
            checkExample solver ex.1 ex.2 = .error e := by
        intro exs
        induction exs with
        | nil => intro h; exact absurd (by simp) h
        | cons a exs ih =>
          intro h
          cases hv : checkExample solver a.1 a.2 with
          | error e => exact ⟨e, [], a, exs, rfl, by simp, hv⟩
          | ok v =>
            obtain ⟨e, pre, ex, post, rfl, h2, h3⟩ := ih fun hh => h fun x hx => by
              rcases List.mem_cons.1 hx with rfl | hx
              · exact ⟨v, hv⟩
              · exact hh x hx
            refine ⟨e, a :: pre, ex, post, rfl, ?_, h3⟩
            intro p hp
            rcases List.mem_cons.1 hp with rfl | hp
            · exact ⟨v, hv⟩
            · exact h2 p hp
      obtain ⟨e, h⟩ := key _ hdec
      exact ⟨e, by rw [hflat]; exact (results_error solver _ [] e).2 h⟩
    obtain ⟨e, he⟩ := hex
    have hc : checkExamples solver files = .error e := by
      unfold checkExamples
      rw [he]
      rfl
    have hfirst : ∀ e', (∃ pre ex post, (files.take 3).flatMap Prod.snd = pre ++ ex :: post ∧
        (∀ p ∈ pre, ∃ v, checkExample solver p.1 p.2 = .ok v) ∧ checkExample solver ex.1 ex.2 = .error e') ↔ e = e' := by
      intro e'
      rw [← results_error solver _ [] e', ← hflat, he]
      simp
    rw [hc]
    refine ⟨fun r => ⟨fun h => ?_, fun h => ?_⟩, fun e' => ⟨fun h => ?_, fun h => ?_⟩⟩
    · cases h
    · exact absurd (fun ex hex => ⟨true, h.2 ex hex⟩) hdec
    · cases h
      exact Or.inl ((hfirst e).2 rfl)
    · rcases h with h | ⟨_, h, _⟩
      · rw [(hfirst e').1 h]
      · exact absurd h hdec

-- a solver that finds every system satisfiable: the sequent `⊢` is invalid
example : ∃ f ∈ ([("a.smt.pkl", [([.rel ⟨.lt, (1 : ℤ), 0⟩], [.rel ⟨.eq, 0, 0⟩])])] :
      List (String × List (List (PyRel ℤ) × List (PyRel ℤ)))).take 3,
    ∃ ex ∈ f.2, checkExample (fun _ _ _ _ => .ok true) ex.1 ex.2 = .ok false := by
  refine ⟨_, List.mem_singleton.2 rfl, _, List.mem_singleton.2 rfl, by decide +kernel⟩

end Verif.Vts
