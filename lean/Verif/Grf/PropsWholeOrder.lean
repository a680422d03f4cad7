import Verif.Grf.PropsWhole

/-!
# C113: local search with two orders of the same variables
-/

set_option linter.unusedSectionVars false

namespace Verif.Grf

variable {K : Type} [Field K] [LinearOrder K] [IsStrictOrderedRing K]

/-! ### Two variable orders -/

/-- Two dictionaries with the same entries. -/
def SameDict (d d' : Dict K) : Prop := ∀ i, d.lookup i = d'.lookup i

/-- Comparing what remains of a polynomial after a substitution depends on the entries of the dictionary only, not on
their order. -/
def CmpOK (S : Sage K) : Prop := ∀ p d d', SameDict d d' → S.cmp p d = S.cmp p d'

theorem SameDict.nil {d : Dict K} (h : SameDict [] d) : d = [] := by
  cases d with
  | nil => rfl
  | cons e d =>
    have := h e.1
    rw [List.lookup_cons] at this
    simp at this

theorem SameDict.evalOnDict {S : Sage K} (hS : CmpOK S) {d d' : Dict K} (h : SameDict d d') (a : Atom) :
    a.evalOnDict S d = a.evalOnDict S d' := by
  have h1 : inDict d = inDict d' := by funext v; simp only [inDict, h v]
  have h2 : ptOf d = ptOf d' := by funext v; simp only [ptOf, h v]
  unfold Atom.evalOnDict
  rw [h1, h2, hS _ _ _ h]
  cases d with
  | nil => rw [h.nil]
  | cons e d =>
    cases d' with
    | nil =>
      have : SameDict [] (e :: d) := fun i => (h i).symm
      cases this.nil
    | cons e' d' => rfl

theorem SameDict.goal {S : Sage K} (hS : CmpOK S) {d d' : Dict K} (h : SameDict d d') (g : Goal) :
    g.evalOnDict S d = g.evalOnDict S d' := by
  have : ∀ hs : List Atom, evalHyps S d hs = evalHyps S d' hs := by
    intro hs
    induction hs with
    | nil => rfl
    | cons a hs ih => unfold evalHyps; rw [h.evalOnDict hS, ih]
  unfold Goal.evalOnDict
  rw [h.evalOnDict hS, this]

theorem SameDict.trueHyps {S : Sage K} (hS : CmpOK S) {d d' : Dict K} (h : SameDict d d') :
    ∀ (i : ℕ) (hs : List Atom), trueHyps S d i hs = trueHyps S d' i hs
  | _, [] => rfl
  | i, a :: hs => by
    unfold Grf.trueHyps
    rw [h.evalOnDict hS, h.trueHyps hS (i + 1) hs]

theorem badLoop_same {S : Sage K} (hS : CmpOK S) (st : State) {ds ds' : List (Dict K)}
    (h : List.Forall₂ SameDict ds ds') : ∀ bads, badLoop S st ds bads = badLoop S st ds' bads := by
  induction h with
  | nil => intro bads; rfl
  | cons h1 _ ih =>
    intro bads
    unfold badLoop
    rw [h1.goal hS, h1.trueHyps hS]
    simp only [ih]

/-- The vector of the same point for another variable order. -/
def reorder (o₁ o₂ : List ℕ) (x : List K) : List K :=
  if x.length = o₁.length then o₂.map (ptOf (o₁.zip x)) else x

/-- Two lists of the same variables. -/
structure SameVars (o₁ o₂ : List ℕ) : Prop where
  nodup₁ : o₁.Nodup
  nodup₂ : o₂.Nodup
  mem : ∀ v, v ∈ o₁ ↔ v ∈ o₂

theorem SameVars.symm {o₁ o₂ : List ℕ} (h : SameVars o₁ o₂) : SameVars o₂ o₁ :=
  ⟨h.nodup₂, h.nodup₁, fun v => (h.mem v).symm⟩

theorem SameVars.length {o₁ o₂ : List ℕ} (h : SameVars o₁ o₂) : o₁.length = o₂.length :=
  ((List.perm_ext_iff_of_nodup h.nodup₁ h.nodup₂).2 h.mem).length_eq

theorem reorder_length {o₁ o₂ : List ℕ} (h : SameVars o₁ o₂) (x : List K) : (reorder o₁ o₂ x).length = x.length := by
  unfold reorder
  split
  · next hx => rw [List.length_map, hx, h.length]
  · rfl

theorem reorder_dict {o₁ o₂ : List ℕ} (h : SameVars o₁ o₂) {x : List K} (hx : x.length = o₁.length) :
    SameDict (o₂.zip (reorder o₁ o₂ x)) (o₁.zip x) := by
  intro i
  unfold reorder
  rw [if_pos hx, lookup_zip_map]
  split
  · next hi =>
    have := lookup_zip_isSome o₁ x hx ((h.mem i).2 hi)
    obtain ⟨y, hy⟩ := Option.isSome_iff_exists.1 this
    rw [ptOf, hy]; rfl
  · next hi =>
    cases hl : (o₁.zip x).lookup i with
    | none => rfl
    | some y =>
      have := (lookup_isSome_iff (o₁.zip x) i).1 (by rw [hl]; rfl)
      rw [List.map_fst_zip (by omega)] at this
      exact absurd ((h.mem i).1 this) hi

theorem reorder_back {o₁ o₂ : List ℕ} (h : SameVars o₁ o₂) (x : List K) : reorder o₂ o₁ (reorder o₁ o₂ x) = x := by
  by_cases hx : x.length = o₁.length
  · have h1 : (reorder o₁ o₂ x).length = o₂.length := by rw [reorder_length h, hx, h.length]
    have h2 := reorder_dict h hx
    rw [reorder, if_pos h1]
    have : ptOf (o₂.zip (reorder o₁ o₂ x)) = ptOf (o₁.zip x) := by funext v; simp only [ptOf, h2 v]
    rw [this]
    exact map_ptOf_zip o₁ x h.nodup₁ hx
  · have h1 : reorder o₁ o₂ x = x := by rw [reorder, if_neg hx]
    rw [h1, reorder, if_neg (by rw [← h.length]; exact hx)]

/-- The random numbers and the solver of a search with the variable order `o₂`, rearranged for the order `o₁`. -/
def Search.rearrange (o₁ o₂ : List ℕ) (O : Search K) : Search K :=
  { O with
    noise := fun i k n j => O.noise i k n (o₂.idxOf (o₁.getD j 0))
    fsolve := fun i k F x =>
      (O.fsolve i k (fun y => F (reorder o₂ o₁ y)) (reorder o₁ o₂ x)).map (reorder o₂ o₁) }

theorem vect2dict_reorder {o₁ o₂ : List ℕ} (h : SameVars o₁ o₂) (x : List K) :
    (∃ e, vect2dict (some o₁) x = .error e ∧ vect2dict (some o₂) (reorder o₁ o₂ x) = .error e) ∨
    ∃ d d', vect2dict (some o₁) x = .ok d ∧ vect2dict (some o₂) (reorder o₁ o₂ x) = .ok d' ∧ SameDict d d' := by
  have hnil : o₁ = [] ↔ o₂ = [] := by rw [← List.length_eq_zero_iff, ← List.length_eq_zero_iff, h.length]
  unfold vect2dict
  simp only [reorder_length h]
  by_cases hc : o₁ = [] ∨ x.length ≠ o₁.length
  · refine Or.inl ⟨.assertion, by rw [if_pos hc], ?_⟩
    rw [if_pos]
    rwa [← hnil, ← h.length]
  · refine Or.inr ⟨o₁.zip x, o₂.zip (reorder o₁ o₂ x), by rw [if_neg hc], ?_, ?_⟩
    · rw [if_neg]
      rwa [← hnil, ← h.length]
    · push Not at hc
      intro i
      exact (reorder_dict h hc.2 i).symm

theorem filterTrue_same {S : Sage K} (hS : CmpOK S) {d d' : Dict K} (h : SameDict d d') : ∀ hs : List Atom,
    filterTrue S d hs = filterTrue S d' hs
  | [] => rfl
  | a :: hs => by
    unfold filterTrue
    rw [h.evalOnDict hS, filterTrue_same hS h hs]

theorem chooseAtom_reorder {S : Sage K} (hS : CmpOK S) {o₁ o₂ : List ℕ} (h : SameVars o₁ o₂) (O : Search K) (i k : ℕ)
    (hyps : List Atom) (x : List K) :
    chooseAtom S (O.rearrange o₁ o₂) i k (some o₁) hyps x = chooseAtom S O i k (some o₂) hyps (reorder o₁ o₂ x) := by
  unfold chooseAtom
  rcases vect2dict_reorder h x with ⟨e, h1, h2⟩ | ⟨d, d', h1, h2, h3⟩
  · rw [h1, h2]; rfl
  · rw [h1, h2]
    simp only [bind, Except.bind]
    rw [filterTrue_same hS h3]
    rfl

theorem evalPoly_reorder {o₁ o₂ : List ℕ} (h : SameVars o₁ o₂) (p : MPoly) (x : List K) :
    evalPoly (some o₁) p x = evalPoly (some o₂) p (reorder o₁ o₂ x) := by
  unfold evalPoly
  rcases vect2dict_reorder h x with ⟨e, h1, h2⟩ | ⟨d, d', h1, h2, h3⟩
  · rw [h1, h2]
  · rw [h1, h2]
    have h4 : inDict d = inDict d' := by funext v; simp only [inDict, h3 v]
    have h5 : ptOf d = ptOf d' := by funext v; simp only [ptOf, h3 v]
    simp only [bind, Except.bind, h4, h5]

theorem flipFunc_reorder {o₁ o₂ : List ℕ} (h : SameVars o₁ o₂) (a : Atom) (n : ℕ) (eps : K) :
    (fun y => flipFunc (some o₁) a n eps (reorder o₂ o₁ y)) = flipFunc (some o₂) a n eps := by
  funext y
  unfold flipFunc
  rw [evalPoly_reorder h, reorder_back h.symm]

theorem perturb_reorder {o₁ o₂ : List ℕ} (h : SameVars o₁ o₂) (u : ℕ → K) {y : List K} (hy : y.length = o₂.length) :
    reorder o₁ o₂ (perturb (fun j => u (o₂.idxOf (o₁.getD j 0))) (reorder o₂ o₁ y)) = perturb u y := by
  have hl : (reorder o₂ o₁ y).length = o₁.length := by rw [reorder_length h.symm, hy, h.length]
  have hp : (perturb (fun j => u (o₂.idxOf (o₁.getD j 0))) (reorder o₂ o₁ y)).length = o₁.length := by
    simp [perturb, hl]
  rw [reorder, if_pos hp]
  apply List.ext_getElem
  · simp [perturb, hy]
  · intro n h1 h2
    have hn : n < o₂.length := by simpa using h1
    have hmem : o₂[n] ∈ o₁ := (h.mem _).2 (List.getElem_mem hn)
    have hidx : o₁.idxOf o₂[n] < o₁.length := List.idxOf_lt_length_iff.2 hmem
    have hd := reorder_dict h.symm hy
    rw [List.getElem_map, ptOf, lookup_zip _ _ _ hp]
    have e1 : o₁[o₁.idxOf o₂[n]] = o₂[n] := List.getElem_idxOf hidx
    have e2 : (reorder o₂ o₁ y)[o₁.idxOf o₂[n]]? = y[n]? := by
      have := hd o₂[n]
      rw [lookup_zip _ _ _ hl, lookup_zip _ _ _ hy, h.nodup₂.idxOf_getElem] at this
      exact this
    have e3 : o₂.idxOf (o₁.getD (o₁.idxOf o₂[n]) 0) = n := by
      rw [List.getD_eq_getElem _ _ hidx, e1, h.nodup₂.idxOf_getElem]
    have hy' : n < y.length := by omega
    simp only [perturb, List.getElem?_mapIdx, List.getElem_mapIdx, e2, e3, List.getElem?_eq_getElem hy', Option.map_some,
      Option.getD_some]

/-- Two results: the same exception, or related values. -/
def RelRes {α β : Type} (R : α → β → Prop) (a : Except GErr α) (b : Except GErr β) : Prop :=
  (∃ e, a = .error e ∧ b = .error e) ∨ ∃ x y, a = .ok x ∧ b = .ok y ∧ R x y

theorem toDicts_reorder {o₁ o₂ : List ℕ} (h : SameVars o₁ o₂) : ∀ xs : List (List K),
    RelRes (List.Forall₂ SameDict) (toDicts (some o₁) xs) (toDicts (some o₂) (xs.map (reorder o₁ o₂)))
  | [] => Or.inr ⟨[], [], rfl, rfl, .nil⟩
  | x :: xs => by
    rw [List.map_cons]
    unfold toDicts
    rcases vect2dict_reorder h x with ⟨e, h1, h2⟩ | ⟨d, d', h1, h2, h3⟩
    · exact Or.inl ⟨e, by rw [h1]; rfl, by rw [h2]; rfl⟩
    · rw [h1, h2]
      rcases toDicts_reorder h xs with ⟨e, h4, h5⟩ | ⟨ds, ds', h4, h5, h6⟩
      · exact Or.inl ⟨e, by rw [h4]; rfl, by rw [h5]; rfl⟩
      · exact Or.inr ⟨d :: ds, d' :: ds', by rw [h4]; rfl, by rw [h5]; rfl, .cons h3 h6⟩

theorem filterGoal_same {S : Sage K} (hS : CmpOK S) (main : Atom) {ds ds' : List (Dict K)}
    (h : List.Forall₂ SameDict ds ds') : RelRes (List.Forall₂ SameDict) (filterGoal S main ds) (filterGoal S main ds') := by
  induction h with
  | nil => exact Or.inr ⟨[], [], rfl, rfl, .nil⟩
  | @cons d d' ds ds' h1 _ ih =>
    unfold filterGoal
    rw [h1.evalOnDict hS]
    cases main.evalOnDict S d' with
    | error e => exact Or.inl ⟨e, rfl, rfl⟩
    | ok b =>
      rcases ih with ⟨e, h4, h5⟩ | ⟨r, r', h4, h5, h6⟩
      · exact Or.inl ⟨e, by rw [h4]; rfl, by rw [h5]; rfl⟩
      · refine Or.inr ⟨_, _, by rw [h4]; rfl, by rw [h5]; rfl, ?_⟩
        by_cases hb : b = some true
        · simpa only [hb, if_true] using h6
        · simp only [hb, if_false]
          exact .cons h1 h6

theorem chainStep_reorder {S : Sage K} (hS : CmpOK S) {o₁ o₂ : List ℕ} (h : SameVars o₁ o₂) (O : Search K) (i k : ℕ)
    (hyps : List Atom) (main : Atom) (x : List K) :
    RelRes (fun r s => reorder o₁ o₂ r.1 = s.1 ∧ List.Forall₂ SameDict r.2 s.2)
      (chainStep S (O.rearrange o₁ o₂) i k (some o₁) hyps main x)
      (chainStep S O i k (some o₂) hyps main (reorder o₁ o₂ x)) := by
  unfold chainStep
  rw [chooseAtom_reorder hS h]
  cases chooseAtom S O i k (some o₂) hyps (reorder o₁ o₂ x) with
  | error e => exact Or.inl ⟨e, rfl, rfl⟩
  | ok a =>
    simp only [bind, Except.bind]
    rw [evalPoly_reorder h]
    cases evalPoly (some o₂) a.poly (reorder o₁ o₂ x) with
    | error e => exact Or.inl ⟨e, rfl, rfl⟩
    | ok v =>
      simp only
      have hf : (O.rearrange o₁ o₂).fsolve i k (flipFunc (some o₁) a x.length
          (flipEps (1 / 1000000) ((O.rearrange o₁ o₂).side i k) v)) x =
          (O.fsolve i k (flipFunc (some o₂) a (reorder o₁ o₂ x).length (flipEps (1 / 1000000) (O.side i k) v))
            (reorder o₁ o₂ x)).map (reorder o₂ o₁) := by
        show (O.fsolve i k _ _).map _ = _
        rw [flipFunc_reorder h, reorder_length h]
        rfl
      rw [hf]
      cases O.fsolve i k (flipFunc (some o₂) a (reorder o₁ o₂ x).length (flipEps (1 / 1000000) (O.side i k) v))
        (reorder o₁ o₂ x) with
      | error e => exact Or.inl ⟨e, rfl, rfl⟩
      | ok y =>
        simp only [Except.map]
        have ht : RelRes (List.Forall₂ SameDict)
            (toDicts (some o₁) (reorder o₂ o₁ y :: (List.range 25).map fun n =>
              perturb ((O.rearrange o₁ o₂).noise i k n) (reorder o₂ o₁ y)))
            (toDicts (some o₂) (y :: (List.range 25).map fun n => perturb (O.noise i k n) y)) := by
          by_cases hy : y.length = o₂.length
          · have := toDicts_reorder h (reorder o₂ o₁ y :: (List.range 25).map fun n =>
              perturb ((O.rearrange o₁ o₂).noise i k n) (reorder o₂ o₁ y))
            rw [List.map_cons, reorder_back h.symm, List.map_map] at this
            have he : (reorder o₁ o₂ ∘ fun n => perturb ((O.rearrange o₁ o₂).noise i k n) (reorder o₂ o₁ y)) =
                fun n => perturb (O.noise i k n) y := by
              funext n
              exact perturb_reorder h (O.noise i k n) hy
            rwa [he] at this
          · refine Or.inl ⟨.assertion, ?_, ?_⟩
            · unfold toDicts vect2dict
              simp only [bind, Except.bind]
              rw [if_pos]
              right
              rw [reorder_length h.symm, h.length]
              exact hy
            · unfold toDicts vect2dict
              simp only [bind, Except.bind]
              rw [if_pos (Or.inr hy)]
        rcases ht with ⟨e, h1, h2⟩ | ⟨ds, ds', h1, h2, h3⟩
        · exact Or.inl ⟨e, by rw [h1], by rw [h2]⟩
        · rw [h1, h2]
          simp only
          rcases filterGoal_same hS main h3 with ⟨e, h4, h5⟩ | ⟨r, r', h4, h5, h6⟩
          · exact Or.inl ⟨e, by rw [h4], by rw [h5]⟩
          · exact Or.inr ⟨_, _, by rw [h4], by rw [h5], reorder_back h.symm y, h6⟩

theorem chain_reorder {S : Sage K} (hS : CmpOK S) {o₁ o₂ : List ℕ} (h : SameVars o₁ o₂) (O : Search K) (i : ℕ)
    (hyps : List Atom) (main : Atom) : ∀ (n k : ℕ) (x : List K),
    RelRes (List.Forall₂ SameDict) (chain S (O.rearrange o₁ o₂) i (some o₁) hyps main n k x)
      (chain S O i (some o₂) hyps main n k (reorder o₁ o₂ x))
  | 0, _, _ => Or.inr ⟨[], [], rfl, rfl, .nil⟩
  | n + 1, k, x => by
    unfold chain
    rcases chainStep_reorder hS h O i k hyps main x with ⟨e, h1, h2⟩ | ⟨r, s, h1, h2, h3, h4⟩
    · exact Or.inl ⟨e, by rw [h1]; rfl, by rw [h2]; rfl⟩
    · rw [h1, h2]
      simp only [bind, Except.bind]
      rw [← h3]
      rcases chain_reorder hS h O i hyps main n (k + 1) r.1 with ⟨e, h5, h6⟩ | ⟨l, l', h5, h6, h7⟩
      · exact Or.inl ⟨e, by rw [h5], by rw [h6]⟩
      · exact Or.inr ⟨_, _, by rw [h5], by rw [h6], List.rel_append h4 h7⟩

theorem lookupAll_error (d : Dict K) : ∀ vs : List ℕ, (∃ v ∈ vs, d.lookup v = none) → lookupAll d vs = .error .keyError
  | [], h => by simp at h
  | v :: vs, h => by
    unfold lookupAll
    cases hv : d.lookup v with
    | none => rfl
    | some x =>
      simp only
      rw [lookupAll_error d vs]
      · rfl
      · obtain ⟨w, hw, hn⟩ := h
        rcases List.mem_cons.1 hw with rfl | hw
        · rw [hv] at hn; cases hn
        · exact ⟨w, hw, hn⟩

theorem sameDict_refl (d : Dict K) : SameDict d d := fun _ => rfl

theorem localSearch_reorder {S : Sage K} (hS : CmpOK S) {o₁ o₂ : List ℕ} (h : SameVars o₁ o₂) (ho : o₁ ≠ [])
    (O : Search K) (hyps : List Atom) (main : Atom) (d : Dict K) :
    RelRes (List.Forall₂ SameDict) ((localSearch S (O.rearrange o₁ o₂) (some o₁) hyps main d).map Prod.fst)
      ((localSearch S O (some o₂) hyps main d).map Prod.fst) := by
  have ho₂ : o₂ ≠ [] := fun h0 => ho (by rw [← List.length_eq_zero_iff, h.length, h0]; rfl)
  have hv : ∀ o : List ℕ, o ≠ [] → varOrder (some o) d = o := by
    intro o ho
    obtain ⟨v, vs, rfl⟩ := List.exists_cons_of_ne_nil ho
    rfl
  unfold localSearch dict2vect
  rw [hv o₁ ho, hv o₂ ho₂]
  by_cases hall : ∀ v ∈ o₁, (d.lookup v).isSome
  · rw [lookupAll_ok d o₁ hall, lookupAll_ok d o₂ fun v hv => hall v ((h.mem v).2 hv)]
    simp only [bind, Except.bind]
    have hr : reorder o₁ o₂ (o₁.map (ptOf d)) = o₂.map (ptOf d) := by
      rw [reorder, if_pos (by simp)]
      apply List.map_congr_left
      intro v hv
      have := lookup_zip_map (ptOf d) o₁ v
      rw [if_pos ((h.mem v).2 hv)] at this
      rw [ptOf, this]; rfl
    rcases chain_reorder hS h O 0 hyps main 2 0 (o₁.map (ptOf d)) with ⟨e, h1, h2⟩ | ⟨l, l', h1, h2, h3⟩
    · rw [hr] at h2
      exact Or.inl ⟨e, by rw [h1]; rfl, by rw [h2]; rfl⟩
    · rw [hr] at h2
      rw [h1, h2]
      refine Or.inr ⟨_, _, rfl, rfl, List.rel_append ?_ h3⟩
      show List.Forall₂ SameDict (d :: (List.range 25).map fun n => perturbDict (O.noise₀ n) d)
        (d :: (List.range 25).map fun n => perturbDict (O.noise₀ n) d)
      generalize (d :: (List.range 25).map fun n => perturbDict (O.noise₀ n) d) = l
      induction l with
      | nil => exact .nil
      | cons a l ih => exact .cons (sameDict_refl a) ih
  · push Not at hall
    obtain ⟨v, hv, hn⟩ := hall
    have hn' : d.lookup v = none := by cases hl : d.lookup v with | none => rfl | some y => simp [hl] at hn
    rw [lookupAll_error d o₁ ⟨v, hv, hn'⟩, lookupAll_error d o₂ ⟨v, (h.mem v).1 hv, hn'⟩]
    exact Or.inl ⟨.keyError, rfl, rfl⟩

/-- The random numbers of all calls, rearranged. -/
def Calls.rearrange (o₁ o₂ : List ℕ) (f : Calls K) : Calls K := fun n st d => (f n st d).rearrange o₁ o₂

theorem badSubsets_withSearch (C : Core K) (f : Calls K) (o : List ℕ) (n : ℕ) (st : State) (d : Dict K) :
    badSubsets (C.withSearch f o) n st d = (st.goal.evalOnDict C.toSage d).bind fun g =>
      if g then .ok none
      else if st.hyps = [] then .error .indexError
      else ((localSearch C.toSage (f n st d) (some o) st.hyps st.goal.main d).map Prod.fst).bind fun ds =>
        (badLoop C.toSage st (d :: ds) []).bind fun bads => .ok (some bads) := rfl

theorem round_withSearch (C : Core K) (f : Calls K) (o : List ℕ) (n : ℕ) (st : State) :
    round (C.withSearch f o) n st = (C.samples n st).bind fun ds =>
      (allBads (C.withSearch f o) n st ds).bind fun r => (if r.1 then .ok ([], none)
        else do
          let cand ← goodHyps C st r.2
          match sortCand st cand with
          | [] => .error .indexError
          | i :: _ => do
            let st' ← st.promote C.toSage i
            .ok (r.2, some st')) := rfl

theorem badSubsets_reorder (C : Core K) (hS : CmpOK C.toSage) {o₁ o₂ : List ℕ} (h : SameVars o₁ o₂) (ho : o₁ ≠ [])
    (f : Calls K) (n : ℕ) (st : State) (d : Dict K) :
    badSubsets (C.withSearch (f.rearrange o₁ o₂) o₁) n st d = badSubsets (C.withSearch f o₂) n st d := by
  rw [badSubsets_withSearch, badSubsets_withSearch]
  congr 1
  funext b
  congr 1
  congr 1
  rcases localSearch_reorder hS h ho (f n st d) st.hyps st.goal.main d with ⟨e, h3, h4⟩ | ⟨l, l', h3, h4, h5⟩
  · rw [Calls.rearrange, h3, h4]
  · rw [Calls.rearrange, h3, h4]
    simp only [Except.bind]
    rw [badLoop_same hS st (List.Forall₂.cons (sameDict_refl d) h5) []]

theorem check_reorder (C : Core K) (hS : CmpOK C.toSage) {o₁ o₂ : List ℕ} (h : SameVars o₁ o₂) (ho : o₁ ≠ [])
    (f : Calls K) (fuel : ℕ) : ∀ (n : ℕ) (st : State),
    check (C.withSearch (f.rearrange o₁ o₂) o₁) fuel n st = check (C.withSearch f o₂) fuel n st := by
  induction fuel with
  | zero => intro n st; unfold check; rfl
  | succ fuel ih =>
    intro n st
    have hall : ∀ ds, allBads (C.withSearch (f.rearrange o₁ o₂) o₁) n st ds = allBads (C.withSearch f o₂) n st ds := by
      intro ds
      induction ds with
      | nil => unfold allBads; rfl
      | cons d ds ih =>
        unfold allBads
        rw [badSubsets_reorder C hS h ho, ih]
    have hround : round (C.withSearch (f.rearrange o₁ o₂) o₁) n st = round (C.withSearch f o₂) n st := by
      rw [round_withSearch, round_withSearch]
      congr 1
      funext ds
      rw [hall]
    unfold check
    rw [hround]
    simp only [ih]

end Verif.Grf
