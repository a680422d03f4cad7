import Verif.Grf.PropsCad
import Verif.Grf.PropsAtom

/-!
# C58, C59, C60: lifting
-/

set_option linter.unusedSectionVars false

namespace Verif.Grf

variable {K : Type} [Field K] [LinearOrder K] [IsStrictOrderedRing K]

/-! ### Substitution -/

/-- The values of the assignment, and of the point for the variables without a value. -/
def over (d : List (ℕ × ℚ)) (ρ : ℕ → K) (i : ℕ) : K :=
  match d.lookup i with
  | some x => (x : K)
  | none => ρ i

theorem substFrom_eval (d : List (ℕ × ℚ)) (ρ : ℕ → K) : ∀ (m : Mono) (i : ℕ),
    ((Mono.substFrom d i m).1 : K) * Mono.evalFrom ρ i (Mono.substFrom d i m).2 = Mono.evalFrom (over d ρ) i m
  | [], i => by simp [Mono.substFrom, Mono.evalFrom]
  | e :: m, i => by
    have ih := substFrom_eval d ρ m (i + 1)
    rw [show Mono.evalFrom (over d ρ) i (e :: m) = over d ρ i ^ e * Mono.evalFrom (over d ρ) (i + 1) m from rfl, ← ih]
    cases hd : d.lookup i with
    | some x =>
      have : over d ρ i = (x : K) := by simp [over, hd]
      have hs : Mono.substFrom d i (e :: m) = (x ^ e * (Mono.substFrom d (i + 1) m).1,
          if (Mono.substFrom d (i + 1) m).2 = [] then [] else 0 :: (Mono.substFrom d (i + 1) m).2) := by
        rw [Mono.substFrom, hd]
      rw [this, hs]
      split
      · next h => rw [h]; simp [Mono.evalFrom]
      · simp [Mono.evalFrom]; ring
    | none =>
      have : over d ρ i = ρ i := by simp [over, hd]
      have hs : Mono.substFrom d i (e :: m) = ((Mono.substFrom d (i + 1) m).1,
          if e = 0 ∧ (Mono.substFrom d (i + 1) m).2 = [] then [] else e :: (Mono.substFrom d (i + 1) m).2) := by
        rw [Mono.substFrom, hd]
      rw [this, hs]
      split
      · next h => rw [h.1, h.2]; simp [Mono.evalFrom]
      · simp [Mono.evalFrom]; ring

/-- Substitution is right. -/
theorem eval_subst (d : List (ℕ × ℚ)) (ρ : ℕ → K) (p : MPoly) : (p.subst d).eval ρ = p.eval (over d ρ) := by
  unfold MPoly.subst
  induction p with
  | nil => rfl
  | cons t p ih =>
    rw [List.foldr_cons]
    show MPoly.eval ρ (addTerm _ _ _) = _
    rw [eval_addTerm, ih, MPoly.eval_cons, ← substFrom_eval d ρ t.1 0]
    push_cast
    ring

/-! ### C58 -/

theorem length_projSets (E : CadEnv) (ord : List ℕ) : ∀ (k : ℕ) (ps : List MPoly), (projSets E ord k ps).length = k + 1
  | 0, _ => rfl
  | k + 1, ps => by rw [projSets, List.length_append, length_projSets E ord k]; rfl

theorem stackExt_length {E : CadEnv} {ord : List ℕ} {next : List MPoly} {numSps : ℕ} {ambient : List Atom}
    {c s : List ℚ} (h : s ∈ stackExt E ord next numSps ambient c) : ∃ x, s = c ++ [x] := by
  obtain ⟨x, _, rfl⟩ := List.mem_map.1 h
  exact ⟨x, rfl⟩

theorem stackUnion_mem {S : Sage ℚ} {E : CadEnv} {goal : Option Goal} {ord : List ℕ} {next : List MPoly} {numSps : ℕ}
    {ambient : List Atom} : ∀ {cells out : List (List ℚ)},
    stackUnion S E goal ord next numSps ambient cells = .ok out → ∀ s,
      s ∈ out ↔ ∃ g, goal = some g ∧ ∃ c ∈ cells, g.evalOnDict S (spDict ord c) = .ok false ∧
        s ∈ stackExt E ord next numSps ambient c
  | [], out, h, s => by
    cases h
    simp
  | c :: cells, out, h, s => by
    unfold stackUnion at h
    simp only [bind, Except.bind] at h
    cases h1 : stackOverCell S E goal ord next numSps ambient c with
    | error e => rw [h1] at h; cases h
    | ok a =>
      rw [h1] at h
      simp only at h
      cases h2 : stackUnion S E goal ord next numSps ambient cells with
      | error e => rw [h2] at h; cases h
      | ok r =>
        rw [h2] at h
        cases h
        rw [List.mem_append, stackUnion_mem h2 s]
        unfold stackOverCell at h1
        cases goal with
        | none => cases h1
        | some g =>
          simp only [bind, Except.bind] at h1
          cases hb : g.evalOnDict S (spDict ord c) with
          | error e => rw [hb] at h1; cases h1
          | ok b =>
            rw [hb] at h1
            constructor
            · rintro (hs | ⟨g', hg', c', hc', h3, h4⟩)
              · cases b with
                | true => cases h1; simp at hs
                | false => cases h1; exact ⟨g, rfl, c, by simp, hb, hs⟩
              · exact ⟨g', hg', c', by simp [hc'], h3, h4⟩
            · rintro ⟨g', hg', c', hc', h3, h4⟩
              cases hg'
              rcases List.mem_cons.1 hc' with rfl | hc'
              · left
                rw [hb] at h3
                cases h3
                cases h1
                exact h4
              · exact Or.inr ⟨g, rfl, c', hc', h3, h4⟩

theorem liftLevel_mem {S : Sage ℚ} {E : CadEnv} {goal : Option Goal} {ord : List ℕ} {next : List MPoly} {numSps : ℕ}
    {ambient : List Atom} {cells out : List (List ℚ)}
    (h : liftLevel S E goal ord next numSps ambient cells = .ok out) (s : List ℚ) :
      s ∈ out ↔ ∃ g, goal = some g ∧ ∃ c ∈ cells, g.evalOnDict S (spDict ord c) = .ok false ∧
        s ∈ stackExt E ord next numSps ambient c := by
  unfold liftLevel at h
  simp only [bind, Except.bind] at h
  cases h2 : stackUnion S E goal ord next numSps ambient cells with
  | error e => rw [h2] at h; cases h
  | ok r =>
    rw [h2] at h
    cases h
    rw [List.mem_insertionSort, stackUnion_mem h2 s]

theorem liftAll_length {S : Sage ℚ} {E : CadEnv} {goal : Option Goal} {ord : List ℕ} {numSps : ℕ}
    {ambient : List Atom} : ∀ {sets : List (List MPoly)} {cells out : List (List ℚ)} {m : ℕ},
    liftAll S E goal ord numSps ambient sets cells = .ok out → (∀ c ∈ cells, c.length = m) →
    ∀ s ∈ out, s.length = m + sets.length
  | [], cells, out, m, h, hm, s, hs => by cases h; exact hm s hs
  | next :: sets, cells, out, m, h, hm, s, hs => by
    unfold liftAll at h
    simp only [bind, Except.bind] at h
    cases h1 : liftLevel S E goal ord next numSps ambient cells with
    | error e => rw [h1] at h; cases h
    | ok r =>
      rw [h1] at h
      have := liftAll_length (m := m + 1) h (by
        intro c hc
        obtain ⟨g, _, c', hc', _, h3⟩ := (liftLevel_mem h1 c).1 hc
        obtain ⟨x, rfl⟩ := stackExt_length h3
        rw [List.length_append, hm c' hc']; rfl) s hs
      rw [this, List.length_cons]
      omega

theorem samplePtDicts_ok {S : Sage ℚ} {E : CadEnv} {n : ℕ} {top : List MPoly} {goal : Option Goal} {numSps : ℕ}
    {ambient : List Atom} {ds : List (List (ℕ × ℚ))} (h : samplePtDicts S E n top goal numSps ambient = .ok ds) :
    ∃ v rest base sets cells, projOrd (filterProjSet top) (List.range n) = v :: rest ∧
      projSets E (v :: rest) (n - 1) (filterProjSet top) = base :: sets ∧
      liftAll S E goal (v :: rest) numSps ambient sets
        ((sectorSps E [] (isoRootIntvls E base) 1 ambient v).map fun x => [x]) = .ok cells ∧
      ds = cells.map (spDict (v :: rest)) := by
  unfold samplePtDicts at h
  simp only at h
  split at h
  · next v rest base sets h1 h2 =>
    simp only [bind, Except.bind] at h
    rw [h1] at h h2
    split at h
    · cases h
    · next cells hc =>
      cases h
      exact ⟨v, rest, base, sets, cells, h1, h2, hc, rfl⟩
  · cases h

/-- **C58**: every assignment produced by the sampling core gives a value to each of the `n` variables exactly once:
its variables, in order, are the projection order, a permutation of `x0, ..., x(n-1)`. -/
theorem C58_assignments (S : Sage ℚ) (E : CadEnv) (n : ℕ) (top : List MPoly) (goal : Option Goal) (numSps : ℕ)
    (ambient : List Atom) (ds : List (List (ℕ × ℚ))) (h : samplePtDicts S E n top goal numSps ambient = .ok ds) :
    ∀ d ∈ ds, d.map Prod.fst = projOrd (filterProjSet top) (List.range n) ∧ (d.map Prod.fst).Perm (List.range n) ∧
      ∀ v, (d.lookup v).isSome ↔ v < n := by
  obtain ⟨v, rest, base, sets, cells, h1, h2, h3, rfl⟩ := samplePtDicts_ok h
  intro d hd
  obtain ⟨s, hs, rfl⟩ := List.mem_map.1 hd
  have hperm : (v :: rest).Perm (List.range n) := h1 ▸ (C40_projection_order (filterProjSet top) (List.range n)).1
  have hn : (v :: rest).length = n := by rw [hperm.length_eq, List.length_range]
  have hlen : s.length = n := by
    rw [liftAll_length (m := 1) h3 (by
      intro c hc
      obtain ⟨x, _, rfl⟩ := List.mem_map.1 hc
      rfl) s hs]
    have := length_projSets E (v :: rest) (n - 1) (filterProjSet top)
    rw [h2, List.length_cons] at this
    rw [List.length_cons] at hn
    omega
  have hmap : (spDict (v :: rest) s).map Prod.fst = v :: rest := by
    rw [spDict, List.map_fst_zip]
    omega
  refine ⟨by rw [hmap, h1], by rw [hmap]; exact hperm, fun w => ?_⟩
  have hl : ∀ (d : List (ℕ × ℚ)) (w : ℕ), (d.lookup w).isSome ↔ w ∈ d.map Prod.fst := by
    intro d
    induction d with
    | nil => intro w; simp
    | cons e d ih =>
      intro w
      rw [List.lookup_cons]
      by_cases he : w = e.1
      · subst he; simp
      · have : (w == e.1) = false := by simpa using he
        rw [this, List.map_cons, List.mem_cons]
        simp only [he, false_or]
        exact ih w
  rw [hl, hmap, hperm.mem_iff, List.mem_range]

/-! ### C60 -/

/-- `s` is over `c` in the complete tree of sample points: the stack is built over every cell. -/
inductive FullTree (E : CadEnv) (ord : List ℕ) (numSps : ℕ) (ambient : List Atom) :
    List (List MPoly) → List ℚ → List ℚ → Prop
  | nil (c : List ℚ) : FullTree E ord numSps ambient [] c c
  | cons (next : List MPoly) (sets : List (List MPoly)) (c c' s : List ℚ)
      (h : c' ∈ stackExt E ord next numSps ambient c) (hs : FullTree E ord numSps ambient sets c' s) :
      FullTree E ord numSps ambient (next :: sets) c s

theorem FullTree.prefix {E : CadEnv} {ord : List ℕ} {numSps : ℕ} {ambient : List Atom} {sets : List (List MPoly)}
    {c s : List ℚ} (h : FullTree E ord numSps ambient sets c s) : c <+: s := by
  induction h with
  | nil c => exact List.prefix_rfl
  | cons next sets c c' s h hs ih =>
    obtain ⟨x, rfl⟩ := stackExt_length h
    exact (List.prefix_append _ _).trans ih

theorem lookup_zip_prefix : ∀ (ord : List ℕ) (c s : List ℚ), c <+: s → ∀ i x,
    (spDict ord c).lookup i = some x → (spDict ord s).lookup i = some x
  | [], c, s, _, i, x, h => by simp [spDict] at h
  | v :: ord, [], s, _, i, x, h => by simp [spDict] at h
  | v :: ord, a :: c, s, hcs, i, x, h => by
    obtain ⟨t, rfl⟩ := hcs
    rw [List.cons_append]
    unfold spDict at h ⊢
    rw [List.zip_cons_cons, List.lookup_cons] at h ⊢
    split at h
    · exact h
    · exact lookup_zip_prefix ord c (c ++ t) (List.prefix_append _ _) i x h

theorem atom_mono (S : Sage ℚ) {d d' : Dict ℚ} (hd : ∀ i x, d.lookup i = some x → d'.lookup i = some x) {a : Atom}
    (ha : Fresh a) {b : Bool} (h : a.evalOnDict S d = .ok (some b)) : a.evalOnDict S d' = .ok (some b) := by
  by_cases hv : a.vars.all (inDict d) = true
  · have hv' := all_inDict.1 hv
    have hne : d ≠ [] := by
      rintro rfl
      unfold Atom.evalOnDict at h
      rw [if_pos hv] at h
      cases h
    have hsome : ∀ v, (d.lookup v).isSome → (d'.lookup v).isSome := by
      intro v hv
      obtain ⟨x, hx⟩ := Option.isSome_iff_exists.1 hv
      rw [hd v x hx]; rfl
    have hne' : d' ≠ [] := by
      rintro rfl
      cases d with
      | nil => simp at hne
      | cons e d =>
        have := hsome e.1 (by rw [List.lookup_cons]; simp)
        simp at this
    rw [evalOnDict_covered S ⟨hne, hv', fun v h => hv' v (ha v h)⟩] at h
    cases h
    rw [evalOnDict_covered S ⟨hne', fun v h => hsome v (hv' v h), fun v h => hsome v (hv' v (ha v h))⟩]
    congr 3
    apply MPoly.eval_congr
    intro i hi
    obtain ⟨x, hx⟩ := Option.isSome_iff_exists.1 (hv' i (ha i hi))
    rw [ptOf, ptOf, hx, hd i x hx]
  · unfold Atom.evalOnDict at h
    rw [if_neg hv] at h
    cases h

theorem atom_noerr (S : Sage ℚ) {d : Dict ℚ} (hd : d ≠ []) (a : Atom) : ∃ o, a.evalOnDict S d = .ok o := by
  unfold Atom.evalOnDict
  split
  · cases d with
    | nil => simp at hd
    | cons e d =>
      simp only
      split <;> exact ⟨_, rfl⟩
  · exact ⟨_, rfl⟩

theorem goal_mono (S : Sage ℚ) {d d' : Dict ℚ} (hd : ∀ i x, d.lookup i = some x → d'.lookup i = some x)
    (hd' : d' ≠ []) {g : Goal} (hm : Fresh g.main) (hh : ∀ h ∈ g.hyps, Fresh h) (h : g.evalOnDict S d = .ok true) :
    g.evalOnDict S d' = .ok true := by
  have hyps : ∀ hs : List Atom, (∀ h ∈ hs, Fresh h) → evalHyps S d hs = .ok true → evalHyps S d' hs = .ok true := by
    intro hs
    induction hs with
    | nil => intro _ h; cases h
    | cons a hs ih =>
      intro hf h
      unfold evalHyps at h ⊢
      simp only [bind, Except.bind] at h ⊢
      cases hb : a.evalOnDict S d with
      | error e => rw [hb] at h; cases h
      | ok o =>
        rw [hb] at h
        simp only at h
        by_cases ho : o = some false
        · subst ho
          rw [atom_mono S hd (hf a (by simp)) hb]
          rfl
        · rw [if_neg ho] at h
          obtain ⟨o', ho'⟩ := atom_noerr S hd' a
          rw [ho']
          simp only
          split
          · rfl
          · exact ih (fun x hx => hf x (by simp [hx])) h
  unfold Goal.evalOnDict at h ⊢
  simp only [bind, Except.bind] at h ⊢
  cases hb : g.main.evalOnDict S d with
  | error e => rw [hb] at h; cases h
  | ok o =>
    rw [hb] at h
    simp only at h
    by_cases ho : o = some true
    · subst ho
      rw [atom_mono S hd hm hb]
      rfl
    · rw [if_neg ho] at h
      obtain ⟨o', ho'⟩ := atom_noerr S hd' g.main
      rw [ho']
      simp only
      split
      · rfl
      · exact hyps g.hyps hh h

theorem goal_noerr (S : Sage ℚ) {d : Dict ℚ} (hd : d ≠ []) (g : Goal) : ∃ b, g.evalOnDict S d = .ok b := by
  have hyps : ∀ hs : List Atom, ∃ b, evalHyps S d hs = .ok b := by
    intro hs
    induction hs with
    | nil => exact ⟨false, rfl⟩
    | cons a hs ih =>
      unfold evalHyps
      simp only [bind, Except.bind]
      obtain ⟨o, ho⟩ := atom_noerr S hd a
      rw [ho]
      simp only
      split
      · exact ⟨_, rfl⟩
      · exact ih
  unfold Goal.evalOnDict
  simp only [bind, Except.bind]
  obtain ⟨o, ho⟩ := atom_noerr S hd g.main
  rw [ho]
  simp only
  split
  · exact ⟨_, rfl⟩
  · exact hyps _

theorem liftAll_complete {S : Sage ℚ} {E : CadEnv} {g : Goal} (hm : Fresh g.main) (hh : ∀ h ∈ g.hyps, Fresh h)
    {v : ℕ} {rest : List ℕ} {numSps : ℕ} {ambient : List Atom} : ∀ {sets : List (List MPoly)} {cells out : List (List ℚ)},
    liftAll S E (some g) (v :: rest) numSps ambient sets cells = .ok out → (∀ c ∈ cells, c ≠ []) →
    (∀ c ∈ cells, ∀ s, FullTree E (v :: rest) numSps ambient sets c s →
      g.evalOnDict S (spDict (v :: rest) s) = .ok false → s ∈ out) ∧
    ∀ s ∈ out, ∃ c ∈ cells, FullTree E (v :: rest) numSps ambient sets c s
  | [], cells, out, h, _ => by
    cases h
    refine ⟨fun c hc s hs _ => ?_, fun s hs => ⟨s, hs, .nil s⟩⟩
    cases hs
    exact hc
  | next :: sets, cells, out, h, hne => by
    unfold liftAll at h
    simp only [bind, Except.bind] at h
    cases h1 : liftLevel S E (some g) (v :: rest) next numSps ambient cells with
    | error e => rw [h1] at h; cases h
    | ok r =>
      rw [h1] at h
      obtain ⟨ih1, ih2⟩ := liftAll_complete hm hh h (by
        intro c hc
        obtain ⟨_, _, c', _, _, h3⟩ := (liftLevel_mem h1 c).1 hc
        obtain ⟨x, rfl⟩ := stackExt_length h3
        simp)
      constructor
      · intro c hc s hs hfalse
        have hpre := hs.prefix
        cases hs with
        | cons _ _ _ c' _ h2 h3 =>
          refine ih1 c' ?_ s h3 hfalse
          rw [liftLevel_mem h1]
          refine ⟨g, rfl, c, hc, ?_, h2⟩
          have hcn : spDict (v :: rest) c ≠ [] := by
            have := hne c hc
            cases c with
            | nil => simp at this
            | cons a c => simp [spDict]
          obtain ⟨b, hb⟩ := goal_noerr S hcn g
          cases b with
          | false => exact hb
          | true =>
            exfalso
            have hsn : spDict (v :: rest) s ≠ [] := by
              have h0 := hne c hc
              obtain ⟨t, rfl⟩ := hpre
              cases c with
              | nil => simp at h0
              | cons a c => simp [spDict]
            have := goal_mono S (lookup_zip_prefix (v :: rest) c s hpre) hsn hm hh hb
            rw [hfalse] at this
            cases this
      · intro s hs
        obtain ⟨c', hc', ht⟩ := ih2 s hs
        obtain ⟨_, _, c, hc, _, h3⟩ := (liftLevel_mem h1 c').1 hc'
        exact ⟨c, hc, .cons next sets c c' s h3 ht⟩

/-- What holds instead of **C60** (see C60_violated): not lifting over the cells where the goal is already true loses no counterexample: every point of the
complete tree (over a base sample `x`) where the goal is false is among the produced sample points, and all these
are points of the complete tree. (For goals whose atoms have not been reduced by Gröbner bases, see C51_violated.) -/
theorem C60_partial (S : Sage ℚ) (E : CadEnv) (n : ℕ) (top : List MPoly) (g : Goal) (numSps : ℕ)
    (ambient : List Atom) (ds : List (List (ℕ × ℚ))) (hm : Fresh g.main) (hh : ∀ h ∈ g.hyps, Fresh h)
    (h : samplePtDicts S E n top (some g) numSps ambient = .ok ds) :
    ∃ v rest base sets, projOrd (filterProjSet top) (List.range n) = v :: rest ∧
      projSets E (v :: rest) (n - 1) (filterProjSet top) = base :: sets ∧
      (∀ x ∈ sectorSps E [] (isoRootIntvls E base) 1 ambient v, ∀ s, FullTree E (v :: rest) numSps ambient sets [x] s →
        g.evalOnDict S ((v :: rest).zip s) = .ok false → (v :: rest).zip s ∈ ds) ∧
      ∀ d ∈ ds, ∃ x ∈ sectorSps E [] (isoRootIntvls E base) 1 ambient v, ∃ s,
        FullTree E (v :: rest) numSps ambient sets [x] s ∧ d = (v :: rest).zip s := by
  obtain ⟨v, rest, base, sets, cells, h1, h2, h3, rfl⟩ := samplePtDicts_ok h
  obtain ⟨c1, c2⟩ := liftAll_complete hm hh h3 (by
    intro c hc
    obtain ⟨x, _, rfl⟩ := List.mem_map.1 hc
    simp)
  refine ⟨v, rest, base, sets, h1, h2, ?_, ?_⟩
  · intro x hx s hs hf
    exact List.mem_map.2 ⟨s, c1 [x] (List.mem_map.2 ⟨x, hx, rfl⟩) s hs hf, rfl⟩
  · intro d hd
    obtain ⟨s, hs, rfl⟩ := List.mem_map.1 hd
    obtain ⟨c, hc, ht⟩ := c2 s hs
    obtain ⟨x, hx, rfl⟩ := List.mem_map.1 hc
    exact ⟨x, hx, s, ht, rfl⟩

/-- Functions for the example: no roots are found except those of `x0 - 1` and `x1 - 1`, and the other functions return
constants. -/
def liftEnv : CadEnv where
  roots p := if p = [([1], 1), ([], -1)] ∨ p = [([], -1), ([0, 1], 1)] then [(1, 1)] else []
  rri _ := []
  uniform _ _ _ _ l r := (l + r) / 2
  res _ _ _ := MPoly.const 1
  disc _ _ := MPoly.const 1

/-- The goal `x1 - 1 >= 0` with the polynomials `x0 - 1` and `x1 - 1`: there is no stack over the two base points where
it is true. -/
example : (samplePtDicts testSage liftEnv 2 [[([], -1), ([1], 1)], [([], -1), ([0, 1], 1)]]
    (some ⟨⟨[([], -1), ([0, 1], 1)], .ge, [1]⟩, [], []⟩) 1 []).toOption =
    some [[(1, 0), (0, 0)], [(1, 0), (0, 1)], [(1, 0), (0, 2)]] := by decide +kernel

/-! ### C59 -/

theorem sectorSps_ne (E : CadEnv) (tag : List ℚ) (roots : List ((ℚ × ℚ) × ℕ)) (numSps : ℕ) (ambient : List Atom)
    (v : ℕ) : sectorSps E tag roots numSps ambient v ≠ [] := by
  unfold sectorSps
  split
  · unfold sectorNoRoots
    split
    · simp
    · split
      · simp
      · split <;> simp
  · next h =>
    have hl : ((roots.map Prod.fst).insertionSort fun a b => ivlLe a b = true) ≠ [] := by
      intro h'
      have := congrArg List.length h'
      rw [List.length_insertionSort, List.length_map] at this
      exact h (List.length_eq_zero_iff.1 this)
    generalize ((roots.map Prod.fst).insertionSort fun a b => ivlLe a b = true) = l at hl
    unfold sectorRoots
    cases l with
    | nil => simp at hl
    | cons f l =>
      rw [List.getLast?_eq_some_getLast (l := f :: l) hl]
      intro h'
      have := congrArg List.length h'
      rw [List.length_insertionSort] at this
      simp at this

/-- **C59** is violated: with the default value of the argument `partial` of `check` (no goal is given to the sampling
core) the core raises `AttributeError` for every problem with at least two variables. -/
theorem C59_violated (S : Sage ℚ) (E : CadEnv) (n : ℕ) (hn : 2 ≤ n) (top : List MPoly) (numSps : ℕ)
    (ambient : List Atom) : samplePtDicts S E n top none numSps ambient = .error .attributeError := by
  unfold samplePtDicts
  simp only
  have h1 : (projOrd (filterProjSet top) (List.range n)).length = n := by
    rw [(C40_projection_order (filterProjSet top) (List.range n)).1.length_eq, List.length_range]
  have h2 := length_projSets E (projOrd (filterProjSet top) (List.range n)) (n - 1) (filterProjSet top)
  split
  · next v rest base sets e1 e2 =>
    rw [e2, List.length_cons] at h2
    cases sets with
    | nil => simp at h2; omega
    | cons next sets =>
      have hne := sectorSps_ne E [] (isoRootIntvls E base) 1 ambient v
      simp only [bind, Except.bind]
      cases hs : sectorSps E [] (isoRootIntvls E base) 1 ambient v with
      | nil => exact absurd hs hne
      | cons x xs => rfl
  · next hno =>
    exfalso
    cases e1 : projOrd (filterProjSet top) (List.range n) with
    | nil => rw [e1] at h1; simp at h1; omega
    | cons v rest =>
      cases e2 : projSets E (projOrd (filterProjSet top) (List.range n)) (n - 1) (filterProjSet top) with
      | nil => rw [e2] at h2; simp at h2
      | cons base sets => exact hno v rest base sets e1 e2

/-- What holds instead of **C59**: in one variable the core does not raise, and with a goal it never raises. -/
theorem C59_partial (S : Sage ℚ) (E : CadEnv) (top : List MPoly) (numSps : ℕ) (ambient : List Atom) :
    (∀ goal, ∃ ds, samplePtDicts S E 1 top goal numSps ambient = .ok ds ∧ ds ≠ []) ∧
    ∀ n g, 1 ≤ n → ∃ ds, samplePtDicts S E n top (some g) numSps ambient = .ok ds := by
  constructor
  · intro goal
    refine ⟨((sectorSps E [] (isoRootIntvls E (filterProjSet top)) 1 ambient 0).map fun x => [x]).map (spDict [0]),
      rfl, ?_⟩
    simpa using sectorSps_ne E [] (isoRootIntvls E (filterProjSet top)) 1 ambient 0
  · intro n g hn
    have h1 : (projOrd (filterProjSet top) (List.range n)).length = n := by
      rw [(C40_projection_order (filterProjSet top) (List.range n)).1.length_eq, List.length_range]
    have h2 := length_projSets E (projOrd (filterProjSet top) (List.range n)) (n - 1) (filterProjSet top)
    have hunion : ∀ v rest next (cells : List (List ℚ)), (∀ c ∈ cells, c ≠ []) →
        ∃ out, stackUnion S E (some g) (v :: rest) next numSps ambient cells = .ok out := by
      intro v rest next cells
      induction cells with
      | nil => intro _; exact ⟨[], rfl⟩
      | cons c cells ih =>
        intro hc
        obtain ⟨out, ho⟩ := ih fun x hx => hc x (by simp [hx])
        have hcn : spDict (v :: rest) c ≠ [] := by
          have := hc c (by simp)
          cases c with
          | nil => simp at this
          | cons a c => simp [spDict]
        obtain ⟨b, hb⟩ := goal_noerr S hcn g
        unfold stackUnion stackOverCell
        simp only [bind, Except.bind]
        rw [hb, ho]
        cases b <;> exact ⟨_, rfl⟩
    have hlift : ∀ v rest (sets : List (List MPoly)) (cells : List (List ℚ)), (∀ c ∈ cells, c ≠ []) →
        ∃ out, liftAll S E (some g) (v :: rest) numSps ambient sets cells = .ok out := by
      intro v rest sets
      induction sets with
      | nil => intro cells _; exact ⟨cells, rfl⟩
      | cons next sets ih =>
        intro cells hc
        obtain ⟨out, ho⟩ := hunion v rest next cells hc
        have hl : liftLevel S E (some g) (v :: rest) next numSps ambient cells =
            .ok (out.insertionSort fun a b => ptLe a b = true) := by
          unfold liftLevel
          rw [ho]; rfl
        unfold liftAll
        simp only [bind, Except.bind]
        rw [hl]
        apply ih
        intro c hc'
        obtain ⟨_, _, c', _, _, h3⟩ := (liftLevel_mem hl c).1 hc'
        obtain ⟨x, rfl⟩ := stackExt_length h3
        simp
    unfold samplePtDicts
    simp only
    split
    · next v rest base sets e1 e2 =>
      rw [e1]
      obtain ⟨out, ho⟩ := hlift v rest sets
        ((sectorSps E [] (isoRootIntvls E base) 1 ambient v).map fun x => [x]) (by
          intro c hc
          obtain ⟨x, _, rfl⟩ := List.mem_map.1 hc
          simp)
      simp only [bind, Except.bind]
      rw [ho]
      exact ⟨_, rfl⟩
    · next hno =>
      exfalso
      cases e1 : projOrd (filterProjSet top) (List.range n) with
      | nil => rw [e1] at h1; simp at h1; omega
      | cons v rest =>
        cases e2 : projSets E (projOrd (filterProjSet top) (List.range n)) (n - 1) (filterProjSet top) with
        | nil => rw [e2] at h2; simp at h2
        | cons base sets => exact hno v rest base sets e1 e2

/-! ### C39 in stacks -/

/-- **C39** for stacks, in the same part as `C39_partial`: over a cell above which the polynomials of the next level
have no roots, a stack that is built consists of a single point, and it makes the first hypothesis of the form
`x op 0` in the variable of the next level true unless `op` is `!=`. -/
theorem C39_stack_partial (S : Sage ℚ) (E : CadEnv) (g : Goal) (ord : List ℕ) (next : List MPoly) (numSps : ℕ)
    (ambient : List Atom) (cell : List ℚ) (stack : List (List ℚ))
    (hs : stackOverCell S E (some g) ord next numSps ambient cell = .ok stack) (hne : stack ≠ [])
    (hroots : isoRootIntvls E (filterProjSet (next.map (MPoly.subst (spDict ord cell)))) = [])
    (v : ℕ) (hv : ord[cell.length]? = some v) (h : Atom) (rest : List Atom)
    (hf : ambient.filter (fun h => decide (h.poly = MPoly.var v)) = h :: rest) (hop : h.op ≠ .ne) :
    ∃ y, stack = [cell ++ [y]] ∧ (v, y) ∈ spDict ord (cell ++ [y]) ∧
      ∀ ρ : ℕ → ℚ, (∀ e ∈ spDict ord (cell ++ [y]), ρ e.1 = e.2) → h.holds ρ := by
  obtain ⟨y, hy, hh⟩ := C39_partial ambient v h rest hf hop
  have hst : stack = stackExt E ord next numSps ambient cell := by
    unfold stackOverCell at hs
    simp only [bind, Except.bind] at hs
    split at hs
    · cases hs
    · next b hb =>
      cases b with
      | true => simp only [if_true] at hs; cases hs; exact absurd rfl hne
      | false => simp only [Bool.false_eq_true, if_false] at hs; cases hs; rfl
  have hgd : ord.getD cell.length 0 = v := by rw [List.getD_eq_getElem?_getD, hv]; rfl
  have hmem : (v, y) ∈ spDict ord (cell ++ [y]) := by
    obtain ⟨hlt, hv'⟩ := List.getElem?_eq_some_iff.1 hv
    refine List.mem_iff_getElem.2 ⟨cell.length, by simp [spDict]; omega, ?_⟩
    simp [spDict, hv']
  refine ⟨y, ?_, hmem, fun ρ hρ => hh ρ (hρ _ hmem)⟩
  rw [hst]
  unfold stackExt sectorSps
  rw [if_pos hroots, hgd, hy]
  rfl

/-- The hypotheses hold for the cell `x1 = 3` in the order `x1, x0` with the ambient hypotheses `x1 > 0`, `x0 < 0` and
the goal `x0 > 0`: the stack is `x0 = -1`. -/
example : (stackOverCell testSage ⟨fun _ => [], fun _ => [], fun _ _ _ _ l _ => l, fun _ _ _ => [], fun _ _ => []⟩ (some ⟨⟨MPoly.var 0, .gt, [0]⟩, [], []⟩) [1, 0] [] 1
      [⟨MPoly.var 1, .gt, [1]⟩, ⟨MPoly.var 0, .lt, [0]⟩] [3]).toOption = some [[3, -1]] ∧
    isoRootIntvls ⟨fun _ => [], fun _ => [], fun _ _ _ _ l _ => l, fun _ _ _ => [], fun _ _ => []⟩
      (filterProjSet (([] : List MPoly).map (MPoly.subst (spDict [1, 0] [3])))) = [] ∧
    ([1, 0] : List ℕ)[([3] : List ℚ).length]? = some 0 := by
  refine ⟨by decide +kernel, by decide +kernel, rfl⟩

end Verif.Grf
