import Verif.Grf.PropsSelect

/-!
# C36: exactly when a round promotes a hypothesis, ends the loop, or raises
-/

set_option linter.unusedSectionVars false

namespace Verif.Grf

variable {K : Type} [Field K] [LinearOrder K] [IsStrictOrderedRing K]

theorem addBad_nil {bads : List (List ℕ)} {bad : List ℕ} : addBad bads bad = [] ↔ bads = [] ∧ bad = [] := by
  constructor
  · intro h
    by_contra hc
    apply addBad_ne (bads := bads) (bad := bad) _ h
    by_cases hb : bads = []
    · right; intro h'; exact hc ⟨hb, h'⟩
    · left; exact hb
  · rintro ⟨rfl, rfl⟩
    unfold addBad
    simp

theorem trueHyps_nil {S : Sage K} {d : Dict K} {f : Atom → Option Bool} {hs : List Atom} {l : List ℕ}
    (h : trueHyps S d 0 hs = .ok l) (hf : ∀ a ∈ hs, a.evalOnDict S d = .ok (f a)) :
    l = [] ↔ ∀ a ∈ hs, f a ≠ some true := by
  constructor
  · rintro rfl a ha hfa
    obtain ⟨m, hm⟩ := List.getElem?_of_mem ha
    have := (trueHyps_spec S d hs 0 [] h m).2 ⟨m, a, by simp, hm, by rw [hf a ha, hfa]⟩
    simp at this
  · intro hall
    apply List.eq_nil_iff_forall_not_mem.2
    intro i hi
    obtain ⟨m, a, _, hm, ha⟩ := (trueHyps_spec S d hs 0 l h i).1 hi
    have hmem := List.mem_of_getElem? hm
    rw [hf a hmem] at ha
    exact hall a hmem (by simpa using ha)

/-- an increasing list of fewer than all the indices misses one -/
theorem misses_one {b : List ℕ} {n : ℕ} (hb : ∀ i ∈ b, i < n) (hp : b.Pairwise (· < ·)) (hlen : b.length ≠ n) :
    ∃ i < n, i ∉ b := by
  by_contra hcon
  push Not at hcon
  apply hlen
  apply le_antisymm
  · have h1 : b.Subperm (List.range n) :=
      List.subperm_of_subset (hp.imp fun h => h.ne) fun i hi => List.mem_range.2 (hb i hi)
    simpa using h1.length_le
  · have h1 : (List.range n).Subperm b :=
      List.subperm_of_subset List.nodup_range fun i hi => hcon i (List.mem_range.1 hi)
    simpa using h1.length_le

theorem badLoop_exact (S : Sage K) (st : State) (g : Dict K → Bool) (f : Dict K → Atom → Option Bool) :
    ∀ (es : List (Dict K)) (acc : List (List ℕ)),
    (∀ e ∈ es, st.goal.evalOnDict S e = .ok (g e)) → (∀ e ∈ es, ∀ a ∈ st.hyps, a.evalOnDict S e = .ok (f e a)) →
    (∀ b ∈ acc, ∃ i < st.hyps.length, i ∉ b) →
    ((∃ e ∈ es, g e = false ∧ ∀ a ∈ st.hyps, f e a = some true) → badLoop S st es acc = .error .counterexample) ∧
    ((∀ e ∈ es, g e = true ∨ ∃ a ∈ st.hyps, f e a ≠ some true) →
      ∃ out, badLoop S st es acc = .ok out ∧ (∀ b ∈ out, ∃ i < st.hyps.length, i ∉ b) ∧
        (out = [] ↔ acc = [] ∧ ∀ e ∈ es, g e = true ∨ ∀ a ∈ st.hyps, f e a ≠ some true))
  | [], acc, _, _, hacc => ⟨by simp, fun _ => ⟨acc, rfl, hacc, by simp⟩⟩
  | e :: es, acc, hg, hf, hacc => by
    have hg' : ∀ x ∈ es, st.goal.evalOnDict S x = .ok (g x) := fun x hx => hg x (by simp [hx])
    have hf' : ∀ x ∈ es, ∀ a ∈ st.hyps, a.evalOnDict S x = .ok (f x a) := fun x hx => hf x (by simp [hx])
    unfold badLoop
    simp only [bind, Except.bind]
    rw [hg e (by simp)]
    simp only
    cases hge : g e with
    | true =>
      obtain ⟨h1, h2⟩ := badLoop_exact S st g f es acc hg' hf' hacc
      simp only [if_true]
      constructor
      · rintro ⟨x, hx, hgx, hax⟩
        rcases List.mem_cons.1 hx with rfl | hx
        · rw [hge] at hgx; cases hgx
        · exact h1 ⟨x, hx, hgx, hax⟩
      · intro hno
        obtain ⟨out, o1, o2, o3⟩ := h2 fun x hx => hno x (by simp [hx])
        refine ⟨out, o1, o2, o3.trans ?_⟩
        simp [hge]
    | false =>
      simp only [Bool.false_eq_true, if_false]
      obtain ⟨b, hb1, hb2, hb3, hb4, hb5⟩ := trueHyps_ok S e (f e) st.hyps 0 (hf e (by simp))
      rw [hb1]
      simp only
      by_cases hlen : b.length = st.hyps.length
      · rw [if_pos hlen]
        refine ⟨fun _ => rfl, fun hno => ?_⟩
        rcases hno e (by simp) with h | ⟨a, ha, h⟩
        · rw [hge] at h; cases h
        · exact absurd (hb2.1 hlen a ha) h
      · rw [if_neg hlen]
        have hbset := misses_one (fun i hi => by have := hb4 i hi; omega) hb5 hlen
        obtain ⟨h1, h2⟩ := badLoop_exact S st g f es (addBad acc b) hg' hf' (by
          intro s hs
          unfold addBad at hs
          split at hs
          · rcases List.mem_append.1 hs with hs | hs
            · exact hacc s (List.mem_dedup.1 (List.mem_filter.1 hs).1)
            · rw [List.mem_singleton] at hs; subst hs; exact hbset
          · exact hacc s hs)
        constructor
        · rintro ⟨x, hx, hgx, hax⟩
          rcases List.mem_cons.1 hx with rfl | hx
          · exact absurd (hb2.2 hax) hlen
          · exact h1 ⟨x, hx, hgx, hax⟩
        · intro hno
          obtain ⟨out, o1, o2, o3⟩ := h2 fun x hx => hno x (by simp [hx])
          refine ⟨out, o1, o2, o3.trans ?_⟩
          rw [addBad_nil, trueHyps_nil hb1 (hf e (by simp))]
          simp [hge, and_assoc]

theorem allBads_exact (C : Core K) (n : ℕ) (st : State) (hhyps : st.hyps ≠ [])
    (near : Dict K → List (Dict K)) (g : Dict K → Bool) (f : Dict K → Atom → Option Bool) :
    ∀ es : List (Dict K), (∀ d ∈ es, C.more n st d = .ok (near d)) →
    (∀ d₀ ∈ es, ∀ d ∈ d₀ :: near d₀, st.goal.evalOnDict C.toSage d = .ok (g d)) →
    (∀ d₀ ∈ es, ∀ d ∈ d₀ :: near d₀, ∀ a ∈ st.hyps, a.evalOnDict C.toSage d = .ok (f d a)) →
    ((∃ d₀ ∈ es, g d₀ = false ∧ ∃ e ∈ d₀ :: near d₀, g e = false ∧ ∀ a ∈ st.hyps, f e a = some true) →
      allBads C n st es = .error .counterexample) ∧
    ((∀ d₀ ∈ es, g d₀ = true ∨ ∀ e ∈ d₀ :: near d₀, g e = true ∨ ∃ a ∈ st.hyps, f e a ≠ some true) →
      ∃ tr bads, allBads C n st es = .ok (tr, bads) ∧ (∀ b ∈ bads, ∃ i < st.hyps.length, i ∉ b) ∧
        (tr = true ↔ ∀ d₀ ∈ es, g d₀ = true) ∧
        (bads = [] ↔ ∀ d₀ ∈ es, g d₀ = true ∨ ∀ e ∈ d₀ :: near d₀, g e = true ∨ ∀ a ∈ st.hyps, f e a ≠ some true))
  | [], _, _, _ => ⟨by simp, fun _ => ⟨true, [], rfl, by simp, by simp, by simp⟩⟩
  | e :: es, hnear, hg, hf => by
    obtain ⟨i1, i2⟩ := allBads_exact C n st hhyps near g f es (fun x hx => hnear x (by simp [hx]))
      (fun x hx => hg x (by simp [hx])) (fun x hx => hf x (by simp [hx]))
    obtain ⟨l1, l2⟩ := badLoop_exact C.toSage st g f (e :: near e) [] (hg e (by simp)) (hf e (by simp)) (by simp)
    have hbs : badSubsets C n st e = if g e then .ok none else
        (badLoop C.toSage st (e :: near e) []).map some := by
      unfold badSubsets
      simp only [bind, Except.bind]
      rw [hg e (by simp) e (by simp)]
      simp only
      rw [if_neg hhyps, hnear e (by simp)]
      cases g e
      · simp only [Bool.false_eq_true, if_false]
        cases badLoop C.toSage st (e :: near e) [] <;> rfl
      · rfl
    unfold allBads
    simp only [bind, Except.bind]
    rw [hbs]
    cases hge : g e with
    | true =>
      simp only [if_true]
      constructor
      · rintro ⟨x, hx, hgx, hax⟩
        rcases List.mem_cons.1 hx with rfl | hx
        · rw [hge] at hgx; cases hgx
        · rw [i1 ⟨x, hx, hgx, hax⟩]
      · intro hno
        obtain ⟨tr, bads, h1, h2, h3, h4⟩ := i2 fun x hx => hno x (by simp [hx])
        rw [h1]
        exact ⟨tr, bads, rfl, h2, h3.trans (by simp [hge]), h4.trans (by simp [hge])⟩
    | false =>
      simp only [Bool.false_eq_true, if_false]
      by_cases hce : ∃ x ∈ e :: near e, g x = false ∧ ∀ a ∈ st.hyps, f x a = some true
      · rw [l1 hce]
        refine ⟨fun _ => rfl, fun hno => ?_⟩
        obtain ⟨x, hx, hgx, hax⟩ := hce
        rcases hno e (by simp) with h | h
        · rw [hge] at h; cases h
        · rcases h x hx with h | ⟨a, ha, h⟩
          · rw [hgx] at h; cases h
          · exact absurd (hax a ha) h
      · obtain ⟨out, o1, o2, o3⟩ := l2 (by
          intro x hx
          by_contra hcon
          push Not at hcon
          exact hce ⟨x, hx, by simpa using hcon.1, hcon.2⟩)
        rw [o1]
        simp only [Except.map]
        constructor
        · rintro ⟨x, hx, hgx, hax⟩
          rcases List.mem_cons.1 hx with rfl | hx
          · exact absurd hax hce
          · rw [i1 ⟨x, hx, hgx, hax⟩]
        · intro hno
          obtain ⟨tr, bads, h1, h2, h3, h4⟩ := i2 fun x hx => hno x (by simp [hx])
          rw [h1]
          refine ⟨false, out ++ bads, rfl, ?_, by simp [hge], ?_⟩
          · intro b hb
            rcases List.mem_append.1 hb with hb | hb
            · exact o2 b hb
            · exact h2 b hb
          · rw [List.append_eq_nil_iff, o3, h4]
            simp only [true_and, List.forall_mem_cons (a := e) (l := es), hge, Bool.false_eq_true, false_or]

/-- **C36**, exactly. Suppose that there are hypotheses and no evaluation raises. The *visited* points are the sample points
at which the goal is false, and the points which local search finds from those. Then the round ends the loop if the goal is
true at all sample points; it reports a counterexample if at some visited point the goal is false and all hypotheses are
true; otherwise it promotes a hypothesis if at some visited point the goal is false and some hypothesis is true, and raises
`IndexError` if there is no such point. -/
theorem C36_exact (C : Core K) (hS : SageOK C.toSage) (hC : SolverOpt C) (hC' : SolverComplete C) (n : ℕ) (st : State)
    (hhyps : st.hyps ≠ []) (ds : List (Dict K)) (hds : C.samples n st = .ok ds)
    (near : Dict K → List (Dict K)) (hnear : ∀ d ∈ ds, C.more n st d = .ok (near d))
    (g : Dict K → Bool) (f : Dict K → Atom → Option Bool)
    (hg : ∀ d₀ ∈ ds, ∀ d ∈ d₀ :: near d₀, st.goal.evalOnDict C.toSage d = .ok (g d))
    (hf : ∀ d₀ ∈ ds, ∀ d ∈ d₀ :: near d₀, ∀ a ∈ st.hyps, a.evalOnDict C.toSage d = .ok (f d a))
    (visited : Dict K → Prop) (hv : ∀ e, visited e ↔ ∃ d₀ ∈ ds, g d₀ = false ∧ e ∈ d₀ :: near d₀) :
    ((∀ d ∈ ds, g d = true) → round C n st = .ok ([], none)) ∧
    ((∃ e, visited e ∧ g e = false ∧ ∀ a ∈ st.hyps, f e a = some true) → round C n st = .error .counterexample) ∧
    ((∀ e, visited e → g e = true ∨ ∃ a ∈ st.hyps, f e a ≠ some true) →
      ((∃ e, visited e ∧ g e = false ∧ ∃ a ∈ st.hyps, f e a = some true) →
        ∃ bads st', round C n st = .ok (bads, some st') ∧ st'.hyps.length + 1 = st.hyps.length) ∧
      ((∃ d ∈ ds, g d = false) → (∀ e, visited e → g e = true ∨ ∀ a ∈ st.hyps, f e a ≠ some true) →
        round C n st = .error .indexError)) := by
  obtain ⟨a1, a2⟩ := allBads_exact C n st hhyps near g f ds hnear hg hf
  have hround : ∀ r, allBads C n st ds = r → round C n st = (match r with
      | .error e => .error e
      | .ok r => if r.1 then .ok ([], none) else
        match goodHyps C st r.2 with
        | .error e => .error e
        | .ok cand =>
          match sortCand st cand with
          | [] => .error .indexError
          | i :: _ =>
            match st.promote C.toSage i with
            | .error e => .error e
            | .ok st' => .ok (r.2, some st')) := by
    intro r hr
    unfold round
    simp only [bind, Except.bind]
    rw [hds]
    simp only
    rw [hr]
    cases r with
    | error e => rfl
    | ok r =>
      simp only
      split
      · rfl
      · cases goodHyps C st r.2 with
        | error e => rfl
        | ok cand =>
          simp only
          cases sortCand st cand with
          | nil => rfl
          | cons i l =>
            simp only
            cases st.promote C.toSage i <;> rfl
  refine ⟨fun hall => ?_, ?_, fun hno => ⟨?_, ?_⟩⟩
  · obtain ⟨tr, bads, h1, _, h3, _⟩ := a2 fun d hd => Or.inl (hall d hd)
    rw [hround _ h1]
    simp only [h3.2 hall, if_true]
  · rintro ⟨e, he, hge, hall⟩
    obtain ⟨d₀, hd₀, hgd, he⟩ := (hv e).1 he
    rw [hround _ (a1 ⟨d₀, hd₀, hgd, e, he, hge, hall⟩)]
  · rintro ⟨e, he, hge, a, ha, hfa⟩
    obtain ⟨tr, bads, h1, h2, h3, h4⟩ := a2 fun d hd => by
      cases hgd : g d with
      | true => exact Or.inl rfl
      | false => exact Or.inr fun x hx => hno x ((hv x).2 ⟨d, hd, hgd, hx⟩)
    obtain ⟨d₀, hd₀, hgd, he⟩ := (hv e).1 he
    have htr : tr = false := by
      cases tr with
      | false => rfl
      | true => have := h3.1 rfl d₀ hd₀; rw [hgd] at this; cases this
    have hb : bads ≠ [] := by
      intro hb
      rcases h4.1 hb d₀ hd₀ with h | h
      · rw [hgd] at h; cases h
      · rcases h e he with h | h
        · rw [hge] at h; cases h
        · exact h a ha hfa
    obtain ⟨s, hs⟩ := hC' st.hyps.length bads (weightHyps st) h2
    obtain ⟨_, hlt, hhit, _⟩ := hC _ _ _ _ hs
    have hsne : s ≠ [] := by
      obtain ⟨b, hb⟩ := List.exists_mem_of_ne_nil _ hb
      obtain ⟨i, hi, _⟩ := hhit b hb
      exact List.ne_nil_of_mem hi
    have hgood : goodHyps C st bads = .ok s := by unfold goodHyps; rw [hs]
    obtain ⟨i, rest, hsort⟩ : ∃ i rest, sortCand st s = i :: rest := by
      cases hso : sortCand st s with
      | nil =>
        exfalso
        have := congrArg List.length hso
        rw [sortCand, List.length_mergeSort] at this
        exact hsne (List.length_eq_zero_iff.1 this)
      | cons i rest => exact ⟨i, rest, rfl⟩
    have his : i ∈ s := by
      have : i ∈ sortCand st s := by rw [hsort]; simp
      exact List.mem_mergeSort.1 this
    obtain ⟨st', hst', hlen⟩ : ∃ st', st.promote C.toSage i = .ok st' ∧ st'.hyps.length + 1 = st.hyps.length := by
      unfold State.promote
      rw [List.getElem?_eq_getElem (hlt i his)]
      simp only [bind, Except.bind]
      rw [addHyp_ok hS]
      refine ⟨_, rfl, ?_⟩
      have := hlt i his
      simp only [List.length_append, List.length_take, List.length_drop]
      omega
    refine ⟨bads, st', ?_, hlen⟩
    rw [hround _ h1]
    subst htr
    simp only [Bool.false_eq_true, if_false, hgood, hsort, hst']
  · rintro ⟨d₀, hd₀, hgd⟩ hnone
    obtain ⟨tr, bads, h1, h2, h3, h4⟩ := a2 fun d hd => by
      cases hgd : g d with
      | true => exact Or.inl rfl
      | false => exact Or.inr fun x hx => hno x ((hv x).2 ⟨d, hd, hgd, hx⟩)
    have htr : tr = false := by
      cases tr with
      | false => rfl
      | true => have := h3.1 rfl d₀ hd₀; rw [hgd] at this; cases this
    have hb : bads = [] := h4.2 fun d hd => by
      cases hgd : g d with
      | true => exact Or.inl rfl
      | false => exact Or.inr fun x hx => hnone x ((hv x).2 ⟨d, hd, hgd, hx⟩)
    subst hb htr
    obtain ⟨s, hs⟩ := hC' st.hyps.length [] (weightHyps st) (by simp)
    obtain ⟨_, hlt, _, hmin⟩ := hC _ _ _ _ hs
    have hs0 : s = [] := by
      have h0 := hmin [] List.nodup_nil (by simp) (by simp)
      cases s with
      | nil => rfl
      | cons i s =>
        exfalso
        have hi := hlt i (by simp)
        have hw : 0 < (weightHyps st).getD i 0 := by
          rw [weight_getD st hi]; exact hypWeight_pos _ _
        simp only [List.map_cons, List.sum_cons, List.map_nil, List.sum_nil] at h0
        omega
    subst hs0
    have hgood : goodHyps C st [] = .ok [] := by unfold goodHyps; rw [hs]
    have hsort : sortCand st [] = [] := by simp [sortCand]
    rw [hround _ h1]
    simp only [Bool.false_eq_true, if_false, hgood, hsort]

/-- Without hypotheses the round ends the loop if the goal is true at all sample points, and raises `IndexError` otherwise. -/
theorem C36_none (C : Core K) (n : ℕ) (st : State) (hhyps : st.hyps = []) (ds : List (Dict K))
    (hds : C.samples n st = .ok ds) (g : Dict K → Bool) (hg : ∀ d ∈ ds, st.goal.evalOnDict C.toSage d = .ok (g d)) :
    ((∀ d ∈ ds, g d = true) → round C n st = .ok ([], none)) ∧
    ((∃ d ∈ ds, g d = false) → round C n st = .error .indexError) := by
  have key : ∀ es : List (Dict K), (∀ d ∈ es, st.goal.evalOnDict C.toSage d = .ok (g d)) →
      ((∀ d ∈ es, g d = true) → allBads C n st es = .ok (true, [])) ∧
      ((∃ d ∈ es, g d = false) → allBads C n st es = .error .indexError) := by
    intro es
    induction es with
    | nil => intro _; exact ⟨fun _ => rfl, by simp⟩
    | cons e es ih =>
      intro hg
      obtain ⟨i1, i2⟩ := ih fun x hx => hg x (by simp [hx])
      have hb : badSubsets C n st e = if g e then .ok none else .error .indexError := by
        unfold badSubsets
        simp only [bind, Except.bind]
        rw [hg e (by simp)]
        simp only
        rw [if_pos hhyps]
      unfold allBads
      simp only [bind, Except.bind]
      rw [hb]
      cases hge : g e with
      | true =>
        simp only [if_true]
        refine ⟨fun h => ?_, ?_⟩
        · rw [i1 fun x hx => h x (by simp [hx])]
        · rintro ⟨x, hx, hgx⟩
          rcases List.mem_cons.1 hx with rfl | hx
          · rw [hge] at hgx; cases hgx
          · rw [i2 ⟨x, hx, hgx⟩]
      | false =>
        refine ⟨fun h => ?_, fun _ => rfl⟩
        have := h e (by simp)
        rw [hge] at this; cases this
  obtain ⟨k1, k2⟩ := key ds hg
  constructor
  · intro h
    unfold round
    simp only [bind, Except.bind]
    rw [hds]
    simp only
    rw [k1 h]
    rfl
  · intro h
    unfold round
    simp only [bind, Except.bind]
    rw [hds]
    simp only
    rw [k2 h]

/-! ### A concrete case -/

/-- what a round does, in one letter -/
def roundKind : Except GErr (List (List ℕ) × Option State) → Char
  | .ok (_, none) => 'e'
  | .ok (_, some _) => 'p'
  | .error .counterexample => 'c'
  | .error .indexError => 'i'
  | .error _ => '?'

/-- All the assumptions of `C36_exact` are met by the problem `x1 > 0, x0 > 0 ⊢ x0 + 1 > 0`, and all four outcomes occur for
suitable sample points: the loop ends for `(1, 1)`, promotes for `(-2, 1)`, and raises `IndexError` for `(-2, -1)`; for
`x0 > 0 ⊢ x0 - 1 > 0` the point `1` is a counterexample. If local search finds the point `(-2, 1)` from `(-2, -1)`, a
hypothesis is promoted. -/
example :
    SageOK (testCore [[(0, -2), (1, -1)]] [[(0, -2), (1, 1)]]).toSage ∧
    SolverOpt (testCore [[(0, -2), (1, -1)]] [[(0, -2), (1, 1)]]) ∧
    SolverComplete (testCore [[(0, -2), (1, -1)]] [[(0, -2), (1, 1)]]) ∧
    (∀ d ∈ [[(0, -2), (1, -1)], [(0, -2), (1, 1)]],
      (testState₂.goal.evalOnDict testSage d).toOption = some (decide ((-1 : ℚ) < (d.getD 0 (0, 0)).2)) ∧
      ∀ a ∈ testState₂.hyps, (a.evalOnDict testSage d).toOption =
        some (some (decide (0 < (d.getD (a.vars.getD 0 0) (0, 0)).2)))) ∧
    roundKind (round (testCore [[(0, -2), (1, -1)]] [[(0, -2), (1, 1)]]) 0 testState₂) = 'p' ∧
    roundKind (round (testCore [[(0, 1), (1, 1)]] []) 0 testState₂) = 'e' ∧
    roundKind (round (testCore [[(0, -2), (1, 1)]] []) 0 testState₂) = 'p' ∧
    roundKind (round (testCore [[(0, -2), (1, -1)]] []) 0 testState₂) = 'i' ∧
    roundKind (round (testCore [[(0, 1)]] []) 0
      ⟨[⟨MPoly.var 0, .gt, [0]⟩], ⟨⟨(MPoly.var 0).add (MPoly.const (-1)), .gt, [0]⟩, [], []⟩, [0]⟩) = 'c' :=
  ⟨testSage_ok, fun _ _ _ _ h => bruteSolve_opt h, (bruteSolve_ok _ _).2, by decide +kernel, by decide +kernel,
    by decide +kernel, by decide +kernel, by decide +kernel, by decide +kernel⟩

end Verif.Grf
