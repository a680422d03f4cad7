import Verif.Grf.Heap
import Verif.Grf.PropsSmt2
import Verif.Grf.PropsInteractive
import Verif.Grf.PropsSelect

/-!
# C102: what happens to the formulas of the caller
-/

set_option linter.unusedSectionVars false

namespace Verif.Grf

variable {K : Type} [Field K] [LinearOrder K] [IsStrictOrderedRing K]

/-- The hypotheses, the main goal and the hypotheses of the goal are pairwise different objects. -/
def Apart (st : HState) : Prop :=
  (st.main :: (st.hyps ++ st.ghyps)).Nodup ∧ ∀ i ∈ st.main :: (st.hyps ++ st.ghyps), i < st.heap.length

theorem getObj_set (heap : List Atom) (i j : ℕ) (a : Atom) (hi : i < heap.length) :
    getObj (heap.set i a) j = if j = i then a else getObj heap j := by
  unfold getObj
  rw [List.getD_eq_getElem?_getD, List.getD_eq_getElem?_getD, List.getElem?_set]
  split
  · next h => subst h; simp
  · next h => rw [if_neg (fun h' => h h'.symm)]

theorem hInject_err {S : Sage K} {B : List MPoly} {heap : List Atom} {i : ℕ} {e : GErr}
    (h : (getObj heap i).inject S B = .error e) : hInject S B heap i = .error e := by
  unfold hInject; rw [h]; rfl

theorem hInject_ok {S : Sage K} {B : List MPoly} {heap : List Atom} {i : ℕ} {a : Atom}
    (h : (getObj heap i).inject S B = .ok a) : hInject S B heap i = .ok (heap.set i a) := by
  unfold hInject; rw [h]; rfl

/-- Injection in place, object by object, is injection of the values when the objects are different. -/
theorem hInjectAll_sim (S : Sage K) (B : List MPoly) : ∀ (is : List ℕ) (heap : List Atom), is.Nodup →
    (∀ i ∈ is, i < heap.length) →
    (∀ e, (is.map (getObj heap)).mapM (Atom.inject S B) = .error e → hInjectAll S B is heap = .error e) ∧
    ∀ as, (is.map (getObj heap)).mapM (Atom.inject S B) = .ok as → ∃ heap', hInjectAll S B is heap = .ok heap' ∧
      heap'.length = heap.length ∧ is.map (getObj heap') = as ∧ ∀ j, j ∉ is → getObj heap' j = getObj heap j
  | [], heap, _, _ => ⟨fun e h => (by cases h), fun as h => by cases h; exact ⟨heap, rfl, rfl, rfl, fun _ _ => rfl⟩⟩
  | i :: is, heap, hn, hl => by
    obtain ⟨hi, hn'⟩ := List.nodup_cons.1 hn
    have hil := hl i (by simp)
    rw [List.map_cons, List.mapM_cons]
    cases ha : (getObj heap i).inject S B with
    | error e =>
      constructor
      · intro e' h; cases h
        unfold hInjectAll
        rw [hInject_err ha]; rfl
      · intro as h; cases h
    | ok a =>
      have hmap : is.map (getObj (heap.set i a)) = is.map (getObj heap) := by
        apply List.map_congr_left
        intro j hj
        rw [getObj_set _ _ _ _ hil, if_neg (by rintro rfl; exact hi hj)]
      obtain ⟨ih1, ih2⟩ := hInjectAll_sim S B is (heap.set i a) hn'
        (fun j hj => by rw [List.length_set]; exact hl j (by simp [hj]))
      rw [hmap] at ih1 ih2
      constructor
      · intro e h
        simp only [bind, Except.bind] at h
        cases hm : (is.map (getObj heap)).mapM (Atom.inject S B) with
        | error e' =>
          rw [hm] at h; cases h
          unfold hInjectAll
          rw [hInject_ok ha]
          exact ih1 _ hm
        | ok as => rw [hm] at h; cases h
      · intro as h
        simp only [bind, Except.bind] at h
        cases hm : (is.map (getObj heap)).mapM (Atom.inject S B) with
        | error e' => rw [hm] at h; cases h
        | ok as' =>
          rw [hm] at h; cases h
          obtain ⟨heap', h1, h2, h3, h4⟩ := ih2 _ hm
          refine ⟨heap', ?_, ?_, ?_, ?_⟩
          · unfold hInjectAll
            rw [hInject_ok ha]
            exact h1
          · rw [h2, List.length_set]
          · rw [List.map_cons, h3, h4 i hi, getObj_set _ _ _ _ hil, if_pos rfl]
          · intro j hj
            rw [List.mem_cons, not_or] at hj
            rw [h4 j hj.2, getObj_set _ _ _ _ hil, if_neg hj.1]

/-- The promotion of objects does to the values what the promotion of values does, and changes no other object. -/
theorem hPromote_sim (S : Sage K) (st : HState) (i : ℕ) (hst : Apart st) :
    (∀ e, st.vals.promote S i = .error e → hPromote S st i = .error e) ∧
    ∀ v, st.vals.promote S i = .ok v → ∃ st' h, hPromote S st i = .ok st' ∧ st'.vals = v ∧ Apart st' ∧
      st'.heap.length = st.heap.length ∧ st'.main = st.main ∧ st.hyps[i]? = some h ∧
      st'.hyps = st.hyps.take i ++ st.hyps.drop (i + 1) ∧ st'.ghyps = st.ghyps ++ [h] ∧
      ∀ j, j ∉ st'.ghyps → getObj st'.heap j = getObj st.heap j := by
  obtain ⟨hn, hl⟩ := hst
  have hvh : st.vals.hyps[i]? = (st.hyps[i]?).map (getObj st.heap) := by
    show (st.hyps.map (getObj st.heap))[i]? = _
    rw [List.getElem?_map]
  cases hh : st.hyps[i]? with
  | none =>
    rw [hh] at hvh
    have h1 : st.vals.promote S i = .error .indexError := by unfold State.promote; rw [hvh]; rfl
    have h2 : hPromote S st i = .error .indexError := by unfold hPromote; rw [hh]
    rw [h1, h2]
    exact ⟨fun e h => (by cases h; rfl), fun v h => by cases h⟩
  | some h =>
    rw [hh] at hvh
    have hperm : (st.main :: ((st.hyps.take i ++ st.hyps.drop (i + 1)) ++ (st.ghyps ++ [h]))).Perm
        (st.main :: (st.hyps ++ st.ghyps)) := by
      refine List.Perm.cons _ ?_
      rw [← List.append_assoc]
      refine (List.perm_append_singleton h _).trans ?_
      rw [← List.cons_append]
      exact List.Perm.append_right _ (take_drop_perm hh)
    have hn' := (hperm.nodup_iff).2 hn
    have hl' : ∀ j ∈ st.main :: ((st.hyps.take i ++ st.hyps.drop (i + 1)) ++ (st.ghyps ++ [h])),
        j < st.heap.length := fun j hj => hl j (hperm.mem_iff.1 hj)
    set rest := st.hyps.take i ++ st.hyps.drop (i + 1) with hrest
    have hhl : h < st.heap.length := hl' h (by simp)
    have hmain : st.main ∉ rest ++ (st.ghyps ++ [h]) := (List.nodup_cons.1 hn').1
    have hn2 := (List.nodup_cons.1 hn').2
    have hdis : ∀ j ∈ rest, j ∉ st.ghyps ++ [h] := fun j hj hj' => (List.disjoint_of_nodup_append hn2) hj hj'
    have hgn : (st.ghyps ++ [h]).Nodup := (List.nodup_append.1 hn2).2.1
    have hhg : h ∉ st.ghyps := fun hm => (List.disjoint_of_nodup_append hgn) hm (by simp)
    have hgn' : st.ghyps.Nodup := (List.nodup_append.1 hgn).1
    have hvg : st.vals.goal.hyps = st.ghyps.map (getObj st.heap) := rfl
    have hvb : st.vals.goal.gb = st.gb := rfl
    obtain ⟨j1, j2⟩ := hInjectAll_sim S (S.gbasis [(getObj st.heap h).poly]) st.ghyps st.heap hgn'
      (fun j hj => hl' j (by simp [hj]))
    -- the simplification of the present hypotheses
    have hsimp : (∀ e, st.vals.goal.simplify S (getObj st.heap h) = .error e →
          hSimplify S { st with hyps := rest } h = .error e) ∧
        ∀ r, st.vals.goal.simplify S (getObj st.heap h) = .ok r → ∃ heap', 
          hSimplify S { st with hyps := rest } h = .ok (heap', r.2) ∧ heap'.length = st.heap.length ∧
          st.ghyps.map (getObj heap') = r.1 ∧ ∀ j, j ∉ st.ghyps → getObj heap' j = getObj st.heap j := by
      unfold Goal.simplify hSimplify
      simp only [hvg, hvb]
      by_cases hop : (getObj st.heap h).op = .eq
      · simp only [if_pos hop, bind, Except.bind]
        cases hm : (st.ghyps.map (getObj st.heap)).mapM (Atom.inject S (S.gbasis [(getObj st.heap h).poly])) with
        | error e =>
          constructor
          · intro e' h'; cases h'
            rw [j1 _ hm]
          · intro r h'
            cases h'
        | ok as =>
          obtain ⟨heap', k1, k2, k3, k4⟩ := j2 _ hm
          constructor
          · intro e' h'; cases h'
          · intro r h'
            cases h'
            refine ⟨heap', ?_, k2, k3, k4⟩
            rw [k1]
            show Except.ok (heap', S.gbasis (st.gb ++ [(getObj heap' h).poly])) = _
            rw [k4 h hhg]
      · simp only [if_neg hop]
        exact ⟨fun e h' => (by cases h'), fun r h' => by cases h'; exact ⟨st.heap, rfl, rfl, rfl, fun _ _ => rfl⟩⟩
    obtain ⟨s1, s2⟩ := hsimp
    have hP : hPromote S st i = hAddHyp S { st with hyps := rest } h := by unfold hPromote; rw [hh]
    have hV : st.vals.promote S i = (do
        let g ← st.vals.goal.addHyp S (getObj st.heap h)
        .ok ⟨st.vals.hyps.take i ++ st.vals.hyps.drop (i + 1), g, rest⟩) := by
      unfold State.promote; rw [hvh]; rfl
    have hVh : st.vals.hyps.take i ++ st.vals.hyps.drop (i + 1) = rest.map (getObj st.heap) := by
      show (st.hyps.map _).take i ++ (st.hyps.map _).drop (i + 1) = _
      rw [hrest, List.map_append, List.map_take, List.map_drop]
    rw [hP, hV, hVh]
    unfold hAddHyp Goal.addHyp
    simp only [bind, Except.bind]
    cases hs : st.vals.goal.simplify S (getObj st.heap h) with
    | error e =>
      rw [s1 _ hs]
      exact ⟨fun e h => (by cases h; rfl), fun v h => by cases h⟩
    | ok r =>
      obtain ⟨heap', k1, k2, k3, k4⟩ := s2 _ hs
      rw [k1]
      unfold Goal.simplifyNew
      simp only [hvb]
      have hfin : ∀ (heap'' : List Atom) (a : Atom), heap''.length = st.heap.length → getObj heap'' h = a →
          (∀ j, j ≠ h → getObj heap'' j = getObj heap' j) →
          ∃ st' h', (Except.ok ({ st with hyps := rest, heap := heap'', ghyps := st.ghyps ++ [h], gb := r.2 } : HState) :
              Except GErr HState) = .ok st' ∧
            st'.vals = ⟨rest.map (getObj st.heap), ⟨getObj st.heap st.main, r.1 ++ [a], r.2⟩, rest⟩ ∧ Apart st' ∧
            st'.heap.length = st.heap.length ∧ st'.main = st.main ∧ some h = some h' ∧
            st'.hyps = rest ∧ st'.ghyps = st.ghyps ++ [h'] ∧
            ∀ j, j ∉ st'.ghyps → getObj st'.heap j = getObj st.heap j := by
        intro heap'' a hlen hha hoth
        have hun : ∀ j, j ∉ st.ghyps ++ [h] → getObj heap'' j = getObj st.heap j := by
          intro j hj
          rw [List.mem_append, not_or, List.mem_singleton] at hj
          rw [hoth j hj.2, k4 j hj.1]
        refine ⟨_, h, rfl, ?_, ⟨hn', fun j hj => ?_⟩, hlen, rfl, rfl, rfl, rfl, hun⟩
        · show State.mk (rest.map (getObj heap'')) ⟨getObj heap'' st.main, (st.ghyps ++ [h]).map (getObj heap''), r.2⟩ rest = _
          have e1 : rest.map (getObj heap'') = rest.map (getObj st.heap) :=
            List.map_congr_left fun j hj => hun j (hdis j hj)
          have e2 : getObj heap'' st.main = getObj st.heap st.main :=
            hun _ fun hm => hmain (List.mem_append_right _ hm)
          have e3 : st.ghyps.map (getObj heap'') = r.1 := by
            rw [← k3]
            exact List.map_congr_left fun j hj => hoth j fun h' => hhg (h' ▸ hj)
          rw [e1, e2, List.map_append (l₁ := st.ghyps), e3, List.map_singleton, hha]
        · show j < heap''.length
          rw [hlen]; exact hl' j hj
      by_cases hgb : st.gb ≠ []
      · simp only [if_pos hgb]
        cases ha : (getObj st.heap h).inject S st.gb with
        | error e =>
          have ha' : (getObj heap' h).inject S st.gb = .error e := by rw [k4 h hhg, ha]
          rw [hInject_err ha']
          exact ⟨fun e h => (by cases h; rfl), fun v h => by cases h⟩
        | ok a =>
          have ha' : (getObj heap' h).inject S st.gb = .ok a := by rw [k4 h hhg, ha]
          rw [hInject_ok ha']
          refine ⟨fun e h => (by cases h), fun v hv => ?_⟩
          cases hv
          refine hfin (heap'.set h a) a (by rw [List.length_set, k2]) ?_ ?_
          · rw [getObj_set _ _ _ _ (by omega), if_pos rfl]
          · intro j hj
            rw [getObj_set _ _ _ _ (by omega), if_neg hj]
      · simp only [if_neg hgb]
        refine ⟨fun e h => (by cases h), fun v hv => ?_⟩
        cases hv
        exact hfin heap' _ k2 (k4 h hhg) fun _ _ => rfl

theorem hRound_sim (C : Core K) (n : ℕ) (st : HState) (hst : Apart st) :
    (∀ e, round C n st.vals = .error e → hRound C n st = .error e) ∧
    (∀ b, round C n st.vals = .ok (b, none) → hRound C n st = .ok (b, none)) ∧
    ∀ b v, round C n st.vals = .ok (b, some v) → ∃ st' i, hRound C n st = .ok (b, some st') ∧ st'.vals = v ∧
      hPromote C.toSage st i = .ok st' := by
  unfold round hRound
  simp only [bind, Except.bind]
  cases hs : C.samples n st.vals with
  | error e => exact ⟨fun e h => (by cases h; rfl), fun b h => (by cases h), fun b v h => (by cases h)⟩
  | ok ds =>
    simp only
    cases ha : allBads C n st.vals ds with
    | error e => exact ⟨fun e h => (by cases h; rfl), fun b h => (by cases h), fun b v h => (by cases h)⟩
    | ok r =>
      simp only
      split
      · exact ⟨fun e h => (by cases h), fun b h => (by cases h; rfl), fun b v h => (by cases h)⟩
      · cases hg : goodHyps C st.vals r.2 with
        | error e => exact ⟨fun e h => (by cases h; rfl), fun b h => (by cases h), fun b v h => (by cases h)⟩
        | ok cand =>
          simp only
          cases hc : sortCand st.vals cand with
          | nil => exact ⟨fun e h => (by cases h; rfl), fun b h => (by cases h), fun b v h => (by cases h)⟩
          | cons i is =>
            simp only
            obtain ⟨p1, p2⟩ := hPromote_sim C.toSage st i hst
            cases hp : st.vals.promote C.toSage i with
            | error e =>
              rw [p1 _ hp]
              exact ⟨fun e h => (by cases h; rfl), fun b h => (by cases h), fun b v h => (by cases h)⟩
            | ok v =>
              obtain ⟨st', h, q1, q2, q3⟩ := p2 _ hp
              rw [q1]
              refine ⟨fun e h => (by cases h), fun b h => (by cases h), fun b v' h => ?_⟩
              cases h
              exact ⟨st', i, rfl, q2, q1⟩

/-- What a promotion does to objects: nothing to those that are not hypotheses of the goal afterwards, and the relation
and the recorded variables stay the same everywhere. -/
def Keeps (st st' : HState) : Prop :=
  st'.heap.length = st.heap.length ∧ st'.main = st.main ∧ st'.hyps.Sublist st.hyps ∧
  (st'.hyps ++ st'.ghyps).Perm (st.hyps ++ st.ghyps) ∧ (∃ ps, st'.ghyps = st.ghyps ++ ps) ∧
  (∀ j, j ∉ st'.ghyps → getObj st'.heap j = getObj st.heap j) ∧
  ∀ j, (getObj st'.heap j).op = (getObj st.heap j).op ∧ (getObj st'.heap j).vars = (getObj st.heap j).vars

theorem hPromote_keeps {S : Sage K} {st st' : HState} {i : ℕ} (hst : Apart st) (hp : hPromote S st i = .ok st') :
    st.vals.promote S i = .ok st'.vals ∧ Apart st' ∧ Keeps st st' := by
  obtain ⟨p1, p2⟩ := hPromote_sim S st i hst
  cases hv : st.vals.promote S i with
  | error e => rw [p1 _ hv] at hp; cases hp
  | ok v =>
    obtain ⟨st₁, h, q1, q2, q3, q4, q5, q6, q7, q8, q9⟩ := p2 _ hv
    rw [hp] at q1
    cases q1
    refine ⟨by rw [q2], q3, q4, q5, ?_, ?_, ⟨[h], q8⟩, q9, ?_⟩
    · rw [q7, ← List.eraseIdx_eq_take_drop_succ]
      exact List.eraseIdx_sublist ..
    · rw [q7, q8, ← List.append_assoc]
      refine (List.perm_append_singleton h _).trans ?_
      rw [← List.cons_append]
      exact List.Perm.append_right _ (take_drop_perm q6)
    · obtain ⟨a, g, ha, hg, hv'⟩ := promote_ok hv
      obtain ⟨-, hshape⟩ := addHyp_shape hg
      have ha' : a = getObj st.heap h := by
        change (st.hyps.map (getObj st.heap))[i]? = some a at ha
        rw [List.getElem?_map, q6] at ha
        cases ha; rfl
      have hgh : g.hyps = st'.ghyps.map (getObj st'.heap) := by
        have : st'.vals.goal = g := by rw [q2, hv']
        rw [← this]; rfl
      rw [hgh, ha'] at hshape
      change _ = ((st.ghyps.map (getObj st.heap)).map fun a => (a.op, a.vars)) ++ [_] at hshape
      have hshape' : (st'.ghyps.map fun j => ((getObj st'.heap j).op, (getObj st'.heap j).vars)) =
          st'.ghyps.map fun j => ((getObj st.heap j).op, (getObj st.heap j).vars) := by
        rw [List.map_map] at hshape
        refine hshape.trans ?_
        rw [q8, List.map_map, List.map_append]
        rfl
      intro j
      by_cases hj : j ∈ st'.ghyps
      · have := List.map_inj_left.1 hshape' j hj
        exact ⟨congrArg Prod.fst this, congrArg Prod.snd this⟩
      · rw [q9 j hj]; exact ⟨rfl, rfl⟩

theorem Keeps.trans {st st₁ st' : HState} (h : Keeps st st₁) (h' : Keeps st₁ st') : Keeps st st' := by
  obtain ⟨a1, a2, a3, a4, ⟨ps, a5⟩, a6, a7⟩ := h
  obtain ⟨b1, b2, b3, b4, ⟨qs, b5⟩, b6, b7⟩ := h'
  refine ⟨b1.trans a1, b2.trans a2, b3.trans a3, b4.trans a4, ⟨ps ++ qs, by rw [b5, a5, List.append_assoc]⟩, ?_, ?_⟩
  · intro j hj
    rw [b6 j hj, a6 j fun hm => hj (by rw [b5]; exact List.mem_append_left _ hm)]
  · intro j
    exact ⟨(b7 j).1.trans (a7 j).1, (b7 j).2.trans (a7 j).2⟩

/-- The loop with objects does to the values what the loop of `Verif/Grf/Model.lean` does. -/
theorem hCheck_sim (C : Core K) : ∀ (fuel n : ℕ) (st : HState), Apart st →
    (∀ e, check C fuel n st.vals = .error e → hCheck C fuel n st = .error e) ∧
    ∀ ret v, check C fuel n st.vals = .ok (ret, v) → ∃ st', hCheck C fuel n st = .ok (ret, st') ∧ st'.vals = v ∧
      Apart st' ∧ Keeps st st'
  | 0, n, st, _ => ⟨fun e h => (by cases h; rfl), fun ret v h => by cases h⟩
  | fuel + 1, n, st, hst => by
    obtain ⟨r1, r2, r3⟩ := hRound_sim C n st hst
    unfold check hCheck
    simp only [bind, Except.bind]
    cases hr : round C n st.vals with
    | error e =>
      rw [r1 _ hr]
      exact ⟨fun e h => (by cases h; rfl), fun ret v h => by cases h⟩
    | ok r =>
      obtain ⟨b, o⟩ := r
      cases o with
      | none =>
        rw [r2 _ hr]
        refine ⟨fun e h => (by cases h), fun ret v h => ?_⟩
        cases h
        exact ⟨st, rfl, rfl, hst, rfl, rfl, List.Sublist.refl _, List.Perm.refl _, ⟨[], by simp⟩, fun _ _ => rfl,
          fun _ => ⟨rfl, rfl⟩⟩
      | some v =>
        obtain ⟨st₁, i, e1, e2, e3⟩ := r3 _ _ hr
        obtain ⟨-, k1, k2⟩ := hPromote_keeps hst e3
        obtain ⟨c1, c2⟩ := hCheck_sim C fuel (n + 1) st₁ k1
        rw [e1]
        simp only
        rw [e2] at c1 c2
        cases hc : check C fuel (n + 1) v with
        | error e =>
          rw [c1 _ hc]
          exact ⟨fun e h => (by cases h; rfl), fun ret v h => by cases h⟩
        | ok out =>
          obtain ⟨st', d1, d2, d3, d4⟩ := c2 out.1 out.2 hc
          rw [d1]
          refine ⟨fun e h => (by cases h), fun ret v' h => ?_⟩
          cases h
          exact ⟨st', rfl, d2, d3, k2.trans d4⟩

/-- Without equations nothing is changed by a promotion. -/
theorem hPromote_noeq {S : Sage K} {st st' : HState} {i : ℕ} (hg : st.gb = [])
    (hne : ∀ j ∈ st.hyps, (getObj st.heap j).op ≠ .eq) (hp : hPromote S st i = .ok st') :
    st'.heap = st.heap ∧ st'.gb = [] ∧ ∀ j ∈ st'.hyps, j ∈ st.hyps := by
  unfold hPromote at hp
  split at hp
  · cases hp
  · next h hh =>
    have hop := hne h (List.mem_of_getElem? hh)
    unfold hAddHyp hSimplify at hp
    simp only [hg, if_neg hop, bind, Except.bind, ne_eq, not_true_eq_false, if_false] at hp
    cases hp
    refine ⟨rfl, rfl, fun j hj => ?_⟩
    rcases List.mem_append.1 hj with hj | hj
    · exact List.mem_of_mem_take hj
    · exact List.mem_of_mem_drop hj

theorem hCheck_noeq (C : Core K) : ∀ (fuel n : ℕ) (st st' : HState) (ret : List (List ℕ)), Apart st → st.gb = [] →
    (∀ j ∈ st.hyps, (getObj st.heap j).op ≠ .eq) → hCheck C fuel n st = .ok (ret, st') → st'.heap = st.heap
  | 0, n, st, st', ret, _, _, _, h => by cases h
  | fuel + 1, n, st, st', ret, hst, hg, hne, h => by
    obtain ⟨r1, r2, r3⟩ := hRound_sim C n st hst
    unfold hCheck at h
    simp only [bind, Except.bind] at h
    cases hr : round C n st.vals with
    | error e => rw [r1 _ hr] at h; cases h
    | ok r =>
      obtain ⟨b, o⟩ := r
      cases o with
      | none => rw [r2 _ hr] at h; cases h; rfl
      | some v =>
        obtain ⟨st₁, i, e1, e2, e3⟩ := r3 _ _ hr
        rw [e1] at h
        simp only at h
        obtain ⟨-, k1, -⟩ := hPromote_keeps hst e3
        obtain ⟨m1, m2, m3⟩ := hPromote_noeq hg hne e3
        cases hc : hCheck C fuel (n + 1) st₁ with
        | error e => rw [hc] at h; cases h
        | ok out =>
          rw [hc] at h
          cases h
          rw [hCheck_noeq C fuel (n + 1) st₁ out.2 out.1 k1 m2 (fun j hj => by rw [m1]; exact hne j (m3 j hj)) hc, m1]

/-- What holds instead of **C102** when the decision loop is run on objects that are pairwise different: the answer
depends only on what the formulas say (it is that of the program that works with values); the main goal, the hypotheses
that are not promoted, and all objects that are not hypotheses are not changed; the relation symbols and the recorded
variables of all formulas stay; where the promoted formulas held as they were given, they hold as they are left; and if
no hypothesis is an equation then nothing is changed. -/
theorem C102_partial (C : Core K) (hS : SageOK C.toSage) (fuel : ℕ) (heap : List Atom) (hyps : List ℕ) (main : ℕ)
    (hn : (main :: hyps).Nodup) (hl : ∀ i ∈ main :: hyps, i < heap.length) :
    (∀ e, hCheck C fuel 0 ⟨heap, hyps, main, [], []⟩ = .error e ↔
      check C fuel 0 ⟨hyps.map (getObj heap), ⟨getObj heap main, [], []⟩, hyps⟩ = .error e) ∧
    ∀ ret st', hCheck C fuel 0 ⟨heap, hyps, main, [], []⟩ = .ok (ret, st') →
      check C fuel 0 ⟨hyps.map (getObj heap), ⟨getObj heap main, [], []⟩, hyps⟩ = .ok (ret, st'.vals) ∧
      (st'.hyps ++ st'.ghyps).Perm hyps ∧ st'.heap.length = heap.length ∧
      (∀ j, j ∉ st'.ghyps → getObj st'.heap j = getObj heap j) ∧ main ∉ st'.ghyps ∧
      (∀ j ∈ st'.hyps, j ∉ st'.ghyps) ∧
      (∀ j, (getObj st'.heap j).op = (getObj heap j).op ∧ (getObj st'.heap j).vars = (getObj heap j).vars) ∧
      (∀ ρ : ℕ → K, (∀ j ∈ st'.ghyps, (getObj heap j).holds ρ) → ∀ j ∈ st'.ghyps, (getObj st'.heap j).holds ρ) ∧
      ((∀ j ∈ hyps, (getObj heap j).op ≠ .eq) → st'.heap = heap) := by
  have hst : Apart ⟨heap, hyps, main, [], []⟩ := by
    refine ⟨?_, ?_⟩
    · show (main :: (hyps ++ [])).Nodup
      rwa [List.append_nil]
    · show ∀ i ∈ main :: (hyps ++ []), i < heap.length
      rwa [List.append_nil]
  obtain ⟨s1, s2⟩ := hCheck_sim C fuel 0 _ hst
  change (∀ e, check C fuel 0 ⟨hyps.map (getObj heap), ⟨getObj heap main, [], []⟩, hyps⟩ = .error e → _) at s1
  change (∀ ret v, check C fuel 0 ⟨hyps.map (getObj heap), ⟨getObj heap main, [], []⟩, hyps⟩ = .ok (ret, v) → _) at s2
  cases hc : check C fuel 0 ⟨hyps.map (getObj heap), ⟨getObj heap main, [], []⟩, hyps⟩ with
  | error e =>
    rw [s1 _ hc]
    exact ⟨fun e' => ⟨fun h => (by cases h; rfl), fun h => (by cases h; rfl)⟩, fun ret st' h => by cases h⟩
  | ok out =>
    obtain ⟨st', t1, t2, t3, t4⟩ := s2 out.1 out.2 hc
    have hkeep := t4
    obtain ⟨u1, u2, u3, u4, ⟨ps, u5⟩, u6, u7⟩ := t4
    rw [t1]
    refine ⟨fun e' => ⟨fun h => (by cases h), fun h => (by cases h)⟩, fun ret st'' h => ?_⟩
    cases h
    obtain ⟨v1, v2⟩ := t3
    have hnd := List.nodup_cons.1 v1
    refine ⟨by rw [t2], by simpa using u4, u1, u6, ?_, ?_, u7, ?_, ?_⟩
    · intro hm
      apply hnd.1
      rw [u2]
      exact List.mem_append_right _ hm
    · exact fun j hj hj' => (List.disjoint_of_nodup_append hnd.2) hj hj'
    · obtain ⟨k, ret', hr, -⟩ := check_rounds C fuel 0 _ _ _ hc
      obtain ⟨is, his⟩ := Promotes.of_rounds hr
      obtain ⟨qs, q1, q2, q3, q4⟩ := his.inv hS
      intro ρ hh j hj
      have hgh : ∀ a ∈ qs, a.holds ρ := by
        -- the promoted values are those of the promoted objects
        have e1 : (qs ++ st'.hyps.map (getObj heap)).Perm (hyps.map (getObj heap)) := by
          have : out.2.hyps = st'.hyps.map (getObj heap) := by
            rw [← t2]
            show st'.hyps.map (getObj st'.heap) = _
            exact List.map_congr_left fun j hj =>
              u6 j fun hm => (List.disjoint_of_nodup_append hnd.2) hj hm
          rw [← this]; exact q2
        have e2 : ((st'.ghyps.map (getObj heap)) ++ st'.hyps.map (getObj heap)).Perm (hyps.map (getObj heap)) := by
          rw [← List.map_append]
          refine List.Perm.map _ ?_
          refine List.perm_append_comm.trans ?_
          simpa using u4
        have e3 := (List.perm_append_right_iff _).1 (e1.trans e2.symm)
        intro a ha
        obtain ⟨j, hj, rfl⟩ := List.mem_map.1 (e3.mem_iff.1 ha)
        exact hh j hj
      refine q4 ρ (by simp) (by simp) hgh _ ?_
      rw [← t2]
      exact List.mem_map_of_mem hj
    · intro hne
      exact hCheck_noeq C fuel 0 _ st' out.1 hst rfl hne t1

theorem heap_ok_of {ε α : Type} {r : Except ε α} {a : α} (h : r.toOption = some a) : r = .ok a := by
  cases r with
  | error e => cases h
  | ok b => cases h; rfl

/-! ### `perform_grf` -/

theorem hNegateAll_spec : ∀ (is : List ℕ) (heap : List Atom), is.Nodup → (∀ i ∈ is, i < heap.length) →
    (hNegateAll is heap).length = heap.length ∧
    ∀ j, getObj (hNegateAll is heap) j = if j ∈ is then (getObj heap j).negate else getObj heap j
  | [], heap, _, _ => ⟨rfl, fun j => by simp [hNegateAll]⟩
  | i :: is, heap, hn, hl => by
    obtain ⟨hi, hn'⟩ := List.nodup_cons.1 hn
    have hil := hl i (by simp)
    obtain ⟨h1, h2⟩ := hNegateAll_spec is (heap.set i (getObj heap i).negate) hn'
      (fun j hj => by rw [List.length_set]; exact hl j (by simp [hj]))
    refine ⟨by show (hNegateAll is _).length = _; rw [h1, List.length_set], fun j => ?_⟩
    show getObj (hNegateAll is _) j = _
    rw [h2 j, getObj_set _ _ _ _ hil]
    by_cases hj : j = i
    · subst hj
      simp [hi]
    · simp [hj]

theorem getObj_map_range' (heap pre l post : List Atom) (h : heap = pre ++ l ++ post) :
    ((List.range l.length).map fun i => getObj heap (pre.length + i)) = l := by
  apply List.ext_getElem
  · simp
  · intro i h1 h2
    rw [List.getElem_map, List.getElem_range]
    unfold getObj
    rw [h, List.getD_eq_getElem?_getD, List.append_assoc, List.getElem?_append_right (by omega),
      List.getElem?_append_left (by simpa using h2)]
    simp [h2]

/-- **C102**, `perform_grf`: with the formulas of a sequent as different objects (in the order: antecedent, succedent from
the last but one to the first, last formula of the succedent), the reported numbers are those of the program that works
with values; the last formula of the succedent and the hidden formulas of the antecedent are left as they were, those of the
antecedent keep their relation symbols, and all formulas of the succedent but the last one are left with the
opposite relation symbol. -/
theorem C102_sequent (C : Core K) (ante rest : List Atom) (g : Atom) :
    (∀ e, hPerformGrf C (ante ++ rest ++ [g]) (List.range ante.length)
        (((List.range rest.length).map fun i => ante.length + i).reverse ++ [ante.length + rest.length]) = .error e ↔
      performGrf C ante (rest.reverse ++ [g]) = .error e) ∧
    ∀ r heap', hPerformGrf C (ante ++ rest ++ [g]) (List.range ante.length)
        (((List.range rest.length).map fun i => ante.length + i).reverse ++ [ante.length + rest.length]) = .ok (r, heap') →
      performGrf C ante (rest.reverse ++ [g]) = .ok r ∧ heap'.length = (ante ++ rest ++ [g]).length ∧
      getObj heap' (ante.length + rest.length) = g ∧
      (∀ i ∈ r.1, i < ante.length → getObj heap' i = getObj (ante ++ rest ++ [g]) i) ∧
      (∀ i < ante.length, (getObj heap' i).op = (getObj (ante ++ rest ++ [g]) i).op) ∧
      ∀ i < rest.length, (getObj heap' (ante.length + i)).op = (getObj (ante ++ rest ++ [g]) (ante.length + i)).op.negate := by
  set heap := ante ++ rest ++ [g] with hheap
  set rr := (List.range rest.length).map fun i => ante.length + i with hrr
  have hlen : heap.length = ante.length + rest.length + 1 := by rw [hheap]; simp; omega
  have hrev : (rr.reverse ++ [ante.length + rest.length]).reverse = (ante.length + rest.length) :: rr := by simp
  have hrn : rr.Nodup := List.Nodup.map (fun a b h => by simpa using h) List.nodup_range
  have hmemr : ∀ j, j ∈ rr ↔ ante.length ≤ j ∧ j < ante.length + rest.length := by
    intro j
    rw [hrr, List.mem_map]
    constructor
    · rintro ⟨i, hi, rfl⟩
      have := List.mem_range.1 hi
      omega
    · rintro ⟨h1, h2⟩
      exact ⟨j - ante.length, List.mem_range.2 (by omega), by omega⟩
  obtain ⟨hnl, hng⟩ := hNegateAll_spec rr heap hrn (fun j hj => by have := (hmemr j).1 hj; omega)
  have hall : List.range ante.length ++ rr = List.range (ante.length + rest.length) := by
    rw [List.range_add]
  have hgetg : getObj heap (ante.length + rest.length) = g := by
    unfold getObj
    rw [hheap, List.getD_eq_getElem?_getD, List.getElem?_append_right (by simp)]
    simp
  -- the values of the objects after the negation
  have hvals : (List.range (ante.length + rest.length)).map (getObj (hNegateAll rr heap)) =
      ante ++ rest.map Atom.negate := by
    rw [← hall, List.map_append]
    congr 1
    · have h1 : (List.range ante.length).map (getObj (hNegateAll rr heap)) =
          (List.range ante.length).map fun i => getObj heap (([] : List Atom).length + i) := by
        apply List.map_congr_left
        intro j hj
        have hj := List.mem_range.1 hj
        rw [hng j, if_neg (fun hm => by have := (hmemr j).1 hm; omega)]
        simp
      rw [h1]
      exact getObj_map_range' heap [] ante (rest ++ [g]) (by rw [hheap]; simp)
    · have h1 : rr.map (getObj (hNegateAll rr heap)) =
          ((List.range rest.length).map fun i => getObj heap (ante.length + i)).map Atom.negate := by
        rw [List.map_map, hrr, List.map_map]
        apply List.map_congr_left
        intro j hj
        have hj := List.mem_range.1 hj
        show getObj (hNegateAll rr heap) (ante.length + j) = (getObj heap (ante.length + j)).negate
        rw [hng, if_pos ((hmemr _).2 ⟨by omega, by omega⟩)]
      rw [h1, getObj_map_range' heap ante rest [g] hheap]
  have hmainv : getObj (hNegateAll rr heap) (ante.length + rest.length) = g := by
    rw [hng, if_neg (fun hm => by have := (hmemr _).1 hm; omega), hgetg]
  have hlen2 : (ante ++ rest.map Atom.negate).length = ante.length + rest.length := by simp
  have hapart : Apart ⟨hNegateAll rr heap, List.range (ante.length + rest.length), ante.length + rest.length, [], []⟩ := by
    constructor
    · show ((ante.length + rest.length) :: (List.range (ante.length + rest.length) ++ [])).Nodup
      rw [List.append_nil, List.nodup_cons]
      exact ⟨by simp, List.nodup_range⟩
    · intro i hi
      show i < (hNegateAll rr heap).length
      rw [hnl, hlen]
      change i ∈ (ante.length + rest.length) :: (List.range (ante.length + rest.length) ++ []) at hi
      rw [List.append_nil, List.mem_cons, List.mem_range] at hi
      omega
  obtain ⟨s1, s2⟩ := hCheck_sim C (ante.length + rest.length + 1) 0 _ hapart
  have hv : HState.vals ⟨hNegateAll rr heap, List.range (ante.length + rest.length), ante.length + rest.length, [], []⟩ =
      ⟨ante ++ rest.map Atom.negate, ⟨g, [], []⟩, List.range (ante.length + rest.length)⟩ := by
    show State.mk _ ⟨_, [], []⟩ _ = _
    rw [hvals, hmainv]
  rw [hv] at s1 s2
  have hH : hPerformGrf C heap (List.range ante.length) (rr.reverse ++ [ante.length + rest.length]) = (do
      let r ← hCheck C (ante.length + rest.length + 1) 0
        ⟨hNegateAll rr heap, List.range (ante.length + rest.length), ante.length + rest.length, [], []⟩
      .ok ((((List.range (ante.length + rest.length)).filter fun i =>
          (List.range (ante.length + rest.length)).getD i 0 ∈ r.2.hyps),
        (List.range (rest.length + 1)).filter fun j =>
          (rr.reverse ++ [ante.length + rest.length]).getD j 0 ∈ r.2.hyps), r.2.heap)) := by
    have hl1 : (rr.reverse ++ [ante.length + rest.length]).length = rest.length + 1 := by simp [hrr]
    unfold hPerformGrf
    rw [hrev]
    simp only [hall, List.length_range, hl1]
  have hP : performGrf C ante (rest.reverse ++ [g]) = (do
      let r ← check C (ante.length + rest.length + 1) 0
        ⟨ante ++ rest.map Atom.negate, ⟨g, [], []⟩, List.range (ante.length + rest.length)⟩
      .ok (hideAnte (ante.length + rest.length) r.2.ids, hideSucc ante.length (rest.length + 1) r.2.ids)) := by
    have hl1 : (rest.reverse ++ [g]).length = rest.length + 1 := by simp
    have hseq : seqState ante (rest.reverse ++ [g]) =
        .ok ⟨ante ++ rest.map Atom.negate, ⟨g, [], []⟩, List.range (ante ++ rest.map Atom.negate).length⟩ := by
      unfold seqState
      have : (rest.reverse ++ [g]).reverse = g :: rest := by simp
      rw [this]
    unfold performGrf
    rw [hseq]
    simp only [bind, Except.bind, hlen2, hl1]
  rw [hH, hP]
  simp only [bind, Except.bind]
  cases hc : check C (ante.length + rest.length + 1) 0
      ⟨ante ++ rest.map Atom.negate, ⟨g, [], []⟩, List.range (ante.length + rest.length)⟩ with
  | error e =>
    rw [s1 _ hc]
    exact ⟨fun e' => ⟨fun h => (by cases h; rfl), fun h => (by cases h; rfl)⟩, fun r heap' h => by cases h⟩
  | ok out =>
    obtain ⟨st', t1, t2, t3, t4⟩ := s2 out.1 out.2 hc
    obtain ⟨u1, u2, u3, u4, ⟨ps, u5⟩, u6, u7⟩ := t4
    obtain ⟨v1, v2⟩ := t3
    have hnd := List.nodup_cons.1 v1
    rw [t1]
    refine ⟨fun e' => ⟨fun h => (by cases h), fun h => (by cases h)⟩, fun r heap' h => ?_⟩
    cases h
    have hids : out.2.ids = st'.hyps := by rw [← t2]; rfl
    have hsub : ∀ j ∈ st'.hyps, j < ante.length + rest.length := fun j hj => List.mem_range.1 (u3.subset hj)
    have hmain : ante.length + rest.length ∉ st'.ghyps := by
      intro hm
      apply hnd.1
      rw [u2]
      exact List.mem_append_right _ hm
    refine ⟨?_, ?_, ?_, ?_, ?_, ?_⟩
    · show Except.ok (hideAnte _ out.2.ids, hideSucc _ _ out.2.ids) = _
      rw [hids]
      congr 2
      · unfold hideAnte
        apply List.filter_congr
        intro i hi
        have hi := List.mem_range.1 hi
        rw [List.getD_eq_getElem?_getD, List.getElem?_range hi]
        rfl
      · unfold hideSucc
        apply List.filter_congr
        intro j hj
        have hj := List.mem_range.1 hj
        by_cases hjm : j < rest.length
        · have : (rr.reverse ++ [ante.length + rest.length]).getD j 0 = ante.length + (rest.length + 1 - 2 - j) := by
            rw [List.getD_eq_getElem?_getD, List.getElem?_append_left (by simp [hrr, hjm]),
              List.getElem?_reverse (by simp [hrr, hjm])]
            simp only [hrr, List.getElem?_map, List.length_map, List.length_range]
            rw [List.getElem?_range (by omega)]
            simp only [Option.map_some, Option.getD_some]
            omega
          rw [this]
          simp [hjm]
        · have : (rr.reverse ++ [ante.length + rest.length]).getD j 0 = ante.length + rest.length := by
            rw [List.getD_eq_getElem?_getD, List.getElem?_append_right (by simp [hrr]; omega)]
            have : j - rr.reverse.length = 0 := by simp [hrr]; omega
            rw [this]; rfl
          rw [this]
          have h2 : ante.length + rest.length ∉ st'.hyps := fun hm => by have := hsub _ hm; omega
          simp [h2, hjm]
    · rw [u1]; exact hnl
    · rw [u6 _ hmain]; exact hmainv
    · intro i hi hia
      have hi := (List.mem_filter.1 hi).2
      rw [List.getD_eq_getElem?_getD, List.getElem?_range (by omega)] at hi
      have hi : i ∈ st'.hyps := by simpa using hi
      rw [u6 i fun hm => (List.disjoint_of_nodup_append hnd.2) hi hm]
      show getObj (hNegateAll rr heap) i = _
      rw [hng, if_neg (fun hm => by have := (hmemr _).1 hm; omega)]
    · intro i hi
      rw [(u7 i).1]
      show (getObj (hNegateAll rr heap) i).op = _
      rw [hng, if_neg (fun hm => by have := (hmemr _).1 hm; omega)]
    · intro i hi
      rw [(u7 _).1]
      show (getObj (hNegateAll rr heap) (ante.length + i)).op = _
      rw [hng, if_pos ((hmemr _).2 ⟨by omega, by omega⟩)]
      rfl

/-- C102, why the objects must be different: when the same object `x0 = 0` is given twice and promoted twice, it is
rewritten to `0 = 0`, and the basis is computed from the rewritten polynomial. -/
theorem C102_alias (S : Sage K) (hS : SageOK S) (h0 : ∀ p, S.reduce p (S.gbasis [p]) = []) (m : Atom)
    (h1 : S.reduce [] (S.gbasis [MPoly.var 0]) = []) :
    ∃ st₁ st₂, hPromote S ⟨[⟨MPoly.var 0, .eq, [0]⟩, m], [0, 0], 1, [], []⟩ 0 = .ok st₁ ∧
      hPromote S st₁ 0 = .ok st₂ ∧ st₂.ghyps = [0, 0] ∧ st₂.heap = [⟨[], .eq, [0]⟩, m] ∧
      st₂.gb = S.gbasis (S.gbasis [MPoly.var 0] ++ [[]]) := by
  obtain ⟨b, B, hB⟩ : ∃ b B, S.gbasis [MPoly.var 0] = b :: B := by
    cases h : S.gbasis [MPoly.var 0] with
    | nil => exact absurd h (hS.ne _ (by simp))
    | cons b B => exact ⟨b, B, rfl⟩
  have hr : S.reduce (MPoly.var 0) (b :: B) = [] := by rw [← hB]; exact h0 _
  have hr' : S.reduce [] (b :: B) = [] := by rw [← hB]; exact h1
  have e1 : hPromote S ⟨[⟨MPoly.var 0, .eq, [0]⟩, m], [0, 0], 1, [], []⟩ 0 =
      .ok ⟨[⟨MPoly.var 0, .eq, [0]⟩, m], [0], 1, [0], S.gbasis [MPoly.var 0]⟩ := rfl
  refine ⟨_, ⟨[⟨[], .eq, [0]⟩, m], [], 1, [0, 0], S.gbasis (S.gbasis [MPoly.var 0] ++ [[]])⟩, e1, ?_, rfl, rfl, rfl⟩
  simp [hPromote, hAddHyp, hSimplify, hInjectAll, hInject, getObj, Atom.inject, hB, hr, hr', bind, Except.bind]

/-- Functions as in C102_alias. -/
example : SageOK (testSage (K := ℚ)) ∧ (∀ p, (testSage (K := ℚ)).reduce p ((testSage (K := ℚ)).gbasis [p]) = []) ∧
    (testSage (K := ℚ)).reduce [] ((testSage (K := ℚ)).gbasis [MPoly.var 0]) = [] :=
  ⟨testSage_ok, fun p => by simp [testSage], by decide⟩

/-! ### The example -/

/-- `x0 + x1` -/
def hpS : MPoly := [([1], 1), ([0, 1], 1)]
/-- `-x1` -/
def hpN : MPoly := [([0, 1], -1)]

/-- Sage functions for the example: the generators as a basis, and the reductions of `x0 + x1` by `x0` to `x1` and
of `x0` by `x0 + x1` to `-x1`. -/
def hpSage : Sage ℚ :=
  ⟨fun p B => if p = hpS ∧ B = [MPoly.var 0] then MPoly.var 1 else if p = MPoly.var 0 ∧ B = [hpS] then hpN else p,
    fun ps => ps, fun _ _ => 1⟩

theorem hpSage_ok : SageOK hpSage := by
  refine ⟨?_, fun ps ρ => Iff.rfl, fun ps h => h⟩
  intro p B ρ h
  simp only [hpSage]
  split
  · next hp =>
    obtain ⟨rfl, rfl⟩ := hp
    have := h (MPoly.var 0) (by simp)
    rw [MPoly.eval_var] at this ⊢
    simp [hpS, MPoly.eval, Mono.evalFrom, this]
  · split
    · next hp =>
      obtain ⟨rfl, rfl⟩ := hp
      have := h hpS (by simp)
      rw [MPoly.eval_var]
      simp [hpS, hpN, MPoly.eval, Mono.evalFrom] at this ⊢
      linarith
    · rfl

/-- A sound core for goals like `x1 >= 0`: no sample point when `x1 = 0` is among the hypotheses of the goal, one of two
points that falsify the goal, and otherwise an exception. -/
def hpCore : Core ℚ :=
  { hpSage with
    samples := fun _ st =>
      if (⟨MPoly.var 1, .eq, [0, 1]⟩ : Atom) ∈ st.goal.hyps ∧ st.goal.main = ⟨MPoly.var 1, .ge, [1]⟩ then .ok []
      else if (st.goal.evalOnDict hpSage [(0, 0), (1, -1)]).toOption = some false then .ok [[(0, 0), (1, -1)]]
      else if (st.goal.evalOnDict hpSage [(0, 1), (1, -1)]).toOption = some false then .ok [[(0, 1), (1, -1)]]
      else .error .assertion
    more := fun _ _ _ => .ok []
    solve := bruteSolve }

theorem hpCore_sound : CoreSound hpCore := by
  intro n st ds h ht ρ hh
  change (if (⟨MPoly.var 1, .eq, [0, 1]⟩ : Atom) ∈ st.goal.hyps ∧ st.goal.main = ⟨MPoly.var 1, .ge, [1]⟩ then .ok []
      else if (st.goal.evalOnDict hpSage [(0, 0), (1, -1)]).toOption = some false then .ok [[(0, 0), (1, -1)]]
      else if (st.goal.evalOnDict hpSage [(0, 1), (1, -1)]).toOption = some false then .ok [[(0, 1), (1, -1)]]
      else .error .assertion : Except GErr (List (Dict ℚ))) = .ok ds at h
  split at h
  · next hg =>
    rw [hg.2]
    have h1 : MPoly.eval ρ (MPoly.var 1) = 0 := hh _ hg.1
    show MPoly.eval ρ (MPoly.var 1) ≥ 0
    exact h1.ge
  · split at h
    · next hf =>
      cases h
      have h2 : st.goal.evalOnDict hpSage [(0, 0), (1, -1)] = .ok true := ht _ (List.mem_singleton_self _)
      rw [h2] at hf
      cases hf
    · split at h
      · next hf =>
        cases h
        have h2 : st.goal.evalOnDict hpSage [(0, 1), (1, -1)] = .ok true := ht _ (List.mem_singleton_self _)
        rw [h2] at hf
        cases hf
      · cases h

/-- The formulas of the example: `x0 = 0`, `x0 + x1 = 0`, `x0 >= 0` and `x1 >= 0`. -/
def hpHeap : List Atom :=
  [⟨MPoly.var 0, .eq, [0]⟩, ⟨hpS, .eq, [0, 1]⟩, ⟨MPoly.var 0, .ge, [0]⟩, ⟨MPoly.var 1, .ge, [1]⟩]

/-- **C102** is violated. (1) `x0 = 0, x0 + x1 = 0, x0 >= 0 ⊢ x1 >= 0` is decided (proved), with right functions of Sage, a
sound core and an optimal solver. Afterwards the two equations of the caller read `-x1 = 0` and `x1 = 0`, and the
hypotheses do not imply `x0 = 0` any more. (2) `x1 > 0, x0 > 0 ⊢ x1 < 0, x0 + 1 > 0` is processed. Afterwards the first
formula of the succedent reads `x1 >= 0`. -/
theorem C102_violated :
    (∃ C : Core ℚ, SageOK C.toSage ∧ CoreSound C ∧ SolverOpt C ∧
      ∃ (fuel : ℕ) (heap : List Atom) (hyps : List ℕ) (main : ℕ) (ret : List (List ℕ)) (st' : HState),
        (main :: hyps).Nodup ∧ (∀ i ∈ main :: hyps, i < heap.length) ∧
        hCheck C fuel 0 ⟨heap, hyps, main, [], []⟩ = .ok (ret, st') ∧
        (st'.heap.map fun a => (a.poly, a.op)) =
          [([([0, 1], -1)], .eq), ([([0, 1], 1)], .eq), ([([1], 1)], .ge), ([([0, 1], 1)], .ge)] ∧
        (∀ ρ : ℕ → ℚ, (∀ i ∈ hyps, (getObj heap i).holds ρ) → ρ 0 = 0) ∧
        ¬ ∀ ρ : ℕ → ℚ, (∀ i ∈ hyps, (getObj st'.heap i).holds ρ) → ρ 0 = 0) ∧
    ∃ C : Core ℚ, SageOK C.toSage ∧ CoreSound C ∧ ∃ (heap heap' : List Atom) (ante succ : List ℕ) (r : List ℕ × List ℕ),
      hPerformGrf C heap ante succ = .ok (r, heap') ∧
      ∃ i ∈ succ, (getObj heap i).op = .lt ∧ (getObj heap' i).op = .ge := by
  refine ⟨⟨hpCore, hpSage_ok, hpCore_sound, fun _ _ _ _ h => bruteSolve_opt h, 4, hpHeap, [0, 1, 2], 3, [[0, 2]],
    ⟨[⟨hpN, .eq, [0]⟩, ⟨MPoly.var 1, .eq, [0, 1]⟩, ⟨MPoly.var 0, .ge, [0]⟩, ⟨MPoly.var 1, .ge, [1]⟩], [2], 3, [1, 0],
      [hpS, MPoly.var 0]⟩, by decide, by decide, heap_ok_of (by decide +kernel), by decide +kernel, ?_, ?_⟩, ?_⟩
  · intro ρ h
    have h0 : MPoly.eval ρ (MPoly.var 0) = 0 := h 0 (by simp)
    rwa [MPoly.eval_var] at h0
  · intro h
    have := h (fun i => if i = 0 then 1 else 0) ?_
    · simp at this
    · intro i hi
      simp only [List.mem_cons, List.not_mem_nil, or_false] at hi
      rcases hi with rfl | rfl | rfl
      · show MPoly.eval _ hpN = 0
        simp [hpN, MPoly.eval, Mono.evalFrom]
      · show MPoly.eval _ (MPoly.var 1) = 0
        rw [MPoly.eval_var]; simp
      · show MPoly.eval _ (MPoly.var 0) ≥ 0
        rw [MPoly.eval_var]; simp
  · obtain ⟨h1, h2⟩ := soundCore_ok
    exact ⟨soundCore, h1, h2, [⟨MPoly.var 1, .gt, [1]⟩, ⟨MPoly.var 0, .gt, [0]⟩, ⟨MPoly.var 1, .lt, [1]⟩,
        ⟨(MPoly.var 0).add (MPoly.const 1), .gt, [0]⟩],
      [⟨MPoly.var 1, .gt, [1]⟩, ⟨MPoly.var 0, .gt, [0]⟩, ⟨MPoly.var 1, .ge, [1]⟩,
        ⟨(MPoly.var 0).add (MPoly.const 1), .gt, [0]⟩], [0, 1], [2, 3], ([0, 2], [0]),
      heap_ok_of (by decide +kernel), 2, by simp, rfl, rfl⟩

/-- The hypotheses of C102_partial are met by a run that promotes two equations and hides a hypothesis, and those of its
last part by a run without equations. -/
example : SageOK hpCore.toSage ∧ (3 :: [0, 1, 2]).Nodup ∧ (∀ i ∈ 3 :: [0, 1, 2], i < hpHeap.length) ∧
    (hCheck hpCore 4 0 ⟨hpHeap, [0, 1, 2], 3, [], []⟩).toOption.map (fun r => (r.2.hyps, r.2.ghyps)) = some ([2], [1, 0]) ∧
    (hCheck soundCore 3 0 ⟨[⟨MPoly.var 1, .gt, [1]⟩, ⟨MPoly.var 0, .gt, [0]⟩,
      ⟨(MPoly.var 0).add (MPoly.const 1), .gt, [0]⟩], [0, 1], 2, [], []⟩).toOption.map (fun r => (r.2.hyps, r.2.ghyps)) =
      some ([0], [1]) :=
  ⟨hpSage_ok, by decide, by decide, by decide +kernel, by decide +kernel⟩

/-- A run as in C102_sequent. -/
example : (hPerformGrf soundCore [⟨MPoly.var 1, .gt, [1]⟩, ⟨MPoly.var 0, .gt, [0]⟩, ⟨MPoly.var 1, .lt, [1]⟩,
      ⟨(MPoly.var 0).add (MPoly.const 1), .gt, [0]⟩] (List.range 2)
      (((List.range 1).map fun i => 2 + i).reverse ++ [2 + 1])).toOption.map Prod.fst = some ([0, 2], [0]) := by
  decide +kernel

end Verif.Grf
