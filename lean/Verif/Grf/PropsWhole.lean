import Verif.Grf.Whole
import Verif.Grf.PropsCex
import Verif.Grf.PropsSearchStep

/-!
# C113: sequents checked one after the other in a process
-/

set_option linter.unusedSectionVars false

namespace Verif.Grf

variable {K : Type} [Field K] [LinearOrder K] [IsStrictOrderedRing K]

/-! ### The run with a fixed variable order -/

/-- The core with local search for a fixed variable order. -/
def Core.withSearch (C : Core K) (f : Calls K) (o : List ℕ) : Core K :=
  { C with more := fun n st d => (localSearch C.toSage (f n st d) (some o) st.hyps st.goal.main d).map Prod.fst }

/-- The computation `X` with the class variable is `X'` for a fixed variable order. If the variable is not set at the
beginning, then either it is not needed, or the order is that of the first point that is converted, which does not depend
on the random numbers. -/
def Sim {α : Type} (Key : List ℕ → Prop) (X : Calls K → VOrder → Except GErr α × VOrder)
    (X' : Calls K → List ℕ → Except GErr α) : Prop :=
  (∀ f o, o ≠ [] → X f (some o) = (X' f o, some o)) ∧
  ((∃ r, ∀ f, X f none = (r, none) ∧ ∀ o, X' f o = r) ∨
    ∃ o, o ≠ [] ∧ Key o ∧ ∀ f, X f none = (X' f o, some o))

theorem Sim.const {α : Type} (Key : List ℕ → Prop) (r : Except GErr α) :
    Sim (K := K) Key (fun _ o => (r, o)) (fun _ _ => r) :=
  ⟨fun _ _ _ => rfl, Or.inl ⟨r, fun _ => ⟨rfl, fun _ => rfl⟩⟩⟩

theorem Sim.then {α β : Type} {Key : List ℕ → Prop} {X : Calls K → VOrder → Except GErr α × VOrder}
    {X' : Calls K → List ℕ → Except GErr α} {F : Calls K → α → VOrder → Except GErr β × VOrder}
    {F' : Calls K → α → List ℕ → Except GErr β} (hX : Sim Key X X')
    (hF : ∀ a, Sim Key (fun f => F f a) fun f => F' f a) :
    Sim Key (fun f o => wThen (X f o) (F f)) fun f o => (X' f o).bind fun a => F' f a o := by
  refine ⟨fun f o ho => ?_, ?_⟩
  · simp only [hX.1 f o ho]
    cases h : X' f o with
    | error e => rfl
    | ok a => exact (hF a).1 f o ho
  · rcases hX.2 with ⟨r, hr⟩ | ⟨o, ho, hk, h⟩
    · cases r with
      | error e =>
        refine Or.inl ⟨.error e, fun f => ⟨?_, fun o => ?_⟩⟩
        · beta_reduce; rw [(hr f).1]; rfl
        · beta_reduce; rw [(hr f).2 o]; rfl
      | ok a =>
        rcases (hF a).2 with ⟨r, h⟩ | ⟨o, ho, hk, h⟩
        · refine Or.inl ⟨r, fun f => ⟨?_, fun o => ?_⟩⟩
          · beta_reduce; rw [(hr f).1]; exact (h f).1
          · beta_reduce; rw [(hr f).2 o]; exact (h f).2 o
        · refine Or.inr ⟨o, ho, hk, fun f => ?_⟩
          beta_reduce
          rw [(hr f).1, (hr f).2 o]
          exact h f
    · refine Or.inr ⟨o, ho, hk, fun f => ?_⟩
      beta_reduce
      rw [h f]
      cases h' : X' f o with
      | error e => rfl
      | ok a => exact (hF a).1 f o ho

theorem localSearch_none (S : Sage K) (O : Search K) (hyps : List Atom) (main : Atom) {d : Dict K} (hd : d ≠ []) :
    localSearch S O none hyps main d = localSearch S O (some (d.map Prod.fst)) hyps main d := by
  obtain ⟨e, d', rfl⟩ := List.exists_cons_of_ne_nil hd
  rfl

/-- The sample points assign something, and their variables have a property. -/
def KeysOK (C : Core K) (Key : List ℕ → Prop) : Prop :=
  ∀ n st ds, C.samples n st = .ok ds → ∀ d ∈ ds, d ≠ [] ∧ Key (d.map Prod.fst)

theorem sim_badSubsets (C : Core K) {Key : List ℕ → Prop} (n : ℕ) (st : State) {d : Dict K} (hd : d ≠ [])
    (hk : Key (d.map Prod.fst)) :
    Sim Key (fun f o => wBadSubsets C f n st d o) fun f o => badSubsets (C.withSearch f o) n st d := by
  have hvo : ∀ o : List ℕ, o ≠ [] → varOrder (some o) d = o := by
    intro o ho
    obtain ⟨v, vs, rfl⟩ := List.exists_cons_of_ne_nil ho
    rfl
  have hkey : d.map Prod.fst ≠ [] := by simpa using hd
  cases hg : st.goal.evalOnDict C.toSage d with
  | error e =>
    have h1 : (fun (f : Calls K) o => wBadSubsets C f n st d o) = fun _ o => (.error e, o) := by
      funext f o; unfold wBadSubsets; rw [hg]
    have h2 : (fun (f : Calls K) o => badSubsets (C.withSearch f o) n st d) = fun _ _ => .error e := by
      funext f o; unfold badSubsets
      show (st.goal.evalOnDict C.toSage d >>= _) = _
      rw [hg]; rfl
    rw [h1, h2]
    exact Sim.const _ _
  | ok b =>
    cases b with
    | true =>
      have h1 : (fun (f : Calls K) o => wBadSubsets C f n st d o) = fun _ o => (.ok none, o) := by
        funext f o; unfold wBadSubsets; rw [hg]
      have h2 : (fun (f : Calls K) o => badSubsets (C.withSearch f o) n st d) = fun _ _ => .ok none := by
        funext f o; unfold badSubsets
        show (st.goal.evalOnDict C.toSage d >>= _) = _
        rw [hg]; rfl
      rw [h1, h2]
      exact Sim.const _ _
    | false =>
      by_cases hh : st.hyps = []
      · have h1 : ∀ (f : Calls K) o, wBadSubsets C f n st d o = (.error .indexError, some (varOrder o d)) := by
          intro f o; unfold wBadSubsets; rw [hg]; simp [hh]
        have h2 : ∀ (f : Calls K) o, badSubsets (C.withSearch f o) n st d = .error .indexError := by
          intro f o; unfold badSubsets
          show (st.goal.evalOnDict C.toSage d >>= _) = _
          rw [hg]
          simp [bind, Except.bind, hh]
        refine ⟨fun f o ho => ?_, Or.inr ⟨_, hkey, hk, fun f => ?_⟩⟩
        · simp only [h1, h2, hvo o ho]
        · simp only [h1, h2]
          rfl
      · have h1 : ∀ (f : Calls K) o, wBadSubsets C f n st d o =
            (((localSearch C.toSage (f n st d) o st.hyps st.goal.main d).map Prod.fst).bind fun ds =>
              (badLoop C.toSage st (d :: ds) []).map some, some (varOrder o d)) := by
          intro f o; unfold wBadSubsets; rw [hg]
          simp only [hh, if_false, wSearch]
          cases localSearch C.toSage (f n st d) o st.hyps st.goal.main d <;> rfl
        have h2 : ∀ (f : Calls K) o, badSubsets (C.withSearch f o) n st d =
            ((localSearch C.toSage (f n st d) (some o) st.hyps st.goal.main d).map Prod.fst).bind fun ds =>
              (badLoop C.toSage st (d :: ds) []).map some := by
          intro f o; unfold badSubsets
          show (st.goal.evalOnDict C.toSage d >>= _) = _
          rw [hg]
          simp only [bind, Except.bind, hh, if_false, Bool.false_eq_true]
          have hm : (C.withSearch f o).more n st d =
            (localSearch C.toSage (f n st d) (some o) st.hyps st.goal.main d).map Prod.fst := rfl
          rw [hm]
          cases (localSearch C.toSage (f n st d) (some o) st.hyps st.goal.main d).map Prod.fst with
          | error e => rfl
          | ok ds =>
            have hb : badLoop (C.withSearch f o).toSage st (d :: ds) [] = badLoop C.toSage st (d :: ds) [] := rfl
            simp only [hb]
            cases badLoop C.toSage st (d :: ds) [] <;> rfl
        refine ⟨fun f o ho => ?_, Or.inr ⟨_, hkey, hk, fun f => ?_⟩⟩
        · simp only [h1, h2, hvo o ho]
        · simp only [h1, h2, localSearch_none _ _ _ _ hd]
          rfl

theorem sim_allBads (C : Core K) {Key : List ℕ → Prop} (n : ℕ) (st : State) : ∀ ds : List (Dict K),
    (∀ d ∈ ds, d ≠ [] ∧ Key (d.map Prod.fst)) →
    Sim Key (fun f o => wAllBads C f n st ds o) fun f o => allBads (C.withSearch f o) n st ds
  | [], _ => Sim.const _ _
  | d :: ds, h => by
    have h0 := h d (by simp)
    have := (sim_badSubsets C n st h0.1 h0.2).then
      (F := fun f b o₁ => wThen (wAllBads C f n st ds o₁) fun r o₂ =>
        match b with
        | none => (.ok r, o₂)
        | some bs => (.ok (false, bs ++ r.2), o₂))
      (F' := fun f b o => (allBads (C.withSearch f o) n st ds).bind fun r =>
        match b with
        | none => .ok r
        | some bs => .ok (false, bs ++ r.2))
      fun b => (sim_allBads C n st ds fun x hx => h x (by simp [hx])).then
        (F := fun _ r o₂ => match b with
          | none => (.ok r, o₂)
          | some bs => (.ok (false, bs ++ r.2), o₂))
        (F' := fun _ r _ => match b with
          | none => .ok r
          | some bs => .ok (false, bs ++ r.2))
        fun r => by cases b <;> exact Sim.const _ _
    exact this

theorem sim_round (C : Core K) {Key : List ℕ → Prop} (hC : KeysOK C Key) (n : ℕ) (st : State) :
    Sim Key (fun f o => wRound C f n st o) fun f o => round (C.withSearch f o) n st := by
  cases hs : C.samples n st with
  | error e =>
    have h1 : (fun (f : Calls K) o => wRound C f n st o) = fun _ o => (.error e, o) := by
      funext f o; unfold wRound; rw [hs]; rfl
    have h2 : (fun (f : Calls K) o => round (C.withSearch f o) n st) = fun _ _ => .error e := by
      funext f o; unfold round
      show (C.samples n st >>= _) = _
      rw [hs]; rfl
    rw [h1, h2]
    exact Sim.const _ _
  | ok ds =>
    have := (sim_allBads C n st ds (hC n st ds hs)).then
      (F := fun _ r o₂ => if r.1 then (.ok ([], none), o₂)
      else
        ((do
          let cand ← goodHyps C st r.2
          match sortCand st cand with
          | [] => .error .indexError
          | i :: _ => do
            let st' ← st.promote C.toSage i
            .ok (r.2, some st')), o₂))
      (F' := fun _ r _ => if r.1 then .ok ([], none)
      else do
          let cand ← goodHyps C st r.2
          match sortCand st cand with
          | [] => .error .indexError
          | i :: _ => do
            let st' ← st.promote C.toSage i
            .ok (r.2, some st'))
      fun r => by
        cases r.1
        · exact Sim.const _ _
        · exact Sim.const _ _
    have h1 : (fun (f : Calls K) o => wRound C f n st o) = fun f o => wThen (wAllBads C f n st ds o) fun r o₂ =>
      if r.1 then (.ok ([], none), o₂)
      else
        ((do
          let cand ← goodHyps C st r.2
          match sortCand st cand with
          | [] => .error .indexError
          | i :: _ => do
            let st' ← st.promote C.toSage i
            .ok (r.2, some st')), o₂) := by
      funext f o; unfold wRound; rw [hs]; rfl
    have h2 : (fun (f : Calls K) o => round (C.withSearch f o) n st) = fun f o =>
        (allBads (C.withSearch f o) n st ds).bind fun r => (if r.1 then .ok ([], none)
      else do
          let cand ← goodHyps C st r.2
          match sortCand st cand with
          | [] => .error .indexError
          | i :: _ => do
            let st' ← st.promote C.toSage i
            .ok (r.2, some st')) := by
      funext f o; unfold round
      show (C.samples n st >>= _) = _
      rw [hs]; rfl
    rw [h1, h2]
    exact this

theorem sim_check (C : Core K) {Key : List ℕ → Prop} (hC : KeysOK C Key) : ∀ (fuel n : ℕ) (st : State),
    Sim Key (fun f o => wCheck C f fuel n st o) fun f o => check (C.withSearch f o) fuel n st
  | 0, _, _ => Sim.const _ _
  | fuel + 1, n, st => by
    have := (sim_round C hC n st).then
      (F := fun f r o₁ => match r.2 with
        | none => (.ok (r.1, st), o₁)
        | some st' => wThen (wCheck C f fuel (n + 1) st' o₁) fun out o₂ => (.ok (r.1, out.2), o₂))
      (F' := fun f r o => match r.2 with
        | none => .ok (r.1, st)
        | some st' => (check (C.withSearch f o) fuel (n + 1) st').bind fun out => .ok (r.1, out.2))
      fun r => by
        obtain ⟨r1, r2⟩ := r
        cases r2 with
        | none => exact Sim.const _ _
        | some st' =>
          exact (sim_check C hC fuel (n + 1) st').then (F := fun _ out o₂ => (.ok (r1, out.2), o₂))
            (F' := fun _ out _ => .ok (r1, out.2)) fun out => Sim.const _ _
    exact this

end Verif.Grf
