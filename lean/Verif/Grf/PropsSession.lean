import Verif.Grf.Session
import Verif.Grf.PropsSmt2

/-!
# C103: a decider object over its whole life
-/

set_option linter.unusedSectionVars false

namespace Verif.Grf

variable {K : Type} [Field K] [LinearOrder K] [IsStrictOrderedRing K]

/-- All hypotheses asserted in a sequence of operations. -/
def asserted (ops : List DOp) : List Atom :=
  ops.flatMap fun op => match op with
    | .hyps as => as
    | _ => []

/-- The goal asserted last. -/
def lastGoal (ops : List DOp) : Option Atom :=
  (ops.filterMap fun op => match op with
    | .goal g => some g
    | _ => none).getLast?

/-- Everything a state says follows from `H`. -/
def StFollows (H : List Atom) (st : State) : Prop :=
  ∀ ρ : ℕ → K, (∀ a ∈ H, a.holds ρ) →
    (∀ a ∈ st.hyps, a.holds ρ) ∧ (∀ b ∈ st.goal.gb, b.eval ρ = 0) ∧ ∀ a ∈ st.goal.hyps, a.holds ρ

theorem mem_take_drop {α : Type} {l : List α} {i : ℕ} {a : α} (h : a ∈ l.take i ++ l.drop (i + 1)) : a ∈ l := by
  rcases List.mem_append.1 h with h | h
  · exact List.mem_of_mem_take h
  · exact List.mem_of_mem_drop h

theorem promote_follows {S : Sage K} (hS : SageOK S) {H : List Atom} {st st' : State} {i : ℕ}
    (h : StFollows (K := K) H st) (hp : st.promote S i = .ok st') :
    StFollows (K := K) H st' ∧ st'.goal.main = st.goal.main := by
  obtain ⟨a, g, ha, hg, rfl⟩ := promote_ok hp
  obtain ⟨g', hg', hm, hsem⟩ := (C37_partial S hS st.goal a).1
  rw [hg] at hg'
  cases hg'
  refine ⟨fun ρ hρ => ?_, hm⟩
  obtain ⟨h1, h2, h3⟩ := h ρ hρ
  exact ⟨fun b hb => h1 b (mem_take_drop hb), (hsem ρ).1 h2 h3 (h1 a (List.mem_of_getElem? ha))⟩

theorem promoteLeft_follows {S : Sage K} (hS : SageOK S) {H : List Atom} {st : State} {i : ℕ}
    (h : StFollows (K := K) H st) : StFollows (K := K) H (promoteLeft S st i) ∧
      (promoteLeft S st i).goal.main = st.goal.main := by
  unfold promoteLeft
  cases hp : st.promote S i with
  | ok st' => exact promote_follows hS h hp
  | error e =>
    simp only
    split
    · exact ⟨fun ρ hρ => ⟨fun b hb => (h ρ hρ).1 b (mem_take_drop hb), (h ρ hρ).2⟩, rfl⟩
    · exact ⟨h, rfl⟩

theorem roundLeft_follows {C : Core K} (hS : SageOK C.toSage) {H : List Atom} {n : ℕ} {st : State}
    (h : StFollows (K := K) H st) : StFollows (K := K) H (roundLeft C n st) ∧
      (roundLeft C n st).goal.main = st.goal.main := by
  unfold roundLeft
  split
  · exact ⟨h, rfl⟩
  · split
    · exact ⟨h, rfl⟩
    · split
      · exact ⟨h, rfl⟩
      · split
        · exact ⟨h, rfl⟩
        · split
          · exact ⟨h, rfl⟩
          · exact promoteLeft_follows hS h

/-- Whether it returns or raises, a check leaves a state that follows from the hypotheses; when it returns, the goal does
too. -/
theorem checkLeft_follows {C : Core K} (hS : SageOK C.toSage) (hC : CoreSound C) {H : List Atom} :
    ∀ (fuel n : ℕ) (st : State), StFollows (K := K) H st →
      StFollows (K := K) H (checkLeft C fuel n st).2.2 ∧ (checkLeft C fuel n st).2.2.goal.main = st.goal.main ∧
      ∀ ret, (checkLeft C fuel n st).1 = .ok ret → ∀ ρ : ℕ → K, (∀ a ∈ H, a.holds ρ) → st.goal.main.holds ρ
  | 0, n, st, h => ⟨h, rfl, fun ret hr => by cases hr⟩
  | fuel + 1, n, st, h => by
    unfold checkLeft
    cases hr : round C n st with
    | error e => exact ⟨(roundLeft_follows hS h).1, (roundLeft_follows hS h).2, fun ret hr => by cases hr⟩
    | ok r =>
      obtain ⟨b, o⟩ := r
      cases o with
      | none =>
        refine ⟨h, rfl, fun ret _ ρ hρ => ?_⟩
        obtain ⟨ds, h1, h2⟩ := round_none hr
        exact hC n st ds h1 h2 ρ (h ρ hρ).2.2
      | some st' =>
        obtain ⟨i, hi⟩ := round_some hr
        obtain ⟨h1, h2⟩ := promote_follows hS h hi
        obtain ⟨i1, i2, i3⟩ := checkLeft_follows hS hC fuel (n + 1) st' h1
        simp only
        cases hc : checkLeft C fuel (n + 1) st' with
        | mk a r =>
          rw [hc] at i1 i2 i3
          cases a with
          | ok ret' =>
            refine ⟨i1, i2.trans h2, fun ret _ => ?_⟩
            rw [← h2]
            exact i3 ret' rfl
          | error e => exact ⟨i1, i2.trans h2, fun ret hr => by cases hr⟩

/-- What holds of a decider after a sequence of operations: what it contains follows from the asserted hypotheses, and its
goal is the one asserted last. -/
def DecInv (H : List Atom) (g : Option Atom) (d : Decider) : Prop :=
  d.goal.map Goal.main = g ∧
  (∀ ρ : ℕ → K, (∀ a ∈ H, a.holds ρ) → ∀ a ∈ d.hyps, a.holds ρ) ∧
  ∀ gl, d.goal = some gl → StFollows (K := K) H ⟨d.hyps, gl, d.ids⟩

theorem check_inv {C : Core K} (hS : SageOK C.toSage) (hC : CoreSound C) {H : List Atom} {g : Option Atom} {d : Decider}
    (h : DecInv (K := K) H g d) : DecInv (K := K) H g (d.check C).2 ∧
      ∀ ret, (d.check C).1 = .ok ret → ∃ m, g = some m ∧ ∀ ρ : ℕ → K, (∀ a ∈ H, a.holds ρ) → m.holds ρ := by
  obtain ⟨h1, h2, h3⟩ := h
  unfold Decider.check
  cases hg : d.goal with
  | none => exact ⟨⟨by rw [← h1], h2, h3⟩, fun ret hr => by cases hr⟩
  | some gl =>
    obtain ⟨i1, i2, i3⟩ := checkLeft_follows hS hC (d.hyps.length + 1) d.rounds _ (h3 gl hg)
    rw [hg] at h1
    refine ⟨⟨?_, fun ρ hρ => (i1 ρ hρ).1, ?_⟩, fun ret hr => ⟨gl.main, h1.symm, i3 ret hr⟩⟩
    · rw [← h1]
      exact congrArg some i2
    · rintro gl' hgl'
      cases hgl'
      exact i1

theorem run_append (C : Core K) : ∀ (d : Decider) (l l' : List DOp), d.run C (l ++ l') = (d.run C l).run C l'
  | _, [], _ => rfl
  | d, op :: l, l' => run_append C (d.step C op).2 l l'

theorem run_inv {C : Core K} (hS : SageOK C.toSage) (hC : CoreSound C) (ops : List DOp) :
    DecInv (K := K) (asserted ops) (lastGoal ops) (Decider.new.run C ops) := by
  induction ops using List.reverseRecOn with
  | nil => exact ⟨rfl, fun ρ _ a ha => (by cases ha), fun gl hg => (by cases hg)⟩
  | append_singleton ops op ih =>
    rw [run_append]
    have hmono : ∀ ρ : ℕ → K, (∀ a ∈ asserted (ops ++ [op]), a.holds ρ) → ∀ a ∈ asserted ops, a.holds ρ := by
      intro ρ hρ a ha
      apply hρ
      unfold asserted at *
      rw [List.flatMap_append]
      exact List.mem_append_left _ ha
    show DecInv _ _ ((Decider.new.run C ops).step C op).2
    cases op with
    | hyps as =>
      have hnew : ∀ ρ : ℕ → K, (∀ a ∈ asserted (ops ++ [DOp.hyps as]), a.holds ρ) → ∀ a ∈ as, a.holds ρ := by
        intro ρ hρ a ha
        apply hρ
        unfold asserted
        rw [List.flatMap_append]
        exact List.mem_append_right _ (by simpa using ha)
      have hl : lastGoal (ops ++ [DOp.hyps as]) = lastGoal ops := by
        unfold lastGoal; rw [List.filterMap_append]; simp
      rw [hl]
      obtain ⟨i1, i2, i3⟩ := ih
      refine ⟨i1, fun ρ hρ a ha => ?_, fun gl hgl ρ hρ => ⟨fun a ha => ?_, (i3 gl hgl ρ (hmono ρ hρ)).2⟩⟩
      · rcases List.mem_append.1 ha with ha | ha
        · exact i2 ρ (hmono ρ hρ) a ha
        · exact hnew ρ hρ a ha
      · rcases List.mem_append.1 ha with ha | ha
        · exact i2 ρ (hmono ρ hρ) a ha
        · exact hnew ρ hρ a ha
    | goal g =>
      have hl : lastGoal (ops ++ [DOp.goal g]) = some g := by
        unfold lastGoal; rw [List.filterMap_append]; simp
      rw [hl]
      obtain ⟨i1, i2, i3⟩ := ih
      refine ⟨rfl, fun ρ hρ => i2 ρ (hmono ρ hρ), fun gl hgl ρ hρ => ?_⟩
      cases hgl
      exact ⟨i2 ρ (hmono ρ hρ), by simp, by simp⟩
    | check =>
      have hl : lastGoal (ops ++ [DOp.check]) = lastGoal ops := by
        unfold lastGoal; rw [List.filterMap_append]; simp
      have ha : asserted (ops ++ [DOp.check]) = asserted ops := by
        unfold asserted; rw [List.flatMap_append]; simp
      rw [hl, ha]
      exact (check_inv hS hC ih).1

/-- **C103**, soundness over histories: whatever has been asserted and checked before, in whatever order, and whatever
exceptions have been caught, when a check returns then the goal asserted last follows from the hypotheses asserted so
far. -/
theorem C103_sound (C : Core K) (hS : SageOK C.toSage) (hC : CoreSound C) (ops : List DOp) (ret : List (List ℕ))
    (h : ((Decider.new.run C ops).check C).1 = .ok ret) :
    ∃ g, lastGoal ops = some g ∧ ∀ ρ : ℕ → K, (∀ a ∈ asserted ops, a.holds ρ) → g.holds ρ :=
  (check_inv hS hC (run_inv hS hC ops)).2 ret h

theorem checkLeft_check (C : Core K) : ∀ (fuel n : ℕ) (st : State),
    (∀ e, (checkLeft C fuel n st).1 = .error e ↔ check C fuel n st = .error e) ∧
    ∀ ret st', ((checkLeft C fuel n st).1 = .ok ret ∧ (checkLeft C fuel n st).2.2 = st') ↔
      check C fuel n st = .ok (ret, st')
  | 0, n, st => ⟨fun e => ⟨fun h => (by cases h; rfl), fun h => (by cases h; rfl)⟩,
      fun ret st' => ⟨fun h => (by cases h.1), fun h => by cases h⟩⟩
  | fuel + 1, n, st => by
    unfold checkLeft check
    simp only [bind, Except.bind]
    cases hr : round C n st with
    | error e =>
      exact ⟨fun e => ⟨fun h => (by cases h; rfl), fun h => (by cases h; rfl)⟩,
        fun ret st' => ⟨fun h => (by cases h.1), fun h => by cases h⟩⟩
    | ok r =>
      obtain ⟨b, o⟩ := r
      cases o with
      | none =>
        refine ⟨fun e => ⟨fun h => (by cases h), fun h => (by cases h)⟩, fun ret st' => ⟨fun h => ?_, fun h => ?_⟩⟩
        · obtain ⟨h1, h2⟩ := h
          cases h1; cases h2; rfl
        · cases h; exact ⟨rfl, rfl⟩
      | some st₁ =>
        obtain ⟨i1, i2⟩ := checkLeft_check C fuel (n + 1) st₁
        simp only
        cases hc : checkLeft C fuel (n + 1) st₁ with
        | mk a r =>
          rw [hc] at i1 i2
          cases a with
          | error e =>
            rw [(i1 e).1 rfl]
            exact ⟨fun e => ⟨fun h => (by cases h; rfl), fun h => (by cases h; rfl)⟩,
              fun ret st' => ⟨fun h => (by cases h.1), fun h => by cases h⟩⟩
          | ok ret' =>
            rw [(i2 ret' r.2).1 ⟨rfl, rfl⟩]
            refine ⟨fun e => ⟨fun h => (by cases h), fun h => (by cases h)⟩, fun ret st' => ⟨fun h => ?_, fun h => ?_⟩⟩
            · obtain ⟨h1, h2⟩ := h
              cases h1; cases h2; rfl
            · cases h; exact ⟨rfl, rfl⟩

theorem run_asserts (C : Core K) (ops : List DOp) (h : ∀ op ∈ ops, op ≠ .check) :
    (Decider.new.run C ops).hyps = asserted ops ∧
    (Decider.new.run C ops).goal = (lastGoal ops).map (fun g => ⟨g, [], []⟩) ∧
    (Decider.new.run C ops).ids = List.range (asserted ops).length ∧ (Decider.new.run C ops).rounds = 0 ∧
    (Decider.new.run C ops).next = (asserted ops).length := by
  induction ops using List.reverseRecOn with
  | nil => exact ⟨rfl, rfl, rfl, rfl, rfl⟩
  | append_singleton ops op ih =>
    obtain ⟨i1, i2, i3, i4, i5⟩ := ih fun o ho => h o (List.mem_append_left _ ho)
    rw [run_append]
    show ((Decider.new.run C ops).step C op).2.hyps = _ ∧ _
    cases op with
    | hyps as =>
      have hl : lastGoal (ops ++ [DOp.hyps as]) = lastGoal ops := by
        unfold lastGoal; rw [List.filterMap_append]; simp
      have ha : asserted (ops ++ [DOp.hyps as]) = asserted ops ++ as := by
        unfold asserted; rw [List.flatMap_append]; simp
      rw [hl, ha]
      refine ⟨congrArg (· ++ as) i1, i2, ?_, i4, ?_⟩
      · show (Decider.new.run C ops).ids ++ _ = _
        rw [i3, i5, List.length_append, List.range_add]
      · show (Decider.new.run C ops).next + as.length = _
        rw [i5, List.length_append]
    | goal g =>
      have hl : lastGoal (ops ++ [DOp.goal g]) = some g := by
        unfold lastGoal; rw [List.filterMap_append]; simp
      have ha : asserted (ops ++ [DOp.goal g]) = asserted ops := by
        unfold asserted; rw [List.flatMap_append]; simp
      rw [hl, ha]
      exact ⟨i1, rfl, i3, i4, i5⟩
    | check => exact absurd rfl (h .check (by simp))

/-- What holds instead of **C103**: the first check of an object decides the sequent of the asserted hypotheses and the goal
asserted last, in the order of their assertion; without a goal it raises. For later goals the missing part is that the
hypotheses that have been promoted are not there any more. -/
theorem C103_partial (C : Core K) (ops : List DOp) (h : ∀ op ∈ ops, op ≠ .check) :
    (lastGoal ops = none → ((Decider.new.run C ops).check C).1 = .error .attributeError) ∧
    ∀ g, lastGoal ops = some g →
      (∀ e, ((Decider.new.run C ops).check C).1 = .error e ↔
        check C ((asserted ops).length + 1) 0 ⟨asserted ops, ⟨g, [], []⟩, List.range (asserted ops).length⟩ = .error e) ∧
      ∀ ret st', (((Decider.new.run C ops).check C).1 = .ok ret ∧
          ((Decider.new.run C ops).check C).2.hyps = st'.hyps ∧ ((Decider.new.run C ops).check C).2.ids = st'.ids ∧
          ((Decider.new.run C ops).check C).2.goal = some st'.goal) ↔
        check C ((asserted ops).length + 1) 0 ⟨asserted ops, ⟨g, [], []⟩, List.range (asserted ops).length⟩ =
          .ok (ret, st') := by
  obtain ⟨i1, i2, i3, i4, -⟩ := run_asserts C ops h
  constructor
  · intro hg
    unfold Decider.check
    rw [i2, hg]
    rfl
  · intro g hg
    obtain ⟨c1, c2⟩ := checkLeft_check C ((asserted ops).length + 1) 0
      ⟨asserted ops, ⟨g, [], []⟩, List.range (asserted ops).length⟩
    have hck : (Decider.new.run C ops).check C =
        ((checkLeft C ((asserted ops).length + 1) 0 ⟨asserted ops, ⟨g, [], []⟩, List.range (asserted ops).length⟩).1,
          { Decider.new.run C ops with
            hyps := (checkLeft C ((asserted ops).length + 1) 0
              ⟨asserted ops, ⟨g, [], []⟩, List.range (asserted ops).length⟩).2.2.hyps
            ids := (checkLeft C ((asserted ops).length + 1) 0
              ⟨asserted ops, ⟨g, [], []⟩, List.range (asserted ops).length⟩).2.2.ids
            goal := some (checkLeft C ((asserted ops).length + 1) 0
              ⟨asserted ops, ⟨g, [], []⟩, List.range (asserted ops).length⟩).2.2.goal
            rounds := (checkLeft C ((asserted ops).length + 1) 0
              ⟨asserted ops, ⟨g, [], []⟩, List.range (asserted ops).length⟩).2.1 }) := by
      unfold Decider.check
      rw [i2, hg]
      simp only [Option.map_some, i1, i3, i4]
    rw [hck]
    refine ⟨c1, fun ret st' => ?_⟩
    rw [← c2 ret st']
    constructor
    · rintro ⟨h1, h2, h3, h4⟩
      refine ⟨h1, ?_⟩
      have h4' := Option.some.inj h4
      cases hst : (checkLeft C ((asserted ops).length + 1) 0
        ⟨asserted ops, ⟨g, [], []⟩, List.range (asserted ops).length⟩).2.2 with
      | mk a b c =>
        rw [hst] at h2 h3 h4'
        cases st'
        simp_all
    · rintro ⟨h1, rfl⟩
      exact ⟨h1, rfl, rfl, rfl⟩

/-- **C103** is violated: `x1 > 0, x0 > 0 ⊢ x0 + 1 > 0` is proved, and when the same goal is asserted again, the check raises
an exception, because the hypothesis `x0 > 0` that was promoted is not in the list of hypotheses any more; `x1 > 0` alone
does not imply the goal. The functions of Sage are right, the core is sound and the solver meets its constraints. -/
theorem C103_violated : ∃ (C : Core ℚ) (h₁ h₂ g : Atom), SageOK C.toSage ∧ CoreSound C ∧ SolverOK C ∧
    (∃ ret, ((Decider.new.run C [.hyps [h₁, h₂], .goal g]).check C).1 = .ok ret) ∧
    (∀ ρ : ℕ → ℚ, h₁.holds ρ → h₂.holds ρ → g.holds ρ) ∧
    ((Decider.new.run C [.hyps [h₁, h₂], .goal g, .check, .goal g]).check C).1 = .error .counterexample := by
  refine ⟨soundCore, ⟨MPoly.var 1, .gt, [1]⟩, ⟨MPoly.var 0, .gt, [0]⟩, ⟨(MPoly.var 0).add (MPoly.const 1), .gt, [0]⟩,
    soundCore_ok.1, soundCore_ok.2, (bruteSolve_ok [] []).1, ⟨[[0]], ?_⟩, ?_, ?_⟩
  · decide +kernel
  · intro ρ _ h
    have h1 : MPoly.eval ρ (MPoly.var 0) > 0 := h
    show MPoly.eval ρ ((MPoly.var 0).add (MPoly.const 1)) > 0
    rw [MPoly.eval_var] at h1
    rw [MPoly.eval_add, MPoly.eval_var, MPoly.eval_const]
    push_cast
    linarith
  · decide +kernel

/-- The hypotheses of C103_sound are met by a history with two goals and hypotheses asserted between the checks. -/
example : SageOK soundCore.toSage ∧ CoreSound soundCore ∧
    ((Decider.new.run soundCore [.hyps [⟨MPoly.var 1, .gt, [1]⟩, ⟨MPoly.var 0, .gt, [0]⟩],
        .goal ⟨(MPoly.var 0).add (MPoly.const 1), .gt, [0]⟩, .check,
        .goal ⟨(MPoly.var 0).add (MPoly.const 1), .gt, [0]⟩, .check,
        .hyps [⟨MPoly.var 0, .gt, [0]⟩]]).check soundCore).1.toOption = some [[0]] :=
  ⟨soundCore_ok.1, soundCore_ok.2, by decide +kernel⟩

/-- A sequence of operations as in C103_partial. -/
example : ∃ ops : List DOp, (∀ op ∈ ops, op ≠ .check) ∧ (lastGoal ops).isSome ∧
    ((Decider.new.run soundCore ops).check soundCore).1.toOption = some [[0]] :=
  ⟨[.hyps [⟨MPoly.var 1, .gt, [1]⟩, ⟨MPoly.var 0, .gt, [0]⟩], .goal ⟨(MPoly.var 0).add (MPoly.const 1), .gt, [0]⟩],
    by simp, by decide, by decide +kernel⟩

/-! ### What is left in the object -/

/-- The numbers are the positions of the hypotheses in `H`, in this order. -/
def Numbered (H : List Atom) (hyps : List Atom) (ids : List ℕ) : Prop :=
  hyps.map some = ids.map (fun i => H[i]?) ∧ ids.Pairwise (· < ·)

theorem numbered_erase {H hyps : List Atom} {ids : List ℕ} (h : Numbered H hyps ids) (i : ℕ) :
    Numbered H (hyps.take i ++ hyps.drop (i + 1)) (ids.take i ++ ids.drop (i + 1)) := by
  refine ⟨?_, ?_⟩
  · rw [List.map_append, List.map_append, List.map_take, List.map_drop, List.map_take, List.map_drop, h.1]
  · rw [← List.eraseIdx_eq_take_drop_succ]
    exact h.2.sublist (List.eraseIdx_sublist ids i)

theorem promoteLeft_numbered {S : Sage K} {H : List Atom} {st : State} {i : ℕ} (h : Numbered H st.hyps st.ids) :
    Numbered H (promoteLeft S st i).hyps (promoteLeft S st i).ids := by
  unfold promoteLeft
  cases hp : st.promote S i with
  | ok st' =>
    obtain ⟨a, g, ha, hg, rfl⟩ := promote_ok hp
    exact numbered_erase h i
  | error e =>
    simp only
    split
    · exact numbered_erase h i
    · exact h

theorem roundLeft_numbered {C : Core K} {H : List Atom} {n : ℕ} {st : State} (h : Numbered H st.hyps st.ids) :
    Numbered H (roundLeft C n st).hyps (roundLeft C n st).ids := by
  unfold roundLeft
  split
  · exact h
  · split
    · exact h
    · split
      · exact h
      · split
        · exact h
        · split
          · exact h
          · exact promoteLeft_numbered h

theorem checkLeft_numbered {C : Core K} {H : List Atom} : ∀ (fuel n : ℕ) (st : State), Numbered H st.hyps st.ids →
    Numbered H (checkLeft C fuel n st).2.2.hyps (checkLeft C fuel n st).2.2.ids
  | 0, _, _, h => h
  | fuel + 1, n, st, h => by
    unfold checkLeft
    split
    · exact roundLeft_numbered h
    · exact h
    · next b st' hr =>
      obtain ⟨i, hi⟩ := round_some hr
      have h' : Numbered H st'.hyps st'.ids := by
        obtain ⟨a, g, ha, hg, rfl⟩ := promote_ok hi
        exact numbered_erase h i
      have ih := checkLeft_numbered (C := C) fuel (n + 1) st' h'
      split
      · next heq => rw [heq] at ih; exact ih
      · next heq => rw [heq] at ih; exact ih

theorem numbered_lt {H hyps : List Atom} {ids : List ℕ} (h : Numbered H hyps ids) : ∀ i ∈ ids, i < H.length := by
  intro i hi
  have : H[i]? ∈ ids.map (fun i => H[i]?) := List.mem_map_of_mem hi
  rw [← h.1] at this
  obtain ⟨a, -, ha⟩ := List.mem_map.1 this
  exact (List.getElem?_eq_some_iff.1 ha.symm).1

theorem run_numbered (C : Core K) (ops : List DOp) :
    Numbered (asserted ops) (Decider.new.run C ops).hyps (Decider.new.run C ops).ids ∧
      (Decider.new.run C ops).next = (asserted ops).length := by
  induction ops using List.reverseRecOn with
  | nil => exact ⟨⟨rfl, List.Pairwise.nil⟩, rfl⟩
  | append_singleton ops op ih =>
    rw [run_append]
    show Numbered _ ((Decider.new.run C ops).step C op).2.hyps ((Decider.new.run C ops).step C op).2.ids ∧
      ((Decider.new.run C ops).step C op).2.next = _
    have hap : asserted (ops ++ [op]) = asserted ops ++ asserted [op] := List.flatMap_append
    rw [hap]
    generalize Decider.new.run C ops = d at ih
    generalize asserted ops = H at ih
    obtain ⟨ih, hnext⟩ := ih
    cases op with
    | hyps as =>
      have : asserted [DOp.hyps as] = as := by simp [asserted]
      rw [this]
      refine ⟨⟨?_, ?_⟩, ?_⟩
      · show (d.hyps ++ as).map some = (d.ids ++ (List.range as.length).map (fun i => d.next + i)).map _
        rw [List.map_append, List.map_append, ih.1]
        congr 1
        · apply List.map_congr_left
          intro i hi
          rw [List.getElem?_append_left (numbered_lt ih i hi)]
        · rw [hnext, List.map_map]
          apply List.ext_getElem?
          intro k
          by_cases hk : k < as.length
          · simp [hk]
          · simp [hk]
      · show (d.ids ++ (List.range as.length).map (fun i => d.next + i)).Pairwise _
        rw [List.pairwise_append]
        refine ⟨ih.2, ?_, ?_⟩
        · rw [List.pairwise_map]
          exact List.pairwise_lt_range.imp (fun h => by omega)
        · intro a ha b hb
          obtain ⟨k, -, rfl⟩ := List.mem_map.1 hb
          have := numbered_lt ih a ha
          omega
      · show d.next + as.length = _
        rw [hnext, List.length_append]
    | goal g =>
      have : asserted [DOp.goal g] = [] := by simp [asserted]
      rw [this, List.append_nil]
      exact ⟨ih, hnext⟩
    | check =>
      have : asserted [DOp.check] = [] := by simp [asserted]
      rw [this, List.append_nil]
      show Numbered H (d.check C).2.hyps (d.check C).2.ids ∧ (d.check C).2.next = _
      unfold Decider.check
      split
      · exact ⟨ih, hnext⟩
      · exact ⟨checkLeft_numbered _ _ ⟨d.hyps, _, d.ids⟩ ih, hnext⟩

/-- **C103**, what is left: after every history, with any exceptions caught, the hypotheses of the object are some of those
that have been asserted, in the order in which they have been asserted, each at most once, and the object knows which
ones they are. -/
theorem C103_left (C : Core K) (ops : List DOp) :
    (Decider.new.run C ops).hyps.map some = (Decider.new.run C ops).ids.map (fun i => (asserted ops)[i]?) ∧
      (Decider.new.run C ops).ids.Pairwise (· < ·) :=
  (run_numbered C ops).1

theorem checkLeft_rounds {C : Core K} (hS : SageOK C.toSage) : ∀ (fuel n : ℕ) (st : State), st.hyps.length < fuel →
    (checkLeft C fuel n st).2.1 + (checkLeft C fuel n st).2.2.hyps.length = n + st.hyps.length + 1
  | 0, _, _, h => by omega
  | fuel + 1, n, st, hf => by
    have hprom : ∀ i, (∃ st', st.promote C.toSage i = .ok st' ∧ st'.hyps.length + 1 = st.hyps.length) ∨
        (∃ e, st.promote C.toSage i = .error e) ∧ promoteLeft C.toSage st i = st := by
      intro i
      cases ha : st.hyps[i]? with
      | none =>
        have hp : st.promote C.toSage i = .error .indexError := by simp [State.promote, ha]
        refine Or.inr ⟨⟨_, hp⟩, ?_⟩
        have hi : ¬ i < st.hyps.length := by
          have := List.getElem?_eq_none_iff.1 ha
          omega
        simp only [promoteLeft, hp, if_neg hi]
      | some a =>
        obtain ⟨g, hg, -⟩ := (C37_partial C.toSage hS st.goal a).1
        refine Or.inl ⟨⟨st.hyps.take i ++ st.hyps.drop (i + 1), g, st.ids.take i ++ st.ids.drop (i + 1)⟩, ?_, ?_⟩
        · simp [State.promote, ha, hg, bind, Except.bind]
        · have := (List.getElem?_eq_some_iff.1 ha).1
          simp only [List.length_append, List.length_take, List.length_drop]
          omega
    have hleft : ∀ e, round C n st = .error e → roundLeft C n st = st := by
      intro e he
      unfold round at he
      simp only [bind, Except.bind] at he
      unfold roundLeft
      split
      · rfl
      · next ds hds =>
        rw [hds] at he
        simp only at he
        split
        · rfl
        · next r hr =>
          rw [hr] at he
          simp only at he
          split
          · rfl
          · next hb =>
            rw [if_neg hb] at he
            split
            · rfl
            · next cand hc =>
              rw [hc] at he
              simp only at he
              split
              · rfl
              · next i _ hs =>
                rw [hs] at he
                simp only at he
                rcases hprom i with ⟨st', h1, -⟩ | ⟨-, h2⟩
                · rw [h1] at he
                  cases he
                · exact h2
    unfold checkLeft
    split
    · next e hr =>
      rw [hleft e hr]
      show n + 1 + st.hyps.length = _
      omega
    · show n + 1 + st.hyps.length = _
      omega
    · next b st' hr =>
      obtain ⟨i, hi⟩ := round_some hr
      have hlen : st'.hyps.length + 1 = st.hyps.length := by
        rcases hprom i with ⟨st'', h1, h2⟩ | ⟨⟨e, h1⟩, -⟩
        · rw [hi] at h1
          cases h1
          exact h2
        · rw [hi] at h1
          cases h1
      have ih := checkLeft_rounds hS fuel (n + 1) st' (by omega)
      split
      · next heq => rw [heq] at ih; simp only at ih ⊢; omega
      · next heq => rw [heq] at ih; simp only at ih ⊢; omega

/-- **C103**, the number of rounds: in every check of an object with a goal, whether it returns or raises, the number of
rounds (sample computations) is one more than the number of hypotheses that have been moved to the goal; no hypothesis is
lost by an exception. -/
theorem C103_rounds (C : Core K) (hS : SageOK C.toSage) (d : Decider) (g : Goal) (hg : d.goal = some g) :
    (d.check C).2.rounds + (d.check C).2.hyps.length = d.rounds + d.hyps.length + 1 := by
  unfold Decider.check
  rw [hg]
  exact checkLeft_rounds hS (d.hyps.length + 1) d.rounds ⟨d.hyps, g, d.ids⟩ (by simp)

/-- A history as in C103_left and C103_rounds: the object has two hypotheses and a goal, one hypothesis is promoted in the
first of two rounds, and the other one, with the number 0, is left. -/
example : let d := Decider.new.run soundCore [.hyps [⟨MPoly.var 1, .gt, [1]⟩, ⟨MPoly.var 0, .gt, [0]⟩],
      .goal ⟨(MPoly.var 0).add (MPoly.const 1), .gt, [0]⟩]
    SageOK soundCore.toSage ∧ d.goal.isSome ∧ d.ids = [0, 1] ∧ (d.check soundCore).2.ids = [0] ∧
      (d.check soundCore).2.rounds = 2 :=
  ⟨soundCore_ok.1, by decide +kernel⟩

/-- The assumption on Sage is needed: if the computed basis is empty, the access to its first element raises when a second
hypothesis is promoted, and this hypothesis is gone. -/
theorem C103_lost : ∃ (C : Core ℚ) (d : Decider) (g : Goal), d.goal = some g ∧
    (d.check C).1 = .error .indexError ∧ (d.check C).2.rounds = d.rounds + 1 ∧ d.hyps.length = 2 ∧
    (d.check C).2.hyps.length = 1 ∧ (d.check C).2.goal = some g := by
  refine ⟨{ soundCore with gbasis := fun _ => [] }, ⟨[⟨MPoly.var 1, .gt, [1]⟩, ⟨MPoly.var 0, .eq, [0]⟩],
    [1, 2], some ⟨⟨(MPoly.var 0).add (MPoly.const 1), .gt, [0]⟩, [⟨MPoly.var 1, .gt, [1]⟩], []⟩, 0, 3⟩, _, rfl, ?_⟩
  decide +kernel

end Verif.Grf
