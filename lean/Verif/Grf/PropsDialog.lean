import Verif.Grf.PropsInteractive
import Verif.Grf.PropsSelect

/-!
# C71: which lines of an interactive session count

With a solver that finds a solution when there is one, the lines `s`, `b`, `p`, texts that are no command and numbers out
of range are ignored; the first line that is a number in range promotes the hypothesis with this number.
-/

set_option linter.unusedSectionVars false

namespace Verif.Grf

variable {K : Type} [Field K] [LinearOrder K] [IsStrictOrderedRing K]

theorem trueHyps_length (S : Sage K) (d : Dict K) : ∀ (hs : List Atom) (j : ℕ) (l : List ℕ),
    trueHyps S d j hs = .ok l → l.length ≤ hs.length := by
  intro hs
  induction hs with
  | nil => intro j l h; cases h; simp
  | cons a hs ih =>
    intro j l h
    unfold trueHyps at h
    simp only [bind, Except.bind] at h
    split at h
    · cases h
    · split at h
      · cases h
      · next l' hl =>
        have := ih _ _ hl
        cases h
        split <;> simp <;> omega

theorem badLoop_proper (S : Sage K) (st : State) : ∀ (ds : List (Dict K)) (bads out : List (List ℕ)),
    badLoop S st ds bads = .ok out →
    (∀ b ∈ bads, ∃ i < st.hyps.length, i ∉ b) → ∀ b ∈ out, ∃ i < st.hyps.length, i ∉ b := by
  intro ds
  induction ds with
  | nil => intro bads out h hb; cases h; exact hb
  | cons d ds ih =>
    intro bads out h hb
    unfold badLoop at h
    simp only [bind, Except.bind] at h
    split at h
    · cases h
    · next g hg =>
      split at h
      · exact ih bads out h hb
      · split at h
        · cases h
        · next b' hb' =>
          split at h
          · cases h
          · next hlen =>
            refine ih _ out h ?_
            intro b hbm
            have hnew : ∃ i < st.hyps.length, i ∉ b' := by
              by_contra hno
              push Not at hno
              have h1 : (List.range st.hyps.length).Subperm b' :=
                List.subperm_of_subset List.nodup_range fun i hi => hno i (List.mem_range.1 hi)
              have h2 := h1.length_le
              have h3 := trueHyps_length S d st.hyps 0 b' hb'
              rw [List.length_range] at h2
              omega
            unfold addBad at hbm
            split at hbm
            · rcases List.mem_append.1 hbm with hbm | hbm
              · exact hb b (List.mem_dedup.1 (List.mem_filter.1 hbm).1)
              · rw [List.mem_singleton] at hbm; subst hbm; exact hnew
            · exact hb b hbm

theorem allBads_proper (C : Core K) (n : ℕ) (st : State) : ∀ (ds : List (Dict K)) (r : Bool × List (List ℕ)),
    allBads C n st ds = .ok r → ∀ b ∈ r.2, ∃ i < st.hyps.length, i ∉ b := by
  intro ds
  induction ds with
  | nil => intro r h; cases h; simp
  | cons d ds ih =>
    intro r h
    unfold allBads at h
    simp only [bind, Except.bind] at h
    split at h
    · cases h
    · next o ho =>
      split at h
      · cases h
      · next r' hr' =>
        have h1 := ih r' hr'
        cases o with
        | none => cases h; exact h1
        | some bs =>
          cases h
          intro b hb
          rcases List.mem_append.1 hb with hb | hb
          · unfold badSubsets at ho
            simp only [bind, Except.bind] at ho
            split at ho
            · cases ho
            · split at ho
              · cases ho
              · split at ho
                · cases ho
                · split at ho
                  · cases ho
                  · split at ho
                    · cases ho
                    · next hbl =>
                      cases ho
                      exact badLoop_proper _ _ _ _ _ hbl (by simp) b hb
          · exact h1 b hb

/-- A line that does nothing when there are at most `N` hypotheses: `s`, `b`, `p`, a text that is no command and no number,
or a number that is negative or at least `N`. -/
def Idle (int : List Char → Option ℤ) (N : ℕ) (line : List Char) : Prop :=
  Says "s" line ∨ Says "b" line ∨ Says "p" line ∨
    (¬ Says "go" line ∧ ∀ h, int (line.map Char.toLower) = some h → h < 0 ∨ (N : ℤ) ≤ h)

theorem suggestion_ok (C : Core K) (hC : SolverOK C) (hC' : SolverComplete C) (st : State) (bads : List (List ℕ))
    (hb : ∀ b ∈ bads, ∃ i < st.hyps.length, i ∉ b) : suggestion C st bads = .ok () := by
  obtain ⟨s, hs⟩ := hC' st.hyps.length bads (weightHyps st) hb
  have hlt := (hC _ _ _ _ hs).1
  unfold suggestion goodHyps
  rw [hs]
  simp only [bind, Except.bind]
  rw [if_neg]
  rintro ⟨-, h⟩
  apply h
  rw [List.all_eq_true]
  intro i hi
  exact decide_eq_true (hlt i hi)

theorem prompt_idle (C : Core K) (int : List Char → Option ℤ) (hC : SolverOK C) (hC' : SolverComplete C) (st : State)
    (bads : List (List ℕ)) (hb : ∀ b ∈ bads, ∃ i < st.hyps.length, i ∉ b) (line : List Char) (rest : List (List Char))
    (hl : Idle int st.hyps.length line) : prompt C int st bads (line :: rest) = prompt C int st bads rest := by
  conv_lhs => unfold prompt
  cases hc : readCmd int line with
  | suggest =>
    simp only
    rw [suggestion_ok C hC hC' st bads hb]
    rfl
  | info => rfl
  | invalid => rfl
  | go =>
    exfalso
    have hg := readCmd_go.1 hc
    rcases hl with h | h | h | h
    · exact says_excl hg (by decide) h
    · exact says_excl hg (by decide) h
    · exact says_excl hg (by decide) h
    · exact h.1 hg
  | promote z =>
    simp only
    rw [if_neg]
    rintro ⟨h1, h2⟩
    have ht := typedNumber_iff.2 hc
    unfold typedNumber at ht
    split at ht
    · cases ht
    · next hno =>
      rcases hl with h | h | h | h
      · exact hno (Or.inl h)
      · exact hno (Or.inr (Or.inr (Or.inl h)))
      · exact hno (Or.inr (Or.inr (Or.inr h)))
      · have := h.2 z ht
        omega

theorem iCheck_asks (C : Core K) (int : List Char → Option ℤ) (fuel n : ℕ) (st : State)
    (h : iCheck C int (fuel + 1) n true st [] = .error .eof) :
    ∃ ds bads, C.samples n st = .ok ds ∧ allBads C n st ds = .ok (false, bads) := by
  unfold iCheck at h
  simp only [bind, Except.bind] at h
  cases hds : C.samples n st with
  | error e => rw [hds] at h; cases h
  | ok ds =>
    rw [hds] at h
    simp only [liftG] at h
    cases hb : allBads C n st ds with
    | error e => rw [hb] at h; cases h
    | ok r =>
      rw [hb] at h
      obtain ⟨b, bads⟩ := r
      cases b
      · exact ⟨ds, bads, rfl, hb⟩
      · cases h

/-- **C71** (first answer): if the session asks for a line (with no input, it ends with `EOFError`), then after lines that do
nothing a number `h` in range promotes the hypothesis with this number: the session goes on with the lines that follow, and
without this hypothesis on the left. -/
theorem C71_answer (C : Core K) (hC : SolverOK C) (hC' : SolverComplete C) (hS : SageOK C.toSage)
    (int : List Char → Option ℤ) (fuel n : ℕ) (st : State) (pre rest : List (List Char)) (line : List Char) (h : ℕ)
    (hask : iCheck C int (fuel + 1) n true st [] = .error .eof) (hpre : ∀ l ∈ pre, Idle int st.hyps.length l)
    (hline : ¬ Says "s" line ∧ ¬ Says "go" line ∧ ¬ Says "b" line ∧ ¬ Says "p" line)
    (hint : int (line.map Char.toLower) = some (h : ℤ)) (a : Atom) (ha : st.hyps[h]? = some a) :
    ∃ st', st.goal.addHyp C.toSage a = .ok st'.goal ∧ st'.hyps = st.hyps.eraseIdx h ∧ st'.ids = st.ids.eraseIdx h ∧
      (∀ e, iCheck C int (fuel + 1) n true st (pre ++ line :: rest) = .error e ↔
        iCheck C int fuel (n + 1) true st' rest = .error e) ∧
      ∀ fin left, (∃ ret, iCheck C int (fuel + 1) n true st (pre ++ line :: rest) = .ok (ret, fin, left)) ↔
        ∃ ret, iCheck C int fuel (n + 1) true st' rest = .ok (ret, fin, left) := by
  obtain ⟨ds, bads, hds, hb⟩ := iCheck_asks C int fuel n st hask
  have hproper := allBads_proper C n st ds _ hb
  have hskip : prompt C int st bads (pre ++ line :: rest) = prompt C int st bads (line :: rest) := by
    clear hask
    induction pre with
    | nil => rfl
    | cons l pre ih =>
      rw [List.cons_append, prompt_idle C int hC hC' st bads hproper l _ (hpre l (by simp))]
      exact ih fun l' hl' => hpre l' (by simp [hl'])
  have hcmd : readCmd int line = .promote (h : ℤ) := by
    rw [← typedNumber_iff]
    unfold typedNumber
    rw [if_neg (by tauto), hint]
  obtain ⟨hlt, -⟩ := List.getElem?_eq_some_iff.1 ha
  obtain ⟨g, hg⟩ : ∃ g, st.goal.addHyp C.toSage a = .ok g := ⟨_, addHyp_ok hS st.goal a⟩
  have hp : st.promote C.toSage h = .ok ⟨st.hyps.take h ++ st.hyps.drop (h + 1), g, st.ids.take h ++ st.ids.drop (h + 1)⟩ := by
    unfold State.promote
    rw [ha]
    simp only [bind, Except.bind]
    rw [hg]
  have hmain : iCheck C int (fuel + 1) n true st (pre ++ line :: rest) =
      (iCheck C int fuel (n + 1) true ⟨st.hyps.take h ++ st.hyps.drop (h + 1), g, st.ids.take h ++ st.ids.drop (h + 1)⟩
        rest).map fun r => (bads, r.2) := by
    conv_lhs => unfold iCheck
    rw [hds]
    simp only [liftG, bind, Except.bind]
    rw [hb]
    simp only [Bool.false_eq_true, if_false]
    rw [hskip]
    conv_lhs => unfold prompt
    rw [hcmd]
    simp only
    rw [if_pos ⟨by omega, by exact_mod_cast hlt⟩]
    simp only [Int.toNat_natCast]
    rw [hp]
    simp only [liftG, bind, Except.bind]
    cases iCheck C int fuel (n + 1) true _ rest <;> rfl
  refine ⟨⟨st.hyps.take h ++ st.hyps.drop (h + 1), g, st.ids.take h ++ st.ids.drop (h + 1)⟩, hg,
    (List.eraseIdx_eq_take_drop_succ _ _).symm, (List.eraseIdx_eq_take_drop_succ _ _).symm, ?_, ?_⟩
  · intro e
    rw [hmain]
    cases iCheck C int fuel (n + 1) true
      ⟨st.hyps.take h ++ st.hyps.drop (h + 1), g, st.ids.take h ++ st.ids.drop (h + 1)⟩ rest <;> simp [Except.map]
  · intro fin left
    rw [hmain]
    cases iCheck C int fuel (n + 1) true
      ⟨st.hyps.take h ++ st.hyps.drop (h + 1), g, st.ids.take h ++ st.ids.drop (h + 1)⟩ rest with
    | error e => simp [Except.map]
    | ok r => obtain ⟨r1, r2, r3⟩ := r; simp [Except.map]

theorem Idle.anti {int : List Char → Option ℤ} {N M : ℕ} {line : List Char} (h : Idle int N line) (hMN : M ≤ N) :
    Idle int M line := by
  rcases h with h | h | h | ⟨h, h'⟩
  · exact Or.inl h
  · exact Or.inr (Or.inl h)
  · exact Or.inr (Or.inr (Or.inl h))
  · refine Or.inr (Or.inr (Or.inr ⟨h, fun x hx => ?_⟩))
    have := h' x hx
    omega

theorem prompt_filter (C : Core K) (int : List Char → Option ℤ) (hC : SolverOK C) (hC' : SolverComplete C) (st : State)
    (bads : List (List ℕ)) (hb : ∀ b ∈ bads, ∃ i < st.hyps.length, i ∉ b) (keep : List Char → Bool)
    (hk : ∀ l, keep l = false → Idle int st.hyps.length l) : ∀ lines : List (List Char),
    prompt C int st bads (lines.filter keep) =
      (prompt C int st bads lines).map fun r => (r.1, r.2.1, r.2.2.filter keep) := by
  intro lines
  induction lines with
  | nil => rfl
  | cons l lines ih =>
    cases hl : keep l with
    | false =>
      rw [List.filter_cons_of_neg (by simp [hl]), prompt_idle C int hC hC' st bads hb l lines (hk l hl)]
      exact ih
    | true =>
      rw [List.filter_cons_of_pos hl]
      unfold prompt
      cases readCmd int l with
      | suggest =>
        simp only [bind, Except.bind]
        cases liftG (suggestion C st bads) with
        | error e => rfl
        | ok u => exact ih
      | info => exact ih
      | invalid => exact ih
      | go =>
        simp only [bind, Except.bind]
        cases liftG (goodHyps C st bads) with
        | error e => rfl
        | ok cand =>
          simp only
          cases sortCand st cand with
          | nil => rfl
          | cons i _ => simp only; cases liftG (st.promote C.toSage i) <;> rfl
      | promote z =>
        simp only [bind, Except.bind]
        split
        · cases liftG (st.promote C.toSage z.toNat) <;> rfl
        · exact ih

theorem prompt_fewer (C : Core K) (int : List Char → Option ℤ) (st : State) (bads : List (List ℕ)) :
    ∀ (lines : List (List Char)) (p : State × Bool × List (List Char)), prompt C int st bads lines = .ok p →
      p.1.hyps.length ≤ st.hyps.length := by
  have hpr : ∀ i st', st.promote C.toSage i = .ok st' → st'.hyps.length ≤ st.hyps.length := by
    intro i st' h
    have := promote_hyps h
    omega
  intro lines
  induction lines with
  | nil => intro p h; cases h
  | cons l lines ih =>
    intro p h
    unfold prompt at h
    cases hc : readCmd int l with
    | suggest =>
      rw [hc] at h
      obtain ⟨u, -, h⟩ := (liftG_bind _ _ _).1 h
      exact ih p h
    | info => rw [hc] at h; exact ih p h
    | invalid => rw [hc] at h; exact ih p h
    | go =>
      rw [hc] at h
      obtain ⟨cand, -, h⟩ := (liftG_bind _ _ _).1 h
      split at h
      · cases h
      · obtain ⟨st', h1, h⟩ := (liftG_bind _ _ _).1 h
        cases h
        exact hpr _ _ h1
    | promote z =>
      rw [hc] at h
      simp only at h
      split at h
      · obtain ⟨st', h1, h⟩ := (liftG_bind _ _ _).1 h
        cases h
        exact hpr _ _ h1
      · exact ih p h

/-- **C71** (ignored lines): any lines that do nothing with the hypotheses there are at the beginning can be left out
everywhere in the session, with no effect on the result. -/
theorem C71_ignored (C : Core K) (hC : SolverOK C) (hC' : SolverComplete C) (int : List Char → Option ℤ) (N : ℕ)
    (keep : List Char → Bool) (hk : ∀ l, keep l = false → Idle int N l) : ∀ (fuel n : ℕ) (b : Bool) (st : State)
    (lines : List (List Char)), st.hyps.length ≤ N →
    dropRest (iCheck C int fuel n b st (lines.filter keep)) = dropRest (iCheck C int fuel n b st lines) := by
  suffices H : ∀ (fuel n : ℕ) (b : Bool) (st : State) (lines : List (List Char)), st.hyps.length ≤ N →
      iCheck C int fuel n b st (lines.filter keep) =
      (iCheck C int fuel n b st lines).map fun r => (r.1, r.2.1, r.2.2.filter keep) by
    intro fuel n b st lines hN
    rw [H fuel n b st lines hN]
    cases iCheck C int fuel n b st lines <;> rfl
  intro fuel
  induction fuel with
  | zero => intro n b st lines _; cases b <;> rfl
  | succ fuel ih =>
    intro n b st lines hN
    cases b with
    | false =>
      unfold iCheck
      cases check C (fuel + 1) n st <;> rfl
    | true =>
      unfold iCheck
      simp only [bind, Except.bind]
      cases C.samples n st with
      | error e => rfl
      | ok ds =>
        simp only [liftG]
        cases hb : allBads C n st ds with
        | error e => rfl
        | ok r =>
          simp only
          by_cases hr : r.1 = true
          · simp only [hr, if_true]; rfl
          · simp only [hr]
            rw [prompt_filter C int hC hC' st r.2 (allBads_proper C n st ds _ hb) keep fun l hl => (hk l hl).anti hN]
            cases hp : prompt C int st r.2 lines with
            | error e => rfl
            | ok p =>
              simp only [Except.map]
              rw [ih _ _ _ _ ((prompt_fewer C int st r.2 lines p hp).trans hN)]
              cases iCheck C int fuel (n + 1) p.2.1 p.1 p.2.2 <;> rfl

/-- The session on `x1 > 0, x0 > 0 ⊢ x0 + 1 > 0` in which `s`, `b`, an unknown word, a number out of range and `1` are typed
in. All hypotheses of `C71_answer` and `C71_ignored` are met, and the lines kept are `1` and `0`. -/
example : let C := testCore [[(0, -2), (1, 1)], [(0, 1), (1, 1)]] []
    let pre := [['S'], ['b'], ['x', 'y'], ['2']]
    SolverOK C ∧ SolverComplete C ∧ SageOK C.toSage ∧
    (∀ l ∈ pre, Idle testInt testState₂.hyps.length l) ∧ testInt (['1'].map Char.toLower) = some ((1 : ℕ) : ℤ) ∧
    (¬ Says "s" ['1'] ∧ ¬ Says "go" ['1'] ∧ ¬ Says "b" ['1'] ∧ ¬ Says "p" ['1']) ∧
    (match iCheck C testInt 3 0 true testState₂ [] with | .error .eof => true | _ => false) = true ∧
    ((iCheck C testInt 3 0 true testState₂ (pre ++ ['1'] :: [['0']])).toOption.map
      fun r => (r.1, r.2.1.hyps, r.2.1.goal.hyps, r.2.2)) =
      some ([[0]], [⟨MPoly.var 1, .gt, [1]⟩], [⟨MPoly.var 0, .gt, [0]⟩], [['0']]) := by
  intro C pre
  refine ⟨(bruteSolve_ok _ _).1, (bruteSolve_ok _ _).2, testSage_ok, ?_, by decide +kernel, by decide +kernel, by decide +kernel,
    by decide +kernel⟩
  intro l hl
  unfold Idle
  simp only [pre, List.mem_cons, List.not_mem_nil, or_false] at hl
  rcases hl with rfl | rfl | rfl | rfl
  · exact Or.inl (by decide +kernel)
  · exact Or.inr (Or.inl (by decide +kernel))
  · refine Or.inr (Or.inr (Or.inr ⟨by decide +kernel, fun h hh => ?_⟩))
    rw [show testInt (['x', 'y'].map Char.toLower) = none by decide +kernel] at hh
    cases hh
  · refine Or.inr (Or.inr (Or.inr ⟨by decide +kernel, fun h hh => ?_⟩))
    rw [show testInt (['2'].map Char.toLower) = some 2 by decide +kernel] at hh
    cases hh
    exact Or.inr (by decide +kernel)

end Verif.Grf
