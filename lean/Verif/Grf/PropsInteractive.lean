import Verif.Grf.Interactive
import Verif.Grf.PropsLoop

/-!
# C71: the interactive mode of the goal-directed decision loop
-/

set_option linter.unusedSectionVars false

namespace Verif.Grf

variable {K : Type} [Field K] [LinearOrder K] [IsStrictOrderedRing K]

/-- Promotion of the hypotheses at the positions `is`, one after the other, leads from `st` to `st'`. -/
inductive Promotes (S : Sage K) : State → List ℕ → State → Prop
  | refl (st : State) : Promotes S st [] st
  | step (st st₁ st' : State) (i : ℕ) (is : List ℕ) (h : st.promote S i = .ok st₁) (hs : Promotes S st₁ is st') :
      Promotes S st (i :: is) st'

theorem Promotes.of_rounds {C : Core K} {n k : ℕ} {st st' : State} (h : Rounds C n st k st') :
    ∃ is, Promotes C.toSage st is st' := by
  induction h with
  | refl n st => exact ⟨[], .refl st⟩
  | step n k st st₁ st' bads h hs ih =>
    obtain ⟨i, hi⟩ := round_some h
    obtain ⟨is, his⟩ := ih
    exact ⟨i :: is, .step _ _ _ _ _ hi his⟩

theorem Promotes.inv {S : Sage K} (hS : SageOK S) {st st' : State} {is : List ℕ} (h : Promotes S st is st') :
    ∃ ps : List Atom, ps.length = is.length ∧ (ps ++ st'.hyps).Perm st.hyps ∧ st'.goal.main = st.goal.main ∧
      ∀ ρ : ℕ → K, (∀ b ∈ st.goal.gb, b.eval ρ = 0) → (∀ a ∈ st.goal.hyps, a.holds ρ) → (∀ a ∈ ps, a.holds ρ) →
        ∀ a ∈ st'.goal.hyps, a.holds ρ := by
  induction h with
  | refl st => exact ⟨[], rfl, List.Perm.refl _, rfl, fun ρ _ h _ => h⟩
  | step st st₁ st' i is hi hs ih =>
    obtain ⟨ps, h0, h1, h2, h3⟩ := ih
    obtain ⟨a, g, ha, hg, rfl⟩ := promote_ok hi
    obtain ⟨g', hg', hm, hsem⟩ := (C37_partial S hS st.goal a).1
    rw [hg] at hg'
    cases hg'
    refine ⟨a :: ps, by simp [h0], (List.Perm.cons a h1).trans (take_drop_perm ha), h2.trans hm, ?_⟩
    intro ρ hb hh hp
    have := (hsem ρ).1 hb hh (hp a (by simp))
    exact h3 ρ this.1 this.2 fun x hx => hp x (by simp [hx])

/-- The goal of the last state was true at all the sample points of the core. -/
def LastTrue (C : Core K) (n : ℕ) (st : State) : Prop :=
  ∃ ds, C.samples n st = .ok ds ∧ ∀ d ∈ ds, st.goal.evalOnDict C.toSage d = .ok true

/-- A line is the given word, up to case. -/
def Says (word : String) (line : List Char) : Prop := line.map Char.toLower = word.toList

instance (word : String) (line : List Char) : Decidable (Says word line) := by unfold Says; infer_instance

/-- The number a line denotes, if it is not one of the words `s`, `go`, `b`, `p`. -/
def typedNumber (int : List Char → Option ℤ) (line : List Char) : Option ℤ :=
  if Says "s" line ∨ Says "go" line ∨ Says "b" line ∨ Says "p" line then none else int (line.map Char.toLower)

/-- A line without effect on the result: `b`, `p`, or a text that is neither a command nor a number. -/
def Harmless (int : List Char → Option ℤ) (line : List Char) : Bool :=
  decide (Says "b" line ∨ Says "p" line) ||
    (decide (¬ Says "s" line ∧ ¬ Says "go" line) && (int (line.map Char.toLower)).isNone)

theorem says_excl {line : List Char} {a b : String} (h : Says a line) (hab : a.toList ≠ b.toList) : ¬ Says b line :=
  fun h' => hab (h.symm.trans h')

/-- What the commands are, in terms of the text of the line. -/
theorem readCmd_iff (int : List Char → Option ℤ) (line : List Char) :
    (readCmd int line = .suggest ↔ Says "s" line) ∧ (readCmd int line = .go ↔ Says "go" line) ∧
    (readCmd int line = .info ↔ Says "b" line ∨ Says "p" line) ∧
    (∀ h, readCmd int line = .promote h ↔ typedNumber int line = some h) ∧
    (readCmd int line = .info ∨ readCmd int line = .invalid ↔ Harmless int line = true) := by
  have e1 : Says "s" line ↔ line.map Char.toLower = ['s'] := Iff.rfl
  have e2 : Says "go" line ↔ line.map Char.toLower = ['g', 'o'] := Iff.rfl
  have e3 : Says "b" line ↔ line.map Char.toLower = ['b'] := Iff.rfl
  have e4 : Says "p" line ↔ line.map Char.toLower = ['p'] := Iff.rfl
  simp only [readCmd, typedNumber, Harmless, e1, e2, e3, e4]
  generalize line.map Char.toLower = i
  by_cases h1 : i = ['s']
  · subst h1; simp
  by_cases h2 : i = ['g', 'o']
  · subst h2; simp
  by_cases h3 : i = ['b']
  · subst h3; simp
  by_cases h4 : i = ['p']
  · subst h4; simp
  cases int i <;> simp [h1, h2, h3, h4]

theorem readCmd_suggest {int : List Char → Option ℤ} {line : List Char} : readCmd int line = .suggest ↔ Says "s" line :=
  (readCmd_iff int line).1

theorem readCmd_go {int : List Char → Option ℤ} {line : List Char} : readCmd int line = .go ↔ Says "go" line :=
  (readCmd_iff int line).2.1

theorem typedNumber_iff {int : List Char → Option ℤ} {line : List Char} {h : ℤ} :
    typedNumber int line = some h ↔ readCmd int line = .promote h := ((readCmd_iff int line).2.2.2.1 h).symm

theorem harmless_iff {int : List Char → Option ℤ} {line : List Char} :
    Harmless int line = true ↔ readCmd int line = .info ∨ readCmd int line = .invalid :=
  ((readCmd_iff int line).2.2.2.2).symm

theorem harmless_false {int : List Char → Option ℤ} {line : List Char} {c : Cmd} (hc : readCmd int line = c)
    (h1 : c ≠ .info) (h2 : c ≠ .invalid) : Harmless int line = false := by
  cases h : Harmless int line with
  | false => rfl
  | true =>
    rcases harmless_iff.1 h with h | h
    · exact absurd (hc.symm.trans h) h1
    · exact absurd (hc.symm.trans h) h2

theorem liftG_ok {α : Type} {x : Except GErr α} {a : α} : liftG x = .ok a ↔ x = .ok a := by
  cases x <;> simp [liftG]

theorem liftG_bind {α β : Type} (x : Except GErr α) (f : α → Except IErr β) (b : β) :
    (liftG x >>= f) = .ok b ↔ ∃ a, x = .ok a ∧ f a = .ok b := by
  cases x <;> simp [liftG, bind, Except.bind]

/-- One hypothesis is promoted at each prompt; unless `go` was typed it is one whose number was typed. -/
theorem prompt_spec (C : Core K) (int : List Char → Option ℤ) (st : State) (bads : List (List ℕ)) :
    ∀ (lines : List (List Char)) (st' : State) (b : Bool) (rest : List (List Char)),
      prompt C int st bads lines = .ok (st', b, rest) →
      ∃ (i : ℕ) (pre : List (List Char)) (l : List Char), st.promote C.toSage i = .ok st' ∧ lines = pre ++ l :: rest ∧
        ((b = true ∧ typedNumber int l = some (i : ℤ)) ∨ (b = false ∧ Says "go" l)) := by
  intro lines
  induction lines with
  | nil => intro st' b rest h; cases h
  | cons l lines ih =>
    intro st' b rest h
    have skip : prompt C int st bads lines = .ok (st', b, rest) →
        ∃ (i : ℕ) (pre : List (List Char)) (l' : List Char), st.promote C.toSage i = .ok st' ∧
          l :: lines = pre ++ l' :: rest ∧
          ((b = true ∧ typedNumber int l' = some (i : ℤ)) ∨ (b = false ∧ Says "go" l')) := by
      intro h
      obtain ⟨i, pre, l', h1, h2, h3⟩ := ih st' b rest h
      exact ⟨i, l :: pre, l', h1, by rw [h2]; rfl, h3⟩
    unfold prompt at h
    cases hc : readCmd int l with
    | suggest =>
      rw [hc] at h
      simp only at h
      obtain ⟨_, _, h⟩ := (liftG_bind _ _ _).1 h
      exact skip h
    | info => rw [hc] at h; exact skip h
    | invalid => rw [hc] at h; exact skip h
    | go =>
      rw [hc] at h
      simp only at h
      obtain ⟨cand, _, h⟩ := (liftG_bind _ _ _).1 h
      split at h
      · cases h
      · next i _ _ =>
        obtain ⟨st₁, h1, h⟩ := (liftG_bind _ _ _).1 h
        cases h
        exact ⟨i, [], l, h1, rfl, Or.inr ⟨rfl, readCmd_go.1 hc⟩⟩
    | promote z =>
      rw [hc] at h
      simp only at h
      split at h
      · next hz =>
        obtain ⟨st₁, h1, h⟩ := (liftG_bind _ _ _).1 h
        cases h
        refine ⟨z.toNat, [], l, h1, rfl, Or.inl ⟨rfl, ?_⟩⟩
        rw [typedNumber_iff.2 hc]
        congr 1
        omega
      · exact skip h

/-- What a session without exception amounts to. -/
theorem iCheck_spec (C : Core K) (int : List Char → Option ℤ) : ∀ (fuel n : ℕ) (b : Bool) (st : State)
    (lines : List (List Char)) (ret : List (List ℕ)) (st' : State) (rest : List (List Char)),
    iCheck C int fuel n b st lines = .ok (ret, st', rest) →
    ∃ is m, Promotes C.toSage st is st' ∧ LastTrue C m st' ∧
      (b = true → (∀ l ∈ lines, ¬ Says "go" l) → (is.map fun i => ((i : ℕ) : ℤ)).Sublist (lines.filterMap (typedNumber int))) := by
  intro fuel
  induction fuel with
  | zero => intro n b st lines ret st' rest h; cases b <;> cases h
  | succ fuel ih =>
    intro n b st lines ret st' rest h
    cases b with
    | false =>
      unfold iCheck at h
      obtain ⟨r, h1, h⟩ := (liftG_bind _ _ _).1 h
      cases h
      obtain ⟨k, ret', h2, h3⟩ := check_rounds C _ n st _ _ h1
      obtain ⟨is, his⟩ := Promotes.of_rounds h2
      exact ⟨is, n + k, his, round_none h3, by simp⟩
    | true =>
      unfold iCheck at h
      obtain ⟨ds, h1, h⟩ := (liftG_bind _ _ _).1 h
      obtain ⟨r, h2, h⟩ := (liftG_bind _ _ _).1 h
      split at h
      · next hr =>
        cases h
        refine ⟨[], n, .refl _, ?_, by simp⟩
        have hround : round C n st = .ok ([], none) := by
          unfold round
          simp only [bind, Except.bind, h1, h2, hr, if_true]
        exact round_none hround
      · next hr =>
        cases hp : prompt C int st r.2 lines with
        | error e => rw [hp] at h; cases h
        | ok p =>
          rw [hp] at h
          obtain ⟨st₁, b₁, lines₁⟩ := p
          simp only [bind, Except.bind] at h
          cases hi : iCheck C int fuel (n + 1) b₁ st₁ lines₁ with
          | error e => rw [hi] at h; cases h
          | ok out =>
            rw [hi] at h
            obtain ⟨ret₁, st₂, rest₁⟩ := out
            cases h
            obtain ⟨is, m, h3, h4, h5⟩ := ih _ _ _ _ _ _ _ hi
            obtain ⟨i, pre, l, e1, rfl, e3⟩ := prompt_spec C int st r.2 lines _ _ _ hp
            refine ⟨i :: is, m, .step _ _ _ _ _ e1 h3, h4, ?_⟩
            intro _ hgo
            rcases e3 with ⟨rfl, e3⟩ | ⟨rfl, e3⟩
            · have := h5 rfl fun l' hl' => hgo l' (by simp [hl'])
              rw [List.filterMap_append, List.filterMap_cons, e3, List.map_cons]
              exact (List.Sublist.cons_cons _ this).trans (List.sublist_append_right _ _)
            · exact absurd e3 (hgo l (by simp))

/-! ### C71 -/

/-- **C71**: whatever is typed in, if the session ends without an exception then the implication from the promoted
hypotheses to the goal is valid (with the assumptions of C34); and if `go` is not typed in, the promoted
hypotheses are those the user has typed the numbers of, in that order, and no others. -/
theorem C71_interactive_sound (C : Core K) (hS : SageOK C.toSage) (int : List Char → Option ℤ) (hyps : List Atom)
    (main : Atom) (fuel : ℕ) (lines rest : List (List Char)) (ret : List (List ℕ)) (st' : State) (ids : List ℕ)
    (h : iCheck C int fuel 0 true ⟨hyps, ⟨main, [], []⟩, ids⟩ lines = .ok (ret, st', rest))
    (hcore : ∀ n ds, C.samples n st' = .ok ds → (∀ d ∈ ds, st'.goal.evalOnDict C.toSage d = .ok true) →
      ∀ ρ : ℕ → K, (∀ a ∈ st'.goal.hyps, a.holds ρ) → st'.goal.main.holds ρ) :
    ∃ (ps : List Atom) (is : List ℕ), Promotes C.toSage ⟨hyps, ⟨main, [], []⟩, ids⟩ is st' ∧ ps.length = is.length ∧
      (ps ++ st'.hyps).Perm hyps ∧
      (∀ ρ : ℕ → K, (∀ a ∈ ps, a.holds ρ) → main.holds ρ) ∧
      (∀ ρ : ℕ → K, (∀ a ∈ hyps, a.holds ρ) → main.holds ρ) ∧
      ((∀ l ∈ lines, ¬ Says "go" l) →
        (is.map fun i => ((i : ℕ) : ℤ)).Sublist (lines.filterMap (typedNumber int))) := by
  obtain ⟨is, m, h1, ⟨ds, h2, h3⟩, h4⟩ := iCheck_spec C int fuel 0 true _ lines ret st' rest h
  have hvalid := hcore m ds h2 h3
  obtain ⟨ps, e0, e1, e2, e3⟩ := h1.inv hS
  have hps : ∀ ρ : ℕ → K, (∀ a ∈ ps, a.holds ρ) → main.holds ρ := by
    intro ρ hp
    have := hvalid ρ (e3 ρ (by simp) (by simp) hp)
    rwa [e2] at this
  exact ⟨ps, is, h1, e0, e1, hps, fun ρ hh => hps ρ fun a ha => hh a (e1.subset (by simp [ha])), h4 rfl⟩

/-- **C71** (termination): whatever is typed in, there are at most as many promotions as hypotheses. -/
theorem C71_terminates (C : Core K) (int : List Char → Option ℤ) (b : Bool) (st : State) (lines : List (List Char))
    (n fuel : ℕ) (hf : fuel ≥ st.hyps.length + 1) :
    iCheck C int fuel n b st lines = iCheck C int (st.hyps.length + 1) n b st lines := by
  have main : ∀ (m : ℕ) (st : State) (b : Bool) (lines : List (List Char)), st.hyps.length = m → ∀ n fuel, fuel ≥ m + 1 →
      iCheck C int fuel n b st lines = iCheck C int (m + 1) n b st lines := by
    intro m
    induction m with
    | zero =>
      intro st b lines hm n fuel hf
      obtain ⟨f, rfl⟩ : ∃ f, fuel = f + 1 := ⟨fuel - 1, by omega⟩
      cases b with
      | false =>
        unfold iCheck
        rw [(C33_terminates C st).2 n (f + 1) (by omega), hm]
      | true =>
        unfold iCheck
        congr 1; funext ds
        congr 1; funext r
        split
        · rfl
        · cases hp : prompt C int st r.2 lines with
          | error e => rfl
          | ok p =>
            obtain ⟨st₁, b₁, lines₁⟩ := p
            obtain ⟨i, _, _, e1, -, -⟩ := prompt_spec C int st r.2 lines _ _ _ hp
            have := promote_hyps e1
            omega
    | succ m ih =>
      intro st b lines hm n fuel hf
      obtain ⟨f, rfl⟩ : ∃ f, fuel = f + 1 := ⟨fuel - 1, by omega⟩
      cases b with
      | false =>
        unfold iCheck
        rw [(C33_terminates C st).2 n (f + 1) (by omega), (C33_terminates C st).2 n (m + 1 + 1) (by omega)]
      | true =>
        unfold iCheck
        congr 1; funext ds
        congr 1; funext r
        split
        · rfl
        · cases hp : prompt C int st r.2 lines with
          | error e => rfl
          | ok p =>
            obtain ⟨st₁, b₁, lines₁⟩ := p
            obtain ⟨i, _, _, e1, -, -⟩ := prompt_spec C int st r.2 lines _ _ _ hp
            have := promote_hyps e1
            simp only [bind, Except.bind]
            rw [ih st₁ b₁ lines₁ (by omega) (n + 1) f (by omega)]
  exact main _ st b lines rfl n fuel hf

/-- the result without the lines that are left -/
def dropRest {α β γ : Type} : Except IErr (α × β × γ) → Except IErr (α × β)
  | .ok r => .ok (r.1, r.2.1)
  | .error e => .error e

/-- **C71** (`go`): a session that begins with `go` has the result of the automatic mode. -/
theorem C71_go (C : Core K) (int : List Char → Option ℤ) (st : State) (line : List Char) (lines : List (List Char))
    (hgo : Says "go" line) (n fuel : ℕ) :
    dropRest (iCheck C int fuel n true st (line :: lines)) = liftG (check C fuel n st) := by
  have hc : readCmd int line = .go := readCmd_go.2 hgo
  cases fuel with
  | zero => rfl
  | succ fuel =>
    unfold iCheck check round
    simp only [bind, Except.bind]
    cases h1 : C.samples n st with
    | error e => rfl
    | ok ds =>
      simp only [liftG]
      cases h2 : allBads C n st ds with
      | error e => rfl
      | ok r =>
        simp only
        by_cases hr : r.1 = true
        · simp only [hr, if_true]; rfl
        · simp only [hr, Bool.false_eq_true, if_false]
          unfold prompt
          rw [hc]
          simp only [bind, Except.bind]
          cases h3 : goodHyps C st r.2 with
          | error e => rfl
          | ok cand =>
            simp only [liftG]
            cases h4 : sortCand st cand with
            | nil => rfl
            | cons i is =>
              simp only
              cases h5 : st.promote C.toSage i with
              | error e => rfl
              | ok st₁ =>
                simp only
                cases fuel with
                | zero => rfl
                | succ f =>
                  unfold iCheck
                  simp only [bind, Except.bind]
                  cases h6 : check C (f + 1) (n + 1) st₁ with
                  | error e => simp only [liftG, dropRest]
                  | ok out => simp only [liftG, dropRest]

theorem prompt_harmless (C : Core K) (int : List Char → Option ℤ) (st : State) (bads : List (List ℕ)) :
    ∀ lines : List (List Char), (prompt C int st bads (lines.filter fun l => !Harmless int l)) =
      (prompt C int st bads lines).map fun p => (p.1, p.2.1, p.2.2.filter fun l => !Harmless int l) := by
  intro lines
  induction lines with
  | nil => rfl
  | cons l lines ih =>
    cases hc : readCmd int l with
    | info =>
      rw [List.filter_cons_of_neg (by simp [harmless_iff.2, hc]), ih]
      conv_rhs => unfold prompt
      rw [hc]
    | invalid =>
      rw [List.filter_cons_of_neg (by simp [harmless_iff.2, hc]), ih]
      conv_rhs => unfold prompt
      rw [hc]
    | suggest =>
      rw [List.filter_cons_of_pos (by rw [harmless_false hc (by simp) (by simp)]; rfl)]
      unfold prompt
      rw [hc]
      simp only [bind, Except.bind]
      cases liftG (suggestion C st bads) with
      | error e => rfl
      | ok _ => exact ih
    | go =>
      rw [List.filter_cons_of_pos (by rw [harmless_false hc (by simp) (by simp)]; rfl)]
      unfold prompt
      rw [hc]
      simp only [bind, Except.bind]
      cases liftG (goodHyps C st bads) with
      | error e => rfl
      | ok cand =>
        simp only
        cases sortCand st cand with
        | nil => rfl
        | cons i is =>
          simp only
          cases liftG (st.promote C.toSage i) <;> rfl
    | promote z =>
      rw [List.filter_cons_of_pos (by rw [harmless_false hc (by simp) (by simp)]; rfl)]
      unfold prompt
      rw [hc]
      simp only [bind, Except.bind]
      split
      · cases liftG (st.promote C.toSage z.toNat) <;> rfl
      · exact ih

/-- **C71** (harmless lines): lines `b`, `p` and lines that are no command have no effect on the result. -/
theorem C71_harmless (C : Core K) (int : List Char → Option ℤ) : ∀ (fuel n : ℕ) (b : Bool) (st : State)
    (lines : List (List Char)), dropRest (iCheck C int fuel n b st (lines.filter fun l => !Harmless int l)) =
      dropRest (iCheck C int fuel n b st lines) := by
  suffices H : ∀ (fuel n : ℕ) (b : Bool) (st : State) (lines : List (List Char)),
      iCheck C int fuel n b st (lines.filter fun l => !Harmless int l) =
      (iCheck C int fuel n b st lines).map fun r => (r.1, r.2.1, r.2.2.filter fun l => !Harmless int l) by
    intro fuel n b st lines
    rw [H]
    cases iCheck C int fuel n b st lines <;> rfl
  intro fuel
  induction fuel with
  | zero => intro n b st lines; cases b <;> rfl
  | succ fuel ih =>
    intro n b st lines
    cases b with
    | false =>
      unfold iCheck
      cases check C (fuel + 1) n st <;> rfl
    | true =>
      unfold iCheck
      simp only [bind, Except.bind]
      cases liftG (C.samples n st) with
      | error e => rfl
      | ok ds =>
        simp only
        cases liftG (allBads C n st ds) with
        | error e => rfl
        | ok r =>
          simp only
          by_cases hr : r.1 = true
          · simp only [hr, if_true]; rfl
          · simp only [hr]
            rw [prompt_harmless]
            cases prompt C int st r.2 lines with
            | error e => rfl
            | ok p =>
              simp only [Except.map]
              rw [ih]
              cases iCheck C int fuel (n + 1) p.2.1 p.1 p.2.2 <;> rfl

/-- **C71** (no solver): as long as neither `s` nor `go` is typed in, the optimisation solver is not asked: the result is
the same with any other solver. In particular the failure of C36 does not occur. -/
theorem C71_no_solver (C : Core K) (int : List Char → Option ℤ) (solve : ℕ → List (List ℕ) → List ℕ → Option (List ℕ)) :
    ∀ (fuel n : ℕ) (st : State) (lines : List (List Char)),
      (∀ l ∈ lines, ¬ Says "go" l ∧ ¬ Says "s" l) →
      iCheck { C with solve := solve } int fuel n true st lines = iCheck C int fuel n true st lines := by
  have hprompt : ∀ (st : State) (bads : List (List ℕ)) (lines : List (List Char)),
      (∀ l ∈ lines, ¬ Says "go" l ∧ ¬ Says "s" l) →
      prompt { C with solve := solve } int st bads lines = prompt C int st bads lines := by
    intro st bads lines
    induction lines with
    | nil => intro _; rfl
    | cons l lines ih =>
      intro hl
      have ih := ih fun l' hl' => hl l' (by simp [hl'])
      unfold prompt
      cases hc : readCmd int l with
      | suggest => exact absurd (readCmd_suggest.1 hc) (hl l (by simp)).2
      | go => exact absurd (readCmd_go.1 hc) (hl l (by simp)).1
      | info => exact ih
      | invalid => exact ih
      | promote z =>
        simp only
        split
        · rfl
        · exact ih
  have hbad : ∀ (n : ℕ) (st : State) (ds : List (Dict K)),
      allBads { C with solve := solve } n st ds = allBads C n st ds := by
    intro n st ds
    induction ds with
    | nil => rfl
    | cons d ds ih =>
      unfold allBads
      rw [ih]
      rfl
  intro fuel
  induction fuel with
  | zero => intro n st lines _; rfl
  | succ fuel ih =>
    intro n st lines hl
    unfold iCheck
    congr 1; funext ds
    rw [hbad]
    congr 1; funext r
    split
    · rfl
    · rw [hprompt st r.2 lines hl]
      cases hp : prompt C int st r.2 lines with
      | error e => rfl
      | ok p =>
        obtain ⟨st₁, b₁, lines₁⟩ := p
        obtain ⟨i, pre, l, e1, rfl, e3⟩ := prompt_spec C int st r.2 lines _ _ _ hp
        rcases e3 with ⟨rfl, e3⟩ | ⟨rfl, e3⟩
        · simp only [bind, Except.bind]
          rw [ih _ _ _ fun l' hl' => hl l' (by simp [hl'])]
        · exact absurd e3 (hl l (by simp)).1

/-- `int` for the examples: one decimal digit -/
def testInt : List Char → Option ℤ
  | [c] => if c.isDigit then some (c.toNat - '0'.toNat : ℤ) else none
  | _ => none

/-- The session on `x1 > 0, x0 > 0 ⊢ x0 + 1 > 0` in which `b`, an unknown word, a number out of range and `1` are typed
in: the second hypothesis is promoted. All hypotheses of the C71 theorems are met. -/
example : let C := testCore [[(0, -2), (1, 1)], [(0, 1), (1, 1)]] []
    let lines := [['b'], ['P'], ['x', 'y'], ['7'], ['1'], ['0']]
    ((iCheck C testInt 3 0 true testState₂ lines).toOption.map fun r => (r.1, r.2.1.hyps, r.2.1.goal.hyps, r.2.2)) =
      some ([[0]], [⟨MPoly.var 1, .gt, [1]⟩], [⟨MPoly.var 0, .gt, [0]⟩], [['0']]) ∧
    (∀ l ∈ lines, ¬ Says "go" l ∧ ¬ Says "s" l) ∧
    lines.filter (fun l => !Harmless testInt l) = [['7'], ['1'], ['0']] ∧
    lines.filterMap (typedNumber testInt) = [7, 1, 0] ∧
    SageOK C.toSage ∧
    ∀ ρ : ℕ → ℚ, (∀ a ∈ [(⟨MPoly.var 0, .gt, [0]⟩ : Atom)], a.holds ρ) → testState₂.goal.main.holds ρ := by
  intro C lines
  refine ⟨by decide +kernel, by decide +kernel, by decide +kernel, by decide +kernel, testSage_ok, ?_⟩
  intro ρ h
  have h1 : MPoly.eval ρ (MPoly.var 0) > 0 := h _ (List.mem_singleton_self _)
  show MPoly.eval ρ ((MPoly.var 0).add (MPoly.const 1)) > 0
  rw [MPoly.eval_var] at h1
  rw [MPoly.eval_add, MPoly.eval_var, MPoly.eval_const]
  push_cast
  linarith

/-- The problem of `C36_violated`, with the sample point `x0 = -2`: `go` raises an `IndexError`; after typing in `0`
the hypothesis is promoted and the loop ends. -/
example : let C := testCore [[(0, -2)]] []
    (match iCheck C testInt 2 0 true testState [['G', 'o']] with
      | .error (.loop .indexError) => true
      | _ => false) = true ∧
    ((iCheck C testInt 2 0 true testState [['0']]).toOption.map fun r => (r.1, r.2.1.hyps)) = some ([], []) := by
  decide +kernel

end Verif.Grf
