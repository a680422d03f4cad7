import Verif.Grf.PrintModel
import Verif.Grf.PropsAtom
import Mathlib.Data.Real.Basic

/-!
# C124: the sequent that is shown determines the sequent that is decided
-/

set_option linter.unusedSectionVars false

namespace Verif.Grf

/-- The way of printing polynomials: polynomials that are printed alike have the same values, and a polynomial is printed
on one line and without brackets or the symbols of relations. -/
structure PolyStr (str : MPoly → List Char) : Prop where
  inj : ∀ p q, str p = str q → ∀ ρ : ℕ → ℝ, p.eval ρ = q.eval ρ
  chars : ∀ p, ∀ c ∈ str p, c ∉ ['\n', ']', '<', '>', '=', '!']

/-- the same relation between polynomials with the same values -/
def SameAtom (a b : Atom) : Prop := a.op = b.op ∧ ∀ ρ : ℕ → ℝ, a.poly.eval ρ = b.poly.eval ρ

/-- the same sequent -/
structure SameSeq (s t : State) : Prop where
  hyps : List.Forall₂ SameAtom s.hyps t.hyps
  goalHyps : List.Forall₂ SameAtom s.goal.hyps t.goal.hyps
  main : SameAtom s.goal.main t.goal.main

theorem textCut {x : Char} {a b s t : List Char} (ha : x ∉ a) (hb : x ∉ b)
    (h : a ++ x :: s = b ++ x :: t) : a = b ∧ s = t := by
  induction a generalizing b with
  | nil =>
    cases b with
    | nil => simpa using h
    | cons y b =>
      simp only [List.nil_append, List.cons_append, List.cons.injEq] at h
      exact absurd (by simp [h.1]) hb
  | cons z a ih =>
    cases b with
    | nil =>
      simp only [List.nil_append, List.cons_append, List.cons.injEq] at h
      exact absurd (by simp [h.1]) ha
    | cons y b =>
      simp only [List.cons_append, List.cons.injEq] at h
      have := ih (b := b) (fun h' => ha (by simp [h'])) (fun h' => hb (by simp [h'])) h.2
      exact ⟨by rw [h.1, this.1], this.2⟩

/-- the text of an atom without the final bracket -/
theorem Atom.text_eq (str : MPoly → List Char) (a : Atom) :
    a.text str = ('[' :: (str a.poly ++ ' ' :: (a.op.toString.toList ++ [' ', '0']))) ++ [']'] := by
  simp [Atom.text]

theorem opText_cut {a b : Op} {s t : List Char} (h : a.toString.toList ++ ' ' :: s = b.toString.toList ++ ' ' :: t) :
    a = b := by
  have := (textCut (x := ' ') (by cases a <;> decide) (by cases b <;> decide) h).1
  revert this
  cases a <;> cases b <;> decide

/-- an atom is read back from the beginning of a text -/
theorem Atom.text_cut {str : MPoly → List Char} (hs : PolyStr str) {a b : Atom} {s t : List Char}
    (h : a.text str ++ s = b.text str ++ t) : SameAtom a b ∧ s = t := by
  have hnot : ∀ a : Atom, ']' ∉ '[' :: (str a.poly ++ ' ' :: (a.op.toString.toList ++ [' ', '0'])) := by
    intro a ha
    simp only [List.mem_cons, List.mem_append, List.not_mem_nil, or_false] at ha
    rcases ha with ha | ha | ha | ha | ha | ha
    · exact absurd ha (by decide)
    · exact hs.chars _ _ ha (by simp)
    · exact absurd ha (by decide)
    · revert ha; cases a.op <;> decide
    · exact absurd ha (by decide)
    · exact absurd ha (by decide)
  rw [Atom.text_eq, Atom.text_eq, List.append_assoc, List.append_assoc] at h
  obtain ⟨h1, h2⟩ := textCut (hnot a) (hnot b) h
  refine ⟨?_, h2⟩
  rw [List.cons.injEq] at h1
  have h1 := h1.2
  have key : ∀ a : Atom, (str a.poly ++ ' ' :: (a.op.toString.toList ++ [' ', '0'])).takeWhile
      (fun c => decide (c ∉ ['<', '>', '=', '!'])) = str a.poly ++ [' '] := by
    intro a
    rw [List.takeWhile_append_of_pos]
    · cases a.op <;> rfl
    · intro c hc
      have := hs.chars _ c hc
      simp only [List.mem_cons, List.not_mem_nil, or_false, not_or] at this
      simp [this]
  have h3 := key a
  rw [h1, key b] at h3
  have h4 := (List.append_cancel_right h3).symm
  refine ⟨?_, hs.inj _ _ h4⟩
  rw [h4] at h1
  have h5 := List.append_cancel_left h1
  rw [List.cons.injEq] at h5
  exact opText_cut h5.2

theorem Atom.text_head (str : MPoly → List Char) (a : Atom) : ∃ s, a.text str = '[' :: s := ⟨_, Atom.text_eq str a⟩

/-- atoms joined by a separator, up to an end that is different from it -/
theorem atoms_cut {str : MPoly → List Char} (hs : PolyStr str) {sep e e' : List Char}
    (hsep : ∀ s, e ≠ sep ++ s) (hsep' : ∀ s, e' ≠ sep ++ s) : ∀ (a b : Atom) (as bs : List Atom),
    joinText sep ((a :: as).map (Atom.text str)) ++ e = joinText sep ((b :: bs).map (Atom.text str)) ++ e' →
    List.Forall₂ SameAtom (a :: as) (b :: bs) ∧ e = e'
  | a, b, [], [], h => by
    have := Atom.text_cut hs (by simpa [joinText] using h)
    exact ⟨.cons this.1 .nil, this.2⟩
  | a, b, [], b' :: bs, h => by
    have := Atom.text_cut hs (a := a) (b := b) (s := e)
      (t := sep ++ (joinText sep ((b' :: bs).map (Atom.text str)) ++ e')) (by simpa [joinText] using h)
    exact absurd this.2 (hsep _)
  | a, b, a' :: as, [], h => by
    have := Atom.text_cut hs (a := a) (b := b) (t := e')
      (s := sep ++ (joinText sep ((a' :: as).map (Atom.text str)) ++ e)) (by simpa [joinText] using h)
    exact absurd this.2.symm (hsep' _)
  | a, b, a' :: as, b' :: bs, h => by
    have h1 := Atom.text_cut hs (a := a) (b := b)
      (s := sep ++ (joinText sep ((a' :: as).map (Atom.text str)) ++ e))
      (t := sep ++ (joinText sep ((b' :: bs).map (Atom.text str)) ++ e')) (by simpa [joinText] using h)
    have h2 := atoms_cut hs hsep hsep' a' b' as bs (List.append_cancel_left h1.2)
    exact ⟨.cons h1.1 h2.1, h2.2⟩

/-- the numbered hypotheses, up to the line between hypotheses and goal -/
theorem hyps_cut {str : MPoly → List Char} (hs : PolyStr str) (dec : ℕ → List Char) {s t : List Char} :
    ∀ (i : ℕ) (as bs : List Atom),
    joinText " \n".toList (hypLines str dec i as) ++ '\n' :: s = joinText " \n".toList (hypLines str dec i bs) ++ '\n' :: t →
    List.Forall₂ SameAtom as bs ∧ s = t := by
  have start : ∀ i a as, ∃ u, joinText " \n".toList (hypLines str dec i (a :: as)) = ' ' :: u := by
    intro i a as
    cases as <;> simp [hypLines, joinText]
  intro i as
  induction as generalizing i with
  | nil =>
    intro bs h
    cases bs with
    | nil => simpa [hypLines, joinText] using h
    | cons b bs =>
      obtain ⟨u, hu⟩ := start i b bs
      rw [hu] at h
      simp [hypLines, joinText] at h
  | cons a as ih =>
    intro bs h
    cases bs with
    | nil =>
      obtain ⟨u, hu⟩ := start i a as
      rw [hu] at h
      simp [hypLines, joinText] at h
    | cons b bs =>
      have step : ∀ (a : Atom) (as : List Atom) (s : List Char), ∃ u,
          joinText " \n".toList (hypLines str dec i (a :: as)) ++ '\n' :: s =
            ("  H".toList ++ dec i ++ ": ".toList) ++ (a.text str ++ u) ∧
          ((as = [] ∧ u = '\n' :: s) ∨ (as ≠ [] ∧
            u = ' ' :: '\n' :: (joinText " \n".toList (hypLines str dec (i + 1) as) ++ '\n' :: s))) := by
        intro a as s
        cases as with
        | nil => exact ⟨_, by simp [hypLines, joinText], .inl ⟨rfl, rfl⟩⟩
        | cons a' as => exact ⟨_, by simp [hypLines, joinText], .inr ⟨by simp, rfl⟩⟩
      obtain ⟨u, hu, hu'⟩ := step a as s
      obtain ⟨v, hv, hv'⟩ := step b bs t
      rw [hu, hv] at h
      obtain ⟨h1, h2⟩ := Atom.text_cut hs (List.append_cancel_left h)
      rcases hu' with ⟨rfl, rfl⟩ | ⟨-, rfl⟩ <;> rcases hv' with ⟨rfl, rfl⟩ | ⟨-, rfl⟩
      · exact ⟨.cons h1 .nil, by simpa using h2⟩
      · simp at h2
      · simp at h2
      · simp only [List.cons.injEq, true_and] at h2
        obtain ⟨h3, h4⟩ := ih (i + 1) bs h2
        exact ⟨.cons h1 h3, h4⟩

/-- the goal -/
theorem goal_cut {str : MPoly → List Char} (hs : PolyStr str) (l : ℕ) {g g' : Goal} (h : g.text str l = g'.text str l) :
    List.Forall₂ SameAtom g.hyps g'.hyps ∧ SameAtom g.main g'.main := by
  unfold Goal.text at h
  rw [List.append_assoc, List.append_assoc, List.append_assoc, List.append_assoc] at h
  have h := List.append_cancel_left h
  generalize hn : numSpaces l = n at h
  have hsep : ∀ (g : Goal) (s : List Char), "\n        -->\n".toList ++ n ++ g.main.text str ≠ " /\\\n".toList ++ n ++ s := by
    intro g s h
    simp at h
  cases hg : g.hyps with
  | nil =>
    cases hg' : g'.hyps with
    | nil =>
      simp only [hg, hg', impText, List.map_nil, joinText, ne_eq, not_true_eq_false, if_false, List.nil_append] at h
      have := Atom.text_cut hs (s := []) (t := []) (by simpa using h)
      exact ⟨.nil, this.1⟩
    | cons b bs =>
      simp only [hg, hg', impText, List.map_nil, joinText, ne_eq, not_true_eq_false, if_false, List.nil_append,
        List.map_cons, reduceCtorEq, not_false_eq_true, if_true] at h
      exfalso
      cases bs with
      | nil =>
        have := Atom.text_cut hs (s := []) (a := g.main) (b := b) (by simpa [joinText] using h)
        simp at this
      | cons b' bs =>
        have := Atom.text_cut hs (s := []) (a := g.main) (b := b)
          (by simpa only [joinText, List.map_cons, List.append_assoc, List.append_nil] using h)
        simp at this
  | cons a as =>
    cases hg' : g'.hyps with
    | nil =>
      simp only [hg, hg', impText, List.map_nil, joinText, ne_eq, not_true_eq_false, if_false, List.nil_append,
        List.map_cons, reduceCtorEq, not_false_eq_true, if_true] at h
      exfalso
      cases as with
      | nil =>
        have := Atom.text_cut hs (t := []) (a := a) (b := g'.main) (by simpa [joinText] using h)
        simp at this
      | cons a' as =>
        have := Atom.text_cut hs (t := []) (a := a) (b := g'.main)
          (by simpa only [joinText, List.map_cons, List.append_assoc, List.append_nil] using h)
        simp at this
    | cons b bs =>
      simp only [hg, hg', impText, ne_eq, reduceCtorEq, not_false_eq_true, if_true, hn] at h
      obtain ⟨h1, h2⟩ := atoms_cut hs (hsep g) (hsep g') a b as bs h
      have := Atom.text_cut hs (s := []) (t := []) (by simpa using h2)
      exact ⟨h1, this.1⟩

/-- **C124**: two states of the decider that are shown by the same text have the same hypotheses, in the same order and
under the same numbers, the same promoted hypotheses and the same goal. -/
theorem C124_shown {str : MPoly → List Char} (hs : PolyStr str) (dec : ℕ → List Char) {st st' : State}
    (h : st.text str dec = st'.text str dec) : SameSeq st st' := by
  unfold State.text at h
  obtain ⟨L, hL⟩ : ∃ L, "\n|-----------------------------------------  \n".toList = '\n' :: L := ⟨_, rfl⟩
  simp only [List.append_assoc, hL] at h
  have h := List.append_cancel_left h
  obtain ⟨h1, h2⟩ := hyps_cut hs dec (s := L ++ st.goal.text str st.hyps.length)
    (t := L ++ st'.goal.text str st'.hyps.length) 0 st.hyps st'.hyps (by simpa only [List.cons_append] using h)
  have h2 := List.append_cancel_left h2
  rw [h1.length_eq] at h2
  obtain ⟨h3, h4⟩ := goal_cut hs _ h2
  exact ⟨h1, h3, h4⟩

theorem SameAtom.holds_iff {a b : Atom} (h : SameAtom a b) (ρ : ℕ → ℝ) : a.holds ρ ↔ b.holds ρ := by
  unfold Atom.holds
  rw [h.1, h.2 ρ]

theorem sameAtoms_iff {as bs : List Atom} (h : List.Forall₂ SameAtom as bs) (ρ : ℕ → ℝ) :
    (∀ a ∈ as, a.holds ρ) ↔ ∀ b ∈ bs, b.holds ρ := by
  induction h with
  | nil => simp
  | cons hab _ ih => simp only [List.forall_mem_cons, hab.holds_iff ρ, ih]

/-- **C124**, meaning: what is shown by the same text is true at the same real points. -/
theorem C124_meaning {str : MPoly → List Char} (hs : PolyStr str) (dec : ℕ → List Char) {st st' : State}
    (h : st.text str dec = st'.text str dec) (ρ : ℕ → ℝ) :
    ((∀ a ∈ st.hyps, a.holds ρ) ↔ ∀ a ∈ st'.hyps, a.holds ρ) ∧ (st.goal.holds ρ ↔ st'.goal.holds ρ) := by
  obtain ⟨h1, h2, h3⟩ := C124_shown hs dec h
  refine ⟨sameAtoms_iff h1 ρ, ?_⟩
  unfold Goal.holds
  rw [sameAtoms_iff h2 ρ, h3.holds_iff ρ]

/-- **C124**, the final hypotheses that are listed after a proof are determined by the text. -/
theorem C124_final {str : MPoly → List Char} (hs : PolyStr str) {st st' : State}
    (h : st.finalText str = st'.finalText str) : List.Forall₂ SameAtom st.goal.hyps st'.goal.hyps := by
  have ne : ∀ a as, joinText ", ".toList ((a :: as).map (Atom.text str)) ≠ [] := by
    intro a as
    cases as <;> simp [joinText, Atom.text]
  unfold State.finalText at h
  cases hg : st.goal.hyps with
  | nil =>
    cases hg' : st'.goal.hyps with
    | nil => exact .nil
    | cons b bs =>
      rw [hg, hg'] at h
      exact absurd h.symm (ne b bs)
  | cons a as =>
    cases hg' : st'.goal.hyps with
    | nil =>
      rw [hg, hg'] at h
      exact absurd h (ne a as)
    | cons b bs =>
      rw [hg, hg'] at h
      exact (atoms_cut hs (sep := ", ".toList) (e := []) (e' := []) (by simp) (by simp) a b as bs (by simpa using h)).1

/-- the line of the text with hypothesis `i` -/
theorem hypLines_split (str : MPoly → List Char) (dec : ℕ → List Char) : ∀ (k i : ℕ) (as : List Atom) (a : Atom), as[i]? = some a →
    ∃ pre post, joinText " \n".toList (hypLines str dec k as) =
      pre ++ "  H".toList ++ dec (k + i) ++ ": ".toList ++ a.text str ++ post ∧
      (post = [] ∨ ∃ r, post = ' ' :: '\n' :: r) ∧ (pre = [] ∨ ∃ r, pre = r ++ [' ', '\n'])
  | k, 0, a' :: as, a, h => by
    simp only [List.getElem?_cons_zero, Option.some.injEq] at h
    subst h
    cases as with
    | nil => exact ⟨[], [], by simp [hypLines, joinText], .inl rfl, .inl rfl⟩
    | cons b as => exact ⟨[], _, by simp only [hypLines, joinText]; simp; rfl, .inr ⟨_, rfl⟩, .inl rfl⟩
  | k, i + 1, a' :: as, a, h => by
    simp only [List.getElem?_cons_succ] at h
    obtain ⟨pre, post, h1, h2, h3⟩ := hypLines_split str dec (k + 1) i as a h
    cases as with
    | nil => simp at h
    | cons b as =>
      refine ⟨("  H".toList ++ dec k ++ ": ".toList ++ a'.text str) ++ " \n".toList ++ pre, post, ?_, h2, .inr ?_⟩
      · rw [show k + (i + 1) = k + 1 + i by omega]
        rw [show joinText " \n".toList (hypLines str dec k (a' :: b :: as)) =
          ("  H".toList ++ dec k ++ ": ".toList ++ a'.text str) ++ " \n".toList ++
            joinText " \n".toList (hypLines str dec (k + 1) (b :: as)) from rfl, h1]
        simp
      · rcases h3 with rfl | ⟨r, rfl⟩
        · exact ⟨"  H".toList ++ dec k ++ ": ".toList ++ a'.text str, by simp⟩
        · exact ⟨("  H".toList ++ dec k ++ ": ".toList ++ a'.text str) ++ " \n".toList ++ r, by simp⟩

/-- **C124**, numbers: the hypothesis that is promoted when `i` is entered is shown on a line of its own, after `H` and
the number `i`. -/
theorem C124_number (str : MPoly → List Char) (dec : ℕ → List Char) (st : State) (i : ℕ) (a : Atom)
    (h : st.hyps[i]? = some a) : ∃ pre post, st.text str dec = pre ++ "\n  H".toList ++ dec i ++ ": [".toList ++
      str a.poly ++ " ".toList ++ a.op.toString.toList ++ " 0]".toList ++ post ∧
      ((∃ r, post = '\n' :: r) ∨ ∃ r, post = ' ' :: '\n' :: r) := by
  obtain ⟨pre, post, h1, h2, h3⟩ := hypLines_split str dec 0 i st.hyps a h
  rw [Nat.zero_add] at h1
  have hp : ∃ pre', "\n".toList ++ pre = pre' ++ ['\n'] := by
    rcases h3 with rfl | ⟨r, rfl⟩
    · exact ⟨[], rfl⟩
    · exact ⟨"\n".toList ++ r ++ [' '], by simp⟩
  obtain ⟨pre', hp⟩ := hp
  refine ⟨pre', post ++ '\n' :: ("|-----------------------------------------  \n".toList ++ st.goal.text str st.hyps.length), ?_, ?_⟩
  · unfold State.text
    rw [h1]
    have : ∀ t : List Char, "\n".toList ++ (pre ++ "  H".toList ++ dec i ++ ": ".toList ++ a.text str ++ post) ++ t =
        ("\n".toList ++ pre) ++ ("  H".toList ++ dec i ++ ": ".toList ++ a.text str ++ post ++ t) := by simp
    rw [List.append_assoc, this, hp]
    simp [Atom.text]
  · rcases h2 with rfl | ⟨r, rfl⟩
    · exact .inl ⟨_, rfl⟩
    · exact .inr ⟨_, rfl⟩

/-! ### A way of printing -/

/-- a rational number in unary -/
def ratStr (c : ℚ) : List Char :=
  (if c.num < 0 then ['-'] else []) ++ List.replicate c.num.natAbs '1' ++ '/' :: List.replicate c.den '1'

/-- exponents in unary -/
def monoStr (m : Mono) : List Char := m.flatMap fun e => List.replicate e '1' ++ [',']

/-- a list of terms -/
def termsStr (p : MPoly) : List Char := p.flatMap fun t => (monoStr t.1 ++ ':' :: ratStr t.2) ++ [';']

theorem flatMap_inj {α : Type} {f : α → List Char} {x : Char} (hx : ∀ a, x ∉ f a)
    (hf : ∀ a b, f a = f b → a = b) : ∀ as bs : List α,
    (as.flatMap fun a => f a ++ [x]) = (bs.flatMap fun a => f a ++ [x]) → as = bs
  | [], [], _ => rfl
  | [], b :: bs, h => by simp at h
  | a :: as, [], h => by simp at h
  | a :: as, b :: bs, h => by
    have := textCut (hx a) (hx b) (s := as.flatMap fun a => f a ++ [x]) (t := bs.flatMap fun a => f a ++ [x]) (by simpa using h)
    rw [hf a b this.1, flatMap_inj hx hf as bs this.2]

theorem monoStr_chars (m : Mono) : ∀ c ∈ monoStr m, c ∈ ['1', ','] := by
  intro c hc
  obtain ⟨e, -, he⟩ := List.mem_flatMap.1 hc
  rcases List.mem_append.1 he with h | h
  · rw [List.eq_of_mem_replicate h]; decide
  · rw [List.mem_singleton.1 h]; decide

theorem monoStr_inj {m m' : Mono} (h : monoStr m = monoStr m') : m = m' := by
  refine flatMap_inj (x := ',') (f := fun e => List.replicate e '1') ?_ ?_ m m' h
  · intro e he
    exact absurd (List.eq_of_mem_replicate he) (by decide)
  · intro a b h
    simpa using congrArg List.length h

theorem ratStr_chars (c : ℚ) : ∀ x ∈ ratStr c, x ∈ ['-', '1', '/'] := by
  intro x hx
  unfold ratStr at hx
  simp only [List.mem_append, List.mem_cons] at hx
  rcases hx with (h | h) | h | h
  · split at h
    · rw [List.mem_singleton.1 h]; decide
    · simp at h
  · rw [List.eq_of_mem_replicate h]; decide
  · rw [h]; decide
  · rw [List.eq_of_mem_replicate h]; decide

theorem ratStr_inj {c d : ℚ} (h : ratStr c = ratStr d) : c = d := by
  have hn : ∀ c : ℚ, '/' ∉ (if c.num < 0 then ['-'] else []) ++ List.replicate c.num.natAbs '1' := by
    intro c hc
    rcases List.mem_append.1 hc with h | h
    · split at h <;> simp at h
    · exact absurd (List.eq_of_mem_replicate h) (by decide)
  obtain ⟨h1, h2⟩ := textCut (hn c) (hn d) h
  have hden : c.den = d.den := by simpa using congrArg List.length h2
  have key : ∀ m : ℤ, ((if m < 0 then ['-'] else []) ++ List.replicate m.natAbs '1').count '1' = m.natAbs ∧
      ('-' ∈ ((if m < 0 then ['-'] else []) ++ List.replicate m.natAbs '1') ↔ m < 0) := by
    intro m
    split
    · next h => simp [h]
    · next h => simp [h, List.mem_replicate]
  have h3 : c.num.natAbs = d.num.natAbs := by rw [← (key c.num).1, ← (key d.num).1, h1]
  have h4 : c.num < 0 ↔ d.num < 0 := by rw [← (key c.num).2, ← (key d.num).2, h1]
  exact Rat.ext (by omega) hden

theorem termsStr_good : PolyStr termsStr where
  inj p q h := by
    have : p = q := by
      refine flatMap_inj (x := ';') (f := fun t : Mono × ℚ => monoStr t.1 ++ ':' :: ratStr t.2) ?_ ?_ p q h
      · intro t ht
        rcases List.mem_append.1 ht with h | h
        · exact absurd (monoStr_chars _ _ h) (by decide)
        · rcases List.mem_cons.1 h with h | h
          · exact absurd h (by decide)
          · exact absurd (ratStr_chars _ _ h) (by decide)
      · rintro ⟨m, c⟩ ⟨m', c'⟩ h
        obtain ⟨h1, h2⟩ := textCut (x := ':') (fun h => absurd (monoStr_chars _ _ h) (by decide))
          (fun h => absurd (monoStr_chars _ _ h) (by decide)) h
        exact Prod.ext (monoStr_inj h1) (ratStr_inj h2)
    rw [this]
    exact fun _ => rfl
  chars p c hc := by
    obtain ⟨t, -, ht⟩ := List.mem_flatMap.1 hc
    rcases List.mem_append.1 ht with h | h
    · rcases List.mem_append.1 h with h | h
      · have := monoStr_chars _ _ h
        simp only [List.mem_cons, List.not_mem_nil, or_false] at this
        rcases this with rfl | rfl <;> decide
      · rcases List.mem_cons.1 h with rfl | h
        · decide
        · have := ratStr_chars _ _ h
          simp only [List.mem_cons, List.not_mem_nil, or_false] at this
          rcases this with rfl | rfl | rfl <;> decide
    · rw [List.mem_singleton.1 h]; decide

/-- `x0 > 0, x0 < 2 |- x0 != 0 --> x0 + 1 >= 0` -/
def shownState : State :=
  ⟨[⟨[([1], 1)], .gt, [0]⟩, ⟨[([1], 1), ([], -2)], .lt, [0]⟩], ⟨⟨[([1], 1), ([], 1)], .ge, [0]⟩, [⟨[([1], 1)], .ne, [0]⟩], []⟩, [0, 1]⟩

/-- a sequent is shown with its terms as lists -/
example : shownState.text termsStr (fun n => (Nat.toDigits 10 n)) =
    ("\n  H0: [1,:1/1; > 0] \n  H1: [1,:1/1;:-11/1; < 0]\n|-----------------------------------------  \n" ++
      "      [1,:1/1; != 0]\n        -->\n      [1,:1/1;:1/1; >= 0]").toList := by
  decide +kernel

/-- the hypotheses of the theorems are satisfied: any state that is shown like this one is this sequent -/
example (st : State) (h : st.text termsStr (fun n => (Nat.toDigits 10 n)) =
    ("\n  H0: [1,:1/1; > 0] \n  H1: [1,:1/1;:-11/1; < 0]\n|-----------------------------------------  \n" ++
      "      [1,:1/1; != 0]\n        -->\n      [1,:1/1;:1/1; >= 0]").toList) : SameSeq st shownState :=
  C124_shown termsStr_good (fun n => (Nat.toDigits 10 n)) (h.trans (by decide +kernel))

/-! ### The text itself -/

theorem joinText_eq (sep : List Char) : ∀ l : List (List Char), joinText sep l = List.intercalate sep l
  | [] => rfl
  | [l] => by simp [joinText, List.intercalate]
  | l :: l' :: ls => by
    rw [joinText, joinText_eq sep (l' :: ls)]
    simp [List.intercalate]

/-- an atom -/
theorem C124_atom (str : MPoly → List Char) (a : Atom) : a.text str = "[".toList ++ str a.poly ++ (match a.op with
    | .gt => " > 0]".toList | .lt => " < 0]".toList | .le => " <= 0]".toList | .ge => " >= 0]".toList | .eq => " = 0]".toList
    | .ne => " != 0]".toList) := by
  unfold Atom.text
  cases a.op <;> simp [Op.toString]

theorem hypLines_eq (str : MPoly → List Char) (dec : ℕ → List Char) : ∀ (k : ℕ) (as : List Atom), hypLines str dec k as =
    (as.zipIdx k).map fun a => "  H".toList ++ dec a.2 ++ ": ".toList ++ a.1.text str
  | _, [] => rfl
  | k, a :: as => by rw [hypLines, hypLines_eq str dec (k + 1) as]; rfl

/-- **C124**, the text: the numbered hypotheses, a line, the promoted hypotheses joined by `/\`, and after an arrow (if there
are any) the goal. -/
theorem C124_layout (str : MPoly → List Char) (dec : ℕ → List Char) (st : State) : ∃ k, st.text str dec =
    "\n".toList ++ List.intercalate " \n".toList
      (st.hyps.zipIdx.map fun a => "  H".toList ++ dec a.2 ++ ": ".toList ++ a.1.text str) ++
    "\n|-----------------------------------------  \n".toList ++ List.replicate k ' ' ++
    List.intercalate (" /\\\n".toList ++ List.replicate k ' ') (st.goal.hyps.map fun h => h.text str) ++
    (if st.goal.hyps = [] then [] else "\n        -->\n".toList ++ List.replicate k ' ') ++ st.goal.main.text str := by
  refine ⟨if st.hyps.length ≤ 10 then 6 else if st.hyps.length ≤ 100 then 7 else if st.hyps.length ≤ 1000 then 8
    else if st.hyps.length ≤ 10000 then 9 else 10, ?_⟩
  unfold State.text Goal.text impText numSpaces
  rw [joinText_eq, joinText_eq, hypLines_eq]
  by_cases h : st.goal.hyps = [] <;> simp [h]

end Verif.Grf
