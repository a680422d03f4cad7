import Verif.Grf.PropsNames
import Verif.Grf.PropsSmtFile

/-!
# C130: checking a sequent again after the reported formulas have been hidden

`perform_grf` (`GRF/smt2.py:107-189`) reports formulas that are not needed. Here the reported formulas are removed, and the
program is run on what is left, again and again.
-/

set_option linter.unusedSectionVars false

namespace Verif.Grf

variable {K : Type} [Field K] [LinearOrder K] [IsStrictOrderedRing K]

/-- The formulas of a list whose numbers are not in `hide`. -/
def unhidden (l : List Atom) (hide : List ℕ) : List Atom :=
  (l.zipIdx.filter fun p => decide (p.2 ∉ hide)).map Prod.fst

/-- A run on the sequent `p` returns, and `p'` is what is left when the reported formulas are removed. The sample points, the
local search, and the random choices are arbitrary; the functions of Sage are right, the solver returns optimal solutions,
and the core is sound. -/
def Reduces (K : Type) [Field K] [LinearOrder K] [IsStrictOrderedRing K] (p p' : List Atom × List Atom) : Prop :=
  ∃ C : Core K, SageOK C.toSage ∧ SolverOpt C ∧ CoreSound C ∧
    ∃ as ss, performGrf C p.1 p.2 = .ok (as, ss) ∧ p' = (unhidden p.1 as, unhidden p.2 ss)

theorem mem_unhidden {l : List Atom} {hide : List ℕ} {a : Atom} : a ∈ unhidden l hide ↔ Kept l hide a := by
  unfold unhidden Kept
  simp only [List.mem_map, List.mem_filter, decide_eq_true_eq, Prod.exists, exists_and_right, exists_eq_right,
    List.mem_zipIdx_iff_getElem?]
  exact ⟨fun ⟨i, h1, h2⟩ => ⟨i, h2, h1⟩, fun ⟨i, h1, h2⟩ => ⟨i, h2, h1⟩⟩

theorem unhidden_sublist (l : List Atom) (hide : List ℕ) : (unhidden l hide).Sublist l := by
  have h := (List.filter_sublist (l := l.zipIdx) (p := fun p => decide (p.2 ∉ hide))).map Prod.fst
  rw [List.zipIdx_map_fst] at h
  exact h

theorem unhidden_lt {l : List Atom} {hide : List ℕ} {i : ℕ} (hi : i ∈ hide) (hl : i < l.length) :
    (unhidden l hide).length < l.length := by
  unfold unhidden
  rw [List.length_map]
  have : (l.zipIdx.filter fun p => decide (p.2 ∉ hide)).length < l.zipIdx.length := by
    rw [List.length_filter_lt_length_iff_exists]
    exact ⟨(l[i], i), List.mem_zipIdx_iff_getElem?.2 (List.getElem?_eq_getElem hl), by simpa using hi⟩
  simpa using this

theorem unhidden_last (l : List Atom) (g : Atom) (hide : List ℕ) (h : l.length ∉ hide) :
    unhidden (l ++ [g]) hide = unhidden l hide ++ [g] := by
  unfold unhidden
  simp [List.zipIdx_append, h]

/-- What a run does: the goal stays, the sequent that is left is valid, and something is hidden unless there is nothing but
the goal. -/
theorem reduces_facts {p p' : List Atom × List Atom} (h : Reduces K p p') :
    p'.1.Sublist p.1 ∧ p'.2.Sublist p.2 ∧ p'.2.getLast? = p.2.getLast? ∧ p'.2 ≠ [] ∧
    (∀ ρ : ℕ → K, (∀ a ∈ p'.1, a.holds ρ) → ∃ s ∈ p'.2, s.holds ρ) ∧
    (2 ≤ p.1.length + p.2.length → p'.1.length + p'.2.length < p.1.length + p.2.length) := by
  obtain ⟨ante, succ⟩ := p
  obtain ⟨C, hS, hO, hC, as, ss, hp, rfl⟩ := h
  have hval := (C53_hiding C hS hC ante succ as ss hp).1
  obtain ⟨g, rest, ret, st', hr, hc, rfl, rfl⟩ := performGrf_ok hp
  have hsucc : succ = rest.reverse ++ [g] := by
    have := congrArg List.reverse hr
    simpa using this
  have hlen : succ.length = rest.length + 1 := by rw [hsucc]; simp
  have hkeep : unhidden succ (hideSucc ante.length succ.length st'.ids) =
      unhidden rest.reverse (hideSucc ante.length succ.length st'.ids) ++ [g] := by
    rw [hsucc]
    apply unhidden_last
    intro hm
    have := (List.mem_filter.1 hm).2
    simp at this
  refine ⟨unhidden_sublist _ _, unhidden_sublist _ _, ?_, ?_, ?_, ?_⟩
  · show (unhidden succ _).getLast? = succ.getLast?
    rw [hkeep, hsucc]
    simp
  · show unhidden succ _ ≠ []
    rw [hkeep]
    simp
  · intro ρ hρ
    obtain ⟨s, hs, hh⟩ := hval ρ fun a ha => hρ a (mem_unhidden.2 ha)
    exact ⟨s, mem_unhidden.2 hs, hh⟩
  · intro h2
    show (unhidden ante (hideAnte (ante ++ rest.map Atom.negate).length st'.ids)).length +
      (unhidden succ (hideSucc ante.length succ.length st'.ids)).length < ante.length + succ.length
    have h2' : 2 ≤ ante.length + succ.length := h2
    obtain ⟨k, ret', hrounds, hlast⟩ := check_rounds C _ 0 _ st' ret hc
    obtain ⟨hids, hsub⟩ := ids_rounds hrounds (idsOK_init (ante ++ rest.map Atom.negate) _)
    have hne : st'.hyps ≠ [] := by
      refine C117_last C hO _ 0 _ st' ret ?_ hc
      intro h0
      have := congrArg List.length h0
      simp at this
      have h3 := this.1
      have h4 := this.2
      rw [h3, hlen, h4] at h2'
      simp at h2'
    have hidne : st'.ids ≠ [] := by
      intro h0
      have := hids.2
      rw [h0] at this
      exact hne (by simpa using this)
    obtain ⟨i, hi⟩ := List.exists_mem_of_ne_nil _ hidne
    have hil : i < (ante ++ rest.map Atom.negate).length := List.mem_range.1 (hsub.subset hi)
    have hia : i ∈ hideAnte (ante ++ rest.map Atom.negate).length st'.ids :=
      List.mem_filter.2 ⟨List.mem_range.2 hil, by simpa using hi⟩
    by_cases hi' : i < ante.length
    · have h3 := unhidden_lt hia hi'
      have h4 := (unhidden_sublist succ (hideSucc ante.length succ.length st'.ids)).length_le
      omega
    · rw [List.length_append, List.length_map] at hil
      have hj : rest.length - 1 - (i - ante.length) ∈ hideSucc ante.length succ.length st'.ids := by
        refine List.mem_filter.2 ⟨List.mem_range.2 (by omega), ?_⟩
        have e : ante.length + (succ.length - 2 - (rest.length - 1 - (i - ante.length))) = i := by omega
        rw [e]
        simp only [Bool.and_eq_true, decide_eq_true_eq]
        exact ⟨by omega, hi⟩
      have h3 := unhidden_lt hj (l := succ) (by omega)
      have h4 := (unhidden_sublist ante (hideAnte (ante ++ rest.map Atom.negate).length st'.ids)).length_le
      omega

/-- What holds of **C130**: however often the reported formulas are removed and the program is run again, what is left is a
valid sequent made of formulas of the first one, in their order, with the same goal; and as long as there is anything but
the goal, each run that returns hides at least one further formula. -/
theorem C130_partial (p p' : List Atom × List Atom) (h : Relation.TransGen (Reduces K) p p') :
    p'.1.Sublist p.1 ∧ p'.2.Sublist p.2 ∧ p'.2.getLast? = p.2.getLast? ∧
    (∀ ρ : ℕ → K, (∀ a ∈ p'.1, a.holds ρ) → ∃ s ∈ p'.2, s.holds ρ) ∧
    (2 ≤ p.1.length + p.2.length → p'.1.length + p'.2.length < p.1.length + p.2.length) := by
  induction h with
  | single h =>
    obtain ⟨h1, h2, h3, -, h5, h6⟩ := reduces_facts h
    exact ⟨h1, h2, h3, h5, h6⟩
  | tail _ h ih =>
    obtain ⟨h1, h2, h3, -, h5, -⟩ := reduces_facts h
    obtain ⟨i1, i2, i3, -, i6⟩ := ih
    refine ⟨h1.trans i1, h2.trans i2, h3.trans i3, h5, fun hp => ?_⟩
    have := i6 hp
    have a1 := h1.length_le
    have a2 := h2.length_le
    omega

theorem two_formulas {p : List Atom × List Atom} {g : Atom} (hg : p.2.getLast? = some g)
    (hng : ∃ ρ : ℕ → K, ¬ g.holds ρ) (h : ∀ ρ : ℕ → K, (∀ a ∈ p.1, a.holds ρ) → ∃ s ∈ p.2, s.holds ρ) :
    2 ≤ p.1.length + p.2.length := by
  by_contra hlt
  have hl : p.2 ≠ [] := by
    intro h0
    rw [h0] at hg
    cases hg
  have hl2 := List.length_pos_iff.2 hl
  have e1 : p.1 = [] := List.length_eq_zero_iff.1 (by omega)
  obtain ⟨s, e2⟩ := List.length_eq_one_iff.1 (show p.2.length = 1 by omega)
  rw [e2] at hg
  obtain ⟨ρ, hρ⟩ := hng
  obtain ⟨t, ht, hh⟩ := h ρ (by rw [e1]; simp)
  rw [e2, List.mem_singleton] at ht
  rw [ht] at hh
  have : s = g := by simpa using hg
  exact hρ (this ▸ hh)

/-- **C130** is violated, with a bound: if the goal is not valid by itself, there are always at least two formulas more than
there have been runs that return one after the other, each on what the one before has left. -/
theorem C130_bound_violated (p : List Atom × List Atom) (g : Atom) (hg : p.2.getLast? = some g)
    (hng : ∃ ρ : ℕ → K, ¬ g.holds ρ) (k : ℕ) (hk : 0 < k) (f : ℕ → List Atom × List Atom) (h0 : f 0 = p)
    (hf : ∀ i < k, Reduces K (f i) (f (i + 1))) : k + 2 ≤ p.1.length + p.2.length := by
  have hreach : ∀ i ≤ k, 0 < i → Relation.TransGen (Reduces K) p (f i) := by
    intro i
    induction i with
    | zero => intro _ h; omega
    | succ i ih =>
      intro hi _
      by_cases h : i = 0
      · subst h
        rw [← h0]
        exact .single (hf 0 hk)
      · exact (ih (by omega) (by omega)).tail (hf i (by omega))
  have htwo : ∀ i ≤ k, 0 < i → 2 ≤ (f i).1.length + (f i).2.length := by
    intro i hi hi'
    obtain ⟨-, -, h3, h4, -⟩ := C130_partial p (f i) (hreach i hi hi')
    exact two_formulas (h3.trans hg) hng h4
  have htwo' : ∀ i < k, 2 ≤ (f i).1.length + (f i).2.length := by
    intro i hi
    obtain ⟨h1, h2, -⟩ := reduces_facts (hf i hi)
    have := htwo (i + 1) (by omega) (by omega)
    have a1 := h1.length_le
    have a2 := h2.length_le
    omega
  have hsize : ∀ i ≤ k, (f i).1.length + (f i).2.length + i ≤ p.1.length + p.2.length := by
    intro i
    induction i with
    | zero => intro _; rw [h0]; omega
    | succ i ih =>
      intro hi
      have := (reduces_facts (hf i (by omega))).2.2.2.2.2 (htwo' i (by omega))
      have := ih (by omega)
      omega
  have := hsize k le_rfl
  have := htwo k le_rfl hk
  omega

/-- **C130** is violated for every sequent on which the program reports something and whose goal is not valid by itself: if
the reported formulas are removed and this is repeated, then after finitely many runs there is a valid sequent on which
every further run raises an exception, whatever the sample points, the local search and the random choices. -/
theorem C130_violated (p p₁ : List Atom × List Atom) (g : Atom) (hg : p.2.getLast? = some g)
    (hng : ∃ ρ : ℕ → K, ¬ g.holds ρ) (h : Reduces K p p₁) :
    ∃ p', Relation.TransGen (Reduces K) p p' ∧ (∀ ρ : ℕ → K, (∀ a ∈ p'.1, a.holds ρ) → ∃ s ∈ p'.2, s.holds ρ) ∧
      ∀ C : Core K, SageOK C.toSage → SolverOpt C → CoreSound C → ∃ e, performGrf C p'.1 p'.2 = .error e := by
  suffices H : ∀ n p₁, p₁.1.length + p₁.2.length ≤ n → Relation.TransGen (Reduces K) p p₁ →
      ∃ p', Relation.TransGen (Reduces K) p p' ∧ ∀ p'', ¬ Reduces K p' p'' by
    obtain ⟨p', hp', hstop⟩ := H _ p₁ le_rfl (.single h)
    refine ⟨p', hp', (C130_partial p p' hp').2.2.2.1, fun C hS hO hC => ?_⟩
    cases hr : performGrf C p'.1 p'.2 with
    | error e => exact ⟨e, rfl⟩
    | ok r => exact absurd ⟨C, hS, hO, hC, r.1, r.2, hr, rfl⟩ (hstop (unhidden p'.1 r.1, unhidden p'.2 r.2))
  intro n
  induction n with
  | zero =>
    intro p₁ hn hp₁
    refine ⟨p₁, hp₁, fun p'' h'' => ?_⟩
    have h3 := (C130_partial p p₁ hp₁).2.2.1
    have : p₁.2 = [] := List.length_eq_zero_iff.1 (by omega)
    rw [this, hg] at h3
    cases h3
  | succ n ih =>
    intro p₁ hn hp₁
    by_cases hstop : ∀ p'', ¬ Reduces K p₁ p''
    · exact ⟨p₁, hp₁, hstop⟩
    · push Not at hstop
      obtain ⟨p₂, h₂⟩ := hstop
      obtain ⟨-, -, h3, h4, -⟩ := C130_partial p p₁ hp₁
      refine ih p₂ ?_ (hp₁.tail h₂)
      have h2 := two_formulas (h3.trans hg) hng h4
      have := (reduces_facts h₂).2.2.2.2.2 h2
      omega

/-- The hypotheses of the theorems are met by `x1 > 0, x0 > 0 ⊢ x0 + 1 > 0`, from which `x0 > 0 ⊢ x0 + 1 > 0` is left; the
goal is not valid by itself. -/
example : Reduces ℚ ([⟨MPoly.var 1, .gt, [1]⟩, ⟨MPoly.var 0, .gt, [0]⟩], [⟨(MPoly.var 0).add (MPoly.const 1), .gt, [0]⟩])
      ([⟨MPoly.var 0, .gt, [0]⟩], [⟨(MPoly.var 0).add (MPoly.const 1), .gt, [0]⟩]) ∧
    ∃ ρ : ℕ → ℚ, ¬ (⟨(MPoly.var 0).add (MPoly.const 1), .gt, [0]⟩ : Atom).holds ρ := by
  refine ⟨⟨soundCore, soundCore_ok.1, fun _ _ _ _ h => bruteSolve_opt h, soundCore_ok.2, [0], [], ?_, by decide +kernel⟩,
    fun _ => -1, ?_⟩
  · have h : (performGrf soundCore [⟨MPoly.var 1, .gt, [1]⟩, ⟨MPoly.var 0, .gt, [0]⟩]
        [⟨(MPoly.var 0).add (MPoly.const 1), .gt, [0]⟩]).toOption = some ([0], []) := by decide +kernel
    revert h
    cases performGrf soundCore [⟨MPoly.var 1, .gt, [1]⟩, ⟨MPoly.var 0, .gt, [0]⟩]
        [⟨(MPoly.var 0).add (MPoly.const 1), .gt, [0]⟩] with
    | error e => intro h; cases h
    | ok r => intro h; cases h; rfl
  · show ¬ MPoly.eval (fun _ => (-1 : ℚ)) ((MPoly.var 0).add (MPoly.const 1)) > 0
    rw [MPoly.eval_add, MPoly.eval_var, MPoly.eval_const]
    norm_num

/-- A sequent on which the last run raises: what is left of the sequent above. Every run on it raises. -/
theorem C130_example (C : Core ℚ) (hS : SageOK C.toSage) (hO : SolverOpt C) (hC : CoreSound C) :
    ∃ e, performGrf C [⟨MPoly.var 0, .gt, [0]⟩] [⟨(MPoly.var 0).add (MPoly.const 1), .gt, [0]⟩] = .error e := by
  cases hr : performGrf C [⟨MPoly.var 0, .gt, [0]⟩] [⟨(MPoly.var 0).add (MPoly.const 1), .gt, [0]⟩] with
  | error e => exact ⟨e, rfl⟩
  | ok r =>
    exfalso
    obtain ⟨h1, h2, h3, h4, h5, h6⟩ := reduces_facts (K := ℚ)
      (p := ([⟨MPoly.var 0, .gt, [0]⟩], [⟨(MPoly.var 0).add (MPoly.const 1), .gt, [0]⟩])) ⟨C, hS, hO, hC, r.1, r.2, hr, rfl⟩
    have hlt := h6 (by simp)
    generalize hx : unhidden [(⟨MPoly.var 0, .gt, [0]⟩ : Atom)] r.1 = x at *
    generalize hy : unhidden [(⟨(MPoly.var 0).add (MPoly.const 1), .gt, [0]⟩ : Atom)] r.2 = y at *
    have hy1 := List.length_pos_iff.2 h4
    have hx0 : x = [] := List.length_eq_zero_iff.1 (by
      change x.length + y.length < 2 at hlt
      change 0 < y.length at hy1
      omega)
    obtain ⟨s, hs, hh⟩ := h5 (fun _ => -1) (by simp [hx0])
    have hs' : s = ⟨(MPoly.var 0).add (MPoly.const 1), .gt, [0]⟩ := by simpa using h2.subset hs
    rw [hs'] at hh
    have : MPoly.eval (fun _ => (-1 : ℚ)) ((MPoly.var 0).add (MPoly.const 1)) > 0 := hh
    rw [MPoly.eval_add, MPoly.eval_var, MPoly.eval_const] at this
    norm_num at this

/-! ### C117 and C130 for files -/

theorem seqRun_interactive {E : SmtEnv K} {o : Obj} {lines : List (List Char)} {runs : ℕ} {q : FileSeq}
    {x : Obj × List (List Char) × ℕ} (h : seqRun E o lines runs q = .ok x) : x.1.interactive = o.interactive := by
  unfold seqRun at h
  split at h
  · cases h
  · split at h
    · cases h
    · split at h
      · cases h
      · split at h
        · cases h
        · cases h; rfl

theorem seqsRun_interactive {E : SmtEnv K} {l : List FileSeq} : ∀ {x y : Obj × List (List Char) × ℕ},
    seqsRun E x l = .ok y → y.1.interactive = x.1.interactive := by
  induction l with
  | nil => intro x y h; cases h; rfl
  | cons p l ih =>
    intro x y h
    simp only [seqsRun] at h
    split at h
    · cases h
    · next h' => rw [ih h, seqRun_interactive h']

/-- What one sequent does without interaction: it is decided by `perform_grf`, and the result is kept. -/
theorem seqRun_result {E : SmtEnv K} {o : Obj} (ho : o.interactive = false) {lines : List (List Char)} {runs : ℕ}
    {q : FileSeq} {x : Obj × List (List Char) × ℕ} (h : seqRun E o lines runs q = .ok x) :
    ∃ A B as ss, readFms E.quot o.ctx q.ante = .ok A ∧ readFms E.quot A.2 q.succ = .ok B ∧
      performGrf (E.core runs) A.1 B.1 = .ok (as, ss) ∧ x.1.result = some (as, ss) := by
  unfold seqRun at h
  split at h
  · cases h
  · next A hA =>
    split at h
    · cases h
    · next B hB =>
      split at h
      · cases h
      · next s hs =>
        split at h
        · cases h
        · next r hr =>
          cases h
          rw [ho] at hr
          unfold iCheck at hr
          simp only [bind, Except.bind] at hr
          refine ⟨A, B, _, _, hA, hB, ?_, rfl⟩
          unfold performGrf
          simp only [bind, Except.bind, hs]
          cases hc : check (E.core runs) (s.hyps.length + 1) 0 s with
          | error e => rw [hc] at hr; cases hr
          | ok c =>
            rw [hc] at hr
            simp only [liftG] at hr
            cases hr
            rfl

/-- A run on several sequents has run on each of them. -/
theorem seqsRun_mid {E : SmtEnv K} {q : FileSeq} {l' l : List FileSeq} : ∀ {x y : Obj × List (List Char) × ℕ},
    seqsRun E x (l ++ q :: l') = .ok y →
      ∃ z w, seqsRun E x l = .ok z ∧ seqRun E z.1 z.2.1 z.2.2 q = .ok w := by
  induction l with
  | nil =>
    intro x y h
    simp only [List.nil_append, seqsRun] at h
    split at h
    · cases h
    · next w hw => exact ⟨x, w, rfl, hw⟩
  | cons p l ih =>
    intro x y h
    simp only [List.cons_append, seqsRun] at h
    split at h
    · cases h
    · next v hv =>
      obtain ⟨z, w, hz, hw⟩ := ih h
      refine ⟨z, w, ?_, hw⟩
      simp only [seqsRun, hv]
      exact hz

/-- **C117** is violated for files: if all formulas of some sequent of a file are needed (for each formula of the
antecedent and for each formula of the succedent but the last one there are values of the names at which the sequent without
it is false), `grf_on_file` raises an exception, whatever the other sequents, the sample points, the local search and the
random choices. -/
theorem C117_file_violated (E : SmtEnv K) (hq : QuotOK K E.quot) (hS : ∀ n, SageOK (E.core n).toSage)
    (hC : ∀ n, CoreSound (E.core n)) (hO : ∀ n, SolverOpt (E.core n)) (out : Bool) (lines : List (List Char))
    (text : List Char) (l l' : List FileSeq) (q : FileSeq) (ht : FileText E.num text (l ++ q :: l'))
    (h2 : 2 ≤ q.ante.length + q.succ.length)
    (hante : ∀ i < q.ante.length, ∃ σ : String → K, (∀ f ∈ q.ante ++ q.succ, f.defined σ) ∧
      (∀ k f, k ≠ i → q.ante[k]? = some f → f.holds σ) ∧ ∀ f ∈ q.succ, ¬ f.holds σ)
    (hsucc : ∀ j, j + 1 < q.succ.length → ∃ σ : String → K, (∀ f ∈ q.ante ++ q.succ, f.defined σ) ∧
      (∀ f ∈ q.ante, f.holds σ) ∧ ∀ k f, k ≠ j → q.succ[k]? = some f → ¬ f.holds σ) :
    ∃ e, grfOnFile E false out lines text = .error e := by
  cases h : grfOnFile E false out lines text with
  | error e => exact ⟨e, rfl⟩
  | ok o =>
    exfalso
    rw [C74_reading E false out lines text _ ht] at h
    split at h
    · cases h
    · next x hx =>
      obtain ⟨z, w, hz, hz'⟩ := seqsRun_mid hx
      have hctx := seqsRun_ctx hq hS hC (x := (Obj.new false, lines, 0)) init_ok hz
      obtain ⟨A, B, as, ss, hA, hB, hp, hres⟩ := seqRun_result (seqsRun_interactive hz) hz'
      obtain ⟨-, -, as', ss', hres', hsem⟩ := seqRun_ok hq hS hC hctx hz'
      rw [hres] at hres'
      cases hres'
      obtain ⟨a1, -, a3, -⟩ := readFms_ok (K := K) hq q.ante _ A.2 A.1 hctx hA
      obtain ⟨-, -, b3, -⟩ := readFms_ok (K := K) hq q.succ A.2 B.2 B.1 a1 hB
      have hred := (reduces_facts (K := K) (p := (A.1, B.1))
        ⟨E.core z.2.2, hS _, hO _, hC _, as, ss, hp, rfl⟩).2.2.2.2.2 (by show 2 ≤ A.1.length + B.1.length; omega)
      -- a number of a formula is reported
      have hsome : (∃ i ∈ as, i < q.ante.length) ∨ ∃ j ∈ ss, j + 1 < q.succ.length := by
        by_contra hno
        push Not at hno
        have e1 : unhidden A.1 as = A.1 := by
          unfold unhidden
          rw [List.filter_eq_self.2, List.zipIdx_map_fst]
          rintro ⟨a, i⟩ hm
          have := (List.getElem?_eq_some_iff.1 (List.mem_zipIdx_iff_getElem?.1 hm)).1
          simp only [decide_eq_true_eq]
          intro hi
          have := hno.1 i hi
          omega
        have e2 : unhidden B.1 ss = B.1 := by
          unfold unhidden
          rw [List.filter_eq_self.2, List.zipIdx_map_fst]
          rintro ⟨a, i⟩ hm
          simp only [decide_eq_true_eq]
          intro hi
          have h3 := hno.2 i hi
          have h4 := (C43_partial (E.core z.2.2) A.1 B.1 as ss hp).1 i hi
          omega
        have hred' : (unhidden A.1 as).length + (unhidden B.1 ss).length < A.1.length + B.1.length := hred
        rw [e1, e2] at hred'
        omega
      rcases hsome with ⟨i, hi, hil⟩ | ⟨j, hj, hjl⟩
      · obtain ⟨σ, s1, s2, s3⟩ := hante i hil
        obtain ⟨k, f, -, hk, hf⟩ := hsem σ s1 fun k f hk hkf => s2 k f (by rintro rfl; exact hk hi) hkf
        exact s3 f (List.mem_of_getElem? hk) hf
      · obtain ⟨σ, s1, s2, s3⟩ := hsucc j hjl
        obtain ⟨k, f, hks, hk, hf⟩ := hsem σ s1 fun k f _ hkf => s2 f (List.mem_of_getElem? hkf)
        exact s3 k f (by rintro rfl; exact hks hj) hk hf

/-- The file with the sequent `x > 0 ⊢ x + 1 > 0`. -/
def needText : List Char := "(sequent \"s\" (antecedent (> x 0.)) (succedent(>(+x 1.)0.)))".toList

/-- `x > 0 ⊢ x + 1 > 0` -/
def needSeq : FileSeq :=
  ⟨['s'], [⟨.gt, .word (String.ofList ['x']), .num (testNum false ['0'] [])⟩],
    [⟨.gt, .add (.word (String.ofList ['x'])) (.num (testNum false ['1'] [])), .num (testNum false ['0'] [])⟩]⟩

theorem needText_ok : FileText testNum needText [needSeq] :=
  FileText.cons [] _ _ _ _ ws_zero
    (SequentText.mk [] [' '] [' '] [] [' '] [] [] ['s'] _ _ _ _ ws_zero ws_one ws_one ws_zero ws_one ws_zero ws_zero (by decide)
      (RelsText.cons [' '] _ _ _ _ ws_one (text_gt 'x' word_x) (RelsText.nil [] ws_zero))
      (RelsText.cons [] _ _ _ _ ws_zero text_goal (RelsText.nil [] ws_zero)))
    (FileText.nil [] ws_zero)

theorem testNum_zero : testNum false ['0'] [] = 0 := by decide +kernel

theorem testNum_one : testNum false ['1'] [] = 1 := by decide +kernel

/-- The hypotheses of C117_file_violated are met by a file with a valid sequent: with every sound core the program raises an
exception on it. -/
theorem C117_file_example (C : Core ℚ) (hS : SageOK C.toSage) (hC : CoreSound C) (hO : SolverOpt C) :
    FileText (testEnv C).num needText [needSeq] ∧
    (∀ σ : String → ℚ, (∀ f ∈ needSeq.ante, f.holds σ) → ∃ f ∈ needSeq.succ, f.holds σ) ∧
    ∃ e, grfOnFile (testEnv C) false false [] needText = .error e := by
  refine ⟨needText_ok, ?_, C117_file_violated (testEnv C) constQuot_ok (fun _ => hS) (fun _ => hC) (fun _ => hO) false []
    needText [] [] needSeq needText_ok (by decide) ?_ ?_⟩
  · intro σ h
    refine ⟨_, List.mem_singleton_self _, ?_⟩
    have h1 := h _ (List.mem_singleton_self _)
    simp [Fm.holds, Tm.value, rel, testNum_zero, testNum_one] at h1 ⊢
    linarith
  · intro i hi
    have : i = 0 := by simpa [needSeq] using hi
    subst this
    refine ⟨fun _ => -2, ?_, ?_, ?_⟩
    · intro f hf
      simp [needSeq] at hf
      rcases hf with rfl | rfl <;> simp [Fm.defined, Tm.defined]
    · intro k f hk hf
      cases k with
      | zero => exact absurd rfl hk
      | succ k => simp [needSeq] at hf
    · intro f hf
      rw [List.mem_singleton.1 hf]
      simp [Fm.holds, Tm.value, rel, testNum_zero, testNum_one]
  · intro j hj
    simp [needSeq] at hj

-- such cores exist
example : SageOK fileCore.toSage ∧ CoreSound fileCore ∧ SolverOpt fileCore :=
  ⟨testSage_ok, fileCore_sound, fun _ _ _ _ h => bruteSolve_opt h⟩

/-! ### C118 and C119 for all relations -/

/-- What holds of **C118** for sequents with any relations, if the sample points of the first check are sufficient
(`CoreSound`): if a sequent is reported as proved, no counterexample is reported for the sequent with other names of the
variables and with further hypotheses (at most one of them an equation), also if the two checks have different sample points,
random choices, local searches and solvers. -/
theorem C118_core_partial (C C' : Core K) (hS : SageOK C.toSage) (hC : CoreSound C) (hS' : SageOK C'.toSage) (n : ℕ)
    (hn : 0 < n) (hR : RingOK C'.toSage n) (hP : PointsOK C' n) (hyps hyps' : List Atom) (main main' : Atom)
    (hv : ∀ a ∈ main' :: hyps', ∀ v ∈ a.vars ++ a.poly.vars, v < n)
    (heq : hyps'.countP (fun a => decide (a.op = .eq)) ≤ 1) (σ : ℕ → ℕ)
    (hmain : ∀ ρ : ℕ → K, main'.holds ρ ↔ main.holds fun i => ρ (σ i))
    (hhyps : ∀ a ∈ hyps, ∃ a' ∈ hyps', ∀ ρ : ℕ → K, a'.holds ρ ↔ a.holds fun i => ρ (σ i)) (fuel fuel' : ℕ)
    (ids ids' : List ℕ) (ret : List (List ℕ)) (st' : State)
    (h : check C fuel 0 ⟨hyps, ⟨main, [], []⟩, ids⟩ = .ok (ret, st')) :
    check C' fuel' 0 ⟨hyps', ⟨main', [], []⟩, ids'⟩ ≠ .error .counterexample := by
  intro h'
  obtain ⟨-, -, -, hval⟩ := C34_sound C hS hyps main fuel ret st' ids h fun k ds => hC k st' ds
  obtain ⟨k, st, ds, -, d₀, -, d, -, hd⟩ := C105_partial C' hS' n hn hR hP hyps' main' hv heq fuel' ids' h'
  obtain ⟨h1, h2⟩ := hd (fun i => (d.lookup i).getD 0) fun i x hx => by rw [hx]; rfl
  refine h2 ((hmain _).2 (hval _ fun a ha => ?_))
  obtain ⟨a', ha', he⟩ := hhyps a ha
  exact (he _).1 (h1 a' ha')

/-- What holds of **C119** for sequents with any relations, under the same assumptions: no counterexample is reported for a
proved sequent with further hypotheses, in any order. -/
theorem C119_core_partial (C C' : Core K) (hS : SageOK C.toSage) (hC : CoreSound C) (hS' : SageOK C'.toSage) (n : ℕ)
    (hn : 0 < n) (hR : RingOK C'.toSage n) (hP : PointsOK C' n) (hyps hyps' : List Atom) (main : Atom)
    (hv : ∀ a ∈ main :: hyps', ∀ v ∈ a.vars ++ a.poly.vars, v < n)
    (heq : hyps'.countP (fun a => decide (a.op = .eq)) ≤ 1) (hsub : hyps ⊆ hyps') (fuel fuel' : ℕ)
    (ids ids' : List ℕ) (ret : List (List ℕ)) (st' : State)
    (h : check C fuel 0 ⟨hyps, ⟨main, [], []⟩, ids⟩ = .ok (ret, st')) :
    check C' fuel' 0 ⟨hyps', ⟨main, [], []⟩, ids'⟩ ≠ .error .counterexample :=
  C118_core_partial C C' hS hC hS' n hn hR hP hyps hyps' main main hv heq id (fun _ => Iff.rfl)
    (fun a ha => ⟨a, hsub ha, fun _ => Iff.rfl⟩) fuel fuel' ids ids' ret st' h

/-- The assumptions of C119_core_partial (and of C118_core_partial, for the same names) are met:
`x1 > 0, x0 > 0 ⊢ x0 + 1 > 0` is reported as proved, and then no counterexample to
`x1 = 0, x1 > 0, x0 > 0 ⊢ x0 + 1 > 0` is, with any sample points that have values for both variables. -/
example (ds near : List (Dict ℚ)) (hds : ∀ d ∈ ds, ∀ v < 2, (d.lookup v).isSome)
    (hnear : ∀ d ∈ near, ∀ v < 2, (d.lookup v).isSome) (fuel : ℕ) :
    check (testCore ds near) fuel 0 ⟨[⟨MPoly.var 1, .eq, [1]⟩, ⟨MPoly.var 1, .gt, [1]⟩, ⟨MPoly.var 0, .gt, [0]⟩],
      ⟨⟨(MPoly.var 0).add (MPoly.const 1), .gt, [0]⟩, [], []⟩, [0, 1, 2]⟩ ≠ .error .counterexample := by
  have h : ∃ r, check soundCore 3 0 ⟨[⟨MPoly.var 1, .gt, [1]⟩, ⟨MPoly.var 0, .gt, [0]⟩],
      ⟨⟨(MPoly.var 0).add (MPoly.const 1), .gt, [0]⟩, [], []⟩, [0, 1]⟩ = .ok r := by
    have h : (check soundCore 3 0 ⟨[⟨MPoly.var 1, .gt, [1]⟩, ⟨MPoly.var 0, .gt, [0]⟩],
      ⟨⟨(MPoly.var 0).add (MPoly.const 1), .gt, [0]⟩, [], []⟩, [0, 1]⟩).toOption.isSome = true := by decide +kernel
    revert h
    cases check soundCore 3 0 ⟨[⟨MPoly.var 1, .gt, [1]⟩, ⟨MPoly.var 0, .gt, [0]⟩],
      ⟨⟨(MPoly.var 0).add (MPoly.const 1), .gt, [0]⟩, [], []⟩, [0, 1]⟩ with
    | error e => intro h; cases h
    | ok r => intro _; exact ⟨r, rfl⟩
  obtain ⟨⟨ret, st'⟩, h⟩ := h
  refine C119_core_partial soundCore (testCore ds near) soundCore_ok.1 soundCore_ok.2 testSage_ok 2 (by norm_num)
    (testSage_ring 2) ⟨?_, ?_, ?_⟩ _ _ _ (by decide +kernel) (by decide +kernel) (by simp) 3 fuel [0, 1] _ ret st' h
  · intro k st ds' h d hd
    cases h
    exact hds d hd
  · intro k st d ds' _ h e he
    cases h
    exact hnear e he
  · intro k st
    exact ⟨by simp [testCore], fun d => by simp [testCore]⟩

end Verif.Grf
