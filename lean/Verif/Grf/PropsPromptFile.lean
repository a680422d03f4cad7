import Verif.Grf.PropsPrompt
import Verif.Grf.PropsFileDecides

/-!
# C133 for files
-/

set_option linter.unusedSectionVars false

namespace Verif.Grf

theorem readAs_ops {quot : MPoly → MPoly → Option MPoly} {c : Ctx} {fs : List Fm} {as : List Atom}
    (h : List.Forall₂ (ReadAs quot c) fs as) : as.map Atom.op = fs.map Fm.op := by
  induction h with
  | nil => rfl
  | cons h _ ih => rw [List.map_cons, List.map_cons, ih, h.op]

/-- **C133** for files: let a file contain one sequent without division, with at most one equation on the left or inequation
`!=` on the right before the last formula. If the sequent is valid over the reals, then in the interactive mode
`grf_on_file` returns, whatever formulas the user chooses to use and in whatever order, with right functions of Sage and a
local search that does not raise. -/
theorem C133_file (E : SmtEnv ℚ) (S : Sage ℚ) (R : CadEnv) (hq : QuotOK ℝ E.quot) (hqn : QuotNormal E.quot)
    (n numSps : ℕ) (hS : SageOK S) (hR : RingOK S n)
    (extra : ℕ → State → List MPoly) (near : ℕ → State → Dict ℚ → List (Dict ℚ)) (solve)
    (hnear : ∀ k st d, (∀ v < n, (d.lookup v).isSome) → ∀ e ∈ near k st d, ∀ v < n, (e.lookup v).isSome)
    (hcore : E.core 0 = cadCore S R n numSps extra (fun k st d => .ok (near k st d)) solve) (text : List Char) (q : FileSeq)
    (ht : FileText E.num text [q])
    (hn : n = max 1 ((q.ante ++ q.succ).flatMap fun f => f.lhs.words ++ f.rhs.words).dedup.length)
    (hdiv : ∀ f ∈ q.ante ++ q.succ, f.lhs.noDiv ∧ f.rhs.noDiv) (hne : q.succ ≠ [])
    (heq : q.ante.countP (fun f => decide (f.op = .eq)) + q.succ.dropLast.countP (fun f => decide (f.op = .ne)) ≤ 1)
    (hvalid : ∀ σ : String → ℝ, (∀ f ∈ q.ante, f.holds σ) → ∃ f ∈ q.succ, f.holds σ)
    (number : ℕ → List Char) (hnumber : ∀ i, readCmd E.int (number i) = .promote i) (is : List ℕ)
    (hlen : is.length + 1 = q.ante.length + q.succ.length)
    (hrange : ∀ j (hj : j < is.length), is[j] + j + 1 < q.ante.length + q.succ.length) (rest : List (List Char)) (out : Bool) :
    ∃ o, grfOnFile E true out (is.map number ++ rest) text = .ok o := by
  have hnpos : 0 < n := by omega
  obtain ⟨A, hA⟩ := readFms_noDiv E.quot q.ante Ctx.init fun f hf => hdiv f (by simp [hf])
  obtain ⟨B, hB⟩ := readFms_noDiv E.quot q.succ A.2 fun f hf => hdiv f (by simp [hf])
  obtain ⟨a1, a2, a3, a4⟩ := readFms_in hqn q.ante Ctx.init A.2 A.1 init_ok hA
  obtain ⟨b1, b2, b3, b4⟩ := readFms_in hqn q.succ A.2 B.2 B.1 a1 hB
  have hvars : ∀ a ∈ A.1 ++ B.1, a.vars = a.poly.vars := by
    intro a ha
    rcases List.mem_append.1 ha with ha | ha
    · exact readFms_vars _ _ _ _ hA a ha
    · exact readFms_vars _ _ _ _ hB a ha
  have hread : ∀ a ∈ A.1 ++ B.1, ∃ f ∈ q.ante ++ q.succ, ReadAs E.quot B.2 f a := by
    intro a ha
    rcases List.mem_append.1 ha with ha | ha
    · obtain ⟨f, hf, h⟩ := forall₂_right a4 ha
      exact ⟨f, by simp [hf], h.mono b2⟩
    · obtain ⟨f, hf, h⟩ := forall₂_right b4 ha
      exact ⟨f, by simp [hf], h⟩
  have hbound : ∀ a ∈ A.1 ++ B.1, ∀ v ∈ a.vars ++ a.poly.vars, v < n := by
    intro a ha v hv
    rw [hvars a ha, List.mem_append, or_self] at hv
    obtain ⟨f, -, hf⟩ := hread a ha
    obtain ⟨s, hs⟩ := hf.inCtx.2 v hv
    have := ctx_bound b1 (a3.trans b3) hs
    rw [← List.flatMap_append] at this
    have e : ((q.ante ++ q.succ).flatMap Fm.words) =
      ((q.ante ++ q.succ).flatMap fun f => f.lhs.words ++ f.rhs.words) := rfl
    rw [e] at this
    omega
  have la := a4.length_eq
  have lb := b4.length_eq
  have hB1 : B.1 ≠ [] := by
    intro h0
    rw [h0] at lb
    exact hne (List.length_eq_zero_iff.1 lb)
  have hcount : A.1.countP (fun a => decide (a.op = .eq)) + B.1.dropLast.countP (fun a => decide (a.op = .ne)) ≤ 1 := by
    have e1 : A.1.countP (fun a => decide (a.op = .eq)) = q.ante.countP (fun f => decide (f.op = .eq)) := by
      have := congrArg (List.countP fun o => decide (o = Op.eq)) (readAs_ops a4)
      rwa [List.countP_map, List.countP_map] at this
    have e2 : B.1.dropLast.countP (fun a => decide (a.op = .ne)) = q.succ.dropLast.countP (fun f => decide (f.op = .ne)) := by
      have := congrArg (fun l => List.countP (fun o => decide (o = Op.ne)) l.dropLast) (readAs_ops b4)
      simp only [← List.map_dropLast] at this
      rwa [List.countP_map, List.countP_map] at this
    omega
  obtain ⟨s, ret, st', m, hs, h⟩ := C133_sequent (E.core 0) (by rw [hcore]; exact hS) n hnpos (by rw [hcore]; exact hR) (by
      intro k st
      rw [hcore]
      obtain ⟨ds, hds⟩ := (C59_partial S R (extra k st ++ st.goal.main.poly :: st.goal.hyps.map Atom.poly) numSps
        st.hyps).2 n st.goal hnpos
      have htot : ∀ d ∈ ds, ∀ v < n, (d.lookup v).isSome := fun d hd v hvn =>
        ((C58_assignments S R n _ _ _ _ ds hds d hd).2.2 v).2 hvn
      exact ⟨ds, hds, fun d hd => ⟨htot d hd, near k st d, rfl, fun e he => hnear k st d (htot d hd) e he⟩⟩)
    E.int number hnumber A.1 B.1 hB1 hbound hcount (by
      intro ρ hρ
      have hcast : ∀ a : Atom, a.holds (fun i => (ρ i : ℝ)) ↔ a.holds ρ := by
        intro a
        unfold Atom.holds
        rw [eval_ratCast, rel_ratCast]
      obtain ⟨f, hf, hf'⟩ := hvalid (nameVal B.2 fun i => (ρ i : ℝ)) fun f hf => by
        obtain ⟨a, ha, hr⟩ := forall₂_left' a4 hf
        exact ((hr.mono b2).holds hq (hdiv f (by simp [hf])) _).1 ((hcast a).2 (hρ a ha))
      obtain ⟨b, hb, hr⟩ := forall₂_left' b4 hf
      exact ⟨b, hb, (hcast b).1 ((hr.holds hq (hdiv f (by simp [hf])) _).2 hf')⟩) is (by omega)
    (fun j hj => by have := hrange j hj; omega) rest
  rw [C74_reading E true out _ text _ ht]
  unfold seqsRun seqRun
  simp only [Obj.new, hA, hB, hs, h]
  unfold seqsRun
  exact ⟨_, rfl⟩

/-- **C133** for files with strict sequents: with relations `<`, `>`, `!=` on the left and `<=`, `>=`, `=` on the right, and
under the assumptions of C120_partial, such a session returns exactly if the sequent is valid over the reals. -/
theorem C133_file_exact (E : SmtEnv ℚ) (S : Sage ℚ) (R : CadEnv) (hE : RootsOK ℝ R) (hu : UniformOK R) (hel : ElimOK R)
    (hq : QuotOK ℝ E.quot) (hqn : QuotNormal E.quot) (n : ℕ) (hS : SageOK S) (hR : RingOK S n)
    (extra : ℕ → State → List MPoly) (near : ℕ → State → Dict ℚ → List (Dict ℚ)) (solve)
    (hnear : ∀ k st d, (∀ v < n, (d.lookup v).isSome) → ∀ e ∈ near k st d, ∀ v < n, (e.lookup v).isSome)
    (hcore : E.core 0 = cadCore S R n 1 extra (fun k st d => .ok (near k st d)) solve) (text : List Char) (q : FileSeq)
    (ht : FileText E.num text [q])
    (hn : n = max 1 ((q.ante ++ q.succ).flatMap fun f => f.lhs.words ++ f.rhs.words).dedup.length)
    (hdiv : ∀ f ∈ q.ante ++ q.succ, f.lhs.noDiv ∧ f.rhs.noDiv) (hne : q.succ ≠ [])
    (hante : ∀ f ∈ q.ante, f.op = .lt ∨ f.op = .gt ∨ f.op = .ne)
    (hsucc : ∀ f ∈ q.succ, f.op = .le ∨ f.op = .ge ∨ f.op = .eq)
    (hextra : ∀ k st, ∀ p ∈ extra k st, ∃ a ∈ st.goal.main :: st.goal.hyps, p = a.poly ∨ p = purePolyBase a.poly)
    (hlev : ∀ A B hyps main ids, readFms E.quot Ctx.init q.ante = .ok A → readFms E.quot A.2 q.succ = .ok B →
      seqState A.1 B.1 = .ok ⟨hyps, ⟨main, [], []⟩, ids⟩ →
      ∀ k (st : State), st.goal.main = main → (st.goal.hyps ++ st.hyps).Perm hyps →
      LevelsOK R n (extra k st ++ st.goal.main.poly :: st.goal.hyps.map Atom.poly) 1 st.hyps)
    (number : ℕ → List Char) (hnumber : ∀ i, readCmd E.int (number i) = .promote i) (is : List ℕ)
    (hlen : is.length + 1 = q.ante.length + q.succ.length)
    (hrange : ∀ j (hj : j < is.length), is[j] + j + 1 < q.ante.length + q.succ.length) (rest : List (List Char)) (out : Bool) :
    (∃ o, grfOnFile E true out (is.map number ++ rest) text = .ok o) ↔
      ∀ σ : String → ℝ, (∀ f ∈ q.ante, f.holds σ) → ∃ f ∈ q.succ, f.holds σ := by
  constructor
  · rintro ⟨o, ho⟩ σ hσ
    obtain ⟨as, ss, -, -, h⟩ := C120_partial E S R hE hu hel hq hqn n extra _ solve hcore text q ht hn hante hsucc hextra hlev
      true out _ o ho
    obtain ⟨i, f, -, hi, hf⟩ := h σ (fun f hf => ⟨Tm.noDiv_defined _ _ (hdiv f hf).1, Tm.noDiv_defined _ _ (hdiv f hf).2⟩)
      fun i f _ hi => hσ f (List.mem_of_getElem? hi)
    exact ⟨f, List.mem_of_getElem? hi, hf⟩
  · intro hvalid
    refine C133_file E S R hq hqn n 1 hS hR extra near solve hnear hcore text q ht hn hdiv hne ?_ hvalid number hnumber is hlen
      hrange rest out
    rw [List.countP_eq_zero.2, List.countP_eq_zero.2]
    · exact Nat.zero_le _
    · intro f hf
      rcases hsucc f (List.mem_of_mem_dropLast hf) with h | h | h <;> rw [h] <;> decide
    · intro f hf
      rcases hante f hf with h | h | h <;> rw [h] <;> decide

/-- The file with the sequent `x > 0 ⊢ x + 1 > 0`, on which the automatic mode raises an exception with every sound core
(C117_file_example), meets the hypotheses of C133_file: it is proved when the number 0 is typed in. -/
theorem C133_example (R : CadEnv) (numSps : ℕ) (near : ℕ → State → Dict ℚ → List (Dict ℚ)) (solve)
    (hnear : ∀ k st d, (d.lookup 0).isSome → ∀ e ∈ near k st d, (e.lookup 0).isSome) (rest : List (List Char)) (out : Bool) :
    ∃ o, grfOnFile { testEnv (cadCore testSage R 1 numSps (fun _ _ => []) (fun k st d => .ok (near k st d)) solve) with
      int := unaryInt } true out (['|'] :: rest) needText = .ok o := by
  refine C133_file _ testSage R constQuot_real constQuot_normal 1 numSps testSage_ok (testSage_ring 1) (fun _ _ => []) near solve
    (fun k st d hd e he v hv => ?_) rfl needText needSeq needText_ok (by decide +kernel) ?_ (by simp [needSeq]) (by decide) ?_
    (fun i => List.replicate (i + 1) '|') unaryInt_ok [0] rfl ?_ rest out
  · obtain rfl : v = 0 := by omega
    exact hnear k st d (hd 0 (by decide)) e he
  · intro f hf
    simp only [needSeq, List.cons_append, List.nil_append, List.mem_cons, List.not_mem_nil, or_false] at hf
    rcases hf with rfl | rfl <;> simp [Tm.noDiv]
  · intro σ h
    refine ⟨_, List.mem_singleton_self _, ?_⟩
    have h1 := h _ (List.mem_singleton_self _)
    simp [Fm.holds, Tm.value, rel, testNum_zero, testNum_one] at h1 ⊢
    linarith
  · intro j hj
    obtain rfl : j = 0 := by simpa using hj
    simp [needSeq]

/-- The sequent `x > 0 ⊢ x + 1 >= 0` meets the hypotheses of C133_file_exact. -/
example (E : SmtEnv ℚ) (S : Sage ℚ) (R : CadEnv) (hE : RootsOK ℝ R) (hu : UniformOK R) (hel : ElimOK R)
    (hq : QuotOK ℝ E.quot) (hqn : QuotNormal E.quot) (hS : SageOK S) (hR : RingOK S 1)
    (near : ℕ → State → Dict ℚ → List (Dict ℚ)) (solve)
    (hnear : ∀ k st d, (d.lookup 0).isSome → ∀ e ∈ near k st d, (e.lookup 0).isSome)
    (hcore : E.core 0 = cadCore S R 1 1 (fun _ _ => []) (fun k st d => .ok (near k st d)) solve)
    (number : ℕ → List Char) (hnumber : ∀ i, readCmd E.int (number i) = .promote i)
    (h0 : E.num false ['0'] [] = 0) (h1 : E.num false ['1'] [] = 1) (rest : List (List Char)) (out : Bool) :
    ∃ o, grfOnFile E true out ([number 0] ++ rest)
      "(sequent \"s\" (antecedent (> x 0.)) (succedent (>= (+ x 1.) 0.)))".toList = .ok o := by
  have ht : FileText E.num "(sequent \"s\" (antecedent (> x 0.)) (succedent (>= (+ x 1.) 0.)))".toList
      [⟨['s'], [⟨.gt, .word (String.ofList ['x']), .num (E.num false ['0'] [])⟩],
        [⟨.ge, .add (.word (String.ofList ['x'])) (.num (E.num false ['1'] [])), .num (E.num false ['0'] [])⟩]⟩] :=
    FileText.cons [] _ _ _ _ ws_zero
      (SequentText.mk [] [' '] [' '] [] [' '] [] [] ['s'] _ _ _ _ ws_zero ws_one ws_one ws_zero ws_one ws_zero ws_zero (by decide)
        (RelsText.cons [' '] _ _ _ _ ws_one (text_x_pos E.num) (RelsText.nil [] ws_zero))
        (RelsText.cons [' '] _ _ _ _ ws_one (text_x_one E.num) (RelsText.nil [] ws_zero)))
      (FileText.nil [] ws_zero)
  rw [h0, h1] at ht
  have hv : ∀ f ∈ [(⟨.gt, .word (String.ofList ['x']), .num 0⟩ : Fm)] ++
      [⟨.ge, .add (.word (String.ofList ['x'])) (.num 1), .num 0⟩], ∀ w ∈ f.lhs.words ++ f.rhs.words, w = "x" := by
    decide +kernel
  have hdiv : ∀ f ∈ [(⟨.gt, .word (String.ofList ['x']), .num 0⟩ : Fm)] ++
      [⟨.ge, .add (.word (String.ofList ['x'])) (.num 1), .num 0⟩], f.lhs.noDiv ∧ f.rhs.noDiv := by
    intro f hf
    simp only [List.cons_append, List.nil_append, List.mem_cons, List.not_mem_nil, or_false] at hf
    rcases hf with rfl | rfl <;> simp [Tm.noDiv]
  refine (C133_file_exact E S R hE hu hel hq hqn 1 hS hR (fun _ _ => []) near solve (fun k st d hd e he v hv => ?_) hcore _ _ ht
    (one_name hv) hdiv (by simp) (by simp) (by simp) (by simp)
    (one_levels E R hq hqn (fun _ _ => []) _ "x" hv (by simp) (fun f hf σ =>
      ⟨Tm.noDiv_defined _ _ (hdiv f hf).1, Tm.noDiv_defined _ _ (hdiv f hf).2⟩) (Or.inr ?_)) number hnumber [0] rfl ?_ rest out).2 ?_
  · obtain rfl : v = 0 := by omega
    exact hnear k st d (hd 0 (by decide)) e he
  · intro f hf _ z hz
    simp only [List.cons_append, List.nil_append, List.mem_cons, List.not_mem_nil, or_false] at hf
    rcases hf with rfl | rfl
    · simp only [Tm.value, Rat.cast_zero] at hz
      exact ⟨0, by simp [hz]⟩
    · simp only [Tm.value, Rat.cast_zero, Rat.cast_one] at hz
      exact ⟨-1, by push_cast; linarith⟩
  · intro j hj
    obtain rfl : j = 0 := by simpa using hj
    simp
  · intro σ h
    refine ⟨_, List.mem_singleton.2 rfl, ?_⟩
    have := h _ (List.mem_cons_self)
    simp only [Fm.holds, Tm.value, rel, Rat.cast_zero, Rat.cast_one] at this ⊢
    linarith

end Verif.Grf
