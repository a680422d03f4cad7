import Verif.Grf.PropsDecides
import Verif.Grf.PropsFileRealOne

/-!
# C122 for files: with a formula on the left that is always true, `grf_on_file` decides
-/

set_option linter.unusedSectionVars false

namespace Verif.Grf

/-- A term without division. -/
def Tm.noDiv : Tm → Prop
  | .num _ => True
  | .word _ => True
  | .add a b => a.noDiv ∧ b.noDiv
  | .mul a b => a.noDiv ∧ b.noDiv
  | .sub a b => a.noDiv ∧ b.noDiv
  | .neg a => a.noDiv
  | .div _ _ => False

theorem Tm.noDiv_defined {K : Type} [Field K] [LinearOrder K] (σ : String → K) : ∀ t : Tm, t.noDiv → t.defined σ
  | .num _, _ => trivial
  | .word _, _ => trivial
  | .add a b, h => ⟨noDiv_defined σ a h.1, noDiv_defined σ b h.2⟩
  | .mul a b, h => ⟨noDiv_defined σ a h.1, noDiv_defined σ b h.2⟩
  | .sub a b, h => ⟨noDiv_defined σ a h.1, noDiv_defined σ b h.2⟩
  | .neg a, h => noDiv_defined σ a h
  | .div _ _, h => h.elim

theorem readTm_noDiv (quot : MPoly → MPoly → Option MPoly) : ∀ (t : Tm) (c : Ctx), t.noDiv → ∃ r, readTm quot c t = .ok r
  | .num _, _, _ => ⟨_, rfl⟩
  | .word _, _, _ => ⟨_, rfl⟩
  | .add a b, c, h => by
    obtain ⟨r, hr⟩ := readTm_noDiv quot a c h.1
    obtain ⟨r', hr'⟩ := readTm_noDiv quot b r.2 h.2
    exact ⟨(r.1.add r'.1, r'.2), by unfold readTm; simp only [bind, Except.bind, hr, hr']⟩
  | .mul a b, c, h => by
    obtain ⟨r, hr⟩ := readTm_noDiv quot a c h.1
    obtain ⟨r', hr'⟩ := readTm_noDiv quot b r.2 h.2
    exact ⟨(r.1.mul r'.1, r'.2), by unfold readTm; simp only [bind, Except.bind, hr, hr']⟩
  | .sub a b, c, h => by
    obtain ⟨r, hr⟩ := readTm_noDiv quot a c h.1
    obtain ⟨r', hr'⟩ := readTm_noDiv quot b r.2 h.2
    exact ⟨(r.1.sub r'.1, r'.2), by unfold readTm; simp only [bind, Except.bind, hr, hr']⟩
  | .neg a, c, h => by
    obtain ⟨r, hr⟩ := readTm_noDiv quot a c h
    exact ⟨((MPoly.const 0).sub r.1, r.2), by unfold readTm; simp only [bind, Except.bind, hr]⟩
  | .div _ _, _, h => h.elim

theorem readFms_noDiv (quot : MPoly → MPoly → Option MPoly) : ∀ (fs : List Fm) (c : Ctx),
    (∀ f ∈ fs, f.lhs.noDiv ∧ f.rhs.noDiv) → ∃ r, readFms quot c fs = .ok r := by
  intro fs
  induction fs with
  | nil => intro c _; exact ⟨_, rfl⟩
  | cons f fs ih =>
    intro c h
    obtain ⟨h1, h2⟩ := h f (by simp)
    obtain ⟨r, hr⟩ := readTm_noDiv quot f.lhs c h1
    obtain ⟨r', hr'⟩ := readTm_noDiv quot f.rhs r.2 h2
    have hop : mkAtom r.1 f.op.toString r'.1 = .ok ⟨r.1.sub r'.1, f.op, (r.1.sub r'.1).vars⟩ := by
      unfold mkAtom
      have : Op.ofString f.op.toString = some f.op := by cases f.op <;> decide
      rw [this]
    have hf : readFm quot c f = .ok (⟨r.1.sub r'.1, f.op, (r.1.sub r'.1).vars⟩, r'.2) := by
      unfold readFm
      simp only [bind, Except.bind, hr, hr', hop]
    obtain ⟨s, hs⟩ := ih r'.2 fun g hg => h g (by simp [hg])
    exact ⟨(⟨r.1.sub r'.1, f.op, (r.1.sub r'.1).vars⟩ :: s.1, s.2), by unfold readFms; simp only [bind, Except.bind, hf, hs]⟩

/-- The recorded variables of a formula that has been read. -/
theorem readFms_vars (quot : MPoly → MPoly → Option MPoly) : ∀ (fs : List Fm) (c : Ctx) (r : List Atom × Ctx),
    readFms quot c fs = .ok r → ∀ a ∈ r.1, a.vars = a.poly.vars := by
  intro fs
  induction fs with
  | nil => intro c r h; cases h; simp
  | cons f fs ih =>
    intro c r h a ha
    unfold readFms at h
    simp only [bind, Except.bind] at h
    split at h
    · cases h
    · next x hx =>
      split at h
      · cases h
      · next y hy =>
        cases h
        rcases List.mem_cons.1 ha with rfl | ha
        · unfold readFm at hx
          simp only [bind, Except.bind] at hx
          split at hx
          · cases hx
          · split at hx
            · cases hx
            · split at hx
              · cases hx
              · next b hb =>
                cases hx
                unfold mkAtom at hb
                split at hb
                · cases hb
                · cases hb; rfl
        · exact ih _ _ hy a ha

theorem forall₂_left' {α β : Type} {P : α → β → Prop} {l : List α} {m : List β} (h : List.Forall₂ P l m) {a : α}
    (ha : a ∈ l) : ∃ b ∈ m, P a b := by
  obtain ⟨b, hb, hp⟩ := forall₂_right h.flip ha
  exact ⟨b, hb, hp⟩

theorem rel_sub_zero {K : Type} [Field K] [LinearOrder K] [IsStrictOrderedRing K] (op : Op) (a b : K) :
    rel op (a - b) 0 ↔ rel op a b := by
  cases op <;> simp [rel, sub_eq_zero]

/-- The meaning of a formula that has been read. -/
theorem ReadAs.holds {quot : MPoly → MPoly → Option MPoly} (hq : QuotOK ℝ quot) {c : Ctx} {f : Fm} {a : Atom}
    (h : ReadAs quot c f a) (hf : f.lhs.noDiv ∧ f.rhs.noDiv) (ρ : ℕ → ℝ) : a.holds ρ ↔ f.holds (nameVal c ρ) := by
  unfold Atom.holds Fm.holds
  rw [h.value hq c (fun _ _ h => h) ρ ⟨Tm.noDiv_defined _ _ hf.1, Tm.noDiv_defined _ _ hf.2⟩, rel_sub_zero, h.op]

/-- **C122** for files: let a file contain one sequent without division, with relations `<`, `>`, `!=` on the left and
`<=`, `>=`, `=` on the right, and with some formula on the left that is true for all real numbers. Then, under the
assumptions of C120_partial, with right functions of Sage, an optimal solver and a local search that does not raise,
`grf_on_file` decides: it returns if the sequent is valid over the reals, and it reports a counterexample if it is not. -/
theorem C122_file (E : SmtEnv ℚ) (S : Sage ℚ) (R : CadEnv) (hE : RootsOK ℝ R) (hu : UniformOK R) (hel : ElimOK R)
    (hq : QuotOK ℝ E.quot) (hqn : QuotNormal E.quot) (n : ℕ) (hS : SageOK S) (hR : RingOK S n)
    (extra : ℕ → State → List MPoly) (near : ℕ → State → Dict ℚ → List (Dict ℚ)) (solve)
    (hnear : ∀ k st d, (∀ v < n, (d.lookup v).isSome) → ∀ e ∈ near k st d, ∀ v < n, (e.lookup v).isSome)
    (hcore : E.core 0 = cadCore S R n 1 extra (fun k st d => .ok (near k st d)) solve)
    (hC : SolverOpt (E.core 0)) (hC' : SolverComplete (E.core 0)) (text : List Char) (q : FileSeq)
    (ht : FileText E.num text [q])
    (hn : n = max 1 ((q.ante ++ q.succ).flatMap fun f => f.lhs.words ++ f.rhs.words).dedup.length)
    (hdiv : ∀ f ∈ q.ante ++ q.succ, f.lhs.noDiv ∧ f.rhs.noDiv) (hne : q.succ ≠ [])
    (hante : ∀ f ∈ q.ante, f.op = .lt ∨ f.op = .gt ∨ f.op = .ne)
    (hsucc : ∀ f ∈ q.succ, f.op = .le ∨ f.op = .ge ∨ f.op = .eq)
    (hextra : ∀ k st, ∀ p ∈ extra k st, ∃ a ∈ st.goal.main :: st.goal.hyps, p = a.poly ∨ p = purePolyBase a.poly)
    (hlev : ∀ A B hyps main ids, readFms E.quot Ctx.init q.ante = .ok A → readFms E.quot A.2 q.succ = .ok B →
      seqState A.1 B.1 = .ok ⟨hyps, ⟨main, [], []⟩, ids⟩ →
      ∀ k (st : State), st.goal.main = main → (st.goal.hyps ++ st.hyps).Perm hyps →
      LevelsOK R n (extra k st ++ st.goal.main.poly :: st.goal.hyps.map Atom.poly) 1 st.hyps)
    (f₀ : Fm) (hf₀ : f₀ ∈ q.ante) (htrue : ∀ σ : String → ℝ, f₀.holds σ) (out : Bool) (lines : List (List Char)) :
    ((∀ σ : String → ℝ, (∀ f ∈ q.ante, f.holds σ) → ∃ f ∈ q.succ, f.holds σ) ↔
      ∃ o, grfOnFile E false out lines text = .ok o) ∧
    ((∃ σ : String → ℝ, (∀ f ∈ q.ante, f.holds σ) ∧ ∀ f ∈ q.succ, ¬ f.holds σ) ↔
      grfOnFile E false out lines text = .error (.act (.loop .counterexample))) := by
  have hnpos : 0 < n := by omega
  obtain ⟨A, hA⟩ := readFms_noDiv E.quot q.ante Ctx.init fun f hf => hdiv f (by simp [hf])
  obtain ⟨B, hB⟩ := readFms_noDiv E.quot q.succ A.2 fun f hf => hdiv f (by simp [hf])
  obtain ⟨a1, a2, a3, a4⟩ := readFms_in hqn q.ante Ctx.init A.2 A.1 init_ok hA
  obtain ⟨b1, b2, b3, b4⟩ := readFms_in hqn q.succ A.2 B.2 B.1 a1 hB
  have hvars : ∀ a ∈ A.1 ++ B.1, a.vars = a.poly.vars := by
    intro a ha
    rcases List.mem_append.1 ha with ha | ha
    · exact readFms_vars _ _ _ _ hA a ha
    · exact readFms_vars _ _ _ _ hB a ha
  have hread : ∀ a ∈ A.1 ++ B.1, ∃ f ∈ q.ante ++ q.succ, ReadAs E.quot B.2 f a := by
    intro a ha
    rcases List.mem_append.1 ha with ha | ha
    · obtain ⟨f, hf, h⟩ := forall₂_right a4 ha
      exact ⟨f, by simp [hf], h.mono b2⟩
    · obtain ⟨f, hf, h⟩ := forall₂_right b4 ha
      exact ⟨f, by simp [hf], h⟩
  have hbound : ∀ a ∈ A.1 ++ B.1, ∀ v ∈ a.vars ++ a.poly.vars, v < n := by
    intro a ha v hv
    rw [hvars a ha, List.mem_append, or_self] at hv
    obtain ⟨f, -, hf⟩ := hread a ha
    obtain ⟨s, hs⟩ := hf.inCtx.2 v hv
    have := ctx_bound b1 (a3.trans b3) hs
    rw [← List.flatMap_append] at this
    have e : ((q.ante ++ q.succ).flatMap Fm.words) =
      ((q.ante ++ q.succ).flatMap fun f => f.lhs.words ++ f.rhs.words) := rfl
    rw [e] at this
    omega
  have hB1 : B.1 ≠ [] := by
    intro h0
    rw [h0] at b4
    cases hs : q.succ with
    | nil => exact hne hs
    | cons f fs => rw [hs] at b4; cases b4
  obtain ⟨g, others, hrev⟩ : ∃ g others, B.1.reverse = g :: others := by
    cases hr : B.1.reverse with
    | nil => exact absurd (List.reverse_eq_nil_iff.1 hr) hB1
    | cons g others => exact ⟨g, others, rfl⟩
  have hmemB : ∀ a, a ∈ g :: others ↔ a ∈ B.1 := fun a => by rw [← hrev, List.mem_reverse]
  obtain ⟨hyps, hhyps⟩ : ∃ hyps, hyps = A.1 ++ others.map Atom.negate := ⟨_, rfl⟩
  have hs : seqState A.1 B.1 = .ok ⟨hyps, ⟨g, [], []⟩, List.range hyps.length⟩ := by
    unfold seqState
    rw [hrev, hhyps]
  have hv : ∀ a ∈ g :: hyps, ∀ v ∈ a.vars ++ a.poly.vars, v < n := by
    intro a ha
    rcases List.mem_cons.1 ha with rfl | ha
    · exact hbound _ (List.mem_append_right _ ((hmemB _).1 (by simp)))
    · rw [hhyps] at ha
      rcases List.mem_append.1 ha with ha | ha
      · exact hbound a (List.mem_append_left _ ha)
      · obtain ⟨b, hb, rfl⟩ := List.mem_map.1 ha
        exact hbound b (List.mem_append_right _ ((hmemB b).1 (by simp [hb])))
  -- the run
  have hrun : (∃ o, grfOnFile E false out lines text = .ok o) ∨
      (grfOnFile E false out lines text = .error (.act (.loop .counterexample)) ∧
        check (E.core 0) (hyps.length + 1) 0 ⟨hyps, ⟨g, [], []⟩, List.range hyps.length⟩ = .error .counterexample) := by
    obtain ⟨a₀, ha₀, hr₀⟩ := forall₂_left' a4 hf₀
    have key := C122_core (E.core 0) (by rw [hcore]; exact hS) hC hC' g a₀ (by
      rw [hcore]
      refine cad_points S R n 1 hnpos extra near solve hnear g a₀ ?_ fun ρ _ => ?_
      · intro a ha
        simp only [List.mem_cons, List.not_mem_nil, or_false] at ha
        rcases ha with rfl | rfl
        · exact hv _ (by simp)
        · exact hbound _ (List.mem_append_left _ ha₀)
      · have := ((hr₀.mono b2).holds hq (hdiv f₀ (by simp [hf₀])) fun i => (ρ i : ℝ)).2 (htrue _)
        unfold Atom.holds at this ⊢
        rwa [eval_ratCast, rel_ratCast] at this) (hyps.length + 1) 0 ⟨hyps, ⟨g, [], []⟩, List.range hyps.length⟩ le_rfl rfl
        (by rw [hhyps]; exact List.mem_append_left _ ha₀)
    rw [C74_reading E false out lines text _ ht]
    unfold seqsRun seqRun
    simp only [Obj.new, hA, hB, hs]
    unfold iCheck
    simp only [bind, Except.bind]
    rcases key with ⟨ret, st', h, -⟩ | h
    · left
      rw [h]
      simp only [liftG]
      unfold seqsRun
      exact ⟨_, rfl⟩
    · right
      rw [h]
      exact ⟨rfl, rfl⟩
  have hsound : ∀ o, grfOnFile E false out lines text = .ok o →
      ∀ σ : String → ℝ, (∀ f ∈ q.ante, f.holds σ) → ∃ f ∈ q.succ, f.holds σ := by
    intro o ho σ hσ
    obtain ⟨as, ss, -, -, h⟩ := C120_partial E S R hE hu hel hq hqn n extra _ solve hcore text q ht hn hante hsucc hextra hlev
      false out lines o ho
    obtain ⟨i, f, -, hi, hf⟩ := h σ (fun f hf => ⟨Tm.noDiv_defined _ _ (hdiv f hf).1, Tm.noDiv_defined _ _ (hdiv f hf).2⟩)
      fun i f _ hi => hσ f (List.mem_of_getElem? hi)
    exact ⟨f, List.mem_of_getElem? hi, hf⟩
  have hcex : check (E.core 0) (hyps.length + 1) 0 ⟨hyps, ⟨g, [], []⟩, List.range hyps.length⟩ = .error .counterexample →
      ∃ σ : String → ℝ, (∀ f ∈ q.ante, f.holds σ) ∧ ∀ f ∈ q.succ, ¬ f.holds σ := by
    intro h
    rw [hcore] at h
    obtain ⟨ρ, h1, h2⟩ := C105_cad_partial S R n 1 hnpos hS hR extra _ solve (by
      intro k st d ds hd hds e he
      cases hds
      exact hnear k st d hd e he) (by simp) hyps g hv (by
      rw [List.countP_eq_zero.2]
      · exact Nat.zero_le _
      · intro a ha
        rw [hhyps] at ha
        rcases List.mem_append.1 ha with ha | ha
        · obtain ⟨f, hf, h⟩ := forall₂_right a4 ha
          rw [h.op]
          rcases hante f hf with h | h | h <;> rw [h] <;> decide
        · obtain ⟨b, hb, rfl⟩ := List.mem_map.1 ha
          obtain ⟨f, hf, h⟩ := forall₂_right b4 ((hmemB b).1 (by simp [hb]))
          show ¬ decide (b.op.negate = .eq) = true
          rw [h.op]
          rcases hsucc f hf with h | h | h <;> rw [h] <;> decide) (hyps.length + 1) (List.range hyps.length) h
    have hcast : ∀ a : Atom, a.holds (fun i => (ρ i : ℝ)) ↔ a.holds ρ := by
      intro a
      unfold Atom.holds
      rw [eval_ratCast, rel_ratCast]
    refine ⟨nameVal B.2 fun i => (ρ i : ℝ), fun f hf => ?_, fun f hf hh => ?_⟩
    · obtain ⟨a, ha, h⟩ := forall₂_left' a4 hf
      refine ((h.mono b2).holds hq (hdiv f (by simp [hf])) _).1 ((hcast a).2 (h1 a ?_))
      rw [hhyps]; exact List.mem_append_left _ ha
    · obtain ⟨a, ha, h⟩ := forall₂_left' b4 hf
      have hah := (hcast a).1 ((h.holds hq (hdiv f (by simp [hf])) _).2 hh)
      rcases List.mem_cons.1 ((hmemB a).2 ha) with rfl | ha
      · exact h2 hah
      · have := h1 a.negate (by rw [hhyps]; exact List.mem_append_right _ (List.mem_map.2 ⟨a, ha, rfl⟩))
        exact ((C31_atoms S).2.2.1 a ρ).1 this hah
  refine ⟨⟨fun hval => hrun.resolve_right fun ⟨_, h⟩ => ?_, fun ⟨o, h⟩ => hsound o h⟩,
    ⟨fun ⟨σ, h1, h2⟩ => ?_, fun h => ?_⟩⟩
  · obtain ⟨σ, h1, h2⟩ := hcex h
    obtain ⟨f, hf, h⟩ := hval σ h1
    exact h2 f hf h
  · rcases hrun with ⟨o, h⟩ | ⟨h, -⟩
    · obtain ⟨f, hf, hh⟩ := hsound o h σ h1
      exact absurd hh (h2 f hf)
    · exact h
  · rcases hrun with ⟨o, h'⟩ | ⟨-, h'⟩
    · rw [h] at h'; cases h'
    · exact hcex h'

/-- **C122** for files whose sequent has one name, with assumptions on the text only. -/
theorem C122_file_one (E : SmtEnv ℚ) (S : Sage ℚ) (R : CadEnv) (hE : RootsOK ℝ R) (hu : UniformOK R) (hel : ElimOK R)
    (hq : QuotOK ℝ E.quot) (hqn : QuotNormal E.quot) (hS : SageOK S) (hR : RingOK S 1)
    (extra : ℕ → State → List MPoly) (near : ℕ → State → Dict ℚ → List (Dict ℚ)) (solve)
    (hnear : ∀ k st d, (d.lookup 0).isSome → ∀ e ∈ near k st d, (e.lookup 0).isSome)
    (hcore : E.core 0 = cadCore S R 1 1 extra (fun k st d => .ok (near k st d)) solve)
    (hC : SolverOpt (E.core 0)) (hC' : SolverComplete (E.core 0)) (text : List Char) (q : FileSeq)
    (ht : FileText E.num text [q]) (v : String) (hv : ∀ f ∈ q.ante ++ q.succ, ∀ w ∈ f.lhs.words ++ f.rhs.words, w = v)
    (hdiv : ∀ f ∈ q.ante ++ q.succ, f.lhs.noDiv ∧ f.rhs.noDiv) (hne : q.succ ≠ [])
    (hante : ∀ f ∈ q.ante, f.op = .lt ∨ f.op = .gt ∨ f.op = .ne)
    (hsucc : ∀ f ∈ q.succ, f.op = .le ∨ f.op = .ge ∨ f.op = .eq)
    (hextra : ∀ k st, ∀ p ∈ extra k st, ∃ a ∈ st.goal.main :: st.goal.hyps, p = a.poly ∨ p = purePolyBase a.poly)
    (hmix : (∀ f ∈ q.ante ++ q.succ, (∃ z : ℝ, f.lhs.value (fun _ => z) ≠ f.rhs.value (fun _ => z)) →
        ∀ a : ℚ, f.lhs.value (fun _ => (a : ℝ)) ≠ f.rhs.value (fun _ => (a : ℝ))) ∨
      (∀ f ∈ q.ante ++ q.succ, (∃ z : ℝ, f.lhs.value (fun _ => z) ≠ f.rhs.value (fun _ => z)) →
        ∀ z : ℝ, f.lhs.value (fun _ => z) = f.rhs.value (fun _ => z) → ∃ a : ℚ, z = a))
    (f₀ : Fm) (hf₀ : f₀ ∈ q.ante) (htrue : ∀ σ : String → ℝ, f₀.holds σ) (out : Bool) (lines : List (List Char)) :
    ((∀ σ : String → ℝ, (∀ f ∈ q.ante, f.holds σ) → ∃ f ∈ q.succ, f.holds σ) ↔
      ∃ o, grfOnFile E false out lines text = .ok o) ∧
    ((∃ σ : String → ℝ, (∀ f ∈ q.ante, f.holds σ) ∧ ∀ f ∈ q.succ, ¬ f.holds σ) ↔
      grfOnFile E false out lines text = .error (.act (.loop .counterexample))) :=
  C122_file E S R hE hu hel hq hqn 1 hS hR extra near solve (fun k st d hd e he v hv => by
    obtain rfl : v = 0 := by omega
    exact hnear k st d (hd 0 (by decide)) e he) hcore hC hC' text q ht (one_name hv) hdiv hne hante hsucc hextra
    (one_levels E R hq hqn extra q v hv hextra (fun f hf σ =>
      ⟨Tm.noDiv_defined _ _ (hdiv f hf).1, Tm.noDiv_defined _ _ (hdiv f hf).2⟩) hmix) f₀ hf₀ htrue out lines

/-! ### An example -/

/-- `(> x 0.)` -/
theorem text_x_pos (num : Bool → List Char → List Char → ℚ) : RelText num "(> x 0.)".toList
    ⟨.gt, .word (String.ofList ['x']), .num (num false ['0'] [])⟩ :=
  RelText.mk [] [' '] [' '] [] ['x'] "0.".toList .gt _ _ ws_zero ws_one ws_one ws_zero (TermText.word _ word_x)
    (TermText.num false ['0'] [] (digits_test (by decide)) (Or.inl rfl))
    (fun c r h => by cases h; rw [← kwChar_iff]; decide) (fun c r h => by cases h; rw [← isWord_iff]; decide)

/-- `(> 1. 0.)` -/
theorem text_one_pos (num : Bool → List Char → List Char → ℚ) : RelText num "(> 1. 0.)".toList
    ⟨.gt, .num (num false ['1'] []), .num (num false ['0'] [])⟩ :=
  RelText.mk [] [' '] [' '] [] "1.".toList "0.".toList .gt _ _ ws_zero ws_one ws_one ws_zero
    (TermText.num false ['1'] [] (digits_test (by decide)) (Or.inl rfl))
    (TermText.num false ['0'] [] (digits_test (by decide)) (Or.inl rfl))
    (fun c r h => by cases h; rw [← kwChar_iff]; decide) (fun c r h => by cases h; decide)

/-- `(>= (+ x 1.) 0.)` -/
theorem text_x_one (num : Bool → List Char → List Char → ℚ) : RelText num "(>= (+ x 1.) 0.)".toList
    ⟨.ge, .add (.word (String.ofList ['x'])) (.num (num false ['1'] [])), .num (num false ['0'] [])⟩ :=
  RelText.mk [] [' '] [' '] [] "(+ x 1.)".toList "0.".toList .ge _ _ ws_zero ws_one ws_one ws_zero
    (TermText.bin .add [] [' '] [' '] [] ['x'] "1.".toList _ _ ws_zero ws_one ws_one ws_zero (TermText.word _ word_x)
      (TermText.num false ['1'] [] (digits_test (by decide)) (Or.inl rfl)) (fun c r h => by cases h; rw [← isWord_iff]; decide))
    (TermText.num false ['0'] [] (digits_test (by decide)) (Or.inl rfl))
    (fun c r h => by cases h; rw [← kwChar_iff]; decide) trivial

/-- The file with the sequent `x > 0, 1 > 0 ⊢ x + 1 >= 0`. -/
theorem text_decides (num : Bool → List Char → List Char → ℚ) :
    FileText num "(sequent \"s\" (antecedent (> x 0.) (> 1. 0.)) (succedent (>= (+ x 1.) 0.)))".toList
      [⟨['s'], [⟨.gt, .word (String.ofList ['x']), .num (num false ['0'] [])⟩,
          ⟨.gt, .num (num false ['1'] []), .num (num false ['0'] [])⟩],
        [⟨.ge, .add (.word (String.ofList ['x'])) (.num (num false ['1'] [])), .num (num false ['0'] [])⟩]⟩] :=
  FileText.cons [] _ _ _ _ ws_zero
    (SequentText.mk [] [' '] [' '] [] [' '] [] [] ['s'] _ _ _ _ ws_zero ws_one ws_one ws_zero ws_one ws_zero ws_zero (by decide)
      (RelsText.cons [' '] _ _ _ _ ws_one (text_x_pos num) (RelsText.cons [' '] _ _ _ _ ws_one (text_one_pos num)
        (RelsText.nil [] ws_zero)))
      (RelsText.cons [' '] _ _ _ _ ws_one (text_x_one num) (RelsText.nil [] ws_zero)))
    (FileText.nil [] ws_zero)

/-- The sequent `x > 0 ⊢ x + 1 >= 0`, which is never proved by itself (C117_example), is proved when the formula `1 > 0` is
added on the left: `grf_on_file` returns, whatever the right functions of Sage, the optimal solver and the local search. -/
theorem C122_example (E : SmtEnv ℚ) (S : Sage ℚ) (R : CadEnv) (hE : RootsOK ℝ R) (hu : UniformOK R) (hel : ElimOK R)
    (hq : QuotOK ℝ E.quot) (hqn : QuotNormal E.quot) (hS : SageOK S) (hR : RingOK S 1)
    (near : ℕ → State → Dict ℚ → List (Dict ℚ)) (solve)
    (hnear : ∀ k st d, (d.lookup 0).isSome → ∀ e ∈ near k st d, (e.lookup 0).isSome)
    (hcore : E.core 0 = cadCore S R 1 1 (fun _ _ => []) (fun k st d => .ok (near k st d)) solve)
    (hC : SolverOpt (E.core 0)) (hC' : SolverComplete (E.core 0)) (h0 : E.num false ['0'] [] = 0) (h1 : E.num false ['1'] [] = 1)
    (out : Bool) (lines : List (List Char)) :
    ∃ o, grfOnFile E false out lines
      "(sequent \"s\" (antecedent (> x 0.) (> 1. 0.)) (succedent (>= (+ x 1.) 0.)))".toList = .ok o := by
  have ht := text_decides E.num
  rw [h0, h1] at ht
  refine (C122_file_one E S R hE hu hel hq hqn hS hR (fun _ _ => []) near solve hnear hcore hC hC' _ _ ht "x" ?_ ?_ (by simp)
    (by simp) (by simp) (by simp) (Or.inr ?_) ⟨.gt, .num 1, .num 0⟩ (by simp) ?_ out lines).1.1 ?_
  · decide +kernel
  · intro f hf
    simp only [List.cons_append, List.nil_append, List.mem_cons, List.not_mem_nil, or_false] at hf
    rcases hf with rfl | rfl | rfl <;> simp [Tm.noDiv]
  · intro f hf _ z hz
    simp only [List.cons_append, List.nil_append, List.mem_cons, List.not_mem_nil, or_false] at hf
    rcases hf with rfl | rfl | rfl
    · simp only [Tm.value, Rat.cast_zero] at hz
      exact ⟨0, by simp [hz]⟩
    · simp [Tm.value] at hz
    · simp only [Tm.value, Rat.cast_zero, Rat.cast_one] at hz
      exact ⟨-1, by push_cast; linarith⟩
  · intro σ
    simp [Fm.holds, Tm.value, rel]
  · intro σ h
    refine ⟨_, List.mem_singleton.2 rfl, ?_⟩
    have := h _ (List.mem_cons_self)
    simp only [Fm.holds, Tm.value, rel, Rat.cast_zero, Rat.cast_one] at this ⊢
    linarith

/-- The assumptions of C122_example are met. -/
example : ∃ (E : SmtEnv ℚ) (S : Sage ℚ) (R : CadEnv) (near : ℕ → State → Dict ℚ → List (Dict ℚ))
    (solve : ℕ → List (List ℕ) → List ℕ → Option (List ℕ)), RootsOK ℝ R ∧ UniformOK R ∧ ElimOK R ∧
    QuotOK ℝ E.quot ∧ QuotNormal E.quot ∧ SageOK S ∧ RingOK S 1 ∧
    (∀ k st d, (d.lookup 0).isSome → ∀ e ∈ near k st d, (e.lookup 0).isSome) ∧
    E.core 0 = cadCore S R 1 1 (fun _ _ => []) (fun k st d => .ok (near k st d)) solve ∧
    SolverOpt (E.core 0) ∧ SolverComplete (E.core 0) ∧ E.num false ['0'] [] = 0 ∧ E.num false ['1'] [] = 1 := by
  obtain ⟨R, h1, h2, h3⟩ := C72_assumptions_met
  refine ⟨testEnv (cadCore testSage R 1 1 (fun _ _ => []) (fun _ _ d => .ok [d]) bruteSolve), testSage, R, fun _ _ d => [d],
    bruteSolve, h1, h2, h3.elimOK, constQuot_real, constQuot_normal, testSage_ok, testSage_ring 1, ?_, rfl,
    fun _ _ _ _ h => bruteSolve_opt h, (bruteSolve_ok [] []).2, ?_, ?_⟩
  · intro k st d hd e he
    rw [List.mem_singleton] at he
    subst he
    exact hd
  · show testNum false ['0'] [] = 0; decide +kernel
  · show testNum false ['1'] [] = 1; decide +kernel

end Verif.Grf
