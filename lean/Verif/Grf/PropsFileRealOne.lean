import Verif.Grf.PropsFileReal
import Verif.Grf.PropsCore

/-!
# C120 for sequents with one name, with assumptions on the text only; and how it fails
-/

set_option linter.unusedSectionVars false

namespace Verif.Grf

open Verif.Vts (isWs skipWs isNum isAlpha digits1 Ws Digits skipWs_ws skipWs_cons skipWs_wc isNum_iff isWs_iff)

theorem base_constant {p : MPoly} (hp : Normal p) (hc : p.isConstant = true) : purePolyBase p = p := by
  have hall : ∀ t ∈ p, t.1 = [] := by
    intro t ht
    have := List.all_eq_true.1 hc t ht
    exact deg_zero_stripped (hp.strip t ht) (by simpa using this)
  have hv : p.vars = [] := by
    rw [List.eq_nil_iff_forall_not_mem]
    intro w hw
    obtain ⟨t, ht, h⟩ := MPoly.mem_vars.1 hw
    rw [hall t ht] at h
    simp [Mono.exp] at h
  unfold purePolyBase
  rw [hv]
  simp

/-- The polynomials of the sequent that is read are differences of the two sides of formulas of the text. -/
theorem seq_polys {quot : MPoly → MPoly → Option MPoly} (hn : QuotNormal quot) {q : FileSeq} {A B : List Atom × Ctx}
    {hyps : List Atom} {main : Atom} {ids : List ℕ} (hA : readFms quot Ctx.init q.ante = .ok A)
    (hB : readFms quot A.2 q.succ = .ok B) (hs : seqState A.1 B.1 = .ok ⟨hyps, ⟨main, [], []⟩, ids⟩) :
    CtxOK B.2 ∧ NewNames Ctx.init B.2 ((q.ante ++ q.succ).flatMap Fm.words) ∧
    ∀ a ∈ main :: hyps, ∃ f ∈ q.ante ++ q.succ, ∃ a', ReadAs quot B.2 f a' ∧ a.poly = a'.poly := by
  obtain ⟨a1, a2, a3, a4⟩ := readFms_in hn q.ante Ctx.init A.2 A.1 init_ok hA
  obtain ⟨b1, b2, b3, b4⟩ := readFms_in hn q.succ A.2 B.2 B.1 a1 hB
  refine ⟨b1, ?_, ?_⟩
  · have := a3.trans b3
    rwa [← List.flatMap_append] at this
  have hAm : ∀ a ∈ A.1, ∃ f ∈ q.ante ++ q.succ, ∃ a', ReadAs quot B.2 f a' ∧ a.poly = a'.poly := by
    intro a ha
    obtain ⟨f, hf, hfa⟩ := forall₂_right a4 ha
    exact ⟨f, List.mem_append_left _ hf, a, hfa.mono b2, rfl⟩
  have hBm : ∀ a ∈ B.1, ∃ f ∈ q.ante ++ q.succ, ∃ a', ReadAs quot B.2 f a' ∧ a.poly = a'.poly := by
    intro a ha
    obtain ⟨f, hf, hfa⟩ := forall₂_right b4 ha
    exact ⟨f, List.mem_append_right _ hf, a, hfa, rfl⟩
  unfold seqState at hs
  split at hs
  · cases hs
  · next g others hrev =>
    have hs := Except.ok.inj hs
    simp only [State.mk.injEq, Goal.mk.injEq] at hs
    obtain ⟨rfl, ⟨rfl, -⟩, -⟩ := hs
    have hmemB : ∀ a ∈ g :: others, a ∈ B.1 := by
      intro a ha
      rw [← hrev] at ha
      exact List.mem_reverse.1 ha
    intro a ha
    rcases List.mem_cons.1 ha with ha | ha
    · rw [ha]
      exact hBm _ (hmemB _ (by simp))
    · rcases List.mem_append.1 ha with ha | ha
      · exact hAm a ha
      · obtain ⟨c, hc, rfl⟩ := List.mem_map.1 ha
        exact hBm c (hmemB c (by simp [hc]))

/-- The number of variables of a sequent with at most one name. -/
theorem one_name {q : FileSeq} {v : String} (hv : ∀ f ∈ q.ante ++ q.succ, ∀ w ∈ f.lhs.words ++ f.rhs.words, w = v) :
    1 = max 1 ((q.ante ++ q.succ).flatMap fun f => f.lhs.words ++ f.rhs.words).dedup.length := by
  have : ((q.ante ++ q.succ).flatMap fun f => f.lhs.words ++ f.rhs.words).dedup.length ≤ [v].length := by
    apply (List.subperm_of_subset (List.nodup_dedup _) _).length_le
    intro w hw
    rw [List.mem_dedup, List.mem_flatMap] at hw
    obtain ⟨f, hf, hw⟩ := hw
    exact List.mem_singleton.2 (hv f hf w hw)
  rw [List.length_singleton] at this
  omega

/-- For sequents with one name the assumption of C120_partial on the stacks follows from assumptions on the text. -/
theorem one_levels (E : SmtEnv ℚ) (R : CadEnv) (hq : QuotOK ℝ E.quot) (hqn : QuotNormal E.quot) (extra : ℕ → State → List MPoly)
    (q : FileSeq) (v : String) (hv : ∀ f ∈ q.ante ++ q.succ, ∀ w ∈ f.lhs.words ++ f.rhs.words, w = v)
    (hextra : ∀ k st, ∀ p ∈ extra k st, ∃ a ∈ st.goal.main :: st.goal.hyps, p = a.poly ∨ p = purePolyBase a.poly)
    (hdef : ∀ f ∈ q.ante ++ q.succ, ∀ σ : String → ℝ, f.defined σ)
    (hmix : (∀ f ∈ q.ante ++ q.succ, (∃ z : ℝ, f.lhs.value (fun _ => z) ≠ f.rhs.value (fun _ => z)) →
        ∀ a : ℚ, f.lhs.value (fun _ => (a : ℝ)) ≠ f.rhs.value (fun _ => (a : ℝ))) ∨
      (∀ f ∈ q.ante ++ q.succ, (∃ z : ℝ, f.lhs.value (fun _ => z) ≠ f.rhs.value (fun _ => z)) →
        ∀ z : ℝ, f.lhs.value (fun _ => z) = f.rhs.value (fun _ => z) → ∃ a : ℚ, z = a)) :
    ∀ A B hyps main ids, readFms E.quot Ctx.init q.ante = .ok A → readFms E.quot A.2 q.succ = .ok B →
      seqState A.1 B.1 = .ok ⟨hyps, ⟨main, [], []⟩, ids⟩ →
      ∀ k (st : State), st.goal.main = main → (st.goal.hyps ++ st.hyps).Perm hyps →
      LevelsOK R 1 (extra k st ++ st.goal.main.poly :: st.goal.hyps.map Atom.poly) 1 st.hyps := by
  have hn := one_name hv
  intro A B hyps main ids hA hB hs k st hmain hperm
  obtain ⟨c1, c2, c3⟩ := seq_polys hqn hA hB hs
  -- the polynomials that are installed
  have htop : ∀ p ∈ extra k st ++ st.goal.main.poly :: st.goal.hyps.map Atom.poly,
      ∃ f ∈ q.ante ++ q.succ, ∃ a', ReadAs E.quot B.2 f a' ∧ (p = a'.poly ∨ p = purePolyBase a'.poly) := by
    intro p hp
    have : ∃ a ∈ st.goal.main :: st.goal.hyps, p = a.poly ∨ p = purePolyBase a.poly := by
      rcases List.mem_append.1 hp with hp | hp
      · exact hextra k st p hp
      · rcases List.mem_cons.1 hp with rfl | hp
        · exact ⟨_, by simp, Or.inl rfl⟩
        · obtain ⟨a, ha, rfl⟩ := List.mem_map.1 hp
          exact ⟨a, by simp [ha], Or.inl rfl⟩
    obtain ⟨a, ha, hpa⟩ := this
    obtain ⟨f, hf, a', ha', e⟩ := c3 a (by
      rcases List.mem_cons.1 ha with rfl | ha
      · rw [hmain]; simp
      · exact List.mem_cons_of_mem _ (hperm.subset (List.mem_append_left _ ha)))
    exact ⟨f, hf, a', ha', by rwa [← e]⟩
  -- their zeros
  have hbase : ∀ p ∈ filterProjSet (extra k st ++ st.goal.main.poly :: st.goal.hyps.map Atom.poly),
      ∃ f ∈ q.ante ++ q.succ, (∃ z : ℝ, f.lhs.value (fun _ => z) ≠ f.rhs.value (fun _ => z)) ∧
        ∀ z : ℝ, val p z = 0 ↔ f.lhs.value (fun _ => z) = f.rhs.value (fun _ => z) := by
    intro p hp
    obtain ⟨p', hp', hc, rfl⟩ := mem_filterProjSet hp
    obtain ⟨f, hf, a', ha', hpa⟩ := htop p' hp'
    have hnorm : Normal p' := by
      rcases hpa with rfl | rfl
      · exact ha'.inCtx.1
      · exact normal_base ha'.inCtx.1
    have hvars : ∀ w ∈ p'.vars, w = 0 := by
      intro w hw
      have hw' : w ∈ a'.poly.vars := by
        rcases hpa with rfl | rfl
        · exact hw
        · exact vars_base hw
      obtain ⟨s, hs⟩ := ha'.inCtx.2 w hw'
      have := ctx_bound c1 c2 hs
      have e : ((q.ante ++ q.succ).flatMap Fm.words) =
        ((q.ante ++ q.succ).flatMap fun f => f.lhs.words ++ f.rhs.words) := rfl
      rw [e] at this
      omega
    have hca : a'.poly.isConstant = false := by
      rcases hpa with rfl | rfl
      · exact hc
      · cases hca : a'.poly.isConstant with
        | false => rfl
        | true =>
          rw [base_constant ha'.inCtx.1 hca, hca] at hc
          cases hc
    have hval : ∀ z : ℝ, val (purePolyBase p') z = 0 ↔ f.lhs.value (fun _ => z) = f.rhs.value (fun _ => z) := by
      intro z
      unfold val
      rw [purePolyBase_zero hnorm.coef hc]
      have e : a'.poly.eval (fun _ => z) = f.lhs.value (fun _ => z) - f.rhs.value (fun _ => z) :=
        ha'.value hq B.2 (fun _ _ h => h) (fun _ => z) (hdef f hf _)
      have e' : p'.eval (fun _ => z) = 0 ↔ a'.poly.eval (fun _ => z) = 0 := by
        rcases hpa with rfl | rfl
        · rfl
        · exact purePolyBase_zero ha'.inCtx.1.coef hca _
      rw [e', e, sub_eq_zero]
    refine ⟨f, hf, ?_, hval⟩
    obtain ⟨τ, hτ⟩ := hnorm.exists_ne (nonconstant_ne hc)
    refine ⟨(τ 0 : ℝ), ?_⟩
    rw [ne_eq, ← hval, val, purePolyBase_zero hnorm.coef hc, ← val, ← val_eq hvars (fun i => (τ i : ℝ)), eval_ratCast]
    exact_mod_cast hτ
  refine ⟨trivial, ?_⟩
  intro base sets hb
  change [_] = base :: sets at hb
  cases hb
  refine ⟨?_, fun x _ => trivial⟩
  rcases hmix with hmix | hmix
  · left
    intro p hp _ a h0
    obtain ⟨f, hf, hz, hval⟩ := hbase p hp
    apply hmix f hf hz a
    rw [← hval, val, eval_ratCast]
    rw [val] at h0
    exact_mod_cast h0
  · right
    intro p hp _ z h0
    obtain ⟨f, hf, hz, hval⟩ := hbase p hp
    exact hmix f hf hz z ((hval z).1 h0)

/-- What holds of **C120** for sequents with one name `v`, with assumptions on the text only: relations `<`, `>`, `!=` on
the left and `<=`, `>=`, `=` on the right, no divisor that can be zero, and, among the formulas whose sides are not always
equal, either none whose sides agree at a rational number or none whose sides agree at an irrational number. -/
theorem C120_one_partial (E : SmtEnv ℚ) (S : Sage ℚ) (R : CadEnv) (hE : RootsOK ℝ R) (hu : UniformOK R) (hel : ElimOK R)
    (hq : QuotOK ℝ E.quot) (hqn : QuotNormal E.quot) (extra : ℕ → State → List MPoly) (more) (solve)
    (hcore : E.core 0 = cadCore S R 1 1 extra more solve) (text : List Char) (q : FileSeq) (ht : FileText E.num text [q])
    (v : String) (hv : ∀ f ∈ q.ante ++ q.succ, ∀ w ∈ f.lhs.words ++ f.rhs.words, w = v)
    (hante : ∀ f ∈ q.ante, f.op = .lt ∨ f.op = .gt ∨ f.op = .ne)
    (hsucc : ∀ f ∈ q.succ, f.op = .le ∨ f.op = .ge ∨ f.op = .eq)
    (hextra : ∀ k st, ∀ p ∈ extra k st, ∃ a ∈ st.goal.main :: st.goal.hyps, p = a.poly ∨ p = purePolyBase a.poly)
    (hdef : ∀ f ∈ q.ante ++ q.succ, ∀ σ : String → ℝ, f.defined σ)
    (hmix : (∀ f ∈ q.ante ++ q.succ, (∃ z : ℝ, f.lhs.value (fun _ => z) ≠ f.rhs.value (fun _ => z)) →
        ∀ a : ℚ, f.lhs.value (fun _ => (a : ℝ)) ≠ f.rhs.value (fun _ => (a : ℝ))) ∨
      (∀ f ∈ q.ante ++ q.succ, (∃ z : ℝ, f.lhs.value (fun _ => z) ≠ f.rhs.value (fun _ => z)) →
        ∀ z : ℝ, f.lhs.value (fun _ => z) = f.rhs.value (fun _ => z) → ∃ a : ℚ, z = a))
    (interactive out : Bool) (lines : List (List Char)) (o : SmtOut)
    (h : grfOnFile E interactive out lines text = .ok o) : ∃ as ss : List ℕ,
      o.ret = (as.length, ss.length) ∧ o.file = (if out then some (resultText q.name as ss) else none) ∧
      ∀ σ : String → ℝ,
        (∀ i f, i ∉ as → q.ante[i]? = some f → f.holds σ) → ∃ i f, i ∉ ss ∧ q.succ[i]? = some f ∧ f.holds σ := by
  exact Exists.elim (C120_partial E S R hE hu hel hq hqn 1 extra more solve hcore text q ht (one_name hv) hante hsucc hextra
    (one_levels E R hq hqn extra q v hv hextra hdef hmix) interactive out lines o h)
    fun as ⟨ss, h1, h2, h3⟩ => ⟨as, ss, h1, h2, fun σ => h3 σ fun f hf => hdef f hf σ⟩

/-! ### How it fails -/

/-- `(* x x)` -/
theorem text_xx (num : Bool → List Char → List Char → ℚ) : TermText num "(* x x)".toList
    (.mul (.word (String.ofList ['x'])) (.word (String.ofList ['x']))) :=
  TermText.bin .mul [] [' '] [' '] [] ['x'] ['x'] _ _ ws_zero ws_one ws_one ws_zero (TermText.word _ word_x)
    (TermText.word _ word_x) (fun c r h => by cases h; rw [← isWord_iff]; decide)

/-- `2.` -/
theorem text_two (num : Bool → List Char → List Char → ℚ) : TermText num "2.".toList (.num (num false ['2'] [])) :=
  TermText.num false ['2'] [] (digits_test (by decide)) (Or.inl rfl)

/-- The file with the sequent `⊢ x * x != 2`. -/
theorem text_ne (num : Bool → List Char → List Char → ℚ) :
    FileText num "(sequent \"s\" (antecedent) (succedent (!= (* x x) 2.)))".toList
      [⟨['s'], [], [⟨.ne, .mul (.word (String.ofList ['x'])) (.word (String.ofList ['x'])), .num (num false ['2'] [])⟩]⟩] := by
  have hr : RelText num "(!= (* x x) 2.)".toList
      ⟨.ne, .mul (.word (String.ofList ['x'])) (.word (String.ofList ['x'])), .num (num false ['2'] [])⟩ :=
    RelText.mk [] [' '] [' '] [] "(* x x)".toList "2.".toList .ne _ _ ws_zero ws_one ws_one ws_zero (text_xx num) (text_two num)
      (fun c r h => by cases h; rw [← kwChar_iff]; decide) trivial
  exact FileText.cons [] _ _ _ _ ws_zero
    (SequentText.mk [] [' '] [' '] [] [' '] [] [] ['s'] _ _ _ _ ws_zero ws_one ws_one ws_zero ws_one ws_zero ws_zero (by decide)
      (RelsText.nil [] ws_zero) (RelsText.cons [' '] _ _ _ _ ws_one hr (RelsText.nil [] ws_zero)))
    (FileText.nil [] ws_zero)

/-- The file with the sequent `⊢ (x * x) * (x * x) <= 2 * (x * x)`. -/
theorem text_le (num : Bool → List Char → List Char → ℚ) :
    FileText num "(sequent \"s\" (antecedent) (succedent (<= (* (* x x) (* x x)) (* 2. (* x x)))))".toList
      [⟨['s'], [], [⟨.le, .mul (.mul (.word (String.ofList ['x'])) (.word (String.ofList ['x'])))
          (.mul (.word (String.ofList ['x'])) (.word (String.ofList ['x']))),
        .mul (.num (num false ['2'] [])) (.mul (.word (String.ofList ['x'])) (.word (String.ofList ['x'])))⟩]⟩] := by
  have h4 : TermText num "(* (* x x) (* x x))".toList (.mul (.mul (.word (String.ofList ['x'])) (.word (String.ofList ['x'])))
      (.mul (.word (String.ofList ['x'])) (.word (String.ofList ['x'])))) :=
    TermText.bin .mul [] [' '] [' '] [] "(* x x)".toList "(* x x)".toList _ _ ws_zero ws_one ws_one ws_zero (text_xx num)
      (text_xx num) trivial
  have h2 : TermText num "(* 2. (* x x))".toList (.mul (.num (num false ['2'] []))
      (.mul (.word (String.ofList ['x'])) (.word (String.ofList ['x'])))) :=
    TermText.bin .mul [] [' '] [' '] [] "2.".toList "(* x x)".toList _ _ ws_zero ws_one ws_one ws_zero (text_two num)
      (text_xx num) (fun c r h => by cases h; decide)
  have hr : RelText num "(<= (* (* x x) (* x x)) (* 2. (* x x)))".toList
      ⟨.le, .mul (.mul (.word (String.ofList ['x'])) (.word (String.ofList ['x'])))
          (.mul (.word (String.ofList ['x'])) (.word (String.ofList ['x']))),
        .mul (.num (num false ['2'] [])) (.mul (.word (String.ofList ['x'])) (.word (String.ofList ['x'])))⟩ :=
    RelText.mk [] [' '] [' '] [] "(* (* x x) (* x x))".toList "(* 2. (* x x))".toList .le _ _ ws_zero ws_one ws_one ws_zero h4 h2
      (fun c r h => by cases h; rw [← kwChar_iff]; decide) trivial
  exact FileText.cons [] _ _ _ _ ws_zero
    (SequentText.mk [] [' '] [' '] [] [' '] [] [] ['s'] _ _ _ _ ws_zero ws_one ws_one ws_zero ws_one ws_zero ws_zero (by decide)
      (RelsText.nil [] ws_zero) (RelsText.cons [' '] _ _ _ _ ws_one hr (RelsText.nil [] ws_zero)))
    (FileText.nil [] ws_zero)

/-- A file with a sequent without antecedent and with one formula on the right. -/
theorem file_one {E : SmtEnv ℚ} {text name : List Char} {f : Fm} {a : Atom} {c : Ctx} (ht : FileText E.num text [⟨name, [], [f]⟩])
    (hr : readFms E.quot Ctx.init [f] = .ok ([a], c))
    (hc : check (E.core 0) 1 0 ⟨[], ⟨a, [], []⟩, []⟩ = .ok ([], ⟨[], ⟨a, [], []⟩, []⟩)) (out : Bool) (lines : List (List Char)) :
    grfOnFile E false out lines text = .ok ⟨(0, 0), if out then some (resultText name [] []) else none⟩ := by
  rw [C74_reading E false out lines text _ ht]
  have h1 : readFms E.quot Ctx.init [] = .ok ([], Ctx.init) := rfl
  have h2 : seqState [] [a] = .ok ⟨[], ⟨a, [], []⟩, []⟩ := rfl
  have h3 : iCheck (E.core 0) E.int 1 0 false ⟨[], ⟨a, [], []⟩, []⟩ lines = .ok ([], ⟨[], ⟨a, [], []⟩, []⟩, lines) := by
    unfold iCheck
    simp only [bind, Except.bind]
    rw [hc]
    rfl
  have h4 : seqRun E (Obj.new false) lines 0 ⟨name, [], [f]⟩ =
      .ok (⟨c, (E.left [] [a]).1, (E.left [] [a]).2, name, some ([], []), false⟩, lines, 1) := by
    unfold seqRun
    have h0 : (Obj.new false).ctx = Ctx.init := rfl
    have h0' : (Obj.new false).interactive = false := rfl
    simp only [h0, h0', h1, hr, h2, List.length_nil, Nat.zero_add, h3]
    rfl
  have h5 : seqsRun E (Obj.new false, lines, 0) [⟨name, [], [f]⟩] =
      .ok (⟨c, (E.left [] [a]).1, (E.left [] [a]).2, name, some ([], []), false⟩, lines, 1) := by
    unfold seqsRun
    simp only [h4]
    rfl
  rw [h5]
  rfl

theorem read_ne (quot : MPoly → MPoly → Option MPoly) : readFms quot Ctx.init
    [⟨.ne, .mul (.word (String.ofList ['x'])) (.word (String.ofList ['x'])), .num 2⟩] =
      .ok ([⟨[([], -2), ([2], 1)], .ne, [0]⟩], ⟨1, [("x", 0)]⟩) := by
  have : readFms quot Ctx.init [⟨.ne, .mul (.word (String.ofList ['x'])) (.word (String.ofList ['x'])), .num 2⟩] =
      readFms (fun _ _ => none) Ctx.init [⟨.ne, .mul (.word (String.ofList ['x'])) (.word (String.ofList ['x'])), .num 2⟩] := by
    simp only [readFms, readFm, readTm]
  rw [this]
  decide +kernel

theorem read_le (quot : MPoly → MPoly → Option MPoly) : readFms quot Ctx.init
    [⟨.le, .mul (.mul (.word (String.ofList ['x'])) (.word (String.ofList ['x'])))
          (.mul (.word (String.ofList ['x'])) (.word (String.ofList ['x']))),
        .mul (.num 2) (.mul (.word (String.ofList ['x'])) (.word (String.ofList ['x'])))⟩] =
      .ok ([⟨[([2], -2), ([4], 1)], .le, [0]⟩], ⟨1, [("x", 0)]⟩) := by
  have : readFms quot Ctx.init [⟨.le, .mul (.mul (.word (String.ofList ['x'])) (.word (String.ofList ['x'])))
          (.mul (.word (String.ofList ['x'])) (.word (String.ofList ['x']))),
        .mul (.num 2) (.mul (.word (String.ofList ['x'])) (.word (String.ofList ['x'])))⟩] =
      readFms (fun _ _ => none) Ctx.init [⟨.le, .mul (.mul (.word (String.ofList ['x'])) (.word (String.ofList ['x'])))
          (.mul (.word (String.ofList ['x'])) (.word (String.ofList ['x']))),
        .mul (.num 2) (.mul (.word (String.ofList ['x'])) (.word (String.ofList ['x'])))⟩] := by
    simp only [readFms, readFm, readTm]
  rw [this]
  decide +kernel

/-- **C120** is violated: for the file with the sequent `⊢ x * x != 2`, `grf_on_file` returns `(0, 0)` and the output file says
that nothing can be hidden, whatever Sage's functions and the random choices are, but the formula is false at the square root
of 2. -/
theorem C120_violated (E : SmtEnv ℚ) (S : Sage ℚ) (R : CadEnv) (numSps : ℕ) (more) (solve)
    (hcore : E.core 0 = cadCore S R 1 numSps (fun _ _ => []) more solve) (hnum : E.num false ['2'] [] = 2)
    (lines : List (List Char)) : ∃ f : Fm,
      FileText E.num "(sequent \"s\" (antecedent) (succedent (!= (* x x) 2.)))".toList [⟨['s'], [], [f]⟩] ∧
      grfOnFile E false true lines "(sequent \"s\" (antecedent) (succedent (!= (* x x) 2.)))".toList =
        .ok ⟨(0, 0), some "(\"s\" () ())".toList⟩ ∧
      (∀ σ : String → ℝ, f.defined σ) ∧ ∃ σ : String → ℝ, ¬ f.holds σ := by
  have ht := text_ne E.num
  rw [hnum] at ht
  obtain ⟨main, hm, hc, -⟩ := C57_violated S R numSps more solve 0
  have hm' : main = ⟨[([], -2), ([2], 1)], .ne, [0]⟩ := by
    have : mkAtom ((MPoly.var 0).mul (MPoly.var 0)) "!=" (MPoly.const 2) = .ok ⟨[([], -2), ([2], 1)], .ne, [0]⟩ := by
      decide +kernel
    rw [this] at hm
    exact (Except.ok.inj hm).symm
  subst hm'
  refine ⟨_, ht, ?_, ?_, fun _ => Real.sqrt 2, ?_⟩
  · rw [file_one ht (read_ne E.quot) (by rw [hcore]; exact hc) true lines, if_pos rfl]
    congr 3
  · intro σ
    simp [Fm.defined, Tm.defined]
  · simp [Fm.holds, Tm.value, rel]

/-- **C120** is also violated for sequents with only strict relations to falsify, and with the right functions of Sage: for the
file with the sequent `⊢ (x * x) * (x * x) <= 2 * (x * x)`, `grf_on_file` returns `(0, 0)`, but the formula is false
at 2. -/
theorem C120_violated_strict (E : SmtEnv ℚ) (S : Sage ℚ) (R : CadEnv) (hE : RootsOK ℝ R) (numSps : ℕ) (more) (solve)
    (hcore : E.core 0 = cadCore S R 1 numSps (fun _ _ => []) more solve) (hnum : E.num false ['2'] [] = 2)
    (lines : List (List Char)) : ∃ f : Fm,
      FileText E.num "(sequent \"s\" (antecedent) (succedent (<= (* (* x x) (* x x)) (* 2. (* x x)))))".toList
        [⟨['s'], [], [f]⟩] ∧
      grfOnFile E false true lines
          "(sequent \"s\" (antecedent) (succedent (<= (* (* x x) (* x x)) (* 2. (* x x)))))".toList =
        .ok ⟨(0, 0), some "(\"s\" () ())".toList⟩ ∧
      (∀ σ : String → ℝ, f.defined σ) ∧ ∃ σ : String → ℝ, ¬ f.holds σ := by
  have ht := text_le E.num
  rw [hnum] at ht
  obtain ⟨main, hm, hc, -⟩ := C57_violated_strict S R hE numSps more solve 0
  have hm' : main = ⟨[([2], -2), ([4], 1)], .le, [0]⟩ := by
    have : mkAtom [([4], 1), ([2], -2)] "<=" (MPoly.const 0) = .ok ⟨[([2], -2), ([4], 1)], .le, [0]⟩ := by
      decide +kernel
    rw [this] at hm
    exact (Except.ok.inj hm).symm
  subst hm'
  refine ⟨_, ht, ?_, ?_, fun _ => 2, ?_⟩
  · rw [file_one ht (read_le E.quot) (by rw [hcore]; exact hc) true lines, if_pos rfl]
    congr 3
  · intro σ
    simp [Fm.defined, Tm.defined]
  · simp only [Fm.holds, Tm.value, rel]
    norm_num

/-! ### A file and a run that meet the assumptions -/

theorem constQuot_real : QuotOK ℝ constQuot := by
  intro p d q h ρ
  unfold constQuot at h
  split at h
  · next m c =>
    split at h
    · next hc =>
      cases h
      obtain ⟨hc, rfl⟩ := hc
      rw [MPoly.eval_mul, MPoly.eval_const]
      have : MPoly.eval ρ [([], c)] = (c : ℝ) := by simp [MPoly.eval, Mono.evalFrom]
      have hc' : (c : ℝ) ≠ 0 := by exact_mod_cast hc
      rw [this, Rat.cast_inv, mul_assoc, inv_mul_cancel₀ hc', mul_one]
    · cases h
  · cases h

theorem constQuot_normal : QuotNormal constQuot := by
  intro p d q h hp
  unfold constQuot at h
  split at h
  · next m c =>
    split at h
    · cases h
      exact ⟨normal_mul' hp (normal_const' _), fun w hw => (vars_mul hw).elim id fun h => (vars_const' h).elim⟩
    · cases h
  · cases h

/-- The file with the sequent `⊢ x * x >= 0`. -/
theorem text_ge (num : Bool → List Char → List Char → ℚ) :
    FileText num "(sequent \"s\" (antecedent) (succedent (>= (* x x) 0.)))".toList
      [⟨['s'], [], [⟨.ge, .mul (.word (String.ofList ['x'])) (.word (String.ofList ['x'])), .num (num false ['0'] [])⟩]⟩] := by
  have hr : RelText num "(>= (* x x) 0.)".toList
      ⟨.ge, .mul (.word (String.ofList ['x'])) (.word (String.ofList ['x'])), .num (num false ['0'] [])⟩ :=
    RelText.mk [] [' '] [' '] [] "(* x x)".toList "0.".toList .ge _ _ ws_zero ws_one ws_one ws_zero (text_xx num)
      (TermText.num false ['0'] [] (digits_test (by decide)) (Or.inl rfl))
      (fun c r h => by cases h; rw [← kwChar_iff]; decide) trivial
  exact FileText.cons [] _ _ _ _ ws_zero
    (SequentText.mk [] [' '] [' '] [] [' '] [] [] ['s'] _ _ _ _ ws_zero ws_one ws_one ws_zero ws_one ws_zero ws_zero (by decide)
      (RelsText.nil [] ws_zero) (RelsText.cons [' '] _ _ _ _ ws_one hr (RelsText.nil [] ws_zero)))
    (FileText.nil [] ws_zero)

/-- The assumptions of C120_one_partial are met by the file with the sequent `⊢ x * x >= 0`, and the run returns. -/
example : ∃ (E : SmtEnv ℚ) (S : Sage ℚ) (R : CadEnv) (q : FileSeq), RootsOK ℝ R ∧ UniformOK R ∧ ElimOK R ∧
    QuotOK ℝ E.quot ∧ QuotNormal E.quot ∧
    E.core 0 = cadCore S R 1 1 (fun _ _ => []) (fun _ _ _ => .ok []) (fun _ _ _ => none) ∧
    FileText E.num "(sequent \"s\" (antecedent) (succedent (>= (* x x) 0.)))".toList [q] ∧
    (∀ f ∈ q.ante ++ q.succ, ∀ w ∈ f.lhs.words ++ f.rhs.words, w = "x") ∧
    (∀ f ∈ q.ante, f.op = .lt ∨ f.op = .gt ∨ f.op = .ne) ∧ (∀ f ∈ q.succ, f.op = .le ∨ f.op = .ge ∨ f.op = .eq) ∧
    (∀ f ∈ q.ante ++ q.succ, ∀ σ : String → ℝ, f.defined σ) ∧
    (∀ f ∈ q.ante ++ q.succ, (∃ z : ℝ, f.lhs.value (fun _ => z) ≠ f.rhs.value (fun _ => z)) →
        ∀ z : ℝ, f.lhs.value (fun _ => z) = f.rhs.value (fun _ => z) → ∃ a : ℚ, z = a) ∧
    grfOnFile E false true [] "(sequent \"s\" (antecedent) (succedent (>= (* x x) 0.)))".toList =
      .ok ⟨(0, 0), some "(\"s\" () ())".toList⟩ := by
  obtain ⟨R, h1, h2, h3⟩ := C72_assumptions_met
  have ht := text_ge testNum
  refine ⟨testEnv (cadCore testSage R 1 1 (fun _ _ => []) (fun _ _ _ => .ok []) (fun _ _ _ => none)), testSage, R, _, h1, h2,
    h3.elimOK, constQuot_real, constQuot_normal, rfl, ht, ?_, by simp, ?_, ?_, ?_, ?_⟩
  · decide +kernel
  · simp
  · intro f hf σ
    simp only [List.nil_append, List.mem_singleton] at hf
    subst hf
    simp [Fm.defined, Tm.defined]
  · intro f hf _ z hz
    simp only [List.nil_append, List.mem_singleton] at hf
    subst hf
    have h0 : testNum false ['0'] [] = 0 := by decide +kernel
    simp only [Tm.value, h0, Rat.cast_zero, mul_self_eq_zero] at hz
    exact ⟨0, by simp [hz]⟩
  · have hr : readFms constQuot Ctx.init
        [⟨.ge, .mul (.word (String.ofList ['x'])) (.word (String.ofList ['x'])), .num (testNum false ['0'] [])⟩] =
        .ok ([⟨[([2], 1)], .ge, [0]⟩], ⟨1, [("x", 0)]⟩) := by decide +kernel
    refine (file_one ht hr ?_ true []).trans ?_
    · have hsam : (cadCore testSage R 1 1 (fun _ _ => []) (fun _ _ _ => .ok []) (fun _ _ _ => none)).samples 0
          ⟨[], ⟨⟨[([2], 1)], .ge, [0]⟩, [], []⟩, []⟩ =
          .ok (((sectorSps R [] (isoRootIntvls R (filterProjSet [[([2], 1)]])) 1 [] 0).map fun x => [x]).map
            (spDict [0])) := rfl
      refine check_true _ _ _ _ _ hsam ?_
      intro d hd
      obtain ⟨c, hc, rfl⟩ := List.mem_map.1 hd
      obtain ⟨s, _, rfl⟩ := List.mem_map.1 hc
      refine eval_main_true testSage _ _ (by decide +kernel) s ?_
      show val _ s ≥ 0
      have : val [([2], 1)] s = s ^ 2 := by simp [val, MPoly.eval, Mono.evalFrom]
      rw [this]
      positivity
    · rfl

/-- The assumptions of C120_violated and C120_violated_strict are met. -/
example : ∃ (E : SmtEnv ℚ) (S : Sage ℚ) (R : CadEnv), RootsOK ℝ R ∧
    E.core 0 = cadCore S R 1 1 (fun _ _ => []) (fun _ _ _ => .ok []) (fun _ _ _ => none) ∧ E.num false ['2'] [] = 2 := by
  obtain ⟨R, h1, -⟩ := C72_assumptions_met
  exact ⟨testEnv (cadCore testSage R 1 1 (fun _ _ => []) (fun _ _ _ => .ok []) (fun _ _ _ => none)), testSage, R, h1, rfl,
    by show testNum false ['2'] [] = 2; decide +kernel⟩

end Verif.Grf
