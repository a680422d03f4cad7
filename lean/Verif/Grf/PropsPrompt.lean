import Verif.Grf.PropsLast
import Verif.Grf.PropsInteractive
import Verif.Grf.PropsRerun

/-!
# C133: valid sequents can be proved in the interactive mode

The automatic mode never promotes the last hypothesis (C117). In the interactive mode the user may promote it: whatever
numbers of hypotheses are typed, in whatever order, a valid sequent is proved once there are as many as hypotheses.
-/

set_option linter.unusedSectionVars false

namespace Verif.Grf

variable {K : Type} [Field K] [LinearOrder K] [IsStrictOrderedRing K]

theorem trueHyps_noraise (S : Sage K) (d : Dict K) : ∀ (hs : List Atom) (j : ℕ),
    (∀ a ∈ hs, ∃ o, a.evalOnDict S d = .ok o) → ∃ l, trueHyps S d j hs = .ok l
  | [], j, _ => ⟨[], rfl⟩
  | b :: hs, j, h => by
    obtain ⟨o, ho⟩ := h b (by simp)
    obtain ⟨l, hl⟩ := trueHyps_noraise S d hs (j + 1) fun a ha => h a (by simp [ha])
    unfold trueHyps
    simp only [bind, Except.bind]
    rw [ho]
    simp only
    rw [hl]
    exact ⟨_, rfl⟩

/-- The point `d` does not refute the state, and all formulas can be evaluated there. -/
def NoCex (S : Sage K) (st : State) (d : Dict K) : Prop :=
  (∃ b, st.goal.evalOnDict S d = .ok b) ∧ (∀ a ∈ st.hyps, ∃ o, a.evalOnDict S d = .ok o) ∧
    ¬ (st.goal.evalOnDict S d = .ok false ∧ ∀ a ∈ st.hyps, a.evalOnDict S d = .ok (some true))

theorem badLoop_noraise (S : Sage K) (st : State) : ∀ (ds : List (Dict K)) (bads : List (List ℕ)),
    (∀ d ∈ ds, NoCex S st d) → ∃ r, badLoop S st ds bads = .ok r
  | [], bads, _ => ⟨bads, rfl⟩
  | d :: ds, bads, h => by
    obtain ⟨⟨b, hb⟩, h2, h3⟩ := h d (by simp)
    have ih := fun bads => badLoop_noraise S st ds bads fun e he => h e (by simp [he])
    unfold badLoop
    simp only [bind, Except.bind]
    rw [hb]
    cases b with
    | true => simpa using ih bads
    | false =>
      obtain ⟨l, hl⟩ := trueHyps_noraise S d st.hyps 0 h2
      simp only [Bool.false_eq_true, if_false]
      rw [hl]
      simp only
      rw [if_neg fun hlen => h3 ⟨hb, (trueHyps_all S d st.hyps 0 l hl).2 hlen⟩]
      exact ih _

theorem allBads_noraise (C : Core K) (n : ℕ) (st : State) : ∀ ds : List (Dict K),
    (∀ d ∈ ds, NoCex C.toSage st d ∧ ∃ near, C.more n st d = .ok near ∧ ∀ e ∈ near, NoCex C.toSage st e) →
    ∃ r, allBads C n st ds = .ok r ∧ (r.1 = false → st.hyps ≠ [])
  | [], _ => ⟨(true, []), rfl, by simp⟩
  | d :: ds, h => by
    obtain ⟨⟨⟨b, hb⟩, h2, h3⟩, near, hnear, hn⟩ := h d (by simp)
    obtain ⟨r, hr, hr'⟩ := allBads_noraise C n st ds fun e he => h e (by simp [he])
    unfold allBads badSubsets
    simp only [bind, Except.bind]
    rw [hb]
    cases b with
    | true =>
      simp only [if_true]
      rw [hr]
      exact ⟨r, rfl, hr'⟩
    | false =>
      have hne : st.hyps ≠ [] := fun h0 => h3 ⟨hb, by simp [h0]⟩
      obtain ⟨bs, hbs⟩ := badLoop_noraise C.toSage st (d :: near) [] (by
        intro e he
        rcases List.mem_cons.1 he with rfl | he
        · exact ⟨⟨_, hb⟩, h2, h3⟩
        · exact hn e he)
      simp only [Bool.false_eq_true, if_false]
      rw [if_neg hne, hnear]
      simp only
      rw [hbs]
      simp only
      rw [hr]
      exact ⟨_, rfl, fun _ => hne⟩

theorem promote_lt {S : Sage K} (hS : SageOK S) (st : State) {i : ℕ} (hi : i < st.hyps.length) :
    ∃ st', st.promote S i = .ok st' := by
  unfold State.promote
  rw [List.getElem?_eq_getElem hi]
  simp only [bind, Except.bind]
  rw [addHyp_ok hS]
  exact ⟨_, rfl⟩

theorem pinv_harmless (S : Sage K) {n : ℕ} (hn : 0 < n) {hyps : List Atom} {main : Atom}
    (hv : ∀ a ∈ main :: hyps, ∀ v ∈ a.vars ++ a.poly.vars, v < n)
    (hvalid : ∀ ρ : ℕ → K, (∀ a ∈ hyps, a.holds ρ) → main.holds ρ) {st : State} {ps : List Atom}
    (hp : PInv (K := K) n hyps main st ps) {d : Dict K} (htot : ∀ v < n, (d.lookup v).isSome) : NoCex S st d := by
  have hne : d ≠ [] := by
    rintro rfl
    have := htot 0 hn
    simp at this
  have hcov : ∀ a : Atom, (∀ v ∈ a.vars ++ a.poly.vars, v < n) → Covers d a := fun a ha =>
    ⟨hne, fun v hv => htot v (ha v (by simp [hv])), fun v hv => htot v (ha v (by simp [hv]))⟩
  have hρ : ∀ i x, d.lookup i = some x → ptOf d i = x := by
    intro i x hx
    rw [ptOf, hx]; rfl
  obtain ⟨b, hb, _⟩ := C32_goal S st.goal d (ptOf d) hρ (hcov _ (by rw [hp.main]; exact hv main (by simp)))
    fun a ha => hcov a (hp.vars a ha)
  refine ⟨⟨b, hb⟩, fun a ha => ⟨_, evalOnDict_covered S (hcov a (hv a ?_))⟩, fun h => ?_⟩
  · exact List.mem_cons_of_mem _ (hp.perm.subset (by simp [ha]))
  · obtain ⟨h1, h2⟩ := pinv_point S hn hv hp htot h.1 h.2 (ptOf d) hρ
    exact h2 (hvalid _ h1)

theorem iCheck_valid (C : Core K) (hS : SageOK C.toSage) {n : ℕ} (hn : 0 < n) (hR : RingOK C.toSage n)
    (hsam : ∀ k st, ∃ ds, C.samples k st = .ok ds ∧ ∀ d ∈ ds, (∀ v < n, (d.lookup v).isSome) ∧
      ∃ near, C.more k st d = .ok near ∧ ∀ e ∈ near, ∀ v < n, (e.lookup v).isSome)
    (int : List Char → Option ℤ) (text : ℕ → List Char) (htext : ∀ i, readCmd int (text i) = .promote i)
    {hyps : List Atom} {main : Atom} (hv : ∀ a ∈ main :: hyps, ∀ v ∈ a.vars ++ a.poly.vars, v < n)
    (heq : hyps.countP (fun a => decide (a.op = .eq)) ≤ 1)
    (hvalid : ∀ ρ : ℕ → K, (∀ a ∈ hyps, a.holds ρ) → main.holds ρ) (rest : List (List Char)) :
    ∀ (is : List ℕ) (fuel k : ℕ) (st : State) (ps : List Atom), PInv (K := K) n hyps main st ps →
      is.length = st.hyps.length → (∀ j (hj : j < is.length), is[j] + j < st.hyps.length) → st.hyps.length + 1 ≤ fuel →
      ∃ ret st' m, iCheck C int fuel k true st (is.map text ++ rest) = .ok (ret, st', (is.drop m).map text ++ rest) := by
  intro is
  induction is with
  | nil =>
    intro fuel k st ps hp hlen _ hf
    obtain ⟨f, rfl⟩ : ∃ f, fuel = f + 1 := ⟨fuel - 1, by omega⟩
    obtain ⟨ds, hds, hd⟩ := hsam k st
    obtain ⟨r, hr, hr'⟩ := allBads_noraise C k st ds fun d hdm => ⟨pinv_harmless _ hn hv hvalid hp (hd d hdm).1, by
      obtain ⟨near, h1, h2⟩ := (hd d hdm).2
      exact ⟨near, h1, fun e he => pinv_harmless _ hn hv hvalid hp (h2 e he)⟩⟩
    unfold iCheck
    simp only [bind, Except.bind]
    rw [hds]
    simp only [liftG]
    rw [hr]
    simp only
    cases h1 : r.1 with
    | true => exact ⟨[], st, 0, by simp⟩
    | false =>
      have := List.length_pos_iff.2 (hr' h1)
      simp at hlen
      omega
  | cons i is ih =>
    intro fuel k st ps hp hlen hrange hf
    obtain ⟨f, rfl⟩ : ∃ f, fuel = f + 1 := ⟨fuel - 1, by omega⟩
    obtain ⟨ds, hds, hd⟩ := hsam k st
    obtain ⟨r, hr, hr'⟩ := allBads_noraise C k st ds fun d hdm => ⟨pinv_harmless _ hn hv hvalid hp (hd d hdm).1, by
      obtain ⟨near, h1, h2⟩ := (hd d hdm).2
      exact ⟨near, h1, fun e he => pinv_harmless _ hn hv hvalid hp (h2 e he)⟩⟩
    unfold iCheck
    simp only [bind, Except.bind]
    rw [hds]
    simp only [liftG]
    rw [hr]
    simp only
    cases h1 : r.1 with
    | true => exact ⟨[], st, 0, by simp⟩
    | false =>
      have hi : i < st.hyps.length := hrange 0 (by simp)
      obtain ⟨st₁, hst₁⟩ := promote_lt hS st hi
      obtain ⟨ps', hp'⟩ := pinv_promote C.toSage hS hR (fun a ha => hv a (by simp [ha])) heq hst₁ hp
      have hl := promote_hyps hst₁
      simp only [List.length_cons] at hlen
      obtain ⟨ret, st', m, h2⟩ := ih f (k + 1) st₁ ps' hp' (by omega) (by
        intro j hj
        have := hrange (j + 1) (by simpa using hj)
        simp only [List.getElem_cons_succ] at this
        omega) (by omega)
      have hprompt : prompt C int st r.2 ((i :: is).map text ++ rest) = .ok (st₁, true, is.map text ++ rest) := by
        rw [List.map_cons, List.cons_append]
        unfold prompt
        rw [htext]
        simp only
        rw [if_pos ⟨by omega, by omega⟩]
        simp only [bind, Except.bind, Int.toNat_natCast]
        rw [hst₁]
        rfl
      simp only [Bool.false_eq_true, if_false]
      rw [hprompt]
      simp only
      rw [h2]
      exact ⟨_, st', m + 1, rfl⟩

/-- **C133**: in the interactive mode a valid sequent with at most one equation is proved, whatever hypotheses the user
chooses to promote and in whatever order: `is[j]` is the number typed in at the `j`-th question, in the range of the
hypotheses left at this time. The last lines may not be read. -/
theorem C133_interactive_complete (C : Core K) (hS : SageOK C.toSage) (n : ℕ) (hn : 0 < n) (hR : RingOK C.toSage n)
    (hsam : ∀ k st, ∃ ds, C.samples k st = .ok ds ∧ ∀ d ∈ ds, (∀ v < n, (d.lookup v).isSome) ∧
      ∃ near, C.more k st d = .ok near ∧ ∀ e ∈ near, ∀ v < n, (e.lookup v).isSome)
    (int : List Char → Option ℤ) (text : ℕ → List Char) (htext : ∀ i, readCmd int (text i) = .promote i)
    (hyps : List Atom) (main : Atom) (hv : ∀ a ∈ main :: hyps, ∀ v ∈ a.vars ++ a.poly.vars, v < n)
    (heq : hyps.countP (fun a => decide (a.op = .eq)) ≤ 1)
    (hvalid : ∀ ρ : ℕ → K, (∀ a ∈ hyps, a.holds ρ) → main.holds ρ) (is : List ℕ) (hlen : is.length = hyps.length)
    (hrange : ∀ j (hj : j < is.length), is[j] + j < hyps.length) (rest : List (List Char)) (ids : List ℕ) (fuel : ℕ)
    (hfuel : hyps.length + 1 ≤ fuel) :
    ∃ ret st' m, iCheck C int fuel 0 true ⟨hyps, ⟨main, [], []⟩, ids⟩ (is.map text ++ rest) =
      .ok (ret, st', (is.drop m).map text ++ rest) :=
  iCheck_valid C hS hn hR hsam int text htext hv heq hvalid rest is fuel 0 _ []
    ⟨List.Perm.refl _, rfl, fun ρ => Iff.rfl, fun ρ _ b hb => by simp at hb, fun _ => rfl, by simp, by simp⟩ hlen hrange hfuel

/-- **C133**: with a sound core, such a session ends without an exception exactly if the sequent is valid. -/
theorem C133_interactive_exact (C : Core K) (hS : SageOK C.toSage) (hC : CoreSound C) (n : ℕ) (hn : 0 < n)
    (hR : RingOK C.toSage n)
    (hsam : ∀ k st, ∃ ds, C.samples k st = .ok ds ∧ ∀ d ∈ ds, (∀ v < n, (d.lookup v).isSome) ∧
      ∃ near, C.more k st d = .ok near ∧ ∀ e ∈ near, ∀ v < n, (e.lookup v).isSome)
    (int : List Char → Option ℤ) (text : ℕ → List Char) (htext : ∀ i, readCmd int (text i) = .promote i)
    (hyps : List Atom) (main : Atom) (hv : ∀ a ∈ main :: hyps, ∀ v ∈ a.vars ++ a.poly.vars, v < n)
    (heq : hyps.countP (fun a => decide (a.op = .eq)) ≤ 1) (is : List ℕ) (hlen : is.length = hyps.length)
    (hrange : ∀ j (hj : j < is.length), is[j] + j < hyps.length) (rest : List (List Char)) (ids : List ℕ) (fuel : ℕ)
    (hfuel : hyps.length + 1 ≤ fuel) :
    (∃ r, iCheck C int fuel 0 true ⟨hyps, ⟨main, [], []⟩, ids⟩ (is.map text ++ rest) = .ok r) ↔
      ∀ ρ : ℕ → K, (∀ a ∈ hyps, a.holds ρ) → main.holds ρ := by
  constructor
  · rintro ⟨⟨ret, st', left⟩, h⟩
    obtain ⟨_, _, _, _, _, _, h1, _⟩ := C71_interactive_sound C hS int hyps main fuel _ left ret st' ids h
      fun k ds => hC k st' ds
    exact h1
  · intro hvalid
    obtain ⟨ret, st', m, h⟩ := C133_interactive_complete C hS n hn hR hsam int text htext hyps main hv heq hvalid is hlen
      hrange rest ids fuel hfuel
    exact ⟨_, h⟩

/-- **C133** for the sampling core of the program, where only the points of local search need an assumption: by C117 the
automatic mode fails on every such sequent that needs all its hypotheses. -/
theorem C133_cad (S : Sage ℚ) (E : CadEnv) (n numSps : ℕ) (hn : 0 < n) (hS : SageOK S) (hR : RingOK S n)
    (extra : ℕ → State → List MPoly) (near : ℕ → State → Dict ℚ → List (Dict ℚ)) (solve)
    (hnear : ∀ k st d, (∀ v < n, (d.lookup v).isSome) → ∀ e ∈ near k st d, ∀ v < n, (e.lookup v).isSome)
    (int : List Char → Option ℤ) (text : ℕ → List Char) (htext : ∀ i, readCmd int (text i) = .promote i)
    (hyps : List Atom) (main : Atom) (hv : ∀ a ∈ main :: hyps, ∀ v ∈ a.vars ++ a.poly.vars, v < n)
    (heq : hyps.countP (fun a => decide (a.op = .eq)) ≤ 1)
    (hvalid : ∀ ρ : ℕ → ℚ, (∀ a ∈ hyps, a.holds ρ) → main.holds ρ) (is : List ℕ) (hlen : is.length = hyps.length)
    (hrange : ∀ j (hj : j < is.length), is[j] + j < hyps.length) (rest : List (List Char)) (ids : List ℕ) (fuel : ℕ)
    (hfuel : hyps.length + 1 ≤ fuel) :
    ∃ ret st' m, iCheck (cadCore S E n numSps extra (fun k st d => .ok (near k st d)) solve) int fuel 0 true
      ⟨hyps, ⟨main, [], []⟩, ids⟩ (is.map text ++ rest) = .ok (ret, st', (is.drop m).map text ++ rest) := by
  refine C133_interactive_complete (cadCore S E n numSps extra (fun k st d => .ok (near k st d)) solve) hS n hn hR ?_ int
    text htext hyps main hv heq hvalid is hlen hrange rest ids fuel hfuel
  intro k st
  obtain ⟨ds, hds⟩ := (C59_partial S E (extra k st ++ st.goal.main.poly :: st.goal.hyps.map Atom.poly) numSps
    st.hyps).2 n st.goal hn
  have htot : ∀ d ∈ ds, ∀ v < n, (d.lookup v).isSome := fun d hd v hvn =>
    ((C58_assignments S E n _ _ _ _ ds hds d hd).2.2 v).2 hvn
  exact ⟨ds, hds, fun d hd => ⟨htot d hd, near k st d, rfl, fun e he => hnear k st d (htot d hd) e he⟩⟩

theorem iCheck_step (C : Core K) {int : List Char → Option ℤ} {line : List Char} {i : ℕ} (hline : readCmd int line = .promote i)
    {fuel k : ℕ} {st st₁ : State} {ds : List (Dict K)} {bads : List (List ℕ)} {rest : List (List Char)} {e : IErr}
    (hds : C.samples k st = .ok ds) (hb : allBads C k st ds = .ok (false, bads)) (hp : st.promote C.toSage i = .ok st₁)
    (h : iCheck C int fuel (k + 1) true st₁ rest = .error e) : iCheck C int (fuel + 1) k true st (line :: rest) = .error e := by
  have hi : i < st.hyps.length := by
    obtain ⟨a, _, ha, _⟩ := promote_ok hp
    exact (List.getElem?_eq_some_iff.1 ha).1
  have hprompt : prompt C int st bads (line :: rest) = .ok (st₁, true, rest) := by
    unfold prompt
    rw [hline]
    simp only
    rw [if_pos ⟨by omega, by omega⟩]
    simp only [bind, Except.bind, Int.toNat_natCast]
    rw [hp]
    rfl
  unfold iCheck
  simp only [bind, Except.bind]
  rw [hds]
  simp only [liftG]
  rw [hb]
  simp only [Bool.false_eq_true, if_false]
  rw [hprompt]
  simp only
  rw [h]

/-- With two equations this fails: for the valid sequent of C105_violated the session in which `0` is typed in three times
ends with the report of a counterexample, with right functions of Sage. -/
theorem C133_needed (int : List Char → Option ℤ) (line : List Char) (hline : readCmd int line = .promote 0) :
    ∃ (S : Sage ℚ) (E : CadEnv) (extra : ℕ → State → List MPoly)
      (solve : ℕ → List (List ℕ) → List ℕ → Option (List ℕ)),
      SageOK S ∧ RingOK S 2 ∧ RootsOK ℝ E ∧ TrueElim E ∧ UniformOK E ∧
      ∃ h₁ h₂ h₃ main : Atom, (∀ a ∈ main :: [h₁, h₂, h₃], ∀ v ∈ a.vars ++ a.poly.vars, v < 2) ∧
        (∀ ρ : ℕ → ℝ, h₁.holds ρ → h₂.holds ρ → h₃.holds ρ → main.holds ρ) ∧
        iCheck (cadCore S E 2 1 extra (fun _ _ _ => .ok []) solve) int 4 0 true
          ⟨[h₁, h₂, h₃], ⟨main, [], []⟩, [0, 1, 2]⟩ [line, line, line] = .error (.loop .counterexample) := by
  refine ⟨ceSage, ceEnv, fun k _ => ceExtra k, bruteSolve, ceSage_ok, ceSage_ring, ceEnv_roots, ceEnv_true, ceEnv_uniform,
    ce1, ce2, ce3, ceMain, by decide +kernel, fun ρ h1 h2 _ => ?_, ?_⟩
  · simp [Atom.holds, rel, ce1, ce2, ceMain, stE, ceF, ceM, MPoly.eval, Mono.evalFrom] at h1 h2 ⊢
    have h0 : ρ 0 = 0 := by linarith
    have h0' : ρ 1 = 0 := by linarith
    rw [h0, h0']
    norm_num
  · have s1 : ceCore.samples 0 ⟨[ce1, ce2, ce3], ⟨ceMain, [], []⟩, [0, 1, 2]⟩ =
        .ok [[(0, 0), (1, -1)], [(0, 0), (1, 0)], [(0, 0), (1, 1)]] := ok_of_toOption (by decide +kernel)
    have a1 : allBads ceCore 0 ⟨[ce1, ce2, ce3], ⟨ceMain, [], []⟩, [0, 1, 2]⟩
        [[(0, 0), (1, -1)], [(0, 0), (1, 0)], [(0, 0), (1, 1)]] = .ok (false, [[2]]) :=
      ok_of_toOption (by decide +kernel)
    have p1 : State.promote ceCore.toSage ⟨[ce1, ce2, ce3], ⟨ceMain, [], []⟩, [0, 1, 2]⟩ 0 = .ok ceSt₁ :=
      ok_of_toOption (by decide +kernel)
    obtain ⟨d2, s2, a2⟩ : ∃ ds, ceCore.samples 1 ceSt₁ = .ok ds ∧ (allBads ceCore 1 ceSt₁ ds).toOption = some (false, [[1]]) :=
      ⟨_, ok_of_toOption (a := ((ceCore.samples 1 ceSt₁).toOption.getD [])) (by decide +kernel), by decide +kernel⟩
    have p2 : State.promote ceCore.toSage ceSt₁ 0 = .ok ceSt₂ := ok_of_toOption (by decide +kernel)
    obtain ⟨d3, s3, a3⟩ : ∃ ds, ceCore.samples 2 ceSt₂ = .ok ds ∧ allBads ceCore 2 ceSt₂ ds = .error .counterexample :=
      ⟨_, ok_of_toOption (a := ((ceCore.samples 2 ceSt₂).toOption.getD [])) (by decide +kernel),
        err_of_match (by decide +kernel)⟩
    refine iCheck_step ceCore hline s1 a1 p1 (iCheck_step ceCore hline s2 (ok_of_toOption a2) p2 ?_)
    unfold iCheck
    simp only [bind, Except.bind]
    rw [s3]
    simp only [liftG]
    rw [a3]

/-- **C133** for sequents with a succedent, as they are given in files: all formulas but the last one of the succedent can be
promoted. Among these, an inequation `!=` of the succedent counts as an equation. -/
theorem C133_sequent (C : Core K) (hS : SageOK C.toSage) (n : ℕ) (hn : 0 < n) (hR : RingOK C.toSage n)
    (hsam : ∀ k st, ∃ ds, C.samples k st = .ok ds ∧ ∀ d ∈ ds, (∀ v < n, (d.lookup v).isSome) ∧
      ∃ near, C.more k st d = .ok near ∧ ∀ e ∈ near, ∀ v < n, (e.lookup v).isSome)
    (int : List Char → Option ℤ) (text : ℕ → List Char) (htext : ∀ i, readCmd int (text i) = .promote i)
    (A B : List Atom) (hB : B ≠ []) (hv : ∀ a ∈ A ++ B, ∀ v ∈ a.vars ++ a.poly.vars, v < n)
    (heq : A.countP (fun a => decide (a.op = .eq)) + B.dropLast.countP (fun a => decide (a.op = .ne)) ≤ 1)
    (hvalid : ∀ ρ : ℕ → K, (∀ a ∈ A, a.holds ρ) → ∃ b ∈ B, b.holds ρ) (is : List ℕ)
    (hlen : is.length + 1 = A.length + B.length)
    (hrange : ∀ j (hj : j < is.length), is[j] + j + 1 < A.length + B.length) (rest : List (List Char)) :
    ∃ s ret st' m, seqState A B = .ok s ∧
      iCheck C int (s.hyps.length + 1) 0 true s (is.map text ++ rest) = .ok (ret, st', (is.drop m).map text ++ rest) := by
  obtain ⟨g, l, hr⟩ : ∃ g l, B.reverse = g :: l := by
    cases h : B.reverse with
    | nil => exact absurd (List.reverse_eq_nil_iff.1 h) hB
    | cons g l => exact ⟨g, l, rfl⟩
  have hmem : ∀ s, s ∈ B ↔ s = g ∨ s ∈ l := by
    intro s
    rw [← List.mem_reverse, hr, List.mem_cons]
  have hBl : B.length = l.length + 1 := by rw [← List.length_reverse, hr, List.length_cons]
  have hcount : l.countP (fun a => decide (a.op = .ne)) ≤ B.dropLast.countP (fun a => decide (a.op = .ne)) := by
    have : B = l.reverse ++ [g] := by rw [← List.reverse_reverse B, hr, List.reverse_cons]
    rw [this, List.dropLast_concat, List.countP_reverse]
  have hs : seqState A B = .ok ⟨A ++ l.map Atom.negate, ⟨g, [], []⟩, List.range (A ++ l.map Atom.negate).length⟩ := by
    unfold seqState; rw [hr]
  obtain ⟨ret, st', m, h⟩ := C133_interactive_complete C hS n hn hR hsam int text htext (A ++ l.map Atom.negate) g (by
      intro a ha
      rcases List.mem_cons.1 ha with rfl | ha
      · exact hv a (by simp [hmem])
      · rcases List.mem_append.1 ha with ha | ha
        · exact hv a (by simp [ha])
        · obtain ⟨b, hb, rfl⟩ := List.mem_map.1 ha
          exact hv b (by simp [hmem, hb])) (by
      rw [List.countP_append, List.countP_map]
      have : l.countP ((fun a : Atom => decide (a.op = .eq)) ∘ Atom.negate) = l.countP (fun a => decide (a.op = .ne)) := by
        refine List.countP_congr fun a _ => ?_
        simp only [Function.comp, Atom.negate, decide_eq_true_eq]
        have : ∀ o : Op, o.negate = .eq ↔ o = .ne := by intro o; cases o <;> simp [Op.negate]
        exact decide_eq_true_iff.trans (this a.op)
      omega) (by
      intro ρ hh
      obtain ⟨b, hb, hb'⟩ := hvalid ρ fun a ha => hh a (by simp [ha])
      rcases (hmem b).1 hb with rfl | hb
      · exact hb'
      · exact absurd hb' ((negate_holds b ρ).1 (hh b.negate (by simp only [List.mem_append, List.mem_map]; exact Or.inr ⟨b, hb, rfl⟩)))) is
    (by simp only [List.length_append, List.length_map]; omega)
    (by
      intro j hj
      have := hrange j hj
      simp only [List.length_append, List.length_map]; omega) rest (List.range (A ++ l.map Atom.negate).length) _ le_rfl
  exact ⟨_, ret, st', m, hs, h⟩

/-- A file that the automatic mode fails on (C117_file_example) is proved when the number of its hypothesis is typed in. -/
theorem C133_file_example :
    (grfOnFile (testEnv fileCore) true false [['0']] needText).toOption.isSome = true ∧
    ∃ e, grfOnFile (testEnv fileCore) false false [] needText = .error e :=
  ⟨by decide +kernel, (C117_file_example fileCore testSage_ok fileCore_sound fun _ _ _ _ h => bruteSolve_opt h).2.2⟩

/-- Unary notation for the examples: the number `i` is written with `i + 1` strokes. -/
def unaryInt (l : List Char) : Option ℤ := if l.all (· = '|') ∧ l ≠ [] then some (l.length - 1 : ℤ) else none

/-- `text` and `int` as in the theorems. -/
theorem unaryInt_ok (i : ℕ) : readCmd unaryInt (List.replicate (i + 1) '|') = .promote i := by
  have h : (List.replicate (i + 1) '|').map Char.toLower = List.replicate (i + 1) '|' := by
    rw [List.map_replicate]; rfl
  have h1 : ∀ c l, c ≠ '|' → List.replicate (i + 1) '|' ≠ c :: l := by
    intro c l hc h
    rw [List.replicate_succ, List.cons.injEq] at h
    exact hc h.1.symm
  unfold readCmd
  simp only [h]
  rw [if_neg (h1 _ _ (by decide)), if_neg (h1 _ _ (by decide)), if_neg (h1 _ _ (by decide)), if_neg (h1 _ _ (by decide))]
  simp [unaryInt]

/-- The valid sequent `x0 > 0, x1 - x0 = 0 ⊢ x1 + 1 > 0` meets the other hypotheses with the core of the example beside
C105_partial; the second hypothesis is promoted first. -/
example : let hyps : List Atom := [⟨MPoly.var 0, .gt, [0]⟩, ⟨[([0, 1], 1), ([1], -1)], .eq, [0, 1]⟩]
    let main : Atom := ⟨[([0, 1], 1), ([], 1)], .gt, [1]⟩
    SageOK cexCore.toSage ∧ RingOK cexCore.toSage 2 ∧
    (∀ k st, ∃ ds, cexCore.samples k st = .ok ds ∧ ∀ d ∈ ds, (∀ v < 2, (d.lookup v).isSome) ∧
      ∃ near, cexCore.more k st d = .ok near ∧ ∀ e ∈ near, ∀ v < 2, (e.lookup v).isSome) ∧
    (∀ a ∈ main :: hyps, ∀ v ∈ a.vars ++ a.poly.vars, v < 2) ∧ hyps.countP (fun a => decide (a.op = .eq)) ≤ 1 ∧
    (∀ ρ : ℕ → ℚ, (∀ a ∈ hyps, a.holds ρ) → main.holds ρ) ∧
    [1, 0].length = hyps.length ∧ ∀ j (hj : j < [1, 0].length), [1, 0][j] + j < hyps.length := by
  intro hyps main
  refine ⟨testSage_ok, ⟨?_, fun ps h => h⟩, ?_, by decide +kernel, by decide +kernel, ?_, rfl, by decide⟩
  · intro p B hp _ v hv
    simp only [cexCore, testSage] at hv
    split at hv
    · simp [MPoly.vars] at hv
    · exact hp v hv
  · intro k st
    refine ⟨_, rfl, fun d hd => ⟨fun v hv => ?_, [], rfl, by simp⟩⟩
    have hv' : v = 0 ∨ v = 1 := by omega
    split at hd <;> simp only [List.mem_singleton] at hd <;> subst hd <;> rcases hv' with rfl | rfl <;> decide
  · intro ρ h
    have h1 := h ⟨MPoly.var 0, .gt, [0]⟩ (by simp [hyps])
    have h2 := h ⟨[([0, 1], 1), ([1], -1)], .eq, [0, 1]⟩ (by simp [hyps])
    simp [Atom.holds, rel, MPoly.var, MPoly.eval, Mono.evalFrom, main] at h1 h2 ⊢
    linarith

/-- The sequent `x0 > 0 ⊢ x1 != x0, x1 + 1 > 0` meets the hypotheses of C133_sequent on sequents and lines. -/
example : let A : List Atom := [⟨MPoly.var 0, .gt, [0]⟩]
    let B : List Atom := [⟨[([0, 1], 1), ([1], -1)], .ne, [0, 1]⟩, ⟨[([0, 1], 1), ([], 1)], .gt, [1]⟩]
    B ≠ [] ∧ (∀ a ∈ A ++ B, ∀ v ∈ a.vars ++ a.poly.vars, v < 2) ∧
    A.countP (fun a => decide (a.op = .eq)) + B.dropLast.countP (fun a => decide (a.op = .ne)) ≤ 1 ∧
    (∀ ρ : ℕ → ℚ, (∀ a ∈ A, a.holds ρ) → ∃ b ∈ B, b.holds ρ) ∧
    [1, 0].length + 1 = A.length + B.length ∧ ∀ j (hj : j < [1, 0].length), [1, 0][j] + j + 1 < A.length + B.length := by
  intro A B
  refine ⟨by simp [B], by decide +kernel, by decide +kernel, ?_, rfl, by decide⟩
  intro ρ h
  have h1 := h ⟨MPoly.var 0, .gt, [0]⟩ (by simp [A])
  simp only [B, List.mem_cons, List.not_mem_nil, or_false, exists_eq_or_imp, exists_eq_left]
  simp [Atom.holds, rel, MPoly.var, MPoly.eval, Mono.evalFrom] at h1 ⊢
  by_cases h2 : ρ 1 + -ρ 0 = 0
  · right; linarith
  · left; exact h2

end Verif.Grf
