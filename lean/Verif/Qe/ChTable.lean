import Verif.Qe.ChExpand

/-!
# One table of `_real_table`
-/

set_option linter.unusedSectionVars false

namespace Verif.Qe

open Polynomial Verif.Alg

variable {R : Type} [CommRing R] [DecidableEq R]
variable {K : Type*} [Field K] [LinearOrder K] [IsStrictOrderedRing K] [PolyIVT K]

theorem tableMapBack_ok {T : Table R} {needed : List (List R)} {mapping : Mapping R}
    (hm : ∀ q ∈ needed, ∃ r, dGet mapping q = some r ∧ r ∈ keys T) :
    ∃ mb, tableMapBack T needed mapping = .ok mb ∧
      (∀ q, q ∈ keys mb ↔ q ∈ needed ∨ q ∈ keys T) ∧
      (∀ q ∈ needed, ∀ r, dGet mapping q = some r → dRow mb q = dRow T r) ∧
      ∀ q, q ∉ needed → dRow mb q = dRow T q := by
  unfold tableMapBack
  set rowOf : List R → List (ℚ × ℤ) := fun q => dRow T ((dGet mapping q).getD []) with hrowOf
  have h1 := foldlM_eq_foldl (mapBackRow T mapping) (fun ret q => dSet ret q (rowOf q)) needed []
    (by
      intro s q hq
      obtain ⟨r, hr, hr'⟩ := hm q hq
      obtain ⟨row, hrow⟩ := (dGet_isSome T r).1 hr'
      simp only [mapBackRow, hr, hrow, hrowOf, Option.getD_some]
      unfold dRow
      rw [hrow]; rfl)
  rw [h1]
  refine ⟨_, rfl, ?_, ?_, ?_⟩
  · intro q
    unfold keys
    rw [dGet_isSome]
    rw [dGet_foldl_dSet, dGet_foldl_dSet]
    simp only [List.mem_filter, decide_eq_true_eq]
    by_cases hq : q ∈ needed
    · simp [hq]
    · by_cases hq' : q ∈ T.map Prod.fst
      · simp only [hq, hq', not_false_eq_true, and_self, if_true, or_true, iff_true]
        exact ⟨_, rfl⟩
      · simp [hq, hq', dGet]
  · intro q hq r hr
    unfold dRow
    rw [dGet_foldl_dSet, dGet_foldl_dSet]
    rw [if_neg (by simp [hq]), if_pos hq, Option.getD_some]
    simp only [hrowOf, hr, Option.getD_some]
    rfl
  · intro q hq
    unfold dRow
    rw [dGet_foldl_dSet, dGet_foldl_dSet]
    by_cases hq' : q ∈ T.map Prod.fst
    · rw [if_pos (by simp only [List.mem_filter, decide_eq_true_eq]; exact ⟨hq', hq⟩)]
      rfl
    · rw [if_neg (by simp only [List.mem_filter, decide_eq_true_eq]; exact fun h => hq' h.1), if_neg hq,
        dGet_none T q hq']
      rfl

/-- What holds of a result of `_real_table`. -/
def TOut (K : Type*) [Field K] [LinearOrder K] (A : MAlg R) (con : Ctx R) (polys : List (List R))
    (x : Table R × Ctx R) : Prop :=
  ∃ gs, TShape A x.2 x.1 polys gs ∧ CtxExt con x.2 ∧ CtxOK A x.2 ∧
    ∀ φ : R →+* K, Realises A φ x.2 → TSem φ x.1 polys gs

/-- The situation of one expanded context. -/
structure CtxHyp (A : MAlg R) (con : Ctx R) (polys : List (List R)) (p : List R)
    (needed : List (List R)) (e : Expanded R) (goal : List (List R)) : Prop where
  alg : AlgOK A
  entry : ExpEntry A con needed e
  split : ∀ q ∈ polys, q = p ∨ q ∈ needed
  pne : polys ≠ []
  new : p ∉ needed
  canon : Canon p
  canons : ∀ q ∈ needed, Canon q
  le : ∀ q ∈ needed, q.length ≤ p.length
  ne : p ≠ []
  der : 0 < deg p → derivative p ∈ needed
  pols : ∀ q ∈ e.2.1, q ≠ [] → q ∈ goal
  rem : ∀ q ∈ e.2.1, 0 < deg q → ∃ r, pseudoRem p q = .ok r ∧ (r ≠ [] → r ∈ goal)
  newg : p ∉ goal
  gne : goal ≠ []
  polne : e.2.1 ≠ []

theorem CtxHyp.new_pols {A : MAlg R} {con : Ctx R} {polys : List (List R)} {p : List R}
    {needed : List (List R)} {e : Expanded R} {goal : List (List R)}
    (h : CtxHyp A con polys p needed e goal) : p ∉ e.2.1 := fun hp => h.newg (h.pols p hp h.ne)

theorem lc_derivative [IsDomain R] [CharZero R] {p : List R} (hp : Canon p) (hd : 0 < deg p) :
    derivative p ≠ [] ∧ lc (derivative p) = lc p * (deg p : R) := by
  have hne : p ≠ [] := ne_nil_of_deg hd
  have hlc := canon_lc hp hne
  have h1 : (toPoly p).natDegree = deg p := natDegree_toPoly hp
  have h2 := leadingCoeff_toPoly hp
  have h3 := leadingCoeff_toPoly (derivative_canon p)
  have h4 : toPoly (derivative p) ≠ 0 := by
    rw [toPoly_derivative]
    intro h
    have := Polynomial.derivative_eq_zero.1 h
    omega
  refine ⟨fun h => h4 (by rw [h]; rfl), ?_⟩
  rw [← h3, toPoly_derivative, Polynomial.leadingCoeff_derivative, h2, h1]

/-- The extension of a table for one expanded context can be computed. -/
theorem CtxHyp.extRun {A : MAlg R} {con : Ctx R} {polys : List (List R)} {p : List R}
    {needed : List (List R)} {e : Expanded R} {goal : List (List R)} (h : CtxHyp A con polys p needed e goal)
    {T : Table R} {c : Ctx R} {gs : List (ℚ × ℚ)} (hT : TShape A c T goal gs) (hext : CtxExt e.1 c) {s : ℤ}
    (hs1 : signCtx A c (lc p) = .ok s) (hs3 : Sign3 s) : ExtRun A c T goal gs p e.2.1 s := by
  have hA := h.alg
  have hnil : cval A c [] = some 0 := by
    unfold cval
    rw [if_pos (by rfl)]
    simp [hA.sign0]
  have hconstg : ∀ q ∈ goal, deg q = 0 → ∃ v, Sign3 v ∧ cval A c q = some v := fun q hq hd =>
    ⟨_, hT.val q hq 0 (Or.inl rfl), hT.const q hq hd 0 (Or.inl rfl)⟩
  have hstop : ∀ r ∈ e.2.1, Stop A c r := fun r hr => by
    obtain ⟨q, hq, h'⟩ := h.entry.pols r hr
    exact (h'.mono hext).stops
  have hdeg_ne : ∀ q : List R, 0 < deg q → q ≠ [] := fun q hq => ne_nil_of_deg hq
  have hmaxc : deg p = 0 → cval A c p = some s := by
    intro hd
    obtain ⟨a, rfl⟩ : ∃ a, p = [a] := by
      have hne := h.ne
      unfold deg at hd
      match p, hd, hne with
      | [a], _, _ => exact ⟨a, rfl⟩
      | [], _, hne => exact absurd rfl hne
    have hs1' : signCtx A c a = .ok s := hs1
    unfold signCtx at hs1'
    unfold cval
    show (if A.hasVar a = false then some (A.sign a) else dGet c a) = some s
    split at hs1'
    · next h' => rw [if_pos h']; cases hs1'; rfl
    · next h' =>
      rw [if_neg h']
      cases hd : dGet c a with
      | none => rw [hd] at hs1'; cases hs1'
      | some v => rw [hd] at hs1'; cases hs1'; rfl
  refine ⟨hT, h.gne, h.polne, h.new_pols, fun q hq hd => h.pols q hq (hdeg_ne q hd), ?_, ?_, ?_, hs1, hs3,
  hmaxc⟩
  · intro q hq hd
    by_cases hq0 : q = []
    · subst hq0; exact ⟨0, Or.inr (Or.inl rfl), hnil⟩
    · exact hconstg q (h.pols q hq hq0) hd
  · intro q hq hd
    obtain ⟨r, hr, hr'⟩ := h.rem q hq hd
    refine ⟨r, hr, fun h0 => hr' (hdeg_ne r h0), fun h0 => ?_⟩
    by_cases hr0 : r = []
    · subst hr0; exact ⟨0, Or.inr (Or.inl rfl), hnil⟩
    · exact hconstg r (hr' hr0) h0
  · intro q hq _
    exact (hstop q hq).sign

theorem chTable_ok [IsDomain R] [CharZero R] {A : MAlg R} {con : Ctx R} {polys : List (List R)} {p : List R}
    {needed : List (List R)} {e : Expanded R} {goal : List (List R)}
    (h : CtxHyp A con polys p needed e goal) {t : Table R × Ctx R} (ht : TOut K A e.1 goal t)
    (hsg : ∃ s, signCtx A t.2 (lc p) = .ok s ∧ Sign3 s ∧ (0 < deg p → s ≠ 0)) :
    ∃ out, chTable A polys p needed e.2.1 e.2.2 t = .ok out ∧ (∀ x ∈ out, TOut K A con polys x) ∧
      ∀ φ : R →+* K, Realises A φ t.2 → ∃ x ∈ out, Realises A φ x.2 := by
  obtain ⟨T, c⟩ := t
  obtain ⟨gs, hT, hext, hcok, hsem⟩ := ht
  simp only at hT hext hcok hsem
  have hA := h.alg
  have hextc : CtxExt con c := h.entry.ext.trans hext
  have hpred : ∀ r ∈ e.2.1, ∃ q ∈ needed, Red A c q r := fun r hr => by
    obtain ⟨q, hq, h'⟩ := h.entry.pols r hr
    exact ⟨q, hq, h'.mono hext⟩
  have hpcanon : ∀ r ∈ e.2.1, Canon r := fun r hr => by
    obtain ⟨q, hq, h'⟩ := hpred r hr
    exact h'.canon (h.canons q hq)
  have hple : ∀ r ∈ e.2.1, r.length ≤ p.length := fun r hr => by
    obtain ⟨q, hq, h'⟩ := hpred r hr
    have := h.le q hq
    rcases h'.length hA with rfl | h'' <;> omega
  have hstop : ∀ r ∈ e.2.1, Stop A c r := fun r hr => by
    obtain ⟨q, hq, h'⟩ := hpred r hr
    exact h'.stops
  obtain ⟨s, hs1, hs3, hs0⟩ := hsg
  have hdeg_ne : ∀ q : List R, 0 < deg q → q ≠ [] := fun q hq => ne_nil_of_deg hq
  have hE : ExtHyp A c T goal gs p e.2.1 s := ⟨h.extRun hT hext hs1 hs3, hs0⟩
  have hS : ∀ φ : R →+* K, Realises A φ c → ExtSemHyp A φ c p e.2.1 := by
    intro φ hφ
    have hlcp : 0 < deg p → φ (lc p) ≠ 0 := by
      intro hd
      have := hφ.signCtx hs1
      intro h0
      rw [h0, sg_zero] at this
      exact hs0 hd this
    refine ⟨hφ, h.canon, hpcanon, ?_, ?_, ?_⟩
    · intro q hq
      have := hple q hq
      unfold deg; omega
    · intro q hq hd h0
      obtain ⟨s', hs', _, hs0'⟩ := (hstop q hq).sign_ne hA hcok (hpcanon q hq) (hdeg_ne q hd)
      have := hφ.signCtx hs'
      rw [h0, sg_zero] at this
      exact hs0' this
    · intro hd
      obtain ⟨r, _, hr, hred⟩ := h.entry.map _ (h.der hd)
      have hred := hred.mono hext
      cases hred with
      | stop => exact hr
      | drop _ _ hv h0 _ =>
        have h1 := hφ.ctx _ _ h0
        rw [(lc_derivative h.canon hd).2, map_mul, map_natCast] at h1
        have h2 := sg_eq_zero_iff.1 h1.symm
        rcases mul_eq_zero.1 h2 with h2 | h2
        · exact absurd h2 (hlcp hd)
        · have : deg p = 0 := by exact_mod_cast h2
          omega
  obtain ⟨E0, b, hs0', hv0, hcase⟩ := extendSingle_ok hE
  have hsemE := fun (φ : R →+* K) (hφ : Realises A φ c) => extendSingle_sem hE (hS φ hφ) (hsem φ hφ) hs0' hv0
  have hTkeys : p ∉ T.map Prod.fst := fun hp => h.newg ((hT.keys p).1 hp)
  unfold chTable
  simp only
  rw [if_neg hTkeys]
  rcases hcase with ⟨hpos, hnone, D2, hmid, hbad⟩ | ⟨E, gs', hE1, hE2, hE3⟩
  · rw [hnone]
    refine ⟨[], rfl, by simp, ?_⟩
    intro φ hφ
    exact absurd hbad ((hsemE φ hφ).1 D2 hpos hmid)
  · rw [hE1]
    show ∃ out, (do
      let mb ← tableMapBack E needed e.2.2
      let T ← copyTable A mb polys c
      .ok [(T, c)]) = .ok out ∧ _
    have hmap : ∀ q ∈ needed, ∃ r, dGet e.2.2 q = some r ∧ r ∈ e.2.1 ∧ Red A c q r := fun q hq => by
      obtain ⟨r, h1, h2, h3⟩ := h.entry.map q hq
      exact ⟨r, h1, h2, h3.mono hext⟩
    obtain ⟨mb, m1, m2, m3, m4⟩ := tableMapBack_ok (T := E) (needed := needed) (mapping := e.2.2)
      (fun q hq => by
        obtain ⟨r, h1, h2, _⟩ := hmap q hq
        exact ⟨r, h1, (hE2.keys r).2 (by simp [h2])⟩)
    rw [m1]
    show ∃ out, (do
      let T ← copyTable A mb polys c
      .ok [(T, c)]) = .ok out ∧ _
    -- the mapped table
    set rows := needed ++ (p :: e.2.1) with hrows
    have hrow : ∀ q ∈ rows, ∃ r ∈ p :: e.2.1, dRow mb q = dRow E r ∧
        (∀ φ : R →+* K, Realises A φ c → P φ q = P φ r) ∧ (deg q = 0 → deg r = 0 ∧ cval A c q = cval A c r) := by
      intro q hq
      by_cases hqn : q ∈ needed
      · obtain ⟨r, h1, h2, h3⟩ := hmap q hqn
        exact ⟨r, by simp [h2], m3 q hqn r h1, fun φ hφ => h3.sem hA hφ,
          fun hd => ⟨(h3.const hA hcok hd).1, (h3.const hA hcok hd).2.1⟩⟩
      · have hq' := (List.mem_append.1 hq).resolve_left hqn
        exact ⟨q, hq', m4 q hqn, fun _ _ => rfl, fun hd => ⟨hd, rfl⟩⟩
    have hrow' : ∀ q ∈ p :: e.2.1, dRow mb q = dRow E q := by
      intro q hq
      by_cases hqn : q ∈ needed
      · obtain ⟨r, h1, h2, h3⟩ := hmap q hqn
        rcases List.mem_cons.1 hq with rfl | hq
        · exact absurd hqn h.new
        · rw [m3 q hqn r h1, h3.of_stop (hstop q hq)]
      · exact m4 q hqn
    have hcv : ∀ {q r : List R}, dRow mb q = dRow E r → ∀ i, cv mb q i = cv E r i := by
      intro q r hqr i
      rw [cv_eq_dRow, cv_eq_dRow, hqr]
    have hck : ∀ {q r : List R}, dRow mb q = dRow E r → ck mb q = ck E r := by
      intro q r hqr
      unfold ck
      rw [hqr]
    have hmbkeys : ∀ q, q ∈ keys mb ↔ q ∈ rows := by
      intro q
      rw [m2, hE2.keys, hrows, List.mem_append]
    have hmb : TShape A c mb rows gs' := by
      refine ⟨hE2.ne, hE2.chain, hE2.last, hmbkeys, ?_, ?_, ?_, ?_, ?_⟩
      · intro q hq i
        obtain ⟨r, hr, h1, _⟩ := hrow q hq
        rw [hck h1]
        exact hE2.ck r hr i
      · intro q
        by_cases hq : q ∈ rows
        · obtain ⟨r, hr, h1, _⟩ := hrow q hq
          rw [hck h1]
          exact hE2.nodup r
        · have : dRow mb q = [] := by
            unfold dRow
            rw [dGet_none]
            · rfl
            · intro h'; exact hq ((hmbkeys q).1 h')
          unfold ck
          rw [this]; simp
      · apply segOK_of
        · intro g hg q hq h0
          obtain ⟨r, hr, h1, _⟩ := hrow q hq
          rw [hcv h1] at h0 ⊢
          exact hE2.seg.gap g hg r hr h0
        · intro i hi
          obtain ⟨q, hq, h1, h2⟩ := hE2.seg.inner i hi
          exact ⟨q, List.mem_append_right _ hq, by rw [hcv (hrow' q hq), h1], by
            rw [hcv (hrow' q hq)]; exact h2⟩
      · intro q hq i hi
        obtain ⟨r, hr, h1, _⟩ := hrow q hq
        rw [hcv h1]
        exact hE2.val r hr i hi
      · intro q hq hd i hi
        obtain ⟨r, hr, h1, _, h2⟩ := hrow q hq
        rw [hcv h1, (h2 hd).2]
        exact hE2.const r hr (h2 hd).1 i hi
    have hmbsem : ∀ φ : R →+* K, Realises A φ c → TSem φ mb rows gs' := by
      intro φ hφ
      have hEs := (hsemE φ hφ).2 E gs' hE3
      obtain ⟨xs, hxs⟩ := hEs.seg
      refine ⟨?_, xs, hxs.transfer ?_ ?_⟩
      · intro q hq
        obtain ⟨r, hr, h1, h2, _⟩ := hrow q hq
        rw [hcv h1, h2 φ hφ]
        exact hEs.bot r hr
      · intro q hq i _ x hx
        obtain ⟨r, hr, h1, h2, _⟩ := hrow q hq
        rw [hcv h1, h2 φ hφ]
        exact hx r hr
      · intro q hq i _ hx
        obtain ⟨r, hr, h1, h2, _⟩ := hrow q hq
        rw [hcv h1, h2 φ hφ]
        exact hx r hr
    have hpos : ∀ q ∈ polys, 0 < deg q → q ∈ rows := by
      intro q hq _
      rcases h.split q hq with rfl | hq
      · simp [hrows]
      · simp [hrows, hq]
    have hconst : ∀ q ∈ polys, deg q = 0 → ∃ v, Sign3 v ∧ cval A c q = some v := by
      intro q hq hd
      have hqr : q ∈ rows := by
        rcases h.split q hq with rfl | hq
        · simp [hrows]
        · simp [hrows, hq]
      exact ⟨_, hmb.val q hqr 0 (Or.inl rfl), hmb.const q hqr hd 0 (Or.inl rfl)⟩
    obtain ⟨T', b', c1, c2, c3, c4⟩ := copyTable_ok hmb (by simp [hrows]) h.pne hpos hconst
    rw [c1]
    refine ⟨[(T', c)], rfl, ?_, fun φ hφ => ⟨_, List.mem_singleton_self _, hφ⟩⟩
    intro x hx
    rw [List.mem_singleton] at hx
    subst hx
    refine ⟨_, c3, hextc, hcok, ?_⟩
    intro φ hφ
    exact copyTable_sem hmb (hmbsem φ hφ) hpos (fun q hq hd => by
      obtain ⟨v, _, hv⟩ := hconst q hq hd
      rw [hv, hφ.cval hd hv]) c4

end Verif.Qe
