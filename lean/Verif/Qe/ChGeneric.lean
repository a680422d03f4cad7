import Verif.Qe.ChFull
import Verif.Qe.ChApart

/-!
# `real_full` of `cohenhorm.py` at parameters for which the leading coefficient of the polynomial taken first is not 0
-/

set_option linter.unusedSectionVars false

open Polynomial Verif.Alg

namespace Verif.Qe

universe u

variable {R : Type} [CommRing R] [DecidableEq R]

section
variable {K : Type u} [Field K] [LinearOrder K] [IsStrictOrderedRing K] [PolyIVT K]

/-- The situation for one expanded context, whatever is known of the leading coefficient of the polynomial taken first. -/
theorem context_ok [IsDomain R] [CharZero R] {A : MAlg R} (hA : AlgOK A) {polys : List (List R)} {con : Ctx R}
    {p : List R} {rest needed : List (List R)} {e : Expanded R}
    (hnd : p ∉ rest ∧ rest.Nodup) (hmem : ∀ q, q ∈ p :: rest ↔ q ∈ polys) (hpne : polys ≠ []) (hcan : Canon p)
    (hpne' : p ≠ []) (hmemn : ∀ q, q ∈ needed ↔ q ∈ rest ∨ (derivative p ≠ [] ∧ q = derivative p))
    (hncan : ∀ q ∈ needed, Canon q) (hnle : ∀ q ∈ needed, q.length ≤ p.length)
    (hnp : ∀ q ∈ needed, q.length = p.length → q ∈ rest) (hnew : p ∉ needed) (hent : ExpEntry A con needed e) :
    ∃ rems N tables,
      ((e.2.1.filter fun g => decide (0 < deg g)).mapM fun g => pseudoRem p g) = .ok rems ∧
      (∀ fuel ≥ N, realTable A fuel ((e.2.1 ++ rems).filter fun p => decide (p ≠ [])) e.1 = .ok tables) ∧
      (∀ t ∈ tables, TOut K A e.1 ((e.2.1 ++ rems).filter fun p => decide (p ≠ [])) t) ∧
      (((e.2.1 ++ rems).filter fun p => decide (p ≠ [])) ≠ [] → ∀ φ : R →+* K, Realises A φ e.1 →
        ∃ t ∈ tables, Realises A φ t.2) ∧
      (((e.2.1 ++ rems).filter fun p => decide (p ≠ [])) ≠ [] →
        CtxHyp A con polys p needed e ((e.2.1 ++ rems).filter fun p => decide (p ≠ []))) ∧
      (∀ t ∈ tables, ((e.2.1 ++ rems).filter fun p => decide (p ≠ [])) ≠ []) ∧
      (((e.2.1 ++ rems).filter fun p => decide (p ≠ [])) = [] → ∀ r ∈ e.2.1, r = []) := by
  have hpcanon : ∀ r ∈ e.2.1, Canon r := fun r hr => by
    obtain ⟨q, hq, h'⟩ := hent.pols r hr
    exact h'.canon (hncan q hq)
  have hple : ∀ r ∈ e.2.1, r.length ≤ p.length := fun r hr => by
    obtain ⟨q, hq, h'⟩ := hent.pols r hr
    have := hnle q hq
    rcases h'.length hA with rfl | h'' <;> omega
  have hpeq : ∀ r ∈ e.2.1, r.length = p.length → r ∈ rest := fun r hr hl => by
    obtain ⟨q, hq, h'⟩ := hent.pols r hr
    have := hnle q hq
    rcases h'.length hA with rfl | h''
    · exact hnp r hq hl
    · omega
  have hremspec : ∀ g ∈ e.2.1, 0 < deg g → ∃ r, pseudoRem p g = .ok r ∧ Canon r ∧ r.length < g.length := by
    intro g hg' hd
    obtain ⟨r, h1, h2, h3, _⟩ := pseudoRem_ge (ne_nil_of_deg hd) (hpcanon g hg') hcan (hple g hg')
    exact ⟨r, h1, h2, h3⟩
  obtain ⟨rems, hr1, hr2⟩ := mapM_ok (fun g => pseudoRem p g)
    (e.2.1.filter fun g => decide (0 < deg g)) (fun g hg' => by
      simp only [List.mem_filter, decide_eq_true_eq] at hg'
      obtain ⟨r, hr, _⟩ := hremspec g hg'.1 hg'.2
      exact ⟨r, hr⟩)
  have hrl : ∀ r ∈ rems, ∃ g ∈ e.2.1, 0 < deg g ∧ pseudoRem p g = .ok r := by
    intro r hr
    obtain ⟨g, hg', h'⟩ := forall₂_mem_right hr2 r hr
    simp only [List.mem_filter, decide_eq_true_eq] at hg'
    exact ⟨g, hg'.1, hg'.2, h'⟩
  have hrr : ∀ g ∈ e.2.1, 0 < deg g → ∃ r ∈ rems, pseudoRem p g = .ok r := by
    intro g hg' hd
    obtain ⟨r, hr, h'⟩ := forall₂_mem_left hr2 g (by
      simp only [List.mem_filter, decide_eq_true_eq]; exact ⟨hg', hd⟩)
    exact ⟨r, hr, h'⟩
  set goal := (e.2.1 ++ rems).filter fun p => decide (p ≠ []) with hgoal
  have hmemg : ∀ q, q ∈ goal ↔ (q ∈ e.2.1 ∨ q ∈ rems) ∧ q ≠ [] := by
    intro q
    simp only [hgoal, List.mem_filter, List.mem_append, decide_eq_true_eq]
  have hremlt : ∀ r ∈ rems, ∃ g ∈ goal, r.length < g.length ∧ Canon r := by
    intro r hr
    obtain ⟨g, hg', hd, h'⟩ := hrl r hr
    obtain ⟨r', h1, h2, h3⟩ := hremspec g hg' hd
    rw [h'] at h1
    cases h1
    exact ⟨g, (hmemg g).2 ⟨Or.inl hg', ne_nil_of_deg hd⟩, h3, h2⟩
  have hgle : ∀ q ∈ goal, q.length ≤ p.length := by
    intro q hq
    rcases ((hmemg q).1 hq).1 with h' | h'
    · exact hple q h'
    · obtain ⟨g, hg', hd, h''⟩ := hrl q h'
      obtain ⟨r', h1, _, h3⟩ := hremspec g hg' hd
      rw [h''] at h1
      cases h1
      have := hple g hg'
      omega
  have hgeq : ∀ q ∈ goal, q.length = p.length → q ∈ rest := by
    intro q hq hl
    rcases ((hmemg q).1 hq).1 with h' | h'
    · exact hpeq q h' hl
    · obtain ⟨g, hg', hlt, _⟩ := hremlt q h'
      have := hgle g hg'
      omega
  have hgoalok : GoalOK A e.1 goal := by
    constructor
    · intro q hq
      rcases ((hmemg q).1 hq).1 with h' | h'
      · exact hpcanon q h'
      · obtain ⟨_, _, _, h''⟩ := hremlt q h'
        exact h''
    · intro q hq hmaxq
      rcases ((hmemg q).1 hq).1 with h' | h'
      · obtain ⟨q', _, h''⟩ := hent.pols q h'
        exact h''.stops
      · obtain ⟨g, hg', hlt, _⟩ := hremlt q h'
        have := hmaxq g hg'
        omega
  have hnoloss : NoLoss goal := by
    intro a h
    exact ((hmemg []).1 ((h []).2 (Or.inr rfl))).2 rfl
  have hspec : RTSpec K A e.1 goal := realTable_spec hA hent.ok hgoalok
  obtain ⟨N, tables, ht1, ht2, ht3⟩ := hspec
  have hctx : goal ≠ [] → CtxHyp A con polys p needed e goal := by
    intro hgne
    refine ⟨hA, hent, ?_, hpne, hnew, hcan, hncan, hnle, hpne', ?_, ?_, ?_, ?_, hgne, ?_⟩
    · intro q hq
      rcases List.mem_cons.1 ((hmem q).2 hq) with h' | h'
      · exact Or.inl h'
      · exact Or.inr ((hmemn q).2 (Or.inl h'))
    · intro hd
      exact (hmemn _).2 (Or.inr ⟨(lc_derivative hcan hd).1, rfl⟩)
    · intro q hq hq0
      exact (hmemg q).2 ⟨Or.inl hq, hq0⟩
    · intro q hq hd
      obtain ⟨r, hr, h'⟩ := hrr q hq hd
      exact ⟨r, h', fun h0 => (hmemg r).2 ⟨Or.inr hr, h0⟩⟩
    · intro h'
      exact hnd.1 (hgeq p h' rfl)
    · intro h'
      apply hgne
      rw [List.eq_nil_iff_forall_not_mem]
      intro q hq
      rcases ((hmemg q).1 hq).1 with h'' | h''
      · rw [h'] at h''; simp at h''
      · obtain ⟨g, hg', _⟩ := hrl q h''
        rw [h'] at hg'; simp at hg'
  have htab : ∀ t ∈ tables, goal ≠ [] := by
    rintro t ht hgn
    have h1 := ht1 N le_rfl
    rw [hgn] at h1
    have h2 : realTable A N [] e.1 = .ok [] := by cases N <;> rfl
    rw [h2] at h1
    cases h1
    simp at ht
  refine ⟨rems, N, tables, hr1, ht1, ht2, fun hgne φ hφ => ht3 hgne hnoloss φ hφ, hctx, htab, ?_⟩
  intro hgn r hr
  by_contra h0
  have := (hmemg r).2 ⟨Or.inl hr, h0⟩
  rw [hgoal, hgn] at this
  simp at this

theorem mapM_inv {α β : Type} {f : α → Except QErr β} : ∀ {l : List α} {bs : List β}, l.mapM f = .ok bs →
    List.Forall₂ (fun a b => f a = .ok b) l bs := by
  intro l
  induction l with
  | nil => intro bs h; cases h; exact .nil
  | cons a l ih =>
    intro bs h
    rw [List.mapM_cons] at h
    simp only [bind, Except.bind] at h
    split at h
    · cases h
    · next b hb =>
      split at h
      · cases h
      · next bs' hbs =>
        cases h
        exact .cons hb (ih hbs)

theorem forall₂_and_mem {α β : Type} {P : α → β → Prop} {l : List α} {m : List β} (h : List.Forall₂ P l m) :
    List.Forall₂ (fun a b => a ∈ l ∧ P a b) l m := by
  induction h with
  | nil => exact .nil
  | cons hp _ ih => exact .cons ⟨by simp, hp⟩ (ih.imp fun a b h => ⟨List.mem_cons_of_mem _ h.1, h.2⟩)

theorem eventually_list {α : Type} {P : α → ℕ → Prop} : ∀ {l : List α}, (∀ a ∈ l, ∃ N, ∀ n ≥ N, P a n) →
    ∃ N, ∀ n ≥ N, ∀ a ∈ l, P a n := by
  intro l
  induction l with
  | nil => exact fun _ => ⟨0, by simp⟩
  | cons a l ih =>
    intro h
    obtain ⟨N, hN⟩ := h a (by simp)
    obtain ⟨M, hM⟩ := ih fun x hx => h x (by simp [hx])
    refine ⟨max N M, fun n hn x hx => ?_⟩
    rcases List.mem_cons.1 hx with rfl | hx
    · exact hN n (le_trans (le_max_left _ _) hn)
    · exact hM n (le_trans (le_max_right _ _) hn) x hx

/-- The tables are right, or the leading coefficient is taken to be 0. -/
def GOut (K : Type*) [Field K] [LinearOrder K] (A : MAlg R) (con : Ctx R) (polys : List (List R)) (p : List R)
    (x : Table R × Ctx R) : Prop :=
  CtxOK A x.2 ∧ (TOut K A con polys x ∨ signCtx A x.2 (lc p) = .ok 0)

/-- One table when an extension is returned. -/
theorem chTable_inv [IsDomain R] [CharZero R] {A : MAlg R} {con : Ctx R} {polys : List (List R)} {p : List R}
    {needed : List (List R)} {e : Expanded R} {goal : List (List R)}
    (h : CtxHyp A con polys p needed e goal) {t : Table R × Ctx R} (ht : TOut K A e.1 goal t) {out : List (Table R × Ctx R)}
    (hout : chTable A polys p needed e.2.1 e.2.2 t = .ok out) : (∀ x ∈ out, GOut K A con polys p x) ∧
      ∀ φ : R →+* K, Realises A φ t.2 → φ (lc p) ≠ 0 → ∃ x ∈ out, Realises A φ x.2 := by
  have hcok : CtxOK A t.2 := by
    obtain ⟨_, _, _, h, _⟩ := ht
    exact h
  obtain ⟨s, hs⟩ : ∃ s, signCtx A t.2 (lc p) = .ok s := by
    cases hs : signCtx A t.2 (lc p) with
    | ok s => exact ⟨s, rfl⟩
    | error err =>
      exfalso
      unfold chTable at hout
      split at hout
      · cases hout
      · unfold extendSingle at hout
        simp only [bind, Except.bind, hs] at hout
        cases hout
  have hs3 : Sign3 s := by
    unfold signCtx at hs
    split at hs
    · next hv => cases hs; exact h.alg.sign3 _ hv
    · split at hs
      · cases hs
      · next hd => cases hs; exact hcok.val _ _ hd
  by_cases h0 : s = 0
  · subst h0
    have hctx : ∀ x ∈ out, x.2 = t.2 := by
      intro x hx
      unfold chTable at hout
      simp only [bind, Except.bind] at hout
      split at hout
      · cases hout
      · split at hout
        · cases hout
        · split at hout
          · cases hout; simp at hx
          · split at hout
            · cases hout
            · split at hout
              · cases hout
              · cases hout
                rw [List.mem_singleton] at hx
                rw [hx]
    refine ⟨fun x hx => ?_, fun φ hφ hne => ?_⟩
    · unfold GOut
      rw [hctx x hx]
      exact ⟨hcok, Or.inr hs⟩
    · exact absurd (sg_eq_zero_iff.1 (hφ.signCtx hs).symm) hne
  · obtain ⟨out', h1, h2, h3⟩ := chTable_ok (K := K) h ht ⟨s, hs, hs3, fun _ => h0⟩
    rw [hout] at h1
    cases h1
    refine ⟨fun x hx => ⟨?_, Or.inl (h2 x hx)⟩, fun φ hφ _ => h3 φ hφ⟩
    obtain ⟨_, _, _, h, _⟩ := h2 x hx
    exact h

/-- `_real_table`, when it returns. -/
theorem realTable_generic [IsDomain R] [CharZero R] {A : MAlg R} (hA : AlgOK A) {polys : List (List R)}
    {con : Ctx R} (hc : CtxOK A con) (hcans : ∀ q ∈ polys, Canon q) {p : List R} {rest : List (List R)}
    (hds : degSet polys = p :: rest) (hd : 0 < deg p) :
    ∃ N, ∀ fuel ≥ N, ∀ out, realTable A fuel polys con = .ok out → (∀ x ∈ out, GOut K A con polys p x) ∧
      ∀ φ : R →+* K, Realises A φ con → φ (lc p) ≠ 0 → ∃ x ∈ out, Realises A φ x.2 := by
  obtain ⟨hnd, hsort, hmem⟩ := degSet_spec polys
  rw [hds] at hnd hsort hmem
  rw [List.nodup_cons] at hnd
  rw [List.pairwise_cons] at hsort
  have hpm : p ∈ polys := (hmem p).1 (by simp)
  have hpne : polys ≠ [] := List.ne_nil_of_mem hpm
  obtain ⟨p0, ps, hpolys⟩ : ∃ p0 ps, polys = p0 :: ps := by
    cases h : polys with
    | nil => exact absurd h hpne
    | cons p0 ps => exact ⟨p0, ps, rfl⟩
  have hcan := hcans p hpm
  have hunf : ∀ fuel, realTable A (fuel + 1) polys con =
      if neededOf p rest = [] then initialTable A p con
      else (expandContext A con (neededOf p rest) >>= fun exp =>
        (exp.mapM (chContext A (realTable A fuel) polys p (neededOf p rest)) >>= fun rs =>
          (Except.ok rs.flatten : Except QErr _))) := by
    intro fuel
    conv_lhs => rw [hpolys]; unfold realTable
    rw [← hpolys, hds]
  have hpne' : p ≠ [] := ne_nil_of_deg hd
  have hn : neededOf p rest ≠ [] := by
    intro h
    have : derivative p ∈ neededOf p rest := (mem_neededOf p rest _).2 (Or.inr ⟨(lc_derivative hcan hd).1, rfl⟩)
    rw [h] at this
    simp at this
  set needed := neededOf p rest with hneeded
  have hmemn : ∀ q, q ∈ needed ↔ q ∈ rest ∨ (derivative p ≠ [] ∧ q = derivative p) :=
    fun q => mem_neededOf p rest q
  have hplen : 0 < p.length := List.length_pos_iff.2 hpne'
  have hrestp : ∀ q ∈ rest, q ∈ polys := fun q hq => (hmem q).1 (by simp [hq])
  have hncan : ∀ q ∈ needed, Canon q := by
    intro q hq
    rcases (hmemn q).1 hq with hq | ⟨_, rfl⟩
    · exact hcans q (hrestp q hq)
    · exact derivative_canon p
  have hnle : ∀ q ∈ needed, q.length ≤ p.length := by
    intro q hq
    rcases (hmemn q).1 hq with hq | ⟨_, rfl⟩
    · exact hsort.1 q hq
    · have := derivative_length p; omega
  have hnp : ∀ q ∈ needed, q.length = p.length → q ∈ rest := by
    intro q hq hl
    rcases (hmemn q).1 hq with hq | ⟨_, rfl⟩
    · exact hq
    · have := derivative_length p; omega
  have hnew : p ∉ needed := fun h => hnd.1 (hnp p h rfl)
  obtain ⟨exp, he1, he2, he3⟩ := expandContext_ok (K := K) hA hc needed hncan
  obtain ⟨N, hN⟩ := eventually_list (l := exp) (P := fun e fuel => ∀ out,
      chContext A (realTable A fuel) polys p needed e = .ok out → (∀ x ∈ out, GOut K A con polys p x) ∧
        ∀ φ : R →+* K, Realises A φ e.1 → φ (lc p) ≠ 0 → ∃ x ∈ out, Realises A φ x.2) (by
    intro e he
    have hent := he2 e he
    obtain ⟨rems, N, tables, hr1, ht1, ht2, ht3, hctx, htab, hnil⟩ := context_ok (K := K) hA hnd hmem hpne hcan hpne' hmemn
      hncan hnle hnp hnew hent
    refine ⟨N, fun fuel hf out hout => ?_⟩
    have hsplit : splitUnknown A p tables = tables := by
      unfold splitUnknown
      rw [if_neg (by unfold deg at hd; omega)]
    unfold chContext at hout
    rw [hr1] at hout
    change (realTable A fuel _ e.1 >>= fun tables => _) = _ at hout
    rw [ht1 fuel hf] at hout
    change ((splitUnknown A p tables).mapM _ >>= fun rs => (Except.ok rs.flatten : Except QErr _)) = _ at hout
    rw [hsplit] at hout
    simp only [bind, Except.bind] at hout
    split at hout
    · cases hout
    · next outs houts =>
      cases hout
      obtain ⟨hq1, hq2⟩ := forall₂_flatten (Q := fun t out => t ∈ tables ∧ chTable A polys p needed e.2.1 e.2.2 t = .ok out)
        (by
          have := mapM_inv houts
          exact forall₂_and_mem this)
      refine ⟨fun x hx => ?_, fun φ hφ hne => ?_⟩
      · obtain ⟨t, ht, b, hb, hxb⟩ := hq1 x hx
        exact (chTable_inv (hctx (htab t ht)) (ht2 t ht) hb.2).1 x hxb
      · have hgne : ((e.2.1 ++ rems).filter fun p => decide (p ≠ [])) ≠ [] := by
          intro hgn
          have hpn := hnil hgn
          obtain ⟨r, _, hr, hred⟩ := hent.map _ ((hmemn _).2 (Or.inr ⟨(lc_derivative hcan hd).1, rfl⟩))
          have h1 := hred.sem hA hφ
          rw [hpn r hr, P_derivative] at h1
          have h2 : (P φ p).natDegree = 0 := Polynomial.derivative_eq_zero.1 (by rw [h1]; simp [P])
          rw [P_natDegree φ hcan hne] at h2
          omega
        obtain ⟨t, ht, htr⟩ := ht3 hgne φ hφ
        obtain ⟨b, hb, hbx⟩ := hq2 t ht
        obtain ⟨x, hx, hxr⟩ := (chTable_inv (hctx (htab t ht)) (ht2 t ht) hb.2).2 φ htr hne
        exact ⟨x, hbx x hx, hxr⟩)
  refine ⟨N + 1, fun fuel hf out hout => ?_⟩
  obtain ⟨f, rfl⟩ : ∃ f, fuel = f + 1 := ⟨fuel - 1, by omega⟩
  rw [hunf, if_neg hn, he1] at hout
  change (exp.mapM _ >>= fun rs => (Except.ok rs.flatten : Except QErr _)) = _ at hout
  simp only [bind, Except.bind] at hout
  split at hout
  · cases hout
  · next outs houts =>
    cases hout
    obtain ⟨hq1, hq2⟩ := forall₂_flatten (Q := fun e out => e ∈ exp ∧
      chContext A (realTable A f) polys p needed e = .ok out) (forall₂_and_mem (mapM_inv houts))
    refine ⟨fun x hx => ?_, fun φ hφ hne => ?_⟩
    · obtain ⟨e, he, b, hb, hxb⟩ := hq1 x hx
      exact (hN f (by omega) e he b hb.2).1 x hxb
    · obtain ⟨e, he, her⟩ := he3 φ hφ
      obtain ⟨b, hb, hbx⟩ := hq2 e he
      obtain ⟨x, hx, hxr⟩ := (hN f (by omega) e he b hb.2).2 φ her hne
      exact ⟨x, hbx x hx, hxr⟩

theorem filterM_mem {ε α : Type} {f : α → Except ε Bool} : ∀ {l r : List α}, l.filterM f = .ok r →
    (∀ x ∈ l, ∃ b, f x = .ok b) ∧ ∀ x, x ∈ r ↔ x ∈ l ∧ f x = .ok true := by
  have aux : ∀ (l acc r : List α), l.filterAuxM f acc = .ok r →
      (∀ x ∈ l, ∃ b, f x = .ok b) ∧ ∀ x, x ∈ r ↔ (x ∈ l ∧ f x = .ok true) ∨ x ∈ acc := by
    intro l
    induction l with
    | nil => intro acc r h; unfold List.filterAuxM at h; cases h; simp
    | cons a l ih =>
      intro acc r h
      unfold List.filterAuxM at h
      simp only [bind, Except.bind] at h
      split at h
      · cases h
      · next b hb =>
        obtain ⟨h1, h2⟩ := ih _ _ h
        refine ⟨fun x hx => ?_, fun x => ?_⟩
        · rcases List.mem_cons.1 hx with rfl | hx
          · exact ⟨b, hb⟩
          · exact h1 x hx
        · rw [h2 x]
          cases b with
          | true =>
            simp only [cond_true, List.mem_cons]
            constructor
            · rintro (⟨h, h'⟩ | rfl | h)
              · exact Or.inl ⟨Or.inr h, h'⟩
              · exact Or.inl ⟨Or.inl rfl, hb⟩
              · exact Or.inr h
            · rintro (⟨rfl | h, h'⟩ | h)
              · exact Or.inr (Or.inl rfl)
              · exact Or.inl ⟨h, h'⟩
              · exact Or.inr (Or.inr h)
          | false =>
            simp only [cond_false, List.mem_cons]
            constructor
            · rintro (⟨h, h'⟩ | h)
              · exact Or.inl ⟨Or.inr h, h'⟩
              · exact Or.inr h
            · rintro (⟨rfl | h, h'⟩ | h)
              · rw [hb] at h'; cases h'
              · exact Or.inl ⟨h, h'⟩
              · exact Or.inr h
  intro l r h
  unfold List.filterM at h
  simp only [bind, Except.bind] at h
  split at h
  · cases h
  · next r' hr =>
    cases h
    obtain ⟨h1, h2⟩ := aux _ _ _ hr
    exact ⟨h1, fun x => by rw [List.mem_reverse, h2 x]; simp⟩

/-- `real_full`, when it returns. -/
theorem chFull_generic [IsDomain R] [CharZero R] {A : MAlg R} (hA : AlgOK A) (ls es gs : List (List R))
    (hcans : ∀ q ∈ ls ++ es ++ gs, Canon q)
    {p : List R} {rest : List (List R)} (hds : degSet (ls ++ es ++ gs) = p :: rest) (hd : 0 < deg p) :
    ∃ N, ∀ fuel ≥ N, ∀ ret, chFull A fuel ls es gs = .ok ret → ∀ φ : R →+* K, RValOK A φ → φ (lc p) ≠ 0 →
        ((∃ z ∈ ret, (∀ k ∈ z.1, φ k < 0) ∧ (∀ k ∈ z.2.1, φ k = 0) ∧ ∀ k ∈ z.2.2, 0 < φ k) ↔
          ∃ x, (∀ q ∈ ls, (P φ q).eval x < 0) ∧ (∀ q ∈ es, (P φ q).eval x = 0) ∧
            ∀ q ∈ gs, 0 < (P φ q).eval x) := by
  have hne : ls ++ es ++ gs ≠ [] := by
    intro h
    rw [h] at hds
    cases hds
  obtain ⟨N, hN⟩ := realTable_generic (K := K) hA (ctxOK_nil A) hcans hds hd
  refine ⟨N, fun fuel hf ret hret φ hφ hlc => ?_⟩
  unfold chFull at hret
  simp only [bind, Except.bind] at hret
  split at hret
  · cases hret
  · next out hout =>
    split at hret
    · cases hret
    · next good hgood =>
      cases hret
      obtain ⟨h1, h2⟩ := hN fuel hf out hout
      obtain ⟨g1, g2⟩ := filterM_mem hgood
      have hT : ∀ x ∈ out, Realises A φ x.2 → TOut K A [] (ls ++ es ++ gs) x := by
        intro x hx hr
        rcases (h1 x hx).2 with h | h
        · exact h
        · exact absurd (sg_eq_zero_iff.1 (hr.signCtx h).symm) hlc
      constructor
      · rintro ⟨z, hz, hh⟩
        obtain ⟨x, hx, rfl⟩ := List.mem_map.1 hz
        obtain ⟨hxo, hxg⟩ := (g2 x).1 hx
        have hr : Realises A φ x.2 := (conjOf_iff (h1 x hxo).1 hφ).1 hh
        obtain ⟨segs, hs, _, hc, hsem⟩ := hT x hxo hr
        obtain ⟨b, hb, hb'⟩ := chGood_ok hne hs
        rw [hxg] at hb
        cases hb
        exact (cGood_points hne hs (hsem φ hr)).1 (hb'.1 rfl)
      · intro hx
        obtain ⟨x, hxo, hxr⟩ := h2 φ ⟨hφ, by simp [dGet]⟩ hlc
        obtain ⟨segs, hs, _, hc, hsem⟩ := hT x hxo hxr
        have := (cGood_points hne hs (hsem φ hxr)).2 hx
        obtain ⟨b, hb, hb'⟩ := chGood_ok hne hs
        rw [hb'.2 this] at hb
        exact ⟨conjOf x.2, List.mem_map.2 ⟨x, (g2 x).2 ⟨hxo, hb⟩, rfl⟩, (conjOf_iff hc hφ).2 hxr⟩

end

end Verif.Qe
