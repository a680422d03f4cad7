import Verif.Qe.OldLemmas

/-!
# The earlier version of the Cohen-Hörmander procedure: the tables it returns
-/

set_option linter.unusedSectionVars false

namespace Verif.Qe

open Polynomial Verif.Alg

variable {R : Type} [CommRing R] [DecidableEq R]
variable {K : Type*} [Field K] [LinearOrder K] [IsStrictOrderedRing K] [PolyIVT K]

theorem expandContext_scalars {A : MAlg R} (hv : ∀ a, A.hasVar a = false) (c : Ctx R) :
    ∀ (l : List (List R)) (out : List (Expanded R)), expandContext A c l = .ok out →
      ∃ m, out = [(c, l, m)] ∧ ∀ q ∈ l, dGet m q = some q := by
  intro l
  induction l with
  | nil =>
    intro out h
    exact ⟨[], (Except.ok.inj h).symm, by simp⟩
  | cons q l ih =>
    intro out h
    unfold expandContext at h
    cases h1 : expandContext A c l with
    | error e => rw [h1] at h; cases h
    | ok er =>
      obtain ⟨m, hm1, hm2⟩ := ih er h1
      rw [h1] at h
      simp only [bind, Except.bind] at h
      rw [if_pos (hv _)] at h
      split at h
      · cases h
      · have h' := Except.ok.inj h
        refine ⟨dSet m q q, ?_, ?_⟩
        · rw [← h', hm1]; rfl
        · intro q' hq'
          rw [dGet_dSet]
          by_cases hqq : q = q'
          · rw [if_pos hqq, hqq]
          · rw [if_neg hqq]
            exact hm2 q' ((List.mem_cons.1 hq').resolve_left fun h => hqq h.symm)

theorem oldLift_ok {α : Type} {x : Except QErr α} {a : α} (h : oldLift x = .ok a) : x = .ok a := by
  cases x with
  | error e => cases h
  | ok b => exact congrArg _ (Except.ok.inj h)

theorem nodup_neededOf {p : List R} {rest : List (List R)} (h : rest.Nodup) : (neededOf p rest).Nodup := by
  unfold neededOf
  split
  · split
    · exact h
    · next h' => exact nodup_degAdd h h'
  · exact h

/-- What holds of a table that is returned. -/
def OldOut (K : Type*) [Field K] [LinearOrder K] (A : MAlg R) (c : Ctx R) (polys : List (List R))
    (t : Table R × Ctx R) : Prop :=
  t.2 = c ∧ ∃ rows gs, (∀ q ∈ polys, q ∈ rows) ∧ rows ≠ [] ∧ TShape A c t.1 rows gs ∧
    ∀ φ : R →+* K, Realises A φ c → TSem φ t.1 rows gs

theorem mapM_inv' {ε α β : Type} {f : α → Except ε β} : ∀ {l : List α} {bs : List β}, l.mapM f = .ok bs →
    List.Forall₂ (fun a b => f a = .ok b) l bs := by
  intro l
  induction l with
  | nil => intro bs h; cases h; exact .nil
  | cons a l ih =>
    intro bs h
    rw [List.mapM_cons] at h
    cases ha : f a with
    | error e => rw [ha] at h; cases h
    | ok b =>
      rw [ha] at h
      cases hl : l.mapM f with
      | error e => rw [hl] at h; cases h
      | ok bs' =>
        rw [hl] at h
        have := Except.ok.inj h
        rw [← this]
        exact .cons ha (ih hl)

theorem forall₂_left {α β : Type} {Q : α → β → Prop} {l : List α} {m : List β} (h : List.Forall₂ Q l m) :
    ∀ a ∈ l, ∃ b ∈ m, Q a b := by
  induction h with
  | nil => simp
  | cons h1 _ ih =>
    intro a ha
    rcases List.mem_cons.1 ha with rfl | ha
    · exact ⟨_, by simp, h1⟩
    · obtain ⟨b, hb, h'⟩ := ih a ha
      exact ⟨b, by simp [hb], h'⟩

theorem oldTableN_ok [IsDomain R] [CharZero R] {A : MAlg R} (hA : AlgOK A) (hv : ∀ a, A.hasVar a = false) :
    ∀ (n : ℕ) (polys : List (List R)) (c : Ctx R) (out : List (Table R × Ctx R)), CtxOK A c →
      (∀ p ∈ polys, Canon p) → oldTableN A n polys c = .ok out →
      (∀ t ∈ out, OldOut K A c polys t) ∧ (polys ≠ [] → [] ∉ polys → out.length = 1) := by
  intro n
  induction n with
  | zero => intro polys c out _ _ h; cases h
  | succ n ih =>
    intro polys c out hc hcans h
    unfold oldTableN at h
    by_cases hpe : polys = []
    · rw [if_pos hpe] at h
      cases h
      exact ⟨by simp, fun h => absurd hpe h⟩
    rw [if_neg hpe] at h
    obtain ⟨hnd, hsort, hmem⟩ := degSet_spec polys
    cases hds : degSet polys with
    | nil => rw [hds] at h; cases h
    | cons p rest =>
      rw [hds] at h hnd hsort hmem
      simp only at h
      rw [List.nodup_cons] at hnd
      rw [List.pairwise_cons] at hsort
      have hpm : p ∈ polys := (hmem p).1 (by simp)
      have hcan := hcans p hpm
      have hcv : ∀ q : List R, cval A c q = some (A.sign (q.headD 0)) := by
        intro q
        unfold cval
        rw [if_pos]
        cases q with
        | nil => rfl
        | cons a q => exact hv a
      have hcv3 : ∀ q : List R, ∃ v, Sign3 v ∧ cval A c q = some v := fun q =>
        ⟨_, hA.sign3 _ (hv _), hcv q⟩
      by_cases hn : neededOf p rest = []
      · -- a single constant
        rw [if_pos hn] at h
        have hrest : rest = [] := by
          rw [List.eq_nil_iff_forall_not_mem] at hn ⊢
          exact fun q hq => hn q ((mem_neededOf p rest q).2 (Or.inl hq))
        have hder : derivative p = [] := by
          by_contra h
          rw [List.eq_nil_iff_forall_not_mem] at hn
          exact hn _ ((mem_neededOf p rest _).2 (Or.inr ⟨h, rfl⟩))
        have hd0 : deg p = 0 := by
          by_contra h
          exact (lc_derivative hcan (Nat.pos_of_ne_zero h)).1 hder
        have honly : ∀ q, q ∈ polys ↔ q = p := by
          intro q
          rw [← hmem, hrest]; simp
        have h' := oldLift_ok h
        unfold oldInitial at h'
        rw [if_neg (by omega), if_pos (hv _)] at h'
        have hout := Except.ok.inj h'
        have hlc : lc p = p.headD 0 := by
          unfold deg at hd0
          match p, hd0 with
          | [], _ => rfl
          | [a], _ => rfl
        have hio := initial_out (K := K) hc honly hd0 (hA.sign3 _ (hv (lc p))) (by rw [hcv, hlc])
        rw [← hout]
        refine ⟨?_, fun _ _ => rfl⟩
        intro t ht
        rw [List.mem_singleton] at ht
        subst ht
        obtain ⟨gs, h1, _, _, h2⟩ := hio
        exact ⟨rfl, polys, gs, fun q hq => hq, hpe, h1, h2⟩
      · rw [if_neg hn] at h
        set needed := neededOf p rest with hneeded
        have hmemn : ∀ q, q ∈ needed ↔ q ∈ rest ∨ (derivative p ≠ [] ∧ q = derivative p) :=
          fun q => mem_neededOf p rest q
        have hpne' : p ≠ [] := by
          rintro rfl
          apply hn
          rw [List.eq_nil_iff_forall_not_mem]
          intro q hq
          rcases (hmemn q).1 hq with hq | ⟨h, _⟩
          · have h1 := hsort.1 q hq
            have : q = [] := List.length_eq_zero_iff.1 (by simpa using h1)
            subst this
            exact hnd.1 hq
          · exact h rfl
        have hplen : 0 < p.length := List.length_pos_iff.2 hpne'
        have hrestp : ∀ q ∈ rest, q ∈ polys := fun q hq => (hmem q).1 (by simp [hq])
        have hncan : ∀ q ∈ needed, Canon q := by
          intro q hq
          rcases (hmemn q).1 hq with hq | ⟨_, rfl⟩
          · exact hcans q (hrestp q hq)
          · exact derivative_canon p
        have hnle : ∀ q ∈ needed, q.length ≤ p.length := by
          intro q hq
          rcases (hmemn q).1 hq with hq | ⟨_, rfl⟩
          · exact hsort.1 q hq
          · have := derivative_length p; omega
        have hnew : p ∉ needed := by
          intro h
          rcases (hmemn p).1 h with h | ⟨_, h⟩
          · exact hnd.1 h
          · have := derivative_length p
            rw [← h] at this
            omega
        have hnn : needed.Nodup := nodup_neededOf hnd.2
        cases hexp : expandContext A c needed with
        | error e => rw [hexp] at h; cases h
        | ok es =>
          obtain ⟨m, rfl, hm⟩ := expandContext_scalars hv c needed es hexp
          rw [hexp] at h
          simp only [oldLift, bind, Except.bind, List.mapM_cons, List.mapM_nil] at h
          cases hctx : oldContext A (oldTableN A n) p (c, needed, m) with
          | error e => rw [hctx] at h; cases h
          | ok r =>
            rw [hctx] at h
            have hor : out = r := by
              have := Except.ok.inj h
              simpa using this.symm
            subst hor
            clear h
            unfold oldContext at hctx
            simp only at hctx
            cases hrem : (needed.filter fun g => decide (g ≠ [])).mapM fun g => pseudoRem p g with
            | error e => rw [hrem] at hctx; cases hctx
            | ok rems =>
              rw [hrem] at hctx
              simp only [oldLift, bind, Except.bind] at hctx
              have hrems := mapM_inv hrem
              set goal := (needed ++ rems).filter fun p => decide (p ≠ []) with hgoal
              cases hrec : oldTableN A n goal c with
              | error e => rw [hrec] at hctx; cases hctx
              | ok tables =>
                rw [hrec] at hctx
                simp only at hctx
                have hgmem : ∀ q, q ∈ goal ↔ (q ∈ needed ∨ q ∈ rems) ∧ q ≠ [] := by
                  intro q
                  rw [hgoal, List.mem_filter, List.mem_append]
                  simp
                have hremspec : ∀ q ∈ needed, q ≠ [] → ∃ r, pseudoRem p q = .ok r ∧ r ∈ rems := by
                  intro q hq hq0
                  have hqf : q ∈ needed.filter fun g => decide (g ≠ []) := by
                    rw [List.mem_filter]; exact ⟨hq, by simpa using hq0⟩
                  obtain ⟨r, hr, h'⟩ := forall₂_left hrems q hqf
                  exact ⟨r, h', hr⟩
                have hgcan : ∀ q ∈ goal, Canon q := by
                  intro q hq
                  rcases ((hgmem q).1 hq).1 with h' | h'
                  · exact hncan q h'
                  · obtain ⟨g, hg, h''⟩ := forall₂_right hrems h'
                    rw [List.mem_filter] at hg
                    obtain ⟨s, e1, e2, _⟩ := pseudoRem_spec (by simpa using hg.2) (hncan g hg.1) hcan
                    rw [h''] at e1
                    cases e1
                    exact e2
                obtain ⟨ih1, ih2⟩ := ih goal c tables hc hgcan hrec
                have hmap := mapM_inv' hctx
                constructor
                · intro t ht
                  obtain ⟨x, hx, hxt⟩ := forall₂_right hmap ht
                  obtain ⟨T, c'⟩ := x
                  obtain ⟨hcc, rows, gs, hsub, hrne, hT, hsem⟩ := ih1 _ hx
                  simp only at hcc hT hsem
                  subst hcc
                  simp only at hxt
                  cases hext : oldExtend A T c' p needed m with
                  | error e => rw [hext] at hxt; cases hxt
                  | ok E =>
                    rw [hext] at hxt
                    have hte := Except.ok.inj hxt
                    have hdeg_ne : ∀ q : List R, 0 < deg q → q ≠ [] := fun q hq => ne_nil_of_deg hq
                    have hsg : signCtx A c' (lc p) = .ok (A.sign (lc p)) := by
                      unfold signCtx
                      rw [if_pos (hv _)]
                    have hs0 : A.sign (lc p) ≠ 0 := hA.ne _ (canon_lc hcan hpne') (hv _)
                    have hE : ExtHyp A c' T rows gs p needed (A.sign (lc p)) := by
                      refine ⟨⟨hT, hrne, hn, hnew, ?_, fun q _ _ => hcv3 q, ?_, ?_, hsg, hA.sign3 _ (hv _), ?_⟩,
                        fun _ => hs0⟩
                      · intro q hq hd
                        exact hsub q ((hgmem q).2 ⟨Or.inl hq, hdeg_ne q hd⟩)
                      · intro q hq hd
                        obtain ⟨r, hr, hr'⟩ := hremspec q hq (hdeg_ne q hd)
                        exact ⟨r, hr, fun h0 => hsub r ((hgmem r).2 ⟨Or.inr hr', hdeg_ne r h0⟩), fun _ => hcv3 r⟩
                      · intro q _ _
                        unfold signCtx
                        rw [if_pos (hv _)]
                        exact ⟨_, rfl⟩
                      · intro hd
                        rw [hcv]
                        unfold deg at hd
                        match p, hd with
                        | [], _ => rfl
                        | [a], _ => rfl
                    have hS : ∀ φ : R →+* K, Realises A φ c' → ExtSemHyp A φ c' p needed := by
                      intro φ hφ
                      refine ⟨hφ, hcan, hncan, ?_, ?_, ?_⟩
                      · intro q hq
                        have := hnle q hq
                        unfold deg; omega
                      · intro q hq hd h0
                        have h1 : signCtx A c' (lc q) = .ok (A.sign (lc q)) := by
                          unfold signCtx
                          rw [if_pos (hv _)]
                        have := hφ.signCtx h1
                        rw [h0, sg_zero] at this
                        exact hA.ne _ (canon_lc (hncan q hq) (hdeg_ne q hd)) (hv _) this
                      · intro hd
                        exact (hmemn _).2 (Or.inr ⟨(lc_derivative hcan hd).1, rfl⟩)
                    obtain ⟨_, hsim⟩ := oldExtend_sim hE hnn hm hnle hs0 hext
                    obtain ⟨E0, b, hs0', hv0, hcase⟩ := extendSingle_ok hE
                    rcases hcase with ⟨_, hnone, _⟩ | ⟨E', gs', hE1, hE2, hE3⟩
                    · rw [hsim] at hnone; cases hnone
                    · rw [hsim] at hE1
                      have hEE : E = E' := Option.some.inj (Except.ok.inj hE1)
                      subst hEE
                      rw [← hte]
                      refine ⟨rfl, p :: needed, gs', ?_, by simp, hE2, ?_⟩
                      · intro q hq
                        rcases List.mem_cons.1 ((hmem q).2 hq) with rfl | hq
                        · simp
                        · exact List.mem_cons_of_mem _ ((hmemn q).2 (Or.inl hq))
                      · intro φ hφ
                        exact (extendSingle_sem hE (hS φ hφ) (hsem φ hφ) hs0' hv0).2 E gs' hE3
                · intro _ h0
                  rw [← hmap.length_eq]
                  refine ih2 ?_ ?_
                  · obtain ⟨q, hq⟩ := List.exists_mem_of_ne_nil _ hn
                    have hq0 : q ≠ [] := by
                      rintro rfl
                      rcases (hmemn []).1 hq with hq | ⟨h', h''⟩
                      · exact h0 (hrestp _ hq)
                      · exact h' h''.symm
                    exact List.ne_nil_of_mem ((hgmem q).2 ⟨Or.inl hq, hq0⟩)
                  · intro h'
                    exact ((hgmem []).1 h').2 rfl

/-! ### The bound on the recursion -/

theorem mapM_mono {α β : Type} {f g : α → Except OldErr β} : ∀ {l : List α},
    (∀ a ∈ l, f a ≠ .error .iter → g a = f a) → l.mapM f ≠ .error .iter → l.mapM g = l.mapM f := by
  intro l
  induction l with
  | nil => intro _ _; rfl
  | cons a l ih =>
    intro h hne
    rw [List.mapM_cons] at hne ⊢
    rw [List.mapM_cons]
    have ha : f a ≠ .error .iter := by
      intro h'
      rw [h'] at hne
      exact hne rfl
    rw [h a (by simp) ha]
    cases hf : f a with
    | error e => rfl
    | ok b =>
      rw [hf] at hne
      have hl : l.mapM f ≠ .error .iter := by
        intro h'
        apply hne
        rw [h']; rfl
      rw [ih (fun a ha => h a (by simp [ha])) hl]

/-- Another bound that is not reached does not change the result. -/
theorem oldTableN_mono (A : MAlg R) : ∀ (n m : ℕ) (polys : List (List R)) (c : Ctx R), n ≤ m →
    oldTableN A n polys c ≠ .error .iter → oldTableN A m polys c = oldTableN A n polys c := by
  intro n
  induction n with
  | zero => intro m polys c _ h; exact absurd rfl h
  | succ n ih =>
    intro m polys c hm h
    obtain ⟨m, rfl⟩ : ∃ m', m = m' + 1 := ⟨m - 1, by omega⟩
    unfold oldTableN at h ⊢
    split
    · rfl
    · next hp =>
      rw [if_neg hp] at h
      split
      · rfl
      · next p rest hds =>
        rw [hds] at h
        simp only at h
        split
        · rfl
        · next hn =>
          rw [if_neg hn] at h
          cases he : oldLift (expandContext A c (neededOf p rest)) with
          | error e => rfl
          | ok es =>
            rw [he] at h
            have hne : es.mapM (oldContext A (oldTableN A n) p) ≠ .error .iter := by
              intro h'
              apply h
              show (es.mapM (oldContext A (oldTableN A n) p) >>= _) = _
              rw [h']; rfl
            show (es.mapM (oldContext A (oldTableN A m) p) >>= _) = (es.mapM (oldContext A (oldTableN A n) p) >>= _)
            rw [mapM_mono _ hne]
            intro e _ hctx
            unfold oldContext at hctx ⊢
            cases hr : oldLift ((e.2.1.filter fun g => decide (g ≠ [])).mapM fun g => pseudoRem p g) with
            | error e => rfl
            | ok rems =>
              rw [hr] at hctx
              simp only [bind, Except.bind] at hctx ⊢
              rw [ih m _ _ (by omega)]
              intro h'
              rw [h'] at hctx
              exact hctx rfl

end Verif.Qe
