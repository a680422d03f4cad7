import Verif.Qe.OldModel
import Verif.Qe.ChMain
import Verif.Qe.ChDepth
import Verif.Qe.ChGeneric

/-!
# The earlier version of the Cohen-Hörmander procedure: what it returns is what `extend_single_table` returns
-/

set_option linter.unusedSectionVars false

namespace Verif.Qe

open Polynomial Verif.Alg

variable {R : Type} [CommRing R] [DecidableEq R]

theorem foldlM_sim {ε σ α : Type} {f g : σ → α → Except ε σ} (I : σ → Prop) :
    ∀ (l : List α), (∀ a ∈ l, ∀ s, I s → ∀ s', f s a = .ok s' → g s a = .ok s' ∧ I s') →
      ∀ s s', I s → l.foldlM f s = .ok s' → l.foldlM g s = .ok s' ∧ I s' := by
  intro l
  induction l with
  | nil =>
    intro _ s s' hI h
    cases h
    exact ⟨rfl, hI⟩
  | cons a l ih =>
    intro H s s' hI h
    rw [List.foldlM_cons] at h ⊢
    cases hf : f s a with
    | error e => rw [hf] at h; cases h
    | ok s1 =>
      rw [hf] at h
      obtain ⟨h1, h2⟩ := H a (by simp) s hI s1 hf
      rw [h1]
      exact ih (fun b hb => H b (by simp [hb])) s1 s' h2 h

theorem dRead_congr {D E : Table R} {q : List R} (h : dGet D q = dGet E q) (i : ℚ) :
    dRead D q i = dRead E q i := by
  unfold dRead
  rw [h]

theorem dRead_inv {D : Table R} {q : List R} {i : ℚ} {v : ℤ} (h : dRead D q i = .ok v) :
    i ∈ ck D q ∧ cv D q i = v := by
  by_cases hi : i ∈ ck D q
  · rw [dRead_ok hi] at h
    exact ⟨hi, Except.ok.inj h⟩
  · rw [dRead_err hi] at h
    cases h

theorem oldSignCtx_ok {A : MAlg R} {c : Ctx R} {k : R} {s : ℤ} (h : oldSignCtx A c k = .ok s) :
    signCtx A c k = .ok s := by
  unfold oldSignCtx at h
  unfold signCtx
  split at h
  · next h' => rw [if_pos h']; exact h
  · next h' =>
    rw [if_neg h']
    split at h
    · cases h
    · next s' hs => rw [hs]; exact h

/-- One polynomial of the loop over the roots. -/
theorem oldRoots_sim {A : MAlg R} {c : Ctx R} {T E0 : Table R} {p q : List R} {inner : List ℚ} (hqp : q ≠ p)
    (hlook : cv E0 q 0 ≠ 0 → ∀ col ∈ inner, dRead E0 q col = .ok 0 → ∀ r, pseudoRem p q = .ok r →
      ∀ E, (∀ q, q ≠ p → dGet E q = dGet E0 q) → ∀ v, tableLookup A E r col c = .ok v →
        tableLookup A T r col c = .ok v)
    {E E' : Table R} (hI : ∀ q, q ≠ p → dGet E q = dGet E0 q) (h : oldRoots A c p inner E q = .ok E') :
    chRoots A T c p inner E q = .ok E' ∧ ∀ q, q ≠ p → dGet E' q = dGet E0 q := by
  unfold oldRoots at h
  unfold chRoots
  cases h0 : dRead E q 0 with
  | error e => rw [h0] at h; cases h
  | ok v0 =>
    rw [h0] at h
    simp only [bind, Except.bind] at h ⊢
    by_cases hv0 : v0 = 0
    · rw [if_pos hv0] at h ⊢
      cases h
      exact ⟨rfl, hI⟩
    · rw [if_neg hv0] at h ⊢
      have hne : cv E0 q 0 ≠ 0 := by
        rw [dRead_congr (hI q hqp)] at h0
        rw [(dRead_inv h0).2]; exact hv0
      refine foldlM_sim (fun E => ∀ q, q ≠ p → dGet E q = dGet E0 q) inner ?_ E E' hI h
      intro col hcol E hI E' h
      cases h1 : dRead E q col with
      | error e => rw [h1] at h; cases h
      | ok v =>
        rw [h1] at h
        simp only at h ⊢
        by_cases hv : v = 0
        · rw [if_neg (by simp [hv])] at h ⊢
          cases h2 : pseudoRem p q with
          | error e => rw [h2] at h; cases h
          | ok r =>
            rw [h2] at h
            simp only at h ⊢
            cases h3 : tableLookup A E r col c with
            | error e => rw [h3] at h; cases h
            | ok value =>
              rw [h3] at h
              simp only at h ⊢
              have h4 := hlook hne col hcol (by rw [← dRead_congr (hI q hqp), h1, hv]) r h2 E hI value h3
              rw [h4]
              simp only
              by_cases h5 : A.hasVar (lc q) = true ∧ dGet c (lc q) = none
              · rw [if_pos h5] at h; cases h
              · rw [if_neg h5] at h ⊢
                cases h6 : oldSignCtx A c (lc q) with
                | error e => rw [h6] at h; cases h
                | ok s =>
                  rw [h6] at h
                  rw [oldSignCtx_ok h6]
                  simp only at h ⊢
                  refine ⟨h, ?_⟩
                  intro q' hq'
                  rw [← Except.ok.inj h, dWrite, dGet_dSet, if_neg fun h => hq' h.symm, hI q' hq']
        · rw [if_pos hv] at h ⊢
          cases h
          exact ⟨rfl, hI⟩

theorem dSet_append {α β : Type} [DecidableEq α] : ∀ (d : List (α × β)) (k : α) (v : β),
    k ∉ d.map Prod.fst → dSet d k v = d ++ [(k, v)] := by
  intro d
  induction d with
  | nil => intro k v _; rfl
  | cons e d ih =>
    intro k v h
    simp only [List.map_cons, List.mem_cons, not_or] at h
    rw [dSet, if_neg fun h' => h.1 h'.symm, ih k v h.2]; rfl

/-- the keys of a dictionary filled in a loop -/
theorem keys_foldlM {f : List R → Except QErr (List (ℚ × ℤ))} : ∀ (l : List (List R)) (D D' : Table R),
    l.Nodup → (∀ q ∈ l, q ∉ D.map Prod.fst) → l.foldlM (fun ret p => do
      let row ← f p
      .ok (dSet ret p row)) D = .ok D' → D'.map Prod.fst = D.map Prod.fst ++ l := by
  intro l
  induction l with
  | nil => intro D D' _ _ h; cases h; simp
  | cons q l ih =>
    intro D D' hn hD h
    rw [List.foldlM_cons] at h
    simp only [bind, Except.bind] at h
    cases hf : f q with
    | error e => rw [hf] at h; cases h
    | ok row =>
      rw [hf] at h
      simp only at h
      rw [List.nodup_cons] at hn
      have hk : (dSet D q row).map Prod.fst = D.map Prod.fst ++ [q] := by
        rw [dSet_append _ _ _ (hD q (by simp))]; simp
      rw [ih _ _ hn.2 ?_ h, hk]
      · simp
      · intro q' hq' hm
        rw [hk, List.mem_append, List.mem_singleton] at hm
        rcases hm with hm | rfl
        · exact hD q' (by simp [hq']) hm
        · exact hn.1 hq'

theorem copyTable_keys {A : MAlg R} {T T' : Table R} {pols : List (List R)} {c : Ctx R} (hn : pols.Nodup)
    (h : copyTable A T pols c = .ok T') : T'.map Prod.fst = pols := by
  unfold copyTable at h
  split at h
  · next h' => cases h; rw [h']; rfl
  · cases T with
    | nil => cases h
    | cons y T0 =>
      obtain ⟨q0, row⟩ := y
      simp only at h
      cases hcc : pols.foldlM (copyRoots ((q0, row) :: T0) (triples (sortedCols row))) [0, 1] with
      | error e => rw [hcc] at h; cases h
      | ok cc =>
        rw [hcc] at h
        refine (keys_foldlM (f := fun p => do
          let cells ← cc.mapM fun col => do
            let v ← tableLookup A ((q0, row) :: T0) p col c
            .ok (col, v)
          let v ← tableLookup A ((q0, row) :: T0) p (cc.getD 0 0) c
          .ok (dSet cells ((cc.getD 1 0 + cc.getD 0 0) / 2) v)) pols [] T' hn (by simp) ?_).trans (by simp)
        rw [← h]
        change List.foldlM _ [] pols = List.foldlM _ [] pols
        congr 1
        funext ret p
        simp only [bind_assoc]
        rfl

/-- The rows of polynomials that are mapped to themselves are copied. -/
theorem oldMapBack_eq {mpg : Mapping R} : ∀ (D : Table R), (D.map Prod.fst).Nodup →
    (∀ q ∈ D.map Prod.fst, dGet mpg q = some q) → oldMapBack D (D.map Prod.fst) mpg = .ok D := by
  intro D hn hm
  unfold oldMapBack
  have key : ∀ (post pre : Table R), D = pre ++ post →
      (post.map Prod.fst).foldlM (mapBackRow D mpg) pre = .ok D := by
    intro post
    induction post with
    | nil => intro pre h; simp [h]; rfl
    | cons e post ih =>
      intro pre h
      have hmem : e.1 ∈ D.map Prod.fst := by rw [h]; simp
      have hpre : e.1 ∉ pre.map Prod.fst := by
        intro hm
        rw [h, List.map_append, List.nodup_append] at hn
        exact hn.2.2 _ hm _ (by simp) rfl
      have hrow : dGet D e.1 = some e.2 := by
        rw [← dGet_eq_of_nodup hn]
        rw [h]; simp
      rw [List.map_cons, List.foldlM_cons]
      have : mapBackRow D mpg pre e.1 = .ok (pre ++ [e]) := by
        unfold mapBackRow
        rw [hm _ hmem]
        simp only [hrow]
        rw [dSet_append _ _ _ hpre]
      rw [this]
      exact ih (pre ++ [e]) (by rw [h]; simp)
  exact key D [] rfl

theorem foldlM_id {ε σ α : Type} {f : σ → α → Except ε σ} (I : σ → Prop) (l : List α)
    (H : ∀ a ∈ l, ∀ s, I s → ∀ s', f s a = .ok s' → s' = s) {s s' : σ} (hI : I s)
    (h : l.foldlM f s = .ok s') : s' = s := by
  have h1 := (foldlM_sim (g := fun s _ => .ok s) I l (fun a ha s hs s' h' => by
    rw [H a ha s hs s' h']; exact ⟨rfl, hs⟩) s s' hI h).1
  have h2 : ∀ (l : List α) (s : σ), l.foldlM (fun s _ => (.ok s : Except ε σ)) s = .ok s := by
    intro l
    induction l with
    | nil => intro s; rfl
    | cons a l ih => intro s; rw [List.foldlM_cons]; exact ih s
  rw [h2] at h1
  exact (Except.ok.inj h1).symm

/-- When the earlier version extends a table then the result is the one of `extend_single_table`. -/
theorem oldExtend_sim {A : MAlg R} {c : Ctx R} {T E : Table R} {rows : List (List R)}
    {gs : List (ℚ × ℚ)} {p : List R} {pols : List (List R)} {s : ℤ} {mpg : Mapping R}
    (h : ExtHyp A c T rows gs p pols s) (hn : pols.Nodup) (hm : ∀ q ∈ pols, dGet mpg q = some q)
    (hle : ∀ q ∈ pols, q.length ≤ p.length) (hs : s ≠ 0) (hrun : oldExtend A T c p pols mpg = .ok E) :
    p ∉ T.map Prod.fst ∧ extendSingle A T c p pols = .ok (some E) := by
  obtain ⟨p0, pols', rfl⟩ : ∃ p0 pols', pols = p0 :: pols' := by
    cases hp : pols with
    | nil => exact absurd hp h.pne
    | cons p0 pols' => exact ⟨p0, pols', rfl⟩
  obtain ⟨E0, b, hcopy, hb, hs0, hv0⟩ := copyTable_ok h.shape h.rne h.pne h.pos h.const
  have hkeys := copyTable_keys hn hcopy
  have hmb : oldMapBack E0 (p0 :: pols') mpg = .ok E0 := by
    have := oldMapBack_eq (mpg := mpg) E0 (by rw [hkeys]; exact hn) (by rw [hkeys]; exact hm)
    rwa [hkeys] at this
  have hinn : ∀ e ∈ segInner (condSeg (selOf T rows (p0 :: pols')) b gs), e ∈ segInner gs := fun e he =>
    (condSeg_inner _ gs b e he).1
  have hsub : ∀ i ∈ (segCols (condSeg (selOf T rows (p0 :: pols')) b gs)).tail, i ∈ segCols gs := fun i hi =>
    condSeg_sub _ gs b i hi
  obtain ⟨e1, r1, he1, hr1⟩ := condSeg_head (selOf T rows (p0 :: pols')) gs h.shape.ne
  have hg1 := hr1 b
  set gs1 := condSeg (selOf T rows (p0 :: pols')) b gs with hgs1
  clear_value gs1
  have hqp : ∀ q ∈ (p0 :: pols'), q ≠ p := by rintro q hq rfl; exact h.new hq
  unfold oldExtend at hrun
  cases hsg : oldSignCtx A c (lc p) with
  | error e => rw [hsg] at hrun; cases hrun
  | ok s' =>
    have hss : s' = s := by
      have := oldSignCtx_ok hsg
      rw [h.lc] at this
      exact (Except.ok.inj this).symm
    subst hss
    rw [hsg] at hrun
    simp only [bind, Except.bind] at hrun
    by_cases hin : p ∈ T.map Prod.fst
    · rw [if_pos hin] at hrun; cases hrun
    refine ⟨hin, ?_⟩
    rw [if_neg hin, hcopy] at hrun
    simp only [hmb] at hrun
    unfold extendSingle
    rw [h.lc]
    simp only [bind, Except.bind, hcopy]
    set a : ℤ := (-1) ^ deg p * s' with ha
    set E1 := dWrite (dWrite (dSet E0 p []) p 0 a) p 1 s' with hE1
    have hE1q : ∀ q, q ≠ p → dGet E1 q = dGet E0 q := by
      intro q hq
      have hq' : ¬ p = q := fun h => hq h.symm
      rw [hE1, dWrite, dGet_dSet, if_neg hq', dWrite, dGet_dSet, if_neg hq', dGet_dSet, if_neg hq']
    have hp0 : p0 ∈ p0 :: pols' := by simp
    have hck1 : ∀ i, i ∈ ck E1 p ↔ i = 0 ∨ i = 1 := by
      intro i
      have hrowp : dRow (dSet E0 p []) p = [] := by
        unfold dRow
        rw [dGet_dSet, if_pos rfl]; rfl
      rw [hE1, mem_ck_dWrite, mem_ck_dWrite]
      unfold ck
      rw [hrowp]
      simp
    have hcvp0 : cv E1 p 0 = a := by
      rw [hE1, cv_dWrite, if_neg (by rintro ⟨_, h⟩; exact zero_ne_one h), cv_dWrite, if_pos ⟨rfl, rfl⟩]
    have hcvp1 : cv E1 p 1 = s' := by rw [hE1, cv_dWrite, if_pos ⟨rfl, rfl⟩]
    clear_value E1
    obtain ⟨row, hrow⟩ := (dGet_isSome E0 p0).1 ((hs0.keys p0).2 hp0)
    have hrow1 : dGet E1 p0 = some row := by rw [hE1q p0 (hqp p0 hp0), hrow]
    have hsort : sortedCols row = 0 :: segCols gs1 := by
      have h1 : row.map Prod.fst = ck E0 p0 := by
        unfold ck dRow
        rw [hrow]; rfl
      unfold sortedCols
      rw [h1]
      exact sorted_of_ck hs0.chain (hs0.nodup p0) (hs0.ck p0 hp0)
    rw [hrow1] at hrun ⊢
    simp only [hsort] at hrun ⊢
    set tr := triples (0 :: segCols gs1) with htr
    have hinner : ∀ i, i ∈ tr.map (fun t => t.2.1) ↔ i ∈ segGaps gs1 ∨ i ∈ segInner gs1 :=
      fun i => mem_triples gs1 0 i
    have hcolc : ∀ i ∈ tr.map (fun t => t.2.1), i ∈ segCols gs1 := by
      intro i hi
      rcases (hinner i).1 hi with h' | h'
      · exact segGaps_sub _ h'
      · exact segEnds_sub _ (segInner_sub _ h')
    -- a root belongs to a polynomial of positive degree
    have hroot : ∀ q ∈ p0 :: pols', cv E0 q 0 ≠ 0 → ∀ col ∈ tr.map (fun t => t.2.1),
        dRead E0 q col = .ok 0 → 0 < deg q ∧ col ≠ b := by
      intro q hq h0 col hcol hr
      have hz := (dRead_inv hr).2
      constructor
      · rcases Nat.eq_zero_or_pos (deg q) with h' | h'
        · have k1 := hs0.const q hq h' 0 (Or.inl rfl)
          have k2 := hs0.const q hq h' col (Or.inr (hcolc col hcol))
          rw [k1, hz] at k2
          exact absurd (Option.some.inj k2) h0
        · exact h'
      · rintro rfl
        rw [(hv0 q hq).1, ← (hv0 q hq).2 0 (Or.inl rfl)] at hz
        exact h0 hz
    cases hf : (p0 :: pols').foldlM (oldRoots A c p (tr.map fun t => t.2.1)) E1 with
    | error e => rw [hf] at hrun; cases hrun
    | ok E2 =>
      rw [hf] at hrun
      simp only at hrun
      cases hgp : chGaps p (p0 :: pols') tr E2 with
      | error e => rw [hgp] at hrun; cases hrun
      | ok o =>
        cases o with
        | none => rw [hgp] at hrun; cases hrun
        | some E3 =>
          have hE3 : E3 = E := by
            rw [hgp] at hrun
            exact Except.ok.inj hrun
          subst hE3
          by_cases hd : deg p = 0
          · -- a constant
            rw [if_pos hd]
            have hconst : ∀ q ∈ p0 :: pols', deg q = 0 := by
              intro q hq
              have := hle q hq
              unfold deg at hd ⊢
              omega
            have hE2 : E2 = E1 := by
              refine foldlM_id (fun E => ∀ q, q ≠ p → dGet E q = dGet E0 q) _ ?_ hE1q hf
              intro q hq E hI E' h'
              unfold oldRoots at h'
              simp only [bind, Except.bind, dRead_congr (hI q (hqp q hq))] at h'
              split at h'
              · cases h'
              · next v hv =>
                split at h'
                · cases h'; rfl
                · next hv0' =>
                  refine foldlM_id (fun E => ∀ q, q ≠ p → dGet E q = dGet E0 q) _ ?_ hI h'
                  intro col hcol E hI E' h'
                  simp only [dRead_congr (hI q (hqp q hq))] at h'
                  split at h'
                  · cases h'
                  · next w hw =>
                    by_cases hw0 : w = 0
                    · exfalso
                      have := (hroot q hq (by rw [(dRead_inv hv).2]; exact hv0') col hcol (by rw [hw, hw0])).1
                      rw [hconst q hq] at this
                      exact lt_irrefl _ this
                    · rw [if_pos hw0] at h'
                      cases h'; rfl
            have hr1n : r1 = [] := by
              cases hr : r1 with
              | nil => rfl
              | cons y r2 =>
                exfalso
                have hmem : e1 ∈ segInner gs1 := by rw [hg1, hr]; simp [segInner]
                obtain ⟨q, hq, k1, k2⟩ := hs0.seg.inner e1 hmem
                have j1 := hs0.const q hq (hconst q hq) 0 (Or.inl rfl)
                have j2 := hs0.const q hq (hconst q hq) e1 (Or.inr (segEnds_sub _ (segInner_sub _ hmem)))
                rw [j1, k1] at j2
                exact k2 (Option.some.inj j2)
            rw [hr1n] at hg1
            have he : e1 = 1 := by
              have := hs0.last
              rw [hg1] at this
              exact this
            rw [he] at hg1
            have htr1 : tr = [(0, b, 1)] := by rw [htr, hg1]; rfl
            have hch := hs0.chain
            rw [hg1] at hch
            have hb0 : 0 < b := hch.1
            have hb1 : b < 1 := hch.2.1
            have has : a = s' := by rw [ha, hd]; simp
            have hgap := chGap_gap (D := E1) (rest := p0 :: pols') h.new hb0 hb1 (fun q hq => by
                have : ck E1 q = ck E0 q := by
                  unfold ck dRow
                  rw [hE1q q (hqp q hq)]
                rw [this]
                exact (hs0.ck q hq b).2 (Or.inr (by rw [hg1]; simp [segCols])))
              ⟨(hck1 0).2 (Or.inl rfl), by rw [hcvp0, has]; exact h.s3⟩
              ⟨(hck1 1).2 (Or.inr rfl), by rw [hcvp1]; exact h.s3⟩
              (by rw [hck1]; rintro (h' | h') <;> linarith)
            rw [hcvp0, hcvp1, has] at hgap
            rw [htr1, hE2] at hgp
            rw [htr1]
            have hsq : s' * s' ≠ 0 := mul_ne_zero hs hs
            rcases hgap with ⟨h', _, _⟩ | ⟨_, _, h'⟩ | ⟨h', _⟩
            · exact absurd h' hs
            · rw [chGaps_cons h'] at hgp
              have hsgn : sgnInt (s' + s') = s' := by
                rcases h.s3 with rfl | rfl | rfl
                · rfl
                · rfl
                · rfl
              rw [hsgn] at hgp
              exact hgp
            · exact absurd rfl h'
          · rw [if_neg hd]
            have hsim := (foldlM_sim (g := chRoots A T c p (tr.map fun t => t.2.1))
              (fun E => ∀ q, q ≠ p → dGet E q = dGet E0 q) (p0 :: pols') (by
                intro q hq E hI E' h'
                refine oldRoots_sim (hqp q hq) ?_ hI h'
                intro h0 col hcol hr r hrem E hI v hv
                obtain ⟨hdq, hcb⟩ := hroot q hq h0 col hcol hr
                obtain ⟨r', hr', k1, k2⟩ := h.rem q hq hdq
                rw [hrem] at hr'
                cases hr'
                have hlen := pseudoRem_length (hle q hq) hrem
                have hrp : r ≠ p := by
                  rintro rfl
                  have := hle q hq
                  omega
                have htail : col = 0 ∨ col ∈ (segCols gs1).tail := by
                  have := hcolc col hcol
                  rw [hg1] at this ⊢
                  rcases List.mem_cons.1 this with h' | h'
                  · exact absurd h' hcb
                  · exact Or.inr h'
                have hcolg : col = 0 ∨ col ∈ segCols gs := htail.imp id (hsub col)
                rw [tableLookup_ok h.shape k1 (fun h' => (k2 h').imp fun _ h' => h'.2) hcolg]
                by_cases hdr : 0 < deg r
                · unfold tableLookup at hv
                  rw [if_pos hdr, dRead_congr (hI r hrp)] at hv
                  obtain ⟨m1, m2⟩ := dRead_inv hv
                  have hrk : r ∈ p0 :: pols' := by
                    rw [← hs0.keys]
                    by_contra hcon
                    have : dRow E0 r = [] := by
                      unfold dRow
                      rw [dGet_none _ _ hcon]; rfl
                    unfold ck at m1
                    rw [this] at m1
                    simp at m1
                  rw [← (hv0 r hrk).2 col htail, m2]
                · unfold tableLookup at hv
                  rw [if_neg hdr] at hv
                  unfold tv cval
                  rw [if_neg hdr]
                  split at hv
                  · next h' => rw [if_pos h']; exact hv
                  · next h' =>
                    rw [if_neg h']
                    split at hv
                    · cases hv
                    · next w hw => rw [hw]; exact hv) E1 E2 hE1q hf).1
            rw [hsim]
            exact hgp

end Verif.Qe
