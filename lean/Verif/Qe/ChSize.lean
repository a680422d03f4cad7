import Verif.Qe.ChDepth
import Verif.Qe.ChApart
import Verif.Qe.SizeLemmas
import Mathlib.Data.Fintype.Card
import Mathlib.Data.Fintype.Pi

/-!
# Size of the Cohen-Hörmander recursion and of its result

All polynomials that occur come from the input by derivatives, tails and pseudo-remainders, as in the Muchnik closure.
-/

set_option linter.unusedSectionVars false

namespace Verif.Qe

variable {R : Type} [CommRing R] [DecidableEq R]

/-- Closed under what `_real_table` does to polynomials. -/
structure ChClosed (P : List R → Prop) : Prop where
  tail : ∀ p, p ≠ [] → P p → P (pTail p)
  der : ∀ p, P p → P (derivative p)
  rem : ∀ f g r, g ≠ [] → g.length ≤ f.length → P f → P g → pseudoRem f g = .ok r → P r

/-- The keys are different leading coefficients. -/
def KeysIn (P : List R → Prop) (c : Ctx R) : Prop :=
  (c.map Prod.fst).Nodup ∧ ∀ k ∈ c.map Prod.fst, ∃ t, t ≠ [] ∧ P t ∧ lc t = k

theorem KeysIn.dSet {P : List R → Prop} {c : Ctx R} (h : KeysIn P c) {p : List R} (hp : p ≠ []) (hP : P p) (s : ℤ) :
    KeysIn P (dSet c (lc p) s) := by
  refine ⟨nodup_keys_dSet _ _ _ h.1, fun k hk => ?_⟩
  rcases (mem_keys_dSet _ _ _ _).1 hk with rfl | hk
  · exact ⟨p, hp, hP, rfl⟩
  · exact h.2 k hk

theorem expandVar_in {P : List R → Prop} (hP : ChClosed P) {A : MAlg R} (h0 : A.hasVar 0 = false) : ∀ (n : ℕ) (c : Ctx R)
    (ps : List (List R)) (head : List R) (m : Mapping R) (r : List (Expanded R) × Mapping R), head ≠ [] → P head →
    KeysIn P c → expandVar A n c ps head m = .ok r →
    ∀ e ∈ r.1, KeysIn P e.1 ∧ ∃ q, e.2.1 = ps ++ [q] ∧ P q := by
  intro n
  induction n with
  | zero => intro c ps head m r _ _ _ h; rw [expandVar] at h; cases h
  | succ n ih =>
    intro c ps head m r hne hh hc h
    rw [expandVar] at h
    refine foldlM_holds (fun st : List (Expanded R) × Mapping R => ∀ e ∈ st.1, KeysIn P e.1 ∧
      ∃ q, e.2.1 = ps ++ [q] ∧ P q) _ _ _ (by simp) ?_ h
    intro st hst s _ st' hst'
    simp only [] at hst'
    have hc' := hc.dSet hne hh s
    have ht := hP.tail head hne hh
    have key : ∀ r : List (Expanded R) × Mapping R, (∀ e ∈ r.1, KeysIn P e.1 ∧ ∃ q, e.2.1 = [q] ∧ P q) →
        (do
          let es ← r.1.mapM fun e =>
            match dGet e.2.2 (pTail head) with
            | none => .error .keyError
            | some t => .ok (e.1, ps ++ e.2.1, dSet e.2.2 head t)
          .ok (st.1 ++ es, r.2) : Except QErr (List (Expanded R) × Mapping R)) = .ok st' →
        ∀ e ∈ st'.1, KeysIn P e.1 ∧ ∃ q, e.2.1 = ps ++ [q] ∧ P q := by
      intro r hr h e he
      simp only [bind, Except.bind] at h
      split at h
      · cases h
      · next es hes =>
        cases h
        rcases List.mem_append.1 he with he | he
        · exact hst e he
        · obtain ⟨e', he', h'⟩ := mapM_of_mem _ _ hes e he
          obtain ⟨hk, q, hq, hc⟩ := hr e' he'
          split at h'
          · cases h'
          · cases h'
            exact ⟨hk, q, by simp [hq], hc⟩
    split at hst'
    · cases hst'
      intro e he
      rcases List.mem_append.1 he with he | he
      · exact hst e he
      · rw [List.mem_singleton] at he
        subst he
        exact ⟨hc', head, rfl, hh⟩
    · split at hst'
      · unfold expandScalar at hst'
        split at hst'
        · cases hst'
        · refine key _ ?_ hst'
          intro e he
          rw [List.mem_singleton] at he
          subst he
          exact ⟨hc', _, rfl, ht⟩
      · next hv =>
        cases hx : expandVar A n (dSet c (lc head) s) [] (pTail head) st.2 with
        | error e => rw [hx] at hst'; cases hst'
        | ok r =>
          rw [hx] at hst'
          refine key r ?_ hst'
          intro e he
          obtain ⟨hk, q, h1, h2⟩ := ih _ _ _ _ _ (ne_nil_of_var h0 hv) ht hc' hx e he
          exact ⟨hk, q, by simpa using h1, h2⟩

theorem expandContext_in {P : List R → Prop} (hP : ChClosed P) {A : MAlg R} (h0 : A.hasVar 0 = false) {c : Ctx R}
    (hc : KeysIn P c) : ∀ (ps : List (List R)) (er : List (Expanded R)), (∀ p ∈ ps, P p) →
    expandContext A c ps = .ok er → ∀ e ∈ er, KeysIn P e.1 ∧ ∀ r ∈ e.2.1, P r := by
  intro ps
  induction ps with
  | nil => intro er _ h; unfold expandContext at h; cases h; simpa using hc
  | cons head rest ih =>
    intro er hps h
    unfold expandContext at h
    simp only [bind, Except.bind] at h
    split at h
    · cases h
    · next er0 h0' =>
      have h1 := ih er0 (fun p hp => hps p (by simp [hp])) h0'
      have hh := hps head (by simp)
      split at h
      · split at h
        · cases h
        · cases h
          intro e he
          obtain ⟨e', he', rfl⟩ := List.mem_map.1 he
          obtain ⟨a, b⟩ := h1 e' he'
          refine ⟨a, fun r hr => ?_⟩
          rcases List.mem_cons.1 hr with rfl | hr
          · exact hh
          · exact b r hr
      · next hv =>
        split at h
        · cases h
        · next rs hrs =>
          cases h
          intro e he
          obtain ⟨b, hb, heb⟩ := List.mem_flatten.1 he
          obtain ⟨e', he', h'⟩ := mapM_of_mem _ _ hrs b hb
          split at h'
          · cases h'
          · next r hr =>
            cases h'
            obtain ⟨a, b⟩ := h1 e' he'
            obtain ⟨hk, q, hq, hc⟩ := expandVar_in hP h0 _ _ _ _ _ _ (ne_nil_of_var h0 hv) hh a hr e heb
            refine ⟨hk, fun r hr => ?_⟩
            rw [hq, List.mem_append, List.mem_singleton] at hr
            rcases hr with hr | rfl
            · exact b r hr
            · exact hc

/-- The goals of the recursive calls, and their contexts. -/
theorem goal_in {P : List R → Prop} (hP : ChClosed P) {A : MAlg R} (h0 : A.hasVar 0 = false) {ps : List (List R)}
    (hps : ∀ p ∈ ps, P p) {c : Ctx R} (hc : KeysIn P c) {p : List R} {rest : List (List R)}
    (hds : degSet ps = p :: rest) {er : List (Expanded R)} (her : expandContext A c (neededOf p rest) = .ok er)
    {e : Expanded R} (he : e ∈ er) {rems : List (List R)}
    (hr : (e.2.1.filter fun g => decide (0 < deg g)).mapM (fun g => pseudoRem p g) = .ok rems) :
    KeysIn P e.1 ∧ ∀ q ∈ (e.2.1 ++ rems).filter fun p => decide (p ≠ []),
      P q ∧ q ≠ [] ∧ q.length ≤ p.length ∧ (q.length = p.length → q ∈ rest) := by
  obtain ⟨hnd, hsort, hmem⟩ := degSet_spec ps
  rw [hds] at hnd hsort hmem
  rw [List.pairwise_cons] at hsort
  have hp : P p := hps p ((hmem p).1 (by simp))
  have hn : ∀ q ∈ neededOf p rest, P q ∧ q.length ≤ p.length ∧ (q.length = p.length → q ∈ rest) := by
    intro q hq
    rcases (mem_neededOf p rest q).1 hq with hq | ⟨hd, rfl⟩
    · exact ⟨hps q ((hmem q).1 (by simp [hq])), hsort.1 q hq, fun _ => hq⟩
    · have := derivative_length p
      have h1 := List.length_pos_iff.2 hd
      exact ⟨hP.der p hp, by omega, fun h => by omega⟩
  obtain ⟨hel, hec⟩ := expandContext_length h0 _ _ _ her e he
  obtain ⟨hk, hin⟩ := expandContext_in hP h0 hc _ _ (fun q hq => (hn q hq).1) her e he
  have hple : ∀ r ∈ e.2.1, r.length ≤ p.length ∧ (r.length = p.length → r ∈ rest) := by
    intro r hr
    obtain ⟨q, hq, hc⟩ := hec r hr
    have := (hn q hq).2
    rcases hc with rfl | hc
    · exact this
    · exact ⟨by omega, fun h => by omega⟩
  refine ⟨hk, fun q hq => ?_⟩
  rw [List.mem_filter, List.mem_append, decide_eq_true_eq] at hq
  refine ⟨?_, hq.2, ?_⟩
  · rcases hq.1 with hq | hq
    · exact hin q hq
    · obtain ⟨g, hg, hg'⟩ := mapM_of_mem _ _ hr q hq
      rw [List.mem_filter, decide_eq_true_eq] at hg
      exact hP.rem p g q (ne_nil_of_deg hg.2) (hple g hg.1).1 hp (hin g hg.1) hg'
  · rcases hq.1 with hq | hq
    · exact hple q hq
    · obtain ⟨g, hg, hg'⟩ := mapM_of_mem _ _ hr q hq
      have h1 := hple g (List.mem_filter.1 hg).1
      have h2 := pseudoRem_length h1.1 hg'
      exact ⟨by omega, fun h => by omega⟩

/-! ### Depth -/

/-- The members of `F` that can still be reached from a goal. -/
def reach (F : Finset (List R)) (G : List (List R)) : Finset (List R) :=
  F.filter fun f => ∃ q ∈ G, f = q ∨ f.length < q.length

theorem nf_realTable_card {P : List R → Prop} (hP : ChClosed P) (F : Finset (List R)) (hF : ∀ p, p ≠ [] → P p → p ∈ F)
    {A : MAlg R} (h0 : A.hasVar 0 = false) : ∀ (fuel : ℕ) (ps : List (List R)) (c : Ctx R), (∀ p ∈ ps, P p) →
    KeysIn P c → ((∀ p ∈ ps, p ≠ []) ∨ 1 ≤ fuel) → (reach F ps).card ≤ fuel → NF (realTable A fuel ps c) := by
  intro fuel
  induction fuel with
  | zero =>
    intro ps c hps hc h1 hf
    cases ps with
    | nil => exact nf_ok _
    | cons p ps =>
      exfalso
      have hp : p ≠ [] := (h1.resolve_right (by omega)) p (by simp)
      rw [Nat.le_zero, Finset.card_eq_zero] at hf
      have : p ∈ reach F (p :: ps) := by
        unfold reach
        rw [Finset.mem_filter]
        exact ⟨hF p hp (hps p (by simp)), p, by simp, Or.inl rfl⟩
      rw [hf] at this
      simp at this
  | succ fuel ih =>
    intro ps c hps hc _ hf
    cases hps' : ps with
    | nil => exact nf_ok _
    | cons p0 ps0 =>
      obtain ⟨hnd, hsort, hmem⟩ := degSet_spec ps
      unfold realTable
      rw [← hps']
      split
      · exact nf_err (by decide)
      · next p rest hds =>
        split
        · exact nf_initialTable _ _ _
        · next hnn =>
          have hg := @goal_in R _ _ P hP A h0 ps hps c hc p rest hds
          rw [hds] at hnd hsort hmem
          rw [List.nodup_cons] at hnd
          rw [List.pairwise_cons] at hsort
          have hpm : p ∈ ps := (hmem p).1 (by simp)
          have hpne : p ≠ [] := by
            rintro rfl
            apply hnn
            have : rest = [] := by
              by_contra hr
              obtain ⟨q, hq⟩ := List.exists_mem_of_ne_nil _ hr
              have h2 := hsort.1 q hq
              have h3 : q = [] := List.length_eq_zero_iff.1 (by simpa using h2)
              exact hnd.1 (h3 ▸ hq)
            subst this
            rfl
          refine nf_bind (nf_expandContext h0 _ _) fun er her => ?_
          refine nf_bind (nf_mapM _ fun e he => ?_) fun rs _ => nf_ok _
          apply nf_chContext
          intro rems hr
          obtain ⟨hk, hgoal⟩ := hg her he hr
          refine ih _ _ (fun q hq => (hgoal q hq).1) hk (Or.inl fun q hq => (hgoal q hq).2.1) ?_
          generalize hG : (e.2.1 ++ rems).filter (fun p => decide (p ≠ [])) = G at hgoal ⊢
          have hsub : reach F G ⊆ (reach F ps).erase p := by
            intro f hf
            unfold reach at hf ⊢
            rw [Finset.mem_filter] at hf
            rw [Finset.mem_erase, Finset.mem_filter]
            obtain ⟨hfF, q, hq, hfq⟩ := hf
            obtain ⟨-, -, hl, hle⟩ := hgoal q hq
            refine ⟨?_, hfF, ?_⟩
            · rintro rfl
              rcases hfq with rfl | hfq
              · exact hnd.1 (hle rfl)
              · omega
            · rcases hfq with rfl | hfq
              · rcases Nat.lt_or_ge f.length p.length with h | h
                · exact ⟨p, hpm, Or.inr h⟩
                · exact ⟨f, (hmem f).1 (by simp [hle (by omega)]), Or.inl rfl⟩
              · exact ⟨p, hpm, Or.inr (by omega)⟩
          have hpin : p ∈ reach F ps := by
            unfold reach
            rw [Finset.mem_filter]
            exact ⟨hF p hpne (hps p hpm), p, hpm, Or.inl rfl⟩
          have h1 := Finset.card_le_card hsub
          rw [Finset.card_erase_of_mem hpin] at h1
          omega

/-! ### Contexts -/

theorem realTable_keys {P : List R → Prop} (hP : ChClosed P) {A : MAlg R} (h0 : A.hasVar 0 = false) : ∀ (fuel : ℕ)
    (ps : List (List R)) (c : Ctx R) (out : List (Table R × Ctx R)), (∀ p ∈ ps, P p) → KeysIn P c →
    realTable A fuel ps c = .ok out → ∀ t ∈ out, KeysIn P t.2 := by
  intro fuel
  induction fuel with
  | zero =>
    intro ps c out _ _ h
    cases ps with
    | nil => rw [realTable] at h; cases h; simp
    | cons p ps => rw [realTable] at h; cases h
  | succ fuel ih =>
    intro ps c out hps hc h
    cases hps' : ps with
    | nil => rw [hps', realTable] at h; cases h; simp
    | cons p0 ps0 =>
      rw [hps', realTable] at h
      rw [← hps'] at h
      split at h
      · cases h
      · next p rest hds =>
        have hmem := (degSet_spec ps).2.2
        rw [hds] at hmem
        have hpm : p ∈ ps := (hmem p).1 (by simp)
        have hvar : A.hasVar (lc p) = true → p ≠ [] := fun hv => ne_nil_of_var h0 (by rw [hv]; simp)
        split at h
        · unfold initialTable at h
          split at h
          · cases h
          · split at h
            · cases h; simpa using hc
            · next hv =>
              split at h
              · cases h; simpa using hc
              · cases h
                intro t ht
                obtain ⟨s, hs, rfl⟩ := List.mem_map.1 ht
                exact hc.dSet (hvar (by simpa using hv)) (hps p hpm) s
        · simp only [bind, Except.bind] at h
          split at h
          · cases h
          · next er her =>
            split at h
            · cases h
            · next rs hrs =>
              cases h
              intro t ht
              obtain ⟨b, hb, htb⟩ := List.mem_flatten.1 ht
              obtain ⟨e, he, h'⟩ := mapM_of_mem _ _ hrs b hb
              unfold chContext at h'
              simp only [bind, Except.bind] at h'
              split at h'
              · cases h'
              · next rems hr =>
                split at h'
                · cases h'
                · next ts hts =>
                  split at h'
                  · cases h'
                  · next rs' hrs' =>
                    cases h'
                    obtain ⟨hk, hgoal⟩ := goal_in hP h0 hps hc hds her he hr
                    have hts' := ih _ _ _ (fun q hq => (hgoal q hq).1) hk hts
                    obtain ⟨b', hb', htb'⟩ := List.mem_flatten.1 htb
                    obtain ⟨t', ht', h''⟩ := mapM_of_mem _ _ hrs' b' hb'
                    have ht2 : KeysIn P t'.2 := by
                      unfold splitUnknown at ht'
                      split at ht'
                      · next hv =>
                        obtain ⟨u, hu, hu'⟩ := List.mem_flatMap.1 ht'
                        split at hu'
                        · rw [List.mem_singleton.1 hu']; exact hts' u hu
                        · obtain ⟨s, hs, rfl⟩ := List.mem_map.1 hu'
                          exact (hts' u hu).dSet (hvar hv.2) (hps p hpm) s
                      · exact hts' _ ht'
                    unfold chTable at h''
                    simp only [bind, Except.bind] at h''
                    split at h''
                    · cases h''
                    · split at h''
                      · cases h''
                      · split at h''
                        · cases h''; simp at htb'
                        · split at h''
                          · cases h''
                          · split at h''
                            · cases h''
                            · cases h''
                              rw [List.mem_singleton.1 htb']
                              exact ht2

/-! ### Counting -/

/-- Signs as numbers 0, 1, 2. -/
def sign3 (s : ℤ) : Fin 3 := if s = -1 then 0 else if s = 0 then 1 else 2

theorem sign3_inj {s s' : ℤ} (h : Sign3 s) (h' : Sign3 s') (e : sign3 s = sign3 s') : s = s' := by
  rcases h with rfl | rfl | rfl <;> rcases h' with rfl | rfl | rfl <;> first | rfl | (exfalso; revert e; decide)

theorem apart_count (K : Finset R) (l : List (Ctx R)) (hs : ∀ z ∈ l, Signs z) (hk : ∀ z ∈ l, ∀ k ∈ z.map Prod.fst, k ∈ K)
    (hp : l.Pairwise Apart) : l.length ≤ 3 ^ K.card := by
  let f : Ctx R → (K → Fin 3) := fun z k => sign3 ((dGet z k.1).getD 0)
  have hnd : (l.map f).Nodup := by
    rw [List.Nodup, List.pairwise_map]
    refine List.Pairwise.imp_of_mem ?_ hp
    rintro z z' hz hz' ⟨k, s, s', h1, h2, h3⟩ e
    have hkK : k ∈ K := hk z hz k ((dGet_isSome _ _).2 ⟨s, h1⟩)
    have := congrFun e ⟨k, hkK⟩
    simp only [f, h1, h2, Option.getD_some] at this
    exact h3 (sign3_inj (hs z hz k s h1) (hs z' hz' k s' h2) this)
  have h := hnd.length_le_card
  rw [List.length_map] at h
  refine h.trans (le_of_eq ?_)
  rw [Fintype.card_fun, Fintype.card_fin, Fintype.card_coe]

/-! ### The closure -/

/-- Where the polynomial belongs in the chain of `lev`. -/
def Lv (ps : List (List R)) (L : ℕ) (q : List R) : Prop := q ≠ [] → ∀ j, L + 1 ≤ q.length + j → q ∈ lev ps j

theorem lv_closed (ps : List (List R)) (L : ℕ) : ChClosed (Lv ps L) := by
  have hz : ∀ q, q ≠ [] → Lv ps L q → q.length ≤ L := by
    intro q hq h
    by_contra hl
    have := h hq 0 (by omega)
    simp [lev] at this
  have hone : ∀ p r : List R, p ≠ [] → Lv ps L p → r.length < p.length →
      (∀ j, p ∈ lev ps j → r ∈ lev ps (j + 1)) → Lv ps L r := by
    intro p r hp hL hl hstep hr j hj
    have := hz p hp hL
    obtain ⟨j, rfl⟩ : ∃ i, j = i + 1 := ⟨j - 1, by omega⟩
    exact hstep j (hL hp j (by omega))
  refine ⟨fun p hp h => ?_, fun p h => ?_, fun f g r hg hl hf hgL hr => ?_⟩
  · refine hone p _ hp h (pTail_lt hp) fun j hj => ?_
    rw [lev]
    exact Finset.mem_union_right _ (Finset.mem_union_right _ (Finset.mem_union_left _ (Finset.mem_image_of_mem _ hj)))
  · by_cases hp : p = []
    · subst hp
      exact h
    have hlt : (derivative p).length < p.length := by
      have := derivative_length p
      have := List.length_pos_iff.2 hp
      omega
    refine hone p _ hp h hlt fun j hj => ?_
    rw [lev]
    exact Finset.mem_union_right _ (Finset.mem_union_left _ (Finset.mem_image_of_mem _ hj))
  · have hf0 : f ≠ [] := by
      rintro rfl
      exact hg (List.length_eq_zero_iff.1 (by simpa using hl))
    intro hr0 j hj
    have h1 := hz g hg hgL
    have h2 := pseudoRem_length hl hr
    obtain ⟨j, rfl⟩ : ∃ i, j = i + 1 := ⟨j - 1, by omega⟩
    rw [lev]
    refine Finset.mem_union_right _ (Finset.mem_union_right _ (Finset.mem_union_right _ ?_))
    refine Finset.mem_image₂.2 ⟨f, hf hf0 j (by omega), g, hgL hg j (by omega), ?_⟩
    unfold remOr
    rw [hr]
    rfl

theorem lv_input {ps : List (List R)} {L : ℕ} (hl : ∀ p ∈ ps, p.length ≤ L) : ∀ p ∈ ps, Lv ps L p := by
  intro p hp _ j hj
  have := hl p hp
  obtain ⟨j, rfl⟩ : ∃ i, j = i + 1 := ⟨j - 1, by omega⟩
  rw [lev]
  exact Finset.mem_union_left _ (List.mem_toFinset.2 hp)

theorem lv_mem {ps : List (List R)} {L : ℕ} {p : List R} (h0 : p ≠ []) (h : Lv ps L p) : p ∈ lev ps L := by
  have := List.length_pos_iff.2 h0
  exact h h0 L (by omega)

end Verif.Qe
