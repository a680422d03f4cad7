import Verif.Qe.PropsClosure
import Mathlib.Data.Finset.Card
import Mathlib.Data.Finset.NAry

/-!
# Size of the Muchnik closure

An element of the closure is an input, or it comes from longer elements. So the elements whose length is at least
`L + 1 - j` belong to the `j`-th of a chain of finite sets, which starts with the empty one.
-/

set_option linter.unusedSectionVars false

namespace Verif.Qe

variable {R : Type} [CommRing R] [DecidableEq R]

/-- the pseudo-remainder, or 0 -/
def remOr (f g : List R) : List R := ((pseudoRem f g).toOption).getD []

/-- What the inputs and the elements of the `j`-th set give. -/
def lev (ps : List (List R)) : ℕ → Finset (List R)
  | 0 => ∅
  | j + 1 => ps.toFinset ∪ ((lev ps j).image derivative ∪ ((lev ps j).image pTail ∪
      Finset.image₂ remOr (lev ps j) (lev ps j)))

theorem lev_card_succ (ps : List (List R)) (j : ℕ) :
    (lev ps (j + 1)).card + (ps.length + 1) ≤ ((lev ps j).card + (ps.length + 1)) ^ 2 := by
  have h1 : (lev ps (j + 1)).card ≤ ps.length + ((lev ps j).card + ((lev ps j).card + (lev ps j).card * (lev ps j).card)) := by
    rw [lev]
    refine (Finset.card_union_le _ _).trans (Nat.add_le_add (List.toFinset_card_le ps) ?_)
    refine (Finset.card_union_le _ _).trans (Nat.add_le_add Finset.card_image_le ?_)
    exact (Finset.card_union_le _ _).trans (Nat.add_le_add Finset.card_image_le (Finset.card_image₂_le _ _ _))
  generalize (lev ps j).card = m at h1 ⊢
  generalize (lev ps (j + 1)).card = m' at h1 ⊢
  generalize ps.length = n at h1 ⊢
  nlinarith [Nat.zero_le (n * m), Nat.zero_le (n * n)]

theorem lev_card (ps : List (List R)) (j : ℕ) : (lev ps j).card + (ps.length + 1) ≤ (ps.length + 1) ^ 2 ^ j := by
  induction j with
  | zero => simp [lev]
  | succ j ih =>
    refine (lev_card_succ ps j).trans ?_
    rw [pow_succ 2 j, pow_mul]
    exact Nat.pow_le_pow_left ih 2

/-- Everything is where it should be in the chain. -/
structure LevInv (ps : List (List R)) (L : ℕ) (done todo : List (List R)) : Prop where
  zero : [] ∈ done
  nodup : done.Nodup
  canon : ∀ p, (p ∈ done ∨ p ∈ todo) → Canon p
  lev : ∀ p, (p ∈ done ∨ p ∈ todo) → p ≠ [] → ∀ j, L + 1 ≤ p.length + j → p ∈ lev ps j

theorem LevInv.length {ps : List (List R)} {L : ℕ} {done todo : List (List R)} (h : LevInv ps L done todo) :
    done.length ≤ (Verif.Qe.lev ps L).card + 1 := by
  have h1 : (done.erase []).toFinset ⊆ Verif.Qe.lev ps L := by
    intro p hp
    rw [List.mem_toFinset] at hp
    have hne : p ≠ [] := fun e => by
      subst e
      exact (List.Nodup.not_mem_erase h.nodup) hp
    refine h.lev p (Or.inl (List.mem_of_mem_erase hp)) hne L ?_
    have := List.length_pos_iff.2 hne
    omega
  have h2 := Finset.card_le_card h1
  rw [List.toFinset_card_of_nodup (h.nodup.erase _), List.length_erase_of_mem h.zero] at h2
  omega

theorem filter_length_lt {α : Type} {p : α → Bool} {l : List α} {a : α} (ha : a ∈ l) (hp : p a = false) :
    (l.filter p).length + 1 ≤ l.length := by
  have := List.length_filter_lt_length_iff_exists (p := p) (l := l) |>.2 ⟨a, ha, by simp [hp]⟩
  omega

theorem mapM_length {ε α β : Type} {f : α → Except ε β} : ∀ (l : List α) (bs : List β), l.mapM f = .ok bs →
    bs.length = l.length := by
  intro l
  induction l with
  | nil => intro bs h; rw [List.mapM_nil] at h; cases h; rfl
  | cons a l ih =>
    intro bs h
    rw [List.mapM_cons] at h
    simp only [bind, Except.bind] at h
    split at h
    · cases h
    · split at h
      · cases h
      · next w hw =>
        cases h
        rw [List.length_cons, List.length_cons, ih w hw]

theorem muchnikSeq_size [IsDomain R] (A : MAlg R) (ps : List (List R)) (L : ℕ) :
    ∀ (fuel : ℕ) (done todo : List (List R)), LevInv ps L done todo →
      todo.length + ((lev ps L).card + 1 - done.length) * (2 * (lev ps L).card) ≤ fuel →
      ∃ S, muchnikSeq A fuel done todo = .ok S ∧ S.length ≤ (lev ps L).card + 1 := by
  intro fuel
  induction fuel with
  | zero =>
    intro done todo h hf
    cases todo with
    | nil => exact ⟨done, by unfold muchnikSeq; rfl, h.length⟩
    | cons a l => rw [List.length_cons] at hf; omega
  | succ fuel ih =>
    intro done todo h hf
    cases todo with
    | nil => exact ⟨done, by unfold muchnikSeq; rfl, h.length⟩
    | cons head rest =>
      rw [List.length_cons] at hf
      unfold muchnikSeq
      by_cases hmem : head ∈ done
      · rw [if_pos hmem]
        refine ih done rest ⟨h.zero, h.nodup, fun p hp => h.canon p (hp.imp_right fun x => by simp [x]),
          fun p hp => h.lev p (hp.imp_right fun x => by simp [x])⟩ (by omega)
      · rw [if_neg hmem]
        have hhead : head ≠ [] := by rintro rfl; exact hmem h.zero
        have hheadC : Canon head := h.canon _ (by simp)
        obtain ⟨remLe, hle1, -⟩ := mapM_ok (fun p => pseudoRem head p)
          (done.filter fun p => deg p ≤ deg head ∧ 0 < deg p) (by
            intro p hp
            simp only [List.mem_filter, decide_eq_true_eq] at hp
            obtain ⟨s, e, _⟩ := pseudoRem_spec (f := head) (ne_nil_of_deg hp.2.2) (h.canon p (Or.inl hp.1)) hheadC
            exact ⟨s, e⟩)
        obtain ⟨remGe, hge1, -⟩ := mapM_ok (fun p => pseudoRem p head)
          (done.filter fun p => deg head ≤ deg p ∧ 0 < deg p) (by
            intro p hp
            simp only [List.mem_filter, decide_eq_true_eq] at hp
            obtain ⟨s, e, _⟩ := pseudoRem_spec (g := head) hhead hheadC (h.canon p (Or.inl hp.1))
            exact ⟨s, e⟩)
        simp only [hle1, hge1, bind, Except.bind]
        have hcol : ∀ p, p ∈ ((if derivative head ≠ [] then
            (if pTail head ≠ [] then rest ++ [pTail head] else rest) ++ [derivative head]
            else (if pTail head ≠ [] then rest ++ [pTail head] else rest)) ++
            (remLe ++ remGe).filter fun p => p ≠ []) →
            p ∈ rest ∨ p = pTail head ∨ p = derivative head ∨ p ∈ remLe ∨ p ∈ remGe := by
          intro p hp
          rcases List.mem_append.1 hp with hp | hp
          · have h1 : p ∈ (if pTail head ≠ [] then rest ++ [pTail head] else rest) → p ∈ rest ∨ p = pTail head := by
              intro hp
              split at hp
              · rcases List.mem_append.1 hp with hp | hp
                · exact Or.inl hp
                · exact Or.inr (List.mem_singleton.1 hp)
              · exact Or.inl hp
            split at hp
            · rcases List.mem_append.1 hp with hp | hp
              · rcases h1 hp with h | h <;> tauto
              · have := List.mem_singleton.1 hp; tauto
            · rcases h1 hp with h | h <;> tauto
          · have := List.mem_append.1 (List.mem_filter.1 hp).1
            tauto
        have hlen : ((if derivative head ≠ [] then
            (if pTail head ≠ [] then rest ++ [pTail head] else rest) ++ [derivative head]
            else (if pTail head ≠ [] then rest ++ [pTail head] else rest)) ++
            (remLe ++ remGe).filter fun p => p ≠ []).length + 2 ≤ rest.length + 2 + 2 * done.length := by
          have e1 := mapM_length _ _ hle1
          have e2 := mapM_length _ _ hge1
          have e3 := filter_length_lt (p := fun p => decide (deg p ≤ deg head ∧ 0 < deg p)) h.zero (by simp [deg])
          have e4 := filter_length_lt (p := fun p => decide (deg head ≤ deg p ∧ 0 < deg p)) h.zero (by simp [deg])
          have e5 := List.length_filter_le (fun p => decide (p ≠ [])) (remLe ++ remGe)
          rw [List.length_append] at e5 ⊢
          have e6 : (if pTail head ≠ [] then rest ++ [pTail head] else rest).length ≤ rest.length + 1 := by
            split <;> simp
          have e7 : (if derivative head ≠ [] then
            (if pTail head ≠ [] then rest ++ [pTail head] else rest) ++ [derivative head]
            else (if pTail head ≠ [] then rest ++ [pTail head] else rest)).length ≤ rest.length + 2 := by
            split
            · rw [List.length_append, List.length_singleton]; omega
            · omega
          omega
        have hrem : ∀ {f g r : List R}, f ∈ done ∨ f = head → g ∈ done ∨ g = head → g ≠ [] → g.length ≤ f.length →
            pseudoRem f g = .ok r → Canon r ∧ (r ≠ [] → ∀ j, L + 1 ≤ r.length + j → r ∈ lev ps j) := by
          intro f g r hf hg hg0 hl hr
          have hf' : f ∈ done ∨ f ∈ head :: rest := hf.imp_right fun e => by simp [e]
          have hg' : g ∈ done ∨ g ∈ head :: rest := hg.imp_right fun e => by simp [e]
          have hf0 : f ≠ [] := by
            rintro rfl
            exact hg0 (List.length_eq_zero_iff.1 (by simpa using hl))
          obtain ⟨s, e1, e2, e3, -⟩ := pseudoRem_spec (f := f) hg0 (h.canon g hg') (h.canon f hf')
          rw [hr] at e1
          cases e1
          refine ⟨e2, fun hr0 j hj => ?_⟩
          cases j with
          | zero =>
            have := h.lev g hg' hg0 0 (by omega)
            simp [Verif.Qe.lev] at this
          | succ j =>
            have h1 := h.lev g hg' hg0 j (by omega)
            have h2 := h.lev f hf' hf0 j (by omega)
            rw [Verif.Qe.lev]
            refine Finset.mem_union_right _ (Finset.mem_union_right _ (Finset.mem_union_right _ ?_))
            refine Finset.mem_image₂.2 ⟨f, h2, g, h1, ?_⟩
            unfold remOr
            rw [hr]
            rfl
        have hone : ∀ {r : List R}, r.length ≤ head.length - 1 →
            (∀ j, head ∈ lev ps j → r ∈ lev ps (j + 1)) → r ≠ [] → ∀ j, L + 1 ≤ r.length + j → r ∈ lev ps j := by
          intro r hl hstep hr0 j hj
          have := List.length_pos_iff.2 hhead
          cases j with
          | zero =>
            have := h.lev head (by simp) hhead 0 (by omega)
            simp [Verif.Qe.lev] at this
          | succ j => exact hstep j (h.lev head (by simp) hhead j (by omega))
        have hfacts : ∀ p, (p ∈ rest ∨ p = pTail head ∨ p = derivative head ∨ p ∈ remLe ∨ p ∈ remGe) →
            Canon p ∧ (p ≠ [] → ∀ j, L + 1 ≤ p.length + j → p ∈ lev ps j) := by
          rintro p (hp | rfl | rfl | hp | hp)
          · exact ⟨h.canon p (by simp [hp]), h.lev p (by simp [hp])⟩
          · refine ⟨pTail_canon _, hone (pTail_length _) fun j hj => ?_⟩
            rw [Verif.Qe.lev]
            exact Finset.mem_union_right _ (Finset.mem_union_right _
              (Finset.mem_union_left _ (Finset.mem_image_of_mem _ hj)))
          · refine ⟨derivative_canon _, hone (derivative_length _) fun j hj => ?_⟩
            rw [Verif.Qe.lev]
            exact Finset.mem_union_right _ (Finset.mem_union_left _ (Finset.mem_image_of_mem _ hj))
          · obtain ⟨q, hq, e⟩ := mapM_mem _ _ hle1 p hp
            simp only [List.mem_filter, decide_eq_true_eq] at hq
            exact hrem (Or.inr rfl) (Or.inl hq.1) (ne_nil_of_deg hq.2.2) (length_le_of_deg hq.2.2 hq.2.1) e
          · obtain ⟨q, hq, e⟩ := mapM_mem _ _ hge1 p hp
            simp only [List.mem_filter, decide_eq_true_eq] at hq
            refine hrem (Or.inl hq.1) (Or.inr rfl) hhead ?_ e
            have := hq.2
            unfold deg at this
            omega
        have hinv : LevInv ps L (sortedAdd A head done) ((if derivative head ≠ [] then
            (if pTail head ≠ [] then rest ++ [pTail head] else rest) ++ [derivative head]
            else (if pTail head ≠ [] then rest ++ [pTail head] else rest)) ++
            (remLe ++ remGe).filter fun p => p ≠ []) := by
          have hboth : ∀ p, (p ∈ sortedAdd A head done ∨ p ∈ ((if derivative head ≠ [] then
            (if pTail head ≠ [] then rest ++ [pTail head] else rest) ++ [derivative head]
            else (if pTail head ≠ [] then rest ++ [pTail head] else rest)) ++
            (remLe ++ remGe).filter fun p => p ≠ [])) →
            Canon p ∧ (p ≠ [] → ∀ j, L + 1 ≤ p.length + j → p ∈ lev ps j) := by
            rintro p (hp | hp)
            · rcases (mem_sortedAdd A head p done).1 hp with rfl | hp
              · exact ⟨hheadC, h.lev _ (by simp)⟩
              · exact ⟨h.canon p (Or.inl hp), h.lev p (Or.inl hp)⟩
            · exact hfacts p (hcol p hp)
          exact ⟨(mem_sortedAdd A head [] done).2 (Or.inr h.zero), sortedAdd_nodup A _ _ h.nodup hmem,
            fun p hp => (hboth p hp).1, fun p hp => (hboth p hp).2⟩
        refine ih _ _ hinv ?_
        have hl1 := hinv.length
        have hl2 : (sortedAdd A head done).length = done.length + 1 := by
          have hperm : ∀ l : List (List R), (sortedAdd A head l).length = l.length + 1 := by
            intro l
            induction l with
            | nil => rfl
            | cons a l ih => unfold sortedAdd; split <;> simp [ih]
          exact hperm done
        rw [hl2] at hl1 ⊢
        have hsplit : (lev ps L).card + 1 - done.length = ((lev ps L).card + 1 - (done.length + 1)) + 1 := by omega
        rw [hsplit, Nat.add_mul, Nat.one_mul] at hf
        omega

end Verif.Qe
