import Verif.Qe.ChSize
import Verif.Qe.PropsDepth

/-!
# C116: size of the Cohen-Hörmander answer

`R`, the lists of coefficients, `poly` and `Normal` are as in `PropsMuchnik`; `fuel` is the permitted depth of the
recursion of `_real_table`.
-/

set_option linter.unusedSectionVars false

open Polynomial

namespace Verif.Qe

variable {R : Type} [CommRing R] [DecidableEq R]

/-- **C116**, the depth: for `n` polynomials of degree at most `d` in the eliminated variable, `real_full` ends within
`(n+1)^(2^(d+1))` nested calls of `_real_table`, with an answer or with an exception; nothing changes when more are
permitted. -/
theorem C116_depth (A : MAlg R) (h0 : A.hasVar 0 = false) (lesser eqs greater : List (List R))
    (hn : ∀ p ∈ lesser ++ eqs ++ greater, Normal p) (n d : ℕ) (hlen : lesser.length + eqs.length + greater.length = n)
    (hd : ∀ p ∈ lesser ++ eqs ++ greater, (poly p).natDegree ≤ d) :
    ∃ out : Except QErr (List (List R × List R × List R)), out ≠ .error .outOfFuel ∧
      ∀ fuel ≥ (n + 1) ^ 2 ^ (d + 1), chFull A fuel lesser eqs greater = out := by
  have hl : (lesser ++ eqs ++ greater).length = n := by simp only [List.length_append]; omega
  have hT : NF (realTable A ((n + 1) ^ 2 ^ (d + 1)) (lesser ++ eqs ++ greater) []) := by
    refine nf_realTable_card (lv_closed (lesser ++ eqs ++ greater) (d + 1)) (lev (lesser ++ eqs ++ greater) (d + 1))
      (fun p hp h => lv_mem hp h) h0 _ _ _ (lv_input fun p hp => length_le_of_natDegree (hn p hp) (hd p hp))
      ⟨List.nodup_nil, by simp⟩ (Or.inr (Nat.one_le_pow _ _ (by omega))) ?_
    have h1 := lev_card (lesser ++ eqs ++ greater) (d + 1)
    rw [hl] at h1
    have h2 : (reach (lev (lesser ++ eqs ++ greater) (d + 1)) (lesser ++ eqs ++ greater)).card ≤
        (lev (lesser ++ eqs ++ greater) (d + 1)).card := Finset.card_le_card (Finset.filter_subset _ _)
    omega
  refine ⟨chFull A ((n + 1) ^ 2 ^ (d + 1)) lesser eqs greater, ?_, ?_⟩
  · unfold chFull
    refine nf_bind hT fun ts _ => nf_bind (nf_filterM _ fun t _ => nf_chGood _ _ _ _) fun _ _ => nf_ok _
  · intro fuel hf
    unfold chFull
    rw [realTable_stable A _ _ _ hT fuel hf]

theorem three_parts (c : Ctx R) : ((c.filter fun e => e.2 = -1).map Prod.fst).length +
    ((c.filter fun e => e.2 = 0).map Prod.fst).length + ((c.filter fun e => e.2 = 1).map Prod.fst).length ≤ c.length := by
  simp only [List.length_map]
  induction c with
  | nil => simp
  | cons e c ih =>
    rcases Decidable.em (e.2 = -1) with h | h
    · simp [h] at ih ⊢; omega
    · rcases Decidable.em (e.2 = 0) with h' | h'
      · simp [h'] at ih ⊢; omega
      · rcases Decidable.em (e.2 = 1) with h'' | h''
        · simp [h''] at ih ⊢; omega
        · simp [h, h', h''] at ih ⊢; omega

/-- **C116**, the answer: at most `3^((n+1)^(2^(d+1)))` conjunctions are returned, each with less than
`(n+1)^(2^(d+1)) - n` conditions. -/
theorem C116_answer (A : MAlg R) (h0 : A.hasVar 0 = false) (lesser eqs greater : List (List R))
    (hn : ∀ p ∈ lesser ++ eqs ++ greater, Normal p) (n d : ℕ) (hlen : lesser.length + eqs.length + greater.length = n)
    (hd : ∀ p ∈ lesser ++ eqs ++ greater, (poly p).natDegree ≤ d) (fuel : ℕ) (out : List (List R × List R × List R))
    (h : chFull A fuel lesser eqs greater = .ok out) :
    out.length ≤ 3 ^ ((n + 1) ^ 2 ^ (d + 1)) ∧
      ∀ z ∈ out, z.1.length + z.2.1.length + z.2.2.length + n < (n + 1) ^ 2 ^ (d + 1) := by
  have hl : (lesser ++ eqs ++ greater).length = n := by simp only [List.length_append]; omega
  have hcard := lev_card (lesser ++ eqs ++ greater) (d + 1)
  rw [hl] at hcard
  unfold chFull at h
  simp only [bind, Except.bind] at h
  split at h
  · cases h
  · next ts hts =>
    split at h
    · cases h
    · next good hgood =>
      cases h
      have hsub := filterM_sublist hgood
      have hsp := realTable_spread A _ _ _ _ (by intro k s hk; simp [dGet] at hk) hts
      have hk := realTable_keys (lv_closed (lesser ++ eqs ++ greater) (d + 1)) h0 _ _ [] _
        (lv_input fun p hp => length_le_of_natDegree (hn p hp) (hd p hp)) ⟨List.nodup_nil, by simp⟩ hts
      have hK : ∀ t ∈ ts, ∀ k ∈ t.2.map Prod.fst, k ∈ (lev (lesser ++ eqs ++ greater) (d + 1)).image lc := by
        intro t ht k hk'
        obtain ⟨q, hq, hP, rfl⟩ := (hk t ht).2 k hk'
        exact Finset.mem_image_of_mem _ (lv_mem hq hP)
      have hKc : ((lev (lesser ++ eqs ++ greater) (d + 1)).image lc).card ≤ (lev (lesser ++ eqs ++ greater) (d + 1)).card :=
        Finset.card_image_le
      refine ⟨?_, ?_⟩
      · rw [List.length_map]
        refine hsub.length_le.trans ?_
        have := apart_count _ (ts.map Prod.snd) (fun z hz => (hsp.1 z hz).2) (by
          intro z hz k hk'
          obtain ⟨t, ht, rfl⟩ := List.mem_map.1 hz
          exact hK t ht k hk') hsp.2
        rw [List.length_map] at this
        exact this.trans (Nat.pow_le_pow_right (by omega) (by omega))
      · intro z hz
        obtain ⟨t, ht, rfl⟩ := List.mem_map.1 hz
        have ht' := hsub.subset ht
        have h1 := three_parts t.2
        have h2 : (t.2.map Prod.fst).toFinset.card ≤ ((lev (lesser ++ eqs ++ greater) (d + 1)).image lc).card :=
          Finset.card_le_card fun k hk' => hK t ht' k (List.mem_toFinset.1 hk')
        rw [List.toFinset_card_of_nodup (hk t ht').1, List.length_map] at h2
        dsimp only
        omega

-- C116: `x² + y x + y = 0 ∧ x > 0`: twelve conjunctions of three conditions each
example : ZY.alg.hasVar 0 = false ∧ (∀ p ∈ [] ++ [[ZY.y, ZY.y, 1]] ++ [[0, 1]], (poly p).natDegree ≤ 2) ∧
    (∀ p ∈ [] ++ [[ZY.y, ZY.y, 1]] ++ [[(0 : ZY), 1]], Normal p) ∧
    (chFull ZY.alg 81 [] [[ZY.y, ZY.y, 1]] [[0, 1]]).toOption.map
      (fun o => o.map fun z => z.1.length + z.2.1.length + z.2.2.length) = some (List.replicate 12 3) := by
  refine ⟨rfl, fun p hp => ?_, fun p hp h => ?_, by decide +kernel⟩
  · simp only [List.nil_append, List.singleton_append, List.mem_cons, List.not_mem_nil, or_false] at hp
    rcases hp with rfl | rfl <;> exact natDegree_le_len (by decide)
  · simp only [List.nil_append, List.singleton_append, List.mem_cons, List.not_mem_nil, or_false] at hp
    rcases hp with rfl | rfl <;> simp

end Verif.Qe
