import Verif.Qe.SizeLemmas
import Verif.Qe.PropsMuchnikReal
import Verif.Qe.ZPoly

/-!
# C93, C94: size and depth of the Muchnik procedure

`R`, the lists of coefficients, `poly` and `Normal` are as in `PropsMuchnik`; `fuel` is the permitted depth of the
recursion of `muchnik_sequence`, which calls itself once for every polynomial it takes from its list.
-/

set_option linter.unusedSectionVars false

open Polynomial

namespace Verif.Qe

variable {R : Type} [CommRing R] [DecidableEq R]

theorem realFull_of_seq (A : MAlg R) {fuel fuel' : ℕ} {ls es gs : List (List R)}
    (h : muchnikSeq A fuel [[]] (ls ++ es ++ gs) = muchnikSeq A fuel' [[]] (ls ++ es ++ gs)) :
    realFull A fuel ls es gs = realFull A fuel' ls es gs := by
  unfold realFull
  rw [h]

theorem complexFull_of_seq (A : MAlg R) {fuel fuel' : ℕ} {es ns : List (List R)}
    (h : muchnikSeq A fuel [[]] (es ++ ns) = muchnikSeq A fuel' [[]] (es ++ ns)) :
    complexFull A fuel es ns = complexFull A fuel' es ns := by
  unfold complexFull
  rw [h]

theorem realFull_seq {A : MAlg R} {fuel : ℕ} {ls es gs : List (List R)}
    {out : QOut (List (List R) × List (List R) × List (List R))} (h : realFull A fuel ls es gs = .ok out) :
    ∃ S, muchnikSeq A fuel [[]] (ls ++ es ++ gs) = .ok S := by
  cases hS : muchnikSeq A fuel [[]] (ls ++ es ++ gs) with
  | error e =>
    unfold realFull at h
    rw [hS] at h
    cases h
  | ok S => exact ⟨S, rfl⟩

theorem complexFull_seq {A : MAlg R} {fuel : ℕ} {es ns : List (List R)} {out : QOut (List (List R) × List (List R))}
    (h : complexFull A fuel es ns = .ok out) : ∃ S, muchnikSeq A fuel [[]] (es ++ ns) = .ok S := by
  cases hS : muchnikSeq A fuel [[]] (es ++ ns) with
  | error e =>
    unfold complexFull at h
    rw [hS] at h
    cases h
  | ok S => exact ⟨S, rfl⟩

/-! ### C93 -/

/-- **C93**, the family: from `n` polynomials of degree at most `d`, recursion to the depth `n + 2 * (n+1)^(2^(d+2))`
suffices, and the family has at most `(n+1)^(2^(d+1)) - n` members. -/
theorem C93_closure [IsDomain R] (A : MAlg R) (ps : List (List R)) (hps : ∀ p ∈ ps, Normal p) (d : ℕ)
    (hd : ∀ p ∈ ps, (poly p).natDegree ≤ d) :
    ∃ S, (∀ fuel ≥ ps.length + 2 * (ps.length + 1) ^ 2 ^ (d + 2), muchnikSeq A fuel [[]] ps = .ok S) ∧
      S.length + ps.length ≤ (ps.length + 1) ^ 2 ^ (d + 1) := by
  have hcard := lev_card ps (d + 1)
  have hinv : LevInv ps (d + 1) [[]] ps := by
    refine ⟨by simp, by simp, ?_, ?_⟩
    · rintro p (hp | hp)
      · rw [List.mem_singleton.1 hp]; exact canon_nil
      · exact canon_of_normal (hps p hp)
    · rintro p (hp | hp) hne j hj
      · exact absurd (List.mem_singleton.1 hp) hne
      · have h1 := hd p hp
        rw [poly_eq, natDegree_toPoly (canon_of_normal (hps p hp))] at h1
        unfold deg at h1
        obtain ⟨i, rfl⟩ : ∃ i, j = i + 1 := ⟨j - 1, by omega⟩
        rw [lev]
        exact Finset.mem_union_left _ (List.mem_toFinset.2 hp)
  have hle : ps.length + ((lev ps (d + 1)).card + 1 - [([] : List R)].length) * (2 * (lev ps (d + 1)).card) ≤
      ps.length + 2 * (ps.length + 1) ^ 2 ^ (d + 2) := by
    rw [List.length_singleton, Nat.add_sub_cancel, pow_succ 2 (d + 1), pow_mul]
    have : (lev ps (d + 1)).card ≤ (ps.length + 1) ^ 2 ^ (d + 1) := by omega
    have := Nat.mul_le_mul this this
    rw [pow_two]
    linarith
  obtain ⟨S, h1, h2⟩ := muchnikSeq_size A ps (d + 1) _ [[]] ps hinv hle
  exact ⟨S, fun fuel hf => muchnikSeq_mono A _ fuel hf _ _ _ h1, by omega⟩

/-- **C93**, the answer over the reals: the same depth suffices for `real_full`, and at most `3^((n+1)^(2^(d+1)))`
conjunctions are returned. -/
theorem C93_real [IsDomain R] (A : MAlg R) (hsign : ∀ c, A.sign c = -1 ∨ A.sign c = 0 ∨ A.sign c = 1)
    (lesser eqs greater : List (List R)) (hn : ∀ p ∈ lesser ++ eqs ++ greater, Normal p) (n d : ℕ)
    (hlen : (lesser ++ eqs ++ greater).length = n) (hd : ∀ p ∈ lesser ++ eqs ++ greater, (poly p).natDegree ≤ d) :
    ∃ out, (∀ fuel ≥ n + 2 * (n + 1) ^ 2 ^ (d + 2), realFull A fuel lesser eqs greater = .ok out) ∧
      out.ret.length ≤ 3 ^ (n + 1) ^ 2 ^ (d + 1) := by
  subst hlen
  obtain ⟨S, h1, h2⟩ := C93_closure A _ hn d hd
  obtain ⟨N, S', ret0, h3, -, -, -, h4, -⟩ :=
    realFull_spec.{0} A hsign lesser eqs greater fun p hp => canon_of_normal (hn p hp)
  set B := (lesser ++ eqs ++ greater).length + 2 * ((lesser ++ eqs ++ greater).length + 1) ^ 2 ^ (d + 2) with hB
  obtain ⟨h5, h6⟩ := h3 (max N B) (le_max_left _ _)
  have hSS : S' = S := by
    have := h1 (max N B) (le_max_right _ _)
    rw [h5] at this
    cases this; rfl
  subst hSS
  refine ⟨_, fun fuel hf => (realFull_of_seq A ((h1 fuel hf).trans h5.symm)).trans h6, ?_⟩
  refine (List.length_filter_le _ _).trans (h4.1.trans (Nat.pow_le_pow_right (by norm_num) ?_))
  have : (varFragOf A S').length ≤ S'.length := by
    unfold varFragOf
    exact (List.length_filter_le _ _).trans (List.length_filter_le _ _)
  omega

/-- **C93**, the answer over the complex numbers: with `2` instead of `3`. -/
theorem C93_complex [IsDomain R] (A : MAlg R) (eqs neqs : List (List R)) (hn : ∀ p ∈ eqs ++ neqs, Normal p) (n d : ℕ)
    (hlen : (eqs ++ neqs).length = n) (hd : ∀ p ∈ eqs ++ neqs, (poly p).natDegree ≤ d) :
    ∃ out, (∀ fuel ≥ n + 2 * (n + 1) ^ 2 ^ (d + 2), complexFull A fuel eqs neqs = .ok out) ∧
      out.ret.length ≤ 2 ^ (n + 1) ^ 2 ^ (d + 1) := by
  subst hlen
  obtain ⟨S, h1, h2⟩ := C93_closure A _ hn d hd
  obtain ⟨N, S', ret0, h3, -, -, -, h4, -⟩ :=
    complexFull_spec.{0} A eqs neqs fun p hp => canon_of_normal (hn p hp)
  set B := (eqs ++ neqs).length + 2 * ((eqs ++ neqs).length + 1) ^ 2 ^ (d + 2) with hB
  obtain ⟨h5, h6⟩ := h3 (max N B) (le_max_left _ _)
  have hSS : S' = S := by
    have := h1 (max N B) (le_max_right _ _)
    rw [h5] at this
    cases this; rfl
  subst hSS
  refine ⟨_, fun fuel hf => (complexFull_of_seq A ((h1 fuel hf).trans h5.symm)).trans h6, ?_⟩
  refine (List.length_filter_le _ _).trans (h4.1.trans (Nat.pow_le_pow_right (by norm_num) ?_))
  have : (varFragOf A S').length ≤ S'.length := by
    unfold varFragOf
    exact (List.length_filter_le _ _).trans (List.length_filter_le _ _)
  omega

-- C93: `x² + y = 0, x + y > 0` meets the hypotheses with `n = d = 2`
example : (∀ p ∈ [] ++ [[ZY.y, 0, 1]] ++ [[ZY.y, 1]], Normal p) ∧ ([] ++ [[ZY.y, 0, 1]] ++ [[ZY.y, 1]]).length = 2 ∧
    (∀ p ∈ [] ++ [[ZY.y, 0, 1]] ++ [[ZY.y, 1]], (poly p).natDegree ≤ 2) ∧
    ∀ c, ZY.alg.sign c = -1 ∨ ZY.alg.sign c = 0 ∨ ZY.alg.sign c = 1 := by
  refine ⟨?_, rfl, ?_, fun c => ?_⟩
  · intro p hp h
    simp only [List.nil_append, List.singleton_append, List.mem_cons, List.not_mem_nil, or_false] at hp
    rcases hp with rfl | rfl <;> simp
  · intro p hp
    simp only [List.nil_append, List.singleton_append, List.mem_cons, List.not_mem_nil, or_false] at hp
    rcases hp with rfl | rfl <;> rw [poly_eq] <;> exact (natDegree_le_length _).trans (by decide)
  · simp only [ZY.alg]
    rcases Int.sign_trichotomy (c.coeffs.headD 0) with h | h | h <;> rw [h] <;> decide

/-! ### C94 -/

theorem sortedAdd_length (A : MAlg R) (p : List R) (l : List (List R)) : (sortedAdd A p l).length ≤ l.length + 1 := by
  induction l with
  | nil => simp [sortedAdd]
  | cons q l ih =>
    unfold sortedAdd
    split
    · simp
    · simpa using ih

theorem derivative_length_eq [IsDomain R] [CharZero R] {p : List R} (hp : Canon p) :
    (derivative p).length = p.length - 1 := by
  have hle := derivative_length p
  by_cases hd : 0 < deg p
  · have h4 : toPoly (derivative p) ≠ 0 := by
      rw [toPoly_derivative]
      intro h
      have := Polynomial.derivative_eq_zero.1 h
      rw [natDegree_toPoly hp] at this
      omega
    have h5 : derivative p ≠ [] := fun h => h4 (by rw [h]; rfl)
    have h6 := natDegree_toPoly (derivative_canon p)
    rw [toPoly_derivative, Polynomial.natDegree_derivative, natDegree_toPoly hp] at h6
    have := List.length_pos_iff.2 h5
    unfold deg at h6 hd
    omega
  · unfold deg at hd
    omega

theorem muchnikSeq_length (A : MAlg R) : ∀ (fuel : ℕ) (done todo S : List (List R)),
    muchnikSeq A fuel done todo = .ok S → S.length ≤ done.length + fuel := by
  intro fuel
  induction fuel with
  | zero =>
    intro done todo S h
    cases todo with
    | nil => unfold muchnikSeq at h; cases h; simp
    | cons a l => unfold muchnikSeq at h; cases h
  | succ fuel ih =>
    intro done todo S h
    cases todo with
    | nil => unfold muchnikSeq at h; cases h; omega
    | cons head rest =>
      unfold muchnikSeq at h
      split at h
      · have := ih _ _ _ h; omega
      · simp only [bind, Except.bind] at h
        split at h
        · cases h
        · split at h
          · cases h
          · have := ih _ _ _ h
            have := sortedAdd_length A head done
            omega

theorem muchnikSeq_below (A : MAlg R) : ∀ (fuel fuel' : ℕ), fuel ≤ fuel' → ∀ (done todo S : List (List R)),
    muchnikSeq A fuel' done todo = .ok S →
      muchnikSeq A fuel done todo = .ok S ∨ muchnikSeq A fuel done todo = .error .outOfFuel := by
  intro fuel
  induction fuel with
  | zero =>
    intro fuel' _ done todo S h
    cases todo with
    | nil => left; unfold muchnikSeq at h ⊢; cases fuel' <;> exact h
    | cons a l => right; unfold muchnikSeq; rfl
  | succ fuel ih =>
    intro fuel' hf done todo S h
    obtain ⟨f, rfl⟩ : ∃ f, fuel' = f + 1 := ⟨fuel' - 1, by omega⟩
    cases todo with
    | nil => left; unfold muchnikSeq at h ⊢; exact h
    | cons head rest =>
      unfold muchnikSeq at h ⊢
      split at h
      · next hm => rw [if_pos hm]; exact ih f (by omega) _ _ _ h
      · next hm =>
        rw [if_neg hm]
        simp only [bind, Except.bind] at h ⊢
        split at h
        · cases h
        · split at h
          · cases h
          · exact ih f (by omega) _ _ _ h

/-- the family has members of all smaller degrees -/
theorem closure_degrees [IsDomain R] [CharZero R] {S : List (List R)} (hS : SeqInv S []) : ∀ (n : ℕ) (p : List R), p ∈ S →
    p.length = n → ∀ k ≤ n, ∃ q ∈ S, q.length = k := by
  intro n
  induction n with
  | zero => intro p hp hl k hk; exact ⟨p, hp, by omega⟩
  | succ n ih =>
    intro p hp hl k hk
    rcases Nat.lt_or_ge n k with h | h
    · exact ⟨p, hp, by omega⟩
    · refine ih (derivative p) ?_ ?_ k h
      · rcases hS.der p hp with h | h
        · exact h
        · simp at h
      · rw [derivative_length_eq (hS.canon p hp), hl]; rfl

theorem closure_length [IsDomain R] [CharZero R] {S : List (List R)} (hS : SeqInv S []) {p : List R} (hp : p ∈ S) :
    p.length + 1 ≤ S.length := by
  have h : Finset.range (p.length + 1) ⊆ (S.map List.length).toFinset := by
    intro k hk
    rw [Finset.mem_range] at hk
    obtain ⟨q, hq, e⟩ := closure_degrees hS p.length p hp rfl k (by omega)
    rw [List.mem_toFinset, List.mem_map]
    exact ⟨q, hq, e⟩
  have := (Finset.card_le_card h).trans (List.toFinset_card_le _)
  rw [Finset.card_range, List.length_map] at this
  exact this

theorem muchnikSeq_deep [IsDomain R] [CharZero R] (A : MAlg R) (ps : List (List R)) (hps : ∀ p ∈ ps, Normal p)
    (fuel : ℕ) (p : List R) (hp : p ∈ ps) (hf : fuel ≤ (poly p).natDegree) (h0 : p ≠ []) :
    muchnikSeq A fuel [[]] ps = .error .outOfFuel := by
  obtain ⟨N, S, h1, hS, h3⟩ := muchnikSeq_total A ps fun p hp => canon_of_normal (hps p hp)
  rcases muchnikSeq_below A fuel (max N fuel) (le_max_right _ _) _ _ _ (h1 _ (le_max_left _ _)) with h | h
  · have h4 := muchnikSeq_length A _ _ _ _ h
    have h5 := closure_length hS (h3 p hp)
    rw [poly_eq, natDegree_toPoly (canon_of_normal (hps p hp))] at hf
    unfold deg at hf
    have := List.length_pos_iff.2 h0
    simp only [List.length_singleton] at h4
    omega
  · exact h

/-- **C94** is violated: whatever depth of recursion is permitted, neither `real_full` nor `complex_full` answers when
some nonzero polynomial of the input has at least that degree. (In Python the default is 1000, from which the frames of
the callers have to be subtracted.) -/
theorem C94_violated [IsDomain R] [CharZero R] (A : MAlg R) (limit : ℕ) (p : List R) (h0 : p ≠ [])
    (hdeg : limit ≤ (poly p).natDegree) :
    (∀ lesser eqs greater : List (List R), (∀ q ∈ lesser ++ eqs ++ greater, Normal q) → p ∈ lesser ++ eqs ++ greater →
      realFull A limit lesser eqs greater = .error .outOfFuel) ∧
    ∀ eqs neqs : List (List R), (∀ q ∈ eqs ++ neqs, Normal q) → p ∈ eqs ++ neqs →
      complexFull A limit eqs neqs = .error .outOfFuel := by
  refine ⟨fun ls es gs hn hp => ?_, fun es ns hn hp => ?_⟩
  · unfold realFull
    rw [muchnikSeq_deep A _ hn limit p hp hdeg h0]
    rfl
  · unfold complexFull
    rw [muchnikSeq_deep A _ hn limit p hp hdeg h0]
    rfl

-- C94: `x¹⁰⁰⁰`
example : Normal (List.replicate 1000 (0 : ℤ) ++ [1]) ∧ (List.replicate 1000 (0 : ℤ) ++ [1]) ≠ [] ∧
    1000 ≤ (poly (List.replicate 1000 (0 : ℤ) ++ [1])).natDegree := by
  have h : Normal (List.replicate 1000 (0 : ℤ) ++ [1]) := by
    intro h
    rw [List.getLast_append_of_ne_nil _ (by simp)]
    simp
  refine ⟨h, List.append_ne_nil_of_right_ne_nil _ (List.cons_ne_nil _ _), ?_⟩
  rw [poly_eq, natDegree_toPoly (canon_of_normal h), deg, List.length_append, List.length_replicate]
  simp

/-- What holds instead of **C94**: the depth reached is bounded by the number and the degree of the polynomials (missing:
the bound is doubly exponential in the degree, and not 1000). -/
theorem C94_partial [IsDomain R] (A : MAlg R) (ps : List (List R)) (hps : ∀ p ∈ ps, Normal p) (d limit : ℕ)
    (hd : ∀ p ∈ ps, (poly p).natDegree ≤ d) (hl : ps.length + 2 * (ps.length + 1) ^ 2 ^ (d + 2) ≤ limit) :
    muchnikSeq A limit [[]] ps ≠ .error .outOfFuel := by
  obtain ⟨S, h, -⟩ := C93_closure A ps hps d hd
  rw [h limit hl]
  exact fun h => by cases h

-- C94_partial: two linear polynomials, with a limit of 15000
example : ∀ p ∈ [[(-1 : ℤ), 2], [3, 1]], (poly p).natDegree ≤ 1 := by
  intro p hp
  simp only [List.mem_cons, List.not_mem_nil, or_false] at hp
  rcases hp with rfl | rfl <;> rw [poly_eq] <;> exact (natDegree_le_length _).trans (by decide)

example : [[(-1 : ℤ), 2], [3, 1]].length + 2 * ([[(-1 : ℤ), 2], [3, 1]].length + 1) ^ 2 ^ (1 + 2) ≤ 15000 := by decide

end Verif.Qe
