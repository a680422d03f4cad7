import Verif.Qe.PartialLemmas
import Verif.Qe.PropsMuchnik
import Verif.Qe.PropsMuchnikReal
import Verif.Qe.PropsCohenHormander

/-!
# C69, C70: the partial Muchnik procedures

`complex_partial` and `real_partial` build the diagram of one assignment of values to the coefficients that
contain parameters, among others values typed in by the user. `typed allowed lines` are the lines typed in that
the prompt accepts.
-/

set_option linter.unusedSectionVars false

open Polynomial Verif.Alg

namespace Verif.Qe

variable {R : Type} [CommRing R] [DecidableEq R]

/-- The answers among the lines typed in that a prompt accepts; the others are asked again. -/
def typed (allowed : List (String × ℤ)) (lines : List String) : List ℤ := lines.filterMap (allowed.lookup ·)

/-- The coefficients the user is asked for, in the order of the sequence `S`. -/
def asked (A : MAlg R) (S : List (List R)) : List (List R) :=
  S.filter fun q => decide (q.length ≤ 1) && (match q with | [] => false | c :: _ => A.hasVar c)

/-- The diagram `D` shows exactly the zero patterns of the members of `S` at the parameters `φ`: column 0 is the
generic point, the columns `1, ..., n-1` are different points `r i`, all the roots of the nonzero members are among
them, and each of them is such a root. -/
def ZeroPattern {K : Type} [Field K] [DecidableEq K] (φ : R →+* K) (S : List (List R)) (D : Diagram R ℕ) : Prop :=
  ∃ (n : ℕ) (r : ℕ → K), 1 ≤ n ∧
    (∀ i j, 1 ≤ i → i < n → 1 ≤ j → j < n → r i = r j → i = j) ∧
    (∀ q ∈ S, ((dRow D q).map Prod.fst).Nodup ∧ ∀ i, i ∈ (dRow D q).map Prod.fst ↔ i < n) ∧
    (∀ q ∈ S, ∃ v, dRead D q 0 = .ok v ∧ (v = 0 ∨ v = 1) ∧ (v = 0 ↔ ∀ x, value φ q x = 0)) ∧
    (∀ q ∈ S, ∀ i, 1 ≤ i → i < n → dRead D q i = .ok (if value φ q (r i) = 0 then 0 else 1)) ∧
    (∀ q ∈ S, (∃ y, value φ q y ≠ 0) → ∀ x, value φ q x = 0 → ∃ i, 1 ≤ i ∧ i < n ∧ r i = x) ∧
    (∀ i, 1 ≤ i → i < n → ∃ q ∈ S, (∃ y, value φ q y ≠ 0) ∧ value φ q (r i) = 0)

/-- The columns of `D` in increasing order are the signs of the members of `S` at `-∞`, before the first root, at
the first root, ..., after the last root, at `+∞`, at the parameters `φ`. -/
def SignPattern {K : Type} [Field K] [LinearOrder K] (φ : R →+* K) (S : List (List R)) (D : Diagram R ℚ) : Prop :=
  ∃ (cols : List ℚ) (xs : List K),
    cols.length = 2 * xs.length + 3 ∧ cols.Pairwise (· < ·) ∧ xs.Pairwise (· < ·) ∧
    (∀ q ∈ S, ((dRow D q).map Prod.fst).Nodup ∧ ∀ i, i ∈ (dRow D q).map Prod.fst ↔ i ∈ cols) ∧
    (∀ x, x ∈ xs ↔ ∃ q ∈ S, (∃ y, value φ q y ≠ 0) ∧ value φ q x = 0) ∧
    (∃ M, ∀ q ∈ S, ∀ x < M, dRead D q (cols.getD 0 0) = .ok (signZ (value φ q x))) ∧
    (∀ i ≤ xs.length, ∀ x, (∀ y ∈ xs.take i, y < x) → (∀ y ∈ xs.drop i, x < y) →
      ∀ q ∈ S, dRead D q (cols.getD (2 * i + 1) 0) = .ok (signZ (value φ q x))) ∧
    (∀ i < xs.length, ∀ q ∈ S,
      dRead D q (cols.getD (2 * i + 2) 0) = .ok (signZ (value φ q (xs.getD i 0)))) ∧
    (∃ M, ∀ q ∈ S, ∀ x > M,
      dRead D q (cols.getD (2 * xs.length + 2) 0) = .ok (signZ (value φ q x)))

/-- The lines accepted by the prompt of the complex procedure. -/
def answers01 : List (String × ℤ) := [("0", 0), ("1", 1)]

/-- The lines accepted by the prompt of the real procedure. -/
def answersSign : List (String × ℤ) := [("-1", -1), ("0", 0), ("1", 1)]

theorem asked_eq (A : MAlg R) (S : List (List R)) :
    asked A S = (S.filter fun p => isConst p).filter fun c => hasVariable A c := by
  unfold asked
  rw [List.filter_filter]
  apply List.filter_congr
  intro q _
  unfold isConst hasVariable
  cases q <;> simp [Bool.and_comm]

/-- The two totality statements speak about the same sequence. -/
theorem seq_unique {A : MAlg R} {ps S S' : List (List R)} {N N' : ℕ}
    (h : ∀ fuel ≥ N, muchnikSeq A fuel [[]] ps = .ok S) (h' : ∀ fuel ≥ N', muchnikSeq A fuel [[]] ps = .ok S') :
    S = S' := by
  have e := (h (max N N') (le_max_left _ _)).symm.trans (h' (max N N') (le_max_right _ _))
  injection e

/-- The extension of a diagram with a row for each constant. -/
theorem zeroPattern_of_map [IsDomain R] (A : MAlg R) (ps : List (List R)) (hps : ∀ p ∈ ps, Normal p) :
    ∃ (N : ℕ) (S : List (List R)), (∀ fuel ≥ N, muchnikSeq A fuel [[]] ps = .ok S) ∧ S.Nodup ∧
      ∀ {K : Type} [Field K] [CharZero K] [IsAlgClosed K] [DecidableEq K] (φ : R →+* K) (g : List R → ℤ),
        (∀ q ∈ S, q.length ≤ 1 → g q = if φ (q.headD 0) = 0 then 0 else 1) →
        ∃ D, complexExtend A ((S.filter fun p => isConst p).map fun c => (c, [(0, g c)]))
          (S.filter fun p => !isConst p) = .ok D ∧ ZeroPattern φ S D := by
  obtain ⟨N, S, h1, h2⟩ := C25_complex_diagram A ps hps
  obtain ⟨N', S', h1', hS, -⟩ := muchnikSeq_total A ps fun p hp => canon_of_normal (hps p hp)
  obtain rfl := seq_unique h1 h1'
  refine ⟨N, S, h1, hS.nodup, ?_⟩
  intro K _ _ _ _ φ g hg
  obtain ⟨D, n, r, h, h'⟩ := h2 φ ((S.filter fun p => isConst p).map fun c => (c, [(0, g c)])) (by
      intro q; simp [isConst, List.mem_filter]) (by
      intro q hq hl
      rw [dRow_map (fun c => [(0, g c)]) _ q (by simp [isConst, hq, hl]), hg q hq hl])
  exact ⟨D, h, n, r, h'⟩

/-- The extension of a diagram with a row of three columns for each constant. -/
theorem signPattern_of_map [IsDomain R] (A : MAlg R) (ps : List (List R)) (hps : ∀ p ∈ ps, Normal p) :
    ∃ (N : ℕ) (S : List (List R)), (∀ fuel ≥ N, muchnikSeq A fuel [[]] ps = .ok S) ∧ S.Nodup ∧
      ∀ {K : Type} [Field K] [LinearOrder K] [IsStrictOrderedRing K] [PolyIVT K] (φ : R →+* K) (g : List R → ℤ),
        (∀ q ∈ S, q.length ≤ 1 → g q = signZ (φ (q.headD 0))) →
        ∃ D, realExtend A ((S.filter fun p => isConst p).map fun c => (c, [(0, g c), (1/2, g c), (1, g c)]))
          (S.filter fun p => !isConst p) = .ok D ∧ SignPattern φ S D := by
  obtain ⟨N, S, h1, h2⟩ := C24_real_diagram A ps hps
  obtain ⟨N', S', h1', hS, -⟩ := muchnikSeq_total A ps fun p hp => canon_of_normal (hps p hp)
  obtain rfl := seq_unique h1 h1'
  refine ⟨N, S, h1, hS.nodup, ?_⟩
  intro K _ _ _ _ φ g hg
  obtain ⟨D, cols, xs, h, h'⟩ :=
    h2 φ ((S.filter fun p => isConst p).map fun c => (c, [(0, g c), (1/2, g c), (1, g c)])) (by
      intro q; simp [isConst, List.mem_filter]) (by
      intro q hq hl
      rw [dRow_map (fun c => [((0 : ℚ), g c), (1/2, g c), (1, g c)]) _ q (by simp [isConst, hq, hl]), hg q hq hl])
  exact ⟨D, h, cols, xs, h'⟩

theorem seq_nodup {A : MAlg R} [IsDomain R] {ps S : List (List R)} {N : ℕ} (hps : ∀ p ∈ ps, Normal p)
    (h : ∀ fuel ≥ N, muchnikSeq A fuel [[]] ps = .ok S) : S.Nodup := by
  obtain ⟨N', S', h1', hS, -⟩ := muchnikSeq_total A ps fun p hp => canon_of_normal (hps p hp)
  obtain rfl := seq_unique h h1'
  exact hS.nodup

theorem mem_zip_fst {α β : Type} {a : α} : ∀ {l : List α} {m : List β}, l.length ≤ m.length → a ∈ l →
    ∃ b, (a, b) ∈ l.zip m
  | [], _, _, h => by simp at h
  | x :: l, [], hl, _ => by simp at hl
  | x :: l, y :: m, hl, h => by
    rcases List.mem_cons.1 h with rfl | h
    · exact ⟨y, by simp⟩
    · obtain ⟨b, hb⟩ := mem_zip_fst (l := l) (m := m) (by simpa using hl) h
      exact ⟨b, by simp [hb]⟩

theorem hasVariable_asked {A : MAlg R} {S : List (List R)} {q : List R} (hq : q ∈ S) (hl : q.length ≤ 1)
    (hv : hasVariable A q = true) : q ∈ asked A S := by
  rw [asked_eq]; simp [isConst, hq, hl, hv]

/-- The value of a coefficient without parameters. -/
theorem scalar_value [IsDomain R] {A : MAlg R} {ps S : List (List R)} {N : ℕ} (hps : ∀ p ∈ ps, Normal p)
    (h : ∀ fuel ≥ N, muchnikSeq A fuel [[]] ps = .ok S) {K : Type} [Field K] [DecidableEq K] {φ : R →+* K}
    (hsc : ScalarsNonzero A φ) {q : List R} (hq : q ∈ S) (hl : q.length ≤ 1) (hv : ¬ hasVariable A q = true) :
    (if q = [] then 0 else 1 : ℤ) = if φ (q.headD 0) = 0 then 0 else 1 := by
  obtain ⟨N', S', h1', hS, -⟩ := muchnikSeq_total A ps fun p hp => canon_of_normal (hps p hp)
  obtain rfl := seq_unique h h1'
  have hc := hS.canon q hq
  cases q with
  | nil => simp
  | cons c q =>
    have : q = [] := List.length_eq_zero_iff.1 (by simpa using hl)
    subst this
    have hc0 : c ≠ 0 := by
      rintro rfl
      simp [Canon, strip] at hc
    have : φ ([c].headD 0) ≠ 0 := hsc c hc0 (by simpa [hasVariable] using hv)
    rw [if_neg (by simp), if_neg this]

theorem scalar_sign {A : MAlg R} {K : Type} [Field K] [LinearOrder K] {φ : R →+* K} (hA : A.hasVar 0 = false)
    (hsc : ScalarSigns A φ) {q : List R} (hv : ¬ hasVariable A q = true) :
    A.sign (q.headD 0) = signZ (φ (q.headD 0)) := by
  cases q with
  | nil => exact hsc 0 hA
  | cons c q => exact hsc c (by simpa [hasVariable] using hv)

/-! ### C69 -/

/-- **C69** (complex numbers): if fewer lines are accepted by the prompt than there are coefficients with
parameters, the procedure stops at the end of the input. Otherwise, if the answers in order are the truth about the
coefficients at some values of the parameters, it prints the zero patterns at these values; lines that the prompt
does not accept have no effect, nor have lines after the last answer. -/
theorem C69_complex_interactive [IsDomain R] (A : MAlg R) (ps : List (List R)) (hps : ∀ p ∈ ps, Normal p) :
    ∃ (N : ℕ) (S : List (List R)), (∀ fuel ≥ N, muchnikSeq A fuel [[]] ps = .ok S) ∧
      ∀ (lines : List String),
        ((typed answers01 lines).length < (asked A S).length → ∀ fuel ≥ N,
          complexPartial A fuel ps (some (cAssignmentInteractive A lines)) = .error .eofError) ∧
        ∀ {K : Type} [Field K] [CharZero K] [IsAlgClosed K] [DecidableEq K] (φ : R →+* K),
          ScalarsNonzero A φ → (asked A S).length ≤ (typed answers01 lines).length →
          (∀ e ∈ (asked A S).zip (typed answers01 lines), e.2 = 0 ↔ φ (e.1.headD 0) = 0) →
          ∃ D, (∀ fuel ≥ N, complexPartial A fuel ps (some (cAssignmentInteractive A lines)) = .ok D) ∧
            ZeroPattern φ S D := by
  obtain ⟨N, S, h1, hn, h2⟩ := zeroPattern_of_map A ps hps
  refine ⟨N, S, h1, ?_⟩
  intro lines
  constructor
  · intro hl fuel hf
    unfold complexPartial
    simp only [h1 fuel hf, liftQ, bind, Except.bind, assignWith, cAssignmentInteractive, cInteractiveLoop_eq]
    rw [interLoop_eof A _ _ _ _ lines _ (by rw [← asked_eq]; exact hl)]
  · intro K _ _ _ _ φ hsc hl ha
    rw [asked_eq] at hl
    obtain ⟨g, hg1, hg2, hg3⟩ := interLoop_ok A answers01 (fun D c v => dWrite D c 0 v)
      (fun c => if c = [] then 0 else 1) (S.filter fun p => isConst p) lines [] (hn.filter _) hl
    have hg : ∀ q ∈ S, q.length ≤ 1 → g q = if φ (q.headD 0) = 0 then 0 else 1 := by
      intro q hq hlen
      by_cases hv : hasVariable A q = true
      · obtain ⟨b, hb⟩ := mem_zip_fst (m := typed answers01 lines) (by rw [asked_eq]; exact hl)
          (hasVariable_asked hq hlen hv)
        have e2 := ha _ hb
        have hb01 : b = 0 ∨ b = 1 := by
          have := (List.of_mem_zip hb).2
          rw [typed, List.mem_filterMap] at this
          obtain ⟨l, -, h⟩ := this
          simp only [answers01, List.lookup] at h
          split at h
          · exact Or.inl (by simpa using h.symm)
          · split at h
            · exact Or.inr (by simpa using h.symm)
            · simp at h
        rw [asked_eq] at hb
        rw [hg1 _ hb]
        rcases hb01 with rfl | rfl
        · rw [if_pos (e2.1 rfl)]
        · rw [if_neg (fun h => by simpa using e2.2 h)]
      · rw [hg2 q (by simp [isConst, hq, hlen]) (by simpa using hv)]
        exact scalar_value hps h1 hsc hq hlen hv
    obtain ⟨D, hD, hP⟩ := h2 φ g hg
    refine ⟨D, ?_, hP⟩
    intro fuel hf
    unfold complexPartial
    simp only [h1 fuel hf, liftQ, bind, Except.bind, assignWith, cAssignmentInteractive, cInteractiveLoop_eq]
    rw [show ([("0", 0), ("1", 1)] : List (String × ℤ)) = answers01 from rfl, hg3,
      foldl_dWrite 0 g _ [] (hn.filter _) (by simp [keys])]
    simp only [List.nil_append]
    rw [hD]

/-- **C69** (complex numbers, the automatic assignments): `c_assignment_all_zero` prints the zero patterns at
parameters at which all the coefficients with parameters vanish, `c_assignment_all_one` those at parameters at which
none of them vanishes. -/
theorem C69_complex_automatic [IsDomain R] (A : MAlg R) (ps : List (List R)) (hps : ∀ p ∈ ps, Normal p) :
    ∃ (N : ℕ) (S : List (List R)), (∀ fuel ≥ N, muchnikSeq A fuel [[]] ps = .ok S) ∧
      ∀ {K : Type} [Field K] [CharZero K] [IsAlgClosed K] [DecidableEq K] (φ : R →+* K), ScalarsNonzero A φ →
        ((∀ q ∈ asked A S, φ (q.headD 0) = 0) →
          ∃ D, (∀ fuel ≥ N, complexPartial A fuel ps (some fun cs => .ok (cAssignmentAllZero A cs)) = .ok D) ∧
            ZeroPattern φ S D) ∧
        ((∀ q ∈ asked A S, φ (q.headD 0) ≠ 0) →
          ∃ D, (∀ fuel ≥ N, complexPartial A fuel ps (some fun cs => .ok (cAssignmentAllOne cs)) = .ok D) ∧
            ZeroPattern φ S D) := by
  obtain ⟨N, S, h1, hn, h2⟩ := zeroPattern_of_map A ps hps
  refine ⟨N, S, h1, ?_⟩
  intro K _ _ _ _ φ hsc
  have key : ∀ (g : List R → ℤ) (f : List (List R) → Diagram R ℕ),
      (∀ cs, f cs = cs.foldl (fun D c => dWrite D c 0 (g c)) []) →
      (∀ q ∈ S, q.length ≤ 1 → g q = if φ (q.headD 0) = 0 then 0 else 1) →
      ∃ D, (∀ fuel ≥ N, complexPartial A fuel ps (some fun cs => .ok (f cs)) = .ok D) ∧ ZeroPattern φ S D := by
    intro g f hf hg
    obtain ⟨D, hD, hP⟩ := h2 φ g hg
    refine ⟨D, ?_, hP⟩
    intro fuel hfu
    unfold complexPartial
    simp only [h1 fuel hfu, liftQ, bind, Except.bind, assignWith]
    rw [hf, foldl_dWrite 0 g _ [] (hn.filter _) (by simp [keys])]
    simp only [List.nil_append]
    rw [hD]
  constructor
  · intro h
    apply key (fun c => if c = [] then 0 else if hasVariable A c then 0 else 1)
    · intro cs
      unfold cAssignmentAllZero
      congr 1
      funext D c
      split_ifs <;> rfl
    · intro q hq hl
      by_cases hv : hasVariable A q = true
      · have hne : q ≠ [] := by rintro rfl; simp [hasVariable] at hv
        show (if q = [] then 0 else if hasVariable A q then 0 else 1 : ℤ) = _
        rw [if_neg hne, if_pos hv, if_pos (h q (hasVariable_asked hq hl hv))]
      · rw [← scalar_value hps h1 hsc hq hl hv]
        show (if q = [] then 0 else if hasVariable A q then 0 else 1 : ℤ) = _
        rw [if_neg hv]
  · intro h
    apply key (fun c => if c = [] then 0 else 1)
    · intro cs
      unfold cAssignmentAllOne
      congr 1
      funext D c
      split_ifs <;> rfl
    · intro q hq hl
      by_cases hv : hasVariable A q = true
      · have hne : q ≠ [] := by rintro rfl; simp [hasVariable] at hv
        show (if q = [] then 0 else 1 : ℤ) = _
        rw [if_neg hne, if_neg (h q (hasVariable_asked hq hl hv))]
      · exact scalar_value hps h1 hsc hq hl hv

/-- **C69** (real numbers): like `C69_complex_interactive`, with the signs -1, 0, 1 as answers. The true sign pattern is
the diagram that the procedure computes. -/
theorem C69_real_interactive [IsDomain R] (A : MAlg R) (hA : A.hasVar 0 = false) (ps : List (List R))
    (hps : ∀ p ∈ ps, Normal p) :
    ∃ (N : ℕ) (S : List (List R)), (∀ fuel ≥ N, muchnikSeq A fuel [[]] ps = .ok S) ∧
      ∀ (lines : List String),
        ((typed answersSign lines).length < (asked A S).length → ∀ fuel ≥ N,
          realPartial A fuel ps (some (rAssignmentInteractive A lines)) = .error .eofError) ∧
        ∀ {K : Type} [Field K] [LinearOrder K] [IsStrictOrderedRing K] [PolyIVT K] (φ : R →+* K),
          ScalarSigns A φ → (asked A S).length ≤ (typed answersSign lines).length →
          (∀ e ∈ (asked A S).zip (typed answersSign lines), e.2 = signZ (φ (e.1.headD 0))) →
          ∃ root D, (∀ fuel ≥ N, realPartial A fuel ps (some (rAssignmentInteractive A lines)) = .ok (root, D)) ∧
            SignPattern φ S D := by
  obtain ⟨N, S, h1, hn, h2⟩ := signPattern_of_map A ps hps
  refine ⟨N, S, h1, ?_⟩
  intro lines
  constructor
  · intro hl fuel hf
    unfold realPartial
    simp only [h1 fuel hf, liftQ, bind, Except.bind, assignWith, rAssignmentInteractive, rInteractiveLoop_eq]
    rw [interLoop_eof A _ _ _ _ lines _ (by rw [← asked_eq]; exact hl)]
  · intro K _ _ _ _ φ hsc hl ha
    rw [asked_eq] at hl
    obtain ⟨g, hg1, hg2, hg3⟩ := interLoop_ok A answersSign write3
      (fun c => A.sign (c.headD 0)) (S.filter fun p => isConst p) lines [] (hn.filter _) hl
    have hg : ∀ q ∈ S, q.length ≤ 1 → g q = signZ (φ (q.headD 0)) := by
      intro q hq hlen
      by_cases hv : hasVariable A q = true
      · obtain ⟨b, hb⟩ := mem_zip_fst (m := typed answersSign lines) (by rw [asked_eq]; exact hl)
          (hasVariable_asked hq hlen hv)
        have e2 := ha _ hb
        rw [asked_eq] at hb
        rw [hg1 _ hb]
        exact e2
      · rw [hg2 q (by simp [isConst, hq, hlen]) (by simpa using hv)]
        exact scalar_sign hA hsc hv
    obtain ⟨D, hD, hP⟩ := h2 φ g hg
    refine ⟨(S.filter fun p => isConst p).map fun c => (c, [(0, g c), (1/2, g c), (1, g c)]), D, ?_, hP⟩
    intro fuel hf
    unfold realPartial
    simp only [h1 fuel hf, liftQ, bind, Except.bind, assignWith, rAssignmentInteractive, rInteractiveLoop_eq]
    rw [show ([("-1", -1), ("0", 0), ("1", 1)] : List (String × ℤ)) = answersSign from rfl, hg3,
      foldl_write3_map g _ [] (hn.filter _) (by simp [keys])]
    simp only [List.nil_append]
    rw [hD]

/-- **C69** (real numbers, the automatic assignments): `r_assignment_all_pos`, `r_assignment_all_zero` and
`r_assignment_all_neq` compute the sign patterns at parameters at which all the coefficients with parameters have
the sign `s = 1`, `0` or `-1`. -/
theorem C69_real_automatic [IsDomain R] (A : MAlg R) (hA : A.hasVar 0 = false) (ps : List (List R))
    (hps : ∀ p ∈ ps, Normal p) :
    ∃ (N : ℕ) (S : List (List R)), (∀ fuel ≥ N, muchnikSeq A fuel [[]] ps = .ok S) ∧
      ∀ {K : Type} [Field K] [LinearOrder K] [IsStrictOrderedRing K] [PolyIVT K] (φ : R →+* K), ScalarSigns A φ →
        ∀ s : ℤ, (∀ q ∈ asked A S, signZ (φ (q.headD 0)) = s) →
          ∃ root D, (∀ fuel ≥ N, realPartial A fuel ps (some fun cs => .ok (rAssignmentAll A s cs)) = .ok (root, D)) ∧
            SignPattern φ S D := by
  obtain ⟨N, S, h1, hn, h2⟩ := signPattern_of_map A ps hps
  refine ⟨N, S, h1, ?_⟩
  intro K _ _ _ _ φ hsc s h
  obtain ⟨D, hD, hP⟩ := h2 φ (fun c => if hasVariable A c then s else A.sign (c.headD 0)) (by
    intro q hq hl
    show (if hasVariable A q then s else A.sign (q.headD 0)) = _
    by_cases hv : hasVariable A q = true
    · rw [if_pos hv, h q (hasVariable_asked hq hl hv)]
    · rw [if_neg hv]; exact scalar_sign hA hsc hv)
  refine ⟨(S.filter fun p => isConst p).map fun c =>
    (c, [(0, if hasVariable A c then s else A.sign (c.headD 0)),
      (1/2, if hasVariable A c then s else A.sign (c.headD 0)),
      (1, if hasVariable A c then s else A.sign (c.headD 0))]), D, ?_, hP⟩
  intro fuel hf
  unfold realPartial
  simp only [h1 fuel hf, liftQ, bind, Except.bind, assignWith, rAssignmentAll]
  rw [foldl_write3_map (fun c => if hasVariable A c then s else A.sign (c.headD 0)) _ [] (hn.filter _)
    (by simp [keys])]
  simp only [List.nil_append]
  rw [hD]

/-- **C69** (complex numbers, all inputs): whatever lines are typed in, also if no values of the parameters agree with
the answers, the procedure prints a diagram with a row for each member of the sequence unless it stops at the end
of the input. -/
theorem C69_complex_outcome [IsDomain R] (A : MAlg R) (ps : List (List R)) (hps : ∀ p ∈ ps, Normal p) :
    ∃ (N : ℕ) (S : List (List R)), (∀ fuel ≥ N, muchnikSeq A fuel [[]] ps = .ok S) ∧
      ∀ (lines : List String), (asked A S).length ≤ (typed answers01 lines).length →
        ∃ D, (∀ fuel ≥ N, complexPartial A fuel ps (some (cAssignmentInteractive A lines)) = .ok D) ∧
          ∀ q, q ∈ D.map Prod.fst ↔ q ∈ S := by
  obtain ⟨N, S, h1, hS, -⟩ := muchnikSeq_total A ps fun p hp => canon_of_normal (hps p hp)
  refine ⟨N, S, h1, ?_⟩
  intro lines hl
  have hn := hS.nodup
  rw [asked_eq] at hl
  obtain ⟨g, hg1, hg2, hg3⟩ := interLoop_ok A answers01 (fun D c v => dWrite D c 0 v)
    (fun c => if c = [] then 0 else 1) (S.filter fun p => isConst p) lines [] (hn.filter _) hl
  have hkeys : ∀ q, q ∈ keys ((S.filter fun p => isConst p).map fun c => (c, [((0 : ℕ), g c)])) ↔
      (q ∈ S ∧ isConst q = true) ∨ q ∈ ([] : List (List R)) := by
    intro q; simp [keys, List.mem_filter]
  have hrow : ∀ q ∈ keys ((S.filter fun p => isConst p).map fun c => (c, [((0 : ℕ), g c)])),
      dRow ((S.filter fun p => isConst p).map fun c => (c, [((0 : ℕ), g c)])) q = [(0, g q)] := by
    intro q hq
    rcases (hkeys q).1 hq with ⟨h, h'⟩ | h
    · exact dRow_map (fun c => [((0 : ℕ), g c)]) _ q (by simp [h, h'])
    · simp at h
  have hshape : CShape ((S.filter fun p => isConst p).map fun c => (c, [((0 : ℕ), g c)])) 1 := by
    refine ⟨le_rfl, ?_, ?_, (hkeys []).2 (Or.inl ⟨hS.zero, rfl⟩), by intro i; omega, ?_⟩
    · intro q hq i
      rw [ck, hrow q hq]; simp
    · intro q
      by_cases hq : q ∈ keys ((S.filter fun p => isConst p).map fun c => (c, [((0 : ℕ), g c)]))
      · rw [ck, hrow q hq]; simp
      · rw [ck, dRow, dGet_none _ q hq]; simp
    · intro q _ _ h0 i hi
      have : i = 0 := by omega
      subst this; exact h0
  obtain ⟨D, n, e1, -, e3, -⟩ := complexExtend_spec.{0} A hS (S.filter fun p => !isConst p) [] (by simp) _ 1 hshape
    hkeys
  refine ⟨D, ?_, e3⟩
  intro fuel hf
  unfold complexPartial
  simp only [h1 fuel hf, liftQ, bind, Except.bind, assignWith, cAssignmentInteractive, cInteractiveLoop_eq]
  rw [show ([("0", 0), ("1", 1)] : List (String × ℤ)) = answers01 from rfl, hg3,
    foldl_dWrite 0 g _ [] (hn.filter _) (by simp [keys])]
  simp only [List.nil_append]
  rw [e1]

/-- **C69** (real numbers, all inputs): whatever lines are typed in, the procedure computes a diagram, stops at the end
of the input, or raises `DiagramExc`; by `C69_real_interactive` it raises only if no values of the parameters agree
with the answers. -/
theorem C69_real_outcome [IsDomain R] (A : MAlg R)
    (hsign : ∀ c, A.sign c = -1 ∨ A.sign c = 0 ∨ A.sign c = 1) (ps : List (List R)) (hps : ∀ p ∈ ps, Normal p) :
    ∃ (N : ℕ) (S : List (List R)), (∀ fuel ≥ N, muchnikSeq A fuel [[]] ps = .ok S) ∧
      ∀ (lines : List String), (asked A S).length ≤ (typed answersSign lines).length → ∀ fuel ≥ N,
        realPartial A fuel ps (some (rAssignmentInteractive A lines)) = .error (.qe .diagramExc) ∨
        ∃ root D, realPartial A fuel ps (some (rAssignmentInteractive A lines)) = .ok (root, D) ∧
          ∀ q, q ∈ D.map Prod.fst ↔ q ∈ S := by
  obtain ⟨N, S, h1, hS, -⟩ := muchnikSeq_total A ps fun p hp => canon_of_normal (hps p hp)
  refine ⟨N, S, h1, ?_⟩
  intro lines hl fuel hf
  have hn := hS.nodup
  rw [asked_eq] at hl
  obtain ⟨g, hg1, hg2, hg3⟩ := interLoop_ok A answersSign write3
    (fun c => A.sign (c.headD 0)) (S.filter fun p => isConst p) lines [] (hn.filter _) hl
  set d : Diagram R ℚ := (S.filter fun p => isConst p).map fun c => (c, [(0, g c), (1/2, g c), (1, g c)]) with hd
  have hkeys : ∀ q, q ∈ keys d ↔ q ∈ S ∧ isConst q = true := by
    intro q; simp [hd, keys, List.mem_filter]
  have hrow : ∀ q ∈ keys d, dRow d q = [(0, g q), (1/2, g q), (1, g q)] := by
    intro q hq
    obtain ⟨h, h'⟩ := (hkeys q).1 hq
    exact dRow_map (fun c => [((0 : ℚ), g c), (1/2, g c), (1, g c)]) _ q (by simp [h, h'])
  have hcv : ∀ q ∈ keys d, ∀ i, Is3 i → cv d q i = g q := by
    rintro q hq i (rfl | rfl | rfl)
    · rw [cv_eq_dRow, hrow q hq]; simp [dGet]
    · rw [cv_eq_dRow, hrow q hq]; simp [dGet]
    · rw [cv_eq_dRow, hrow q hq]; norm_num [dGet]
  have hbase : RBase A S d := by
    refine ⟨hkeys, ?_, ?_, ?_, ?_, ?_⟩
    · intro q hq i
      rw [ck, hrow q hq]; simp [Is3]
    · intro q
      by_cases hq : q ∈ keys d
      · rw [ck, hrow q hq]; norm_num
      · rw [ck, dRow, dGet_none _ q hq]; simp
    · intro q hq i hi
      rw [hcv q hq i hi, hcv q hq 0 (Or.inl rfl)]
    · intro q hq hc hv
      rw [hcv q ((hkeys q).2 ⟨hq, hc⟩) 0 (Or.inl rfl), hg2 q (by simp [hq, hc]) hv]
    · intro q hq
      obtain ⟨h, h'⟩ := (hkeys q).1 hq
      rw [hcv q hq 0 (Or.inl rfl)]
      by_cases hv : hasVariable A q = true
      · obtain ⟨b, hb⟩ := mem_zip_fst (m := typed answersSign lines) (by rw [asked_eq]; exact hl)
          (hasVariable_asked h (by simpa [isConst] using h') hv)
        have hb3 : b = -1 ∨ b = 0 ∨ b = 1 := by
          have := (List.of_mem_zip hb).2
          rw [typed, List.mem_filterMap] at this
          obtain ⟨l, -, h⟩ := this
          simp only [answersSign, List.lookup] at h
          split at h
          · exact Or.inl (by simpa using h.symm)
          · split at h
            · exact Or.inr (Or.inl (by simpa using h.symm))
            · split at h
              · exact Or.inr (Or.inr (by simpa using h.symm))
              · simp at h
        rw [asked_eq] at hb
        rw [hg1 _ hb]
        exact hb3
      · rw [hg2 q (by simp [h, h']) (by simpa using hv)]
        exact hsign _
  have hstep : realPartial A fuel ps (some (rAssignmentInteractive A lines)) =
      (match liftQ (realExtend A d (S.filter fun p => !isConst p)) with
        | .error e => .error e
        | .ok D => .ok (d, D)) := by
    unfold realPartial
    simp only [h1 fuel hf, liftQ, bind, Except.bind, assignWith, rAssignmentInteractive, rInteractiveLoop_eq]
    rw [show ([("-1", -1), ("0", 0), ("1", 1)] : List (String × ℤ)) = answersSign from rfl, hg3,
      foldl_write3_map g _ [] (hn.filter _) (by simp [keys])]
    simp only [List.nil_append, ← hd]
    cases realExtend A d (S.filter fun p => !isConst p) <;> rfl
  rw [hstep]
  rcases realExtend_spec.{0} A hS (S.filter fun p => !isConst p) [] (by simp) d [(1/2, 1)] (hbase.shape hS.zero)
    (by intro q; rw [hkeys]; simp) with ⟨e, -⟩ | ⟨D, gs, e, -, e3, -⟩
  · left; rw [e]; rfl
  · right; exact ⟨d, D, by rw [e]; rfl, e3⟩

/-- **C69** (what `real_partial` shows): the diagram that is printed has exactly the constants of the sequence as rows,
with three columns; the roots of the input polynomials are not in it. -/
theorem C69_real_shows_constants [IsDomain R] (A : MAlg R) (ps : List (List R)) (hps : ∀ p ∈ ps, Normal p) :
    ∃ (N : ℕ) (S : List (List R)), (∀ fuel ≥ N, muchnikSeq A fuel [[]] ps = .ok S) ∧
      ∀ (fuel : ℕ) (s : ℤ) (root D : Diagram R ℚ), fuel ≥ N →
        realPartial A fuel ps (some fun cs => .ok (rAssignmentAll A s cs)) = .ok (root, D) →
        (root.map Prod.fst = S.filter fun q => decide (q.length ≤ 1)) ∧
        ∀ e ∈ root, e.2.map Prod.fst = [0, 1/2, 1] := by
  obtain ⟨N, S, h1, hS, -⟩ := muchnikSeq_total A ps fun p hp => canon_of_normal (hps p hp)
  refine ⟨N, S, h1, ?_⟩
  intro fuel s root D hf h
  unfold realPartial at h
  simp only [h1 fuel hf, liftQ, bind, Except.bind, assignWith, rAssignmentAll] at h
  rw [foldl_write3_map (fun c => if hasVariable A c then s else A.sign (c.headD 0)) _ [] (hS.nodup.filter _)
    (by simp [keys])] at h
  split at h
  · cases h
  · injection h with h
    have hr := congrArg Prod.fst h
    simp only [List.nil_append] at hr
    subst hr
    constructor
    · rw [List.map_map]
      show List.map (fun c => c) _ = _
      rw [List.map_id']
      rfl
    · intro e he
      rw [List.mem_map] at he
      obtain ⟨c, -, rfl⟩ := he
      rfl

/-! ### C70 -/

/-- **C70** (violated): with its default argument the partial procedure never prints a diagram, whatever the
polynomials: the default is the function of the class, which is called without the object. -/
theorem C70_default_assigner_violated [IsDomain R] (A : MAlg R) (ps : List (List R)) (hps : ∀ p ∈ ps, Normal p) :
    ∃ N, ∀ fuel ≥ N, complexPartial A fuel ps none = .error .typeError ∧
      realPartial A fuel ps none = .error .typeError := by
  obtain ⟨N, S, h1, -, -⟩ := muchnikSeq_total A ps fun p hp => canon_of_normal (hps p hp)
  refine ⟨N, fun fuel hf => ?_⟩
  unfold complexPartial realPartial
  simp only [h1 fuel hf, liftQ, bind, Except.bind, assignWith, and_self]

/-- The polynomial `y·x - 1` with the parameter `y`: the sequence asks for `y`; a line with another content is skipped;
with the answer 1 the diagram has a root, with the answer 0 none; without an answer the input ends. -/
example : (∀ p ∈ [[-1, ZY.y]], Normal p) ∧
    (muchnikSeq ZY.alg 20 [[]] [[-1, ZY.y]]).toOption = some [[], [-1], [ZY.y], [-1, ZY.y]] ∧
    asked ZY.alg [[], [-1], [ZY.y], [-1, ZY.y]] = [[ZY.y]] ∧ typed answers01 ["2", "1"] = [1] ∧
    ((complexPartial ZY.alg 20 [[-1, ZY.y]] (some (cAssignmentInteractive ZY.alg ["2", "1"]))).toOption.map
      fun D => dRow D [-1, ZY.y]) = some [(0, 1), (1, 0)] ∧
    ((complexPartial ZY.alg 20 [[-1, ZY.y]] (some (cAssignmentInteractive ZY.alg ["0", "1"]))).toOption.map
      fun D => dRow D [-1, ZY.y]) = some [(0, 1)] ∧
    (complexPartial ZY.alg 20 [[-1, ZY.y]] (some (cAssignmentInteractive ZY.alg ["2"]))).toOption = none := by
  refine ⟨?_, by decide +kernel, by decide +kernel, by decide +kernel, by decide +kernel, by decide +kernel,
    by decide +kernel⟩
  intro p hp h
  rw [List.mem_singleton] at hp
  subst hp
  show ZY.y ≠ 0
  decide +kernel

/-- The same over the real numbers, with the answer -1: the values are positive before the root, negative after it. -/
example : ((realPartial ZY.alg 20 [[-1, ZY.y]] (some (rAssignmentInteractive ZY.alg ["x", "-1"]))).toOption.map
      fun D => (dRow D.2 [-1, ZY.y], D.1.map Prod.fst)) =
      some ([(0, 1), (1, -1), (1/4, 1), (1/2, 0), (3/4, -1)], [[], [-1], [ZY.y]]) ∧
    ZY.alg.hasVar 0 = false ∧ (∀ c, ZY.alg.sign c = -1 ∨ ZY.alg.sign c = 0 ∨ ZY.alg.sign c = 1) ∧
    signZ (ZY.at' (-3) ZY.y) = -1 ∧ ScalarSigns ZY.alg (ZY.at' (-3)) := by
  refine ⟨by decide +kernel, by decide +kernel, ?_, ?_, scalarSigns_zy _⟩
  · intro c
    simp only [ZY.alg]
    rcases Int.sign_trichotomy (c.coeffs.headD 0) with h | h | h <;> rw [h] <;> decide
  · simp [ZY.at'_y, signZ]

end Verif.Qe
