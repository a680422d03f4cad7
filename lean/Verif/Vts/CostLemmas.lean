import Verif.Vts.CostModel
import Verif.Vts.PolyLemmas
import Verif.Vts.SignLemmas
import Mathlib.Tactic.Ring
import Mathlib.Tactic.Linarith
import Mathlib.Tactic.NormNum
import Mathlib.Tactic.GCongr

/-!
# The billed functions compute the same, and bounds on the bill
-/

set_option linter.unusedSectionVars false

namespace Verif.Vts

variable {R : Type} [CommRing R] [LinearOrder R] {K : Type} [Field K] [LinearOrder K]

/-! ### Same results -/

theorem andThen_snd {α β : Type} (x : Billed α) (f : α → Billed β) :
    (andThen x f).2 = (x.2 >>= fun a => (f a).2) := by
  unfold andThen
  cases x.2 <;> rfl

theorem andThen_fst_le {α β : Type} {x : Billed α} {f : α → Billed β} {m n : ℕ} (hx : x.1 ≤ m)
    (h : ∀ a, x.2 = .ok a → (f a).1 ≤ n) : (andThen x f).1 ≤ m + n := by
  unfold andThen
  cases hx2 : x.2 with
  | error e => simp only; omega
  | ok a => have := h a hx2; simp only; omega

theorem multiplyAllB_snd (P : Prices) (h : Poly R) (l : List (Poly R)) :
    (multiplyAllB P h l).2 = l.map fun p => multiply p h := by
  induction l with
  | nil => rfl
  | cons p l ih => simp only [multiplyAllB, ih]; rfl

theorem makeProductListB_snd (P : Prices) (l : List (Poly R)) : (makeProductListB P l).2 = makeProductList l := by
  induction l with
  | nil => rfl
  | cons p l ih => simp only [makeProductListB, makeProductList, multiplyAllB_snd, ih]; rfl

theorem srsB_snd (P : Prices) : ∀ (n : ℕ) (p q : Poly R), q.length = n →
    (srsB P p q).2 = signedRemainderSequence p q := by
  intro n
  induction n using Nat.strong_induction_on with
  | _ n ih =>
    intro p q hn
    rw [srsB, signedRemainderSequence]
    have hs := sprB_snd P q _ p rfl
    cases h : signedPseudoRemainder p q with
    | error e =>
      rw [h] at hs
      split
      · rename_i e' he; rw [hs] at he; cases he; rfl
      · rename_i r hr; rw [hs] at hr; cases hr
    | ok rem =>
      rw [h] at hs
      split
      · rename_i e' he; rw [hs] at he; cases he
      · rename_i r hr
        rw [hs] at hr
        obtain rfl : rem = r := by simpa using hr
        simp only
        by_cases h0 : rem = []
        · rw [dif_pos h0, dif_pos h0]
        · rw [dif_neg h0, dif_neg h0]
          have := (signedPseudoRemainder_length p q rem h).resolve_left h0
          simp only
          rw [ih _ (by rw [← hn, List.length_map]; exact this) q (rem.map fun c => -c) rfl]
          cases signedRemainderSequence q (rem.map fun c => -c) <;> rfl

theorem cauchyIndexB_snd (P : Prices) (p q : Poly R) : (cauchyIndexB P p q).2 = cauchyIndex p q := by
  unfold cauchyIndexB cauchyIndex
  split
  · rfl
  · simp only [andThen_snd, srsB_snd P _ p q rfl]
    rfl

theorem tarskiQueryB_snd (P : Prices) (p q : Poly R) : (tarskiQueryB P p q).2 = tarskiQuery p q :=
  cauchyIndexB_snd P p _

theorem queriesB_snd (P : Prices) (o : Poly R) (l : List (Poly R)) :
    (queriesB P o l).2 = l.mapM fun q => tarskiQuery o q := by
  induction l with
  | nil => rfl
  | cons q l ih =>
    rw [queriesB, andThen_snd, tarskiQueryB_snd, List.mapM_cons]
    congr 1
    funext z
    rw [andThen_snd, ih]
    rfl

theorem evaluateSingleB_snd (P : Prices) (E : Env R K) (o : Poly R) (d : DDS R K) (goal : Poly R) :
    (evaluateSingleB P E o d goal).2 = evaluateSingle E o d goal := by
  unfold evaluateSingleB evaluateSingle
  split
  · rfl
  · simp only [andThen_snd, pay, queriesB_snd, makeProductListB_snd]
    rfl

theorem eCloseB_snd (P : Prices) (E : Env R K) (o : Poly R) (d : DDS R K) : ∀ (n : ℕ) (p : Poly R), p.length = n →
    (eCloseB P E o d p).2 = eCloseEvaluateSingle E o d p := by
  intro n
  induction n using Nat.strong_induction_on with
  | _ n ih =>
    intro p hn
    rw [eCloseB, eCloseEvaluateSingle]
    by_cases hp : p = []
    · rw [dif_pos hp, dif_pos hp]; rfl
    · rw [dif_neg hp, dif_neg hp]
      have hpos := List.length_pos_iff.2 hp
      simp only [evaluateSingleB_snd]
      cases evaluateSingle E o d p with
      | error e => rfl
      | ok s =>
        simp only [bind, Except.bind]
        by_cases hs : s = 0
        · rw [if_neg (not_not.2 hs), if_neg (not_not.2 hs)]
          exact ih _ (by rw [length_derivative]; omega) (derivative p) rfl
        · rw [if_pos hs, if_pos hs]; rfl

theorem evaluateAllB_snd {eval : Poly R → Billed ℤ} {eval' : Poly R → Except Err ℤ}
    (h : ∀ p, (eval p).2 = eval' p) (lookup : Lookup R) (l : List (Poly R)) :
    (evaluateAllB eval lookup l).2 = evaluateAll eval' lookup l := by
  induction l with
  | nil => rfl
  | cons p l ih =>
    rw [evaluateAllB, evaluateAll, andThen_snd, h]
    congr 1
    funext s
    rw [andThen_snd]
    show (signAllowed lookup p s >>= _) = _
    congr 1
    funext ok
    cases ok
    · rfl
    · exact ih

theorem firstTrueB_snd {α : Type} {f : α → Billed Bool} {f' : α → Except Err Bool} (h : ∀ a, (f a).2 = f' a)
    (l : List α) : (firstTrueB f l).2 = firstTrue f' l := by
  induction l with
  | nil => rfl
  | cons a l ih =>
    rw [firstTrueB, firstTrue, andThen_snd, h]
    congr 1
    funext b
    cases b
    · exact ih
    · rfl

theorem tryRootsB_snd (E : Env R K) {eval : Poly R → DDS R K → Poly R → Billed ℤ}
    {eval' : Poly R → DDS R K → Poly R → Except Err ℤ} (h : ∀ o d p, (eval o d p).2 = eval' o d p)
    (lookup : Lookup R) (all : List (Poly R)) (p : Poly R) :
    (tryRootsB E eval lookup all p).2 = tryRoots E eval' lookup all p := by
  unfold tryRootsB tryRoots
  simp only [andThen_snd]
  show (E.mkRoots p >>= fun roots => getDiscriDerSigns E.φ roots p >>= _) = _
  congr 1
  funext roots
  congr 1
  funext ds
  exact firstTrueB_snd (fun d => evaluateAllB_snd (fun q => h p d q) lookup all) ds

theorem internalVtsB_snd (P : Prices) (E : Env R K) (le lt eq ne : List (Poly R)) :
    (internalVtsB P E le lt eq ne).2 = internalVts E le lt eq ne := by
  unfold internalVtsB internalVts
  simp only [andThen_snd]
  rw [firstTrueB_snd (tryRootsB_snd E (fun o d p => evaluateSingleB_snd P E o d p) _ _)]
  congr 1
  funext b1
  cases b1
  · simp only [Bool.false_eq_true, if_false, andThen_snd]
    rw [firstTrueB_snd (tryRootsB_snd E (fun o d p => eCloseB_snd P E o d _ p rfl) _ _)]
    congr 1
    funext b2
    cases b2 <;> rfl
  · rfl

/-! ### Bounds -/

theorem sprB_fst (P : Prices) (g : Poly R) : ∀ (n : ℕ) (f : Poly R), f.length = n →
    (sprB P f g).1 ≤ P.mult * (n * (n + 1)) := by
  intro n
  induction n using Nat.strong_induction_on with
  | _ n ih =>
    intro f hn
    rw [sprB]
    cases hf : f.getLast? with
    | none => exact Nat.zero_le _
    | some lcf =>
      have hne : f ≠ [] := by rintro rfl; simp at hf
      have hpos := List.length_pos_iff.2 hne
      obtain ⟨k, rfl⟩ : ∃ k, n = k + 1 := ⟨n - 1, by omega⟩
      cases hg : g.getLast? with
      | none => exact Nat.zero_le _
      | some lcg =>
        simp only
        by_cases h0 : lcf = 0
        · rw [if_pos h0]
          refine (ih k (by omega) _ (by rw [List.length_dropLast]; omega)).trans ?_
          exact Nat.mul_le_mul_left _ (Nat.mul_le_mul (by omega) (by omega))
        · rw [if_neg h0]
          by_cases hl : f.length < g.length
          · rw [if_pos hl]; exact Nat.zero_le _
          · rw [if_neg hl]
            have := ih k (by omega) (List.zipWith (fun c1 c2 => c1 * (if lcg < 0 then -lcg else lcg) -
              c2 * (if lcg < 0 then -lcf else lcf)) f (List.replicate (f.length - g.length) (0 : R) ++ g)).dropLast
              (by simp; omega)
            simp only [pay]
            refine (Nat.add_le_add_left this _).trans ?_
            rw [← Nat.mul_add, hn]
            exact Nat.mul_le_mul_left _ (le_of_eq (by ring))

theorem srsB_fst (P : Prices) : ∀ (n : ℕ) (p q : Poly R), q.length = n →
    (srsB P p q).1 ≤ P.mult * (p.length * (p.length + 1) + n * n * (n + 1)) := by
  intro n
  induction n using Nat.strong_induction_on with
  | _ n ih =>
    intro p q hn
    have hspr := sprB_fst P q _ p rfl
    have hle : P.mult * (p.length * (p.length + 1)) ≤ P.mult * (p.length * (p.length + 1) + n * n * (n + 1)) :=
      Nat.mul_le_mul_left _ (Nat.le_add_right _ _)
    rw [srsB]
    split
    · exact hspr.trans hle
    · rename_i rem hrem
      rw [sprB_snd P q _ p rfl] at hrem
      split
      · exact hspr.trans hle
      · rename_i h0
        have hlt := (signedPseudoRemainder_length p q rem hrem).resolve_left h0
        obtain ⟨k, rfl⟩ : ∃ k, n = k + 1 := ⟨n - 1, by omega⟩
        simp only
        have h2 := ih rem.length (by omega) q (rem.map fun c => -c) (by simp)
        refine (Nat.add_le_add hspr h2).trans ?_
        rw [← Nat.mul_add, Nat.add_assoc]
        refine Nat.mul_le_mul_left _ (Nat.add_le_add_left ?_ _)
        rw [hn]
        have hk : rem.length ≤ k := by omega
        have h3 : rem.length * rem.length * (rem.length + 1) ≤ k * k * (k + 1) := by gcongr
        have h4 : (1 : ℕ) ≤ k := by
          have := List.length_pos_iff.2 h0
          omega
        nlinarith [h3, h4]

theorem srs_length : ∀ (n : ℕ) (p q : Poly R) (S : List (Poly R)), q.length = n →
    signedRemainderSequence p q = .ok S → S.length ≤ n + 2 := by
  intro n
  induction n using Nat.strong_induction_on with
  | _ n ih =>
    intro p q S hn h
    rw [signedRemainderSequence] at h
    split at h
    · cases h
    · rename_i rem hrem
      split at h
      · cases h; simp
      · rename_i h0
        have hlt := (signedPseudoRemainder_length p q rem hrem).resolve_left h0
        split at h
        · cases h
        · rename_i S' hS
          cases h
          have := ih rem.length (by omega) q (rem.map fun c => -c) S' (by simp) hS
          simp only [List.length_cons]
          omega

theorem mapM_len {α β : Type} {f : α → Except Err β} : ∀ {l : List α} {m : List β}, l.mapM f = .ok m →
    m.length = l.length := by
  intro l
  induction l with
  | nil => intro m h; cases h; rfl
  | cons a l ih =>
    intro m h
    rw [List.mapM_cons] at h
    cases ha : f a with
    | error e => rw [ha] at h; cases h
    | ok b =>
      rw [ha] at h
      cases hl : l.mapM f with
      | error e => rw [hl] at h; cases h
      | ok m' =>
        rw [hl] at h
        cases h
        simp [ih hl]

theorem cauchyIndexB_fst (P : Prices) (p q : Poly R) :
    (cauchyIndexB P p q).1 ≤ P.mult * (p.length * (p.length + 1) + q.length * q.length * (q.length + 1)
      + 3 * (q.length + 2)) := by
  unfold cauchyIndexB
  split
  · exact Nat.zero_le _
  · rw [Nat.mul_add]
    refine andThen_fst_le (srsB_fst P _ p q rfl) fun S hS => ?_
    rw [srsB_snd P _ p q rfl] at hS
    have hlen := srs_length _ p q S rfl hS
    rw [← Nat.zero_add (P.mult * (3 * _))]
    refine andThen_fst_le (le_refl 0) fun ni hni => ?_
    rw [← Nat.zero_add (P.mult * (3 * _))]
    refine andThen_fst_le (le_refl 0) fun pi hpi => ?_
    have h1 := mapM_len hni
    have h2 := mapM_len hpi
    simp only [pay, free, Nat.add_zero]
    refine Nat.mul_le_mul_left _ ?_
    have h3 := List.length_filter_le (fun c => decide (c ≠ 0)) ni
    have h4 := List.length_filter_le (fun c => decide (c ≠ 0)) pi
    omega

theorem tarskiQueryB_fst (P : Prices) (p q : Poly R) :
    (tarskiQueryB P p q).1 ≤ P.query + P.mult * (6 * (p.length + q.length + 1) ^ 3) := by
  unfold tarskiQueryB multiplyB derivativeB
  simp only [pay, length_derivative]
  have h := cauchyIndexB_fst P p (multiply (derivative p) q)
  rw [length_multiply, length_derivative] at h
  set a := p.length with ha
  set b := q.length with hb
  have h1 : a - 1 + b - 1 ≤ a + b := by omega
  have h2 : a - 1 ≤ a := by omega
  generalize a - 1 + b - 1 = c at h h1
  generalize a - 1 = e at h2 ⊢
  have h3 : P.mult * (a * (a + 1) + c * c * (c + 1) + 3 * (c + 2)) + P.mult * e + P.mult * (e * b) ≤
      P.mult * (6 * (a + b + 1) ^ 3) := by
    rw [← Nat.mul_add, ← Nat.mul_add]
    refine Nat.mul_le_mul_left _ ?_
    have h4 : c * c * (c + 1) ≤ (a + b) * (a + b) * (a + b + 1) := by gcongr
    have h5 : e * b ≤ a * b := by gcongr
    nlinarith [h4, h5, h1, h2, Nat.zero_le (a * b), Nat.zero_le (a * a), Nat.zero_le (b * b),
      Nat.zero_le (a * a * a), Nat.zero_le (a * a * b), Nat.zero_le (a * b * b), Nat.zero_le (b * b * b)]
  omega

/-- the total length of a list of polynomials -/
def totalLength (l : List (Poly R)) : ℕ := (l.map List.length).sum

theorem multiplyAllB_fst (P : Prices) (h : Poly R) (l : List (Poly R)) (n : ℕ) (hl : ∀ p ∈ l, p.length ≤ n) :
    (multiplyAllB P h l).1 ≤ l.length * (P.mult * (n * h.length)) := by
  induction l with
  | nil => simp [multiplyAllB]
  | cons p l ih =>
    simp only [multiplyAllB, multiplyB, List.length_cons]
    have h1 := ih fun q hq => hl q (List.mem_cons_of_mem _ hq)
    have h2 : P.mult * (p.length * h.length) ≤ P.mult * (n * h.length) :=
      Nat.mul_le_mul_left _ (Nat.mul_le_mul_right _ (hl p List.mem_cons_self))
    rw [Nat.succ_mul]
    omega

theorem makeProductList_mem_length (l : List (Poly R)) :
    ∀ p ∈ makeProductList l, p.length ≤ 2 * totalLength l + 1 := by
  induction l with
  | nil => intro p hp; simp [makeProductList] at hp; subst hp; simp
  | cons h l ih =>
    intro p hp
    have ht : totalLength (h :: l) = h.length + totalLength l := by simp [totalLength]
    simp only [makeProductList, List.mem_append, List.mem_map] at hp
    rcases hp with (hp | ⟨r, hr, rfl⟩) | ⟨r, hr, rfl⟩
    · have := ih p hp; omega
    · have := ih r hr; rw [length_multiply]; omega
    · have := ih r hr; rw [length_multiply, length_multiply]; omega

theorem makeProductListB_fst (P : Prices) (l : List (Poly R)) :
    (makeProductListB P l).1 ≤ P.mult * (3 ^ l.length * (2 * totalLength l + 1) ^ 2) := by
  induction l with
  | nil => simp [makeProductListB]
  | cons h l ih =>
    have ht : totalLength (h :: l) = h.length + totalLength l := by simp [totalLength]
    have hm := makeProductList_mem_length l
    have h1 := multiplyAllB_fst P h (makeProductList l) _ hm
    have h2 := multiplyAllB_fst P (multiply h h) (makeProductList l) _ hm
    rw [length_makeProductList] at h1 h2
    rw [length_multiply] at h2
    simp only [makeProductListB, makeProductListB_snd, multiplyB]
    rw [ht, List.length_cons, Nat.pow_succ]
    set a := h.length
    set t := totalLength l
    set c := 3 ^ l.length with hc
    have hc1 : 1 ≤ c := Nat.one_le_pow _ _ (by norm_num)
    have h3 : c * (P.mult * ((2 * t + 1) * (a + a - 1))) ≤ c * (P.mult * ((2 * t + 1) * (2 * a))) := by
      gcongr; omega
    have h4 : P.mult * (a * a) + P.mult * (c * (2 * t + 1) ^ 2) + c * (P.mult * ((2 * t + 1) * a)) +
        c * (P.mult * ((2 * t + 1) * (2 * a))) ≤ P.mult * (c * 3 * (2 * (a + t) + 1) ^ 2) := by
      have h5 : a * a ≤ c * (a * a) := Nat.le_mul_of_pos_left _ hc1
      have h6 : P.mult * (a * a) ≤ P.mult * (c * (a * a)) := Nat.mul_le_mul_left _ h5
      have h7 : P.mult * (c * (a * a)) + P.mult * (c * (2 * t + 1) ^ 2) + c * (P.mult * ((2 * t + 1) * a)) +
        c * (P.mult * ((2 * t + 1) * (2 * a))) =
        P.mult * c * (a * a + (2 * t + 1) ^ 2 + (2 * t + 1) * a + (2 * t + 1) * (2 * a)) := by ring
      have h8 : P.mult * (c * 3 * (2 * (a + t) + 1) ^ 2) = P.mult * c * (3 * (2 * (a + t) + 1) ^ 2) := by ring
      rw [h8]
      refine le_trans (by omega) (h7.le.trans (Nat.mul_le_mul_left _ ?_))
      nlinarith [Nat.zero_le (a * a), Nat.zero_le (a * t), Nat.zero_le (t * t)]
    omega

theorem queriesB_fst (P : Prices) (o : Poly R) (n : ℕ) (l : List (Poly R)) (hl : ∀ p ∈ l, p.length ≤ n) :
    (queriesB P o l).1 ≤ l.length * (P.query + P.mult * (6 * (o.length + n + 1) ^ 3)) := by
  induction l with
  | nil => simp [queriesB, free]
  | cons q l ih =>
    rw [queriesB, List.length_cons, Nat.succ_mul, Nat.add_comm (l.length * _)]
    refine andThen_fst_le ((tarskiQueryB_fst P o q).trans ?_) fun z _ => ?_
    · have := hl q List.mem_cons_self
      gcongr
    · rw [← Nat.add_zero (l.length * _)]
      exact andThen_fst_le (ih fun p hp => hl p (List.mem_cons_of_mem _ hp)) fun zs _ => le_refl 0

/-- What the evaluation of one polynomial costs at most. -/
def evalPrice (P : Prices) (M : ℕ) : ℕ := 243 * (P.query + P.mult * (8086 * (M + 1) ^ 3))

theorem evaluateSingleB_fst (P : Prices) (E : Env R K) (o : Poly R) (d : DDS R K) (goal : Poly R) (M : ℕ)
    (ho : o.length ≤ M) (hd : ∀ q ∈ d.allPolies, q.length ≤ o.length) (hg : goal.length ≤ M) :
    (evaluateSingleB P E o d goal).1 ≤ evalPrice P M := by
  unfold evaluateSingleB
  split
  · exact Nat.zero_le _
  · simp only
    rw [← Nat.zero_add (evalPrice P M)]
    refine andThen_fst_le (le_refl 0) fun m hm => ?_
    have h5 : (d.allPolies ++ [goal]).length ≤ 5 := by
      by_contra hlt
      simp only [free, getMatrixInverse] at hm
      rw [if_neg (by omega), if_neg (by omega), if_pos (by omega)] at hm
      cases hm
    have hsum : ∀ l : List (Poly R), (∀ q ∈ l, q.length ≤ M) → totalLength l ≤ l.length * M := by
      intro l
      induction l with
      | nil => intro _; simp [totalLength]
      | cons q l ih =>
        intro h
        have h1 := h q List.mem_cons_self
        have h2 := ih fun q hq => h q (List.mem_cons_of_mem _ hq)
        simp only [totalLength, List.map_cons, List.sum_cons, List.length_cons, Nat.succ_mul] at h2 ⊢
        omega
    have hS : totalLength (d.allPolies ++ [goal]) ≤ 5 * M := by
      refine (hsum _ ?_).trans (Nat.mul_le_mul_right _ h5)
      intro q hq
      rcases List.mem_append.1 hq with hq | hq
      · exact (hd q hq).trans ho
      · simp at hq; subst hq; exact hg
    have h3 : 3 ^ (d.allPolies ++ [goal]).length ≤ 243 :=
      (Nat.pow_le_pow_right (by norm_num) h5).trans (by norm_num)
    have hp := makeProductListB_fst P (d.allPolies ++ [goal])
    have hlen : ∀ q ∈ makeProductList (d.allPolies ++ [goal]), q.length ≤ 10 * M + 1 := fun q hq =>
      (makeProductList_mem_length _ q hq).trans (by omega)
    have hq := queriesB_fst P o (10 * M + 1) _ hlen
    rw [length_makeProductList] at hq
    have hq' : (andThen (queriesB P o (makeProductListB P (d.allPolies ++ [goal])).2) fun taq =>
        free (do
          let cMatrix ← matVec m (taq.map fun (z : ℤ) => (z : ℚ))
          pickSignOfGoal (d.allPolies ++ [goal]) d cMatrix)).1 ≤
        243 * (P.query + P.mult * (6 * (11 * M + 2) ^ 3)) + 0 := by
      rw [makeProductListB_snd]
      refine andThen_fst_le (hq.trans ?_) fun _ _ => le_refl 0
      exact Nat.mul_le_mul h3 (Nat.add_le_add_left (Nat.mul_le_mul_left _ (Nat.mul_le_mul_left _
        (Nat.pow_le_pow_left (by omega) 3))) _)
    simp only [pay]
    have hp' : (makeProductListB P (d.allPolies ++ [goal])).1 ≤ P.mult * (243 * (10 * M + 1) ^ 2) := by
      exact hp.trans (Nat.mul_le_mul_left _ (Nat.mul_le_mul h3 (Nat.pow_le_pow_left (by omega) 2)))
    refine (Nat.add_le_add hp' hq').trans ?_
    unfold evalPrice
    have : 243 * (10 * M + 1) ^ 2 + 243 * (6 * (11 * M + 2) ^ 3) ≤ 243 * (8086 * (M + 1) ^ 3) := by
      nlinarith [Nat.zero_le M, Nat.zero_le (M * M), Nat.zero_le (M * M * M)]
    have h9 := Nat.mul_le_mul_left P.mult this
    nlinarith [h9]

theorem eCloseB_fst (P : Prices) (E : Env R K) (o : Poly R) (d : DDS R K) (M : ℕ) (ho : o.length ≤ M)
    (hd : ∀ q ∈ d.allPolies, q.length ≤ o.length) : ∀ (n : ℕ) (p : Poly R), p.length = n → n ≤ M →
    (eCloseB P E o d p).1 ≤ n * (evalPrice P M + P.mult * M) := by
  intro n
  induction n using Nat.strong_induction_on with
  | _ n ih =>
    intro p hn hM
    rw [eCloseB]
    split
    · exact Nat.zero_le _
    · rename_i hp
      have hpos := List.length_pos_iff.2 hp
      obtain ⟨k, rfl⟩ : ∃ k, n = k + 1 := ⟨n - 1, by omega⟩
      have h1 := evaluateSingleB_fst P E o d p M ho hd (by omega)
      have h2 : evalPrice P M ≤ (k + 1) * (evalPrice P M + P.mult * M) := by
        rw [Nat.succ_mul]; omega
      simp only
      split
      · exact h1.trans h2
      · split
        · exact h1.trans h2
        · have h3 := ih k (by omega) (derivative p) (by rw [length_derivative]; omega) (by omega)
          simp only [pay, derivativeB]
          have h4 : P.mult * (p.length - 1) ≤ P.mult * M := Nat.mul_le_mul_left _ (by omega)
          rw [Nat.succ_mul]
          omega

theorem evaluateAllB_fst {eval : Poly R → Billed ℤ} {B : ℕ} (lookup : Lookup R) (l : List (Poly R))
    (h : ∀ p ∈ l, (eval p).1 ≤ (p.length + 1) * B) :
    (evaluateAllB eval lookup l).1 ≤ (l.map fun p => p.length + 1).sum * B := by
  induction l with
  | nil => simp [evaluateAllB, free]
  | cons p l ih =>
    rw [evaluateAllB, List.map_cons, List.sum_cons, Nat.add_mul]
    refine andThen_fst_le (h p List.mem_cons_self) fun s _ => ?_
    rw [← Nat.zero_add (_ * B)]
    refine andThen_fst_le (le_refl 0) fun ok _ => ?_
    split
    · exact Nat.zero_le _
    · exact ih fun q hq => h q (List.mem_cons_of_mem _ hq)

theorem firstTrueB_fst {α : Type} {f : α → Billed Bool} (b : α → ℕ) (l : List α)
    (h : ∀ a ∈ l, (f a).1 ≤ b a) : (firstTrueB f l).1 ≤ (l.map b).sum := by
  induction l with
  | nil => simp [firstTrueB, free]
  | cons a l ih =>
    rw [firstTrueB, List.map_cons, List.sum_cons]
    refine andThen_fst_le (h a List.mem_cons_self) fun s _ => ?_
    split
    · exact Nat.zero_le _
    · exact ih fun q hq => h q (List.mem_cons_of_mem _ hq)

/-- There is at most one description for every root, and it records shorter polynomials only. -/
theorem dds_bounds (φ : R → K) : ∀ (n : ℕ) (p : Poly R) (roots : List K) (ds : List (DDS R K)), p.length = n →
    getDiscriDerSigns φ roots p = .ok ds →
    ds.length ≤ roots.length ∧ ∀ d ∈ ds, ∀ q ∈ d.allPolies, q.length ≤ p.length := by
  intro n
  induction n using Nat.strong_induction_on with
  | _ n ih =>
    intro p roots ds hn h
    unfold getDiscriDerSigns at h
    split at h
    · cases h; simp
    · cases h; simp [DDS.allPolies]
    · rename_i r1 r2 rs
      split at h
      · cases h
      · rename_i hp
        have hpos := List.length_pos_iff.2 hp
        have hdl := length_derivative p
        have hgroup : ∀ (sub : List K) (sign : ℤ) (ds : List (DDS R K)),
            (if sub.length = 0 then (.ok [] : Except Err (List (DDS R K)))
            else do
              let ds ← getDiscriDerSigns φ sub (derivative p)
              if sub.length = (r1 :: r2 :: rs).length then pure ds
              else ds.mapM fun d => d.add (derivative p) sign) = .ok ds →
            ds.length ≤ sub.length ∧ ∀ d ∈ ds, ∀ q ∈ d.allPolies, q.length ≤ p.length := by
          intro sub sign ds h
          split at h
          · cases h; simp
          · cases hrec : getDiscriDerSigns φ sub (derivative p) with
            | error e => rw [hrec] at h; cases h
            | ok ds' =>
              rw [hrec] at h
              obtain ⟨i1, i2⟩ := ih _ (by omega) (derivative p) sub ds' rfl hrec
              simp only [bind, Except.bind] at h
              split at h
              · cases h
                exact ⟨i1, fun d hd q hq => (i2 d hd q hq).trans (by omega)⟩
              · refine ⟨(mapM_len h).trans_le i1, ?_⟩
                have hadd : ∀ (l m : List (DDS R K)), (∀ d ∈ l, ∀ q ∈ d.allPolies, q.length ≤ (derivative p).length) →
                    l.mapM (fun d => d.add (derivative p) sign) = .ok m →
                    ∀ d ∈ m, ∀ q ∈ d.allPolies, q.length ≤ p.length := by
                  intro l
                  induction l with
                  | nil => intro m _ hm; cases hm; simp
                  | cons d l ihl =>
                    intro m hd hm
                    rw [List.mapM_cons] at hm
                    cases hda : d.add (derivative p) sign with
                    | error e => rw [hda] at hm; cases hm
                    | ok d' =>
                      rw [hda] at hm
                      cases hl : l.mapM (fun d => d.add (derivative p) sign) with
                      | error e => rw [hl] at hm; cases hm
                      | ok m' =>
                        rw [hl] at hm
                        cases hm
                        intro x hx q hq
                        rcases List.mem_cons.1 hx with rfl | hx
                        · unfold DDS.add at hda
                          split at hda
                          · cases hda
                          · cases hda
                            simp only [DDS.allPolies, List.map_append, List.mem_append, List.map_cons, List.map_nil,
                              List.mem_singleton] at hq
                            rcases hq with hq | rfl
                            · exact (hd d List.mem_cons_self q hq).trans (by omega)
                            · omega
                        · exact ihl m' (fun d h => hd d (List.mem_cons_of_mem _ h)) hl x hx q hq
                exact hadd ds' ds i2 h
        simp only at h
        generalize hz : (r1 :: r2 :: rs).filter (fun r => !(decide (evaluatePoly φ (derivative p) r > 0)) &&
          !(decide (evaluatePoly φ (derivative p) r < 0))) = Z at h
        generalize hps : (r1 :: r2 :: rs).filter (fun r => decide (evaluatePoly φ (derivative p) r > 0)) = Ps at h
        generalize hng : (r1 :: r2 :: rs).filter (fun r => !(decide (evaluatePoly φ (derivative p) r > 0)) &&
          decide (evaluatePoly φ (derivative p) r < 0)) = Ng at h
        have hsum : Z.length + Ps.length + Ng.length = (r1 :: r2 :: rs).length := by
          rw [← hz, ← hps, ← hng]
          generalize r1 :: r2 :: rs = l
          induction l with
          | nil => rfl
          | cons r l ihl =>
            simp only [List.filter_cons, List.length_cons]
            by_cases h1 : evaluatePoly φ (derivative p) r > 0 <;> by_cases h2 : evaluatePoly φ (derivative p) r < 0 <;>
              simp only [h1, h2, decide_true, decide_false, Bool.not_true, Bool.not_false, Bool.and_true, Bool.and_false,
                Bool.false_eq_true, if_true, if_false, List.length_cons] <;> omega
        rw [← hsum]
        have key : ∀ (g1 g2 g3 : Except Err (List (DDS R K))), (do
            let zs ← g1
            let ps ← g2
            let ns ← g3
            pure (zs ++ ps ++ ns)) = (.ok ds : Except Err (List (DDS R K))) →
            ∃ a b c, g1 = .ok a ∧ g2 = .ok b ∧ g3 = .ok c ∧ ds = a ++ b ++ c := by
          intro g1 g2 g3 h
          cases g1 with
          | error e => cases h
          | ok a =>
            cases g2 with
            | error e => cases h
            | ok b =>
              cases g3 with
              | error e => cases h
              | ok c => cases h; exact ⟨a, b, c, rfl, rfl, rfl, rfl⟩
        obtain ⟨a, b, c, ha, hb, hc, rfl⟩ := key _ _ _ h
        obtain ⟨a1, a2⟩ := hgroup Z 0 a ha
        obtain ⟨b1, b2⟩ := hgroup Ps 1 b hb
        obtain ⟨c1, c2⟩ := hgroup Ng (-1) c hc
        refine ⟨by simp only [List.length_append]; omega, ?_⟩
        intro d hd
        simp only [List.mem_append] at hd
        rcases hd with (hd | hd) | hd
        · exact a2 d hd
        · exact b2 d hd
        · exact c2 d hd

theorem tryRootsB_fst (E : Env R K) {eval : Poly R → DDS R K → Poly R → Billed ℤ} {B : ℕ} (lookup : Lookup R)
    (all : List (Poly R)) (o : Poly R)
    (h : ∀ d : DDS R K, (∀ q ∈ d.allPolies, q.length ≤ o.length) → ∀ p ∈ all, (eval o d p).1 ≤ (p.length + 1) * B)
    (hroots : ∀ rs, E.mkRoots o = .ok rs → rs.length ≤ o.length) :
    (tryRootsB E eval lookup all o).1 ≤ o.length * ((all.map fun p => p.length + 1).sum * B) := by
  unfold tryRootsB
  rw [← Nat.zero_add (o.length * _)]
  refine andThen_fst_le (le_refl 0) fun rs hrs => ?_
  rw [← Nat.zero_add (o.length * _)]
  refine andThen_fst_le (le_refl 0) fun ds hds => ?_
  obtain ⟨h1, h2⟩ := dds_bounds E.φ _ o rs ds rfl hds
  have := firstTrueB_fst (f := fun d => evaluateAllB (eval o d) lookup all)
    (fun _ => (all.map fun p => p.length + 1).sum * B) ds
    fun d hd => evaluateAllB_fst lookup all (h d (h2 d hd))
  rw [List.map_const', List.sum_replicate, smul_eq_mul] at this
  exact this.trans (Nat.mul_le_mul_right _ (h1.trans (hroots rs hrs)))

theorem internalVtsB_fst (P : Prices) (E : Env R K) (le lt eq ne : List (Poly R)) (T : ℕ)
    (hT : ((le ++ lt ++ eq ++ ne).map fun p => p.length + 1).sum = T)
    (hroots : ∀ p ∈ le ++ lt ++ eq ++ ne, ∀ rs, E.mkRoots p = .ok rs → rs.length ≤ p.length) :
    (internalVtsB P E le lt eq ne).1 ≤ T * (T * (evalPrice P T + P.mult * T)) + P.mult * T := by
  have hmem : ∀ p ∈ le ++ lt ++ eq ++ ne, p.length + 1 ≤ T := by
    intro p hp
    rw [← hT]
    exact List.single_le_sum (by simp) _ (List.mem_map_of_mem hp)
  set B := evalPrice P T + P.mult * T with hB
  have h1 : (firstTrueB (tryRootsB E (evaluateSingleB P E) (signConditionsLookup le lt eq ne) (le ++ lt ++ eq ++ ne))
      (le ++ eq)).1 ≤ (((le ++ eq).map List.length).sum) * (T * B) := by
    refine (firstTrueB_fst (fun o => o.length * (T * B)) _ fun o ho => ?_).trans (by rw [List.sum_map_mul_right])
    have ho' : o ∈ le ++ lt ++ eq ++ ne := by
      simp only [List.mem_append] at ho ⊢; tauto
    have := tryRootsB_fst E (eval := evaluateSingleB P E) (B := B) (signConditionsLookup le lt eq ne)
      (le ++ lt ++ eq ++ ne) o (fun d hd p hp => ?_) (hroots o ho')
    · rwa [hT] at this
    · have h2 := hmem p hp
      have h3 := hmem o ho'
      refine (evaluateSingleB_fst P E o d p T (by omega) hd (by omega)).trans ?_
      rw [hB, Nat.succ_mul]
      omega
  have h2 : (firstTrueB (tryRootsB E (eCloseB P E) (signConditionsLookup le lt eq ne) (le ++ lt ++ eq ++ ne))
      (lt ++ ne)).1 ≤ (((lt ++ ne).map List.length).sum) * (T * B) := by
    refine (firstTrueB_fst (fun o => o.length * (T * B)) _ fun o ho => ?_).trans (by rw [List.sum_map_mul_right])
    have ho' : o ∈ le ++ lt ++ eq ++ ne := by
      simp only [List.mem_append] at ho ⊢; tauto
    have := tryRootsB_fst E (eval := eCloseB P E) (B := B) (signConditionsLookup le lt eq ne)
      (le ++ lt ++ eq ++ ne) o (fun d hd p hp => ?_) (hroots o ho')
    · rwa [hT] at this
    · have h2 := hmem p hp
      have h3 := hmem o ho'
      refine (eCloseB_fst P E o d T (by omega) hd _ p rfl (by omega)).trans ?_
      exact Nat.mul_le_mul_right _ (by omega)
  have hsum : ((le ++ eq).map List.length).sum + ((lt ++ ne).map List.length).sum + (le ++ lt ++ eq ++ ne).length = T := by
    rw [← hT]
    simp only [List.map_append, List.sum_append, List.length_append, List.sum_map_add, List.map_const', List.sum_replicate,
      smul_eq_mul, mul_one]
    ring
  unfold internalVtsB
  simp only
  have h3 : T * (T * B) + P.mult * T ≥ ((le ++ eq).map List.length).sum * (T * B) +
      (((lt ++ ne).map List.length).sum * (T * B) + P.mult * (le ++ lt ++ eq ++ ne).length) := by
    have h4 : (((le ++ eq).map List.length).sum + ((lt ++ ne).map List.length).sum) * (T * B) ≤ T * (T * B) :=
      Nat.mul_le_mul_right _ (by omega)
    have h5 : P.mult * (le ++ lt ++ eq ++ ne).length ≤ P.mult * T := Nat.mul_le_mul_left _ (by omega)
    rw [Nat.add_mul] at h4
    omega
  refine le_trans ?_ h3
  refine andThen_fst_le h1 fun b1 _ => ?_
  split
  · exact Nat.zero_le _
  · refine andThen_fst_le h2 fun b2 _ => ?_
    split
    · exact Nat.zero_le _
    · simp only [pay, free, Nat.add_zero]
      exact le_refl _

end Verif.Vts
