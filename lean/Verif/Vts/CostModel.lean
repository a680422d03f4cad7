import Verif.Vts.Model

/-!
# `internal_vts` with a bill

The functions of `Verif.Vts.Model` that do arithmetic with coefficients, each returning what has been paid until
it returned or raised.  `Prices` says what one Tarski query and one multiplication of two coefficients cost, so
that the prices `⟨1, 0⟩` count queries and `⟨0, 1⟩` count multiplications.  Not on the bill: the work of
`z3rcf` (roots, signs of the derivatives at the roots) and of `matrix_of_signs`, additions and comparisons.
-/

set_option linter.unusedVariables false

namespace Verif.Vts

variable {R : Type} [CommRing R] [LinearOrder R] {K : Type} [Field K] [LinearOrder K]

/-- What is counted. -/
structure Prices where
  /-- price of a call of `tarski_query` -/
  query : ℕ
  /-- price of a multiplication of coefficients -/
  mult : ℕ

/-- A result with what has been paid. -/
abbrev Billed (α : Type) := ℕ × Except Err α

/-- a result that is free -/
def free {α : Type} (x : Except Err α) : Billed α := (0, x)

/-- pay, then go on -/
def pay {α : Type} (n : ℕ) (x : Billed α) : Billed α := (n + x.1, x.2)

/-- one computation after another; an exception ends the computation, not the bill -/
def andThen {α β : Type} (x : Billed α) (f : α → Billed β) : Billed β :=
  match x.2 with
  | .error e => (x.1, .error e)
  | .ok a => (x.1 + (f a).1, (f a).2)

/-- `vts/uni_vts.py:142-168` `multiply`: line 164 is executed once for every pair of coefficients. -/
def multiplyB (P : Prices) (p q : Poly R) : ℕ × Poly R :=
  (P.mult * (p.length * q.length), multiply p q)

/-- `vts/uni_vts.py:670-672` `derivative`: one multiplication for each coefficient but the first. -/
def derivativeB (P : Prices) (p : Poly R) : ℕ × Poly R := (P.mult * (p.length - 1), derivative p)

/-- the multiplications of every element of a list by one polynomial, `vts/uni_vts.py:193-198` -/
def multiplyAllB (P : Prices) (h : Poly R) : List (Poly R) → ℕ × List (Poly R)
  | [] => (0, [])
  | p :: ps => ((multiplyB P p h).1 + (multiplyAllB P h ps).1, (multiplyB P p h).2 :: (multiplyAllB P h ps).2)

/-- `vts/uni_vts.py:170-201` `make_product_list`. -/
def makeProductListB (P : Prices) : List (Poly R) → ℕ × List (Poly R)
  | [] => (0, [[1]])
  | head :: rest =>
    let square := multiplyB P head head
    let restList := makeProductListB P rest
    let once := multiplyAllB P head restList.2
    let twice := multiplyAllB P square.2 restList.2
    (square.1 + restList.1 + once.1 + twice.1, restList.2 ++ once.2 ++ twice.2)

/-- `vts/uni_vts.py:203-253` `signed_pseudo_remainder`: line 252 multiplies twice for every coefficient. -/
def sprB (P : Prices) (f g : Poly R) : Billed (Poly R) :=
  match hf : f.getLast? with
  | none => free (.ok [])
  | some lcf =>
    match g.getLast? with
    | none => free (.error .divZeroPoly)
    | some lcg =>
      if lcf = 0 then sprB P f.dropLast g
      else
        let lcg' := if lcg < 0 then -lcg else lcg
        let lcf' := if lcg < 0 then -lcf else lcf
        if f.length < g.length then free (.ok f)
        else
          let padding := List.replicate (f.length - g.length) (0 : R)
          let subtracted := List.zipWith (fun c1 c2 => c1 * lcg' - c2 * lcf') f (padding ++ g)
          pay (P.mult * (2 * f.length)) (sprB P subtracted.dropLast g)
termination_by f.length
decreasing_by
  all_goals
    have : f ≠ [] := by rintro rfl; simp at hf
    have := List.length_pos_iff.2 this
    simp
    omega

theorem sprB_snd (P : Prices) (g : Poly R) : ∀ (n : ℕ) (f : Poly R), f.length = n →
    (sprB P f g).2 = signedPseudoRemainder f g := by
  intro n
  induction n using Nat.strong_induction_on with
  | _ n ih =>
    intro f hn
    rw [sprB, signedPseudoRemainder]
    cases hf : f.getLast? with
    | none => rfl
    | some lcf =>
      have hne : f ≠ [] := by rintro rfl; simp at hf
      have hpos := List.length_pos_iff.2 hne
      cases hg : g.getLast? with
      | none => rfl
      | some lcg =>
        simp only
        by_cases h0 : lcf = 0
        · rw [if_pos h0, if_pos h0]
          exact ih _ (by rw [List.length_dropLast]; omega) _ rfl
        · rw [if_neg h0, if_neg h0]
          by_cases hl : f.length < g.length
          · rw [if_pos hl, if_pos hl]; rfl
          · rw [if_neg hl, if_neg hl]
            exact ih _ (by simp; omega) _ rfl

/-- `vts/uni_vts.py:266-288` `signed_remainder_sequence`. -/
def srsB (P : Prices) (p q : Poly R) : Billed (List (Poly R)) :=
  match h : (sprB P p q).2 with
  | .error e => ((sprB P p q).1, .error e)
  | .ok rem =>
    if hr : rem = [] then ((sprB P p q).1, .ok [p, q])
    else
      let rest := srsB P q (rem.map fun c => -c)
      ((sprB P p q).1 + rest.1, match rest.2 with
        | .error e => .error e
        | .ok sequence => .ok (p :: sequence))
termination_by q.length
decreasing_by
  rw [sprB_snd P q _ p rfl] at h
  have := signedPseudoRemainder_length p q rem h
  simp only [List.length_map]
  tauto

/-- `vts/uni_vts.py:290-323` `signed_remainder_cauchy_index`: one multiplication for every element of the
sequence at line 305, one for every pair of neighbours at lines 317 and 320. -/
def cauchyIndexB (P : Prices) (p q : Poly R) : Billed ℤ :=
  if q = [] then free (.ok 0)
  else andThen (srsB P p q) fun sequence =>
    andThen (free (sequence.mapM fun p => do
      let c ← lastE p
      pure (c * (-1) ^ ((p.length - 1) % 2)))) fun negInf =>
    andThen (free (sequence.mapM lastE)) fun posInf =>
      let fNegInf := negInf.filter (fun c => decide (c ≠ 0))
      let fPosInf := posInf.filter (fun c => decide (c ≠ 0))
      pay (P.mult * (sequence.length + (fNegInf.length - 1) + (fPosInf.length - 1)))
        (free (.ok ((countChanges fNegInf : ℤ) - countChanges fPosInf)))

/-- `vts/uni_vts.py:327-391` `tarski_query`. -/
def tarskiQueryB (P : Prices) (p q : Poly R) : Billed ℤ :=
  let pDer := derivativeB P p
  let product := multiplyB P pDer.2 q
  pay (P.query + pDer.1 + product.1) (cauchyIndexB P p product.2)

/-- the column of queries, `vts/uni_vts.py:509-511` -/
def queriesB (P : Prices) (origin : Poly R) : List (Poly R) → Billed (List ℤ)
  | [] => free (.ok [])
  | q :: qs => andThen (tarskiQueryB P origin q) fun z =>
      andThen (queriesB P origin qs) fun zs => free (.ok (z :: zs))

/-- `vts/uni_vts.py:470-549` `evaluate_single_on_sign_assignment`. -/
def evaluateSingleB (P : Prices) (E : Env R K) (origin : Poly R) (d : DDS R K) (goal : Poly R) : Billed ℤ :=
  if goal = origin then free (.ok 0)
  else
    let polies := d.allPolies ++ [goal]
    andThen (free (getMatrixInverse E.inv polies.length)) fun mInv =>
      let products := makeProductListB P polies
      pay products.1 (andThen (queriesB P origin products.2) fun taq =>
        free (do
          let cMatrix ← matVec mInv (taq.map fun (z : ℤ) => (z : ℚ))
          pickSignOfGoal polies d cMatrix))

/-- `vts/uni_vts.py:574-583` `e_close_evaluate_single_on_sign_assignment`. -/
def eCloseB (P : Prices) (E : Env R K) (origin : Poly R) (d : DDS R K) (poly : Poly R) : Billed ℤ :=
  if h : poly = [] then free (.ok 0)
  else
    let current := evaluateSingleB P E origin d poly
    match current.2 with
    | .error e => (current.1, .error e)
    | .ok s =>
      if s ≠ 0 then (current.1, .ok s)
      else pay (current.1 + (derivativeB P poly).1) (eCloseB P E origin d (derivativeB P poly).2)
termination_by poly.length
decreasing_by
  have := List.length_pos_iff.2 h
  simp [derivative, derivativeB]
  omega

/-- `vts/uni_vts.py:585-596` and `598-606`: the loop of `e_close_evaluate_on_sign_assignment` and
`evaluate_on_sign_assignment`. -/
def evaluateAllB (eval : Poly R → Billed ℤ) (lookup : Lookup R) : List (Poly R) → Billed Bool
  | [] => free (.ok true)
  | poly :: rest => andThen (eval poly) fun sign =>
      andThen (free (signAllowed lookup poly sign)) fun ok =>
        if !ok then free (.ok false) else evaluateAllB eval lookup rest

/-- `for x in l: if f(x): return True` (`vts/uni_vts.py:104-115`) -/
def firstTrueB {α : Type} (f : α → Billed Bool) : List α → Billed Bool
  | [] => free (.ok false)
  | a :: rest => andThen (f a) fun b => if b then free (.ok true) else firstTrueB f rest

/-- The body of the two loops of `internal_vts` (`vts/uni_vts.py:104-129`). -/
def tryRootsB (E : Env R K) (eval : Poly R → DDS R K → Poly R → Billed ℤ) (lookup : Lookup R)
    (allPolies : List (Poly R)) (poly : Poly R) : Billed Bool :=
  andThen (free (E.mkRoots poly)) fun roots =>
    andThen (free (getDiscriDerSigns E.φ roots poly)) fun droots =>
      firstTrueB (fun d => evaluateAllB (eval poly d) lookup allPolies) droots

/-- `vts/uni_vts.py:99-139` `internal_vts`: lines 131-139 multiply once for every polynomial looked at, at most once
for each; all of them are put on the bill. -/
def internalVtsB (P : Prices) (E : Env R K) (le lt eq ne : List (Poly R)) : Billed Bool :=
  let lookup := signConditionsLookup le lt eq ne
  let allPolies := le ++ lt ++ eq ++ ne
  andThen (firstTrueB (tryRootsB E (evaluateSingleB P E) lookup allPolies) (le ++ eq)) fun b1 =>
    if b1 then free (.ok true)
    else andThen (firstTrueB (tryRootsB E (eCloseB P E) lookup allPolies) (lt ++ ne)) fun b2 =>
      if b2 then free (.ok true)
      else pay (P.mult * allPolies.length) (free (checkMinusInfinity lookup allPolies))

end Verif.Vts
