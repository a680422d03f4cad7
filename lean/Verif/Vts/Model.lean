import Mathlib.Algebra.Order.Field.Basic
import Verif.Vts.MatrixModel

/-!
# Model of `vts/uni_vts.py`

A polynomial is the list of its coefficients, index = power, as in the code.  The coefficients are
elements of an ordered commutative ring `R` (Python `int`s: `ℤ`; the code also accepts `z3rcf`
numbers).  Points (`z3rcf` numbers) live in an ordered field `K`, `φ : R → K` is the implicit
coercion of coefficients.  External libraries are the fields of `Env`.

`make_poly_hashabel` (`vts/uni_vts.py:552-553`) turns a polynomial into the tuple of the `str` of
its coefficients to use it as a dictionary key; it is injective on integer coefficients, so the
model uses the polynomial itself as key.
-/

set_option linter.unusedVariables false

namespace Verif.Vts

/-- Coefficient lists. -/
abbrev Poly (R : Type) := List R

/-- The external functions used: `z3rcf.MkRoots` (`vts/uni_vts.py:106,119`), `Matrix.inv`
(`vts/matrix_of_signs.py:133`) and the coercion of coefficients to numbers. -/
structure Env (R K : Type) where
  /-- `z3rcf.MkRoots` -/
  mkRoots : Poly R → Except Err (List K)
  /-- `sympy.Matrix.inv` -/
  inv : Mat → Except Err Mat
  /-- implicit coercion -/
  φ : R → K

variable {R : Type} [CommRing R] [LinearOrder R] {K : Type} [Field K] [LinearOrder K]

/-- `poly[-1]`, an `IndexError` on the empty list. -/
def lastE (p : Poly R) : Except Err R :=
  match p.getLast? with
  | none => .error .indexError
  | some c => .ok c

/-- `vts/uni_vts.py:142-168` `multiply`. The `continue`/`break` statements skip exactly the indices
that the filters below exclude. -/
def multiply (p1 p2 : Poly R) : Poly R :=
  (List.range (p1.length + p2.length - 1)).map fun power =>
    (List.range p1.length).foldl (fun s i =>
      if i + p2.length ≤ power then s
      else if i > power then s
      else (List.range p2.length).foldl (fun s j =>
        if i + j ≠ power then s else s + p1.getD i 0 * p2.getD j 0) s) 0

/-- `vts/uni_vts.py:170-201` `make_product_list`. -/
def makeProductList : List (Poly R) → List (Poly R)
  | [] => [[1]]
  | head :: rest =>
    let square := multiply head head
    let restList := makeProductList rest
    restList ++ restList.map (fun product => multiply product head)
      ++ restList.map (fun product => multiply product square)

/-- `vts/uni_vts.py:670-672` `derivative`. -/
def derivative (p : Poly R) : Poly R :=
  ((p.zip (List.range p.length)).drop 1).map fun cp => cp.1 * (cp.2 : R)

/-- `vts/uni_vts.py:203-253` `signed_pseudo_remainder`. -/
def signedPseudoRemainder (f g : Poly R) : Except Err (Poly R) :=
  match hf : f.getLast? with
  | none => .ok []
  | some lcf =>
    match g.getLast? with
    | none => .error .divZeroPoly
    | some lcg =>
      if lcf = 0 then signedPseudoRemainder f.dropLast g
      else
        let lcg' := if lcg < 0 then -lcg else lcg
        let lcf' := if lcg < 0 then -lcf else lcf
        if f.length < g.length then .ok f
        else
          let padding := List.replicate (f.length - g.length) (0 : R)
          let subtracted := List.zipWith (fun c1 c2 => c1 * lcg' - c2 * lcf') f (padding ++ g)
          signedPseudoRemainder subtracted.dropLast g
termination_by f.length
decreasing_by
  all_goals
    have : f ≠ [] := by rintro rfl; simp at hf
    have := List.length_pos_iff.2 this
    simp
    omega

theorem signedPseudoRemainder_length (f g r : Poly R) (h : signedPseudoRemainder f g = .ok r) :
    r = [] ∨ r.length < g.length := by
  induction hn : f.length using Nat.strong_induction_on generalizing f with
  | _ n ih =>
    rw [signedPseudoRemainder] at h
    split at h
    · simp at h; exact Or.inl h
    · rename_i lcf hf
      have hne : f ≠ [] := by rintro rfl; simp at hf
      have hpos := List.length_pos_iff.2 hne
      split at h
      · simp at h
      · split at h
        · exact ih _ (by simp; omega) _ h rfl
        · simp only at h
          split at h
          · rename_i hlt
            simp only [Except.ok.injEq] at h; subst h; exact Or.inr hlt
          · exact ih _ (by simp; omega) _ h rfl

/-- `vts/uni_vts.py:266-288` `signed_remainder_sequence`. -/
def signedRemainderSequence (p q : Poly R) : Except Err (List (Poly R)) :=
  match h : signedPseudoRemainder p q with
  | .error e => .error e
  | .ok rem =>
    if hr : rem = [] then .ok [p, q]
    else
      match signedRemainderSequence q (rem.map fun c => -c) with
      | .error e => .error e
      | .ok sequence => .ok (p :: sequence)
termination_by q.length
decreasing_by
  have := signedPseudoRemainder_length p q rem h
  simp only [List.length_map]
  tauto

/-- Number of negative products of neighbours, `vts/uni_vts.py:314-321`
(`len(filter(lambda c: c < 0, map(p*n, zip(l[:-1], l[1:]))))`). -/
def countChanges (l : List R) : ℕ :=
  ((List.zipWith (fun p n => p * n) l.dropLast l.tail).filter (fun c => decide (c < 0))).length

/-- `vts/uni_vts.py:290-323` `signed_remainder_cauchy_index`. -/
def cauchyIndex (p q : Poly R) : Except Err ℤ :=
  if q = [] then .ok 0
  else do
    let sequence ← signedRemainderSequence p q
    let negInf ← sequence.mapM fun p => do
      let c ← lastE p
      pure (c * (-1) ^ ((p.length - 1) % 2))
    let posInf ← sequence.mapM lastE
    let fNegInf := negInf.filter (fun c => decide (c ≠ 0))
    let fPosInf := posInf.filter (fun c => decide (c ≠ 0))
    pure ((countChanges fNegInf : ℤ) - countChanges fPosInf)

/-- `vts/uni_vts.py:327-391` `tarski_query`. -/
def tarskiQuery (p q : Poly R) : Except Err ℤ :=
  cauchyIndex p (multiply (derivative p) q)

/-- `vts/uni_vts.py:431-432` `sign_func`. -/
def signFunc {S : Type} [Zero S] [LinearOrder S] (v : S) : ℤ :=
  if v < 0 then -1 else if v > 0 then 1 else 0

/-- `vts/uni_vts.py:756-758` `evaluate_poly`. -/
def evaluatePoly (φ : R → K) (poly : Poly R) (point : K) : K :=
  (poly.zip (List.range poly.length)).foldl (fun s cp => s + φ cp.1 * point ^ cp.2) 0

/-- `vts/uni_vts.py:608-668` class `DiscDerSigns`: the point, and the recorded polynomials with
their signs in the order of `all_polies`. The redundant lists `neg_polies`, `zer_polies`,
`pos_polies` (only used for printing) are dropped. The attribute `origin` is passed separately. -/
structure DDS (R K : Type) where
  /-- `self.point` -/
  point : K
  /-- `self.all_polies` together with `self.__lookup` -/
  recorded : List (Poly R × ℤ)

/-- `vts/uni_vts.py:616-629,639-642` `add_pos_poly`, `add_neg_poly`, `add_zer_poly`. -/
def DDS.add (d : DDS R K) (poly : Poly R) (sign : ℤ) : Except Err (DDS R K) :=
  if poly ∈ d.recorded.map Prod.fst then .error .polyAlreadyThere
  else .ok { d with recorded := d.recorded ++ [(poly, sign)] }

/-- `vts/uni_vts.py:631-632` `get_all_polies`. -/
def DDS.allPolies (d : DDS R K) : List (Poly R) := d.recorded.map Prod.fst

/-- `vts/uni_vts.py:644-645` `get_sign`; `KeyError` if the polynomial is not recorded. -/
def DDS.getSign (d : DDS R K) (poly : Poly R) : Except Err ℤ :=
  match d.recorded.find? (fun e => e.1 = poly) with
  | none => .error .keyError
  | some e => .ok e.2

/-- `vts/uni_vts.py:674-731` `get_discri_der_signs`.  With two or more roots left and no
coefficient left the derivative is again the empty list, all values are `0`, and the Python
recursion does not end: that branch is the error `recursion`. -/
def getDiscriDerSigns (φ : R → K) (roots : List K) (exactPoly : Poly R) :
    Except Err (List (DDS R K)) :=
  match roots with
  | [] => .ok []
  | [r] => .ok [⟨r, []⟩]
  | r1 :: r2 :: rs =>
    if h : exactPoly = [] then .error .recursion
    else
      let roots := r1 :: r2 :: rs
      let der := derivative exactPoly
      let zeroRoots := roots.filter fun r =>
        !(decide (evaluatePoly φ der r > 0)) && !(decide (evaluatePoly φ der r < 0))
      let posRoots := roots.filter fun r => decide (evaluatePoly φ der r > 0)
      let negRoots := roots.filter fun r =>
        !(decide (evaluatePoly φ der r > 0)) && decide (evaluatePoly φ der r < 0)
      let group (sub : List K) (sign : ℤ) : Except Err (List (DDS R K)) :=
        if sub.length = 0 then .ok []
        else do
          let ds ← getDiscriDerSigns φ sub der
          if sub.length = roots.length then pure ds
          else ds.mapM fun d => d.add der sign
      do
        let zs ← group zeroRoots 0
        let ps ← group posRoots 1
        let ns ← group negRoots (-1)
        pure (zs ++ ps ++ ns)
termination_by exactPoly.length
decreasing_by
  have := List.length_pos_iff.2 h
  simp [derivative]
  omega

/-- The dictionary `off_values = {0: 0, 1: 1, -1: 2}`, `vts/uni_vts.py:396`. -/
def offValue (sign : ℤ) : Except Err ℕ :=
  if sign = 0 then .ok 0 else if sign = 1 then .ok 1 else if sign = -1 then .ok 2
  else .error .keyError

/-- `total_shift` loop, `vts/uni_vts.py:403-411`. -/
def totalShift (polies : List (Poly R)) (d : DDS R K) : List (Poly R) → Except Err ℕ
  | [] => .ok 0
  | poly :: rest => do
    let step := 3 ^ polies.length / 3 ^ (polies.idxOf poly + 1)
    let sign ← d.getSign poly
    let off ← offValue sign
    let shift ← totalShift polies d rest
    pure (step * off + shift)

/-- `vts/uni_vts.py:416-424`: the loop over `off_values` (in the iteration order 0, 1, -1). -/
def pickLoop (cMatrix : List ℚ) (shift : ℕ) : List ℤ → Option ℤ → Except Err (Option ℤ)
  | [], goalSign => .ok goalSign
  | sign :: rest, goalSign => do
    let off ← offValue sign
    let count ← match cMatrix[shift + off]? with
      | none => Except.error Err.indexError
      | some c => Except.ok c
    let goalSign ←
      if count = 1 then
        if goalSign ≠ none then Except.error Err.multipleSigns else Except.ok (some sign)
      else Except.ok goalSign
    if count = 0 ∨ count = 1 then pickLoop cMatrix shift rest goalSign
    else .error .badCount

/-- `vts/uni_vts.py:393-429` `pick_sign_of_goal`. -/
def pickSignOfGoal (polies : List (Poly R)) (d : DDS R K) (cMatrix : List ℚ) : Except Err ℤ := do
  let shift ← totalShift polies d polies.dropLast
  match ← pickLoop cMatrix shift [0, 1, -1] none with
  | none => .error .noEntry
  | some s => .ok s

/-- `vts/uni_vts.py:470-549` `evaluate_single_on_sign_assignment`; `origin` is
`discDerSign.origin`. -/
def evaluateSingle (E : Env R K) (origin : Poly R) (d : DDS R K) (goal : Poly R) :
    Except Err ℤ :=
  if goal = origin then .ok 0
  else do
    let polies := d.allPolies ++ [goal]
    let mInv ← getMatrixInverse E.inv polies.length
    let taq ← (makeProductList polies).mapM fun poly => tarskiQuery origin poly
    let cMatrix ← matVec mInv (taq.map fun (z : ℤ) => (z : ℚ))
    pickSignOfGoal polies d cMatrix

/-- The dictionary built by `sign_conditions_lookup`, as a partial function. -/
abbrev Lookup (R : Type) := Poly R → Option (List ℤ)

/-- `lookup[p] = lookup[p].intersection(s)` for every `p` in `l` (`vts/uni_vts.py:560-571`); the
keys are all present because line 558-559 inserted them. -/
def restrictTo (s : List ℤ) (l : List (Poly R)) (d : Lookup R) : Lookup R :=
  l.foldl (fun d p => Function.update d p ((d p).map fun old => old.filter (fun z => z ∈ s))) d

/-- `vts/uni_vts.py:555-572` `sign_conditions_lookup`. -/
def signConditionsLookup (le lt eq ne : List (Poly R)) : Lookup R :=
  let d0 : Lookup R :=
    (le ++ lt ++ eq ++ ne).foldl (fun d p => Function.update d p (some [-1, 0, 1])) fun _ => none
  restrictTo [-1, 1] ne (restrictTo [0] eq (restrictTo [-1] lt (restrictTo [-1, 0] le d0)))

/-- `sign in sign_lookup[...]`, `KeyError` on a missing key. -/
def signAllowed (lookup : Lookup R) (poly : Poly R) (sign : ℤ) : Except Err Bool :=
  match lookup poly with
  | none => .error .keyError
  | some l => .ok (decide (sign ∈ l))

/-- `vts/uni_vts.py:574-583` `e_close_evaluate_single_on_sign_assignment`. -/
def eCloseEvaluateSingle (E : Env R K) (origin : Poly R) (d : DDS R K) (poly : Poly R) :
    Except Err ℤ :=
  if h : poly = [] then .ok 0
  else do
    let current ← evaluateSingle E origin d poly
    if current ≠ 0 then pure current
    else eCloseEvaluateSingle E origin d (derivative poly)
termination_by poly.length
decreasing_by
  have := List.length_pos_iff.2 h
  simp [derivative]
  omega

/-- `vts/uni_vts.py:585-596` and `598-606`: the loop shared by
`e_close_evaluate_on_sign_assignment` and `evaluate_on_sign_assignment`. -/
def evaluateAll (eval : Poly R → Except Err ℤ) (lookup : Lookup R) :
    List (Poly R) → Except Err Bool
  | [] => .ok true
  | poly :: rest => do
    let sign ← eval poly
    let ok ← signAllowed lookup poly sign
    if !ok then pure false else evaluateAll eval lookup rest

/-- `for x in l: if f(x): return True`, falling through to `k` (`vts/uni_vts.py:104-115`). -/
def firstTrue {α : Type} (f : α → Except Err Bool) : List α → Except Err Bool
  | [] => .ok false
  | a :: rest => do
    let b ← f a
    if b then pure true else firstTrue f rest

/-- The body of the two loops of `internal_vts` (`vts/uni_vts.py:104-129`). -/
def tryRoots (E : Env R K) (eval : Poly R → DDS R K → Poly R → Except Err ℤ)
    (lookup : Lookup R) (allPolies : List (Poly R)) (poly : Poly R) : Except Err Bool := do
  let roots ← E.mkRoots poly
  let droots ← getDiscriDerSigns E.φ roots poly
  firstTrue (fun d => evaluateAll (eval poly d) lookup allPolies) droots

/-- `vts/uni_vts.py:131-139`: signs at minus infinity. -/
def checkMinusInfinity (lookup : Lookup R) : List (Poly R) → Except Err Bool
  | [] => .ok true
  | poly :: rest => do
    let c ← lastE poly
    let ok ← signAllowed lookup poly (signFunc (c * (-1) ^ ((poly.length - 1) % 2)))
    if !ok then pure false else checkMinusInfinity lookup rest

/-- `vts/uni_vts.py:99-139` `internal_vts`. -/
def internalVts (E : Env R K) (le lt eq ne : List (Poly R)) : Except Err Bool := do
  let lookup := signConditionsLookup le lt eq ne
  let allPolies := le ++ lt ++ eq ++ ne
  let b1 ← firstTrue (tryRoots E (evaluateSingle E) lookup allPolies) (le ++ eq)
  if b1 then pure true
  else do
    let b2 ← firstTrue (tryRoots E (eCloseEvaluateSingle E) lookup allPolies) (lt ++ ne)
    if b2 then pure true
    else checkMinusInfinity lookup allPolies

end Verif.Vts
