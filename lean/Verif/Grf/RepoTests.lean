import Verif.Grf.SmtText
import Verif.Grf.PrintModel

/-!
# The repository's own example problems, read and printed by the model

These are tests of the model, not proofs of properties. `GRF/smt2.py:495-1026` (`tests`) contains problems, and in comments
the sequents that the program has shown for them. The texts are read by the model, the hypotheses that the program has
used are promoted in the recorded order, and the shown sequent is compared with the recorded one, up to white space at the
ends of lines. The decision core is not part of these tests; what they use of Sage (division by constants, reduction,
Gröbner bases for leading monomials without common variables, the printing of polynomials) is written here.
-/

namespace Verif.Grf.RepoTests

open Verif.Grf

/-- division by a constant -/
def divConst (p d : MPoly) : Option MPoly :=
  match d with
  | [(m, c)] => if c ≠ 0 ∧ m = [] then some (p.mul (.const c⁻¹)) else none
  | _ => none

/-- the value of a numeral -/
def numVal (neg : Bool) (ds es : List Char) : ℚ :=
  (if neg then -1 else 1) * ((((ds ++ es).foldl (fun n c => 10 * n + (c.toNat - 48)) 0 : ℕ) : ℚ) / 10 ^ es.length)

/-- Exponents with the last variable first: the order "degrevlex" of Sage compares the degrees and then these, a smaller
exponent being better. -/
def revCmp : List ℕ → List ℕ → Bool
  | [], [] => false
  | [], _ :: _ => false
  | _ :: _, [] => false
  | a :: l, b :: r => if a < b then true else if b < a then false else revCmp l r

/-- `a` is greater than `b` (at most 12 variables) -/
def monoGt (a b : Mono) : Bool :=
  if b.deg < a.deg then true
  else if a.deg < b.deg then false
  else revCmp ((List.range 12).map fun i => a.exp (11 - i)) ((List.range 12).map fun i => b.exp (11 - i))

def insertTerm (t : Mono × ℚ) : MPoly → MPoly
  | [] => [t]
  | u :: p => if monoGt t.1 u.1 then t :: u :: p else u :: insertTerm t p

/-- terms in decreasing order -/
def sortTerms (p : MPoly) : MPoly := p.foldr insertTerm []

def natText (n : ℕ) : List Char := Nat.toDigits 10 n

/-- `x3^2*x5` -/
def monoText (m : Mono) : List Char :=
  joinText ['*'] (((List.range m.length).filter fun i => decide (0 < m.exp i)).map fun i =>
    ['x'] ++ natText i ++ if m.exp i = 1 then [] else ['^'] ++ natText (m.exp i))

/-- a positive rational number -/
def ratText (c : ℚ) : List Char := natText c.num.natAbs ++ if c.den = 1 then [] else ['/'] ++ natText c.den

/-- a term without its sign -/
def termText (t : Mono × ℚ) : List Char :=
  if t.1.deg = 0 then ratText |t.2|
  else if |t.2| = 1 then monoText t.1
  else ratText |t.2| ++ ['*'] ++ monoText t.1

/-- Sage's `str` of a polynomial -/
def polyText (p : MPoly) : List Char :=
  match sortTerms p with
  | [] => ['0']
  | t :: q => (if t.2 < 0 then ['-'] else []) ++ termText t ++
      (q.map fun u => (if u.2 < 0 then [' ', '-', ' '] else [' ', '+', ' ']) ++ termText u).flatten

/-- the quotient of monomials -/
def monoDiv (a b : Mono) : Option Mono :=
  if (List.range 12).all fun i => decide (b.exp i ≤ a.exp i) then
    some (((List.range 12).map fun i => a.exp i - b.exp i).reverse.dropWhile (· == 0)).reverse
  else none

/-- one step of a reduction -/
def reduceStep (p : MPoly) (B : List MPoly) : Option MPoly :=
  (B.filterMap fun b =>
    match sortTerms b with
    | [] => none
    | lt :: _ => (p.filterMap fun t =>
        match monoDiv t.1 lt.1 with
        | none => none
        | some m => some (p.sub (b.mul [(m, t.2 / lt.2)]))).head?).head?

/-- `p.reduce(B)`, with a bound on the number of steps -/
def reduceBy : ℕ → MPoly → List MPoly → MPoly
  | 0, p, _ => p
  | n + 1, p, B =>
    match reduceStep p B with
    | none => p
    | some q => reduceBy n q B

/-- every element reduced by the others -/
def interreduce (B : List MPoly) : List MPoly :=
  (List.range B.length).map fun i => reduceBy 20 (B.getD i []) (B.take i ++ B.drop (i + 1))

def sage : Sage ℚ := ⟨reduceBy 20, interreduce, fun _ _ => 0⟩

/-- The core is not used by these tests. -/
def core : Core ℚ := { sage with
  samples := fun _ _ => .ok []
  more := fun _ _ _ => .ok []
  solve := fun _ _ _ => none }

def env : SmtEnv ℚ := ⟨divConst, numVal, fun _ => core, fun _ => none, fun a s => (a, s)⟩

/-- The problem that a text with one sequent gives to the decision loop. (What the core of these tests leaves of the
antecedent and of the succedent is what has been read.) -/
def readState (text : List Char) : Except SErr State :=
  match parseCmds env 0 0 text (SmtReader.new false []).2 with
  | .error e => .error e
  | .ok st =>
    match seqState (st.heap 0).ante (st.heap 0).succ with
    | .error e => .error (.act (.loop e))
    | .ok s => .ok s

/-- Promote the hypotheses with the given original numbers. -/
def promoteIds : List ℕ → State → Except GErr State
  | [], st => .ok st
  | i :: l, st => do
    let st' ← st.promote sage (st.ids.idxOf i)
    promoteIds l st'

/-- the lines of a text, without the spaces at their ends -/
def trimLines (t : List Char) : List (List Char) :=
  (t.splitOn '\n').map fun l => (l.reverse.dropWhile (· == ' ')).reverse

/-- what is shown after the given hypotheses have been promoted -/
def shown (text : List Char) (ids : List ℕ) : Option (List (List Char)) :=
  match readState text with
  | .error _ => none
  | .ok st =>
    match promoteIds ids st with
    | .error _ => none
    | .ok st' => some (trimLines (st'.text polyText natText))

/-- the final hypotheses after the given ones have been promoted -/
def finalShown (text : List Char) (ids : List ℕ) : Option (List Char) :=
  match readState text with
  | .error _ => none
  | .ok st =>
    match promoteIds ids st with
    | .error _ => none
    | .ok st' => some (st'.finalText polyText)

/-- `ex_hiding_30` (`GRF/smt2.py:521`) -/
def ex30 : List Char := "(sequent \"   2 * b * Abs_23  >    (v_3) ^ 2     + 2 * (A + b) * (A / 2 * (ep) ^ 2 + ep * v_3),  t_314 <= ep,  v_290 >= 0,  t_314 >= 0,  v_290 = v_3 + a_8 * t_314,  -t_314 * (v_290 - a_8 / 2 * t_314) <= y_289 - y_3,  y_289 - y_3 <= t_314 * (v_290 - a_8 / 2 * t_314),  -b <= a_8,  a_8 <= A,  v_3 >= 0,  A >= 0,  b >  0,  ep >  0 ==>     2 * b * Abs_23  >    (v_3) ^ 2     + 2 * (A + b) * (A / 2 * (t_314) ^ 2 + t_314 * v_3)  \" (antecedent (> (* (* 2.0 b) Abs_23) (+ (* v_3 v_3) (* (* 2.0 (+ A b)) (+ (* (/ A 2.0) (* ep ep)) (* ep v_3))))) (<= t_314 ep) (>= v_290 0.0) (>= t_314 0.0) (= v_290 (+ v_3 (* a_8 t_314))) (<= (* (- t_314) (- v_290 (* (/ a_8 2.0) t_314))) (- y_289 y_3)) (<= (- y_289 y_3) (* t_314 (- v_290 (* (/ a_8 2.0) t_314)))) (<= (- b) a_8) (<= a_8 A) (>= v_3 0.0) (>= A 0.0) (> b 0.0) (> ep 0.0)) (succedent (> (* (* 2.0 b) Abs_23) (+ (* v_3 v_3) (* (* 2.0 (+ A b)) (+ (* (/ A 2.0) (* t_314 t_314)) (* t_314 v_3)))))))".toList

/-- `ex_hiding_29` (`GRF/smt2.py:586`) -/
def ex29 : List Char := "(sequent \"   2 * b * -(y_3 - oy_10)  >    (v_3) ^ 2     + 2 * (A + b) * (A / 2 * (t_314) ^ 2 + t_314 * v_3),  t_314 <= ep,  v_290 >= 0,  t_314 >= 0,  v_290 = v_3 + a_8 * t_314,  -t_314 * (v_290 - a_8 / 2 * t_314) <= y_289 - y_3,  y_289 - y_3 <= t_314 * (v_290 - a_8 / 2 * t_314),  -b <= a_8,  a_8 <= A,  v_3 >= 0,  A >= 0,  b >  0,  ep >  0 ==>  y_3 - oy_10 >= 0,  y_289 - oy_10 >= 0,  2 * b * -(y_289 - oy_10) >  (v_290) ^ 2  \" (antecedent (> (* (* 2.0 b) (- (- y_3 oy_10))) (+ (* v_3 v_3) (* (* 2.0 (+ A b)) (+ (* (/ A 2.0) (* t_314 t_314)) (* t_314 v_3))))) (<= t_314 ep) (>= v_290 0.0) (>= t_314 0.0) (= v_290 (+ v_3 (* a_8 t_314))) (<= (* (- t_314) (- v_290 (* (/ a_8 2.0) t_314))) (- y_289 y_3)) (<= (- y_289 y_3) (* t_314 (- v_290 (* (/ a_8 2.0) t_314)))) (<= (- b) a_8) (<= a_8 A) (>= v_3 0.0) (>= A 0.0) (> b 0.0) (> ep 0.0)) (succedent (>= (- y_3 oy_10) 0.0) (>= (- y_289 oy_10) 0.0) (> (* (* 2.0 b) (- (- y_289 oy_10))) (* v_290 v_290))))".toList

/-- `ex_hiding_26` (`GRF/smt2.py:620`) -/
def ex26 : List Char := "(sequent \"y_289 - oy_10 >= 0,  y_3 - oy_10 >= 0,     2 * b * (y_3 - oy_10)  >    (v_3) ^ 2     + 2 * (A + b) * (A / 2 * (t_314) ^ 2 + t_314 * v_3),  t_314 <= ep,  v_290 >= 0,  t_314 >= 0,  v_290 = v_3 + a_8 * t_314,  -t_314 * (v_290 - a_8 / 2 * t_314) <= y_289 - y_3,  y_289 - y_3 <= t_314 * (v_290 - a_8 / 2 * t_314),  -b <= a_8,  a_8 <= A,  v_3 >= 0,  A >= 0,  b >  0,  ep >  0 ==>  2 * b * (y_289 - oy_10) >  (v_290) ^ 2  \" (antecedent (>= (- y_289 oy_10) 0.0) (>= (- y_3 oy_10) 0.0) (> (* (* 2.0 b) (- y_3 oy_10)) (+ (* v_3 v_3) (* (* 2.0 (+ A b)) (+ (* (/ A 2.0) (* t_314 t_314)) (* t_314 v_3))))) (<= t_314 ep) (>= v_290 0.0) (>= t_314 0.0) (= v_290 (+ v_3 (* a_8 t_314))) (<= (* (- t_314) (- v_290 (* (/ a_8 2.0) t_314))) (- y_289 y_3)) (<= (- y_289 y_3) (* t_314 (- v_290 (* (/ a_8 2.0) t_314)))) (<= (- b) a_8) (<= a_8 A) (>= v_3 0.0) (>= A 0.0) (> b 0.0) (> ep 0.0)) (succedent (> (* (* 2.0 b) (- y_289 oy_10)) (* v_290 v_290))))".toList

/-- `ex_hiding_25` (`GRF/smt2.py:651`) -/
def ex25 : List Char := "(sequent \"   2 * b * Abs_21  >    (v_3) ^ 2     + 2 * (A + b) * (A / 2 * (ep) ^ 2 + ep * v_3),  t_324 <= ep,  v_298 >= 0,  t_324 >= 0,  v_298 = v_3 + a_8 * t_324,  -t_324 * (v_298 - a_8 / 2 * t_324) <= x_297 - x_3,  x_297 - x_3 <= t_324 * (v_298 - a_8 / 2 * t_324),  -b <= a_8,  a_8 <= A,  v_3 >= 0,  A >= 0,  b >  0,  ep >  0 ==>     2 * b * Abs_21  >    (v_3) ^ 2     + 2 * (A + b) * (A / 2 * (t_324) ^ 2 + t_324 * v_3)  \" (antecedent (> (* (* 2.0 b) Abs_21) (+ (* v_3 v_3) (* (* 2.0 (+ A b)) (+ (* (/ A 2.0) (* ep ep)) (* ep v_3))))) (<= t_324 ep) (>= v_298 0.0) (>= t_324 0.0) (= v_298 (+ v_3 (* a_8 t_324))) (<= (* (- t_324) (- v_298 (* (/ a_8 2.0) t_324))) (- x_297 x_3)) (<= (- x_297 x_3) (* t_324 (- v_298 (* (/ a_8 2.0) t_324)))) (<= (- b) a_8) (<= a_8 A) (>= v_3 0.0) (>= A 0.0) (> b 0.0) (> ep 0.0)) (succedent (> (* (* 2.0 b) Abs_21) (+ (* v_3 v_3) (* (* 2.0 (+ A b)) (+ (* (/ A 2.0) (* t_324 t_324)) (* t_324 v_3)))))))".toList

/-- `ex_hiding_20` (`GRF/smt2.py:688`) -/
def ex20 : List Char := "(sequent \"   2 * b * Abs_19  >    (v_3) ^ 2     + 2 * (A + b) * (A / 2 * (ep) ^ 2 + ep * v_3),  t_355 <= ep,  v_322 >= 0,  t_355 >= 0,  v_322 = v_3 + a_6 * t_355,  -t_355 * (v_322 - a_6 / 2 * t_355) <= y_321 - y_3,  y_321 - y_3 <= t_355 * (v_322 - a_6 / 2 * t_355),  -b <= a_6,  a_6 <= A,  v_3 >= 0,  A >= 0,  b >  0,  ep >  0 ==>     2 * b * Abs_19  >    (v_3) ^ 2     + 2 * (A + b) * (A / 2 * (t_355) ^ 2 + t_355 * v_3)  \" (antecedent (> (* (* 2.0 b) Abs_19) (+ (* v_3 v_3) (* (* 2.0 (+ A b)) (+ (* (/ A 2.0) (* ep ep)) (* ep v_3))))) (<= t_355 ep) (>= v_322 0.0) (>= t_355 0.0) (= v_322 (+ v_3 (* a_6 t_355))) (<= (* (- t_355) (- v_322 (* (/ a_6 2.0) t_355))) (- y_321 y_3)) (<= (- y_321 y_3) (* t_355 (- v_322 (* (/ a_6 2.0) t_355)))) (<= (- b) a_6) (<= a_6 A) (>= v_3 0.0) (>= A 0.0) (> b 0.0) (> ep 0.0)) (succedent (> (* (* 2.0 b) Abs_19) (+ (* v_3 v_3) (* (* 2.0 (+ A b)) (+ (* (/ A 2.0) (* t_355 t_355)) (* t_355 v_3)))))))".toList

/-- `ex_hiding_19` (`GRF/smt2.py:716`) -/
def ex19 : List Char := "(sequent \"   2 * b * -(y_3 - oy_8)  >    (v_3) ^ 2     + 2 * (A + b) * (A / 2 * (t_355) ^ 2 + t_355 * v_3),  t_355 <= ep,  v_322 >= 0,  t_355 >= 0,  v_322 = v_3 + a_6 * t_355,  -t_355 * (v_322 - a_6 / 2 * t_355) <= y_321 - y_3,  y_321 - y_3 <= t_355 * (v_322 - a_6 / 2 * t_355),  -b <= a_6,  a_6 <= A,  v_3 >= 0,  A >= 0,  b >  0,  ep >  0 ==>  y_3 - oy_8 >= 0,  y_321 - oy_8 >= 0,  2 * b * -(y_321 - oy_8) >  (v_322) ^ 2  \" (antecedent (> (* (* 2.0 b) (- (- y_3 oy_8))) (+ (* v_3 v_3) (* (* 2.0 (+ A b)) (+ (* (/ A 2.0) (* t_355 t_355)) (* t_355 v_3))))) (<= t_355 ep) (>= v_322 0.0) (>= t_355 0.0) (= v_322 (+ v_3 (* a_6 t_355))) (<= (* (- t_355) (- v_322 (* (/ a_6 2.0) t_355))) (- y_321 y_3)) (<= (- y_321 y_3) (* t_355 (- v_322 (* (/ a_6 2.0) t_355)))) (<= (- b) a_6) (<= a_6 A) (>= v_3 0.0) (>= A 0.0) (> b 0.0) (> ep 0.0)) (succedent (>= (- y_3 oy_8) 0.0) (>= (- y_321 oy_8) 0.0) (> (* (* 2.0 b) (- (- y_321 oy_8))) (* v_322 v_322)))".toList

/-- `ex_hiding_15` (`GRF/smt2.py:726`) -/
def ex15 : List Char := "(sequent \"   2 * b * Abs_17  >    (v_3) ^ 2     + 2 * (A + b) * (A / 2 * (ep) ^ 2 + ep * v_3),  t_365 <= ep,  v_330 >= 0,  t_365 >= 0,  v_330 = v_3 + a_6 * t_365,  -t_365 * (v_330 - a_6 / 2 * t_365) <= x_329 - x_3,  x_329 - x_3 <= t_365 * (v_330 - a_6 / 2 * t_365),  -b <= a_6,  a_6 <= A,  v_3 >= 0,  A >= 0,  b >  0,  ep >  0 ==>     2 * b * Abs_17  >    (v_3) ^ 2     + 2 * (A + b) * (A / 2 * (t_365) ^ 2 + t_365 * v_3)  \" (antecedent (> (* (* 2.0 b) Abs_17) (+ (* v_3 v_3) (* (* 2.0 (+ A b)) (+ (* (/ A 2.0) (* ep ep)) (* ep v_3))))) (<= t_365 ep) (>= v_330 0.0) (>= t_365 0.0) (= v_330 (+ v_3 (* a_6 t_365))) (<= (* (- t_365) (- v_330 (* (/ a_6 2.0) t_365))) (- x_329 x_3)) (<= (- x_329 x_3) (* t_365 (- v_330 (* (/ a_6 2.0) t_365)))) (<= (- b) a_6) (<= a_6 A) (>= v_3 0.0) (>= A 0.0) (> b 0.0) (> ep 0.0)) (succedent (> (* (* 2.0 b) Abs_17) (+ (* v_3 v_3) (* (* 2.0 (+ A b)) (+ (* (/ A 2.0) (* t_365 t_365)) (* t_365 v_3)))))))".toList

/-- `ex_hiding_10` (`GRF/smt2.py:763`) -/
def ex10 : List Char := "(sequent \"   2 * b * Abs_15  >    (v_3) ^ 2     + 2 * (A + b) * (A / 2 * (ep) ^ 2 + ep * v_3),  t_393 <= ep,  v_351 >= 0,  t_393 >= 0,  v_351 = v_3 + a_4 * t_393,  -t_393 * (v_351 - a_4 / 2 * t_393) <= y_350 - y_3,  y_350 - y_3 <= t_393 * (v_351 - a_4 / 2 * t_393),  -b <= a_4,  a_4 <= A,  v_3 = 0,  A >= 0,  b >  0,  ep >  0 ==>     2 * b * Abs_15  >    (v_3) ^ 2     + 2 * (A + b) * (A / 2 * (t_393) ^ 2 + t_393 * v_3)  \" (antecedent (> (* (* 2.0 b) Abs_15) (+ (* v_3 v_3) (* (* 2.0 (+ A b)) (+ (* (/ A 2.0) (* ep ep)) (* ep v_3))))) (<= t_393 ep) (>= v_351 0.0) (>= t_393 0.0) (= v_351 (+ v_3 (* a_4 t_393))) (<= (* (- t_393) (- v_351 (* (/ a_4 2.0) t_393))) (- y_350 y_3)) (<= (- y_350 y_3) (* t_393 (- v_351 (* (/ a_4 2.0) t_393)))) (<= (- b) a_4) (<= a_4 A) (= v_3 0.0) (>= A 0.0) (> b 0.0) (> ep 0.0)) (succedent (> (* (* 2.0 b) Abs_15) (+ (* v_3 v_3) (* (* 2.0 (+ A b)) (+ (* (/ A 2.0) (* t_393 t_393)) (* t_393 v_3)))))))".toList

/-- `ex_hiding_9` (`GRF/smt2.py:791`) -/
def ex9 : List Char := "(sequent \"   2 * b * -(y_3 - oy_6)  >    (v_3) ^ 2     + 2 * (A + b) * (A / 2 * (t_393) ^ 2 + t_393 * v_3),  t_393 <= ep,  v_351 >= 0,  t_393 >= 0,  v_351 = v_3 + a_4 * t_393,  -t_393 * (v_351 - a_4 / 2 * t_393) <= y_350 - y_3,  y_350 - y_3 <= t_393 * (v_351 - a_4 / 2 * t_393),  -b <= a_4,  a_4 <= A,  v_3 = 0,  A >= 0,  b >  0,  ep >  0 ==>  y_3 - oy_6 >= 0,  y_350 - oy_6 >= 0,  2 * b * -(y_350 - oy_6) >  (v_351) ^ 2  \" (antecedent (> (* (* 2.0 b) (- (- y_3 oy_6))) (+ (* v_3 v_3) (* (* 2.0 (+ A b)) (+ (* (/ A 2.0) (* t_393 t_393)) (* t_393 v_3))))) (<= t_393 ep) (>= v_351 0.0) (>= t_393 0.0) (= v_351 (+ v_3 (* a_4 t_393))) (<= (* (- t_393) (- v_351 (* (/ a_4 2.0) t_393))) (- y_350 y_3)) (<= (- y_350 y_3) (* t_393 (- v_351 (* (/ a_4 2.0) t_393)))) (<= (- b) a_4) (<= a_4 A) (= v_3 0.0) (>= A 0.0) (> b 0.0) (> ep 0.0)) (succedent (>= (- y_3 oy_6) 0.0) (>= (- y_350 oy_6) 0.0) (> (* (* 2.0 b) (- (- y_350 oy_6))) (* v_351 v_351))))".toList

/-- `ex_hiding_7` (`GRF/smt2.py:855`) -/
def ex7 : List Char := "(sequent \"y_3 - oy_6 >= 0,     2 * b * (y_3 - oy_6)  >    (v_3) ^ 2     + 2 * (A + b) * (A / 2 * (t_393) ^ 2 + t_393 * v_3),  t_393 <= ep,  v_351 >= 0,  t_393 >= 0,  v_351 = v_3 + a_4 * t_393,  -t_393 * (v_351 - a_4 / 2 * t_393) <= y_350 - y_3,  y_350 - y_3 <= t_393 * (v_351 - a_4 / 2 * t_393),  -b <= a_4,  a_4 <= A,  v_3 = 0,  A >= 0,  b >  0,  ep >  0 ==>  y_350 - oy_6 >= 0,  2 * b * -(y_350 - oy_6) >  (v_351) ^ 2  \" (antecedent (>= (- y_3 oy_6) 0.0) (> (* (* 2.0 b) (- y_3 oy_6)) (+ (* v_3 v_3) (* (* 2.0 (+ A b)) (+ (* (/ A 2.0) (* t_393 t_393)) (* t_393 v_3))))) (<= t_393 ep) (>= v_351 0.0) (>= t_393 0.0) (= v_351 (+ v_3 (* a_4 t_393))) (<= (* (- t_393) (- v_351 (* (/ a_4 2.0) t_393))) (- y_350 y_3)) (<= (- y_350 y_3) (* t_393 (- v_351 (* (/ a_4 2.0) t_393)))) (<= (- b) a_4) (<= a_4 A) (= v_3 0.0) (>= A 0.0) (> b 0.0) (> ep 0.0)) (succedent (>= (- y_350 oy_6) 0.0) (> (* (* 2.0 b) (- (- y_350 oy_6))) (* v_351 v_351))))".toList

/-- `ex_hiding_5` (`GRF/smt2.py:888`) -/
def ex5 : List Char := "(sequent \"   2 * b * Abs_13  >    (v_3) ^ 2     + 2 * (A + b) * (A / 2 * (ep) ^ 2 + ep * v_3),  t_403 <= ep,  v_359 >= 0,  t_403 >= 0,  v_359 = v_3 + a_4 * t_403,  -t_403 * (v_359 - a_4 / 2 * t_403) <= x_358 - x_3,  x_358 - x_3 <= t_403 * (v_359 - a_4 / 2 * t_403),  -b <= a_4,  a_4 <= A,  v_3 = 0,  A >= 0,  b >  0,  ep >  0 ==>     2 * b * Abs_13  >    (v_3) ^ 2     + 2 * (A + b) * (A / 2 * (t_403) ^ 2 + t_403 * v_3)  \" (antecedent (> (* (* 2.0 b) Abs_13) (+ (* v_3 v_3) (* (* 2.0 (+ A b)) (+ (* (/ A 2.0) (* ep ep)) (* ep v_3))))) (<= t_403 ep) (>= v_359 0.0) (>= t_403 0.0) (= v_359 (+ v_3 (* a_4 t_403))) (<= (* (- t_403) (- v_359 (* (/ a_4 2.0) t_403))) (- x_358 x_3)) (<= (- x_358 x_3) (* t_403 (- v_359 (* (/ a_4 2.0) t_403)))) (<= (- b) a_4) (<= a_4 A) (= v_3 0.0) (>= A 0.0) (> b 0.0) (> ep 0.0)) (succedent (> (* (* 2.0 b) Abs_13) (+ (* v_3 v_3) (* (* 2.0 (+ A b)) (+ (* (/ A 2.0) (* t_403 t_403)) (* t_403 v_3)))))))".toList

/-- `ex_hiding_4` (`GRF/smt2.py:916`) -/
def ex4 : List Char := "(sequent \"   2 * b * -(x_3 - ox_6)  >    (v_3) ^ 2     + 2 * (A + b) * (A / 2 * (t_403) ^ 2 + t_403 * v_3),  t_403 <= ep,  v_359 >= 0,  t_403 >= 0,  v_359 = v_3 + a_4 * t_403,  -t_403 * (v_359 - a_4 / 2 * t_403) <= x_358 - x_3,  x_358 - x_3 <= t_403 * (v_359 - a_4 / 2 * t_403),  -b <= a_4,  a_4 <= A,  v_3 = 0,  A >= 0,  b >  0,  ep >  0 ==>  x_3 - ox_6 >= 0,  x_358 - ox_6 >= 0,  2 * b * -(x_358 - ox_6) >  (v_359) ^ 2  \" (antecedent (> (* (* 2.0 b) (- (- x_3 ox_6))) (+ (* v_3 v_3) (* (* 2.0 (+ A b)) (+ (* (/ A 2.0) (* t_403 t_403)) (* t_403 v_3))))) (<= t_403 ep) (>= v_359 0.0) (>= t_403 0.0) (= v_359 (+ v_3 (* a_4 t_403))) (<= (* (- t_403) (- v_359 (* (/ a_4 2.0) t_403))) (- x_358 x_3)) (<= (- x_358 x_3) (* t_403 (- v_359 (* (/ a_4 2.0) t_403)))) (<= (- b) a_4) (<= a_4 A) (= v_3 0.0) (>= A 0.0) (> b 0.0) (> ep 0.0)) (succedent (>= (- x_3 ox_6) 0.0) (>= (- x_358 ox_6) 0.0) (> (* (* 2.0 b) (- (- x_358 ox_6))) (* v_359 v_359))))".toList

/-- `ex_hiding_2` (`GRF/smt2.py:949`) -/
def ex2 : List Char := "(sequent \"x_3 - ox_6 >= 0,     2 * b * (x_3 - ox_6)  >    (v_3) ^ 2     + 2 * (A + b) * (A / 2 * (t_403) ^ 2 + t_403 * v_3),  t_403 <= ep,  v_359 >= 0,  t_403 >= 0,  v_359 = v_3 + a_4 * t_403,  -t_403 * (v_359 - a_4 / 2 * t_403) <= x_358 - x_3,  x_358 - x_3 <= t_403 * (v_359 - a_4 / 2 * t_403),  -b <= a_4,  a_4 <= A,  v_3 = 0,  A >= 0,  b >  0,  ep >  0 ==>  x_358 - ox_6 >= 0,  2 * b * -(x_358 - ox_6) >  (v_359) ^ 2  \" (antecedent (>= (- x_3 ox_6) 0.0) (> (* (* 2.0 b) (- x_3 ox_6)) (+ (* v_3 v_3) (* (* 2.0 (+ A b)) (+ (* (/ A 2.0) (* t_403 t_403)) (* t_403 v_3))))) (<= t_403 ep) (>= v_359 0.0) (>= t_403 0.0) (= v_359 (+ v_3 (* a_4 t_403))) (<= (* (- t_403) (- v_359 (* (/ a_4 2.0) t_403))) (- x_358 x_3)) (<= (- x_358 x_3) (* t_403 (- v_359 (* (/ a_4 2.0) t_403)))) (<= (- b) a_4) (<= a_4 A) (= v_3 0.0) (>= A 0.0) (> b 0.0) (> ep 0.0)) (succedent (>= (- x_358 ox_6) 0.0) (> (* (* 2.0 b) (- (- x_358 ox_6))) (* v_359 v_359))))".toList

/-- `ex_hiding_1` (`GRF/smt2.py:980`) -/
def ex1 : List Char := "(sequent \"x_358 - ox_6 >= 0,  x_3 - ox_6 >= 0,     2 * b * (x_3 - ox_6)  >    (v_3) ^ 2     + 2 * (A + b) * (A / 2 * (t_403) ^ 2 + t_403 * v_3),  t_403 <= ep,  v_359 >= 0,  t_403 >= 0,  v_359 = v_3 + a_4 * t_403,  -t_403 * (v_359 - a_4 / 2 * t_403) <= x_358 - x_3,  x_358 - x_3 <= t_403 * (v_359 - a_4 / 2 * t_403),  -b <= a_4,  a_4 <= A,  v_3 = 0,  A >= 0,  b >  0,  ep >  0 ==>  2 * b * (x_358 - ox_6) >  (v_359) ^ 2  \" (antecedent (>= (- x_358 ox_6) 0.0) (>= (- x_3 ox_6) 0.0) (> (* (* 2.0 b) (- x_3 ox_6)) (+ (* v_3 v_3) (* (* 2.0 (+ A b)) (+ (* (/ A 2.0) (* t_403 t_403)) (* t_403 v_3))))) (<= t_403 ep) (>= v_359 0.0) (>= t_403 0.0) (= v_359 (+ v_3 (* a_4 t_403))) (<= (* (- t_403) (- v_359 (* (/ a_4 2.0) t_403))) (- x_358 x_3)) (<= (- x_358 x_3) (* t_403 (- v_359 (* (/ a_4 2.0) t_403)))) (<= (- b) a_4) (<= a_4 A) (= v_3 0.0) (>= A 0.0) (> b 0.0) (> ep 0.0)) (succedent (> (* (* 2.0 b) (- x_358 ox_6)) (* v_359 v_359))))".toList

-- `GRF/smt2.py:531-552`
#guard shown ex30 [12, 9, 1, 3, 10, 11, 0] = some (([
    "",
    "  H0: [x6 >= 0]",
    "  H1: [-x5*x7 - x2 + x6 = 0]",
    "  H2: [1/2*x5^2*x7 - x5*x6 - x8 + x9 <= 0]",
    "  H3: [1/2*x5^2*x7 - x5*x6 + x8 - x9 <= 0]",
    "  H4: [-x0 - x7 <= 0]",
    "  H5: [-x3 + x7 <= 0]",
    "|-----------------------------------------",
    "      [x4 > 0] /\\",
    "      [x2 >= 0] /\\",
    "      [-x4 + x5 <= 0] /\\",
    "      [x5 >= 0] /\\",
    "      [x3 >= 0] /\\",
    "      [x0 > 0] /\\",
    "      [-x0*x3*x4^2 - x3^2*x4^2 - 2*x0*x2*x4 - 2*x2*x3*x4 + 2*x0*x1 - x2^2 > 0]",
    "        -->",
    "      [-x0*x3*x5^2 - x3^2*x5^2 - 2*x0*x2*x5 - 2*x2*x3*x5 + 2*x0*x1 - x2^2 > 0]"] : List String).map String.toList)

-- `GRF/smt2.py:552`
#guard finalShown ex30 [12, 9, 1, 3, 10, 11, 0] = some (
    "[x4 > 0]," ++
    " [x2 >= 0]," ++
    " [-x4 + x5 <= 0]," ++
    " [x5 >= 0]," ++
    " [x3 >= 0]," ++
    " [x0 > 0]," ++
    " [-x0*x3*x4^2 - x3^2*x4^2 - 2*x0*x2*x4 - 2*x2*x3*x4 + 2*x0*x1 - x2^2 > 0]").toList

-- `GRF/smt2.py:557-578`
#guard shown ex30 [9, 3, 1, 10, 11, 0] = some (([
    "",
    "  H0: [x6 >= 0]",
    "  H1: [-x5*x7 - x2 + x6 = 0]",
    "  H2: [1/2*x5^2*x7 - x5*x6 - x8 + x9 <= 0]",
    "  H3: [1/2*x5^2*x7 - x5*x6 + x8 - x9 <= 0]",
    "  H4: [-x0 - x7 <= 0]",
    "  H5: [-x3 + x7 <= 0]",
    "  H6: [x4 > 0]",
    "|-----------------------------------------",
    "      [x2 >= 0] /\\",
    "      [x5 >= 0] /\\",
    "      [-x4 + x5 <= 0] /\\",
    "      [x3 >= 0] /\\",
    "      [x0 > 0] /\\",
    "      [-x0*x3*x4^2 - x3^2*x4^2 - 2*x0*x2*x4 - 2*x2*x3*x4 + 2*x0*x1 - x2^2 > 0]",
    "        -->",
    "      [-x0*x3*x5^2 - x3^2*x5^2 - 2*x0*x2*x5 - 2*x2*x3*x5 + 2*x0*x1 - x2^2 > 0]"] : List String).map String.toList)

-- `GRF/smt2.py:578`
#guard finalShown ex30 [9, 3, 1, 10, 11, 0] = some (
    "[x2 >= 0]," ++
    " [x5 >= 0]," ++
    " [-x4 + x5 <= 0]," ++
    " [x3 >= 0]," ++
    " [x0 > 0]," ++
    " [-x0*x3*x4^2 - x3^2*x4^2 - 2*x0*x2*x4 - 2*x2*x3*x4 + 2*x0*x1 - x2^2 > 0]").toList

-- `GRF/smt2.py:590-613`
#guard shown ex29 [11, 13, 4, 0, 2, 3, 8, 6] = some (([
    "",
    "  H0: [x5 - x6 <= 0]",
    "  H1: [1/2*x5^2*x8 - x5*x7 + x1 - x9 <= 0]",
    "  H2: [-x0 - x8 <= 0]",
    "  H3: [x3 >= 0]",
    "  H4: [x4 >= 0]",
    "  H5: [x6 > 0]",
    "  H6: [x1 - x2 < 0]",
    "|-----------------------------------------",
    "      [x0 > 0] /\\",
    "      [-x2 + x9 < 0] /\\",
    "      [-x5*x8 - x3 + x7 = 0] /\\",
    "      [-x0*x4*x5^2 - x4^2*x5^2 - 2*x0*x3*x5 - 2*x3*x4*x5 - 2*x0*x1 + 2*x0*x2 - x3^2 > 0] /\\",
    "      [x7 >= 0] /\\",
    "      [x5 >= 0] /\\",
    "      [-x4 + x8 <= 0] /\\",
    "      [-1/2*x3*x5 - 1/2*x5*x7 - x1 + x9 <= 0]",
    "        -->",
    "      [2*x0*x2 - x7^2 - 2*x0*x9 > 0]"] : List String).map String.toList)

-- `GRF/smt2.py:613`
#guard finalShown ex29 [11, 13, 4, 0, 2, 3, 8, 6] = some (
    "[x0 > 0]," ++
    " [-x2 + x9 < 0]," ++
    " [-x5*x8 - x3 + x7 = 0]," ++
    " [-x0*x4*x5^2 - x4^2*x5^2 - 2*x0*x3*x5 - 2*x3*x4*x5 - 2*x0*x1 + 2*x0*x2 - x3^2 > 0]," ++
    " [x7 >= 0]," ++
    " [x5 >= 0]," ++
    " [-x4 + x8 <= 0]," ++
    " [-1/2*x3*x5 - 1/2*x5*x7 - x1 + x9 <= 0]").toList

-- `GRF/smt2.py:624-647`
#guard shown ex26 [0, 6, 2, 10, 13, 7, 4, 5] = some (([
    "",
    "  H0: [-x1 + x2 >= 0]",
    "  H1: [x6 - x7 <= 0]",
    "  H2: [1/2*x6^2*x9 - x6*x8 + x0 - x2 <= 0]",
    "  H3: [-x3 - x9 <= 0]",
    "  H4: [x4 >= 0]",
    "  H5: [x5 >= 0]",
    "  H6: [x7 > 0]",
    "|-----------------------------------------",
    "      [x0 - x1 >= 0] /\\",
    "      [-x6*x9 - x4 + x8 = 0] /\\",
    "      [-x3*x5*x6^2 - x5^2*x6^2 - 2*x3*x4*x6 - 2*x4*x5*x6 - 2*x1*x3 + 2*x2*x3 - x4^2 > 0] /\\",
    "      [-x5 + x9 <= 0] /\\",
    "      [x3 > 0] /\\",
    "      [-1/2*x4*x6 - 1/2*x6*x8 - x0 + x2 <= 0] /\\",
    "      [x8 >= 0] /\\",
    "      [x6 >= 0]",
    "        -->",
    "      [2*x0*x3 - 2*x1*x3 - x8^2 > 0]"] : List String).map String.toList)

-- `GRF/smt2.py:647`
#guard finalShown ex26 [0, 6, 2, 10, 13, 7, 4, 5] = some (
    "[x0 - x1 >= 0]," ++
    " [-x6*x9 - x4 + x8 = 0]," ++
    " [-x3*x5*x6^2 - x5^2*x6^2 - 2*x3*x4*x6 - 2*x4*x5*x6 - 2*x1*x3 + 2*x2*x3 - x4^2 > 0]," ++
    " [-x5 + x9 <= 0]," ++
    " [x3 > 0]," ++
    " [-1/2*x4*x6 - 1/2*x6*x8 - x0 + x2 <= 0]," ++
    " [x8 >= 0]," ++
    " [x6 >= 0]").toList

-- `GRF/smt2.py:655-676`
#guard shown ex25 [12, 1, 3, 9, 10, 11, 0] = some (([
    "",
    "  H0: [x6 >= 0]",
    "  H1: [-x5*x7 - x2 + x6 = 0]",
    "  H2: [1/2*x5^2*x7 - x5*x6 - x8 + x9 <= 0]",
    "  H3: [1/2*x5^2*x7 - x5*x6 + x8 - x9 <= 0]",
    "  H4: [-x0 - x7 <= 0]",
    "  H5: [-x3 + x7 <= 0]",
    "|-----------------------------------------",
    "      [x4 > 0] /\\",
    "      [-x4 + x5 <= 0] /\\",
    "      [x5 >= 0] /\\",
    "      [x2 >= 0] /\\",
    "      [x3 >= 0] /\\",
    "      [x0 > 0] /\\",
    "      [-x0*x3*x4^2 - x3^2*x4^2 - 2*x0*x2*x4 - 2*x2*x3*x4 + 2*x0*x1 - x2^2 > 0]",
    "        -->",
    "      [-x0*x3*x5^2 - x3^2*x5^2 - 2*x0*x2*x5 - 2*x2*x3*x5 + 2*x0*x1 - x2^2 > 0]"] : List String).map String.toList)

-- `GRF/smt2.py:676`
#guard finalShown ex25 [12, 1, 3, 9, 10, 11, 0] = some (
    "[x4 > 0]," ++
    " [-x4 + x5 <= 0]," ++
    " [x5 >= 0]," ++
    " [x2 >= 0]," ++
    " [x3 >= 0]," ++
    " [x0 > 0]," ++
    " [-x0*x3*x4^2 - x3^2*x4^2 - 2*x0*x2*x4 - 2*x2*x3*x4 + 2*x0*x1 - x2^2 > 0]").toList

-- `GRF/smt2.py:692-713`
#guard shown ex20 [12, 9, 1, 3, 10, 11, 0] = some (([
    "",
    "  H0: [x6 >= 0]",
    "  H1: [-x5*x7 - x2 + x6 = 0]",
    "  H2: [1/2*x5^2*x7 - x5*x6 - x8 + x9 <= 0]",
    "  H3: [1/2*x5^2*x7 - x5*x6 + x8 - x9 <= 0]",
    "  H4: [-x0 - x7 <= 0]",
    "  H5: [-x3 + x7 <= 0]",
    "|-----------------------------------------",
    "      [x4 > 0] /\\",
    "      [x2 >= 0] /\\",
    "      [-x4 + x5 <= 0] /\\",
    "      [x5 >= 0] /\\",
    "      [x3 >= 0] /\\",
    "      [x0 > 0] /\\",
    "      [-x0*x3*x4^2 - x3^2*x4^2 - 2*x0*x2*x4 - 2*x2*x3*x4 + 2*x0*x1 - x2^2 > 0]",
    "        -->",
    "      [-x0*x3*x5^2 - x3^2*x5^2 - 2*x0*x2*x5 - 2*x2*x3*x5 + 2*x0*x1 - x2^2 > 0]"] : List String).map String.toList)

-- `GRF/smt2.py:713`
#guard finalShown ex20 [12, 9, 1, 3, 10, 11, 0] = some (
    "[x4 > 0]," ++
    " [x2 >= 0]," ++
    " [-x4 + x5 <= 0]," ++
    " [x5 >= 0]," ++
    " [x3 >= 0]," ++
    " [x0 > 0]," ++
    " [-x0*x3*x4^2 - x3^2*x4^2 - 2*x0*x2*x4 - 2*x2*x3*x4 + 2*x0*x1 - x2^2 > 0]").toList

-- `GRF/smt2.py:730-751`
#guard shown ex15 [1, 3, 9, 10, 11, 0] = some (([
    "",
    "  H0: [x6 >= 0]",
    "  H1: [-x5*x7 - x2 + x6 = 0]",
    "  H2: [1/2*x5^2*x7 - x5*x6 - x8 + x9 <= 0]",
    "  H3: [1/2*x5^2*x7 - x5*x6 + x8 - x9 <= 0]",
    "  H4: [-x0 - x7 <= 0]",
    "  H5: [-x3 + x7 <= 0]",
    "  H6: [x4 > 0]",
    "|-----------------------------------------",
    "      [-x4 + x5 <= 0] /\\",
    "      [x5 >= 0] /\\",
    "      [x2 >= 0] /\\",
    "      [x3 >= 0] /\\",
    "      [x0 > 0] /\\",
    "      [-x0*x3*x4^2 - x3^2*x4^2 - 2*x0*x2*x4 - 2*x2*x3*x4 + 2*x0*x1 - x2^2 > 0]",
    "        -->",
    "      [-x0*x3*x5^2 - x3^2*x5^2 - 2*x0*x2*x5 - 2*x2*x3*x5 + 2*x0*x1 - x2^2 > 0]"] : List String).map String.toList)

-- `GRF/smt2.py:751`
#guard finalShown ex15 [1, 3, 9, 10, 11, 0] = some (
    "[-x4 + x5 <= 0]," ++
    " [x5 >= 0]," ++
    " [x2 >= 0]," ++
    " [x3 >= 0]," ++
    " [x0 > 0]," ++
    " [-x0*x3*x4^2 - x3^2*x4^2 - 2*x0*x2*x4 - 2*x2*x3*x4 + 2*x0*x1 - x2^2 > 0]").toList

-- `GRF/smt2.py:795-818`
#guard shown ex9 [9, 12, 14, 11, 13, 4, 2, 3, 8, 0, 6] = some (([
    "",
    "  H0: [x5 - x6 <= 0]",
    "  H1: [1/2*x5^2*x8 - x5*x7 + x1 - x9 <= 0]",
    "  H2: [-x0 - x8 <= 0]",
    "  H3: [x4 >= 0]",
    "|-----------------------------------------",
    "      [x3 = 0] /\\",
    "      [x6 > 0] /\\",
    "      [x1 - x2 < 0] /\\",
    "      [x0 > 0] /\\",
    "      [-x2 + x9 < 0] /\\",
    "      [-x5*x8 + x7 = 0] /\\",
    "      [x7 >= 0] /\\",
    "      [x5 >= 0] /\\",
    "      [-x4 + x8 <= 0] /\\",
    "      [-x0*x4*x5^2 - x4^2*x5^2 - 2*x0*x1 + 2*x0*x2 > 0] /\\",
    "      [-1/2*x5*x7 - x1 + x9 <= 0]",
    "        -->",
    "      [2*x0*x2 - x7^2 - 2*x0*x9 > 0]"] : List String).map String.toList)

-- `GRF/smt2.py:818`
#guard finalShown ex9 [9, 12, 14, 11, 13, 4, 2, 3, 8, 0, 6] = some (
    "[x3 = 0]," ++
    " [x6 > 0]," ++
    " [x1 - x2 < 0]," ++
    " [x0 > 0]," ++
    " [-x2 + x9 < 0]," ++
    " [-x5*x8 + x7 = 0]," ++
    " [x7 >= 0]," ++
    " [x5 >= 0]," ++
    " [-x4 + x8 <= 0]," ++
    " [-x0*x4*x5^2 - x4^2*x5^2 - 2*x0*x1 + 2*x0*x2 > 0]," ++
    " [-1/2*x5*x7 - x1 + x9 <= 0]").toList

-- `GRF/smt2.py:823-846`
#guard shown ex9 [9, 11, 13, 4, 2, 3, 8, 0, 6] = some (([
    "",
    "  H0: [x5 - x6 <= 0]",
    "  H1: [1/2*x5^2*x8 - x5*x7 + x1 - x9 <= 0]",
    "  H2: [-x0 - x8 <= 0]",
    "  H3: [x4 >= 0]",
    "  H4: [x6 > 0]",
    "  H5: [x1 - x2 < 0]",
    "|-----------------------------------------",
    "      [x3 = 0] /\\",
    "      [x0 > 0] /\\",
    "      [-x2 + x9 < 0] /\\",
    "      [-x5*x8 + x7 = 0] /\\",
    "      [x7 >= 0] /\\",
    "      [x5 >= 0] /\\",
    "      [-x4 + x8 <= 0] /\\",
    "      [-x0*x4*x5^2 - x4^2*x5^2 - 2*x0*x1 + 2*x0*x2 > 0] /\\",
    "      [-1/2*x5*x7 - x1 + x9 <= 0]",
    "        -->",
    "      [2*x0*x2 - x7^2 - 2*x0*x9 > 0]"] : List String).map String.toList)

-- `GRF/smt2.py:846`
#guard finalShown ex9 [9, 11, 13, 4, 2, 3, 8, 0, 6] = some (
    "[x3 = 0]," ++
    " [x0 > 0]," ++
    " [-x2 + x9 < 0]," ++
    " [-x5*x8 + x7 = 0]," ++
    " [x7 >= 0]," ++
    " [x5 >= 0]," ++
    " [-x4 + x8 <= 0]," ++
    " [-x0*x4*x5^2 - x4^2*x5^2 - 2*x0*x1 + 2*x0*x2 > 0]," ++
    " [-1/2*x5*x7 - x1 + x9 <= 0]").toList

-- `GRF/smt2.py:859-882`
#guard shown ex7 [10, 12, 14, 0, 5, 3, 4, 9, 1, 6] = some (([
    "",
    "  H0: [x5 - x6 <= 0]",
    "  H1: [1/2*x5^2*x8 - x5*x7 - x0 + x9 <= 0]",
    "  H2: [-x2 - x8 <= 0]",
    "  H3: [x4 >= 0]",
    "  H4: [x6 > 0]",
    "|-----------------------------------------",
    "      [x3 = 0] /\\",
    "      [x2 > 0] /\\",
    "      [-x1 + x9 < 0] /\\",
    "      [x0 - x1 >= 0] /\\",
    "      [-x5*x8 + x7 = 0] /\\",
    "      [x7 >= 0] /\\",
    "      [x5 >= 0] /\\",
    "      [-x4 + x8 <= 0] /\\",
    "      [-x2*x4*x5^2 - x4^2*x5^2 + 2*x0*x2 - 2*x1*x2 > 0] /\\",
    "      [-1/2*x5*x7 + x0 - x9 <= 0]",
    "        -->",
    "      [2*x1*x2 - x7^2 - 2*x2*x9 > 0]"] : List String).map String.toList)

-- `GRF/smt2.py:882`
#guard finalShown ex7 [10, 12, 14, 0, 5, 3, 4, 9, 1, 6] = some (
    "[x3 = 0]," ++
    " [x2 > 0]," ++
    " [-x1 + x9 < 0]," ++
    " [x0 - x1 >= 0]," ++
    " [-x5*x8 + x7 = 0]," ++
    " [x7 >= 0]," ++
    " [x5 >= 0]," ++
    " [-x4 + x8 <= 0]," ++
    " [-x2*x4*x5^2 - x4^2*x5^2 + 2*x0*x2 - 2*x1*x2 > 0]," ++
    " [-1/2*x5*x7 + x0 - x9 <= 0]").toList

-- `GRF/smt2.py:892-913`
#guard shown ex5 [9, 12, 10, 11, 0, 1, 3] = some (([
    "",
    "  H0: [x6 >= 0]",
    "  H1: [-x5*x7 - x2 + x6 = 0]",
    "  H2: [1/2*x5^2*x7 - x5*x6 - x8 + x9 <= 0]",
    "  H3: [1/2*x5^2*x7 - x5*x6 + x8 - x9 <= 0]",
    "  H4: [-x0 - x7 <= 0]",
    "  H5: [-x3 + x7 <= 0]",
    "|-----------------------------------------",
    "      [x2 = 0] /\\",
    "      [x4 > 0] /\\",
    "      [x3 >= 0] /\\",
    "      [x0 > 0] /\\",
    "      [-x0*x3*x4^2 - x3^2*x4^2 + 2*x0*x1 > 0] /\\",
    "      [-x4 + x5 <= 0] /\\",
    "      [x5 >= 0]",
    "        -->",
    "      [-x0*x3*x5^2 - x3^2*x5^2 - 2*x0*x2*x5 - 2*x2*x3*x5 + 2*x0*x1 - x2^2 > 0]"] : List String).map String.toList)

-- `GRF/smt2.py:913`
#guard finalShown ex5 [9, 12, 10, 11, 0, 1, 3] = some (
    "[x2 = 0]," ++
    " [x4 > 0]," ++
    " [x3 >= 0]," ++
    " [x0 > 0]," ++
    " [-x0*x3*x4^2 - x3^2*x4^2 + 2*x0*x1 > 0]," ++
    " [-x4 + x5 <= 0]," ++
    " [x5 >= 0]").toList

-- `GRF/smt2.py:920-943`
#guard shown ex4 [9, 12, 14, 11, 13, 4, 2, 3, 8, 0, 6] = some (([
    "",
    "  H0: [x5 - x6 <= 0]",
    "  H1: [1/2*x5^2*x8 - x5*x7 + x1 - x9 <= 0]",
    "  H2: [-x0 - x8 <= 0]",
    "  H3: [x4 >= 0]",
    "|-----------------------------------------",
    "      [x3 = 0] /\\",
    "      [x6 > 0] /\\",
    "      [x1 - x2 < 0] /\\",
    "      [x0 > 0] /\\",
    "      [-x2 + x9 < 0] /\\",
    "      [-x5*x8 + x7 = 0] /\\",
    "      [x7 >= 0] /\\",
    "      [x5 >= 0] /\\",
    "      [-x4 + x8 <= 0] /\\",
    "      [-x0*x4*x5^2 - x4^2*x5^2 - 2*x0*x1 + 2*x0*x2 > 0] /\\",
    "      [-1/2*x5*x7 - x1 + x9 <= 0]",
    "        -->",
    "      [2*x0*x2 - x7^2 - 2*x0*x9 > 0]"] : List String).map String.toList)

-- `GRF/smt2.py:943`
#guard finalShown ex4 [9, 12, 14, 11, 13, 4, 2, 3, 8, 0, 6] = some (
    "[x3 = 0]," ++
    " [x6 > 0]," ++
    " [x1 - x2 < 0]," ++
    " [x0 > 0]," ++
    " [-x2 + x9 < 0]," ++
    " [-x5*x8 + x7 = 0]," ++
    " [x7 >= 0]," ++
    " [x5 >= 0]," ++
    " [-x4 + x8 <= 0]," ++
    " [-x0*x4*x5^2 - x4^2*x5^2 - 2*x0*x1 + 2*x0*x2 > 0]," ++
    " [-1/2*x5*x7 - x1 + x9 <= 0]").toList

-- `GRF/smt2.py:953-976`
#guard shown ex2 [12, 14, 5, 10, 0, 3, 4, 9, 1, 6] = some (([
    "",
    "  H0: [x5 - x6 <= 0]",
    "  H1: [1/2*x5^2*x8 - x5*x7 - x0 + x9 <= 0]",
    "  H2: [-x2 - x8 <= 0]",
    "  H3: [x4 >= 0]",
    "  H4: [x6 > 0]",
    "|-----------------------------------------",
    "      [x2 > 0] /\\",
    "      [-x1 + x9 < 0] /\\",
    "      [-x5*x8 + x7 = 0] /\\",
    "      [x3 = 0] /\\",
    "      [x0 - x1 >= 0] /\\",
    "      [x7 >= 0] /\\",
    "      [x5 >= 0] /\\",
    "      [-x4 + x8 <= 0] /\\",
    "      [-x2*x4*x5^2 - x4^2*x5^2 + 2*x0*x2 - 2*x1*x2 > 0] /\\",
    "      [-1/2*x5*x7 + x0 - x9 <= 0]",
    "        -->",
    "      [2*x1*x2 - x7^2 - 2*x2*x9 > 0]"] : List String).map String.toList)

-- `GRF/smt2.py:976`
#guard finalShown ex2 [12, 14, 5, 10, 0, 3, 4, 9, 1, 6] = some (
    "[x2 > 0]," ++
    " [-x1 + x9 < 0]," ++
    " [-x5*x8 + x7 = 0]," ++
    " [x3 = 0]," ++
    " [x0 - x1 >= 0]," ++
    " [x7 >= 0]," ++
    " [x5 >= 0]," ++
    " [-x4 + x8 <= 0]," ++
    " [-x2*x4*x5^2 - x4^2*x5^2 + 2*x0*x2 - 2*x1*x2 > 0]," ++
    " [-1/2*x5*x7 + x0 - x9 <= 0]").toList

-- `GRF/smt2.py:984-1007`
#guard shown ex1 [6, 2, 13, 7, 4, 5, 10] = some (([
    "",
    "  H0: [x0 - x1 >= 0]",
    "  H1: [-x1 + x2 >= 0]",
    "  H2: [x6 - x7 <= 0]",
    "  H3: [1/2*x6^2*x9 - x6*x8 + x0 - x2 <= 0]",
    "  H4: [-x3 - x9 <= 0]",
    "  H5: [x4 = 0]",
    "  H6: [x5 >= 0]",
    "  H7: [x7 > 0]",
    "|-----------------------------------------",
    "      [-x6*x9 - x4 + x8 = 0] /\\",
    "      [-x3*x5*x6^2 - x5^2*x6^2 - 2*x3*x4*x6 - 2*x4*x5*x6 - 2*x1*x3 + 2*x2*x3 - x4^2 > 0] /\\",
    "      [x3 > 0] /\\",
    "      [-1/2*x4*x6 - 1/2*x6*x8 - x0 + x2 <= 0] /\\",
    "      [x8 >= 0] /\\",
    "      [x6 >= 0] /\\",
    "      [-x5 + x9 <= 0]",
    "        -->",
    "      [2*x0*x3 - 2*x1*x3 - x8^2 > 0]"] : List String).map String.toList)

-- `GRF/smt2.py:1007`
#guard finalShown ex1 [6, 2, 13, 7, 4, 5, 10] = some (
    "[-x6*x9 - x4 + x8 = 0]," ++
    " [-x3*x5*x6^2 - x5^2*x6^2 - 2*x3*x4*x6 - 2*x4*x5*x6 - 2*x1*x3 + 2*x2*x3 - x4^2 > 0]," ++
    " [x3 > 0]," ++
    " [-1/2*x4*x6 - 1/2*x6*x8 - x0 + x2 <= 0]," ++
    " [x8 >= 0]," ++
    " [x6 >= 0]," ++
    " [-x5 + x9 <= 0]").toList

-- "We get a strange parse error on 19" (`GRF/smt2.py:718`): a parenthesis is missing.
#guard readState ex19 = .error .syntax

#guard ((readState (ex19 ++ [')'])).toOption.map fun st => st.hyps.length) = some 15

/-- `ex_metit_1` (`GRF/smt2.py:1011`) -/
def metit1 : List Char := "(sequent \"MetiTarski formula\" (antecedent (<= (* skoXC1 skoXC1) (+ 50.0 skoXC2)) (> 0.0 skoXC1)) (succedent (> (* skoXC1 skoXC1) (+ skoXC1 50.0))))".toList

#guard ((readState metit1).toOption.map fun st => st.hyps.length) = some 2

/-- `ex_metit_2` (`GRF/smt2.py:1013`) -/
def metit2 : List Char := "(sequent \" MetiTarski formula \" (antecedent (<= (* skoSC1 (+ (- 1.) (* skoSC1 (+ (- 1.) (* skoSC1 (+ (/ 1. 6.) (* skoSC1 (/ 1. 6.)))))))) 0.) (> (* skoSC1 (+ 1. (* skoSC1 (+ 1. (* skoSC1 (+ (/ (- 1.) 6.) (* skoSC1 (/ (- 1.) 6.)))))))) 0.) (<= (* skoSC1 (+ (- 10.) (* skoSC1 (+ (- 5.) (* skoSC1 (+ (/ 2. 3.) (* skoSC1 (+ (/ (- 1.) 12.) (* skoSC1 (/ (- 1.) 12.)))))))))) 4.) (<= (* skoSC1 (+ (- 1.) (* skoSC1 (- 1.)))) 0.) (<= (- 1.) skoSC1) (> (* skoSC1 (+ (/ (- 3.) 2.) (* skoSC1 (+ 2. (* skoSC1 (+ (/ 1. 2.) (* skoSC1 (+ (/ (- 1.) 24.) (* skoSC1 (* skoSC1 (+ (/ 1. 720.) (* skoSC1 (* skoSC1 (+ (/ (- 1.) 40320.) (* skoSC1 (* skoSC1 (/ 1. 3628800.))))))))))))))))) (/ 5. 2.)) (> (* skoSC1 (+ (/ (- 3.) 2.) (* skoSC1 (+ 2. (* skoSC1 (/ 1. 2.)))))) (/ 5. 2.)) (<= skoSC1 3.) (<= 0. skoSC1) (> skoSC1 (- 1.)) (> skoSC1 0.) (<= (* skoSC1 (+ (- 10.) (* skoSC1 (+ (- 5.) (* skoSC1 (+ 1. (* skoSC1 (+ (/ (- 1.) 12.) (* skoSC1 (/ (- 1.) 12.)))))))))) 4.) (<= (* skoSC1 (+ (/ 3. 2.) (* skoSC1 (+ (- 2.) (* skoSC1 (/ (- 1.) 2.)))))) (/ (- 5.) 2.))) (succedent (> (* skoSC1 (+ (/ 3. 2.) (* skoSC1 (+ (- 2.) (* skoSC1 (+ (/ (- 1.) 2.) (* skoSC1 (+ (/ 1. 24.) (* skoSC1 (* skoSC1 (+ (/ (- 1.) 720.) (* skoSC1 (* skoSC1 (+ (/ 1. 40320.) (* skoSC1 (* skoSC1 (/ (- 1.) 3628800.))))))))))))))))) (/ (- 5.) 2.))))".toList

#guard ((readState metit2).toOption.map fun st => st.hyps.length) = some 13

/-- `ex_metit_3` (`GRF/smt2.py:1015`) -/
def metit3 : List Char := "(sequent \" MetiTarski formula \" (antecedent (> (* skoXC1 (+ 6. skoXC1)) (- 12.)) (> (* skoYC1 (+ (* skoXC1 (+ (- 72.) (* skoXC1 (+ 36. (* skoXC1 (- 6.)))))) (* skoYC1 (* skoXC1 (+ 12. (* skoXC1 (+ (- 6.) skoXC1))))))) (* skoXC1 (+ (- 144.) (* skoXC1 (+ 72. (* skoXC1 (- 12.))))))) (> (* skoYC1 (+ (* skoXC1 (+ (- 13824.) (* skoXC1 (* skoXC1 (* skoXC1 (+ 144. (* skoXC1 (+ (- 24.) (* skoXC1 (+ (- 24.) (* skoXC1 (+ (- 6.) (* skoXC1 (- 1.)))))))))))))) (* skoYC1 (* skoXC1 2304.)))) (* skoXC1 (- 27648.))) (> (* skoYC1 (+ (* skoXC1 (+ (- 72.) (* skoXC1 (+ 36. (* skoXC1 (- 6.)))))) (* skoYC1 (* skoXC1 (+ 12. (* skoXC1 (+ (- 6.) skoXC1))))))) (* skoXC1 (+ (- 144.) (* skoXC1 (+ 72. (* skoXC1 (- 12.))))))) (<= (* skoYC1 (+ (+ (- 12.) (* skoXC1 (* skoXC1 (- 1.)))) (* skoYC1 (* skoXC1 (- 1.))))) (* skoXC1 12.)) (> (* skoYC1 (+ (* skoXC1 12.) (* skoYC1 (+ (+ 12. (* skoXC1 skoXC1)) (* skoYC1 skoXC1))))) 0.) (> (* skoYC1 (* skoYC1 (* skoYC1 (+ (* skoXC1 (* skoXC1 144.)) (* skoYC1 (+ (* skoXC1 (* skoXC1 (- 24.))) (* skoYC1 (+ (* skoXC1 (* skoXC1 (- 24.))) (* skoYC1 (+ (* skoXC1 (* skoXC1 (- 6.))) (* skoYC1 (* skoXC1 (* skoXC1 (- 1.)))))))))))))) (* skoXC1 (+ (- 27648.) (* skoXC1 (+ 13824. (* skoXC1 (- 2304.))))))) (> (* skoYC1 (+ (* skoXC1 (+ (- 12.) (* skoXC1 (+ 12. (* skoXC1 (+ 5. skoXC1)))))) (* skoYC1 (* skoXC1 (+ 12. (* skoXC1 (+ 5. skoXC1))))))) (* skoXC1 (* skoXC1 12.))) (<= (* skoXC1 (+ (- 6.) (* skoXC1 (- 1.)))) 12.) (<= (* skoYC1 (* skoXC1 (- 1.))) 0.) (<= (* skoXC1 (+ (- 2304.) (* skoXC1 (+ (- 1152.) (* skoXC1 (+ (- 384.) (* skoXC1 (+ (- 84.) (* skoXC1 (+ (- 12.) (* skoXC1 (- 1.)))))))))))) 2304.) (> (* skoYC1 (+ (+ 1. (* skoXC1 (* skoXC1 (/ 1. 12.)))) (* skoYC1 (* skoXC1 (/ 1. 12.))))) (* skoXC1 (- 1.))) (<= 0. skoYC1) (<= (* skoYC1 (+ (* skoXC1 (* skoXC1 (* skoXC1 (/ (- 1.) 12.)))) (* skoYC1 (* skoXC1 (* skoXC1 (/ (- 1.) 12.)))))) (* skoXC1 skoXC1)) (> (* skoYC1 (+ (+ 1. (* skoXC1 (+ (- 1.) (* skoXC1 (/ 1. 12.))))) (* skoYC1 (* skoXC1 (/ 1. 12.))))) (* skoXC1 (- 1.))) (<= (* skoYC1 (+ (+ (- 1.) (* skoXC1 (* skoXC1 (/ (- 1.) 12.)))) (* skoYC1 (* skoXC1 (/ (- 1.) 12.))))) skoXC1) (<= (* skoYC1 (+ (+ (- 1.) (* skoXC1 (+ 1. (* skoXC1 (/ (- 1.) 12.))))) (* skoYC1 (* skoXC1 (/ (- 1.) 12.))))) skoXC1) (> (* skoYC1 skoXC1) 0.) (<= 0. skoXC1) (<= (* skoXC1 (- 1.)) skoYC1) (> skoYC1 (* skoXC1 (- 1.))) (> skoYC1 0.) (> skoXC1 0.)) (succedent (> (* skoYC1 (+ (- 2304.) (* skoYC1 (+ (- 1152.) (* skoYC1 (+ (- 384.) (* skoYC1 (+ (- 84.) (* skoYC1 (+ (- 12.) (* skoYC1 (- 1.)))))))))))) 2304.)))".toList

#guard ((readState metit3).toOption.map fun st => st.hyps.length) = some 23

/-- `ex_metit_4` (`GRF/smt2.py:1017`) -/
def metit4 : List Char := "(sequent \" MetiTarski formula \" (antecedent (!= (* skoSM1C1 (* skoSM1C1 (* skoSM1C1 (* skoSM1C1 (* skoSM1C1 (* skoSM1C1 (* skoSM1C1 (* skoSM1C1 (* skoSM1C1 (* skoSM1C1 (* skoSM1C1 (* skoSM1C1 skoSM1C1)))))))))))) 0.) (!= (* skoSM1C1 (* skoSM1C1 (* skoSM1C1 (* skoSM1C1 (* skoSM1C1 (* skoSM1C1 (* skoSM1C1 (* skoSM1C1 (* skoSM1C1 (* skoSM1C1 (* skoSM1C1 skoSM1C1))))))))))) 0.) (!= (* skoSM1C1 (* skoSM1C1 (* skoSM1C1 (* skoSM1C1 (* skoSM1C1 (* skoSM1C1 (* skoSM1C1 (* skoSM1C1 (* skoSM1C1 (* skoSM1C1 skoSM1C1)))))))))) 0.) (!= (* skoSM1C1 (* skoSM1C1 (* skoSM1C1 (* skoSM1C1 (* skoSM1C1 (* skoSM1C1 (* skoSM1C1 (* skoSM1C1 (* skoSM1C1 skoSM1C1))))))))) 0.) (!= (* skoSM1C1 (* skoSM1C1 (* skoSM1C1 (* skoSM1C1 (* skoSM1C1 (* skoSM1C1 (* skoSM1C1 (* skoSM1C1 skoSM1C1)))))))) 0.) (!= (* skoSM1C1 (* skoSM1C1 (* skoSM1C1 (* skoSM1C1 (* skoSM1C1 (* skoSM1C1 (* skoSM1C1 skoSM1C1))))))) 0.) (!= (* skoSM1C1 (* skoSM1C1 (* skoSM1C1 (* skoSM1C1 (* skoSM1C1 (* skoSM1C1 skoSM1C1)))))) 0.) (!= (* skoSM1C1 (* skoSM1C1 (* skoSM1C1 (* skoSM1C1 (* skoSM1C1 skoSM1C1))))) 0.) (!= (* skoSM1C1 (* skoSM1C1 (* skoSM1C1 (* skoSM1C1 skoSM1C1)))) 0.) (!= (* skoSM1C1 (* skoSM1C1 (* skoSM1C1 skoSM1C1))) 0.) (!= (* skoSM1C1 (* skoSM1C1 skoSM1C1)) 0.) (!= (* skoSM1C1 skoSM1C1) 0.) (!= skoSM1C1 0.) (> skoXC1 1.) (> skoSP1C1 0.) (> skoSM1C1 0.) (> skoSC1 0.)) (succedent (<= 5. skoXC1)))".toList

#guard ((readState metit4).toOption.map fun st => st.hyps.length) = some 17

/-- `ex_metit_5` (`GRF/smt2.py:1019`) -/
def metit5 : List Char := "(sequent \" MetiTarski formula \" (antecedent (> (* skoZC1 (+ (+ (+ (+ (- 2.) (* skoWC1 (* skoWC1 (/ 1. 2.)))) (* skoXC1 (+ skoWC1 (* skoXC1 (/ 1. 2.))))) (* skoYC1 (+ (+ skoWC1 skoXC1) (* skoYC1 (/ 1. 2.))))) (* skoZC1 (+ (+ (+ (* skoWC1 (/ 1. 2.)) (* skoXC1 (/ 1. 2.))) (* skoYC1 (/ 1. 2.))) (* skoZC1 (/ 1. 3.)))))) (+ (+ (* skoWC1 (+ 2. (* skoWC1 (* skoWC1 (/ (- 1.) 3.))))) (* skoXC1 (+ (+ 2. (* skoWC1 (* skoWC1 (/ (- 1.) 2.)))) (* skoXC1 (+ (* skoWC1 (/ (- 1.) 2.)) (* skoXC1 (/ (- 1.) 3.))))))) (* skoYC1 (+ (+ (+ 2. (* skoWC1 (* skoWC1 (/ (- 1.) 2.)))) (* skoXC1 (+ (* skoWC1 (- 1.)) (* skoXC1 (/ (- 1.) 2.))))) (* skoYC1 (+ (+ (* skoWC1 (/ (- 1.) 2.)) (* skoXC1 (/ (- 1.) 2.))) (* skoYC1 (/ (- 1.) 6.)))))))) (> skoXC1 0.) (> skoWC1 0.) (> skoZC1 (+ (+ (* skoWC1 (- 1.)) (* skoXC1 (- 1.))) (* skoYC1 (- 1.)))) (> 3. skoWC1) (> 3. skoXC1) (> 3. skoYC1) (> 3. skoZC1) (> skoWC1 (/ 1. 10.)) (> skoXC1 (/ 1. 10.)) (> skoYC1 (/ 1. 10.))) (succedent (<= skoZC1 (/ 1. 10.))))".toList

#guard ((readState metit5).toOption.map fun st => st.hyps.length) = some 11

-- the first of them in full (there is no recorded output)
#guard shown metit1 [1] = some (([
    "",
    "  H0: [x0^2 - x1 - 50 <= 0]",
    "|-----------------------------------------",
    "      [-x0 > 0]",
    "        -->",
    "      [x0^2 - x0 - 50 > 0]"] : List String).map String.toList)

end Verif.Grf.RepoTests
