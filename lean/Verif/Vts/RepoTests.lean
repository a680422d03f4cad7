import Verif.Vts.Model
import Verif.Vts.IsymModel
import Verif.Vts.ParserModel
import Mathlib.Algebra.Field.Rat
import Mathlib.Algebra.Order.Ring.Rat
import Mathlib.Tactic.Ring

/-!
# The repository's own unit tests, run on the model

These are tests of the model, not proofs of properties: the expected values are those written in
`vts/test_vts.py`, `vts/test_isym.py` and `vts/test_grf_parser.py`.
-/

namespace Verif.Vts.RepoTests

open Verif.Vts

/-- The inverse of the first matrix of signs. -/
def baseInv : Mat := [[1, 0, -1], [0, 1/2, 1/2], [0, -1/2, 1/2]]

def powInv : ℕ → Mat
  | 0 => [[1]]
  | 1 => baseInv
  | n + 2 => kron (powInv (n + 1)) baseInv

/-- The roots that `z3rcf.MkRoots` finds for the polynomials of the tests (all of them rational). -/
def testRoots (p : List ℚ) : List ℚ :=
  if p = [-1, 0, 1] then [-1, 1]
  else if p = [0, 2, -1, -3, 1, 1] then [-2, -1, 0, 1]
  else if p = [-1, 1] then [1]
  else if p = [-2, 1] then [2]
  else if p = [-1, 3, -3, 1] then [1]
  else []

def testEnv : Env ℚ ℚ where
  mkRoots p := .ok (testRoots p)
  inv m := .ok (powInv (if m.length = 3 then 1 else if m.length = 9 then 2 else 3))
  φ := id

/-- `vts/test_vts.py:21-63` `test_remainder` -/
example : ([
      (([1, 1], [1]), []), (([1, 2], [1]), []), (([1, 1], [-1]), []), (([-2, 1], [-1]), []),
      (([1, 1], [-2]), []), (([2, 2], [-2]), []),
      (([1, 1], [0, 1]), [1]), (([-1, 2], [0, 1]), [-1]), (([-2, 1], [0, 1]), [-2]),
      (([1, 1], [0, -1]), [1]), (([-1, 2], [0, -1]), [-1]), (([-2, 1], [0, -1]), [-2]),
      (([1, 1], [0, -2]), [2]), (([-1, 2], [0, -2]), [-2]), (([-2, 1], [0, -2]), [-4]),
      (([1, 1], [1, 1]), []), (([-1, 2], [-1, 1]), [1]), (([-2, 1], [-4, 1]), [2]),
      (([1, 1], [1, -1]), [2]), (([-1, 2], [-1, -1]), [-3]), (([-2, 1], [-4, -1]), [-6]),
      (([1, 1], [1, -2]), [3]), (([-1, 2], [-1, -2]), [-4]), (([-2, 1], [-4, -2]), [-8]),
      (([1, 4, 6], [0, -2]), [4]), (([1, 1], [2, 2, 2]), [1, 1])] :
      List ((List ℤ × List ℤ) × List ℤ)).all
    (fun t => decide (signedPseudoRemainder t.1.1 t.1.2 = .ok t.2)) = true := by decide +kernel

/-- `vts/test_vts.py:65-76` `test_signed_remainder_sequence` -/
example : signedRemainderSequence [24, -50, 35, -10, 1] ([-50, 170, -220, 134, -38, 4] : List ℤ) =
    .ok [[24, -50, 35, -10, 1], [-50, 170, -220, 134, -38, 4], [-24, 50, -35, 10, -1], [98, -174, 90, -14],
      [-196, 272, -76], [28224, -28224]] := by decide +kernel

/-- `vts/test_vts.py:78-100` `test_signed_remainder_cauchy_index` -/
example : ([
      (([0, 1], []), 0), (([1], [1]), 0), (([0, 1], [1]), 1), (([0, -1], [1]), -1), (([0, 1], [-1]), -1),
      (([0, -1], [-1]), 1), (([1, 1], [1, 1]), 0), (([1, 1], [1, 2]), -1), (([1, 2], [1, 1]), 1),
      (([1, 0, 1], [1]), 0), (([1, 0, 1], [0, 1]), 0), (([-1, 0, 1], [1]), 0), (([-1, 0, 1], [0, 1]), 2),
      (([-1, 0, 1], [-1, 1]), 1)] : List ((List ℤ × List ℤ) × ℤ)).all
    (fun t => decide (cauchyIndex t.1.1 t.1.2 = .ok t.2)) = true := by decide +kernel

/-- `vts/test_vts.py:102-123` `test_tarski_query` -/
example : ([
      (([1], [1]), 0), (([1], [0, 1]), 0), (([0, 1], [1]), 1), (([0, 1], [1, 1]), 1), (([0, 1], [-1, 1]), -1),
      (([0, 1], [0, -1, 1]), 0), (([-1, 0, 1], [1]), 2), (([-1, 0, 1], [-1]), -2), (([-1, 0, 1], [0, 1]), 0),
      (([-1, 0, 1], [-1, 1]), -1), (([-1, 0, 1], [1, 1]), 1), (([-1, 0, 1], [-2, 1]), -2),
      (([-1, 0, 1], [2, 1]), 2)] : List ((List ℤ × List ℤ) × ℤ)).all
    (fun t => decide (tarskiQuery t.1.1 t.1.2 = .ok t.2)) = true := by decide +kernel

/-- `vts/test_vts.py:125-140` `test_make_product_list`, for all values of the symbols -/
example : makeProductList ([] : List (List ℤ)) = [[1]] := rfl
example (a0 a1 : ℤ) : makeProductList [[a0, a1]] = [[1], [a0, a1], [a0 ^ 2, 2 * a0 * a1, a1 ^ 2]] := by
  simp [makeProductList, multiply, List.range_succ]
  refine ⟨?_, ?_, ?_⟩ <;> ring

/-- `vts/test_vts.py:142-169` `test_make_product_list_longer`: the order of the products -/
example : makeProductList ([[2, 3], [5, 7, 11]] : List (List ℤ)) =
    let a := [2, 3]; let b := [5, 7, 11]
    [[1], b, multiply b b, a, multiply a b, multiply a (multiply b b), multiply a a, multiply (multiply a a) b,
      multiply (multiply a a) (multiply b b)] := by decide +kernel

/-- The lists that the test looks at: the recorded polynomials with a given sign. -/
def recorded (d : DDS ℚ ℚ) (s : ℤ) : List (List ℚ) := (d.recorded.filter fun e => e.2 = s).map Prod.fst

/-- `vts/test_vts.py:171-217` `test_get_discri_der_signs` -/
example : (([
      (-2, [], [], [[-18, 24, 60], [2, -2, -9, 4, 5]]), (-1, [[2, -2, -9, 4, 5]], [], []),
      (0, [[-18, 24, 60]], [], [[2, -2, -9, 4, 5]]), (1, [], [[2, -2, -9, 4, 5]], [])] :
      List (ℚ × List (List ℚ) × List (List ℚ) × List (List ℚ)))).all (fun t =>
    match getDiscriDerSigns (id : ℚ → ℚ) [-2, -1, 0, 1] [0, 2, -1, -3, 1, 1] with
    | .error _ => false
    | .ok l =>
      match l.filter fun d => d.point = t.1 with
      | [d] => decide (recorded d (-1) = t.2.1) && decide (recorded d 0 = t.2.2.1) && decide (recorded d 1 = t.2.2.2)
      | _ => false) = true := by decide +kernel

/-- A matrix column of zeros with the given entries. -/
def column (l : List (ℕ × ℚ)) : List ℚ := (List.range 27).map fun i => ((l.find? fun e => e.1 = i).map Prod.snd).getD 0

/-- `vts/test_vts.py:219-269` `test_pick_sign_of_goal`; the constants `a`, `b`, `c` are 2, 3, 5 -/
example :
    pickSignOfGoal [[2], [3], [5]] (⟨0, [([2], 0), ([3], 0)]⟩ : DDS ℤ ℚ) (column [(1, 1)]) = .ok 1 ∧
    pickSignOfGoal [[2], [3], [5]] (⟨0, [([2], 0), ([3], 0)]⟩ : DDS ℤ ℚ) (column [(2, 1)]) = .ok (-1) ∧
    pickSignOfGoal [[2], [3], [5]] (⟨0, [([2], -1), ([3], 1)]⟩ : DDS ℤ ℚ) (column [(21, 1)]) = .ok 0 ∧
    pickSignOfGoal [[2], [3], [5]] (⟨0, [([2], -1), ([3], 1)]⟩ : DDS ℤ ℚ) (column [(21, 1), (22, 1)]) =
      .error .multipleSigns ∧
    pickSignOfGoal [[2], [3], [5]] (⟨0, [([2], -1), ([3], 1)]⟩ : DDS ℤ ℚ) (column []) = .error .noEntry ∧
    pickSignOfGoal [[2], [3], [5]] (⟨0, [([2], -1), ([3], 1)]⟩ : DDS ℤ ℚ) (column [(21, 2)]) =
      .error .badCount := by decide +kernel

/-- `make_dds` (`vts/test_vts.py:14-19`) at one of the roots -/
def ddsAt (p : List ℚ) (x : ℚ) : Except Err (DDS ℚ ℚ) := do
  let l ← getDiscriDerSigns id (testRoots p) p
  match l.filter fun d => d.point = x with
  | [d] => .ok d
  | _ => .error .indexError

def evalAt (p : List ℚ) (x : ℚ) (goal : List ℚ) : Except Err ℤ := do
  evaluateSingle testEnv p (← ddsAt p x) goal

def closeAt (p : List ℚ) (x : ℚ) (goal : List ℚ) : Except Err ℤ := do
  eCloseEvaluateSingle testEnv p (← ddsAt p x) goal

/-- `vts/test_vts.py:271-331` `test_evaluate_single_on_sign_assignment` -/
example : ([
      ((-1, [11/10, 1]), 1), ((-1, [1, 1]), 0), ((-1, [9/10, 1]), -1),
      ((1, [-9/10, 1]), 1), ((1, [-1, 1]), 0), ((1, [-11/10, 1]), -1), ((-1, [1, 0, 1]), 1)] :
      List ((ℚ × List ℚ) × ℤ)).all
    (fun t => decide (evalAt [-1, 0, 1] t.1.1 t.1.2 = .ok t.2)) = true := by decide +kernel

def quintic : List ℚ := [0, 2, -1, -3, 1, 1]

example : evalAt quintic (-2) [21/10, 1] = .ok 1 := by decide +kernel
example : evalAt quintic (-2) [2, 1] = .ok 0 := by decide +kernel
example : evalAt quintic (-2) [19/10, 1] = .ok (-1) := by decide +kernel
example : evalAt quintic (-1) [11/10, 1] = .ok 1 := by decide +kernel
example : evalAt quintic (-1) [1, 1] = .ok 0 := by decide +kernel
example : evalAt quintic (-1) [9/10, 1] = .ok (-1) := by decide +kernel
example : evalAt quintic 0 [1/10, 1] = .ok 1 := by decide +kernel
example : evalAt quintic 0 [0, 1] = .ok 0 := by decide +kernel
example : evalAt quintic 0 [-1/10, 1] = .ok (-1) := by decide +kernel
example : evalAt quintic 1 [-1 + 9/10, 1] = .ok 1 := by decide +kernel
example : evalAt quintic 1 [-1, 1] = .ok 0 := by decide +kernel
example : evalAt quintic 1 [-1 - 9/10, 1] = .ok (-1) := by decide +kernel

/-- `vts/test_vts.py:333-350` `test_e_close_evaluate_single_on_sign_assignment` -/
example : ([([-1, 1], 1), ([1, -1], -1), ([-2, 1], -1), ([0, 1], 1), ([1, -2, 1], 1), ([-1, 2, -1], -1)] :
      List (List ℚ × ℤ)).all
    (fun t => decide (closeAt [-1, 0, 1] 1 t.1 = .ok t.2)) = true := by decide +kernel

/-- `vts/test_vts.py:352-375` `test_sign_conditions_lookup`; the constants are 1, 2, 3, 4 -/
example :
    (let l := signConditionsLookup [[1]] [[2]] [[3]] ([[4]] : List (List ℤ)); (l [1], l [2], l [3], l [4])) =
      (some [-1, 0], some [-1], some [0], some [-1, 1]) ∧
    (let l := signConditionsLookup [] [[1], [2]] [] ([] : List (List ℤ)); (l [1], l [2])) = (some [-1], some [-1]) ∧
    (let l := signConditionsLookup [] [] [[1], [2]] ([] : List (List ℤ)); (l [1], l [2])) = (some [0], some [0]) ∧
    (let l := signConditionsLookup [] [] [] ([[1], [2]] : List (List ℤ)); (l [1], l [2])) =
      (some [-1, 1], some [-1, 1]) ∧
    (let l := signConditionsLookup [[1], [2]] [] [] ([] : List (List ℤ)); (l [1], l [2])) =
      (some [-1, 0], some [-1, 0]) := by decide +kernel

def lin1 : List ℚ := [-1, 1]
def lin2 : List ℚ := [-2, 1]
def cub1 : List ℚ := [-1, 3, -3, 1]
def qua : List ℚ := [1, 0, 1]

/-- `vts/test_vts.py:377-419` `test_vts` -/
example : ([
      (([lin1], [], [lin1], []), true), (([lin1], [lin1], [], []), true), (([], [], [lin1], [lin1]), false),
      (([], [], [lin1, lin2], []), false), (([], [], [lin1], [lin2]), true), (([], [], [cub1], []), true),
      (([], [], [cub1, lin1], []), true), (([], [], [cub1], [lin1]), false), (([qua], [], [], []), false),
      (([], [qua], [], []), false), (([], [], [qua], []), false), (([], [], [], [qua]), true)] :
      List ((List (List ℚ) × List (List ℚ) × List (List ℚ) × List (List ℚ)) × Bool)).all
    (fun t => decide (internalVts testEnv t.1.1 t.1.2.1 t.1.2.2.1 t.1.2.2.2 = .ok t.2)) = true := by decide +kernel

/-- `vts/test_isym.py:12-21` `test_convert` -/
example : convert (.int 0) = .ok [] ∧ convert (.int 1) = .ok [1] ∧ convert (.int (-2)) = .ok [-2] ∧
    convert (.expr [(.rat 1, 1)]) = .ok [0, 1] ∧ convert (.expr [(.rat 1, 1), (.rat (-7), 0)]) = .ok [-7, 1] ∧
    convert (.expr [(.rat 3, 2)]) = .ok [0, 0, 3] ∧
    convert (.expr [(.rat (-1/5), 2), (.rat (1/3), 1), (.rat 1, 0)]) = .ok [15, 5, -3] := by decide +kernel

/-- `vts/test_isym.py:38-45` `test_convert_back` -/
example : convertBack [] = .int 0 ∧ convertBack [1] = .number (.rat 1) ∧ convertBack [-2] = .number (.rat (-2)) ∧
    convertBack [0, 1] = .expr [(.rat 1, 1)] ∧ convertBack [-7, 1] = .expr [(.rat 1, 1), (.rat (-7), 0)] ∧
    convertBack [0, 0, 3] = .expr [(.rat 3, 2)] := by
  refine ⟨?_, ?_, ?_, ?_, ?_, ?_⟩ <;> rfl

/-! ## The parser -/

/-- The value and the rest of the text. -/
def run {α : Type} (p : Parser α) (s : String) : Option α :=
  match p ⟨[], 0⟩ s.toList with
  | .ok (_, some (a, _)) => some a
  | _ => none

def v (s : String) : Tm := .var s.toList

/-- `vts/test_grf_parser.py:15-61` `test_nat`, `test_real`, `test_int`, `test_number` -/
example : run realP "0.0" = some (.dec 0) ∧ run realP "24.14241" = some (.dec (2414241 / 100000)) ∧
    run realP "0.9" = some (.dec (9 / 10)) ∧
    run intP "0" = some (.int 0) ∧ run intP "1213" = some (.int 1213) ∧ run intP "-1" = some (.int (-1)) ∧
    run intP "2." = some (.int 2) ∧
    run (realP.alt intP) "0" = some (.int 0) ∧ run (realP.alt intP) "1213" = some (.int 1213) ∧
    run (realP.alt intP) "-1" = some (.int (-1)) ∧ run (realP.alt intP) "0." = some (.int 0) ∧
    run (realP.alt intP) "12.13" = some (.dec (1213 / 100)) ∧ run (realP.alt intP) "-1." = some (.int (-1)) ∧
    run (realP.alt intP) "0.55" = some (.dec (55 / 100)) := by decide +kernel

/-- `vts/test_grf_parser.py:63-77` `test_variable`, `test_var_or_number` -/
example : run varP "aba" = some (v "aba") ∧ run varP "x" = some (v "x") ∧ run varP "x_" = some (v "x_") ∧
    run varP "_" = some (v "_") ∧ run varP "A" = some (v "A") ∧ run varP "x_123" = some (v "x_123") ∧
    run ((realP.alt intP).alt varP) "x" = some (v "x") ∧
    run ((realP.alt intP).alt varP) "1." = some (.int 1) := by decide +kernel

/-- `vts/test_grf_parser.py:79-142`: `test_fn_add` to `test_term`; the model keeps the terms that sympy simplifies. -/
example : run (term 9) "(+ 0 x)" = some (.add (.int 0) (v "x")) ∧ run (term 9) "(+ x 1)" = some (.add (v "x") (.int 1)) ∧
    run (term 9) "(+ 1 2)" = some (.add (.int 1) (.int 2)) ∧ run (term 9) "(+ x y)" = some (.add (v "x") (v "y")) ∧
    run (term 9) "(* x 2)" = some (.mul (v "x") (.int 2)) ∧ run (term 9) "(- 0 x)" = some (.sub (.int 0) (v "x")) ∧
    run (term 9) "(- x y)" = some (.sub (v "x") (v "y")) ∧ run (term 9) "(/ x 2)" = some (.div (v "x") (.int 2)) ∧
    run (term 9) "(- 0)" = some (.neg (.int 0)) ∧ run (term 9) "(-x)" = some (.neg (v "x")) ∧
    run (term 9) "(- 1)" = some (.neg (.int 1)) ∧ run (term 9) "2" = some (.int 2) ∧
    run (term 9) "(-(- x))" = some (.neg (.neg (v "x"))) ∧
    run (term 9) "(-(-(- x)))" = some (.neg (.neg (.neg (v "x")))) ∧
    run (term 9) "( * x (+ 2 (- y)))" = some (.mul (v "x") (.add (.int 2) (.neg (v "y")))) := by decide +kernel

/-- `vts/test_grf_parser.py:144-230`: the relations -/
example : run (fml 9) "(<= x y)" = some ⟨.le, v "x", v "y"⟩ ∧
    run (fml 9) "(<= x (+ 3 2))" = some ⟨.le, v "x", .add (.int 3) (.int 2)⟩ ∧
    run (fml 9) "(< x y)" = some ⟨.lt, v "x", v "y"⟩ ∧ run (fml 9) "(= x y)" = some ⟨.eq, v "x", v "y"⟩ ∧
    run (fml 9) "(!= x y)" = some ⟨.ne, v "x", v "y"⟩ ∧ run (fml 9) "(>= x y)" = some ⟨.ge, v "x", v "y"⟩ ∧
    run (fml 9) "(> x y)" = some ⟨.gt, v "x", v "y"⟩ := by decide +kernel

/-- `vts/test_grf_parser.py:232-242` `test_fmls` -/
example : run (many (fml 9) 9) "" = some [] ∧ run (many (fml 9) 9) "()" = some [] ∧
    run (many (fml 9) 9) "(>= x y)" = some [⟨.ge, v "x", v "y"⟩] ∧
    run (many (fml 9) 9) "(>= x y) (< x y)" = some [⟨.ge, v "x", v "y"⟩, ⟨.lt, v "x", v "y"⟩] ∧
    run (many (fml 9) 9) "(>= 2 2) (< 2 2) (= 3 3)" =
      some [⟨.ge, .int 2, .int 2⟩, ⟨.lt, .int 2, .int 2⟩, ⟨.eq, .int 3, .int 3⟩] := by decide +kernel

/-- `vts/test_grf_parser.py:244-262` `test_cmd_antecedent`, `test_cmd_succedent` -/
example : run (side "antecedent".toList 9) "(antecedent (< x y))" = some [⟨.lt, v "x", v "y"⟩] ∧
    run (side "antecedent".toList 9) "(antecedent (< x y) (= x 7.5))" =
      some [⟨.lt, v "x", v "y"⟩, ⟨.eq, v "x", .dec (75 / 10)⟩] ∧
    run (side "succedent".toList 9) "(succedent (= 2 3) (< 3 (* 2 2)))" =
      some [⟨.eq, .int 2, .int 3⟩, ⟨.lt, .int 3, .mul (.int 2) (.int 2)⟩] := by decide +kernel

/-- `vts/test_grf_parser.py:264-279` `test_cmd` -/
example : run (cmd 9) "(sequent \"nimi\" (antecedent ) (succedent ))" = some ⟨"nimi".toList, [], []⟩ ∧
    run (cmd 9) "(sequent \"nimi\" (antecedent (= x y)) (succedent ))" =
      some ⟨"nimi".toList, [⟨.eq, v "x", v "y"⟩], []⟩ ∧
    run (cmd 9) "(sequent \"nimi\" (antecedent ) (succedent (= x y)))" =
      some ⟨"nimi".toList, [], [⟨.eq, v "x", v "y"⟩]⟩ ∧
    run (cmd 9) "(sequent \"nimi\" (antecedent (= x (-(-x)))) (succedent (= x y)))" =
      some ⟨"nimi".toList, [⟨.eq, v "x", .neg (.neg (v "x"))⟩], [⟨.eq, v "x", v "y"⟩]⟩ := by decide +kernel

end Verif.Vts.RepoTests
