import Verif.Vts.ExamplesModel

/-!
# The repository's example files, read by the model

These are tests of the model, not proofs of properties. `vts/Examples` contains the files that
`write_sympy_parseable_examples` (`vts/examples_parser.py:24-41`) has written: the sequents of the files below
`GRF/Examples`, read by the program, converted to one variable and pickled. Here the texts of some of these files are read
and converted by the model, and the result is compared with the contents of the pickled file. All 68 files that are in both
directories (2419 sequents) are compared by `tools/compare_examples.sh`.

Floating point numbers of the program are compared as the rational numbers that they are.
-/

namespace Verif.Vts.RepoExamples

/-- A term with every variable replaced by `x`; decimals are rational numbers. -/
def value : Tm → Option (List ℚ)
  | .int z => some [(z : ℚ)]
  | .dec q => some [q]
  | .var _ => some [0, 1]
  | .add a b => do some (addC (← value a) (← value b))
  | .sub a b => do some (addC (← value a) ((← value b).map (-1 * ·)))
  | .mul a b => do some (mulC (← value a) (← value b))
  | .neg a => do some ((← value a).map (-1 * ·))
  | .div a b => do
    let p ← value a
    match nonzeroTerms (← value b) with
    | [(c, 0)] => some (p.map (c⁻¹ * ·))
    | _ => none

/-- whether a variable occurs -/
def hasVar : Tm → Bool
  | .int _ => false
  | .dec _ => false
  | .var _ => true
  | .add a b => hasVar a || hasVar b
  | .sub a b => hasVar a || hasVar b
  | .mul a b => hasVar a || hasVar b
  | .div a b => hasVar a || hasVar b
  | .neg a => hasVar a

/-- What sympy does, as far as the example files need it. -/
def env : SympyEnv where
  num t := if hasVar t then none else (value t).map fun l => l.getD 0 0
  other r :=
    match value (.sub r.lhs r.rhs) with
    | none => .rel ⟨r.kind, .multi, .multi⟩
    | some l =>
      match toExpr l with
      | .number (.rat c) => .ofBool (r.kind.test c 0)
      | e => .rel ⟨r.kind, e, .number (.rat 0)⟩

def kindText : RelKind → String
  | .le => "le"
  | .lt => "lt"
  | .eq => "eq"
  | .ne => "ne"
  | .ge => "ge"
  | .gt => "gt"

def ratText (q : ℚ) : String := if q.den = 1 then toString q.num else s!"{q.num}/{q.den}"

/-- the coefficients, constant first -/
def polyText : SPoly → String
  | .expr ts =>
    let c := fun i =>
      match ts.find? fun t => t.2 == i with
      | some (.rat c, _) => ratText c
      | some _ => "?"
      | none => "0"
    "[" ++ ",".intercalate ((List.range ((ts.map Prod.snd).foldl max 0 + 1)).map c) ++ "]"
  | _ => "?"

def relText : PyRel SPoly → String
  | .tt => "tt"
  | .ff => "ff"
  | .rel r => kindText r.kind ++ polyText r.lhs

/-- The examples of a file, one line for each. -/
def examples (text : String) : List String :=
  match parseFile ⟨[], 0⟩ text.toList with
  | .error _ => ["exception"]
  | .ok (_, l) => l.map fun q =>
    match env.example1 q with
    | .error _ => "exception"
    | .ok (a, s) => " ".intercalate (a.map relText) ++ " |- " ++ " ".intercalate (s.map relText)

/-- For `tools/compare_examples.sh`: the examples of all files of a directory. -/
def printDir (dir label : String) : IO Unit := do
  let files ← System.FilePath.readDir dir
  for f in files.qsort fun a b => a.fileName < b.fileName do
    IO.println ("## " ++ label ++ "/" ++ f.fileName)
    let text ← IO.FS.readFile f.path
    for l in examples text do
      IO.println l

-- `vts/Examples/HidingProblems/DWA_StationaryObstacles_ArcTraj_onlyleaves_nodivision_lessstupid.key_1.smt.pkl`
#guard examples (
    "(sequent \"x_358 - ox_6 >= 0,  x_3 - ox_6 >= 0,     2 * b * (x_3 - ox_6)  >    (v_3) ^ 2     + 2 * (A" ++
    " + b) * (A / 2 * (t_403) ^ 2 + t_403 * v_3),  t_403 <= ep,  v_359 >= 0,  t_403 >= 0,  v_359 = v_3 + " ++
    "a_4 * t_403,  -t_403 * (v_359 - a_4 / 2 * t_403) <= x_358 - x_3,  x_358 - x_3 <= t_403 * (v_359 - a_" ++
    "4 / 2 * t_403),  -b <= a_4,  a_4 <= A,  v_3 = 0,  A >= 0,  b >  0,  ep >  0 ==>  2 * b * (x_358 - ox" ++
    "_6) >  (v_359) ^ 2  \" (antecedent (>= (- x_358 ox_6) 0.0) (>= (- x_3 ox_6) 0.0) (> (* (* 2.0 b) (- x" ++
    "_3 ox_6)) (+ (* v_3 v_3) (* (* 2.0 (+ A b)) (+ (* (/ A 2.0) (* t_403 t_403)) (* t_403 v_3))))) (<= t" ++
    "_403 ep) (>= v_359 0.0) (>= t_403 0.0) (= v_359 (+ v_3 (* a_4 t_403))) (<= (* (- t_403) (- v_359 (* " ++
    "(/ a_4 2.0) t_403))) (- x_358 x_3)) (<= (- x_358 x_3) (* t_403 (- v_359 (* (/ a_4 2.0) t_403)))) (<=" ++
    " (- b) a_4) (<= a_4 A) (= v_3 0.0) (>= A 0.0) (> b 0.0) (> ep 0.0)) (succedent (> (* (* 2.0 b) (- x_" ++
    "358 ox_6)) (* v_359 v_359))))") =
  [("tt tt gt[0,0,-1,-4,-2] tt ge[0,1] ge[0,1] eq[0,0,-1] le[0,0,-1,1/2] le[0,0,-1,1/2] le[0,-2] tt eq[0," ++
    "1] ge[0,1] gt[0,1] gt[0,1] |- gt[0,0,-1]")]

-- `vts/Examples/HidingProblems/DWA_StationaryObstacles_ArcTraj_onlyleaves_nodivision_lessstupid.key_10.smt.pkl`
#guard examples (
    "(sequent \"   2 * b * Abs_15  >    (v_3) ^ 2     + 2 * (A + b) * (A / 2 * (ep) ^ 2 + ep * v_3),  t_39" ++
    "3 <= ep,  v_351 >= 0,  t_393 >= 0,  v_351 = v_3 + a_4 * t_393,  -t_393 * (v_351 - a_4 / 2 * t_393) <" ++
    "= y_350 - y_3,  y_350 - y_3 <= t_393 * (v_351 - a_4 / 2 * t_393),  -b <= a_4,  a_4 <= A,  v_3 = 0,  " ++
    "A >= 0,  b >  0,  ep >  0 ==>     2 * b * Abs_15  >    (v_3) ^ 2     + 2 * (A + b) * (A / 2 * (t_393" ++
    ") ^ 2 + t_393 * v_3)  \" (antecedent (> (* (* 2.0 b) Abs_15) (+ (* v_3 v_3) (* (* 2.0 (+ A b)) (+ (* " ++
    "(/ A 2.0) (* ep ep)) (* ep v_3))))) (<= t_393 ep) (>= v_351 0.0) (>= t_393 0.0) (= v_351 (+ v_3 (* a" ++
    "_4 t_393))) (<= (* (- t_393) (- v_351 (* (/ a_4 2.0) t_393))) (- y_350 y_3)) (<= (- y_350 y_3) (* t_" ++
    "393 (- v_351 (* (/ a_4 2.0) t_393)))) (<= (- b) a_4) (<= a_4 A) (= v_3 0.0) (>= A 0.0) (> b 0.0) (> " ++
    "ep 0.0)) (succedent (> (* (* 2.0 b) Abs_15) (+ (* v_3 v_3) (* (* 2.0 (+ A b)) (+ (* (/ A 2.0) (* t_3" ++
    "93 t_393)) (* t_393 v_3)))))))") =
  [("gt[0,0,1,-4,-2] tt ge[0,1] ge[0,1] eq[0,0,-1] le[0,0,-1,1/2] le[0,0,-1,1/2] le[0,-2] tt eq[0,1] ge[0" ++
    ",1] gt[0,1] gt[0,1] |- gt[0,0,1,-4,-2]")]

-- `vts/Examples/HidingProblems/DWA_StationaryObstacles_ArcTraj_onlyleaves_nodivision_lessstupid.key_11.smt.pkl`
#guard examples (
    "(sequent \"x_329 - ox_8 >= 0,  x_3 - ox_8 >= 0,     2 * b * (x_3 - ox_8)  >    (v_3) ^ 2     + 2 * (A" ++
    " + b) * (A / 2 * (t_365) ^ 2 + t_365 * v_3),  t_365 <= ep,  v_330 >= 0,  t_365 >= 0,  v_330 = v_3 + " ++
    "a_6 * t_365,  -t_365 * (v_330 - a_6 / 2 * t_365) <= x_329 - x_3,  x_329 - x_3 <= t_365 * (v_330 - a_" ++
    "6 / 2 * t_365),  -b <= a_6,  a_6 <= A,  v_3 >= 0,  A >= 0,  b >  0,  ep >  0 ==>  2 * b * (x_329 - o" ++
    "x_8) >  (v_330) ^ 2  \" (antecedent (>= (- x_329 ox_8) 0.0) (>= (- x_3 ox_8) 0.0) (> (* (* 2.0 b) (- " ++
    "x_3 ox_8)) (+ (* v_3 v_3) (* (* 2.0 (+ A b)) (+ (* (/ A 2.0) (* t_365 t_365)) (* t_365 v_3))))) (<= " ++
    "t_365 ep) (>= v_330 0.0) (>= t_365 0.0) (= v_330 (+ v_3 (* a_6 t_365))) (<= (* (- t_365) (- v_330 (*" ++
    " (/ a_6 2.0) t_365))) (- x_329 x_3)) (<= (- x_329 x_3) (* t_365 (- v_330 (* (/ a_6 2.0) t_365)))) (<" ++
    "= (- b) a_6) (<= a_6 A) (>= v_3 0.0) (>= A 0.0) (> b 0.0) (> ep 0.0)) (succedent (> (* (* 2.0 b) (- " ++
    "x_329 ox_8)) (* v_330 v_330))))") =
  [("tt tt gt[0,0,-1,-4,-2] tt ge[0,1] ge[0,1] eq[0,0,-1] le[0,0,-1,1/2] le[0,0,-1,1/2] le[0,-2] tt ge[0," ++
    "1] ge[0,1] gt[0,1] gt[0,1] |- gt[0,0,-1]")]

-- `vts/Examples/HidingProblems/DWA_StationaryObstacles_ArcTraj_onlyleaves_nodivision_lessstupid.key_12.smt.pkl`
#guard examples (
    "(sequent \"x_3 - ox_8 >= 0,     2 * b * (x_3 - ox_8)  >    (v_3) ^ 2     + 2 * (A + b) * (A / 2 * (t_" ++
    "365) ^ 2 + t_365 * v_3),  t_365 <= ep,  v_330 >= 0,  t_365 >= 0,  v_330 = v_3 + a_6 * t_365,  -t_365" ++
    " * (v_330 - a_6 / 2 * t_365) <= x_329 - x_3,  x_329 - x_3 <= t_365 * (v_330 - a_6 / 2 * t_365),  -b " ++
    "<= a_6,  a_6 <= A,  v_3 >= 0,  A >= 0,  b >  0,  ep >  0 ==>  x_329 - ox_8 >= 0,  2 * b * -(x_329 - " ++
    "ox_8) >  (v_330) ^ 2  \" (antecedent (>= (- x_3 ox_8) 0.0) (> (* (* 2.0 b) (- x_3 ox_8)) (+ (* v_3 v_" ++
    "3) (* (* 2.0 (+ A b)) (+ (* (/ A 2.0) (* t_365 t_365)) (* t_365 v_3))))) (<= t_365 ep) (>= v_330 0.0" ++
    ") (>= t_365 0.0) (= v_330 (+ v_3 (* a_6 t_365))) (<= (* (- t_365) (- v_330 (* (/ a_6 2.0) t_365))) (" ++
    "- x_329 x_3)) (<= (- x_329 x_3) (* t_365 (- v_330 (* (/ a_6 2.0) t_365)))) (<= (- b) a_6) (<= a_6 A)" ++
    " (>= v_3 0.0) (>= A 0.0) (> b 0.0) (> ep 0.0)) (succedent (>= (- x_329 ox_8) 0.0) (> (* (* 2.0 b) (-" ++
    " (- x_329 ox_8))) (* v_330 v_330))))") =
  [("tt gt[0,0,-1,-4,-2] tt ge[0,1] ge[0,1] eq[0,0,-1] le[0,0,-1,1/2] le[0,0,-1,1/2] le[0,-2] tt ge[0,1] " ++
    "ge[0,1] gt[0,1] gt[0,1] |- tt gt[0,0,-1]")]

-- `vts/Examples/HidingProblems/DWA_StationaryObstacles_ArcTraj_onlyleaves_nodivision_lessstupid.key_13.smt.pkl`
#guard examples (
    "(sequent \"x_329 - ox_8 >= 0,     2 * b * -(x_3 - ox_8)  >    (v_3) ^ 2     + 2 * (A + b) * (A / 2 * " ++
    "(t_365) ^ 2 + t_365 * v_3),  t_365 <= ep,  v_330 >= 0,  t_365 >= 0,  v_330 = v_3 + a_6 * t_365,  -t_" ++
    "365 * (v_330 - a_6 / 2 * t_365) <= x_329 - x_3,  x_329 - x_3 <= t_365 * (v_330 - a_6 / 2 * t_365),  " ++
    "-b <= a_6,  a_6 <= A,  v_3 >= 0,  A >= 0,  b >  0,  ep >  0 ==>  x_3 - ox_8 >= 0,  2 * b * (x_329 - " ++
    "ox_8) >  (v_330) ^ 2  \" (antecedent (>= (- x_329 ox_8) 0.0) (> (* (* 2.0 b) (- (- x_3 ox_8))) (+ (* " ++
    "v_3 v_3) (* (* 2.0 (+ A b)) (+ (* (/ A 2.0) (* t_365 t_365)) (* t_365 v_3))))) (<= t_365 ep) (>= v_3" ++
    "30 0.0) (>= t_365 0.0) (= v_330 (+ v_3 (* a_6 t_365))) (<= (* (- t_365) (- v_330 (* (/ a_6 2.0) t_36" ++
    "5))) (- x_329 x_3)) (<= (- x_329 x_3) (* t_365 (- v_330 (* (/ a_6 2.0) t_365)))) (<= (- b) a_6) (<= " ++
    "a_6 A) (>= v_3 0.0) (>= A 0.0) (> b 0.0) (> ep 0.0)) (succedent (>= (- x_3 ox_8) 0.0) (> (* (* 2.0 b" ++
    ") (- x_329 ox_8)) (* v_330 v_330))))") =
  [("tt gt[0,0,-1,-4,-2] tt ge[0,1] ge[0,1] eq[0,0,-1] le[0,0,-1,1/2] le[0,0,-1,1/2] le[0,-2] tt ge[0,1] " ++
    "ge[0,1] gt[0,1] gt[0,1] |- tt gt[0,0,-1]")]

-- `vts/Examples/HidingProblems/DWA_StationaryObstacles_ArcTraj_onlyleaves_nodivision_lessstupid.key_14.smt.pkl`
#guard examples (
    "(sequent \"   2 * b * -(x_3 - ox_8)  >    (v_3) ^ 2     + 2 * (A + b) * (A / 2 * (t_365) ^ 2 + t_365 " ++
    "* v_3),  t_365 <= ep,  v_330 >= 0,  t_365 >= 0,  v_330 = v_3 + a_6 * t_365,  -t_365 * (v_330 - a_6 /" ++
    " 2 * t_365) <= x_329 - x_3,  x_329 - x_3 <= t_365 * (v_330 - a_6 / 2 * t_365),  -b <= a_6,  a_6 <= A" ++
    ",  v_3 >= 0,  A >= 0,  b >  0,  ep >  0 ==>  x_3 - ox_8 >= 0,  x_329 - ox_8 >= 0,  2 * b * -(x_329 -" ++
    " ox_8) >  (v_330) ^ 2  \" (antecedent (> (* (* 2.0 b) (- (- x_3 ox_8))) (+ (* v_3 v_3) (* (* 2.0 (+ A" ++
    " b)) (+ (* (/ A 2.0) (* t_365 t_365)) (* t_365 v_3))))) (<= t_365 ep) (>= v_330 0.0) (>= t_365 0.0) " ++
    "(= v_330 (+ v_3 (* a_6 t_365))) (<= (* (- t_365) (- v_330 (* (/ a_6 2.0) t_365))) (- x_329 x_3)) (<=" ++
    " (- x_329 x_3) (* t_365 (- v_330 (* (/ a_6 2.0) t_365)))) (<= (- b) a_6) (<= a_6 A) (>= v_3 0.0) (>=" ++
    " A 0.0) (> b 0.0) (> ep 0.0)) (succedent (>= (- x_3 ox_8) 0.0) (>= (- x_329 ox_8) 0.0) (> (* (* 2.0 " ++
    "b) (- (- x_329 ox_8))) (* v_330 v_330))))") =
  [("gt[0,0,-1,-4,-2] tt ge[0,1] ge[0,1] eq[0,0,-1] le[0,0,-1,1/2] le[0,0,-1,1/2] le[0,-2] tt ge[0,1] ge[" ++
    "0,1] gt[0,1] gt[0,1] |- tt tt gt[0,0,-1]")]

-- `vts/Examples/HidingProblems/DWA_StationaryObstacles_ArcTraj_onlyleaves_nodivision_lessstupid.key_15.smt.pkl`
#guard examples (
    "(sequent \"   2 * b * Abs_17  >    (v_3) ^ 2     + 2 * (A + b) * (A / 2 * (ep) ^ 2 + ep * v_3),  t_36" ++
    "5 <= ep,  v_330 >= 0,  t_365 >= 0,  v_330 = v_3 + a_6 * t_365,  -t_365 * (v_330 - a_6 / 2 * t_365) <" ++
    "= x_329 - x_3,  x_329 - x_3 <= t_365 * (v_330 - a_6 / 2 * t_365),  -b <= a_6,  a_6 <= A,  v_3 >= 0, " ++
    " A >= 0,  b >  0,  ep >  0 ==>     2 * b * Abs_17  >    (v_3) ^ 2     + 2 * (A + b) * (A / 2 * (t_36" ++
    "5) ^ 2 + t_365 * v_3)  \" (antecedent (> (* (* 2.0 b) Abs_17) (+ (* v_3 v_3) (* (* 2.0 (+ A b)) (+ (*" ++
    " (/ A 2.0) (* ep ep)) (* ep v_3))))) (<= t_365 ep) (>= v_330 0.0) (>= t_365 0.0) (= v_330 (+ v_3 (* " ++
    "a_6 t_365))) (<= (* (- t_365) (- v_330 (* (/ a_6 2.0) t_365))) (- x_329 x_3)) (<= (- x_329 x_3) (* t" ++
    "_365 (- v_330 (* (/ a_6 2.0) t_365)))) (<= (- b) a_6) (<= a_6 A) (>= v_3 0.0) (>= A 0.0) (> b 0.0) (" ++
    "> ep 0.0)) (succedent (> (* (* 2.0 b) Abs_17) (+ (* v_3 v_3) (* (* 2.0 (+ A b)) (+ (* (/ A 2.0) (* t" ++
    "_365 t_365)) (* t_365 v_3)))))))") =
  [("gt[0,0,1,-4,-2] tt ge[0,1] ge[0,1] eq[0,0,-1] le[0,0,-1,1/2] le[0,0,-1,1/2] le[0,-2] tt ge[0,1] ge[0" ++
    ",1] gt[0,1] gt[0,1] |- gt[0,0,1,-4,-2]")]

-- `vts/Examples/HidingProblems/DWA_StationaryObstacles_ArcTraj_onlyleaves_nodivision_lessstupid.key_16.smt.pkl`
#guard examples (
    "(sequent \"y_321 - oy_8 >= 0,  y_3 - oy_8 >= 0,     2 * b * (y_3 - oy_8)  >    (v_3) ^ 2     + 2 * (A" ++
    " + b) * (A / 2 * (t_355) ^ 2 + t_355 * v_3),  t_355 <= ep,  v_322 >= 0,  t_355 >= 0,  v_322 = v_3 + " ++
    "a_6 * t_355,  -t_355 * (v_322 - a_6 / 2 * t_355) <= y_321 - y_3,  y_321 - y_3 <= t_355 * (v_322 - a_" ++
    "6 / 2 * t_355),  -b <= a_6,  a_6 <= A,  v_3 >= 0,  A >= 0,  b >  0,  ep >  0 ==>  2 * b * (y_321 - o" ++
    "y_8) >  (v_322) ^ 2  \" (antecedent (>= (- y_321 oy_8) 0.0) (>= (- y_3 oy_8) 0.0) (> (* (* 2.0 b) (- " ++
    "y_3 oy_8)) (+ (* v_3 v_3) (* (* 2.0 (+ A b)) (+ (* (/ A 2.0) (* t_355 t_355)) (* t_355 v_3))))) (<= " ++
    "t_355 ep) (>= v_322 0.0) (>= t_355 0.0) (= v_322 (+ v_3 (* a_6 t_355))) (<= (* (- t_355) (- v_322 (*" ++
    " (/ a_6 2.0) t_355))) (- y_321 y_3)) (<= (- y_321 y_3) (* t_355 (- v_322 (* (/ a_6 2.0) t_355)))) (<" ++
    "= (- b) a_6) (<= a_6 A) (>= v_3 0.0) (>= A 0.0) (> b 0.0) (> ep 0.0)) (succedent (> (* (* 2.0 b) (- " ++
    "y_321 oy_8)) (* v_322 v_322))))") =
  [("tt tt gt[0,0,-1,-4,-2] tt ge[0,1] ge[0,1] eq[0,0,-1] le[0,0,-1,1/2] le[0,0,-1,1/2] le[0,-2] tt ge[0," ++
    "1] ge[0,1] gt[0,1] gt[0,1] |- gt[0,0,-1]")]

-- `vts/Examples/HidingProblems/DWA_StationaryObstacles_ArcTraj_onlyleaves_nodivision_lessstupid.key_17.smt.pkl`
#guard examples (
    "(sequent \"y_3 - oy_8 >= 0,     2 * b * (y_3 - oy_8)  >    (v_3) ^ 2     + 2 * (A + b) * (A / 2 * (t_" ++
    "355) ^ 2 + t_355 * v_3),  t_355 <= ep,  v_322 >= 0,  t_355 >= 0,  v_322 = v_3 + a_6 * t_355,  -t_355" ++
    " * (v_322 - a_6 / 2 * t_355) <= y_321 - y_3,  y_321 - y_3 <= t_355 * (v_322 - a_6 / 2 * t_355),  -b " ++
    "<= a_6,  a_6 <= A,  v_3 >= 0,  A >= 0,  b >  0,  ep >  0 ==>  y_321 - oy_8 >= 0,  2 * b * -(y_321 - " ++
    "oy_8) >  (v_322) ^ 2  \" (antecedent (>= (- y_3 oy_8) 0.0) (> (* (* 2.0 b) (- y_3 oy_8)) (+ (* v_3 v_" ++
    "3) (* (* 2.0 (+ A b)) (+ (* (/ A 2.0) (* t_355 t_355)) (* t_355 v_3))))) (<= t_355 ep) (>= v_322 0.0" ++
    ") (>= t_355 0.0) (= v_322 (+ v_3 (* a_6 t_355))) (<= (* (- t_355) (- v_322 (* (/ a_6 2.0) t_355))) (" ++
    "- y_321 y_3)) (<= (- y_321 y_3) (* t_355 (- v_322 (* (/ a_6 2.0) t_355)))) (<= (- b) a_6) (<= a_6 A)" ++
    " (>= v_3 0.0) (>= A 0.0) (> b 0.0) (> ep 0.0)) (succedent (>= (- y_321 oy_8) 0.0) (> (* (* 2.0 b) (-" ++
    " (- y_321 oy_8))) (* v_322 v_322))))") =
  [("tt gt[0,0,-1,-4,-2] tt ge[0,1] ge[0,1] eq[0,0,-1] le[0,0,-1,1/2] le[0,0,-1,1/2] le[0,-2] tt ge[0,1] " ++
    "ge[0,1] gt[0,1] gt[0,1] |- tt gt[0,0,-1]")]

-- `vts/Examples/HidingProblems/DWA_StationaryObstacles_ArcTraj_onlyleaves_nodivision_lessstupid.key_18.smt.pkl`
#guard examples (
    "(sequent \"y_321 - oy_8 >= 0,     2 * b * -(y_3 - oy_8)  >    (v_3) ^ 2     + 2 * (A + b) * (A / 2 * " ++
    "(t_355) ^ 2 + t_355 * v_3),  t_355 <= ep,  v_322 >= 0,  t_355 >= 0,  v_322 = v_3 + a_6 * t_355,  -t_" ++
    "355 * (v_322 - a_6 / 2 * t_355) <= y_321 - y_3,  y_321 - y_3 <= t_355 * (v_322 - a_6 / 2 * t_355),  " ++
    "-b <= a_6,  a_6 <= A,  v_3 >= 0,  A >= 0,  b >  0,  ep >  0 ==>  y_3 - oy_8 >= 0,  2 * b * (y_321 - " ++
    "oy_8) >  (v_322) ^ 2  \" (antecedent (>= (- y_321 oy_8) 0.0) (> (* (* 2.0 b) (- (- y_3 oy_8))) (+ (* " ++
    "v_3 v_3) (* (* 2.0 (+ A b)) (+ (* (/ A 2.0) (* t_355 t_355)) (* t_355 v_3))))) (<= t_355 ep) (>= v_3" ++
    "22 0.0) (>= t_355 0.0) (= v_322 (+ v_3 (* a_6 t_355))) (<= (* (- t_355) (- v_322 (* (/ a_6 2.0) t_35" ++
    "5))) (- y_321 y_3)) (<= (- y_321 y_3) (* t_355 (- v_322 (* (/ a_6 2.0) t_355)))) (<= (- b) a_6) (<= " ++
    "a_6 A) (>= v_3 0.0) (>= A 0.0) (> b 0.0) (> ep 0.0)) (succedent (>= (- y_3 oy_8) 0.0) (> (* (* 2.0 b" ++
    ") (- y_321 oy_8)) (* v_322 v_322))))") =
  [("tt gt[0,0,-1,-4,-2] tt ge[0,1] ge[0,1] eq[0,0,-1] le[0,0,-1,1/2] le[0,0,-1,1/2] le[0,-2] tt ge[0,1] " ++
    "ge[0,1] gt[0,1] gt[0,1] |- tt gt[0,0,-1]")]

-- `vts/Examples/HidingProblems/DWA_StationaryObstacles_ArcTraj_onlyleaves_nodivision_lessstupid.key_19.smt.pkl`
#guard examples (
    "(sequent \"   2 * b * -(y_3 - oy_8)  >    (v_3) ^ 2     + 2 * (A + b) * (A / 2 * (t_355) ^ 2 + t_355 " ++
    "* v_3),  t_355 <= ep,  v_322 >= 0,  t_355 >= 0,  v_322 = v_3 + a_6 * t_355,  -t_355 * (v_322 - a_6 /" ++
    " 2 * t_355) <= y_321 - y_3,  y_321 - y_3 <= t_355 * (v_322 - a_6 / 2 * t_355),  -b <= a_6,  a_6 <= A" ++
    ",  v_3 >= 0,  A >= 0,  b >  0,  ep >  0 ==>  y_3 - oy_8 >= 0,  y_321 - oy_8 >= 0,  2 * b * -(y_321 -" ++
    " oy_8) >  (v_322) ^ 2  \" (antecedent (> (* (* 2.0 b) (- (- y_3 oy_8))) (+ (* v_3 v_3) (* (* 2.0 (+ A" ++
    " b)) (+ (* (/ A 2.0) (* t_355 t_355)) (* t_355 v_3))))) (<= t_355 ep) (>= v_322 0.0) (>= t_355 0.0) " ++
    "(= v_322 (+ v_3 (* a_6 t_355))) (<= (* (- t_355) (- v_322 (* (/ a_6 2.0) t_355))) (- y_321 y_3)) (<=" ++
    " (- y_321 y_3) (* t_355 (- v_322 (* (/ a_6 2.0) t_355)))) (<= (- b) a_6) (<= a_6 A) (>= v_3 0.0) (>=" ++
    " A 0.0) (> b 0.0) (> ep 0.0)) (succedent (>= (- y_3 oy_8) 0.0) (>= (- y_321 oy_8) 0.0) (> (* (* 2.0 " ++
    "b) (- (- y_321 oy_8))) (* v_322 v_322))))") =
  [("gt[0,0,-1,-4,-2] tt ge[0,1] ge[0,1] eq[0,0,-1] le[0,0,-1,1/2] le[0,0,-1,1/2] le[0,-2] tt ge[0,1] ge[" ++
    "0,1] gt[0,1] gt[0,1] |- tt tt gt[0,0,-1]")]

-- `vts/Examples/HidingProblems/DWA_StationaryObstacles_ArcTraj_onlyleaves_nodivision_lessstupid.key_2.smt.pkl`
#guard examples (
    "(sequent \"x_3 - ox_6 >= 0,     2 * b * (x_3 - ox_6)  >    (v_3) ^ 2     + 2 * (A + b) * (A / 2 * (t_" ++
    "403) ^ 2 + t_403 * v_3),  t_403 <= ep,  v_359 >= 0,  t_403 >= 0,  v_359 = v_3 + a_4 * t_403,  -t_403" ++
    " * (v_359 - a_4 / 2 * t_403) <= x_358 - x_3,  x_358 - x_3 <= t_403 * (v_359 - a_4 / 2 * t_403),  -b " ++
    "<= a_4,  a_4 <= A,  v_3 = 0,  A >= 0,  b >  0,  ep >  0 ==>  x_358 - ox_6 >= 0,  2 * b * -(x_358 - o" ++
    "x_6) >  (v_359) ^ 2  \" (antecedent (>= (- x_3 ox_6) 0.0) (> (* (* 2.0 b) (- x_3 ox_6)) (+ (* v_3 v_3" ++
    ") (* (* 2.0 (+ A b)) (+ (* (/ A 2.0) (* t_403 t_403)) (* t_403 v_3))))) (<= t_403 ep) (>= v_359 0.0)" ++
    " (>= t_403 0.0) (= v_359 (+ v_3 (* a_4 t_403))) (<= (* (- t_403) (- v_359 (* (/ a_4 2.0) t_403))) (-" ++
    " x_358 x_3)) (<= (- x_358 x_3) (* t_403 (- v_359 (* (/ a_4 2.0) t_403)))) (<= (- b) a_4) (<= a_4 A) " ++
    "(= v_3 0.0) (>= A 0.0) (> b 0.0) (> ep 0.0)) (succedent (>= (- x_358 ox_6) 0.0) (> (* (* 2.0 b) (- (" ++
    "- x_358 ox_6))) (* v_359 v_359))))") =
  [("tt gt[0,0,-1,-4,-2] tt ge[0,1] ge[0,1] eq[0,0,-1] le[0,0,-1,1/2] le[0,0,-1,1/2] le[0,-2] tt eq[0,1] " ++
    "ge[0,1] gt[0,1] gt[0,1] |- tt gt[0,0,-1]")]

-- `vts/Examples/HidingProblems/DWA_StationaryObstacles_ArcTraj_onlyleaves_nodivision_lessstupid.key_20.smt.pkl`
#guard examples (
    "(sequent \"   2 * b * Abs_19  >    (v_3) ^ 2     + 2 * (A + b) * (A / 2 * (ep) ^ 2 + ep * v_3),  t_35" ++
    "5 <= ep,  v_322 >= 0,  t_355 >= 0,  v_322 = v_3 + a_6 * t_355,  -t_355 * (v_322 - a_6 / 2 * t_355) <" ++
    "= y_321 - y_3,  y_321 - y_3 <= t_355 * (v_322 - a_6 / 2 * t_355),  -b <= a_6,  a_6 <= A,  v_3 >= 0, " ++
    " A >= 0,  b >  0,  ep >  0 ==>     2 * b * Abs_19  >    (v_3) ^ 2     + 2 * (A + b) * (A / 2 * (t_35" ++
    "5) ^ 2 + t_355 * v_3)  \" (antecedent (> (* (* 2.0 b) Abs_19) (+ (* v_3 v_3) (* (* 2.0 (+ A b)) (+ (*" ++
    " (/ A 2.0) (* ep ep)) (* ep v_3))))) (<= t_355 ep) (>= v_322 0.0) (>= t_355 0.0) (= v_322 (+ v_3 (* " ++
    "a_6 t_355))) (<= (* (- t_355) (- v_322 (* (/ a_6 2.0) t_355))) (- y_321 y_3)) (<= (- y_321 y_3) (* t" ++
    "_355 (- v_322 (* (/ a_6 2.0) t_355)))) (<= (- b) a_6) (<= a_6 A) (>= v_3 0.0) (>= A 0.0) (> b 0.0) (" ++
    "> ep 0.0)) (succedent (> (* (* 2.0 b) Abs_19) (+ (* v_3 v_3) (* (* 2.0 (+ A b)) (+ (* (/ A 2.0) (* t" ++
    "_355 t_355)) (* t_355 v_3)))))))") =
  [("gt[0,0,1,-4,-2] tt ge[0,1] ge[0,1] eq[0,0,-1] le[0,0,-1,1/2] le[0,0,-1,1/2] le[0,-2] tt ge[0,1] ge[0" ++
    ",1] gt[0,1] gt[0,1] |- gt[0,0,1,-4,-2]")]

-- `vts/Examples/HidingProblems/DWA_StationaryObstacles_ArcTraj_onlyleaves_nodivision_lessstupid.key_21.smt.pkl`
#guard examples (
    "(sequent \"x_297 - ox_10 >= 0,  x_3 - ox_10 >= 0,     2 * b * (x_3 - ox_10)  >    (v_3) ^ 2     + 2 *" ++
    " (A + b) * (A / 2 * (t_324) ^ 2 + t_324 * v_3),  t_324 <= ep,  v_298 >= 0,  t_324 >= 0,  v_298 = v_3" ++
    " + a_8 * t_324,  -t_324 * (v_298 - a_8 / 2 * t_324) <= x_297 - x_3,  x_297 - x_3 <= t_324 * (v_298 -" ++
    " a_8 / 2 * t_324),  -b <= a_8,  a_8 <= A,  v_3 >= 0,  A >= 0,  b >  0,  ep >  0 ==>  2 * b * (x_297 " ++
    "- ox_10) >  (v_298) ^ 2  \" (antecedent (>= (- x_297 ox_10) 0.0) (>= (- x_3 ox_10) 0.0) (> (* (* 2.0 " ++
    "b) (- x_3 ox_10)) (+ (* v_3 v_3) (* (* 2.0 (+ A b)) (+ (* (/ A 2.0) (* t_324 t_324)) (* t_324 v_3)))" ++
    ")) (<= t_324 ep) (>= v_298 0.0) (>= t_324 0.0) (= v_298 (+ v_3 (* a_8 t_324))) (<= (* (- t_324) (- v" ++
    "_298 (* (/ a_8 2.0) t_324))) (- x_297 x_3)) (<= (- x_297 x_3) (* t_324 (- v_298 (* (/ a_8 2.0) t_324" ++
    ")))) (<= (- b) a_8) (<= a_8 A) (>= v_3 0.0) (>= A 0.0) (> b 0.0) (> ep 0.0)) (succedent (> (* (* 2.0" ++
    " b) (- x_297 ox_10)) (* v_298 v_298))))") =
  [("tt tt gt[0,0,-1,-4,-2] tt ge[0,1] ge[0,1] eq[0,0,-1] le[0,0,-1,1/2] le[0,0,-1,1/2] le[0,-2] tt ge[0," ++
    "1] ge[0,1] gt[0,1] gt[0,1] |- gt[0,0,-1]")]

-- `vts/Examples/HidingProblems/DWA_StationaryObstacles_ArcTraj_onlyleaves_nodivision_lessstupid.key_22.smt.pkl`
#guard examples (
    "(sequent \"x_3 - ox_10 >= 0,     2 * b * (x_3 - ox_10)  >    (v_3) ^ 2     + 2 * (A + b) * (A / 2 * (" ++
    "t_324) ^ 2 + t_324 * v_3),  t_324 <= ep,  v_298 >= 0,  t_324 >= 0,  v_298 = v_3 + a_8 * t_324,  -t_3" ++
    "24 * (v_298 - a_8 / 2 * t_324) <= x_297 - x_3,  x_297 - x_3 <= t_324 * (v_298 - a_8 / 2 * t_324),  -" ++
    "b <= a_8,  a_8 <= A,  v_3 >= 0,  A >= 0,  b >  0,  ep >  0 ==>  x_297 - ox_10 >= 0,  2 * b * -(x_297" ++
    " - ox_10) >  (v_298) ^ 2  \" (antecedent (>= (- x_3 ox_10) 0.0) (> (* (* 2.0 b) (- x_3 ox_10)) (+ (* " ++
    "v_3 v_3) (* (* 2.0 (+ A b)) (+ (* (/ A 2.0) (* t_324 t_324)) (* t_324 v_3))))) (<= t_324 ep) (>= v_2" ++
    "98 0.0) (>= t_324 0.0) (= v_298 (+ v_3 (* a_8 t_324))) (<= (* (- t_324) (- v_298 (* (/ a_8 2.0) t_32" ++
    "4))) (- x_297 x_3)) (<= (- x_297 x_3) (* t_324 (- v_298 (* (/ a_8 2.0) t_324)))) (<= (- b) a_8) (<= " ++
    "a_8 A) (>= v_3 0.0) (>= A 0.0) (> b 0.0) (> ep 0.0)) (succedent (>= (- x_297 ox_10) 0.0) (> (* (* 2." ++
    "0 b) (- (- x_297 ox_10))) (* v_298 v_298))))") =
  [("tt gt[0,0,-1,-4,-2] tt ge[0,1] ge[0,1] eq[0,0,-1] le[0,0,-1,1/2] le[0,0,-1,1/2] le[0,-2] tt ge[0,1] " ++
    "ge[0,1] gt[0,1] gt[0,1] |- tt gt[0,0,-1]")]

-- `vts/Examples/HidingProblems/DWA_StationaryObstacles_ArcTraj_onlyleaves_nodivision_lessstupid.key_23.smt.pkl`
#guard examples (
    "(sequent \"x_297 - ox_10 >= 0,     2 * b * -(x_3 - ox_10)  >    (v_3) ^ 2     + 2 * (A + b) * (A / 2 " ++
    "* (t_324) ^ 2 + t_324 * v_3),  t_324 <= ep,  v_298 >= 0,  t_324 >= 0,  v_298 = v_3 + a_8 * t_324,  -" ++
    "t_324 * (v_298 - a_8 / 2 * t_324) <= x_297 - x_3,  x_297 - x_3 <= t_324 * (v_298 - a_8 / 2 * t_324)," ++
    "  -b <= a_8,  a_8 <= A,  v_3 >= 0,  A >= 0,  b >  0,  ep >  0 ==>  x_3 - ox_10 >= 0,  2 * b * (x_297" ++
    " - ox_10) >  (v_298) ^ 2  \" (antecedent (>= (- x_297 ox_10) 0.0) (> (* (* 2.0 b) (- (- x_3 ox_10))) " ++
    "(+ (* v_3 v_3) (* (* 2.0 (+ A b)) (+ (* (/ A 2.0) (* t_324 t_324)) (* t_324 v_3))))) (<= t_324 ep) (" ++
    ">= v_298 0.0) (>= t_324 0.0) (= v_298 (+ v_3 (* a_8 t_324))) (<= (* (- t_324) (- v_298 (* (/ a_8 2.0" ++
    ") t_324))) (- x_297 x_3)) (<= (- x_297 x_3) (* t_324 (- v_298 (* (/ a_8 2.0) t_324)))) (<= (- b) a_8" ++
    ") (<= a_8 A) (>= v_3 0.0) (>= A 0.0) (> b 0.0) (> ep 0.0)) (succedent (>= (- x_3 ox_10) 0.0) (> (* (" ++
    "* 2.0 b) (- x_297 ox_10)) (* v_298 v_298))))") =
  [("tt gt[0,0,-1,-4,-2] tt ge[0,1] ge[0,1] eq[0,0,-1] le[0,0,-1,1/2] le[0,0,-1,1/2] le[0,-2] tt ge[0,1] " ++
    "ge[0,1] gt[0,1] gt[0,1] |- tt gt[0,0,-1]")]

-- `vts/Examples/HidingProblems/DWA_StationaryObstacles_ArcTraj_onlyleaves_nodivision_lessstupid.key_24.smt.pkl`
#guard examples (
    "(sequent \"   2 * b * -(x_3 - ox_10)  >    (v_3) ^ 2     + 2 * (A + b) * (A / 2 * (t_324) ^ 2 + t_324" ++
    " * v_3),  t_324 <= ep,  v_298 >= 0,  t_324 >= 0,  v_298 = v_3 + a_8 * t_324,  -t_324 * (v_298 - a_8 " ++
    "/ 2 * t_324) <= x_297 - x_3,  x_297 - x_3 <= t_324 * (v_298 - a_8 / 2 * t_324),  -b <= a_8,  a_8 <= " ++
    "A,  v_3 >= 0,  A >= 0,  b >  0,  ep >  0 ==>  x_3 - ox_10 >= 0,  x_297 - ox_10 >= 0,  2 * b * -(x_29" ++
    "7 - ox_10) >  (v_298) ^ 2  \" (antecedent (> (* (* 2.0 b) (- (- x_3 ox_10))) (+ (* v_3 v_3) (* (* 2.0" ++
    " (+ A b)) (+ (* (/ A 2.0) (* t_324 t_324)) (* t_324 v_3))))) (<= t_324 ep) (>= v_298 0.0) (>= t_324 " ++
    "0.0) (= v_298 (+ v_3 (* a_8 t_324))) (<= (* (- t_324) (- v_298 (* (/ a_8 2.0) t_324))) (- x_297 x_3)" ++
    ") (<= (- x_297 x_3) (* t_324 (- v_298 (* (/ a_8 2.0) t_324)))) (<= (- b) a_8) (<= a_8 A) (>= v_3 0.0" ++
    ") (>= A 0.0) (> b 0.0) (> ep 0.0)) (succedent (>= (- x_3 ox_10) 0.0) (>= (- x_297 ox_10) 0.0) (> (* " ++
    "(* 2.0 b) (- (- x_297 ox_10))) (* v_298 v_298))))") =
  [("gt[0,0,-1,-4,-2] tt ge[0,1] ge[0,1] eq[0,0,-1] le[0,0,-1,1/2] le[0,0,-1,1/2] le[0,-2] tt ge[0,1] ge[" ++
    "0,1] gt[0,1] gt[0,1] |- tt tt gt[0,0,-1]")]

-- `vts/Examples/HidingProblems/DWA_StationaryObstacles_ArcTraj_onlyleaves_nodivision_lessstupid.key_25.smt.pkl`
#guard examples (
    "(sequent \"   2 * b * Abs_21  >    (v_3) ^ 2     + 2 * (A + b) * (A / 2 * (ep) ^ 2 + ep * v_3),  t_32" ++
    "4 <= ep,  v_298 >= 0,  t_324 >= 0,  v_298 = v_3 + a_8 * t_324,  -t_324 * (v_298 - a_8 / 2 * t_324) <" ++
    "= x_297 - x_3,  x_297 - x_3 <= t_324 * (v_298 - a_8 / 2 * t_324),  -b <= a_8,  a_8 <= A,  v_3 >= 0, " ++
    " A >= 0,  b >  0,  ep >  0 ==>     2 * b * Abs_21  >    (v_3) ^ 2     + 2 * (A + b) * (A / 2 * (t_32" ++
    "4) ^ 2 + t_324 * v_3)  \" (antecedent (> (* (* 2.0 b) Abs_21) (+ (* v_3 v_3) (* (* 2.0 (+ A b)) (+ (*" ++
    " (/ A 2.0) (* ep ep)) (* ep v_3))))) (<= t_324 ep) (>= v_298 0.0) (>= t_324 0.0) (= v_298 (+ v_3 (* " ++
    "a_8 t_324))) (<= (* (- t_324) (- v_298 (* (/ a_8 2.0) t_324))) (- x_297 x_3)) (<= (- x_297 x_3) (* t" ++
    "_324 (- v_298 (* (/ a_8 2.0) t_324)))) (<= (- b) a_8) (<= a_8 A) (>= v_3 0.0) (>= A 0.0) (> b 0.0) (" ++
    "> ep 0.0)) (succedent (> (* (* 2.0 b) Abs_21) (+ (* v_3 v_3) (* (* 2.0 (+ A b)) (+ (* (/ A 2.0) (* t" ++
    "_324 t_324)) (* t_324 v_3)))))))") =
  [("gt[0,0,1,-4,-2] tt ge[0,1] ge[0,1] eq[0,0,-1] le[0,0,-1,1/2] le[0,0,-1,1/2] le[0,-2] tt ge[0,1] ge[0" ++
    ",1] gt[0,1] gt[0,1] |- gt[0,0,1,-4,-2]")]

-- `vts/Examples/HidingProblems/DWA_StationaryObstacles_ArcTraj_onlyleaves_nodivision_lessstupid.key_26.smt.pkl`
#guard examples (
    "(sequent \"y_289 - oy_10 >= 0,  y_3 - oy_10 >= 0,     2 * b * (y_3 - oy_10)  >    (v_3) ^ 2     + 2 *" ++
    " (A + b) * (A / 2 * (t_314) ^ 2 + t_314 * v_3),  t_314 <= ep,  v_290 >= 0,  t_314 >= 0,  v_290 = v_3" ++
    " + a_8 * t_314,  -t_314 * (v_290 - a_8 / 2 * t_314) <= y_289 - y_3,  y_289 - y_3 <= t_314 * (v_290 -" ++
    " a_8 / 2 * t_314),  -b <= a_8,  a_8 <= A,  v_3 >= 0,  A >= 0,  b >  0,  ep >  0 ==>  2 * b * (y_289 " ++
    "- oy_10) >  (v_290) ^ 2  \" (antecedent (>= (- y_289 oy_10) 0.0) (>= (- y_3 oy_10) 0.0) (> (* (* 2.0 " ++
    "b) (- y_3 oy_10)) (+ (* v_3 v_3) (* (* 2.0 (+ A b)) (+ (* (/ A 2.0) (* t_314 t_314)) (* t_314 v_3)))" ++
    ")) (<= t_314 ep) (>= v_290 0.0) (>= t_314 0.0) (= v_290 (+ v_3 (* a_8 t_314))) (<= (* (- t_314) (- v" ++
    "_290 (* (/ a_8 2.0) t_314))) (- y_289 y_3)) (<= (- y_289 y_3) (* t_314 (- v_290 (* (/ a_8 2.0) t_314" ++
    ")))) (<= (- b) a_8) (<= a_8 A) (>= v_3 0.0) (>= A 0.0) (> b 0.0) (> ep 0.0)) (succedent (> (* (* 2.0" ++
    " b) (- y_289 oy_10)) (* v_290 v_290))))") =
  [("tt tt gt[0,0,-1,-4,-2] tt ge[0,1] ge[0,1] eq[0,0,-1] le[0,0,-1,1/2] le[0,0,-1,1/2] le[0,-2] tt ge[0," ++
    "1] ge[0,1] gt[0,1] gt[0,1] |- gt[0,0,-1]")]

-- `vts/Examples/HidingProblems/DWA_StationaryObstacles_ArcTraj_onlyleaves_nodivision_lessstupid.key_27.smt.pkl`
#guard examples (
    "(sequent \"y_3 - oy_10 >= 0,     2 * b * (y_3 - oy_10)  >    (v_3) ^ 2     + 2 * (A + b) * (A / 2 * (" ++
    "t_314) ^ 2 + t_314 * v_3),  t_314 <= ep,  v_290 >= 0,  t_314 >= 0,  v_290 = v_3 + a_8 * t_314,  -t_3" ++
    "14 * (v_290 - a_8 / 2 * t_314) <= y_289 - y_3,  y_289 - y_3 <= t_314 * (v_290 - a_8 / 2 * t_314),  -" ++
    "b <= a_8,  a_8 <= A,  v_3 >= 0,  A >= 0,  b >  0,  ep >  0 ==>  y_289 - oy_10 >= 0,  2 * b * -(y_289" ++
    " - oy_10) >  (v_290) ^ 2  \" (antecedent (>= (- y_3 oy_10) 0.0) (> (* (* 2.0 b) (- y_3 oy_10)) (+ (* " ++
    "v_3 v_3) (* (* 2.0 (+ A b)) (+ (* (/ A 2.0) (* t_314 t_314)) (* t_314 v_3))))) (<= t_314 ep) (>= v_2" ++
    "90 0.0) (>= t_314 0.0) (= v_290 (+ v_3 (* a_8 t_314))) (<= (* (- t_314) (- v_290 (* (/ a_8 2.0) t_31" ++
    "4))) (- y_289 y_3)) (<= (- y_289 y_3) (* t_314 (- v_290 (* (/ a_8 2.0) t_314)))) (<= (- b) a_8) (<= " ++
    "a_8 A) (>= v_3 0.0) (>= A 0.0) (> b 0.0) (> ep 0.0)) (succedent (>= (- y_289 oy_10) 0.0) (> (* (* 2." ++
    "0 b) (- (- y_289 oy_10))) (* v_290 v_290))))") =
  [("tt gt[0,0,-1,-4,-2] tt ge[0,1] ge[0,1] eq[0,0,-1] le[0,0,-1,1/2] le[0,0,-1,1/2] le[0,-2] tt ge[0,1] " ++
    "ge[0,1] gt[0,1] gt[0,1] |- tt gt[0,0,-1]")]

-- `vts/Examples/HidingProblems/DWA_StationaryObstacles_ArcTraj_onlyleaves_nodivision_lessstupid.key_28.smt.pkl`
#guard examples (
    "(sequent \"y_289 - oy_10 >= 0,     2 * b * -(y_3 - oy_10)  >    (v_3) ^ 2     + 2 * (A + b) * (A / 2 " ++
    "* (t_314) ^ 2 + t_314 * v_3),  t_314 <= ep,  v_290 >= 0,  t_314 >= 0,  v_290 = v_3 + a_8 * t_314,  -" ++
    "t_314 * (v_290 - a_8 / 2 * t_314) <= y_289 - y_3,  y_289 - y_3 <= t_314 * (v_290 - a_8 / 2 * t_314)," ++
    "  -b <= a_8,  a_8 <= A,  v_3 >= 0,  A >= 0,  b >  0,  ep >  0 ==>  y_3 - oy_10 >= 0,  2 * b * (y_289" ++
    " - oy_10) >  (v_290) ^ 2  \" (antecedent (>= (- y_289 oy_10) 0.0) (> (* (* 2.0 b) (- (- y_3 oy_10))) " ++
    "(+ (* v_3 v_3) (* (* 2.0 (+ A b)) (+ (* (/ A 2.0) (* t_314 t_314)) (* t_314 v_3))))) (<= t_314 ep) (" ++
    ">= v_290 0.0) (>= t_314 0.0) (= v_290 (+ v_3 (* a_8 t_314))) (<= (* (- t_314) (- v_290 (* (/ a_8 2.0" ++
    ") t_314))) (- y_289 y_3)) (<= (- y_289 y_3) (* t_314 (- v_290 (* (/ a_8 2.0) t_314)))) (<= (- b) a_8" ++
    ") (<= a_8 A) (>= v_3 0.0) (>= A 0.0) (> b 0.0) (> ep 0.0)) (succedent (>= (- y_3 oy_10) 0.0) (> (* (" ++
    "* 2.0 b) (- y_289 oy_10)) (* v_290 v_290))))") =
  [("tt gt[0,0,-1,-4,-2] tt ge[0,1] ge[0,1] eq[0,0,-1] le[0,0,-1,1/2] le[0,0,-1,1/2] le[0,-2] tt ge[0,1] " ++
    "ge[0,1] gt[0,1] gt[0,1] |- tt gt[0,0,-1]")]

-- `vts/Examples/HidingProblems/DWA_StationaryObstacles_ArcTraj_onlyleaves_nodivision_lessstupid.key_29.smt.pkl`
#guard examples (
    "(sequent \"   2 * b * -(y_3 - oy_10)  >    (v_3) ^ 2     + 2 * (A + b) * (A / 2 * (t_314) ^ 2 + t_314" ++
    " * v_3),  t_314 <= ep,  v_290 >= 0,  t_314 >= 0,  v_290 = v_3 + a_8 * t_314,  -t_314 * (v_290 - a_8 " ++
    "/ 2 * t_314) <= y_289 - y_3,  y_289 - y_3 <= t_314 * (v_290 - a_8 / 2 * t_314),  -b <= a_8,  a_8 <= " ++
    "A,  v_3 >= 0,  A >= 0,  b >  0,  ep >  0 ==>  y_3 - oy_10 >= 0,  y_289 - oy_10 >= 0,  2 * b * -(y_28" ++
    "9 - oy_10) >  (v_290) ^ 2  \" (antecedent (> (* (* 2.0 b) (- (- y_3 oy_10))) (+ (* v_3 v_3) (* (* 2.0" ++
    " (+ A b)) (+ (* (/ A 2.0) (* t_314 t_314)) (* t_314 v_3))))) (<= t_314 ep) (>= v_290 0.0) (>= t_314 " ++
    "0.0) (= v_290 (+ v_3 (* a_8 t_314))) (<= (* (- t_314) (- v_290 (* (/ a_8 2.0) t_314))) (- y_289 y_3)" ++
    ") (<= (- y_289 y_3) (* t_314 (- v_290 (* (/ a_8 2.0) t_314)))) (<= (- b) a_8) (<= a_8 A) (>= v_3 0.0" ++
    ") (>= A 0.0) (> b 0.0) (> ep 0.0)) (succedent (>= (- y_3 oy_10) 0.0) (>= (- y_289 oy_10) 0.0) (> (* " ++
    "(* 2.0 b) (- (- y_289 oy_10))) (* v_290 v_290))))") =
  [("gt[0,0,-1,-4,-2] tt ge[0,1] ge[0,1] eq[0,0,-1] le[0,0,-1,1/2] le[0,0,-1,1/2] le[0,-2] tt ge[0,1] ge[" ++
    "0,1] gt[0,1] gt[0,1] |- tt tt gt[0,0,-1]")]

-- `vts/Examples/HidingProblems/DWA_StationaryObstacles_ArcTraj_onlyleaves_nodivision_lessstupid.key_3.smt.pkl`
#guard examples (
    "(sequent \"x_358 - ox_6 >= 0,     2 * b * -(x_3 - ox_6)  >    (v_3) ^ 2     + 2 * (A + b) * (A / 2 * " ++
    "(t_403) ^ 2 + t_403 * v_3),  t_403 <= ep,  v_359 >= 0,  t_403 >= 0,  v_359 = v_3 + a_4 * t_403,  -t_" ++
    "403 * (v_359 - a_4 / 2 * t_403) <= x_358 - x_3,  x_358 - x_3 <= t_403 * (v_359 - a_4 / 2 * t_403),  " ++
    "-b <= a_4,  a_4 <= A,  v_3 = 0,  A >= 0,  b >  0,  ep >  0 ==>  x_3 - ox_6 >= 0,  2 * b * (x_358 - o" ++
    "x_6) >  (v_359) ^ 2  \" (antecedent (>= (- x_358 ox_6) 0.0) (> (* (* 2.0 b) (- (- x_3 ox_6))) (+ (* v" ++
    "_3 v_3) (* (* 2.0 (+ A b)) (+ (* (/ A 2.0) (* t_403 t_403)) (* t_403 v_3))))) (<= t_403 ep) (>= v_35" ++
    "9 0.0) (>= t_403 0.0) (= v_359 (+ v_3 (* a_4 t_403))) (<= (* (- t_403) (- v_359 (* (/ a_4 2.0) t_403" ++
    "))) (- x_358 x_3)) (<= (- x_358 x_3) (* t_403 (- v_359 (* (/ a_4 2.0) t_403)))) (<= (- b) a_4) (<= a" ++
    "_4 A) (= v_3 0.0) (>= A 0.0) (> b 0.0) (> ep 0.0)) (succedent (>= (- x_3 ox_6) 0.0) (> (* (* 2.0 b) " ++
    "(- x_358 ox_6)) (* v_359 v_359))))") =
  [("tt gt[0,0,-1,-4,-2] tt ge[0,1] ge[0,1] eq[0,0,-1] le[0,0,-1,1/2] le[0,0,-1,1/2] le[0,-2] tt eq[0,1] " ++
    "ge[0,1] gt[0,1] gt[0,1] |- tt gt[0,0,-1]")]

-- `vts/Examples/HidingProblems/DWA_StationaryObstacles_ArcTraj_onlyleaves_nodivision_lessstupid.key_30.smt.pkl`
#guard examples (
    "(sequent \"   2 * b * Abs_23  >    (v_3) ^ 2     + 2 * (A + b) * (A / 2 * (ep) ^ 2 + ep * v_3),  t_31" ++
    "4 <= ep,  v_290 >= 0,  t_314 >= 0,  v_290 = v_3 + a_8 * t_314,  -t_314 * (v_290 - a_8 / 2 * t_314) <" ++
    "= y_289 - y_3,  y_289 - y_3 <= t_314 * (v_290 - a_8 / 2 * t_314),  -b <= a_8,  a_8 <= A,  v_3 >= 0, " ++
    " A >= 0,  b >  0,  ep >  0 ==>     2 * b * Abs_23  >    (v_3) ^ 2     + 2 * (A + b) * (A / 2 * (t_31" ++
    "4) ^ 2 + t_314 * v_3)  \" (antecedent (> (* (* 2.0 b) Abs_23) (+ (* v_3 v_3) (* (* 2.0 (+ A b)) (+ (*" ++
    " (/ A 2.0) (* ep ep)) (* ep v_3))))) (<= t_314 ep) (>= v_290 0.0) (>= t_314 0.0) (= v_290 (+ v_3 (* " ++
    "a_8 t_314))) (<= (* (- t_314) (- v_290 (* (/ a_8 2.0) t_314))) (- y_289 y_3)) (<= (- y_289 y_3) (* t" ++
    "_314 (- v_290 (* (/ a_8 2.0) t_314)))) (<= (- b) a_8) (<= a_8 A) (>= v_3 0.0) (>= A 0.0) (> b 0.0) (" ++
    "> ep 0.0)) (succedent (> (* (* 2.0 b) Abs_23) (+ (* v_3 v_3) (* (* 2.0 (+ A b)) (+ (* (/ A 2.0) (* t" ++
    "_314 t_314)) (* t_314 v_3)))))))") =
  [("gt[0,0,1,-4,-2] tt ge[0,1] ge[0,1] eq[0,0,-1] le[0,0,-1,1/2] le[0,0,-1,1/2] le[0,-2] tt ge[0,1] ge[0" ++
    ",1] gt[0,1] gt[0,1] |- gt[0,0,1,-4,-2]")]

-- `vts/Examples/HidingProblems/DWA_StationaryObstacles_ArcTraj_onlyleaves_nodivision_lessstupid.key_4.smt.pkl`
#guard examples (
    "(sequent \"   2 * b * -(x_3 - ox_6)  >    (v_3) ^ 2     + 2 * (A + b) * (A / 2 * (t_403) ^ 2 + t_403 " ++
    "* v_3),  t_403 <= ep,  v_359 >= 0,  t_403 >= 0,  v_359 = v_3 + a_4 * t_403,  -t_403 * (v_359 - a_4 /" ++
    " 2 * t_403) <= x_358 - x_3,  x_358 - x_3 <= t_403 * (v_359 - a_4 / 2 * t_403),  -b <= a_4,  a_4 <= A" ++
    ",  v_3 = 0,  A >= 0,  b >  0,  ep >  0 ==>  x_3 - ox_6 >= 0,  x_358 - ox_6 >= 0,  2 * b * -(x_358 - " ++
    "ox_6) >  (v_359) ^ 2  \" (antecedent (> (* (* 2.0 b) (- (- x_3 ox_6))) (+ (* v_3 v_3) (* (* 2.0 (+ A " ++
    "b)) (+ (* (/ A 2.0) (* t_403 t_403)) (* t_403 v_3))))) (<= t_403 ep) (>= v_359 0.0) (>= t_403 0.0) (" ++
    "= v_359 (+ v_3 (* a_4 t_403))) (<= (* (- t_403) (- v_359 (* (/ a_4 2.0) t_403))) (- x_358 x_3)) (<= " ++
    "(- x_358 x_3) (* t_403 (- v_359 (* (/ a_4 2.0) t_403)))) (<= (- b) a_4) (<= a_4 A) (= v_3 0.0) (>= A" ++
    " 0.0) (> b 0.0) (> ep 0.0)) (succedent (>= (- x_3 ox_6) 0.0) (>= (- x_358 ox_6) 0.0) (> (* (* 2.0 b)" ++
    " (- (- x_358 ox_6))) (* v_359 v_359))))") =
  [("gt[0,0,-1,-4,-2] tt ge[0,1] ge[0,1] eq[0,0,-1] le[0,0,-1,1/2] le[0,0,-1,1/2] le[0,-2] tt eq[0,1] ge[" ++
    "0,1] gt[0,1] gt[0,1] |- tt tt gt[0,0,-1]")]

-- `vts/Examples/HidingProblems/DWA_StationaryObstacles_ArcTraj_onlyleaves_nodivision_lessstupid.key_5.smt.pkl`
#guard examples (
    "(sequent \"   2 * b * Abs_13  >    (v_3) ^ 2     + 2 * (A + b) * (A / 2 * (ep) ^ 2 + ep * v_3),  t_40" ++
    "3 <= ep,  v_359 >= 0,  t_403 >= 0,  v_359 = v_3 + a_4 * t_403,  -t_403 * (v_359 - a_4 / 2 * t_403) <" ++
    "= x_358 - x_3,  x_358 - x_3 <= t_403 * (v_359 - a_4 / 2 * t_403),  -b <= a_4,  a_4 <= A,  v_3 = 0,  " ++
    "A >= 0,  b >  0,  ep >  0 ==>     2 * b * Abs_13  >    (v_3) ^ 2     + 2 * (A + b) * (A / 2 * (t_403" ++
    ") ^ 2 + t_403 * v_3)  \" (antecedent (> (* (* 2.0 b) Abs_13) (+ (* v_3 v_3) (* (* 2.0 (+ A b)) (+ (* " ++
    "(/ A 2.0) (* ep ep)) (* ep v_3))))) (<= t_403 ep) (>= v_359 0.0) (>= t_403 0.0) (= v_359 (+ v_3 (* a" ++
    "_4 t_403))) (<= (* (- t_403) (- v_359 (* (/ a_4 2.0) t_403))) (- x_358 x_3)) (<= (- x_358 x_3) (* t_" ++
    "403 (- v_359 (* (/ a_4 2.0) t_403)))) (<= (- b) a_4) (<= a_4 A) (= v_3 0.0) (>= A 0.0) (> b 0.0) (> " ++
    "ep 0.0)) (succedent (> (* (* 2.0 b) Abs_13) (+ (* v_3 v_3) (* (* 2.0 (+ A b)) (+ (* (/ A 2.0) (* t_4" ++
    "03 t_403)) (* t_403 v_3)))))))") =
  [("gt[0,0,1,-4,-2] tt ge[0,1] ge[0,1] eq[0,0,-1] le[0,0,-1,1/2] le[0,0,-1,1/2] le[0,-2] tt eq[0,1] ge[0" ++
    ",1] gt[0,1] gt[0,1] |- gt[0,0,1,-4,-2]")]

-- `vts/Examples/HidingProblems/DWA_StationaryObstacles_ArcTraj_onlyleaves_nodivision_lessstupid.key_6.smt.pkl`
#guard examples (
    "(sequent \"y_350 - oy_6 >= 0,  y_3 - oy_6 >= 0,     2 * b * (y_3 - oy_6)  >    (v_3) ^ 2     + 2 * (A" ++
    " + b) * (A / 2 * (t_393) ^ 2 + t_393 * v_3),  t_393 <= ep,  v_351 >= 0,  t_393 >= 0,  v_351 = v_3 + " ++
    "a_4 * t_393,  -t_393 * (v_351 - a_4 / 2 * t_393) <= y_350 - y_3,  y_350 - y_3 <= t_393 * (v_351 - a_" ++
    "4 / 2 * t_393),  -b <= a_4,  a_4 <= A,  v_3 = 0,  A >= 0,  b >  0,  ep >  0 ==>  2 * b * (y_350 - oy" ++
    "_6) >  (v_351) ^ 2  \" (antecedent (>= (- y_350 oy_6) 0.0) (>= (- y_3 oy_6) 0.0) (> (* (* 2.0 b) (- y" ++
    "_3 oy_6)) (+ (* v_3 v_3) (* (* 2.0 (+ A b)) (+ (* (/ A 2.0) (* t_393 t_393)) (* t_393 v_3))))) (<= t" ++
    "_393 ep) (>= v_351 0.0) (>= t_393 0.0) (= v_351 (+ v_3 (* a_4 t_393))) (<= (* (- t_393) (- v_351 (* " ++
    "(/ a_4 2.0) t_393))) (- y_350 y_3)) (<= (- y_350 y_3) (* t_393 (- v_351 (* (/ a_4 2.0) t_393)))) (<=" ++
    " (- b) a_4) (<= a_4 A) (= v_3 0.0) (>= A 0.0) (> b 0.0) (> ep 0.0)) (succedent (> (* (* 2.0 b) (- y_" ++
    "350 oy_6)) (* v_351 v_351))))") =
  [("tt tt gt[0,0,-1,-4,-2] tt ge[0,1] ge[0,1] eq[0,0,-1] le[0,0,-1,1/2] le[0,0,-1,1/2] le[0,-2] tt eq[0," ++
    "1] ge[0,1] gt[0,1] gt[0,1] |- gt[0,0,-1]")]

-- `vts/Examples/HidingProblems/DWA_StationaryObstacles_ArcTraj_onlyleaves_nodivision_lessstupid.key_7.smt.pkl`
#guard examples (
    "(sequent \"y_3 - oy_6 >= 0,     2 * b * (y_3 - oy_6)  >    (v_3) ^ 2     + 2 * (A + b) * (A / 2 * (t_" ++
    "393) ^ 2 + t_393 * v_3),  t_393 <= ep,  v_351 >= 0,  t_393 >= 0,  v_351 = v_3 + a_4 * t_393,  -t_393" ++
    " * (v_351 - a_4 / 2 * t_393) <= y_350 - y_3,  y_350 - y_3 <= t_393 * (v_351 - a_4 / 2 * t_393),  -b " ++
    "<= a_4,  a_4 <= A,  v_3 = 0,  A >= 0,  b >  0,  ep >  0 ==>  y_350 - oy_6 >= 0,  2 * b * -(y_350 - o" ++
    "y_6) >  (v_351) ^ 2  \" (antecedent (>= (- y_3 oy_6) 0.0) (> (* (* 2.0 b) (- y_3 oy_6)) (+ (* v_3 v_3" ++
    ") (* (* 2.0 (+ A b)) (+ (* (/ A 2.0) (* t_393 t_393)) (* t_393 v_3))))) (<= t_393 ep) (>= v_351 0.0)" ++
    " (>= t_393 0.0) (= v_351 (+ v_3 (* a_4 t_393))) (<= (* (- t_393) (- v_351 (* (/ a_4 2.0) t_393))) (-" ++
    " y_350 y_3)) (<= (- y_350 y_3) (* t_393 (- v_351 (* (/ a_4 2.0) t_393)))) (<= (- b) a_4) (<= a_4 A) " ++
    "(= v_3 0.0) (>= A 0.0) (> b 0.0) (> ep 0.0)) (succedent (>= (- y_350 oy_6) 0.0) (> (* (* 2.0 b) (- (" ++
    "- y_350 oy_6))) (* v_351 v_351))))") =
  [("tt gt[0,0,-1,-4,-2] tt ge[0,1] ge[0,1] eq[0,0,-1] le[0,0,-1,1/2] le[0,0,-1,1/2] le[0,-2] tt eq[0,1] " ++
    "ge[0,1] gt[0,1] gt[0,1] |- tt gt[0,0,-1]")]

-- `vts/Examples/HidingProblems/DWA_StationaryObstacles_ArcTraj_onlyleaves_nodivision_lessstupid.key_8.smt.pkl`
#guard examples (
    "(sequent \"y_350 - oy_6 >= 0,     2 * b * -(y_3 - oy_6)  >    (v_3) ^ 2     + 2 * (A + b) * (A / 2 * " ++
    "(t_393) ^ 2 + t_393 * v_3),  t_393 <= ep,  v_351 >= 0,  t_393 >= 0,  v_351 = v_3 + a_4 * t_393,  -t_" ++
    "393 * (v_351 - a_4 / 2 * t_393) <= y_350 - y_3,  y_350 - y_3 <= t_393 * (v_351 - a_4 / 2 * t_393),  " ++
    "-b <= a_4,  a_4 <= A,  v_3 = 0,  A >= 0,  b >  0,  ep >  0 ==>  y_3 - oy_6 >= 0,  2 * b * (y_350 - o" ++
    "y_6) >  (v_351) ^ 2  \" (antecedent (>= (- y_350 oy_6) 0.0) (> (* (* 2.0 b) (- (- y_3 oy_6))) (+ (* v" ++
    "_3 v_3) (* (* 2.0 (+ A b)) (+ (* (/ A 2.0) (* t_393 t_393)) (* t_393 v_3))))) (<= t_393 ep) (>= v_35" ++
    "1 0.0) (>= t_393 0.0) (= v_351 (+ v_3 (* a_4 t_393))) (<= (* (- t_393) (- v_351 (* (/ a_4 2.0) t_393" ++
    "))) (- y_350 y_3)) (<= (- y_350 y_3) (* t_393 (- v_351 (* (/ a_4 2.0) t_393)))) (<= (- b) a_4) (<= a" ++
    "_4 A) (= v_3 0.0) (>= A 0.0) (> b 0.0) (> ep 0.0)) (succedent (>= (- y_3 oy_6) 0.0) (> (* (* 2.0 b) " ++
    "(- y_350 oy_6)) (* v_351 v_351))))") =
  [("tt gt[0,0,-1,-4,-2] tt ge[0,1] ge[0,1] eq[0,0,-1] le[0,0,-1,1/2] le[0,0,-1,1/2] le[0,-2] tt eq[0,1] " ++
    "ge[0,1] gt[0,1] gt[0,1] |- tt gt[0,0,-1]")]

-- `vts/Examples/HidingProblems/DWA_StationaryObstacles_ArcTraj_onlyleaves_nodivision_lessstupid.key_9.smt.pkl`
#guard examples (
    "(sequent \"   2 * b * -(y_3 - oy_6)  >    (v_3) ^ 2     + 2 * (A + b) * (A / 2 * (t_393) ^ 2 + t_393 " ++
    "* v_3),  t_393 <= ep,  v_351 >= 0,  t_393 >= 0,  v_351 = v_3 + a_4 * t_393,  -t_393 * (v_351 - a_4 /" ++
    " 2 * t_393) <= y_350 - y_3,  y_350 - y_3 <= t_393 * (v_351 - a_4 / 2 * t_393),  -b <= a_4,  a_4 <= A" ++
    ",  v_3 = 0,  A >= 0,  b >  0,  ep >  0 ==>  y_3 - oy_6 >= 0,  y_350 - oy_6 >= 0,  2 * b * -(y_350 - " ++
    "oy_6) >  (v_351) ^ 2  \" (antecedent (> (* (* 2.0 b) (- (- y_3 oy_6))) (+ (* v_3 v_3) (* (* 2.0 (+ A " ++
    "b)) (+ (* (/ A 2.0) (* t_393 t_393)) (* t_393 v_3))))) (<= t_393 ep) (>= v_351 0.0) (>= t_393 0.0) (" ++
    "= v_351 (+ v_3 (* a_4 t_393))) (<= (* (- t_393) (- v_351 (* (/ a_4 2.0) t_393))) (- y_350 y_3)) (<= " ++
    "(- y_350 y_3) (* t_393 (- v_351 (* (/ a_4 2.0) t_393)))) (<= (- b) a_4) (<= a_4 A) (= v_3 0.0) (>= A" ++
    " 0.0) (> b 0.0) (> ep 0.0)) (succedent (>= (- y_3 oy_6) 0.0) (>= (- y_350 oy_6) 0.0) (> (* (* 2.0 b)" ++
    " (- (- y_350 oy_6))) (* v_351 v_351))))") =
  [("gt[0,0,-1,-4,-2] tt ge[0,1] ge[0,1] eq[0,0,-1] le[0,0,-1,1/2] le[0,0,-1,1/2] le[0,-2] tt eq[0,1] ge[" ++
    "0,1] gt[0,1] gt[0,1] |- tt tt gt[0,0,-1]")]

-- `vts/Examples/HidingProblems/stationaryobstacles_program_partlymechanic.key_2.smt.pkl`
#guard examples (
    "(sequent \"x_r_1 - x_o_4 >= 0,     2 * B_r * (x_r_1 - x_o_4)  >    (v_r_1) ^ 2     +   2 * (A_r + B_r" ++
    ")       * (A_r / 2 * (t_93) ^ 2 + t_93 * v_r_1),  t_93 <= ep,  v_r_81 >= 0,  t_93 >= 0,  (dx_r_81) ^" ++
    " 2 + (dy_r_81) ^ 2 = 1,  v_r_81 = v_r_1 + a_r_3 * t_93,  -t_93 * (v_r_81 - a_r_3 / 2 * t_93) <= x_r_" ++
    "81 - x_r_1,  x_r_81 - x_r_1 <= t_93 * (v_r_81 - a_r_3 / 2 * t_93),  -B_r <= a_r_3,  a_r_3 <= A_r,  r" ++
    "_4 != 0,  v_r_1 >= 0,  (dx_r_1) ^ 2 + (dy_r_1) ^ 2 = 1,  r_1 != 0,  A_r >= 0,  B_r >  0,  ep >  0 ==" ++
    ">  x_r_81 - x_o_4 >= 0,  2 * B_r * -(x_r_81 - x_o_4) >  (v_r_81) ^ 2  \" (antecedent (>= (- x_r_1 x_o" ++
    "_4) 0.0) (> (* (* 2.0 B_r) (- x_r_1 x_o_4)) (+ (* v_r_1 v_r_1) (* (* 2.0 (+ A_r B_r)) (+ (* (/ A_r 2" ++
    ".0) (* t_93 t_93)) (* t_93 v_r_1))))) (<= t_93 ep) (>= v_r_81 0.0) (>= t_93 0.0) (= (+ (* dx_r_81 dx" ++
    "_r_81) (* dy_r_81 dy_r_81)) 1.0) (= v_r_81 (+ v_r_1 (* a_r_3 t_93))) (<= (* (- t_93) (- v_r_81 (* (/" ++
    " a_r_3 2.0) t_93))) (- x_r_81 x_r_1)) (<= (- x_r_81 x_r_1) (* t_93 (- v_r_81 (* (/ a_r_3 2.0) t_93))" ++
    ")) (<= (- B_r) a_r_3) (<= a_r_3 A_r) (!= r_4 0.0) (>= v_r_1 0.0) (= (+ (* dx_r_1 dx_r_1) (* dy_r_1 d" ++
    "y_r_1)) 1.0) (!= r_1 0.0) (>= A_r 0.0) (> B_r 0.0) (> ep 0.0)) (succedent (>= (- x_r_81 x_o_4) 0.0) " ++
    "(> (* (* 2.0 B_r) (- (- x_r_81 x_o_4))) (* v_r_81 v_r_81))))") =
  [("tt gt[0,0,-1,-4,-2] tt ge[0,1] ge[0,1] eq[-1,0,2] eq[0,0,-1] le[0,0,-1,1/2] le[0,0,-1,1/2] le[0,-2] " ++
    "tt ne[0,1] ge[0,1] eq[-1,0,2] ne[0,1] ge[0,1] gt[0,1] gt[0,1] |- tt gt[0,0,-1]")]

-- `vts/Examples/HidingProblems/stationaryobstacles_program_partlymechanic.key_2.smt~.pkl`
#guard examples (
    "(sequent \"x_r_1 - x_o_4 >= 0,     2 * B_r * (x_r_1 - x_o_4)  >    (v_r_1) ^ 2     +   2 * (A_r + B_r" ++
    ")       * (A_r / 2 * (t_93) ^ 2 + t_93 * v_r_1),  t_93 <= ep,  v_r_81 >= 0,  t_93 >= 0,  (dx_r_81) ^" ++
    " 2 + (dy_r_81) ^ 2 = 1,  v_r_81 = v_r_1 + a_r_3 * t_93,  -t_93 * (v_r_81 - a_r_3 / 2 * t_93) <= x_r_" ++
    "81 - x_r_1,  x_r_81 - x_r_1 <= t_93 * (v_r_81 - a_r_3 / 2 * t_93),  -B_r <= a_r_3,  a_r_3 <= A_r,  r" ++
    "_4 != 0,  v_r_1 >= 0,  (dx_r_1) ^ 2 + (dy_r_1) ^ 2 = 1,  r_1 != 0,  A_r >= 0,  B_r >  0,  ep >  0 ==" ++
    ">  x_r_81 - x_o_4 >= 0,  2 * B_r * -(x_r_81 - x_o_4) >  (v_r_81) ^ 2  \" (antecedent (>= (- x_r_1 x_o" ++
    "_4) 0.0) (> (* (* 2.0 B_r) (- x_r_1 x_o_4)) (+ (* v_r_1 v_r_1) (* (* 2.0 (+ A_r B_r)) (+ (* (/ A_r 2" ++
    ".0) (* t_93 t_93)) (* t_93 v_r_1))))) (<= t_93 ep) (>= v_r_81 0.0) (>= t_93 0.0) (= (+ (* dx_r_81 dx" ++
    "_r_81) (* dy_r_81 dy_r_81)) 1.0) (= v_r_81 (+ v_r_1 (* a_r_3 t_93))) (<= (* (- t_93) (- v_r_81 (* (/" ++
    " a_r_3 2.0) t_93))) (- x_r_81 x_r_1)) (<= (- x_r_81 x_r_1) (* t_93 (- v_r_81 (* (/ a_r_3 2.0) t_93))" ++
    ")) (<= (- B_r) a_r_3) (<= a_r_3 A_r) (not (= r_4 0.0)) (>= v_r_1 0.0) (= (+ (* dx_r_1 dx_r_1) (* dy_" ++
    "r_1 dy_r_1)) 1.0) (not (= r_1 0.0)) (>= A_r 0.0) (> B_r 0.0) (> ep 0.0)) (succedent (>= (- x_r_81 x_" ++
    "o_4) 0.0) (> (* (* 2.0 B_r) (- (- x_r_81 x_o_4))) (* v_r_81 v_r_81))))") =
  []

-- `vts/Examples/Metitarski/sin-problem-10-2.trace.pkl`
#guard examples (
    "-----[begin problem]-----\n% In Mathematica format:\nTiming[Resolve[Exists[{skoSM1C1,skoSP1C1,skoSC1,s" ++
    "koXC1}, And[skoSP1C1*skoSM1C1*-2<=0,skoSP1C1*skoSM1C1*2<=0,skoSP1C1*(-1+skoSM1C1*(-1/50))<=skoSM1C1," ++
    "0>skoSM1C1,-1+skoSP1C1*skoSP1C1==skoXC1,1+skoSM1C1*skoSM1C1==skoXC1,skoSC1*skoSC1==skoXC1,0<=skoSP1C" ++
    "1,0<=skoSM1C1,0<=skoSC1,skoXC1>(7/5)]], Reals]]\n\n% In QepcadB format:\n(E skoSM1C1) (E skoSP1C1) (E s" ++
    "koSC1) (E skoXC1) [[(skoSP1C1 skoSM1C1 (-2))<=0]/\\[[(skoSP1C1 skoSM1C1 (2))<=0]/\\[[(skoSP1C1 (-1+(sk" ++
    "oSM1C1 (-1/50))))<=skoSM1C1]/\\[[skoSM1C1<0]/\\[[(-1+(skoSP1C1 skoSP1C1))=skoXC1]/\\[[(1+(skoSM1C1 skoS" ++
    "M1C1))=skoXC1]/\\[[(skoSC1 skoSC1)=skoXC1]/\\[[0<=skoSP1C1]/\\[[0<=skoSM1C1]/\\[[0<=skoSC1]/\\[7/5<skoXC1" ++
    "]]]]]]]]]]].\n\n% In SMTLib2 format:\n(declare-fun skoSM1C1 () Real) (declare-fun skoSP1C1 () Real) (de" ++
    "clare-fun skoSC1 () Real) (declare-fun skoXC1 () Real) (assert (and (<= (* skoSP1C1 (* skoSM1C1 (- 2" ++
    ".))) 0.) (and (<= (* skoSP1C1 (* skoSM1C1 2.)) 0.) (and (<= (* skoSP1C1 (+ (- 1.) (* skoSM1C1 (/ (- " ++
    "1.) 50.)))) skoSM1C1) (and (> 0. skoSM1C1) (and (= (+ (- 1.) (* skoSP1C1 skoSP1C1)) skoXC1) (and (= " ++
    "(+ 1. (* skoSM1C1 skoSM1C1)) skoXC1) (and (= (* skoSC1 skoSC1) skoXC1) (and (<= 0. skoSP1C1) (and (<" ++
    "= 0. skoSM1C1) (and (<= 0. skoSC1) (> skoXC1 (/ 7. 5.)))))))))))))\n\n% In GRF format:\n(sequent \" Meti" ++
    "Tarski formula \" (antecedent (<= (* skoSP1C1 (* skoSM1C1 (- 2.))) 0.) (<= (* skoSP1C1 (* skoSM1C1 2." ++
    ")) 0.) (<= (* skoSP1C1 (+ (- 1.) (* skoSM1C1 (/ (- 1.) 50.)))) skoSM1C1) (> 0. skoSM1C1) (= (+ (- 1." ++
    ") (* skoSP1C1 skoSP1C1)) skoXC1) (= (+ 1. (* skoSM1C1 skoSM1C1)) skoXC1) (= (* skoSC1 skoSC1) skoXC1" ++
    ") (<= 0. skoSP1C1) (<= 0. skoSM1C1) (<= 0. skoSC1)) (succedent (<= skoXC1 (/ 7. 5.))))\n-----[end pro" ++
    "blem]-----\n\n") =
  [("le[0,0,-2] le[0,0,2] le[0,-2,-1/50] gt[0,-1] eq[-1,-1,1] eq[1,-1,1] eq[0,-1,1] le[0,-1] le[0,-1] le[" ++
    "0,-1] |- le[-7/5,1]")]

-- `vts/Examples/Metitarski/sin-problem-10-3.trace.pkl`
#guard examples (
    "-----[begin problem]-----\n% In Mathematica format:\nTiming[Resolve[Exists[{skoCM1C1,skoCP1C1,skoCC1,s" ++
    "koXC1}, And[skoCP1C1*skoCM1C1*-2<=0,skoCP1C1*skoCM1C1*2<=0,skoCP1C1*(-1+skoCM1C1*(-1/7))<=skoCM1C1,0" ++
    ">skoCM1C1,-1+skoCP1C1*skoCP1C1*skoCP1C1==skoXC1,1+skoCM1C1*skoCM1C1*skoCM1C1==skoXC1,skoCC1*skoCC1*s" ++
    "koCC1==skoXC1,0<=skoCP1C1,0<=skoCM1C1,0<=skoCC1,skoXC1>(7/5)]], Reals]]\n\n% In QepcadB format:\n(E sko" ++
    "CM1C1) (E skoCP1C1) (E skoCC1) (E skoXC1) [[(skoCP1C1 skoCM1C1 (-2))<=0]/\\[[(skoCP1C1 skoCM1C1 (2))<" ++
    "=0]/\\[[(skoCP1C1 (-1+(skoCM1C1 (-1/7))))<=skoCM1C1]/\\[[skoCM1C1<0]/\\[[(-1+(skoCP1C1 skoCP1C1 skoCP1C" ++
    "1))=skoXC1]/\\[[(1+(skoCM1C1 skoCM1C1 skoCM1C1))=skoXC1]/\\[[(skoCC1 skoCC1 skoCC1)=skoXC1]/\\[[0<=skoC" ++
    "P1C1]/\\[[0<=skoCM1C1]/\\[[0<=skoCC1]/\\[7/5<skoXC1]]]]]]]]]]].\n\n% In SMTLib2 format:\n(declare-fun skoC" ++
    "M1C1 () Real) (declare-fun skoCP1C1 () Real) (declare-fun skoCC1 () Real) (declare-fun skoXC1 () Rea" ++
    "l) (assert (and (<= (* skoCP1C1 (* skoCM1C1 (- 2.))) 0.) (and (<= (* skoCP1C1 (* skoCM1C1 2.)) 0.) (" ++
    "and (<= (* skoCP1C1 (+ (- 1.) (* skoCM1C1 (/ (- 1.) 7.)))) skoCM1C1) (and (> 0. skoCM1C1) (and (= (+" ++
    " (- 1.) (* skoCP1C1 (* skoCP1C1 skoCP1C1))) skoXC1) (and (= (+ 1. (* skoCM1C1 (* skoCM1C1 skoCM1C1))" ++
    ") skoXC1) (and (= (* skoCC1 (* skoCC1 skoCC1)) skoXC1) (and (<= 0. skoCP1C1) (and (<= 0. skoCM1C1) (" ++
    "and (<= 0. skoCC1) (> skoXC1 (/ 7. 5.)))))))))))))\n\n% In GRF format:\n(sequent \" MetiTarski formula \"" ++
    " (antecedent (<= (* skoCP1C1 (* skoCM1C1 (- 2.))) 0.) (<= (* skoCP1C1 (* skoCM1C1 2.)) 0.) (<= (* sk" ++
    "oCP1C1 (+ (- 1.) (* skoCM1C1 (/ (- 1.) 7.)))) skoCM1C1) (> 0. skoCM1C1) (= (+ (- 1.) (* skoCP1C1 (* " ++
    "skoCP1C1 skoCP1C1))) skoXC1) (= (+ 1. (* skoCM1C1 (* skoCM1C1 skoCM1C1))) skoXC1) (= (* skoCC1 (* sk" ++
    "oCC1 skoCC1)) skoXC1) (<= 0. skoCP1C1) (<= 0. skoCM1C1) (<= 0. skoCC1)) (succedent (<= skoXC1 (/ 7. " ++
    "5.))))\n-----[end problem]-----\n\n") =
  [("le[0,0,-2] le[0,0,2] le[0,-2,-1/7] gt[0,-1] eq[-1,-1,0,1] eq[1,-1,0,1] eq[0,-1,0,1] le[0,-1] le[0,-1" ++
    "] le[0,-1] |- le[-7/5,1]")]

-- `vts/Examples/Metitarski/sqrt-problem-Melquiond3.trace.pkl`
#guard examples (
    "-----[begin problem]-----\n% In Mathematica format:\nTiming[Resolve[Exists[{skoSXYC1,skoTC1,skoXC1,sko" ++
    "YC1}, And[skoXC1>(-295/36)+skoTC1*(125/18),skoXC1>(-536045/65536)+skoTC1*(125/18),skoXC1>(-295/36)+s" ++
    "koTC1*(125/18),skoSXYC1*-1+skoTC1*skoTC1*skoSXYC1==skoXC1,skoSXYC1*skoSXYC1+skoXC1*-1==skoYC1,skoYC1" ++
    "<=(33/32),skoXC1<=2,(3/2)<=skoXC1,1<=skoYC1,0<=skoTC1,0<=skoSXYC1]], Reals]]\n\n% In QepcadB format:\n(" ++
    "E skoSXYC1) (E skoTC1) (E skoXC1) (E skoYC1) [[(-295/36+(skoTC1 (125/18)))<skoXC1]/\\[[(-536045/65536" ++
    "+(skoTC1 (125/18)))<skoXC1]/\\[[(-295/36+(skoTC1 (125/18)))<skoXC1]/\\[[((skoSXYC1 (-1))+(skoTC1 skoTC" ++
    "1 skoSXYC1))=skoXC1]/\\[[((skoSXYC1 skoSXYC1)+(skoXC1 (-1)))=skoYC1]/\\[[skoYC1<=33/32]/\\[[skoXC1<=2]/" ++
    "\\[[3/2<=skoXC1]/\\[[1<=skoYC1]/\\[[0<=skoTC1]/\\[0<=skoSXYC1]]]]]]]]]]].\n\n% In SMTLib2 format:\n(declare" ++
    "-fun skoSXYC1 () Real) (declare-fun skoTC1 () Real) (declare-fun skoXC1 () Real) (declare-fun skoYC1" ++
    " () Real) (assert (and (> skoXC1 (+ (/ (- 295.) 36.) (* skoTC1 (/ 125. 18.)))) (and (> skoXC1 (+ (/ " ++
    "(- 536045.) 65536.) (* skoTC1 (/ 125. 18.)))) (and (> skoXC1 (+ (/ (- 295.) 36.) (* skoTC1 (/ 125. 1" ++
    "8.)))) (and (= (+ (* skoSXYC1 (- 1.)) (* skoTC1 (* skoTC1 skoSXYC1))) skoXC1) (and (= (+ (* skoSXYC1" ++
    " skoSXYC1) (* skoXC1 (- 1.))) skoYC1) (and (<= skoYC1 (/ 33. 32.)) (and (<= skoXC1 2.) (and (<= (/ 3" ++
    ". 2.) skoXC1) (and (<= 1. skoYC1) (and (<= 0. skoTC1) (<= 0. skoSXYC1))))))))))))\n\n% In GRF format:\n" ++
    "(sequent \" MetiTarski formula \" (antecedent (> skoXC1 (+ (/ (- 295.) 36.) (* skoTC1 (/ 125. 18.)))) " ++
    "(> skoXC1 (+ (/ (- 536045.) 65536.) (* skoTC1 (/ 125. 18.)))) (> skoXC1 (+ (/ (- 295.) 36.) (* skoTC" ++
    "1 (/ 125. 18.)))) (= (+ (* skoSXYC1 (- 1.)) (* skoTC1 (* skoTC1 skoSXYC1))) skoXC1) (= (+ (* skoSXYC" ++
    "1 skoSXYC1) (* skoXC1 (- 1.))) skoYC1) (<= skoYC1 (/ 33. 32.)) (<= skoXC1 2.) (<= (/ 3. 2.) skoXC1) " ++
    "(<= 1. skoYC1) (<= 0. skoTC1)) (succedent (> 0. skoSXYC1)))\n-----[end problem]-----\n\n") =
  [("gt[295/36,-107/18] gt[536045/65536,-107/18] gt[295/36,-107/18] eq[0,-2,0,1] eq[0,-2,1] le[-33/32,1] " ++
    "le[-2,1] le[3/2,-1] le[1,-1] le[0,-1] |- gt[0,-1]")]

-- `vts/Examples/Metitarski/asin-3abs.trace.pkl`
#guard examples (
    "-----[begin problem]-----\n% In Mathematica format:\nTiming[Resolve[Exists[{skoXC1}, And[0<=Pi,Pi<=0,s" ++
    "koXC1*Pi*-1>Pi*-1,skoXC1*Pi*-1<=0,skoXC1*(Pi*-1+skoXC1*(Pi*Pi*Pi+skoXC1*(Pi*Pi*Pi*-2+skoXC1*Pi*Pi*Pi" ++
    ")))>0,0<=Pi,skoXC1*(Pi+skoXC1*Pi*-1)>0,skoXC1*(Pi*-1+skoXC1*Pi)<=1,skoXC1*(Pi+skoXC1*Pi*-1)<=1,Pi>(1" ++
    "5707963/5000000),(31415927/10000000)>Pi]], Reals]]\n\n% In QepcadB format:\n(E skoXC1) (E pi) [[0<=pi]/" ++
    "\\[[pi<=0]/\\[[(pi (-1))<(skoXC1 pi (-1))]/\\[[(skoXC1 pi (-1))<=0]/\\[[0<(skoXC1 ((pi (-1))+(skoXC1 ((p" ++
    "i pi pi)+(skoXC1 ((pi pi pi (-2))+(skoXC1 pi pi pi)))))))]/\\[[0<=pi]/\\[[0<(skoXC1 (pi+(skoXC1 pi (-1" ++
    "))))]/\\[[(skoXC1 ((pi (-1))+(skoXC1 pi)))<=1]/\\[[(skoXC1 (pi+(skoXC1 pi (-1))))<=1]/\\[[15707963/5000" ++
    "000<pi]/\\[pi<31415927/10000000]]]]]]]]]]].\n\n% In SMTLib2 format:\n(declare-fun skoXC1 () Real) (decla" ++
    "re-fun metit_our_pi () Real) (assert (and (<= 0. metit_our_pi) (and (<= metit_our_pi 0.) (and (> (* " ++
    "skoXC1 (* metit_our_pi (- 1.))) (* metit_our_pi (- 1.))) (and (<= (* skoXC1 (* metit_our_pi (- 1.)))" ++
    " 0.) (and (> (* skoXC1 (+ (* metit_our_pi (- 1.)) (* skoXC1 (+ (* metit_our_pi (* metit_our_pi metit" ++
    "_our_pi)) (* skoXC1 (+ (* metit_our_pi (* metit_our_pi (* metit_our_pi (- 2.)))) (* skoXC1 (* metit_" ++
    "our_pi (* metit_our_pi metit_our_pi))))))))) 0.) (and (<= 0. metit_our_pi) (and (> (* skoXC1 (+ meti" ++
    "t_our_pi (* skoXC1 (* metit_our_pi (- 1.))))) 0.) (and (<= (* skoXC1 (+ (* metit_our_pi (- 1.)) (* s" ++
    "koXC1 metit_our_pi))) 1.) (and (<= (* skoXC1 (+ metit_our_pi (* skoXC1 (* metit_our_pi (- 1.))))) 1." ++
    ") (and (> metit_our_pi (/ 15707963. 5000000.)) (> (/ 31415927. 10000000.) metit_our_pi))))))))))))\n\n" ++
    "% In GRF format:\n(sequent \" MetiTarski formula \" (antecedent (<= 0. metit_our_pi) (<= metit_our_pi 0" ++
    ".) (> (* skoXC1 (* metit_our_pi (- 1.))) (* metit_our_pi (- 1.))) (<= (* skoXC1 (* metit_our_pi (- 1" ++
    ".))) 0.) (> (* skoXC1 (+ (* metit_our_pi (- 1.)) (* skoXC1 (+ (* metit_our_pi (* metit_our_pi metit_" ++
    "our_pi)) (* skoXC1 (+ (* metit_our_pi (* metit_our_pi (* metit_our_pi (- 2.)))) (* skoXC1 (* metit_o" ++
    "ur_pi (* metit_our_pi metit_our_pi))))))))) 0.) (<= 0. metit_our_pi) (> (* skoXC1 (+ metit_our_pi (*" ++
    " skoXC1 (* metit_our_pi (- 1.))))) 0.) (<= (* skoXC1 (+ (* metit_our_pi (- 1.)) (* skoXC1 metit_our_" ++
    "pi))) 1.) (<= (* skoXC1 (+ metit_our_pi (* skoXC1 (* metit_our_pi (- 1.))))) 1.) (> metit_our_pi (/ " ++
    "15707963. 5000000.))) (succedent (<= (/ 31415927. 10000000.) metit_our_pi)))\n-----[end problem]-----" ++
    "\n\n") =
  [("le[0,-1] le[0,1] gt[0,1,-1] le[0,0,-1] gt[0,0,-1,0,0,1,-2,1] le[0,-1] gt[0,0,1,-1] le[-1,0,-1,1] le[" ++
    "-1,0,1,-1] gt[-15707963/5000000,1] |- le[31415927/10000000,-1]")]

-- `vts/Examples/Metitarski/asin-3.trace.pkl`
#guard examples (
    "-----[begin problem]-----\n% In Mathematica format:\nTiming[Resolve[Exists[{skoXC1}, And[skoXC1*skoXC1" ++
    "*(Pi*Pi+skoXC1*(Pi*Pi*-2+skoXC1*Pi*Pi))<=2,skoXC1*Pi<=Pi,skoXC1*Pi*-1<=0,skoXC1*(Pi+skoXC1*(Pi*Pi*Pi" ++
    "*-1+skoXC1*(Pi*Pi*Pi*2+skoXC1*Pi*Pi*Pi*-1)))<=0,0<=Pi,skoXC1*Pi>0,skoXC1*(Pi+skoXC1*Pi*-1)>0,Pi>(157" ++
    "07963/5000000),(31415927/10000000)>Pi,skoXC1<=1,skoXC1>0]], Reals]]\n\n% In QepcadB format:\n(E skoXC1)" ++
    " (E pi) [[(skoXC1 skoXC1 ((pi pi)+(skoXC1 ((pi pi (-2))+(skoXC1 pi pi)))))<=2]/\\[[(skoXC1 pi)<=pi]/\\" ++
    "[[(skoXC1 pi (-1))<=0]/\\[[(skoXC1 (pi+(skoXC1 ((pi pi pi (-1))+(skoXC1 ((pi pi pi (2))+(skoXC1 pi pi" ++
    " pi (-1))))))))<=0]/\\[[0<=pi]/\\[[0<(skoXC1 pi)]/\\[[0<(skoXC1 (pi+(skoXC1 pi (-1))))]/\\[[15707963/500" ++
    "0000<pi]/\\[[pi<31415927/10000000]/\\[[skoXC1<=1]/\\[0<skoXC1]]]]]]]]]]].\n\n% In SMTLib2 format:\n(declar" ++
    "e-fun skoXC1 () Real) (declare-fun metit_our_pi () Real) (assert (and (<= (* skoXC1 (* skoXC1 (+ (* " ++
    "metit_our_pi metit_our_pi) (* skoXC1 (+ (* metit_our_pi (* metit_our_pi (- 2.))) (* skoXC1 (* metit_" ++
    "our_pi metit_our_pi))))))) 2.) (and (<= (* skoXC1 metit_our_pi) metit_our_pi) (and (<= (* skoXC1 (* " ++
    "metit_our_pi (- 1.))) 0.) (and (<= (* skoXC1 (+ metit_our_pi (* skoXC1 (+ (* metit_our_pi (* metit_o" ++
    "ur_pi (* metit_our_pi (- 1.)))) (* skoXC1 (+ (* metit_our_pi (* metit_our_pi (* metit_our_pi 2.))) (" ++
    "* skoXC1 (* metit_our_pi (* metit_our_pi (* metit_our_pi (- 1.))))))))))) 0.) (and (<= 0. metit_our_" ++
    "pi) (and (> (* skoXC1 metit_our_pi) 0.) (and (> (* skoXC1 (+ metit_our_pi (* skoXC1 (* metit_our_pi " ++
    "(- 1.))))) 0.) (and (> metit_our_pi (/ 15707963. 5000000.)) (and (> (/ 31415927. 10000000.) metit_ou" ++
    "r_pi) (and (<= skoXC1 1.) (> skoXC1 0.))))))))))))\n\n% In GRF format:\n(sequent \" MetiTarski formula \"" ++
    " (antecedent (<= (* skoXC1 (* skoXC1 (+ (* metit_our_pi metit_our_pi) (* skoXC1 (+ (* metit_our_pi (" ++
    "* metit_our_pi (- 2.))) (* skoXC1 (* metit_our_pi metit_our_pi))))))) 2.) (<= (* skoXC1 metit_our_pi" ++
    ") metit_our_pi) (<= (* skoXC1 (* metit_our_pi (- 1.))) 0.) (<= (* skoXC1 (+ metit_our_pi (* skoXC1 (" ++
    "+ (* metit_our_pi (* metit_our_pi (* metit_our_pi (- 1.)))) (* skoXC1 (+ (* metit_our_pi (* metit_ou" ++
    "r_pi (* metit_our_pi 2.))) (* skoXC1 (* metit_our_pi (* metit_our_pi (* metit_our_pi (- 1.))))))))))" ++
    ") 0.) (<= 0. metit_our_pi) (> (* skoXC1 metit_our_pi) 0.) (> (* skoXC1 (+ metit_our_pi (* skoXC1 (* " ++
    "metit_our_pi (- 1.))))) 0.) (> metit_our_pi (/ 15707963. 5000000.)) (> (/ 31415927. 10000000.) metit" ++
    "_our_pi) (<= skoXC1 1.)) (succedent (<= skoXC1 0.)))\n-----[end problem]-----\n\n-----[begin problem]--" ++
    "---\n% In Mathematica format:\nTiming[Resolve[Exists[{skoXC1}, And[skoXC1*(Pi*2+skoXC1*(Pi*Pi*Pi*-1+sk" ++
    "oXC1*(Pi*Pi*Pi+skoXC1*(Pi*Pi*Pi+skoXC1*Pi*Pi*Pi*-1))))<=0,skoXC1*skoXC1*(Pi*Pi*-1+skoXC1*(Pi*Pi*2+sk" ++
    "oXC1*Pi*Pi*-1))>-2,skoXC1*Pi<=Pi,skoXC1*Pi*-1<=0,skoXC1*(Pi+skoXC1*(Pi*Pi*Pi*-1+skoXC1*(Pi*Pi*Pi*2+s" ++
    "koXC1*Pi*Pi*Pi*-1)))<=0,0<=Pi,skoXC1*Pi>0,skoXC1*(Pi+skoXC1*Pi*-1)>0,Pi>(15707963/5000000),(31415927" ++
    "/10000000)>Pi,skoXC1<=1,skoXC1>0]], Reals]]\n\n% In QepcadB format:\n(E skoXC1) (E pi) [[(skoXC1 ((pi (" ++
    "2))+(skoXC1 ((pi pi pi (-1))+(skoXC1 ((pi pi pi)+(skoXC1 ((pi pi pi)+(skoXC1 pi pi pi (-1))))))))))<" ++
    "=0]/\\[[-2<(skoXC1 skoXC1 ((pi pi (-1))+(skoXC1 ((pi pi (2))+(skoXC1 pi pi (-1))))))]/\\[[(skoXC1 pi)<" ++
    "=pi]/\\[[(skoXC1 pi (-1))<=0]/\\[[(skoXC1 (pi+(skoXC1 ((pi pi pi (-1))+(skoXC1 ((pi pi pi (2))+(skoXC1" ++
    " pi pi pi (-1))))))))<=0]/\\[[0<=pi]/\\[[0<(skoXC1 pi)]/\\[[0<(skoXC1 (pi+(skoXC1 pi (-1))))]/\\[[157079" ++
    "63/5000000<pi]/\\[[pi<31415927/10000000]/\\[[skoXC1<=1]/\\[0<skoXC1]]]]]]]]]]]].\n\n% In SMTLib2 format:\n" ++
    "(declare-fun skoXC1 () Real) (declare-fun metit_our_pi () Real) (assert (and (<= (* skoXC1 (+ (* met" ++
    "it_our_pi 2.) (* skoXC1 (+ (* metit_our_pi (* metit_our_pi (* metit_our_pi (- 1.)))) (* skoXC1 (+ (*" ++
    " metit_our_pi (* metit_our_pi metit_our_pi)) (* skoXC1 (+ (* metit_our_pi (* metit_our_pi metit_our_" ++
    "pi)) (* skoXC1 (* metit_our_pi (* metit_our_pi (* metit_our_pi (- 1.))))))))))))) 0.) (and (> (* sko" ++
    "XC1 (* skoXC1 (+ (* metit_our_pi (* metit_our_pi (- 1.))) (* skoXC1 (+ (* metit_our_pi (* metit_our_" ++
    "pi 2.)) (* skoXC1 (* metit_our_pi (* metit_our_pi (- 1.))))))))) (- 2.)) (and (<= (* skoXC1 metit_ou" ++
    "r_pi) metit_our_pi) (and (<= (* skoXC1 (* metit_our_pi (- 1.))) 0.) (and (<= (* skoXC1 (+ metit_our_" ++
    "pi (* skoXC1 (+ (* metit_our_pi (* metit_our_pi (* metit_our_pi (- 1.)))) (* skoXC1 (+ (* metit_our_" ++
    "pi (* metit_our_pi (* metit_our_pi 2.))) (* skoXC1 (* metit_our_pi (* metit_our_pi (* metit_our_pi (" ++
    "- 1.))))))))))) 0.) (and (<= 0. metit_our_pi) (and (> (* skoXC1 metit_our_pi) 0.) (and (> (* skoXC1 " ++
    "(+ metit_our_pi (* skoXC1 (* metit_our_pi (- 1.))))) 0.) (and (> metit_our_pi (/ 15707963. 5000000.)" ++
    ") (and (> (/ 31415927. 10000000.) metit_our_pi) (and (<= skoXC1 1.) (> skoXC1 0.)))))))))))))\n\n% In " ++
    "GRF format:\n(sequent \" MetiTarski formula \" (antecedent (<= (* skoXC1 (+ (* metit_our_pi 2.) (* skoX" ++
    "C1 (+ (* metit_our_pi (* metit_our_pi (* metit_our_pi (- 1.)))) (* skoXC1 (+ (* metit_our_pi (* meti" ++
    "t_our_pi metit_our_pi)) (* skoXC1 (+ (* metit_our_pi (* metit_our_pi metit_our_pi)) (* skoXC1 (* met" ++
    "it_our_pi (* metit_our_pi (* metit_our_pi (- 1.))))))))))))) 0.) (> (* skoXC1 (* skoXC1 (+ (* metit_" ++
    "our_pi (* metit_our_pi (- 1.))) (* skoXC1 (+ (* metit_our_pi (* metit_our_pi 2.)) (* skoXC1 (* metit" ++
    "_our_pi (* metit_our_pi (- 1.))))))))) (- 2.)) (<= (* skoXC1 metit_our_pi) metit_our_pi) (<= (* skoX" ++
    "C1 (* metit_our_pi (- 1.))) 0.) (<= (* skoXC1 (+ metit_our_pi (* skoXC1 (+ (* metit_our_pi (* metit_" ++
    "our_pi (* metit_our_pi (- 1.)))) (* skoXC1 (+ (* metit_our_pi (* metit_our_pi (* metit_our_pi 2.))) " ++
    "(* skoXC1 (* metit_our_pi (* metit_our_pi (* metit_our_pi (- 1.))))))))))) 0.) (<= 0. metit_our_pi) " ++
    "(> (* skoXC1 metit_our_pi) 0.) (> (* skoXC1 (+ metit_our_pi (* skoXC1 (* metit_our_pi (- 1.))))) 0.)" ++
    " (> metit_our_pi (/ 15707963. 5000000.)) (> (/ 31415927. 10000000.) metit_our_pi) (<= skoXC1 1.)) (s" ++
    "uccedent (<= skoXC1 0.)))\n-----[end problem]-----\n\n") =
  [("le[-2,0,0,0,1,-2,1] le[0,-1,1] le[0,0,-1] le[0,0,1,0,0,-1,2,-1] le[0,-1] gt[0,0,1] gt[0,0,1,-1] gt[-" ++
    "15707963/5000000,1] gt[31415927/10000000,-1] le[-1,1] |- le[0,1]"),
   ("le[0,0,2,0,0,-1,1,1,-1] gt[2,0,0,0,-1,2,-1] le[0,-1,1] le[0,0,-1] le[0,0,1,0,0,-1,2,-1] le[0,-1] gt[" ++
    "0,0,1] gt[0,0,1,-1] gt[-15707963/5000000,1] gt[31415927/10000000,-1] le[-1,1] |- le[0,1]")]

-- `vts/Examples/Metitarski/abs-problem-5-weak.trace.pkl`
#guard examples (
    "-----[begin problem]-----\n% In Mathematica format:\nTiming[Resolve[Exists[{skoXC1,skoYC1}, And[skoYC1" ++
    "*skoXC1*(-1716+skoXC1*(-5610+skoXC1*(-7040+skoXC1*(-4226+skoXC1*((-6126/5)+skoXC1*((-1501/10)+skoXC1" ++
    "*(-353/70)))))))>skoXC1*(-1716+skoXC1*(-6468+skoXC1*(-9702+skoXC1*(-7350+skoXC1*(-2940+skoXC1*(-588+" ++
    "skoXC1*(-49+skoXC1*-1))))))),skoYC1>0,skoXC1*(-6468+skoXC1*(-9702+skoXC1*(-7350+skoXC1*(-2940+skoXC1" ++
    "*(-588+skoXC1*(-49+skoXC1*-1))))))<=1716,skoXC1*(-1512+skoXC1*(-1890+skoXC1*(-1120+skoXC1*(-315+skoX" ++
    "C1*(-36+skoXC1*-1)))))<=462,skoXC1*(-1260+skoXC1*(-1260+skoXC1*(-560+skoXC1*(-105+skoXC1*-6))))<=462" ++
    ",0>skoXC1,skoYC1>0,skoYC1*skoYC1==1+skoXC1,skoXC1<=1,0<=skoYC1,skoXC1>(-9997/10000)]], Reals]]\n\n% In" ++
    " QepcadB format:\n(E skoXC1) (E skoYC1) [[(skoXC1 (-1716+(skoXC1 (-6468+(skoXC1 (-9702+(skoXC1 (-7350" ++
    "+(skoXC1 (-2940+(skoXC1 (-588+(skoXC1 (-49+(skoXC1 (-1))))))))))))))))<(skoYC1 skoXC1 (-1716+(skoXC1" ++
    " (-5610+(skoXC1 (-7040+(skoXC1 (-4226+(skoXC1 (-6126/5+(skoXC1 (-1501/10+(skoXC1 (-353/70)))))))))))" ++
    ")))]/\\[[0<skoYC1]/\\[[(skoXC1 (-6468+(skoXC1 (-9702+(skoXC1 (-7350+(skoXC1 (-2940+(skoXC1 (-588+(skoX" ++
    "C1 (-49+(skoXC1 (-1))))))))))))))<=1716]/\\[[(skoXC1 (-1512+(skoXC1 (-1890+(skoXC1 (-1120+(skoXC1 (-3" ++
    "15+(skoXC1 (-36+(skoXC1 (-1))))))))))))<=462]/\\[[(skoXC1 (-1260+(skoXC1 (-1260+(skoXC1 (-560+(skoXC1" ++
    " (-105+(skoXC1 (-6))))))))))<=462]/\\[[skoXC1<0]/\\[[0<skoYC1]/\\[[(skoYC1 skoYC1)=(1+skoXC1)]/\\[[skoXC" ++
    "1<=1]/\\[[0<=skoYC1]/\\[-9997/10000<skoXC1]]]]]]]]]]].\n\n% In SMTLib2 format:\n(declare-fun skoXC1 () Re" ++
    "al) (declare-fun skoYC1 () Real) (assert (and (> (* skoYC1 (* skoXC1 (+ (- 1716.) (* skoXC1 (+ (- 56" ++
    "10.) (* skoXC1 (+ (- 7040.) (* skoXC1 (+ (- 4226.) (* skoXC1 (+ (/ (- 6126.) 5.) (* skoXC1 (+ (/ (- " ++
    "1501.) 10.) (* skoXC1 (/ (- 353.) 70.))))))))))))))) (* skoXC1 (+ (- 1716.) (* skoXC1 (+ (- 6468.) (" ++
    "* skoXC1 (+ (- 9702.) (* skoXC1 (+ (- 7350.) (* skoXC1 (+ (- 2940.) (* skoXC1 (+ (- 588.) (* skoXC1 " ++
    "(+ (- 49.) (* skoXC1 (- 1.))))))))))))))))) (and (> skoYC1 0.) (and (<= (* skoXC1 (+ (- 6468.) (* sk" ++
    "oXC1 (+ (- 9702.) (* skoXC1 (+ (- 7350.) (* skoXC1 (+ (- 2940.) (* skoXC1 (+ (- 588.) (* skoXC1 (+ (" ++
    "- 49.) (* skoXC1 (- 1.)))))))))))))) 1716.) (and (<= (* skoXC1 (+ (- 1512.) (* skoXC1 (+ (- 1890.) (" ++
    "* skoXC1 (+ (- 1120.) (* skoXC1 (+ (- 315.) (* skoXC1 (+ (- 36.) (* skoXC1 (- 1.)))))))))))) 462.) (" ++
    "and (<= (* skoXC1 (+ (- 1260.) (* skoXC1 (+ (- 1260.) (* skoXC1 (+ (- 560.) (* skoXC1 (+ (- 105.) (*" ++
    " skoXC1 (- 6.)))))))))) 462.) (and (> 0. skoXC1) (and (> skoYC1 0.) (and (= (* skoYC1 skoYC1) (+ 1. " ++
    "skoXC1)) (and (<= skoXC1 1.) (and (<= 0. skoYC1) (> skoXC1 (/ (- 9997.) 10000.)))))))))))))\n\n% In GR" ++
    "F format:\n(sequent \" MetiTarski formula \" (antecedent (> (* skoYC1 (* skoXC1 (+ (- 1716.) (* skoXC1 " ++
    "(+ (- 5610.) (* skoXC1 (+ (- 7040.) (* skoXC1 (+ (- 4226.) (* skoXC1 (+ (/ (- 6126.) 5.) (* skoXC1 (" ++
    "+ (/ (- 1501.) 10.) (* skoXC1 (/ (- 353.) 70.))))))))))))))) (* skoXC1 (+ (- 1716.) (* skoXC1 (+ (- " ++
    "6468.) (* skoXC1 (+ (- 9702.) (* skoXC1 (+ (- 7350.) (* skoXC1 (+ (- 2940.) (* skoXC1 (+ (- 588.) (*" ++
    " skoXC1 (+ (- 49.) (* skoXC1 (- 1.))))))))))))))))) (> skoYC1 0.) (<= (* skoXC1 (+ (- 6468.) (* skoX" ++
    "C1 (+ (- 9702.) (* skoXC1 (+ (- 7350.) (* skoXC1 (+ (- 2940.) (* skoXC1 (+ (- 588.) (* skoXC1 (+ (- " ++
    "49.) (* skoXC1 (- 1.)))))))))))))) 1716.) (<= (* skoXC1 (+ (- 1512.) (* skoXC1 (+ (- 1890.) (* skoXC" ++
    "1 (+ (- 1120.) (* skoXC1 (+ (- 315.) (* skoXC1 (+ (- 36.) (* skoXC1 (- 1.)))))))))))) 462.) (<= (* s" ++
    "koXC1 (+ (- 1260.) (* skoXC1 (+ (- 1260.) (* skoXC1 (+ (- 560.) (* skoXC1 (+ (- 105.) (* skoXC1 (- 6" ++
    ".)))))))))) 462.) (> 0. skoXC1) (> skoYC1 0.) (= (* skoYC1 skoYC1) (+ 1. skoXC1)) (<= skoXC1 1.) (<=" ++
    " 0. skoYC1)) (succedent (<= skoXC1 (/ (- 9997.) 10000.))))\n-----[end problem]-----\n\n-----[begin prob" ++
    "lem]-----\n% In Mathematica format:\nTiming[Resolve[Exists[{skoXC1,skoYC1}, And[0>skoXC1,skoYC1*skoXC1" ++
    "*(-1716+skoXC1*(-5610+skoXC1*(-7040+skoXC1*(-4226+skoXC1*((-6126/5)+skoXC1*((-1501/10)+skoXC1*(-353/" ++
    "70)))))))>skoXC1*(-1716+skoXC1*(-6468+skoXC1*(-9702+skoXC1*(-7350+skoXC1*(-2940+skoXC1*(-588+skoXC1*" ++
    "(-49+skoXC1*-1))))))),skoXC1*(-6468+skoXC1*(-9702+skoXC1*(-7350+skoXC1*(-2940+skoXC1*(-588+skoXC1*(-" ++
    "49+skoXC1*-1))))))<=1716,skoXC1*(-1512+skoXC1*(-1890+skoXC1*(-1120+skoXC1*(-315+skoXC1*(-36+skoXC1*-" ++
    "1)))))<=462,skoXC1*(-1260+skoXC1*(-1260+skoXC1*(-560+skoXC1*(-105+skoXC1*-6))))<=462,0>skoXC1,skoYC1" ++
    ">0,skoYC1*skoYC1==1+skoXC1,skoXC1<=1,0<=skoYC1,skoXC1>(-9997/10000)]], Reals]]\n\n% In QepcadB format:" ++
    "\n(E skoXC1) (E skoYC1) [[skoXC1<0]/\\[[(skoXC1 (-1716+(skoXC1 (-6468+(skoXC1 (-9702+(skoXC1 (-7350+(s" ++
    "koXC1 (-2940+(skoXC1 (-588+(skoXC1 (-49+(skoXC1 (-1))))))))))))))))<(skoYC1 skoXC1 (-1716+(skoXC1 (-" ++
    "5610+(skoXC1 (-7040+(skoXC1 (-4226+(skoXC1 (-6126/5+(skoXC1 (-1501/10+(skoXC1 (-353/70))))))))))))))" ++
    "]/\\[[(skoXC1 (-6468+(skoXC1 (-9702+(skoXC1 (-7350+(skoXC1 (-2940+(skoXC1 (-588+(skoXC1 (-49+(skoXC1 " ++
    "(-1))))))))))))))<=1716]/\\[[(skoXC1 (-1512+(skoXC1 (-1890+(skoXC1 (-1120+(skoXC1 (-315+(skoXC1 (-36+" ++
    "(skoXC1 (-1))))))))))))<=462]/\\[[(skoXC1 (-1260+(skoXC1 (-1260+(skoXC1 (-560+(skoXC1 (-105+(skoXC1 (" ++
    "-6))))))))))<=462]/\\[[skoXC1<0]/\\[[0<skoYC1]/\\[[(skoYC1 skoYC1)=(1+skoXC1)]/\\[[skoXC1<=1]/\\[[0<=skoY" ++
    "C1]/\\[-9997/10000<skoXC1]]]]]]]]]]].\n\n% In SMTLib2 format:\n(declare-fun skoXC1 () Real) (declare-fun" ++
    " skoYC1 () Real) (assert (and (> 0. skoXC1) (and (> (* skoYC1 (* skoXC1 (+ (- 1716.) (* skoXC1 (+ (-" ++
    " 5610.) (* skoXC1 (+ (- 7040.) (* skoXC1 (+ (- 4226.) (* skoXC1 (+ (/ (- 6126.) 5.) (* skoXC1 (+ (/ " ++
    "(- 1501.) 10.) (* skoXC1 (/ (- 353.) 70.))))))))))))))) (* skoXC1 (+ (- 1716.) (* skoXC1 (+ (- 6468." ++
    ") (* skoXC1 (+ (- 9702.) (* skoXC1 (+ (- 7350.) (* skoXC1 (+ (- 2940.) (* skoXC1 (+ (- 588.) (* skoX" ++
    "C1 (+ (- 49.) (* skoXC1 (- 1.))))))))))))))))) (and (<= (* skoXC1 (+ (- 6468.) (* skoXC1 (+ (- 9702." ++
    ") (* skoXC1 (+ (- 7350.) (* skoXC1 (+ (- 2940.) (* skoXC1 (+ (- 588.) (* skoXC1 (+ (- 49.) (* skoXC1" ++
    " (- 1.)))))))))))))) 1716.) (and (<= (* skoXC1 (+ (- 1512.) (* skoXC1 (+ (- 1890.) (* skoXC1 (+ (- 1" ++
    "120.) (* skoXC1 (+ (- 315.) (* skoXC1 (+ (- 36.) (* skoXC1 (- 1.)))))))))))) 462.) (and (<= (* skoXC" ++
    "1 (+ (- 1260.) (* skoXC1 (+ (- 1260.) (* skoXC1 (+ (- 560.) (* skoXC1 (+ (- 105.) (* skoXC1 (- 6.)))" ++
    "))))))) 462.) (and (> 0. skoXC1) (and (> skoYC1 0.) (and (= (* skoYC1 skoYC1) (+ 1. skoXC1)) (and (<" ++
    "= skoXC1 1.) (and (<= 0. skoYC1) (> skoXC1 (/ (- 9997.) 10000.)))))))))))))\n\n% In GRF format:\n(seque" ++
    "nt \" MetiTarski formula \" (antecedent (> 0. skoXC1) (> (* skoYC1 (* skoXC1 (+ (- 1716.) (* skoXC1 (+" ++
    " (- 5610.) (* skoXC1 (+ (- 7040.) (* skoXC1 (+ (- 4226.) (* skoXC1 (+ (/ (- 6126.) 5.) (* skoXC1 (+ " ++
    "(/ (- 1501.) 10.) (* skoXC1 (/ (- 353.) 70.))))))))))))))) (* skoXC1 (+ (- 1716.) (* skoXC1 (+ (- 64" ++
    "68.) (* skoXC1 (+ (- 9702.) (* skoXC1 (+ (- 7350.) (* skoXC1 (+ (- 2940.) (* skoXC1 (+ (- 588.) (* s" ++
    "koXC1 (+ (- 49.) (* skoXC1 (- 1.))))))))))))))))) (<= (* skoXC1 (+ (- 6468.) (* skoXC1 (+ (- 9702.) " ++
    "(* skoXC1 (+ (- 7350.) (* skoXC1 (+ (- 2940.) (* skoXC1 (+ (- 588.) (* skoXC1 (+ (- 49.) (* skoXC1 (" ++
    "- 1.)))))))))))))) 1716.) (<= (* skoXC1 (+ (- 1512.) (* skoXC1 (+ (- 1890.) (* skoXC1 (+ (- 1120.) (" ++
    "* skoXC1 (+ (- 315.) (* skoXC1 (+ (- 36.) (* skoXC1 (- 1.)))))))))))) 462.) (<= (* skoXC1 (+ (- 1260" ++
    ".) (* skoXC1 (+ (- 1260.) (* skoXC1 (+ (- 560.) (* skoXC1 (+ (- 105.) (* skoXC1 (- 6.)))))))))) 462." ++
    ") (> 0. skoXC1) (> skoYC1 0.) (= (* skoYC1 skoYC1) (+ 1. skoXC1)) (<= skoXC1 1.) (<= 0. skoYC1)) (su" ++
    "ccedent (<= skoXC1 (/ (- 9997.) 10000.))))\n-----[end problem]-----\n\n-----[begin problem]-----\n% In M" ++
    "athematica format:\nTiming[Resolve[Exists[{skoXC1,skoYC1}, And[0<=skoXC1,skoYC1*skoXC1*(-1716+skoXC1*" ++
    "(-5610+skoXC1*(-7040+skoXC1*(-4226+skoXC1*((-6126/5)+skoXC1*((-1501/10)+skoXC1*(-353/70)))))))<=skoX" ++
    "C1*(-1716+skoXC1*(-6468+skoXC1*(-9702+skoXC1*(-7350+skoXC1*(-2940+skoXC1*(-588+skoXC1*(-49+skoXC1*-1" ++
    "))))))),skoXC1*(-6468+skoXC1*(-9702+skoXC1*(-7350+skoXC1*(-2940+skoXC1*(-588+skoXC1*(-49+skoXC1*-1))" ++
    "))))<=1716,skoXC1*(-1512+skoXC1*(-1890+skoXC1*(-1120+skoXC1*(-315+skoXC1*(-36+skoXC1*-1)))))<=462,sk" ++
    "oXC1*(-1260+skoXC1*(-1260+skoXC1*(-560+skoXC1*(-105+skoXC1*-6))))<=462,0>skoXC1,skoYC1>0,skoYC1*skoY" ++
    "C1==1+skoXC1,skoXC1<=1,0<=skoYC1,skoXC1>(-9997/10000)]], Reals]]\n\n% In QepcadB format:\n(E skoXC1) (E" ++
    " skoYC1) [[0<=skoXC1]/\\[[(skoYC1 skoXC1 (-1716+(skoXC1 (-5610+(skoXC1 (-7040+(skoXC1 (-4226+(skoXC1 " ++
    "(-6126/5+(skoXC1 (-1501/10+(skoXC1 (-353/70))))))))))))))<=(skoXC1 (-1716+(skoXC1 (-6468+(skoXC1 (-9" ++
    "702+(skoXC1 (-7350+(skoXC1 (-2940+(skoXC1 (-588+(skoXC1 (-49+(skoXC1 (-1))))))))))))))))]/\\[[(skoXC1" ++
    " (-6468+(skoXC1 (-9702+(skoXC1 (-7350+(skoXC1 (-2940+(skoXC1 (-588+(skoXC1 (-49+(skoXC1 (-1)))))))))" ++
    ")))))<=1716]/\\[[(skoXC1 (-1512+(skoXC1 (-1890+(skoXC1 (-1120+(skoXC1 (-315+(skoXC1 (-36+(skoXC1 (-1)" ++
    ")))))))))))<=462]/\\[[(skoXC1 (-1260+(skoXC1 (-1260+(skoXC1 (-560+(skoXC1 (-105+(skoXC1 (-6))))))))))" ++
    "<=462]/\\[[skoXC1<0]/\\[[0<skoYC1]/\\[[(skoYC1 skoYC1)=(1+skoXC1)]/\\[[skoXC1<=1]/\\[[0<=skoYC1]/\\[-9997/" ++
    "10000<skoXC1]]]]]]]]]]].\n\n% In SMTLib2 format:\n(declare-fun skoXC1 () Real) (declare-fun skoYC1 () R" ++
    "eal) (assert (and (<= 0. skoXC1) (and (<= (* skoYC1 (* skoXC1 (+ (- 1716.) (* skoXC1 (+ (- 5610.) (*" ++
    " skoXC1 (+ (- 7040.) (* skoXC1 (+ (- 4226.) (* skoXC1 (+ (/ (- 6126.) 5.) (* skoXC1 (+ (/ (- 1501.) " ++
    "10.) (* skoXC1 (/ (- 353.) 70.))))))))))))))) (* skoXC1 (+ (- 1716.) (* skoXC1 (+ (- 6468.) (* skoXC" ++
    "1 (+ (- 9702.) (* skoXC1 (+ (- 7350.) (* skoXC1 (+ (- 2940.) (* skoXC1 (+ (- 588.) (* skoXC1 (+ (- 4" ++
    "9.) (* skoXC1 (- 1.))))))))))))))))) (and (<= (* skoXC1 (+ (- 6468.) (* skoXC1 (+ (- 9702.) (* skoXC" ++
    "1 (+ (- 7350.) (* skoXC1 (+ (- 2940.) (* skoXC1 (+ (- 588.) (* skoXC1 (+ (- 49.) (* skoXC1 (- 1.))))" ++
    ")))))))))) 1716.) (and (<= (* skoXC1 (+ (- 1512.) (* skoXC1 (+ (- 1890.) (* skoXC1 (+ (- 1120.) (* s" ++
    "koXC1 (+ (- 315.) (* skoXC1 (+ (- 36.) (* skoXC1 (- 1.)))))))))))) 462.) (and (<= (* skoXC1 (+ (- 12" ++
    "60.) (* skoXC1 (+ (- 1260.) (* skoXC1 (+ (- 560.) (* skoXC1 (+ (- 105.) (* skoXC1 (- 6.)))))))))) 46" ++
    "2.) (and (> 0. skoXC1) (and (> skoYC1 0.) (and (= (* skoYC1 skoYC1) (+ 1. skoXC1)) (and (<= skoXC1 1" ++
    ".) (and (<= 0. skoYC1) (> skoXC1 (/ (- 9997.) 10000.)))))))))))))\n\n% In GRF format:\n(sequent \" MetiT" ++
    "arski formula \" (antecedent (<= 0. skoXC1) (<= (* skoYC1 (* skoXC1 (+ (- 1716.) (* skoXC1 (+ (- 5610" ++
    ".) (* skoXC1 (+ (- 7040.) (* skoXC1 (+ (- 4226.) (* skoXC1 (+ (/ (- 6126.) 5.) (* skoXC1 (+ (/ (- 15" ++
    "01.) 10.) (* skoXC1 (/ (- 353.) 70.))))))))))))))) (* skoXC1 (+ (- 1716.) (* skoXC1 (+ (- 6468.) (* " ++
    "skoXC1 (+ (- 9702.) (* skoXC1 (+ (- 7350.) (* skoXC1 (+ (- 2940.) (* skoXC1 (+ (- 588.) (* skoXC1 (+" ++
    " (- 49.) (* skoXC1 (- 1.))))))))))))))))) (<= (* skoXC1 (+ (- 6468.) (* skoXC1 (+ (- 9702.) (* skoXC" ++
    "1 (+ (- 7350.) (* skoXC1 (+ (- 2940.) (* skoXC1 (+ (- 588.) (* skoXC1 (+ (- 49.) (* skoXC1 (- 1.))))" ++
    ")))))))))) 1716.) (<= (* skoXC1 (+ (- 1512.) (* skoXC1 (+ (- 1890.) (* skoXC1 (+ (- 1120.) (* skoXC1" ++
    " (+ (- 315.) (* skoXC1 (+ (- 36.) (* skoXC1 (- 1.)))))))))))) 462.) (<= (* skoXC1 (+ (- 1260.) (* sk" ++
    "oXC1 (+ (- 1260.) (* skoXC1 (+ (- 560.) (* skoXC1 (+ (- 105.) (* skoXC1 (- 6.)))))))))) 462.) (> 0. " ++
    "skoXC1) (> skoYC1 0.) (= (* skoYC1 skoYC1) (+ 1. skoXC1)) (<= skoXC1 1.) (<= 0. skoYC1)) (succedent " ++
    "(<= skoXC1 (/ (- 9997.) 10000.))))\n-----[end problem]-----\n\n-----[begin problem]-----\n% In Mathemati" ++
    "ca format:\nTiming[Resolve[Exists[{skoXC1,skoYC1}, And[skoYC1*skoXC1*(-6435+skoXC1*((-48477/2)+skoXC1" ++
    "*(-36465+skoXC1*((-111485/4)+skoXC1*(-11363+skoXC1*((-23607/10)+skoXC1*((-7451/35)+skoXC1*(-1487/280" ++
    "))))))))>skoXC1*(-6435+skoXC1*(-27456+skoXC1*(-48048+skoXC1*(-44352+skoXC1*(-23100+skoXC1*(-6720+sko" ++
    "XC1*(-1008+skoXC1*(-64+skoXC1*-1)))))))),skoYC1>0,skoXC1*(-6468+skoXC1*(-9702+skoXC1*(-7350+skoXC1*(" ++
    "-2940+skoXC1*(-588+skoXC1*(-49+skoXC1*-1))))))<=1716,skoXC1*(-1512+skoXC1*(-1890+skoXC1*(-1120+skoXC" ++
    "1*(-315+skoXC1*(-36+skoXC1*-1)))))<=462,skoXC1*(-1260+skoXC1*(-1260+skoXC1*(-560+skoXC1*(-105+skoXC1" ++
    "*-6))))<=462,0>skoXC1,skoYC1>0,skoYC1*skoYC1==1+skoXC1,skoXC1<=1,0<=skoYC1,skoXC1>(-9997/10000)]], R" ++
    "eals]]\n\n% In QepcadB format:\n(E skoXC1) (E skoYC1) [[(skoXC1 (-6435+(skoXC1 (-27456+(skoXC1 (-48048+" ++
    "(skoXC1 (-44352+(skoXC1 (-23100+(skoXC1 (-6720+(skoXC1 (-1008+(skoXC1 (-64+(skoXC1 (-1))))))))))))))" ++
    "))))<(skoYC1 skoXC1 (-6435+(skoXC1 (-48477/2+(skoXC1 (-36465+(skoXC1 (-111485/4+(skoXC1 (-11363+(sko" ++
    "XC1 (-23607/10+(skoXC1 (-7451/35+(skoXC1 (-1487/280))))))))))))))))]/\\[[0<skoYC1]/\\[[(skoXC1 (-6468+" ++
    "(skoXC1 (-9702+(skoXC1 (-7350+(skoXC1 (-2940+(skoXC1 (-588+(skoXC1 (-49+(skoXC1 (-1))))))))))))))<=1" ++
    "716]/\\[[(skoXC1 (-1512+(skoXC1 (-1890+(skoXC1 (-1120+(skoXC1 (-315+(skoXC1 (-36+(skoXC1 (-1)))))))))" ++
    ")))<=462]/\\[[(skoXC1 (-1260+(skoXC1 (-1260+(skoXC1 (-560+(skoXC1 (-105+(skoXC1 (-6))))))))))<=462]/\\" ++
    "[[skoXC1<0]/\\[[0<skoYC1]/\\[[(skoYC1 skoYC1)=(1+skoXC1)]/\\[[skoXC1<=1]/\\[[0<=skoYC1]/\\[-9997/10000<sk" ++
    "oXC1]]]]]]]]]]].\n\n% In SMTLib2 format:\n(declare-fun skoXC1 () Real) (declare-fun skoYC1 () Real) (as" ++
    "sert (and (> (* skoYC1 (* skoXC1 (+ (- 6435.) (* skoXC1 (+ (/ (- 48477.) 2.) (* skoXC1 (+ (- 36465.)" ++
    " (* skoXC1 (+ (/ (- 111485.) 4.) (* skoXC1 (+ (- 11363.) (* skoXC1 (+ (/ (- 23607.) 10.) (* skoXC1 (" ++
    "+ (/ (- 7451.) 35.) (* skoXC1 (/ (- 1487.) 280.))))))))))))))))) (* skoXC1 (+ (- 6435.) (* skoXC1 (+" ++
    " (- 27456.) (* skoXC1 (+ (- 48048.) (* skoXC1 (+ (- 44352.) (* skoXC1 (+ (- 23100.) (* skoXC1 (+ (- " ++
    "6720.) (* skoXC1 (+ (- 1008.) (* skoXC1 (+ (- 64.) (* skoXC1 (- 1.))))))))))))))))))) (and (> skoYC1" ++
    " 0.) (and (<= (* skoXC1 (+ (- 6468.) (* skoXC1 (+ (- 9702.) (* skoXC1 (+ (- 7350.) (* skoXC1 (+ (- 2" ++
    "940.) (* skoXC1 (+ (- 588.) (* skoXC1 (+ (- 49.) (* skoXC1 (- 1.)))))))))))))) 1716.) (and (<= (* sk" ++
    "oXC1 (+ (- 1512.) (* skoXC1 (+ (- 1890.) (* skoXC1 (+ (- 1120.) (* skoXC1 (+ (- 315.) (* skoXC1 (+ (" ++
    "- 36.) (* skoXC1 (- 1.)))))))))))) 462.) (and (<= (* skoXC1 (+ (- 1260.) (* skoXC1 (+ (- 1260.) (* s" ++
    "koXC1 (+ (- 560.) (* skoXC1 (+ (- 105.) (* skoXC1 (- 6.)))))))))) 462.) (and (> 0. skoXC1) (and (> s" ++
    "koYC1 0.) (and (= (* skoYC1 skoYC1) (+ 1. skoXC1)) (and (<= skoXC1 1.) (and (<= 0. skoYC1) (> skoXC1" ++
    " (/ (- 9997.) 10000.)))))))))))))\n\n% In GRF format:\n(sequent \" MetiTarski formula \" (antecedent (> (" ++
    "* skoYC1 (* skoXC1 (+ (- 6435.) (* skoXC1 (+ (/ (- 48477.) 2.) (* skoXC1 (+ (- 36465.) (* skoXC1 (+ " ++
    "(/ (- 111485.) 4.) (* skoXC1 (+ (- 11363.) (* skoXC1 (+ (/ (- 23607.) 10.) (* skoXC1 (+ (/ (- 7451.)" ++
    " 35.) (* skoXC1 (/ (- 1487.) 280.))))))))))))))))) (* skoXC1 (+ (- 6435.) (* skoXC1 (+ (- 27456.) (*" ++
    " skoXC1 (+ (- 48048.) (* skoXC1 (+ (- 44352.) (* skoXC1 (+ (- 23100.) (* skoXC1 (+ (- 6720.) (* skoX" ++
    "C1 (+ (- 1008.) (* skoXC1 (+ (- 64.) (* skoXC1 (- 1.))))))))))))))))))) (> skoYC1 0.) (<= (* skoXC1 " ++
    "(+ (- 6468.) (* skoXC1 (+ (- 9702.) (* skoXC1 (+ (- 7350.) (* skoXC1 (+ (- 2940.) (* skoXC1 (+ (- 58" ++
    "8.) (* skoXC1 (+ (- 49.) (* skoXC1 (- 1.)))))))))))))) 1716.) (<= (* skoXC1 (+ (- 1512.) (* skoXC1 (" ++
    "+ (- 1890.) (* skoXC1 (+ (- 1120.) (* skoXC1 (+ (- 315.) (* skoXC1 (+ (- 36.) (* skoXC1 (- 1.)))))))" ++
    "))))) 462.) (<= (* skoXC1 (+ (- 1260.) (* skoXC1 (+ (- 1260.) (* skoXC1 (+ (- 560.) (* skoXC1 (+ (- " ++
    "105.) (* skoXC1 (- 6.)))))))))) 462.) (> 0. skoXC1) (> skoYC1 0.) (= (* skoYC1 skoYC1) (+ 1. skoXC1)" ++
    ") (<= skoXC1 1.) (<= 0. skoYC1)) (succedent (<= skoXC1 (/ (- 9997.) 10000.))))\n-----[end problem]---" ++
    "--\n\n") =
  [("gt[0,1716,4752,4092,310,-1286,-3186/5,-1011/10,-283/70] gt[0,1] le[-1716,-6468,-9702,-7350,-2940,-58" ++
    "8,-49,-1] le[-462,-1512,-1890,-1120,-315,-36,-1] le[-462,-1260,-1260,-560,-105,-6] gt[0,-1] gt[0,1] " ++
    "eq[-1,-1,1] le[-1,1] le[0,-1] |- le[9997/10000,1]"),
   ("gt[0,-1] gt[0,1716,4752,4092,310,-1286,-3186/5,-1011/10,-283/70] le[-1716,-6468,-9702,-7350,-2940,-5" ++
    "88,-49,-1] le[-462,-1512,-1890,-1120,-315,-36,-1] le[-462,-1260,-1260,-560,-105,-6] gt[0,-1] gt[0,1]" ++
    " eq[-1,-1,1] le[-1,1] le[0,-1] |- le[9997/10000,1]"),
   ("le[0,-1] le[0,1716,4752,4092,310,-1286,-3186/5,-1011/10,-283/70] le[-1716,-6468,-9702,-7350,-2940,-5" ++
    "88,-49,-1] le[-462,-1512,-1890,-1120,-315,-36,-1] le[-462,-1260,-1260,-560,-105,-6] gt[0,-1] gt[0,1]" ++
    " eq[-1,-1,1] le[-1,1] le[0,-1] |- le[9997/10000,1]"),
   ("gt[0,6435,21021,47619/2,7887,-19085/4,-4643,-13527/10,-5211/35,-1207/280] gt[0,1] le[-1716,-6468,-97" ++
    "02,-7350,-2940,-588,-49,-1] le[-462,-1512,-1890,-1120,-315,-36,-1] le[-462,-1260,-1260,-560,-105,-6]" ++
    " gt[0,-1] gt[0,1] eq[-1,-1,1] le[-1,1] le[0,-1] |- le[9997/10000,1]")]

end Verif.Vts.RepoExamples
