import Verif.Vts.Model

/-!
# Model of `get_sign_by_direct_calc` (`vts/uni_vts.py:434-451`)

The function is called in a comment only (`vts/uni_vts.py:530`), as a check of the sign that the Tarski queries give.
-/

namespace Verif.Vts

variable {R : Type} [CommRing R] [LinearOrder R] {K : Type} [Field K] [LinearOrder K]

/-- An exception of a called function, or `Exception("didn't have a good value")`, `vts/uni_vts.py:449-450`. -/
inductive DErr
  | py (e : Err)
  | noGoodValue
  deriving DecidableEq, Repr

/-- `vts/uni_vts.py:440-444`: has `r` the recorded signs? -/
def agreesAt (φ : R → K) (d : DDS R K) (r : K) : List (Poly R) → Except Err Bool
  | [] => .ok true
  | poly :: rest => do
    let s ← d.getSign poly
    if signFunc (evaluatePoly φ poly r) ≠ s then pure false else agreesAt φ d r rest

/-- `vts/uni_vts.py:437-446`: the signs of the last polynomial at the good roots. -/
def goodValues (φ : R → K) (polies : List (Poly R)) (d : DDS R K) : List K → Except Err (List ℤ)
  | [] => .ok []
  | r :: rs => do
    let good ← agreesAt φ d r polies.dropLast
    if good then
      match polies.getLast? with
      | none => .error .indexError
      | some goal => do
        let rest ← goodValues φ polies d rs
        pure (signFunc (evaluatePoly φ goal r) :: rest)
    else goodValues φ polies d rs

/-- `vts/uni_vts.py:434-451` `get_sign_by_direct_calc`; `origin` is `discDerSign.origin`. -/
def getSignByDirectCalc (E : Env R K) (polies : List (Poly R)) (origin : Poly R) (d : DDS R K) : Except DErr ℤ :=
  match E.mkRoots origin with
  | .error e => .error (.py e)
  | .ok rs =>
    match goodValues E.φ polies d rs with
    | .error e => .error (.py e)
    | .ok [s] => .ok s
    | .ok _ => .error .noGoodValue

end Verif.Vts
