import Verif.Vts.Model

/-!
# The Tarski query with a limited number of interpreter frames

Python raises `RuntimeError: maximum recursion depth exceeded` when more than `sys.getrecursionlimit()` frames
(1000 by default; only `vts/examples_parser.py:21` and `GRF/smt2.py:32` raise it) are active.  The functions below take
the number of frames that may still be entered.  Built-in functions such as `map`, `zip` and `range` need no frame; a
`lambda` called by `map` needs one.  In `signed_pseudo_remainder` and `signed_remainder_sequence` such a
`lambda` never fails where the other calls of the same frame succeed, so it is not mentioned there.
-/

namespace Verif.Vts

variable {R : Type} [CommRing R] [LinearOrder R]

/-- An exception of the program, or the interpreter's `RuntimeError`. -/
inductive FErr
  | py (e : Err)
  | recursion
  deriving DecidableEq, Repr

/-- A result of the model without limit. -/
def liftF {α : Type} : Except Err α → Except FErr α
  | .ok a => .ok a
  | .error e => .error (.py e)

/-- `vts/uni_vts.py:203-253` `signed_pseudo_remainder`, with a limit.  The `lambda`s at lines 243 and 252 need a frame
exactly when the recursive call at line 253 follows. -/
def sprL : ℕ → Poly R → Poly R → Except FErr (Poly R)
  | 0, _, _ => .error .recursion
  | d + 1, f, g =>
    match f.getLast? with
    | none => .ok []
    | some lcf =>
      match g.getLast? with
      | none => .error (.py .divZeroPoly)
      | some lcg =>
        if lcf = 0 then sprL d f.dropLast g
        else
          let lcg' := if lcg < 0 then -lcg else lcg
          let lcf' := if lcg < 0 then -lcf else lcf
          if f.length < g.length then .ok f
          else
            let padding := List.replicate (f.length - g.length) (0 : R)
            let subtracted := List.zipWith (fun c1 c2 => c1 * lcg' - c2 * lcf') f (padding ++ g)
            sprL d subtracted.dropLast g

/-- `vts/uni_vts.py:266-288` `signed_remainder_sequence`, with a limit.  The `lambda` at line 284 needs one
frame, as did the call of `signed_pseudo_remainder` before it. -/
def srsL : ℕ → Poly R → Poly R → Except FErr (List (Poly R))
  | 0, _, _ => .error .recursion
  | d + 1, p, q =>
    match sprL d p q with
    | .error e => .error e
    | .ok rem =>
      if rem = [] then .ok [p, q]
      else
        match srsL d q (rem.map fun c => -c) with
        | .error e => .error e
        | .ok sequence => .ok (p :: sequence)

/-- `vts/uni_vts.py:290-323` `signed_remainder_cauchy_index`, with a limit.  The `lambda`s at lines 305-321
need one frame, as did the call of `signed_remainder_sequence` before them. -/
def cauchyIndexL : ℕ → Poly R → Poly R → Except FErr ℤ
  | 0, _, _ => .error .recursion
  | d + 1, p, q =>
    if q = [] then .ok 0
    else do
      let sequence ← srsL d p q
      let negInf ← liftF (sequence.mapM fun p => do
        let c ← lastE p
        pure (c * (-1) ^ ((p.length - 1) % 2)))
      let posInf ← liftF (sequence.mapM lastE)
      let fNegInf := negInf.filter (fun c => decide (c ≠ 0))
      let fPosInf := posInf.filter (fun c => decide (c ≠ 0))
      pure ((countChanges fNegInf : ℤ) - countChanges fPosInf)

/-- `vts/uni_vts.py:670-672` `derivative`, with a limit: one frame, and one for the `lambda` if there is a
coefficient to apply it to. -/
def derivativeL : ℕ → Poly R → Except FErr (Poly R)
  | 0, _ => .error .recursion
  | d + 1, p => if d = 0 ∧ 2 ≤ p.length then .error .recursion else .ok (derivative p)

/-- `vts/uni_vts.py:327-391` `tarski_query`, with a limit. The call of `multiply` (`vts/uni_vts.py:142-168`) needs
one frame, as did the call of `derivative` before it. -/
def tarskiQueryL : ℕ → Poly R → Poly R → Except FErr ℤ
  | 0, _, _ => .error .recursion
  | d + 1, p, q => do
    let pDer ← derivativeL d p
    cauchyIndexL d p (multiply pDer q)

end Verif.Vts
