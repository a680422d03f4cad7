import Verif.Grf.Model
import Mathlib.Algebra.Order.Floor.Ring
import Mathlib.Data.Rat.Floor

/-!
# Model of the sampling core of `GRF/grf.sage`: projection order, root isolation, sampling, lifting
-/

namespace Verif.Grf

/-- Functions of Sage, and random numbers, used by the core. -/
structure CadEnv where
  /-- `p.roots()`: the rational roots of a univariate polynomial, with multiplicities -/
  roots : MPoly → List (ℚ × ℕ)
  /-- `p.real_root_intervals()`: isolating intervals with multiplicities -/
  rri : MPoly → List ((ℚ × ℚ) × ℕ)
  /-- `RR(random.uniform(l, u)).exact_rational()`; the first arguments say which call it is: the sample point over
  which the stack is built, whether it is for a gap or for a root interval, the number of this interval and the
  number of the call for it -/
  uniform : List ℚ → Bool → ℕ → ℕ → ℚ → ℚ → ℚ
  /-- resultant -/
  res : MPoly → MPoly → ℕ → MPoly
  /-- discriminant -/
  disc : MPoly → ℕ → MPoly

/-! ### `ProjOrd` -/

/-- `ProjOrd.compute_var_stats` (`grf.sage:239-250`): maximal degree in the variable, maximal total degree of the
monomials with the variable, and the number of these monomials. -/
def varStats (polys : List MPoly) (v : ℕ) : ℕ × ℕ × ℕ :=
  let monos := (polys.flatMap fun p => p.map Prod.fst).filter fun m => decide (v ∈ m.vars)
  if monos ≠ [] then
    ((polys.map fun p => p.degreeIn v).foldr max 0, (monos.map Mono.deg).foldr max 0, monos.length)
  else (0, 0, 0)

/-- Comparison of tuples. -/
def statLe (a b : ℕ × ℕ × ℕ) : Bool :=
  decide (a.1 < b.1) || (decide (a.1 = b.1) && (decide (a.2.1 < b.2.1) || (decide (a.2.1 = b.2.1) && decide (a.2.2 ≤ b.2.2))))

/-- `ProjOrd.compute_proj_ord` (`grf.sage:256-261`); `sorted` is stable. -/
def projOrd (polys : List MPoly) (vars : List ℕ) : List ℕ :=
  (vars.insertionSort fun a b => statLe (varStats polys a) (varStats polys b) = true).reverse

/-! ### Projection -/

/-- `QE_Factory.pure_poly_base` (`grf.sage:319-327`): `p == p.lt()` says that there is at most one term. -/
def purePolyBase (p : MPoly) : MPoly :=
  if p.length ≤ 1 then
    match p.vars with
    | [v] => MPoly.var v
    | _ => p
  else p

/-- `QE_Factory.filter_proj_set` (`grf.sage:338-343`); the order of the elements of the set is not specified, the
model keeps the order of the list. -/
def filterProjSet (ps : List MPoly) : List MPoly :=
  ((ps.filter fun p => !p.isConstant).map purePolyBase).dedup

/-- The coefficient of the highest power of a variable (`grf.sage:366`). -/
def lcIn (p : MPoly) (v : ℕ) : MPoly :=
  (p.filter fun t => t.1.exp v == p.degreeIn v).map fun t =>
    (((t.1.set v 0).reverse.dropWhile (· == 0)).reverse, t.2)

/-- `QE_Factory.bm_proj` (`grf.sage:354-371`): eliminate the variable `v`. -/
def bmProj (E : CadEnv) (v : ℕ) (ps : List MPoly) : List MPoly :=
  let ps := ps.dedup
  let resultants := ps.flatMap fun p => (ps.filter fun q => decide (p ≠ q)).map fun q => E.res p q v
  filterProjSet ((resultants ++ ps.map (fun p => E.disc p v) ++ ps.map fun p => lcIn p v).dedup)

/-- The projection sets from level 0 to level `k` when that of level `k` is given (`grf.sage:397-402`). -/
def projSets (E : CadEnv) (ord : List ℕ) : ℕ → List MPoly → List (List MPoly)
  | 0, ps => [ps]
  | k + 1, ps => projSets E ord k (bmProj E (ord.getD (k + 1) 0) ps) ++ [ps]

/-! ### Root isolation and sampling -/

/-- `QE_Factory.iso_root_intvls` (`grf.sage:439-456`). -/
def isoRootIntvls (E : CadEnv) (polys : List MPoly) : List ((ℚ × ℚ) × ℕ) :=
  if polys = [] then []
  else
    let prod := (polys.filter fun p => decide (E.roots p = [])).foldl MPoly.mul (MPoly.const 1)
    (if prod ≠ MPoly.const 1 then E.rri prod else []) ++
      polys.flatMap fun p => (E.roots p).map fun r => ((r.1, r.1), r.2)

/-- `QE_Factory.k_random_sps` (`grf.sage:465-472`). -/
def kRandomSps (u : ℕ → ℚ → ℚ → ℚ) (l r : ℚ) (k : ℕ) : List ℚ :=
  if l = r then [l] else (List.range k).map fun i => u i l r

/-- Comparison of intervals. -/
def ivlLe (a b : ℚ × ℚ) : Bool := decide (a.1 < b.1) || (decide (a.1 = b.1) && decide (a.2 ≤ b.2))

/-- the gaps between consecutive intervals, with their numbers (`grf.sage:536-541`) -/
def gaps : ℕ → List (ℚ × ℚ) → List (ℕ × ℚ × ℚ)
  | i, a :: b :: l => (i, a.2, b.1) :: gaps (i + 1) (b :: l)
  | _, _ => []

/-- the case without roots of `sector_sps` (`grf.sage:501-521`) -/
def sectorNoRoots (ambient : List Atom) (v : ℕ) : List ℚ :=
  match ambient.filter fun h => decide (h.poly = MPoly.var v) with
  | [] => [0]
  | h :: _ => if h.op = .lt then [-1] else if h.op = .gt then [1] else [0]

/-- the case with roots of `sector_sps` (`grf.sage:522-553`): the intervals are sorted -/
def sectorRoots (u : Bool → ℕ → ℕ → ℚ → ℚ → ℚ) (numSps : ℕ) (ivls : List (ℚ × ℚ)) : List ℚ :=
  match ivls, ivls.getLast? with
  | f :: _, some l =>
    ([((⌊f.1 - 1⌋ : ℤ) : ℚ), ((⌈l.2 + 1⌉ : ℤ) : ℚ)] ++
      ((gaps 0 ivls).flatMap fun g => kRandomSps (u true g.1) g.2.1 g.2.2 numSps) ++
      (ivls.zipIdx.flatMap fun a => kRandomSps (u false a.2) a.1.1 a.1.2 1)).insertionSort (· ≤ ·)
  | _, _ => []

/-- `QE_Factory.sector_sps` (`grf.sage:500-553`), with `cur_var` given. -/
def sectorSps (E : CadEnv) (tag : List ℚ) (roots : List ((ℚ × ℚ) × ℕ)) (numSps : ℕ) (ambient : List Atom) (v : ℕ) :
    List ℚ :=
  if roots = [] then sectorNoRoots ambient v
  else sectorRoots (E.uniform tag) numSps ((roots.map Prod.fst).insertionSort fun a b => ivlLe a b = true)

/-! ### Lifting -/

/-- The value of the assigned variables in a monomial, and the rest of it. -/
def Mono.substFrom (d : List (ℕ × ℚ)) : ℕ → Mono → ℚ × Mono
  | _, [] => (1, [])
  | i, e :: m =>
    let r := Mono.substFrom d (i + 1) m
    match d.lookup i with
    | some x => (x ^ e * r.1, if r.2 = [] then [] else 0 :: r.2)
    | none => (r.1, if e = 0 ∧ r.2 = [] then [] else e :: r.2)

/-- `p.substitute(d)` -/
def MPoly.subst (d : List (ℕ × ℚ)) (p : MPoly) : MPoly :=
  p.foldr (fun t r => let s := Mono.substFrom d 0 t.1; addTerm s.2 (t.2 * s.1) r) []

/-- The dictionary of a sample point (`grf.sage:616-621`, `grf.sage:676-680`). -/
def spDict (ord : List ℕ) (s : List ℚ) : List (ℕ × ℚ) := ord.zip s

/-- the stack over a cell when it is built (`grf.sage:640-652`) -/
def stackExt (E : CadEnv) (ord : List ℕ) (next : List MPoly) (numSps : ℕ) (ambient : List Atom) (cell : List ℚ) :
    List (List ℚ) :=
  (sectorSps E cell (isoRootIntvls E (filterProjSet (next.map (MPoly.subst (spDict ord cell))))) numSps ambient
    (ord.getD cell.length 0)).map fun c => cell ++ [c]

/-- `QE_Factory.stack_over_cell` (`grf.sage:613-652`). Without a goal, `goal.eval_on_dict` raises. The coordinates of
base cells are not lists in the program; here they are lists of length 1. -/
def stackOverCell (S : Sage ℚ) (E : CadEnv) (goal : Option Goal) (ord : List ℕ) (next : List MPoly) (numSps : ℕ)
    (ambient : List Atom) (cell : List ℚ) : Except GErr (List (List ℚ)) :=
  match goal with
  | none => .error .attributeError
  | some g => do
    let b ← g.evalOnDict S (spDict ord cell)
    if b then .ok [] else .ok (stackExt E ord next numSps ambient cell)

/-- Comparison of sample points. -/
def ptLe : List ℚ → List ℚ → Bool
  | [], _ => true
  | _ :: _, [] => false
  | a :: as, b :: bs => decide (a < b) || (decide (a = b) && ptLe as bs)

/-- The loop of `QE_Factory.lift_level` (`grf.sage:664-666`). -/
def stackUnion (S : Sage ℚ) (E : CadEnv) (goal : Option Goal) (ord : List ℕ) (next : List MPoly) (numSps : ℕ)
    (ambient : List Atom) : List (List ℚ) → Except GErr (List (List ℚ))
  | [] => .ok []
  | c :: cs => do
    let s ← stackOverCell S E goal ord next numSps ambient c
    let r ← stackUnion S E goal ord next numSps ambient cs
    .ok (s ++ r)

/-- `QE_Factory.lift_level` (`grf.sage:663-668`). -/
def liftLevel (S : Sage ℚ) (E : CadEnv) (goal : Option Goal) (ord : List ℕ) (next : List MPoly) (numSps : ℕ)
    (ambient : List Atom) (cells : List (List ℚ)) : Except GErr (List (List ℚ)) := do
  let r ← stackUnion S E goal ord next numSps ambient cells
  .ok (r.insertionSort fun a b => ptLe a b = true)

/-- The loop of `QE_Factory.lifting_phase` (`grf.sage:694-701`) over the remaining projection sets. -/
def liftAll (S : Sage ℚ) (E : CadEnv) (goal : Option Goal) (ord : List ℕ) (numSps : ℕ) (ambient : List Atom) :
    List (List MPoly) → List (List ℚ) → Except GErr (List (List ℚ))
  | [], cells => .ok cells
  | next :: sets, cells => do
    let cells' ← liftLevel S E goal ord next numSps ambient cells
    liftAll S E goal ord numSps ambient sets cells'

/-- `QE_Factory.sample_pt_dicts` (`grf.sage:732-739`) with `n` variables (at least one) and the installed polynomials
`top`. The base phase is called with `num_sps=1`. -/
def samplePtDicts (S : Sage ℚ) (E : CadEnv) (n : ℕ) (top : List MPoly) (goal : Option Goal) (numSps : ℕ)
    (ambient : List Atom) : Except GErr (List (List (ℕ × ℚ))) := do
  let top' := filterProjSet top
  let ord := projOrd top' (List.range n)
  match ord, projSets E ord (n - 1) top' with
  | v :: _, base :: sets => do
    let cells₀ := (sectorSps E [] (isoRootIntvls E base) 1 ambient v).map fun x => [x]
    let cells ← liftAll S E goal ord numSps ambient sets cells₀
    .ok (cells.map (spDict ord))
  | _, _ => .error .indexError

/-- The sampling core as called by `RCF_GD_Decide.check` with `partial=True` (`grf.sage:952-960`). `extra` are the
polynomials installed (and filtered) in earlier rounds: `install_polys` appends. -/
def cadCore (S : Sage ℚ) (E : CadEnv) (n numSps : ℕ) (extra : ℕ → State → List MPoly)
    (more : ℕ → State → Dict ℚ → Except GErr (List (Dict ℚ)))
    (solve : ℕ → List (List ℕ) → List ℕ → Option (List ℕ)) : Core ℚ :=
  { S with
    samples := fun k st => samplePtDicts S E n (extra k st ++ st.goal.main.poly :: st.goal.hyps.map Atom.poly)
      (some st.goal) numSps st.hyps
    more := more
    solve := solve }

end Verif.Grf
