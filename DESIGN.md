# Formal model of Real-Algebraic-Geometry-Playground: design

Source: `/repo` (Python 2 / Sage), read as text. Model and proofs: Lean 4 + Mathlib
in `/verif/lean`. Properties: `properties.jsonl`; status: `MANIFEST.json`;
mutation log: `seeded/LOG.jsonl`.

## 1. Trusted base

* Lean 4.33.0's kernel, and the Mathlib definitions used in statements
  (`Polynomial`, `ℝ`, `ℂ`, `ℚ`, `IsAlgClosed`, ordered fields, ...).
* Axioms: only `propext`, `Classical.choice`, `Quot.sound`. No own axioms, no
  `sorry`, no `native_decide`/`bv_decide`. Concrete examples use `decide +kernel`, which is evaluated by the kernel.
* The reading of the Python source: every model definition cites file and lines.
  The code was never run here.
* External libraries, each an explicit parameter of the model; what is assumed of it is a hypothesis of the theorem:

| Library | Parameter | Assumption |
|---|---|---|
| `z3rcf.MkRoots` (uni_vts) | `Env.roots` | `EnvOK`: the list of distinct roots of a nonzero polynomial |
| `sympy.Matrix.inv` | `Env.inv` | `EnvOK`: a left inverse when there is one |
| number field of roots | `K` | ordered field with the intermediate value property for polynomials (`PolyIVT`; ℝ is an instance) |
| polynomial algebra of `highschool_qe` | `MAlg R` | scalars are recognised and their signs are right (`ScalarsNonzero`, `ScalarSigns`, `GoodScalars`) |
| sympy's automatic simplification | `SympyEnv` | `SympyOK`: a term simplified to a number has that value |
| Sage `reduce`, `groebner_basis` | `Sage` | membership in the ideal, same zero set |
| Sage `roots`, `real_root_intervals` | `CadEnv` | `RootsOK`: rational roots, isolating intervals |
| Sage resultants, discriminants | `CadEnv` | `TrueElim` (C72 only): the Sylvester determinants of Mathlib |
| MILP solver | `Core.solve` | returns a feasible 0-1 point or raises |
| `random.uniform`, `random.choice` | `CadEnv.uniform`, `Search` | arbitrary values in the interval (`UniformOK`) |
| `scipy.optimize.fsolve` | `Search.fsolve` | arbitrary |
| processes and clock (`GRF/test.py`) | `Nature` | arbitrary |
| keyboard input | list of lines | arbitrary |

* Python runtime facts used: `map/filter/zip/reduce` on lists are total and
  eager; ints are unbounded; in Python 2 comparing a builtin function with an int never
  raises and the function is the larger one; an uncaught exception aborts the call; a default argument taken from
  the class body is a plain function.

## 2. How models are written

Plain total functions over `List`, `ℤ`, `ℚ`, `Option`, `Except`; exceptions are values
of a small inductive error type, every `raise` a separate branch. Unbounded recursion is modelled by well-founded
recursion where it ends, by an error value where it does not, and by a fuel parameter where the end is the subject
of a theorem (`muchnikSeq`, `check`): the theorem then says that from some fuel on the result does not change.
Model files are `*Model.lean` and those of `Verif/Grf` without `Props` (but `OpenCad`, `Fiber`, `CadStep`,
`MultiTree` and `TrueElim` are proofs); helper lemmas are in other files, and the
property theorems in `Verif/<Area>/Props*.lean`, stated against Mathlib notions or definitions given there.

## 3. What is modelled

| Code | Model |
|---|---|
| `vts/uni_vts.py` (live definitions) | `Vts/Model`, `Vts/TsModel` |
| `vts/matrix_of_signs.py` (matrices; caches: memory, disk, restarts, crashes, several processes) | `Vts/MatrixModel`, `Vts/CacheModel`, `Vts/SharedModel` |
| `vts/isym.py` | `Vts/IsymModel` |
| `vts/checker.py` | `Vts/CheckerModel` |
| `vts/grf_parser.py`, `vts/examples_parser.py` | `Vts/ParserModel`, `Vts/UnivModel`, `Vts/ExamplesModel` |
| `highschool_qe/muchnik.py` | `Qe/MuchnikModel`, `Qe/PartialModel`, `Qe/PrintModel` (printed answers) |
| `highschool_qe/cohenhorm.py` | `Qe/ChModel` |
| `highschool_qe/sympywrapper.py` (polynomial operations) | `Qe/PolyModel` |
| `highschool_qe/cohenhorm - Copy.py` | `Qe/OldModel` |
| `highschool_qe/cachedsympywrapper.py` | `Qe/CacheModel` |
| `GRF/grf.sage` (atoms, goals, loop of `check`, its interactive mode) | `Grf/Model`, `Grf/Poly`, `Grf/Interactive`; printed sequents: `Grf/PrintModel`; with objects that are changed in place: `Grf/Heap`; histories of a decider: `Grf/Session` |
| `GRF/grf.sage` (projection, lifting, sampling) | `Grf/Cad` |
| `GRF/smt2.py` (parse actions, context, sequents, reporting; the grammar on characters, `grf_on_file`) | `Grf/Smt2`, `Grf/SmtText`, `Grf/SmtCost` (counts parse actions) |
| `GRF/local_search.py` | `Grf/Search`; functions that are not called: `Grf/Soft`; in the loop, with its class variable: `Grf/Whole`; with the parameters `k` and `epsilon`: `Grf/ParamModel` |
| `GRF/test.py` (main loop, messages, table) | `Grf/Sched`, `Grf/SchedLog` |

Not modelled: plotting, timing printouts, pickling formats, the internals of sympy, Sage, scipy and z3, test modules,
commented-out code.

Simplifications, also stated at the definitions: columns of real diagrams are rationals, not floats, in
C23, C24 and C69 (C87 is about floats: the theorems carry over up to 52 polynomials and fail with 53; the sign tables
of `cohenhorm.py` have exact fractions as columns); dictionaries are association
lists in order of insertion, and no theorem depends on their order unless the code's result does; sorted sets are sorted
lists.

`Vts/RepoTests.lean` runs the repository's own unit tests (`vts/test_vts.py`, `vts/test_isym.py`,
`vts/test_grf_parser.py`) on the model, with the expected values written there;
`Qe/RepoTests.lean` does so for `highschool_qe/cohenhormtest.py`, and `Qe/PropsReadme.lean` evaluates the calls
documented in `highschool_qe/README.md` (the lists of `muchnik.py` come out exactly as printed there);
`Grf/RepoTests.lean` reads the problems of `GRF/smt2.py` and reproduces the fourteen sequents and lists of final
hypotheses that the program has shown for them, as recorded there in comments (these are evaluated with `#guard`).
`Vts/RepoExamples.lean` reads example files of the repository and compares the result with the pickled files in
`vts/Examples` (with `#guard`; `tools/compare_examples.sh` does so for all 68 files that are in both directories).
They test the model; no claim rests on them.

## 4. Violations found

The code violates the following properties as stated; each negation is proved with a concrete witness, and what does
hold is proved beside it: C11 (crash in a cache write), C14 (`ts` ignores the value), C15 (zero as sympy object),
C18 (conjunctive succedents), C20 (report), C26 (result of parameter-free elimination), C27 (0 and one constant), C28 (parameters in
leading coefficients), C36 (IndexError), C37 (equation added twice), C38 (irrational roots dropped), C39 (`!=`
samples), C43 (numbers of formulas), C45 (variable order), C46 (return in loop), C50 (aliasing), C51 (stale variables),
C56 (whole numbers), C57 (proved but not valid), C59 (default arguments), C60 (stale variables and skipped cells), C61 (jobs without result), C63 (lost sequents),
C64 (exponential reading), C65 (shadowed names), C66 (evaluated relations), C67 (several variables), C70 (default
assigner), C72 (square factors), C75 (only the last sequent of a file is reported), C77 (given and cleared contexts),
C80 (examples are stored in `Metitarski` and read from `MetiTarski`), C82 (the fourth file is loaded), C84 (sorted by degree, not by weight), C85 (hypotheses `p ≠ 0` are not made false by local search), C86 (reading a cache file that another process writes), C87 (rounded columns), C88 (digits of remainders), C89 (recursion limit), C94 (recursion limit again), C96 (impossible cases are returned), C99 (recursion limit of cohenhorm), C100 (documented result of cohenhorm), C101 (a false sequent is proved because of stale variables), C102 (formulas are rewritten in place), C103 (promoted hypotheses are missing for the next goal), C104 (the order of two equations decides whether vts raises), C105 (a counterexample reported for a valid sequent), C107 (vanishing exponentials), C108 (undefined name), C109 (the order of the hypotheses decides between a proof and an exception), C112 (jobs over their limit that are recorded as finished), C113 (a valid sequent is refuted after another one with fewer variables), C114 (the number of sample points per cell has no effect in one variable), C115 (a returned set of hypotheses can be contained in another), C117 (valid sequents that need all their hypotheses are never proved), C118 (the verdict depends on the names of the variables), C119 (a proved sequent with a further hypothesis need not be proved), C120 (files with sequents that are not valid for which grf_on_file returns), C121 (the earlier version of the Cohen-Hörmander procedure raises an exception on every input), C125 (the parameters k and epsilon have no effect), C126 (reading files with nested unary minus takes exponentially many parse actions),
C127 (the percentage of jobs done counts jobs that have only been started), C128 (the columns of `test.csv`), C129 (numbers without a dot, `~1.0`, text around sequents, and several formulas in a succedent are read differently by the two programs), C130 (a sequent with the reported formulas removed is in the end never proved again), C132 (the order of the variables of a sequent depends on the sequents before it in the file).

## 5. Properties

For each property: status, what is modelled and how it is proved, theorems, remarks. The theorem
names are those of `MANIFEST.json`. All of them depend on `propext`, `Classical.choice` and `Quot.sound` only
(some on fewer); `#print axioms` shows the exact set and `vcheck` tests it.

**C01. Virtual term substitution decides univariate satisfiability** — proved.
Model `internalVts` (Vts/Model). Root descriptions (C06) are evaluated by Tarski queries (C03, C07, C08); a satisfiable system has a witness at a root, just after a root or near minus infinity (finitely many sign-invariant intervals). Hypothesis: coefficient lists without a zero leading coefficient; `C01_needs_normalized` shows it is needed.
Theorems: `Vts.C01_vts_decides`, `Vts.C01_vts_decides_real`, `Vts.C01_needs_normalized`.
Full statement over any ordered field with the polynomial IVT; external root isolation and matrix inversion assumed correct (EnvOK). C01_needs_normalized: the answer is wrong on a coefficient list with a zero leading coefficient.

**C02. Virtual term substitution answers (does not raise) on every input with few roots per polynomial** — proved.
Totality of the model plus absence of every error branch; the bound on roots comes from `get_matrix`, which refuses more than five polynomials.
Theorems: `Vts.C02_vts_answers`, `Vts.C02_total_correct`, `Vts.C02_degree`, `Vts.C02_refuses`, `Vts.C02_refuses_example`.
Termination is by construction (total model); the recursion error branch is proved unreachable.

**C03. The Tarski query counts signs at roots** — proved.
Sturm-Tarski theorem proved in Alg/Sturm for arbitrary signed remainder chains (crossing argument over a sorted list of critical points), applied to the code's chain.
Theorems: `Vts.C03_tarski_query`, `Vts.C03_empty`.
Sturm-Tarski for the code's own pseudo-remainder sequence.

**C04. Pseudo-remainder is sign correct** — proved.
Induction over the division loop; the sign adjustment is tracked by an identity a·f = q·g + r with a > 0.
Theorems: `Vts.C04_pseudo_remainder`, `Vts.C04_raises_iff`, `Vts.C04_needs_normalized`.
Identity for divisors with nonzero leading coefficient; exception characterised for all inputs; witness that the restriction is needed.

**C05. Signed remainder sequence is a finite Sturm chain** — proved.
From C04 by induction over the chain; strict degree descent gives finiteness.
Theorems: `Vts.C05_remainder_sequence`.

**C06. Every real root gets a distinguishing sign description** — proved.
Thom's lemma over fields with the intermediate value property.
Theorems: `Vts.C06_root_descriptions`.
Thom's lemma.

**C07. Sign determination is exact** — proved.
Linear system of sign counts (C09), invertibility, uniqueness of the entry 1. `C07_never_guesses`: a sign is returned only for exactly one entry 1.
Theorems: `Vts.C07_never_guesses`, `Vts.C07_sign_determination`.

**C08. Infinitesimal sign evaluation gives the sign just to the right** — proved.
First non-vanishing derivative; Taylor expansion at the root.
Theorems: `Vts.C08_sign_right`.

**C09. Sign matrix maps sign counts to Tarski queries and is inverted** — proved.
Kronecker powers of the 3x3 base matrix; counts as sums over roots of products of sign polynomials.
Theorems: `Vts.C09_sign_matrix`, `Vts.C09_invertible`, `Vts.C09_get_matrix`, `Vts.C09_get_inverse`.
All n for the matrix; get_matrix refuses n > 5.

**C10. Matrix cache is transparent over histories and restarts** — proved.
State machine over memory and disk with requests, restarts and deletions; invariant: every stored matrix is the right one.
Theorems: `Vts.C10_cache_transparent`.
All histories of matrix/inverse requests, process restarts and outside deletion of cache files (no crash inside a write).

**C11. Matrix cache survives a crash in the middle of a write** — partial.
Crash points between opening and completing a file. Negation with a concrete history; safety part by invariant.
Theorems: `Vts.C11_crash_violated`, `Vts.C11_import_violated`, `Vts.C11_crash_partial`, `Vts.C11_written_once`, `Vts.C11_exact`.
The property is violated: a crash inside a cache write leaves a truncated file that later processes fail on. Negation proved with a witness; partial theorem: no wrong matrix is ever returned. In addition: files are never changed once written, so the damage is permanent, and an exact description of the calls that fail.

**C12. Product list has all exponents in the documented order** — proved.
Induction over the list of polynomials.
Theorems: `Vts.C12_product_list`.

**C13. Coefficient-list multiplication and differentiation are exact** — proved.
Lists of coefficients against Mathlib polynomials.
Theorems: `Vts.C13_multiply`, `Vts.C13_derivative`, `Vts.C13_evaluate`, `Vts.C13_normalized`.

**C14. Term substitution decides univariate satisfiability** — partial.
The code compares a builtin function with 0; exact description of the answers, with a witness for the wrong one.
Theorems: `Vts.C14_tests`, `Vts.C14_what_it_computes`, `Vts.C14_ts_violated`, `Vts.C14_ts_sound_partial`.
Violated: the evaluation result is discarded. Exact behaviour of the code characterised.

**C15. sympy-to-list conversion preserves the polynomial up to a positive factor** — partial.
sympy numbers and polynomials as a small inductive type; conversion scales by the lcm of denominators.
Theorems: `Vts.C15_convert`, `Vts.C15_zero_int`, `Vts.C15_zero_violated`, `Vts.C15_raises`, `Vts.C15_roundtrip`.
Full for nonzero polynomials; the zero polynomial given as a sympy object is converted to [0] instead of [] (negation proved).

**C16. The public vts entry decides rational constraint systems** — proved.
Composition of C15 and C01.
Theorems: `Vts.C16_isym_vts`.

**C17. Sequent preprocessing reduces validity to unsatisfiability** — proved.
Rewriting to `<`, `<=`, `=`, `!=` against 0, one system per succedent formula; composed with C01 in `C17_verdict`.
Theorems: `Vts.C17_preformat`, `Vts.C17_raises`, `Vts.C17_verdict`.
C17_verdict composes the preprocessing with the decision procedure.

**C18. Sequent checking uses the usual disjunctive reading of succedents** — partial.
The code's conjunctive reading against the disjunctive one: witness, and the implication that does hold.
Theorems: `Vts.C18_disjunctive_violated`, `Vts.C18_disjunctive_partial`.
Violated: the succedent is read conjunctively (witness). Partial: reported valid implies valid; exact for one succedent formula.

**C19. Relation rewriting and negation are exact** — proved.
Case analysis of the relation kinds over an ordered field.
Theorems: `Vts.C19_rewrite`, `Vts.C19_negate`, `Vts.C19_negate_bool`.

**C20. Example checking reports every formula** — partial.
The report loop indexes with the builtin `file`; only `files[:3]` are looked at.
Theorems: `Vts.C20_report_violated`, `Vts.C20_report_partial`, `Vts.C20_exact`.
Violated: an invalid example makes the final report fail with a TypeError, and only three files are looked at.

**C21. Muchnik closure terminates and is closed** — proved.
Well-founded measure on the set of polynomials still to be processed; result closed under tail, derivative and pseudo-remainder. Fuel parameter: the result is independent of it from some value on.
Theorems: `Qe.C21_sequence_closed`, `Qe.C21_least`.
Termination: from some recursion depth on the result does not change.

**C22. Muchnik complex quantifier elimination is an equivalence** — proved.
Invariant of `complex_extend` for arbitrary assignments of zero/nonzero to the constants, with a root-by-root correspondence to K (algebraically closed, characteristic 0).
Theorems: `Qe.C22_complex_full`.
All algebraically closed fields of characteristic zero; the scalars test of the algebra is assumed to be right (ScalarsNonzero, has_variable of integer multiples).

**C23. Muchnik real quantifier elimination is an equivalence** — proved.
Same for ordered fields with the intermediate value property: columns are roots and gaps, signs by Rolle and monotonicity.
Theorems: `Qe.C23_real_full`.
All ordered fields with the intermediate value property for polynomials; the sign and has_variable tests of the algebra are assumed to be right on scalars; exact column numbers, for doubles see C87.

**C24. Real diagrams describe the true sign pattern** — proved.
As C23, for one diagram.
Theorems: `Qe.C24_real_diagram`.
Exact column numbers; for doubles see C87.

**C25. Complex diagrams describe the true zero pattern** — proved.
As C22, for one diagram.
Theorems: `Qe.C25_complex_diagram`.

**C26. Parameter-free quantifier elimination result tells true from false** — partial.
The returned list does not contain the truth value; it is only printed.
Theorems: `Qe.C26_violated_complex`, `Qe.C26_complex_partial`, `Qe.C26_violated_real`, `Qe.C26_real_partial`.
Violated: the returned list is empty for satisfiable and unsatisfiable parameter-free input. Partial: the printed verdict is right.

**C27. Cohen-Hormander decides parameter-free sentences** — partial.
Parameter-free instances of C28/C29.
Theorems: `Qe.C27_partial`, `Qe.C27_violated`.
Violated: for inputs consisting of the polynomial 0 and one constant the result is empty (witness 0=0, 1>0). Proved for all other inputs.

**C28. Cohen-Hormander quantifier elimination is sound and complete with parameters** — partial.
Table extension over contexts, one step at a time (`realTable_step`): the recursion only meets goals whose highest polynomials have known leading coefficients, so the condition is only needed for the polynomial taken first; constants are split by sign (`initialTable_out`, `splitUnknown_out`). Witnesses for a wrong, a missing and a raising case when its leading coefficient contains parameters, and for constants that all vanish but the first. Without the condition (`C28_generic_partial`): a table is right, or its context says that the leading coefficient vanishes (`GOut`), so it does not apply where it does not. Exceptions (`C28_exceptions_partial`): the extension of a table runs through whatever the sign of the leading coefficient is (`extendSingle_run`, `chTable_run`), so only the lookup of this sign can fail, and for degree 1 the coefficient is the derivative, whose sign is in the context. For the quadratic polynomials on which the exception is raised one branch of the tables is computed with symbolic coefficients (`quadratic_raises`, `trinomial_raises`): the sign of n*a is in the context, that of a is not.
Theorems: `Qe.C28_partial`, `Qe.C28_generic_partial`, `Qe.C28_exceptions_partial`, `Qe.C28_linear_partial`, `Qe.C28_scalar_partial`, `Qe.C28_violated_sound`, `Qe.C28_violated_complete`, `Qe.C28_violated_exception`, `Qe.C28_quadratic_violated`, `Qe.C28_trinomial_violated`, `Qe.C28_parameters_violated`, `Qe.C28_violated_constants`.
Violated: a wrong context for y*x+1=0, x-1>0; a missing one for y*x-1<0; an exception for y*x^2=0; a missing one for the constants -1<0, y=0. Proved when the first of the polynomials of highest degree has a scalar leading coefficient or is a constant (parametric or not); for constants only, completeness at the valuations where one of the others does not vanish. For every other input that is not constant: whatever is returned is right at all valuations where this leading coefficient does not vanish. On every input the only exception is that of a missing sign, and it needs a polynomial taken first that is at least quadratic with parameters in its leading coefficient: systems of linear polynomials are always answered. It is raised for every single quadratic polynomial a*x^2+b*x+c whose leading coefficient has parameters (C28_quadratic_violated), and for a*x^n+b*x+c of any degree n >= 2 if b is not 0, a or n*a; more generally for every polynomial of degree at least 2 whose coefficients above the linear one are 0 or have parameters, if no coefficient of the derivative is the leading coefficient, and the linear one is neither 0 nor another coefficient of the derivative (C28_parameters_violated).

**C29. Cohen-Hormander sign tables are correct** — proved.
Induction over the tables of derivatives and remainders.
Theorems: `Qe.C29_tables`.
Proved for all lists (with parameters too) whose polynomials of highest degree have scalar leading coefficients, which includes all parameter-free lists.

**C30. Memoised algebra calls are transparent** — proved.
Generic memo table keyed by strings; any history of calls.
Theorems: `Qe.C30_up_to_key`, `Qe.C30_transparent`.
Full for wrappers whose key identifies arguments; in general equality up to the key.

**C31. Atom negation complements truth** — proved.
Atoms over sparse polynomials (Grf/Poly) evaluated in any ordered field.
Theorems: `Grf.C31_atoms`.

**C32. Goal evaluation matches sequent semantics** — proved.
Three-valued evaluation; sequent semantics.
Theorems: `Grf.C32_goal`.

**C33. Goal-directed decision loop terminates** — proved.
Decreasing number of hypotheses not yet promoted; any core, solver and random choices.
Theorems: `Grf.C33_terminates`.
Automatic mode of check; any core, solver and algebra.

**C34. Goal-directed 'proved' answers are sound** — proved.
Invariant: goal hypotheses are (reduced) promoted hypotheses. Core, reduction and Groebner bases enter as hypotheses (`Sound...`).
Theorems: `Grf.C34_sound`.
Strong form: the promoted hypotheses alone imply the goal. Soundness of the core and of Sage's reduction and Groebner bases is assumed.

**C35. Hypothesis selection hits every counterexample** — proved.
Feasibility of the solver's 0-1 point for the covering constraints.
Theorems: `Grf.C35_hits`.
For nonempty selections (an empty one raises, see C36); the solver is assumed to return feasible points.

**C36. The decision loop never crashes on a non-counterexample** — partial.
Witness run ending in IndexError; absence when some sample satisfies a hypothesis; exact case distinction of the outcomes of a round.
Theorems: `Grf.C36_violated`, `Grf.C36_partial`, `Grf.C36_exact`, `Grf.C36_none`.
Violated: the loop raises IndexError when all hypotheses are false at the samples. Partial: some false-goal sample satisfies a hypothesis. C36_exact and C36_none say for all problems exactly when a round ends the loop, reports a counterexample, promotes, or raises IndexError, if no evaluation raises.

**C37. Adding an equational hypothesis preserves meaning** — partial.
Witness: same equation twice. Ideal membership for the partial part.
Theorems: `Grf.C37_violated`, `Grf.C37_partial`, `Grf.C37_basis_partial`, `Grf.C37_rounds_partial`, `Grf.C37_check_partial`.
Violated: adding the same equation twice turns both into 0=0. Partial: one inclusion always; equality when the new hypothesis is not an equation or no equation was added before; together with the recorded Groebner basis the meaning is exactly preserved, also over all rounds of the check.

**C38. Root isolation covers all roots** — partial.
Witness polynomial with rational and irrational roots; coverage otherwise under `RootsOK` for Sage's root functions.
Theorems: `Grf.C38_violated`, `Grf.C38_partial`.
Violated: a polynomial with a rational root contributes only its rational roots. Partial: covered when no polynomial has both rational and irrational roots.

**C39. Sector sampling can find a witness for any satisfiable strict or disequality hypothesis** — partial.
Witness for `!=`; other relations by a sign argument near the sample.
Theorems: `Grf.C39_violated`, `Grf.C39_partial`, `Grf.C39_stack_partial`.
Violated for disequalities (the point is 0). Partial: the first hypothesis x op 0 with any other relation.

**C40. Projection order is a permutation sorted by the statistics** — proved.
Permutation and sortedness of the projection order.
Theorems: `Grf.C40_projection_order`.

**C41. Promotion only moves hypotheses** — proved.
Multiset of identities of hypotheses is preserved.
Theorems: `Grf.C41_promotion`.

**C42. Variable naming is stable and injective** — proved.
Invariant of the context over all request histories.
Theorems: `Grf.C42_names`, `Grf.C42_ring`.
All histories of requests to a new context; the coercion between the rings is taken to map generators to those of the same name.

**C43. Reported hidable formulas are formulas of the input** — partial.
Witness with two succedents; numbers in range for one.
Theorems: `Grf.C43_violated`, `Grf.C43_partial`.
Violated: with several succedents, numbers beyond the antecedent are reported. Partial: one succedent; the succedent numbers always.

**C44. Multi-succedent sequents are reduced soundly** — proved.
Sequent with several succedents equals the one with negated formulas moved.
Theorems: `Grf.C44_reduction`.

**C45. Vector and dictionary forms of a point are inverse** — partial.
Witness: second call with other variables; inverse conversions otherwise.
Theorems: `Grf.C45_partial`, `Grf.C45_violated`.
Violated: the order stays that of the first assignment ever converted. Partial: inverse conversions for a fixed order.

**C46. Local search performs its repetitions and returns useful points** — partial.
Witness: `return` in the loop; shape theorem for what is returned.
Theorems: `Grf.C46_violated`, `Grf.C46_violated_start`, `Grf.C46_partial`.
Violated: the return statement is in the loop body, only one repetition takes place; the first 25 points are not tested. Partial: the shape of the result, the found points do not make the main goal true.

**C47. Job scheduler bookkeeping** — proved.
Invariant over all interleavings of process ends, time-outs and clock values (`Nature`).
Theorems: `Grf.C47_bookkeeping`.
For jobs that end with a result; see C61 for the others.

**C48. Sequent files parse back to what was written** — proved.
Recursive-descent model of the pyparsing grammar; any text denoting a list of sequents, with any junk between, is read back exactly.
Theorems: `Vts.C48_reading`, `Vts.C48_files`.
pyparsing's semantics is modelled character by character. Variable names other than sympy and cmd (see C65).

**C49. Normalising a relation to one variable preserves truth** — proved.
Terms as polynomials in one variable; `C49_objects` is the step before (objects built on reading).
Theorems: `Vts.C49_objects`, `Vts.C49_univariate`.
Polynomials with integer constants; relations that sympy evaluates on reading are the subject of C66.

**C50. Callers cannot corrupt cached sign matrices** — partial.
Shared mutable matrices: witness of a corrupted cache; invariant over histories with modifications that bounds how far they reach (Vts/PropsAliasing).
Theorems: `Vts.C50_aliasing_violated`, `Vts.C50_partial`, `Vts.C50_given`.
Violated: a modified matrix changes later answers, also in later processes. Partial: after any history with modifications, answers for matrix n are right unless one of the matrices 1..n was modified, answers for inverse n unless in addition that inverse was modified in the running process.

**C51. Partial evaluation is sound** — partial.
Witness after injection into the quotient ring.
Theorems: `Grf.C51_violated`, `Grf.C51_partial`.
Violated after an injection into a quotient ring, which leaves the recorded variables stale. Partial: recorded variables include those of the polynomial.

**C52. The projection filter loses no zeros** — proved.
Zero sets of the filtered set of polynomials.
Theorems: `Grf.C52_filter`.

**C53. Hiding is sound** — proved.
C34 through `perform_grf`.
Theorems: `Grf.C53_hiding`.
Soundness of the core and of Sage's functions assumed.

**C54. Reading a formula preserves its meaning** — proved.
Parse trees of the SMT grammar to atoms, with all name histories.
Theorems: `Grf.C54_reading`.
From parse trees; exactness of Sage's division assumed; points with a zero divisor excluded.

**C55. Hiding results for input files are sound** — proved.
C53 and C54 for whole files.
Theorems: `Grf.C55_file`.
End to end from parse trees; soundness of the core assumed.

**C56. Numerals denote numbers** — partial.
Whole numbers match the identifier rule first: witness.
Theorems: `Grf.C56_violated`, `Grf.C56_text_violated`, `Grf.C54_reading`.
Violated: whole numbers without a dot and negative numbers like -1.5 become variables, and (- 1.5e3) is a difference. Partial: numerals with a dot (C54).

**C57. Proved sequents are valid (one variable)** — partial.
The whole sampling core in one variable: soundness under stated conditions, witnesses outside them.
Theorems: `Grf.C57_violated`, `Grf.C57_violated_strict`, `Grf.C57_partial`.
Violated: the sequent |- x^2 != 2 (irrational points are not sampled) and, with strict negation, |- x^4 - 2x^2 <= 0 (a polynomial with both rational and irrational roots) are reported as true. Partial: one variable, goal atoms whose negations are strict, no polynomial with both rational and irrational roots.

**C58. Sample points are total assignments** — proved.
Lifting phase by induction over the variables.
Theorems: `Grf.C58_assignments`.

**C59. The check works with its default arguments** — partial.
Witness for every problem in two variables; absence of the exception otherwise.
Theorems: `Grf.C59_violated`, `Grf.C59_partial`.
Violated for every problem in at least two variables. Partial: one variable, or partial=True.

**C60. Short-circuiting loses no counterexample** — partial.
Three-valued evaluation is monotone in the assignment.
Theorems: `Grf.C60_violated`, `Grf.C60_partial`.
Violated for goals with hypotheses reduced by a Groebner basis: their recorded variables are stale, and a comparison of polynomials counts as a truth value. Partial: goals whose atoms have not been reduced (or whose recorded variables still include those of the polynomial).

**C61. A failing job does not stop the test harness** — partial.
Witness: a process that ends without a result. `C61_exact` and `C61_when` (PropsSchedFail): a dichotomy over all natures of processes, and conditions for each side.
Theorems: `Grf.C61_violated`, `Grf.C61_partial`, `Grf.C61_exact`, `Grf.C61_when`.
Violated: a job that ends without a result raises KeyError in the main loop. Partial: no failure if every ended job has a result; in general exactly one of two things happens, the loop ends with one row per job (jobs without a result recorded as timeouts) or the KeyError is raised; it is raised whenever a process ends at once without a result, and not if the processes without a result do not end.

**C62. The local search equation flips the chosen hypothesis** — proved.
Sign of the equation solved by `fsolve`.
Theorems: `Grf.C62_flip`, `Grf.C62_search`.
C62_search states it for the runs of local search.

**C63. No sequent of a file is lost** — partial.
Witness text; C48 for texts in the grammar.
Theorems: `Vts.C63_violated`, `Vts.C63_partial`, `Vts.C48_reading`.
Violated: sequents that cannot be read are left out silently. Partial: no sequent in the syntax of C48 that starts outside a returned one is passed over, in any text without the words sympy and cmd (C63_partial); texts of sequents in the grammar are all returned (C48_reading).

**C64. Reading time is proportional to the input** — partial.
Step counter in the parser model; exponential witness family and linear bound; bound for all texts by induction on the grammar, the doubling at a minus sign being paid for by its bracket (Vts/PropsParserCost).
Theorems: `Vts.C64_work`, `Vts.C64_violated`, `Vts.C64_partial`, `Vts.C64_nesting_partial`.
Violated: nested unary minus doubles the work at each level. Partial: without unary minus the work is at most the length; for every text the work of reading a file is at most 24 (n+1)^3 2^d, n the length and d the nesting of brackets.

**C65. Reading a file raises no exception** — partial.
Names that shadow module names in `exec`.
Theorems: `Vts.C65_violated`, `Vts.C65_partial`.
Violated: variables called sympy or cmd. Partial: files that do not contain these words are read without exception.

**C66. Every sequent that was read can be converted** — partial.
Exact condition for the exception.
Theorems: `Vts.C66_violated`, `Vts.C66_raises_iff`.
Violated: a relation between numbers is evaluated by sympy on reading and the conversion of all files aborts. Exact characterisation of when this happens.

**C67. Conversion to one variable preserves validity** — partial.
Witness with two variables; implication in general, equivalence in one variable.
Theorems: `Vts.C67_violated`, `Vts.C67_partial`, `Vts.C67_exact`.
Violated for two variables. Partial: valid sequents stay valid; equivalence for one variable.

**C68. From file to verdict** — proved.
C48, C49, C67, C17, C16, C01 composed, and totality up to degree five.
Theorems: `Vts.C68_end_to_end`, `Vts.C68_reached`, `Vts.C17_reached`.
Validity with conjunctive succedent (see C18); sympy's evaluation of numbers and the root oracle of the solver are assumed sound.

**C69. Partial procedures show the pattern of the answers** — proved.
C24 and C25 with the root diagram built by the assigners; the interactive loop is a fold over the accepted lines.
Theorems: `Qe.C69_complex_interactive`, `Qe.C69_complex_automatic`, `Qe.C69_complex_outcome`, `Qe.C69_real_interactive`, `Qe.C69_real_automatic`, `Qe.C69_real_outcome`.
Exact column numbers of the real diagram; for doubles see C87.

**C70. Partial procedures work with their default assigner and show their result** — partial.
The default argument is evaluated in the class body: TypeError for every input. `real_partial` prints the diagram before its extension.
Theorems: `Qe.C70_default_assigner_violated`, `Qe.C69_real_shows_constants`, `Qe.C69_complex_interactive`.
Violated: the default assigner is an unbound function and raises TypeError for every input; real_partial prints the diagram of the constants only. Partial: with an explicit assigner the complex procedure prints the diagram of the input (C69_complex_interactive).

**C71. The interactive mode is sound whatever is typed in** — proved.
Induction on the rounds: each answer of the dialogue is one successful promotion (`prompt_spec`), so a session is a sequence of promotions, for which the invariant of C34 holds; the other parts compare two runs round by round. `C71_answer` and `C71_ignored` use that a recorded set never contains all hypotheses (`allBads_proper`), so that the solver has a solution and `s` cannot fail.
Theorems: `Grf.C71_interactive_sound`, `Grf.C71_terminates`, `Grf.C71_go`, `Grf.C71_harmless`, `Grf.C71_no_solver`, `Grf.C71_answer`, `Grf.C71_ignored`.
Soundness of the sampling for the final state is a hypothesis, as in C34. Python's int on strings is an arbitrary function.

**C72. Proved sequents are valid (any number of variables)** — partial.
The theorem of open cylindrical decomposition, over the reals, for the projection of the program (`OpenCad`, `Fiber`, `CadStep`, `MultiTree`): over a connected set where leading coefficients, discriminants and resultants do not vanish, roots are simple, do not meet and stay bounded, so that each point outside the roots can be followed along the set (`follow_sector`, `lift_step`); points are first moved slightly so that the projection does not vanish (`exists_near_ne`); induction on the level gives `tree_meets`; signs are constant on linked sets. With C60 (no lifting over decided cells) and the loop of C57 this gives `C72_partial`. What it assumes of resultants and discriminants (`ElimOK`) is proved of Mathlib's `Polynomial.resultant` and `Polynomial.discr` (`TrueElim.elimOK`), which vanish exactly when there are common or square factors over the field of rational functions (`TrueElim.res_ne_nil`, `disc_ne_nil`); hence `C72_squarefree_partial`. The same argument from a point at which no polynomial vanishes gives `C72_generic_partial`. The violation holds for every correct Sage: the discriminant of the witness is forced to be 0.
Theorems: `Grf.C72_violated`, `Grf.C72_partial`, `Grf.C72_squarefree_partial`, `Grf.C72_generic_partial`, `Grf.C72_assumptions_met`, `Grf.TrueElim.elimOK`, `Grf.tree_meets`.
Violated: |- x^4 + x^2 - x^2*y^5 >= 0 is reported as proved; the discriminant of a polynomial with a square factor is 0 and is dropped as a constant, against the comment at bm_proj. Partial: valid over the reals in any number of variables when the relations to falsify are strict, no resultant and no discriminant of a projection is 0, and no stack mixes rational and irrational roots. Sage is assumed to isolate roots rightly and to compute resultants and discriminants as they are defined (Sylvester determinants; Mathlib); what the proof needs of them is derived, and that the result is not 0 is shown to mean square-free and coprime. C72_generic_partial: for relations of any kind (no equations as hypotheses) the points at which a proved sequent is false have no interior.

**C73. Selected hypotheses are irredundant and related to the goal** — proved.
All weights are positive, so an optimal selection stays feasible after no removal; every recorded set comes from a sample point (`allBads_from`). Unrelated hypotheses weigh 10000, more than the alternative.
Theorems: `Grf.C73_irredundant`, `Grf.C73_relevant`.
The solver is assumed to return an optimal feasible point; bruteSolve is shown to.

**C74. Files are read and decided as written** — proved.
The grammar is stated as inductive relations on texts (`TermText` … `FileText`), independent of the parser. Forward: induction on the relation, following the alternatives of the parser, including the second reading of the argument of a unary minus (`readTm_again`). Backward: induction on the bound of the parser (`sterm_inv` … `scmds_inv`). `C74_unique` is proved without the parser. Soundness reduces to C53 in both modes (`hiding_of_promoted`, `text_of_atoms`).
Theorems: `Grf.C74_reading`, `Grf.C74_exact`, `Grf.C74_unique`, `Grf.C74_sound`, `Grf.C74_bound`.
The values of numerals are those that Sage gives them (a parameter). Tabs are not expanded. Soundness of the sampling is a hypothesis, as in C53.

**C75. Every sequent of a file gets a hiding result** — partial.
Witness: two copies of one sequent with different names, computed with a core that is proved sound.
Theorems: `Grf.C75_violated`, `Grf.C75_partial`.
Violated: only the last sequent is reported. Partial: the last sequent, and so a single one.

**C76. Errors are reported; the result can be read back** — proved.
`C74_exact`; the name ends at the first quotation mark, the lists at the first bracket, the numbers at blanks.
Theorems: `Grf.C76_raises`, `Grf.C76_text`.

**C77. A sequent can be processed in a given context** — partial.
`perform_grf` runs on the context number `own`, which stays empty (an `IndexError`, hence a `ParseException`), or receives the result instead of the returned context.
Theorems: `Grf.C77_given_violated`, `Grf.C77_cleared_violated`, `Grf.C77_returns`, `Grf.C77_partial`, `Grf.C77_cleared`.
Violated for every text: the parse action that runs the procedure is a method of the first context of the object; with another context the call raises, and after clearContext the returned context has no result. Partial: the first context.

**C78. Nothing is read that is not written** — proved.
Inversion of each parser: what a successful match says about the text that it used. `TermWritten` … `SequentWritten` describe what is accepted (more than the syntax of C48). `C63_partial` combines this with C48: the text is divided into returned sequents and gaps in which no sequent of the syntax of C48 starts.
Theorems: `Vts.C78_written`, `Vts.C78_files`.
Tabs are not expanded.

**C79. Lists of formulas are read as written** — proved.
The lemmas of C74 for lists of formulas, with the end of the text instead of a parenthesis; the values of the variables are those of the names that they stand for.
Theorems: `Grf.C79_formulas`, `Grf.C79_total`.
The values of numerals are those that Sage gives them (a parameter); division of polynomials by Sage is a hypothesis (exact, or an exception).

**C80. Written examples are read back** — partial.
The files below a directory are found by comparing the beginnings of paths, with or without case; writing only puts files below `Examples/Metitarski`.
Theorems: `Vts.C80_violated`, `Vts.C80_written`, `Vts.C80_sources`, `Vts.C80_partial`, `Vts.C80_succeeds`, `Vts.C80_reads`, `Vts.C80_reads_all`.
Violated on every system that distinguishes upper and lower case letters: examples are stored in Examples/Metitarski and read from Examples/MetiTarski, so that writing changes nothing of what is read or checked. Partial: what is stored is right, and on other systems it is read back, under names with .pkl added.

**C81. Writing examples survives a crash** — proved.
The states after a crash: some first files complete and a beginning of the next. Storing the first files again changes nothing (`puts_again`), and a file in the middle is overwritten (`puts_over`), even where two names differ only in case.
Theorems: `Vts.C81_restart`, `Vts.C81_crash`.
pickle is a parameter; permissions, links and full disks are left out.

**C82. A check depends only on what is checked** — partial.
The loop loads a file before it tests its number. `C82_order`: the files below Examples/MetiTarski come first.
Theorems: `Vts.C82_violated`, `Vts.C82_partial`, `Vts.C82_order`, `Vts.C82_files`.
Violated: the fourth file is loaded but not checked. Partial: only the first four files matter; those below Examples/MetiTarski come first, so four of them leave those below Examples/HidingProblems without influence.

**C83. The rows of the quantifier elimination tables depend only on the set of input polynomials** — proved.
The closure is the least closed set of polynomials (`C21_least`; pseudo-remainders are unique in a domain), the key computed by the code is the one written out in the statement, and insertion keeps the list sorted (PropsClosure).
Theorems: `Qe.C83_rows`, `Qe.C83_order`, `Qe.C83_scalars`, `Qe.C83_parameters`.
C83_parameters shows why the order is claimed without parameters only: the key does not tell a*x from b*x, and such rows keep the order of the input.

**C84. The lightest selected hypothesis is used first** — partial.
Stability and sortedness of the merge sort; witness with two sample points that make both hypotheses necessary.
Theorems: `Grf.C84_violated`, `Grf.C84_partial`, `Grf.C84_weight_partial`.
Violated: the key of the sorting is the total degree, not the weight (witness with weights 20 and 100, the second one is promoted). Partial: least total degree, the first of these; and least weight if the selected hypotheses have the same number of variables and are related to the goal.

**C85. Each step of local search makes a true hypothesis false** — partial.
A description `StepSpec` of a step in terms of values of polynomials at points; both steps of a run satisfy it. With an exact solution the value of the polynomial is minus the added margin.
Theorems: `Grf.C85_steps`, `Grf.C85_falsifies_partial`, `Grf.C85_violated`, `Grf.C85_returns`, `Grf.C85_no_hypothesis`, `Grf.C85_unknown_variable`.
Violated: a hypothesis p != 0 is never made false, the equation only changes the sign of p. Partial: the chosen hypothesis is made false if it is no inequation and not a weak inequality with value 0; choice of the hypothesis, kept points and absence of exceptions as stated.

**C86. Several processes can share one cache directory** — partial.
Running functions are programs whose next file operation is visible; a schedule interleaves them. Invariant: every program is good (right contents, right answers, bounded length), every incomplete file is being written by its last opener. One process alone refines the model of C10.
Theorems: `Vts.C86_partial`, `Vts.C86_violated`, `Vts.C86_import_violated`, `Vts.C86_wait_free`, `Vts.C86_import_wait_free`, `Vts.C86_settled`, `Vts.C86_then_right`, `Vts.C86_alone`, `Vts.C86_events`.
Violated: a process that reads a file while another one writes it fails with an unpickling error, also on import; negation proved with schedules of two processes. What holds for every schedule: no wrong matrix is ever returned, every call ends after at most 16 own actions, and without kills the directory is complete and right whenever nobody is at work.

**C87. Floating point columns do not change the answers of real elimination** — partial.
The midpoint is a parameter of the model; rounding to 53 bits with ties to even is defined over the rationals. Columns after k polynomials are multiples of 2^-(k+1), on which doubles are exact up to k = 52. The violation: an invariant describes the diagram after k of the polynomials i - x, then the last step overwrites the columns.
Theorems: `Qe.C87_violated`, `Qe.C87_diagram_partial`, `Qe.C87_real_full_partial`, `Qe.C87_decision_partial`, `Qe.C87_real_partial_partial`.
Violated: 1-x<0, ..., 51-x<0, 52-x=0, 53-x>0 is reported as unsatisfiable, the column of the root 52 is overwritten by a rounded midpoint. Partial: with at most 52 polynomials in the variable in the sequence the doubles are exact; the bound is sharp by the witness, which has 53.

**C88. Numbers in remainder sequences stay of polynomial size** — partial.
Every division step multiplies by the leading coefficient of the divisor, so divisibility by powers of two is inherited with Fibonacci exponents; the sequence has more elements than the query has value. The upper bound counts division steps: a step with degree drop d multiplies digits by at most d + 2, and d + 2 <= 3^d.
Theorems: `Vts.C88_violated`, `Vts.C88_digits`, `Vts.C88_partial`.
Violated: for p with n distinct real roots the sequence computed by tarski_query(p, [2]) contains a number of at least fib(n) binary digits, so for (x-1)...(x-n) no polynomial bound holds. Proved instead: length bounds and a single exponential bound on digits.

**C89. Tarski queries do not exhaust the interpreter's stack** — partial.
A second copy of the four functions takes the number of frames still available and fails with a separate error when it is zero; the copies are compared by induction on that number. For x^n the division strips n zeros with one call each.
Theorems: `Vts.C89_violated`, `Vts.C89_default`, `Vts.C89_limit`, `Vts.C89_partial`.
Violated: the query for x^n needs exactly n + 5 frames, so with the default limit of 1000 every degree from 996 on ends with RuntimeError. Proved instead: a limit never changes a value, and len p + max(1, len q) + 3 frames always suffice.

**C90. The decision takes polynomially many operations** — proved.
Copies of the functions return what has been paid together with the result; the results are equal by induction, the bills are bounded function by function. Roots described by more than four derivatives are refused before the first query, which gives the constant 3^5.
Theorems: `Vts.C90_same_result`, `Vts.C90_bounds`, `Vts.C90_normalized`, `Vts.C90_single`.
Operations of z3rcf and sympy are not counted, and operations are counted, not their time: the numbers may be long, see C88.

**C91. The three decision procedures agree** — proved.
Composition of C26, C28 and the correctness theorem of internal_vts over the reals; polynomials with nonzero leading coefficients are normal for all three.
Theorems: `Qe.C91_agree`.
Virtual term substitution may refuse inputs (too many derivatives), see C02.

**C92. The direct calculation of a sign always succeeds and agrees with the Tarski queries** — proved.
By Thom's lemma (C06) exactly one root has the recorded signs, so exactly one good value is collected; its sign is unique, so it is the one of C07.
Theorems: `Vts.C92_direct`.
MkRoots of z3rcf is assumed to return the distinct real roots.

**C93. Size of the Muchnik family and of the answer** — proved.
Members of length at least L+1-j lie in the j-th of a chain of finite sets, each made of the inputs and of the derivatives, tails and remainders of the one before; its size is bounded by squaring. Every nested call takes one polynomial off the list or adds a new member.
Theorems: `Qe.C93_closure`, `Qe.C93_real`, `Qe.C93_complex`.
The bound is doubly exponential in the degree; it is an upper bound, not the exact number.

**C94. The Muchnik procedure answers within Python's recursion limit** — partial.
A family contains the derivatives of its members, so it has members of all smaller degrees, and each nested call adds at most one.
Theorems: `Qe.C94_violated`, `Qe.C94_partial`.
Violated: with a limit L no input with a polynomial of degree L or more is answered. Proved instead: the bound of C93 suffices as a limit.

**C95. Returned cases exclude each other** — proved.
Invariant of the construction: contexts (diagrams) are only extended, and where one is split in three these give different signs to some coefficient.
Theorems: `Qe.C95_real`, `Qe.C95_complex`, `Qe.C95_ch`.
For Cohen-Hormander without any hypothesis on the input, also where its answer is wrong (C28).

**C96. Returned cases are possible** — partial.
Evaluation in the kernel of the answers for x^2 + y, over the ring of integer polynomials in y.
Theorems: `Qe.C96_violated`, `Qe.C96_partial`.
Violated by all three: signs are guessed independently for y and 4y. Proved instead: where a returned conjunction holds, the constraints are satisfiable.

**C97. The number of sample points is at most doubly exponential** — proved.
Degrees: total degrees of products, substitutions, leading coefficients; the entries of a Sylvester matrix have at most the degree of the polynomials, so a determinant of size 2D has degree at most 2D^2 (DegLemmas). Numbers: one projection step takes m polynomials to at most m^2+m; a stack over a cell has at most (s+1)(r+1) points for r root intervals, and r is at most the sum of the degrees; induction on the number of levels.
Theorems: `Grf.C97_projection`, `Grf.C97_samples`.
assumes of Sage: rational roots are listed once, not more isolating intervals than real roots, resultants and discriminants are those of the Sylvester matrix (met by ex2Env)

**C98. The Cohen-Hörmander procedure ends on every input** — proved.
Independent of meaning: a goal of the recursive call has at most twice as many polynomials, none longer than the one taken, and those as long were there before (expand_context only shortens, remainders are shorter than the divisor). Induction on the length and on the number of longest polynomials; a second lemma shows that a greater depth changes nothing.
Theorems: `Qe.C98_depth`, `Qe.C98_tables`.
real_full and real_table of cohenhorm end on every input; explicit bound for the depth of the recursion.

**C99. The Cohen-Hörmander procedure answers within Python's recursion limit** — partial.
The derivative of the highest polynomial is in the goal of the recursive call, so the depth is at least the degree.
Theorems: `Qe.C99_violated`, `Qe.C99_partial`.
Violated: the depth is greater than the degree, whatever the limit. C99_partial: with a limit of at least B(d, n) it is not exceeded.

**C100. The two real quantifier eliminations return the same result** — partial.
Evaluation of both models on the documented example; C23 and C28 together.
Theorems: `Qe.C100_violated`, `Qe.C100_partial`, `Qe.readme_real`, `Qe.readme_complex`.
Violated on the documented example: nine conjunctions against one. C100_partial: the results hold at the same parameters (leading coefficients without parameters). readme_real and readme_complex: the model returns exactly the lists printed in the documentation of muchnik.

**C101. Promoting an equation never makes a false sequent provable** — partial.
The three rounds of the run are evaluated with explicit right functions; in the last one the goal is true at every base cell whatever the projection is. Partial: end condition of the loop and C60_partial.
Theorems: `Grf.C101_violated`, `Grf.C101_partial`.
Violated: x0 < -3/4, x1 = x0, x0 < 1 |- x0^2 + x1 >= 0 is reported as proved after two promotions; false at x0 = x1 = -7/8. Partial: when the recorded variables of the promoted hypotheses include those of their polynomials (always when there are no equations), the goal holds at all points of the complete tree of the last round.

**C102. Deciding a sequent leaves the caller's formulas unchanged** — partial.
A model with a heap of atom objects that are changed in place; a simulation of the value model as long as the references are pairwise different, by induction on the list of references and on the rounds; the violation is a run evaluated in the kernel.
Theorems: `Grf.C102_violated`, `Grf.C102_partial`, `Grf.C102_sequent`, `Grf.C102_alias`.
Violated: equations that are promoted rewrite the promoted formula objects in place (after deciding x0 = 0, x0 + x1 = 0, x0 >= 0 |- x1 >= 0 the two equations read -x1 = 0 and x1 = 0), and perform_grf leaves the succedent but its last formula negated. Proved instead, for all runs on pairwise different objects: the answers are those of the value model, unpromoted hypotheses and the main goal are unchanged, relation symbols and recorded variables stay, rewritten formulas follow from the promoted ones, and without equations nothing is changed.

**C103. A decider can be used for several goals** — partial.
A state machine for the object whose checks also give the state in which an exception leaves it; an invariant (all contents follow from what was asserted) by induction on the history; the violation is a history of four operations.
Theorems: `Grf.C103_violated`, `Grf.C103_sound`, `Grf.C103_partial`, `Grf.C103_left`, `Grf.C103_rounds`, `Grf.C103_lost`.
Violated: a check removes the promoted hypotheses from the object, so that asserting the same goal again and checking reports a counterexample to a valid sequent. Proved: over all histories (with exceptions caught) a check that returns implies that the goal asserted last follows from all hypotheses asserted so far; and the first check of an object decides the asserted sequent; after every history the hypotheses left are a correctly numbered part of the asserted ones, and a check, returning or not, takes one round more than it promotes hypotheses.

**C104. The outcome of a query does not depend on how it is written** — partial.
Corollaries of the correctness of internal_vts; for the order, the first loop is followed up to the constraint that yields the solution; the violation is the polynomial with six multiplicities of C02, once before and once after x = 0.
Theorems: `Vts.C104_violated`, `Vts.C104_same_answer`, `Vts.C104_partial`, `Vts.C104_early`.
Violated: two equations in one order raise (more than 5 polies), in the other order the answer is True. Proved: whenever both calls return, equivalent systems get the same answer; calls with the same members return the same answer if no polynomial has more than five distinct roots; and a sufficient condition on the order under which the answer True is returned whatever comes later.

**C105. A reported counterexample is a counterexample** — partial.
Invariant over the rounds: the promoted hypotheses mean, at every point, what they meant at first (with one equation nothing is reduced to a weaker polynomial); inversion of check for the exception; the violation is a run of three rounds evaluated with right functions of Sage.
Theorems: `Grf.C105_violated`, `Grf.C105_partial`, `Grf.C105_cad_partial`.
Violated: for the valid sequent x1 = x0, x1 + x0 = 0, x0 <= 1 |- x1 >= x0^2 a counterexample is reported, with right functions of Sage: both equations have become 2*x1 = 0. Proved: with at most one equation among the hypotheses, for every core that gives values to all variables, a reported counterexample is one of the points looked at and falsifies the original sequent.

**C106. Eliminating several variables one after the other** — proved.
Polynomials in all variables are turned into coefficient lists of one variable; the one-variable theorems are applied with the evaluation homomorphism at the remaining variables; the closure of the computed polynomials under the operations gives that variables do not come in; induction over the list of variables.
Theorems: `Qe.C106_real`, `Qe.C106_decides`, `Qe.C106_complex`, `Qe.C106_complex_decides`.
With exact columns (see C87 for floats). The loop over variables is the user's; where real_full returns an empty list because no condition has a parameter (C26), the printed verdict is used.

**C107. Hypotheses are sampled by their distance from zero** — partial.
The arithmetic is a parameter of the model; with real numbers the random numbers that lead to an index form an interval between partial sums, whose measure is taken; with arbitrary operations the loop is shown to stay in range.
Theorems: `Grf.C107_violated`, `Grf.C107_partial`, `Grf.C107_bias_partial`, `Grf.C107_choose_partial`, `Grf.C107_range`, `Grf.C107_empty`, `Grf.C107_no_hypothesis`.
Violated: when all exponentials are rounded to 0 (from values of about 746 on) ZeroDivisionError is raised. Proved with exact real arithmetic: the distribution (Lebesgue measure of the set of random numbers), the bias, and the distribution over hypotheses; for every arithmetic: the index is in range.

**C108. Helper functions of local search** — partial.
Evaluation of the returned functions at all points of the variable order; case distinction over the relations.
Theorems: `Grf.C108_violated`, `Grf.C108_partial`, `Grf.C108_symb_partial`, `Grf.C108_signature`, `Grf.C108_ball`, `Grf.C108_sign`.
Violated: get_num_falsifying_func raises NameError for all arguments, as ineq_eps is defined nowhere. Partial: with a positive ineq_eps its zeros falsify the atom, except for equations when 0 is chosen and inequations when 0 is not chosen; the other functions as stated.

**C109. The verdict does not depend on the order of the hypotheses** — partial.
The violation follows three rounds with the exact theorem about rounds (C36_exact), the solver being characterised by its optimality only; the partial theorem combines C34 and C105.
Theorems: `Grf.C109_violated`, `Grf.ordCore_cad`, `Grf.C109_partial`.
Violated: x0 > 0, x0 < 0, x0^3 < 0 |- x0^2 < 0 ends with IndexError, and is proved with the first two hypotheses exchanged, for all optimal solvers and all points of local search (ordCore_cad: the sampling core of the program is such a core). Proved: with at most one equation and a core that is sound for the last state, a sequent that is proved in one order is not refuted in another one.

**C110. Elimination of all quantifiers of all formulas, and a decision for all sentences** — proved.
Induction on the formula with the theorem about one variable (C106); a sentence leaves constants, whose signs do not depend on the field.
Theorems: `Qe.C110_real`, `Qe.C110_decides`, `Qe.C110_complex`, `Qe.C110_complex_decides`.
With exact columns (see C87 for floats). The loops over the formula and the calculation with disjunctions of conjunctions are the user's, the procedures are those of the model.

**C111. The test harness stops jobs at their limit and ends in time** — proved.
Once over its limit a process is removed or moves forward in the queue in every round; the number of rounds by counting pairs of rounds and processes in two ways.
Theorems: `Grf.C111_rounds`.
For jobs that end with a result; see C61 for the others.

**C112. A job that runs longer than the limit is recorded as a timeout** — partial.
Evaluation of the model on one schedule; the partial theorem from the truth of the rows (C47) and the bound of C111.
Theorems: `Grf.C112_violated`, `Grf.C112_partial`.
Violated: with two jobs over the limit in one round only the first is removed; the second has ended in the next round and is recorded as finished, with a time above the limit. Proved: a process that does not end is recorded as a timeout, one that is not alive after its limit as finished, and the time of a finished one is taken less than R + Cores rounds after its start.

**C113. Sequents checked earlier in a process have no effect** — partial.
The loop with local search in its place and the class variable passed on. A simulation: the run is that of the loop with a fixed variable order, which is found without the random numbers; conjugation of local search with a change of coordinates; the violation by evaluation.
Theorems: `Grf.C113_violated`, `Grf.C113_sound`, `Grf.C113_partial`, `Grf.C113_same_partial`, `Grf.C113_counterexample_partial`.
Violated: a valid sequent in x0, x1 that is proved in a new process is refuted (Counterexample!) after a sequent in x0 only; in the other order KeyError is raised. Proved: proofs are sound after any history; after sequents with the same variables the outcome is that of a new process up to a rearrangement of the coordinates of the random numbers and of the solver; after sequents with at least the same variables reported counterexamples are real (at most one equation).

**C114. The requested number of sample points is selected in each cell** — partial.
Counting the members of the sorted list of sample points in a gap; monotonicity of the lifting in the number of points.
Theorems: `Grf.C114_violated`, `Grf.C114_no_effect`, `Grf.C114_unbounded`, `Grf.C114_partial`, `Grf.C114_more`, `Grf.C114_verdict`.
Violated: with one variable num_sps has no effect at all (the base phase does not get it), and the unbounded sectors of every stack get one point. Proved: in the levels above the base exactly num_sps points lie between neighbouring isolating intervals that do not touch; more points per cell lose none and never make a sequent provable in a round.

**C115. The sets of hypotheses returned by check** — partial.
The recorded sets are traced back to points; positive weights and an optimal solver exclude a promotion without recorded sets.
Theorems: `Grf.C115_violated`, `Grf.C115_partial`.
Violated: a set contained in an earlier one is recorded (only earlier sets are removed). All the rest is proved.

**C116. Size of the answer of the Cohen-Hörmander procedure** — proved.
All polynomials of all calls belong to the chain of sets of C93; along a path of calls the highest polynomials are different, so their number bounds the depth. The contexts exclude each other (C95), so they are different sign assignments to leading coefficients of that set.
Theorems: `Qe.C116_depth`, `Qe.C116_answer`.
Doubly exponential in the degree, in contrast to the bound of C98, which is a tower of exponents but smaller for small degrees.

**C117. Valid sequents are reported as proved** — partial.
With one hypothesis left a recorded set would be the set of all hypotheses; with none recorded the optimal selection is empty. Combined with C34, C36, C72 and C105.
Theorems: `Grf.C117_last`, `Grf.C117_violated`, `Grf.C117_cad_violated`, `Grf.C117_example`, `Grf.C117_file_violated`, `Grf.C117_file_example`, `Grf.C117_partial`.
Violated: the last remaining hypothesis is never promoted, so a valid sequent that needs all its hypotheses is never proved, and a file that contains such a sequent raises an exception (C117_file_violated); for strict sequents in any number of variables it ends with IndexError. Proved for strict sequents: the outcome is a right proof, a right counterexample, or IndexError; C122: a hypothesis that is always true excludes the IndexError. C133: in the interactive mode such sequents are proved.

**C118. The verdict does not depend on the names of the variables** — partial.
Violation: the discriminant vanishes identically in one order of elimination, so no polynomial reaches the base phase; in the other order the stack over any base point meets a point with negative sign. The partial theorem combines C72 and C105.
Theorems: `Grf.C118_violated`, `Grf.C118_partial`, `Grf.C118_core_partial`.
Violated: a false sequent without hypotheses in two variables with equal statistics is reported as proved, and after exchanging the names of the variables it is not (IndexError), whatever the right functions of Sage, random choices, solver and local search are. Proved under the assumptions of C72_partial: if one sequent is proved then no counterexample is reported for a sequent that differs in the names of variables (and may have more hypotheses). The same for sequents with any relations if the sample points are sufficient (C118_core_partial).

**C119. A proved sequent stays proved when a hypothesis is added** — partial.
Violation: the cheaper new hypothesis is promoted first; then at no point where the goal is false a hypothesis is true, so nothing is recorded. Uses C36, C73, C117. The partial theorem is a case of C118_partial.
Theorems: `Grf.C119_violated`, `Grf.C119_partial`, `Grf.C119_core_partial`.
Violated: x0^3 > 0, x0 + 3 > 0 |- x0 + 1 >= 0 is proved, and with the further hypothesis x0^2 - 9 > 0 the check always ends with IndexError, whatever the right functions of Sage, local search, random choices and optimal solver. Proved under the assumptions of C72_partial: no counterexample is reported for the sequent with further hypotheses. The same for sequents with any relations if the sample points are sufficient (C119_core_partial).

**C120. A sequent that grf_on_file reports on is valid over the reals** — partial.
The polynomials that are read are the differences of the sides (normal form, variables below the number of names); the strict relations are kept by reading and promoting; then multi_core_sound (C72) for the last round and the numbering of C46/C74. For one name the assumptions on levels follow from where the sides agree. Violations: C57_violated and C57_violated_strict through the reader of C74. For other relations the same way from `multi_core_generic`, at the points at which no polynomial of the sequent vanishes (`iCheck_generic`, `point_of_values`).
Theorems: `Grf.C120_violated`, `Grf.C120_violated_strict`, `Grf.C120_partial`, `Grf.C120_generic_partial`, `Grf.C120_one_partial`.
Violated: for |- x*x != 2 (any functions of Sage) and for |- (x*x)*(x*x) <= 2*(x*x) (right functions of Sage) grf_on_file returns (0, 0), but the first is false at the square root of 2 and the second at 2. Proved with the program's own sampling, for any number of names and both modes, when the relations are <, >, != on the left and <=, >=, = on the right, no resultant or discriminant of a projection is 0 and no stack has both rational and irrational roots; for one name the assumptions are on the text only. C120_generic_partial: for relations of any kind (no equations on the left, no != on the right but as the last formula), at the points at which no formula has two sides of the same value.

**C121. The earlier version of the Cohen-Hormander procedure computes the sign tables** — partial.
Simulation: when the extension of a table in the earlier version succeeds, every value it looks up in the condensed table is the one of the full table, so that its result is the one of extend_single_table; then the semantics of C29. Counterexamples evaluated.
Theorems: `Qe.C121_violated`, `Qe.C121_cubic_violated`, `Qe.C121_bound_partial`, `Qe.C121_partial`.
Violated: real_full calls _real_table with the bound -1, which raises an exception on every input; with any bound _real_table raises an exception on x^3 - 3x, because remainders are looked up in the condensed table. Proved: for polynomials without parameters whatever _real_table returns is right (exactly one table when the polynomials are nonzero), and the result does not depend on the bound unless that is reached.

**C122. A hypothesis that is always true makes the check a decision procedure** — proved.
The always-true hypothesis refutes none of the points at which the conclusion is false, so it never has a positive weight in a cover and is never promoted; hence a hypothesis is left over in each round and the IndexError of C117 cannot occur. The loop ends since each round promotes another hypothesis. Then C72_multi and C105 give the two directions; for files they are combined with the reading theorems of C120.
Theorems: `Grf.C122_core`, `Grf.C122_decides`, `Grf.C122_generic`, `Grf.C122_file`, `Grf.C122_file_one`, `Grf.C122_example`.
The assumptions on the cells are those of C117_partial; for files in one name they are assumptions on the text alone.

**C123. The printed answer says what is returned** — proved.
The text is cut at its first line break: what stands before it ends in the connective if and only if the conjunction goes on, since printed polynomials contain none; so lines, conjunctions and the whole text are read back one after another. A condition is cut at the first relation symbol. The procedures drop conjunctions without conditions, so reduce is never called on an empty list.
Theorems: `Qe.C123_real`, `Qe.C123_complex`, `Qe.C123_real_text`, `Qe.C123_complex_text`, `Qe.C123_text_iff`, `Qe.C123_real_layout`, `Qe.C123_complex_layout`, `Qe.C123_none`.
The printing of a polynomial is a parameter; zyStr is an instance.

**C124. The sequent that is shown is the sequent that is decided** — proved.
An atom is cut off the beginning of a text at its closing bracket; what follows tells whether the list of hypotheses goes on (a space before the line break), and the layout of the goal depends on the number of hypotheses only, which is known then.
Theorems: `Grf.C124_shown`, `Grf.C124_meaning`, `Grf.C124_number`, `Grf.C124_layout`, `Grf.C124_atom`, `Grf.C124_final`.
The printing of a polynomial is a parameter; termsStr is an instance. The recorded variables of an atom are not shown, so they are not determined (see C51, C60).

**C125. The parameters k and epsilon control the additional sample points** — partial.
The loop with the parameters and a list of announcements; simulation by the loop with local search of C113, with a list of announcements that depends on the parameters in their places only; number and distance of the points from C46.
Theorems: `Grf.C125_violated`, `Grf.C125_file_violated`, `Grf.C125_number_violated`, `Grf.C125_far_violated`, `Grf.C125_check_defaults_violated`, `Grf.C125_partial`, `Grf.C125_file_defaults`.
Violated: the parameters are announced but not used; for all values the outcome, the sample points and the additional points are the same, also for files. There are always between 25 and 77 additional points (the default of check is 100), and points outside of the announced neighborhood are computed. Proved: the announced values are the given ones, and the first 25 additional points are at most 1/100 away; for files without parameters 25 points in a neighborhood of 1/10 are announced, and the first 25 are such points.

**C126. Reading a GRF input file takes polynomial time** — partial.
The parsers with a counter beside the state; forgetting the counter gives the parsers of C74 (compositional over the combinators); exact number of actions by induction over the syntax, as C74_reading.
Theorems: `Grf.C126_counted`, `Grf.C126_actions`, `Grf.C126_every`, `Grf.C126_formulas`, `Grf.C126_violated`, `Grf.C126_formulas_violated`, `Grf.C126_partial`.
Violated: nested unary minus doubles the number of parse actions at each level, since the alternative for subtraction is tried first and its argument is read again. Proved: the exact number of parse actions for every file; it is at most n 2^d, n the length and d the nesting of unary minuses, thus at most n without unary minus.

**C127. Progress messages of the experiment driver are true** — partial.
The loop of C47 with its messages; an invariant that counts started, running and removed processes, composed along the list of messages.
Theorems: `Grf.C127_same`, `Grf.C127_violated`, `Grf.C127_failed_violated`, `Grf.C127_partial`.
Violated by every start message of every run: the percentage is that of the jobs that have been started, always more than that of the jobs that have been removed (by at most the number of processes); and a process that ends without a result is reported as finished before the program stops. Proved: one message per start and per row, in order and with the right content.

**C128. The recorded table of an experiment has the columns that it names** — partial.
Texts without commas and ends of lines are recovered by cutting; the records of a run by C47.
Theorems: `Grf.C128_violated`, `Grf.C128_partial`.
Violated by every row of every run: the first line names four columns (Samples, Epsilon, Time, Hides) and every row has five fields, of which the first is the number of the file. Proved: read by position, the lines are exactly the records of the removed jobs, in the order of removal.

**C129. The two programs that read sequent files read them alike** — partial.
The common syntax is a subset of both grammars (induction over it), then C74_reading and C48_reading; verdicts by C74_sound and C68_end_to_end; the violations by concrete texts.
Theorems: `Grf.C129_violated`, `Grf.C129_lost_violated`, `Grf.C129_around_violated`, `Grf.C129_meaning_violated`, `Grf.C129_partial`, `Grf.C129_verdicts`.
Violated: digits without a dot are a name for one program and a number for the other; ~1.0 is read by one of them only; text around the sequents is skipped by one and an error for the other; of several formulas in the succedent some has to follow for one program and all for the other. Proved: on an explicit common syntax both read the same sequents with the same meaning; and if the succedent of the last sequent is one formula and grf_on_file returns, the verdict of vts on it is valid.

**C130. A reported result can be confirmed by running the program again** — partial.
Soundness of hiding (C53) and the hypothesis that is always left over (C117_last), composed along chains of runs; each run makes the sequent smaller, so a maximal chain ends in a sequent on which no run returns.
Theorems: `Grf.C130_violated`, `Grf.C130_bound_violated`, `Grf.C130_example`, `Grf.C130_partial`.
Violated for every sequent on which something is reported and whose goal is not valid by itself: after finitely many runs with the reported formulas removed there is a valid sequent on which every run raises an exception. Proved: what is left after any number of runs is a valid sequent of formulas of the first one with the same goal, and each run that returns hides at least one more formula while there is any besides the goal.

**C131. The outcome for a file does not depend on the names chosen in it** — proved.
A simulation: contexts that differ by the renaming are kept by all parse actions, and the polynomials that are read are equal; C74_reading carries this to texts.
Theorems: `Grf.C131_names`, `Grf.C131_titles`, `Grf.C131_needed`.
C131_titles: the names of the sequents only appear in the output. The renaming has to be injective on the names of the file only; C131_needed shows that it has to be. For the decision procedure itself, where variables are numbered, see C118.

**C132. The result for a sequent does not depend on the sequents before it in the file** — partial.
The context after any number of sequents is computed from the list of first occurrences of the names; the counterexample combines the two orders of the variables of C118_violated in one file.
Theorems: `Grf.C132_violated`, `Grf.C132_partial`.
Violated: there are two sequents in the names x and y for which grf_on_file returns if each is in a file of its own, and raises ParseException if they are in one file, whatever the right functions of Sage, random choices, local searches and solvers: the order of the variables is that of the first occurrences of the names in the file. Proved: if the names in the sequents before are the same in the order of their first occurrences, and the random choices in the last run are the same, the results are the same.

**C133. Every valid sequent can be proved in the interactive mode** — proved.
Induction on the number of remaining hypotheses with the invariant of C105: at no point can the goal be false and all remaining hypotheses true, so that neither a counterexample nor the empty list of hypotheses is met.
Theorems: `Grf.C133_interactive_complete`, `Grf.C133_interactive_exact`, `Grf.C133_cad`, `Grf.C133_file_example`, `Grf.C133_needed`, `Grf.C133_sequent`, `Grf.C133_file`, `Grf.C133_file_exact`, `Grf.C133_example`.
The local search is assumed not to raise and to return points with values for all variables; the samples of the program never raise (C59). Sound sampling is a hypothesis of C133_interactive_exact only. The automatic mode fails on such sequents (C117); C133_file_example is a file where the two modes differ. C133_needed: with two equations it fails.
