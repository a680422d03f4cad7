{
 "claims": [
  {
   "property": "C01",
   "status": "proved",
   "theorems": [
    "Verif.Vts.C01_vts_decides",
    "Verif.Vts.C01_vts_decides_real",
    "Verif.Vts.C01_needs_normalized"
   ],
   "note": "Full statement over any ordered field with the polynomial IVT; external root isolation and matrix inversion assumed correct (EnvOK). C01_needs_normalized: the answer is wrong on a coefficient list with a zero leading coefficient."
  },
  {
   "property": "C02",
   "status": "proved",
   "theorems": [
    "Verif.Vts.C02_vts_answers",
    "Verif.Vts.C02_total_correct",
    "Verif.Vts.C02_degree",
    "Verif.Vts.C02_refuses",
    "Verif.Vts.C02_refuses_example"
   ],
   "note": "Termination is by construction (total model); the recursion error branch is proved unreachable."
  },
  {
   "property": "C03",
   "status": "proved",
   "theorems": [
    "Verif.Vts.C03_tarski_query",
    "Verif.Vts.C03_empty"
   ],
   "note": "Sturm-Tarski for the code's own pseudo-remainder sequence."
  },
  {
   "property": "C04",
   "status": "proved",
   "theorems": [
    "Verif.Vts.C04_pseudo_remainder",
    "Verif.Vts.C04_raises_iff",
    "Verif.Vts.C04_needs_normalized"
   ],
   "note": "Identity for divisors with nonzero leading coefficient; exception characterised for all inputs; witness that the restriction is needed."
  },
  {
   "property": "C05",
   "status": "proved",
   "theorems": [
    "Verif.Vts.C05_remainder_sequence"
   ],
   "note": ""
  },
  {
   "property": "C06",
   "status": "proved",
   "theorems": [
    "Verif.Vts.C06_root_descriptions"
   ],
   "note": "Thom's lemma."
  },
  {
   "property": "C07",
   "status": "proved",
   "theorems": [
    "Verif.Vts.C07_never_guesses",
    "Verif.Vts.C07_sign_determination"
   ],
   "note": ""
  },
  {
   "property": "C08",
   "status": "proved",
   "theorems": [
    "Verif.Vts.C08_sign_right"
   ],
   "note": ""
  },
  {
   "property": "C09",
   "status": "proved",
   "theorems": [
    "Verif.Vts.C09_sign_matrix",
    "Verif.Vts.C09_invertible",
    "Verif.Vts.C09_get_matrix",
    "Verif.Vts.C09_get_inverse"
   ],
   "note": "All n for the matrix; get_matrix refuses n > 5."
  },
  {
   "property": "C12",
   "status": "proved",
   "theorems": [
    "Verif.Vts.C12_product_list"
   ],
   "note": ""
  },
  {
   "property": "C13",
   "status": "proved",
   "theorems": [
    "Verif.Vts.C13_multiply",
    "Verif.Vts.C13_derivative",
    "Verif.Vts.C13_evaluate",
    "Verif.Vts.C13_normalized"
   ],
   "note": ""
  },
  {
   "property": "C10",
   "status": "proved",
   "theorems": [
    "Verif.Vts.C10_cache_transparent"
   ],
   "note": "All histories of matrix/inverse requests, process restarts and outside deletion of cache files (no crash inside a write)."
  },
  {
   "property": "C11",
   "status": "partial",
   "theorems": [
    "Verif.Vts.C11_crash_violated",
    "Verif.Vts.C11_import_violated",
    "Verif.Vts.C11_crash_partial",
    "Verif.Vts.C11_written_once",
    "Verif.Vts.C11_exact"
   ],
   "note": "The property is violated: a crash inside a cache write leaves a truncated file that later processes fail on. Negation proved with a witness; partial theorem: no wrong matrix is ever returned. In addition: files are never changed once written, so the damage is permanent, and an exact description of the calls that fail."
  },
  {
   "property": "C14",
   "status": "partial",
   "theorems": [
    "Verif.Vts.C14_tests",
    "Verif.Vts.C14_what_it_computes",
    "Verif.Vts.C14_ts_violated",
    "Verif.Vts.C14_ts_sound_partial"
   ],
   "note": "Violated: the evaluation result is discarded. Exact behaviour of the code characterised."
  },
  {
   "property": "C15",
   "status": "partial",
   "theorems": [
    "Verif.Vts.C15_convert",
    "Verif.Vts.C15_zero_int",
    "Verif.Vts.C15_zero_violated",
    "Verif.Vts.C15_raises",
    "Verif.Vts.C15_roundtrip"
   ],
   "note": "Full for nonzero polynomials; the zero polynomial given as a sympy object is converted to [0] instead of [] (negation proved)."
  },
  {
   "property": "C16",
   "status": "proved",
   "theorems": [
    "Verif.Vts.C16_isym_vts"
   ],
   "note": ""
  },
  {
   "property": "C50",
   "status": "partial",
   "theorems": [
    "Verif.Vts.C50_aliasing_violated",
    "Verif.Vts.C50_partial",
    "Verif.Vts.C50_given"
   ],
   "note": "Violated: a modified matrix changes later answers, also in later processes. Partial: after any history with modifications, answers for matrix n are right unless one of the matrices 1..n was modified, answers for inverse n unless in addition that inverse was modified in the running process."
  },
  {
   "property": "C17",
   "status": "proved",
   "theorems": [
    "Verif.Vts.C17_preformat",
    "Verif.Vts.C17_raises",
    "Verif.Vts.C17_verdict"
   ],
   "note": "C17_verdict composes the preprocessing with the decision procedure."
  },
  {
   "property": "C18",
   "status": "partial",
   "theorems": [
    "Verif.Vts.C18_disjunctive_violated",
    "Verif.Vts.C18_disjunctive_partial"
   ],
   "note": "Violated: the succedent is read conjunctively (witness). Partial: reported valid implies valid; exact for one succedent formula."
  },
  {
   "property": "C19",
   "status": "proved",
   "theorems": [
    "Verif.Vts.C19_rewrite",
    "Verif.Vts.C19_negate",
    "Verif.Vts.C19_negate_bool"
   ],
   "note": ""
  },
  {
   "property": "C20",
   "status": "partial",
   "theorems": [
    "Verif.Vts.C20_report_violated",
    "Verif.Vts.C20_report_partial",
    "Verif.Vts.C20_exact"
   ],
   "note": "Violated: an invalid example makes the final report fail with a TypeError, and only three files are looked at."
  },
  {
   "property": "C30",
   "status": "proved",
   "theorems": [
    "Verif.Qe.C30_up_to_key",
    "Verif.Qe.C30_transparent"
   ],
   "note": "Full for wrappers whose key identifies arguments; in general equality up to the key."
  },
  {
   "property": "C21",
   "status": "proved",
   "theorems": [
    "Verif.Qe.C21_sequence_closed",
    "Verif.Qe.C21_least"
   ],
   "note": "Termination: from some recursion depth on the result does not change."
  },
  {
   "property": "C22",
   "status": "proved",
   "theorems": [
    "Verif.Qe.C22_complex_full"
   ],
   "note": "All algebraically closed fields of characteristic zero; the scalars test of the algebra is assumed to be right (ScalarsNonzero, has_variable of integer multiples)."
  },
  {
   "property": "C25",
   "status": "proved",
   "theorems": [
    "Verif.Qe.C25_complex_diagram"
   ],
   "note": ""
  },
  {
   "property": "C23",
   "status": "proved",
   "theorems": [
    "Verif.Qe.C23_real_full"
   ],
   "note": "All ordered fields with the intermediate value property for polynomials; the sign and has_variable tests of the algebra are assumed to be right on scalars; exact column numbers, for doubles see C87."
  },
  {
   "property": "C24",
   "status": "proved",
   "theorems": [
    "Verif.Qe.C24_real_diagram"
   ],
   "note": "Exact column numbers; for doubles see C87."
  },
  {
   "property": "C26",
   "status": "partial",
   "theorems": [
    "Verif.Qe.C26_violated_complex",
    "Verif.Qe.C26_complex_partial",
    "Verif.Qe.C26_violated_real",
    "Verif.Qe.C26_real_partial"
   ],
   "note": "Violated: the returned list is empty for satisfiable and unsatisfiable parameter-free input. Partial: the printed verdict is right."
  },
  {
   "property": "C27",
   "status": "partial",
   "theorems": [
    "Verif.Qe.C27_partial",
    "Verif.Qe.C27_violated"
   ],
   "note": "Violated: for inputs consisting of the polynomial 0 and one constant the result is empty (witness 0=0, 1>0). Proved for all other inputs."
  },
  {
   "property": "C28",
   "status": "partial",
   "theorems": [
    "Verif.Qe.C28_partial",
    "Verif.Qe.C28_generic_partial",
    "Verif.Qe.C28_exceptions_partial",
    "Verif.Qe.C28_linear_partial",
    "Verif.Qe.C28_scalar_partial",
    "Verif.Qe.C28_violated_sound",
    "Verif.Qe.C28_violated_complete",
    "Verif.Qe.C28_violated_exception",
    "Verif.Qe.C28_quadratic_violated",
    "Verif.Qe.C28_trinomial_violated",
    "Verif.Qe.C28_parameters_violated",
    "Verif.Qe.C28_violated_constants"
   ],
   "note": "Violated: a wrong context for y*x+1=0, x-1>0; a missing one for y*x-1<0; an exception for y*x^2=0; a missing one for the constants -1<0, y=0. Proved when the first of the polynomials of highest degree has a scalar leading coefficient or is a constant (parametric or not); for constants only, completeness at the valuations where one of the others does not vanish. For every other input that is not constant: whatever is returned is right at all valuations where this leading coefficient does not vanish. On every input the only exception is that of a missing sign, and it needs a polynomial taken first that is at least quadratic with parameters in its leading coefficient: systems of linear polynomials are always answered. It is raised for every single quadratic polynomial a*x^2+b*x+c whose leading coefficient has parameters (C28_quadratic_violated), and for a*x^n+b*x+c of any degree n >= 2 if b is not 0, a or n*a; more generally for every polynomial of degree at least 2 whose coefficients above the linear one are 0 or have parameters, if no coefficient of the derivative is the leading coefficient, and the linear one is neither 0 nor another coefficient of the derivative (C28_parameters_violated)."
  },
  {
   "property": "C29",
   "status": "proved",
   "theorems": [
    "Verif.Qe.C29_tables"
   ],
   "note": "Proved for all lists (with parameters too) whose polynomials of highest degree have scalar leading coefficients, which includes all parameter-free lists."
  },
  {
   "property": "C31",
   "status": "proved",
   "theorems": [
    "Verif.Grf.C31_atoms"
   ],
   "note": ""
  },
  {
   "property": "C32",
   "status": "proved",
   "theorems": [
    "Verif.Grf.C32_goal"
   ],
   "note": ""
  },
  {
   "property": "C33",
   "status": "proved",
   "theorems": [
    "Verif.Grf.C33_terminates"
   ],
   "note": "Automatic mode of check; any core, solver and algebra."
  },
  {
   "property": "C34",
   "status": "proved",
   "theorems": [
    "Verif.Grf.C34_sound"
   ],
   "note": "Strong form: the promoted hypotheses alone imply the goal. Soundness of the core and of Sage's reduction and Groebner bases is assumed."
  },
  {
   "property": "C35",
   "status": "proved",
   "theorems": [
    "Verif.Grf.C35_hits"
   ],
   "note": "For nonempty selections (an empty one raises, see C36); the solver is assumed to return feasible points."
  },
  {
   "property": "C36",
   "status": "partial",
   "theorems": [
    "Verif.Grf.C36_violated",
    "Verif.Grf.C36_partial",
    "Verif.Grf.C36_exact",
    "Verif.Grf.C36_none"
   ],
   "note": "Violated: the loop raises IndexError when all hypotheses are false at the samples. Partial: some false-goal sample satisfies a hypothesis. C36_exact and C36_none say for all problems exactly when a round ends the loop, reports a counterexample, promotes, or raises IndexError, if no evaluation raises."
  },
  {
   "property": "C37",
   "status": "partial",
   "theorems": [
    "Verif.Grf.C37_violated",
    "Verif.Grf.C37_partial",
    "Verif.Grf.C37_basis_partial",
    "Verif.Grf.C37_rounds_partial",
    "Verif.Grf.C37_check_partial"
   ],
   "note": "Violated: adding the same equation twice turns both into 0=0. Partial: one inclusion always; equality when the new hypothesis is not an equation or no equation was added before; together with the recorded Groebner basis the meaning is exactly preserved, also over all rounds of the check."
  },
  {
   "property": "C41",
   "status": "proved",
   "theorems": [
    "Verif.Grf.C41_promotion"
   ],
   "note": ""
  },
  {
   "property": "C51",
   "status": "partial",
   "theorems": [
    "Verif.Grf.C51_violated",
    "Verif.Grf.C51_partial"
   ],
   "note": "Violated after an injection into a quotient ring, which leaves the recorded variables stale. Partial: recorded variables include those of the polynomial."
  },
  {
   "property": "C42",
   "status": "proved",
   "theorems": [
    "Verif.Grf.C42_names",
    "Verif.Grf.C42_ring"
   ],
   "note": "All histories of requests to a new context; the coercion between the rings is taken to map generators to those of the same name."
  },
  {
   "property": "C43",
   "status": "partial",
   "theorems": [
    "Verif.Grf.C43_violated",
    "Verif.Grf.C43_partial"
   ],
   "note": "Violated: with several succedents, numbers beyond the antecedent are reported. Partial: one succedent; the succedent numbers always."
  },
  {
   "property": "C44",
   "status": "proved",
   "theorems": [
    "Verif.Grf.C44_reduction"
   ],
   "note": ""
  },
  {
   "property": "C53",
   "status": "proved",
   "theorems": [
    "Verif.Grf.C53_hiding"
   ],
   "note": "Soundness of the core and of Sage's functions assumed."
  },
  {
   "property": "C54",
   "status": "proved",
   "theorems": [
    "Verif.Grf.C54_reading"
   ],
   "note": "From parse trees; exactness of Sage's division assumed; points with a zero divisor excluded."
  },
  {
   "property": "C55",
   "status": "proved",
   "theorems": [
    "Verif.Grf.C55_file"
   ],
   "note": "End to end from parse trees; soundness of the core assumed."
  },
  {
   "property": "C56",
   "status": "partial",
   "theorems": [
    "Verif.Grf.C56_violated",
    "Verif.Grf.C56_text_violated",
    "Verif.Grf.C54_reading"
   ],
   "note": "Violated: whole numbers without a dot and negative numbers like -1.5 become variables, and (- 1.5e3) is a difference. Partial: numerals with a dot (C54)."
  },
  {
   "property": "C38",
   "status": "partial",
   "theorems": [
    "Verif.Grf.C38_violated",
    "Verif.Grf.C38_partial"
   ],
   "note": "Violated: a polynomial with a rational root contributes only its rational roots. Partial: covered when no polynomial has both rational and irrational roots."
  },
  {
   "property": "C39",
   "status": "partial",
   "theorems": [
    "Verif.Grf.C39_violated",
    "Verif.Grf.C39_partial",
    "Verif.Grf.C39_stack_partial"
   ],
   "note": "Violated for disequalities (the point is 0). Partial: the first hypothesis x op 0 with any other relation."
  },
  {
   "property": "C40",
   "status": "proved",
   "theorems": [
    "Verif.Grf.C40_projection_order"
   ],
   "note": ""
  },
  {
   "property": "C52",
   "status": "proved",
   "theorems": [
    "Verif.Grf.C52_filter"
   ],
   "note": ""
  },
  {
   "property": "C57",
   "status": "partial",
   "theorems": [
    "Verif.Grf.C57_violated",
    "Verif.Grf.C57_violated_strict",
    "Verif.Grf.C57_partial"
   ],
   "note": "Violated: the sequent |- x^2 != 2 (irrational points are not sampled) and, with strict negation, |- x^4 - 2x^2 <= 0 (a polynomial with both rational and irrational roots) are reported as true. Partial: one variable, goal atoms whose negations are strict, no polynomial with both rational and irrational roots."
  },
  {
   "property": "C58",
   "status": "proved",
   "theorems": [
    "Verif.Grf.C58_assignments"
   ],
   "note": ""
  },
  {
   "property": "C59",
   "status": "partial",
   "theorems": [
    "Verif.Grf.C59_violated",
    "Verif.Grf.C59_partial"
   ],
   "note": "Violated for every problem in at least two variables. Partial: one variable, or partial=True."
  },
  {
   "property": "C60",
   "status": "partial",
   "theorems": [
    "Verif.Grf.C60_violated",
    "Verif.Grf.C60_partial"
   ],
   "note": "Violated for goals with hypotheses reduced by a Groebner basis: their recorded variables are stale, and a comparison of polynomials counts as a truth value. Partial: goals whose atoms have not been reduced (or whose recorded variables still include those of the polynomial)."
  },
  {
   "property": "C45",
   "status": "partial",
   "theorems": [
    "Verif.Grf.C45_partial",
    "Verif.Grf.C45_violated"
   ],
   "note": "Violated: the order stays that of the first assignment ever converted. Partial: inverse conversions for a fixed order."
  },
  {
   "property": "C46",
   "status": "partial",
   "theorems": [
    "Verif.Grf.C46_violated",
    "Verif.Grf.C46_violated_start",
    "Verif.Grf.C46_partial"
   ],
   "note": "Violated: the return statement is in the loop body, only one repetition takes place; the first 25 points are not tested. Partial: the shape of the result, the found points do not make the main goal true."
  },
  {
   "property": "C47",
   "status": "proved",
   "theorems": [
    "Verif.Grf.C47_bookkeeping"
   ],
   "note": "For jobs that end with a result; see C61 for the others."
  },
  {
   "property": "C61",
   "status": "partial",
   "theorems": [
    "Verif.Grf.C61_violated",
    "Verif.Grf.C61_partial",
    "Verif.Grf.C61_exact",
    "Verif.Grf.C61_when"
   ],
   "note": "Violated: a job that ends without a result raises KeyError in the main loop. Partial: no failure if every ended job has a result; in general exactly one of two things happens, the loop ends with one row per job (jobs without a result recorded as timeouts) or the KeyError is raised; it is raised whenever a process ends at once without a result, and not if the processes without a result do not end."
  },
  {
   "property": "C62",
   "status": "proved",
   "theorems": [
    "Verif.Grf.C62_flip",
    "Verif.Grf.C62_search"
   ],
   "note": "C62_search states it for the runs of local search."
  },
  {
   "property": "C48",
   "status": "proved",
   "theorems": [
    "Verif.Vts.C48_reading",
    "Verif.Vts.C48_files"
   ],
   "note": "pyparsing's semantics is modelled character by character. Variable names other than sympy and cmd (see C65)."
  },
  {
   "property": "C49",
   "status": "proved",
   "theorems": [
    "Verif.Vts.C49_objects",
    "Verif.Vts.C49_univariate"
   ],
   "note": "Polynomials with integer constants; relations that sympy evaluates on reading are the subject of C66."
  },
  {
   "property": "C63",
   "status": "partial",
   "theorems": [
    "Verif.Vts.C63_violated",
    "Verif.Vts.C63_partial",
    "Verif.Vts.C48_reading"
   ],
   "note": "Violated: sequents that cannot be read are left out silently. Partial: no sequent in the syntax of C48 that starts outside a returned one is passed over, in any text without the words sympy and cmd (C63_partial); texts of sequents in the grammar are all returned (C48_reading)."
  },
  {
   "property": "C64",
   "status": "partial",
   "theorems": [
    "Verif.Vts.C64_work",
    "Verif.Vts.C64_violated",
    "Verif.Vts.C64_partial",
    "Verif.Vts.C64_nesting_partial"
   ],
   "note": "Violated: nested unary minus doubles the work at each level. Partial: without unary minus the work is at most the length; for every text the work of reading a file is at most 24 (n+1)^3 2^d, n the length and d the nesting of brackets."
  },
  {
   "property": "C65",
   "status": "partial",
   "theorems": [
    "Verif.Vts.C65_violated",
    "Verif.Vts.C65_partial"
   ],
   "note": "Violated: variables called sympy or cmd. Partial: files that do not contain these words are read without exception."
  },
  {
   "property": "C66",
   "status": "partial",
   "theorems": [
    "Verif.Vts.C66_violated",
    "Verif.Vts.C66_raises_iff"
   ],
   "note": "Violated: a relation between numbers is evaluated by sympy on reading and the conversion of all files aborts. Exact characterisation of when this happens."
  },
  {
   "property": "C67",
   "status": "partial",
   "theorems": [
    "Verif.Vts.C67_violated",
    "Verif.Vts.C67_partial",
    "Verif.Vts.C67_exact"
   ],
   "note": "Violated for two variables. Partial: valid sequents stay valid; equivalence for one variable."
  },
  {
   "property": "C68",
   "status": "proved",
   "theorems": [
    "Verif.Vts.C68_end_to_end",
    "Verif.Vts.C68_reached",
    "Verif.Vts.C17_reached"
   ],
   "note": "Validity with conjunctive succedent (see C18); sympy's evaluation of numbers and the root oracle of the solver are assumed sound."
  },
  {
   "property": "C69",
   "status": "proved",
   "theorems": [
    "Verif.Qe.C69_complex_interactive",
    "Verif.Qe.C69_complex_automatic",
    "Verif.Qe.C69_complex_outcome",
    "Verif.Qe.C69_real_interactive",
    "Verif.Qe.C69_real_automatic",
    "Verif.Qe.C69_real_outcome"
   ],
   "note": "Exact column numbers of the real diagram; for doubles see C87."
  },
  {
   "property": "C70",
   "status": "partial",
   "theorems": [
    "Verif.Qe.C70_default_assigner_violated",
    "Verif.Qe.C69_real_shows_constants",
    "Verif.Qe.C69_complex_interactive"
   ],
   "note": "Violated: the default assigner is an unbound function and raises TypeError for every input; real_partial prints the diagram of the constants only. Partial: with an explicit assigner the complex procedure prints the diagram of the input (C69_complex_interactive)."
  },
  {
   "property": "C71",
   "status": "proved",
   "theorems": [
    "Verif.Grf.C71_interactive_sound",
    "Verif.Grf.C71_terminates",
    "Verif.Grf.C71_go",
    "Verif.Grf.C71_harmless",
    "Verif.Grf.C71_no_solver",
    "Verif.Grf.C71_answer",
    "Verif.Grf.C71_ignored"
   ],
   "note": "Soundness of the sampling for the final state is a hypothesis, as in C34. Python's int on strings is an arbitrary function."
  },
  {
   "property": "C72",
   "status": "partial",
   "theorems": [
    "Verif.Grf.C72_violated",
    "Verif.Grf.C72_partial",
    "Verif.Grf.C72_squarefree_partial",
    "Verif.Grf.C72_generic_partial",
    "Verif.Grf.C72_assumptions_met",
    "Verif.Grf.TrueElim.elimOK",
    "Verif.Grf.tree_meets"
   ],
   "note": "Violated: |- x^4 + x^2 - x^2*y^5 >= 0 is reported as proved; the discriminant of a polynomial with a square factor is 0 and is dropped as a constant, against the comment at bm_proj. Partial: valid over the reals in any number of variables when the relations to falsify are strict, no resultant and no discriminant of a projection is 0, and no stack mixes rational and irrational roots. Sage is assumed to isolate roots rightly and to compute resultants and discriminants as they are defined (Sylvester determinants; Mathlib); what the proof needs of them is derived, and that the result is not 0 is shown to mean square-free and coprime. C72_generic_partial: for relations of any kind (no equations as hypotheses) the points at which a proved sequent is false have no interior."
  },
  {
   "property": "C73",
   "status": "proved",
   "theorems": [
    "Verif.Grf.C73_irredundant",
    "Verif.Grf.C73_relevant"
   ],
   "note": "The solver is assumed to return an optimal feasible point; bruteSolve is shown to."
  },
  {
   "property": "C74",
   "status": "proved",
   "theorems": [
    "Verif.Grf.C74_reading",
    "Verif.Grf.C74_exact",
    "Verif.Grf.C74_unique",
    "Verif.Grf.C74_sound",
    "Verif.Grf.C74_bound"
   ],
   "note": "The values of numerals are those that Sage gives them (a parameter). Tabs are not expanded. Soundness of the sampling is a hypothesis, as in C53."
  },
  {
   "property": "C75",
   "status": "partial",
   "theorems": [
    "Verif.Grf.C75_violated",
    "Verif.Grf.C75_partial"
   ],
   "note": "Violated: only the last sequent is reported. Partial: the last sequent, and so a single one."
  },
  {
   "property": "C76",
   "status": "proved",
   "theorems": [
    "Verif.Grf.C76_raises",
    "Verif.Grf.C76_text"
   ],
   "note": ""
  },
  {
   "property": "C77",
   "status": "partial",
   "theorems": [
    "Verif.Grf.C77_given_violated",
    "Verif.Grf.C77_cleared_violated",
    "Verif.Grf.C77_returns",
    "Verif.Grf.C77_partial",
    "Verif.Grf.C77_cleared"
   ],
   "note": "Violated for every text: the parse action that runs the procedure is a method of the first context of the object; with another context the call raises, and after clearContext the returned context has no result. Partial: the first context."
  },
  {
   "property": "C78",
   "status": "proved",
   "theorems": [
    "Verif.Vts.C78_written",
    "Verif.Vts.C78_files"
   ],
   "note": "Tabs are not expanded."
  },
  {
   "property": "C79",
   "status": "proved",
   "theorems": [
    "Verif.Grf.C79_formulas",
    "Verif.Grf.C79_total"
   ],
   "note": "The values of numerals are those that Sage gives them (a parameter); division of polynomials by Sage is a hypothesis (exact, or an exception)."
  },
  {
   "property": "C80",
   "status": "partial",
   "theorems": [
    "Verif.Vts.C80_violated",
    "Verif.Vts.C80_written",
    "Verif.Vts.C80_sources",
    "Verif.Vts.C80_partial",
    "Verif.Vts.C80_succeeds",
    "Verif.Vts.C80_reads",
    "Verif.Vts.C80_reads_all"
   ],
   "note": "Violated on every system that distinguishes upper and lower case letters: examples are stored in Examples/Metitarski and read from Examples/MetiTarski, so that writing changes nothing of what is read or checked. Partial: what is stored is right, and on other systems it is read back, under names with .pkl added."
  },
  {
   "property": "C81",
   "status": "proved",
   "theorems": [
    "Verif.Vts.C81_restart",
    "Verif.Vts.C81_crash"
   ],
   "note": "pickle is a parameter; permissions, links and full disks are left out."
  },
  {
   "property": "C82",
   "status": "partial",
   "theorems": [
    "Verif.Vts.C82_violated",
    "Verif.Vts.C82_partial",
    "Verif.Vts.C82_order",
    "Verif.Vts.C82_files"
   ],
   "note": "Violated: the fourth file is loaded but not checked. Partial: only the first four files matter; those below Examples/MetiTarski come first, so four of them leave those below Examples/HidingProblems without influence."
  },
  {
   "property": "C83",
   "status": "proved",
   "theorems": [
    "Verif.Qe.C83_rows",
    "Verif.Qe.C83_order",
    "Verif.Qe.C83_scalars",
    "Verif.Qe.C83_parameters"
   ],
   "note": "C83_parameters shows why the order is claimed without parameters only: the key does not tell a*x from b*x, and such rows keep the order of the input."
  },
  {
   "property": "C84",
   "status": "partial",
   "theorems": [
    "Verif.Grf.C84_violated",
    "Verif.Grf.C84_partial",
    "Verif.Grf.C84_weight_partial"
   ],
   "note": "Violated: the key of the sorting is the total degree, not the weight (witness with weights 20 and 100, the second one is promoted). Partial: least total degree, the first of these; and least weight if the selected hypotheses have the same number of variables and are related to the goal."
  },
  {
   "property": "C85",
   "status": "partial",
   "theorems": [
    "Verif.Grf.C85_steps",
    "Verif.Grf.C85_falsifies_partial",
    "Verif.Grf.C85_violated",
    "Verif.Grf.C85_returns",
    "Verif.Grf.C85_no_hypothesis",
    "Verif.Grf.C85_unknown_variable"
   ],
   "note": "Violated: a hypothesis p != 0 is never made false, the equation only changes the sign of p. Partial: the chosen hypothesis is made false if it is no inequation and not a weak inequality with value 0; choice of the hypothesis, kept points and absence of exceptions as stated."
  },
  {
   "property": "C86",
   "status": "partial",
   "theorems": [
    "Verif.Vts.C86_partial",
    "Verif.Vts.C86_violated",
    "Verif.Vts.C86_import_violated",
    "Verif.Vts.C86_wait_free",
    "Verif.Vts.C86_import_wait_free",
    "Verif.Vts.C86_settled",
    "Verif.Vts.C86_then_right",
    "Verif.Vts.C86_alone",
    "Verif.Vts.C86_events"
   ],
   "note": "Violated: a process that reads a file while another one writes it fails with an unpickling error, also on import; negation proved with schedules of two processes. What holds for every schedule: no wrong matrix is ever returned, every call ends after at most 16 own actions, and without kills the directory is complete and right whenever nobody is at work."
  },
  {
   "property": "C87",
   "status": "partial",
   "theorems": [
    "Verif.Qe.C87_violated",
    "Verif.Qe.C87_diagram_partial",
    "Verif.Qe.C87_real_full_partial",
    "Verif.Qe.C87_decision_partial",
    "Verif.Qe.C87_real_partial_partial"
   ],
   "note": "Violated: 1-x<0, ..., 51-x<0, 52-x=0, 53-x>0 is reported as unsatisfiable, the column of the root 52 is overwritten by a rounded midpoint. Partial: with at most 52 polynomials in the variable in the sequence the doubles are exact; the bound is sharp by the witness, which has 53."
  },
  {
   "property": "C88",
   "status": "partial",
   "theorems": [
    "Verif.Vts.C88_violated",
    "Verif.Vts.C88_digits",
    "Verif.Vts.C88_partial"
   ],
   "note": "Violated: for p with n distinct real roots the sequence computed by tarski_query(p, [2]) contains a number of at least fib(n) binary digits, so for (x-1)...(x-n) no polynomial bound holds. Proved instead: length bounds and a single exponential bound on digits."
  },
  {
   "property": "C89",
   "status": "partial",
   "theorems": [
    "Verif.Vts.C89_violated",
    "Verif.Vts.C89_default",
    "Verif.Vts.C89_limit",
    "Verif.Vts.C89_partial"
   ],
   "note": "Violated: the query for x^n needs exactly n + 5 frames, so with the default limit of 1000 every degree from 996 on ends with RuntimeError. Proved instead: a limit never changes a value, and len p + max(1, len q) + 3 frames always suffice."
  },
  {
   "property": "C90",
   "status": "proved",
   "theorems": [
    "Verif.Vts.C90_same_result",
    "Verif.Vts.C90_bounds",
    "Verif.Vts.C90_normalized",
    "Verif.Vts.C90_single"
   ],
   "note": "Operations of z3rcf and sympy are not counted, and operations are counted, not their time: the numbers may be long, see C88."
  },
  {
   "property": "C91",
   "status": "proved",
   "theorems": [
    "Verif.Qe.C91_agree"
   ],
   "note": "Virtual term substitution may refuse inputs (too many derivatives), see C02."
  },
  {
   "property": "C92",
   "status": "proved",
   "theorems": [
    "Verif.Vts.C92_direct"
   ],
   "note": "MkRoots of z3rcf is assumed to return the distinct real roots."
  },
  {
   "property": "C93",
   "status": "proved",
   "theorems": [
    "Verif.Qe.C93_closure",
    "Verif.Qe.C93_real",
    "Verif.Qe.C93_complex"
   ],
   "note": "The bound is doubly exponential in the degree; it is an upper bound, not the exact number."
  },
  {
   "property": "C94",
   "status": "partial",
   "theorems": [
    "Verif.Qe.C94_violated",
    "Verif.Qe.C94_partial"
   ],
   "note": "Violated: with a limit L no input with a polynomial of degree L or more is answered. Proved instead: the bound of C93 suffices as a limit."
  },
  {
   "property": "C95",
   "status": "proved",
   "theorems": [
    "Verif.Qe.C95_real",
    "Verif.Qe.C95_complex",
    "Verif.Qe.C95_ch"
   ],
   "note": "For Cohen-Hormander without any hypothesis on the input, also where its answer is wrong (C28)."
  },
  {
   "property": "C96",
   "status": "partial",
   "theorems": [
    "Verif.Qe.C96_violated",
    "Verif.Qe.C96_partial"
   ],
   "note": "Violated by all three: signs are guessed independently for y and 4y. Proved instead: where a returned conjunction holds, the constraints are satisfiable."
  },
  {
   "property": "C97",
   "status": "proved",
   "theorems": [
    "Verif.Grf.C97_projection",
    "Verif.Grf.C97_samples"
   ],
   "note": "assumes of Sage: rational roots are listed once, not more isolating intervals than real roots, resultants and discriminants are those of the Sylvester matrix (met by ex2Env)"
  },
  {
   "property": "C98",
   "status": "proved",
   "theorems": [
    "Verif.Qe.C98_depth",
    "Verif.Qe.C98_tables"
   ],
   "note": "real_full and real_table of cohenhorm end on every input; explicit bound for the depth of the recursion."
  },
  {
   "property": "C99",
   "status": "partial",
   "theorems": [
    "Verif.Qe.C99_violated",
    "Verif.Qe.C99_partial"
   ],
   "note": "Violated: the depth is greater than the degree, whatever the limit. C99_partial: with a limit of at least B(d, n) it is not exceeded."
  },
  {
   "property": "C100",
   "status": "partial",
   "theorems": [
    "Verif.Qe.C100_violated",
    "Verif.Qe.C100_partial",
    "Verif.Qe.readme_real",
    "Verif.Qe.readme_complex"
   ],
   "note": "Violated on the documented example: nine conjunctions against one. C100_partial: the results hold at the same parameters (leading coefficients without parameters). readme_real and readme_complex: the model returns exactly the lists printed in the documentation of muchnik."
  },
  {
   "property": "C101",
   "status": "partial",
   "theorems": [
    "Verif.Grf.C101_violated",
    "Verif.Grf.C101_partial"
   ],
   "note": "Violated: x0 < -3/4, x1 = x0, x0 < 1 |- x0^2 + x1 >= 0 is reported as proved after two promotions; false at x0 = x1 = -7/8. Partial: when the recorded variables of the promoted hypotheses include those of their polynomials (always when there are no equations), the goal holds at all points of the complete tree of the last round."
  },
  {
   "property": "C102",
   "status": "partial",
   "theorems": [
    "Verif.Grf.C102_violated",
    "Verif.Grf.C102_partial",
    "Verif.Grf.C102_sequent",
    "Verif.Grf.C102_alias"
   ],
   "note": "Violated: equations that are promoted rewrite the promoted formula objects in place (after deciding x0 = 0, x0 + x1 = 0, x0 >= 0 |- x1 >= 0 the two equations read -x1 = 0 and x1 = 0), and perform_grf leaves the succedent but its last formula negated. Proved instead, for all runs on pairwise different objects: the answers are those of the value model, unpromoted hypotheses and the main goal are unchanged, relation symbols and recorded variables stay, rewritten formulas follow from the promoted ones, and without equations nothing is changed."
  },
  {
   "property": "C103",
   "status": "partial",
   "theorems": [
    "Verif.Grf.C103_violated",
    "Verif.Grf.C103_sound",
    "Verif.Grf.C103_partial",
    "Verif.Grf.C103_left",
    "Verif.Grf.C103_rounds",
    "Verif.Grf.C103_lost"
   ],
   "note": "Violated: a check removes the promoted hypotheses from the object, so that asserting the same goal again and checking reports a counterexample to a valid sequent. Proved: over all histories (with exceptions caught) a check that returns implies that the goal asserted last follows from all hypotheses asserted so far; and the first check of an object decides the asserted sequent; after every history the hypotheses left are a correctly numbered part of the asserted ones, and a check, returning or not, takes one round more than it promotes hypotheses."
  },
  {
   "property": "C104",
   "status": "partial",
   "theorems": [
    "Verif.Vts.C104_violated",
    "Verif.Vts.C104_same_answer",
    "Verif.Vts.C104_partial",
    "Verif.Vts.C104_early"
   ],
   "note": "Violated: two equations in one order raise (more than 5 polies), in the other order the answer is True. Proved: whenever both calls return, equivalent systems get the same answer; calls with the same members return the same answer if no polynomial has more than five distinct roots; and a sufficient condition on the order under which the answer True is returned whatever comes later."
  },
  {
   "property": "C105",
   "status": "partial",
   "theorems": [
    "Verif.Grf.C105_violated",
    "Verif.Grf.C105_partial",
    "Verif.Grf.C105_cad_partial"
   ],
   "note": "Violated: for the valid sequent x1 = x0, x1 + x0 = 0, x0 <= 1 |- x1 >= x0^2 a counterexample is reported, with right functions of Sage: both equations have become 2*x1 = 0. Proved: with at most one equation among the hypotheses, for every core that gives values to all variables, a reported counterexample is one of the points looked at and falsifies the original sequent."
  },
  {
   "property": "C106",
   "status": "proved",
   "theorems": [
    "Verif.Qe.C106_real",
    "Verif.Qe.C106_decides",
    "Verif.Qe.C106_complex",
    "Verif.Qe.C106_complex_decides"
   ],
   "note": "With exact columns (see C87 for floats). The loop over variables is the user's; where real_full returns an empty list because no condition has a parameter (C26), the printed verdict is used."
  },
  {
   "property": "C107",
   "status": "partial",
   "theorems": [
    "Verif.Grf.C107_violated",
    "Verif.Grf.C107_partial",
    "Verif.Grf.C107_bias_partial",
    "Verif.Grf.C107_choose_partial",
    "Verif.Grf.C107_range",
    "Verif.Grf.C107_empty",
    "Verif.Grf.C107_no_hypothesis"
   ],
   "note": "Violated: when all exponentials are rounded to 0 (from values of about 746 on) ZeroDivisionError is raised. Proved with exact real arithmetic: the distribution (Lebesgue measure of the set of random numbers), the bias, and the distribution over hypotheses; for every arithmetic: the index is in range."
  },
  {
   "property": "C108",
   "status": "partial",
   "theorems": [
    "Verif.Grf.C108_violated",
    "Verif.Grf.C108_partial",
    "Verif.Grf.C108_symb_partial",
    "Verif.Grf.C108_signature",
    "Verif.Grf.C108_ball",
    "Verif.Grf.C108_sign"
   ],
   "note": "Violated: get_num_falsifying_func raises NameError for all arguments, as ineq_eps is defined nowhere. Partial: with a positive ineq_eps its zeros falsify the atom, except for equations when 0 is chosen and inequations when 0 is not chosen; the other functions as stated."
  },
  {
   "property": "C109",
   "status": "partial",
   "theorems": [
    "Verif.Grf.C109_violated",
    "Verif.Grf.ordCore_cad",
    "Verif.Grf.C109_partial"
   ],
   "note": "Violated: x0 > 0, x0 < 0, x0^3 < 0 |- x0^2 < 0 ends with IndexError, and is proved with the first two hypotheses exchanged, for all optimal solvers and all points of local search (ordCore_cad: the sampling core of the program is such a core). Proved: with at most one equation and a core that is sound for the last state, a sequent that is proved in one order is not refuted in another one."
  },
  {
   "property": "C110",
   "status": "proved",
   "theorems": [
    "Verif.Qe.C110_real",
    "Verif.Qe.C110_decides",
    "Verif.Qe.C110_complex",
    "Verif.Qe.C110_complex_decides"
   ],
   "note": "With exact columns (see C87 for floats). The loops over the formula and the calculation with disjunctions of conjunctions are the user's, the procedures are those of the model."
  },
  {
   "property": "C111",
   "status": "proved",
   "theorems": [
    "Verif.Grf.C111_rounds"
   ],
   "note": "For jobs that end with a result; see C61 for the others."
  },
  {
   "property": "C112",
   "status": "partial",
   "theorems": [
    "Verif.Grf.C112_violated",
    "Verif.Grf.C112_partial"
   ],
   "note": "Violated: with two jobs over the limit in one round only the first is removed; the second has ended in the next round and is recorded as finished, with a time above the limit. Proved: a process that does not end is recorded as a timeout, one that is not alive after its limit as finished, and the time of a finished one is taken less than R + Cores rounds after its start."
  },
  {
   "property": "C113",
   "status": "partial",
   "theorems": [
    "Verif.Grf.C113_violated",
    "Verif.Grf.C113_sound",
    "Verif.Grf.C113_partial",
    "Verif.Grf.C113_same_partial",
    "Verif.Grf.C113_counterexample_partial"
   ],
   "note": "Violated: a valid sequent in x0, x1 that is proved in a new process is refuted (Counterexample!) after a sequent in x0 only; in the other order KeyError is raised. Proved: proofs are sound after any history; after sequents with the same variables the outcome is that of a new process up to a rearrangement of the coordinates of the random numbers and of the solver; after sequents with at least the same variables reported counterexamples are real (at most one equation)."
  },
  {
   "property": "C114",
   "status": "partial",
   "theorems": [
    "Verif.Grf.C114_violated",
    "Verif.Grf.C114_no_effect",
    "Verif.Grf.C114_unbounded",
    "Verif.Grf.C114_partial",
    "Verif.Grf.C114_more",
    "Verif.Grf.C114_verdict"
   ],
   "note": "Violated: with one variable num_sps has no effect at all (the base phase does not get it), and the unbounded sectors of every stack get one point. Proved: in the levels above the base exactly num_sps points lie between neighbouring isolating intervals that do not touch; more points per cell lose none and never make a sequent provable in a round."
  },
  {
   "property": "C115",
   "status": "partial",
   "theorems": [
    "Verif.Grf.C115_violated",
    "Verif.Grf.C115_partial"
   ],
   "note": "Violated: a set contained in an earlier one is recorded (only earlier sets are removed). All the rest is proved."
  },
  {
   "property": "C116",
   "status": "proved",
   "theorems": [
    "Verif.Qe.C116_depth",
    "Verif.Qe.C116_answer"
   ],
   "note": "Doubly exponential in the degree, in contrast to the bound of C98, which is a tower of exponents but smaller for small degrees."
  },
  {
   "property": "C117",
   "status": "partial",
   "theorems": [
    "Verif.Grf.C117_last",
    "Verif.Grf.C117_violated",
    "Verif.Grf.C117_cad_violated",
    "Verif.Grf.C117_example",
    "Verif.Grf.C117_file_violated",
    "Verif.Grf.C117_file_example",
    "Verif.Grf.C117_partial"
   ],
   "note": "Violated: the last remaining hypothesis is never promoted, so a valid sequent that needs all its hypotheses is never proved, and a file that contains such a sequent raises an exception (C117_file_violated); for strict sequents in any number of variables it ends with IndexError. Proved for strict sequents: the outcome is a right proof, a right counterexample, or IndexError; C122: a hypothesis that is always true excludes the IndexError. C133: in the interactive mode such sequents are proved."
  },
  {
   "property": "C118",
   "status": "partial",
   "theorems": [
    "Verif.Grf.C118_violated",
    "Verif.Grf.C118_partial",
    "Verif.Grf.C118_core_partial"
   ],
   "note": "Violated: a false sequent without hypotheses in two variables with equal statistics is reported as proved, and after exchanging the names of the variables it is not (IndexError), whatever the right functions of Sage, random choices, solver and local search are. Proved under the assumptions of C72_partial: if one sequent is proved then no counterexample is reported for a sequent that differs in the names of variables (and may have more hypotheses). The same for sequents with any relations if the sample points are sufficient (C118_core_partial)."
  },
  {
   "property": "C119",
   "status": "partial",
   "theorems": [
    "Verif.Grf.C119_violated",
    "Verif.Grf.C119_partial",
    "Verif.Grf.C119_core_partial"
   ],
   "note": "Violated: x0^3 > 0, x0 + 3 > 0 |- x0 + 1 >= 0 is proved, and with the further hypothesis x0^2 - 9 > 0 the check always ends with IndexError, whatever the right functions of Sage, local search, random choices and optimal solver. Proved under the assumptions of C72_partial: no counterexample is reported for the sequent with further hypotheses. The same for sequents with any relations if the sample points are sufficient (C119_core_partial)."
  },
  {
   "property": "C120",
   "status": "partial",
   "theorems": [
    "Verif.Grf.C120_violated",
    "Verif.Grf.C120_violated_strict",
    "Verif.Grf.C120_partial",
    "Verif.Grf.C120_generic_partial",
    "Verif.Grf.C120_one_partial"
   ],
   "note": "Violated: for |- x*x != 2 (any functions of Sage) and for |- (x*x)*(x*x) <= 2*(x*x) (right functions of Sage) grf_on_file returns (0, 0), but the first is false at the square root of 2 and the second at 2. Proved with the program's own sampling, for any number of names and both modes, when the relations are <, >, != on the left and <=, >=, = on the right, no resultant or discriminant of a projection is 0 and no stack has both rational and irrational roots; for one name the assumptions are on the text only. C120_generic_partial: for relations of any kind (no equations on the left, no != on the right but as the last formula), at the points at which no formula has two sides of the same value."
  },
  {
   "property": "C121",
   "status": "partial",
   "theorems": [
    "Verif.Qe.C121_violated",
    "Verif.Qe.C121_cubic_violated",
    "Verif.Qe.C121_bound_partial",
    "Verif.Qe.C121_partial"
   ],
   "note": "Violated: real_full calls _real_table with the bound -1, which raises an exception on every input; with any bound _real_table raises an exception on x^3 - 3x, because remainders are looked up in the condensed table. Proved: for polynomials without parameters whatever _real_table returns is right (exactly one table when the polynomials are nonzero), and the result does not depend on the bound unless that is reached."
  },
  {
   "property": "C122",
   "status": "proved",
   "theorems": [
    "Verif.Grf.C122_core",
    "Verif.Grf.C122_decides",
    "Verif.Grf.C122_generic",
    "Verif.Grf.C122_file",
    "Verif.Grf.C122_file_one",
    "Verif.Grf.C122_example"
   ],
   "note": "The assumptions on the cells are those of C117_partial; for files in one name they are assumptions on the text alone."
  },
  {
   "property": "C123",
   "status": "proved",
   "theorems": [
    "Verif.Qe.C123_real",
    "Verif.Qe.C123_complex",
    "Verif.Qe.C123_real_text",
    "Verif.Qe.C123_complex_text",
    "Verif.Qe.C123_text_iff",
    "Verif.Qe.C123_real_layout",
    "Verif.Qe.C123_complex_layout",
    "Verif.Qe.C123_none"
   ],
   "note": "The printing of a polynomial is a parameter; zyStr is an instance."
  },
  {
   "property": "C124",
   "status": "proved",
   "theorems": [
    "Verif.Grf.C124_shown",
    "Verif.Grf.C124_meaning",
    "Verif.Grf.C124_number",
    "Verif.Grf.C124_layout",
    "Verif.Grf.C124_atom",
    "Verif.Grf.C124_final"
   ],
   "note": "The printing of a polynomial is a parameter; termsStr is an instance. The recorded variables of an atom are not shown, so they are not determined (see C51, C60)."
  },
  {
   "property": "C125",
   "status": "partial",
   "theorems": [
    "Verif.Grf.C125_violated",
    "Verif.Grf.C125_file_violated",
    "Verif.Grf.C125_number_violated",
    "Verif.Grf.C125_far_violated",
    "Verif.Grf.C125_check_defaults_violated",
    "Verif.Grf.C125_partial",
    "Verif.Grf.C125_file_defaults"
   ],
   "note": "Violated: the parameters are announced but not used; for all values the outcome, the sample points and the additional points are the same, also for files. There are always between 25 and 77 additional points (the default of check is 100), and points outside of the announced neighborhood are computed. Proved: the announced values are the given ones, and the first 25 additional points are at most 1/100 away; for files without parameters 25 points in a neighborhood of 1/10 are announced, and the first 25 are such points."
  },
  {
   "property": "C126",
   "status": "partial",
   "theorems": [
    "Verif.Grf.C126_counted",
    "Verif.Grf.C126_actions",
    "Verif.Grf.C126_every",
    "Verif.Grf.C126_formulas",
    "Verif.Grf.C126_violated",
    "Verif.Grf.C126_formulas_violated",
    "Verif.Grf.C126_partial"
   ],
   "note": "Violated: nested unary minus doubles the number of parse actions at each level, since the alternative for subtraction is tried first and its argument is read again. Proved: the exact number of parse actions for every file; it is at most n 2^d, n the length and d the nesting of unary minuses, thus at most n without unary minus."
  },
  {
   "property": "C127",
   "status": "partial",
   "theorems": [
    "Verif.Grf.C127_same",
    "Verif.Grf.C127_violated",
    "Verif.Grf.C127_failed_violated",
    "Verif.Grf.C127_partial"
   ],
   "note": "Violated by every start message of every run: the percentage is that of the jobs that have been started, always more than that of the jobs that have been removed (by at most the number of processes); and a process that ends without a result is reported as finished before the program stops. Proved: one message per start and per row, in order and with the right content."
  },
  {
   "property": "C128",
   "status": "partial",
   "theorems": [
    "Verif.Grf.C128_violated",
    "Verif.Grf.C128_partial"
   ],
   "note": "Violated by every row of every run: the first line names four columns (Samples, Epsilon, Time, Hides) and every row has five fields, of which the first is the number of the file. Proved: read by position, the lines are exactly the records of the removed jobs, in the order of removal."
  },
  {
   "property": "C129",
   "status": "partial",
   "theorems": [
    "Verif.Grf.C129_violated",
    "Verif.Grf.C129_lost_violated",
    "Verif.Grf.C129_around_violated",
    "Verif.Grf.C129_meaning_violated",
    "Verif.Grf.C129_partial",
    "Verif.Grf.C129_verdicts"
   ],
   "note": "Violated: digits without a dot are a name for one program and a number for the other; ~1.0 is read by one of them only; text around the sequents is skipped by one and an error for the other; of several formulas in the succedent some has to follow for one program and all for the other. Proved: on an explicit common syntax both read the same sequents with the same meaning; and if the succedent of the last sequent is one formula and grf_on_file returns, the verdict of vts on it is valid."
  },
  {
   "property": "C130",
   "status": "partial",
   "theorems": [
    "Verif.Grf.C130_violated",
    "Verif.Grf.C130_bound_violated",
    "Verif.Grf.C130_example",
    "Verif.Grf.C130_partial"
   ],
   "note": "Violated for every sequent on which something is reported and whose goal is not valid by itself: after finitely many runs with the reported formulas removed there is a valid sequent on which every run raises an exception. Proved: what is left after any number of runs is a valid sequent of formulas of the first one with the same goal, and each run that returns hides at least one more formula while there is any besides the goal."
  },
  {
   "property": "C131",
   "status": "proved",
   "theorems": [
    "Verif.Grf.C131_names",
    "Verif.Grf.C131_titles",
    "Verif.Grf.C131_needed"
   ],
   "note": "C131_titles: the names of the sequents only appear in the output. The renaming has to be injective on the names of the file only; C131_needed shows that it has to be. For the decision procedure itself, where variables are numbered, see C118."
  },
  {
   "property": "C132",
   "status": "partial",
   "theorems": [
    "Verif.Grf.C132_violated",
    "Verif.Grf.C132_partial"
   ],
   "note": "Violated: there are two sequents in the names x and y for which grf_on_file returns if each is in a file of its own, and raises ParseException if they are in one file, whatever the right functions of Sage, random choices, local searches and solvers: the order of the variables is that of the first occurrences of the names in the file. Proved: if the names in the sequents before are the same in the order of their first occurrences, and the random choices in the last run are the same, the results are the same."
  },
  {
   "property": "C133",
   "status": "proved",
   "theorems": [
    "Verif.Grf.C133_interactive_complete",
    "Verif.Grf.C133_interactive_exact",
    "Verif.Grf.C133_cad",
    "Verif.Grf.C133_file_example",
    "Verif.Grf.C133_needed",
    "Verif.Grf.C133_sequent",
    "Verif.Grf.C133_file",
    "Verif.Grf.C133_file_exact",
    "Verif.Grf.C133_example"
   ],
   "note": "The local search is assumed not to raise and to return points with values for all variables; the samples of the program never raise (C59). Sound sampling is a hypothesis of C133_interactive_exact only. The automatic mode fails on such sequents (C117); C133_file_example is a file where the two modes differ. C133_needed: with two equations it fails."
  }
 ]
}