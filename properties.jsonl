{"id": "C01", "title": "Virtual term substitution decides univariate satisfiability", "statement": "For lists le, lt, eq, ne of univariate polynomials with a nonzero leading coefficient, whenever internal_vts returns a boolean, that boolean is True exactly when some real x satisfies p(x)<=0 for all p in le, p(x)<0 for all p in lt, p(x)=0 for all p in eq and p(x)!=0 for all p in ne.", "quantifier": "all finite lists of polynomials of every degree and every coefficient", "why_tests_cant": "satisfiability over the real line is a statement about infinitely many x and infinitely many inputs", "anchors": ["vts/uni_vts.py:internal_vts"]}
{"id": "C02", "title": "Virtual term substitution answers (does not raise) on every input with few roots per polynomial", "statement": "internal_vts returns a boolean, raising nothing and terminating, for every input whose polynomials each have nonzero leading coefficient and at most five distinct real roots; the only exception possible on other normalized inputs is the 'more than 5 polies' refusal.", "quantifier": "all finite lists of normalized polynomials", "why_tests_cant": "the recursion depth and the size-5 refusal depend on the root pattern, which tests only sample", "anchors": ["vts/uni_vts.py:internal_vts", "vts/uni_vts.py:get_discri_der_signs", "vts/matrix_of_signs.py:new_get_matrix_inverse"]}
{"id": "C03", "title": "The Tarski query counts signs at roots", "statement": "tarski_query(p, q) equals (number of distinct real roots of p where q>0) minus (number of distinct real roots of p where q<0).", "quantifier": "all polynomials p, q with nonzero leading coefficient (q may also be empty), any degrees", "why_tests_cant": "it is the Sturm-Tarski theorem for this particular pseudo-remainder sequence; testing only samples polynomials", "anchors": ["vts/uni_vts.py:tarski_query", "vts/uni_vts.py:signed_remainder_cauchy_index"]}
{"id": "C04", "title": "Pseudo-remainder is sign correct", "statement": "signed_pseudo_remainder(f, g) returns a polynomial r, with no leading zero and fewer coefficients than g, such that c*f = a*g + r for some positive constant c and polynomial a; it raises exactly when g is empty and f is not.", "quantifier": "all coefficient lists f and g over an ordered ring; for the identity, g with a nonzero leading coefficient", "why_tests_cant": "sign errors only surface on particular parities of degree and sign patterns of leading coefficients", "anchors": ["vts/uni_vts.py:signed_pseudo_remainder"]}
{"id": "C05", "title": "Signed remainder sequence is a finite Sturm chain", "statement": "signed_remainder_sequence(p, q) terminates; consecutive triples f,g,h satisfy c*f = a*g - h with c>0; lengths strictly decrease after the second element and the last element divides its predecessor up to a positive constant.", "quantifier": "all p and all nonempty q with nonzero leading coefficient", "why_tests_cant": "termination and the recurrence for all degrees cannot be enumerated", "anchors": ["vts/uni_vts.py:signed_remainder_sequence"]}
{"id": "C06", "title": "Every real root gets a distinguishing sign description", "statement": "get_discri_der_signs applied to the distinct real roots of p terminates and returns exactly one description per root; the recorded signs are the true signs of the recorded derivatives at that root, and no other root of p has the same recorded signs.", "quantifier": "all polynomials p with nonzero leading coefficient, any number of roots", "why_tests_cant": "it is Thom's lemma; termination itself depends on it", "anchors": ["vts/uni_vts.py:get_discri_der_signs", "vts/uni_vts.py:DiscDerSigns"]}
{"id": "C07", "title": "Sign determination is exact", "statement": "evaluate_single_on_sign_assignment(d, goal), for a description d of a root r of p, returns the sign of goal(r) whenever it returns, and raises only if more than four derivatives are recorded in d.", "quantifier": "all p, all its roots, all normalized goal polynomials", "why_tests_cant": "correctness rests on inverting a 3^n system for every n and on Tarski queries", "anchors": ["vts/uni_vts.py:evaluate_single_on_sign_assignment", "vts/uni_vts.py:pick_sign_of_goal"]}
{"id": "C08", "title": "Infinitesimal sign evaluation gives the sign just to the right", "statement": "e_close_evaluate_single_on_sign_assignment(d, goal) for a root r returns the sign goal takes on some open interval (r, r+delta).", "quantifier": "all p, all roots r, all normalized goals", "why_tests_cant": "a statement about all sufficiently small positive delta", "anchors": ["vts/uni_vts.py:e_close_evaluate_single_on_sign_assignment"]}
{"id": "C09", "title": "Sign matrix maps sign counts to Tarski queries and is inverted", "statement": "For every n, get_matrix(n) times the vector of the numbers of points realising each of the 3^n sign vectors (ordered 0,+,-; first polynomial most significant) is the vector of Tarski-query values of the products in the order of make_product_list, and the matrix is invertible.", "quantifier": "all n, all lists of n polynomials, all finite sets of points", "why_tests_cant": "index conventions in three different functions have to agree for every n", "anchors": ["vts/matrix_of_signs.py:new_get_matrix", "vts/matrix_of_signs.py:new_get_matrix_inverse", "vts/uni_vts.py:make_product_list"]}
{"id": "C10", "title": "Matrix cache is transparent over histories and restarts", "statement": "In any sequence of get_matrix/get_matrix_inverse calls and process restarts on one cache directory that starts out empty, every call returns exactly what a fresh computation returns (including the refusals for n<1 and n>5).", "quantifier": "all call histories with restarts at any point between calls", "why_tests_cant": "histories are unbounded", "anchors": ["vts/matrix_of_signs.py:new_get_matrix", "vts/matrix_of_signs.py:new_get_matrix_inverse", "vts/matrix_of_signs.py:write_to_cache"]}
{"id": "C11", "title": "Matrix cache survives a crash in the middle of a write", "statement": "If the process is killed at any point, a later process using the same cache directory still gets correct matrices (or recomputes them).", "quantifier": "all crash points during write_to_cache", "why_tests_cant": "crash points cannot be enumerated by tests", "anchors": ["vts/matrix_of_signs.py:write_to_cache", "vts/matrix_of_signs.py:cache_hit", "vts/matrix_of_signs.py:read_cache"]}
{"id": "C12", "title": "Product list has all exponents in the documented order", "statement": "make_product_list([p1..pn]) has 3^n entries and entry number sum e_i*3^(n-i) is the product of p_i^e_i, e_i in {0,1,2}.", "quantifier": "all lists of polynomials of every length", "why_tests_cant": "unbounded n", "anchors": ["vts/uni_vts.py:make_product_list"]}
{"id": "C13", "title": "Coefficient-list multiplication and differentiation are exact", "statement": "multiply(p,q) denotes the product polynomial and derivative(p) the derivative; for inputs with nonzero leading coefficient the results again have nonzero leading coefficient (derivative: or are empty).", "quantifier": "all coefficient lists", "why_tests_cant": "all degrees and coefficients", "anchors": ["vts/uni_vts.py:multiply", "vts/uni_vts.py:derivative", "vts/uni_vts.py:evaluate_poly"]}
{"id": "C14", "title": "Term substitution decides univariate satisfiability", "statement": "internal_ts(le, lt, eq, ne) returns True exactly when some real x satisfies all the constraints.", "quantifier": "all finite lists of normalized polynomials", "why_tests_cant": "a statement about all x and all inputs", "anchors": ["vts/uni_vts.py:internal_ts", "vts/uni_vts.py:evaluate"]}
{"id": "C15", "title": "sympy-to-list conversion preserves the polynomial up to a positive factor", "statement": "For a univariate polynomial with rational coefficients convert returns integers [a0..ad], d the degree, with sum a_i x^i equal to a positive constant times the input, and the zero polynomial is converted to []; non-rational coefficients raise.", "quantifier": "all univariate rational polynomials and integer constants", "why_tests_cant": "all coefficient and degree combinations, denominators unbounded", "anchors": ["vts/isym.py:convert", "vts/isym.py:convert_rationals_to_ints", "vts/isym.py:convert_back"]}
{"id": "C16", "title": "The public vts entry decides rational constraint systems", "statement": "isym.vts(le, lt, eq, ne) on nonzero univariate rational polynomials returns, whenever it returns, True exactly when the constraint system has a real solution.", "quantifier": "all finite systems of nonzero rational polynomials", "why_tests_cant": "composition of conversion and decision over all inputs", "anchors": ["vts/isym.py:vts"]}
{"id": "C17", "title": "Sequent preprocessing reduces validity to unsatisfiability", "statement": "For a univariate sequent with nonempty antecedent and succedent, the systems produced by vts_preformat are all unsatisfiable exactly when, at every real x, the antecedent implies every succedent formula.", "quantifier": "all sequents with relations <=,<,=,!=,>=,> and all reals x", "why_tests_cant": "for all formulas and all x", "anchors": ["vts/checker.py:vts_preformat", "vts/checker.py:make_relation_map", "vts/checker.py:rewrite_to_less", "vts/checker.py:negate_relations"]}
{"id": "C18", "title": "Sequent checking uses the usual disjunctive reading of succedents", "statement": "A sequent is reported valid exactly when at every x where all antecedents hold at least one succedent holds (the reading used by the GRF tool on the same files).", "quantifier": "all sequents", "why_tests_cant": "needs agreement for every sequent", "anchors": ["vts/checker.py:vts_preformat", "GRF/smt2.py:perform_grf"]}
{"id": "C19", "title": "Relation rewriting and negation are exact", "statement": "rewrite_to_less returns a relation equivalent at every x that uses only <=,<,=,!= with zero right side; negate_relations returns a relation true exactly where the input is false.", "quantifier": "all six relation kinds, all polynomials, all x", "why_tests_cant": "for all polynomials and points", "anchors": ["vts/checker.py:rewrite_to_less", "vts/checker.py:negate_relations"]}
{"id": "C20", "title": "Example checking reports every formula", "statement": "check_examples, given any list of files, returns a result for every file, including those with an invalid formula.", "quantifier": "all directories of example files and all verdict patterns", "why_tests_cant": "all patterns of verdicts", "anchors": ["vts/checker.py:check_examples"]}
{"id": "C21", "title": "Muchnik closure terminates and is closed", "statement": "muchnik_sequence(S) terminates; its result contains S and is closed under derivative, dropping the leading term and pseudo-remainder by any member of positive degree (constants in the main variable are kept as sign conditions).", "quantifier": "all finite sets of polynomials in one main variable over a polynomial coefficient ring", "why_tests_cant": "termination over all inputs", "anchors": ["highschool_qe/muchnik.py:muchnik_sequence"]}
{"id": "C22", "title": "Muchnik complex quantifier elimination is an equivalence", "statement": "For polynomials eqs and neqs with parameters, the disjunction of conjunctions returned by complex_full holds at a parameter valuation in C exactly when some complex x makes all eqs zero and all neqs nonzero.", "quantifier": "all finite inputs having at least one parameter-dependent condition, all valuations", "why_tests_cant": "infinitely many parameters and inputs", "anchors": ["highschool_qe/muchnik.py:complex_full", "highschool_qe/muchnik.py:complex_extend"]}
{"id": "C23", "title": "Muchnik real quantifier elimination is an equivalence", "statement": "For polynomials with parameters, the disjunction returned by real_full holds at a real parameter valuation exactly when some real x satisfies all the sign constraints.", "quantifier": "all finite inputs having at least one parameter-dependent condition, all real valuations; exact column numbers (for floating point ones see C87)", "why_tests_cant": "infinitely many parameters and inputs", "anchors": ["highschool_qe/muchnik.py:real_full", "highschool_qe/muchnik.py:real_extend"]}
{"id": "C24", "title": "Real diagrams describe the true sign pattern", "statement": "For parameters realising the signs chosen for the coefficient conditions, real_extend never raises, and the resulting columns are exactly the sign vectors of the processed polynomials at their roots, on the intervals between roots, and at both infinities, in increasing order of x.", "quantifier": "all polynomial families closed under the Muchnik operations, all valuations; exact column numbers (for floating point ones see C87)", "why_tests_cant": "order and multiplicity of roots vary without bound", "anchors": ["highschool_qe/muchnik.py:real_extend"]}
{"id": "C25", "title": "Complex diagrams describe the true zero pattern", "statement": "For parameters realising the chosen zero/nonzero conditions, the diagram built by complex_extend lists exactly the zero patterns over C, each root class with its number of roots, plus the generic point.", "quantifier": "all closed families, all complex valuations", "why_tests_cant": "unbounded degrees and coincidences of roots", "anchors": ["highschool_qe/muchnik.py:complex_extend"]}
{"id": "C26", "title": "Parameter-free quantifier elimination result tells true from false", "statement": "For inputs without parameters the value returned by complex_full/real_full lets the caller distinguish a satisfiable from an unsatisfiable input.", "quantifier": "all parameter-free inputs", "why_tests_cant": "needs to hold for every input", "anchors": ["highschool_qe/muchnik.py:complex_full", "highschool_qe/muchnik.py:real_full"]}
{"id": "C27", "title": "Cohen-Hormander decides parameter-free sentences", "statement": "For parameter-free univariate rational polynomials, cohenhorm.real_full returns a nonempty list exactly when some real x satisfies all constraints.", "quantifier": "all finite nonempty lists of polynomials of any degree", "why_tests_cant": "all x, all inputs", "anchors": ["highschool_qe/cohenhorm.py:real_full", "highschool_qe/cohenhorm.py:_real_table"]}
{"id": "C28", "title": "Cohen-Hormander quantifier elimination is sound and complete with parameters", "statement": "Every returned context describes parameter values for which the constraints are satisfiable, and every satisfiable parameter value meets some returned context.", "quantifier": "all inputs with parameters, all valuations", "why_tests_cant": "infinitely many valuations", "anchors": ["highschool_qe/cohenhorm.py:real_full", "highschool_qe/cohenhorm.py:extend_single_table", "highschool_qe/cohenhorm.py:expand_context"]}
{"id": "C29", "title": "Cohen-Hormander sign tables are correct", "statement": "Each table computed for a list of parameter-free polynomials lists, in order, exactly the sign vectors at the roots and in the intervals between and beyond them.", "quantifier": "all lists of nonzero polynomials", "why_tests_cant": "unbounded number and coincidences of roots", "anchors": ["highschool_qe/cohenhorm.py:_real_table", "highschool_qe/cohenhorm.py:extend_single_table"]}
{"id": "C30", "title": "Memoised algebra calls are transparent", "statement": "In every history of calls through the caching wrapper each call returns what the uncached operation returns for the same arguments.", "quantifier": "all call histories, all operations", "why_tests_cant": "histories are unbounded", "anchors": ["highschool_qe/cachedsympywrapper.py"]}
{"id": "C31", "title": "Atom negation complements truth", "statement": "For an atom and an assignment covering its variables, evaluating the negated atom gives the opposite truth value; if a variable is missing both evaluations give None; negating twice gives an atom with the same truth.", "quantifier": "all atoms of the six relation kinds, all assignments", "why_tests_cant": "all polynomials and points", "anchors": ["GRF/grf.sage:RCF_Atom.negate", "GRF/grf.sage:RCF_Atom.eval_on_dict"]}
{"id": "C32", "title": "Goal evaluation matches sequent semantics", "statement": "Evaluating a goal on an assignment covering all its variables is true exactly when every hypothesis true at the point entails the goal atom at that point.", "quantifier": "all goals, all assignments", "why_tests_cant": "all points", "anchors": ["GRF/grf.sage:RCF_Goal.eval_on_dict"]}
{"id": "C33", "title": "Goal-directed decision loop terminates", "statement": "The check loop of the goal-directed decision procedure performs at most (number of hypotheses + 1) rounds, whatever the sample points found by the decision core.", "quantifier": "all goals, all answers of the decision core and of the optimiser", "why_tests_cant": "answers of external engines are arbitrary", "anchors": ["GRF/grf.sage:RCF_GD_Decide.check"]}
{"id": "C34", "title": "Goal-directed 'proved' answers are sound", "statement": "If check reports the goal proved, then the implication from all original hypotheses to the goal is valid, provided the core decision call is sound.", "quantifier": "all goals, all runs", "why_tests_cant": "for all reals and all runs", "anchors": ["GRF/grf.sage:RCF_GD_Decide.check", "GRF/grf.sage:RCF_GD_Decide.promote_right"]}
{"id": "C35", "title": "Hypothesis selection hits every counterexample", "statement": "Whenever the selection step returns a set of hypotheses, every recorded counterexample sample is falsified by at least one of them.", "quantifier": "all families of counterexample sets", "why_tests_cant": "all families", "anchors": ["GRF/grf.sage:RCF_GD_Decide.good_hyps", "GRF/grf.sage:RCF_GD_Decide.bad_subsets_on_dict"]}
{"id": "C36", "title": "The decision loop never crashes on a non-counterexample", "statement": "When the decision core returns samples that are not counterexamples to the full problem the loop continues with a new hypothesis rather than raising.", "quantifier": "all runs", "why_tests_cant": "all runs of external engines", "anchors": ["GRF/grf.sage:RCF_GD_Decide.check", "GRF/grf.sage:RCF_GD_Decide.good_hyps"]}
{"id": "C37", "title": "Adding an equational hypothesis preserves meaning", "statement": "add_goal_hyp leaves the set of points satisfying all hypotheses of the goal equal to the old set intersected with the new hypothesis.", "quantifier": "all goals and equations, all points", "why_tests_cant": "all polynomials and points", "anchors": ["GRF/grf.sage:RCF_Goal.add_goal_hyp"]}
{"id": "C38", "title": "Root isolation covers all roots", "statement": "iso_root_intvls returns intervals/points that cover every real root of every polynomial in its input.", "quantifier": "all lists of univariate polynomials", "why_tests_cant": "all polynomials", "anchors": ["GRF/grf.sage:QE_Factory.iso_root_intvls"]}
{"id": "C39", "title": "Sector sampling can find a witness for any satisfiable strict or disequality hypothesis", "statement": "For a hypothesis in one variable, the sample points chosen for sectors include a point where the hypothesis holds if one exists in that sector class.", "quantifier": "all hypotheses kinds", "why_tests_cant": "all polynomials", "anchors": ["GRF/grf.sage:QE_Factory.sector_sps"]}
{"id": "C40", "title": "Projection order is a permutation sorted by the statistics", "statement": "The variable order chosen for projection is a permutation of the variables, non-increasing in the chosen statistics.", "quantifier": "all variable sets and statistics", "why_tests_cant": "all inputs", "anchors": ["GRF/grf.sage:ProjOrd"]}
{"id": "C41", "title": "Promotion only moves hypotheses", "statement": "Along any run, every hypothesis is in exactly one of the selected and the remaining lists, and the union is the original list.", "quantifier": "all sequences of promotions", "why_tests_cant": "unbounded sequences", "anchors": ["GRF/grf.sage:RCF_GD_Decide.promote_right"]}
{"id": "C42", "title": "Variable naming is stable and injective", "statement": "In any history of requests one textual variable name always maps to the same ring generator and different names map to different generators; when the generators are exhausted the ring is extended and the earlier generators keep their meaning.", "quantifier": "all histories of variable requests", "why_tests_cant": "Histories are unbounded and the ring grows at particular lengths only.", "anchors": ["GRF/smt2.py:SMTContext.get_ring_var"]}
{"id": "C43", "title": "Reported hidable formulas are formulas of the input", "statement": "The indices reported as hidable by perform_grf are positions in the antecedent (respectively succedent) lists of the given sequent.", "quantifier": "all sequents and all subsets of hypotheses used", "why_tests_cant": "all runs", "anchors": ["GRF/smt2.py:perform_grf"]}
{"id": "C44", "title": "Multi-succedent sequents are reduced soundly", "statement": "The single-goal problem solved by perform_grf is valid exactly when the sequent (disjunctive succedent) is valid.", "quantifier": "all sequents, all points", "why_tests_cant": "all points", "anchors": ["GRF/smt2.py:perform_grf"]}
{"id": "C45", "title": "Vector and dictionary forms of a point are inverse", "statement": "With a fixed variable order, converting an assignment to a vector and back gives the same assignment, and vice versa; the order in force is that of the most recent problem.", "quantifier": "all variable sets, assignments and histories of problems", "why_tests_cant": "histories", "anchors": ["GRF/local_search.py:VarOrder"]}
{"id": "C46", "title": "Local search performs its repetitions and returns useful points", "statement": "local_search_sampling performs the configured ten repetitions of its search chain, and every returned point other than the given one does not make the main goal true.", "quantifier": "all problems, starting points, solvers and random choices", "why_tests_cant": "Ranges over all behaviours of the numerical solver and all random choices.", "anchors": ["GRF/local_search.py:local_search_sampling"]}
{"id": "C47", "title": "Job scheduler bookkeeping", "statement": "In every schedule of completions and timeouts, at most Cores jobs run at once, every job is started exactly once and recorded exactly once as finished or timed out, and the loop ends once every job has been recorded.", "quantifier": "all numbers of jobs, at least one core, all completion/timeout orders; a clock that is not bounded; every job that ends has stored a result (for others see C61)", "why_tests_cant": "all interleavings", "anchors": ["GRF/test.py:main loop"]}
{"id": "C48", "title": "Sequent files parse back to what was written", "statement": "Printing a sequent in the documented s-expression syntax and parsing it yields the same sequent.", "quantifier": "all formulas of any depth whose variables are not named sympy or cmd (see C65)", "why_tests_cant": "unbounded nesting", "anchors": ["vts/grf_parser.py", "vts/examples_parser.py"]}
{"id": "C49", "title": "Normalising a relation to one variable preserves truth", "statement": "make_univariate turns l R r in a single variable into (l-r) R 0 in x with the same truth value at every point.", "quantifier": "all relations between polynomials with integer constants in one variable that sympy does not evaluate to a truth value when they are read (see C66), all points", "why_tests_cant": "all points", "anchors": ["vts/examples_parser.py:make_univariate"]}
{"id": "C50", "title": "Callers cannot corrupt cached sign matrices", "statement": "Modifying a matrix returned by get_matrix/get_inverse does not change what later calls return.", "quantifier": "all histories of calls and in-place modifications by the caller", "why_tests_cant": "unbounded histories of interleaved calls and modifications", "anchors": ["vts/matrix_of_signs.py:get_matrix", "vts/matrix_of_signs.py:get_inverse"]}
{"id": "C51", "title": "Partial evaluation is sound", "statement": "If evaluating an atom at an assignment of only some of the variables gives a truth value, then that is its truth value at every extension of the assignment.", "quantifier": "all atoms reachable by construction, negation and simplification, all partial assignments and all extensions", "why_tests_cant": "The quantifier over extensions ranges over infinitely many points of a field.", "anchors": ["GRF/grf.sage:RCF_Atom.eval_on_dict", "GRF/grf.sage:RCF_Atom.quotient_ring_inject"]}
{"id": "C52", "title": "The projection filter loses no zeros", "statement": "filter_proj_set keeps, for every polynomial that is not constant, a polynomial with the same zeros, adds none with other zeros, and has no duplicates.", "quantifier": "all sets of polynomials, all points", "why_tests_cant": "all polynomials and points", "anchors": ["GRF/grf.sage:QE_Factory.filter_proj_set", "GRF/grf.sage:QE_Factory.pure_poly_base"]}
{"id": "C53", "title": "Hiding is sound", "statement": "If perform_grf returns a hiding result, the sequent that is left when exactly the reported formulas are removed is valid (and hence the given one), provided the core decision call is sound.", "quantifier": "all sequents, all runs of the loop", "why_tests_cant": "Validity quantifies over all real points and the statement over all sequents and all behaviours of the sampling core.", "anchors": ["GRF/smt2.py:perform_grf", "GRF/grf.sage:RCF_GD_Decide.check"]}
{"id": "C54", "title": "Reading a formula preserves its meaning", "statement": "The atom built for a formula of an input file has the truth value of the formula at every assignment of reals to the names (at which no divisor is zero).", "quantifier": "all formulas, all sequences of formulas read in one context, all points", "why_tests_cant": "Terms are unbounded trees and the ring grows while they are read.", "anchors": ["GRF/smt2.py:ParseSMT"]}
{"id": "C55", "title": "Hiding results for input files are sound", "statement": "If processing a sequent command ends with a hiding result, the remaining formulas of the text still form a valid sequent.", "quantifier": "all sequent commands, all assignments to the names", "why_tests_cant": "End-to-end statement over all inputs and all real points.", "anchors": ["GRF/smt2.py:processCommands", "GRF/smt2.py:perform_grf"]}
{"id": "C56", "title": "Numerals denote numbers", "statement": "Every numeral in an input file is read as the number it denotes.", "quantifier": "all formulas", "why_tests_cant": "Depends on the lexical form of numerals.", "anchors": ["GRF/smt2.py:ParseSMT"]}
{"id": "C57", "title": "Proved sequents are valid (one variable)", "statement": "If the goal-directed check of a sequent reports that the right-hand side is true, then the sequent holds at every real point.", "quantifier": "all sequents in one variable, all real points, all isolations and random choices", "why_tests_cant": "Validity ranges over all real numbers; the sample points are random.", "anchors": ["GRF/grf.sage:RCF_GD_Decide.check", "GRF/grf.sage:QE_Factory.sample_pt_dicts", "GRF/grf.sage:QE_Factory.sector_sps"]}
{"id": "C58", "title": "Sample points are total assignments", "statement": "Every assignment produced by the sampling core gives exactly one value to each of the variables and to nothing else.", "quantifier": "all polynomial sets, goals, numbers of variables and random choices", "why_tests_cant": "The number of levels and the projection order are input dependent.", "anchors": ["GRF/grf.sage:QE_Factory.sample_pt_dicts", "GRF/grf.sage:QE_Factory.lifting_phase"]}
{"id": "C59", "title": "The check works with its default arguments", "statement": "Calling the check of a sequent without optional arguments produces a verdict, for any number of variables.", "quantifier": "all sequents", "why_tests_cant": "Holds for one variable and fails for every larger number of variables, whatever the polynomials.", "anchors": ["GRF/grf.sage:RCF_GD_Decide.check", "GRF/grf.sage:QE_Factory.stack_over_cell"]}
{"id": "C60", "title": "Short-circuiting loses no counterexample", "statement": "Skipping the cells over which the goal is already decided true removes no sample point at which the goal is false, compared with building the complete tree of sample points; and it adds none.", "quantifier": "all polynomial sets, goals, numbers of variables and random choices", "why_tests_cant": "Quantifies over all trees of sample points of any depth.", "anchors": ["GRF/grf.sage:QE_Factory.stack_over_cell", "GRF/grf.sage:RCF_Goal.eval_on_dict"]}
{"id": "C61", "title": "A failing job does not stop the test harness", "statement": "If the process of one job ends without a result, the other jobs are still run to completion and recorded.", "quantifier": "all numbers of jobs, cores and all schedules", "why_tests_cant": "Depends on the schedule and on which job fails.", "anchors": ["GRF/test.py:main loop"]}
{"id": "C62", "title": "The local search equation flips the chosen hypothesis", "statement": "Every exact solution of the equation handed to the numerical solver gives the polynomial of the chosen hypothesis the opposite sign, and a nonzero value if it was zero.", "quantifier": "all polynomials, points and margins", "why_tests_cant": "Ranges over all polynomials and points.", "anchors": ["GRF/local_search.py:get_num_flipping_func"]}
{"id": "C63", "title": "No sequent of a file is lost", "statement": "A sequent that starts in a file is either returned or reported as an error; none is left out silently.", "quantifier": "all file contents", "why_tests_cant": "Depends on every possible malformed or unsupported sequent text.", "anchors": ["vts/grf_parser.py:cmd", "vts/grf_parser.py:parse_file"]}
{"id": "C64", "title": "Reading time is proportional to the input", "statement": "The number of parse actions performed when reading a file is bounded by a polynomial in its length.", "quantifier": "all file contents", "why_tests_cant": "A growth rate cannot be observed on finitely many files.", "anchors": ["vts/grf_parser.py:expr", "vts/grf_parser.py:parse_file"]}
{"id": "C65", "title": "Reading a file raises no exception", "statement": "Reading any list of text files returns a result, whatever the names of the variables in them.", "quantifier": "all lists of file contents", "why_tests_cant": "Ranges over all texts and all orders of files.", "anchors": ["vts/grf_parser.py:proc_var", "vts/grf_parser.py:parse_file", "vts/examples_parser.py:parse_examples"]}
{"id": "C66", "title": "Every sequent that was read can be converted", "statement": "Converting the sequents of the example directories to one variable succeeds for every directory of sequents that was read.", "quantifier": "all directories, files and sequents", "why_tests_cant": "Depends on every relation of every file; one of them decides the outcome for all.", "anchors": ["vts/examples_parser.py:examples_preformat_uni", "vts/examples_parser.py:make_univariate"]}
{"id": "C67", "title": "Conversion to one variable preserves validity", "statement": "The sequent obtained by conversion to one variable is valid over the reals exactly when the original is.", "quantifier": "all sequents over polynomials", "why_tests_cant": "Ranges over all polynomials, numbers of variables and real points.", "anchors": ["vts/examples_parser.py:make_univariate"]}
{"id": "C68", "title": "From file to verdict", "statement": "For a file of sequents in one variable each, the verdicts reported after reading, conversion and checking say which sequents are valid over the reals, in order; verdicts are reached for degrees up to five.", "quantifier": "all files, whitespace, sequents and polynomials", "why_tests_cant": "Composes all stages over infinitely many inputs.", "anchors": ["vts/grf_parser.py:parse_file", "vts/examples_parser.py:examples_preformat_uni", "vts/checker.py:check_examples", "vts/isym.py:vts"]}
{"id": "C69", "title": "Partial procedures show the pattern of the answers", "statement": "If the values given for the coefficients with parameters (typed in or by one of the automatic assignments) are the truth at some values of the parameters, the partial procedures compute the zero or sign pattern of the polynomials at these values. Lines typed in that are not allowed have no effect; too few answers end in the end-of-input exception; the complex procedure raises for no answers, the real one at most DiagramExc, and only for answers that are true nowhere.", "quantifier": "all families of polynomials, lines typed in, parameter values and fields; exact column numbers (for floating point ones see C87)", "why_tests_cant": "Infinitely many polynomials, typed inputs and parameter values.", "anchors": ["highschool_qe/muchnik.py:complex_partial", "highschool_qe/muchnik.py:real_partial", "highschool_qe/muchnik.py:c_assignment_interactive", "highschool_qe/muchnik.py:r_assignment_interactive", "highschool_qe/muchnik.py:_get_interactive_value"]}
{"id": "C70", "title": "Partial procedures work with their default assigner and show their result", "statement": "Called without an assigner, the partial procedures ask the user for the values; the diagram printed is that of the input polynomials.", "quantifier": "all families of polynomials", "why_tests_cant": "Holds or fails for every input.", "anchors": ["highschool_qe/muchnik.py:complex_partial", "highschool_qe/muchnik.py:real_partial"]}
{"id": "C71", "title": "The interactive mode is sound whatever is typed in", "statement": "In the interactive mode the user chooses the hypotheses to promote. Whatever is typed in: if check returns, the promoted hypotheses imply the goal; only hypotheses of which the user typed the number are promoted (until go is typed); b, p and unknown words change nothing; a session that begins with go has the result of the automatic mode; there are at most as many promotions as hypotheses; and the solver is not used unless s or go is typed.", "quantifier": "all sequents, all sequences of typed lines", "why_tests_cant": "All histories of a dialogue.", "anchors": ["GRF/grf.sage:RCF_GD_Decide.check"]}
{"id": "C72", "title": "Proved sequents are valid (any number of variables)", "statement": "If the goal-directed check reports that the right-hand side is true, then the promoted hypotheses imply the goal at every real point, in any number of variables: the sample points meet every cell of the decomposition on which the polynomials do not vanish, and not factoring the projection polynomials affects neither soundness nor completeness, as the comment at the projection says.", "quantifier": "all numbers of variables, all sequents whose negations are strict, all real points, all isolations, random choices, solvers and local searches", "why_tests_cant": "Validity ranges over all points of a space of any dimension, and depends on how roots move over connected sets.", "anchors": ["GRF/grf.sage:QE_Factory.bm_proj", "GRF/grf.sage:QE_Factory.filter_proj_set", "GRF/grf.sage:QE_Factory.proj_phase", "GRF/grf.sage:QE_Factory.stack_over_cell", "GRF/grf.sage:QE_Factory.sample_pt_dicts", "GRF/grf.sage:RCF_GD_Decide.check"]}
{"id": "C73", "title": "Selected hypotheses are irredundant and related to the goal", "statement": "Each hypothesis chosen by the selection step is needed: some counterexample sample of the round is falsified by it and by no other chosen hypothesis. A hypothesis that shares no variable with the goal is chosen only when every choice among the related hypotheses is missing or too expensive.", "quantifier": "all states, samples and families of counterexample sets, every optimal solver", "why_tests_cant": "The weights depend on all hypotheses and the goal, and optimality is about all subsets.", "anchors": ["GRF/grf.sage:RCF_GD_Decide.good_hyps", "GRF/grf.sage:RCF_GD_Decide.weight_hyps"]}
{"id": "C74", "title": "Files are read and decided as written", "statement": "The outcome of grf_on_file depends on the file only through the sequents written in it: any white space between and inside sequents is allowed, every text has at most one reading, and if the call returns, the text consists of sequents (at least one). If it returns, in the automatic or interactive mode and whatever is typed in, then at every assignment of values to the names in the text for which no divisor is zero, some formula of the succedent of the last sequent that is not reported follows from the formulas of its antecedent that are not reported.", "quantifier": "all texts, both modes, all sequences of typed lines, all assignments of values to names", "why_tests_cant": "All texts of all layouts, and validity over all points.", "anchors": ["GRF/smt2.py:ParseSMT", "GRF/smt2.py:SMTContext", "GRF/smt2.py:grf_on_file"]}
{"id": "C75", "title": "Every sequent of a file gets a hiding result", "statement": "A file may contain any number of sequents (the grammar has ZeroOrMore); the output has a hiding result for each of them.", "quantifier": "all files", "why_tests_cant": "All files with any number of sequents.", "anchors": ["GRF/smt2.py:grf_on_file", "GRF/smt2.py:ParseSMT"]}
{"id": "C76", "title": "Errors are reported; the result can be read back", "statement": "A text that is not a sequence of sequents, or that contains no sequent, leads to an exception and no output file is written. The text of the result determines the name of the sequent and the two lists of formulas to hide.", "quantifier": "all texts, all names and lists of numbers", "why_tests_cant": "Injectivity and rejection are about all pairs of results and all texts.", "anchors": ["GRF/smt2.py:grf_on_file", "GRF/smt2.py:ParseSMT.processCommands"]}
{"id": "C77", "title": "A sequent can be processed in a given context", "statement": "processCommands(s, context=c) processes the sequents of s in the context c and returns it with the result; after clearContext the next call works in a new context and returns it with the result.", "quantifier": "all texts, all contexts", "why_tests_cant": "All histories of calls.", "anchors": ["GRF/smt2.py:ParseSMT.processCommands", "GRF/smt2.py:ParseSMT.clearContext"]}
{"id": "C78", "title": "Nothing is read that is not written", "statement": "Every sequent that parse_files_from_dir returns for a file name is written in the last file with that name: its name, relations and terms stand in the text in this order, and the sequents of a file stand one after the other without overlap. The keys of the result are the names of the files.", "quantifier": "all files with any contents", "why_tests_cant": "Depends on every possible text.", "anchors": ["vts/grf_parser.py:cmd", "vts/examples_parser.py:parse_files_from_dir"]}
{"id": "C79", "title": "Lists of formulas are read as written", "statement": "ParseSMT().fmlsTokenList(s) returns only if s consists of formulas; then it returns one atom for each of them, in order, and for all values of the names in s there are values of the variables at which each atom is true just if its formula is (where no divisor is zero). A text of formulas without division is always read.", "quantifier": "all texts, all values of the names", "why_tests_cant": "All texts of all layouts, and equivalence at all points.", "anchors": ["GRF/smt2.py:ParseSMT.fmlsTokenList"]}
{"id": "C80", "title": "Written examples are read back", "statement": "The examples that write_sympy_parseable_examples stores are those that unpickle_dirs returns and check_examples checks: for every source file, its examples under its name.", "quantifier": "all directories of source files, all contents, all earlier states of the example directory", "why_tests_cant": "All file systems and contents; the difference in the spelling of a directory shows only on some systems.", "anchors": ["vts/examples_parser.py:write_sympy_parseable_examples", "vts/examples_parser.py:unpickle_dirs", "vts/checker.py:check_examples"]}
{"id": "C81", "title": "Writing examples survives a crash", "statement": "If write_sympy_parseable_examples is stopped at any point, no file other than the stored ones is changed, at most one stored file is incomplete, and running it again gives the same state as an undisturbed run. If reading or converting the examples fails, nothing is changed.", "quantifier": "all crash points, file systems and contents", "why_tests_cant": "All points at which the program can be stopped.", "anchors": ["vts/examples_parser.py:write_sympy_parseable_examples"]}
{"id": "C82", "title": "A check depends only on what is checked", "statement": "The outcome of check_examples depends only on the stored files whose examples are checked.", "quantifier": "all file systems", "why_tests_cant": "All contents of files that should not matter.", "anchors": ["vts/checker.py:check_examples", "vts/examples_parser.py:unpickle_dirs_gen"]}
{"id": "C83", "title": "The rows of the quantifier elimination tables depend only on the set of input polynomials", "statement": "Muchnik's procedure extends its input polynomials to a closed collection, whose members are the rows of its tables. From two input lists with the same polynomials, in whatever order and with whatever repetitions, the same rows are obtained, each once. The rows come in the order of a key made of the exponents and the leading scalars. If there are no parameters, the two lists of rows are equal, order included.", "quantifier": "all lists of input polynomials over every integral domain of coefficients, all reorderings and repetitions of them", "why_tests_cant": "A test compares a few orders of a few inputs; the claim concerns the fixed point of a worklist algorithm for all inputs and orders of processing.", "anchors": ["highschool_qe/muchnik.py: Muchnik.muchnik_sequence, Muchnik._poly_deg_key", "highschool_qe/sympywrapper.py: SympyWrapper.LS"]}
{"id": "C84", "title": "The lightest selected hypothesis is used first", "statement": "In automatic mode the filter announces that it sorts the selected hypotheses by weight and promotes the first one. So the promoted hypothesis is one of the selected ones, none of which has a smaller weight (the weight used for the selection).", "quantifier": "all states, samples, families of counterexample sets and results of the solver", "why_tests_cant": "The order matters only for selections of several hypotheses with different degrees and numbers of variables, and concerns every state.", "anchors": ["GRF/grf.sage: RCF_GD_Decide.check", "GRF/grf.sage: RCF_GD_Decide.weight_hyps"]}
{"id": "C85", "title": "Each step of local search makes a true hypothesis false", "statement": "Each of the two steps of local_search_sampling chooses a hypothesis that is true at the current point whenever there is one, the solution returned by an exact numerical solver makes this hypothesis false, and of the solution and the 25 points around it exactly those at which the main goal is false are kept; the search raises no exception when there is a hypothesis and all variables have values.", "quantifier": "all problems, starting points, random choices and numerical solvers", "why_tests_cant": "Ranges over all problems, points and behaviours of the numerical solver.", "anchors": ["GRF/local_search.py:local_search_sampling", "GRF/local_search.py:choose_atom_true", "GRF/local_search.py:get_num_flipping_func"]}
{"id": "C86", "title": "Several processes can share one cache directory", "statement": "Processes that run at the same time in one working directory and share its cache get the same matrices and inverses as processes that run alone; none waits for another.", "quantifier": "all schedules of any number of processes: starts, calls, single file operations in any interleaving, ends and kills", "why_tests_cant": "interleavings of file operations of several processes cannot be enumerated by tests", "anchors": ["vts/matrix_of_signs.py:write_to_cache", "vts/matrix_of_signs.py:cache_hit", "vts/matrix_of_signs.py:read_cache", "vts/matrix_of_signs.py:get_matrix", "vts/matrix_of_signs.py:get_matrix_inverse", "vts/matrix_of_signs.py:load_or_create_inverse"]}
{"id": "C87", "title": "Floating point columns do not change the answers of real elimination", "statement": "The real Muchnik procedures, whose diagram columns are doubles computed by repeated halving, give the same diagrams and answers as with exact column numbers; in particular real_full says that a system is satisfiable exactly when it is.", "quantifier": "all systems of sign conditions, all numbers of polynomials and roots, all parameter values", "why_tests_cant": "the rounding only shows after more than fifty nested halvings, on inputs larger than any test uses", "anchors": ["highschool_qe/muchnik.py:real_extend", "highschool_qe/muchnik.py:real_full", "highschool_qe/muchnik.py:real_partial", "highschool_qe/muchnik.py:r_assignment_all_zero"]}
{"id": "C88", "title": "Numbers in remainder sequences stay of polynomial size", "statement": "The coefficients that tarski_query(p, q) computes in the signed remainder sequence have a number of digits bounded by a polynomial in the lengths of p and q and the numbers of digits of their coefficients.", "quantifier": "all polynomials p and q with integer coefficients, all degrees", "why_tests_cant": "growth is an asymptotic statement over all degrees; tests use small degrees where even doubling digits go unnoticed", "anchors": ["vts/uni_vts.py:signed_pseudo_remainder", "vts/uni_vts.py:signed_remainder_sequence", "vts/uni_vts.py:tarski_query"]}
{"id": "C89", "title": "Tarski queries do not exhaust the interpreter's stack", "statement": "tarski_query(p, q) returns its value whatever the degrees of p and q are: it is never ended by the interpreter's limit on active calls, and that limit never changes a returned value.", "quantifier": "all polynomials, all degrees, all recursion limits", "why_tests_cant": "a limit on active calls is only met beyond a certain degree; tests with small degrees pass and say nothing about which degrees fail", "anchors": ["vts/uni_vts.py:tarski_query", "vts/uni_vts.py:signed_remainder_cauchy_index", "vts/uni_vts.py:signed_remainder_sequence", "vts/uni_vts.py:signed_pseudo_remainder"]}
{"id": "C90", "title": "The decision takes polynomially many operations", "statement": "Whether it answers or raises, a call of the decision procedure makes a number of Tarski queries that is at most quadratic, and a number of coefficient multiplications that is at most of fifth degree, in the number of coefficients of the given constraints; the sign of one polynomial at one root takes exactly 3^(k+1) queries if k derivatives describe the root.", "quantifier": "all constraint lists of all lengths and degrees over an ordered ring; all environments in which no polynomial has more roots than coefficients", "why_tests_cant": "Timing a few inputs says nothing about growth; a bound on the number of operations must hold for every input, including those on which the procedure raises.", "anchors": ["vts/uni_vts.py: internal_vts, evaluate_on_sign_assignment, e_close_evaluate_single_on_sign_assignment, evaluate_single_on_sign_assignment, make_product_list, tarski_query, signed_remainder_sequence, signed_pseudo_remainder, multiply"]}
{"id": "C91", "title": "The three decision procedures agree", "statement": "On the same constraints p < 0, q = 0, r > 0 in one variable with number coefficients, Muchnik's real_full reports a satisfiable table if and only if Cohen-Hormander's real_full returns a sign condition, and whenever virtual term substitution (internal_vts, given -r < 0 for r > 0) returns, it returns True exactly then; all three answers say whether a real number meets the constraints.", "quantifier": "all finite lists of integer polynomials of any degree with nonzero leading coefficients", "why_tests_cant": "The procedures are independent programs with different data structures; a test compares them on a few inputs only.", "anchors": ["highschool_qe/muchnik.py:real_full", "highschool_qe/cohenhorm.py:real_full", "vts/uni_vts.py:internal_vts"]}
{"id": "C92", "title": "The direct calculation of a sign always succeeds and agrees with the Tarski queries", "statement": "For the description of a root that get_discri_der_signs makes, get_sign_by_direct_calc never raises \"didn't have a good value\" (the comment there: must be impossible) and returns the sign of the last polynomial at the described root, however many derivatives are recorded; the sign determination by Tarski queries returns the same sign whenever it returns one.", "quantifier": "all polynomials with a nonzero leading coefficient, all their real roots, all goal polynomials", "why_tests_cant": "The claim is about every root of every polynomial; the check is only reachable by editing a comment.", "anchors": ["vts/uni_vts.py:get_sign_by_direct_calc", "vts/uni_vts.py:evaluate_single", "vts/uni_vts.py:get_discri_der_signs"]}
{"id": "C93", "title": "Size of the Muchnik family and of the answer", "statement": "From n polynomials of degree at most d in the eliminated variable, muchnik_sequence ends after at most n + 2*(n+1)^(2^(d+2)) nested calls with at most (n+1)^(2^(d+1)) polynomials; with that depth real_full and complex_full answer, and return at most 3^((n+1)^(2^(d+1))) (over the complex numbers 2^((n+1)^(2^(d+1)))) conjunctions.", "quantifier": "all finite lists of polynomials over an integral domain, all degrees", "why_tests_cant": "Termination and a bound for a closure under remainders, derivatives and tails concern every input; tests run on a few small ones only.", "anchors": ["highschool_qe/muchnik.py:muchnik_sequence", "highschool_qe/muchnik.py:real_full", "highschool_qe/muchnik.py:complex_full"]}
{"id": "C94", "title": "The Muchnik procedure answers within Python's recursion limit", "statement": "On every input, real_full and complex_full answer without exceeding the recursion limit of the interpreter (muchnik_sequence calls itself once for every polynomial it takes from its list).", "quantifier": "all inputs, all recursion limits", "why_tests_cant": "Tests use small degrees; the depth needed grows with the input without bound.", "anchors": ["highschool_qe/muchnik.py:muchnik_sequence"]}
{"id": "C95", "title": "Returned cases exclude each other", "statement": "At every value of the parameters at most one of the conjunctions returned by real_full (of muchnik and of cohenhorm) and complex_full holds.", "quantifier": "all inputs on which the procedures answer, all values of the parameters in any ordered field (for complex_full any field)", "why_tests_cant": "Quantifies over all inputs and over all parameter values, of which there are infinitely many.", "anchors": ["highschool_qe/muchnik.py:real_full", "highschool_qe/muchnik.py:complex_full", "highschool_qe/cohenhorm.py:real_full"]}
{"id": "C96", "title": "Returned cases are possible", "statement": "Each of the conjunctions returned by real_full and complex_full holds at some value of the parameters.", "quantifier": "all inputs, all returned conjunctions", "why_tests_cant": "A test sees only a few of the returned conjunctions and cannot decide that one has no solution.", "anchors": ["highschool_qe/muchnik.py:real_full", "highschool_qe/muchnik.py:complex_full", "highschool_qe/cohenhorm.py:real_full"]}
{"id": "C97", "title": "The number of sample points is at most doubly exponential", "statement": "For m different polynomials of total degree at most D in n variables, and s sample points asked for in each gap, the sampling core returns at most (s' + 1)^n * (2 (m + 1) D)^(2^n - 1) sample points (s' = max(1, s)), and the projection set i levels below one with m polynomials has at most (m + 1)^(2^i) - 1 elements.", "quantifier": "all lists of polynomials, all numbers of variables and degrees, all goals (with and without cutting), all random numbers, every right root isolation, resultant and discriminant", "why_tests_cant": "a bound for all inputs; the sizes grow too fast for tests to reach a third variable with many polynomials", "anchors": ["GRF/grf.sage:QE_Factory.bm_proj", "GRF/grf.sage:QE_Factory.iso_root_intvls", "GRF/grf.sage:QE_Factory.sector_sps", "GRF/grf.sage:QE_Factory.stack_over_cell", "GRF/grf.sage:QE_Factory.lifting_phase", "GRF/grf.sage:QE_Factory.sample_pt_dicts"]}
{"id": "C98", "title": "The Cohen-H\u00f6rmander procedure ends on every input", "statement": "On every input real_full and real_table of cohenhorm end, with an answer or with an exception. The depth of the recursion for n polynomials of degree at most d in the eliminated variable is at most B(d, n), where B(0, n) = n + 1 and B(d+1, n) = n + B(d, 2^n * n).", "quantifier": "all finite lists of polynomials over a commutative ring, all degrees, also inputs on which an exception is raised", "why_tests_cant": "Termination concerns every input; the number of polynomials can double in each call, so that it is not clear from examples that the recursion ends.", "anchors": ["highschool_qe/cohenhorm.py:_real_table", "highschool_qe/cohenhorm.py:real_full", "highschool_qe/cohenhorm.py:expand_context"]}
{"id": "C99", "title": "The Cohen-H\u00f6rmander procedure answers within Python's recursion limit", "statement": "On every input real_full of cohenhorm answers without exceeding the recursion limit of the interpreter (_real_table calls itself with the derivative of its highest polynomial).", "quantifier": "all inputs, all recursion limits", "why_tests_cant": "Tests use small degrees; the depth needed grows with the input without bound.", "anchors": ["highschool_qe/cohenhorm.py:_real_table"]}
{"id": "C100", "title": "The two real quantifier eliminations return the same result", "statement": "As documented (README: \"Returns: Same as muchnik\"), real_full of cohenhorm returns the same list of conjunctions as real_full of muchnik.", "quantifier": "all inputs", "why_tests_cant": "The documentation shows one example; equality of results quantifies over all inputs.", "anchors": ["highschool_qe/README.md", "highschool_qe/cohenhorm.py:real_full", "highschool_qe/muchnik.py:real_full"]}
{"id": "C101", "title": "Promoting an equation never makes a false sequent provable", "statement": "When an equation among the hypotheses is promoted and used to simplify the hypotheses promoted before, the later rounds still look at every sample point where the simplified goal is false; in particular a sequent that is false at some real point is not reported as proved because of the simplification.", "quantifier": "all sequents, rounds, projections and random choices, with right Groebner bases, resultants and root isolation and an optimal solver", "why_tests_cant": "The skipped cells depend on the history of promotions and on which variables were recorded when an atom was created; all sequents and histories have to be considered.", "anchors": ["GRF/grf.sage:RCF_Goal.add_goal_hyp", "GRF/grf.sage:RCF_Atom.quotient_ring_inject", "GRF/grf.sage:RCF_Atom.eval_on_dict", "GRF/grf.sage:QE_Factory.stack_over_cell", "GRF/grf.sage:RCF_GD_Decide.check"]}
{"id": "C102", "title": "Deciding a sequent leaves the caller's formulas unchanged", "statement": "After a sequent has been decided or filtered, the formula objects that the caller passed in (hypotheses, goal, antecedent and succedent) still say what they said before, so that they can be used in another sequent.", "quantifier": "all lists of hypotheses and goals given as pairwise different objects, all sequences of promotions, all sequents", "why_tests_cant": "Whether an object is rewritten depends on which hypotheses are promoted and in which order, that is, on all the sample points met; a test sees one run and usually looks at the answer only.", "anchors": ["GRF/grf.sage: RCF_Atom.quotient_ring_inject, RCF_Atom.negate, RCF_Goal.add_goal_hyp, RCF_GD_Decide.promote_right, check", "GRF/smt2.py: SMTContext.perform_grf"]}
{"id": "C103", "title": "A decider can be used for several goals", "statement": "A decider object can be used for a sequence of goals: over any history of asserting hypotheses, asserting goals and checking, a check that returns means that the current goal follows from the hypotheses asserted so far, and the outcome of a check is that of a new decider with the same hypotheses and goal.", "quantifier": "all sequences of assertions of hypotheses, assertions of goals and checks, including checks that raise an exception that the caller catches", "why_tests_cant": "Histories are unbounded; the effect shows only when a goal is asserted after a check that promoted a hypothesis, and the existing tests use each object once.", "anchors": ["GRF/grf.sage: RCF_GD_Decide.assert_hyps, assert_goal, promote_right, check"]}
{"id": "C104", "title": "The outcome of a query does not depend on how it is written", "statement": "Two calls of vts (or internal_vts) whose four lists have the same members, in any order and with any repetitions, have the same outcome; two systems with the same solutions never receive different answers.", "quantifier": "all quadruples of lists of normalized univariate polynomials, all rearrangements and repetitions of them", "why_tests_cant": "There are unboundedly many rearrangements, and the ones that differ need a polynomial with six roots of six different multiplicities.", "anchors": ["vts/uni_vts.py: internal_vts, get_discri_der_signs, evaluate_single_on_sign_assignment", "vts/matrix_of_signs.py: new_get_matrix_inverse"]}
{"id": "C105", "title": "A reported counterexample is a counterexample", "statement": "If check ends with \"Counterexample!\", then at one of the points that it has looked at the hypotheses of the original sequent are all true and the goal is false; in particular no counterexample is reported for a valid sequent.", "quantifier": "all sequents (any number of variables, hypotheses, relations), all sample points, all results of local search, all choices of the solver, any number of rounds", "why_tests_cant": "The exception is raised after hypotheses have been promoted and rewritten by each other, and the valid sequents for which it is raised need two equations and three rounds.", "anchors": ["GRF/grf.sage: RCF_GD_Decide.check, RCF_GD_Decide.bad_subsets_on_dict, RCF_GD_Decide.promote_right, RCF_Goal.add_goal_hyp, RCF_Goal.eval_on_dict"]}
{"id": "C106", "title": "Eliminating several variables one after the other", "statement": "Calling real_full (complex_full) for one variable after the other, each time on all the conjunctions returned so far, ends without an exception; the final disjunction holds at a point exactly when the eliminated variables can be given real (complex) values that satisfy the input; no eliminated variable is left and none is new. When all variables have been eliminated the answer is the empty disjunction if the input is unsatisfiable and empty conjunctions otherwise.", "quantifier": "all disjunctions of conjunctions over polynomials with rational coefficients in any number of variables, all lists of variables to eliminate, all real closed (algebraically closed) fields of values, all assignments of the other variables", "why_tests_cant": "The number of conjunctions grows very fast with every variable, so tests only eliminate one variable.", "anchors": ["highschool_qe/muchnik.py: Muchniker.real_full, Muchniker.complex_full", "highschool_qe/sympywrapper.py: SympyWrapper", "highschool_qe/README.md"]}
{"id": "C107", "title": "Hypotheses are sampled by their distance from zero", "statement": "softzero_sample(F) returns each index of F with probability exp(-|F[i]|)/Z, where Z is the sum of these exponentials, so that values nearer to zero are preferred; choose_atom_softzero accordingly returns every hidden or promoted hypothesis with the probability given by the value of its polynomial at the point, and neither raises an exception when there is a hypothesis.", "quantifier": "all lists of numbers, all problems and points, all values of the random number", "why_tests_cant": "The distribution is a statement about all values of the random number; runs show frequencies only, and the values that make the exponentials vanish do not occur in small tests.", "anchors": ["GRF/local_search.py: softzero_sample, choose_atom_softzero", "GRF/grf.sage: get_all_hyp_atoms"]}
{"id": "C108", "title": "Helper functions of local search", "statement": "get_num_falsifying_func(A,x) returns a function at whose zeros the atom is false; get_symb_flipping_func returns a nonnegative polynomial that is zero exactly where the function given to the numerical solver is zero, and there the polynomial of the atom does not have the sign it has at x; truth_sig is the list of the truth values of all hypotheses; k_sample_points_in_ball(d,k,eps) returns k points with the variables of d and coordinates at distance at most eps; sign is the sign.", "quantifier": "all atoms, points, margins, problems, random numbers", "why_tests_cant": "Each of them is used with arbitrary polynomials and points; that one of them raises for all arguments goes unnoticed as long as it is not called.", "anchors": ["GRF/local_search.py: get_num_falsifying_func, get_symb_flipping_func, truth_sig, sign", "GRF/grf.sage: k_sample_points_in_ball"]}
{"id": "C109", "title": "The verdict does not depend on the order of the hypotheses", "statement": "check gives the same verdict (proved, counterexample, exception) for a sequent whatever the order in which its hypotheses have been installed.", "quantifier": "all sequents and all permutations of their hypotheses, all sample points, all results of local search, all solvers", "why_tests_cant": "The order decides between hypotheses of equal degree and between sample points without roots, and the difference shows only several rounds later.", "anchors": ["GRF/grf.sage: RCF_GD_Decide.check, good_hyps, promote_right, sector_sps"]}
{"id": "C110", "title": "Elimination of all quantifiers of all formulas, and a decision for all sentences", "statement": "Used from the inside to the outside of a formula, with one call for every quantifier and every conjunction of the disjunctive normal form, real_full (complex_full) eliminates all quantifiers of any formula with and, or, not, exists, forall: no exception, the result has only free variables of the formula and holds at the same points. For a sentence the signs of the constants that are left give its truth value, the same in all real closed (algebraically closed) fields.", "quantifier": "all first-order formulas over polynomials with rational coefficients, any nesting of quantifiers, all real closed fields (all algebraically closed fields of characteristic 0), all points", "why_tests_cant": "Results of one call are the inputs of the next one, with degrees and numbers of conditions that grow with the nesting; a test uses one or two quantifiers.", "anchors": ["highschool_qe/muchnik.py:real_full", "highschool_qe/muchnik.py:complex_full", "highschool_qe/sympywrapper.py:sign", "highschool_qe/sympywrapper.py:has_variable"]}
{"id": "C111", "title": "The test harness stops jobs at their limit and ends in time", "statement": "A job that has reached the time limit is removed at most Cores - 1 rounds of the main loop later, although only one job is removed in a round; and if R rounds take longer than the limit, all jobs have been recorded after (jobs - 1) * (R + Cores - 1) / Cores + R + Cores rounds, the bound for a schedule that leaves no core unused.", "quantifier": "all numbers of jobs, at least one core, all completion and timeout orders, all clocks for which R rounds take longer than the limit; every process that ends has stored a result", "why_tests_cant": "The delay depends on how many jobs before it in the queue are removed in the same rounds, and on jobs that are started meanwhile.", "anchors": ["GRF/test.py:main loop", "GRF/test.sage:main loop"]}
{"id": "C112", "title": "A job that runs longer than the limit is recorded as a timeout", "statement": "The row written for a job says that it has timed out exactly if it was still running when the time limit had passed; times written for finished jobs are not above the limit.", "quantifier": "all numbers of jobs and cores, all schedules and clocks", "why_tests_cant": "The difference shows only if two jobs are over the limit in the same round and one of them ends before the next one.", "anchors": ["GRF/test.py:main loop", "GRF/test.sage:main loop"]}
{"id": "C113", "title": "Sequents checked earlier in a process have no effect", "statement": "Checking a sequent gives the result that it would give in a new process, whatever other sequents have been checked before in the same process: a valid sequent that is proved alone is not refuted after others, and a counterexample reported is one.", "quantifier": "all sequences of sequents (any numbers of variables, hypotheses, rounds; whether they end with an exception or not), all random numbers and results of the numerical solver", "why_tests_cant": "The only state shared is the variable order of local search, which is set by the first sample point ever searched from; a single run never shows it.", "anchors": ["GRF/local_search.py:VarOrder", "GRF/local_search.py:local_search_sampling", "GRF/grf.sage:RCF_GD_Decide.bad_subsets_on_dict", "GRF/grf.sage:RCF_GD_Decide.check"]}
{"id": "C114", "title": "The requested number of sample points is selected in each cell", "statement": "A decider created with num_sps selects num_sps sample points in each full-dimensional cell; asking for more sample points loses none of the others, and never makes a sequent provable.", "quantifier": "all polynomials, numbers of variables, goals, numbers num_sps, random numbers, isolations", "why_tests_cant": "A count over all cells of a decomposition; the tests only use the default of one point.", "anchors": ["GRF/grf.sage:RCF_GD_Decide.__init__", "GRF/grf.sage:QE_Factory.sample_pt_dicts", "GRF/grf.sage:QE_Factory.sector_sps", "GRF/grf.sage:QE_Factory.k_random_sps", "GRF/grf.sage:QE_Factory.base_phase"]}
{"id": "C115", "title": "The sets of hypotheses returned by check", "statement": "check returns [] exactly if no hypothesis was needed. Otherwise it returns the sets of hypotheses to rule out, numbered as when it was called: each is exactly the set of the hypotheses true at some point at which the goal is false, it is not empty and not the set of all hypotheses, and none is contained in another.", "quantifier": "all sequents, sample points, results of local search, numbers of rounds, optimal choices of the solver", "why_tests_cant": "The returned value is that of the first of a number of nested calls, and depends on all sample points.", "anchors": ["GRF/grf.sage:RCF_GD_Decide.check", "GRF/grf.sage:RCF_GD_Decide.bad_subsets_on_dict"]}
{"id": "C116", "title": "Size of the answer of the Cohen-H\u00f6rmander procedure", "statement": "From n polynomials of degree at most d in the eliminated variable, real_full of cohenhorm ends within (n+1)^(2^(d+1)) nested calls, and returns at most 3^((n+1)^(2^(d+1))) conjunctions, each with less than (n+1)^(2^(d+1)) - n conditions.", "quantifier": "all finite lists of polynomials over a commutative ring, all degrees", "why_tests_cant": "The numbers of nested calls, of cases and of polynomials grow together, and no bound shows in examples of small degree; the recursion passes all polynomials of all rounds on.", "anchors": ["highschool_qe/cohenhorm.py:real_full", "highschool_qe/cohenhorm.py:_real_table", "highschool_qe/cohenhorm.py:expand_context"]}
{"id": "C117", "title": "Valid sequents are reported as proved", "statement": "check ends with a verdict: it reports the sequent as proved if it is valid, also if all its hypotheses are needed for that, and otherwise a counterexample.", "quantifier": "all sequents, sample points, results of local search, optimal choices of the solver, right functions of Sage", "why_tests_cant": "A verdict is the result of a number of rounds that depend on each other; which hypotheses can be promoted depends on all of them.", "anchors": ["GRF/grf.sage:RCF_GD_Decide.check", "GRF/grf.sage:RCF_GD_Decide.bad_subsets_on_dict"]}
{"id": "C118", "title": "The verdict does not depend on the names of the variables", "statement": "If two sequents differ only in the names of their variables, check reports one as proved exactly if it reports the other as proved, and never proves one and reports a counterexample for the other.", "quantifier": "all pairs of sequents related by a renaming of variables, right functions of Sage, random choices, numbers of sample points, local searches, solvers", "why_tests_cant": "The names enter through the order of elimination, which decides about the projection and all sample points; a test compares a few renamings of a few sequents.", "anchors": ["GRF/grf.sage:ProjOrd.compute_proj_ord", "GRF/grf.sage:RCF_GD_Decide.check"]}
{"id": "C119", "title": "A proved sequent stays proved when a hypothesis is added", "statement": "If check reports a sequent as proved, it also reports the sequent with a further hypothesis as proved, and in no case a counterexample for it.", "quantifier": "all sequents and further hypotheses, right functions of Sage, random choices, numbers of sample points, local searches, optimal choices of the solver", "why_tests_cant": "A further hypothesis takes part in the selection of every round and changes the order of promotions; tests can only try a few additions to a few sequents.", "anchors": ["GRF/grf.sage:RCF_GD_Decide.check", "GRF/grf.sage:RCF_GD_Decide.good_hyps", "GRF/grf.sage:RCF_GD_Decide.weight_hyps"]}
{"id": "C120", "title": "A sequent that grf_on_file reports on is valid over the reals", "statement": "If grf_on_file returns for a file with one sequent, then at every assignment of real numbers to the names in the file, if the formulas of the antecedent that are not reported as hidable are true, so is one of the formulas of the succedent that are not reported as hidable.", "quantifier": "all files with one sequent, numbers of names, both modes and everything typed in, right functions of Sage, random choices, local searches, solvers", "why_tests_cant": "The chain goes from the characters of the file through parsing, projection, root isolation and rational sampling to a statement about all real points; tests compare single outputs and cannot see a wrong verdict.", "anchors": ["GRF/smt2.py:grf_on_file", "GRF/smt2.py:SMTContext", "GRF/grf.sage:RCF_GD_Decide.check", "GRF/grf.sage:QE_Factory"]}
{"id": "C121", "title": "The earlier version of the Cohen-Hormander procedure computes the sign tables", "statement": "real_full of `cohenhorm - Copy.py` prints a sign table for every list of polynomials; every table that its _real_table returns gives the signs of its rows at -oo, between the roots, at the roots and at +oo, whatever bound on the recursion is given.", "quantifier": "all lists of polynomials, all bounds on the recursion, all points of real closed fields", "why_tests_cant": "The tables describe the signs at all real points, for any number and degree of polynomials, and there is a numeric bound on the depth that tests fix.", "anchors": ["highschool_qe/cohenhorm - Copy.py:real_full", "highschool_qe/cohenhorm - Copy.py:_real_table", "highschool_qe/cohenhorm - Copy.py:table_map_back"]}
{"id": "C122", "title": "A hypothesis that is always true makes the check a decision procedure", "statement": "If one hypothesis of a strict sequent is true wherever the conclusion is false (for instance 1 > 0), the check always ends with a verdict, and the verdict is right in both directions: it reports a proof exactly if the sequent is valid over the real numbers, and a counterexample exactly if it is not. The same holds for a problem file with one such sequent without division. Without equations but with relations of any other kind, valid sequents are proved, and a counterexample is reported if the set of counterexamples has an interior.", "quantifier": "all strict sequents over the rationals in any number of variables whose cells have rational sample points as stated, all files with such a sequent, all neighbourhood heuristics, all optimal and complete set cover solvers", "why_tests_cant": "The third outcome of C117, an IndexError on a valid sequent, depends on which hypotheses are left over in the loop; that one redundant hypothesis excludes it for every sequent and every history of the loop cannot be observed on examples.", "anchors": ["GRF/grf.sage:RCF_GD_Decide.check", "GRF/grf.sage:RCF_GD_Decide.good_hyps", "GRF/grf.sage:RCF_GD_Decide.weight_hyps", "GRF/smt2.py:grf_on_file"]}
{"id": "C123", "title": "The printed answer says what is returned", "statement": "The answer printed by real_full and complex_full of the Muchnik procedure never raises an exception, and it determines the returned list completely: two lists of conjunctions with the same printed text are equal, including the order of the conjunctions and of the conditions. 'No assigments' is printed exactly for the empty list.", "quantifier": "all problems for which the procedures return, all coefficient rings, all ways of printing polynomials that are injective and print a polynomial on one line without the symbols & < > = !", "why_tests_cant": "The text is what an interactive user sees; that no two of the infinitely many answers look alike, and that no answer makes the printing raise (reduce of an empty list), cannot be observed on examples.", "anchors": ["highschool_qe/muchnik.py:pprint_clause", "highschool_qe/muchnik.py:real_full", "highschool_qe/muchnik.py:complex_full"]}
{"id": "C124", "title": "The sequent that is shown is the sequent that is decided", "statement": "The text 'Goal sequent' that the decider shows in each round determines hypotheses, promoted hypotheses and goal: two states with the same text have the same atoms in the same order and are true at the same real points. Each hypothesis is shown on a line of its own after H and the number with which it is promoted in interactive mode. The list of final hypotheses determines the promoted hypotheses.", "quantifier": "all states of the decider, all ways of printing polynomials that give polynomials with different values different texts, on one line, without brackets and relation symbols", "why_tests_cant": "In interactive mode the user decides by this text; that no two of the infinitely many sequents look alike, whatever the number of hypotheses and the layout, cannot be observed on examples.", "anchors": ["GRF/grf.sage:RCF_GD_Decide.__str__", "GRF/grf.sage:RCF_Goal.__str__", "GRF/grf.sage:RCF_Atom.__str__", "GRF/grf.sage:RCF_GD_Decide.check"]}
{"id": "C125", "title": "The parameters k and epsilon control the additional sample points", "statement": "Where check finds the goal false at a sample point it computes k additional sample points in the (uniform) epsilon neighborhood of that point, as it announces, with the values of k and epsilon given to check or to grf_on_file.", "quantifier": "all sequents, all values of k and epsilon, all random numbers and solver results", "why_tests_cant": "The effect of the parameters is hidden by the random numbers, which differ from run to run; that they have none is a statement about all values and all runs.", "anchors": ["GRF/grf.sage:RCF_GD_Decide.check", "GRF/grf.sage:RCF_GD_Decide.bad_subsets_on_dict", "GRF/grf.sage:RCF_GD_Decide.sample_points", "GRF/local_search.py:local_search_sampling", "GRF/smt2.py:grf_on_file"]}
{"id": "C126", "title": "Reading a GRF input file takes polynomial time", "statement": "The number of parse actions that processCommands, grf_on_file and fmlsTokenList perform when they read a text is bounded by a polynomial in the length of the text.", "quantifier": "all texts of files and of formulas, all states of the context", "why_tests_cant": "Test files are small; that the work doubles with every nested minus is a statement about all depths, and that nothing else does is one about all files.", "anchors": ["GRF/smt2.py:ParseSMT.processCommands", "GRF/smt2.py:ParseSMT.fmlsTokenList", "GRF/smt2.py:grf_on_file", "GRF/smt2.py:ParseSMT.__init__"]}
{"id": "C127", "title": "Progress messages of the experiment driver are true", "statement": "At every moment of a run of the experiment driver the messages on stderr tell what has happened: one message for each process that is started and for each job that is removed, with the right numbers; the percentage reported as done is that of the jobs that are done; and a job that is reported as finished is recorded.", "quantifier": "all lists of jobs, numbers of processes, time limits, and behaviours of the processes and of the clock, after every number of rounds", "why_tests_cant": "What is running when a message is printed depends on the schedule; a statement about all messages of all runs cannot be tested.", "anchors": ["GRF/test.py:__main__", "GRF/test.sage:__main__"]}
{"id": "C128", "title": "The recorded table of an experiment has the columns that it names", "statement": "The file test.csv consists, after every number of rounds, of a first line that names the columns and of one line for each job that has been removed, in this order, with the values of the job in the named columns.", "quantifier": "all lists of jobs, numbers of processes, time limits, and behaviours of the processes and of the clock, after every number of rounds", "why_tests_cant": "Which lines are written and in what order depends on the schedule.", "anchors": ["GRF/test.py:__main__", "GRF/test.sage:__main__"]}
{"id": "C129", "title": "The two programs that read sequent files read them alike", "statement": "A file of sequents has one meaning: grf_on_file and the reader of vts accept the same files, read the same sequents in the same order, with the same names and with formulas of the same meaning, and do not contradict each other about the validity of a sequent that both decide.", "quantifier": "all texts of files, all behaviours of the algebra systems within their contracts", "why_tests_cant": "Two grammars agree or not on infinitely many texts; the verdicts are compared for all sequents.", "anchors": ["GRF/smt2.py:ParseSMT", "GRF/smt2.py:grf_on_file", "vts/grf_parser.py:cmd", "vts/examples_parser.py:parse_files_from_dir"]}
{"id": "C130", "title": "A reported result can be confirmed by running the program again", "statement": "If formulas are reported as not needed and are removed, running the program on the sequent that is left reports it as proved again; this can be repeated until nothing more is hidden.", "quantifier": "all sequents, all sequences of runs, all sample points, local searches and random choices", "why_tests_cant": "The runs form arbitrarily long histories with random choices in each of them.", "anchors": ["GRF/smt2.py:SMTContext.perform_grf", "GRF/grf.sage:RCF_GD_Decide.check"]}
{"id": "C131", "title": "The outcome for a file does not depend on the names chosen in it", "statement": "If the names of the variables in a file are replaced by others, different names by different names, and the white space is changed in any way, grf_on_file behaves in the same way: it raises the same exception, or returns the same numbers and writes the same output.", "quantifier": "all files, replacements of names, interactive and other sessions, with the same sample points, local searches, random choices and typed lines", "why_tests_cant": "The names decide which generators of which rings are used, in files of any length and with any number of names.", "anchors": ["GRF/smt2.py:grf_on_file", "GRF/smt2.py:SMTContext.get_ring_var"]}
{"id": "C132", "title": "The result for a sequent does not depend on the sequents before it in the file", "statement": "If grf_on_file returns for each of two files, it returns for the file that consists of one after the other, and the result that is reported for the last sequent is the one that it has without the sequents before it.", "quantifier": "all files and sequents before the last one, functions of Sage, sample points, local searches and random choices", "why_tests_cant": "All sequents of a file are read in one context; what is left in it depends on the whole text before.", "anchors": ["GRF/smt2.py:grf_on_file", "GRF/smt2.py:SMTContext.get_ring_var", "GRF/smt2.py:SMTContext.perform_grf"]}
{"id": "C133", "title": "Every valid sequent can be proved in the interactive mode", "statement": "In the interactive mode of check, if a sequent with at most one equation among its hypotheses is valid, and at every question the user types the number of one of the remaining hypotheses, then the session ends without an exception, at the latest when all hypotheses have been promoted; the choice and the order do not matter. With sound sampling, such a session ends without an exception exactly if the sequent is valid.", "quantifier": "all sequents with at most one equation, orders of promotion, sample points and points of local search", "why_tests_cant": "There is no bound on the numbers of hypotheses, of orders in which they can be promoted and of points.", "anchors": ["GRF/grf.sage:RCF_GD_Decide.check", "GRF/grf.sage:RCF_GD_Decide.bad_subsets_on_dict", "GRF/grf.sage:RCF_GD_Decide.promote_right"]}
