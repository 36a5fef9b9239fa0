{
 "C14": {
  "note": "True (and proved) for models without a third invariant and without internal state (C14_hessian_partial family); refuted for models with dWdI3 because of the literal list [2, 0, 1] in _generalized_invariants.py line 288. C14_error: the exact error for every model (the index of the third direction stands in the place of its strain)."
 },
 "C17": {
  "note": "Proved for every model without d2WdI3dI3; refuted with one: lines 225-226 of _invariants.py add d2WdI2dI2 * dya(dI2dC, dI2dC) instead. C17_error, C17_exact: the exact error for every model, and along which motions the hessian is right nevertheless."
 },
 "C24": {
  "note": "The gradient half is proved everywhere; the hessian half is proved for state-independent hessians and refuted in general: the frameworks hand the *updated* state variables to the model's hessian."
 },
 "C28": {
  "note": "Proved above the absolute tolerance of np.allclose(C4b, 0) (and whenever C4b is zero); refuted below it; C28_bound: for every material the error is at most 6561 f^2 (1 + n f^2)^2 |F'| 1e-8, f and n bounds of the entries of F and of the inverse of C."
 },
 "C29": {
  "note": "Refuted: the code hands I3^(1/3) * C, not I3^(1/3) * I, to the material. Proved: the cases in which the property does hold. Also proved: a closed deformation cycle in which the dilatational space does net work (C29_cycle_false), so its stress has no potential at all. C29_error: the exact error of the elasticity for every material; C29_hessian_false: it is not zero."
 },
 "C38": {
  "note": "Proved for force=None, for the distortional and dilatational spaces and for the stretches framework; refuted for the deformation space with force=0 and constant derivatives, for empty batches, and for generalized invariants with I3."
 },
 "C39": {
  "note": "Proved for the models, frameworks and spaces, first and second derivatives, with two refuted exceptions: the distortional elasticity across the np.allclose threshold, and the second derivatives of GeneralizedInvariantsModel when the inner model has a derivative with respect to I3 (ValueError unless the last trailing axis has length 3, silently wrong rows if it has; exact error in C39_generalized_rows)."
 },
 "C47": {
  "note": "Proved for float arrays and lists as parameter containers; refuted for integer arrays, whose assignment truncates the optimum."
 },
 "C51": {
  "note": "Proved as an integral identity over the calls along the motion, for any hyperelastic material (IsGradient) and for the concrete ThirdOrderDeformation and Ogden models, where integrability is proved as well."
 },
 "C53": {
  "note": "The elasticity tensor of the distortional and dilatational spaces is not claimed to be linear: the allclose branch drops a term below 1e-8."
 },
 "C54": {
  "note": "Initial shear modulus of the distortional space at F = 1 for all frameworks; C54_third_order also shows the tensor is returned. Hypothesis: the material hessian is zero or above the absolute tolerance 1e-8 of np.allclose in the code."
 },
 "C55": {
  "note": "Proved for every expression tensor; torch.autograd is modelled as reverse-mode differentiation with an arbitrary exception oracle, in real arithmetic."
 },
 "C56": {
  "note": "Refuted three times: an energy linear in an invariant (Neo-Hookean, Mooney-Rivlin) makes hessian raise RuntimeError, because its first derivative does not require grad (C56_linear_false); an energy with an operation which couples two invariants (a C11 term) makes gradient and hessian raise, because gradient passes retain_graph=False (C56_coupled, C56_coupled_false); an exponential energy makes hessian raise although gradient returns (C56_exponential_false). Proved: exactly the energies for which both methods return on an engine which never raises by itself (C56_gradient, C56_hessian_partial), and exactly those for which gradient (C56_buffers_partial) and hessian (C56_hessian_buffers_partial) return on the engine which releases buffers. Missing: nothing, the full claim is false."
 },
 "C57": {
  "note": "Every schedule, any number of threads; C57_methods/C57_framework tie the programs (gradient and hessian of all spaces and frameworks) to the sequential model."
 },
 "C58": {
  "note": "Refuted (C58_shared_false; C58_race says which wrong stress is returned). Proved: threads which take turns call by call are safe whatever was left half done before (C58_turns_partial)."
 },
 "C59": {
  "note": "C59_stretches/C59_invariants are for every model and every returned curve; the corollaries (Ogden, generalized invariants, third order, lab) also show that a curve is returned."
 },
 "C60": {
  "note": "The limits are proved too: with C01 alone the distortional space loses ellipticity at a stretch of three (C60_mooney_limit). Ellipticity of Ogden and Yeoh materials: C78."
 },
 "C61": {
  "note": "Frameworks and models covered: Invariants with ThirdOrderDeformation, Stretches with Ogden and with GeneralizedInvariantsModel (any strain function and any invariant-based model that change no array; end to end with ThirdOrderDeformation); the theorems on spaces and frameworks hold for every material or model with the same property. The lab is not on the memory model. Numpy assumptions: DESIGN.md, trusted base."
 },
 "C62": {
  "note": "The documented meaning of out is false for cdya_ik and cdya_il (C62_cdya_ik_false); C62_cdya_ik_out says what they do. inv: a given determinant must not be in the buffer of out."
 },
 "C63": {
  "note": "Refuted in two places: plot_force_displacement of a simulation always raises AttributeError (C63_simulation_force_false); the curves plotted by an optimizer are not those of the listed parameters once another optimizer has fitted the same simulation (C63_shared_false). Proved: everything else, in particular the plot after the own fit (C63_fit)."
 },
 "C64": {
  "note": "In the standard model of floating-point arithmetic (no overflow/underflow); the assumption on einsum is proved for every order (C64_any_order) and all assumptions for binary64 with unbounded exponent (C64_double)."
 },
 "C65": {
  "note": "Entrywise bounds with explicit majorants."
 },
 "C66": {
  "note": "Stresses and elasticity tensors. The distortional elasticity tensor is decided by np.allclose on computed numbers: the general bound contains the tolerance, and the bound by rounding errors alone holds if the fictitious elasticity is clearly above or below it."
 },
 "C67": {
  "note": "Holds without overflow and unless the elasticity tensor is asked for with force=0 (C67_gradient, C67_hessian_partial, C67_third_order_partial, C67_small); C67_reference_force_false, C67_overflow_false and C67_biaxial_false refute the rest. C67_float_arrays: on floats the model with dtypes is the main model."
 },
 "C68": {
  "note": "float64 arithmetic is exact in this model; dtypes int32, int64, float64."
 },
 "C69": {
  "note": "Bound for every symmetric model with Lipschitz second derivatives (C69_bound), explicit for Ogden (C69_ogden, C69_deformation), and exactness for one term characterised (C69_ogden_exact, C69_ogden_iff)."
 },
 "C70": {
  "note": "Rely-guarantee proof (Proofs/ThreadsShared, ThreadsSteady): every update a thread makes keeps what the others know. Every schedule, any number of threads."
 },
 "C71": {
  "note": "Spec.PrincipalOrder is stated with unit eigenvectors of F F^T; the weak inequality, equal stretches included. The stress in hypothesis is what gradient with area=None returns."
 },
 "C72": {
  "note": "C72_gradient, C72_hessian: for every polynomial energy the returned derivatives differ from the exact ones by at most 2n+1 and 4n+3 roundings of torch's default dtype relative to the derivatives of the polynomial without cancellation; C72_returns: the dtype does not influence whether the methods return; C72_resolution, C72_volumetric: what the precision costs near I3 = 1."
 },
 "C73": {
  "note": "C73_initial: the initial variables of a space are the identity and nstatevars zeros, and the methods evaluate the space there; C73_hydrostatic, C73_distortional, C73_third_order, C73_ogden: what they return; C73_entries, C73_single, C73_stateless, C73_refused, C73_construct: which entries of the lists are used."
 },
 "C74": {
  "note": "C74_energy, C74_stress: for any space and model with the derivative properties of C25-C27; C74_third_order, C74_third_order_distortional, C74_ogden, C74_stretches: end to end; C74_ogden_continuous, C74_third_order_continuous: continuity in every space, coincident stretches included."
 },
 "C75": {
  "note": "C75_third_order: the step exists, is unique and squares the error; C75_iteration: whole sequences. Proved for third-order-deformation materials on the deformation space, whose tangent is locally Lipschitz continuous; the Ogden tangent is not continuous (C69), see C94."
 },
 "C76": {
  "note": "The solver is an arbitrary function with one assumed property: it stops at a local minimum of the squared error (scipy's algorithms are not part of the code base); C76_returns shows such a solver exists and that fits return with it. Parameters passed as a list or a float array (see C47 for integer arrays and tuples). Seven stretches are sufficient, not claimed to be necessary."
 },
 "C77": {
  "note": "Real arithmetic. That the sign condition is needed is shown by C77_needs_nonnegative."
 },
 "C78": {
  "note": "The exponent ranges are sharp for one term (C78_ogden_iff, C78_ogden_distortional_iff). Not covered: sharp ranges for several terms whose contributions compensate each other, and the second invariant on the distortional space (see C60_mooney_limit)."
 },
 "C79": {
  "note": "The majorant is the normal force with absolute values and plus signs (normalForceP); near stretch one the curve itself vanishes and no relative accuracy can hold. Materials: third-order deformation (the documentation's factories)."
 },
 "C80": {
  "note": "numpy.linalg.eigh enters as an arbitrary function with the assumption EighAccurate (backward stability, the documented property of LAPACK's symmetric solvers). All three spaces, gradient. The hessian divides by differences of eigenvalues as small as 1e-8 and loses accuracy accordingly; it is not covered."
 },
 "C81": {
  "note": "The laws of Spec.Ieee are proved for every order of the sums and for fused multiply-adds from laws of the single operations (C81_any_order), and hold in double precision (C81_double). Signed zeros are not distinguished. Ogden materials are not covered: the eigenvalue solver may return different eigenvalues for equal stretches."
 },
 "C82": {
  "note": "Sums of n different powers with more than n-1 positive zeros vanish (Rolle, by induction on the number of powers); the curve of one term has the powers alpha and -alpha/2 (uniaxial) or -2 alpha (biaxial), and a finite set of exponents closed under such a scaling has vanishing coefficients. C82_same_material (equal response), C82_parameters (equal terms up to order), C82_unique and C82_recover (fits of the moduli), C82_planar and C82_planar_differ (planar tests do not distinguish alpha and -alpha)."
 },
 "C83": {
  "note": "Both deformation gradients are conjugate by the exchange of the first and the third axis; objectivity (C32) and material symmetry (C36) give the stress, and normalForce is antisymmetric under the exchange up to the ratio of the stretches. C83_mirror (every isotropic material of every space), C83_third_order and C83_ogden (both simulations, deformation or distortional)."
 },
 "C84": {
  "note": "C84_invariants and C84_stretches: the hessians of the frameworks rotate; C84_hessian_partial: all spaces, in the distortional space where the tolerance drops nothing; C84_third_order and C84_ogden (deformation, dilatational), C84_mooney_rivlin (all spaces). C84_distortional_false: with C11 = 1/(170e8) the elasticity at diag(4,1/2,1/2) is not the turned elasticity at the same stretches with axes rotated by arctan(4/3), so the full statement does not hold of the code."
 },
 "C85": {
  "note": "C85_universal and C85_shear are stated with Material.Isotropic; C36_invariants and C36_stretches show that the materials of the package meet it. C85_returns shows that the stress of every third-order-deformation material exists at every amount of shear."
 },
 "C86": {
  "note": "C86_truesdell, C86_spin and C86_jaumann start from the property of the default configuration (C26, C28 or C29, whichever applies); C86_third_order and C86_ogden are end to end."
 },
 "C87": {
  "note": "No overflow and error bounds with underflow for the deformation space with invariant-based third-order models; the order of summation is arbitrary (C87_any_order), IEEE binary64 with gradual underflow and overflow is an instance (Proofs/Binary64Range)."
 },
 "C88": {
  "note": "All spaces; Pointwise collects a material on batches of every shape with its pointwise version, instances for third-order-deformation and Ogden materials. C88_all_points_needed is the counterexample for selections on the distortional space."
 },
 "C89": {
  "note": "Proved for all models, frameworks, spaces, experiments and fits; refuted (C89_distortional_hessian_false) for the elasticity of the distortional space, whose np.allclose has an absolute tolerance: C89_distortional_hessian gives the exact condition on the material elasticity."
 },
 "C90": {
  "note": "Refuted twice, both proved: C90_negative_stretch_false (the planar and biaxial load cases answer a negative stretch with minus the stress of its absolute value) and C90_overflow_false (if the determinant overflows to inf, the distortional space returns the finite stress zero). Everything else of the statement is proved."
 },
 "C91": {
  "note": "Explicit a-priori bounds for the computed hessian and elasticity tensor of Ogden materials, including repeated and nearly repeated principal stretches; convergence up to the tolerance for vanishing unit roundoff; numbers for double precision."
 },
 "C92": {
  "note": "C92_point(_distortional): the error at one stretch with explicit constants; C92_deformation / C92_distortional: the whole curve; C92_converges / C92_distortional_converges: convergence to the analytical curve as u and eps go to zero; C92_double / C92_distortional_double: the binary64 numbers."
 },
 "C93": {
  "note": "C93_distortional / C93_dilatational: the error of each component with explicit constants; C93_converges: the limit as u and eps go to zero consists of the tolerances only; C93_double: the binary64 numbers, both spaces."
 },
 "C94": {
  "note": "C94_tolerance / C94_tolerance_iteration: any eigenvalues, explicit condition and rate; C94_ogden / C94_iteration: equal or well separated eigenvalues, quadratic convergence; C94_bounded_below / C94_regular: the tangents of stiffening materials. Exact arithmetic; the example has stretches 1 and 1+1e-9."
 },
 "C95": {
  "note": "C95_distortional_bound / C95_dilatational_bound: any base material with an approximate hessian; C95_ogden_*: Ogden materials. C69 is the bound for the material itself and on the deformation space. Exact arithmetic; the example has stretches 1 and 1+1e-9 and two terms."
 },
 "C96": {
  "note": "C96_third_order / C96_ogden: small load steps; C96_sequence: the infinite sequences; C96_incremental / C96_ogden_incremental: paths. Exact arithmetic; sufficiently many is not explicit. The example is a tension test from the undeformed state."
 },
 "C97": {
  "note": "C97_curves, C97_pythagoras, C97_continuous: every simulation with linear curves (C76_linear, C76_ogden_linear); C97_mooney_rivlin: explicit rate; C97_curve_fit: end to end. Exact arithmetic."
 },
 "C98": {
  "note": "C98_curve: value of the curve on both spaces (trailing shape (1, n) of the simulation); C98_deformation: for the built-in deformation measure; C98_linear: linear in the coefficients for a fixed measure; C98_fit: corollary for optimizers through C76 and C97. Exact arithmetic."
 },
 "C99": {
  "note": "C99_stress: continuity, limit and linear rate of the stress; C99_curve: the same for lab curves on both spaces; C99_zero: the exponent zero raises; C99_pressure: no limit on the deformation space. Exact arithmetic."
 },
 "C100": {
  "note": "C100_stress, C100_invariants, C100_elasticity: two terms on the distortional space; C100_framework, C100_framework_hessian, C100_neoHooke: one term, in the frameworks and on all spaces; C100_curve: lab curves. Exact arithmetic."
 },
 "C101": {
  "note": "C101_curve: Mooney's plot; C101_linear: linear in the parameters; C101_unique: the criterion; C101_one_test, C101_two_tests, C101_planar: its cases; C101_recover: exact data; C101_exponent: the exponent. Exact arithmetic."
 },
 "C102": {
  "note": "C102_increasing: the curves; C102_increasing_iff: iff for one term; C102_sign: sign of the force; C102_traction: sufficient; C102_traction_first, C102_traction_second: iff for one term; C102_invariants: Mooney-Rivlin; C102_deformation: first term on the deformation space; C102_elliptic: elasticity, at equal or clearly different stretches and above the tolerance of np.allclose. Exact arithmetic."
 }
}