{"id": "C01", "title": "Voigt storage of second-order tensors is lossless", "statement": "asvoigt stores a symmetric 3x3 tensor as (11,22,33,12,23,13) and astensor recovers exactly that tensor; conversely every 6-vector is recovered from its tensor, which is always symmetric. The round trip astensor(asvoigt(A)) == A holds if and only if A is symmetric.", "quantifier": "every 3x3 tensor and every 6-vector", "why_tests_cant": "the round trip must hold for all component values, tests use one example matrix", "anchors": ["src/hyperelastic/math/_voigt.py:asvoigt", "src/hyperelastic/math/_voigt.py:astensor"]}
{"id": "C02", "title": "Voigt storage of fourth-order tensors is lossless", "statement": "asvoigt(mode=4) followed by astensor(mode=4) is the identity exactly on the minor-symmetric fourth-order tensors (major symmetry is not needed), and astensor(mode=4) followed by asvoigt(mode=4) is the identity on every 6x6 matrix; all 36 entries of the result are written.", "quantifier": "every 3x3x3x3 tensor and every 6x6 matrix", "why_tests_cant": "81 index combinations with arbitrary values; the doctest uses only a dyad, which is major-symmetric too", "anchors": ["src/hyperelastic/math/_voigt.py:asvoigt", "src/hyperelastic/math/_voigt.py:astensor"]}
{"id": "C03", "title": "trace, determinant, deviator and identity agree with tensor algebra", "statement": "For v storing the symmetric tensor T: trace(v)=tr T, det(v)=det T, eye() stores the identity, dev(v) stores T - tr(T)/3 I, and dev(v) is trace-free and idempotent.", "quantifier": "every symmetric tensor", "why_tests_cant": "polynomial identities over all components", "anchors": ["src/hyperelastic/math/_voigt.py:trace", "src/hyperelastic/math/_voigt.py:det", "src/hyperelastic/math/_voigt.py:dev", "src/hyperelastic/math/_voigt.py:eye"]}
{"id": "C04", "title": "inv returns the inverse", "statement": "For v storing an invertible symmetric T, inv(v) stores T^-1 whether the determinant is passed in or computed, whether or not an output buffer is given and whatever it held before; the input is not modified; dot(v, inv(v)) is the identity and inv(inv(v)) = v.", "quantifier": "every invertible symmetric tensor, every previous content of the output buffer", "why_tests_cant": "rational identities for all components; in-place buffers make the result depend on write order", "anchors": ["src/hyperelastic/math/_voigt.py:inv", "src/hyperelastic/math/_voigt.py:dot"]}
{"id": "C05", "title": "Contractions agree with the full tensor products", "statement": "dot is the matrix product of the stored tensors and ddot in each of the modes (2,2), (4,2), (2,4), (4,4) is the full double contraction over both index pairs of the stored tensors, shear terms being counted twice.", "quantifier": "every pair of stored second-/fourth-order tensors", "why_tests_cant": "weights of off-diagonal terms are wrong only for shear components; must hold for all of them", "anchors": ["src/hyperelastic/math/_voigt.py:dot", "src/hyperelastic/math/_voigt.py:ddot"]}
{"id": "C06", "title": "Dyadic products agree with their index formulas", "statement": "dya stores A_ij B_kl, cdya_ik returns A_ik B_jl and cdya_il returns A_il B_kj; cdya_ik is major-symmetric always, cdya_il is major-symmetric for A = B.", "quantifier": "every pair of symmetric tensors", "why_tests_cant": "81 components each, for all values", "anchors": ["src/hyperelastic/math/_voigt.py:dya", "src/hyperelastic/math/_voigt.py:cdya_ik", "src/hyperelastic/math/_voigt.py:cdya_il"]}
{"id": "C07", "title": "Symmetric crossed-dyadic product", "statement": "cdya(A,B) stores 1/4 (A_ik B_jl + A_il B_kj + B_ik A_jl + B_il A_kj); it is symmetric in its two arguments, major-symmetric, the shortcut taken when both arguments are the same object gives the same value as the general path, and a pre-filled output buffer is completely overwritten.", "quantifier": "every pair of symmetric tensors, either identity of the objects, every previous buffer content", "why_tests_cant": "scatter writes through index tables: any missed index pair leaves stale data; aliasing is a history property", "anchors": ["src/hyperelastic/math/_voigt.py:cdya"]}
{"id": "C08", "title": "Major transposition", "statement": "transpose stores T_klij, is an involution, transposes dyads (transpose(dya(A,B)) = dya(B,A)) and reverses fourth-order contractions.", "quantifier": "every stored fourth-order tensor", "why_tests_cant": "holds for all values", "anchors": ["src/hyperelastic/math/_voigt.py:transpose"]}
{"id": "C09", "title": "Triangle mirroring", "statement": "tril_from_triu / triu_from_tril return a symmetric matrix that keeps the source triangle and the diagonal, are idempotent and leave already symmetric matrices unchanged, for every dimension; with an output buffer that is not the input, only the mirrored triangle is written.", "quantifier": "every dimension n and every n x n matrix", "why_tests_cant": "dimension is a parameter; tests use only 6 and a matrix that is already symmetric", "anchors": ["src/hyperelastic/math/_voigt.py:tril_from_triu", "src/hyperelastic/math/_voigt.py:triu_from_tril"]}
{"id": "C10", "title": "Third-order-deformation model returns the exact partial derivatives", "statement": "gradient and hessian of ThirdOrderDeformation are the first and second partial derivatives of sum C_ij (I1-r)^i (I2-r)^j with r = 3 (or 0 for strain=True), for every choice of zero and non-zero coefficients; a derivative is reported as None only if it vanishes identically; the state variables are returned unchanged.", "quantifier": "all coefficients, all invariants, both settings of strain", "why_tests_cant": "2^5 zero patterns times all real invariants", "anchors": ["src/hyperelastic/models/invariants/_third_order_deformation.py:ThirdOrderDeformation"]}
{"id": "C11", "title": "Ogden model returns the exact partial derivatives", "statement": "gradient and hessian of Ogden are the first and second partial derivatives of sum_k 2 mu_k/alpha_k^2 sum_a (lambda_a^alpha_k - 1), for any number of terms; mixed second derivatives are None and vanish.", "quantifier": "any list of non-zero exponents and moduli, all positive stretches", "why_tests_cant": "unbounded number of terms, real exponents", "anchors": ["src/hyperelastic/models/stretches/_ogden.py:Ogden"]}
{"id": "C12", "title": "One-dimensional strain and deformation measures", "statement": "strain and deformation return E(lambda) together with its exact first and second derivative and the reference values of the exponent-2 measure at lambda = 1.", "quantifier": "all non-zero real exponents, all positive stretches", "why_tests_cant": "real exponents", "anchors": ["src/hyperelastic/models/generalized/_stretch.py:strain", "src/hyperelastic/models/generalized/_stretch.py:deformation"]}
{"id": "C13", "title": "Generalized-invariants model: gradient is the derivative of the documented energy", "statement": "The gradient of GeneralizedInvariantsModel is the derivative, with respect to the principal stretches, of psi evaluated at the normalized invariants of the strain measure.", "quantifier": "every differentiable psi(I1,I2,I3), every twice differentiable strain measure with non-vanishing normalization, all stretches", "why_tests_cant": "functional quantifier", "anchors": ["src/hyperelastic/models/stretches/_generalized_invariants.py:GeneralizedInvariantsModel.gradient", "src/hyperelastic/models/stretches/_generalized_invariants.py:GeneralizedInvariantsModel.__init__"]}
{"id": "C14", "title": "Generalized-invariants model: hessian is the derivative of the gradient", "statement": "The hessian of GeneralizedInvariantsModel is the derivative of its gradient with respect to the principal stretches, for every material including those depending on the third invariant.", "quantifier": "every twice differentiable psi(I1,I2,I3), every strain measure, all stretches", "why_tests_cant": "functional quantifier; the repository tests only use materials without an I3 dependence", "anchors": ["src/hyperelastic/models/stretches/_generalized_invariants.py:GeneralizedInvariantsModel.hessian"]}
{"id": "C15", "title": "Exponent-independent initial stiffness", "statement": "The normalization of the generalized invariants makes the initial slope of the incompressible uniaxial force-stretch curve independent of the exponent: 6 (C10 + C01) for the deformation measure.", "quantifier": "every non-zero exponent, all model coefficients", "why_tests_cant": "the test checks four exponents by finite differences with tolerance 1e-4", "anchors": ["src/hyperelastic/models/stretches/_generalized_invariants.py:GeneralizedInvariantsModel.__init__", "src/hyperelastic/models/generalized/_stretch.py:deformation"]}
{"id": "C16", "title": "Invariants framework: gradient is the derivative of the energy w.r.t. C", "statement": "For a model whose gradient is the derivative of psi(I1,I2,I3), the framework gradient G satisfies d/dt psi(I1(C),I2(C),I3(C)) = G : dC/dt along every differentiable motion C(t) of invertible right Cauchy-Green tensors; a model derivative reported as None counts as zero.", "quantifier": "every differentiable psi, every C with non-zero determinant, every motion", "why_tests_cant": "functional quantifier", "anchors": ["src/hyperelastic/frameworks/_invariants.py:Invariants.gradient"]}
{"id": "C17", "title": "Invariants framework: hessian is the derivative of the gradient", "statement": "For a model whose hessian is the derivative of its gradient, the framework hessian H satisfies dG/dt = H : dC/dt along every motion, for every model including those with a second derivative w.r.t. the third invariant.", "quantifier": "every twice differentiable psi, every C with non-zero determinant", "why_tests_cant": "functional quantifier; no repository test uses an I3 term", "anchors": ["src/hyperelastic/frameworks/_invariants.py:Invariants.hessian"]}
{"id": "C18", "title": "Invariants framework is isotropic", "statement": "For every orthogonal Q the gradient at Q C Q^T is Q G Q^T and the hessian rotates likewise, whatever the model returns.", "quantifier": "every model, every C, every orthogonal Q", "why_tests_cant": "all rotations", "anchors": ["src/hyperelastic/frameworks/_invariants.py:Invariants.gradient", "src/hyperelastic/frameworks/_invariants.py:Invariants.hessian"]}
{"id": "C19", "title": "Stretches framework: gradient is the derivative of the energy w.r.t. C", "statement": "For a model whose gradient is the derivative of psi(lambda1,lambda2,lambda3), the framework gradient G satisfies d/dt psi = G : dC/dt along every differentiable motion of principal stretches and principal axes, for any valid eigen-decomposition.", "quantifier": "every differentiable psi, every motion of stretches and axes", "why_tests_cant": "functional quantifier", "anchors": ["src/hyperelastic/frameworks/_stretches.py:Stretches.gradient", "src/hyperelastic/math/_voigt.py:eigh"]}
{"id": "C20", "title": "Stretches framework: hessian is the derivative of the gradient", "statement": "For a model whose hessian is the derivative of its gradient, the framework hessian H satisfies dG/dt = H : dC/dt, both for distinct and for repeated principal stretches (closer than the 1e-8 tolerance but unequal stretches excepted).", "quantifier": "every twice differentiable symmetric psi, all principal stretches that are pairwise equal or separated by more than the tolerance", "why_tests_cant": "functional quantifier and measure-zero degenerate cases", "anchors": ["src/hyperelastic/frameworks/_stretches.py:Stretches.hessian"]}
{"id": "C21", "title": "Results do not depend on the eigenvectors chosen by the eigen-solver", "statement": "For models symmetric in the stretches, gradient and hessian of the Stretches framework are the same for every valid eigen-decomposition of C (sign, order, and the choice of basis in a repeated eigenspace); for the hessian either the decomposition is in ascending order, as LAPACK returns it, or the eigenvalues are pairwise equal or separated by more than the 1e-8 tolerance.", "quantifier": "every symmetric C, every pair of valid decompositions, every symmetric model", "why_tests_cant": "the solver's choice is not under the test's control", "anchors": ["src/hyperelastic/frameworks/_stretches.py:Stretches.gradient", "src/hyperelastic/frameworks/_stretches.py:Stretches.hessian", "src/hyperelastic/math/_voigt.py:eigh"]}
{"id": "C22", "title": "Exponent 2 reproduces the invariants framework", "statement": "GeneralizedInvariantsFramework(model, deformation, exponent=2) has the same gradient as InvariantsFramework(model) for every model and the same hessian for every model without an I3 dependence and without internal state, at every C whose eigenvalues are pairwise equal or separated by more than the 1e-8 tolerance.", "quantifier": "every model, every positive definite C, every valid eigen-decomposition", "why_tests_cant": "functional quantifier", "anchors": ["src/hyperelastic/frameworks/_generalized.py:GeneralizedInvariants", "src/hyperelastic/frameworks/_invariants.py:Invariants", "src/hyperelastic/models/generalized/_stretch.py:deformation"]}
{"id": "C23", "title": "Major symmetry of the elasticity tensor", "statement": "The hessian of both frameworks and of all three spaces is major-symmetric (A_iJkL = A_kLiJ) whenever the material hessian is symmetric, which it always is for the two frameworks.", "quantifier": "every model, every deformation, every force/area setting with matching transformations", "why_tests_cant": "all values", "anchors": ["src/hyperelastic/frameworks/_invariants.py:Invariants.hessian", "src/hyperelastic/frameworks/_stretches.py:Stretches.hessian", "src/hyperelastic/spaces/_space.py:Space.piola"]}
{"id": "C24", "title": "State variables handed to the model", "statement": "gradient returns the state variables updated once by the model, and hessian hands the model's hessian the state variables that the caller supplied (the documented statevars_old), in every framework and space.", "quantifier": "every state type, every model update rule, every sequence of calls", "why_tests_cant": "history-dependent models are never exercised by the tests", "anchors": ["src/hyperelastic/frameworks/_invariants.py:Invariants.hessian", "src/hyperelastic/frameworks/_stretches.py:Stretches.hessian", "src/hyperelastic/models/stretches/_generalized_invariants.py:GeneralizedInvariantsModel.hessian", "src/hyperelastic/spaces/_deformation.py:Deformation.hessian"]}
{"id": "C25", "title": "Deformation space: stress is the derivative of the energy w.r.t. F", "statement": "With the default configuration, gradient returns P with d/dt psi(F^T F) = P : dF/dt along every differentiable motion F(t).", "quantifier": "every material whose gradient is the derivative of psi(C), every F", "why_tests_cant": "functional quantifier", "anchors": ["src/hyperelastic/spaces/_deformation.py:Deformation.gradient", "src/hyperelastic/spaces/_space.py:Space.piola"]}
{"id": "C26", "title": "Deformation space: elasticity is the derivative of the stress w.r.t. F", "statement": "With the default configuration, hessian returns A with dP/dt = A : dF/dt along every differentiable motion F(t).", "quantifier": "every material whose hessian is the derivative of its gradient, every F", "why_tests_cant": "functional quantifier", "anchors": ["src/hyperelastic/spaces/_deformation.py:Deformation.hessian", "src/hyperelastic/spaces/_space.py:Space.piola"]}
{"id": "C27", "title": "Distortional space: stress is the derivative of the energy of the distortional part", "statement": "gradient returns P with d/dt psi(I3^(-1/3) C) = P : dF/dt along every differentiable motion of invertible F(t).", "quantifier": "every material, every invertible F", "why_tests_cant": "functional quantifier", "anchors": ["src/hyperelastic/spaces/_distortional.py:Distortional.gradient"]}
{"id": "C28", "title": "Distortional space: elasticity is the derivative of the stress", "statement": "hessian returns A with dP/dt = A : dF/dt along every differentiable motion, at any magnitude of the material parameters.", "quantifier": "every material, every invertible F, every unit system (scale of the parameters)", "why_tests_cant": "the code drops a term below an absolute tolerance; tests use parameters of order one", "anchors": ["src/hyperelastic/spaces/_distortional.py:Distortional.hessian"]}
{"id": "C29", "title": "Dilatational space applies the material to the volumetric part only", "statement": "gradient is the derivative of psi evaluated at the dilatational part I3^(1/3) I of C, hence the stress response depends on F only through det F (up to F^-T); hessian is the derivative of gradient.", "quantifier": "every material, every invertible F", "why_tests_cant": "the only repository test uses a material with constant derivative", "anchors": ["src/hyperelastic/spaces/_dilatational.py:Dilatational.gradient", "src/hyperelastic/spaces/_dilatational.py:Dilatational.hessian"]}
{"id": "C30", "title": "Distortional stress is deviatoric and insensitive to volume changes", "statement": "For any material the Cauchy stress of the distortional space is trace-free, the tensor handed to the material is unimodular, and scaling F by a > 0 changes P by the factor 1/a only.", "quantifier": "every material, every invertible F, every scale factor", "why_tests_cant": "all values", "anchors": ["src/hyperelastic/spaces/_distortional.py:Distortional.gradient"]}
{"id": "C31", "title": "Dilatational stress is hydrostatic", "statement": "For any material the Cauchy stress of the dilatational space is a multiple of the identity.", "quantifier": "every material, every invertible F", "why_tests_cant": "all values", "anchors": ["src/hyperelastic/spaces/_dilatational.py:Dilatational.gradient"]}
{"id": "C32", "title": "Objectivity", "statement": "For every orthogonal Q and each of the three spaces: P(QF) = Q P(F), and A_iJkL(QF) = Q_im Q_kn A_mJnL(F); the quantities handed to the material are unchanged.", "quantifier": "every material, every F, every orthogonal Q", "why_tests_cant": "all rotations", "anchors": ["src/hyperelastic/spaces/_deformation.py:Deformation", "src/hyperelastic/spaces/_distortional.py:Distortional", "src/hyperelastic/spaces/_dilatational.py:Dilatational", "src/hyperelastic/spaces/_space.py:Space.piola"]}
{"id": "C33", "title": "Balance of angular momentum", "statement": "P F^T is symmetric for every material in every space; with the area vector in the deformed configuration the returned stress equals P F^T / sqrt(det C), is symmetric, and equals the Cauchy stress when det F > 0.", "quantifier": "every material, every F", "why_tests_cant": "all values", "anchors": ["src/hyperelastic/spaces/_space.py:Space.piola"]}
{"id": "C34", "title": "Force and area configurations are consistent", "statement": "The four settings of force/area return S, P, S F^T/J and P F^T/J; pushing the force-undeformed elasticity forward with F on the two force indices gives the force-deformed elasticity; finalize=False returns the Voigt stress and elasticity untouched; omitted detF / invC arguments do not change the result.", "quantifier": "every stress and elasticity tensor, every invertible F", "why_tests_cant": "all values, all option combinations", "anchors": ["src/hyperelastic/spaces/_space.py:Space.piola"]}
{"id": "C35", "title": "Calls are independent of the object's history", "statement": "gradient and hessian of every framework and space return the same result for the same arguments no matter which calls were made before on the same objects, including calls that raised an exception.", "quantifier": "every sequence of earlier calls, every object state", "why_tests_cant": "histories are unbounded; results are cached in attributes", "anchors": ["src/hyperelastic/frameworks/_invariants.py:Invariants", "src/hyperelastic/frameworks/_stretches.py:Stretches", "src/hyperelastic/models/stretches/_generalized_invariants.py:GeneralizedInvariantsModel", "src/hyperelastic/spaces/_deformation.py:Deformation", "src/hyperelastic/spaces/_distortional.py:Distortional", "src/hyperelastic/spaces/_dilatational.py:Dilatational"]}
{"id": "C36", "title": "Material symmetry of the finished material", "statement": "With an isotropic framework, P(FQ) = P(F) Q for every orthogonal Q in every space.", "quantifier": "every model, every F, every orthogonal Q", "why_tests_cant": "all rotations", "anchors": ["src/hyperelastic/frameworks/_invariants.py:Invariants", "src/hyperelastic/spaces/_deformation.py:Deformation", "src/hyperelastic/spaces/_distortional.py:Distortional", "src/hyperelastic/spaces/_dilatational.py:Dilatational"]}
{"id": "C37", "title": "Stress-free undeformed state of the distortional space", "statement": "With the invariants framework (any model) or the stretches framework (any symmetric model) the distortional stress vanishes at every F = a Q with a > 0 and Q orthogonal, in particular at F = I.", "quantifier": "every model, every scaled rotation", "why_tests_cant": "functional quantifier", "anchors": ["src/hyperelastic/spaces/_distortional.py:Distortional.gradient", "src/hyperelastic/frameworks/_invariants.py:Invariants.gradient", "src/hyperelastic/frameworks/_stretches.py:Stretches.gradient"]}
{"id": "C38", "title": "Output shapes and broadcasting", "statement": "For every trailing-axes shape of F and every configuration, gradient and hessian succeed and return arrays of shape (3,3)+trailing and (3,3,3,3)+trailing, also for models whose derivatives are constants.", "quantifier": "every trailing shape, every force/area setting, constant and non-constant models", "why_tests_cant": "unbounded shapes times option combinations", "anchors": ["src/hyperelastic/spaces/_space.py:Space.piola", "src/hyperelastic/frameworks/_invariants.py:Invariants", "src/hyperelastic/math/_voigt.py:eye"]}
{"id": "C39", "title": "Batch evaluation equals point-wise evaluation", "statement": "Evaluating a batch of deformation gradients returns at every point what evaluating that point alone returns.", "quantifier": "every batch size, every content of the other points", "why_tests_cant": "unbounded batch; one branch is decided on the whole batch", "anchors": ["src/hyperelastic/spaces/_distortional.py:Distortional.hessian", "src/hyperelastic/lab/_simulation.py:Simulation.stress_curve_fit"]}
{"id": "C40", "title": "Load cases are incompressible", "statement": "For every stretch > 0 the deformation gradients of the uniaxial, planar and biaxial load cases are diagonal, positive, have determinant one, carry the given stretch on the first axis, and are the identity at stretch one.", "quantifier": "all positive stretches", "why_tests_cant": "all reals", "anchors": ["src/hyperelastic/lab/_load_case.py:Uniaxial.defgrad", "src/hyperelastic/lab/_load_case.py:Planar.defgrad", "src/hyperelastic/lab/_load_case.py:Biaxial.defgrad"]}
{"id": "C41", "title": "Lab stress is independent of the hydrostatic pressure", "statement": "Adding any pressure contribution p J F^-T to P leaves the lab stress of each load case unchanged, and the returned value is P_11 of the stress state whose transverse traction vanishes.", "quantifier": "all pressures, all P, all diagonal F", "why_tests_cant": "all values", "anchors": ["src/hyperelastic/lab/_load_case.py:IncompressibleHomogeneousStretch.stress"]}
{"id": "C42", "title": "Closed-form stress-stretch curves", "statement": "Simulation.stress for a third-order-deformation material equals 2(l - l^-2)(W1 + W2/l) in uniaxial, 2(l - l^-3)(W1 + W2) in planar and 2(l - l^-5)(W1 + l^2 W2) in biaxial tension, with W1, W2 the documented partial derivatives at the load case's invariants, for every list of stretches.", "quantifier": "all coefficients, all positive stretches, lists of any length", "why_tests_cant": "all values", "anchors": ["src/hyperelastic/lab/_simulation.py:Simulation.stress_curve_fit", "src/hyperelastic/lab/_load_case.py:Uniaxial", "src/hyperelastic/models/invariants/_third_order_deformation.py:ThirdOrderDeformation"]}
{"id": "C43", "title": "Lab stress is work-conjugate to the stretch", "statement": "The lab stress is the derivative of the energy along the load case with respect to the stretch (half of it for biaxial tension, where two axes are stretched).", "quantifier": "every isotropic material with a differentiable energy, all positive stretches", "why_tests_cant": "functional quantifier", "anchors": ["src/hyperelastic/lab/_load_case.py:IncompressibleHomogeneousStretch.stress", "src/hyperelastic/lab/_simulation.py:Simulation.stress_curve_fit"]}
{"id": "C44", "title": "Deformation and distortional spaces give the same lab curves", "statement": "For every load case and every material with diagonal response on diagonal C the lab stress is the same whether the framework is applied on the deformation or on the distortional space.", "quantifier": "every material, every positive stretch", "why_tests_cant": "functional quantifier", "anchors": ["src/hyperelastic/lab/_simulation.py:Simulation.stress_curve_fit", "src/hyperelastic/spaces/_distortional.py:Distortional.gradient", "src/hyperelastic/spaces/_deformation.py:Deformation.gradient"]}
{"id": "C45", "title": "Zero lab stress at stretch one", "statement": "The lab stress at stretch one is zero for every load case and every isotropic framework in the deformation and distortional space.", "quantifier": "every model", "why_tests_cant": "functional quantifier", "anchors": ["src/hyperelastic/lab/_simulation.py:Simulation.stress", "src/hyperelastic/frameworks/_invariants.py:Invariants.gradient"]}
{"id": "C46", "title": "Parameters reach the material under their labels", "statement": "stress_curve_fit(x, *p) builds the material with keyword arguments label_i = p_i; surplus labels or parameters are dropped; stress() uses the stored parameters, which default to ones.", "quantifier": "all label/parameter lists", "why_tests_cant": "lists of any length, duplicates", "anchors": ["src/hyperelastic/lab/_simulation.py:Simulation.stress_curve_fit", "src/hyperelastic/lab/_simulation.py:Simulation.__init__"]}
{"id": "C47", "title": "A fit leaves optimizer and simulations coherent", "statement": "After curve_fit returns, the returned parameters, the optimizer's parameters and the parameters of every simulation are the optimum found by the solver, and the residuals are those of these parameters; if the solver raises, the optimizer's parameters are unchanged.", "quantifier": "every sequence of fits, successful or failing, every aliasing between the parameter arrays, every solver outcome, every element type of the parameter array", "why_tests_cant": "histories and aliasing are unbounded", "anchors": ["src/hyperelastic/lab/_optimize.py:Optimize.curve_fit", "src/hyperelastic/lab/_optimize.py:Optimize.init_curve_fit"]}
{"id": "C48", "title": "The concatenated fit minimizes the total squared error of the selected data", "statement": "The residual vector passed to the solver is the concatenation of the masked per-experiment residuals, so its sum of squares is the sum over the experiments and its length the number of selected points; data outside the masks have no influence; an omitted mask selects everything.", "quantifier": "any number of experiments, any lengths, any masks", "why_tests_cant": "lists of any length", "anchors": ["src/hyperelastic/lab/_curve_fit.py:concatenate_curve_fit", "src/hyperelastic/lab/_optimize.py:Optimize.init_curve_fit", "src/hyperelastic/lab/_optimize.py:Optimize.__init__"]}
{"id": "C49", "title": "Experiment conversions", "statement": "stretch = 1 + displacement/length and stress = force/area hold point by point, displacement and force are recovered from them for non-zero length and area, and order of the data points is kept.", "quantifier": "data of any length, all non-zero areas and lengths", "why_tests_cant": "lists of any length", "anchors": ["src/hyperelastic/lab/_experiment.py:Experiment"]}
{"id": "C50", "title": "Reported quality of a fit", "statement": "After curve_fit returns, norm_residuals() is the square root of the total squared error of the returned parameters over the selected data and mean_relative_std() is 100 times the mean of sqrt(pcov_ii)/|p_i|; before the first fit both raise AttributeError.", "quantifier": "every optimizer with one simulation per experiment and its parameters in a list or a float array (an integer array cuts off the optimum, see C47), every solver outcome, any number of experiments and parameters; for mean_relative_std non-zero parameters and a finite non-negative diagonal of the covariance", "why_tests_cant": "lists of any length, every history of the session", "anchors": ["src/hyperelastic/lab/_optimize.py:Optimize.norm_residuals", "src/hyperelastic/lab/_optimize.py:Optimize.mean_relative_std"]}
{"id": "C51", "title": "Work along a motion", "statement": "For a space built on a hyperelastic material with energy density psi, the work of the returned first Piola-Kirchhoff stress along any deformation history between two times equals the change of the stored energy psi(F^T F) (deformation space) resp. psi of the unimodular part (distortional space), whatever happens in between; in particular a closed deformation cycle needs no work.", "quantifier": "every differentiable motion F(t) with det F != 0, every start and end time, all material parameters", "why_tests_cant": "infinitely many paths; an integral over a continuum of calls", "anchors": ["src/hyperelastic/spaces/_deformation.py:Deformation.gradient", "src/hyperelastic/spaces/_distortional.py:Distortional.gradient"]}
{"id": "C52", "title": "Principal stresses and coaxiality", "statement": "For a deformation gradient F = R diag(l) Q^T with rotations R, Q and positive stretches l, a deformation space over a symmetric stretch-based material returns P = R diag(dpsi/dl) Q^T (whatever eigenvectors LAPACK picked, also for repeated stretches); a distortional space returns R diag((m_a g_a - mean)/l_a) Q^T with m the unimodular stretches; for any isotropic material the stress of a diagonal F is diagonal, and rotating F on both sides rotates P the same way. For Ogden the principal stresses are sum 2 mu/alpha l^(alpha-1).", "quantifier": "all stretches (distinct or repeated), all rotations, all valid eigenvalue decompositions, all term lists", "why_tests_cant": "continuum of stretches and rotations, non-deterministic choice of eigenvectors", "anchors": ["src/hyperelastic/frameworks/_stretches.py:Stretches.gradient", "src/hyperelastic/spaces/_deformation.py:Deformation.gradient", "src/hyperelastic/spaces/_distortional.py:Distortional.gradient"]}
{"id": "C53", "title": "Superposition of material parameters", "statement": "The stress of ThirdOrderDeformation is linear in its five parameters on every space (and so is the elasticity tensor on the deformation space); the stress of an Ogden model whose term lists are concatenated is the sum of the stresses of the two models; the order of the Ogden terms does not affect any result.", "quantifier": "all parameter vectors and scalars, term lists of any length, all deformation gradients with det F != 0, all spaces", "why_tests_cant": "lists of any length, continuum of parameters", "anchors": ["src/hyperelastic/models/invariants/_third_order_deformation.py:ThirdOrderDeformation", "src/hyperelastic/models/stretches/_ogden.py:Ogden"]}
{"id": "C54", "title": "Initial shear modulus of every formulation", "statement": "At the undeformed state the elasticity tensor returned by Distortional.hessian at F = 1 is that of an isotropic incompressible solid: its double contraction with any displacement gradient U is 2*mu times the deviator of the symmetric part of U, with mu = 2 (dW/dI1 + dW/dI2) for a model in Invariants, (psi,11 - psi,12 + psi,1)/2 for a symmetric model in Stretches, sum(mu_i) for Ogden's model, and 2 (C10 + C01) for ThirdOrderDeformation in Invariants and in GeneralizedInvariants with any non-zero exponent of the deformation measure. (The material hessian has to be either zero or above the 1e-8 tolerance under which the code takes it for zero.)", "quantifier": "every material parameter, every exponent of the strain measure, every displacement gradient, every eigen-decomposition LAPACK may return at the threefold-degenerate state", "why_tests_cant": "The undeformed state is where all eigenvalues coincide: a test sees one particular eigenvector basis and one parameter set, while the claim is about every basis, every parameter list of any length and every direction.", "anchors": ["src/hyperelastic/spaces/_distortional.py:Distortional.hessian", "src/hyperelastic/frameworks/_stretches.py:Stretches.hessian", "src/hyperelastic/frameworks/_invariants.py:Invariants.hessian", "src/hyperelastic/frameworks/_generalized.py:GeneralizedInvariants", "src/hyperelastic/models/stretches/_ogden.py:Ogden", "src/hyperelastic/models/invariants/_third_order_deformation.py:ThirdOrderDeformation"]}
{"id": "C55", "title": "TorchModel differentiates the user's energy", "statement": "Whenever TorchModel.gradient and TorchModel.hessian return, they return the partial derivatives of the energy the user's function computes, and the second partial derivatives in the order 11, 22, 33, 12, 23, 13; None is returned only for an invariant the energy does not depend on; the state variables are handed through; a batch is evaluated point by point (differentiating the sum over the batch does not mix points); the stress of the spaces is the derivative of the user's energy; an energy equal to that of ThirdOrderDeformation gives the same numbers as ThirdOrderDeformation.", "quantifier": "every energy function composed of any number of tensor operations (+, -, *, /, powers, exp, log), every invariants inside the domains of the operations, every batch, every state variables, whatever torch raises on other calls", "why_tests_cant": "The user supplies the energy function; the tests use one (Yeoh) at a few stretches and never an energy which depends on I2 or I3.", "anchors": ["src/hyperelastic/models/invariants/_torch.py:TorchModel.gradient", "src/hyperelastic/models/invariants/_torch.py:TorchModel.hessian", "src/hyperelastic/models/invariants/_torch.py:TorchModel._grad"]}
{"id": "C56", "title": "TorchModel supports every differentiable energy", "statement": "TorchModel.gradient and TorchModel.hessian return for every energy function of the invariants composed of tensor operations.", "quantifier": "every energy function, every invariants inside the domain, every torch engine which raises for no other reason than a tensor without grad, and the engine which releases the buffers of the operations it visited (retain_graph=False)", "why_tests_cant": "The set of energies is infinite; the Neo-Hookean and Mooney-Rivlin energies, for which hessian fails, and energies which couple two invariants, for which gradient fails, are not among the tested ones, nor are the exponential energies, for which hessian fails.", "anchors": ["src/hyperelastic/models/invariants/_torch.py:TorchModel._grad", "src/hyperelastic/models/invariants/_torch.py:TorchModel.hessian"]}
{"id": "C57", "title": "Threads with objects of their own do not disturb each other", "statement": "If several threads evaluate stresses and elasticities, each with space, framework and model objects of its own, then for every interleaving of their attribute accesses each thread that finishes returns exactly what an uninterrupted call returns (same value or same exception, same attributes left behind), and every thread that keeps being scheduled finishes.", "quantifier": "all numbers of threads, all programs of attribute reads and writes (in particular gradient and hessian of Deformation, Distortional and Dilatational with any material, among them Invariants, Stretches and GeneralizedInvariantsModel), all object states, all schedules; fairness for progress", "why_tests_cant": "The number of interleavings is unbounded and a race is hit only by rare schedules.", "anchors": ["src/hyperelastic/spaces/_deformation.py: Deformation.gradient, hessian", "src/hyperelastic/spaces/_distortional.py: Distortional.gradient, hessian", "src/hyperelastic/spaces/_dilatational.py: Dilatational.gradient, hessian", "src/hyperelastic/frameworks/_invariants.py: Invariants.gradient, hessian", "src/hyperelastic/frameworks/_stretches.py: Stretches.gradient, hessian"]}
{"id": "C58", "title": "Threads may share a material object", "statement": "Several threads may call the methods of one space object at the same time: each call returns the stress of its own deformation gradient.", "quantifier": "all schedules of the attribute accesses of all threads, all deformation gradients, all materials", "why_tests_cant": "The number of interleavings is unbounded; the property is false, and only schedules which interrupt a call between two attribute accesses show it.", "anchors": ["src/hyperelastic/spaces/_deformation.py: Deformation.gradient, hessian", "src/hyperelastic/spaces/_distortional.py: Distortional.gradient", "src/hyperelastic/spaces/_dilatational.py: Dilatational.gradient", "src/hyperelastic/frameworks/_invariants.py: Invariants.gradient"]}
{"id": "C59", "title": "Initial slopes of the load curves", "statement": "In uniaxial, planar and biaxial incompressible loading the slope of the returned normal force per undeformed area at stretch one is 3, 4 and 6 times the initial shear modulus, on the deformation and on the distortional space alike; the modulus is 2(C10+C01) for the third-order-deformation model, for its generalized-invariants version with every exponent of the deformation measure, and the sum of the moduli mu for Ogden's model.", "quantifier": "all coefficients, all numbers of Ogden terms, all non-zero exponents, all three load cases, both spaces; any model in terms of invariants with derivatives continuous at the undeformed state, any symmetric twice differentiable model in terms of stretches", "why_tests_cant": "tests/test_generalized.py takes one difference quotient for four exponents and one set of coefficients; the slope is a limit and the claim ranges over continuously many coefficients and exponents.", "anchors": ["tests/test_generalized.py: test_generalized", "src/hyperelastic/frameworks/_generalized.py: GeneralizedInvariants", "src/hyperelastic/lab/_simulation.py: Simulation.stress_curve_fit", "src/hyperelastic/lab/_load_case.py: Uniaxial, Planar, Biaxial"]}
{"id": "C60", "title": "Material stability of the documented models", "statement": "With C10 > 0 (and C01 >= 0) the elasticity tensor of the Mooney-Rivlin material on the deformation space, and of the Neo-Hookean material on the distortional space, is strongly elliptic at every invertible deformation gradient: A_iJkL a_i b_J a_k b_L is at least 2 C10 |a|^2 |b|^2, on the distortional space 2/5 C10 det(C)^(-1/3) |a|^2 |b|^2. The returned uniaxial, planar and biaxial curves of a third-order-deformation material with nonnegative coefficients (C10 or C01 positive), and of Ogden's model with positive moduli, are positive exactly in tension and negative exactly in compression; they increase strictly with the stretch (for Ogden's model if no exponent lies between -2 and 1).", "quantifier": "all nonnegative coefficients, all invertible deformation gradients, all directions a and b; all lists of positive stretches, all numbers of Ogden terms", "why_tests_cant": "An inequality over all deformations, directions and coefficients; a finite-element or curve fitting code fails at the one deformation at which the sign is wrong.", "anchors": ["src/hyperelastic/spaces/_deformation.py: Deformation.hessian", "src/hyperelastic/spaces/_distortional.py: Distortional.hessian", "src/hyperelastic/models/invariants/_third_order_deformation.py: ThirdOrderDeformation", "src/hyperelastic/models/stretches/_ogden.py: Ogden", "src/hyperelastic/lab/_simulation.py: Simulation.stress_curve_fit"]}
{"id": "C61", "title": "An evaluation changes no array of the caller and returns new arrays", "statement": "gradient and hessian of the deformation, distortional and dilatational space write to no array which exists before the call (the deformation gradient, the state variables, arrays returned earlier, attributes of the objects), also if they raise; the returned array is in a new buffer; its content depends on the current content of the arguments only. So overwriting a returned stress, or any array the object keeps, never changes a later result, and a returned array is never changed by a later call.", "quantifier": "all memories, all views as arguments, all batches, all contents of the attributes, all framework materials with the same property (among them the invariant-based framework with the third-order-deformation model and the stretch-based framework with Ogden's model), all histories of calls and of writes by the user", "why_tests_cant": "numpy views, in-place operators and out= arguments alias silently; a test sees one aliasing pattern and one order of calls.", "anchors": ["src/hyperelastic/spaces/_space.py: Space.piola", "src/hyperelastic/spaces/_deformation.py: Deformation", "src/hyperelastic/spaces/_distortional.py: Distortional", "src/hyperelastic/spaces/_dilatational.py: Dilatational", "src/hyperelastic/frameworks/_invariants.py: Invariants", "src/hyperelastic/models/invariants/_third_order_deformation.py: ThirdOrderDeformation", "src/hyperelastic/math/_voigt.py", "src/hyperelastic/frameworks/_stretches.py: Stretches", "src/hyperelastic/models/stretches/_ogden.py: Ogden"]}
{"id": "C62", "title": "Results stored in out arrays", "statement": "inv, dya, cdya, tril_from_triu and triu_from_tril with an out array store the result in out, return out and change no other buffer, also if out is an operand or overlaps with the operands; without out they return a new array and change nothing. cdya_ik and cdya_il are documented in the same way.", "quantifier": "all memories, all operands and all out arrays whose entries have distinct addresses, in particular out overlapping with the operands", "why_tests_cant": "The possible overlaps of views are unbounded and the old content of out must not matter.", "anchors": ["src/hyperelastic/math/_voigt.py: inv, dya, cdya, cdya_ik, cdya_il, tril_from_triu, triu_from_tril"]}
{"id": "C63", "title": "Plots show the data and the fit", "statement": "plot_stress_stretch and plot_force_displacement of experiments and simulations add exactly one line with the object's own data (measured, or simulated with its present parameters) under the given or the object's label to the given axes or to a new figure, and nothing else. Optimize.plot after a fit opens one new figure which shows, for every experiment, the simulated curve with the fitted parameters and the measured data, lists the fitted parameters with twice their standard deviations, the norm of the residuals and the mean deviation, and changes no parameter, simulation or optimizer; the curves always belong to the parameters listed beside them.", "quantifier": "all data, materials, parameters, labels, styles and figures, all optimizers and solvers, all sessions before the call", "why_tests_cant": "image tests compare single figures; the claim is about every session, including fits of other optimizers in between", "anchors": ["src/hyperelastic/lab/_plotting.py: LabPlotter", "src/hyperelastic/lab/_optimize.py: Optimize.plot", "src/hyperelastic/lab/_simulation.py: Simulation"]}
{"id": "C64", "title": "Floating-point accuracy of the tensor algebra", "statement": "trace, det, inv, dot, ddot (all modes), dya, dev, cdya, cdya_ik and cdya_il, computed with floats, differ from the exact tensor operation at most by a small fixed number of roundings (1 to 9) relative to the same operation with absolute values and plus signs, in whatever order einsum adds its terms; inv with its own determinant is accurate up to the condition number of the determinant; the major symmetry of cdya is exact.", "quantifier": "all symmetric tensors, all floating-point arithmetics in the standard model, all orders of summation including fused multiply-adds", "why_tests_cant": "tests compare a few random tensors at a tolerance; the worst case over all tensors, precisions and summation orders is not reached by sampling", "anchors": ["src/hyperelastic/math/_voigt.py: trace, det, inv, dot, ddot, dya, dev, cdya, cdya_ik, cdya_il"]}
{"id": "C65", "title": "Floating-point accuracy of the deformation space", "statement": "The stress and the elasticity tensor returned by DeformationSpace(InvariantsFramework(ThirdOrderDeformation)) with floats differ from the exact ones at most by 36 and 34 roundings relative to the tensors obtained with absolute values and plus signs (in double precision 37*2^-53 and 35*2^-53), converge to the exact ones with increasing precision, and the stress of a Neo-Hookean material has a small relative error in every component.", "quantifier": "all material parameters, deformation gradients, floating-point arithmetics in the standard model and summation orders", "why_tests_cant": "worst-case rounding errors over all inputs are not reached by sampling", "anchors": ["src/hyperelastic/spaces/_deformation.py: Deformation.gradient, Deformation.hessian", "src/hyperelastic/frameworks/_invariants.py", "src/hyperelastic/models/invariants/_third_order_deformation.py"]}
{"id": "C66", "title": "Floating-point accuracy of the isochoric split", "statement": "The stresses and the elasticity tensors returned by DistortionalSpace and DilatationalSpace of third-order materials with floats differ from the exact ones at most by a bound which depends on the condition number of the determinant of C and vanishes with the unit roundoff; in double precision, for condition numbers up to 2^10 and determinants of C between e^-32 and e^32, the error is at most 2^-36 relative to the same quantity with absolute values and plus signs. For the elasticity tensor of DistortionalSpace, which contains a decision by np.allclose on computed numbers, the projection of the tolerance 1e-8 is added to the bound unless the fictitious elasticity is clearly above or below it.", "quantifier": "all material parameters, deformation gradients whose determinant is not lost in rounding, floating-point arithmetics in the standard model and summation orders", "why_tests_cant": "worst-case rounding errors over all inputs are not reached by sampling; ill-conditioned deformation gradients are rare in tests", "anchors": ["src/hyperelastic/spaces/_distortional.py: Distortional.gradient, hessian", "src/hyperelastic/spaces/_dilatational.py: Dilatational.gradient, hessian"]}
{"id": "C67", "title": "Integer input gives the result for the same numbers", "statement": "An integer deformation gradient (or integer stretches) passed to the deformation space (or to a load case) gives the stress, the elasticity tensor (or the deformation gradient) of the same numbers in floating point, as float64 arrays. (Holds for the stress as long as C=F^T F, its invariants and, for the Cauchy stress, its determinant do not overflow - never for entries up to 19 in absolute value -, and for the elasticity tensor if additionally finalize=False or force=None; with force=0 the elasticity tensor of integers raises TypeError, and with an overflow the result is silently that of other numbers.)", "quantifier": "all integer deformation gradients of dtype int32 and int64, all material parameters, materials, space configurations and object states", "why_tests_cant": "dtype promotion and wrap-around depend on the values of all entries; tests pass floats", "anchors": ["src/hyperelastic/spaces/_deformation.py: Deformation.gradient, Deformation.hessian", "src/hyperelastic/spaces/_space.py: Space.piola", "src/hyperelastic/lab/_load_case.py"]}
{"id": "C68", "title": "Floats are never truncated to integers", "statement": "Where a result does not fit the integer dtype of the array in which it would be stored, a TypeError is raised instead of truncating it: inv without out= raises exactly for integer arrays, cdya exactly if one of its operands is an integer array, the distortional and the dilatational space never return for an integer deformation gradient, a model with a derivative with respect to the third invariant and the Ogden model raise on integers; a material which returns integers for a floating-point deformation gradient raises exactly if a transformation of the stress is configured; a stress which is returned by a material of floats is an array of floats.", "quantifier": "all arrays of dtype int32, int64 and float64, all materials, configurations and object states", "why_tests_cant": "a claim about all dtype combinations and all values", "anchors": ["src/hyperelastic/math/_voigt.py: inv, cdya", "src/hyperelastic/spaces/_distortional.py", "src/hyperelastic/spaces/_dilatational.py", "src/hyperelastic/models/stretches/_ogden.py: Ogden.gradient"]}
{"id": "C69", "title": "Stretches framework: tangent at nearly equal principal stretches", "statement": "Where two eigenvalues of C are unequal but closer than 1e-8 (numpy's tolerance), the hessian of Stretches replaces a divided difference by its limit. The contraction with a velocity C' then misses the derivative of the gradient by at most 18 L 1e-8 max|C'|, with L a Lipschitz constant of the model's second derivatives with respect to the squared stretches (for Ogden an explicit formula in mu, alpha and bounds on the eigenvalues); carried through Deformation to the elasticity tensor; for a single Ogden term the error vanishes for all C exactly with alpha = 2, alpha = 4 or mu = 0.", "quantifier": "every symmetric twice differentiable model, every positive definite C with eigenvalues in [m, M] at any distance of each other, every motion through C, every valid eigen-solver", "why_tests_cant": "the tolerance region has measure of order 1e-8 and the bound quantifies over models, motions and eigen-solvers", "anchors": ["src/hyperelastic/frameworks/_stretches.py:Stretches.hessian", "src/hyperelastic/models/stretches/_ogden.py:Ogden"]}
{"id": "C70", "title": "Threads may share an object as long as they evaluate the same deformation", "statement": "If any number of threads call gradient or hessian of one common space object (with one common framework and model), all with the same deformation gradient and state variables, then for every interleaving of their attribute accesses and whatever the object did before, each thread that finishes has the outcome (value or exception) of an uninterrupted call on any object, and a thread which keeps being scheduled finishes. So stress and elasticity tensor of one deformation may be evaluated concurrently, although different deformations may not (C58).", "quantifier": "all schedules, all numbers of threads, all choices of gradient/hessian per thread, all three spaces and their options, all deformation gradients and state variables, all initial attributes; all invariant-based and stretch-based models which keep no intermediate results in attributes (ThirdOrderDeformation, Ogden and user models), also inside GeneralizedInvariantsModel (there: models returning the state variables unchanged)", "why_tests_cant": "The number of interleavings is unbounded; that attributes half-written by another call never mix into a result must hold at every point of interruption.", "anchors": ["src/hyperelastic/spaces/_deformation.py: Deformation.gradient, hessian", "src/hyperelastic/spaces/_distortional.py: Distortional.gradient, hessian", "src/hyperelastic/spaces/_dilatational.py: Dilatational.gradient, hessian", "src/hyperelastic/frameworks/_invariants.py: Invariants.gradient, hessian", "src/hyperelastic/frameworks/_stretches.py: Stretches.gradient, hessian", "src/hyperelastic/models/stretches/_generalized_invariants.py: GeneralizedInvariantsModel.gradient, hessian"]}
{"id": "C71", "title": "The larger principal stretch carries the larger principal Cauchy stress", "statement": "Baker-Ericksen inequalities: with the Cauchy stress (area=None) returned by a space, of two principal directions of the deformation the one with the larger principal stretch has the larger normal stress. It holds for Ogden with nonnegative moduli and any exponents in every space; for ThirdOrderDeformation with nonnegative coefficients, in terms of the invariants or of the generalized invariants of any exponent, in DistortionalSpace and DilatationalSpace, and in DeformationSpace if C11 = C20 = 0; for every invariant-based model with nonnegative dW/dI1 and dW/dI2, and for every stretch-based model whose stretch * dW/dstretch is ordered as the stretches are.", "quantifier": "all deformation gradients with nonzero determinant (equal principal stretches included), all unit eigenvectors of F F^T, all coefficients, all lists of Ogden terms, all valid eigen-solvers, all states of the objects", "why_tests_cant": "An inequality over a nine-dimensional continuum of deformations and arbitrarily many model parameters.", "anchors": ["src/hyperelastic/spaces/_deformation.py:Deformation.gradient", "src/hyperelastic/spaces/_distortional.py:Distortional.gradient", "src/hyperelastic/frameworks/_invariants.py:Invariants.gradient", "src/hyperelastic/frameworks/_stretches.py:Stretches.gradient", "src/hyperelastic/models/stretches/_ogden.py:Ogden", "src/hyperelastic/models/invariants/_third_order_deformation.py:ThirdOrderDeformation"]}
{"id": "C72", "title": "Precision of TorchModel", "statement": "TorchModel computes in torch's default dtype: for every polynomial energy the returned first and second derivatives equal the exact derivatives at the given invariants up to a number of roundings of that dtype which depends on the energy only, whether the methods return does not depend on the dtype, and differences of the invariants below the resolution of the dtype have no effect (a volume change of less than 2^-25 in single precision).", "quantifier": "every polynomial energy, every invariants, every floating-point format which satisfies the standard model (and the binary formats with any number of bits), every torch engine", "why_tests_cant": "Error bounds hold for all inputs and energies; the tests compare a few points of one energy with a tolerance.", "anchors": ["src/hyperelastic/models/invariants/_torch.py:TorchModel._astensors", "src/hyperelastic/models/invariants/_torch.py:TorchModel.gradient", "src/hyperelastic/models/invariants/_torch.py:TorchModel.hessian"]}
{"id": "C73", "title": "Initial variables and argument lists", "statement": "space.gradient(space.x) and space.hessian(space.x), with the initial variables every framework and space carries, evaluate the space at the undeformed state with nstatevars zeros: the stress is hydrostatic, in the distortional space zero, and the tangent the linear-elastic one. The methods read the first and the last entry of the list they are given: entries between have no influence, a list with the deformation gradient only uses it as state variables, an empty list raises IndexError and leaves the object as it was.", "quantifier": "every space and configuration, every framework and model, every number of state variables, every list of arguments, every state of the object", "why_tests_cant": "The claim is about every list and every material after every history of calls; the tests call a few materials with one list each.", "anchors": ["src/hyperelastic/spaces/_deformation.py:Deformation.__init__", "src/hyperelastic/spaces/_distortional.py:Distortional.__init__", "src/hyperelastic/spaces/_dilatational.py:Dilatational.__init__", "src/hyperelastic/frameworks/_invariants.py:Invariants.__init__", "src/hyperelastic/frameworks/_stretches.py:Stretches.__init__"]}
{"id": "C74", "title": "Prediction of nearby stresses and continuity", "statement": "The returned stress predicts the energy of all nearby deformation gradients, psi(F+H) = psi(F) + P:H + o(|H|), and the returned elasticity tensor their stresses, P(F+H) = P(F) + A:H + o(|H|), uniformly in the direction of H. The stress is a continuous function of the deformation gradient in every space, also where principal stretches coincide and the eigen-solver's eigenvectors jump.", "quantifier": "every increment of an invertible deformation gradient, every space, third-order-deformation and Ogden parameters, every symmetric stretch-based model with second derivatives, every valid eigen-solver", "why_tests_cant": "A limit over all directions and step sizes; finite differences check a few directions with one step.", "anchors": ["src/hyperelastic/spaces/_deformation.py:Deformation.gradient", "src/hyperelastic/spaces/_deformation.py:Deformation.hessian", "src/hyperelastic/spaces/_distortional.py:Distortional.gradient", "src/hyperelastic/frameworks/_stretches.py:Stretches.gradient"]}
{"id": "C75", "title": "Newton's method with the returned tangent converges quadratically", "statement": "Solving P(F) = T by Newton's method with the returned stress and elasticity tensor: close to a solution with a regular tangent every step exists and is unique, the error of the next iterate is at most a constant times the square of the error, and the iterates converge to the solution with an error of at most delta*(1/2)^(2^n-1) after n steps, if it was at most delta at the start, whatever the state of the object.", "quantifier": "every regular solution, every start close to it, every number of steps, every third-order-deformation material in the deformation space", "why_tests_cant": "A statement about all starts in a neighbourhood and all numbers of steps.", "anchors": ["src/hyperelastic/spaces/_deformation.py:Deformation.gradient", "src/hyperelastic/spaces/_deformation.py:Deformation.hessian"]}
{"id": "C76", "title": "Fits of third-order-deformation materials have one best fit", "statement": "For an optimizer whose simulations are uniaxial, planar or biaxial tests of third-order-deformation materials (deformation or distortional space) at positive stretches, the simulated curves are linear in the parameters and the total squared error is convex; a best fit exists, every local minimum is a best fit and all best fits give the same curves. Hence, with any solver which stops at a local minimum, the parameters stored by curve_fit in the optimizer and in all its simulations are a best fit, whatever the initial guess. One uniaxial or biaxial test with seven different stretches (other than one) determines all parameters; exact measurements then give back the parameters of the material. The two Mooney-Rivlin parameters are determined if and only if two data points weigh them differently, the three Yeoh parameters by three different first invariants. Planar tests alone never determine C10 and C01. The statements on linearity, existence and local minima also hold for the moduli of Ogden's model with given exponents, and for every simulation whose curve is linear in the parameters.", "quantifier": "every optimizer, experiments, masks, load cases, labels, number of parameters, initial guess and solver", "why_tests_cant": "A fit from some initial guesses shows neither that there is no better fit nor that another initial guess would end elsewhere.", "anchors": ["src/hyperelastic/lab/_optimize.py:Optimize.curve_fit", "src/hyperelastic/lab/_simulation.py:Simulation.stress_curve_fit", "src/hyperelastic/models/invariants/_third_order_deformation.py:ThirdOrderDeformation.gradient", "src/hyperelastic/lab/_load_case.py"]}
{"id": "C77", "title": "Load curves are strictly increasing and invertible", "statement": "With nonnegative parameters, not all zero, the simulated uniaxial, planar and biaxial stress-stretch curves of third-order-deformation materials are strictly increasing in the stretch; tension needs a tensile and compression a compressive stress; if C10 is positive, exactly one stretch belongs to every stress. The curves of Ogden's model with positive moduli are strictly increasing if all exponents are at least 1 or at most -2 (uniaxial), -1 (planar), -1/2 (biaxial); for one term these are exactly the exponents with an increasing curve.", "quantifier": "every list of positive stretches, all nonnegative parameters, every load case, both spaces, all moduli and exponents", "why_tests_cant": "Monotonicity is a statement about all pairs of stretches.", "anchors": ["src/hyperelastic/lab/_simulation.py:Simulation.stress_curve_fit", "src/hyperelastic/lab/_load_case.py", "src/hyperelastic/models/invariants/_third_order_deformation.py:ThirdOrderDeformation.gradient", "src/hyperelastic/models/stretches/_ogden.py:Ogden.gradient"]}
{"id": "C78", "title": "Convex energies, monotone stresses and elliptic elasticities of Ogden and first-invariant materials", "statement": "On the deformation space the energy of Ogden's model with nonnegative moduli and exponents of at least one lies above its tangents (given by the returned stress) for any two invertible deformation gradients, so the stress is monotone: (P(G)-P(F)):(G-F) >= 0; for one term with a positive modulus, exponents of at least one are also necessary. On the distortional space the energy with exponents of at least 3/2 or at most -3 lies above its tangents along all dyads which do not turn the body inside out, so tractions do not decrease along them; for one term these are exactly the admissible exponents. The same holds on the distortional space for every material which depends on the first invariant only with a nondecreasing convex function, in particular for the Yeoh model with nonnegative coefficients. The returned elasticity tensors satisfy the Legendre-Hadamard condition: for Ogden where the hessian is exact (C26, C28), for the Yeoh model at every deformation gradient.", "quantifier": "every pair of invertible deformation gradients, every dyad, all numbers of terms, moduli and exponents in the stated ranges, every valid eigenvalue routine", "why_tests_cant": "Convexity and ellipticity are statements about all pairs of deformation gradients and all directions; a search over samples cannot exclude a violating direction.", "anchors": ["src/hyperelastic/models/stretches/_ogden.py:Ogden.gradient", "src/hyperelastic/models/stretches/_ogden.py:Ogden.hessian", "src/hyperelastic/models/invariants/_third_order_deformation.py:ThirdOrderDeformation", "src/hyperelastic/spaces/_deformation.py", "src/hyperelastic/spaces/_distortional.py"]}
{"id": "C79", "title": "Floating-point accuracy of the simulated curves", "statement": "The deformation gradients computed by Uniaxial, Planar and Biaxial have small relative errors in every component, and the stress curves computed by Simulation for third-order-deformation materials on the deformation or distortional space differ from the exact (textbook) curves at most by a fixed number of roundings times the normal force obtained with plus signs only, at every positive stretch: in double precision at most 58*2^-53 (deformation space) and 750*2^-53 (distortional space) of it. With increasing precision the computed values converge to the exact ones. The stretches and stresses of an Experiment are off by at most two roundings and one rounding.", "quantifier": "every floating-point arithmetic of the standard model (any order of the sums, another one at every data point), every list of positive stretches, all labels and parameters, all three load cases", "why_tests_cant": "The error depends on every stretch, every parameter and the order of summation chosen by numpy; a test samples a few and compares floats with floats.", "anchors": ["src/hyperelastic/lab/_load_case.py:Uniaxial.defgrad", "src/hyperelastic/lab/_load_case.py:Planar.defgrad", "src/hyperelastic/lab/_load_case.py:Biaxial.defgrad", "src/hyperelastic/lab/_load_case.py:IncompressibleHomogeneousStretch.stress", "src/hyperelastic/lab/_simulation.py:Simulation.stress_curve_fit", "src/hyperelastic/lab/_experiment.py:Experiment"]}
{"id": "C80", "title": "Floating-point accuracy of Ogden materials", "statement": "With a backward stable eigenvalue solver (the computed eigenvalues and eigenvectors are, up to eps, those of a symmetric matrix which differs from C by at most eps*|C|) the derivative of the energy with respect to C computed by Stretches(Ogden) and the first Piola-Kirchhoff stresses computed by DeformationSpace, Distortional and Dilatational differ from the exact ones at most by a rounding part, proportional to the largest term of the material, and by the error of the solver (and of the computed power of the determinant) multiplied by a Lipschitz constant of the material. In particular nothing is lost where principal stretches are equal or nearly equal, although the eigenvectors computed there are arbitrary: with increasing precision of arithmetic and solver the computed stresses converge to the exact ones at every invertible deformation gradient. In double precision with a solver accurate to 2^-48 and up to six terms with exponents between -15 and 17, the error in the deformation space is at most 2^-42 times the largest term plus 2^-46 |F|^2 times the Lipschitz constant; in the distortional and dilatational spaces, for determinants with a condition number of at most 2^10, it is at most 2^-35 times the largest term plus 2^-38 (det C)^(-+1/3) |F|^2 times the Lipschitz constant.", "quantifier": "every floating-point arithmetic of the standard model (any order of the sums), every backward stable eigenvalue solver, every deformation gradient with nonsingular right Cauchy-Green tensor, all numbers of terms, moduli and nonzero exponents", "why_tests_cant": "The eigenvectors of nearly equal stretches depend on rounding errors in an uncontrolled way; that the stress does not is a statement about all solvers and all matrices near the coalescence.", "anchors": ["src/hyperelastic/math/_voigt.py:eigh", "src/hyperelastic/models/stretches/_ogden.py:Ogden.gradient", "src/hyperelastic/frameworks/_stretches.py:Stretches.gradient", "src/hyperelastic/spaces/_deformation.py:Deformation.gradient", "src/hyperelastic/spaces/_distortional.py:Distortional.gradient", "src/hyperelastic/spaces/_dilatational.py:Dilatational.gradient"]}
{"id": "C81", "title": "Exact results in floating-point arithmetic", "statement": "Rounding errors do not disturb the symmetry of simple deformations of third-order-deformation materials. With a diagonal deformation gradient all shear components of the stress computed by DeformationSpace, Distortional and Dilatational are exactly zero, and equal stretches carry bitwise equal stresses; in particular the two transverse stresses of uniaxial tension and the two in-plane stresses of equi-biaxial tension are the same numbers. The stress-stretch curves computed by Simulation pass exactly through zero at stretch one, for all load cases and parameters, and an Experiment without displacement has exactly the stretch one. The computed stress of the undeformed state in the distortional space is hydrostatic but not always exactly zero: with C10 = 1 - 2^-52 it is 2^-52 in double precision.", "quantifier": "every floating-point arithmetic with the error bounds of the standard model, commutative products and exact results where IEEE 754 prescribes them (products with one, sums with zeros), every order of the sums with or without fused multiply-adds, all parameters, all diagonal deformation gradients, all stretches", "why_tests_cant": "The components of a stress are computed from sums in different orders, which depend on the platform and on the memory layout; a test compares them for a few inputs on one machine, usually up to a tolerance.", "anchors": ["src/hyperelastic/spaces/_deformation.py:Deformation.gradient", "src/hyperelastic/spaces/_distortional.py:Distortional.gradient", "src/hyperelastic/spaces/_dilatational.py:Dilatational.gradient", "src/hyperelastic/lab/_simulation.py:Simulation.stress_curve_fit", "src/hyperelastic/lab/_load_case.py:IncompressibleHomogeneousStretch.stress", "src/hyperelastic/lab/_experiment.py:Experiment"]}
{"id": "C82", "title": "Ogden materials are identified by one uniaxial or equi-biaxial test", "statement": "If the simulated uniaxial (or equi-biaxial) curves of two Ogden materials coincide at 2n-1 different stretches other than one, where n is the number of different exponents of both together, then the two materials are the same: all stresses and elasticities in all three spaces at all deformation gradients are equal; and if no exponent occurs twice and no modulus is zero, moduli and exponents are equal up to the order of the terms. Hence with given, distinct exponents the moduli have exactly one best fit, and every solver which stops at a local minimum recovers them from exact measurements, from any initial guess. Planar tests do not have this property: replacing all exponents by their negatives does not change the planar curve, although it changes the material.", "quantifier": "all numbers of terms, all moduli and nonzero exponents (also the unknown ones), all factories which construct Ogden materials in the deformation or distortional space, every valid eigenvalue solver, every list of positive stretches, every solver of the optimizer", "why_tests_cant": "That no other parameters produce the same data is a statement about all other parameters, including other numbers of terms and other exponents; a fit which returns the expected parameters only shows that the initial guess was good.", "anchors": ["src/hyperelastic/models/stretches/_ogden.py:Ogden.gradient", "src/hyperelastic/models/stretches/_ogden.py:Ogden.hessian", "src/hyperelastic/lab/_simulation.py:Simulation.stress_curve_fit", "src/hyperelastic/lab/_load_case.py:Uniaxial", "src/hyperelastic/lab/_load_case.py:Planar", "src/hyperelastic/lab/_load_case.py:Biaxial", "src/hyperelastic/lab/_optimize.py:Optimize.curve_fit"]}
{"id": "C83", "title": "Equi-biaxial tension is uniaxial compression", "statement": "The simulated curves of the load cases are not independent. For every isotropic material, in every space, the curve of the mirrored load case (biaxial for uniaxial, uniaxial for biaxial, planar for planar) at the stretches m of the traction-free direction is determined by the curve at the stretches l: its forces f' satisfy m f' = - l f, that is, the forces per deformed area are opposite. For example the equi-biaxial curve at the stretch 1/2 is minus eight times the uniaxial curve at the stretch 4, and the planar curve at 1/l is - l^2 times the planar curve at l. This holds in particular for all third-order-deformation and Ogden materials, and also if the two simulations use different spaces (deformation or distortional).", "quantifier": "all isotropic materials in all three spaces; all parameters of the third-order-deformation and Ogden models, every valid eigenvalue solver; all lists of positive stretches, all three load cases", "why_tests_cant": "The relation ties two different simulations together for all materials; the existing tests compare single simulations with stored numbers.", "anchors": ["src/hyperelastic/lab/_load_case.py:Uniaxial", "src/hyperelastic/lab/_load_case.py:Planar", "src/hyperelastic/lab/_load_case.py:Biaxial", "src/hyperelastic/lab/_load_case.py:IncompressibleHomogeneousStretch.stress", "src/hyperelastic/lab/_simulation.py:Simulation.stress_curve_fit"]}
{"id": "C84", "title": "Material symmetry of the elasticity", "statement": "For an isotropic material the elasticity tensor of the finished material follows a rotation of the specimen: the elasticity at F Q is A_iMkN(F) Q_MJ Q_NL for every orthogonal Q, on all three spaces, for all invariant-based models and for stretch-based models which treat the stretches alike. In the distortional space this is true as long as the hessian of the material is zero or has a component above numpy's absolute tolerance in both orientations (always for Neo-Hooke, for Mooney-Rivlin unless C01 is tiny); in general it is false there: because all components are compared with the tolerance, the elasticity of a soft third-order-deformation material changes if the specimen is turned.", "quantifier": "all isotropic materials, all parameters, all deformation gradients with nonzero determinant, all orthogonal Q, all object states, every valid eigenvalue solver with ascending eigenvalues", "why_tests_cant": "Symmetry is a statement about all rotations and all deformations; the failure in the distortional space only occurs in a small window of the parameters, which depends on the orientation.", "anchors": ["src/hyperelastic/spaces/_deformation.py:Deformation.hessian", "src/hyperelastic/spaces/_distortional.py:Distortional.hessian", "src/hyperelastic/spaces/_dilatational.py:Dilatational.hessian", "src/hyperelastic/frameworks/_invariants.py:Invariants.hessian", "src/hyperelastic/frameworks/_stretches.py:Stretches.hessian"]}
{"id": "C85", "title": "Universal relations and simple shear", "statement": "For every isotropic material, in every space, the Cauchy stress (area option off) commutes with the left Cauchy-Green deformation tensor F F^T. In simple shear F = 1 + gamma e1 e2 this gives the universal relation sigma_11 - sigma_22 = gamma sigma_12, no shear stress out of the plane and a symmetric stress; shearing in the opposite direction changes the sign of the shear stress and keeps the normal stresses. For invariant-based materials in the deformation and in the distortional space the shear stress is 2 gamma (W1 + W2) and sigma_22 - sigma_33 = - 2 gamma^2 W2 at I1 = I2 = 3 + gamma^2; for third-order-deformation materials the secant shear modulus is 2 (C10 + C01 + 2 (C11 + C20) gamma^2 + 3 C30 gamma^4), constant for Mooney-Rivlin materials.", "quantifier": "all isotropic materials (invariant-based, Ogden with every valid eigenvalue solver), all spaces, all deformation gradients with nonzero determinant, all amounts of shear, all parameters, all object states", "why_tests_cant": "Universal relations are statements about all materials and all deformations; simple shear is not one of the load cases of the lab and is not tested.", "anchors": ["src/hyperelastic/spaces/_space.py:Space.piola", "src/hyperelastic/spaces/_deformation.py:Deformation.gradient", "src/hyperelastic/spaces/_distortional.py:Distortional.gradient", "src/hyperelastic/frameworks/_invariants.py:Invariants.gradient", "src/hyperelastic/frameworks/_stretches.py:Stretches.gradient", "src/hyperelastic/models/invariants/_third_order_deformation.py:ThirdOrderDeformation.gradient"]}
{"id": "C86", "title": "Objective stress rates", "statement": "The elasticity returned with the area in the deformed configuration is the tangent a finite element code in spatial form needs: without the term delta_ik sigma_jl of the Cauchy stress returned by the same object it has both minor symmetries (and the major symmetry if the material has it), and along every motion with velocity gradient L it maps the stretching sym(L) to the Truesdell rate of the Cauchy stress. With 1/2 (delta_ik sigma_jl + delta_il sigma_jk + delta_jk sigma_il + delta_jl sigma_ik) added it gives the Jaumann rate of the Kirchhoff stress per deformed volume. A rigid spin W only turns the Cauchy stress: its time derivative is W sigma - sigma W.", "quantifier": "all spaces and materials whose elasticity is the derivative of the stress (third-order-deformation materials with all parameters, Ogden materials at separated stretches), all differentiable motions with nonzero determinant, all velocity gradients, all object states", "why_tests_cant": "A rate is a limit along a motion; the tests only evaluate the configurations at single points (test_finalize.py).", "anchors": ["src/hyperelastic/spaces/_space.py:Space.piola", "src/hyperelastic/spaces/_deformation.py:Deformation.hessian", "src/hyperelastic/spaces/_distortional.py:Distortional.hessian"]}
{"id": "C87", "title": "No overflow and small underflow errors in the deformation space", "statement": "The stress and the elasticity tensor of the deformation space, computed with floats of finite range, are finite and as accurate as in C65, up to an absolute underflow error, if the entries of the deformation gradient and the parameters are bounded by M with 2^108 M^6 (2^101 M^5 for the elasticity tensor), up to rounding, below the largest float; in double precision every M <= 2^150 is safe, and for M <= 2^60 the underflow error is below 2^-600. Sums of products may be evaluated in any order. Outside of this range results may be lost although they are representable: at a dilatation by 2^600 the stress of a Mooney-Rivlin material overflows although it is 2^802, and at a dilatation by 2^-600 it is zero although it is 2^-898.", "quantifier": "all floating-point arithmetics with relative error u per operation, an absolute underflow error and a largest finite number, all orders of summation, all parameters and deformation gradients with |entries| <= M, all object states", "why_tests_cant": "Whether an intermediate result overflows depends on every input value and on the order of summation; the tests use moderate deformations only.", "anchors": ["src/hyperelastic/spaces/_deformation.py:Deformation.gradient", "src/hyperelastic/spaces/_deformation.py:Deformation.hessian", "src/hyperelastic/frameworks/_invariants.py:Invariants.gradient", "src/hyperelastic/models/invariants/_third_order_deformation.py:ThirdOrderDeformation.gradient"]}
{"id": "C88", "title": "Reordering, repeating and selecting the points of a batch", "statement": "Evaluating F[..., indices] gives stress[..., indices], statevars[..., indices] and elasticity[..., indices] of the evaluation of F, or the same exception, for every index array. For the elasticity of the distortional space this holds for index arrays in which every point occurs (reordering and repeating); leaving points out may change the elasticity of the others.", "quantifier": "all spaces and configurations, all materials that act on every point of a batch separately (third-order-deformation and Ogden materials with all parameters), all trailing shapes, all index maps, all deformation gradients, state variables and object states", "why_tests_cant": "The tests evaluate one batch in one order; the decision np.allclose over a whole batch couples its points only for special data.", "anchors": ["src/hyperelastic/spaces/_distortional.py:Distortional.hessian", "src/hyperelastic/spaces/_deformation.py:Deformation.hessian", "src/hyperelastic/spaces/_dilatational.py:Dilatational.hessian", "src/hyperelastic/frameworks/_invariants.py:Invariants.hessian", "src/hyperelastic/frameworks/_stretches.py:Stretches.hessian"]}
{"id": "C89", "title": "Change of units", "statement": "If all parameters with the dimension of a stress are given in another unit (multiplied by c), every result of the models, frameworks and spaces is the same in the other unit: gradients, stresses, Hessians and elasticities are multiplied by c, new state variables and exceptions are the same. (The elasticity of the distortional space: as long as the elasticity of the material is on the same side of the absolute tolerance 1e-8 in both units; otherwise it is not.) An experiment with displacement and length, force and area in other units has the same stretches and the stresses in the derived unit; the total error of a fit is multiplied by c^2, best fits are the best fits in the other unit, and a fit which has one best fit returns the parameters in the other unit.", "quantifier": "all nonzero factors c, all parameters of the third-order-deformation, Ogden and generalized-invariants models, all materials and configurations of the spaces, all deformations, states and eigen-solvers; all experiments, masks, initial guesses and solvers which stop at a local minimum", "why_tests_cant": "The code contains absolute tolerances (np.allclose, np.isclose) and branches on zero parameters, so that independence of units is a property of all inputs; the tests use one set of units.", "anchors": ["src/hyperelastic/spaces/_distortional.py:Distortional.hessian", "src/hyperelastic/spaces/_space.py:Space.piola", "src/hyperelastic/frameworks/_stretches.py:Stretches.hessian", "src/hyperelastic/models/invariants/_third_order_deformation.py:ThirdOrderDeformation.gradient", "src/hyperelastic/lab/_experiment.py:Experiment", "src/hyperelastic/lab/_optimize.py:Optimize.curve_fit"]}
{"id": "C90", "title": "Impossible deformations never give finite stresses", "statement": "If an entry of the deformation gradient is inf or nan, or its determinant is computed as zero, negative or nan, then every entry of the stress and of the elasticity of the distortional and dilatational spaces is inf or nan, for every material and configuration; in the deformation space the rows of the bad entries, and the whole Cauchy stress if the determinant is not positive, are inf or nan. Simulated stresses of stretches which are not positive are inf or nan, and so are the data of experiments with length or area zero. In exact arithmetic the results are finite for every invertible deformation gradient.", "quantifier": "all floating-point formats (any rounding, overflow, underflow, any order of summation), all materials, all deformation gradients and stretches including inf and nan, all configurations", "why_tests_cant": "nan propagation must hold for every material, every position of the bad entry and every rounding; a test checks a few", "anchors": ["src/hyperelastic/spaces/_space.py:Space.piola", "src/hyperelastic/spaces/_distortional.py:Distortional.gradient", "src/hyperelastic/spaces/_dilatational.py:Dilatational.gradient", "src/hyperelastic/spaces/_deformation.py:Deformation.gradient", "src/hyperelastic/math/_voigt.py:det,inv,ddot", "src/hyperelastic/lab/_load_case.py", "src/hyperelastic/lab/_experiment.py:Experiment"]}
{"id": "C91", "title": "Floating-point accuracy of the tangent of Ogden materials", "statement": "The hessian of an Ogden material and the elasticity tensor of the deformation space, as computed in floating-point arithmetic with a backward stable eigenvalue solver, differ from the exact values by at most explicit bounds for principal stretches in a given range, also at equal and nearly equal stretches. The rounding errors of the divided differences are multiplied by the reciprocal of the tolerance of np.isclose; without rounding errors the error is at most the tolerance times a Lipschitz constant of the second derivative of the energy. In double precision about sixteen of fifty-three bits are guaranteed next to repeated stretches.", "quantifier": "all roundings with relative error u (addition, multiplication, division, power, root), all eigenvalue solvers with relative backward error eps, all parameters mu and alpha != 0, all symmetric positive definite C resp. all invertible F, all components", "why_tests_cant": "the loss of digits happens next to repeated stretches, at distances around 1e-8 which a test hits only by design, and the bound must hold for every material and every order of the rounding errors", "anchors": ["src/hyperelastic/frameworks/_stretches.py:Stretches.hessian", "src/hyperelastic/models/stretches/_ogden.py:Ogden.hessian", "src/hyperelastic/spaces/_deformation.py:Deformation.hessian", "src/hyperelastic/math/_voigt.py:eigh"]}
{"id": "C92", "title": "Floating-point accuracy of simulated curves of Ogden materials", "statement": "The normal force per undeformed area of an Ogden material along a uniaxial, biaxial or planar load case, as computed in floating-point arithmetic (the deformation gradient of the load case with its rounded reciprocals and roots, the material on the deformation or on the distortional space with a backward stable eigenvalue solver, the constrained stress from the free surface), differs from the analytical curve by at most an explicit bound, converges to it as the precision grows, and in double precision is accurate to 2^-40 resp. 2^-34 of the size of the two subtracted stresses. No hypothesis asks for distinct stretches: the load cases have repeated ones.", "quantifier": "all roundings with relative error u (including the square root), all eigenvalue solvers with relative backward error eps, all parameters mu and alpha != 0, all three load cases, all stretches l > 0 in a range, all data points", "why_tests_cant": "a tolerance chosen in a test is met or missed for the tested material and stretches only; the curve subtracts two stresses, and the bound must hold at every stretch, every material and for every order of rounding errors", "anchors": ["src/hyperelastic/lab/_simulation.py:Simulation.stress_curve_fit", "src/hyperelastic/lab/_load_case.py", "src/hyperelastic/spaces/_deformation.py", "src/hyperelastic/spaces/_distortional.py", "src/hyperelastic/frameworks/_stretches.py:Stretches.gradient", "src/hyperelastic/models/stretches/_ogden.py:Ogden.gradient", "src/hyperelastic/math/_voigt.py:eigh"]}
{"id": "C93", "title": "Floating-point accuracy of the tangent of Ogden materials on the distortional and dilatational spaces", "statement": "The elasticity tensors dP/dF of an Ogden material on the distortional and on the dilatational space, as computed in floating-point arithmetic (rounded right Cauchy-Green tensor, determinant and powers, a backward stable eigenvalue solver, the divided differences with their comparison of nearly equal stretches, the push-forward and projections, and on the distortional space the omission of the projected part when np.allclose(C4_bar, 0) holds for the *computed* tensor), differ from the exact ones by at most an explicit bound: rounding errors times two units of the space (for errors of the first and of the second derivative of the energy), and the two tolerances. Both decisions may go either way near their tolerance; the bound holds in all cases. As the precision grows only the tolerances remain.", "quantifier": "all roundings with relative error u, all eigenvalue solvers with relative backward error eps, all parameters mu and alpha != 0, all tolerances tau > 0, all deformation gradients with det F != 0 whose computed determinant keeps its sign, all components", "why_tests_cant": "the result of two comparisons with a tolerance decides which expression is evaluated, and rounding may change either decision; the worst case is reached for particular nearly equal stretches or nearly zero moduli only", "anchors": ["src/hyperelastic/spaces/_distortional.py:Distortional.hessian", "src/hyperelastic/spaces/_dilatational.py:Dilatational.hessian", "src/hyperelastic/spaces/_space.py:Space.piola", "src/hyperelastic/frameworks/_stretches.py:Stretches.hessian", "src/hyperelastic/models/stretches/_ogden.py:Ogden.hessian"]}
{"id": "C94", "title": "Newton's method with the tangents of Ogden materials converges in spite of the tolerance", "statement": "Solving P(F) = T by Newton's method with the stress and the elasticity tensor of an Ogden material on the deformation space. The returned tangent is not continuous: it switches at stretches which np.isclose takes for equal. If the squared stretches at a solution with a regular tangent are equal or differ by more than the tolerance (the undeformed state included), then close to it every Newton step nevertheless exists and is unique, the error is squared in every step and the iterates converge, although the iterates themselves may have unequal stretches within the tolerance. At other solutions the error is multiplied in every step by a constant times the error plus an explicit multiple of the tolerance, and the iteration still converges to the exact solution if that multiple is at most 1/4. With nonnegative moduli, one of them positive, and exponents not below two the tangent is regular at every invertible deformation gradient, with an explicit lower bound.", "quantifier": "every solution and every start close to it, every number of steps, all moduli and nonzero exponents, every correct eigenvalue solver, every state of the object", "why_tests_cant": "A statement about all starts in a neighbourhood and all numbers of steps, with a tangent that is discontinuous at the solution itself.", "anchors": ["src/hyperelastic/spaces/_deformation.py:Deformation.gradient", "src/hyperelastic/spaces/_deformation.py:Deformation.hessian", "src/hyperelastic/frameworks/_stretches.py:Stretches.hessian", "src/hyperelastic/models/stretches/_ogden.py:Ogden.hessian"]}
{"id": "C95", "title": "Tangents of the distortional and dilatational spaces at nearly equal principal stretches", "statement": "On the distortional space the elasticity tensor of an Ogden material is within an error proportional to numpy's absolute tolerance 1e-8 of the derivative of the stress, also at stretches which are unequal but which np.isclose takes for equal, and also where the assembled tensor is below the tolerance of np.allclose: with f and n bounds of the entries of the deformation gradient and of the inverse of the right Cauchy-Green tensor C, the error along every motion is at most f^2 (1 + 9 n f^2)^2 (648 det(C)^(-2/3) L + 6561) 1e-8 times the velocity, with L an explicit Lipschitz constant of the second derivatives of the energy. On the dilatational space the error beyond the known wrong term (C29) is at most 648 det(C)^(2/3) f^2 n (1 + 9 n f^2) L 1e-8 times the velocity. Both follow for every base material whose returned hessian is within a given error of the derivative of its gradient.", "quantifier": "every deformation gradient with nonzero determinant, every motion through it, all moduli and nonzero exponents, every correct eigenvalue solver, every material with an approximate hessian", "why_tests_cant": "A uniform bound over all motions, moduli, exponents and stretches, including those in the gap of the tolerance, where the tensor is not the exact derivative.", "anchors": ["src/hyperelastic/spaces/_distortional.py:Distortional.hessian", "src/hyperelastic/spaces/_dilatational.py:Dilatational.hessian", "src/hyperelastic/frameworks/_stretches.py:Stretches.hessian", "src/hyperelastic/models/stretches/_ogden.py:Ogden.hessian"]}
{"id": "C96", "title": "Incremental loading with Newton's method", "statement": "Close to a deformation gradient with a regular tangent the stress determines the deformation gradient, which depends Lipschitz continuously on it, every nearby stress is attained, and from every nearby start Newton's iteration towards a nearby stress never breaks down, is determined and converges to the deformation gradient with that stress. Hence along every continuous path of such deformation gradients the incremental procedure (several load steps, several Newton iterations in each, each load step starting from the inexact result of the one before) with sufficiently many load steps and iterations does not break down, has one result, and follows the path with an error of at most C / 2^n after n iterations of any load step. This holds for third-order-deformation materials with a regular tangent and, in spite of the discontinuous tangent, for Ogden materials whose tangent is bounded below compared to the tolerance, including paths that start at the undeformed state and pass through unequal stretches which np.isclose takes for equal.", "quantifier": "every invertible deformation gradient with a regular tangent, every nearby target and start, every continuous path, all numbers of load steps and iterations from some on, all parameters, every correct eigenvalue solver", "why_tests_cant": "A statement about all starts and targets in a neighbourhood, all continuous load paths and all sufficiently large numbers of steps.", "anchors": ["src/hyperelastic/spaces/_deformation.py:Deformation.gradient", "src/hyperelastic/spaces/_deformation.py:Deformation.hessian", "src/hyperelastic/frameworks/_stretches.py:Stretches.hessian", "src/hyperelastic/models/invariants/_third_order_deformation.py:ThirdOrderDeformation.hessian", "src/hyperelastic/models/stretches/_ogden.py:Ogden.hessian"]}
{"id": "C97", "title": "Fits do not amplify errors of the measurements without bound", "statement": "For simulations whose curves are linear in the parameters (third-order-deformation materials, moduli of Ogden's model): the curves fitted to two sets of stresses at the same stretches are not further apart (sum of squares) than the stresses; the squared distance of the measurements to the true curves is the squared residual of the fit plus the squared distance of the fitted curves to the true ones, so a fit is never worse than the data. The best parameters depend on the stresses at a bounded rate, the same for all stresses, if and only if there is exactly one best fit. For the two Mooney-Rivlin parameters the rate is explicit in the forces and weights of two data points. After Optimize.curve_fit has returned, the stored parameters are as close to the true ones as this rate allows.", "quantifier": "every optimizer with such simulations, all experiments, masks, stresses and errors of the stresses, every solver which stops at a local minimum", "why_tests_cant": "A fit to one set of noisy data says nothing about the sensitivity to all others.", "anchors": ["src/hyperelastic/lab/_optimize.py:Optimize.curve_fit", "src/hyperelastic/lab/_simulation.py:Simulation.stress_curve_fit", "src/hyperelastic/models/invariants/_third_order_deformation.py:ThirdOrderDeformation.gradient"]}
{"id": "C98", "title": "Curves and fits of generalized-invariants materials", "statement": "A Simulation of a third-order-deformation material in the generalized invariants of any strain measure (strain, deformation with every non-zero exponent, user-defined), on the deformation or the distortional space, returns at every stretch the derivative of the documented energy, evaluated at the documented generalized invariants of the principal stretches of the load case, by the stretch, per stretched axis. For a given strain measure these curves are linear in the coefficients, so best fits exist, every local minimum of the error is a global one and errors of the measurements are not amplified in the curves.", "quantifier": "every strain measure with its derivatives, all coefficients, load cases, non-empty lists of positive stretches, every eigenvalue solver, both spaces, every optimizer of such tests", "why_tests_cant": "The test compares one slope for four exponents and two load cases; the curve is claimed for all of them.", "anchors": ["src/hyperelastic/lab/_simulation.py:Simulation.stress_curve_fit", "src/hyperelastic/frameworks/_generalized.py:GeneralizedInvariants", "src/hyperelastic/models/stretches/_generalized_invariants.py:GeneralizedInvariantsModel.gradient", "src/hyperelastic/models/generalized/_stretch.py:deformation"]}
{"id": "C99", "title": "Small exponents approach the logarithmic strain", "statement": "GeneralizedInvariants with the measures of the package (deformation, or strain with the strain variant of the model) on the DistortionalSpace: the stress depends continuously on the non-zero exponent, and for exponents which tend to zero from either side it tends, at a linear rate, to the stress of the third-order-deformation energy in the invariants of the logarithmic strain of the distortional part; so do the curves of a Simulation on either space. The exponent zero itself raises ZeroDivisionError for both measures, and on the DeformationSpace the stress (its pressure) grows without bound.", "quantifier": "every deformation with positive determinant in its principal axes, all coefficients, exponents, measures of the package, eigenvalue solvers, load cases and lists of positive stretches", "why_tests_cant": "The test takes the exponent 0.001 as a stand-in for the logarithmic strain; a limit over all exponents cannot be run.", "anchors": ["src/hyperelastic/models/generalized/_stretch.py:deformation", "src/hyperelastic/models/generalized/_stretch.py:strain", "src/hyperelastic/models/stretches/_generalized_invariants.py:GeneralizedInvariantsModel.gradient", "src/hyperelastic/spaces/_distortional.py:Distortional.gradient", "src/hyperelastic/lab/_simulation.py:Simulation.stress_curve_fit"]}
{"id": "C100", "title": "The same material in three formulations", "statement": "On the DistortionalSpace a ThirdOrderDeformation(C10, C01) in GeneralizedInvariants with the deformation measure of any non-zero exponent k returns the same stress as Ogden(mu=[2 C10, 2 C01], alpha=[k, -k]), and for k = 2 so does InvariantsFramework with the same model (Mooney-Rivlin); the elasticities agree as well (outside the tolerance of the distortional space). With C01 = 0 stress and elasticity agree on all three spaces. Simulations with the generalized material return the Ogden curves on the deformation and the distortional space.", "quantifier": "every invertible deformation gradient, all coefficients and non-zero exponents, eigenvalue solvers, object states, load cases and lists of positive stretches; elasticities for eigenvalues which are equal or apart by more than the perturbation", "why_tests_cant": "An equality of three implementations for all inputs; the package has no test which compares formulations.", "anchors": ["src/hyperelastic/models/generalized/_stretch.py:deformation", "src/hyperelastic/models/stretches/_generalized_invariants.py:GeneralizedInvariantsModel.gradient,hessian", "src/hyperelastic/models/stretches/_ogden.py:Ogden.gradient,hessian", "src/hyperelastic/models/invariants/_third_order_deformation.py:ThirdOrderDeformation.gradient", "src/hyperelastic/spaces/_distortional.py:Distortional.gradient,hessian", "src/hyperelastic/frameworks/_stretches.py:Stretches.gradient,hessian"]}
{"id": "C101", "title": "Which tests identify a two-term material of generalized invariants", "statement": "A fit of C10 and C01 of a ThirdOrderDeformation in GeneralizedInvariants with the deformation measure of any given non-zero exponent e has exactly one best fit if and only if two data points away from stretch one have a different value of (middle stretch)^e: two different stretches of one uniaxial or equi-biaxial test, or one of these and one planar point, suffice; planar tests alone never do. Divided by a factor which vanishes at stretch one only, the normal force is a straight line in that quantity with intercept C10 and slope C01 (Mooney's plot). Exact measurements are recovered from any initial guess; seven stretches identify the exponent as well, up to its sign with the coefficients swapped.", "quantifier": "every non-zero exponent, optimizer of such tests on the deformation or distortional space, non-empty lists of positive stretches and measured stresses, initial guesses, solvers which stop at a local minimum", "why_tests_cant": "Uniqueness and the impossibility of a unique fit range over all data sets and parameters; a test fits one data set from one guess.", "anchors": ["src/hyperelastic/models/generalized/_stretch.py:deformation", "src/hyperelastic/models/stretches/_generalized_invariants.py:GeneralizedInvariantsModel.gradient", "src/hyperelastic/models/invariants/_third_order_deformation.py:ThirdOrderDeformation.gradient", "src/hyperelastic/lab/_load_case.py:Uniaxial.defgrad,Biaxial.defgrad,Planar.defgrad", "src/hyperelastic/lab/_simulation.py:Simulation.stress_curve_fit", "src/hyperelastic/lab/_optimize.py:Optimize.curve_fit"]}
{"id": "C102", "title": "Two-term materials of generalized invariants: increasing curves and stability", "statement": "For a ThirdOrderDeformation with C10 and C01 only (not negative) in GeneralizedInvariants with the deformation measure of the exponent e: a simulated force curve strictly increases if the exponents e and -e of the terms which are present are admissible for the load case (uniaxial: >= 1 or <= -2; planar: >= 1 or <= -1; equi-biaxial: >= 1 or <= -1/2), for a single term with a positive coefficient if and only if; for every exponent the force is positive in tension and negative in compression. On the DistortionalSpace the traction does not decrease along dyads if e >= 3/2 or e <= -3 (first term) and e <= -3/2 or e >= 3 (second term), and for a single term if and only if; the elasticity tensor is then elliptic. In the Invariants framework (e = 2) the neo-Hookean material is stable in this sense, the term with the second invariant alone is not. On the DeformationSpace the stress of the first term alone does not decrease between any two deformation gradients if e >= 1.", "quantifier": "every non-zero exponent, non-negative coefficients, stretches, deformation gradients and dyads which keep the orientation, and eigen-decompositions", "why_tests_cant": "Monotonicity and ellipticity range over all deformation gradients, directions and parameters; a test looks at a few points of one curve.", "anchors": ["src/hyperelastic/models/generalized/_stretch.py:deformation", "src/hyperelastic/models/stretches/_generalized_invariants.py:GeneralizedInvariantsModel.gradient,GeneralizedInvariantsModel.hessian", "src/hyperelastic/models/invariants/_third_order_deformation.py:ThirdOrderDeformation.gradient", "src/hyperelastic/spaces/_distortional.py:Distortional.gradient,Distortional.hessian", "src/hyperelastic/lab/_simulation.py:Simulation.stress_curve_fit"]}
