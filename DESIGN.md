# Formal model of adtzlr/hyperelastic in Lean 4

## 1. What is modelled, in one paragraph

Numbers are exact, except in the rounding model (below): Python/numpy floats become elements of an arbitrary field `K`
(for the purely algebraic code in `math/_voigt.py`) or real numbers `ℝ` (wherever
powers, roots or derivatives occur).  An ndarray with trailing axes is modelled at one
point of the trailing axes (numpy applies all operations of the library point-wise);
the exceptions - places where the code looks at the whole batch or at shapes - have
models of their own (`Model/Batch`, `Model/Shapes`).  Objects with cached attributes are
modelled as state machines whose methods take and return the attribute record and may
raise (`PyM σ α := ExceptT PyErr (StateM σ) α`); the pure functions used in the calculus theorems are
proved to be what these methods return from *every* state.

## 2. Trusted base

* Lean 4.33.0's kernel and Mathlib's definitions (ℝ, `Matrix`, `HasDerivAt`, `Real.rpow`,
  `Real.sqrt`, interval integrals).  Axioms: every theorem depends on at most `propext`,
  `Classical.choice`, `Quot.sound` (the theorems on lists, shapes and Voigt tables on fewer).
  No axiom is added; no compiled evaluation is used.
* The reading of the Python source: every model definition cites file and lines.
* numpy facts assumed: fancy indexing copies; `einsum(..., out=x)` with `x` also an
  operand behaves as if the operand had been copied first (`NPY_ITER_COPY_IF_OVERLAP`);
  `np.allclose(x, 0)` is `∀ entries, |x| ≤ 1e-8`, `np.isclose(v, 0)` is `|v| ≤ 1e-8`;
  the broadcasting rules, and that `einsum` never broadcasts its `out` operand
  (`Model/Shapes`); float-to-int assignment truncates towards zero;
  integer indices, slices, `swapaxes` and `broadcast_to` are views, arithmetic and `.copy()` allocate, ufuncs with
  `out` behave as if overlapping operands had been copied first, `x += y` on an array writes in place and on a Python
  number rebinds (`Model/Memory`).

### Modelled, file by file

| file in `src/hyperelastic` | model | remarks |
|---|---|---|
| `math/_voigt.py` | `Model/Voigt` | all functions, over any field; `tril_from_triu`/`triu_from_tril` for any dimension; `out=` buffers as functions of their previous content; `eigh`/`eigvalsh` through an oracle |
| `models/invariants/_third_order_deformation.py` | `Model/InvModels` | `None` entries are `Option.none` |
| `models/invariants/_torch.py` | `Model/Torch` | tensors are expressions in the leaf tensors; `torch.autograd.grad` (not code of the repository) is modelled as reverse-mode differentiation with PyTorch's backward formulas, `RuntimeError` for tensors which do not require grad, and an arbitrary oracle for all further exceptions; `Spec.releasing` is the oracle for freed buffers (`retain_graph=False`), the constructor `saved` marks the tensors of the first graph inside a derivative; exact numbers (C55, C56) or the numbers of torch's default dtype, every operation rounded (C72) |
| `self.x` (constructors of frameworks and spaces), `F, statevars = x[0], x[-1]` | `Model/Init` | entries of the lists are tensors of shape `(3, 3)` or vectors, without trailing axes |
| `models/stretches/_ogden.py`, `_generalized_invariants.py`, `models/generalized/_stretch.py` | `Model/StretchModels` | term lists of any length, `ZeroDivisionError` for `alpha = 0` / `k = 0` |
| `frameworks/_invariants.py` | `Model/Invariants` | cached attributes as a record; branches on `None` |
| `frameworks/_stretches.py`, `_generalized.py` | `Model/Stretches` | `numpy.linalg.eigh` is an arbitrary function with `EighValid` (orthonormal eigenvectors, ascending or not) |
| `spaces/_space.py`, `_deformation.py`, `_distortional.py`, `_dilatational.py` | `Model/Space` | all settings of `force`, `area`, `finalize` |
| the same, on arrays with trailing axes | `Model/Batch`, `Model/BatchGeneralized` | pointwise arithmetic, `np.allclose` over the whole batch; the literal list in `GeneralizedInvariantsModel.hessian` broadcast along the last axis |
| the same, on shapes only | `Model/Shapes` | every array replaced by its shape, every numpy call by its effect on shapes or its `ValueError` |
| the same, as threads | `Model/Threads` | `gradient` and `hessian` of `Deformation`, `Distortional`, `Dilatational`, `Invariants`, `Stretches` and `GeneralizedInvariantsModel` with every attribute access as an atomic step; equal to the sequential model when not interrupted (`C57_methods`, `C57_framework`) |
| the same, on memory | `Model/Memory`, `Model/MemoryStretches`, `Model/MemoryGeneralized` | math functions, `Space.piola`, the three spaces, `Invariants`, `ThirdOrderDeformation`, `Stretches`, `Ogden`, `GeneralizedInvariantsModel` with every allocation, view, in-place write and attribute reference; equal to the batch model in content (C61) |
| `lab/_load_case.py`, `_experiment.py`, `_simulation.py` | `Model/Lab` | lists of data points |
| `Simulation` with a `GeneralizedInvariants` material | `Model/LabGeneralized` | the array of shape `(3, 3, 1, n)` of `stress_curve_fit` with its two trailing axes |
| `lab/_optimize.py`, `_curve_fit.py` | `Model/Optimize` | a heap of parameter arrays (float or integer) and tuples, references between optimizers and simulations, masks (slices, booleans, integers), scipy's solver as an arbitrary function of its arguments |
| `lab/_plotting.py`, `Optimize.plot` | `Model/Plot` | figures as lists of axes which record the lines, labels and text handed to matplotlib; formatting of numbers is not modelled |
| `math/_voigt.py`, `_third_order_deformation.py`, `_invariants.py`, `DeformationSpace`, `DistortionalSpace` and `DilatationalSpace` (gradient and hessian), in floating-point arithmetic | `Model/Rounding` | every addition, multiplication, division, power and `einsum` in the order of the code, over an abstract arithmetic; for `ℝ` it is proved equal to the exact model (`Proofs/RoundingExact`), for `Fl R` each operation is rounded |
| `DeformationSpace` with `Invariants(ThirdOrderDeformation)`, in floating-point arithmetic with overflow and underflow | `Model/Range` | the programs of `Model/Rounding` over machine numbers; `none` after an overflow |
| the three spaces with an arbitrary material, the load cases and `Experiment`, with `inf` and `nan` | `Model/NonFinite` | IEEE numbers, arbitrary rounding; the sign of zero and `np.seterr` are not modelled; over the real numbers these are the programs of `Model/Space` (`C90_same_program`) |
| `lab/_load_case.py`, `lab/_simulation.py` (`stress_curve_fit`), `lab/_experiment.py`, in floating-point arithmetic | `Model/RoundingLab` | `np.sqrt` with one rounding; materials of `Model/Rounding` (Ogden: `Model/RoundingOgdenCurve`) |
| `math/_voigt.py` (`eigh`), `Ogden.gradient`, `Stretches.gradient` (and `gradient` of all three spaces around them), in floating-point arithmetic | `Model/RoundingStretches` | `numpy.linalg.eigh` is an arbitrary function; the theorems assume it is backward stable (`Spec.EighAccurate`) |
| `Ogden.hessian`, `Stretches.hessian`, `Deformation.hessian` around them, in floating-point arithmetic | `Model/RoundingTangent` | as above; the tolerance `1e-8` of `np.isclose` is a parameter `τ` of the program (the float next to `1e-8` in `C91_double`) |
| `Distortional.hessian`, `Dilatational.hessian` around the hessian of `Ogden` / `Stretches`, in floating-point arithmetic | `Model/RoundingTangentSplit` | as `Model/RoundingTangent`, and the rounded powers of the determinant of `Model/Rounding`; `np.allclose` on the computed tensor |
| `lab/_simulation.py` (`stress_curve_fit`) around `Stretches.gradient` of `Ogden`, deformation and distortional space, in floating-point arithmetic | `Model/RoundingOgdenCurve` | as `Model/RoundingLab` and `Model/RoundingStretches` |
| `math/_voigt.py` (what the spaces use), `ThirdOrderDeformation`, `Invariants`, all spaces, `Ogden.gradient`, the load cases, on integer arrays | `Model/Dtype` | arrays of dtype int32, int64 (wrap-around) or float64 (exact), numpy's result types, the casting rules of ufuncs, augmented assignments and `einsum`; proved equal to the main model on floats (`C67_float_arrays`) |

The rounding model assumes the standard model of floating-point arithmetic (`Rnd.Rounding`): relative error at
most `u` per operation, two roundings for powers, `n + p` roundings for a sum of `n` products of at most `p` factors
in any order.  The last assumption is proved for all orders, brackets, zero-paddings and fused
multiply-adds (`C64_any_order`); all assumptions are proved for binary64 with round to nearest even
and an unbounded exponent (`Proofs/Binary64`).  For Ogden materials the eigenvalue solver is assumed to be backward
stable (`Spec.EighAccurate`), an assumption which is met by every exact solver and by inexact ones (`inexact_solver`).  C81 uses besides that products with one, sums with zeros and products with zero are exact (`Spec.Ieee`).  Overflow, underflow and subnormal numbers are outside of this model.  For the deformation space they are in `Model/Range` (C87): `Rnd.Machine` assumes a relative error `u` and an absolute error `η` per operation and a finite result if the exact one, with its error, does not exceed the largest number `Ω`; the assumption on sums of products is proved for all orders of evaluation (`C87_any_order`), all assumptions for IEEE binary64 with gradual underflow and overflow (`Proofs/Binary64Range`).  `inf` and `nan` are not told apart.

### Not modelled

Floating-point rounding of the generalized-invariants model and of `Optimize`; bounds which exclude an overflow outside of the deformation space; in `Optimize`, where NaN/inf decide a result
(`np.sqrt(np.diag(pcov))`), they are `none`; in the models with real numbers division by zero is `0` as in Mathlib, and the
theorems carry `≠ 0` hypotheses wherever this would matter (`Model/NonFinite` has `inf` and `nan`, without the frameworks); numpy dtypes except the integer
parameter arrays of C47 and the integer arrays of C67 and C68 (float32, complex, unsigned and object dtypes are not modelled); `einsumt` (`parallel=True` is taken to compute the same sums);
matplotlib beyond the recorded calls; the inside of scipy's optimizer (it may return or raise anything, but
not modify `p0`) and of `numpy.linalg.eigh`; partially overlapping views; user-supplied models and strain
energies (universally quantified).

## 3. Layout

| directory | contents |
|---|---|
| `Verif/Spec/` | short, independent specifications (tensors as Mathlib matrices, "stores", "is the derivative of", "a call returns") |
| `Verif/Model/` | the code, function by function, with citations |
| `Verif/Proofs/` | helper lemmas |
| `Verif/Props/` | the property theorems, each beside an `example` that its hypotheses are met |
| `tools/` | `manifest.py` (writes MANIFEST.json and Verif.lean), `seed.py` (runs wrong programs), `log.py` |

Derivatives are stated along motions: `Moves X X' t₀` says that every entry of the curve `X` has the
derivative `X'` at `t₀`, and "H is the derivative of G" (`IsHessian`) says that for every
motion of the argument, whatever the calls return along the motion moves with rate `H : C'`.  No
theorem mentions the internal formulas of the code.  `Returns m s r` says that the call `m` on an object whose attributes are `s` returns `r`
(and does not raise).

## 4. Plan per property

| id | model | proof |
|---|---|---|
| C01, C02 | index tables of `asvoigt`/`astensor`; mode 4 as the sequence of writes | relation `Stores`/`Stores4` between Voigt data and full tensors; case analysis over the finite index set with symbolic entries |
| C03-C08 | each function of `_voigt.py` over any field, in-place buffers as functions of the previous content | `Stores v T → Stores (op v) (matrix op T)`, by expansion and `ring`/`field_simp` |
| C09 | general dimension `n`, `out` buffer explicit | extensionality, order of indices |
| C10-C12 | the branches of the models with `None` as `Option` | `HasDerivAt` of the documented energy |
| C13-C15 | `GeneralizedInvariantsModel` literally, including the literal list `[2, 0, 1]` | chain rule; C14 is false with I3: refutation by a witness + `_partial` |
| C16-C18 | `Invariants` literally, including the `d2WdI3dI3` branch | chain rule along curves; C17 is false with a `d2WdI3dI3`: refutation + `_partial` |
| C19-C22 | `Stretches` with an arbitrary eigen-decomposition | motions of stretches and axes; Sylvester projectors for basis independence |
| C23 | all hessians | algebra |
| C24 | state threading of all layers | direct; hessian part false: refutation + `_partial` |
| C25-C31 | the three spaces; `Dilatational` literally | product/chain rule; C29 false: refutation + `_partial`; C28 false below the absolute tolerance, with an error bound (`C28_bound`) |
| C32-C37 | same | matrix algebra |
| C35 | object state machines | determinism from every state, induction over call sequences |
| C38 | numpy broadcasting on shapes | induction on shapes; refutations for `force=0` with constant models, empty batches and the generalized invariants with constant models |
| C39 | batch models of all models, frameworks and spaces | each batch method at one point is the single-point method; refutation below the tolerance and for `GeneralizedInvariantsModel` with a derivative w.r.t. the third invariant |
| C40-C46 | lab, over ℝ and lists | algebra, calculus |
| C47 | heap of parameter arrays, references, solver oracle | invariant by induction over operation sequences; refutation for integer arrays |
| C48-C50 | lists, masks, the same heap | induction |
| C51 | interval integral over the calls along a motion | fundamental theorem of calculus on C25/C27 |
| C52 | `Stretches` and the spaces at `R diag(l) Qᵀ` | spectral decomposition, C36 for coaxiality |
| C53 | parameters of the models | linearity of every step of the code |
| C54 | the elasticity tensor at F = 1 | the returned stress rate along diagonal curves at the undeformed state determines the isotropic tensor there, in every framework |
| C55 | `TorchModel` with energies as expression tensors | induction over the expression: the backward pass computes the partial derivatives (twice), which are symmetric |
| C56 | the same, exceptions | exact condition for returning; Neo-Hookean energy refutes the full claim |
| C57 | methods as sequences of atomic attribute accesses, threads as arbitrary interleavings | induction over the schedule: what remains of each thread, run on its object, gives the same result; induction over the program for progress |
| C58 | the same, one object | a schedule which returns another thread's stress; uninterrupted calls by C35 |
| C59 | the returned stress along a load case | the stresses at diagonal deformation gradients in terms of stretches (converse of C52) or invariants (C16), derivative at stretch one by the chain rule; distortional space by C44 |
| C60 | the returned elasticity as a quadratic form on rank-one tensors, the returned load curves | the form is the second derivative of the documented energy along F + t a⊗b (C25-C28); det is affine and the invariants quadratic along that line; bound by completing the square. Curves: C42, products of an increasing and a valley-shaped function |
| C61 | the same methods on arrays in memory: buffers, views, `out=`, `+=`, attributes as references | weakest preconditions: every statement keeps the existing buffers or writes to a buffer allocated in this call; the content is that of the model on batches (`Spec/Memory: Implements`); histories by induction |
| C62 | `math/_voigt.py` with `out` on the same memory | as C61, the writes into `out` come after the last read of the operands |
| C63 | the plotting calls on the session of C47 and a record of what is drawn | induction over the experiments; frame lemma for every exit of the method; refutation with two optimizers and one simulation |
| C64 | the functions of `hyperelastic.math` with every operation rounded | certified arithmetic: the programs are generic in the number type and are run on triples (rounded value, exact value, bound); homomorphisms to the rounded, the exact, the absolute-value and the counting arithmetic |
| C65 | the same for the stress and the elasticity tensor of third-order materials in the deformation space | as C64; majorants in closed form |
| C66 | the same for the stresses and the elasticity tensors of the distortional and the dilatational space, with rounded determinant, powers and reciprocals, and `np.allclose` decided on computed numbers | as C64 with a second factor `q` for the powers, bounded by the condition number of the determinant; either decision, and the same decision away from the tolerance |
| C67 | arrays with a dtype, wrap-around, numpy's promotion and casting rules | simulation: two runs with related object states have the same outcome; ring homomorphisms `ℤ → ZMod 2ⁿ` for the wrapped polynomials; bounds for small entries; three refutations |
| C68 | the same | case distinction over the dtypes; the failing store is independent of the material |
| C69 | the framework and `Ogden` models of C20 | the derivative of the gradient with exact divided differences (the proof of C20 without separation), the mean value theorem along the exchange of two eigenvalues, an explicit Lipschitz constant for Ogden, and a strict mean value for the iff |
| C70 | the threads of C57/C58, one object, one deformation | rely-guarantee: the updates any thread makes are those of a fixed set, each attribute is either unchanged or gets its one value; what a thread has assigned stays known until it reads it (`Proofs/ThreadsShared`, `Proofs/ThreadsSteady`) |
| C71 | `Spec.PrincipalOrder` on what the spaces return with `area=None` | eigenvectors of `F Fᵀ` are pulled back to eigenvectors of `C`; the order is a property of the material (`Grows`) which the three spaces preserve; invariants: `(y-x)(W1 + W2(I1-x-y))`, stretches: `λ ∂ψ/∂λ` monotone |
| C72 | the same `TorchModel` over the numbers `Num P` of torch's default dtype: `torch.Tensor(x)` and every operation round | the derivative of a polynomial is a polynomial, its majorant the derivative of the majorant; induction over the expression; binary formats with `p` bits as instances |
| C73 | `self.x` of frameworks and spaces and the argument lists of the methods, `Model/Init`; entries are `(3, 3)` tensors or vectors | reading the list, then the theorems on isotropy (C36), objectivity (C32), zero stress (C37) and initial moduli (C54) |
| C74 | results of the spaces as functions of all deformation gradients in a neighbourhood, `Spec/Prediction` | derivatives along all motions are Fréchet derivatives: a sequence of counterexamples lies on a motion (`Proofs/Frechet`); continuity likewise |
| C75 | sequences of calls of gradient and hessian with the solution of the linear system in between, `Spec/Newton` | quadratic remainder by the mean value theorem, a regular tangent is bounded below near the solution (`Proofs/Newton`), induction over the steps |
| C76 | the optimizer and the simulations of C42, C47, C48, best fits, `Spec/Fit` | the curves are linear in the parameters (C42), so the error is a quadratic function: existence by projection, local minima are global; data which determine the parameters by counting zeros of polynomials; end to end with C47 |
| C77 | the simulations of C42, `Spec/Monotone` | each term is a product of an increasing function which vanishes at one and a function with a minimum at one; intermediate value theorem; for Ogden monotonicity of powers and their limits |
| C78 | the stresses and elasticities of C26-C28, C52; `Spec/Stability` | singular values: diagonal entries of RᵀGQ are dominated by the singular values in every sum of powers p ≥ 1; along dyads det is affine and Young's inequality with the exponents p/3 bounds the isochoric factor; necessity by a half turn, by a uniaxial stretch and by limits; ellipticity from difference quotients |
| C79 | the load cases, `Simulation.stress_curve_fit` and `Experiment` in floating-point arithmetic (`Model/RoundingLab`) | C64's certified arithmetic on data with a relative accuracy (the computed deformation gradient); the determinant is one along the load cases; combined with C42 |
| C80 | `eigh`, `Ogden.gradient`, `Stretches.gradient` and `gradient` of the three spaces in floating-point arithmetic (`Model/RoundingStretches`), the solver an arbitrary backward stable function | the derivative of the energy is a spectral function of `C` and as Lipschitz as its scalar function (also at repeated eigenvalues); C64's certified arithmetic on the data returned by the solver |
| C81 | the rounded programs of C65, C66 and C79 in an arithmetic which satisfies `Spec.Ieee` | every step of the programs maps diagonal tensors to diagonal ones and treats equal components equally (`Fair`); induction over the orders of a sum (`SumOf.single`); the counterexample by evaluating the program in binary64 |
| C82 | the simulations of C42 with Ogden materials and the fits of C47/C76 | a sum of n powers with n positive zeros is zero (Rolle); the exponents of a vanishing curve would be closed under multiplication with -1/2 (or -2), which no finite set of nonzero numbers is; uniqueness of fits from C76; planar curves are even in the exponent |
| C83 | the simulations of C42 and the isotropic materials of C36 | the two deformation gradients are conjugate by an exchange of axes; objectivity and material symmetry; the formula of the normal force |
| C84 | the hessians of C23/C36 | rotation lemmas for all tensors in the three spaces; uniqueness of the spectral form (C21) for the stretches; a counterexample at the tolerance of the distortional space |
| C85 | the Cauchy stress of C36/C32, simple shear in a separate specification | the stress is fixed by the reflections about the principal axes of F F^T (singular value decomposition); explicit inverse and products for simple shear |
| C86 | Cauchy stress and elasticity with `area=None` of Model/Space; rates in a separate specification | product rule for J⁻¹ P Fᵀ, derivative of the determinant, explicit push-forward of the material elasticity |
| C87 | the programs of `Model/Rounding` over machine numbers which are lost after an overflow (`Model/Range`) | certified arithmetic with bounds `2^e M^d` of all intermediate results (`Proofs/RangeCert`, `Proofs/RangeSize`) |
| C88 | batch model (Model/Batch), Spec/Reindex | from the pointwise theorems of C39; the distortional elasticity from the batch-wide decision being invariant under surjective reindexing |
| C89 | models, frameworks, spaces (pointwise), lab | ScaledBy relations carried through the code by the run equations; fits from linearity and uniqueness (C76) |
| C90 | IEEE numbers with `inf`, `nan` and an arbitrary rounding; the three spaces with an arbitrary material, the load cases, experiments (`Model/NonFinite`) | absorption of non-finite numbers through each program; homomorphism from the reals for the exact format; `C32` for negative stretches |
| C91 | `Ogden.hessian`, `Stretches.hessian`, `Deformation.hessian` in floating-point arithmetic (`Model/RoundingTangent`), the tolerance of `np.isclose` a parameter | the exact hessian is the spectral tangent with first divided differences; divided differences of the computed derivatives with error multiplied by 1/τ, or replaced by derivatives with error L₂ τ; Lipschitz dependence of the spectral tangent on `C`; C64's certified sums |
| C92 | the load cases of `Model/RoundingLab` composed with the Ogden gradients of `Model/RoundingStretches` (`Model/RoundingOgdenCurve`) | C79 for the computed stretches, C80 at the computed deformation gradient, C52/C42 for the exact stress there, Lipschitz constants of the derivatives for the change of the stretches |
| C93 | the hessians of both spaces around the rounded derivatives of `Model/RoundingTangent` (`Model/RoundingTangentSplit`) | C91 for the computed derivatives of the energy at the computed multiple of C (perturbed by the determinant and the power), certificates of the tensor operations that are linear in both derivatives, a case distinction of the computed and the exact decision |
| C94 | as C75, with the tangent of `Model/Stretches` including its comparison of the stretches | divided differences of the slope of the energy are Lipschitz continuous in the eigenvalues, which move by at most the change of C (`Proofs/NewtonOgden`); the tangent is consistent up to a multiple of the tolerance (`Proofs/NewtonOgdenSpace`); Newton's method with such a tangent (`Proofs/NewtonApprox`); the quadratic form of the tangent in the eigenbasis (`Proofs/NewtonOgdenRegular`) |
| C95 | as C28, C29 and C69 | the chain rule of the space applied to a hessian with an error, entrywise bounds of the projections; C69 for the material |
| C96 | as C75 and C94 | the stress is close to the linear map of the tangent on a ball (mean value inequality), hence injective and onto a ball (Banach iteration of mathlib's ApproximatesLinearOn); each Newton step halves the distance to the solution; compactness of the path (`Proofs/LoadSteps`) |
| C97 | as C76; `Spec/FitNoise` | normal equations: the slope of the error vanishes at a best fit; projections do not expand; injective linear maps in finite dimension are bounded below |
| C98 | `Model/LabGeneralized` (factory of the session, trailing shape `(1, n)`) | pointwise evaluation (C39) of the batch, work theorem (C43) with the energy of C19, existence through the principal stresses (C52), linearity of the derivative |
| C99 | `Spec/Logarithmic` | closed form of the principal stresses (C52) in (exp(k y) - 1)/k and (exp(k y) - 1 - k y)/k²; the logarithmic strains sum to zero, which cancels what diverges |
| C100 | existing specification | closed forms of the principal stresses (C52) with the logarithmic strains summing to zero; elasticities agree since each is the derivative of the same stress (C20, C28) |
| C101 | Spec/PowerTest (the weight of the second term), existing specification of fits | closed form of the curves (C100), linear least squares (C76), independence of powers (C82) |
| C102 | existing model and specification (Spec/Monotone, C78) | equality with Ogden's model (C100), monotonicity of power curves, C78 |

## 5. What the proofs found in the code

1. `frameworks/_invariants.py` L225-226: the `d2WdI3dI3` term of the hessian is not the derivative
   of the gradient (`C17_hessian_false`).
2. The hessians of the frameworks hand the *updated* state variables to the model
   (`C24_invariants_false`, `C24_stretches_false`, `C24_generalized_false`).
3. `models/stretches/_generalized_invariants.py`: literal `[2, 0, 1]` in the mixed derivative of the third invariant
   (`C14_hessian_false`, exact error `C14_error`; with trailing axes the list is lined up with the last axis: a `ValueError`,
   or silently wrong rows if that axis has length three, `C39_generalized_error`, `C39_generalized_rows`; `C38_generalized_false`).
4. `spaces/_dilatational.py`: hands `I3^(1/3) C` instead of `I3^(1/3) I` to the material
   (`C29_gradient_false`); the stress is not conservative (`C29_cycle_false`).
5. `spaces/_distortional.py`: `np.allclose(C4b, 0)` drops a term for small moduli
   (`C28_hessian_false`, bounded by `C28_bound`), and makes a point's result depend on the other points of the batch
   (`C39_distortional_hessian_false`).
6. `force=0` with a material whose derivatives are constants raises (`C38_reference_force_false`); empty
   batches raise (`C38_empty_batch_false`).
7. `UnboundLocalError` when a model returns `None` for a first derivative but a second derivative.
8. `Optimize` with an integer parameter array truncates the optimum (`C47_integers_false`); a tuple
   raises after the solver ran (`C47_tuple`).
9. The area vector option divides by `√I3 = |det F|`, so for `det F < 0` the "Cauchy stress" has the other sign
   (hypothesis of `C33_cauchy`).
10. `GeneralizedInvariants` raises `ZeroDivisionError` for exponent 0 (`C13_init_zero`).

11. `TorchModel.hessian` raises `RuntimeError` for energies linear in an invariant, Neo-Hooke and Mooney-Rivlin among them
   (`C56_linear_false`).  `gradient` passes `retain_graph=False`, so an energy with a product, quotient, power, exponential
   or logarithm which depends on two invariants (a `C11` term, for example) raises in the second or third `autograd.grad`
   (`C56_coupled`, `C56_coupled_false`, with the engine `Spec.releasing`).  `hessian` accepts exactly the energies in which no buffered operation
   couples two invariants and every invariant enters nonlinearly, but neither through an exponential nor through two buffered
   operations one after the other (`C56_hessian_buffers_partial`): its second pass meets the buffers which the first pass
   released.  `exp(I1 - 3)` has a gradient and raises in `hessian` (`C56_exponential_false`), so do Fung-type energies and
   `(sqrt(I3) - 1)**2`; the Yeoh energy of the test is accepted (example).
12. Methods communicate through attributes (`self.C`, `self.S`, ...): threads which share an object can get each other's
   stresses (`C58_race`, `C58_shared_false`).

13. `cdya_ik` and `cdya_il` with `out`: the result is not stored in `out`, which receives the plain dyadic product
   (`C62_cdya_ik_false`, `C62_cdya_ik_out`).
14. `Simulation.plot_force_displacement` always raises `AttributeError` (a simulation has no `displacement`) and leaves an
    empty figure behind (`C63_simulation_force_false`).
15. `Optimize.plot` draws the simulations with whatever parameters they hold now and lists those of the optimizer: after a
    fit of another optimizer with the same simulation objects they differ (`C63_shared_false`).
16. Integer deformation gradients: `DeformationSpace` computes with integers and returns floats, but its elasticity tensor
    with `force=0` and everything in the distortional and the dilatational space raise `TypeError`
    (`C67_reference_force_false`, `C68_split`), and int32 entries from 46341 on silently give the stress of other numbers
    (`C67_overflow_false`, `C67_biaxial_false`).
17. `Stretches.hessian` with unequal eigenvalues of `C` closer than `1e-8`: not the derivative of the gradient, for one Ogden
    term with any exponent besides 2 and 4 (`C69_ogden_iff`); the error is of the order of the tolerance (`C69_bound`).

18. `TorchModel._astensors` uses `torch.Tensor`, i.e. torch's default dtype, `float32`: double-precision invariants are
   rounded to 24 bits, results are single precision (`C72_gradient`, `C72_hessian`), and volume changes below `2^-25` vanish:
   a stiff volumetric energy returns no pressure at all there (`C72_resolution`, `C72_volumetric`).

A refuted property keeps its English statement; the theorem with the suffix `_false` is the
refutation, the theorems with the suffix `_partial` are what holds, and the manifest says `partial`.
19. In floating-point arithmetic the distortional stress of the undeformed state is hydrostatic but not exactly zero for
   some parameters, because `ddot(Sb, C) / 3` need not be the number whose triple was rounded (`C81_undeformed`; within the bounds of
   C66).
20. Planar tests cannot distinguish the exponents of Ogden's model from their negatives (`C82_planar`, `C82_planar_differ`): a fit to
    planar data alone has several solutions with different behaviour in all other tests.
21. The tolerance of the distortional space compares components, so it depends on the axes: the elasticity of a soft material changes
    if the specimen is turned (`C84_distortional_false`).
22. The tolerance of the distortional space is absolute, so it depends on the units: the elasticity of a material whose
    parameters are given in a large unit of stress is not the elasticity in the small unit, converted
    (`C89_distortional_hessian_false`), and it depends on the points evaluated in the same call (`C39`, `C88_all_points_needed`).
23. Negative stretches (`1 + displacement / length` with mixed-up units) give `nan` in the uniaxial load case, but in the planar and biaxial
   load cases minus the stress of the absolute value (`C90_negative_stretch_false`).
24. If the determinant of the right Cauchy-Green tensor overflows (stretches above 10 in `float16`, `1e52` in `float64`), the distortional space returns
   the stress zero instead of `inf` or `nan`: `inf ** (-1 / 3)` and `x / inf` are zero (`C90_overflow_false`).
25. For principal stretches which are nearly equal but not within `np.isclose`'s tolerance, the tangent of stretch-based materials is a quotient of two
   small differences: its rounding errors are multiplied by up to `1e8`, i.e. about half of the digits of double precision may be lost (bounded by C91).

## 6. Tests of the theorems against wrong programs

`tools/seed.py` copies the project to a scratch directory, applies one edit to one model definition,
rebuilds, and lists the property theorems which no longer prove (also counting those whose proofs
rest on a lemma that failed).  `seeded/LOG.jsonl` has one line per edit.
Edits which break no claim (equivalent programs) are kept as controls.
