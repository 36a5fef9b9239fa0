{
 "claims": [
  {
   "property": "C01",
   "status": "proved",
   "theorems": [
    "Props.C01_asvoigt_stores",
    "Props.C01_astensor_asvoigt_iff",
    "Props.C01_asvoigt_astensor",
    "Props.C01_astensor_stored"
   ],
   "note": ""
  },
  {
   "property": "C02",
   "status": "proved",
   "theorems": [
    "Props.C02_asvoigt4_stores",
    "Props.C02_astensor4_asvoigt4_iff",
    "Props.C02_asvoigt4_astensor4",
    "Props.C02_astensor4_stored"
   ],
   "note": ""
  },
  {
   "property": "C03",
   "status": "proved",
   "theorems": [
    "Props.C03_trace",
    "Props.C03_det",
    "Props.C03_eye",
    "Props.C03_dev",
    "Props.C03_trace_dev",
    "Props.C03_dev_dev"
   ],
   "note": ""
  },
  {
   "property": "C04",
   "status": "proved",
   "theorems": [
    "Props.C04_inv",
    "Props.C04_inv_determinant",
    "Props.C04_inv_out",
    "Props.C04_dot_inv",
    "Props.C04_inv_inv"
   ],
   "note": ""
  },
  {
   "property": "C05",
   "status": "proved",
   "theorems": [
    "Props.C05_dot",
    "Props.C05_ddot22",
    "Props.C05_ddot42",
    "Props.C05_ddot24",
    "Props.C05_ddot44"
   ],
   "note": ""
  },
  {
   "property": "C06",
   "status": "proved",
   "theorems": [
    "Props.C06_dya",
    "Props.C06_cdya_ik",
    "Props.C06_cdya_il",
    "Props.C06_cdya_ik_major",
    "Props.C06_cdya_il_major"
   ],
   "note": ""
  },
  {
   "property": "C07",
   "status": "proved",
   "theorems": [
    "Props.C07_cdya",
    "Props.C07_cdya_comm",
    "Props.C07_cdya_major",
    "Props.C07_cdya_self"
   ],
   "note": ""
  },
  {
   "property": "C08",
   "status": "proved",
   "theorems": [
    "Props.C08_transpose",
    "Props.C08_transpose_transpose",
    "Props.C08_transpose_dya",
    "Props.C08_transpose_ddot44"
   ],
   "note": ""
  },
  {
   "property": "C09",
   "status": "proved",
   "theorems": [
    "Props.C09_tril_from_triu",
    "Props.C09_triu_from_tril",
    "Props.C09_inplace",
    "Props.C09_idempotent",
    "Props.C09_symm_fixed",
    "Props.C09_out"
   ],
   "note": ""
  },
  {
   "property": "C10",
   "status": "proved",
   "theorems": [
    "Props.C10_returns",
    "Props.C10_gradient",
    "Props.C10_hessian",
    "Props.C10_statevars",
    "Props.C10_none_gradient",
    "Props.C10_none_hessian"
   ],
   "note": ""
  },
  {
   "property": "C11",
   "status": "proved",
   "theorems": [
    "Props.C11_returns",
    "Props.C11_gradient",
    "Props.C11_hessian",
    "Props.C11_mixed_none",
    "Props.C11_statevars"
   ],
   "note": ""
  },
  {
   "property": "C12",
   "status": "proved",
   "theorems": [
    "Props.C12_strain",
    "Props.C12_deformation",
    "Props.C12_reference"
   ],
   "note": ""
  },
  {
   "property": "C13",
   "status": "proved",
   "theorems": [
    "Props.C13_init_strain",
    "Props.C13_init_deformation",
    "Props.C13_init_zero",
    "Props.C13_gradient"
   ],
   "note": ""
  },
  {
   "property": "C14",
   "status": "partial",
   "theorems": [
    "Props.C14_hessian_partial",
    "Props.C14_error",
    "Props.C14_hessian_false"
   ],
   "note": "True (and proved) for models without a third invariant and without internal state (C14_hessian_partial family); refuted for models with dWdI3 because of the literal list [2, 0, 1] in _generalized_invariants.py line 288. C14_error: the exact error for every model (the index of the third direction stands in the place of its strain)."
  },
  {
   "property": "C15",
   "status": "proved",
   "theorems": [
    "Props.C15_slope",
    "Props.C15_slope_tod",
    "Props.C15_deformation",
    "Props.C15_strain",
    "Props.C15_returns"
   ],
   "note": ""
  },
  {
   "property": "C16",
   "status": "proved",
   "theorems": [
    "Props.C16_gradient",
    "Props.C16_returns"
   ],
   "note": ""
  },
  {
   "property": "C17",
   "status": "partial",
   "theorems": [
    "Props.C17_hessian_partial",
    "Props.C17_error",
    "Props.C17_exact",
    "Props.C17_returns",
    "Props.C17_hessian_false"
   ],
   "note": "Proved for every model without d2WdI3dI3; refuted with one: lines 225-226 of _invariants.py add d2WdI2dI2 * dya(dI2dC, dI2dC) instead. C17_error, C17_exact: the exact error for every model, and along which motions the hessian is right nevertheless."
  },
  {
   "property": "C18",
   "status": "proved",
   "theorems": [
    "Props.C18_gradient",
    "Props.C18_hessian"
   ],
   "note": ""
  },
  {
   "property": "C19",
   "status": "proved",
   "theorems": [
    "Props.C19_ogden",
    "Props.C19_generalized",
    "Props.C19_gradient",
    "Props.C19_returns"
   ],
   "note": ""
  },
  {
   "property": "C20",
   "status": "proved",
   "theorems": [
    "Props.C20_ogden",
    "Props.C20_ogden_returns",
    "Props.C20_generalized",
    "Props.C20_hessian"
   ],
   "note": ""
  },
  {
   "property": "C21",
   "status": "proved",
   "theorems": [
    "Props.C21_gradient",
    "Props.C21_hessian",
    "Props.C21_hessian_ascending"
   ],
   "note": ""
  },
  {
   "property": "C22",
   "status": "proved",
   "theorems": [
    "Props.C22_third_order",
    "Props.C22_gradient",
    "Props.C22_hessian"
   ],
   "note": ""
  },
  {
   "property": "C23",
   "status": "proved",
   "theorems": [
    "Props.C23_invariants",
    "Props.C23_stretches",
    "Props.C23_spaces"
   ],
   "note": ""
  },
  {
   "property": "C24",
   "status": "partial",
   "theorems": [
    "Props.C24_spaces_gradient",
    "Props.C24_spaces_hessian",
    "Props.C24_invariants_gradient",
    "Props.C24_stretches_gradient",
    "Props.C24_generalized_gradient",
    "Props.C24_generalized_hessian",
    "Props.C24_invariants_partial",
    "Props.C24_stretches_partial",
    "Props.C24_invariants_false",
    "Props.C24_stretches_false",
    "Props.C24_generalized_false"
   ],
   "note": "The gradient half is proved everywhere; the hessian half is proved for state-independent hessians and refuted in general: the frameworks hand the *updated* state variables to the model's hessian."
  },
  {
   "property": "C25",
   "status": "proved",
   "theorems": [
    "Props.C25_ogden",
    "Props.C25_gradient",
    "Props.C25_third_order"
   ],
   "note": ""
  },
  {
   "property": "C26",
   "status": "proved",
   "theorems": [
    "Props.C26_ogden",
    "Props.C26_hessian_at",
    "Props.C26_hessian",
    "Props.C26_third_order"
   ],
   "note": ""
  },
  {
   "property": "C27",
   "status": "proved",
   "theorems": [
    "Props.C27_ogden",
    "Props.C27_gradient",
    "Props.C27_third_order"
   ],
   "note": ""
  },
  {
   "property": "C28",
   "status": "partial",
   "theorems": [
    "Props.C28_bound",
    "Props.C28_ogden_partial",
    "Props.C28_hessian_at_partial",
    "Props.C28_hessian_partial",
    "Props.C28_hessian_false"
   ],
   "note": "Proved above the absolute tolerance of np.allclose(C4b, 0) (and whenever C4b is zero); refuted below it; C28_bound: for every material the error is at most 6561 f^2 (1 + n f^2)^2 |F'| 1e-8, f and n bounds of the entries of F and of the inverse of C."
  },
  {
   "property": "C29",
   "status": "partial",
   "theorems": [
    "Props.C29_error",
    "Props.C29_hessian_false",
    "Props.C29_gradient_partial",
    "Props.C29_hessian_partial",
    "Props.C29_gradient_false",
    "Props.C29_cycle_false"
   ],
   "note": "Refuted: the code hands I3^(1/3) * C, not I3^(1/3) * I, to the material. Proved: the cases in which the property does hold. Also proved: a closed deformation cycle in which the dilatational space does net work (C29_cycle_false), so its stress has no potential at all. C29_error: the exact error of the elasticity for every material; C29_hessian_false: it is not zero."
  },
  {
   "property": "C30",
   "status": "proved",
   "theorems": [
    "Props.C30_deviatoric",
    "Props.C30_unimodular",
    "Props.C30_scaling"
   ],
   "note": ""
  },
  {
   "property": "C31",
   "status": "proved",
   "theorems": [
    "Props.C31_hydrostatic"
   ],
   "note": ""
  },
  {
   "property": "C32",
   "status": "proved",
   "theorems": [
    "Props.C32_gradient",
    "Props.C32_hessian",
    "Props.C32_cauchy",
    "Props.C32_cauchy_hessian",
    "Props.C32_reference"
   ],
   "note": ""
  },
  {
   "property": "C33",
   "status": "proved",
   "theorems": [
    "Props.C33_symmetric",
    "Props.C33_cauchy"
   ],
   "note": ""
  },
  {
   "property": "C34",
   "status": "proved",
   "theorems": [
    "Props.C34_gradient",
    "Props.C34_gradient_iff",
    "Props.C34_hessian_reference",
    "Props.C34_hessian_push",
    "Props.C34_hessian_iff",
    "Props.C34_omitted"
   ],
   "note": ""
  },
  {
   "property": "C35",
   "status": "proved",
   "theorems": [
    "Props.C35_invariants",
    "Props.C35_stretches",
    "Props.C35_generalized",
    "Props.C35_spaces",
    "Props.C35_invariants_free",
    "Props.C35_stretches_free",
    "Props.C35_generalized_free",
    "Props.C35_sequence",
    "Props.C35_third_order",
    "Props.C35_ogden"
   ],
   "note": ""
  },
  {
   "property": "C36",
   "status": "proved",
   "theorems": [
    "Props.C36_stretches",
    "Props.C36_stretches_gradient",
    "Props.C36_invariants",
    "Props.C36_gradient",
    "Props.C36_cauchy",
    "Props.C36_invariants_gradient"
   ],
   "note": ""
  },
  {
   "property": "C37",
   "status": "proved",
   "theorems": [
    "Props.C37_stretches",
    "Props.C37_gradient",
    "Props.C37_invariants",
    "Props.C37_identity"
   ],
   "note": ""
  },
  {
   "property": "C38",
   "status": "partial",
   "theorems": [
    "Props.C38_gradient_partial",
    "Props.C38_hessian_partial",
    "Props.C38_returns",
    "Props.C38_third_order_partial",
    "Props.C38_stretches",
    "Props.C38_ogden",
    "Props.C38_generalized_partial",
    "Props.C38_generalized_false",
    "Props.C38_reference_force_false",
    "Props.C38_empty_batch_false"
   ],
   "note": "Proved for force=None, for the distortional and dilatational spaces and for the stretches framework; refuted for the deformation space with force=0 and constant derivatives, for empty batches, and for generalized invariants with I3."
  },
  {
   "property": "C39",
   "status": "partial",
   "theorems": [
    "Props.C39_third_order",
    "Props.C39_ogden",
    "Props.C39_invariants",
    "Props.C39_stretches",
    "Props.C39_deformation_gradient",
    "Props.C39_deformation_hessian",
    "Props.C39_distortional_gradient",
    "Props.C39_dilatational_gradient",
    "Props.C39_dilatational_hessian",
    "Props.C39_distortional_hessian_partial",
    "Props.C39_distortional_hessian_false",
    "Props.C39_distortional_hessian_one",
    "Props.C39_generalized_gradient",
    "Props.C39_generalized_partial",
    "Props.C39_generalized_tod",
    "Props.C39_generalized_error",
    "Props.C39_generalized_rows",
    "Props.C39_generalized_false"
   ],
   "note": "Proved for the models, frameworks and spaces, first and second derivatives, with two refuted exceptions: the distortional elasticity across the np.allclose threshold, and the second derivatives of GeneralizedInvariantsModel when the inner model has a derivative with respect to I3 (ValueError unless the last trailing axis has length 3, silently wrong rows if it has; exact error in C39_generalized_rows)."
  },
  {
   "property": "C40",
   "status": "proved",
   "theorems": [
    "Props.C40_documented",
    "Props.C40_incompressible",
    "Props.C40_identity",
    "Props.C40_kinematics"
   ],
   "note": ""
  },
  {
   "property": "C41",
   "status": "proved",
   "theorems": [
    "Props.C41_pressure",
    "Props.C41_traction_free",
    "Props.C41_axes",
    "Props.C41_negative_axes",
    "Props.C41_default"
   ],
   "note": ""
  },
  {
   "property": "C42",
   "status": "proved",
   "theorems": [
    "Props.C42_curve",
    "Props.C42_invariants",
    "Props.C42_stress",
    "Props.C42_ogden"
   ],
   "note": ""
  },
  {
   "property": "C43",
   "status": "proved",
   "theorems": [
    "Props.C43_work",
    "Props.C43_third_order",
    "Props.C43_stress"
   ],
   "note": ""
  },
  {
   "property": "C44",
   "status": "proved",
   "theorems": [
    "Props.C44_same_curve",
    "Props.C44_third_order"
   ],
   "note": ""
  },
  {
   "property": "C45",
   "status": "proved",
   "theorems": [
    "Props.C45_zero",
    "Props.C45_third_order",
    "Props.C45_stress"
   ],
   "note": ""
  },
  {
   "property": "C46",
   "status": "proved",
   "theorems": [
    "Props.C46_kwargs",
    "Props.C46_labels",
    "Props.C46_surplus",
    "Props.C46_stored"
   ],
   "note": ""
  },
  {
   "property": "C47",
   "status": "partial",
   "theorems": [
    "Props.C47_coherent_partial",
    "Props.C47_raises",
    "Props.C47_frame",
    "Props.C47_tuple",
    "Props.C47_failed_fit",
    "Props.C47_history_partial",
    "Props.C47_other_optimizer",
    "Props.C47_integers_false"
   ],
   "note": "Proved for float arrays and lists as parameter containers; refuted for integer arrays, whose assignment truncates the optimum."
  },
  {
   "property": "C48",
   "status": "proved",
   "theorems": [
    "Props.C48_arguments",
    "Props.C48_total_error",
    "Props.C48_selected_count",
    "Props.C48_outside",
    "Props.C48_default_mask"
   ],
   "note": ""
  },
  {
   "property": "C49",
   "status": "proved",
   "theorems": [
    "Props.C49_values",
    "Props.C49_recover",
    "Props.C49_default"
   ],
   "note": ""
  },
  {
   "property": "C50",
   "status": "proved",
   "theorems": [
    "Props.C50_norm",
    "Props.C50_std",
    "Props.C50_before"
   ],
   "note": ""
  },
  {
   "property": "C51",
   "status": "proved",
   "theorems": [
    "Props.C51_deformation",
    "Props.C51_distortional",
    "Props.C51_cycle",
    "Props.C51_third_order_deformation",
    "Props.C51_third_order_distortional",
    "Props.C51_ogden",
    "Props.C51_stretches_deformation",
    "Props.C51_stretches_distortional",
    "Props.C51_ogden_exists"
   ],
   "note": "Proved as an integral identity over the calls along the motion, for any hyperelastic material (IsGradient) and for the concrete ThirdOrderDeformation and Ogden models, where integrability is proved as well."
  },
  {
   "property": "C52",
   "status": "proved",
   "theorems": [
    "Props.C52_deformation",
    "Props.C52_distortional",
    "Props.C52_coaxial",
    "Props.C52_ogden"
   ],
   "note": ""
  },
  {
   "property": "C53",
   "status": "proved",
   "theorems": [
    "Props.C53_third_order",
    "Props.C53_third_order_hessian",
    "Props.C53_ogden",
    "Props.C53_ogden_order"
   ],
   "note": "The elasticity tensor of the distortional and dilatational spaces is not claimed to be linear: the allclose branch drops a term below 1e-8."
  },
  {
   "property": "C54",
   "status": "proved",
   "theorems": [
    "Props.C54_invariants",
    "Props.C54_third_order",
    "Props.C54_stretches",
    "Props.C54_ogden",
    "Props.C54_generalized",
    "Props.C54_generalized_returns"
   ],
   "note": "Initial shear modulus of the distortional space at F = 1 for all frameworks; C54_third_order also shows the tensor is returned. Hypothesis: the material hessian is zero or above the absolute tolerance 1e-8 of np.allclose in the code."
  },
  {
   "property": "C55",
   "status": "proved",
   "theorems": [
    "Props.C55_gradient",
    "Props.C55_hessian",
    "Props.C55_statevars",
    "Props.C55_none",
    "Props.C55_stress",
    "Props.C55_third_order",
    "Props.C55_batch"
   ],
   "note": "Proved for every expression tensor; torch.autograd is modelled as reverse-mode differentiation with an arbitrary exception oracle, in real arithmetic."
  },
  {
   "property": "C56",
   "status": "partial",
   "theorems": [
    "Props.C56_gradient",
    "Props.C56_hessian_partial",
    "Props.C56_linear_false",
    "Props.C56_buffers_partial",
    "Props.C56_coupled",
    "Props.C56_coupled_false",
    "Props.C56_hessian_buffers_partial",
    "Props.C56_exponential_false"
   ],
   "note": "Refuted three times: an energy linear in an invariant (Neo-Hookean, Mooney-Rivlin) makes hessian raise RuntimeError, because its first derivative does not require grad (C56_linear_false); an energy with an operation which couples two invariants (a C11 term) makes gradient and hessian raise, because gradient passes retain_graph=False (C56_coupled, C56_coupled_false); an exponential energy makes hessian raise although gradient returns (C56_exponential_false). Proved: exactly the energies for which both methods return on an engine which never raises by itself (C56_gradient, C56_hessian_partial), and exactly those for which gradient (C56_buffers_partial) and hessian (C56_hessian_buffers_partial) return on the engine which releases buffers. Missing: nothing, the full claim is false."
  },
  {
   "property": "C57",
   "status": "proved",
   "theorems": [
    "Props.C57_methods",
    "Props.C57_framework",
    "Props.C57_own_objects",
    "Props.C57_progress",
    "Props.C57_spaces"
   ],
   "note": "Every schedule, any number of threads; C57_methods/C57_framework tie the programs (gradient and hessian of all spaces and frameworks) to the sequential model."
  },
  {
   "property": "C58",
   "status": "partial",
   "theorems": [
    "Props.C58_turns_partial",
    "Props.C58_race",
    "Props.C58_shared_false"
   ],
   "note": "Refuted (C58_shared_false; C58_race says which wrong stress is returned). Proved: threads which take turns call by call are safe whatever was left half done before (C58_turns_partial)."
  },
  {
   "property": "C59",
   "status": "proved",
   "theorems": [
    "Props.C59_stretches",
    "Props.C59_invariants",
    "Props.C59_ogden",
    "Props.C59_generalized",
    "Props.C59_third_order",
    "Props.C59_lab"
   ],
   "note": "C59_stretches/C59_invariants are for every model and every returned curve; the corollaries (Ogden, generalized invariants, third order, lab) also show that a curve is returned."
  },
  {
   "property": "C60",
   "status": "proved",
   "theorems": [
    "Props.C60_mooney_rivlin",
    "Props.C60_neo_hooke",
    "Props.C60_mooney_limit",
    "Props.C60_curve",
    "Props.C60_ogden"
   ],
   "note": "The limits are proved too: with C01 alone the distortional space loses ellipticity at a stretch of three (C60_mooney_limit). Ellipticity of Ogden and Yeoh materials: C78."
  },
  {
   "property": "C61",
   "status": "proved",
   "theorems": [
    "Props.C61_deformation",
    "Props.C61_distortional",
    "Props.C61_dilatational",
    "Props.C61_invariants",
    "Props.C61_third_order",
    "Props.C61_stretches",
    "Props.C61_ogden",
    "Props.C61_third_order_stress",
    "Props.C61_ogden_stress",
    "Props.C61_history",
    "Props.C61_repeat",
    "Props.C61_repeat_hessian",
    "Props.C61_strain",
    "Props.C61_generalized",
    "Props.C61_generalized_stress"
   ],
   "note": "Frameworks and models covered: Invariants with ThirdOrderDeformation, Stretches with Ogden and with GeneralizedInvariantsModel (any strain function and any invariant-based model that change no array; end to end with ThirdOrderDeformation); the theorems on spaces and frameworks hold for every material or model with the same property. The lab is not on the memory model. Numpy assumptions: DESIGN.md, trusted base."
  },
  {
   "property": "C62",
   "status": "partial",
   "theorems": [
    "Props.C62_inv_out",
    "Props.C62_inv_new",
    "Props.C62_dya_out",
    "Props.C62_cdya_out",
    "Props.C62_triangle_out",
    "Props.C62_triangle_new",
    "Props.C62_cdya_ik_out",
    "Props.C62_cdya_ik_false"
   ],
   "note": "The documented meaning of out is false for cdya_ik and cdya_il (C62_cdya_ik_false); C62_cdya_ik_out says what they do. inv: a given determinant must not be in the buffer of out."
  },
  {
   "property": "C63",
   "status": "partial",
   "theorems": [
    "Props.C63_experiment",
    "Props.C63_force_displacement",
    "Props.C63_simulation",
    "Props.C63_simulation_force_false",
    "Props.C63_fit",
    "Props.C63_read_only",
    "Props.C63_before",
    "Props.C63_shared_false"
   ],
   "note": "Refuted in two places: plot_force_displacement of a simulation always raises AttributeError (C63_simulation_force_false); the curves plotted by an optimizer are not those of the listed parameters once another optimizer has fitted the same simulation (C63_shared_false). Proved: everything else, in particular the plot after the own fit (C63_fit)."
  },
  {
   "property": "C64",
   "status": "proved",
   "theorems": [
    "Props.C64_trace",
    "Props.C64_det",
    "Props.C64_dot",
    "Props.C64_ddot",
    "Props.C64_ddot44",
    "Props.C64_dya",
    "Props.C64_cdya",
    "Props.C64_cdya_self",
    "Props.C64_ddot42",
    "Props.C64_ddot24",
    "Props.C64_dev",
    "Props.C64_cdya_ik_il",
    "Props.C64_inv_determinant",
    "Props.C64_inv",
    "Props.C64_any_order",
    "Props.C64_double",
    "Props.C64_cdya_symm",
    "Props.C64_cdya_comm"
   ],
   "note": "In the standard model of floating-point arithmetic (no overflow/underflow); the assumption on einsum is proved for every order (C64_any_order) and all assumptions for binary64 with unbounded exponent (C64_double)."
  },
  {
   "property": "C65",
   "status": "proved",
   "theorems": [
    "Props.C65_stress",
    "Props.C65_elasticity",
    "Props.C65_double",
    "Props.C65_converges",
    "Props.C65_neo_hooke"
   ],
   "note": "Entrywise bounds with explicit majorants."
  },
  {
   "property": "C66",
   "status": "proved",
   "theorems": [
    "Props.C66_distortional_elasticity",
    "Props.C66_distortional_elasticity_clear",
    "Props.C66_dilatational_elasticity",
    "Props.C66_elasticity_converges",
    "Props.C66_elasticity_double",
    "Props.C66_distortional",
    "Props.C66_dilatational",
    "Props.C66_converges",
    "Props.C66_double"
   ],
   "note": "Stresses and elasticity tensors. The distortional elasticity tensor is decided by np.allclose on computed numbers: the general bound contains the tolerance, and the bound by rounding errors alone holds if the fictitious elasticity is clearly above or below it."
  },
  {
   "property": "C67",
   "status": "partial",
   "theorems": [
    "Props.C67_float_arrays",
    "Props.C67_float_arrays_tod",
    "Props.C67_gradient",
    "Props.C67_hessian_partial",
    "Props.C67_third_order_partial",
    "Props.C67_small",
    "Props.C67_reference_force_false",
    "Props.C67_overflow_false",
    "Props.C67_load_cases",
    "Props.C67_biaxial_false"
   ],
   "note": "Holds without overflow and unless the elasticity tensor is asked for with force=0 (C67_gradient, C67_hessian_partial, C67_third_order_partial, C67_small); C67_reference_force_false, C67_overflow_false and C67_biaxial_false refute the rest. C67_float_arrays: on floats the model with dtypes is the main model."
  },
  {
   "property": "C68",
   "status": "proved",
   "theorems": [
    "Props.C68_inv",
    "Props.C68_inv_out",
    "Props.C68_cdya",
    "Props.C68_split",
    "Props.C68_third_invariant",
    "Props.C68_ogden",
    "Props.C68_stress_is_float",
    "Props.C68_integer_material"
   ],
   "note": "float64 arithmetic is exact in this model; dtypes int32, int64, float64."
  },
  {
   "property": "C69",
   "status": "proved",
   "theorems": [
    "Props.C69_bound",
    "Props.C69_ogden",
    "Props.C69_ogden_exact",
    "Props.C69_ogden_iff",
    "Props.C69_deformation"
   ],
   "note": "Bound for every symmetric model with Lipschitz second derivatives (C69_bound), explicit for Ogden (C69_ogden, C69_deformation), and exactness for one term characterised (C69_ogden_exact, C69_ogden_iff)."
  },
  {
   "property": "C70",
   "status": "proved",
   "theorems": [
    "Props.C70_invariants",
    "Props.C70_stretches",
    "Props.C70_generalized",
    "Props.C70_progress",
    "Props.C70_models"
   ],
   "note": "Rely-guarantee proof (Proofs/ThreadsShared, ThreadsSteady): every update a thread makes keeps what the others know. Every schedule, any number of threads."
  },
  {
   "property": "C71",
   "status": "proved",
   "theorems": [
    "Props.C71_invariants",
    "Props.C71_third_order",
    "Props.C71_stretches",
    "Props.C71_ogden",
    "Props.C71_generalized"
   ],
   "note": "Spec.PrincipalOrder is stated with unit eigenvectors of F F^T; the weak inequality, equal stretches included. The stress in hypothesis is what gradient with area=None returns."
  },
  {
   "property": "C72",
   "status": "proved",
   "theorems": [
    "Props.C72_gradient",
    "Props.C72_hessian",
    "Props.C72_resolution",
    "Props.C72_volumetric",
    "Props.C72_returns"
   ],
   "note": "C72_gradient, C72_hessian: for every polynomial energy the returned derivatives differ from the exact ones by at most 2n+1 and 4n+3 roundings of torch's default dtype relative to the derivatives of the polynomial without cancellation; C72_returns: the dtype does not influence whether the methods return; C72_resolution, C72_volumetric: what the precision costs near I3 = 1."
  },
  {
   "property": "C73",
   "status": "proved",
   "theorems": [
    "Props.C73_construct",
    "Props.C73_entries",
    "Props.C73_single",
    "Props.C73_refused",
    "Props.C73_initial",
    "Props.C73_hydrostatic",
    "Props.C73_distortional",
    "Props.C73_third_order",
    "Props.C73_ogden",
    "Props.C73_stateless"
   ],
   "note": "C73_initial: the initial variables of a space are the identity and nstatevars zeros, and the methods evaluate the space there; C73_hydrostatic, C73_distortional, C73_third_order, C73_ogden: what they return; C73_entries, C73_single, C73_stateless, C73_refused, C73_construct: which entries of the lists are used."
  },
  {
   "property": "C74",
   "status": "proved",
   "theorems": [
    "Props.C74_energy",
    "Props.C74_stress",
    "Props.C74_third_order",
    "Props.C74_third_order_distortional",
    "Props.C74_ogden",
    "Props.C74_stretches",
    "Props.C74_ogden_continuous",
    "Props.C74_third_order_continuous"
   ],
   "note": "C74_energy, C74_stress: for any space and model with the derivative properties of C25-C27; C74_third_order, C74_third_order_distortional, C74_ogden, C74_stretches: end to end; C74_ogden_continuous, C74_third_order_continuous: continuity in every space, coincident stretches included."
  },
  {
   "property": "C75",
   "status": "proved",
   "theorems": [
    "Props.C75_third_order",
    "Props.C75_iteration"
   ],
   "note": "C75_third_order: the step exists, is unique and squares the error; C75_iteration: whole sequences. Proved for third-order-deformation materials on the deformation space, whose tangent is locally Lipschitz continuous; the Ogden tangent is not continuous (C69), see C94."
  },
  {
   "property": "C76",
   "status": "proved",
   "theorems": [
    "Props.C76_linear",
    "Props.C76_local",
    "Props.C76_convex",
    "Props.C76_exists",
    "Props.C76_same_curves",
    "Props.C76_mooney_rivlin",
    "Props.C76_yeoh",
    "Props.C76_unique",
    "Props.C76_planar",
    "Props.C76_planar_not_unique",
    "Props.C76_curve_fit",
    "Props.C76_exact",
    "Props.C76_recover",
    "Props.C76_returns",
    "Props.C76_ogden_linear"
   ],
   "note": "The solver is an arbitrary function with one assumed property: it stops at a local minimum of the squared error (scipy's algorithms are not part of the code base); C76_returns shows such a solver exists and that fits return with it. Parameters passed as a list or a float array (see C47 for integer arrays and tuples). Seven stretches are sufficient, not claimed to be necessary."
  },
  {
   "property": "C77",
   "status": "proved",
   "theorems": [
    "Props.C77_increasing",
    "Props.C77_invertible",
    "Props.C77_sign",
    "Props.C77_needs_nonnegative",
    "Props.C77_ogden",
    "Props.C77_ogden_exponents"
   ],
   "note": "Real arithmetic. That the sign condition is needed is shown by C77_needs_nonnegative."
  },
  {
   "property": "C78",
   "status": "proved",
   "theorems": [
    "Props.C78_ogden_energy",
    "Props.C78_ogden_distortional_energy",
    "Props.C78_ogden",
    "Props.C78_ogden_distortional",
    "Props.C78_ogden_elliptic",
    "Props.C78_ogden_distortional_elliptic",
    "Props.C78_ogden_iff",
    "Props.C78_ogden_distortional_iff",
    "Props.C78_first_invariant",
    "Props.C78_yeoh_energy",
    "Props.C78_yeoh",
    "Props.C78_yeoh_elliptic"
   ],
   "note": "The exponent ranges are sharp for one term (C78_ogden_iff, C78_ogden_distortional_iff). Not covered: sharp ranges for several terms whose contributions compensate each other, and the second invariant on the distortional space (see C60_mooney_limit)."
  },
  {
   "property": "C79",
   "status": "proved",
   "theorems": [
    "Props.C79_defgrad",
    "Props.C79_deformation",
    "Props.C79_distortional",
    "Props.C79_double",
    "Props.C79_converges",
    "Props.C79_neo_hooke",
    "Props.C79_experiment"
   ],
   "note": "The majorant is the normal force with absolute values and plus signs (normalForceP); near stretch one the curve itself vanishes and no relative accuracy can hold. Materials: third-order deformation (the documentation's factories)."
  },
  {
   "property": "C80",
   "status": "proved",
   "theorems": [
    "Props.C80_distortional",
    "Props.C80_dilatational",
    "Props.C80_split_converges",
    "Props.C80_split_double",
    "Props.C80_constants",
    "Props.C80_gradient",
    "Props.C80_stress",
    "Props.C80_converges",
    "Props.C80_double"
   ],
   "note": "numpy.linalg.eigh enters as an arbitrary function with the assumption EighAccurate (backward stability, the documented property of LAPACK's symmetric solvers). All three spaces, gradient. The hessian divides by differences of eigenvalues as small as 1e-8 and loses accuracy accordingly; it is not covered."
  },
  {
   "property": "C81",
   "status": "proved",
   "theorems": [
    "Props.C81_deformation",
    "Props.C81_distortional",
    "Props.C81_dilatational",
    "Props.C81_zero",
    "Props.C81_transverse",
    "Props.C81_experiment",
    "Props.C81_any_order",
    "Props.C81_double",
    "Props.C81_undeformed"
   ],
   "note": "The laws of Spec.Ieee are proved for every order of the sums and for fused multiply-adds from laws of the single operations (C81_any_order), and hold in double precision (C81_double). Signed zeros are not distinguished. Ogden materials are not covered: the eigenvalue solver may return different eigenvalues for equal stretches."
  },
  {
   "property": "C82",
   "status": "proved",
   "theorems": [
    "Props.C82_same_material",
    "Props.C82_parameters",
    "Props.C82_unique",
    "Props.C82_recover",
    "Props.C82_planar",
    "Props.C82_planar_differ"
   ],
   "note": "Sums of n different powers with more than n-1 positive zeros vanish (Rolle, by induction on the number of powers); the curve of one term has the powers alpha and -alpha/2 (uniaxial) or -2 alpha (biaxial), and a finite set of exponents closed under such a scaling has vanishing coefficients. C82_same_material (equal response), C82_parameters (equal terms up to order), C82_unique and C82_recover (fits of the moduli), C82_planar and C82_planar_differ (planar tests do not distinguish alpha and -alpha)."
  },
  {
   "property": "C83",
   "status": "proved",
   "theorems": [
    "Props.C83_mirror",
    "Props.C83_third_order",
    "Props.C83_ogden"
   ],
   "note": "Both deformation gradients are conjugate by the exchange of the first and the third axis; objectivity (C32) and material symmetry (C36) give the stress, and normalForce is antisymmetric under the exchange up to the ratio of the stretches. C83_mirror (every isotropic material of every space), C83_third_order and C83_ogden (both simulations, deformation or distortional)."
  },
  {
   "property": "C84",
   "status": "partial",
   "theorems": [
    "Props.C84_invariants",
    "Props.C84_stretches",
    "Props.C84_hessian_partial",
    "Props.C84_distortional_false",
    "Props.C84_third_order",
    "Props.C84_ogden",
    "Props.C84_mooney_rivlin"
   ],
   "note": "C84_invariants and C84_stretches: the hessians of the frameworks rotate; C84_hessian_partial: all spaces, in the distortional space where the tolerance drops nothing; C84_third_order and C84_ogden (deformation, dilatational), C84_mooney_rivlin (all spaces). C84_distortional_false: with C11 = 1/(170e8) the elasticity at diag(4,1/2,1/2) is not the turned elasticity at the same stretches with axes rotated by arctan(4/3), so the full statement does not hold of the code."
  },
  {
   "property": "C85",
   "status": "proved",
   "theorems": [
    "Props.C85_universal",
    "Props.C85_shear",
    "Props.C85_reverse",
    "Props.C85_invariants",
    "Props.C85_third_order",
    "Props.C85_returns",
    "Props.C85_ogden"
   ],
   "note": "C85_universal and C85_shear are stated with Material.Isotropic; C36_invariants and C36_stretches show that the materials of the package meet it. C85_returns shows that the stress of every third-order-deformation material exists at every amount of shear."
  },
  {
   "property": "C86",
   "status": "proved",
   "theorems": [
    "Props.C86_symmetries",
    "Props.C86_truesdell",
    "Props.C86_spin",
    "Props.C86_jaumann",
    "Props.C86_third_order",
    "Props.C86_ogden"
   ],
   "note": "C86_truesdell, C86_spin and C86_jaumann start from the property of the default configuration (C26, C28 or C29, whichever applies); C86_third_order and C86_ogden are end to end."
  },
  {
   "property": "C87",
   "status": "proved",
   "theorems": [
    "Props.C87_stress",
    "Props.C87_elasticity",
    "Props.C87_double",
    "Props.C87_any_order",
    "Props.C87_overflow",
    "Props.C87_underflow"
   ],
   "note": "No overflow and error bounds with underflow for the deformation space with invariant-based third-order models; the order of summation is arbitrary (C87_any_order), IEEE binary64 with gradual underflow and overflow is an instance (Proofs/Binary64Range)."
  },
  {
   "property": "C88",
   "status": "proved",
   "theorems": [
    "Props.C88_deformation_gradient",
    "Props.C88_deformation_hessian",
    "Props.C88_distortional_gradient",
    "Props.C88_dilatational_gradient",
    "Props.C88_dilatational_hessian",
    "Props.C88_distortional_hessian",
    "Props.C88_all_points_needed"
   ],
   "note": "All spaces; Pointwise collects a material on batches of every shape with its pointwise version, instances for third-order-deformation and Ogden materials. C88_all_points_needed is the counterexample for selections on the distortional space."
  },
  {
   "property": "C89",
   "status": "partial",
   "theorems": [
    "Props.C89_third_order",
    "Props.C89_ogden",
    "Props.C89_invariants",
    "Props.C89_stretches",
    "Props.C89_generalized",
    "Props.C89_deformation_gradient",
    "Props.C89_deformation_hessian",
    "Props.C89_distortional_gradient",
    "Props.C89_distortional_hessian",
    "Props.C89_distortional_hessian_false",
    "Props.C89_dilatational_gradient",
    "Props.C89_dilatational_hessian",
    "Props.C89_experiment",
    "Props.C89_curves",
    "Props.C89_error",
    "Props.C89_best_fit",
    "Props.C89_data",
    "Props.C89_curve_fit"
   ],
   "note": "Proved for all models, frameworks, spaces, experiments and fits; refuted (C89_distortional_hessian_false) for the elasticity of the distortional space, whose np.allclose has an absolute tolerance: C89_distortional_hessian gives the exact condition on the material elasticity."
  },
  {
   "property": "C90",
   "status": "partial",
   "theorems": [
    "Props.C90_determinant",
    "Props.C90_distortional_stress",
    "Props.C90_distortional_elasticity",
    "Props.C90_dilatational_stress",
    "Props.C90_dilatational_elasticity",
    "Props.C90_deformation",
    "Props.C90_deformation_cauchy",
    "Props.C90_uniaxial",
    "Props.C90_planar_biaxial",
    "Props.C90_experiment",
    "Props.C90_negative_stretch_false",
    "Props.C90_same_program",
    "Props.C90_overflow_false",
    "Props.C90_exact",
    "Props.C90_finite_iff"
   ],
   "note": "Refuted twice, both proved: C90_negative_stretch_false (the planar and biaxial load cases answer a negative stretch with minus the stress of its absolute value) and C90_overflow_false (if the determinant overflows to inf, the distortional space returns the finite stress zero). Everything else of the statement is proved."
  },
  {
   "property": "C91",
   "status": "proved",
   "theorems": [
    "Props.C91_constants",
    "Props.C91_hessian",
    "Props.C91_elasticity",
    "Props.C91_converges",
    "Props.C91_double"
   ],
   "note": "Explicit a-priori bounds for the computed hessian and elasticity tensor of Ogden materials, including repeated and nearly repeated principal stretches; convergence up to the tolerance for vanishing unit roundoff; numbers for double precision."
  },
  {
   "property": "C92",
   "status": "proved",
   "theorems": [
    "Props.C92_point",
    "Props.C92_deformation",
    "Props.C92_converges",
    "Props.C92_double",
    "Props.C92_point_distortional",
    "Props.C92_distortional",
    "Props.C92_distortional_converges",
    "Props.C92_distortional_double"
   ],
   "note": "C92_point(_distortional): the error at one stretch with explicit constants; C92_deformation / C92_distortional: the whole curve; C92_converges / C92_distortional_converges: convergence to the analytical curve as u and eps go to zero; C92_double / C92_distortional_double: the binary64 numbers."
  },
  {
   "property": "C93",
   "status": "proved",
   "theorems": [
    "Props.C93_distortional",
    "Props.C93_dilatational",
    "Props.C93_converges",
    "Props.C93_double"
   ],
   "note": "C93_distortional / C93_dilatational: the error of each component with explicit constants; C93_converges: the limit as u and eps go to zero consists of the tolerances only; C93_double: the binary64 numbers, both spaces."
  },
  {
   "property": "C94",
   "status": "proved",
   "theorems": [
    "Props.C94_tolerance",
    "Props.C94_tolerance_iteration",
    "Props.C94_ogden",
    "Props.C94_iteration",
    "Props.C94_bounded_below",
    "Props.C94_regular"
   ],
   "note": "C94_tolerance / C94_tolerance_iteration: any eigenvalues, explicit condition and rate; C94_ogden / C94_iteration: equal or well separated eigenvalues, quadratic convergence; C94_bounded_below / C94_regular: the tangents of stiffening materials. Exact arithmetic; the example has stretches 1 and 1+1e-9."
  },
  {
   "property": "C95",
   "status": "proved",
   "theorems": [
    "Props.C95_distortional_bound",
    "Props.C95_dilatational_bound",
    "Props.C95_ogden_material",
    "Props.C95_ogden_distortional",
    "Props.C95_ogden_dilatational"
   ],
   "note": "C95_distortional_bound / C95_dilatational_bound: any base material with an approximate hessian; C95_ogden_*: Ogden materials. C69 is the bound for the material itself and on the deformation space. Exact arithmetic; the example has stretches 1 and 1+1e-9 and two terms."
  },
  {
   "property": "C96",
   "status": "proved",
   "theorems": [
    "Props.C96_sequence",
    "Props.C96_incremental",
    "Props.C96_third_order",
    "Props.C96_ogden",
    "Props.C96_ogden_incremental"
   ],
   "note": "C96_third_order / C96_ogden: small load steps; C96_sequence: the infinite sequences; C96_incremental / C96_ogden_incremental: paths. Exact arithmetic; sufficiently many is not explicit. The example is a tension test from the undeformed state."
  },
  {
   "property": "C97",
   "status": "proved",
   "theorems": [
    "Props.C97_curves",
    "Props.C97_pythagoras",
    "Props.C97_continuous",
    "Props.C97_mooney_rivlin",
    "Props.C97_curve_fit"
   ],
   "note": "C97_curves, C97_pythagoras, C97_continuous: every simulation with linear curves (C76_linear, C76_ogden_linear); C97_mooney_rivlin: explicit rate; C97_curve_fit: end to end. Exact arithmetic."
  },
  {
   "property": "C98",
   "status": "proved",
   "theorems": [
    "Props.C98_curve",
    "Props.C98_deformation",
    "Props.C98_linear",
    "Props.C98_fit"
   ],
   "note": "C98_curve: value of the curve on both spaces (trailing shape (1, n) of the simulation); C98_deformation: for the built-in deformation measure; C98_linear: linear in the coefficients for a fixed measure; C98_fit: corollary for optimizers through C76 and C97. Exact arithmetic."
  },
  {
   "property": "C99",
   "status": "proved",
   "theorems": [
    "Props.C99_zero",
    "Props.C99_stress",
    "Props.C99_pressure",
    "Props.C99_curve"
   ],
   "note": "C99_stress: continuity, limit and linear rate of the stress; C99_curve: the same for lab curves on both spaces; C99_zero: the exponent zero raises; C99_pressure: no limit on the deformation space. Exact arithmetic."
  },
  {
   "property": "C100",
   "status": "proved",
   "theorems": [
    "Props.C100_stress",
    "Props.C100_invariants",
    "Props.C100_framework",
    "Props.C100_framework_hessian",
    "Props.C100_neoHooke",
    "Props.C100_elasticity",
    "Props.C100_curve"
   ],
   "note": "C100_stress, C100_invariants, C100_elasticity: two terms on the distortional space; C100_framework, C100_framework_hessian, C100_neoHooke: one term, in the frameworks and on all spaces; C100_curve: lab curves. Exact arithmetic."
  },
  {
   "property": "C101",
   "status": "proved",
   "theorems": [
    "Props.C101_curve",
    "Props.C101_linear",
    "Props.C101_unique",
    "Props.C101_one_test",
    "Props.C101_two_tests",
    "Props.C101_planar",
    "Props.C101_recover",
    "Props.C101_exponent"
   ],
   "note": "C101_curve: Mooney's plot; C101_linear: linear in the parameters; C101_unique: the criterion; C101_one_test, C101_two_tests, C101_planar: its cases; C101_recover: exact data; C101_exponent: the exponent. Exact arithmetic."
  },
  {
   "property": "C102",
   "status": "proved",
   "theorems": [
    "Props.C102_increasing",
    "Props.C102_increasing_iff",
    "Props.C102_sign",
    "Props.C102_traction",
    "Props.C102_traction_first",
    "Props.C102_traction_second",
    "Props.C102_invariants",
    "Props.C102_elliptic",
    "Props.C102_deformation"
   ],
   "note": "C102_increasing: the curves; C102_increasing_iff: iff for one term; C102_sign: sign of the force; C102_traction: sufficient; C102_traction_first, C102_traction_second: iff for one term; C102_invariants: Mooney-Rivlin; C102_deformation: first term on the deformation space; C102_elliptic: elasticity, at equal or clearly different stretches and above the tolerance of np.allclose. Exact arithmetic."
  }
 ]
}