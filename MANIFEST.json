{
 "claims": [
  {
   "property": "C01",
   "status": "proved",
   "theorems": [
    "Ikarus.rawVector_eq_sum",
    "Ikarus.rawVector_defined_iff",
    "Ikarus.rawVector_perm",
    "Ikarus.rawVector_untouched"
   ],
   "note": ""
  },
  {
   "property": "C02",
   "status": "proved",
   "theorems": [
    "Ikarus.fullVector_eq_mask",
    "Ikarus.reducedVector_eq_select",
    "Ikarus.reducedVector_entry",
    "Ikarus.vector_views_agree"
   ],
   "note": ""
  },
  {
   "property": "C03",
   "status": "proved",
   "theorems": [
    "Ikarus.createReducedVector_eq",
    "Ikarus.reduced_full_roundtrip",
    "Ikarus.full_reduced_full",
    "Ikarus.full_reduced_roundtrip_iff"
   ],
   "note": ""
  },
  {
   "property": "C04",
   "status": "proved",
   "theorems": [
    "Ikarus.constraintsBelow_count",
    "Ikarus.reducedSize_count",
    "Ikarus.reducedIndex_bijection"
   ],
   "note": ""
  },
  {
   "property": "C05",
   "status": "proved",
   "theorems": [
    "Ikarus.rawMatrix_eq_sum",
    "Ikarus.rawMatrix_defined_iff",
    "Ikarus.fullMatrix_eq",
    "Ikarus.reducedMatrix_eq",
    "Ikarus.matrix_symm",
    "Ikarus.rawMatrix_perm"
   ],
   "note": ""
  },
  {
   "property": "C06",
   "status": "proved",
   "theorems": [
    "Ikarus.full_reduced_system_equiv"
   ],
   "note": ""
  },
  {
   "property": "C07",
   "status": "proved",
   "theorems": [
    "Ikarus.sparse_eq_dense",
    "Ikarus.sparse_untouched_constraint_breaks"
   ],
   "note": "Proved under the stated condition that each constrained dof belongs to an element; sparse_untouched_constraint_breaks shows the condition is needed."
  },
  {
   "property": "C08",
   "status": "proved",
   "theorems": [
    "Ikarus.scalar_eq_sum",
    "Ikarus.scalar_perm",
    "Ikarus.scalar_append"
   ],
   "note": ""
  },
  {
   "property": "C09",
   "status": "proved",
   "theorems": [
    "Ikarus.binding_state_after_history",
    "Ikarus.binding_accessors",
    "Ikarus.bound_iff",
    "Ikarus.argument_free_requests",
    "Ikarus.explicit_option_requests"
   ],
   "note": ""
  },
  {
   "property": "C10",
   "status": "partial",
   "theorems": [
    "Ikarus.manipulator_history",
    "Ikarus.manipulator_answers_iff",
    "Ikarus.sparse_manipulator_history_partial",
    "Ikarus.sparse_manipulator_inserting_callback_breaks"
   ],
   "note": "Dense and scalar: full history theorem. Sparse: proved for callbacks that keep the sparsity pattern (_partial); sparse_manipulator_inserting_callback_breaks shows the full statement fails for the code."
  },
  {
   "property": "C11",
   "status": "proved",
   "theorems": [
    "Ikarus.dirichlet_flags_history",
    "Ikarus.setZeroAtConstrainedDofs_eq"
   ],
   "note": ""
  },
  {
   "property": "C12",
   "status": "partial",
   "theorems": [
    "Ikarus.copies_not_independent",
    "Ikarus.copy_outlives_original_undefined",
    "Ikarus.copies_independent_partial"
   ],
   "note": "False of the code: copies share the flag container. copies_not_independent and copy_outlives_original_undefined prove the negation; copies_independent_partial states what holds."
  },
  {
   "property": "C13",
   "status": "proved",
   "theorems": [
    "Ikarus.DirichletValues.evaluate_superposes",
    "Ikarus.DirichletValues.evaluate_perm",
    "Ikarus.DirichletValues.evaluateDerivative_superposes",
    "Ikarus.DirichletValues.derivative_of_temporary_undefined",
    "Ikarus.store_adds_constraints"
   ],
   "note": ""
  },
  {
   "property": "C14",
   "status": "proved",
   "theorems": [
    "Ikarus.notify_calls_owned",
    "Ikarus.notify_calls_with_effects",
    "Ikarus.notify_register_inside_undefined",
    "Ikarus.dead_never_called"
   ],
   "note": ""
  },
  {
   "property": "C15",
   "status": "partial",
   "theorems": [
    "Ikarus.unregister_does_not_stop",
    "Ikarus.unregister_never_stops",
    "Ikarus.unsubscribe_stops_partial"
   ],
   "note": "False of the code: unregisterListener resets a copy of the token. unregister_does_not_stop / unregister_never_stops prove the negation; unsubscribe_stops_partial holds when no other copy of the token exists."
  },
  {
   "property": "C16",
   "status": "proved",
   "theorems": [
    "Ikarus.newton_run",
    "Ikarus.newton_setup",
    "Ikarus.newton_success_meaning",
    "Ikarus.newton_success_reported_norm",
    "Ikarus.newton_negative_maxIter"
   ],
   "note": ""
  },
  {
   "property": "C17",
   "status": "partial",
   "theorems": [
    "Ikarus.newton_success_for_nan",
    "Ikarus.newton_incomparable_is_success"
   ],
   "note": "False of the code: a residual norm that is not a number ends the loop and is reported as success (newton_success_for_nan, newton_incomparable_is_success)."
  },
  {
   "property": "C18",
   "status": "proved",
   "theorems": [
    "Ikarus.newton_run",
    "Ikarus.newton_messages"
   ],
   "note": ""
  },
  {
   "property": "C19",
   "status": "proved",
   "theorems": [
    "Ikarus.newton_affine"
   ],
   "note": ""
  },
  {
   "property": "C20",
   "status": "partial",
   "theorems": [
    "Ikarus.subsidiary_step_solves_bordered",
    "Ikarus.bordered_unique",
    "Ikarus.subsidiary_terminates",
    "Ikarus.subsidiary_accumulates",
    "Ikarus.subsidiary_success_ignores_constraint",
    "Ikarus.subsidiary_success_partial",
    "Ikarus.subsidiary_zero_derivative_success",
    "Ikarus.subsidiary_affine_one_step"
   ],
   "note": "Bordered system, termination and accumulation proved. Success does not imply the constraint (subsidiary_success_ignores_constraint): the first norm leaves the subsidiary function out; subsidiary_success_partial states what success implies."
  },
  {
   "property": "C21",
   "status": "proved",
   "theorems": [
    "Ikarus.load_control_factors",
    "Ikarus.load_control_ctor",
    "Ikarus.load_control_solver_calls"
   ],
   "note": ""
  },
  {
   "property": "C22",
   "status": "proved",
   "theorems": [
    "Ikarus.load_control_run"
   ],
   "note": ""
  },
  {
   "property": "C23",
   "status": "proved",
   "theorems": [
    "Ikarus.path_following_run",
    "Ikarus.path_following_predictions",
    "Ikarus.path_following_ctor"
   ],
   "note": ""
  },
  {
   "property": "C24",
   "status": "proved",
   "theorems": [
    "Ikarus.iterationBased_eq",
    "Ikarus.stepSizes_positive",
    "Ikarus.iterationBased_zero_target",
    "Ikarus.iterationBased_negative_target"
   ],
   "note": "Proved for positive targets; negative targets are accepted by the setter and give a step size that is not a number (iterationBased_negative_target)."
  },
  {
   "property": "C25",
   "status": "partial",
   "theorems": [
    "Ikarus.arcLength_derivatives",
    "Ikarus.arcLength_derivatives_before",
    "Ikarus.arcLength_initialPrediction",
    "Ikarus.loadControl_strategy",
    "Ikarus.displacementControl_derivatives",
    "Ikarus.displacementControl_repeated_index",
    "Ikarus.displacementControl_initialPrediction"
   ],
   "note": "Arc-length: constraint after prediction and derivatives (prescribed displacements proportional to the load factor). Displacement control: derivatives for distinct indices; repeated indices give wrong derivatives; its prediction satisfies the constraint only for a single index (value stepSize*(sqrt m - 1))."
  },
  {
   "property": "C26",
   "status": "partial",
   "theorems": [
    "Ikarus.used_function_differs",
    "Ikarus.reuse_from_equilibrium_partial"
   ],
   "note": "False of the code for the evaluation before a prediction (used_function_differs); from an equilibrium state a second run makes the same solves (reuse_from_equilibrium_partial)."
  },
  {
   "property": "C27",
   "status": "proved",
   "theorems": [
    "Ikarus.trDecide_accept",
    "Ikarus.tr_iteration",
    "Ikarus.tr_energy_history",
    "Ikarus.tr_iteration_exact",
    "Ikarus.tr_run_exact"
   ],
   "note": ""
  },
  {
   "property": "C28",
   "status": "proved",
   "theorems": [
    "Ikarus.trDecide_radius",
    "Ikarus.tr_radius",
    "Ikarus.tr_run",
    "Ikarus.tr_success_after_rejections",
    "Ikarus.factorize_retries",
    "Ikarus.trDecide_radius_exact",
    "Ikarus.tr_run_exact"
   ],
   "note": "tr_success_after_rejections shows that success is also reported when all steps were rejected and the gradient is not small."
  },
  {
   "property": "C29",
   "status": "proved",
   "theorems": [
    "Ikarus.tcg_cauchy",
    "Ikarus.tcg_decrease",
    "Ikarus.tr_tcg_model_decreases",
    "Ikarus.tr_cauchy",
    "Ikarus.tcg_ends",
    "Ikarus.tcg_in_trust_region",
    "Ikarus.tcg_monotone",
    "Ikarus.tcg_stop_reason",
    "Ikarus.tcg_guess_leaves_trust_region",
    "Ikarus.tcg_zero_rhs"
   ],
   "note": "From a zero start the result stays in the trust region; tcg_guess_leaves_trust_region shows that a non-zero start does not (the code takes the start as the centre)."
  },
  {
   "property": "C30",
   "status": "proved",
   "theorems": [
    "Ikarus.voigt_indices",
    "Ikarus.fromVoigt_toVoigt",
    "Ikarus.toVoigt_fromVoigt",
    "Ikarus.fromVoigt_toVoigt_upper",
    "Ikarus.voigt_conjugate",
    "Ikarus.toVoigt3_linear"
   ],
   "note": ""
  },
  {
   "property": "C31",
   "status": "partial",
   "theorems": [
    "Ikarus.symmetricIdentity_contract",
    "Ikarus.fourthOrder_contract",
    "Ikarus.identityFourthOrder_contract",
    "Ikarus.symTwoSlots_spec",
    "Ikarus.toVoigtTensor_entries",
    "Ikarus.toVoigtTensor_contract",
    "Ikarus.fromVoigtTensor_entries_partial",
    "Ikarus.fromVoigtTensor2_entries_partial",
    "Ikarus.fromVoigtTensor_uninitialised",
    "Ikarus.fromVoigt_toVoigt_tensor_partial",
    "Ikarus.sym_skew"
   ],
   "note": "False of the code for fromVoigt of a matrix: fromVoigtTensor_uninitialised (entries with i > j or k > l are never written); the _partial theorems state the written entries. All other parts proved."
  },
  {
   "property": "C32",
   "status": "proved",
   "theorems": [
    "Ikarus.condensation_defined_iff",
    "Ikarus.staticCondensation_spec",
    "Ikarus.staticCondensation_energy",
    "Ikarus.staticCondensation_unsymmetric",
    "Ikarus.reduce_remove_spec",
    "Ikarus.condensation_reduce_inverse"
   ],
   "note": ""
  },
  {
   "property": "C33",
   "status": "proved",
   "theorems": [
    "Ikarus.orthonormalize_spec",
    "Ikarus.orthonormalize_independent"
   ],
   "note": ""
  },
  {
   "property": "C34",
   "status": "proved",
   "theorems": [
    "Ikarus.condensation_defined_iff",
    "Ikarus.voigt_index_lists",
    "Ikarus.enlarge_remove",
    "Ikarus.enlargeMatrix_spec",
    "Ikarus.countDiagonalIndices_spec",
    "Ikarus.toVoigtAndReduce_enlarge"
   ],
   "note": ""
  },
  {
   "property": "C35",
   "status": "proved",
   "theorems": [
    "Ikarus.transformation_congruence",
    "Ikarus.transformation_mul",
    "Ikarus.transformation_invertible"
   ],
   "note": ""
  },
  {
   "property": "C36",
   "status": "proved",
   "theorems": [
    "Ikarus.lame_conversions",
    "Ikarus.lame_round_trip",
    "Ikarus.isotropic_exists"
   ],
   "note": "For Poisson's ratios that compare equal to 1/2 up to the tolerance of Dune::FloatCmp the first Lame parameter is infinite; the theorem excludes them for that one conversion."
  },
  {
   "property": "C37",
   "status": "proved",
   "theorems": [
    "Ikarus.transformStrain_measure",
    "Ikarus.transformStrain_deformationGradient",
    "Ikarus.transformStrain_round_trip",
    "Ikarus.transformStrain_compose",
    "Ikarus.transformStrain_rotation_lost",
    "Ikarus.transformStrain_unsupported",
    "Ikarus.transformStress_measure",
    "Ikarus.transformStress_compose",
    "Ikarus.transformStress_symmetric",
    "Ikarus.twoPoint_contract",
    "Ikarus.twoPoint_is_derivative",
    "Ikarus.transformTangentModuli_other"
   ],
   "note": "Conversion to the deformation gradient loses the rotation (transformStrain_rotation_lost); the composition theorem excludes exactly that case. Eigen's matrix square root enters through its defining property."
  },
  {
   "property": "C38",
   "status": "proved",
   "theorems": [
    "Ikarus.svk_stress_paths",
    "Ikarus.svk_moduli",
    "Ikarus.svk_energy_expansion",
    "Ikarus.svk_derivative",
    "Ikarus.svk_positive_definite",
    "Ikarus.svk_inversion",
    "Ikarus.svk_inversion_tensor_wrong"
   ],
   "note": "The Voigt results are proved; the compliance returned in tensor notation is wrong (svk_inversion_tensor_wrong)."
  },
  {
   "property": "C39",
   "status": "partial",
   "theorems": [
    "Ikarus.volumetric_derivatives",
    "Ikarus.volumetric_normalised_partial",
    "Ikarus.volumetric_not_normalised",
    "Ikarus.volumetric_sign",
    "Ikarus.volumetric_minimum",
    "Ikarus.volumetric_scaled"
   ],
   "note": "Derivatives, sign and minimum for all functions. Normalisation is false for VF10 and VF12 (volumetric_not_normalised); volumetric_normalised_partial states what holds."
  },
  {
   "property": "C40",
   "status": "partial",
   "theorems": [
    "Ikarus.blatzKo_derivatives",
    "Ikarus.ogden_dev_derivatives_partial",
    "Ikarus.ogden_total_derivatives",
    "Ikarus.ogden_dev_more_than_three",
    "Ikarus.ogden_dev_not_defined",
    "Ikarus.gent_derivatives",
    "Ikarus.arrudaBoyce_derivatives",
    "Ikarus.invariantBased_derivatives"
   ],
   "note": "Derivatives are proved for all stretches and all numbers of terms. The deviatoric Ogden second derivative indexes three terms, so it is only defined for at most three; the statement for more is refuted by ogden_dev_not_defined."
  },
  {
   "property": "C41",
   "status": "proved",
   "theorems": [
    "Ikarus.neoHooke_defined",
    "Ikarus.neoHooke_undeformed",
    "Ikarus.neoHooke_stress_is_derivative",
    "Ikarus.neoHooke_moduli_is_derivative",
    "Ikarus.neoHooke_moduli_symmetric",
    "Ikarus.neoHooke_inversion",
    "Ikarus.neoHooke_inversion_defined",
    "Ikarus.neoHooke_inversion_recovers",
    "Ikarus.neoHooke_inversion_other_branch"
   ],
   "note": ""
  },
  {
   "property": "C42",
   "status": "partial",
   "theorems": [
    "Ikarus.vanishingStress_moduli_derivative",
    "Ikarus.condensation_reduce_inverse",
    "Ikarus.VanishingStress.planeStress_svk",
    "Ikarus.VanishingStress.planeStress_inversion_svk",
    "Ikarus.VanishingStrain.vanishingStrain_reduced",
    "Ikarus.VanishingStrain.vanishingStrain_results",
    "Ikarus.VanishingStrain.vanishingStrain_moduli_derivative",
    "Ikarus.VanishingStress.vanishingStress_reduced_partial",
    "Ikarus.VanishingStress.vanishingStress_unchanged",
    "Ikarus.VanishingStress.vanishingStress_affine",
    "Ikarus.VanishingStress.vanishingStress_singular",
    "Ikarus.VanishingStress.vanishingStress_singular_unnoticed",
    "Ikarus.VanishingStress.vanishingStress_shear_not_reduced",
    "Ikarus.VanishingStress.planeStress_all_fixed_partial",
    "Ikarus.VanishingStress.planeStress_library_materials"
   ],
   "note": "Vanishing strain, the reduced state, the linear case and the condensed moduli are proved. 'Otherwise throws' is false for singular moduli (vanishingStress_singular_unnoticed: strains that are not finite are returned), and for anisotropic underlying laws the fixed shear stresses are not small (vanishingStress_shear_not_reduced; planeStress_all_fixed_partial for laws with the symmetry, e.g. SVK and Neo-Hooke)."
  },
  {
   "property": "C43",
   "status": "partial",
   "theorems": [
    "Ikarus.inversion_never_throws",
    "Ikarus.inversion_failure_not_reported",
    "Ikarus.inversion_iterates_partial",
    "Ikarus.inversion_linear"
   ],
   "note": "False of the code (inversion_never_throws, inversion_failure_not_reported); inversion_iterates_partial characterises the result, inversion_linear covers linear laws."
  },
  {
   "property": "C44",
   "status": "proved",
   "theorems": [
    "Ikarus.feRequirements_refines",
    "Ikarus.feRequirements_independent",
    "Ikarus.feRequirements_copy",
    "Ikarus.feRequirements_last_inserted",
    "Ikarus.feRequirements_syncDefault"
   ],
   "note": ""
  },
  {
   "property": "C45",
   "status": "proved",
   "theorems": [
    "Ikarus.affordance_conversions",
    "Ikarus.affordanceCollection_reports"
   ],
   "note": ""
  },
  {
   "property": "C46",
   "status": "proved",
   "theorems": [
    "Ikarus.globalIndices_order",
    "Ikarus.localSolution_gathers",
    "Ikarus.localSolution_increment",
    "Ikarus.assembly_adjoint_vector",
    "Ikarus.assembly_adjoint_matrix",
    "Ikarus.globalIndices_complete",
    "Ikarus.globalIndices_defined",
    "Ikarus.localSolutionComposite_gathers"
   ],
   "note": ""
  },
  {
   "property": "C47",
   "status": "proved",
   "theorems": [
    "Ikarus.Element.LinearElastic.linearElastic_adds",
    "Ikarus.Element.LinearElastic.linearElastic_symmetric",
    "Ikarus.Element.LinearElastic.linearElastic_forces",
    "Ikarus.Element.LinearElastic.linearElastic_energy",
    "Ikarus.Element.LinearElastic.linearElastic_consistent",
    "Ikarus.Element.LinearElastic.linearElastic_definite",
    "Ikarus.Element.linearElastic_integral"
   ],
   "note": ""
  },
  {
   "property": "C48",
   "status": "proved",
   "theorems": [
    "Ikarus.Element.Truss.truss_consistent",
    "Ikarus.Element.Truss.truss_energy",
    "Ikarus.Element.Truss.truss_rigid",
    "Ikarus.Element.Truss.truss_equilibrium",
    "Ikarus.Element.Truss.truss_adds"
   ],
   "note": ""
  },
  {
   "property": "C49",
   "status": "proved",
   "theorems": [
    "Ikarus.Element.AssumedStress.complementary_contract",
    "Ikarus.Element.AssumedStress.as_linear",
    "Ikarus.Element.AssumedStress.as_linear_maximum",
    "Ikarus.Element.AssumedStress.as_states",
    "Ikarus.Element.AssumedStress.as_gradient",
    "Ikarus.Element.AssumedStress.as_tangent",
    "Ikarus.Element.AssumedStress.as_symmetric",
    "Ikarus.Element.AssumedStress.as_condensation",
    "Ikarus.Element.AssumedStress.as_newton",
    "Ikarus.Element.EAS.createEASType_iff",
    "Ikarus.Element.EAS.applicable_iff",
    "Ikarus.Element.EAS.eas_scalar",
    "Ikarus.Element.EAS.displacementGradient_contract",
    "Ikarus.Element.EAS.displacementGradientTransposed_contract",
    "Ikarus.Element.EAS.displacementGradientTransposed_objective",
    "Ikarus.Element.EAS.displacementGradient_not_objective",
    "Ikarus.Element.EAS.eas_gradient",
    "Ikarus.Element.EAS.eas_tangent",
    "Ikarus.Element.EAS.eas_symmetric",
    "Ikarus.Element.EAS.eas_condensation",
    "Ikarus.Element.EAS.eas_condensed_tangent",
    "Ikarus.Element.EAS.eas_newton",
    "Ikarus.Element.EAS.eas_linear",
    "Ikarus.Element.EAS.eas_linear_minimum"
   ],
   "note": "Enhanced assumed strains (linear, Green-Lagrange, displacement gradient and its transposed) and assumed stresses. For assumed stresses the material inversion is taken to be exact (Spec.Inverts); it is for linear materials, for others up to its tolerance."
  },
  {
   "property": "C50",
   "status": "proved",
   "theorems": [
    "Ikarus.Element.EAS.ansatz_transformation",
    "Ikarus.Element.EAS.modes_orthogonal_plane",
    "Ikarus.Element.EAS.modes_orthogonal_space",
    "Ikarus.Element.EAS.modes_orthogonal_gradient",
    "Ikarus.Element.EAS.eas_patch",
    "Ikarus.Element.EAS.eas_patch_gradient"
   ],
   "note": ""
  },
  {
   "property": "C51",
   "status": "partial",
   "theorems": [
    "Ikarus.Utils.makeUniqueAndSort_spec",
    "Ikarus.Utils.appendUnique_spec",
    "Ikarus.Utils.tuple_findIf",
    "Ikarus.Utils.tuple_countIf",
    "Ikarus.Utils.tuple_specialization",
    "Ikarus.Utils.tuple_filter",
    "Ikarus.Utils.filter_loses_values",
    "Ikarus.Utils.tuple_unique",
    "Ikarus.Utils.tuple_subset",
    "Ikarus.Utils.countTypeSpecialization_false",
    "Ikarus.Utils.countTypeSpecialization_partial",
    "Ikarus.Utils.tuple_flatten"
   ],
   "note": "False in two points: countTypeSpecialization returns bool (countTypeSpecialization_false, countTypeSpecialization_partial) and filter returns value initialised elements instead of the documented ones (filter_loses_values; tuple_filter states what holds). Everything else is proved."
  },
  {
   "property": "C52",
   "status": "proved",
   "theorems": [
    "Ikarus.Utils.ctSqrt_floor"
   ],
   "note": ""
  },
  {
   "property": "C53",
   "status": "proved",
   "theorems": [
    "Ikarus.Utils.findLineSegment_best",
    "Ikarus.Utils.findLineSegment_exact",
    "Ikarus.Utils.findLineSegment_too_few"
   ],
   "note": ""
  },
  {
   "property": "C54",
   "status": "proved",
   "theorems": [
    "Ikarus.Element.EAS.exact_power",
    "Ikarus.Utils.tensorProduct_iterated",
    "Ikarus.Utils.tensorProduct_product",
    "Ikarus.Utils.tensorProduct_point"
   ],
   "note": ""
  },
  {
   "property": "C55",
   "status": "proved",
   "theorems": [
    "Ikarus.MadeEnum.enum_toString",
    "Ikarus.MadeEnum.enum_increment",
    "Ikarus.MadeEnum.enum_traversal",
    "Ikarus.MadeEnum.enum_bindings",
    "Ikarus.MadeEnum.enum_toString_injective"
   ],
   "note": ""
  },
  {
   "property": "C56",
   "status": "proved",
   "theorems": [
    "Ikarus.ResultEvaluators.vonMises_space",
    "Ikarus.ResultEvaluators.vonMises_plane",
    "Ikarus.ResultEvaluators.hydrostatic_triaxiality",
    "Ikarus.ResultEvaluators.principal_stress",
    "Ikarus.ResultEvaluators.polar_stress"
   ],
   "note": ""
  },
  {
   "property": "C57",
   "status": "partial",
   "theorems": [
    "Ikarus.LinearSolver.solve_exact",
    "Ikarus.LinearSolver.solve_last_partial",
    "Ikarus.LinearSolver.solve_last_false",
    "Ikarus.LinearSolver.copy_loses",
    "Ikarus.LinearSolver.iterative_follows",
    "Ikarus.LinearSolver.newton_solves",
    "Ikarus.LinearSolver.newton_other_storage"
   ],
   "note": "The claim as stated is false of the code (solve_last_false, copy_loses, iterative_follows); proved for programs without copies and with matrices of the solver's storage, and the exact behaviour for all programs. The state of Eigen's solvers is simplified as the model says."
  },
  {
   "property": "C58",
   "status": "partial",
   "theorems": [
    "Ikarus.Eigensolver.spectrum_exists",
    "Ikarus.Eigensolver.constructFull_iff",
    "Ikarus.Eigensolver.constructFull_false",
    "Ikarus.Eigensolver.constructPartial_iff",
    "Ikarus.Eigensolver.full_spectrum",
    "Ikarus.Eigensolver.full_orthonormal_partial",
    "Ikarus.Eigensolver.vectors_independent_false",
    "Ikarus.Eigensolver.full_accessors",
    "Ikarus.Eigensolver.partial_accessors"
   ],
   "note": "Spectra's contract is assumed. The construction is refused for three rows (constructFull_false), and the eigenvectors need not be independent if an eigenvalue belongs to both parts (vectors_independent_false)."
  },
  {
   "property": "C59",
   "status": "proved",
   "theorems": [
    "Ikarus.idbc_forces_eq",
    "Ikarus.idbc_forces_correspond",
    "Ikarus.idbc_forces_raw_is_reduced"
   ],
   "note": ""
  },
  {
   "property": "C60",
   "status": "proved",
   "theorems": [
    "Ikarus.update_reduced_increment",
    "Ikarus.update_full_increment_of_reduced",
    "Ikarus.update_full_increment"
   ],
   "note": ""
  },
  {
   "property": "C61",
   "status": "partial",
   "theorems": [
    "Ikarus.sync_sets_prescribed_partial",
    "Ikarus.idbcIncrement_eq_partial",
    "Ikarus.sync_keeps_stale_value"
   ],
   "note": "False when a prescribed value becomes zero (sync_keeps_stale_value); proved for prescribed values that are nonzero."
  },
  {
   "property": "C62",
   "status": "partial",
   "theorems": [
    "Ikarus.prediction_overwrites_load_factor",
    "Ikarus.prediction_loses_load_factor",
    "Ikarus.prediction_advances_partial",
    "Ikarus.intermediate_prediction_advances"
   ],
   "note": "False of the code: prediction_overwrites_load_factor, prediction_loses_load_factor (iff the start load factor is not zero); prediction_advances_partial for starts at zero."
  },
  {
   "property": "C63",
   "status": "partial",
   "theorems": [
    "Ikarus.ratio_ineffective",
    "Ikarus.ratio_does_not_decide",
    "Ikarus.ratio_decides_partial"
   ],
   "note": "False of the code with the default regularisation (ratio_does_not_decide, ratio_ineffective); ratio_decides_partial for rho_reg = 0."
  },
  {
   "property": "C64",
   "status": "proved",
   "theorems": [
    "Ikarus.blockAdd_spec",
    "Ikarus.tupleAdd_spec",
    "Ikarus.blockAdd_flat",
    "Ikarus.blockSub_blockAdd",
    "Ikarus.matrix_views",
    "Ikarus.tupleAdd_drops_surplus"
   ],
   "note": ""
  },
  {
   "property": "C65",
   "status": "proved",
   "theorems": [
    "Ikarus.hyperelastic_stress_is_derivative",
    "Ikarus.hyperelastic_moduli_is_derivative",
    "Ikarus.hyperelastic_hypotheses",
    "Ikarus.library_isotropic",
    "Ikarus.hyperelastic_any_basis",
    "Ikarus.hyperelastic_solver_independent",
    "Ikarus.hyperelastic_isotropic"
   ],
   "note": ""
  },
  {
   "property": "C66",
   "status": "partial",
   "theorems": [
    "Ikarus.compositeIncrement_false",
    "Ikarus.compositeIncrement_global",
    "Ikarus.compositeIncrement_partial"
   ],
   "note": "False of the code (compositeIncrement_false): the increment is read with global indices. compositeIncrement_global states what is computed, compositeIncrement_partial covers one-element meshes."
  },
  {
   "property": "C67",
   "status": "proved",
   "theorems": [
    "Ikarus.Element.NonLinearElastic.nonLinearElastic_adds",
    "Ikarus.Element.NonLinearElastic.nonLinearElastic_gradient",
    "Ikarus.Element.NonLinearElastic.nonLinearElastic_tangent",
    "Ikarus.Element.nonLinearElastic_integral",
    "Ikarus.Element.linearLaw_contract"
   ],
   "note": ""
  },
  {
   "property": "C68",
   "status": "proved",
   "theorems": [
    "Ikarus.Element.Membrane.membrane_contract",
    "Ikarus.Element.Membrane.membrane_metric",
    "Ikarus.Element.Membrane.membrane_rigid"
   ],
   "note": ""
  },
  {
   "property": "C69",
   "status": "partial",
   "theorems": [
    "Ikarus.Element.volumeLoad_integral",
    "Ikarus.Element.volumeLoad_consistent",
    "Ikarus.Element.volumeLoad_resultant",
    "Ikarus.Element.traction_consistent",
    "Ikarus.Element.incompleteTraction_false",
    "Ikarus.Element.incompleteTraction_partial"
   ],
   "note": "Gradient and resultant are proved for volume loads and tractions. False of the code (incompleteTraction_false): a traction with a null patch and a load function dereferences the null pointer, because the guard asks for both to be missing; incompleteTraction_partial says what happens in each case."
  },
  {
   "property": "C70",
   "status": "proved",
   "theorems": [
    "Ikarus.Element.Shell.shell_orientation",
    "Ikarus.Element.Shell.shell_unstressed",
    "Ikarus.Element.Shell.shell_consistent",
    "Ikarus.Element.Shell.shell_energy",
    "Ikarus.Element.Shell.shell_director",
    "Ikarus.Element.Shell.shell_rigid",
    "Ikarus.Element.Shell.shell_lower_half",
    "Ikarus.Element.Shell.shell_strains",
    "Ikarus.Element.Shell.shell_moduli",
    "Ikarus.Element.Shell.shell_energy_nonneg"
   ],
   "note": ""
  },
  {
   "property": "C71",
   "status": "partial",
   "theorems": [
    "Ikarus.Element.DisplacementPressure.displacementPressure_consistent",
    "Ikarus.Element.DisplacementPressure.displacementPressure_material_false",
    "Ikarus.Element.DisplacementPressure.displacementPressure_material_partial",
    "Ikarus.Element.displacementPressure_integral"
   ],
   "note": "Gradient, tangent and symmetry are proved. That the element stands for the material passed is false of the code (displacementPressure_material_false): the stored energy of the unit volumetric material is used as constraint; displacementPressure_material_partial gives the condensed energy, which is that of function 1 if function 12 is passed."
  },
  {
   "property": "C72",
   "status": "partial",
   "theorems": [
    "Ikarus.Element.EAS.exact_power",
    "Ikarus.Element.EAS.gauss_exact",
    "Ikarus.Element.EAS.eas_default_rule_partial",
    "Ikarus.Element.EAS.eas_e11_singular",
    "Ikarus.Element.EAS.eas_stable"
   ],
   "note": "False of the code for E11 on the four node element with the default rule (eas_e11_singular: all modes vanish at the Gauss points); eas_default_rule_partial covers every other combination, with eas_stable for arbitrary rules."
  },
  {
   "property": "C73",
   "status": "proved",
   "theorems": [
    "Ikarus.Element.AssumedStress.stress_transformation",
    "Ikarus.Element.AssumedStress.as_constants",
    "Ikarus.Element.AssumedStress.as_patch",
    "Ikarus.Element.AssumedStress.as_stable",
    "Ikarus.Element.AssumedStress.as_default_rule",
    "Ikarus.Element.AssumedStress.stressAnsatz_transformation",
    "Ikarus.Element.AssumedStress.assumedStress_accepted"
   ],
   "note": ""
  },
  {
   "property": "C74",
   "status": "partial",
   "theorems": [
    "Ikarus.Element.AssumedStress.as_energy_partial",
    "Ikarus.Element.AssumedStress.as_energy_false"
   ],
   "note": "False of the code (as_energy_false): the returned energy subtracts half the product of stress and strain, which is the complementary energy only if that is quadratic; as_energy_partial covers quadratic complementary energies, linear materials among them."
  },
  {
   "property": "C75",
   "status": "partial",
   "theorems": [
    "Ikarus.Eigensolver.constructEigen_lvalues_partial",
    "Ikarus.Eigensolver.constructEigen_rvalues",
    "Ikarus.Eigensolver.constructEigen_false",
    "Ikarus.Eigensolver.makeIdentityEigen_iff"
   ],
   "note": "False of the code for rvalues (constructEigen_false); proved for lvalues, the other cases stated exactly."
  },
  {
   "property": "C76",
   "status": "proved",
   "theorems": [
    "Ikarus.nonLinearElastic_skill",
    "Ikarus.linearElastic_skill",
    "Ikarus.volumeLoad_skill",
    "Ikarus.traction_skill",
    "Ikarus.mixin_contract",
    "Ikarus.assembled_consistent",
    "Ikarus.reduced_consistent"
   ],
   "note": ""
  },
  {
   "property": "C77",
   "status": "partial",
   "theorems": [
    "Ikarus.FlatBasis.flat_bijection",
    "Ikarus.FlatBasis.flat_keeps_order_partial",
    "Ikarus.FlatBasis.flat_keeps_order_false",
    "Ikarus.FlatBasis.flat_monotone",
    "Ikarus.FlatBasis.flat_flat"
   ],
   "note": "False of the code for a FlatInterleaved power basis over a basis with blocks (flat_keeps_order_false); flat_keeps_order_partial proves it for all other trees; the bijection is proved for all."
  },
  {
   "property": "C78",
   "status": "partial",
   "theorems": [
    "Ikarus.Sanity.checkGradient_accepts",
    "Ikarus.Sanity.checkGradient_rejects",
    "Ikarus.Sanity.checkHessian_accepts",
    "Ikarus.Sanity.checkHessian_rejects",
    "Ikarus.Sanity.checkJacobian_accepts_quadratic",
    "Ikarus.Sanity.checkGradient_accepts_cubic",
    "Ikarus.Sanity.checkGradient_rejects_quadratic",
    "Ikarus.Sanity.checkGradient_affine_iff",
    "Ikarus.Sanity.gradientCheckSound_false",
    "Ikarus.Sanity.checkHessian_skew",
    "Ikarus.Sanity.hessianCheckSound_false",
    "Ikarus.Sanity.checks_drawing_undefined"
   ],
   "note": "acceptance and rejection by growth of the remainder proved; that a passed check means a right derivative is false of the code (gradientCheckSound_false, hessianCheckSound_false); with the default flag draw = true the checks write past the end of two vectors (checks_drawing_undefined)"
  },
  {
   "property": "C79",
   "status": "partial",
   "theorems": [
    "Ikarus.Output.vectorizeGeneric_entry",
    "Ikarus.Output.stored_roundtrip",
    "Ikarus.Output.storedVoigt_entry",
    "Ikarus.Output.registered_nodup",
    "Ikarus.Output.registered_layout",
    "Ikarus.Output.elementIndex_iff",
    "Ikarus.Output.evaluate_own_partial",
    "Ikarus.Output.evaluate_inside",
    "Ikarus.Output.ownElement_false",
    "Ikarus.Output.evaluate_components",
    "Ikarus.Output.addInterpolation_places",
    "Ikarus.Output.addResultFunction_lvalue",
    "Ikarus.Output.addResult_places_partial",
    "Ikarus.Output.addResult_moved",
    "Ikarus.Output.resultsAdded_false",
    "Ikarus.Output.addAllResults_places_partial",
    "Ikarus.Output.pyAddInterpolation_ignores",
    "Ikarus.Output.pyInterpolationAdded_false",
    "Ikarus.Output.pyAddResult_spec",
    "Ikarus.Output.pyCalculateAt_spec"
   ],
   "note": "containers, components and names proved; own value proved for grids with one geometry type and refuted for mixed grids (ownElement_false); places proved for addInterpolation and for lvalues, refuted for addResult with asCellAndPointData if dune-vtk moves from the rvalue (resultsAdded_false) and for addInterpolation of the Python module (pyInterpolationAdded_false)"
  },
  {
   "property": "C80",
   "status": "partial",
   "theorems": [
    "Ikarus.AutoDiff.hessian_eq",
    "Ikarus.AutoDiff.autoDiff_scalar_compiles",
    "Ikarus.AutoDiff.autoDiff_vector_compiles",
    "Ikarus.AutoDiff.autoDiff_matrix_compiles",
    "Ikarus.AutoDiff.autoDiff_vector",
    "Ikarus.AutoDiff.autoDiff_matrix",
    "Ikarus.AutoDiff.autoDiff_matrix_scalar",
    "Ikarus.AutoDiff.autoDiff_assembly",
    "Ikarus.AutoDiff.autoDiff_buffer_partial",
    "Ikarus.AutoDiff.autoDiff_matrix_buffer_partial",
    "Ikarus.AutoDiff.vectorAdded_false"
   ],
   "note": "equality of vectors and matrices proved, element by element and assembled; that the wrapper adds to a vector passed by the user is false of the code when the vector is derived (vectorAdded_false)"
  },
  {
   "property": "C81",
   "status": "partial",
   "theorems": [
    "Ikarus.AutoDiffMat.autoDiffMat_stress_partial",
    "Ikarus.AutoDiffMat.autoDiffMat_moduli_partial",
    "Ikarus.AutoDiffMat.autoDiffMat_same_partial",
    "Ikarus.AutoDiffMat.svk_law",
    "Ikarus.AutoDiffMat.neoHooke_law",
    "Ikarus.AutoDiffMat.same_false"
   ],
   "note": "equality proved for the strain measure of the material and Voigt notation; false of the code for other strain measures (factor k or k*k) and for voigt = false, which is ignored (same_false)"
  },
  {
   "property": "C82",
   "status": "partial",
   "theorems": [
    "Ikarus.NodeSearch.nodeCoordinates_eq",
    "Ikarus.NodeSearch.globalNodePositions_eq",
    "Ikarus.NodeSearch.search_iff",
    "Ikarus.NodeSearch.search_found_partial",
    "Ikarus.NodeSearch.search_sound",
    "Ikarus.NodeSearch.found_false"
   ],
   "note": "proved for meshes whose elements meet in common nodes; false of the code for hanging nodes, where an exception is thrown although the node exists (found_false)"
  },
  {
   "property": "C83",
   "status": "partial",
   "theorems": [
    "Ikarus.DiffFun.call_spec",
    "Ikarus.DiffFun.read_last",
    "Ikarus.DiffFun.kept_false",
    "Ikarus.DiffFun.op3_spec",
    "Ikarus.DiffFun.op1_iff",
    "Ikarus.DiffFun.op2_iff",
    "Ikarus.full_consistent",
    "Ikarus.DiffFun.function_derivatives"
   ],
   "note": "proved except: a result is a reference that the next call of a function of the same assembler overwrites (kept_false), and op(assembler, option) with a shared pointer passed as rvalue reads the pointer after it was moved from (op2_iff)"
  },
  {
   "property": "C84",
   "status": "partial",
   "theorems": [
    "Ikarus.Lifetime.messages_reach_listeners_partial",
    "Ikarus.Lifetime.copy_undefined",
    "Ikarus.Lifetime.copyDefined_false",
    "Ikarus.Lifetime.kept_token_undefined",
    "Ikarus.Lifetime.factory_subscribes",
    "Ikarus.Lifetime.once_false"
   ],
   "note": "Proved for every program without copies or moves of listeners and without kept tokens. False of the code otherwise: the callback captures the address of the original, tokens are shared by copies, so a copied or moved listener whose original is destroyed makes the next notification undefined (copy_undefined); `auto logger = NonLinearSolverLogger().subscribeTo(*nr)`, as in tests/src/testpathfollowing.cpp:54, is such a program. A token kept longer than its listener is also undefined. The factory subscribes the elements again for each control routine made with the same solver, so each message reaches each element more than once (once_false)."
  },
  {
   "property": "C85",
   "status": "partial",
   "theorems": [
    "Ikarus.Listening.idbc_internal",
    "Ikarus.Listening.inhomogeneousNewton_false",
    "Ikarus.Listening.eas_leftover",
    "Ikarus.Listening.equilibrium_false",
    "Ikarus.Listening.eas_linear_solved",
    "Ikarus.Listening.reduced_throws",
    "Ikarus.Listening.reduced_unconstrained",
    "Ikarus.Listening.listening_run",
    "Ikarus.Listening.eas_solver_newton"
   ],
   "note": "Proved for homogeneous Dirichlet conditions and DBCOption::Full: iterates are Newton iterates of the two field problem. False of the code: success does not mean that the internal variables belong to the solution, since only the condensed residual is tested: internal variables left over from an earlier solution give no forces in an unstrained element with additive enhancement and a linear law, so the solver returns at once and stresses remain (eas_leftover, equilibrium_false); with inhomogeneous Dirichlet conditions the update of the internal variables uses the correction only and misses the prescribed increment (idbc_internal, inhomogeneousNewton_false). With DBCOption::Reduced the first iteration throws (reduced_throws). Assumed stress elements: the run is covered by listening_run, their steps by C49."
  },
  {
   "property": "C86",
   "status": "partial",
   "theorems": [
    "Ikarus.Python.py_parameters",
    "Ikarus.Python.py_parameters_objects",
    "Ikarus.Python.py_parameters_count",
    "Ikarus.Python.message_not_truthful",
    "Ikarus.Python.py_tolerance_partial",
    "Ikarus.Python.tolerance_not_kept",
    "Ikarus.Python.py_muesli_options",
    "Ikarus.Python.compressible_not_used"
   ],
   "note": "Proved for constants and for the options that are used. False of the code: the message of a rejected pair names (Lambda, nu) as valid although it is rejected; the tolerance passed to the reductions in Python is ignored, the documented default 1e-12 is not used either (1e-8 is); the option compressible of Arruda-Boyce and Yeoh is ignored."
  },
  {
   "property": "C87",
   "status": "partial",
   "theorems": [
    "Ikarus.Python.py_evaluate",
    "Ikarus.Python.py_transformStrain_partial",
    "Ikarus.Python.py_transformStrain_keywords",
    "Ikarus.Python.keywords_not_converted",
    "Ikarus.Python.py_transformStrain_undefined"
   ],
   "note": "Proved for evaluation and for positional calls of transformStrain between measures with a conversion. False of the code: the keywords of transformStrain are declared in the wrong order (materials.hh:116), so calls with keywords convert in the opposite direction; the targets linear and displacementGradient reach __builtin_unreachable."
  },
  {
   "property": "C88",
   "status": "partial",
   "theorems": [
    "Ikarus.Python.py_matrix_values",
    "Ikarus.Python.py_sparse_history_partial",
    "Ikarus.Python.py_reading_partial",
    "Ikarus.Python.reading_not_harmless"
   ],
   "note": "Proved for one call of every callback and for all histories of callbacks that use only entries to which an element contributes. False of the code: __getitem__ uses coeffRef, so reading an entry outside the occupation pattern inserts it, the linear indices of the elements no longer match and the next request writes to wrong places or out of bounds (reading_not_harmless)."
  },
  {
   "property": "C89",
   "status": "partial",
   "theorems": [
    "Ikarus.PyAlive.py_living",
    "Ikarus.PyAlive.py_dead_stays_dead",
    "Ikarus.PyAlive.py_views",
    "Ikarus.PyAlive.py_use_partial",
    "Ikarus.PyAlive.py_bound_requirement",
    "Ikarus.PyAlive.py_simple",
    "Ikarus.PyAlive.bound_requirement_not_kept",
    "Ikarus.PyAlive.patch_not_kept"
   ],
   "note": "Proved for all programs that do not delete bound requirements and patches of loads, and for bases in all programs. False of the code: Assembler.bind stores a reference and is bound to Python without keep_alive, and the finite element keeps only the basis alive, not the pre-elements whose boundary patch it points to."
  },
  {
   "property": "C90",
   "status": "partial",
   "theorems": [
    "Ikarus.Sees.assembler_sees",
    "Ikarus.Sees.assembler_ignores",
    "Ikarus.Sees.solution_not_referenced"
   ],
   "note": "What is seen is proved for all programs. False of the code: feRequirements.md says that insertGlobalSolution stores a reference to the vector; it stores a copy."
  },
  {
   "property": "C91",
   "status": "partial",
   "theorems": [
    "Ikarus.Muesli.muesli_finite_history",
    "Ikarus.Muesli.muesli_small_history",
    "Ikarus.Muesli.muesli_symmetric",
    "Ikarus.Muesli.muesli_finite",
    "Ikarus.Muesli.inverted_not_rejected",
    "Ikarus.Muesli.muesli_derivatives"
   ],
   "note": "Proved for all programs and all rotation-independent Muesli materials. False of the code: a deformation gradient with negative determinant is not rejected, because the check is made on the determinant of the right Cauchy-Green tensor. Strains that are not symmetric arrive changed. Muesli itself is not modelled."
  },
  {
   "property": "C92",
   "status": "partial",
   "theorems": [
    "Ikarus.Listening.path_eas_step",
    "Ikarus.Listening.path_eas_newton_partial",
    "Ikarus.Listening.pathNewton_false",
    "Ikarus.Listening.path_listening_run"
   ],
   "note": "The run is proved for all elements, each step characterised exactly for elements with enhanced strains, and Newton steps proved for linear laws. False of the code in general: the load vector is minus the residual without displacements (lines 225-232), but the elements keep the internal variables they hold, and with a law that is not linear these have forces; the increment then solves a wrong linearisation. Inhomogeneous Dirichlet conditions are not in this model."
  },
  {
   "property": "C93",
   "status": "partial",
   "theorems": [
    "Ikarus.newton_log",
    "Ikarus.newton_logs",
    "Ikarus.subsidiary_log",
    "Ikarus.subsidiary_notes",
    "Ikarus.subsidiary_noted",
    "Ikarus.tr_log",
    "Ikarus.tr_log_not_current",
    "Ikarus.load_control_log",
    "Ikarus.path_following_log",
    "Ikarus.pathLogSizes_false",
    "Ikarus.vtk_files",
    "Ikarus.vtk_file_defined",
    "Ikarus.load_control_files",
    "Ikarus.vtkOneField_false"
   ],
   "note": "Logs and files are proved exactly for all runs. False of the code: the lines of a trust region run show the norm of the gradient before the iteration, and for rejected iterations what the last accepted one has shown, since norms are sent before the gradient is computed again and only after acceptance (trustregion.hh:398-411); path following shows step size 0 for the initial solve although it passes the step size of the routine; file k of the writer contains k+1 fields with the same name, since fields are only ever added, and reads objects that may not exist any more if another domain is used later. Formatting of numbers is not modelled."
  },
  {
   "property": "C94",
   "status": "partial",
   "theorems": [
    "Ikarus.linearElastic_linear",
    "Ikarus.volumeLoad_linear",
    "Ikarus.traction_linear",
    "Ikarus.linear_load_control",
    "Ikarus.equilibrium_unique",
    "Ikarus.linear_same_result",
    "Ikarus.supported_all",
    "Ikarus.inverseSolve_solves",
    "Ikarus.linear_unloading",
    "Ikarus.supportsFollow_false"
   ],
   "note": "Proved for runs in which no step has load factor zero, or without prescribed displacements. False of the code otherwise: synchronising skips values that are zero (nonlinearsolverfactory.hh:45-54), so a run to load factor zero reports success but leaves the supports at l0/n times their displacements (linear_unloading, supportsFollow_false). Real arithmetic; the linear solver is assumed to solve its systems, which the inverse matrix does if the supports suffice."
  },
  {
   "property": "C95",
   "status": "partial",
   "theorems": [
    "Ikarus.Factory.iterate_history",
    "Ikarus.Factory.sync_history",
    "Ikarus.Factory.factory_kept_partial",
    "Ikarus.Factory.temporaryFactory_undefined",
    "Ikarus.Factory.destroyedFactory_undefined",
    "Ikarus.Factory.reassigned_mixes",
    "Ikarus.Factory.reassigned_differ"
   ],
   "note": "False of the code: the update function and the force function capture the shared pointer variable of the user and the member settings of the factory by reference (nonlinearsolverfactory.hh:28, 34, 119), the residual a copy of the shared pointer. A solver from a temporary or local factory has no defined iteration (the project's own tests make solvers this way, tests/src/testtruss.cpp:267-282), and after another assembler is assigned to the variable residuals and updates use different assemblers. Proved: an exact characterisation for all programs, and the claim for programs that keep variable and factory."
  },
  {
   "property": "C96",
   "status": "partial",
   "theorems": [
    "Ikarus.nonlinear_load_control_partial",
    "Ikarus.truss_skill",
    "Ikarus.inverseSolve_answers",
    "Ikarus.truss_support",
    "Ikarus.success_not_stationary",
    "Ikarus.nonlinear_same_result"
   ],
   "note": "False of the code: the first residual of a load step adds the force of the Dirichlet values (newtonraphson.hh:201-209) and is a linear extrapolation; if its norm is below the tolerance and minIter is 0, the solver reports success without an iteration, the prescribed displacements are synchronised afterwards, and the state is not stationary (success_not_stationary, with a truss element and every positive tolerance). Proved: on supports always; stationary whenever the solve iterated, is the first one, or nothing is prescribed; and what zero iterations mean. With regular matrices the run does not depend on the option or on the (exact) linear solver (nonlinear_same_result)."
  },
  {
   "property": "C97",
   "status": "partial",
   "theorems": [
    "Ikarus.Lambert.iterates_converge",
    "Ikarus.Lambert.lambertW0_result",
    "Ikarus.Lambert.lambertW0_accurate",
    "Ikarus.Lambert.lambertW0_terminates",
    "Ikarus.Lambert.lambertW0_domain",
    "Ikarus.Lambert.lambertW0_not_rejects",
    "Ikarus.Lambert.halley_dual"
   ],
   "note": "False of the code in its last part: minus infinity is returned (lambertw.hh:46-47) and arguments within the tolerance below the branch point give -1 instead of an exception. Proved in exact arithmetic: definedness, one-sided geometric convergence, accuracy of every returned value, termination for enough iterations, the decisions before the loop, and the derivative for dual numbers. Not proved: that the default of 20 iterations suffices in floating point arithmetic."
  },
  {
   "property": "C98",
   "status": "partial",
   "theorems": [
    "Ikarus.reducedAsFull_false",
    "Ikarus.stepsAsAsked_false",
    "Ikarus.path_linear_arc",
    "Ikarus.path_equilibrium_partial",
    "Ikarus.path_stops_at_failure",
    "Ikarus.path_step_sizes",
    "Ikarus.path_sizes",
    "Ikarus.path_reduced_idle",
    "Ikarus.path_arc_start",
    "Ikarus.path_linear_load"
   ],
   "note": "False of the code in two parts, both refuted with a bar: with Reduced and a constrained dof, load and displacement control fault as soon as a solve iterates, as increments for the free dofs are added to an increment for all dofs (newtonraphsonwithscalarsubsidiaryfunction.hh:283, pathfollowing.inl:34); and a step accepted without iteration need not have the size asked for, as the first norm of the solver ignores the subsidiary function. Proved for all runs that end without fault: equilibrium, supports, meaning of success, and the size of steps whose solve iterated; for Full, which faults remain; for linear structures, that load control and arc length end with success and what they show. Values that are not finite end a run in the model."
  },
  {
   "property": "C99",
   "status": "partial",
   "theorems": [
    "Ikarus.trust_prescribed_refuted",
    "Ikarus.trust_rand_moves_supports",
    "Ikarus.trust_success_unbalanced",
    "Ikarus.trust_solve",
    "Ikarus.trust_load_control_partial"
   ],
   "note": "False of the code in three parts, each refuted: prescribed displacements are never applied by load control with the trust region method (the solver neither takes a force function nor synchronises, load control synchronises only after solves without iteration), although success is reported; with Full and the random predictor (useRand) supports move; and success by a small correction with the default settings leaves an unbalanced force of 0.05 N for a stiff and a soft spring. Proved for all structures: termination, energy, meaning of the norm and of success, stationarity up to the norm reported, supports without the random predictor or with Reduced, load control as the sequence of solves. Left out: failure of the incomplete Cholesky factorisation."
  },
  {
   "property": "C100",
   "status": "proved",
   "theorems": [
    "Ikarus.Analysis.iterates_converge",
    "Ikarus.Analysis.solve_converges",
    "Ikarus.load_control_follows",
    "Ikarus.load_control_converges",
    "Ikarus.truss_followed"
   ],
   "note": "Exact arithmetic; the linear solver is assumed to solve the regular systems it is given. The load factor zero is excluded after the start if displacements are prescribed, since the code does not set prescribed displacements that vanish (C94)."
  },
  {
   "property": "C101",
   "status": "partial",
   "theorems": [
    "Ikarus.Element.Result.linear_forces_reported",
    "Ikarus.Element.Result.nonLinear_forces_reported",
    "Ikarus.Element.Result.eas_linear_forces_reported",
    "Ikarus.Element.Result.eas_forces_reported",
    "Ikarus.Element.Result.as_linear_forces_reported",
    "Ikarus.Element.Result.as_forces_reported",
    "Ikarus.Element.Result.dp_forces_reported",
    "Ikarus.Element.Result.spatial_reported",
    "Ikarus.Element.Result.planeStrain_full",
    "Ikarus.Element.Result.planeStress_reported",
    "Ikarus.Element.Result.linear_materials",
    "Ikarus.Element.Result.planeStress_full_false",
    "Ikarus.Element.Result.planeStress_full_partial",
    "Ikarus.Element.Result.solid_full",
    "Ikarus.Element.Result.as_solid_full_false",
    "Ikarus.Element.Result.as_fresh_stress",
    "Ikarus.Element.Result.cauchy_plane",
    "Ikarus.Element.Result.planeStress_cauchy_false",
    "Ikarus.Element.Result.calculateAt_mixed",
    "Ikarus.Element.Result.calculateAt_maximal"
   ],
   "note": "False of the code in three places. (1) In plane stress the types with suffix Full evaluate the underlying material with zero strain out of the plane: the result is the state of plane strain, with a normal stress out of the plane and in-plane stresses that differ from those the element reports. (2) For a material in space the assumed stress element returns zero for the Full types. (3) Cauchy stress in plane stress divides by the determinant of the deformation in the plane and so is the Cauchy stress times the stretch of the thickness. Exact arithmetic; plane stress stresses for the two linear materials only."
  },
  {
   "property": "C102",
   "status": "partial",
   "theorems": [
    "Ikarus.trust_boundary_success",
    "Ikarus.trust_linear_solve",
    "Ikarus.trust_linear_load_control",
    "Ikarus.stiffness_bounds",
    "Ikarus.identity_bounds",
    "Ikarus.diagonal_bounds",
    "Ikarus.enough_iterations",
    "Ikarus.tr_converges",
    "Ikarus.tr_converges_capped"
   ],
   "note": "Convergence is proved. The last sentence is false of the code: the tolerance of the corrections is also compared with steps that end at the boundary of the trust region, so that with the default settings and the diagonal preconditioner a spring of stiffness 1e16 is reported as solved although nine tenths of its load are not balanced (trust_boundary_success); the theorems assume that the radius at the start is not that small in the norm of the preconditioner. Exact arithmetic; the factorisation of the incomplete Cholesky preconditioner is not modelled, its result is any linear symmetric positive definite map."
  },
  {
   "property": "C103",
   "status": "proved",
   "theorems": [
    "Ikarus.nonLinearElastic_carries",
    "Ikarus.membrane_carries",
    "Ikarus.linearElastic_carries",
    "Ikarus.truss_carries",
    "Ikarus.volumeLoad_carries",
    "Ikarus.traction_carries",
    "Ikarus.mixin_carries",
    "Ikarus.support_work",
    "Ikarus.support_forces",
    "Ikarus.support_resultant",
    "Ikarus.loadWork_unit",
    "Ikarus.load_control_reactions",
    "Ikarus.Element.balance_iff",
    "Ikarus.Element.linear_balance",
    "Ikarus.Element.nonlinear_balance",
    "Ikarus.Element.membrane_balance",
    "Ikarus.Element.shell_balance",
    "Ikarus.Element.truss_balance",
    "Ikarus.Element.displacementPressure_balance",
    "Ikarus.Element.assumedStress_balance",
    "Ikarus.Element.additive_balance",
    "Ikarus.Element.transposed_balance",
    "Ikarus.Element.h4_complete",
    "Ikarus.Element.h9_complete",
    "Ikarus.Element.displacementGradient_balance"
   ],
   "note": "The strain operators of dune-localfefunctions are taken as B = bop(1 + grad u, dN) of Green-Lagrange strains (linear strains at u = 0), and the shape functions' derivatives as those of an isoparametric map; both are contracts of the dependency. Exact arithmetic. The forces at supports are those of states in the sense of C96; where load control shows a state that is not in equilibrium (prescribed displacements without an iteration) nothing is claimed."
  },
  {
   "property": "C104",
   "status": "proved",
   "theorems": [
    "Ikarus.patch_equilibrium",
    "Ikarus.mesh_divergenceFree",
    "Ikarus.mesh_patch",
    "Ikarus.mesh_linear_patch",
    "Ikarus.mesh_nonlinear_patch",
    "Ikarus.mesh_enhanced_patch",
    "Ikarus.mesh_load_control",
    "Ikarus.Element.linear_patch",
    "Ikarus.Element.nonlinear_patch",
    "Ikarus.Element.displacementPressure_patch",
    "Ikarus.Element.additive_patch",
    "Ikarus.Element.displacementGradient_patch",
    "Ikarus.Element.transposed_patch",
    "Ikarus.Element.assumedStress_patch",
    "Ikarus.Element.integralGradient_quad",
    "Ikarus.Element.quad_meanFree"
   ],
   "note": "Shape functions and strain operators as in C103 (contracts of dune-localfefunctions). The connectivity theorem is for bilinear quadrilaterals; for other elements patch_equilibrium needs Spec.DivergenceFree (the discrete divergence theorem) as hypothesis. Enhanced strains at internal variables zero. Exact arithmetic."
  },
  {
   "property": "C105",
   "status": "partial",
   "theorems": [
    "Ikarus.arc_step_not_succeeds",
    "Ikarus.arc_step",
    "Ikarus.arc_follows",
    "Ikarus.arc_horizontal"
   ],
   "note": "Proved under the hypothesis, per visited iterate, that the increment of the load factor is not zero and the linear solver answers exactly; without the former the claim is false of the code (arc_step_not_succeeds, arc_horizontal): the derivative of the constraint divides the increments of prescribed displacements by that of the load factor, 0/0 without any. Constant step size in arc_follows. Exact arithmetic."
  },
  {
   "property": "C106",
   "status": "partial",
   "theorems": [
    "Ikarus.blatzKo_linear",
    "Ikarus.ogdenDev_linear",
    "Ikarus.ogdenTotal_linear",
    "Ikarus.gent_linear",
    "Ikarus.arrudaBoyce_linear",
    "Ikarus.invariantBased_linear",
    "Ikarus.mooneyRivlin_linear",
    "Ikarus.yeoh_linear",
    "Ikarus.pureVolumetric_linear",
    "Ikarus.neoHooke_linear",
    "Ikarus.svk_linear",
    "Ikarus.bulkModulus_partial"
   ],
   "note": "Proved for all materials of the factory. Partial because 'K is the bulk modulus' is false for VF0, for VF7 with an exponent whose square is not one, and for VF12, with which the undeformed state is not free of stress (bulkModulus_partial characterises the functions for which it holds). Exact arithmetic; tolerances of the comparisons are parameters."
  },
  {
   "property": "C107",
   "status": "proved",
   "theorems": [
    "Ikarus.Analysis.regular_path_through",
    "Ikarus.Analysis.small_loads",
    "Ikarus.rest_balanced",
    "Ikarus.inverseSolve_exactSolver",
    "Ikarus.small_solids",
    "Ikarus.truss_smooth",
    "Ikarus.truss_linearized",
    "Ikarus.linearBar_linear",
    "Ikarus.rigid_supported",
    "Ikarus.small_trusses",
    "Ikarus.Analysis.smooth_regular",
    "Ikarus.linearElastic_smooth",
    "Ikarus.volumeLoad_smooth",
    "Ikarus.traction_smooth",
    "Ikarus.nonLinearElastic_smooth",
    "Ikarus.greenPoint_contract",
    "Ikarus.greenPoint_smooth",
    "Ikarus.linearLaw_smooth",
    "Ikarus.nonLinearElastic_linearized",
    "Ikarus.sameAtRest"
   ],
   "note": "Exact arithmetic. Solid elements with the displacement based formulation; smoothness of the material is a hypothesis (shown for the linear law of St. Venant-Kirchhoff). The linear solver is assumed to be exact for regular matrices."
  },
  {
   "property": "C108",
   "status": "partial",
   "theorems": [
    "Ikarus.materials_at_rest",
    "Ikarus.small_material_solids",
    "Ikarus.Element.space_contract",
    "Ikarus.Element.planeStrain_contract",
    "Ikarus.Element.svk_elements",
    "Ikarus.Element.neoHooke_elements",
    "Ikarus.Element.planeStress_contract_false"
   ],
   "note": "Real numbers. Proved in space and in plane strain for St. Venant-Kirchhoff and Neo-Hooke. False in plane stress: planeStress_contract_false shows that the stress of St. Venant-Kirchhoff material jumps at the tolerance of the reduction. Elements with hyperelastic materials in principal stretches: C109."
  },
  {
   "property": "C109",
   "status": "partial",
   "theorems": [
    "Ikarus.Element.hyperelastic_elements",
    "Ikarus.hyperelastic_stress_any_motion",
    "Ikarus.hyperelastic_moduli_any_motion",
    "Ikarus.hyperelastic_stress_differentiable",
    "Ikarus.library_smooth",
    "Ikarus.hyperelastic_moduli_within_tolerance"
   ],
   "note": "Real numbers, a solver that returns a spectral decomposition of symmetric matrices. Proved except inside the tolerance: hyperelastic_moduli_within_tolerance shows for every positive tolerance that at different principal stretches within it the moduli are not the derivative of the stresses and lack the minor symmetry (the code uses the limit for equal stretches there). Deviatoric Ogden functions with more than three terms have no second derivative (C40)."
  },
  {
   "property": "C110",
   "status": "partial",
   "theorems": [
    "Ikarus.Boundary.fixWithIntersection_exact",
    "Ikarus.Boundary.fixWithView_exact",
    "Ikarus.Boundary.fixWithIndex_exact",
    "Ikarus.Boundary.fixBoundaryDOFs_untouched",
    "Ikarus.Boundary.fixBoundaryDOFs_order",
    "Ikarus.Boundary.pyFixBoundaryDOFs_same",
    "Ikarus.Boundary.pyFixBoundaryDOFs_rejects",
    "Ikarus.Boundary.pySame_false"
   ],
   "note": "The parts about C++ are proved in full. 'In Python a callable does what it does in C++' is false for a callable that can be called in more than one form, e.g. with a default for the local view: Python passes the local index and the view where C++ passes the global index, and another dof is fixed (pySame_false); proved for callables with one form (pyFixBoundaryDOFs_same). forEachBoundaryDOF, subEntityDOFs and subspaceBasis belong to dune-functions and are modelled as documented."
  },
  {
   "property": "C111",
   "status": "partial",
   "theorems": [
    "Ikarus.Output.works_root_composite",
    "Ikarus.Output.works_root_power",
    "Ikarus.Output.works_child_of_composite",
    "Ikarus.Output.works_part_of_power",
    "Ikarus.Output.fails_below_child_of_composite",
    "Ikarus.Output.declared_components",
    "Ikarus.Output.allWork_false"
   ],
   "note": "The full claim is false (allWork_false): for a composite basis with unlike parts the container takes the first for all, and for a part of a composite named by two or more indices the rest of the path is forgotten, so that a single displacement of a displacement-pressure basis is declared with the components of all displacements (fails_below_child_of_composite). Proved for scalars, powers, parts of composites named by one index and scalar parts of powers; what DiscreteGlobalBasisFunction of dune-functions does with a container that does not fit is not modelled."
  },
  {
   "property": "C112",
   "status": "partial",
   "theorems": [
    "Ikarus.decompose_together",
    "Ikarus.decompose_vanishingStrain",
    "Ikarus.decompose_planeStress_partial",
    "Ikarus.decompose_planeStress_false"
   ],
   "note": "Proved for materials in space and for vanishing strains. For plane stress the claim is false (decompose_planeStress_false): the code reduces each part on its own, with different thickness strains, and the energies do not add up; stated for exact solutions of the condition of vanishing stresses (the loop of VanishingStress finds them up to its tolerance, C42)."
  },
  {
   "property": "C113",
   "status": "partial",
   "theorems": [
    "Ikarus.Element.EAS.eas_follows_partial",
    "Ikarus.Element.EAS.eas_size",
    "Ikarus.Element.EAS.eas_unsupported",
    "Ikarus.Element.EAS.eas_recovers",
    "Ikarus.Element.EAS.eas_accepts",
    "Ikarus.Element.EAS.eas_follows_false",
    "Ikarus.Element.EAS.eas_harmless_false",
    "Ikarus.Element.EAS.eas_refusesUnsupported_false",
    "Ikarus.Element.AssumedStress.as_follows_partial",
    "Ikarus.Element.AssumedStress.as_unsupported",
    "Ikarus.Element.AssumedStress.as_accepts",
    "Ikarus.Element.AssumedStress.as_follows_false",
    "Ikarus.Element.AssumedStress.as_statesForAllPoints_false"
   ],
   "note": "In full the claim is false of the code. A rejected number stays behind and makes later bindings throw (eas_harmless_false) after the element has moved, so that it evaluates with functions of the old element of the grid (eas_follows_false) or with too few strains (as_statesForAllPoints_false); setEASType accepts numbers on unsupported elements (eas_refusesUnsupported_false, evaluations then throw); bind does not reset the strains of assumed stresses, which matters for numerical inversion (as_follows_false). Proved: the refinement as long as no binding is rejected, and sizes, supported elements, recovery and acceptance for all sequences. The solid skill is taken to come first in the list of skills."
  },
  {
   "property": "C114",
   "status": "partial",
   "theorems": [
    "Ikarus.equilibrium_turn",
    "Ikarus.supported_turn",
    "Ikarus.linear_load_control_turn",
    "Ikarus.load_control_turn",
    "Ikarus.solids_systems_turn",
    "Ikarus.path_load_control_turn",
    "Ikarus.small_loads_turn",
    "Ikarus.solids_turn",
    "Ikarus.linear_solids_turn",
    "Ikarus.assembled_vector_turn",
    "Ikarus.assembled_matrix_turn",
    "Ikarus.assembled_scalar_turn",
    "Ikarus.free_residual_turn",
    "Ikarus.correction_turn",
    "Ikarus.Element.turnedLaw_of_energy",
    "Ikarus.Element.svk_isotropic",
    "Ikarus.Element.neoHooke_isotropic",
    "Ikarus.Element.hyperelasticMat_isotropic",
    "Ikarus.Element.svk_turn",
    "Ikarus.Element.neoHooke_turn",
    "Ikarus.Element.hyperelastic_turn",
    "Ikarus.Element.linear_moduli_turn",
    "Ikarus.Element.green_turned",
    "Ikarus.Element.linear_turned",
    "Ikarus.Element.nonLinearElastic_turn",
    "Ikarus.Element.linearElastic_turn",
    "Ikarus.Element.volumeLoad_turn",
    "Ikarus.Element.traction_turn",
    "Ikarus.Element.mixin_turn",
    "Ikarus.Element.truss_turn",
    "Ikarus.Element.turned_motions",
    "Ikarus.Element.linear_not_follows",
    "Ikarus.Element.turnedStrain_of_strain",
    "Ikarus.Element.membrane_turned",
    "Ikarus.Element.bending_turned",
    "Ikarus.Element.shell_turn"
   ],
   "note": "In full the claim is false of the code: linear elements have forces after a superposed rotation, as linear theory has it (linear_not_follows). Proved: turned structures for solids, linear solids, trusses, membranes, shells (proper rotations), loads, St. Venant-Kirchhoff, Neo-Hooke and hyperelastic materials; superposed rotations for all of them but the linear elements; assembled systems, equilibrium, corrections, load control of linear structures, and load control of structures of any kind as long as the matrices factorized are regular (load_control_turn), in particular along regular paths and under small loads. The rotation mixes no free directions of a node with held ones: whole nodes held, or reflections in coordinate planes with rollers."
  },
  {
   "property": "C115",
   "status": "partial",
   "theorems": [
    "Ikarus.Element.EAS.eas_turn",
    "Ikarus.Element.EAS.additive_turned",
    "Ikarus.Element.EAS.ansatz2_turn",
    "Ikarus.Element.EAS.ansatz3_turn",
    "Ikarus.Element.EAS.ansatzH_turn",
    "Ikarus.Element.EAS.displacementGradient_turned",
    "Ikarus.Element.EAS.displacementGradientTransposed_turned",
    "Ikarus.Element.AssumedStress.assumedStress_turn",
    "Ikarus.Element.AssumedStress.stressAnsatz_turn",
    "Ikarus.Element.AssumedStress.linear_inversion_turn",
    "Ikarus.Element.DisplacementPressure.displacementPressure_turn",
    "Ikarus.Element.quad_turned",
    "Ikarus.Element.quad_turned_alike",
    "Ikarus.Element.gradient_not_follows"
   ],
   "note": "In full the claim is false of the code: the strain of DisplacementGradient changes if only the deformed shape is turned (gradient_not_follows), linear strains likewise by linear theory. Proved: enhanced Green-Lagrange strains, transposed displacement gradient, assumed stresses and displacement-pressure elements for any rotation of mesh and of shape; linear strains and displacement gradient if mesh and shape turn alike; quadrilaterals with bilinear shape functions completely."
  },
  {
   "property": "C116",
   "status": "partial",
   "theorems": [
    "Ikarus.arrudaBoyce_eight_chain",
    "Ikarus.ogden_is_mooneyRivlin",
    "Ikarus.ogden_is_yeoh",
    "Ikarus.ogden_is_neoHooke",
    "Ikarus.ogden_neoHooke_moduli_within_tolerance",
    "Ikarus.volumetric_special_cases",
    "Ikarus.arrudaBoyce_limit",
    "Ikarus.gent_limit"
   ],
   "note": "In full the claim is false of the code: where two principal stretches differ by less than the tolerance of deviatoric/interface.hh:118 the moduli of Ogden's material differ from those of the Neo-Hooke material (ogden_neoHooke_moduli_within_tolerance). Proved: all the rest, the moduli where the stretches are equal or further apart. VF10 with beta = -1 has the derivatives of VF1 but an energy smaller by one."
  },
  {
   "property": "C117",
   "status": "partial",
   "theorems": [
    "Ikarus.path_units_false",
    "Ikarus.load_control_units",
    "Ikarus.assembled_units",
    "Ikarus.solids_units",
    "Ikarus.quadPoint_units",
    "Ikarus.Element.pair_units",
    "Ikarus.Element.svk_units",
    "Ikarus.Element.neoHooke_units",
    "Ikarus.Element.noDev_scale",
    "Ikarus.Element.blatzKo_scale",
    "Ikarus.Element.ogdenDev_scale",
    "Ikarus.Element.ogdenTotal_scale",
    "Ikarus.Element.invariantBased_scale",
    "Ikarus.Element.arrudaBoyce_scale",
    "Ikarus.Element.gent_scale",
    "Ikarus.Element.hyperelastic_scaledLaw",
    "Ikarus.Element.spaceLaw_scale",
    "Ikarus.Element.planeStrainLaw_scale",
    "Ikarus.Element.reduceStress_scale",
    "Ikarus.Element.planeStressLaw_scale_partial",
    "Ikarus.Element.planeStress_units_false",
    "Ikarus.Element.nonLinearElastic_scale",
    "Ikarus.Element.green_scale",
    "Ikarus.Element.linearElastic_scale",
    "Ikarus.Element.truss_scale",
    "Ikarus.Element.volumeLoad_scale",
    "Ikarus.Element.traction_scale",
    "Ikarus.Element.mixin_scale"
   ],
   "note": "In full the claim is false of the code: the reduction to plane stress compares a stress with an absolute tolerance whose default knows no units (planeStress_units_false), and path following compares with the tolerance a norm that contains a force and a length (path_units_false). Proved: trusses, linear and nonlinear solids, loads, all materials, plane strain, plane stress with a tolerance that is a stress (planeStressLaw_scale_partial), assembled energies, forces and stiffness, and load control with linear solvers that solve exactly and regular matrices. Floating point: real numbers are modelled."
  },
  {
   "property": "C118",
   "status": "proved",
   "theorems": [
    "Ikarus.stiff_homogeneous",
    "Ikarus.volumeLoad_homogeneous",
    "Ikarus.traction_homogeneous",
    "Ikarus.equilibrium_proportional",
    "Ikarus.linear_load_control_proportional",
    "Ikarus.linearElastic_stiff",
    "Ikarus.volumeLoad_load",
    "Ikarus.traction_load",
    "Ikarus.equilibrium_superposes",
    "Ikarus.supported_cases",
    "Ikarus.reciprocity",
    "Ikarus.reciprocity_fixed",
    "Ikarus.stored_energy",
    "Ikarus.linear_load_control_superposes",
    "Ikarus.stiffer",
    "Ikarus.more_supports",
    "Ikarus.more_elements",
    "Ikarus.linearElastic_stiffer",
    "Ikarus.stiffer_elements"
   ],
   "note": "Load control starts on the supports and makes at least one iteration per step; the linear solver solves its systems. Real numbers, not floating point."
  },
  {
   "property": "C119",
   "status": "proved",
   "theorems": [
    "Ikarus.load_control_renumbered",
    "Ikarus.assembled_renumbered",
    "Ikarus.equilibrium_renumbered",
    "Ikarus.reduced_renumbered"
   ],
   "note": "For load control the linear solvers solve all solvable systems and the matrices of the first run are regular. Real numbers, not floating point: the order of summation changes the rounding."
  },
  {
   "property": "C120",
   "status": "proved",
   "theorems": [
    "Ikarus.image_load_control",
    "Ikarus.symmetric_load_control",
    "Ikarus.symmetric_regular",
    "Ikarus.symmetric_linear",
    "Ikarus.paired_symmetric",
    "Ikarus.paired_energy"
   ],
   "note": "Exact linear solvers and regular stiffness at symmetric states (weaker than regular everywhere); real numbers."
  },
  {
   "property": "C121",
   "status": "partial",
   "theorems": [
    "Ikarus.PyScalar.py_expression",
    "Ikarus.PyScalar.py_inPlace",
    "Ikarus.PyScalar.py_accepted",
    "Ikarus.PyScalar.py_numbers_false",
    "Ikarus.PyScalar.py_copy_independent",
    "Ikarus.PyScalar.py_callback_multiple",
    "Ikarus.PyScalar.py_callback_scales",
    "Ikarus.PyScalar.py_callback_sets_partial",
    "Ikarus.PyScalar.py_callback_sets_false"
   ],
   "note": "In full the claim is false of the code: numbers are not accepted by += and -= (py_numbers_false, with the exact decision py_accepted), and a callback cannot change an energy that is zero (py_callback_sets_false; py_callback_sets_partial for an energy that is not zero). The rest is proved. A ScalarRef made from a number dangles; it is undefined behaviour in the model. Comparison and printing are not modelled."
  },
  {
   "property": "C122",
   "status": "partial",
   "theorems": [
    "Ikarus.PyAssembler.py_overloads",
    "Ikarus.PyAssembler.py_left_out",
    "Ikarus.PyAssembler.py_accepts_false",
    "Ikarus.PyAssembler.py_history",
    "Ikarus.PyAssembler.py_results_kept"
   ],
   "note": "In full the claim is false of the code: calls that leave out the option are rejected by Python (py_accepts_false); py_left_out shows that these are the only ones. The rest is proved."
  },
  {
   "property": "C123",
   "status": "proved",
   "theorems": [
    "Ikarus.path_turned",
    "Ikarus.path_renumbered",
    "Ikarus.path_solvers",
    "Ikarus.path_symmetric",
    "Ikarus.path_regular"
   ],
   "note": "Displacement control, option Reduced and supports that move are not covered. Linear solvers are exact (round-off is not modelled). At a singular matrix the answer of a linear solver is arbitrary, so nothing can be claimed there."
  },
  {
   "property": "C124",
   "status": "proved",
   "theorems": [
    "Ikarus.reordered_system",
    "Ikarus.reordered_load_control",
    "Ikarus.reordered_trust_region",
    "Ikarus.reordered_path",
    "Ikarus.Element.EAS.eas_relabel",
    "Ikarus.Element.EAS.additive_relabel",
    "Ikarus.Element.EAS.greenQuad_relabel",
    "Ikarus.Element.EAS.linearQuad_relabel",
    "Ikarus.Element.EAS.modes_symmetric",
    "Ikarus.Element.EAS.easQuad_relabel",
    "Ikarus.Element.EAS.eas_symmetries",
    "Ikarus.Element.EAS.displacementGradient_relabel",
    "Ikarus.Element.EAS.displacementGradientTransposed_relabel",
    "Ikarus.Element.EAS.gradientQuad_relabel",
    "Ikarus.Element.EAS.gradient_symmetries",
    "Ikarus.Element.DisplacementPressure.displacementPressure_relabel",
    "Ikarus.Element.green_relabel",
    "Ikarus.Element.linear_relabel",
    "Ikarus.Element.nonLinearElastic_relabel",
    "Ikarus.Element.linearElastic_relabel",
    "Ikarus.Element.volumeLoad_relabel",
    "Ikarus.Element.traction_relabel",
    "Ikarus.Element.truss_relabel",
    "Ikarus.Element.mixin_relabel",
    "Ikarus.Element.quad_relabel",
    "Ikarus.Element.quad_points_relabel",
    "Ikarus.Element.tensor_symmetric",
    "Ikarus.Element.square_symmetries",
    "Ikarus.Element.mappedPoint_of_strain",
    "Ikarus.Element.Shell.shell_relabel",
    "Ikarus.Element.Shell.relabelledShell_comp",
    "Ikarus.Element.AssumedStress.assumedStress_relabel",
    "Ikarus.Element.AssumedStress.stressQuad_relabel",
    "Ikarus.Element.AssumedStress.stressModes_symmetric",
    "Ikarus.Element.AssumedStress.asQuad_relabel",
    "Ikarus.Element.AssumedStress.stress_symmetries"
   ],
   "note": "Over the real numbers: in floating point the order of summation changes the last digits. Elements of displacement type (truss, linear and nonlinear solids, volume and boundary loads) are followed through whole analyses. For quadrilaterals with enhanced strains (linear and Green-Lagrange strains and both displacement gradients, all variants of the plane), with assumed stresses and for shells (also with exchanged or reversed axes of the surface; the matrix for symmetric starting matrices) and for elements with displacements and pressure forces, matrix and (where there are any) the update of the internal variables are shown to correspond, not the whole run. Membrane strains are covered as a part of the shell."
  }
 ]
}