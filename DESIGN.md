# Design of the formal model of Ikarus

Ikarus is a C++ finite element library.  The source under verification is the
pinned checkout in `/repo` (paths below are relative to `/repo`).  The model is
written in Lean 4 (4.33.0) with Mathlib; it lives in `lean/Verif`.

## Layout

Each area has a model file (definitions only, each with the file and lines it
models), a lemma file where needed, and a `Props` file with the property
theorems, each followed by an `example` that meets its hypotheses.

## Conventions and simplifications common to all models

* **Numbers.**  C++ `double` is modelled by an exact ring, ordered field or `ℝ`.
  Rounding is *not* modelled.  Decision logic that depends on comparisons which
  can be false for NaN (Newton loop, trust region) is modelled over an abstract
  comparison `gt : α → α → Bool`, so the theorems also hold for IEEE
  comparison; a NaN-like value is used for the negative results.
* **Containers.**  `Eigen` vectors and `std::vector` are `List`s; dense matrices are
  functions together with their sizes, lists of lists, or Mathlib `Matrix`.
  An out-of-range write or read is a distinct outcome (`Option.none`), never a
  silently totalised value.
* **Exceptions** are `Except Err`, or a dedicated outcome.
* **Callbacks** (element kernels, user lambdas, linear solvers) are arbitrary functions.
* **Machine integers** are `Nat`/`Int` without overflow, except where the property is about them.
* Templates are modelled for an arbitrary instance of the parameter (parametric Lean
  functions); concept checks and `static_assert`s are not modelled.

## Trusted base

* Lean's kernel, and the axioms `propext`, `Classical.choice`, `Quot.sound`
  (checked with `#print axioms` for each property theorem; no own axioms, no
  `sorry`, no `native_decide`, no `bv_decide`).
* The hand translation of the C++ functions into Lean (file and line references at each definition).
* The behaviour of the libraries Ikarus calls (Eigen, Dune, Spectra, autodiff): modelled by the
  mathematical operation they document.

## What is not modelled

Floating point rounding; Dune grids/geometries/basis generation (only dof index lists and
evaluated ansatz data appear); VTK output; Python bindings; Muesli materials; autodiff internals;
Eigen and Spectra algorithms; parsing of parameter trees; performance.

## Property by property

* **C01 Raw vector assembly is the sum of all element contributions.** Model `assembleRawVectorImpl` as nested folds of a checked scatter-add. Spec: entry i = sum over all (element, position) pairs with global index i. Induction over elements; order independence from the spec with `List.Perm`.
* **C02 Full and Reduced vectors are views of the Raw vector.** Model the two loops of getVectorImpl/getReducedVectorImpl literally (counter, constraintsBelow). Invariant: after each element, reduced entry (rank i) = raw entry i. Also absence of out-of-range access.
* **C03 createFullVector and createReducedVector are mutually inverse on the free dofs.** Loops of createFull/createReducedVector with the `reducedCounter`; induction over the flag list.
* **C04 Reduced numbering is an order preserving bijection.** Model the constructor loop; `constraintsBelow` vs an independent count; bijectivity by strict monotonicity and counting.
* **C05 Dense matrix: Raw, Full and Reduced are consistent.** Dense matrix as entry function updated by loops; spec sums as for C01.
* **C06 Enforcing boundary conditions by Full or by Reduced gives the same solution.** Linear algebra over a field on top of C05/C02.
* **C07 Sparse and dense assembler agree for every history of matrix requests.** State machine of the sparse assembler: patterns, linear index caches, three matrices with `compressed` flag; refinement to C05's dense result by an invariant over request histories; counterexample for an untouched constrained dof.
* **C08 Scalar assembly is additive and order independent.** Fold; permutation invariance.
* **C09 Binding protocol of the assemblers.** State = three options; induction over histories against `last bind` spec.
* **C10 Assembler manipulators apply every bound callback once, in bind order, for every request kind.** Lists of callbacks, fold; history invariant.
* **C11 Dirichlet flags reflect exactly the last write to each dof.** State = flag list; history semantics `last write`.
* **C12 Copies of DirichletValues are independent.** Heap model with references: flags in cells, backend = cell address. Copy duplicates cell but not backend target. Negation with a concrete history and `_partial` for integer access / never-copied objects.
* **C13 Inhomogeneous boundary values superpose.** Functions as `List (ℝ → List ℝ)`; superposition by induction; lifetime flag for derivative capture.
* **C14 Broadcast delivery.** Heap of tokens with owner counts; list of weak references; trace semantics.
* **C15 Unregistering stops delivery.** Negation with a concrete history; `_partial` for the owner-drops-all-copies case.
* **C16 Newton-Raphson terminates and its success flag is meaningful.** Loop as a fuelled/well-founded function; invariants over the loop; comparison abstract.
* **C17 Newton-Raphson never reports success for a NaN residual.** Negation with NaN-like value, plus partial theorem for comparison that is total.
* **C18 Newton-Raphson message protocol.** Trace as list of messages; shape by induction.
* **C19 Newton-Raphson solves affine problems in one iteration.** Instance of the C16 loop with linear residual.
* **C20 Newton-Raphson with subsidiary function solves the bordered linear system.** Field algebra + loop invariant on accumulated increments.
* **C21 Load control visits exactly the prescribed load factors.** Loop over steps with arbitrary solver; invariant parameter = start + k*step.
* **C22 Load control reports success iff all solves succeed and stops at the first failure.** Same model with trace; iff by induction over steps.
* **C23 Path following performs the requested number of steps and stops at the first failure.** Same style for path following.
* **C24 Iteration based step sizing only shrinks the step and never to zero or below.** Real `sqrt`; history induction.
* **C25 Arc-length predictor and constraint are consistent.** Real algebra in inner product form over finite vectors; `HasDerivAt`.
* **C26 A path-following object can be reused.** Negation for the evaluation of a used function; equality of all solves by induction over the run from an equilibrium state.
* **C27 Trust region: accepted steps do not increase the energy, rejected steps change nothing.** Model of one iteration and of the loop with arbitrary sub-solver.
* **C28 Trust region: radius, termination and meaning of success.** Loop invariant and termination.
* **C29 Truncated conjugate gradient stays in the trust region and decreases the model.** CG recursion over a real inner product space; classical Steihaug argument.
* **C30 Voigt notation round trips and energy conjugacy.** Explicit index functions on `Fin`, matrices over a field of characteristic 0.
* **C31 Fourth order tensors: Voigt map, symmetrisation and identities act as documented.** Tensors as functions `Fin 3 → ...`; entries `Option` for the unwritten ones.
* **C32 Static condensation is the Schur complement.** Block matrices over a field.
* **C33 Column orthonormalisation.** Gram-Schmidt loop over real inner product space.
* **C34 Reduced strain vectors: enlarge and remove are inverse.** List erasure/insertion.
* **C35 Strain transformation matrix is the Voigt form of a congruence.** Explicit matrices, `ring`.
* **C36 Lame constant conversions are mutually consistent.** Real field identities; square root cases.
* **C37 Strain and stress measure conversions commute.** Matrix algebra; polar square root by spectral square root property.
* **C38 St. Venant-Kirchhoff: energy, stress and moduli are consistent on all input/output notations.** Explicit 3x3 and Voigt formulas; polynomial derivative via `HasDerivAt`.
* **C39 Volumetric functions: derivatives, normalisation and stress free reference.** `HasDerivAt` for all 13 functions; negations for VF10/VF12.
* **C40 Deviatoric functions: stretch derivatives are exact.** `DeviatoricModel`/`DeviatoricLemmas`/`DeviatoricProps`: derivatives along arbitrary paths of positive stretches; Ogden with more than three parameters indexes out of range.
* **C41 Neo-Hooke: stress is the derivative of the energy and the closed form inversion is exact.** `NeoHookeModel`/`NeoHookeProps` over the reals with `MatrixCalculus` (Jacobi formula, derivative of the inverse along arbitrary paths): stress is twice the derivative of the energy, moduli are the derivative of the stress, symmetries, undeformed state; inversion sound for every Lambert value that satisfies its equation, its check admits exactly arguments in the domain, it recovers the strain up to the limit `log J <= mu/lambda + 3/2` and returns another strain beyond. Not modelled: a singular `I - S/mu` (floating point infinities).
* **C42 Vanishing stress / vanishing strain wrappers.** `VanishingModel`/`VanishingProps`/`VanishingModuliProps`: arbitrary underlying law (partial functions), the Newton solver model of C16 with the captured strain as unknown, index lists of C34. Reduced state on success; already reduced strains are kept; affine laws need one step; condensed moduli are the derivative of the condensed stress along paths with vanishing fixed stresses; explicit plane stress law and inversion for SVK; vanishing strain results. Negations: singular moduli are not noticed, fixed shear stresses of anisotropic laws remain. Not modelled: autodiff scalars, results as fourth order tensors (`voigt = false` moduli).
* **C43 Numerical material inversion signals non convergence.** Loop model; negation with a law that does not converge; partial on what success yields.
* **C44 FE requirements: value access protocol and deep copies.** `FE/RequirementsModel.lean`: heap with two `unique_ptr` members per object and references into them, addresses are not reused, dangling use is `none`. Refinement to plain optional values by induction over programs (`feRequirements_refines`), frame, copy and last-insert theorems as corollaries. `syncParameterAndGlobalSolution` with `UpdateDefault` here, with the update function of the solver factory in C61. Not modelled: the concrete vector types.
* **C45 Affordance mapping.** `FE/AffordanceModel.lean`: the enumerations with `BEGIN`/`END`, the conversion functions, collections as lists of tagged values, `std::get<T>` as `none` when it would not compile. Remark outside of the model: the free functions in ferequirements.hh:178-203 are neither inline nor templates.
* **C46 Element dof order: gather and scatter are adjoint.** `FE/GatherModel.lean`: local view as tree plus index map; `globalIndices*`, `localSolutionBlockVector*`, `forEachLeafOrPowerLeafNode`; adjointness on top of the assembler model.
* **C47 Linear elastic element: energy, forces and stiffness are consistent.** `Element.LinearElastic`: the loops over integration points and nodes as in the code, on matrices given by blocks; geometry, B operators and weights are data. `linearElastic_adds`, `_symmetric`, `_forces`, `_energy`, `_consistent` (derivatives), `_definite` (kernel = displacements without strain). The affordance argument is ignored by the element (a mass affordance returns the stiffness), like in NonLinearElastic and Truss.
* **C48 Truss element: forces and stiffness are derivatives of the energy; rigid body invariance.** `Element.Truss` (vectors of any dimension): `truss_consistent` (forces are the gradient of the energy, stiffness their derivative), `truss_energy`, `truss_rigid`, `truss_equilibrium`, `truss_adds`. The three axial force results are in the model, see `truss_equilibrium`.
* **C49 Enhanced assumed strain / assumed stress: condensation equals Newton on the full system.** `Element.EAS` over points with the derivatives of the enhanced strain (`Spec.EASContract`, shown for the additive functions and both displacement gradient functions) and laws with `LawContract`. The specification is the energy in displacements and internal variables, its gradient and its tangent by derivatives along lines and curves, and the linearised two field equations: `eas_gradient`, `eas_tangent`, `eas_symmetric`, `eas_condensation` (the condensed system holds iff the two field system does with the update of `updateState`), `eas_condensed_tangent`, `eas_newton` (assembled over a mesh), `eas_linear`, `eas_linear_minimum`. `Element.AssumedStress` is reduced to an element with enhanced strains over the pair of strain and stress (`pairLaw`, `pairPoint`); the specification is the Hellinger-Reissner energy: `as_states` (strains and compliances held are those of the internal variables, for all histories), `as_gradient`, `as_tangent`, `as_symmetric`, `as_condensation`, `as_newton`, `as_linear`, `as_linear_maximum`; `complementary_contract` ties the complementary energy to the material. The material inversion is assumed to be exact.
* **C50 Enhanced strain ansatz is orthogonal to constant stresses.** The matrices of the variants are assigned entry by entry as in the code; the specification is a mean value that is exact to a degree per coordinate, instantiated by the integral over the unit cube and by quadrature rules: `modes_orthogonal_plane`, `modes_orthogonal_space`, `modes_orthogonal_gradient`, and for the element `eas_patch`, `eas_patch_gradient`.
* **C51 Container and tuple helpers.** `Utils/AlgorithmsModel.lean`: containers and tuples are lists (a tuple element has a type and a value), `find_if` and `count_if` as the loops with their variables, nested tuples as trees. Compile errors (`static_assert`, empty nested tuple) are `none`. List and tree induction; negations for `countTypeSpecialization` and the values of `filter`.
* **C52 Compile time square root.** `Utils/NumericModel.lean`: `sqrt_helper` with checked additions (the largest value `M` of the type is a parameter) and checked division; invariant lo² ≤ x < (hi+1)². Negative arguments are not modelled.
* **C53 Line segment search returns the best window.** `Utils/NumericModel.lean`: windows with checked access, matrix of `polyfit` built column by column, `min_element` as its loop. The QR solver of Eigen is a parameter with the contract that its solution has minimal residual (exact arithmetic; a solver meeting it is shown to exist), so NaN errors are outside the model.
* **C54 Tensor product quadrature.** `Utils/NumericModel.lean`: the two loops building the list of points; sums over lists. `defaultQuadratureRule` only selects a rule of dune and is not modelled.
* **C55 Enumeration increment.** `FE/AffordanceModel.lean` (`MadeEnum`): an enumeration is its list of names, values are integers; `increment`, `toString`, the binding loop of pythonhelpers.hh. The macro expansion (limit of 256 names) is not modelled.
* **C56 Result evaluators: invariants of the stress.** `Ikarus.ResultEvaluators`: every evaluator on Voigt vectors over the reals; Dune's closed form symmetric eigenvalues enter as an arbitrary function meeting `Spec.IsEigenvalues` (ascending, orthonormal diagonalisation; `exists_eigenvalues` shows one exists), `atan2` is the argument of the complex number. `vonMises_space`, `vonMises_plane`, `hydrostatic_triaxiality`, `principal_stress`, `polar_stress`. Reading: in the plane the von Mises stress is that of plane stress, so a hydrostatic plane stress does change it. A negative component of the polar stress falls off the function (undefined).
* **C57 Linear solver wrapper solves with the last matrix given to it or throws.** Verif/LinearSolver: programs over several solver objects and matrices in memory (construction, copy, move, swap, analyzePattern, factorize, compute, writes to the matrices); refinement by induction to an abstract machine that remembers only the tag and the matrix given last. The full claim is refuted; the partial theorem excludes copies and matrices of the other storage; the exact behaviour is stated without restriction, as is the sequence of calls Newton's method makes.
* **C58 Full spectrum of the generalised eigen solver is complete and sorted.** Verif/Solver/Eigen*: exact conditions of construction (false for three rows); the combined values are the whole spectrum by the characteristic polynomial of the pencil, whose existence is proved from the spectral theorem; eigenvectors orthonormal if there is a gap between the parts, a counterexample without; accessors by induction over histories of compute. Spectra's contract (requirements and what a successful call returns) is assumed.
* **C59 Inhomogeneous boundary forces.** On top of C02/C05.
* **C60 Update functor of the solver factory adds increments to the right dofs.** Index model of the update lambda on top of the reduced numbering.
* **C61 Synchronising solution and load factor sets the prescribed displacements.** Model of idbcIncrement and sync; negation with a value that returns to zero.
* **C62 Path following starts from the current state.** Initial predictions; negation at a start with nonzero load factor.
* **C63 Trust region: acceptance is governed by the ratio of actual to predicted decrease.** Negation with default settings; `ratio_decides_partial` without regularisation.
* **C64 Increments of blocked solution vectors act block by block.** Blocks as lists, segments with Eigen's bounds assertion.
* **C65 Hyperelastic materials: solver independent, isotropic, stress and moduli are derivatives.** `HyperelasticModel` with the eigenvalue solver as a parameter; a correct solver returns some spectral decomposition. `SpectralLemmas`: the change between two decompositions only mixes equal eigenvalues, so functions of pairs of eigenvalues do not depend on the choice; the moduli are rewritten as such a function, where the branch for equal stretches in the code is what makes it one. Derivatives along paths of stretches and directions by the product rule with the skew spin. Not modelled: the branches for automatic differentiation. Two stretches closer than the tolerance but not equal are excluded from the moduli statement (the code then uses the formula for equal stretches).
* **C66 Increments of an element on a composite basis.** Same model as C46. `compositeIncrement_false` (second element of a strip), `compositeIncrement_global` says what the code computes, `compositeIncrement_partial` for one element meshes.
* **C67 Nonlinear elastic element: forces are the gradient of the energy, the matrix their derivative.** `Element.NonLinearElastic` over abstract material and strain measure with contracts `LawContract`, `StrainContract` stated with derivatives along paths; `nonLinearElastic_gradient`, `_tangent`, `_adds`. Instances: `linearLaw_contract`, `membrane_contract`. The Green-Lagrange strains come from dune-localfefunctions and are covered by the contract only.
* **C68 Membrane strain of the shell and its derivatives.** `Element.Membrane`: `membrane_contract`, `membrane_metric`, `membrane_rigid`. Values at integration points only (the code caches shape functions by point index).
* **C69 Volume loads and tractions: forces are the gradient of the potential.** `Element.VolumeLoad`, `Element.Traction` with null patch and empty function as failing outcomes: `volumeLoad_consistent`, `volumeLoad_resultant`, `traction_consistent`; `incompleteTraction_false`, `incompleteTraction_partial`.
* **C70 Kirchhoff-Love shell: consistent energy, forces and stiffness.** `Element.Shell`: values at integration points; the bending strain is shown to keep `StrainContract` and the element is the sum of a membrane and a bending part with linear laws: `shell_consistent`, `shell_energy`, `shell_director`, `shell_rigid`, `shell_energy_nonneg`, `shell_lower_half`; `shell_strains` and `shell_moduli` give the strains and the density in closed form. Not modelled: the cached basis values, autodiff scalar types.
* **C71 Displacement-pressure element: consistent, and standing for its material.** `Element.DisplacementPressure` over abstract deviatoric and volumetric materials with `LawContract` and strains with `StrainContract`: `displacementPressure_consistent`; `displacementPressure_material_false` with `displacementPressure_material_partial`. Stress results and the reduced materials are not modelled.
* **C72 Condensation of the enhanced assumed strains is defined.** Linear independence of the modes under a mean value of degree two (`E11`: four) gives `eas_stable`; `exact_power` and `gauss_exact` supply the default rules, `eas_default_rule_partial` the elements; `eas_e11_singular` refutes the claim for `E11` on the four node element.
* **C73 Assumed stresses: constant stresses are represented and the condensation is defined.** `stress_transformation`, `as_constants`, `as_patch`; independence of the modes (`independent_s5` to `independent_s30`) gives `as_stable` for rules of degree two and `as_default_rule` for the Gauss rules.
* **C74 Assumed stresses: forces are the gradient of the energy.** `Spec.EnergyGradient` states the claim; `as_energy_false` refutes it for an exponential material with consistent contract, `as_energy_partial` proves it for quadratic complementary energies.
* **C75 The eigen solver is constructed exactly for square matrices of equal size.** Verif/Solver/Eigen*: decision logic of the constructor with value categories; a moved dynamic matrix has no rows and columns. The full claim is refuted, proved for lvalues, and the other cases stated exactly.
* **C76 Assembled vector and matrix are derivatives of the assembled scalar.** `FE/MixinModel`: skills as functions that change vector and matrix, the folds of the mixin, gathering and assembly; skills of the code keep the contract by C47, C67, C69; the mixin by induction; the system by the adjointness of gathering and assembly (C46). The reduced version by the reduced numbering (C02, C05).
* **C77 The flat basis keeps the order of the nested container.** `Utils/FlatBasis*`: trees of bases, multi indices as dune-functions defines them (not part of the repository, modelled from its documentation); position = number of lexicographically smaller multi indices; induction over the tree with the invariant that the multi indices are distinct and none is a prefix of another. Refuted for FlatInterleaved over blocks, proved for all others.
* **C78 The sanity checks of derivatives pass right derivatives and reject wrong ones.** Utils/SanityModel, SanityLemmas, SanityProps: the steps, the loop that moves the point and moves it back, the search for the line segment (the model of C53), the copy for the drawing, the shortcut for small errors and the comparison of the slope, in exact arithmetic, with the QR solver as a least squares solver and the direction as a parameter. Proved: the slope of the found line lies between the exponents of growth of the remainder whatever window is found, hence acceptance and rejection; cubic and quadratic functions as concrete families; for affine functions the exact condition. Refuted: a check that passes means that the derivative is right (the gradient 0.001 of the zero function passes because its errors are below 1e-10; the skew part of a Hessian is never seen). With drawing switched on, the default, the loop that copies the found range writes one entry past the end of two vectors. Errors of which some but not all are exactly zero (logarithm minus infinity) are left unspecified, and round off is not modelled: with round off another window may be found for exact lines.
* **C79 Results are written for the element, component and place they were asked for.** IO/OutputModel, OutputProps: the transformations of the result containers, the lookup of the finite element by the index of the element, the components, the lists of cell and point data of the writer, the chains of comparisons of names in the bindings. The index set of the grid is modelled by what Dune documents: the elements of every geometry type are numbered from zero. Whether addCellData of dune-vtk moves from an rvalue is a parameter. Proved: round trips, entries, own value on grids with one geometry type with the exact condition for a single element, components, places, names. Refuted: own value on mixed grids; the places for rvalues if the base class moves; the places for addInterpolation of the Python module, where `or DataTag.asCellAndPointData` is always true. Not modelled: dune-vtk itself, file formats, vtkcontainertypes.hh.
* **C80 An element wrapped in AutoDiffFE is the same element.** FE/AutoDiffModel, AutoDiffProps: the three functions of the wrapper with their compile time branches, on top of the mixin of C76; the library autodiff is modelled by the exact partial derivatives it is documented to compute, with the Hessian filled from one triangle. Proved: vector, matrix from the vector, matrix from the scalar (which equals the matrix exactly if that is symmetric), when the wrapper does not compile, and that all assembled vectors and matrices stay the same. Refuted: that a vector passed by the user is added to; a derived vector overwrites it. Not modelled: calculateLocalSystem (autodifffe.hh:226-233), which does not compile when it is used because the scalar type of calculateScalarImpl cannot be deduced.
* **C81 A material wrapped in AutoDiffMAT is the same material.** Material/AutoDiffMatModel, AutoDiffMatProps: the three functions with their compile time branches; derivatives by the library autodiff are modelled by exact partial derivatives in Voigt coordinates, the Hessian filled from one triangle. Proved: for every material that keeps the derivative contract (shown for St. Venant-Kirchhoff and Neo-Hooke) the derived stresses are k times, the moduli k or k*k times those of the material, where k is the factor by which the strain of the material grows with the strain passed; so they agree for the strain measure of the material. Refuted: for other measures, because derivativeFactor belongs to the measure of the material; and the parameter voigt is ignored.
* **C82 A node is found by its position.** Utils/NodeSearchModel, NodeSearchProps: the traversal of the Lagrange nodes with its early exit, the callback and the exceptions; the search of an element of dune-grid is modelled as the first element that contains the position. Proved: the traversal visits the nodes in order, the decision (which element, which node, which exception), and that every node of a mesh whose elements meet in common nodes is found whichever element is hit. Refuted: the same for meshes with hanging nodes.
* **C83 The function made from an assembler is what the assembler assembles.** Assembler/FunctionModel, FunctionProps: the three overloads with the pointer handling (reference, pointer, shared pointer as value or moved from), the lambdas, and the results as references into the buffers of the assemblers on a heap. Proved: each call gives the quantity of the assembler and writes only its buffer (call_spec), a reference reads the last value written by any function of the same assembler, kind and option (read_last, induction over the calls), the decision of the overloads (op1_iff, op2_iff, op3_spec), and that the three derivatives are derivatives of each other for Raw, Full and Reduced (function_derivatives). Refuted: that results keep their value (kept_false) and that the overload with an option works for a moved shared pointer (op2_iff).
* **C84 Messages reach the listeners that live and are subscribed, and only these.** Broadcast/LifetimeModel, LifetimeProps: objects at addresses, shared tokens with a count of owners, weak pointers in the broadcasters, callbacks that capture the address of the listener; undefined behaviour is a separate outcome. Proved by refinement: every program without copies and moves of listeners and without kept tokens behaves like an abstract list of subscriptions (messages_reach_listeners_partial). False for copies and moves of listeners (copy_undefined, copyDefined_false), kept tokens (kept_token_undefined) and a second control routine with the same solver (factory_subscribes, once_false).
* **C85 Solving with elements that hold internal variables is Newton's method for all variables.** Solver/ListeningModel, ListeningProps, ListeningIDBCProps: the loop of the solver with residual and Jacobian that read the internal variables, every notification a fold over the subscribed elements, exceptions as an outcome; the mesh of elements with enhanced strains from FE/EASModel with the assembled vector and matrix of DBCOption::Full. Proved: a run is characterised completely by the iterates with internal variables, for any elements (listening_run, by induction over the loop), and for elements with enhanced strains these are Newton iterates of the two field problem of C49 (eas_solver_newton). For linear elements the internal variables have no residual after each iteration (eas_linear_solved). False: success with left over internal variables (eas_leftover, equilibrium_false), inhomogeneous Dirichlet conditions, whose increment the update does not see (idbc_internal, inhomogeneousNewton_false). DBCOption::Reduced always throws (reduced_throws).
* **C86 Materials are constructed in Python with the constants and options they are given.** Python/MaterialModel, MaterialProps: keyword arguments as lists of names and values in the order given, the map of converters with its search, the constructors of the muesli materials with the property map they fill, reductions that ignore tol; pybind11 is reduced to the binding of arguments. Proved: two constants of an isotropic material by name give its Lame constants in any order (py_parameters, with the specification of the conversions of C36), other numbers of names are rejected, muesli constants are passed on. False: the error message names a pair that is rejected (message_not_truthful), the tolerance is ignored (tolerance_not_kept, a strain with stress between the two tolerances), compressible is ignored (compressible_not_used).
* **C87 Strains are converted and materials evaluated in Python for the measure that is named.** Python/MaterialModel, MaterialProps: evaluation in Python by the string of the measure, transformStrain as switch over the measures with undefined behaviour (__builtin_unreachable) as an outcome and binding of positional and keyword arguments to the declared names. Proved: evaluation is that of C++ for the measure named (py_evaluate), positional calls convert as named (py_transformStrain_partial). False: keyword calls exchange source and target (py_transformStrain_keywords, keywords_not_converted); two targets reach undefined behaviour (py_transformStrain_undefined).
* **C88 A Python callback reads and writes the entries of the assembled matrix.** Python/SparseModel, SparseProps: a Python function as a program of reads and writes, SparseMatrixAccessor with getitem and setitem by coeffRef on the storage of SparseModel, the requests of the assembler with such callbacks. Proved: the values seen and written by a callback, and that calls are defined exactly for indices in range (py_matrix_values); for callbacks that use only coupled entries every history of requests is answered by the entries of the dense assembler changed by the callbacks in order (py_sparse_history_partial, py_reading_partial). False: reading an entry outside the pattern inserts it, the next request is undefined (reading_not_harmless).
* **C89 Objects that Python still holds can be used.** Python/AliveModel, AliveProps: Python objects with the references of keep_alive and the C++ pointers that Python does not see; an object lives while a variable or a living object refers to it. Programs are lists of statements. Proved by an invariant over programs: who lives (py_living), destroyed objects do not come back (py_dead_stays_dead), bases exist as long as elements and local views (py_views), all uses are defined if no bound requirement and no patch of a load is deleted (py_use_partial), exact condition for bound assemblers (py_bound_requirement). False: bind does not keep the requirement alive (bound_requirement_not_kept), elements do not keep the patch of a load alive (patch_not_kept).
* **C90 What an assembler sees of changes that are made after it was set up.** Assembler/SeesModel, SeesProps: objects of the caller, requirements with copies, assemblers with reference or own elements, copied Dirichlet values and referenced requirement; the specification looks back through the program for the last insertion, construction and binding. Proved for all programs: assembler_sees, assembler_ignores. False: the documentation says that a reference to the solution vector is stored (solution_not_referenced).
* **C91 Materials of Muesli are functions of the strain.** Material/MuesliModel, MuesliProps: a Muesli material is any triple of functions of properties, committed state and deformation; the wrappers are objects that programs make, copy and evaluate. Refinement to a specification without state, by induction over programs (muesli_finite_history, muesli_small_history); the stretch that Muesli gets instead of the deformation gradient makes no difference (muesli_finite, by a polar decomposition); derivatives along a path of deformations with prescribed right Cauchy-Green tensor (muesli_derivatives); strains arrive exactly if symmetric (muesli_symmetric). False: inverted deformations are rejected (inverted_not_rejected).
* **C92 Path following with elements that hold internal variables.** Solver/PathListeningModel, PathListeningProps, PathListeningEASProps: the solver of Solver/SubsidiaryModel with residual and Jacobian that depend on the internal variables of the elements, and callbacks that change them. Refinement to an inductive relation of iterates by induction over the iterations (path_listening_run); for elements with enhanced strains what a step is, exactly (path_eas_step), and that it is a Newton step for linear laws (path_eas_newton_partial). False in general (pathNewton_false): the load vector is computed at zero displacements with the internal variables of the start.
* **C93 What loggers and writers show of a run.** Control/LoggerModel, LoggerProps: the logger and the writer as machines that read notifications; the notifications of Newton-Raphson are those of C20, those of the solver with subsidiary function and of trust regions are added to their models here, with a proof that the results are the same. Exact logs by induction over the iterations: newton_log, newton_logs (several runs), subsidiary_log, tr_log; from the traces of the control routines load_control_log and path_following_log; files by induction over the events (vtk_files, vtk_file_defined, load_control_files). False parts: tr_log_not_current, pathLogSizes_false, vtkOneField_false.
* **C94 Load control of a linear structure keeps it in equilibrium.** Analysis/Model connects the models of elements (C47, C48, C70), assemblers (C01 ff.), Dirichlet values (C11, C61), Newton-Raphson (C16) and load control (C21) the way the factory does. LinearLemmas: energy, forces and matrix of linear elements assemble to a quadratic function, one Newton iteration with the forces of the prescribed displacements makes the residual of the free dofs zero; LinearProps: linear_load_control by induction over the steps, equilibrium_unique and linear_same_result from strict convexity; UnloadingProps: inverseSolve_solves (the assumed linear solver exists), linear_unloading and the refutation supportsFollow_false.
* **C95 Solvers made by the factory keep working on the assembler and the settings they were made with.** Solver/FactoryModel, FactoryProps: a small store with shared pointer variables, factories and solvers at addresses; references are addresses. Specification by the history of the program (last operation that wrote an address), simulation by induction over programs (run_describes), from which iterate_history and sync_history characterise every iteration exactly; factory_kept_partial for programs that keep variable and factory; refutations temporaryFactory_undefined, destroyedFactory_undefined, reassigned_mixes, reassigned_differ.
* **C96 Success of load control means that every shown state of a nonlinear structure is stationary.** Analysis/NonlinearLemmas, NonlinearProps, TrussSupportProps: elements, assembler, Dirichlet values, Newton-Raphson and load control composed (the model of C94), for energies that need not be quadratic. Spec.Stationary states directional derivatives of the assembled energy on the free degrees of freedom, Spec.OnSupports the prescribed values. nonlinear_load_control_partial: by induction over the load steps every shown state is on its supports, and stationary if its solve iterated, was the first one, or no displacement is prescribed; without an iteration exactly the norm of the force extrapolated from the state before is below the tolerance. Refutation success_not_stationary: a bar of two nodes (truss_support) whose end is moved transversally is accepted without iteration with a free force of 1/2, whatever the tolerance.
* **C97 lambertW0 returns the principal branch of the Lambert function, or rejects its argument.** Utils/LambertModel, LambertLemmas, LambertProps: the function with its comparisons, initial guesses and loop over the reals, with nan and infinities apart. By monotonicity of an auxiliary function a step never passes the solution (step_left, step_right), a lower bound of the derivative of the step gives geometric convergence (iterates_converge) and excludes that two unequal steps are taken for equal (no_early_stop), hence lambertW0_accurate with an explicit factor, valid for all arguments of type double (rate_double), and lambertW0_terminates. lambertW0_domain: the decisions before the loop. Refutation lambertW0_not_rejects (minus infinity). halley_dual: derivatives with dual numbers.
* **C98 Path following of a complete structure shows states in equilibrium, with steps of the size asked for, whether the assembler works Full or Reduced.** Analysis/PathModel, PathLemmas, PathRunLemmas, PathTotalLemmas, PathProps, PathLinearProps, PathExampleProps: run of path following over lists with the sizes they have in the code, faults as outcomes. path_equilibrium_partial and path_step_sizes by an invariant of the iterations (the increments kept by the solver are the distance to the last state shown); path_sizes: which faults are left with Full; path_reduced_idle: with Reduced, load and displacement control cannot iterate; path_arc_start; path_linear_load and path_linear_arc: runs on linear structures in closed form. Refutations reducedAsFull_false and stepsAsAsked_false.
* **C99 Load control of a complete structure with the trust region method ends in states of lower energy, keeps the supports, and means something by success.** Analysis/TrustModel, TrustLemmas, TrustProps, TrustExampleLemmas, TrustExampleProps: the trust region solver on the assembler of a structure, with the truncated conjugate gradients as inner solver, the identity or diagonal preconditioner or any other, and load control on top. trust_solve and trust_load_control_partial compose the theorems about the solver with those about assemblers; supports by the subspace of corrections that vanish at constrained dofs, which the conjugate gradients do not leave. Refutations trust_prescribed_refuted, trust_rand_moves_supports, trust_success_unbalanced with two springs.
* **C100 With small enough load steps load control follows a regular path of equilibrium, each solve converging quadratically.** Analysis/ConvergenceLemmas, ConvergenceProps, TrussPathProps: Spec.RegularAt and Spec.RegularPath state regularity by the assembled forces and stiffness themselves; the error of a step by the mean value theorem along the line to the solution (extrapolated), the rate by induction over the iterations (iterates_converge), one solve by newton_run (solve_converges), load control by induction over the steps (load_control_follows), and its limit (load_control_converges). The bar of C96, refuted there for one step, meets the hypotheses: truss_followed for at least 200 steps with the default settings.
* **C101 The stresses an element reports are those of its state.** FE/ResultModel, ResultLemmas, ResultProps: calculateAtImpl of the five elements with the materials in space, plane strain and plane stress. Forces against Spec.forcesOf, written with the strain operators and the reported stresses only (one theorem per element; for enhanced strains and assumed stresses with the internal variables of C67/C68); push-forward and work by the trace (spatial_reported); full stresses in plane strain (planeStrain_full) and space (solid_full); the choice of the function by its tag (calculateAt_maximal). Refuted: full stresses in plane stress (planeStress_full_false, characterised by planeStress_full_partial), full stresses of assumed stress elements in space (as_solid_full_false), Cauchy stress in plane stress (planeStress_cauchy_false; cauchy_plane gives the factor).
* **C102 The trust region method finds the solution of linear structures.** TrustRegion/ConvergenceLemmas, ConvergenceProps: on a quadratic energy with bounds of the spectrum the conjugate gradients decrease the energy at least as the Cauchy point (tcg_cauchy, tcg_decrease), the model is exact, steps are accepted, the radius grows or each step lowers the energy by a fixed amount, and steps inside the region reduce the gradient by kappa (tr_converges without bound of the radius, tr_converges_capped with). Analysis/TrustLinearLemmas, TrustConvergenceProps: linear structures, Full and Reduced, are such problems (trust_quadratic); trust_linear_solve, trust_linear_load_control; the bounds exist (stiffness_bounds from the supports, identity_bounds, diagonal_bounds, enough_iterations). Refuted without the condition corr_tol^2 <= mu Delta0^2: trust_boundary_success.
* **C103 Inner forces are self-equilibrated; the forces at the supports carry the loads.** FE/BalanceLemmas, FE/BalanceProps: rigid virtual motions as specification (Spec.rigid, Spec.InBalance; balance_iff: resultant and moments); strain operators map them to zero (Green-Lagrange and linear strains by symmetry of stress, membrane and bending strains), so linear_balance, nonlinear_balance, membrane_balance, shell_balance, truss_balance, displacementPressure_balance, assumedStress_balance, additive_balance, transposed_balance; displacementGradient_balance with h4_complete, h9_complete. Analysis/ReactionProps: the loads' work (volumeLoad_carries, traction_carries, mixin_carries), support_work by the adjointness of gathering and assembly, support_forces and support_resultant in stationary states, load_control_reactions for what load control shows.
* **C104 Patch test: homogeneous deformations are reproduced exactly by meshes of distorted elements.** FE/PatchProps: Spec.affine, Spec.uniformForces (stress times integrated gradient); linear_patch, nonlinear_patch, displacementPressure_patch, additive_patch, displacementGradient_patch, transposed_patch, assumedStress_patch for elements of any shape; integralGradient_quad: on quadrilaterals the integrated gradient is the normal of the line between the neighbouring corners; quad_meanFree: the modes integrate to zero. Analysis/PatchMeshProps: Spec.DivergenceFree and patch_equilibrium for any elements; mesh_divergenceFree from the connectivity (each edge at a node belongs to two elements); mesh_patch, mesh_linear_patch, mesh_nonlinear_patch, mesh_enhanced_patch; mesh_load_control by uniqueness of linear equilibrium. Example: three distorted quadrilaterals around a node with the Gauss rule, all steps shown.
* **C105 Arc length follows regular equilibrium paths of nonlinear structures, past limit points.** Analysis/ArcAbstractLemmas: quadratic contraction of the bordered Newton step in the sum of residual and constraint, in normed spaces. ArcLemmas, ArcSolveLemmas, ArcRunLemmas: one iteration of the model is that step; induction over iterations and steps. ArcProps: arc_step (one solve from any good prediction), arc_follows (the whole run), arc_horizontal (increment of the load factor zero: not finite), Spec.ArcStepSucceeds. ArcExampleProps: a truss arch; arch_followed (whole run), arch_crosses (a step over the limit point; stiffness positive before, negative after), arc_step_not_succeeds (two states with the same load factor around the limit point).
* **C106 Near the undeformed state every material is linear elastic with the moduli its parameters stand for.** Material/FactoryModel: the functions of factory.hh. UndeformedProps: Spec.LinearElasticAt; hyperelastic_linear reduces a material to values of its deviatoric and volumetric functions at principal stretches one; then one theorem per material (neoHooke_linear, svk_linear, blatzKo_linear, ogdenDev_linear, ogdenTotal_linear, gent_linear, arrudaBoyce_linear, invariantBased_linear, mooneyRivlin_linear, yeoh_linear, pureVolumetric_linear). bulkModulus_partial: for which volumetric functions the parameter is the bulk modulus, exactly.
* **C107 Under small loads a nonlinear structure answers like the linear one, up to an error of second order.** LocalPathProps: regular_path_through, existence and uniqueness of the path by Newton's method around the known state. SmoothProps: smooth_regular, a structure of smooth elements is regular near a state with regular stiffness. SmallLoadProps: small_loads, the nonlinear path compared with the linear structure that has the same forces and stiffness at rest. SmoothSkillProps: which skills are smooth (linearElastic, volume load, traction, nonLinearElastic with any smooth law and smooth strains, Green-Lagrange strains of solids), and that the linear element is the linearisation of the nonlinear one. SmallSolidProps: small_solids, the statement for solids, with a mesh of three quadrilaterals as example.
* **C108 The materials of the library fit the solid elements: consistent forces and tangents, and the linear solution for small loads.** FE/MaterialLawModel: spaceLaw, planeStrainLaw, planeStressLaw, the law an element sees of a material. MaterialLawProps: space_contract and planeStrain_contract for any material that keeps its own contract, svk_elements and neoHooke_elements, planeStress_contract_false (the reduction leaves small strains alone, so the stress jumps where the fixed stress reaches the tolerance). MaterialSolidProps: materials_at_rest (smoothness, no stress and the matrix of linear elasticity at rest) and small_material_solids, with a mesh of three quadrilaterals of Neo-Hooke material.
* **C109 Hyperelastic materials: stresses and moduli are derivatives along every motion, and elements with them are consistent.** Material/SmoothInvariantLemmas: power sums of the principal stretches are smooth functions of the tensor (binomial series in a normed algebra). AnyPathLemmas: a linear function of the rate that vanishes on paths with differentiable spectral decomposition vanishes on all symmetric rates. HyperelasticPathProps: library_smooth, hyperelastic_stress_any_motion, hyperelastic_stress_differentiable, hyperelastic_moduli_any_motion, hyperelastic_moduli_within_tolerance (the full claim is false). FE/HyperelasticLawProps: hyperelastic_elements.
* **C110 Fixing the dofs of the boundary constrains exactly those dofs of the boundary that the callback chooses.** Model the loops over elements, boundary intersections and shape functions with the state of the flags, the choice of the form of the callback in C++ and in Python (Dirichlet/BoundaryModel). Prove that the loops are one loop over the places on the boundary, and from that which dofs are constrained afterwards, by induction; prove that other flags are untouched by any callback, that order is irrelevant, and that Python does the same. The last part is false for callables that can be called in several forms: C++ takes the first that fits, Python the one with the number of parameters, those with defaults counted.
* **C111 Interpolated fields are written with the components of the basis.** Model the type functions as functions on trees (IO/ContainerModel). Specify when a container holds a basis by an inductive relation. Prove when whole bases, parts of composites and parts of powers are held, and that the declared number of components is right then. The full claim is false: composites with unlike parts, and parts that are named by two or more indices.
* **C112 A decomposed hyperelastic material is its two parts together.** Model the split (Material/DecomposeModel). Prove the equations with failure included, for the material and for reductions by vanishing strains (linear in the law). For plane stress each part has its own thickness strain: refute the sum for every correct solver at a concrete strain, and prove it where one thickness strain fits both.
* **C113 Elements with internal variables work with the number, place and values their user sees.** State machine of the element with exceptions as outcomes that leave a state (FE/LifecycleModel). Refinement of an abstract element by induction over all sequences of calls, as long as no binding is rejected; invariants that hold after rejected calls too (sizes, supported elements, recovery by the next binding); which calls are accepted. Negations with concrete sequences for what rejected calls leave behind and for strains kept by resize.
* **C114 Turning a structure turns its answer.** Specification of turned meshes and turned deformed shapes independent of the elements (FE/TurnLemmas). Strains, their derivatives and laws turn by the transformation matrix of Voigt vectors; elements, loads, trusses, membranes and shells as lists of points of any length; materials from the energy or from the isotropy of the three-dimensional material. Assembly by sums over the degrees of freedom of nodes (Analysis/TurnSystemProps), then equilibrium, corrections and load control. Negation for linear elements under superposed rotations.
* **C115 Internal variables do not feel the orientation of an element.** Specification of turned integration points with modes (TurnedEAS, TurnedAS, TurnedDP) on top of C114. Sums over lists of points of any length give turned D, L, residuals and condensed matrices (FE/TurnEASProps, FE/TurnMixedProps); modes from the product rule of the transformation matrices. Quadrilaterals with any corners and rule as instances (FE/TurnQuadProps). Negation for the displacement gradient when only the shape is turned.
* **C116 Materials that are special cases of each other agree.** A deviatoric function is determined by its energy: gradients and Hessians (C40) are unique, so materials with equal energies at positive stretches answer alike through the principal basis (C42). Energies compared by power laws of the stretches. Neo-Hooke stresses by the spectral form of the inverse, moduli as derivatives along lines of tensors. Limits of all three functions in the parameter, carried through the interface by continuity. Eight chain: power series of sinh and cosh, remainder O(x^11). Material/EightChainProps, Material/SpecialCasesProps.
* **C117 Answers do not depend on the units of length and force.** Relations between skills, laws, materials, systems and analyses in two systems of units; homogeneity of every quantity by structural induction (elements, assembler loops with undefined outcomes included), Newton iterates by induction with unique corrections, load control as in C114. Refutations: one plane stress material whose reduction stops in one unit and not in the other; a spring with one step of arc length. FE/UnitsProps, FE/UnitsMaterialProps, Analysis/UnitsProps, Analysis/UnitsPathProps, Analysis/UnitsArcProps.
* **C118 Linear structures superpose, are reciprocal, and get stiffer with supports, elements and material.** Elements with stiffness and two sets of loads; the assembled systems of the load cases share one matrix and their forces add (by induction over elements and skills, the forces read off from energies). Equilibrium as least energy; superposition by residuals and uniqueness; reciprocity by symmetry; stiffness by comparing the least energies. Proportionality from energies that are homogeneous of degree two in load factor and displacements. Analysis/SuperpositionProps, Analysis/SuperpositionRunProps, Analysis/ProportionalProps.
* **C119 Answers do not depend on the numbering of the dofs nor on the order of the elements.** Renumbered lists, matrices, flags and elements; the indices an element collects commute with the renumbering (mutual induction over the tree of the basis), the local solution is unchanged, the assembled sums are re-keyed. Newton's method and load control by induction over iterations and steps. Analysis/RenumberProps, Analysis/RenumberPathProps.
* **C120 Symmetric structures deform symmetrically.** A symmetry of the structure is one turning of the space of all dofs, so C114 with the structure as its own image and C119 for the exchanged elements give that runs from images are images; a run is a function of its start, so a symmetric start gives symmetric states (induction over iterations and steps). Linear structures: the equilibrium is unique. Analysis/SymmetryProps.
* **C121 Numbers that Python and C++ share through Scalar and ScalarRef.** A small language of Python statements over a heap of numbers. Expressions by structural induction; programs by induction with invariants: who refers to a number (copies), and that the energy is the only number a ScalarRef refers to (callbacks). Refutations: `lam += 1.0` raises a TypeError; an energy of zero stays zero under every callback, since ScalarRef offers no way to add a number that is not a multiple of it. Python/ScalarModel, Python/ScalarProps.
* **C122 An assembler in Python does what the same calls do in C++, and its results stay.** The overloads as decisions over argument lists; an inductive predicate of accepted calls as specification; histories as refinement to the binding protocol of C09 by induction over programs. Refutation: C++ lets the option be left out, in Python bind(req, affordances), matrix(req, affordance) and vector(req, affordance) raise a TypeError, because a default argument of a lambda is not known to pybind11. Python/AssemblerModel, Python/AssemblerProps.
* **C123 Path following does not depend on the position, the numbering or the linear solver, and keeps symmetry.** One simulation for all four: an abstract correspondence of displacement vectors that is one-to-one, linear and keeps scalar products (turning of all nodes, renumbering, image under a symmetry, identity). Every operation of the run is shown to take corresponding arguments to corresponding results and to fail alike, by induction over iterations and steps. Singular matrices are excluded by running with linear solvers that give up at singular matrices; path_regular shows that this is no restriction where all matrices are regular. Analysis/PathTurnLemmas, Analysis/PathTurnProps.
* **C124 Results do not depend on the order of elements, of nodes within elements and of integration points.** Each skill is shown to give the relabelled energy, vector and matrix for relabelled nodes and a permuted list of relabelled integration points (green_relabel, linear_relabel, quad_relabel, ... in FE/RelabelProps). Summing blocks over relabelled dofs gives the same entries, so every assembled quantity is equal (reordered_system), also when it is undefined. The analyses use the elements only through these quantities, so their results are equal; induction over iterations and steps for path following. Enhanced strains: the internal variables of the two elements are related by a signed permutation, which cancels in the condensation (eas_relabel, modes_symmetric in FE/RelabelEASProps). Analysis/ReorderLemmas, Analysis/ReorderProps.
