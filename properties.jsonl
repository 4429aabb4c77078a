{"id": "C01", "title": "Raw vector assembly is the sum of all element contributions", "statement": "The vector an assembler returns for DBCOption::Raw has size() entries and entry i is exactly the sum of the local entries of every element whose global index is i; entries no element touches are 0, and the result does not depend on the order of the elements in the container.", "quantifier": "all dof counts, element containers, connectivities (including repeated indices inside one element) and element vectors", "why_tests_cant": "the connectivity space is unbounded; tests check a handful of grids and one element ordering", "anchors": ["ikarus/assembler/simpleassemblers.inl: VectorFlatAssembler::assembleRawVectorImpl, getRawVectorImpl"]}
{"id": "C02", "title": "Full and Reduced vectors are views of the Raw vector", "statement": "vector(Full) equals vector(Raw) with the constrained entries replaced by 0; vector(Reduced) has reducedSize() entries and its k-th entry is the Raw entry of the k-th unconstrained dof; hence vector(Reduced) = createReducedVector(vector(Raw)) and createFullVector(vector(Reduced)) = vector(Full).", "quantifier": "all dof counts, constraint patterns, element containers and element vectors", "why_tests_cant": "the reduced assembly is a separate code path; agreement must hold for every constraint pattern (2^n of them) and connectivity", "anchors": ["ikarus/assembler/simpleassemblers.inl: getVectorImpl, getReducedVectorImpl, createFullVector, createReducedVector"]}
{"id": "C03", "title": "createFullVector and createReducedVector are mutually inverse on the free dofs", "statement": "createReducedVector(createFullVector(r)) = r for each r of reducedSize(); createFullVector(createReducedVector(v)) = v exactly when v vanishes at the constrained dofs; both conversions preserve the order of the free dofs and createFullVector writes 0 at constrained dofs.", "quantifier": "all constraint patterns and vectors", "why_tests_cant": "all 2^n constraint patterns, any n", "anchors": ["ikarus/assembler/simpleassemblers.inl: createFullVector, createReducedVector"]}
{"id": "C04", "title": "Reduced numbering is an order preserving bijection", "statement": "constraintsBelow(i) is the number of constrained dofs with index below i, reducedSize() is the number of free dofs, and i - constraintsBelow(i) maps the free dofs bijectively and in increasing order onto 0..reducedSize()-1; no subtraction underflows.", "quantifier": "all constraint patterns", "why_tests_cant": "all 2^n constraint patterns, any n; a wrong numbering corrupts memory", "anchors": ["ikarus/assembler/interface.hh: FlatAssemblerBase ctor, constraintsBelow, reducedSize"]}
{"id": "C05", "title": "Dense matrix: Raw, Full and Reduced are consistent", "statement": "matrix(Raw)(r,c) is the sum of all element entries whose global row and column indices are r and c; matrix(Full) is Raw with constrained rows and columns replaced by those of the identity; matrix(Reduced) is the principal submatrix of Raw on the free dofs in order; symmetric element matrices give symmetric global matrices for each option.", "quantifier": "all dof counts, constraint patterns, connectivities and element matrices", "why_tests_cant": "separate code paths, unbounded connectivities", "anchors": ["ikarus/assembler/simpleassemblers.inl: DenseFlatAssembler::assembleRawMatrixImpl, getMatrixImpl, getReducedMatrixImpl"]}
{"id": "C06", "title": "Enforcing boundary conditions by Full or by Reduced gives the same solution", "statement": "A vector x solves matrix(Full) x = vector(Full) if and only if x = createFullVector(y) for a y that solves matrix(Reduced) y = vector(Reduced).", "quantifier": "all constraint patterns, connectivities, element matrices and vectors", "why_tests_cant": "equivalence of two linear systems for all inputs", "anchors": ["ikarus/assembler/simpleassemblers.inl: getMatrixImpl, getReducedMatrixImpl, getVectorImpl, getReducedVectorImpl, createFullVector"]}
{"id": "C07", "title": "Sparse and dense assembler agree for every history of matrix requests", "statement": "If every constrained dof belongs to at least one element, the k-th matrix returned by a sparse assembler equals the one of a dense assembler with the same elements, for any sequence of Raw/Full/Reduced requests with element matrices changing between requests. (Without that condition the second Full request reads a matrix whose sparsity structure was changed after its index cache was built.)", "quantifier": "all request histories, connectivities, constraint patterns and element matrices", "why_tests_cant": "the index caches and lazily built patterns make the result depend on the request history", "anchors": ["ikarus/assembler/simpleassemblers.inl: SparseFlatAssembler::*", "ikarus/utils/eigensparseaddon.hh: getLinearIndex"]}
{"id": "C08", "title": "Scalar assembly is additive and order independent", "statement": "scalar() is the sum of the element scalars, starts from 0 for each request, and is invariant under permutations of the element container.", "quantifier": "all element containers", "why_tests_cant": "all permutations and sizes", "anchors": ["ikarus/assembler/simpleassemblers.inl: ScalarFlatAssembler::getScalarImpl"]}
{"id": "C09", "title": "Binding protocol of the assemblers", "statement": "After any history of bind calls, requirement()/affordanceCollection()/dBCOption() return the last bound value of that kind and throw InvalidStateException iff none was bound; bound() returns true iff all three are bound and throws otherwise (it never returns false); the three argument bind without option binds Full; the argument free scalar()/vector()/matrix() evaluate with the last bound values and throw iff something they need is missing.", "quantifier": "all histories of the bind overloads and queries", "why_tests_cant": "histories are unbounded", "anchors": ["ikarus/assembler/interface.hh: bind, bound, requirement, affordanceCollection, dBCOption, scalar, vector, matrix"]}
{"id": "C10", "title": "Assembler manipulators apply every bound callback once, in bind order, for every request kind", "statement": "For a manipulator, each scalar/vector/matrix request returns the base assembler's fresh result transformed by all callbacks bound so far of that kind, in bind order, each applied exactly once; results of previous requests do not accumulate.", "quantifier": "all histories of binding callbacks and requests", "why_tests_cant": "histories are unbounded", "anchors": ["ikarus/assembler/assemblermanipulatorbuildingblocks.hh", "ikarus/assembler/assemblermanipulatorfuser.hh"]}
{"id": "C11", "title": "Dirichlet flags reflect exactly the last write to each dof", "statement": "After any history of setSingleDOF, callbacks of fixDOFs/fixBoundaryDOFs, reset and storeInhomogeneousBoundaryCondition, isConstrained(i) is the last flag written to i (false initially and after reset), fixedDOFsize() counts the true flags, and setZeroAtConstrainedDofs zeroes exactly the flagged entries.", "quantifier": "all histories of operations", "why_tests_cant": "histories are unbounded", "anchors": ["ikarus/utils/dirichletvalues.hh: DirichletValues"]}
{"id": "C12", "title": "Copies of DirichletValues are independent", "statement": "Writing flags through a copy of a DirichletValues object never changes the original, and reading the copy by index or by multi index gives the same answer. (False of the code: the copied flag backend still refers to the original's flags.)", "quantifier": "all histories over two copies", "why_tests_cant": "needs histories interleaving original and copy; tests never write to a copy through a multi index", "anchors": ["ikarus/utils/dirichletvalues.hh: dirichletFlagsBackend_, setSingleDOF, isConstrained"]}
{"id": "C13", "title": "Inhomogeneous boundary values superpose", "statement": "evaluateInhomogeneousBoundaryCondition(lambda) returns the sum over all stored functions of their interpolation, in any storing order; a stored function only adds constraints, on every dof where the summed value at the given lambda is nonzero; the stored derivative functions are usable as long as the stored callable is alive (a temporary callable leaves a dangling reference).", "quantifier": "all histories of stored functions, all load factors", "why_tests_cant": "histories are unbounded, lifetime errors are not observable by value tests", "anchors": ["ikarus/utils/dirichletvalues.hh: storeInhomogeneousBoundaryCondition, evaluateInhomogeneousBoundaryCondition, evaluateInhomogeneousBoundaryConditionDerivative, setInhomogeneousBoundaryConditionFlag"]}
{"id": "C14", "title": "Broadcast delivery", "statement": "A notification calls each registered callback whose token is still owned exactly once, in registration order, and calls no callback whose token was dropped before; dead registrations are removed and never revive.", "quantifier": "all histories of register, token drop, and notify", "why_tests_cant": "histories are unbounded; lifetime dependent", "anchors": ["ikarus/utils/broadcaster/broadcaster.hh: Broadcaster"]}
{"id": "C15", "title": "Unregistering stops delivery", "statement": "After unregisterListener(token) or Listener::unSubscribe(token) the callback is not invoked by later notifications. (False of the code: unregisterListener only resets its by-value copy of the token; unSubscribe is effective only if the caller keeps no copy of the token.)", "quantifier": "all histories", "why_tests_cant": "existing tests do not unregister through the broadcaster", "anchors": ["ikarus/utils/broadcaster/broadcaster.hh: unregisterListener", "ikarus/utils/listener/listener.hh: Listener::subscribe, unSubscribe, unSubscribeAll, unSubscribeLast"]}
{"id": "C16", "title": "Newton-Raphson terminates and its success flag is meaningful", "statement": "solve always terminates after at most max(maxIter, minIter) iterations and at least minIter; if it reports success then the last residual norm does not exceed tol and fewer than maxIter iterations were made; if it reports failure exactly maxIter iterations were made. (For residual norms that are not NaN.)", "quantifier": "all residual functions, linear solvers, update functions, start values and settings", "why_tests_cant": "termination and implication over all residual functions", "anchors": ["ikarus/solver/nonlinearsolver/newtonraphson.hh: NewtonRaphson::solve, setup"]}
{"id": "C17", "title": "Newton-Raphson never reports success for a NaN residual", "statement": "If the residual norm becomes NaN, solve does not report success. (False of the code: a NaN norm fails the comparison rNorm > tol, ends the loop and leaves success = true; likewise iterations that converge exactly in iteration maxIter are reported as failure.)", "quantifier": "all residual functions", "why_tests_cant": "tests use well behaved problems", "anchors": ["ikarus/solver/nonlinearsolver/newtonraphson.hh: NewtonRaphson::solve"]}
{"id": "C18", "title": "Newton-Raphson message protocol", "statement": "Every run notifies INIT once, then per iteration ITERATION_STARTED, CORRECTION_UPDATED, CORRECTIONNORM_UPDATED, SOLUTION_CHANGED, RESIDUALNORM_UPDATED, ITERATION_ENDED in this order, and FINISHED_SUCESSFULLY as last message iff the returned information reports success; the number of ITERATION_STARTED equals the reported iterations.", "quantifier": "all problems and settings", "why_tests_cant": "trace property over all runs", "anchors": ["ikarus/solver/nonlinearsolver/newtonraphson.hh: NewtonRaphson::solve"]}
{"id": "C19", "title": "Newton-Raphson solves affine problems in one iteration", "statement": "For an affine residual R(x)=K x - f with an exact linear solver and additive update, solve makes at most max(1,minIter) iterations, and for minIter = 0 < 1 < maxIter, reports success with a residual of exactly zero norm after its single correction (or no correction if the start residual is within tol).", "quantifier": "all matrices, right hand sides, start vectors, tolerances", "why_tests_cant": "all dimensions and values", "anchors": ["ikarus/solver/nonlinearsolver/newtonraphson.hh: NewtonRaphson::solve", "ikarus/utils/defaultfunctions.hh: UpdateDefault"]}
{"id": "C20", "title": "Newton-Raphson with subsidiary function solves the bordered linear system", "statement": "In each iteration the increments deltaD and deltalambda satisfy K deltaD - Fext0 deltalambda = -R and dfdDD . deltaD + dfdDlambda deltalambda = -f whenever the scalar denominator is nonzero; the accumulated DD and Dlambda equal the total change of the solution and load factor since the last prediction; success implies final combined norm <= tol and < maxIter iterations.", "quantifier": "all residuals, constraint functions, states", "why_tests_cant": "algebraic identity for all inputs, plus termination", "anchors": ["ikarus/solver/nonlinearsolver/newtonraphsonwithscalarsubsidiaryfunction.hh: NewtonRaphsonWithSubsidiaryFunction::solve"]}
{"id": "C21", "title": "Load control visits exactly the prescribed load factors", "statement": "LoadControl::run with n steps on [b,e] calls the nonlinear solver at most n+1 times; before the k-th solve (k=0..n) the load factor has been increased by k*(e-b)/n from its value on entry, so a run started at b and successful ends at e; the constructor rejects non positive step counts.", "quantifier": "all step counts, ranges, solver behaviours", "why_tests_cant": "all step counts and failure points", "anchors": ["ikarus/controlroutines/loadcontrol.hh: LoadControl ctor", "ikarus/controlroutines/loadcontrol.inl: run, predictor"]}
{"id": "C22", "title": "Load control reports success iff all solves succeed and stops at the first failure", "statement": "The returned information has success = true iff each of the n+1 solves succeeded; it contains the solver information of precisely the solves made, in order; totalIterations is the sum of their iteration counts; no solve happens after a failed one; SOLUTION_CHANGED and STEP_ENDED are sent for each solve, CONTROL_STARTED exactly once at first, CONTROL_ENDED exactly once at last iff successful.", "quantifier": "all solver behaviours (any sequence of successes and failures)", "why_tests_cant": "all failure points, any step count", "anchors": ["ikarus/controlroutines/loadcontrol.inl: run", "ikarus/controlroutines/loadcontrol.hh: updateAndNotifyControlInfo"]}
{"id": "C23", "title": "Path following performs the requested number of steps and stops at the first failure", "statement": "PathFollowing::run makes at most steps+1 solves, stops at the first failed one, passes current step numbers 0,1,..,steps-1 to the predictor, uses initialPrediction once and intermediatePrediction for all later steps, and reports success iff all solves succeed, with infos and total iterations of exactly the performed solves.", "quantifier": "all solver, predictor and step size behaviours", "why_tests_cant": "all failure points, any step count", "anchors": ["ikarus/controlroutines/pathfollowing.hh: PathFollowing ctor", "ikarus/controlroutines/pathfollowing.inl: run"]}
{"id": "C24", "title": "Iteration based step sizing only shrinks the step and never to zero or below", "statement": "After any number of steps the step size is unchanged on step 0, is multiplied by sqrt(target/previous) <= 1 when more than target iterations were used and unchanged otherwise; a positive step size remains positive; a zero target is always rejected by an exception.", "quantifier": "all histories of iteration counts", "why_tests_cant": "histories are unbounded", "anchors": ["ikarus/controlroutines/adaptivestepsizing.hh: IterationBased, NoOp"]}
{"id": "C25", "title": "Arc-length predictor and constraint are consistent", "statement": "The initial arc-length prediction satisfies the arc-length constraint exactly (f = 0), scales linearly with the step size, and the derivatives of each subsidiary function (arc-length, load control, displacement control) reported to the solver are the derivatives of its value f.", "quantifier": "all increments, load factors, step sizes", "why_tests_cant": "real valued identities", "anchors": ["ikarus/controlroutines/pathfollowingfunctions.hh: ArcLength, LoadControlSubsidiaryFunction, DisplacementControl"]}
{"id": "C26", "title": "A path-following object can be reused", "statement": "Running the same path-following strategy object a second time behaves like a fresh one. (False of the code: the arc-length function keeps psi and its computed initial predictor flag between runs.)", "quantifier": "all pairs of runs", "why_tests_cant": "tests construct a new object per run", "anchors": ["ikarus/controlroutines/pathfollowingfunctions.hh: ArcLength::initialPrediction, operator()"]}
{"id": "C27", "title": "Trust region: accepted steps do not increase the energy, rejected steps change nothing", "statement": "In every iteration either the proposal is accepted and the new energy exceeds the old one by at most the regularisation allowance (none at all for a non positive regularised ratio), or the iterate, energy and gradient after the iteration are those before it.", "quantifier": "all energies, sub-solver results, radii, settings", "why_tests_cant": "all runs", "anchors": ["ikarus/solver/nonlinearsolver/trustregion.hh: TrustRegion::solve, calculateNewSolution"]}
{"id": "C28", "title": "Trust region: radius, termination and meaning of success", "statement": "In each iteration the radius is kept, quartered, or multiplied by 3.5 up to its cap; after a rejected step it is additionally reduced to at most half the length of the step, or halved from the sixth rejection in a row on. The radius stays non-negative (positive until the run stops) and below its cap. A run makes at most maxIter iterations; success is reported iff at least one iteration was made and the gradient norm or the norm of the last correction is below its tolerance, which includes corrections that were rejected. The factorisation of the preconditioner is repeated at most six times with larger shifts.", "quantifier": "all problems, inner solvers, settings and iteration counts", "why_tests_cant": "all runs of the loop", "anchors": ["ikarus/solver/nonlinearsolver/trustregion.hh: TrustRegion::solve, stoppingCriterion"]}
{"id": "C29", "title": "Truncated conjugate gradient stays in the trust region and decreases the model", "statement": "Started from zero, every iterate of the truncated CG sub-solver has preconditioner norm at most the radius, its norm grows monotonically and the quadratic model value never increases; on negative curvature or boundary exit the returned point lies exactly on the boundary.", "quantifier": "all symmetric matrices, right hand sides, radii, iteration counts", "why_tests_cant": "all matrices", "anchors": ["ikarus/linearalgebra/truncatedconjugategradient.hh: truncated_conjugate_gradient"]}
{"id": "C30", "title": "Voigt notation round trips and energy conjugacy", "statement": "fromVoigt(toVoigt(A, s), s) = A for each symmetric 1x1, 2x2, 3x3 matrix and both strain and stress flags, toVoigt(fromVoigt(v, s), s) = v for each Voigt vector; the Voigt dot product of a stress and a strain equals the full double contraction; index maps are mutually inverse and symmetric.", "quantifier": "all matrices and vectors", "why_tests_cant": "all values", "anchors": ["ikarus/utils/tensorutils.hh: toVoigt, fromVoigt"]}
{"id": "C31", "title": "Fourth order tensors: Voigt map, symmetrisation and identities act as documented", "statement": "symmetricIdentityFourthOrder maps A to its symmetric part, identityFourthOrder maps A to trace(A) I, symTwoSlots symmetrises the chosen slots, toVoigt of a tensor with minor symmetries contracts with strain Voigt vectors to the Voigt form of the full contraction. fromVoigt of a 6x6 matrix defines all 81 entries (False of the code: entries with i>j or k>l are left unwritten).", "quantifier": "all tensors", "why_tests_cant": "all values, uninitialised reads are invisible to value tests", "anchors": ["ikarus/utils/tensorutils.hh: symmetricIdentityFourthOrder, identityFourthOrder, fourthOrderIKJL, symTwoSlots, toVoigt(tensor), fromVoigt(matrix)"]}
{"id": "C32", "title": "Static condensation is the Schur complement", "statement": "staticCondensation(E, idx) maps the retained strains to the retained stresses when the stress of the condensed components vanishes: for every vector e with (E e) zero on idx, the retained part of E e equals the condensed matrix times the retained part of e; symmetric input gives symmetric output.", "quantifier": "all matrices with invertible condensed block, all sorted index sets", "why_tests_cant": "all matrices and index sets", "anchors": ["ikarus/utils/linearalgebrahelper.hh: staticCondensation, reduceMatrix, removeCol"]}
{"id": "C33", "title": "Column orthonormalisation", "statement": "orthonormalizeMatrixColumns returns a matrix with orthonormal columns spanning the same space as the linearly independent input columns.", "quantifier": "all matrices with independent columns", "why_tests_cant": "all matrices", "anchors": ["ikarus/utils/linearalgebrahelper.hh: orthonormalizeMatrixColumns"]}
{"id": "C34", "title": "Reduced strain vectors: enlarge and remove are inverse", "statement": "removeCol(enlargeIfReduced(v)) = v for each reduced strain vector and fixed index set, the enlarged vector is zero at all fixed Voigt indices, and free and fixed Voigt index lists partition 0..5.", "quantifier": "all fixed index sets and vectors", "why_tests_cant": "all index sets, orders and duplicates", "anchors": ["ikarus/utils/linearalgebrahelper.hh: enlargeIfReduced, removeCol", "ikarus/finiteelements/mechanics/materials/materialhelpers.hh: createfreeVoigtIndices, createFixedVoigtIndices"]}
{"id": "C35", "title": "Strain transformation matrix is the Voigt form of a congruence", "statement": "For every Jacobian J, transformationMatrix times the Voigt vector of a strain E is the Voigt vector of the congruence of E with J (2D and 3D), so it is multiplicative and invertible iff J is.", "quantifier": "all Jacobians and strains", "why_tests_cant": "all values", "anchors": ["ikarus/utils/tensorutils.hh: transformationMatrix"]}
{"id": "C36", "title": "Lame constant conversions are mutually consistent", "statement": "For every isotropic material (E, nu) with E > 0, -1 < nu < 1/2, each of the six supported parameter pairs derived from it converts to every other constant with the same value as directly from (E, nu); conversions round-trip.", "quantifier": "all admissible parameters, all pairs of conversions", "why_tests_cant": "all real parameters", "anchors": ["ikarus/finiteelements/physicshelper.hh: ConvertLameConstants"]}
{"id": "C37", "title": "Strain and stress measure conversions commute", "statement": "transformStrain along any path of the strain measures gives the same result as the direct conversion; E -> C -> E, C -> F -> C round trip; PK2, PK1, Kirchhoff, Cauchy conversions satisfy P = F S, tau = F S F^T, sigma = tau/J and are mutually inverse for invertible F.", "quantifier": "all deformation gradients and tensors", "why_tests_cant": "all values", "anchors": ["ikarus/finiteelements/mechanics/materials/strainconversions.hh", "ikarus/finiteelements/mechanics/materials/stressconversions.hh"]}
{"id": "C38", "title": "St. Venant-Kirchhoff: energy, stress and moduli are consistent on all input/output notations", "statement": "The four stress paths (matrix/Voigt input, matrix/Voigt output) agree; stress is the derivative of the stored energy, moduli the derivative of the stress; W = 1/2 S:E; the Voigt moduli are symmetric and positive definite for mu > 0, 3 lambda + 2 mu > 0; materialInversion inverts stresses.", "quantifier": "all strains and parameters", "why_tests_cant": "all values", "anchors": ["ikarus/finiteelements/mechanics/materials/svk.hh: StVenantKirchhoffT"]}
{"id": "C39", "title": "Volumetric functions: derivatives, normalisation and stress free reference", "statement": "For each volumetric function VF0..VF12 and J > 0, firstDerivative is the derivative of storedEnergy and secondDerivative of firstDerivative; each has zero energy and zero first derivative at J = 1. (False of the code for the energy of VF10, offset 2/(beta-1), and for the slope of VF12, which is 1.)", "quantifier": "all J > 0, all admissible beta", "why_tests_cant": "all real J", "anchors": ["ikarus/finiteelements/mechanics/materials/hyperelastic/volumetric/volumetricfunctions.hh: VF0..VF12"]}
{"id": "C40", "title": "Deviatoric functions: stretch derivatives are exact", "statement": "For Ogden (total and deviatoric stretches), Blatz-Ko, Gent, Arruda-Boyce and invariant based materials and all positive principal stretches, firstDerivative is the gradient of storedEnergy and secondDerivative the Hessian minus the diagonal term W_i/lambda_i; stresses vanish in the undeformed state. Evaluation is defined for any number of Ogden parameters (False of the code: more than 3 parameters index out of bounds in the deviatoric second derivative).", "quantifier": "all positive stretches, all parameters, all parameter counts", "why_tests_cant": "all real stretches, all n", "anchors": ["ikarus/finiteelements/mechanics/materials/hyperelastic/deviatoric/*.hh"]}
{"id": "C41", "title": "Neo-Hooke: stress is the derivative of the energy and the closed form inversion is exact", "statement": "The PK2 stress is twice the derivative of the energy with respect to C in every direction, and materialInversion(S) returns a C whose stress is S whenever the Lambert function value used satisfies its defining equation.", "quantifier": "all positive definite C, all parameters, all admissible S", "why_tests_cant": "all values", "anchors": ["ikarus/finiteelements/mechanics/materials/hyperelastic/neohooke.hh: NeoHookeT"]}
{"id": "C42", "title": "Vanishing stress / vanishing strain wrappers", "statement": "Vanishing strain evaluates the underlying law at the strain with the fixed components zeroed; vanishing stress on success returns a state whose fixed diagonal stresses are within tol and otherwise throws; for a linear law one Newton step suffices and the condensed moduli are the derivative of the condensed stress.", "quantifier": "all underlying laws, strains, fixed index sets", "why_tests_cant": "all laws and strains", "anchors": ["ikarus/finiteelements/mechanics/materials/vanishingstress.hh: VanishingStress", "ikarus/finiteelements/mechanics/materials/vanishingstrain.hh: VanishingStrain"]}
{"id": "C43", "title": "Numerical material inversion signals non convergence", "statement": "numericalMaterialInversion either returns a strain whose stress matches the prescribed one within tol or throws. (False of the code: the non convergence branch is unreachable so that a non converged strain is returned silently.)", "quantifier": "all laws, stresses, start values, iteration limits", "why_tests_cant": "tests use laws that converge", "anchors": ["ikarus/finiteelements/mechanics/materials/numericalmaterialinversion.hh: numericalMaterialInversion"]}
{"id": "C44", "title": "FE requirements: value access protocol and deep copies", "statement": "globalSolution()/parameter() throw iff nothing was inserted, return the last inserted value otherwise; populated() iff both are set; copying yields an independent object with equal content; syncParameterAndGlobalSolution leaves all unconstrained entries untouched.", "quantifier": "all histories over several objects", "why_tests_cant": "histories are unbounded", "anchors": ["ikarus/finiteelements/ferequirements.hh: FERequirements"]}
{"id": "C45", "title": "Affordance mapping", "statement": "vectorAffordance and scalarAffordance of a matrix or vector affordance return the affordance of the same physical family, AffordanceCollection reports exactly the affordances it stores.", "quantifier": "all affordances", "why_tests_cant": "complete table", "anchors": ["ikarus/finiteelements/ferequirements.hh: AffordanceCollection, vectorAffordance, scalarAffordance"]}
{"id": "C46", "title": "Element dof order: gather and scatter are adjoint", "statement": "The dof list of an element enumerates node-major, component-minor; the local solution gathered by an element at node i component j is the global solution entry the assembler scatters local entry i*dim+j to; hence assembly is the transpose of gathering: r.gather(d) summed over elements equals assembled(r).d.", "quantifier": "all bases sizes, solutions, element vectors", "why_tests_cant": "unbounded sizes", "anchors": ["ikarus/finiteelements/fehelper.hh: globalIndices, localSolutionBlockVector", "ikarus/assembler/simpleassemblers.inl: assembleRawVectorImpl"]}
{"id": "C47", "title": "Linear elastic element: energy, forces and stiffness are consistent", "statement": "For any quadrature rule, strain-displacement operators and symmetric material matrix, the element stiffness is symmetric, forces = K u, energy = 1/2 u.K u; positive semidefinite material and positive weights give a positive semidefinite K with non negative energy.", "quantifier": "all quadrature rules, operators, materials, displacements", "why_tests_cant": "all values, sizes", "anchors": ["ikarus/finiteelements/mechanics/linearelastic.hh: calculateMatrixImpl, calculateVectorImpl, calculateScalarImpl"]}
{"id": "C48", "title": "Truss element: forces and stiffness are derivatives of the energy; rigid body invariance", "statement": "The truss force vector is the gradient of its energy and its stiffness the derivative of the force in every direction; energy and forces are invariant under common translation of the nodes; nodal forces are self equilibrated; the stiffness is symmetric.", "quantifier": "all geometries with non zero length, all displacements, all dimensions", "why_tests_cant": "all real values", "anchors": ["ikarus/finiteelements/mechanics/truss.hh: computeStrain, calculateScalarImpl, calculateVectorImpl, calculateMatrixImpl"]}
{"id": "C49", "title": "Enhanced assumed strain / assumed stress: condensation equals Newton on the full system", "statement": "Solving the condensed element system and updating the internal variables as updateState does yields exactly the Newton increment of the uncondensed two field system; the condensed matrix stays symmetric.", "quantifier": "all element matrices with invertible internal block", "why_tests_cant": "all matrices", "anchors": ["ikarus/finiteelements/mechanics/enhancedassumedstrains.hh: updateStateImpl, calculateMatrixImpl, calculateVectorImpl", "ikarus/finiteelements/mechanics/assumedstress.hh"]}
{"id": "C50", "title": "Enhanced strain ansatz is orthogonal to constant stresses", "statement": "For all ansatz types E4, E5, E7, E9, E11, E21 and all element geometries, the enhanced strain modes integrate to zero over the element, so that constant stress states do no work on them (patch test).", "quantifier": "all geometries, all internal parameters", "why_tests_cant": "all geometries", "anchors": ["ikarus/finiteelements/mechanics/strainenhancements/easvariants/linearandglstrains.hh"]}
{"id": "C51", "title": "Container and tuple helpers", "statement": "makeUniqueAndSort yields a strictly increasing list with the same elements; appendUnique keeps uniqueness and returns the position of the element; tuple find_if returns the first match or the size; filter keeps the elements satisfying the predicate in order (False of the code: only their types, the values are value initialised), unique and subset keep order; flattening a nested tuple lists its elements from left to right; countType... returns the number of matching types (False of the code: the count is truncated to bool).", "quantifier": "all containers and predicates", "why_tests_cant": "all sizes", "anchors": ["ikarus/utils/algorithms.hh"]}
{"id": "C52", "title": "Compile time square root", "statement": "ct_sqrt(x) is the floor of the square root for each x >= 0.", "quantifier": "all non negative integers", "why_tests_cant": "unbounded", "anchors": ["ikarus/utils/math.hh: ct_sqrt"]}
{"id": "C53", "title": "Line segment search returns the best window", "statement": "findLineSegment returns a contiguous window of segmentSize+1 points whose fit error is minimal over all windows, the first one in case of ties, and never reads out of bounds when enough points are given.", "quantifier": "all point lists and window sizes", "why_tests_cant": "all lengths", "anchors": ["ikarus/utils/findlinesegment.cpp: findLineSegment", "ikarus/utils/polyfit.cpp: polyfit"]}
{"id": "C54", "title": "Tensor product quadrature", "statement": "The tensor product of a base and a one dimensional rule has |a|*|b| points, integrates every product function exactly to the product of the factor quadratures, and preserves total weight as the product of total weights.", "quantifier": "all rules and integrands", "why_tests_cant": "all rules", "anchors": ["ikarus/utils/quadraturerulehelper.hh: tensorProductQuadrature"]}
{"id": "C55", "title": "Enumeration increment", "statement": "Incrementing an enumeration value moves to the next enumerator, traverses all of them in order from BEGIN to END, and throws at END.", "quantifier": "all enumerations generated by MAKE_ENUM", "why_tests_cant": "all enum sizes", "anchors": ["ikarus/utils/makeenum.hh: increment"]}
{"id": "C56", "title": "Result evaluators: invariants of the stress", "statement": "The von Mises stress is non negative, vanishes iff the 3D stress is hydrostatic, is invariant under rotations and under adding a hydrostatic stress; hydrostatic stress is trace/dim; polar stress is the rotated stress tensor: trace, determinant and von Mises are preserved, and at angle 0 it is the identity.", "quantifier": "all stresses and rotations", "why_tests_cant": "all values", "anchors": ["ikarus/io/resultevaluators.hh: VonMises, HydrostaticStress, Triaxiality, PolarStress"]}
{"id": "C57", "title": "Linear solver wrapper solves with the last matrix given to it or throws", "statement": "After any history of analyzePattern/factorize/compute and copies, solve uses the matrix most recently passed to compute or factorize. (False of the code: factorize with a matrix storage kind the solver does not support is silently ignored; copies lose the factorisation.)", "quantifier": "all histories", "why_tests_cant": "histories are unbounded", "anchors": ["ikarus/solver/linearsolver/linearsolver.hh: LinearSolverTemplate", "ikarus/solver/linearsolver/linearsolver.cpp"]}
{"id": "C58", "title": "Full spectrum of the generalised eigen solver is complete and sorted", "statement": "Combining the smallest and greatest partial spectra yields all eigenvalues, each once, ascending, with matching eigenvectors; construction parameters satisfy the sub-solver requirement nev < ncv <= n for each n >= 2. (False of the code for n = 1 and n = 3.)", "quantifier": "all matrix sizes and spectra", "why_tests_cant": "all sizes", "anchors": ["ikarus/solver/eigenvaluesolver/generalizedeigensolver.hh: GeneralizedSymEigenSolver"]}
{"id": "C59", "title": "Inhomogeneous boundary forces", "statement": "obtainForcesDueToIDBC returns the Raw stiffness times the load derivative of the prescribed displacements, with the constrained entries zeroed for Full and removed for Reduced, so that its Full and Reduced forms correspond under createFullVector/createReducedVector.", "quantifier": "all assemblers, constraint patterns, prescribed functions", "why_tests_cant": "all patterns", "anchors": ["ikarus/utils/functionhelper.hh: obtainForcesDueToIDBC", "ikarus/controlroutines/common.hh: idbcIncrement"]}
{"id": "C60", "title": "Update functor of the solver factory adds increments to the right dofs", "statement": "The update function a NonlinearSolverFactory installs adds a reduced increment to the free dofs only (constrained dofs keep their values), reduces a full increment for a reduced solution, and otherwise adds the increment as it is; no access is out of range.", "quantifier": "all constraint patterns, solution vectors and increments", "why_tests_cant": "all sizes and patterns", "anchors": ["ikarus/solver/nonlinearsolver/nonlinearsolverfactory.hh: Impl::updateFunctor"]}
{"id": "C61", "title": "Synchronising solution and load factor sets the prescribed displacements", "statement": "After syncParameterAndGlobalSolution every dof with an inhomogeneous boundary value has its prescribed value for the current load factor and all other dofs are unchanged; idbcIncrement returns the change of the prescribed values. (False of the code: a prescribed value that becomes zero is not written, the old value stays.)", "quantifier": "all stored functions, load factors and solution vectors", "why_tests_cant": "all load histories", "anchors": ["ikarus/solver/nonlinearsolver/nonlinearsolverfactory.hh: Impl::updateFunctor", "ikarus/controlroutines/common.hh: idbcIncrement"]}
{"id": "C62", "title": "Path following starts from the current state", "statement": "A path following run continues from the load factor and solution it is given: the initial prediction adds the increments to them, as the intermediate predictions do. (False of the code: load control and arc-length overwrite the load factor by its increment, displacement control overwrites the solution.)", "quantifier": "all start states and strategies", "why_tests_cant": "tests start at load factor zero", "anchors": ["ikarus/controlroutines/pathfollowingfunctions.hh: ArcLength::initialPrediction, LoadControlSubsidiaryFunction::initialPrediction, DisplacementControl::initialPrediction"]}
{"id": "C63", "title": "Trust region: acceptance is governed by the ratio of actual to predicted decrease", "statement": "A proposal is accepted only if the actual decrease of the energy is at least rho_prime times the predicted decrease. (False of the code with its default rho_reg = 1e6: the regularisation added to both decreases is about 122*max(1,|E|), so that the ratio is close to one for every step.)", "quantifier": "all energies and predicted decreases", "why_tests_cant": "all real values", "anchors": ["ikarus/solver/nonlinearsolver/trustregion.hh: TrustRegion::solve"]}
{"id": "C64", "title": "Increments of blocked solution vectors act block by block", "statement": "a += b on a block vector of manifold points is accepted exactly if b has correctionSize times the number of blocks entries, and adds to block i exactly the entries i*correctionSize...; on a tuple of block vectors each component gets the slice behind the slices of the components before it; for plain vectors the flat view becomes flat view plus increment, -= undoes +=, and the matrix views show entry j of block i at (i,j) resp. (j,i). A tuple accepts an increment that is too long and drops the surplus (surprising).", "quantifier": "all block sizes, numbers of blocks, increments", "why_tests_cant": "all sizes; off-by-one offsets between components show only for particular sizes", "anchors": ["ikarus/utils/linearalgebrahelper.hh: operator+=, operator-=, correctionSize, viewAsFlatEigenVector, viewAsEigenMatrixAsDynFixed, viewAsEigenMatrixFixedDyn"]}
{"id": "C65", "title": "Hyperelastic materials: solver independent, isotropic, stress and moduli are derivatives", "statement": "For every right Cauchy-Green tensor with positive principal stretches, the energy, stresses and moduli of a Hyperelastic material do not depend on the order, signs or choice of the eigenvectors the eigenvalue solver returns (also for repeated stretches); in a rotated frame the energy is the same and the stresses rotate; along every motion with differentiable principal stretches and directions the rate of energy is half the stress contracted with the rate of C, and the rate of stress is the contraction of the moduli with half the rate of C.", "quantifier": "all deviatoric functions that commute with permutations (all of the library), all volumetric functions, all correct eigenvalue solvers, all tensors, all motions", "why_tests_cant": "eigenvector choice, repeated stretches and directions are continuous families", "anchors": ["ikarus/finiteelements/mechanics/materials/hyperelastic/interface.hh: Hyperelastic, transformDeviatoricTangentModuli, transformVolumetricTangentModuli", "ikarus/finiteelements/mechanics/materials/materialhelpers.hh: principalStretches", "ikarus/finiteelements/mechanics/materials/hyperelastic/deviatoric/interface.hh: tangentModuliImpl"]}
{"id": "C66", "title": "Increments of an element on a composite basis", "statement": "The local solution of an element on a composite basis (displacements and pressure) with an increment dx of the element, as AutoDiffFE passes it, is the sum dof by dof of increment and global solution. (False of the code: dx is read with the global index, so only a mesh with one element works.)", "quantifier": "all bases, elements, solutions and increments", "why_tests_cant": "tests use meshes with one element", "anchors": ["ikarus/finiteelements/fehelper.hh: localSolutionBlockVectorComposite, localSolutionBlockVectorScalar", "ikarus/finiteelements/autodifffe.hh: calculateVector, calculateMatrix"]}
{"id": "C67", "title": "Nonlinear elastic element: forces are the gradient of the energy, the matrix their derivative", "statement": "For every material whose stress and tangent are derivatives of its energy along strain paths, and every strain measure whose B operator and second derivative are derivatives, the vector of the element is the gradient of its scalar, the matrix is the derivative of the vector and is symmetric; vector and matrix are added to what is passed in; as part of a mixed element nothing is added.", "quantifier": "all numbers of nodes, dimensions, quadrature rules, materials and strain measures keeping the contract, displacements", "why_tests_cant": "finite difference checks sample a few states", "anchors": ["ikarus/finiteelements/mechanics/nonlinearelastic.hh: calculateMatrixImpl, calculateVectorImpl, calculateScalarImpl, geometricStiffnessMatrixFunction, internalForcesFunction"]}
{"id": "C68", "title": "Membrane strain of the shell and its derivatives", "statement": "DefaultMembraneStrain::value is half the change of the metric, derivative is its derivative with respect to each node, secondDerivative the derivative of that along a fixed stress and symmetric in the nodes; rigid motions cause no strain.", "quantifier": "all geometries, shape functions, displacements and stresses", "why_tests_cant": "all real values", "anchors": ["ikarus/finiteelements/mechanics/membranestrains.hh: DefaultMembraneStrain"]}
{"id": "C69", "title": "Volume loads and tractions: forces are the gradient of the potential", "statement": "The forces added by a volume load or a traction are the gradient of its potential and independent of the displacement, so that adding no matrix is consistent; tractions act on exactly the intersections the patch contains; with a partition of unity the forces sum to minus the integral of the load; elements without load add nothing. (False of the code for tractions: the guard asks for both patch and load to be missing.)", "quantifier": "all loads, load factors, quadrature rules, intersections, displacements", "why_tests_cant": "all functions; null patches are not tested", "anchors": ["ikarus/finiteelements/mechanics/loads/volume.hh: VolumeLoad", "ikarus/finiteelements/mechanics/loads/traction.hh: Traction"]}
{"id": "C70", "title": "Kirchhoff-Love shell: consistent energy, forces and stiffness", "statement": "Wherever the current tangent vectors are independent at the integration points, the vector of the shell is the gradient of its energy, the matrix (added to a symmetric matrix) is the derivative of the vector and symmetric; the director is a unit vector orthogonal to the surface; energy and strains do not change under rigid motions; the energy is not negative for admissible constants; affordances other than energy, forces and stiffness are refused. The entries below the diagonal of the matrix passed in are overwritten.", "quantifier": "all numbers of nodes, geometries, quadrature rules, displacements, constants", "why_tests_cant": "finite difference checks sample a few states", "anchors": ["ikarus/finiteelements/mechanics/kirchhoffloveshell.hh: KirchhoffLoveShell"]}
{"id": "C71", "title": "Displacement-pressure element: consistent, and standing for its material", "statement": "The vector of the displacement-pressure element is the gradient of its energy in displacements and pressures, the matrix the derivative of the vector and symmetric; where the energy is stationary in the pressure it is the energy of the material the element was constructed from. (The last part is false of the code: the energy is deviatoric energy plus kappa/2 times the square of the volumetric function, which is the energy of the material only if the square of the function is twice the function.)", "quantifier": "all numbers of nodes and pressures, quadrature rules, materials keeping the contract, displacements, pressures", "why_tests_cant": "tests compare results with stored numbers", "anchors": ["ikarus/finiteelements/mechanics/displacementpressure.hh: DPConstitutiveDriver, DisplacementPressure", "ikarus/finiteelements/mechanics/materials/decomposehyperelastic.hh: decomposeHyperelasticAndGetMaterialParameters"]}
{"id": "C72", "title": "Condensation of the enhanced assumed strains is defined", "statement": "For every variant an element accepts, every geometry that is not degenerate and positive definite moduli, the modes are linearly independent on the points of the default quadrature rule, so that the matrix of the internal variables is positive definite and the condensation is defined. (False of the code for E11: the four node element accepts it, but all of its modes vanish at the Gauss points of the default rule, so that the matrix is zero.)", "quantifier": "all geometries, moduli, displacements, internal variables", "why_tests_cant": "tests use E11 with the nine node element only; all geometries", "anchors": ["ikarus/finiteelements/mechanics/enhancedassumedstrains.hh: easApplicabilityCheck, calculateDAndLMatrix", "ikarus/finiteelements/mechanics/strainenhancements/easvariants/linearandglstrains.hh", "ikarus/utils/quadraturerulehelper.hh: defaultQuadratureRule"]}
{"id": "C73", "title": "Assumed stresses: constant stresses are represented and the condensation is defined", "statement": "On every geometry that is not degenerate each variant of the assumed stresses represents every constant stress; the modes are moved from the unit cube as F S F^T with the Jacobian F at the center; an element with constant strain has exactly the stress of the material at every position and the forces of the displacement element; for every state with positive definite compliances the matrix H is positive definite with the default quadrature rule, for every variant that can be created.", "quantifier": "all geometries, compliances, states, positions", "why_tests_cant": "all geometries; tests use a few meshes", "anchors": ["ikarus/finiteelements/mechanics/assumedstress.hh: calculateHAndGMatrix, asApplicabilityCheck", "ikarus/finiteelements/mechanics/assumedstress/asvariants/linearandpk2stress.hh", "ikarus/finiteelements/mechanics/assumedstress/asvariants.hh: createAssumedStressType"]}
{"id": "C74", "title": "Assumed stresses: forces are the gradient of the energy", "statement": "Along states in which the internal variables have no residual, the vector of the assumed stress element is the gradient of the scalar it returns. (False of the code for materials that are not linear: the scalar subtracts half the product of stress and strain instead of the complementary energy.)", "quantifier": "all materials keeping the contract, displacements, internal variables", "why_tests_cant": "tests check the energy of linear materials only", "anchors": ["ikarus/finiteelements/mechanics/assumedstress.hh: calculateScalarImpl, calculateVectorImpl"]}
{"id": "C75", "title": "The eigen solver is constructed exactly for square matrices of equal size", "statement": "GeneralizedSymEigenSolver with Eigen (and makeIdentitySymEigenSolver) is constructed if and only if both matrices are square and of the same size, however they are passed; otherwise it throws. (False of the code: the check reads the arguments after they were moved.)", "quantifier": "all sizes and value categories of both arguments", "why_tests_cant": "tests pass lvalues of a few sizes", "anchors": ["ikarus/solver/eigenvaluesolver/generalizedeigensolver.hh: GeneralizedSymEigenSolver<EigenValueSolverType::Eigen, MT>", "ikarus/solver/eigenvaluesolver/generalizedeigensolverfactory.hh: makeIdentitySymEigenSolver"]}
{"id": "C76", "title": "Assembled vector and matrix are derivatives of the assembled scalar", "statement": "For every mesh and solution: the derivative of the assembled scalar along any direction is the assembled vector times the direction, and the derivative of the assembled vector is the assembled matrix times the direction; with Dirichlet conditions the same holds for the reduced vector and matrix along the full vector of any reduced direction. An element computes the sum of what its skills compute.", "quantifier": "all numbers of elements, dof maps, flags, lists of skills keeping their contract, solutions, directions", "why_tests_cant": "tests check gradients numerically at a few random states of a few meshes", "anchors": ["ikarus/finiteelements/mixin.hh: FEMixin::calculateScalarImpl, calculateVectorImpl, calculateMatrixImpl", "ikarus/assembler/simpleassemblers.inl: getScalarImpl, getRawVectorImpl, getReducedVectorImpl, getRawMatrixImpl, getReducedMatrixImpl", "ikarus/finiteelements/fehelper.hh: globalIndices, localSolutionBlockVector"]}
{"id": "C77", "title": "The flat basis keeps the order of the nested container", "statement": "For every basis, flat() has exactly one index per dof and the indices are a permutation of 0..n-1; the flat index of each dof is its position when the nested container of untouched() is traversed from front to back, so that a flat vector and a blocked container list the dofs in the same order. (The order is not kept if a basis with blocks is below a FlatInterleaved power basis.)", "quantifier": "all trees of power and composite bases, index merging strategies, numbers of children and dofs", "why_tests_cant": "unbounded family of bases; tests use a few", "anchors": ["ikarus/utils/flatprebasis.hh: FlatPreBasis, FlatIndexMergingStrategy, flatPreBasis", "ikarus/utils/basis.hh: BasisHandler, makeBasis"]}
{"id": "C78", "title": "The sanity checks of derivatives pass right derivatives and reject wrong ones", "statement": "checkGradient, checkJacobian and checkHessian pass if the remainder of the Taylor expansion along the tested direction vanishes or grows at least with the reference exponent over the steps 1e-8 to 1e-2, and fail if it is at least 1e-10 and grows with an exponent smaller by more than the tolerance; a check that passes means that the derivative is right.", "quantifier": "all functions, points, directions, claimed derivatives, tolerances and least squares solvers", "why_tests_cant": "a unit test tries a few functions in one random direction; which window of the log-log data is found and what the shortcut for small errors lets through shows only for particular functions", "anchors": ["ikarus/utils/functionsanitychecks.hh:58-219", "ikarus/utils/functionsanitychecks.cpp:12-59"]}
{"id": "C79", "title": "Results are written for the element, component and place they were asked for", "statement": "A result container gives the same tensor as vector and as matrix, whichever is stored; ResultFunction gives for every element the result of its own finite element and the component asked for; addResult, addAllResults and addInterpolation of the VTK writer, in C++ and Python, add the data exactly at the places (cells, points) the data tag names; asking for a result by name in Python gives that result or an exception.", "quantifier": "all matrices and vectors, all grids and elements, all result functions, tags, writers and lists of supported result types", "why_tests_cant": "a test writes one file on a grid with one geometry type and looks at few values; what happens on mixed grids, and which data is added for the other tags, needs all cases", "anchors": ["ikarus/finiteelements/feresulttypes.hh:21-226", "ikarus/io/resultfunction.hh:23-148", "ikarus/io/vtkwriter.hh:80-137", "ikarus/python/io/vtkwriter.hh:75-92", "ikarus/python/finiteelements/fe.hh:54-69", "python/ikarus/io/__init__.py:17-25"]}
{"id": "C80", "title": "An element wrapped in AutoDiffFE is the same element", "statement": "AutoDiffFE gives the vector and the matrix of the wrapped element, whether it uses the functions of the element or derives them from its vector or its scalar; so wrapping elements does not change any assembled vector or matrix; a vector or matrix passed by the user is added to, as the element does.", "quantifier": "all elements made of skills that keep their contract, all solutions and dof numberings, all choices of the template parameter and of the implemented functions", "why_tests_cant": "a test compares two elements at one state with zeroed vectors; that the derivatives agree at every state, for every branch and inside every assembly cannot be enumerated", "anchors": ["ikarus/finiteelements/autodifffe.hh:133-224", "ikarus/finiteelements/mixin.hh:200-264"]}
{"id": "C81", "title": "A material wrapped in AutoDiffMAT is the same material", "statement": "The stresses and the tangent moduli of a material wrapped in AutoDiffMAT are those of the material, whichever derivatives are asked for (none, of the stresses, of the energy), in every strain measure the material accepts, in Voigt notation and as a tensor.", "quantifier": "all materials whose stresses and moduli are derivatives of their energy, all symmetric strains in the domain of the material, all combinations of the template parameters", "why_tests_cant": "a test compares numbers at one strain in one measure; that first and second derivatives in Voigt coordinates equal the coded stresses and moduli at every strain and for every measure is a statement of analysis", "anchors": ["ikarus/experimental/autodiffmat.hh:80-170", "ikarus/finiteelements/mechanics/materials/interface.hh:187-242", "ikarus/finiteelements/mechanics/materials/strainconversions.hh:118-134"]}
{"id": "C82", "title": "A node is found by its position", "statement": "globalIndexFromGlobalPosition returns the global indices of all components of the Lagrange node at the position; it throws if there is no node there and never returns indices of another node.", "quantifier": "all meshes, polynomial orders, dimensions, scalar, power and composite bases, and all positions", "why_tests_cant": "a test asks for a few nodes of one grid; that the result does not depend on the element that is hit needs all meshes", "anchors": ["ikarus/utils/functionhelper.hh:29-115", "ikarus/utils/traversal.hh:53-108"]}
{"id": "C83", "title": "The function made from an assembler is what the assembler assembles", "statement": "DifferentiableFunctionFactory::op returns a function of the requirement whose value, first and second derivative are the scalar, vector and matrix the assembler assembles for that requirement with the affordances and the option asked for (or the ones it is bound to); the entries are derivatives of each other; a result keeps its value.", "quantifier": "all assemblers, requirements, affordances, options, histories of calls of any number of functions, raw and shared pointers", "why_tests_cant": "a test makes one function and calls it once; the result is a reference into a cache of the assembler that later calls write", "anchors": ["ikarus/utils/differentiablefunctionfactory.hh:24-86", "ikarus/utils/differentiablefunction.hh:60-108", "ikarus/assembler/interface.hh:300-302", "ikarus/assembler/interface.hh:355-365", "ikarus/assembler/interface.hh:430-440"]}
{"id": "C84", "title": "Messages reach the listeners that live and are subscribed, and only these", "statement": "A notification of a broadcaster calls every listener that is alive and subscribed to it once for each subscription, in the order of the subscriptions, and no destroyed object, for every program that constructs, copies, moves, subscribes, unsubscribes and destroys listeners and broadcasters; the factory of control routines makes every element listen to the solver exactly once.", "quantifier": "all programs of any length over any number of listeners and broadcasters, with copies, moves and destruction, and any number of control routines made from a solver", "why_tests_cant": "a dangling callback usually still works in a test, since the memory of the temporary is not yet reused; the order of construction and destruction in user programs is not bounded", "anchors": ["ikarus/utils/listener/listener.hh:27-83", "ikarus/utils/listener/nonlinearsolverlogger.hh:26-29", "ikarus/utils/listener/controllogger.hh:26-29", "ikarus/utils/listener/controlvtkwriter.hh:51-54", "ikarus/utils/listener/genericlistener.hh:41-50", "ikarus/utils/broadcaster/broadcaster.hh:43-77", "ikarus/finiteelements/mixin.hh:312-318", "ikarus/controlroutines/controlroutinefactory.hh:38-48"]}
{"id": "C85", "title": "Solving with elements that hold internal variables is Newton's method for all variables", "statement": "When elements with enhanced strains (or any elements with internal variables) listen to NewtonRaphson, the displacements and internal variables after solve are Newton iterates of the two field problem, the number of steps is the number of iterations reported, and success means that the forces are in equilibrium and the internal variables have no residual, also with inhomogeneous Dirichlet conditions.", "quantifier": "all meshes, element data, laws, loads, Dirichlet conditions, linear solvers, settings, start values and numbers of iterations; all elements that react to CORRECTION_UPDATED", "why_tests_cant": "the tests solve single load cases with homogeneous conditions and compare displacements; internal variables that are left over or miss the prescribed displacements change neither the reported norm nor, for linear elements, the displacements", "anchors": ["ikarus/solver/nonlinearsolver/newtonraphson.hh:196-257", "ikarus/finiteelements/mechanics/enhancedassumedstrains.hh:225-248", "ikarus/finiteelements/mechanics/enhancedassumedstrains.hh:350-359", "ikarus/finiteelements/mechanics/assumedstress.hh:343-352", "ikarus/utils/broadcaster/broadcaster.hh:60-68", "ikarus/utils/functionhelper.hh:170-184", "ikarus/solver/nonlinearsolver/nonlinearsolverfactory.hh:34-54"]}
{"id": "C86", "title": "Materials are constructed in Python with the constants and options they are given", "statement": "A material constructed in Python from two of the constants of an isotropic material, given by name and in any order, has the Lame constants of that material, and any other set of names is rejected with a message that names the valid pairs; the options given (tolerance of the reduction to plane stress and its relatives, compressible for the muesli materials) are those the material uses.", "quantifier": "all constants, all isotropic materials, all sets and orders of names, all tolerances and strains, all muesli options", "why_tests_cant": "the tests construct materials from one or two pairs and never observe the tolerance or the compressible flag; a swapped or ignored argument leaves the constructed object valid", "anchors": ["python/ikarus/materials/materials.hh:47-116", "ikarus/python/finiteelements/material.hh:23-234", "ikarus/finiteelements/mechanics/materials/vanishingstress.hh:255-283", "ikarus/finiteelements/physicshelper.hh"]}
{"id": "C87", "title": "Strains are converted and materials evaluated in Python for the measure that is named", "statement": "In Python storedEnergy, stresses and tangentModuli of a material take the strain in the measure that is named and give the values of C++ for it; transformStrain converts a strain from the measure named from to the measure named to, called with positions or with keywords, and raises an error for conversions that do not exist.", "quantifier": "all strains, measures, materials and ways to pass the arguments", "why_tests_cant": "the tests call transformStrain with positional arguments for a few strains; that keyword calls exchange source and target, or that a target runs into undefined behaviour, shows only for calls that are not tested", "anchors": ["python/ikarus/materials/materials.hh:47-116", "ikarus/python/finiteelements/material.hh:23-53", "ikarus/finiteelements/mechanics/materials/strainconversions.hh"]}
{"id": "C88", "title": "A Python callback reads and writes the entries of the assembled matrix", "statement": "A Python function bound to the sparse assembler manipulator with bindMatrix sees, for each request, the assembled matrix of that request, its writes change exactly the entries they name, later callbacks see the changes of earlier ones, reading entries changes nothing, and later requests are answered with the same contributions as if no callback had been called.", "quantifier": "all Python functions (any sequence of reads and writes that may depend on the values read), all meshes, flags and histories of requests", "why_tests_cant": "the tests write one or two diagonal entries; that reading an entry outside the pattern changes the storage shows only in a later request, where it is undefined behaviour and not an error", "anchors": ["ikarus/python/assembler/flatassemblermanipulator.hh:28-109", "ikarus/python/assembler/flatassembler.hh:62-79", "ikarus/assembler/simpleassemblers.inl:120-299"]}
{"id": "C89", "title": "Objects that Python still holds can be used", "statement": "As long as a Python program holds an element, local view, assembler, manipulator or writer, using it is defined: every C++ object it reads (basis, boundary patch, requirement, assembler) still exists, whatever other variables the program has deleted or left behind.", "quantifier": "all programs that create these objects, bind assemblers and delete variables in any order", "why_tests_cant": "the tests keep everything in variables of one function, so nothing is destroyed before its last use; a dangling pointer often still reads the old values", "anchors": ["ikarus/python/finiteelements/fe.hh:86-149", "ikarus/python/finiteelements/registerpreelement.hh:109-120", "ikarus/python/assembler/flatassembler.hh:50-111", "ikarus/python/assembler/flatassemblermanipulator.hh:78", "ikarus/python/io/vtkwriter.hh:60-65", "ikarus/assembler/interface.hh:150-164", "ikarus/finiteelements/mechanics/loads/traction.hh:60-148"]}
{"id": "C90", "title": "What an assembler sees of changes that are made after it was set up", "statement": "A bound assembler assembles for the solution and load factor of the requirement it is bound to, including later insertions into it; whether later changes of the vectors, Dirichlet values and elements the caller passed are seen is as documented: the requirement stores a reference to the solution vector, the assembler sees the elements as they are.", "quantifier": "all sequences of changes, insertions, constructions and bindings, any number of objects, all values", "why_tests_cant": "the tests insert again after every change, so that copies and references cannot be told apart", "anchors": ["ikarus/finiteelements/ferequirements.hh:232-407", "ikarus/assembler/interface.hh:50-265", "ikarus/assembler/simpleassemblers.hh:169-231", "ikarus/python/finiteelements/registerferequirements.hh:30-47", "docs/website/01_framework/feRequirements.md"]}
{"id": "C91", "title": "Materials of Muesli are functions of the strain", "statement": "A material of the library Muesli wrapped by Ikarus answers every evaluation of energy, stress and moduli as the Muesli material with its properties does for the deformation in question, whatever strain measure it is given as, although Muesli's material points are objects with a current and a committed state that the evaluation changes: earlier evaluations, evaluations of copies and copying have no influence. Stress and moduli are twice the derivatives with respect to the right Cauchy-Green tensor. A strain arrives in Muesli as it was given; deformations that turn the material inside out are rejected.", "quantifier": "all Muesli materials that do not depend on rotations, all properties, all programs that make, copy and evaluate materials, all deformations, strain measures and directions", "why_tests_cant": "the tests compare one material with one other implementation at one or two deformations and never evaluate copies, rotations or inverted deformations", "anchors": ["ikarus/finiteelements/mechanics/materials/muesli/mueslihelpers.hh:57-99", "ikarus/finiteelements/mechanics/materials/muesli/mueslifinite.hh:60-161", "ikarus/finiteelements/mechanics/materials/muesli/mueslismall.hh:69-167", "ikarus/finiteelements/mechanics/materials/interface.hh:187-242", "ikarus/finiteelements/mechanics/materials/materialhelpers.hh:119-126"]}
{"id": "C92", "title": "Path following with elements that hold internal variables", "statement": "The Newton-Raphson method with a subsidiary function, used with elements that hold internal variables and listen to the solver, does what it does for elements without: each iteration updates the variables of every element once, from the solution before the increment; residual, Jacobian, subsidiary function and reported norms are those of the new solution with the new variables; the run ends exactly when the norm of residual and subsidiary function is within the tolerance or the iterations are used up, or with the exception or the division by zero of an iteration. Constrained values do not change. Each iteration is a Newton step of the problem in displacements and internal variables for the load at the new load factor, with a vanishing linearised subsidiary function.", "quantifier": "all meshes of elements with enhanced strains, all laws, loads, subsidiary functions, settings, starts and linear solvers, any number of iterations", "why_tests_cant": "the tests follow one path with displacement elements only; internal variables that belong to another solution when the load vector is computed never occur", "anchors": ["ikarus/solver/nonlinearsolver/newtonraphsonwithscalarsubsidiaryfunction.hh:203-316", "ikarus/finiteelements/mechanics/enhancedassumedstrains.hh:350-359", "ikarus/utils/broadcaster/broadcaster.hh:60-68"]}
{"id": "C93", "title": "What loggers and writers show of a run", "statement": "A logger that has subscribed to a nonlinear solver prints a heading, one line for each iteration of the run in order and counted from 1, with the norms of residual and correction and the load factor of that iteration, and after success a line with the number of iterations; with a logger that is used for several runs each run has its own such block. A logger that has subscribed to a control routine prints a start, one block for each step made, with the step size the solver was called with, and after success an end with the sum of all iterations. A writer that has subscribed to a control routine writes one file for each solve made, numbered from 0, which contains the solution after that solve.", "quantifier": "all problems, settings, starts and earlier states of the logger, runs of any length with any result", "why_tests_cant": "the tests look at the output of single runs, if at all; norms that lag behind, step sizes of the initial solve and fields left over from earlier steps are not compared with anything", "anchors": ["ikarus/utils/listener/nonlinearsolverlogger.hh:36-93", "ikarus/utils/listener/controllogger.hh:41-58", "ikarus/utils/listener/controllogger.cpp:13-32", "ikarus/utils/listener/controlvtkwriter.hh:87-107", "ikarus/solver/nonlinearsolver/trustregion.hh:398-426", "ikarus/controlroutines/pathfollowing.inl:28-76"]}
{"id": "C94", "title": "Load control of a linear structure keeps it in equilibrium", "statement": "If an analysis is set up with linear elements (linear elastic, volume loads, tractions), Dirichlet values proportional to the load factor, the Full or Reduced option, a Newton-Raphson solver from NonlinearSolverFactory and a linear solver that solves its systems, then LoadControl.run succeeds; every state shown to listeners has the prescribed displacements and no admissible state has an energy lower by more than the tolerance times the distance to it, none a lower one if the solver made an iteration; no solve takes more than one iteration unless the user asked for it. With sufficient supports Full and Reduced end in the same state. After a run to load factor tend the constrained dofs have the displacements prescribed for tend.", "quantifier": "all meshes, dof numberings, elements, loads, numbers of steps, load ranges, start vectors that fit, tolerances and iteration limits", "why_tests_cant": "the tests compare a few meshes with reference numbers; whether assembly, Dirichlet handling, the solver and the control routine compose to a minimiser of the energy for every structure is a statement about all of them together", "anchors": ["ikarus/solver/nonlinearsolver/nonlinearsolverfactory.hh:24-122", "ikarus/controlroutines/loadcontrol.inl:14-58", "ikarus/solver/nonlinearsolver/newtonraphson.hh:196-260", "ikarus/assembler/simpleassemblers.inl:16-120", "ikarus/utils/dirichletvalues.hh:240-281", "ikarus/finiteelements/mechanics/linearelastic.hh:298-405"]}
{"id": "C95", "title": "Solvers made by the factory keep working on the assembler and the settings they were made with", "statement": "A solver made with NonlinearSolverFactory(settings).create(assembler), with or without withIDBCForceFunction, uses for residuals, updates, synchronisation and forces of Dirichlet values the assembler it was made with, and the update function of the settings, as long as the solver exists, whatever happens later to the factory and to the variable that held the assembler.", "quantifier": "all programs that make, assign, copy, move and destroy shared pointers to assemblers, factories and solvers in any order, of any length", "why_tests_cant": "the tests keep the variables alive and use an update function without state, so that calls through dangling references go unnoticed; lifetimes concern all orders of construction and destruction", "anchors": ["ikarus/solver/nonlinearsolver/nonlinearsolverfactory.hh:23-126", "ikarus/utils/differentiablefunctionfactory.hh:24-86", "tests/src/testtruss.cpp:267-282"]}
{"id": "C96", "title": "Success of load control means that every shown state of a nonlinear structure is stationary", "statement": "After a successful LoadControl::run with a Newton-Raphson solver that handles inhomogeneous Dirichlet values, every state shown on SOLUTION_CHANGED has the prescribed displacements on its supports, and the potential energy at its load factor is stationary there in the free degrees of freedom, up to the tolerance of the solver.", "quantifier": "all structures of elements with energy, forces and stiffness, all Dirichlet values proportional to the load factor, reduced and full treatment, all settings, all numbers of load steps, all linear solvers that answer", "why_tests_cant": "tests compare displacements of a few structures at settings where every step iterates; which states a solver accepts without an iteration depends on energies, tolerances and step sizes together", "anchors": ["ikarus/controlroutines/loadcontrol.inl:24-58", "ikarus/solver/nonlinearsolver/newtonraphson.hh:196-260", "ikarus/solver/nonlinearsolver/nonlinearsolverfactory.hh:25-126", "ikarus/assembler/interface.hh:140-270", "ikarus/finiteelements/mechanics/truss.hh:197-221"]}
{"id": "C97", "title": "lambertW0 returns the principal branch of the Lambert function, or rejects its argument", "statement": "For every argument z >= -1/e the call lambertW0(z) returns a number w >= -1 with w e^w = z up to the given tolerance; the iteration is defined, does not pass the solution and converges from the initial guesses of the code; every number below -1/e is rejected with an exception.", "quantifier": "all arguments, tolerances and numbers of iterations, in exact arithmetic", "why_tests_cant": "tests evaluate the function at about twenty numbers; convergence of Halley's iteration from two different initial guesses, and that the stopping test on equal steps does not end it too early, concern a continuum of arguments", "anchors": ["ikarus/utils/lambertw.hh:21-94", "ikarus/finiteelements/mechanics/materials/hyperelastic/neohooke.hh:165-185"]}
{"id": "C98", "title": "Path following of a complete structure shows states in equilibrium, with steps of the size asked for, whether the assembler works Full or Reduced", "statement": "For elements of any kind, every run of PathFollowing with arc length, load control or displacement control ends; every state a listener is shown after a successful solve is stationary up to the tolerance and keeps its supports; every step has the size asked for up to the tolerance; the run succeeds exactly if all steps do; and the option Full or Reduced of the assembler makes no difference.", "quantifier": "all structures, supports, linear solvers, step size adaptions, numbers of steps, starts and tolerances", "why_tests_cant": "tests follow paths of a few structures, each with one option of the assembler; which vectors have which size depends on option, path following function and whether a solve iterates, and the size of a step that is accepted without iteration is seen by no test that compares final states", "anchors": ["ikarus/controlroutines/pathfollowing.inl:28-77", "ikarus/solver/nonlinearsolver/newtonraphsonwithscalarsubsidiaryfunction.hh:207-316", "ikarus/controlroutines/pathfollowingfunctions.hh:48-362", "ikarus/controlroutines/common.hh:39-76"]}
{"id": "C99", "title": "Load control of a complete structure with the trust region method ends in states of lower energy, keeps the supports, and means something by success", "statement": "For elements of any kind, Full or Reduced, every solve with the trust region method ends within maxIter iterations; the energy does not increase beyond the allowance of its comparison; the residual norm reported is that of the forces at the free dofs of the state the caller gets; success is reported exactly if this norm or that of the last correction is below its tolerance; the supports stay where they are, or move to the prescribed displacements; a successful result is in equilibrium up to the tolerance.", "quantifier": "all structures, supports, start states, radii, preconditioners that keep zeros, random predictors, numbers of load steps, memories of a reused solver", "why_tests_cant": "tests run the method on a few functions of two variables and one structure without prescribed displacements; what a random first correction does to supports, which of the two tolerances ended the run, and that prescribed displacements are never applied is not visible in their final values", "anchors": ["ikarus/solver/nonlinearsolver/trustregion.hh:64-119", "ikarus/solver/nonlinearsolver/trustregion.hh:233-428", "ikarus/solver/nonlinearsolver/trustregion.hh:458-599", "ikarus/solver/nonlinearsolver/nonlinearsolverfactory.hh:110-122", "ikarus/controlroutines/loadcontrol.inl", "ikarus/linearalgebra/truncatedconjugategradient.hh:69-168"]}
{"id": "C100", "title": "With small enough load steps load control follows a regular path of equilibrium, each solve converging quadratically", "statement": "If the equilibrium states of a structure form a path on which the tangent stiffness at the free dofs is regular, the elements are consistent and the stiffness is Lipschitz continuous, then from a start near the path Newton's method of the library converges with second order to the state on the path (not to another one), needs no more iterations than the rate predicts, and reports success; load control with sufficiently many steps succeeds in every step and all states handed to the listeners lie at the prescribed load factors, on the supports, and within a multiple of the tolerance of the path (plus the way of the path in one step where prescribed displacements move and the solver did not iterate).", "quantifier": "all structures with elements of any kind, Full or Reduced, all prescribed displacements, paths, tolerances, numbers of load steps", "why_tests_cant": "tests run fixed numbers of steps on a few structures and compare final values; that no step leaves the branch, how many steps suffice, and the rate of convergence are statements about all neighbourhoods and step sizes", "anchors": ["ikarus/solver/nonlinearsolver/newtonraphson.hh:196-257", "ikarus/controlroutines/loadcontrol.inl:21-57", "ikarus/solver/nonlinearsolver/nonlinearsolverfactory.hh:67-126"]}
{"id": "C101", "title": "The stresses an element reports are those of its state", "statement": "calculateAt of an element returns the stresses that produce its nodal forces: at the integration points of the linear, nonlinear, enhanced strain, assumed stress and displacement pressure elements the forces are the sum of the transposed strain operators times the reported stresses. The Kirchhoff and Cauchy stresses are the push-forwards of the reported second Piola-Kirchhoff stress and do the same work. A full stress of a plane element extends the reported stress of the element to the three dimensional state of stress, and in space both are the same. The Cauchy stress is the one of the body. With enhanced strains or assumed stresses the function of that skill is the one that answers.", "quantifier": "all elements, materials, displacements, internal variables, result types", "why_tests_cant": "tests compare stresses at a few points of a few patch tests, full stresses only in plane strain, and no Cauchy stresses in plane stress", "anchors": ["ikarus/finiteelements/mechanics/linearelastic.hh:220-254", "ikarus/finiteelements/mechanics/nonlinearelastic.hh:223-271", "ikarus/finiteelements/mechanics/enhancedassumedstrains.hh:127-188", "ikarus/finiteelements/mechanics/assumedstress.hh:124-169", "ikarus/finiteelements/mechanics/displacementpressure.hh:299-352", "ikarus/finiteelements/mixin.hh:150-170"]}
{"id": "C102", "title": "The trust region method finds the solution of linear structures", "statement": "For a linear structure whose supports exclude motions without energy, the trust region method started anywhere, with the identity, the diagonal or any other linear symmetric positive definite preconditioner, with or without a bound of the radius, reports success after a number of iterations that the loads, the stiffnesses and the settings determine. The constrained dofs keep their values, and the result is in equilibrium up to the tolerance of the gradient or what the tolerance of the corrections accounts for, and as close to the state of least energy. Load control with it solves every step, and shows states in equilibrium at all load factors. Every successful solve of such a structure meets these tolerances.", "quantifier": "all linear structures, supports, loads, start states, preconditioners, settings, numbers of steps; Full and Reduced", "why_tests_cant": "tests run the method on two small energies and on few structures with fixed settings; they cannot show that it ends for all structures within the iterations allowed, nor how large the residual may be when it reports success", "anchors": ["ikarus/solver/nonlinearsolver/trustregion.hh:232-428", "ikarus/solver/nonlinearsolver/trustregion.hh:487-560", "ikarus/linearalgebra/truncatedconjugategradient.hh:69-168", "ikarus/controlroutines/loadcontrol.inl:17-57"]}
{"id": "C103", "title": "Inner forces are self-equilibrated; the forces at the supports carry the loads", "statement": "The forces an element adds for its deformation have no resultant and no moment about the current positions of its nodes (about the reference positions for linear elements): linear and nonlinear displacement elements, membrane, Kirchhoff-Love shell, truss, displacement-pressure elements, assumed stresses and enhanced strains, for every material law, every displacement and all internal variables; for DisplacementGradient the resultant vanishes always and the moments if the internal variables are in equilibrium, with the modes H4 and H9. Volume loads and tractions add exactly the work of the load function. Hence in every state in equilibrium, in particular in the states load control shows after successful steps, the forces at the constrained dofs balance the loads in every direction and for every rigid motion, up to the tolerance.", "quantifier": "all laws, displacements, internal variables, quadrature rules, meshes, numbers of elements, loads, supports and load steps", "why_tests_cant": "tests compare few forces with recorded numbers; they cannot show that no combination of law, mesh and displacement leaves a spurious force or moment that the supports would have to take", "anchors": ["ikarus/finiteelements/mechanics/nonlinearelastic.hh:375-430", "ikarus/finiteelements/mechanics/linearelastic.hh:336-420", "ikarus/finiteelements/mechanics/membranestrains.hh", "ikarus/finiteelements/mechanics/kirchhoffloveshell.hh:203-370", "ikarus/finiteelements/mechanics/truss.hh:197-221", "ikarus/finiteelements/mechanics/enhancedassumedstrains.hh:308-390", "ikarus/finiteelements/mechanics/assumedstress.hh:249-357", "ikarus/finiteelements/mechanics/loads/volume.hh:67-111", "ikarus/finiteelements/mechanics/loads/traction.hh:66-145"]}
{"id": "C104", "title": "Patch test: homogeneous deformations are reproduced exactly by meshes of distorted elements", "statement": "If the displacements of the nodes are affine in the coordinates, an element of any shape adds exactly the nodal forces of the homogeneous stress of its material law: linear and nonlinear displacement elements, displacement-pressure elements with the pressure of the homogeneous volume change, assumed stresses, enhanced strains and enhanced displacement gradients with internal variables zero, which are then in equilibrium. The forces of a quadrilateral depend only on its corners; so a mesh of distorted quadrilaterals in which every node is either surrounded by elements or held by supports is in equilibrium in every homogeneous state, for every material. With linear elements and sufficient supports that impose such a state, load control finds it exactly in each step.", "quantifier": "all material laws, deformation gradients, element shapes, quadrature rules of sufficient order, meshes (numbers and connectivity of elements), load steps", "why_tests_cant": "tests run the patch test on one mesh with one material and one state; convergence of the elements under refinement rests on its holding for all", "anchors": ["ikarus/finiteelements/mechanics/linearelastic.hh:336-420", "ikarus/finiteelements/mechanics/nonlinearelastic.hh:375-430", "ikarus/finiteelements/mechanics/displacementpressure.hh", "ikarus/finiteelements/mechanics/enhancedassumedstrains.hh:308-390", "ikarus/finiteelements/mechanics/assumedstress.hh:249-357", "ikarus/assembler/simpleassemblers.inl:55-75", "ikarus/controlroutines/loadcontrol.inl"]}
{"id": "C105", "title": "Arc length follows regular equilibrium paths of nonlinear structures, past limit points", "statement": "Without prescribed displacements and with loads proportional to the load factor, if around the path the matrix of the stiffness and the load column bordered by the direction of the step is regular with bound beta and the tangent stiffness has Lipschitz constant L, then a run of path following with the arc length criterion, a step size s with 32 beta^2 L s <= 1 and a tolerance below s/(96 beta^2), succeeds with any number of steps: every state is in equilibrium up to the tolerance, found within m iterations if s <= 6 beta^2 tol 2^2^m, at arc length distance s from the previous state up to the tolerance, in first order the continuation of the previous step, so the run never turns back; the first step increases the load factor. The tangent stiffness itself need not stay positive: limit points are passed. The exception is a step that has to iterate with an increment of the load factor of exactly zero, which ends with a value that is not finite.", "quantifier": "all structures and materials, all regular paths, step sizes and tolerances within the bounds, numbers of steps", "why_tests_cant": "tests run a few snap-through problems and compare one load factor; they cannot show that the iteration converges to the next and not to the previous point of the path for all structures", "anchors": ["ikarus/controlroutines/pathfollowing.inl:20-78", "ikarus/controlroutines/pathfollowingfunctions.hh:95-196", "ikarus/solver/nonlinearsolver/newtonraphsonwithscalarsubsidiaryfunction.hh:180-300"]}
{"id": "C106", "title": "Near the undeformed state every material is linear elastic with the moduli its parameters stand for", "statement": "For the identity as right Cauchy-Green tensor the stresses of every hyperelastic material a user can make (Neo-Hooke, St. Venant-Kirchhoff, Blatz-Ko, Ogden with deviatoric or total stretches, invariant based, Mooney-Rivlin, Yeoh, Arruda-Boyce, Gent, purely volumetric, the deviatoric ones with any volumetric function but VF12) vanish, the moduli are those of isotropic linear elasticity with constants lambda and mu, and the stresses along C = 1 + 2tE have the derivative lambda tr(E) 1 + 2 mu E at t = 0. Here mu is half the sum of the products of moduli and exponents for Ogden, twice the sum of the two coefficients for Mooney-Rivlin, twice the first coefficient for Yeoh, mu for Gent and Blatz-Ko (with lambda = mu), and mu (1 + 3/5 lm^-2 + 99/175 lm^-4 + 513/875 lm^-6 + 42039/67375 lm^-8) for Arruda-Boyce; the parameter K of the volumetric part is the bulk modulus, except for VF0 (none) and VF7 (K beta^2). With VF12 the undeformed state carries a stress.", "quantifier": "all materials of the factory, all parameters, all strains, all numbers of terms, every correct eigenvalue solver", "why_tests_cant": "tests compare numbers at a few deformations with stored values; the relation of all parameters to the small strain moduli, through the branches for equal eigenvalues, is not visible there", "anchors": ["ikarus/finiteelements/mechanics/materials/hyperelastic/factory.hh:34-190", "ikarus/finiteelements/mechanics/materials/hyperelastic/interface.hh:73-300", "ikarus/finiteelements/mechanics/materials/hyperelastic/deviatoric/arrudaboyce.hh:60-190", "ikarus/finiteelements/mechanics/materials/hyperelastic/volumetric/volumetricfunctions.hh:30-384", "ikarus/finiteelements/mechanics/materials/hyperelastic/neohooke.hh:60-160", "ikarus/finiteelements/mechanics/materials/svk.hh:50-170"]}
{"id": "C107", "title": "Under small loads a nonlinear structure answers like the linear one, up to an error of second order", "statement": "A state of equilibrium of a nonlinear structure with a regular stiffness matrix, smooth elements and an exact linear solver lies on exactly one path of equilibrium, which is defined in a whole range of load factors around it and regular there. Let the structure consist of solid elements with large strains, a smooth material that is unstressed without strain, a volume load and tractions that grow from zero at a bounded rate, and prescribed displacements in proportion to the load factor; let its linear counterpart use the linear elastic skill with the tangent of the material without strain, the same points, loads and supports. If the supports suffice for the linear structure, there are a range of load factors and a tolerance such that load control of the nonlinear structure from the undeformed state to any load factor in this range, in any number of steps, with any smaller tolerance and enough iterations, succeeds, and each state it shows differs from the equilibrium of the linear structure at the same load factor l by at most C l^2 plus multiples of the tolerances (plus a multiple of the step for a step in which Newton made no iteration and supports move).", "quantifier": "all numbers of elements, nodes, dofs, load steps, all shapes, loads, supports, smooth materials, settings of the solver, both for reduced and for full matrices", "why_tests_cant": "tests compare a few structures at one load; that the nonlinear and the linear elements are consistent to first order for every mesh and that Newton finds this solution are statements about all small loads", "anchors": ["ikarus/finiteelements/mechanics/nonlinearelastic.hh:376-448", "ikarus/finiteelements/mechanics/linearelastic.hh:354-422", "ikarus/finiteelements/mechanics/loads/volume.hh:68-117", "ikarus/finiteelements/mechanics/loads/traction.hh:71-150", "ikarus/controlroutines/loadcontrol.inl:18-56", "ikarus/solver/nonlinearsolver/newtonraphson.hh:160-290"]}
{"id": "C108", "title": "The materials of the library fit the solid elements: consistent forces and tangents, and the linear solution for small loads", "statement": "A material whose stresses and moduli are the derivatives of its energy and stresses with respect to its own strain measure, with the factor it declares, gives a nonlinear solid element forces that are the gradient of the internal energy and a symmetric matrix that is their derivative with respect to the displacements, in space and with planeStrain(mat) in the plane, although the element speaks Green-Lagrange strains in Voigt notation, the reduced material completes and reduces them and the material may use another measure. In particular: for St. Venant-Kirchhoff material with every displacement, for Neo-Hooke material with every displacement whose deformation gradient is invertible at the integration points. Both materials are continuously differentiable there, stress-free without strain and have there exactly the matrix of linear elasticity with the same constants of Lame, in space and in plane strain. So load control of such solids from the undeformed state succeeds for small loads and shows the displacements of linear elasticity with these constants, up to an error of second order. With planeStress(mat, tol) the element keeps this contract as well.", "quantifier": "all constants of Lame, strains, displacements, integration points, meshes, loads, numbers of load steps", "why_tests_cant": "tests check one random strain per material against automatic differentiation, and elements with one material; the chain of Voigt factors, reduction and change of measure has to be right for every strain, and a stress that jumps at the tolerance of the reduction is only seen at that strain", "anchors": ["ikarus/finiteelements/mechanics/nonlinearelastic.hh:165-196", "ikarus/finiteelements/mechanics/materials/interface.hh:187-242", "ikarus/finiteelements/mechanics/materials/svk.hh:70-150", "ikarus/finiteelements/mechanics/materials/hyperelastic/neohooke.hh:78-160", "ikarus/finiteelements/mechanics/materials/vanishingstrain.hh:79-120", "ikarus/finiteelements/mechanics/materials/vanishingstress.hh:86-228"]}
{"id": "C109", "title": "Hyperelastic materials: stresses and moduli are derivatives along every motion, and elements with them are consistent", "statement": "At every right Cauchy-Green tensor with positive principal stretches that is admissible for the material (for Gent: within its limit), the stored energy of a Hyperelastic material built from the deviatoric and volumetric functions of the library has a rate along every differentiable motion, also where principal stretches coincide and the principal directions jump, and the stresses are half of that derivative; the stresses are differentiable with one tensor that has the minor and major symmetries. The moduli returned are this tensor whenever the principal stretches are equal or differ by more than the tolerance of the comparison in tangentModuli, and, as the full claim, for all principal stretches. An element for large strains with such a material, in space and with planeStrain(mat), has forces that are the gradient of its internal energy for every displacement with an invertible and admissible deformation gradient, and a symmetric matrix that is the derivative of the forces where the moduli are.", "quantifier": "all tensors, motions, parameters, eigenvalue solvers that return a spectral decomposition, displacements, integration points", "why_tests_cant": "tests compare a few deformations with automatic differentiation or finite differences; at coinciding stretches, in particular the undeformed state, the spectral decomposition cannot be differentiated, and the branch within the tolerance is hit by no generic deformation", "anchors": ["ikarus/finiteelements/mechanics/materials/hyperelastic/interface.hh:105-157", "ikarus/finiteelements/mechanics/materials/hyperelastic/interface.hh:176-253", "ikarus/finiteelements/mechanics/materials/hyperelastic/deviatoric/interface.hh:88-125", "ikarus/finiteelements/mechanics/nonlinearelastic.hh:165-196", "ikarus/finiteelements/mechanics/materials/interface.hh:187-242"]}
{"id": "C110", "title": "Fixing the dofs of the boundary constrains exactly those dofs of the boundary that the callback chooses", "statement": "fixBoundaryDOFs(f, treePath), called with a callback that sets the flag of its dof wherever a condition holds, leaves exactly these dofs constrained: those that were constrained before, and the dofs of the part of the basis at treePath that sit on a face on the boundary at a place where the condition holds. This is so for each of the three forms of callbacks (global index; local index and local view; these and the intersection). The order in which the grid lists elements and intersections makes no difference. Whatever a callback does to the flag of its own dof, and even if it throws, flags of dofs inside, and of other parts of the basis, are untouched. In Python a callable does what it does in C++, and one with an unsupported number of parameters is rejected without a change.", "quantifier": "for all grids, bases, tree paths, conditions, callbacks and flags", "why_tests_cant": "tests fix all of the boundary of a few structured grids and count the flags", "anchors": ["ikarus/utils/dirichletvalues.hh:110-144", "ikarus/python/dirichletvalues/dirichletvalues.hh:66-114", "ikarus/python/dirichletvalues/dirichletvalues.hh:187-191", "python/ikarus/dirichlet_values.py:11-36"]}
{"id": "C111", "title": "Interpolated fields are written with the components of the basis", "statement": "addInterpolation evaluates the part of the basis it is given in a container that has a place for each of its scalar components and no others, and declares that number of components: one for a scalar basis, n for a power of a scalar basis, and likewise for parts of composite bases.", "quantifier": "for all bases built from scalar ones by powers and composites, and all their parts", "why_tests_cant": "tests interpolate with two kinds of bases; whether the type functions fit is a matter of all nestings and paths", "anchors": ["ikarus/io/vtkcontainertypes.hh:21-85", "ikarus/io/vtkwriter.hh:125-137"]}
{"id": "C112", "title": "A decomposed hyperelastic material is its two parts together", "statement": "decomposeHyperelasticAndGetMaterialParameters(mat) gives a deviatoric material, a volumetric material with unit parameter and the volumetric parameter K such that energy, stresses and moduli of mat are those of the deviatoric part plus K times those of the volumetric part, for every strain for which mat answers; mat answers exactly if both parts do. The same holds for mat reduced by planeStrain, and, as the full claim, by planeStress.", "quantifier": "for all deviatoric and volumetric functions, parameters, tensors and eigenvalue solvers", "why_tests_cant": "tests compare sums at a few strains; that parts reduced on their own do not add up for plane stress shows only off the special strains", "anchors": ["ikarus/finiteelements/mechanics/materials/decomposehyperelastic.hh:45-71", "ikarus/finiteelements/mechanics/materials/hyperelastic/factory.hh:185-189", "ikarus/finiteelements/mechanics/displacementpressure.hh:185-191"]}
{"id": "C113", "title": "Elements with internal variables work with the number, place and values their user sees", "statement": "After any sequence of calls of setEASType / setAssumedStressType, bind (with and without an integration rule) and updateState on an element with enhanced strains or assumed stresses, an evaluation uses the number of internal variables that was accepted last, functions made for the element of the grid it is bound to, the rule given last, and internal variables that started from zero at the last accepted choice or binding; elements of the grid that do not support internal variables are refused; calls that throw change nothing.", "quantifier": "for all sequences of calls, strain functions, numbers of parameters, grids, rules and materials", "why_tests_cant": "tests bind an element once and choose a few numbers; rejected calls, moves between elements of the grid and their order have unboundedly many combinations", "anchors": ["ikarus/finiteelements/mechanics/enhancedassumedstrains.hh:195-256", "ikarus/finiteelements/mechanics/strainenhancements/easvariants.hh:88-168", "ikarus/finiteelements/mechanics/assumedstress.hh:176-234", "ikarus/finiteelements/mechanics/assumedstress.hh:368-374", "ikarus/finiteelements/mechanics/assumedstress/asvariants.hh:68-111", "ikarus/finiteelements/febase.hh:114-128"]}
{"id": "C114", "title": "Turning a structure turns its answer", "statement": "If the nodes of a structure are turned and moved in space, its loads and prescribed displacements are turned with it and the material has no preferred direction, then at turned displacements energies are the same and residuals and stiffness matrices are the turned ones; equilibrium states are the turned equilibrium states, Newton corrections are turned, and load control shows the turned displacements step by step. For elements of large deformation it is enough to turn the deformed shape: a superposed rotation of a deformed structure changes no energy and turns its forces, for any material.", "quantifier": "for all meshes, rotations and reflections, displacements, laws, loads and numbers of steps", "why_tests_cant": "tests put structures into one position; positions in space, deformed shapes and meshes have unboundedly many combinations", "anchors": ["ikarus/finiteelements/mechanics/nonlinearelastic.hh:150-447", "ikarus/finiteelements/mechanics/linearelastic.hh:130-420", "ikarus/finiteelements/mechanics/kirchhoffloveshell.hh:120-440", "ikarus/finiteelements/mechanics/truss.hh:90-230", "ikarus/finiteelements/mechanics/membranestrains.hh:30-105", "ikarus/finiteelements/mechanics/loads/volume.hh:60-140", "ikarus/finiteelements/mechanics/loads/traction.hh:60-168", "ikarus/finiteelements/mechanics/materials/svk.hh:60-160", "ikarus/finiteelements/mechanics/materials/hyperelastic/neohooke.hh:60-160"]}
{"id": "C115", "title": "Internal variables do not feel the orientation of an element", "statement": "If an element with enhanced strains, assumed stresses or pressures is turned in space together with its deformed shape, then with the same internal variables it adds the turned forces and the turned (condensed) stiffness matrix, and an update with the turned correction gives the same internal variables again; the modes of the enhanced strains and assumed stresses turn with the element. For elements of large deformation the same holds if only the deformed shape is turned.", "quantifier": "for all elements, rotations and reflections, displacements, internal variables, corrections, numbers of modes and integration points", "why_tests_cant": "tests compare elements in one position; the condensed matrices hide how the internal variables depend on the orientation", "anchors": ["ikarus/finiteelements/mechanics/enhancedassumedstrains.hh:225-375", "ikarus/finiteelements/mechanics/strainenhancements/easvariants/linearandglstrains.hh:30-330", "ikarus/finiteelements/mechanics/strainenhancements/easvariants/displacementgradient.hh:30-163", "ikarus/finiteelements/mechanics/strainenhancements/easfunctions/displacementgradient.hh:30-282", "ikarus/finiteelements/mechanics/strainenhancements/easfunctions/displacementgradienttransposed.hh:30-385", "ikarus/finiteelements/mechanics/assumedstress.hh:205-340", "ikarus/finiteelements/mechanics/assumedstress/asvariants/linearandpk2stress.hh:30-305", "ikarus/finiteelements/mechanics/displacementpressure.hh:460-600"]}
{"id": "C116", "title": "Materials that are special cases of each other agree", "statement": "A user may describe one material in several ways. Ogden's material with the exponents 2 and -2 of the deviatoric stretches answers as the one of Mooney and Rivlin, with the single exponent 2 as the one of Yeoh with one parameter, and with the single exponent 2 of the total stretches and VF3 as the compressible Neo-Hooke material: same energy, stresses and moduli at every deformation. The materials of Gent and of Arruda and Boyce tend to the one of Mooney and Rivlin as their limits of extensibility grow. The series of Arruda and Boyce is that of the eight-chain model, i.e. of the inverse Langevin function, up to its five terms. Special parameters of the volumetric functions give other volumetric functions.", "quantifier": "for all parameters, volumetric functions, symmetric deformation tensors with positive principal stretches, eigenvalue solvers and tolerances", "why_tests_cant": "tests compare each material with its own reference numbers at a few deformations; that two descriptions agree everywhere, and limits, cannot be sampled", "anchors": ["ikarus/finiteelements/mechanics/materials/hyperelastic/factory.hh:34-189", "ikarus/finiteelements/mechanics/materials/hyperelastic/neohooke.hh:78-142", "ikarus/finiteelements/mechanics/materials/hyperelastic/interface.hh:105-225", "ikarus/finiteelements/mechanics/materials/hyperelastic/deviatoric/ogden.hh:39-207", "ikarus/finiteelements/mechanics/materials/hyperelastic/deviatoric/invariantbased.hh:34-224", "ikarus/finiteelements/mechanics/materials/hyperelastic/deviatoric/gent.hh:52-178", "ikarus/finiteelements/mechanics/materials/hyperelastic/deviatoric/arrudaboyce.hh:53-189", "ikarus/finiteelements/mechanics/materials/hyperelastic/volumetric/volumetricfunctions.hh:25-380"]}
{"id": "C117", "title": "Answers do not depend on the units of length and force", "statement": "The library knows no units. If a user gives the same structure in other units - positions and prescribed displacements multiplied by the unit of length, moduli and stresses by the unit of stress, loads by that of force per length, area or volume, and the tolerance of the solver by the unit of force - then energies, forces and stiffness of elements and assembled quantities are those in the new units, and load control makes the same steps and iterations and shows the same displacements in the new units. The same holds for path following, and for plane stress.", "quantifier": "for all factors of length and force, trusses, linear and nonlinear solids, volume loads and tractions, all materials and parameters, meshes, constraints, states, load steps, linear solvers and options", "why_tests_cant": "tests run one problem with one set of numbers; thresholds with hidden units (1e-8, absolute tolerances, norms that add a force and a length) do not show there", "anchors": ["ikarus/finiteelements/mechanics/truss.hh:118-230", "ikarus/finiteelements/mechanics/linearelastic.hh:104-330", "ikarus/finiteelements/mechanics/nonlinearelastic.hh:105-374", "ikarus/finiteelements/mechanics/loads/volume.hh:44-140", "ikarus/finiteelements/mechanics/loads/traction.hh:42-166", "ikarus/finiteelements/mechanics/materials/vanishingstress.hh:150-256", "ikarus/finiteelements/mechanics/materials/hyperelastic/interface.hh:105-225", "ikarus/assembler/simpleassemblers.inl:15-170", "ikarus/solver/nonlinearsolver/newtonraphson.hh:200-260", "ikarus/solver/nonlinearsolver/newtonraphsonwithscalarsubsidiaryfunction.hh:217-308", "ikarus/controlroutines/loadcontrol.inl:14-56", "ikarus/controlroutines/pathfollowingfunctions.hh:103-115"]}
{"id": "C118", "title": "Linear structures superpose, are reciprocal, and get stiffer with supports, elements and material", "statement": "For structures of linear elastic elements the displacements under two sets of loads and prescribed displacements together are, at every load step of load control, the sum of the displacements under each set alone, whatever options, settings and linear solvers the three runs use. The loads of one state do the same work on the displacements of another as the other way round (with the forces at the supports, if these move). With fixed supports the energy stored in the elements is half of the work of the loads. More supports, more elements or a stiffer material never increase that work. Whether supports suffice does not depend on the loads. If the loads are proportional to the load factor, so are the displacements at every load step, whatever the steps and the start.", "quantifier": "for all linear elastic meshes with symmetric positive semidefinite moduli, all volume loads and tractions, supports, prescribed displacements, load factors, load steps, options and linear solvers", "why_tests_cant": "a test compares one load case with one number; superposition, reciprocity and monotonicity relate the answers of several analyses for all loads and meshes", "anchors": ["ikarus/finiteelements/mechanics/linearelastic.hh:104-330", "ikarus/finiteelements/mechanics/loads/volume.hh:44-140", "ikarus/finiteelements/mechanics/loads/traction.hh:42-166", "ikarus/finiteelements/mixin.hh:60-330", "ikarus/assembler/simpleassemblers.inl:15-170", "ikarus/solver/nonlinearsolver/newtonraphson.hh:200-260", "ikarus/controlroutines/loadcontrol.inl:14-56", "ikarus/utils/dirichletvalues.hh:60-300"]}
{"id": "C119", "title": "Answers do not depend on the numbering of the dofs nor on the order of the elements", "statement": "If the dofs of a structure are numbered differently (flat lexicographic instead of flat interleaved, say) and its finite elements are passed to the assembler in another order, then energies are the same, raw vectors and matrices are the renumbered ones, the entries of reduced vectors and matrices are found at the reduced indices of the renumbered free dofs, one has a value exactly if the other has one, the equilibria are the renumbered equilibria, and load control with Newton's method makes the same solves with the same iteration counts and norms of residuals, ends alike and shows the same load factors and the renumbered displacements.", "quantifier": "for all structures, renumberings, orders of elements, load factors, displacements, options, step counts and exact linear solvers; for load control regular matrices", "why_tests_cant": "a test runs one basis and one grid traversal; that no code path depends on the numbers themselves concerns all permutations of dofs and elements", "anchors": ["ikarus/finiteelements/fehelper.hh:27-46", "ikarus/finiteelements/fehelper.hh:127-197", "ikarus/assembler/simpleassemblers.inl:15-170", "ikarus/assembler/simpleassemblers.inl:285-345", "ikarus/solver/nonlinearsolver/newtonraphson.hh:200-260", "ikarus/controlroutines/loadcontrol.inl:14-56", "ikarus/utils/dirichletvalues.hh:60-300"]}
{"id": "C120", "title": "Symmetric structures deform symmetrically", "statement": "If a reflection or rotation together with an exchange of nodes maps the elements, supports, prescribed displacements and loads of a structure to themselves, then energies at image states are equal, residuals and stiffness matrices at image states are images of each other, and load control from a symmetric state shows only symmetric displacements, also through limit points and snap-through, as long as the stiffness is regular at symmetric states. Runs from states that are images of each other take the same iterations with the same norms and show images of each other. Linear structures show symmetric displacements from any start.", "quantifier": "for all structures, symmetries, meshes, materials, load factors, step counts, settings, options and exact linear solvers", "why_tests_cant": "users compute a half or quarter of a symmetric structure and trust that the whole one would answer the same; a test compares one structure at a few load steps, an assembly or solve that favours one side would show only in others", "anchors": ["ikarus/controlroutines/loadcontrol.inl:14-56", "ikarus/solver/nonlinearsolver/newtonraphson.hh:200-260", "ikarus/assembler/simpleassemblers.inl:15-170", "ikarus/assembler/simpleassemblers.inl:285-345", "ikarus/utils/dirichletvalues.hh:60-300", "ikarus/finiteelements/mechanics/truss.hh:118-230", "ikarus/finiteelements/mechanics/linearelastic.hh:104-330"]}
{"id": "C121", "title": "Numbers that Python and C++ share through Scalar and ScalarRef", "statement": "In Python an expression of wrapped numbers stands for the number it denotes and changes nothing; an in-place operation on a wrapped number changes exactly that number, for every name of it, to the sum, difference, product or quotient; Scalar(x) is an independent copy. In-place operations take numbers as well as wrapped numbers. A scalar callback of an assembler manipulator written in Python can give the energy any value through its last argument.", "quantifier": "for all programs of assignments and in-place operations, all states of names and numbers, all callbacks", "why_tests_cant": "the test scales one energy in one callback; aliasing and what no program can reach concern all programs", "anchors": ["ikarus/python/finiteelements/scalarwrapper.hh:25-136", "python/ikarus/_ikarus.cc:34-70", "ikarus/python/assembler/flatassemblermanipulator.hh:26-41", "ikarus/python/assembler/flatassemblermanipulator.hh:78-112"]}
{"id": "C122", "title": "An assembler in Python does what the same calls do in C++, and its results stay", "statement": "Every call of bind, matrix, vector and scalar that C++ accepts is accepted by Python and does the same: after any program the bound values are those of the same calls in C++, and each request returns what the assembler computes for the contents the requirement has then, and the affordance and option given or bound last. Results that Python holds are not changed by later calls or changes of requirements.", "quantifier": "for all programs of calls with any arguments, requirement contents and assemblers", "why_tests_cant": "tests call each overload once with valid arguments; overload resolution and aliasing of results concern all sequences of calls", "anchors": ["ikarus/python/assembler/flatassembler.hh:62-111", "ikarus/assembler/interface.hh:150-180", "ikarus/assembler/interface.hh:300-312", "ikarus/assembler/interface.hh:353-389", "ikarus/assembler/interface.hh:428-462", "python/ikarus/_ikarus.cc:78-97"]}
{"id": "C123", "title": "Path following does not depend on the position, the numbering or the linear solver, and keeps symmetry", "statement": "Path following with arc length or load control, option Full, of a structure whose supports do not move: if the structure is turned or reflected with its loads, the same solves are made with the same numbers of iterations and the same success, and the same load factors and the turned displacements are shown. The same holds with the renumbered displacements for another numbering of the dofs and another order of the elements, and with the same displacements for other linear solvers that solve exactly. A symmetric structure with symmetric loads stays on symmetric states. Provided that no singular matrix is factorized on the way.", "quantifier": "for all structures, elements, numbers of steps, step sizes, settings, start states and step size adaptions that read only numbers and lengths", "why_tests_cant": "a test runs one structure in one position with one numbering and one solver; round-off hides which differences are due to the algorithm", "anchors": ["ikarus/controlroutines/pathfollowing.inl:28-77", "ikarus/controlroutines/pathfollowingfunctions.hh:88-200", "ikarus/controlroutines/pathfollowingfunctions.hh:217-280", "ikarus/solver/nonlinearsolver/newtonraphsonwithscalarsubsidiaryfunction.hh:207-316"]}
{"id": "C124", "title": "Results do not depend on the order of elements, of nodes within elements and of integration points", "statement": "If the elements of a mesh are listed in another order, the nodes within elements are listed in another order with their numbers and coordinates, or the integration points are visited in another order, then all assembled energies, vectors and matrices are the same for every option, and so are the results of load control with Newton's method, of load control with the trust region method and of path following, also where these fail. The ends of a truss may be exchanged; the corners of a quadrilateral may be listed from any of the four corners and in either sense that the symmetries of the square allow, with any quadrature rule that has these symmetries.", "quantifier": "for all meshes, numbers of elements, permutations, materials, loads, boundary conditions, options, settings, linear solvers and start states", "why_tests_cant": "a test assembles one mesh whose elements come in the order and orientation the grid reader gives", "anchors": ["ikarus/assembler/simpleassemblers.inl:18-375", "ikarus/finiteelements/mechanics/linearelastic.hh:354-420", "ikarus/finiteelements/mechanics/nonlinearelastic.hh:376-446", "ikarus/finiteelements/mechanics/truss.hh:200-230", "ikarus/finiteelements/mechanics/loads/volume.hh:40-120", "ikarus/finiteelements/fehelper.hh:20-80"]}
